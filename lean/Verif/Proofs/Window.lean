import Verif.Proofs.AofLoad
import Verif.Spec.Log
/-!
Loading a log of any length: the buffer of the reader and the pieces of the log. What is left of the file is a list `s`; the buffer holds the first
`m` bytes of it.
-/
set_option linter.unusedSectionVars false
set_option linter.unusedSimpArgs false
set_option linter.unusedVariables false
namespace Metis.Aof
open Metis.Spec

/-- The reader when `s` is left and the buffer holds `m` bytes of it. -/
def at_ (s : Bytes) (m : Nat) : Rd := ⟨s.take m, s.drop m⟩

theorem dec_length {n : Nat} (h : n < 2 ^ 63) : (dec n).length ≤ 19 := by
  simp only [dec, List.length_map]
  exact (Nat.length_toDigits_le_iff (by decide) (by decide)).2 (by omega)

theorem line_length (c : UInt8) (n : Nat) : (line c n).length = (dec n).length + 3 := by simp [line, CRLF]

/-! ### A line -/

theorem cut_append {l r a b : Bytes} (h : cut l = some (a, b)) : cut (l ++ r) = some (a, b ++ r) := by
  induction l generalizing a b with
  | nil => cases h
  | cons c l ih =>
    simp only [cut, List.cons_append] at h ⊢
    split at h
    · cases h; simp [*]
    · next hc =>
      rw [if_neg hc]
      cases h2 : cut l with
      | none => rw [h2] at h; cases h
      | some p =>
        rw [h2] at h; cases h
        rw [ih h2]; rfl

theorem cut_none_append {l r : Bytes} (h : cut l = none) : cut (l ++ r) = (cut r).map (fun p => (l ++ p.1, p.2)) := by
  induction l with
  | nil => simp only [List.nil_append]; cases cut r <;> rfl
  | cons c l ih =>
    simp only [cut, List.cons_append] at h ⊢
    split at h
    · cases h
    · next hc =>
      rw [if_neg hc]
      cases h2 : cut l with
      | some p => rw [h2] at h; cases h
      | none => rw [ih h2]; cases cut r <;> rfl

/-- `ReadBytes` finds the first line of what is left, however long it is. -/
theorem readBytes_cut {cap : Nat} (h0 : 0 < cap) : ∀ (k : Nat) (acc b f l rest : Bytes), cut (b ++ f) = some (l, rest) → b.length ≤ cap →
    2 * f.length + (if b.length ≥ cap then 2 else 1) ≤ k → ∃ r, readBytes cap k acc ⟨b, f⟩ = some (acc ++ l, r)
  | 0, acc, b, f, l, rest, _, _, hk => by split at hk <;> omega
  | k + 1, acc, b, f, l, rest, h, hb, hk => by
    simp only [readBytes]
    cases hc : cut b with
    | some p =>
      rw [cut_append (a := p.1) (b := p.2) hc] at h
      cases h
      exact ⟨_, rfl⟩
    | none =>
      rw [cut_none_append hc] at h
      by_cases hbl : b.length ≥ cap
      · rw [if_pos hbl] at hk
        simp only [if_pos hbl]
        cases hf : cut f with
        | none => rw [hf] at h; cases h
        | some p =>
          rw [hf] at h; cases h
          obtain ⟨r, hr⟩ := readBytes_cut h0 k (acc ++ b) [] f p.1 p.2 (by simpa using hf) (by simp)
            (by rw [if_neg (by rw [List.length_nil]; omega)]; omega)
          exact ⟨r, by rw [hr, List.append_assoc]⟩
      · rw [if_neg hbl] at hk
        simp only [if_neg hbl]
        have hf : f ≠ [] := by rintro rfl; simp [cut] at h
        rw [if_neg hf]
        have hpos := List.length_pos_iff.2 hf
        have hcat : b ++ f.take (cap - b.length) ++ f.drop (cap - b.length) = b ++ f := by rw [List.append_assoc, List.take_append_drop]
        refine readBytes_cut h0 k acc _ _ l rest ?_ ?_ ?_
        · rw [hcat, cut_none_append hc]; exact h
        · simp; omega
        · simp only [List.length_drop]; split <;> omega

/-- `readLine` gives the first line of what is left, however long it is. -/
theorem readLine_cut {cap m : Nat} (h0 : 0 < cap) (hm : m ≤ cap) {s l rest : Bytes} (h : cut s = some (l, rest)) :
    ∃ r, readLine cap (at_ s m) = some (trimRight l, r) := by
  obtain ⟨r, hr⟩ := readBytes_cut h0 (2 * (s.drop m).length + 2) [] (s.take m) (s.drop m) l rest (by rw [List.take_append_drop]; exact h)
    (by simp; omega) (by split <;> omega)
  exact ⟨r, by simp only [readLine, at_, hr, Option.bind_eq_bind, Option.bind_some, List.nil_append]⟩

theorem take_app {a b : Bytes} {m : Nat} (h : a.length ≤ m) : (a ++ b).take m = a ++ b.take (m - a.length) := by
  rw [List.take_append, List.take_of_length_le h]

theorem drop_app {a b : Bytes} {m : Nat} (h : a.length ≤ m) : (a ++ b).drop m = b.drop (m - a.length) := by
  rw [List.drop_append, List.drop_eq_nil_of_le h, List.nil_append]

/-- A header line: in the buffer, or after one read. -/
theorem readLine_at {cap m : Nat} (c : UInt8) (hc : c ≠ 10) {n : Nat} (hn : n < 2 ^ 63) (hcap : 22 ≤ cap) (hm : m ≤ cap) (s : Bytes) :
    readLine cap (at_ (line c n ++ s) m) = some (c :: dec n,
      at_ s (if (dec n).length + 3 ≤ m then m - ((dec n).length + 3) else cap - ((dec n).length + 3))) := by
  have hd := dec_length hn
  have hL := line_length c n
  by_cases h : (dec n).length + 3 ≤ m
  · rw [if_pos h, at_, take_app (by omega), drop_app (by omega), readLine_line c hc, hL]; rfl
  · rw [if_neg h]
    have hlen : ((line c n ++ s).take m).length = m := by rw [List.length_take, List.length_append]; omega
    have hnc : cut ((line c n ++ s).take m) = none := by
      apply cut_none
      rw [List.take_append, show m - (line c n).length = 0 by omega, List.take_zero, List.append_nil]
      intro x hx
      have e : line c n = (c :: dec n ++ [13]) ++ [10] := by simp [line, CRLF]
      have e0 : (c :: dec n ++ [13]).length = (dec n).length + 2 := by simp
      rw [e, List.take_append, e0, show m - ((dec n).length + 2) = 0 by omega, List.take_zero, List.append_nil] at hx
      have := List.mem_of_mem_take hx
      simp only [List.cons_append, List.mem_cons, List.mem_append, List.not_mem_nil, or_false] at this
      rcases this with rfl | this | rfl
      · exact hc
      · exact (dec_ne_lf n x this).1
      · decide
    have hdrop : (line c n ++ s).drop m ≠ [] := by
      intro he
      have := congrArg List.length he
      simp only [List.length_drop, List.length_append, List.length_nil] at this
      omega
    have hfill : fill cap (at_ (line c n ++ s) m) = at_ (line c n ++ s) cap := by
      simp only [fill, at_, hlen, Rd.mk.injEq, List.drop_drop, show m + (cap - m) = cap by omega, and_true]
      have : (line c n ++ s).take cap = ((line c n ++ s).take (m + (cap - m))) := by rw [show m + (cap - m) = cap by omega]
      rw [this, List.take_add]
    have hsame : readLine cap (at_ (line c n ++ s) m) = readLine cap (at_ (line c n ++ s) cap) := by
      have hcut : cut ((line c n ++ s).take cap) = some (line c n, s.take (cap - (line c n).length)) := by
        rw [take_app (by omega), cut_line c hc]
      simp only [readLine]
      have h1 : ∀ k, readBytes cap (k + 1) [] (at_ (line c n ++ s) cap) = some (line c n, ⟨s.take (cap - (line c n).length), (line c n ++ s).drop cap⟩) := by
        intro k
        simp only [readBytes, at_, hcut, List.nil_append]
      have h2 : ∀ k, readBytes cap (k + 2) [] (at_ (line c n ++ s) m) = readBytes cap (k + 1) [] (at_ (line c n ++ s) cap) := by
        intro k
        rw [← hfill]
        conv_lhs => unfold readBytes
        have hb : cut (at_ (line c n ++ s) m).buf = none := hnc
        have hbl : ¬ (at_ (line c n ++ s) m).buf.length ≥ cap := by
          have : (at_ (line c n ++ s) m).buf.length = m := hlen
          omega
        have hf : ¬ (at_ (line c n ++ s) m).file = [] := hdrop
        simp only [hb, if_neg hbl, if_neg hf]
      rw [h2, h1, h1]
    rw [hsame, at_, take_app (by omega), drop_app (by omega), readLine_line c hc, hL]; rfl

/-! ### Data -/

theorem read_at {cap m : Nat} (h0 : 0 < cap) (hm : m ≤ cap) (a s : Bytes) (h : a.length ≤ m ∨ m = 0) :
    read cap a.length (at_ (a ++ s) m) = some (a, at_ s (if a.length ≤ m then m - a.length else cap - a.length)) := by
  by_cases hn : a.length = 0
  · obtain rfl := List.length_eq_zero_iff.1 hn
    simp [read, at_]
  · by_cases hl : a.length ≤ m
    · rw [if_pos hl, at_, take_app hl, drop_app hl, read_data]; rfl
    · rw [if_neg hl]
      obtain rfl : m = 0 := by omega
      simp only [at_, List.take_zero, List.drop_zero]
      have hne : a ++ s ≠ [] := fun he => hn (by rw [(List.append_eq_nil_iff.1 he).1]; rfl)
      unfold read
      rw [if_neg hn, if_neg (by simp), if_neg hne]
      by_cases hcap : a.length ≥ cap
      · rw [if_pos hcap]
        simp [show cap - a.length = 0 by omega]
      · rw [if_neg hcap]
        simp only [fill, List.length_nil, Nat.sub_zero, List.nil_append, take_app (Nat.le_of_not_le hcap), drop_app (Nat.le_of_not_le hcap)]
        simp

/-- Data behind the end of the buffer are not read. -/
theorem read_short {cap m : Nat} (a s : Bytes) (h : m < a.length) (h1 : 0 < m) :
    read cap a.length (at_ (a ++ s) m) = some (a.take m, at_ (a.drop m ++ s) 0) := by
  have e : (a ++ s).take m = a.take m := by rw [List.take_append, show m - a.length = 0 by omega]; simp
  have e2 : (a ++ s).drop m = a.drop m ++ s := by rw [List.drop_append, show m - a.length = 0 by omega]; simp
  have hlen : (a.take m).length = m := by rw [List.length_take]; omega
  rw [at_, e, e2, read_buf (by omega) (by intro he; rw [he] at hlen; simp at hlen; omega), List.take_of_length_le (by omega), List.drop_eq_nil_of_le (by omega)]
  simp [at_]

/-- The next line is no header. -/
def Stuck (cap : Nat) (r : Rd) : Prop := ∃ l r', readLine cap r = some (l, r') ∧ lengthOf 36 l = none ∧ lengthOf 42 l = none

theorem stuck_of {cap m : Nat} (h0 : 0 < cap) (hm : m ≤ cap) {s l rest : Bytes} (h : cut s = some (l, rest))
    (hl : ∀ x, (trimRight l).head? = some x → x ≠ 36 ∧ x ≠ 42) : Stuck cap (at_ s m) := by
  obtain ⟨r, hr⟩ := readLine_cut h0 hm h
  refine ⟨_, r, hr, ?_, ?_⟩
  · cases ht : trimRight l with
    | nil => rfl
    | cons x xs => simp only [lengthOf]; rw [if_pos (hl x (by rw [ht]; rfl)).1]
  · cases ht : trimRight l with
    | nil => rfl
    | cons x xs => simp only [lengthOf]; rw [if_pos (hl x (by rw [ht]; rfl)).2]

theorem trim_head {l : Bytes} {x : UInt8} (h : (trimRight l).head? = some x) : l.head? = some x := by
  have hp : trimRight l <+: l := by
    rw [trimRight, ← List.reverse_suffix, List.reverse_reverse]
    exact List.dropWhile_suffix _
  obtain ⟨t, ht⟩ := hp
  cases hl : trimRight l with
  | nil => rw [hl] at h; cases h
  | cons y ys => rw [hl] at h ht; rw [← ht]; simpa using h

/-- What is left of data that consist of zeros, without two bytes: no header follows. -/
theorem stuck_zeros {cap m k : Nat} (h0 : 0 < cap) (hm : m ≤ cap) (hk : 1 ≤ k) (s : Bytes) :
    Stuck cap (at_ ((List.replicate k (0 : UInt8) ++ (CRLF ++ s)).drop 2) m) := by
  match k, hk with
  | 1, _ =>
    refine stuck_of h0 hm (l := [10]) (rest := s) (by simp [CRLF, cut]) ?_
    intro x hx; simp [trimRight] at hx
  | 2, _ =>
    refine stuck_of h0 hm (l := [13, 10]) (rest := s) (by simp [CRLF, cut, List.replicate]) ?_
    intro x hx; simp [trimRight] at hx
  | k + 3, _ =>
    have e : (List.replicate (k + 3) (0 : UInt8) ++ (CRLF ++ s)).drop 2 = (List.replicate (k + 1) 0 ++ [13]) ++ 10 :: s := by
      simp [List.replicate_succ, CRLF]
    rw [e]
    refine stuck_of h0 hm (cut_some (l := List.replicate (k + 1) 0 ++ [13]) (r := s) ?_) ?_
    · intro c hc
      rcases List.mem_append.1 hc with hc | hc
      · rw [(List.mem_replicate.1 hc).2]; decide
      · rw [List.mem_singleton] at hc; rw [hc]; decide
    · intro x hx
      have := trim_head hx
      simp [List.replicate_succ] at this
      subst this; decide

/-- A line feed alone. -/
theorem stuck_lf {cap m : Nat} (h0 : 0 < cap) (hm : m ≤ cap) (s : Bytes) : Stuck cap (at_ (10 :: s) m) := by
  refine stuck_of h0 hm (l := [10]) (rest := s) (by simp [cut]) ?_
  intro x hx; simp [trimRight] at hx

/-! ### Arguments -/

/-- The pieces of an argument. -/
def pieceArg (a : Bytes) : List Piece := [header a.length, .data a.length, .data 2]

theorem window_append {cap : Nat} : ∀ (ps qs : List Piece) (m : Nat), window cap m (ps ++ qs) = (window cap m ps).bind (fun m' => window cap m' qs)
  | [], qs, m => rfl
  | .line n :: ps, qs, m => by
    simp only [List.cons_append, window]
    split <;> exact window_append ps qs _
  | .data n :: ps, qs, m => by
    simp only [List.cons_append, window]
    split
    · exact window_append ps qs _
    · split
      · exact window_append ps qs _
      · rfl

theorem window_le {cap : Nat} : ∀ (ps : List Piece) {m m' : Nat}, m ≤ cap → window cap m ps = some m' → m' ≤ cap
  | [], m, m', hm, h => by cases h; exact hm
  | .line n :: ps, m, m', hm, h => by
    simp only [window] at h
    split at h
    · exact window_le ps (by omega) h
    · exact window_le ps (by omega) h
  | .data n :: ps, m, m', hm, h => by
    simp only [window] at h
    split at h
    · exact window_le ps (by omega) h
    · split at h
      · exact window_le ps (by omega) h
      · cases h

/-- One argument. -/
theorem readArg_at {cap m : Nat} (hcap : 22 ≤ cap) (hm : m ≤ cap) {a : Bytes} (ha : a.length < 2 ^ 63) (s : Bytes) :
    (∀ m', window cap m (pieceArg a) = some m' → readArg cap (at_ (Spec.bulk a ++ s) m) = some (a, at_ s m')) ∧
    (window cap m (pieceArg a) = none → ∃ b r, readArg cap (at_ (Spec.bulk a ++ s) m) = some (b, r) ∧ (b = a → Stuck cap r)) := by
  have e : Spec.bulk a ++ s = line 36 a.length ++ (a ++ (CRLF ++ s)) := by rw [bulk_line]; simp
  rw [e]
  have h1 := readLine_at (m := m) 36 (by decide) ha hcap hm (a ++ (CRLF ++ s))
  have hm1 : (if (dec a.length).length + 3 ≤ m then m - ((dec a.length).length + 3) else cap - ((dec a.length).length + 3)) ≤ cap := by split <;> omega
  have hw : ∀ ps, window cap m (header a.length :: ps) =
      window cap (if (dec a.length).length + 3 ≤ m then m - ((dec a.length).length + 3) else cap - ((dec a.length).length + 3)) ps := by
    intro ps
    simp only [header, window]
    split <;> rfl
  simp only [pieceArg, hw]
  generalize (if (dec a.length).length + 3 ≤ m then m - ((dec a.length).length + 3) else cap - ((dec a.length).length + 3)) = m1 at *
  simp only [readArg, h1, Option.bind_eq_bind, Option.bind_some, lengthOf_line 36 ha]
  by_cases hok : a.length ≤ m1 ∨ m1 = 0
  · have h2 := read_at (by omega) hm1 a (CRLF ++ s) hok
    have hm2 : (if a.length ≤ m1 then m1 - a.length else cap - a.length) ≤ cap := by split <;> omega
    have hw2 : window cap m1 [.data a.length, .data 2] = window cap (if a.length ≤ m1 then m1 - a.length else cap - a.length) [.data 2] := by
      by_cases h : a.length ≤ m1
      · simp only [window, if_pos h]
      · have h0 : m1 = 0 := by omega
        simp only [window, if_neg h, if_pos h0]
    rw [hw2]
    generalize (if a.length ≤ m1 then m1 - a.length else cap - a.length) = m2 at *
    simp only [h2, Option.bind_some, Nat.sub_self, List.replicate_zero, List.append_nil]
    by_cases hok2 : 2 ≤ m2 ∨ m2 = 0
    · have h3 := read_at (by omega) hm2 CRLF s hok2
      have e3 : CRLF.length = 2 := rfl
      rw [e3] at h3
      have hw3 : window cap m2 [.data 2] = some (if 2 ≤ m2 then m2 - 2 else cap - 2) := by
        by_cases h : 2 ≤ m2
        · simp only [window, if_pos h]
        · have h0 : m2 = 0 := by omega
          simp only [window, if_neg h, if_pos h0]
      rw [hw3]
      refine ⟨fun m' hm' => ?_, fun h => by cases h⟩
      cases hm'
      simp only [h3, Option.bind_some]
    · obtain rfl : m2 = 1 := by omega
      have h3 : read cap 2 (at_ (CRLF ++ s) 1) = some ([13], at_ ([10] ++ s) 0) := read_short CRLF s (by decide) (by decide)
      refine ⟨fun m' hm' => (by simp [window] at hm'), fun _ => ?_⟩
      exact ⟨a, at_ ([10] ++ s) 0, by simp only [h3, Option.bind_some], fun _ => stuck_lf (by omega) (by omega) s⟩
  · have hlt : m1 < a.length := by omega
    have hpos : 0 < m1 := by omega
    have h2 := read_short (cap := cap) a (CRLF ++ s) hlt hpos
    have hw2 : window cap m1 [.data a.length, .data 2] = none := by
      simp only [window, if_neg (show ¬ a.length ≤ m1 by omega), if_neg (show ¬ m1 = 0 by omega)]
    rw [hw2]
    refine ⟨fun m' hm' => (by cases hm'), fun _ => ?_⟩
    -- two more bytes are thrown away
    have hrest : ∃ r, read cap 2 (at_ (a.drop m1 ++ (CRLF ++ s)) 0) = some r ∧ r.2 = at_ ((a.drop m1 ++ (CRLF ++ s)).drop 2) (cap - 2) := by
      have hl2 : ((a.drop m1 ++ (CRLF ++ s)).take 2).length = 2 := by
        rw [List.length_take, List.length_append, List.length_append, List.length_drop]
        have : CRLF.length = 2 := rfl
        omega
      have := read_at (cap := cap) (m := 0) (by omega) (by omega) ((a.drop m1 ++ (CRLF ++ s)).take 2) ((a.drop m1 ++ (CRLF ++ s)).drop 2) (Or.inr rfl)
      rw [hl2, List.take_append_drop] at this
      exact ⟨_, this, rfl⟩
    obtain ⟨⟨d2, r2⟩, h3, hr2⟩ := hrest
    simp only at hr2
    refine ⟨a.take m1 ++ List.replicate (a.length - (a.take m1).length) 0, r2, by simp only [h2, h3, Option.bind_some], fun hb => ?_⟩
    have hlen : (a.take m1).length = m1 := by rw [List.length_take]; omega
    have hz : a.drop m1 = List.replicate (a.length - m1) 0 := by
      conv_lhs => rw [← hb]
      rw [hlen, List.drop_append, hlen, Nat.sub_self, List.drop_zero, List.drop_eq_nil_of_le (by omega), List.nil_append]
    rw [hr2, hz]
    exact stuck_zeros (by omega) (by omega) (by omega) s

/-- All arguments of a record. -/
theorem readArgs_at {cap : Nat} (hcap : 22 ≤ cap) : ∀ (args : List Bytes) {m : Nat}, m ≤ cap → (∀ a ∈ args, a.length < 2 ^ 63) → ∀ (s : Bytes),
    (∀ m', window cap m (args.flatMap pieceArg) = some m' → readArgs cap args.length (at_ ((args.map Spec.bulk).flatten ++ s) m) = some (args, at_ s m')) ∧
    (window cap m (args.flatMap pieceArg) = none → ∀ r, readArgs cap args.length (at_ ((args.map Spec.bulk).flatten ++ s) m) = some (args, r) → Stuck cap r)
  | [], m, hm, _, s => ⟨fun m' h => by cases h; rfl, fun h => by cases h⟩
  | a :: as, m, hm, ha, s => by
    have e : ((a :: as).map Spec.bulk).flatten ++ s = Spec.bulk a ++ ((as.map Spec.bulk).flatten ++ s) := by simp
    have ew : window cap m ((a :: as).flatMap pieceArg) = (window cap m (pieceArg a)).bind (fun m' => window cap m' (as.flatMap pieceArg)) := by
      rw [List.flatMap_cons, window_append]
    rw [e, ew]
    obtain ⟨h1, h2⟩ := readArg_at hcap hm (ha a (by simp)) ((as.map Spec.bulk).flatten ++ s)
    cases hw : window cap m (pieceArg a) with
    | some m1 =>
      obtain ⟨i1, i2⟩ := readArgs_at hcap as (window_le _ hm hw) (fun x hx => ha x (by simp [hx])) s
      simp only [Option.bind_some, List.length_cons, readArgs, h1 m1 hw, Option.bind_eq_bind]
      refine ⟨fun m' h => ?_, fun h r hr => ?_⟩
      · simp only [i1 m' h, Option.bind_some]
      · cases hx : readArgs cap as.length (at_ ((as.map Spec.bulk).flatten ++ s) m1) with
        | none => rw [hx] at hr; cases hr
        | some p =>
          obtain ⟨bs, r'⟩ := p
          rw [hx] at hr
          simp only [Option.bind_some, Option.some.injEq, Prod.mk.injEq, List.cons.injEq, true_and] at hr
          obtain ⟨rfl, rfl⟩ := hr
          exact i2 h _ hx
    | none =>
      obtain ⟨b, r1, h3, h4⟩ := h2 hw
      simp only [Option.bind_none, List.length_cons, readArgs, h3, Option.bind_eq_bind, Option.bind_some]
      refine ⟨fun m' h => (by cases h), fun _ r hr => ?_⟩
      cases as with
      | nil =>
        simp only [List.length_nil, readArgs, Option.bind_some, Option.some.injEq, Prod.mk.injEq, List.cons.injEq, and_true] at hr
        obtain ⟨rfl, rfl⟩ := hr
        exact h4 rfl
      | cons a2 as =>
        exfalso
        cases hx : readArgs cap (a2 :: as).length r1 with
        | none => rw [hx] at hr; cases hr
        | some p =>
          rw [hx] at hr
          simp only [Option.bind_some, Option.some.injEq, Prod.mk.injEq, List.cons.injEq] at hr
          obtain ⟨l, r', q1, q2, _⟩ := h4 hr.1.1
          simp only [List.length_cons, readArgs, readArg, q1, q2, Option.bind_eq_bind, Option.bind_some, Option.bind_none] at hx
          cases hx

/-! ### Records -/

theorem pieces_eq (r : List Bytes) : pieces r = header r.length :: r.flatMap pieceArg := rfl

theorem stuck_records {cap k : Nat} {r : Rd} (h : Stuck cap r) : records cap (k + 1) r = none := by
  obtain ⟨l, r', h1, _, h3⟩ := h
  simp only [records, h1, h3, Option.bind_eq_bind, Option.bind_none]

theorem at_nil (m : Nat) : at_ [] m = ⟨[], []⟩ := by simp [at_]

/-- All records. -/
theorem records_at {cap : Nat} (hcap : 22 ≤ cap) : ∀ (recs : List (List Bytes)) {m k : Nat}, m ≤ cap → recs.length < k → (∀ r ∈ recs, r ≠ [] ∧ Sized r) →
    (records cap k (at_ (recs.map request).flatten m) = some recs ↔ window cap m (recs.flatMap pieces) ≠ none)
  | [], m, k, hm, hk, _ => by
    simp only [List.map_nil, List.flatten_nil, at_nil, List.flatMap_nil, window, ne_eq, reduceCtorEq, not_false_eq_true, iff_true]
    exact records_eof (by omega) rfl
  | r :: recs, m, 0, hm, hk, _ => by simp at hk
  | r :: recs, m, k + 1, hm, hk, hs => by
    obtain ⟨hr, hsz, hsa⟩ := hs r (by simp)
    have e : ((r :: recs).map request).flatten = line 42 r.length ++ ((r.map Spec.bulk).flatten ++ (recs.map request).flatten) := by
      simp [request_line]
    have h1 := readLine_at (m := m) 42 (by decide) hsz hcap hm ((r.map Spec.bulk).flatten ++ (recs.map request).flatten)
    have hm1 : (if (dec r.length).length + 3 ≤ m then m - ((dec r.length).length + 3) else cap - ((dec r.length).length + 3)) ≤ cap := by split <;> omega
    have hw : ∀ ps, window cap m (header r.length :: ps) =
        window cap (if (dec r.length).length + 3 ≤ m then m - ((dec r.length).length + 3) else cap - ((dec r.length).length + 3)) ps := by
      intro ps
      simp only [header, window]
      split <;> rfl
    rw [e, List.flatMap_cons, pieces_eq, List.cons_append, hw, window_append]
    generalize (if (dec r.length).length + 3 ≤ m then m - ((dec r.length).length + 3) else cap - ((dec r.length).length + 3)) = m1 at *
    obtain ⟨i1, i2⟩ := readArgs_at hcap r hm1 hsa (recs.map request).flatten
    simp only [records, h1, lengthOf_line 42 hsz, Option.bind_eq_bind, Option.bind_some]
    have hk : recs.length < k := by simpa using hk
    cases hx : window cap m1 (r.flatMap pieceArg) with
    | some m2 =>
      have ih := records_at hcap recs (window_le _ hm1 hx) hk (fun x hx => hs x (by simp [hx]))
      simp only [i1 m2 hx, Option.bind_some, if_neg hr]
      rw [← ih]
      cases records cap k (at_ (recs.map request).flatten m2) <;> simp
    | none =>
      simp only [Option.bind_none, ne_eq, not_true_eq_false, iff_false]
      cases hy : readArgs cap r.length (at_ ((r.map Spec.bulk).flatten ++ (recs.map request).flatten) m1) with
      | none => simp
      | some p =>
        obtain ⟨args, r'⟩ := p
        simp only [Option.bind_some]
        split
        · simp
        · intro hc
          have : args = r := by
            cases hz : records cap k r' with
            | none => rw [hz] at hc; cases hc
            | some q => rw [hz] at hc; simp only [Option.bind_some, Option.some.injEq, List.cons.injEq] at hc; exact hc.1
          subst this
          have hst := i2 hx _ hy
          obtain ⟨k', rfl⟩ : ∃ k', k = k' + 1 := ⟨k - 1, by omega⟩
          rw [stuck_records hst] at hc
          cases hc

/-- Loading gives back the records exactly when no data are cut by the end of a window. -/
theorem parse_exact {cap : Nat} (hcap : 22 ≤ cap) {recs : List (List Bytes)} (h : ∀ r ∈ recs, r ≠ [] ∧ Sized r) :
    parse cap (recs.map request).flatten = some recs ↔ window cap 0 (recs.flatMap pieces) ≠ none := by
  have := records_at hcap recs (m := 0) (k := (recs.map request).flatten.length + 1) (by omega) (by have := records_length recs; omega) h
  simpa [parse, at_] using this

/-- A log with something behind it. -/
theorem records_tail {cap : Nat} (hcap : 22 ≤ cap) (t : Bytes) : ∀ (recs : List (List Bytes)) {m m' k : Nat}, m ≤ cap → (∀ r ∈ recs, r ≠ [] ∧ Sized r) →
    window cap m (recs.flatMap pieces) = some m' →
    records cap (k + recs.length) (at_ ((recs.map request).flatten ++ t) m) = (records cap k (at_ t m')).map (recs ++ ·)
  | [], m, m', k, hm, _, h => by
    cases h
    simp only [List.map_nil, List.flatten_nil, List.nil_append, List.length_nil, Nat.add_zero, Option.map_id']
  | r :: recs, m, m', k, hm, hs, h => by
    obtain ⟨hr, hsz, hsa⟩ := hs r (by simp)
    have e : ((r :: recs).map request).flatten ++ t = line 42 r.length ++ ((r.map Spec.bulk).flatten ++ ((recs.map request).flatten ++ t)) := by
      simp [request_line]
    have h1 := readLine_at (m := m) 42 (by decide) hsz hcap hm ((r.map Spec.bulk).flatten ++ ((recs.map request).flatten ++ t))
    have hm1 : (if (dec r.length).length + 3 ≤ m then m - ((dec r.length).length + 3) else cap - ((dec r.length).length + 3)) ≤ cap := by split <;> omega
    have hw : ∀ ps, window cap m (header r.length :: ps) =
        window cap (if (dec r.length).length + 3 ≤ m then m - ((dec r.length).length + 3) else cap - ((dec r.length).length + 3)) ps := by
      intro ps
      simp only [header, window]
      split <;> rfl
    rw [List.flatMap_cons, pieces_eq, List.cons_append, hw, window_append] at h
    rw [e]
    generalize (if (dec r.length).length + 3 ≤ m then m - ((dec r.length).length + 3) else cap - ((dec r.length).length + 3)) = m1 at *
    obtain ⟨m2, h2, h3⟩ := Option.bind_eq_some_iff.1 h
    have i1 := (readArgs_at hcap r hm1 hsa ((recs.map request).flatten ++ t)).1 m2 h2
    have ih := records_tail hcap t recs (k := k) (window_le _ hm1 h2) (fun x hx => hs x (by simp [hx])) h3
    have ek : k + (r :: recs).length = (k + recs.length) + 1 := rfl
    rw [ek]
    generalize k + recs.length = K at *
    simp only [records, h1, lengthOf_line 42 hsz, Option.bind_eq_bind, Option.bind_some, i1, if_neg hr, ih]
    cases records cap k (at_ t m') <;> rfl

/-- The end of the file without a line feed. -/
theorem readBytes_end {cap : Nat} (h0 : 0 < cap) : ∀ (k : Nat) (acc b f : Bytes), cut b = none → cut f = none → readBytes cap k acc ⟨b, f⟩ = none
  | 0, acc, b, f, _, _ => rfl
  | k + 1, acc, b, f, hb, hf => by
    have hmem : ∀ {l : Bytes}, cut l = none → ∀ c ∈ l, c ≠ 10 := by
      intro l
      induction l with
      | nil => intro _ c hc; cases hc
      | cons x l ih =>
        intro h c hc
        simp only [cut] at h
        split at h
        · cases h
        · next hx =>
          rcases List.mem_cons.1 hc with rfl | hc
          · exact hx
          · exact ih (by cases h2 : cut l with | none => rfl | some p => rw [h2] at h; cases h) c hc
    simp only [readBytes, hb]
    split
    · exact readBytes_end h0 k _ _ _ rfl hf
    · split
      · rfl
      · refine readBytes_end h0 k _ _ _ (cut_none fun c hc => ?_) (cut_none fun c hc => hmem hf c (List.mem_of_mem_drop hc))
        rcases List.mem_append.1 hc with hc | hc
        · exact hmem hb c hc
        · exact hmem hf c (List.mem_of_mem_take hc)

theorem records_end {cap m k : Nat} (h0 : 0 < cap) {t : Bytes} (ht : (10 : UInt8) ∉ t) : records cap k (at_ t m) = some [] := by
  cases k with
  | zero => rfl
  | succ k =>
    have : readLine cap (at_ t m) = none := by
      simp only [readLine, at_]
      rw [readBytes_end h0 _ _ _ _ (cut_none fun c hc e => ht (e ▸ List.mem_of_mem_take hc)) (cut_none fun c hc e => ht (e ▸ List.mem_of_mem_drop hc))]
      rfl
    simp only [records, this]

theorem parse_whole {recs : List (List Bytes)} (h : Records recs) : parse readerSize (log recs) = some recs ↔ Whole recs :=
  parse_exact (by decide) h

/-- Files that fit into the buffer. -/
theorem readable_small {file : Bytes} (h : file.length ≤ 65536) : Readable file := by
  refine ⟨by omega, fun recs hr hf => (parse_whole hr).1 ?_⟩
  subst hf
  obtain ⟨k, _, e⟩ := parse_small (cap := readerSize) (by decide) (t := []) hr (by rw [List.append_nil]; exact h)
  rw [List.append_nil] at e
  rw [log, e, records_eof (by decide) rfl]
  simp

end Metis.Aof
