import Verif.Model.Resp
import Verif.Proofs.Num
import Mathlib.Tactic.ByContra
import Mathlib.Tactic.Tauto
/-! The request parser on (fragments of) well-formed requests. -/
set_option linter.unusedSectionVars false
set_option linter.unusedSimpArgs false
set_option linter.unusedVariables false
namespace Metis.Conn
open Metis.Spec

/-! ### Finding a line end -/

theorem crlf_at : ∀ (pre r : Bytes), (∀ c ∈ pre, c ≠ 13) → crlf (pre ++ 13 :: 10 :: r) = some pre.length := by
  intro pre
  induction pre with
  | nil => intro r _; simp [crlf]
  | cons a pre ih =>
    intro r h
    have ha := h a (by simp)
    have := ih r (fun c hc => h c (by simp [hc]))
    cases pre with
    | nil => simp [crlf, ha] at this ⊢
    | cons b pre =>
      simp only [List.cons_append] at this ⊢
      unfold crlf
      simp [ha, this]

theorem crlf_none : ∀ (pre : Bytes), (∀ c ∈ pre, c ≠ 13) → crlf pre = none ∧ crlf (pre ++ [13]) = none := by
  intro pre
  induction pre with
  | nil => intro _; exact ⟨rfl, rfl⟩
  | cons a pre ih =>
    intro h
    have ha := h a (by simp)
    obtain ⟨h1, h2⟩ := ih (fun c hc => h c (by simp [hc]))
    cases pre with
    | nil => exact ⟨rfl, by simp [crlf, ha]⟩
    | cons b pre =>
      simp only [List.cons_append] at h1 h2 ⊢
      constructor <;> unfold crlf <;> simp [ha, h1, h2]

/-- A beginning of a line that is not the whole line has no line end. -/
theorem crlf_short {pre T b R : Bytes} (hp : ∀ c ∈ pre, c ≠ 13) (h : b ++ R = pre ++ (CRLF ++ T)) (hlen : b.length < pre.length + 2) :
    crlf b = none := by
  rcases Nat.lt_or_ge pre.length b.length with hl | hl
  · have : b = pre ++ [13] := by
      have h2 : (b ++ R).take b.length = (pre ++ (CRLF ++ T)).take b.length := by rw [h]
      rw [List.take_left', show b.length = pre.length + 1 by omega, List.take_length_add_append] at h2
      · simpa [CRLF] using h2
      · rfl
    rw [this]; exact (crlf_none pre hp).2
  · have : b = pre.take b.length := by
      have h2 : (b ++ R).take b.length = (pre ++ (CRLF ++ T)).take b.length := by rw [h]
      rwa [List.take_left' rfl, List.take_append_of_le_length hl] at h2
    rw [this]
    exact (crlf_none _ (fun c hc => hp c (List.mem_of_mem_take hc))).1

theorem split_line {pre T b R : Bytes} (h : b ++ R = pre ++ (CRLF ++ T)) (hlen : pre.length + 2 ≤ b.length) :
    ∃ b', b = pre ++ (CRLF ++ b') ∧ b' ++ R = T := by
  have h' : b ++ R = (pre ++ CRLF) ++ T := by rw [h]; simp
  rcases List.append_eq_append_iff.1 h' with ⟨t, e1, e2⟩ | ⟨t, e1, e2⟩
  · have hl := congrArg List.length e1
    simp [CRLF] at hl
    have : t = [] := List.length_eq_zero_iff.1 (by omega)
    subst this
    exact ⟨[], by simpa using e1.symm, by simpa using e2⟩
  · exact ⟨t, by rw [e1]; simp, e2.symm⟩

theorem dec13 {n : Nat} {c : UInt8} (h : c ∈ dec n) : c ≠ 13 := by
  intro hc; have := dec_digit h; rw [hc] at this; exact absurd this (by decide)

theorem cons_dec13 {n : Nat} {x : UInt8} (hx : x ≠ 13) : ∀ c ∈ x :: dec n, c ≠ 13 := by
  intro c hc
  rcases List.mem_cons.1 hc with rfl | hc
  · exact hx
  · exact dec13 hc

/-! ### Requests -/

/-- The first line of a request. -/
def hdr (n : Nat) : Bytes := 42 :: dec n ++ CRLF

/-- Bulk strings in sequence. -/
def bulks (l : List Bytes) : Bytes := (l.map bulk).flatten

theorem request_eq (args : List Bytes) : request args = hdr args.length ++ bulks args := rfl

theorem bulks_cons (a : Bytes) (l : List Bytes) : bulks (a :: l) = (36 :: dec a.length) ++ (CRLF ++ (a ++ (CRLF ++ bulks l))) := by
  simp [bulks, bulk]

theorem bulks_append (l l' : List Bytes) : bulks (l ++ l') = bulks l ++ bulks l' := by simp [bulks]

/-- The connection waits for the rest of request `all`, of which the bytes `x` have arrived. -/
inductive Wait (all : List Bytes) : Conn → Bytes → Prop
  | start (s : Nat) : Wait all { slack := s } []
  | first (s : Nat) (b : Bytes) : b ≠ [] → b.length < (hdr all.length).length → Wait all { buf := b, slack := s, cmdType := .multiBulk } b
  | header (s : Nat) (dn : List Bytes) (a : Bytes) (rest : List Bytes) (b : Bytes) : all = dn ++ a :: rest → b.length < (36 :: dec a.length).length + 2 →
      Wait all { buf := b, slack := s, cmdType := .multiBulk, args := dn ++ List.replicate (rest.length + 1) [], multiBulkLen := rest.length + 1 }
        (hdr all.length ++ bulks dn ++ b)
  | data (s : Nat) (dn : List Bytes) (a : Bytes) (rest : List Bytes) (b : Bytes) : all = dn ++ a :: rest → b.length < a.length →
      Wait all { buf := b, slack := s, cmdType := .multiBulk, args := dn ++ List.replicate (rest.length + 1) [], multiBulkLen := rest.length + 1, bulkLen := a.length }
        (hdr all.length ++ bulks dn ++ (36 :: dec a.length ++ CRLF ++ b))

/-- Sizes a machine can hold. -/
def Sized (all : List Bytes) : Prop := (all.length : Int) ≤ maxStrCap ∧ ∀ a ∈ all, a.length < 2 ^ 63

theorem byteAt_nat {c : Conn} {i : Nat} (h : i < c.buf.length) : byteAt c i = c.buf[i]? := by
  unfold byteAt
  rw [if_neg (by omega), if_pos (by omega)]
  simp

/-- What a turn of the parser gives on the way through request `all`. -/
inductive Goes (all : List Bytes) (x R : Bytes) : Option Step → Prop
  | done (s : Nat) : R = [] → Goes all x R (some (.done { slack := s, cmdType := .multiBulk, args := all }))
  | wait (c : Conn) : R ≠ [] → Wait all c x → Goes all x R (some (.more c))

theorem set_arg (dn : List Bytes) (a : Bytes) (k : Nat) :
    (dn ++ List.replicate (k + 1) []).set ((dn ++ List.replicate (k + 1) []).length - (k + 1)) a = (dn ++ [a]) ++ List.replicate k [] := by
  have : (dn ++ List.replicate (k + 1) ([] : Bytes)).length - (k + 1) = dn.length := by simp
  rw [this, List.set_append_right _ _ (Nat.le_refl _)]
  simp [List.replicate_succ]

/-- Data of an argument. -/
theorem multiData_step {all dn rest : List Bytes} {a b R : Bytes} {s : Nat} (hall : all = dn ++ a :: rest)
    (hb : b ++ R = a ++ (CRLF ++ bulks rest)) (hcut : R ≠ [] → ¬ BadCut all (hdr all.length ++ bulks dn ++ (36 :: dec a.length ++ CRLF ++ b))) :
    let c : Conn := { buf := b, slack := s, cmdType := .multiBulk, args := dn ++ List.replicate (rest.length + 1) [], multiBulkLen := rest.length + 1, bulkLen := a.length }
    (R ≠ [] ∧ multiData c = some (.more c) ∧ b.length < a.length) ∨
    (∃ b', b = a ++ (CRLF ++ b') ∧ b' ++ R = bulks rest ∧
      multiData c = some (.done { buf := b', slack := s, cmdType := .multiBulk, args := (dn ++ [a]) ++ List.replicate rest.length [], multiBulkLen := rest.length })) := by
  intro c
  by_cases hlt : b.length < a.length
  · left
    refine ⟨?_, ?_, hlt⟩
    · intro hR; subst hR
      have := congrArg List.length hb
      simp [CRLF] at this; omega
    · unfold multiData
      rw [if_pos]
      show ((b.length : Nat) : Int) < (a.length : Int)
      omega
  · right
    by_cases hge : a.length + 2 ≤ b.length
    · obtain ⟨b', e, e2⟩ := split_line hb hge
      refine ⟨b', e, e2, ?_⟩
      have h1 : byteAt c (a.length : Int) = some 13 := by
        rw [byteAt_nat (show a.length < b.length by omega)]
        show b[a.length]? = some 13
        rw [e]; simp [CRLF]
      have h2 : byteAt c ((a.length : Int) + 1) = some 10 := by
        have := byteAt_nat (c := c) (i := a.length + 1) (show a.length + 1 < b.length by omega)
        rw [show ((a.length : Int) + 1) = ((a.length + 1 : Nat) : Int) by omega, this]
        show b[a.length + 1]? = some 10
        rw [e]; simp [CRLF]
      unfold multiData
      rw [if_neg (by show ¬ ((b.length : Nat) : Int) < (a.length : Int); omega)]
      show (match byteAt c (a.length : Int) with | none => none | some x => _) = _
      rw [h1]
      simp only [ne_eq, not_true_eq_false, if_false]
      show (match byteAt c ((a.length : Int) + 1) with | none => none | some x => _) = _
      rw [h2]
      simp only [ne_eq, not_true_eq_false, if_false]
      have h3 : (((rest.length : Nat) : Int) + 1).toNat = rest.length + 1 := by omega
      have h4 : (((rest.length : Nat) : Int) + 1) - 1 = (rest.length : Int) := by omega
      have h5 : ((a.length : Nat) : Int).toNat = a.length := by omega
      simp only [move, c, h3, h4, h5, set_arg]
      congr 2
      rw [show b.take a.length = a by rw [e]; simp]
      congr 1
      rw [e, ← List.append_assoc, show a.length + 2 = (a ++ CRLF).length by simp [CRLF], List.drop_left]
    · exfalso
      -- the cut is directly before or inside the line end
      have hR : R ≠ [] := by
        intro hR; subst hR
        have := congrArg List.length hb
        simp [CRLF] at this; omega
      refine hcut hR ⟨dn, a, rest, hall, ?_⟩
      have hsplit : b = a ∨ b = a ++ [13] := by
        have h2 : (b ++ R).take b.length = (a ++ (CRLF ++ bulks rest)).take b.length := by rw [hb]
        rw [List.take_left' rfl] at h2
        rcases Nat.lt_or_ge a.length b.length with h | h
        · right
          rw [h2, show b.length = a.length + 1 by omega, List.take_length_add_append]
          simp [CRLF]
        · left
          rw [h2, show b.length = a.length by omega]
          simp
      rcases hsplit with h | h
      · left; rw [h]; rfl
      · right; rw [h]; simp [dataEnd, hdr, bulks]

/-- The loop from the beginning of an argument. -/
theorem multiLoop_goes {all : List Bytes} (hs : Sized all) : ∀ (rest dn : List Bytes) (b R : Bytes) (s fuel : Nat), all = dn ++ rest →
    b ++ R = bulks rest → (R ≠ [] → ¬ BadCut all (hdr all.length ++ bulks dn ++ b)) → rest.length < fuel →
    Goes all (hdr all.length ++ bulks dn ++ b) R
      (multiLoop fuel { buf := b, slack := s, cmdType := .multiBulk, args := dn ++ List.replicate rest.length [], multiBulkLen := rest.length }) := by
  intro rest
  induction rest with
  | nil =>
    intro dn b R s fuel hall hb hcut hf
    simp [bulks] at hb
    obtain ⟨rfl, rfl⟩ := hb
    cases fuel with
    | zero => simp at hf
    | succ fuel =>
      have : dn = all := by rw [hall]; simp
      subst this
      unfold multiLoop
      simp only [List.length_nil, List.replicate_zero, List.append_nil]
      rw [if_neg (by show ¬ ((0 : Nat) : Int) > 0; omega)]
      exact Goes.done s rfl
  | cons a rest ih =>
    intro dn b R s fuel hall hb hcut hf
    cases fuel with
    | zero => simp at hf
    | succ fuel =>
      have ha : a.length < 2 ^ 63 := hs.2 a (by rw [hall]; simp)
      rw [bulks_cons] at hb
      unfold multiLoop
      rw [if_pos (by show (((a :: rest).length : Nat) : Int) > 0; simp)]
      unfold multiTurn
      rw [if_pos rfl]
      by_cases hlen : b.length < (36 :: dec a.length).length + 2
      · -- the header is not complete
        have hn := crlf_short (cons_dec13 (by decide)) hb hlen
        have hlong : ¬ b.length > maxInline := by
          have := dec_length ha
          simp at hlen
          unfold maxInline; omega
        show Goes all _ R (match (match crlf b with | none => _ | some i => _) with | some (Step.done c) => _ | r => _)
        rw [hn]
        simp only [if_neg hlong]
        refine Goes.wait _ ?_ ?_
        · intro hR; subst hR
          have := congrArg List.length hb
          simp [CRLF] at this hlen; omega
        · exact Wait.header s dn a rest b hall hlen
      · obtain ⟨b1, e1, e2⟩ := split_line hb (by omega)
        have hc := crlf_at (36 :: dec a.length) b1 (cons_dec13 (by decide))
        have hb1 : b = (36 :: dec a.length) ++ 13 :: 10 :: b1 := by rw [e1]; simp [CRLF]
        show Goes all _ R (match (match crlf b with | none => _ | some i => _) with | some (Step.done c) => _ | r => _)
        rw [show crlf b = some (36 :: dec a.length).length by rw [hb1]; exact hc]
        simp only
        generalize hconn : ({ buf := b, slack := s, cmdType := .multiBulk, args := dn ++ List.replicate (a :: rest).length [], multiBulkLen := ((a :: rest).length : Nat) } : Conn) = conn
        have h0 : byteAt conn 0 = some 36 := by
          have := byteAt_nat (c := conn) (i := 0) (by rw [← hconn, hb1]; simp)
          rw [show (0 : Int) = ((0 : Nat) : Int) by rfl, this, ← hconn, hb1]; rfl
        rw [if_neg (by rw [h0]; simp)]
        have hnum : getNum conn (36 :: dec a.length).length = some (a.length : Int) := by
          unfold getNum
          rw [← hconn]
          show atoi ((b.take (36 :: dec a.length).length).drop 1) = _
          rw [hb1, List.take_left]
          simp only [List.drop_succ_cons, List.drop_zero]
          exact atoi_dec ha
        rw [hnum]
        simp only
        have hmove : move { buf := b, slack := s, cmdType := .multiBulk, args := dn ++ List.replicate (a :: rest).length [], multiBulkLen := ((a :: rest).length : Nat), bulkLen := (a.length : Int) } (36 :: dec a.length).length =
            { buf := b1, slack := s, cmdType := .multiBulk, args := dn ++ List.replicate (rest.length + 1) [], multiBulkLen := rest.length + 1, bulkLen := a.length } := by
          unfold move
          simp only
          congr 1
          rw [e1, ← List.append_assoc, show (36 :: dec a.length).length + 2 = ((36 :: dec a.length) ++ CRLF).length by simp [CRLF], List.drop_left]
        rw [hmove]
        have hx : hdr all.length ++ bulks dn ++ b = hdr all.length ++ bulks dn ++ (36 :: dec a.length ++ CRLF ++ b1) := by rw [e1]; simp
        rw [hx] at hcut ⊢
        rcases multiData_step (s := s) hall e2 hcut with ⟨hR, hm, hl⟩ | ⟨b', eb, er, hm⟩
        · rw [hm]
          simp only
          exact Goes.wait _ hR (Wait.data s dn a rest b1 hall hl)
        · rw [hm]
          simp only
          have hx2 : hdr all.length ++ bulks dn ++ (36 :: dec a.length ++ CRLF ++ b1) = hdr all.length ++ bulks (dn ++ [a]) ++ b' := by
            rw [eb, bulks_append, bulks_cons]; simp [bulks]
          rw [hx2] at hcut ⊢
          exact ih (dn ++ [a]) b' R s fuel (by rw [hall]; simp) er hcut (by simp at hf; omega)

theorem hdr_length (n : Nat) : (hdr n).length = (42 :: dec n).length + 2 := by simp [hdr, CRLF]

/-- The parser on a further fragment. -/
theorem wait_step {all : List Bytes} (hs : Sized all) (hne : all ≠ []) {c : Conn} {x d R : Bytes} (hw : Wait all c x)
    (hx : x ++ (d ++ R) = request all) (hd : d ≠ []) (hcut : R ≠ [] → ¬ BadCut all (x ++ d)) (s : Nat) :
    ∃ r, parse (setType { c with buf := c.buf ++ d, slack := s }) = r ∧ Goes all (x ++ d) R r := by
  refine ⟨_, rfl, ?_⟩
  have hlen : all.length < 2 ^ 63 := by have := hs.1; unfold maxStrCap at this; omega
  have hpos : 0 < all.length := List.length_pos_iff.2 hne
  -- beginning of the request
  have begin_ : ∀ (b : Bytes), b ≠ [] → b ++ R = request all → (R ≠ [] → ¬ BadCut all b) →
      Goes all b R (multiBuf { buf := b, slack := s, cmdType := .multiBulk }) := by
    intro b hb0 hb hcut
    rw [request_eq] at hb
    have hb' : b ++ R = (42 :: dec all.length) ++ (CRLF ++ bulks all) := by rw [hb]; simp [hdr]
    unfold multiBuf
    rw [if_pos rfl]
    by_cases hl : b.length < (42 :: dec all.length).length + 2
    · have hn := crlf_short (cons_dec13 (by decide)) hb' hl
      have hlong : ¬ b.length > maxInline := by
        have := dec_length hlen
        simp at hl
        unfold maxInline; omega
      show Goes all b R (match crlf b with | none => _ | some i => _)
      rw [hn]
      simp only [if_neg hlong]
      refine Goes.wait _ ?_ (Wait.first s b hb0 (by rw [hdr_length]; exact hl))
      intro hR; subst hR
      have := congrArg List.length hb'
      simp [CRLF] at this hl; omega
    · obtain ⟨b1, e1, e2⟩ := split_line hb' (by omega)
      have hb1 : b = (42 :: dec all.length) ++ 13 :: 10 :: b1 := by rw [e1]; simp [CRLF]
      have hc := crlf_at (42 :: dec all.length) b1 (cons_dec13 (by decide))
      show Goes all b R (match crlf b with | none => _ | some i => _)
      rw [show crlf b = some (42 :: dec all.length).length by rw [hb1]; exact hc]
      simp only
      have hnum : getNum { buf := b, slack := s, cmdType := .multiBulk } (42 :: dec all.length).length = some (all.length : Int) := by
        unfold getNum
        show atoi ((b.take (42 :: dec all.length).length).drop 1) = _
        rw [hb1, List.take_left]
        simp only [List.drop_succ_cons, List.drop_zero]
        exact atoi_dec hlen
      rw [hnum]
      simp only
      rw [if_neg (by omega), if_neg (by have := hs.1; omega)]
      have hmove : ({ move { buf := b, slack := s, cmdType := .multiBulk } (42 :: dec all.length).length with
          multiBulkLen := (all.length : Int), args := List.replicate ((all.length : Nat) : Int).toNat [] } : Conn) =
          { buf := b1, slack := s, cmdType := .multiBulk, args := [] ++ List.replicate all.length [], multiBulkLen := all.length } := by
        unfold move
        simp only
        congr 1
        rw [e1, ← List.append_assoc, show (42 :: dec all.length).length + 2 = ((42 :: dec all.length) ++ CRLF).length by simp [CRLF], List.drop_left]
      rw [hmove]
      have hxb : b = hdr all.length ++ bulks [] ++ b1 := by rw [e1]; simp [hdr, bulks]
      have := multiLoop_goes hs all [] b1 R s (((all.length : Nat) : Int).toNat + 1) rfl e2 (by rw [← hxb]; exact hcut) (by simp)
      rw [← hxb] at this
      exact this
  have later : ∀ (dn rest : List Bytes) (a b : Bytes), all = dn ++ a :: rest → b ++ R = bulks (a :: rest) →
      (R ≠ [] → ¬ BadCut all (hdr all.length ++ bulks dn ++ b)) →
      Goes all (hdr all.length ++ bulks dn ++ b) R (multiBuf { buf := b, slack := s, cmdType := .multiBulk, args := dn ++ List.replicate (rest.length + 1) [], multiBulkLen := rest.length + 1 }) := by
    intro dn rest a b hall hb hcut
    unfold multiBuf
    rw [if_neg (by show ¬ ((rest.length : Int) + 1 = 0); omega)]
    exact multiLoop_goes hs (a :: rest) dn b R s _ hall hb hcut (by simp)
  cases hw with
  | start s0 =>
    simp only [List.nil_append] at hx hcut ⊢
    have hhead : d.head? = some 42 := by
      cases d with
      | nil => exact absurd rfl hd
      | cons y d =>
        have : (y :: d ++ R).head? = (request all).head? := by rw [hx]
        simpa [request] using this
    have : setType { buf := d, slack := s } = { buf := d, slack := s, cmdType := .multiBulk } := by simp [setType, hhead]
    show Goes all d R (parse (setType { buf := d, slack := s }))
    rw [this]
    exact begin_ d hd hx hcut
  | first s0 b hb0 hl =>
    have : setType { buf := x ++ d, slack := s, cmdType := .multiBulk } = { buf := x ++ d, slack := s, cmdType := .multiBulk } := by simp [setType]
    show Goes all _ R (parse (setType { buf := x ++ d, slack := s, cmdType := .multiBulk }))
    rw [this]
    exact begin_ (x ++ d) (by simp [hd]) (by rw [← hx]; simp) hcut
  | header s0 dn a rest b hall hl =>
    have : setType { buf := b ++ d, slack := s, cmdType := .multiBulk, args := dn ++ List.replicate (rest.length + 1) [], multiBulkLen := rest.length + 1 } =
      { buf := b ++ d, slack := s, cmdType := .multiBulk, args := dn ++ List.replicate (rest.length + 1) [], multiBulkLen := rest.length + 1 } := by simp [setType]
    show Goes all _ R (parse (setType _))
    rw [this]
    have hx' : b ++ d ++ R = bulks (a :: rest) := by
      rw [request_eq] at hx
      have h2 : hdr all.length ++ bulks dn ++ (b ++ d ++ R) = hdr all.length ++ bulks dn ++ bulks (a :: rest) := by
        rw [List.append_assoc (hdr _) (bulks dn) (bulks _), ← bulks_append, ← hall, ← hx]; simp
      exact List.append_cancel_left h2
    have := later dn rest a (b ++ d) hall hx' (by rw [← List.append_assoc]; exact hcut)
    rw [← List.append_assoc] at this
    exact this
  | data s0 dn a rest b hall hl =>
    have : setType { buf := b ++ d, slack := s, cmdType := .multiBulk, args := dn ++ List.replicate (rest.length + 1) [], multiBulkLen := rest.length + 1, bulkLen := a.length } =
      { buf := b ++ d, slack := s, cmdType := .multiBulk, args := dn ++ List.replicate (rest.length + 1) [], multiBulkLen := rest.length + 1, bulkLen := a.length } := by simp [setType]
    show Goes all _ R (parse (setType _))
    rw [this]
    have hx' : (b ++ d) ++ R = a ++ (CRLF ++ bulks rest) := by
      rw [request_eq] at hx
      have h2 : hdr all.length ++ bulks dn ++ ((36 :: dec a.length) ++ CRLF) ++ (b ++ d ++ R) = hdr all.length ++ bulks dn ++ ((36 :: dec a.length) ++ CRLF) ++ (a ++ (CRLF ++ bulks rest)) := by
        have h3 : bulks all = bulks dn ++ bulks (a :: rest) := by rw [hall, bulks_append]
        rw [h3, bulks_cons] at hx
        simp only [List.append_assoc] at hx ⊢
        exact hx
      exact List.append_cancel_left h2
    have hxx : hdr all.length ++ bulks dn ++ (36 :: dec a.length ++ CRLF ++ b) ++ d = hdr all.length ++ bulks dn ++ (36 :: dec a.length ++ CRLF ++ (b ++ d)) := by simp
    rw [hxx] at hcut ⊢
    show Goes all _ R (multiBuf _)
    unfold multiBuf
    rw [if_neg (by show ¬ ((rest.length : Int) + 1 = 0); omega)]
    unfold multiLoop
    rw [if_pos (by show (rest.length : Int) + 1 > 0; omega)]
    unfold multiTurn
    have hane : ¬ ((a.length : Int) = 0) := by omega
    rw [if_neg hane]
    rcases multiData_step (s := s) hall hx' hcut with ⟨hR, hm, hl⟩ | ⟨b', eb, er, hm⟩
    · rw [hm]
      simp only
      exact Goes.wait _ hR (Wait.data s dn a rest _ hall hl)
    · rw [hm]
      simp only
      have hx2 : hdr all.length ++ bulks dn ++ (36 :: dec a.length ++ CRLF ++ (b ++ d)) = hdr all.length ++ bulks (dn ++ [a]) ++ b' := by
        rw [eb, bulks_append, bulks_cons]; simp [bulks]
      rw [hx2] at hcut ⊢
      exact multiLoop_goes hs rest (dn ++ [a]) b' R s _ (by rw [hall]; simp) er hcut (by show rest.length < ((rest.length : Int) + 1).toNat; omega)

/-! ### Whole reads -/

theorem processInput_done {fuel : Nat} {c c' : Conn} (hb : c.buf ≠ []) (h : parse (setType c) = some (.done c')) (ha : c'.args ≠ []) :
    processInput (fuel + 2) c = some ([c'.args], some {}) := by
  unfold processInput
  rw [if_pos (List.length_pos_iff.2 hb), h]
  simp only
  rw [if_pos (List.length_pos_iff.2 ha)]
  simp [reset, processInput]

theorem processInput_more {fuel : Nat} {c c' : Conn} (hb : c.buf ≠ []) (h : parse (setType c) = some (.more c')) :
    processInput (fuel + 1) c = some ([], some c') := by
  unfold processInput
  rw [if_pos (List.length_pos_iff.2 hb), h]

theorem read_goes {all : List Bytes} (hs : Sized all) (hne : all ≠ []) {c : Conn} {x d R : Bytes} (hw : Wait all c x)
    (hx : x ++ (d ++ R) = request all) (hd : d ≠ []) (hcut : R ≠ [] → ¬ BadCut all (x ++ d)) :
    (R = [] ∧ read c d = some ([all], some {})) ∨ (R ≠ [] ∧ ∃ c', read c d = some ([], some c') ∧ Wait all c' (x ++ d)) := by
  have hbuf : (grow c).buf = c.buf := by unfold grow; split <;> rfl
  have hw' : Wait all (grow c) x := by
    unfold grow
    split
    · cases hw with
      | start s => exact Wait.start _
      | first s b h1 h2 => exact Wait.first _ _ h1 h2
      | header s dn a rest b h1 h2 => exact Wait.header _ dn a rest b h1 h2
      | data s dn a rest b h1 h2 => exact Wait.data _ dn a rest b h1 h2
    · exact hw
  obtain ⟨r, hp, hg⟩ := wait_step hs hne hw' hx hd hcut ((grow c).slack - d.length)
  have hne' : ({ grow c with buf := (grow c).buf ++ d, slack := (grow c).slack - d.length } : Conn).buf ≠ [] := by simp [hd]
  cases hg with
  | done s hR =>
    left
    exact ⟨hR, processInput_done hne' hp hne⟩
  | wait c' hR hw2 =>
    right
    exact ⟨hR, c', processInput_more hne' hp, hw2⟩

theorem reads_goes {all : List Bytes} (hs : Sized all) (hne : all ≠ []) : ∀ (ds : List Bytes) (c : Conn) (x : Bytes), Wait all c x → ds ≠ [] → (∀ d ∈ ds, d ≠ []) →
    x ++ ds.flatten = request all → (∀ i, 0 < i → i < ds.length → ¬ BadCut all (x ++ (ds.take i).flatten)) →
    reads c ds = some ([all], some {}) := by
  intro ds
  induction ds with
  | nil => intro c x _ h; exact absurd rfl h
  | cons d ds ih =>
    intro c x hw _ hd hx hcut
    have hx' : x ++ (d ++ ds.flatten) = request all := by simpa using hx
    have hcut' : ds.flatten ≠ [] → ¬ BadCut all (x ++ d) := by
      intro hR
      have := hcut 1 (by omega) (by
        cases ds with
        | nil => simp at hR
        | cons _ _ => simp)
      simpa using this
    rcases read_goes hs hne hw hx' (hd d (by simp)) hcut' with ⟨hR, hr⟩ | ⟨hR, c', hr, hw'⟩
    · have : ds = [] := by
        cases ds with
        | nil => rfl
        | cons e ds =>
          have := hd e (by simp)
          simp at hR; exact absurd hR.1 this
      subst this
      simp [reads, hr]
    · have hds : ds ≠ [] := by intro h; subst h; simp at hR
      have := ih c' (x ++ d) hw' hds (fun e he => hd e (by simp [he])) (by rw [← hx']; simp) (by
        intro i hi hl
        have := hcut (i + 1) (by omega) (by simp; omega)
        simpa using this)
      simp [reads, hr, this]

theorem reads_append : ∀ (ds es : List Bytes) (c c' : Conn) (cmds : List (List Bytes)), reads c ds = some (cmds, some c') →
    reads c (ds ++ es) = (reads c' es).map (fun p => (cmds ++ p.1, p.2)) := by
  intro ds
  induction ds with
  | nil =>
    intro es c c' cmds h
    simp only [reads, Option.some.injEq, Prod.mk.injEq] at h
    obtain ⟨rfl, rfl⟩ := h
    cases h : reads c es with
    | none => simp [h]
    | some p => simp [h]
  | cons d ds ih =>
    intro es c c' cmds h
    simp only [List.cons_append, reads] at h ⊢
    cases hr : read c d with
    | none => rw [hr] at h; cases h
    | some p =>
      obtain ⟨q, o⟩ := p
      rw [hr] at h
      cases o with
      | none => simp at h
      | some c1 =>
        simp only at h ⊢
        cases h2 : reads c1 ds with
        | none => rw [h2] at h; cases h
        | some p2 =>
          obtain ⟨q2, o2⟩ := p2
          rw [h2] at h
          simp only [Option.some.injEq, Prod.mk.injEq] at h
          obtain ⟨rfl, rfl⟩ := h
          rw [ih es c1 c' q2 h2]
          cases reads c' es with
          | none => rfl
          | some p => simp

/-! ### Complete arguments followed by anything -/

theorem multiTurn_bulk {a : Bytes} (ha : a.length < 2 ^ 63) (t : Bytes) (dn : List Bytes) (k s : Nat) :
    multiTurn { buf := bulk a ++ t, slack := s, cmdType := .multiBulk, args := dn ++ List.replicate (k + 1) [], multiBulkLen := (k : Int) + 1 } =
      multiData { buf := a ++ (CRLF ++ t), slack := s, cmdType := .multiBulk, args := dn ++ List.replicate (k + 1) [], multiBulkLen := (k : Int) + 1, bulkLen := a.length } := by
  have hb : bulk a ++ t = (36 :: dec a.length) ++ 13 :: 10 :: (a ++ (CRLF ++ t)) := by simp [bulk, CRLF]
  unfold multiTurn
  rw [if_pos rfl]
  simp only
  rw [hb, crlf_at _ _ (cons_dec13 (by decide))]
  simp only
  have h0 : byteAt { buf := (36 :: dec a.length) ++ 13 :: 10 :: (a ++ (CRLF ++ t)), slack := s, cmdType := .multiBulk, args := dn ++ List.replicate (k + 1) [], multiBulkLen := (k : Int) + 1 } 0 = some 36 := by
    rw [show (0 : Int) = ((0 : Nat) : Int) by rfl, byteAt_nat (by simp)]; rfl
  rw [if_neg (by rw [h0]; simp)]
  have hnum : getNum { buf := (36 :: dec a.length) ++ 13 :: 10 :: (a ++ (CRLF ++ t)), slack := s, cmdType := .multiBulk, args := dn ++ List.replicate (k + 1) [], multiBulkLen := (k : Int) + 1 } (36 :: dec a.length).length = some (a.length : Int) := by
    unfold getNum
    simp only
    rw [List.take_left]
    exact atoi_dec ha
  rw [hnum]
  simp only [move]
  congr 2
  rw [show (36 :: dec a.length) ++ 13 :: 10 :: (a ++ (CRLF ++ t)) = ((36 :: dec a.length) ++ CRLF) ++ (a ++ (CRLF ++ t)) by simp [CRLF],
    show (36 :: dec a.length).length + 2 = ((36 :: dec a.length) ++ CRLF).length by simp [CRLF], List.drop_left]

theorem multiData_bulk (a t : Bytes) (dn : List Bytes) (k s : Nat) :
    multiData { buf := a ++ (CRLF ++ t), slack := s, cmdType := .multiBulk, args := dn ++ List.replicate (k + 1) [], multiBulkLen := (k : Int) + 1, bulkLen := a.length } =
      some (.done { buf := t, slack := s, cmdType := .multiBulk, args := (dn ++ [a]) ++ List.replicate k [], multiBulkLen := k }) := by
  unfold multiData
  have h1 : byteAt { buf := a ++ (CRLF ++ t), slack := s, cmdType := .multiBulk, args := dn ++ List.replicate (k + 1) [], multiBulkLen := (k : Int) + 1, bulkLen := a.length } (a.length : Int) = some 13 := by
    rw [byteAt_nat (by simp [CRLF])]; simp [CRLF]
  have h2 : byteAt { buf := a ++ (CRLF ++ t), slack := s, cmdType := .multiBulk, args := dn ++ List.replicate (k + 1) [], multiBulkLen := (k : Int) + 1, bulkLen := a.length } ((a.length : Int) + 1) = some 10 := by
    rw [show ((a.length : Int) + 1) = ((a.length + 1 : Nat) : Int) by omega, byteAt_nat (by simp [CRLF])]; simp [CRLF]
  rw [if_neg (by show ¬ (((a ++ (CRLF ++ t)).length : Nat) : Int) < (a.length : Int); simp; omega)]
  simp only [h1, h2, ne_eq, not_true_eq_false, if_false]
  have h3 : (((k : Nat) : Int) + 1).toNat = k + 1 := by omega
  have h4 : (((k : Nat) : Int) + 1) - 1 = (k : Int) := by omega
  have h5 : ((a.length : Nat) : Int).toNat = a.length := by omega
  simp only [move, h3, h4, h5, set_arg]
  congr 2
  rw [show (a ++ (CRLF ++ t)).take a.length = a by simp]
  congr 1
  rw [← List.append_assoc, show a.length + 2 = (a ++ CRLF).length by simp [CRLF], List.drop_left]

theorem multiLoop_skip : ∀ (l dn : List Bytes) (t : Bytes) (k s fuel : Nat), (∀ a ∈ l, a.length < 2 ^ 63) →
    multiLoop (l.length + fuel) { buf := bulks l ++ t, slack := s, cmdType := .multiBulk, args := dn ++ List.replicate (l.length + k) [], multiBulkLen := ((l.length + k : Nat) : Int) } =
      multiLoop fuel { buf := t, slack := s, cmdType := .multiBulk, args := (dn ++ l) ++ List.replicate k [], multiBulkLen := (k : Nat) } := by
  intro l
  induction l with
  | nil => intro dn t k s fuel _; simp [bulks]
  | cons a l ih =>
    intro dn t k s fuel h
    rw [show (a :: l).length + fuel = (l.length + fuel) + 1 by simp; omega]
    conv => lhs; unfold multiLoop
    rw [if_pos (by show (((a :: l).length + k : Nat) : Int) > 0; simp; omega)]
    have e1 : (a :: l).length + k = (l.length + k) + 1 := by simp; omega
    have e2 : bulks (a :: l) ++ t = bulk a ++ (bulks l ++ t) := by simp [bulks]
    have e3 : (((l.length + k) + 1 : Nat) : Int) = ((l.length + k : Nat) : Int) + 1 := by omega
    simp only [e1, e2, e3, multiTurn_bulk (h a (by simp)), multiData_bulk]
    rw [ih (dn ++ [a]) t k s fuel (fun x hx => h x (by simp [hx]))]
    simp

/-- The first line of a request. -/
theorem multiBuf_hdr {n : Nat} (h0 : 0 < n) (hn : (n : Int) ≤ maxStrCap) (t : Bytes) (s : Nat) :
    multiBuf { buf := hdr n ++ t, slack := s, cmdType := .multiBulk } =
      multiLoop (n + 1) { buf := t, slack := s, cmdType := .multiBulk, args := List.replicate n [], multiBulkLen := n } := by
  have hb : hdr n ++ t = (42 :: dec n) ++ 13 :: 10 :: t := by simp [hdr, CRLF]
  unfold multiBuf
  rw [if_pos rfl]
  simp only
  rw [hb, crlf_at _ _ (cons_dec13 (by decide))]
  simp only
  have hnum : getNum { buf := (42 :: dec n) ++ 13 :: 10 :: t, slack := s, cmdType := .multiBulk } (42 :: dec n).length = some (n : Int) := by
    unfold getNum
    simp only
    rw [List.take_left]
    exact atoi_dec (by unfold maxStrCap at hn; omega)
  rw [hnum]
  simp only
  rw [if_neg (by omega), if_neg (by omega)]
  simp only [move, Int.toNat_natCast]
  congr 2
  rw [show (42 :: dec n) ++ 13 :: 10 :: t = ((42 :: dec n) ++ CRLF) ++ t by simp [CRLF],
    show (42 :: dec n).length + 2 = ((42 :: dec n) ++ CRLF).length by simp [CRLF], List.drop_left]

theorem setType_hdr (n s : Nat) (t : Bytes) :
    setType { buf := hdr n ++ t, slack := s } = { buf := hdr n ++ t, slack := s, cmdType := .multiBulk } := by simp [setType, hdr]

/-- A complete request at the beginning of the buffer: whatever follows stays in the buffer, which `reset` then drops. -/
theorem parse_request {all : List Bytes} (hs : Sized all) (hne : all ≠ []) (t : Bytes) (s : Nat) :
    parse (setType { buf := request all ++ t, slack := s }) = some (.done { buf := t, slack := s, cmdType := .multiBulk, args := all }) := by
  rw [request_eq, List.append_assoc, setType_hdr]
  show multiBuf _ = _
  rw [multiBuf_hdr (List.length_pos_iff.2 hne) hs.1]
  have := multiLoop_skip all [] t 0 s 1 hs.2
  simp only [Nat.add_zero, List.nil_append, List.replicate_zero, List.append_nil] at this
  rw [this]
  simp [multiLoop]

/-- Everything up to the end of the data of an argument. -/
theorem parse_dataEnd {all dn rest : List Bytes} {a : Bytes} (hs : Sized all) (hall : all = dn ++ a :: rest) (t : Bytes) (ht : t = [] ∨ t = [13]) (s : Nat) :
    ∃ fuel, parse (setType { buf := dataEnd all.length dn a ++ t, slack := s }) =
      (match multiData { buf := a ++ t, slack := s, cmdType := .multiBulk, args := dn ++ List.replicate (rest.length + 1) [], multiBulkLen := (rest.length : Int) + 1, bulkLen := a.length } with
      | some (.done c) => multiLoop fuel c
      | r => r) := by
  have hb : dataEnd all.length dn a ++ t = hdr all.length ++ (bulks dn ++ ((36 :: dec a.length) ++ 13 :: 10 :: (a ++ t))) := by
    simp [dataEnd, hdr, bulks, CRLF]
  have ha : a.length < 2 ^ 63 := hs.2 a (by rw [hall]; simp)
  have hl : all.length = dn.length + (rest.length + 1) := by rw [hall]; simp
  rw [hb, setType_hdr]
  refine ⟨rest.length + 1, ?_⟩
  show multiBuf _ = _
  rw [multiBuf_hdr (by omega) hs.1]
  have := multiLoop_skip dn [] ((36 :: dec a.length) ++ 13 :: 10 :: (a ++ t)) (rest.length + 1) s (rest.length + 1 + 1) (fun x hx => hs.2 x (by rw [hall]; simp [hx]))
  simp only [List.nil_append, ← Nat.add_assoc] at this
  have e : all.length + 1 = dn.length + rest.length + 1 + 1 := by omega
  rw [e]
  have e' : all.length = dn.length + rest.length + 1 := by omega
  rw [e', this]
  conv => lhs; unfold multiLoop
  rw [if_pos (by show ((rest.length + 1 : Nat) : Int) > 0; omega)]
  have key : multiTurn { buf := (36 :: dec a.length) ++ 13 :: 10 :: (a ++ t), slack := s, cmdType := .multiBulk, args := dn ++ List.replicate (rest.length + 1) [], multiBulkLen := (((rest.length + 1 : Nat)) : Int) } =
      multiData { buf := a ++ t, slack := s, cmdType := .multiBulk, args := dn ++ List.replicate (rest.length + 1) [], multiBulkLen := (rest.length : Int) + 1, bulkLen := a.length } := by
    unfold multiTurn
    rw [if_pos rfl]
    simp only
    rw [crlf_at _ _ (cons_dec13 (by decide))]
    simp only
    have h0 : byteAt { buf := (36 :: dec a.length) ++ 13 :: 10 :: (a ++ t), slack := s, cmdType := .multiBulk, args := dn ++ List.replicate (rest.length + 1) [], multiBulkLen := (((rest.length + 1 : Nat)) : Int) } 0 = some 36 := by
      rw [show (0 : Int) = ((0 : Nat) : Int) by rfl, byteAt_nat (by simp)]; rfl
    rw [if_neg (by rw [h0]; simp)]
    have hnum : getNum { buf := (36 :: dec a.length) ++ 13 :: 10 :: (a ++ t), slack := s, cmdType := .multiBulk, args := dn ++ List.replicate (rest.length + 1) [], multiBulkLen := (((rest.length + 1 : Nat)) : Int) } (36 :: dec a.length).length = some (a.length : Int) := by
      unfold getNum
      simp only
      rw [List.take_left]
      exact atoi_dec ha
    rw [hnum]
    simp only [move]
    congr 2
    rw [show (36 :: dec a.length) ++ 13 :: 10 :: (a ++ t) = ((36 :: dec a.length) ++ CRLF) ++ (a ++ t) by simp [CRLF],
      show (36 :: dec a.length).length + 2 = ((36 :: dec a.length) ++ CRLF).length by simp [CRLF], List.drop_left]
  rw [key]
  generalize multiData _ = r
  rcases r with _ | (_ | _ | _) <;> rfl

/-- A read that ends directly before or inside the line end after the data of an argument. -/
theorem read_badCut {all : List Bytes} (hs : Sized all) {x : Bytes} (h : BadCut all x) (s : Nat) :
    read { slack := s } x = if (grow { slack := s }).slack ≤ x.length then none else some ([], none) := by
  obtain ⟨dn, a, rest, hall, hx⟩ := h
  have hx' : ∃ t, (t = [] ∨ t = [13]) ∧ x = dataEnd all.length dn a ++ t := by
    rcases hx with h | h
    · exact ⟨[], Or.inl rfl, by simpa using h⟩
    · exact ⟨[13], Or.inr rfl, h⟩
  obtain ⟨t, ht, hx⟩ := hx'
  have hbuf : (grow { slack := s }).buf = [] := by unfold grow; split <;> rfl
  have hg : grow { slack := s } = { slack := (grow { slack := s }).slack } := by unfold grow; split <;> rfl
  generalize hS : (grow { slack := s }).slack = S at *
  have hread : read { slack := s } x = processInput (x.length + 2) { buf := x, slack := S - x.length } := by
    unfold read
    rw [hg]
    simp
  rw [hread]
  obtain ⟨fuel, hp⟩ := parse_dataEnd hs hall t ht (S - x.length)
  rw [← hx] at hp
  have hne : x ≠ [] := by rw [hx]; simp [dataEnd]
  unfold processInput
  rw [if_pos (List.length_pos_iff.2 hne), hp]
  have hdata : ∀ z : Nat, multiData { buf := a ++ t, slack := z, cmdType := .multiBulk, args := dn ++ List.replicate (rest.length + 1) [], multiBulkLen := (rest.length : Int) + 1, bulkLen := a.length } =
      if z = 0 then none else some .err := by
    intro z
    unfold multiData
    rw [if_neg (by show ¬ (((a ++ t).length : Nat) : Int) < (a.length : Int); simp; omega)]
    rcases ht with rfl | rfl
    · by_cases hz : z = 0
      · subst hz
        simp [byteAt]
      · have : byteAt { buf := a ++ [], slack := z, cmdType := .multiBulk, args := dn ++ List.replicate (rest.length + 1) [], multiBulkLen := (rest.length : Int) + 1, bulkLen := a.length } (a.length : Int) = some 0 := by
          unfold byteAt
          simp
          omega
        simp only [this]
        simp [hz]
    · have h1 : byteAt { buf := a ++ [13], slack := z, cmdType := .multiBulk, args := dn ++ List.replicate (rest.length + 1) [], multiBulkLen := (rest.length : Int) + 1, bulkLen := a.length } (a.length : Int) = some 13 := by
        rw [byteAt_nat (by simp)]; simp
      simp only [h1]
      by_cases hz : z = 0
      · subst hz
        simp [byteAt]
      · have : byteAt { buf := a ++ [13], slack := z, cmdType := .multiBulk, args := dn ++ List.replicate (rest.length + 1) [], multiBulkLen := (rest.length : Int) + 1, bulkLen := a.length } ((a.length : Int) + 1) = some 0 := by
          unfold byteAt
          rw [if_neg (by omega), if_neg (by simp), if_pos (by simp; omega)]
        simp only [this]
        simp [hz]
  rw [hdata]
  by_cases hz : S ≤ x.length
  · rw [if_pos (by omega), if_pos hz]
  · rw [if_neg (by omega), if_neg hz]

end Metis.Conn
