import Verif.Proofs.Torn
import Verif.Spec.Chunks
/-!
Loading a log through reads that return fewer bytes than there is room for, or fail.
-/
set_option linter.unusedSectionVars false
set_option linter.unusedSimpArgs false
set_option linter.unusedVariables false
namespace Metis.Chunks
open Metis.Spec
open _root_.Metis.Aof (cut trimRight lengthOf line Sized cut_append cut_none_append dec_length line_length cut_line trim_line lengthOf_line bulk_line request_line pieceArg pieces_eq)

/-- What is left for the reader. -/
def Rd.rest (r : Rd) : Bytes := r.buf ++ r.src.bytes

theorem lengths_sum : ∀ (s : Src), (lengths s).sum = s.bytes.length
  | [] => rfl
  | .bytes c cs :: s => by simp only [lengths, Src.bytes, List.sum_cons, List.length_append, List.length_cons, lengths_sum s]
  | .error :: s => by simp only [lengths, Src.bytes, lengths_sum s]

theorem lengths_count : ∀ (s : Src), (lengths s).length ≤ s.bytes.length
  | [] => Nat.le_refl _
  | .bytes c cs :: s => by have := lengths_count s; simp only [lengths, Src.bytes, List.length_append, List.length_cons]; omega
  | .error :: s => by simp only [lengths, Src.bytes]; exact lengths_count s

/-! ### one read of the file -/

theorem fileRead_ok {n : Nat} (hn : 0 < n) {s s' : Src} {b : Bytes} (h : fileRead n s = .ok (b, s')) :
    b ++ s'.bytes = s.bytes ∧ 0 < b.length ∧ b.length ≤ n ∧ (.error ∈ s' ↔ .error ∈ s) := by
  match s, h with
  | .bytes c cs :: s, h =>
    simp only [fileRead, Res.ok.injEq, Prod.mk.injEq] at h
    obtain ⟨rfl, rfl⟩ := h
    refine ⟨?_, by simp; omega, by simp; omega, ?_⟩
    · conv => rhs; rw [Src.bytes, ← List.take_append_drop n (c :: cs)]
      rw [List.append_assoc]
      congr 1
      split
      · next h => rw [h]; rfl
      · next h => rw [h]; rfl
    · split <;> simp

theorem fileRead_eof {n : Nat} {s : Src} (h : fileRead n s = .eof) : s = [] := by
  match s, h with
  | [], _ => rfl

theorem fileRead_fail {n : Nat} {s : Src} (h : fileRead n s = .fail) : .error ∈ s := by
  match s, h with
  | .error :: s, _ => simp

theorem fileRead_next {n : Nat} (hn : 0 < n) {s : Src} {c : Nat} {cs : List Nat} (h : lengths s = c :: cs) (he : .error ∉ s) :
    ∃ b s', fileRead n s = .ok (b, s') ∧ b.length = min c n ∧ lengths s' = (if c ≤ n then cs else (c - n) :: cs) ∧ 0 < c := by
  match s, h, he with
  | .error :: s, _, he => exact absurd (by simp) he
  | .bytes x xs :: s, h, he =>
    simp only [lengths, List.cons.injEq] at h
    obtain ⟨rfl, rfl⟩ := h
    refine ⟨_, _, rfl, by simp [Nat.min_comm], ?_, by omega⟩
    split
    · next hd =>
      have := congrArg List.length hd
      simp at this
      rw [if_pos (by omega)]
    · next d ds hd =>
      have := congrArg List.length hd
      simp at this
      rw [if_neg (by omega)]
      simp only [lengths, List.cons.injEq, and_true]
      omega

/-! ### lines -/

theorem readBytes_ok {cap : Nat} : ∀ {k : Nat} {acc : Bytes} {r r' : Rd} {l : Bytes}, readBytes cap k acc r = .ok (l, r') →
    acc ++ r.rest = l ++ r'.rest ∧ acc.length < l.length ∧ (.error ∈ r'.src ↔ .error ∈ r.src)
  | 0, acc, r, r', l, h => by cases h
  | k + 1, acc, r, r', l, h => by
    simp only [readBytes] at h
    split at h
    · next l1 rest hc =>
      simp only [Res.ok.injEq, Prod.mk.injEq] at h
      obtain ⟨rfl, rfl⟩ := h
      have e : ∀ (b l rest : Bytes), cut b = some (l, rest) → b = l ++ rest ∧ 0 < l.length := by
        intro b
        induction b with
        | nil => intro l rest h; cases h
        | cons x b ih =>
          intro l rest h
          simp only [cut] at h
          split at h
          · next hx => cases h; subst hx; simp
          · cases h2 : cut b with
            | none => rw [h2] at h; cases h
            | some p => rw [h2] at h; cases h; obtain ⟨e1, e2⟩ := ih p.1 p.2 h2; exact ⟨by rw [e1]; rfl, by simp⟩
      obtain ⟨e1, e2⟩ := e _ _ _ hc
      refine ⟨?_, by simp; omega, Iff.rfl⟩
      simp only [Rd.rest, e1, List.append_assoc]
    · split at h
      · obtain ⟨h1, h2, h3⟩ := readBytes_ok h
        refine ⟨?_, ?_, h3⟩
        · rw [← h1]; simp [Rd.rest]
        · simp at h2; omega
      · next hlt =>
        split at h
        · next b src hf =>
          obtain ⟨f1, f2, f3, f4⟩ := fileRead_ok (by omega) hf
          obtain ⟨h1, h2, h3⟩ := readBytes_ok h
          refine ⟨?_, h2, h3.trans f4⟩
          rw [← h1]
          simp only [Rd.rest, ← f1, List.append_assoc]
        · cases h
        · cases h

/-- The end of the file is reported only there. -/
theorem readBytes_eof {cap : Nat} (h0 : 0 < cap) : ∀ {k : Nat} {acc : Bytes} {r : Rd}, 2 * r.src.bytes.length + (if r.buf.length ≥ cap then 2 else 1) ≤ k →
    readBytes cap k acc r = .eof → .error ∉ r.src
  | 0, acc, r, hk, h => by split at hk <;> omega
  | k + 1, acc, r, hk, h => by
    simp only [readBytes] at h
    split at h
    · cases h
    · split at h
      · next hge =>
        rw [if_pos hge] at hk
        exact readBytes_eof h0 (r := { r with buf := [] }) (by simp only [List.length_nil]; rw [if_neg (by omega)]; omega) h
      · next hlt =>
        rw [if_neg hlt] at hk
        split at h
        · next b src hf =>
          obtain ⟨f1, f2, f3, f4⟩ := fileRead_ok (by omega) hf
          rw [← f4]
          have := congrArg List.length f1
          simp at this
          exact readBytes_eof h0 (r := { buf := r.buf ++ b, src }) (by simp only; split <;> omega) h
        · next hf => rw [fileRead_eof hf]; simp
        · cases h

/-- If there is a line, it is found. -/
theorem readBytes_found {cap : Nat} (h0 : 0 < cap) : ∀ {k : Nat} {acc : Bytes} {r : Rd} {l rest : Bytes}, cut r.rest = some (l, rest) → .error ∉ r.src →
    2 * r.src.bytes.length + (if r.buf.length ≥ cap then 2 else 1) ≤ k → ∃ r', readBytes cap k acc r = .ok (acc ++ l, r')
  | 0, acc, r, l, rest, _, _, hk => by split at hk <;> omega
  | k + 1, acc, r, l, rest, h, he, hk => by
    simp only [readBytes]
    cases hc : cut r.buf with
    | some p =>
      rw [Rd.rest, cut_append (a := p.1) (b := p.2) hc] at h
      cases h
      exact ⟨_, rfl⟩
    | none =>
      simp only
      by_cases hge : r.buf.length ≥ cap
      · rw [if_pos hge] at hk ⊢
        rw [Rd.rest, cut_none_append hc] at h
        cases h2 : cut r.src.bytes with
        | none => rw [h2] at h; cases h
        | some p =>
          rw [h2] at h
          cases h
          obtain ⟨r', hr⟩ := readBytes_found h0 (k := k) (acc := acc ++ r.buf) (r := { r with buf := [] }) (l := p.1) (rest := p.2) (by simpa [Rd.rest] using h2) he
            (by simp only [List.length_nil]; rw [if_neg (by omega)]; omega)
          exact ⟨r', by rw [hr]; simp⟩
      · rw [if_neg hge] at hk ⊢
        cases hf : fileRead (cap - r.buf.length) r.src with
        | ok q =>
          obtain ⟨b, src⟩ := q
          obtain ⟨f1, f2, f3, f4⟩ := fileRead_ok (by omega) hf
          have := congrArg List.length f1
          simp at this
          exact readBytes_found h0 (r := { buf := r.buf ++ b, src }) (by rw [← h]; simp only [Rd.rest, ← f1, List.append_assoc]) (fun hx => he (f4.1 hx))
            (by simp only; split <;> omega)
        | eof =>
          rw [Rd.rest, fileRead_eof hf] at h
          simp [Src.bytes, hc] at h
        | fail => exact absurd (fileRead_fail hf) he

theorem readLine_ok {cap : Nat} {r r' : Rd} {l : Bytes} (h : readLine cap r = .ok (l, r')) :
    r'.rest.length < r.rest.length ∧ (.error ∈ r'.src ↔ .error ∈ r.src) := by
  unfold readLine at h
  split at h
  · next l1 r1 h1 =>
    cases h
    obtain ⟨e1, e2, e3⟩ := readBytes_ok h1
    refine ⟨?_, e3⟩
    have := congrArg List.length e1
    simp at this e2
    omega
  · cases h
  · cases h

theorem readLine_eof {cap : Nat} (h0 : 0 < cap) {r : Rd} (h : readLine cap r = .eof) : .error ∉ r.src := by
  unfold readLine at h
  split at h
  · cases h
  · next h1 => exact readBytes_eof h0 (by split <;> omega) h1
  · cases h

/-! ### data -/

theorem read_ok {cap n : Nat} (h0 : 0 < cap) {r r' : Rd} {d : Bytes} (h : read cap n r = some (d, r')) :
    r.rest = d ++ r'.rest ∧ d.length ≤ n ∧ (0 < n → 0 < d.length) ∧ (.error ∈ r'.src ↔ .error ∈ r.src) := by
  unfold read at h
  split at h
  · next hn => cases h; exact ⟨rfl, by simp, fun h => by omega, Iff.rfl⟩
  · next hn =>
    split at h
    · next hb =>
      cases h
      refine ⟨by simp only [Rd.rest, ← List.append_assoc, List.take_append_drop], by simp; omega, fun _ => ?_, Iff.rfl⟩
      have := List.length_pos_iff.2 hb
      simp; omega
    · next hb =>
      have hb : r.buf = [] := by simpa using hb
      split at h
      · split at h
        · next b src hf =>
          cases h
          obtain ⟨f1, f2, f3, f4⟩ := fileRead_ok (by omega) hf
          exact ⟨by simp only [Rd.rest, hb, ← f1, List.nil_append], f3, fun _ => f2, f4⟩
        · cases h
      · split at h
        · next b src hf =>
          cases h
          obtain ⟨f1, f2, f3, f4⟩ := fileRead_ok (by omega) hf
          refine ⟨by simp only [Rd.rest, hb, ← f1, List.nil_append, ← List.append_assoc, List.take_append_drop], by simp; omega, fun _ => by simp; omega, f4⟩
        · cases h

theorem readArg_ok {cap : Nat} (h0 : 0 < cap) {r r' : Rd} {a : Bytes} (h : readArg cap r = some (a, r')) :
    r'.rest.length ≤ r.rest.length ∧ (.error ∈ r'.src ↔ .error ∈ r.src) := by
  unfold readArg at h
  split at h
  · next l r1 h1 =>
    obtain ⟨a1, a2⟩ := readLine_ok h1
    simp only [Option.bind_eq_bind, Option.bind_eq_some_iff] at h
    obtain ⟨n, h2, ⟨d, r2⟩, h3, ⟨d2, r3⟩, h4, h5⟩ := h
    cases h5
    obtain ⟨b1, b2, b3, b4⟩ := read_ok h0 h3
    obtain ⟨c1, c2, c3, c4⟩ := read_ok h0 h4
    have e1 := congrArg List.length b1
    have e2 := congrArg List.length c1
    simp at e1 e2
    exact ⟨by show r3.rest.length ≤ _; omega, c4.trans (b4.trans a2)⟩
  · cases h

theorem readArgs_ok {cap : Nat} (h0 : 0 < cap) : ∀ {n : Nat} {r r' : Rd} {as : List Bytes}, readArgs cap n r = some (as, r') →
    r'.rest.length ≤ r.rest.length ∧ (.error ∈ r'.src ↔ .error ∈ r.src)
  | 0, r, r', as, h => by cases h; exact ⟨Nat.le_refl _, Iff.rfl⟩
  | n + 1, r, r', as, h => by
    simp only [readArgs, Option.bind_eq_bind, Option.bind_eq_some_iff] at h
    obtain ⟨⟨a, r1⟩, h1, ⟨as1, r2⟩, h2, h3⟩ := h
    cases h3
    obtain ⟨a1, a2⟩ := readArg_ok h0 h1
    obtain ⟨b1, b2⟩ := readArgs_ok h0 h2
    have a1 : r1.rest.length ≤ r.rest.length := a1
    have b1 : r2.rest.length ≤ r1.rest.length := b1
    exact ⟨by show r2.rest.length ≤ _; omega, b2.trans a2⟩

/-- A failing read is always met. -/
theorem records_error {cap : Nat} (h0 : 0 < cap) : ∀ {k : Nat} {r : Rd}, .error ∈ r.src → r.rest.length < k → records cap k r = none
  | 0, r, he, hk => by omega
  | k + 1, r, he, hk => by
    simp only [records]
    cases h1 : readLine cap r with
    | eof => exact absurd he (readLine_eof h0 h1)
    | fail => rfl
    | ok p =>
      obtain ⟨l, r1⟩ := p
      obtain ⟨a1, a2⟩ := readLine_ok h1
      simp only [Option.bind_eq_bind]
      cases h2 : lengthOf 42 l with
      | none => rfl
      | some n =>
        simp only [Option.bind_some]
        cases h3 : readArgs cap n r1 with
        | none => rfl
        | some q =>
          obtain ⟨as, r2⟩ := q
          obtain ⟨b1, b2⟩ := readArgs_ok h0 h3
          simp only [Option.bind_some]
          rw [records_error h0 (b2.2 (a2.2 he)) (by omega)]
          split <;> rfl

theorem parse_error {cap : Nat} (h0 : 0 < cap) {src : Src} (h : .error ∈ src) : parse cap src = none :=
  records_error h0 h (by simp [Rd.rest])

/-! ### logs -/

/-- The reader holds `m` bytes; the next reads find `cs` bytes each; `s` is left. -/
structure At (s : Bytes) (m : Nat) (cs : List Nat) (r : Rd) : Prop where
  rest  : r.rest = s
  held  : r.buf.length = m
  next  : lengths r.src = cs
  clean : .error ∉ r.src

theorem At.len {s : Bytes} {m : Nat} {cs : List Nat} {r : Rd} (h : At s m cs r) : s.length = m + cs.sum := by
  rw [← h.rest, ← h.held, ← h.next, lengths_sum]; simp [Rd.rest]

/-- One more read into the buffer. -/
theorem At.fill {s : Bytes} {m c : Nat} {cs : List Nat} {r : Rd} {n : Nat} (hn : 0 < n) (h : At s m (c :: cs) r) :
    ∃ b src, fileRead n r.src = .ok (b, src) ∧ At s (m + min c n) (if c ≤ n then cs else (c - n) :: cs) ⟨r.buf ++ b, src⟩ := by
  obtain ⟨b, src, h1, h2, h3, h4⟩ := fileRead_next hn h.next h.clean
  obtain ⟨f1, f2, f3, f4⟩ := fileRead_ok hn h1
  exact ⟨b, src, h1, by rw [← h.rest]; simp only [Rd.rest, ← f1, List.append_assoc], by simp [h.held, h2], h3, fun hx => h.clean (f4.1 hx)⟩

theorem fetch_le {cap n : Nat} : ∀ {cs : List Nat} {m m' : Nat} {cs' : List Nat}, m ≤ cap → fetch cap n m cs = some (m', cs') → m' ≤ cap
  | [], m, m', cs', hm, h => by
    simp only [fetch] at h
    split at h
    · cases h; exact hm
    · cases h
  | c :: cs, m, m', cs', hm, h => by
    simp only [fetch] at h
    split at h
    · cases h; exact hm
    · split at h
      · exact fetch_le (by omega) h
      · cases h; exact Nat.le_refl _

/-- The prefix of a line has no line feed. -/
theorem cut_prefix {c : UInt8} (hc : c ≠ 10) {n : Nat} {b t s : Bytes} (h : b ++ t = line c n ++ s) (hl : b.length < (line c n).length) : cut b = none := by
  cases hb : cut b with
  | none => rfl
  | some p =>
    exfalso
    have h1 := cut_append (r := t) (a := p.1) (b := p.2) hb
    rw [h, cut_line c hc n s] at h1
    simp only [Option.some.injEq, Prod.mk.injEq] at h1
    have e : ∀ (b l rest : Bytes), cut b = some (l, rest) → b = l ++ rest := by
      intro b
      induction b with
      | nil => intro l rest h; cases h
      | cons x b ih =>
        intro l rest h
        simp only [cut] at h
        split at h
        · next hx => cases h; subst hx; simp
        · cases h2 : cut b with
          | none => rw [h2] at h; cases h
          | some p => rw [h2] at h; cases h; rw [ih p.1 p.2 h2]; rfl
    have := congrArg List.length (e b p.1 p.2 hb)
    rw [← h1.1] at this
    simp at this
    omega

theorem readBytes_held {cap : Nat} {c : UInt8} (hc : c ≠ 10) {n : Nat} (s : Bytes) {cs : List Nat} {m k : Nat} {r : Rd}
    (h : At (line c n ++ s) m cs r) (hle : (line c n).length ≤ m) : ∃ r', fetch cap (line c n).length m cs = some (m, cs) ∧
      readBytes cap (k + 1) [] r = .ok (line c n, r') ∧ At s (m - (line c n).length) cs r' := by
  have e : r.buf = line c n ++ r.buf.drop (line c n).length := by
    have h1 := h.rest
    unfold Rd.rest at h1
    have h2 := congrArg (List.take (line c n).length) h1
    rw [List.take_append_of_le_length (by rw [h.held]; exact hle), List.take_left] at h2
    conv => lhs; rw [← List.take_append_drop (line c n).length r.buf, h2]
  refine ⟨⟨r.buf.drop (line c n).length, r.src⟩, ?_, ?_, ?_, by simp [h.held], h.next, h.clean⟩
  · cases cs <;> simp only [fetch, if_pos hle]
  · simp only [readBytes]
    rw [e, cut_line c hc n]
    simp
  · have h1 := h.rest
    unfold Rd.rest at h1 ⊢
    rw [e, List.append_assoc] at h1
    exact List.append_cancel_left h1

theorem readBytes_at {cap : Nat} {c : UInt8} (hc : c ≠ 10) {n : Nat} (s : Bytes) (hcap : (line c n).length ≤ cap) : ∀ {cs : List Nat} {m k : Nat} {r : Rd}, m ≤ cap →
    At (line c n ++ s) m cs r → cs.length < k → ∃ m' cs' r', fetch cap (line c n).length m cs = some (m', cs') ∧
      readBytes cap k [] r = .ok (line c n, r') ∧ At s (m' - (line c n).length) cs' r'
  | cs, m, 0, r, _, _, hk => by omega
  | cs, m, k + 1, r, hm, h, hk => by
    by_cases hle : (line c n).length ≤ m
    · obtain ⟨r', g1, g2, g3⟩ := readBytes_held (cap := cap) hc s (k := k) h hle
      exact ⟨m, cs, r', g1, g2, g3⟩
    · have hnone : cut r.buf = none := cut_prefix hc (t := r.src.bytes) (s := s) (n := n) h.rest (by rw [h.held]; omega)
      match cs, h, hk with
      | [], h, hk => have := h.len; simp at this; omega
      | x :: cs, h, hk =>
        obtain ⟨b, src, f1, f2⟩ := h.fill (n := cap - m) (by omega)
        simp only [fetch, if_neg hle, readBytes, hnone, h.held]
        rw [if_neg (show ¬ m ≥ cap by omega)]
        simp only [f1]
        by_cases hx : x ≤ cap - m
        · rw [if_pos hx] at f2 ⊢
          rw [Nat.min_eq_left hx] at f2
          exact readBytes_at hc s hcap (by omega) f2 (by simpa using hk)
        · rw [if_neg hx] at f2 ⊢
          rw [Nat.min_eq_right (by omega), show m + (cap - m) = cap by omega] at f2
          obtain ⟨k', rfl⟩ : ∃ k', k = k' + 1 := ⟨k - 1, by simp at hk; omega⟩
          obtain ⟨r', g1, g2, g3⟩ := readBytes_held (cap := cap) hc s (k := k') f2 hcap
          exact ⟨_, _, r', rfl, g2, g3⟩

theorem readLine_at {cap : Nat} {c : UInt8} (hc : c ≠ 10) {n : Nat} (hn : n < 2 ^ 63) (hcap : 22 ≤ cap) {s : Bytes} {m : Nat} {cs : List Nat} {r : Rd} (hm : m ≤ cap)
    (h : At (line c n ++ s) m cs r) : ∃ m' cs' r', fetch cap ((dec n).length + 3) m cs = some (m', cs') ∧ m' ≤ cap ∧
      readLine cap r = .ok (c :: dec n, r') ∧ At s (m' - ((dec n).length + 3)) cs' r' := by
  have h1 := line_length c n
  have h2 := dec_length hn
  have h3 := lengths_count r.src
  rw [h.next] at h3
  obtain ⟨m', cs', r', g1, g2, g3⟩ := readBytes_at hc s (n := n) (by omega) (k := 2 * r.src.bytes.length + 2) hm h (by omega)
  rw [h1] at g1 g3
  refine ⟨m', cs', r', g1, fetch_le hm g1, ?_, g3⟩
  simp only [readLine, g2, trim_line]

/-- The next line is no header. -/
def Stuck (cap : Nat) (r : Rd) : Prop := ∃ l r', readLine cap r = .ok (l, r') ∧ lengthOf 36 l = none ∧ lengthOf 42 l = none

theorem stuck_of {cap : Nat} (h0 : 0 < cap) {r : Rd} (he : .error ∉ r.src) {l rest : Bytes} (h : cut r.rest = some (l, rest))
    (hl : ∀ x, (trimRight l).head? = some x → x ≠ 36 ∧ x ≠ 42) : Stuck cap r := by
  obtain ⟨r', hr⟩ := readBytes_found h0 (k := 2 * r.src.bytes.length + 2) (acc := []) h he (by split <;> omega)
  refine ⟨trimRight l, r', by simp only [readLine, hr, List.nil_append], ?_, ?_⟩
  · cases ht : trimRight l with
    | nil => rfl
    | cons x xs => simp only [lengthOf]; rw [if_pos (hl x (by rw [ht]; rfl)).1]
  · cases ht : trimRight l with
    | nil => rfl
    | cons x xs => simp only [lengthOf]; rw [if_pos (hl x (by rw [ht]; rfl)).2]

theorem stuck_lf {cap : Nat} (h0 : 0 < cap) {r : Rd} (he : .error ∉ r.src) {s : Bytes} (h : r.rest = 10 :: s) : Stuck cap r := by
  refine stuck_of h0 he (l := [10]) (rest := s) (by rw [h]; simp [cut]) ?_
  intro x hx; simp [trimRight] at hx

theorem stuck_crlf {cap : Nat} (h0 : 0 < cap) {r : Rd} (he : .error ∉ r.src) {s : Bytes} (h : r.rest = 13 :: 10 :: s) : Stuck cap r := by
  refine stuck_of h0 he (l := [13, 10]) (rest := s) (by rw [h]; simp [cut]) ?_
  intro x hx; simp [trimRight] at hx

theorem stuck_zero {cap : Nat} (h0 : 0 < cap) {r : Rd} (he : .error ∉ r.src) {k : Nat} {s : Bytes} (h : r.rest = List.replicate (k + 1) 0 ++ (CRLF ++ s)) : Stuck cap r := by
  have e : r.rest = (List.replicate (k + 1) 0 ++ [13]) ++ 10 :: s := by rw [h]; simp [CRLF]
  refine stuck_of h0 he (l := (List.replicate (k + 1) 0 ++ [13]) ++ [10]) (rest := s) ?_ ?_
  · rw [e]
    refine Aof.cut_some ?_
    intro c hc
    rcases List.mem_append.1 hc with hc | hc
    · rw [(List.mem_replicate.1 hc).2]; decide
    · rw [List.mem_singleton] at hc; rw [hc]; decide
  · intro x hx
    have := Aof.trim_head hx
    simp [List.replicate_succ] at this
    subst this; decide

/-- One or two bytes are taken of zeros and the line end behind them: no header follows. -/
theorem stuck_rest {cap : Nat} (h0 : 0 < cap) {r r' : Rd} (he : .error ∉ r.src) {k : Nat} {s d : Bytes} (h : r.rest = List.replicate (k + 1) 0 ++ (CRLF ++ s))
    (hr : read cap 2 r = some (d, r')) : Stuck cap r' := by
  obtain ⟨b1, b2, b3, b4⟩ := read_ok h0 hr
  have b3 := b3 (by decide)
  have he' : .error ∉ r'.src := fun hx => he (b4.1 hx)
  have hd : r'.rest = (List.replicate (k + 1) 0 ++ (CRLF ++ s)).drop d.length := by rw [← h, b1, List.drop_left]
  obtain hd1 | hd1 : d.length = 1 ∨ d.length = 2 := by omega
  · rw [hd1] at hd
    match k, hd with
    | 0, hd => exact stuck_crlf h0 he' (s := s) (by rw [hd]; rfl)
    | k + 1, hd => exact stuck_zero h0 he' (k := k) (s := s) (by rw [hd]; simp [List.replicate_succ])
  · rw [hd1] at hd
    match k, hd with
    | 0, hd => exact stuck_lf h0 he' (s := s) (by rw [hd]; rfl)
    | 1, hd => exact stuck_crlf h0 he' (s := s) (by rw [hd]; rfl)
    | k + 2, hd => exact stuck_zero h0 he' (k := k) (s := s) (by rw [hd]; simp [List.replicate_succ])

theorem grasp_le {cap n m m' : Nat} {cs cs' : List Nat} (hm : m ≤ cap) (h : grasp cap n m cs = some (m', cs')) : m' ≤ cap := by
  unfold grasp at h
  split at h
  · cases h; omega
  · split at h
    · cases h
    · split at h
      · cases h
      · split at h
        · cases h
        · split at h
          · cases h; omega
          · split at h <;> cases h <;> omega

/-- Data that are not cut. -/
theorem read_at {cap : Nat} (h0 : 0 < cap) {a s : Bytes} {m m' : Nat} {cs cs' : List Nat} {r : Rd} (h : At (a ++ s) m cs r)
    (hg : grasp cap a.length m cs = some (m', cs')) : ∃ r', read cap a.length r = some (a, r') ∧ At s m' cs' r' := by
  suffices hx : ∃ d r', read cap a.length r = some (d, r') ∧ d.length = a.length ∧ r'.buf.length = m' ∧ lengths r'.src = cs' by
    obtain ⟨d, r', x1, x2, x3, x4⟩ := hx
    obtain ⟨b1, b2, b3, b4⟩ := read_ok h0 x1
    rw [h.rest] at b1
    obtain ⟨rfl, e⟩ := List.append_inj b1 x2.symm
    exact ⟨r', x1, e.symm, x3, x4, fun hx => h.clean (b4.1 hx)⟩
  by_cases ha : a.length = 0
  · rw [ha] at hg ⊢
    simp only [grasp, Nat.zero_le, if_true, Nat.sub_zero] at hg
    cases hg
    exact ⟨[], r, by simp [read], rfl, h.held, h.next⟩
  unfold grasp at hg
  split at hg
  · next hle =>
    cases hg
    have hb : r.buf ≠ [] := by intro hb; have := h.held; rw [hb] at this; simp at this; omega
    refine ⟨r.buf.take a.length, ⟨r.buf.drop a.length, r.src⟩, by simp only [read, if_neg ha, if_pos hb], ?_, by simp [h.held], h.next⟩
    rw [List.length_take, h.held]; omega
  · next hlt =>
    split at hg
    · cases hg
    · next hm =>
      have hm : m = 0 := by simpa using hm
      subst hm
      have hb : r.buf = [] := List.length_eq_zero_iff.1 h.held
      match cs, h, hg with
      | [], h, hg => cases hg
      | c :: cs, h, hg =>
        simp only at hg
        split at hg
        · cases hg
        · next hcn =>
          simp only [read, if_neg ha, hb]
          rw [if_neg (by simp)]
          split at hg
          · next hcap =>
            obtain ⟨b, src, f1, f2⟩ := h.fill (n := a.length) (by omega)
            rw [if_pos hcap]
            simp only [f1]
            cases hg
            have h2 := f2.held
            rw [hb] at h2
            simp only [List.nil_append] at h2
            refine ⟨b, ⟨[], src⟩, rfl, by omega, rfl, ?_⟩
            have h3 := f2.next
            simp only at h3
            rw [h3]
            by_cases hc : c = a.length
            · rw [if_pos hc, if_pos (by omega)]
            · rw [if_neg hc, if_neg (by omega)]
          · next hcap =>
            obtain ⟨b, src, f1, f2⟩ := h.fill (n := cap) h0
            rw [if_neg hcap]
            simp only [f1]
            have h2 := f2.held
            rw [hb] at h2
            simp only [List.nil_append] at h2
            have h3 := f2.next
            simp only at h3
            split at hg <;> next hcc =>
              cases hg
              refine ⟨b.take a.length, ⟨b.drop a.length, src⟩, rfl, by rw [List.length_take]; omega, by rw [List.length_drop]; omega, ?_⟩
              simp only [h3]
              first | rw [if_pos hcc] | rw [if_neg hcc]

/-- Data that are cut: only the first bytes are read. -/
theorem read_short {cap : Nat} (h0 : 0 < cap) {a s : Bytes} {m : Nat} {cs : List Nat} {r : Rd} (h : At (a ++ s) m cs r) (hs : 0 < m ∨ cs ≠ [])
    (hg : grasp cap a.length m cs = none) : ∃ d r', read cap a.length r = some (d, r') ∧ d.length < a.length := by
  unfold grasp at hg
  split at hg
  · cases hg
  · next hlt =>
    have ha : ¬ a.length = 0 := by omega
    by_cases hm : m ≠ 0
    · have hb : r.buf ≠ [] := by intro hb; have := h.held; rw [hb] at this; simp at this; omega
      refine ⟨_, _, by simp only [read, if_neg ha, if_pos hb]; rfl, ?_⟩
      rw [List.length_take, h.held]; omega
    · rw [if_neg hm] at hg
      have hm : m = 0 := by simpa using hm
      subst hm
      have hb : r.buf = [] := List.length_eq_zero_iff.1 h.held
      match cs, h, hg, hs with
      | [], h, hg, hs => simp at hs
      | c :: cs, h, hg, hs =>
        simp only at hg
        have hcn : c < a.length := by
          by_contra hc
          rw [if_neg hc] at hg
          split at hg
          · cases hg
          · split at hg <;> cases hg
        simp only [read, if_neg ha, hb]
        rw [if_neg (by simp)]
        by_cases hcap : a.length ≥ cap
        · obtain ⟨b, src, f1, f2⟩ := h.fill (n := a.length) (by omega)
          have h2 := f2.held
          rw [hb] at h2
          simp only [List.nil_append] at h2
          rw [if_pos hcap]
          simp only [f1]
          exact ⟨_, _, rfl, by omega⟩
        · obtain ⟨b, src, f1, f2⟩ := h.fill (n := cap) h0
          have h2 := f2.held
          rw [hb] at h2
          simp only [List.nil_append] at h2
          rw [if_neg hcap]
          simp only [f1]
          exact ⟨_, _, rfl, by rw [List.length_take]; omega⟩

theorem pass_append {cap : Nat} : ∀ (ps qs : List Piece) (m : Nat) (cs : List Nat), pass cap m cs (ps ++ qs) = (pass cap m cs ps).bind (fun p => pass cap p.1 p.2 qs)
  | [], qs, m, cs => rfl
  | .line n :: ps, qs, m, cs => by
    simp only [List.cons_append, pass, Option.bind_eq_bind]
    cases fetch cap n m cs with
    | none => rfl
    | some p => simp only [Option.bind_some, pass_append ps qs]
  | .data n :: ps, qs, m, cs => by
    simp only [List.cons_append, pass, Option.bind_eq_bind]
    cases grasp cap n m cs with
    | none => rfl
    | some p => simp only [Option.bind_some, pass_append ps qs]

/-- One argument. -/
theorem readArg_at {cap : Nat} (hcap : 22 ≤ cap) {a s : Bytes} (ha : a.length < 2 ^ 63) {m : Nat} {cs : List Nat} {r : Rd} (hm : m ≤ cap) (h : At (Spec.bulk a ++ s) m cs r) :
    (∀ m' cs', pass cap m cs (pieceArg a) = some (m', cs') → m' ≤ cap ∧ ∃ r', readArg cap r = some (a, r') ∧ At s m' cs' r') ∧
    (pass cap m cs (pieceArg a) = none → ∀ r', readArg cap r = some (a, r') → Stuck cap r') := by
  have e : Spec.bulk a ++ s = line 36 a.length ++ (a ++ (CRLF ++ s)) := by rw [bulk_line]; simp
  rw [e] at h
  obtain ⟨m1, cs1, r1, g1, g2, g3, g4⟩ := readLine_at (by decide) ha hcap hm h
  have hm1 : m1 - ((dec a.length).length + 3) ≤ cap := by omega
  simp only [pieceArg, header, pass, g1, Option.bind_eq_bind, Option.bind_some, readArg, g3, lengthOf_line 36 ha]
  generalize m1 - ((dec a.length).length + 3) = m2 at *
  cases hg : grasp cap a.length m2 cs1 with
  | some p =>
    obtain ⟨m3, cs3⟩ := p
    have hm3 := grasp_le hm1 hg
    obtain ⟨r2, k1, k2⟩ := read_at (by omega) g4 hg
    simp only [k1, Option.bind_some, Nat.sub_self, List.replicate_zero, List.append_nil]
    cases hg2 : grasp cap 2 m3 cs3 with
    | some q =>
      obtain ⟨m4, cs4⟩ := q
      obtain ⟨r3, k3, k4⟩ := read_at (a := CRLF) (by omega) k2 hg2
      have k3 : read cap 2 r2 = some (CRLF, r3) := k3
      simp only [k3, Option.bind_some, Option.some.injEq, Prod.mk.injEq]
      refine ⟨?_, fun h => by cases h⟩
      rintro m' cs' ⟨rfl, rfl⟩
      exact ⟨grasp_le hm3 hg2, r3, by simp, k4⟩
    | none =>
      simp only [Option.bind_none]
      refine ⟨fun _ _ h => (by cases h), fun _ r' hr => ?_⟩
      cases k3 : read cap 2 r2 with
      | none => rw [k3] at hr; cases hr
      | some q =>
        obtain ⟨d, r3⟩ := q
        rw [k3] at hr
        simp only [Option.bind_some, Option.some.injEq, Prod.mk.injEq, true_and] at hr
        subst hr
        obtain ⟨b1, b2, b3, b4⟩ := read_ok (by omega) k3
        have b3 := b3 (by decide)
        have hs : 0 < m3 ∨ cs3 ≠ [] := by
          have := k2.len
          cases cs3 with
          | nil => left; simp [CRLF] at this; omega
          | cons => right; simp
        obtain ⟨d', r'', k5, k6⟩ := read_short (a := CRLF) (by omega) k2 hs hg2
        have k5 : read cap 2 r2 = some (d', r'') := k5
        rw [k3] at k5
        cases k5
        have hd : d.length = 1 := by
          have : CRLF.length = 2 := rfl
          omega
        refine stuck_lf (by omega) (fun hx => k2.clean (b4.1 hx)) (s := s) ?_
        rw [k2.rest] at b1
        match d, hd with
        | [x], _ =>
          simp only [CRLF, List.cons_append, List.nil_append, List.cons.injEq] at b1
          exact b1.2.symm
  | none =>
    simp only [Option.bind_none]
    refine ⟨fun _ _ h => (by cases h), fun _ r' hr => ?_⟩
    have hs : 0 < m2 ∨ cs1 ≠ [] := by
      have := g4.len
      cases cs1 with
      | nil => left; simp [CRLF] at this; omega
      | cons => right; simp
    obtain ⟨d, r2, k1, k2⟩ := read_short (by omega) g4 hs hg
    rw [k1] at hr
    simp only [Option.bind_some] at hr
    obtain ⟨b1, b2, b3, b4⟩ := read_ok (by omega) k1
    cases k3 : read cap 2 r2 with
    | none => rw [k3] at hr; cases hr
    | some q =>
      obtain ⟨d2, r3⟩ := q
      rw [k3] at hr
      simp only [Option.bind_some, Option.some.injEq, Prod.mk.injEq] at hr
      obtain ⟨hz, rfl⟩ := hr
      obtain ⟨k, hk⟩ : ∃ k, a.length - d.length = k + 1 := ⟨a.length - d.length - 1, by omega⟩
      rw [hk] at hz
      refine stuck_rest (by omega) (fun hx => g4.clean (b4.1 hx)) (k := k) (s := s) ?_ k3
      rw [g4.rest, ← hz, List.append_assoc] at b1
      exact (List.append_cancel_left b1).symm

/-- All arguments of a record. -/
theorem readArgs_at {cap : Nat} (hcap : 22 ≤ cap) : ∀ (args : List Bytes) {s : Bytes} {m : Nat} {cs : List Nat} {r : Rd}, m ≤ cap → (∀ a ∈ args, a.length < 2 ^ 63) →
    At ((args.map Spec.bulk).flatten ++ s) m cs r →
    (∀ m' cs', pass cap m cs (args.flatMap pieceArg) = some (m', cs') → m' ≤ cap ∧ ∃ r', readArgs cap args.length r = some (args, r') ∧ At s m' cs' r') ∧
    (pass cap m cs (args.flatMap pieceArg) = none → ∀ r', readArgs cap args.length r = some (args, r') → Stuck cap r')
  | [], s, m, cs, r, hm, _, h => ⟨fun m' cs' h2 => by cases h2; exact ⟨hm, r, rfl, h⟩, fun h => by cases h⟩
  | a :: as, s, m, cs, r, hm, ha, h => by
    have e : ((a :: as).map Spec.bulk).flatten ++ s = Spec.bulk a ++ ((as.map Spec.bulk).flatten ++ s) := by simp
    rw [e] at h
    obtain ⟨i1, i2⟩ := readArg_at hcap (ha a (by simp)) hm h
    rw [List.flatMap_cons, pass_append]
    simp only [List.length_cons, readArgs, Option.bind_eq_bind]
    cases hp : pass cap m cs (pieceArg a) with
    | some p =>
      obtain ⟨m1, cs1⟩ := p
      obtain ⟨hm1, r1, k1, k2⟩ := i1 m1 cs1 hp
      obtain ⟨j1, j2⟩ := readArgs_at hcap as hm1 (fun x hx => ha x (by simp [hx])) k2
      simp only [k1, Option.bind_some]
      constructor
      · intro m' cs' h2
        obtain ⟨hm', r', q1, q2⟩ := j1 m' cs' h2
        exact ⟨hm', r', by rw [q1]; rfl, q2⟩
      · intro h2 r' hr
        cases hq : readArgs cap as.length r1 with
        | none => rw [hq] at hr; cases hr
        | some q =>
          obtain ⟨as', r2⟩ := q
          rw [hq] at hr
          simp only [Option.bind_some, Option.some.injEq, Prod.mk.injEq, List.cons.injEq, true_and] at hr
          obtain ⟨rfl, rfl⟩ := hr
          exact j2 h2 _ hq
    | none =>
      simp only [Option.bind_none]
      refine ⟨fun _ _ h => (by cases h), fun _ r' hr => ?_⟩
      cases hq : readArg cap r with
      | none => rw [hq] at hr; cases hr
      | some q =>
        obtain ⟨b, r1⟩ := q
        rw [hq] at hr
        simp only [Option.bind_some] at hr
        cases hq2 : readArgs cap as.length r1 with
        | none => rw [hq2] at hr; cases hr
        | some q2 =>
          obtain ⟨as', r2⟩ := q2
          rw [hq2] at hr
          simp only [Option.bind_some, Option.some.injEq, Prod.mk.injEq, List.cons.injEq] at hr
          obtain ⟨⟨hb, -⟩, hrr⟩ := hr
          rw [hb] at hq
          rw [hrr] at hq2
          have hst := i2 hp r1 hq
          match as, hq2 with
          | [], hq2 => cases hq2; exact hst
          | a2 :: as2, hq2 =>
            obtain ⟨l, r', s1, s2, s3⟩ := hst
            simp only [List.length_cons, readArgs, readArg, s1, s2, Option.bind_eq_bind, Option.bind_none] at hq2
            cases hq2

theorem stuck_records {cap k : Nat} {r : Rd} (h : Stuck cap r) : records cap (k + 1) r = none := by
  obtain ⟨l, r', h1, _, h3⟩ := h
  simp only [records, h1, h3, Option.bind_eq_bind, Option.bind_none]

theorem records_end {cap k : Nat} (h0 : 0 < cap) {m : Nat} {cs : List Nat} {r : Rd} (h : At [] m cs r) : records cap k r = some [] := by
  have h1 := h.rest
  unfold Rd.rest at h1
  obtain ⟨h2, h3⟩ := List.append_eq_nil_iff.1 h1
  have h4 : r.src = [] := by
    match hr : r.src, h3, h.clean with
    | [], _, _ => rfl
    | .bytes c cs :: s, h3, _ => simp [Src.bytes] at h3
    | .error :: s, h3, hc => exact absurd (by simp) hc
  cases k with
  | zero => rfl
  | succ k =>
    have : readLine cap r = .eof := by
      simp only [readLine, readBytes, h2, h4, cut, List.length_nil]
      rw [if_neg (by omega)]
      rfl
    simp only [records, this]

/-- All records. -/
theorem records_at {cap : Nat} (hcap : 22 ≤ cap) : ∀ (recs : List (List Bytes)) {m k : Nat} {cs : List Nat} {r : Rd}, m ≤ cap → recs.length < k →
    (∀ r ∈ recs, r ≠ [] ∧ Sized r) → At (recs.map request).flatten m cs r →
    (records cap k r = some recs ↔ pass cap m cs (recs.flatMap pieces) ≠ none)
  | [], m, k, cs, r, hm, hk, _, h => by
    simp only [List.flatMap_nil, pass, ne_eq, reduceCtorEq, not_false_eq_true, iff_true]
    exact records_end (by omega) h
  | w :: recs, m, 0, cs, r, hm, hk, _, _ => by simp at hk
  | w :: recs, m, k + 1, cs, r, hm, hk, hs, h => by
    obtain ⟨hr, hsz, hsa⟩ := hs w (by simp)
    have e : ((w :: recs).map request).flatten = line 42 w.length ++ ((w.map Spec.bulk).flatten ++ (recs.map request).flatten) := by
      simp [request_line]
    rw [e] at h
    obtain ⟨m1, cs1, r1, g1, g2, g3, g4⟩ := readLine_at (by decide) hsz hcap hm h
    have hm1 : m1 - ((dec w.length).length + 3) ≤ cap := by omega
    rw [List.flatMap_cons, pieces_eq, List.cons_append]
    simp only [header, pass, g1, Option.bind_eq_bind, Option.bind_some, records, g3, lengthOf_line 42 hsz]
    rw [pass_append]
    generalize m1 - ((dec w.length).length + 3) = m2 at *
    obtain ⟨i1, i2⟩ := readArgs_at hcap w hm1 hsa g4
    have hk : recs.length < k := by simpa using hk
    cases hx : pass cap m2 cs1 (w.flatMap pieceArg) with
    | some p =>
      obtain ⟨m3, cs3⟩ := p
      obtain ⟨hm3, r3, q1, q2⟩ := i1 m3 cs3 hx
      have ih := records_at hcap recs hm3 hk (fun x hx => hs x (by simp [hx])) q2
      simp only [q1, Option.bind_some, if_neg hr]
      rw [← ih]
      cases records cap k r3 <;> simp
    | none =>
      simp only [Option.bind_none, ne_eq, not_true_eq_false, iff_false]
      cases hy : readArgs cap w.length r1 with
      | none => simp
      | some p =>
        obtain ⟨args, r'⟩ := p
        simp only [Option.bind_some]
        split
        · simp
        · intro hc
          have : args = w := by
            cases hz : records cap k r' with
            | none => rw [hz] at hc; cases hc
            | some q => rw [hz] at hc; simp only [Option.bind_some, Option.some.injEq, List.cons.injEq] at hc; exact hc.1
          subst this
          have hst := i2 hx _ hy
          obtain ⟨k', rfl⟩ : ∃ k', k = k' + 1 := ⟨k - 1, by omega⟩
          rw [stuck_records hst] at hc
          cases hc

/-- Loading gives back the records exactly if no data are cut by the reads. -/
theorem parse_exact {cap : Nat} (hcap : 22 ≤ cap) {recs : List (List Bytes)} (h : ∀ r ∈ recs, r ≠ [] ∧ Sized r) {src : Src} (he : .error ∉ src)
    (hb : src.bytes = (recs.map request).flatten) : parse cap src = some recs ↔ pass cap 0 (lengths src) (recs.flatMap pieces) ≠ none := by
  refine records_at hcap recs (by omega) ?_ h ⟨by rw [← hb]; rfl, rfl, rfl, he⟩
  rw [hb]
  have := Aof.records_length recs
  omega

/-! ### reads that return all there is -/

/-- A file of which every read returns as much as there is room for. -/
def whole : Bytes → Src
  | [] => []
  | c :: cs => [.bytes c cs]

theorem whole_bytes (f : Bytes) : (whole f).bytes = f := by cases f <;> simp [whole, Src.bytes]

theorem fileRead_whole {n : Nat} {f : Bytes} (hf : f ≠ []) : fileRead n (whole f) = .ok (f.take n, whole (f.drop n)) := by
  cases f with
  | nil => exact absurd rfl hf
  | cons c cs =>
    simp only [whole, fileRead]
    cases (c :: cs).drop n <;> rfl

def ofRd (r : Aof.Rd) : Rd := ⟨r.buf, whole r.file⟩

theorem readBytes_whole {cap : Nat} : ∀ (k : Nat) (acc : Bytes) (r : Aof.Rd),
    readBytes cap k acc (ofRd r) = match Aof.readBytes cap k acc r with | some (l, r') => .ok (l, ofRd r') | none => .eof
  | 0, acc, r => rfl
  | k + 1, acc, r => by
    simp only [readBytes, Aof.readBytes]
    cases hc : cut r.buf with
    | some p => simp only [ofRd, hc]
    | none =>
      have hb : (ofRd r).buf = r.buf := rfl
      have hs : (ofRd r).src = whole r.file := rfl
      simp only [hb, hs, hc]
      by_cases hge : r.buf.length ≥ cap
      · rw [if_pos hge, if_pos hge]; exact readBytes_whole k _ { r with buf := [] }
      · rw [if_neg hge, if_neg hge]
        by_cases hf : r.file = []
        · simp only [hf, whole, fileRead, if_true]
        · rw [fileRead_whole hf, if_neg hf]
          exact readBytes_whole k acc (Aof.fill cap r)

theorem readLine_whole {cap : Nat} (r : Aof.Rd) : readLine cap (ofRd r) = match Aof.readLine cap r with | some (l, r') => .ok (l, ofRd r') | none => .eof := by
  have e : (ofRd r).src.bytes.length = r.file.length := by simp [ofRd, whole_bytes]
  rw [readLine, e, readBytes_whole, Aof.readLine]
  cases Aof.readBytes cap (2 * r.file.length + 2) [] r <;> rfl

theorem read_whole {cap n : Nat} (r : Aof.Rd) : read cap n (ofRd r) = (Aof.read cap n r).map (fun p => (p.1, ofRd p.2)) := by
  have hb : (ofRd r).buf = r.buf := rfl
  have hs : (ofRd r).src = whole r.file := rfl
  unfold read Aof.read
  rw [hb, hs]
  by_cases hn : n = 0
  · rw [if_pos hn, if_pos hn]; rfl
  · rw [if_neg hn, if_neg hn]
    by_cases hx : r.buf ≠ []
    · rw [if_pos hx, if_pos hx]; rfl
    · rw [if_neg hx, if_neg hx]
      have hx : r.buf = [] := by simpa using hx
      by_cases hf : r.file = []
      · rw [if_pos hf]
        simp only [hf, whole, fileRead, Option.map_none, ite_self]
      · rw [fileRead_whole hf, fileRead_whole hf, if_neg hf]
        by_cases hc : n ≥ cap
        · rw [if_pos hc, if_pos hc]; rfl
        · rw [if_neg hc, if_neg hc]
          simp [Aof.fill, hx, ofRd]

theorem readArg_whole {cap : Nat} (r : Aof.Rd) : readArg cap (ofRd r) = (Aof.readArg cap r).map (fun p => (p.1, ofRd p.2)) := by
  rw [readArg, readLine_whole, Aof.readArg]
  cases Aof.readLine cap r with
  | none => rfl
  | some p =>
    obtain ⟨l, r1⟩ := p
    simp only [Option.bind_eq_bind, Option.bind_some]
    cases lengthOf 36 l with
    | none => rfl
    | some n =>
      simp only [Option.bind_some, read_whole]
      cases Aof.read cap n r1 with
      | none => rfl
      | some q =>
        simp only [Option.map_some, Option.bind_some, read_whole]
        cases Aof.read cap 2 q.2 <;> rfl

theorem readArgs_whole {cap : Nat} : ∀ (n : Nat) (r : Aof.Rd), readArgs cap n (ofRd r) = (Aof.readArgs cap n r).map (fun p => (p.1, ofRd p.2))
  | 0, r => rfl
  | n + 1, r => by
    simp only [readArgs, Aof.readArgs, readArg_whole, Option.bind_eq_bind]
    cases Aof.readArg cap r with
    | none => rfl
    | some p =>
      simp only [Option.map_some, Option.bind_some, readArgs_whole n]
      cases Aof.readArgs cap n p.2 <;> rfl

theorem records_whole {cap : Nat} : ∀ (k : Nat) (r : Aof.Rd), records cap k (ofRd r) = Aof.records cap k r
  | 0, r => rfl
  | k + 1, r => by
    simp only [records, Aof.records, readLine_whole]
    cases Aof.readLine cap r with
    | none => rfl
    | some p =>
      simp only [Option.bind_eq_bind, readArgs_whole]
      cases lengthOf 42 p.1 with
      | none => rfl
      | some n =>
        simp only [Option.bind_some]
        cases Aof.readArgs cap n p.2 with
        | none => rfl
        | some q => simp only [Option.map_some, Option.bind_some, records_whole k]

theorem parse_whole {cap : Nat} (file : Bytes) : parse cap (whole file) = Aof.parse cap file := by
  rw [parse, whole_bytes]
  exact records_whole _ ⟨[], file⟩

end Metis.Chunks
