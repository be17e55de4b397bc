import Verif.Model.AofLoad
import Verif.Spec.RespSpec
import Verif.Proofs.Num
/-!
The loader of the log file: what it reads from the encodings of commands.
-/
set_option linter.unusedSectionVars false
set_option linter.unusedSimpArgs false
set_option linter.unusedVariables false
namespace Metis.Aof
open Metis.Spec

theorem catArg_spec (a : Bytes) : catArg a = Spec.bulk a := by
  simp [catArg, Spec.bulk, CRLF, itoa, natToa_dec]

theorem cat_spec (args : List Bytes) : cat args = Spec.request args := by
  have : args.map catArg = args.map Spec.bulk := by simp [catArg_spec]
  simp [cat, request, CRLF, itoa, natToa_dec, this]

/-- A line. -/
def line (c : UInt8) (n : Nat) : Bytes := c :: dec n ++ CRLF

theorem dec_ne_lf (n : Nat) : ∀ c ∈ dec n, c ≠ 10 ∧ c ≠ 13 := by
  intro c hc
  have := dec_digit hc
  constructor <;> · rintro rfl; revert this; decide

theorem cut_none {l : Bytes} (h : ∀ c ∈ l, c ≠ 10) : cut l = none := by
  induction l with
  | nil => rfl
  | cons a l ih => simp [cut, h a (by simp), ih (fun c hc => h c (by simp [hc]))]

theorem cut_some {l r : Bytes} (h : ∀ c ∈ l, c ≠ 10) : cut (l ++ 10 :: r) = some (l ++ [10], r) := by
  induction l with
  | nil => simp [cut]
  | cons a l ih => simp [cut, h a (by simp), ih (fun c hc => h c (by simp [hc]))]

theorem cut_line (c : UInt8) (hc : c ≠ 10) (n : Nat) (r : Bytes) : cut (line c n ++ r) = some (line c n, r) := by
  have := cut_some (l := c :: dec n ++ [13]) (r := r) (by
    intro x hx
    simp only [List.cons_append, List.mem_cons, List.mem_append, List.not_mem_nil, or_false] at hx
    rcases hx with rfl | hx | rfl
    · exact hc
    · exact (dec_ne_lf n x hx).1
    · decide)
  simpa [line, CRLF] using this

theorem trim_line (c : UInt8) (n : Nat) : trimRight (line c n) = c :: dec n := by
  have hne := dec_ne n
  obtain ⟨ds, d, hd⟩ : ∃ ds d, dec n = ds ++ [d] := ⟨(dec n).dropLast, (dec n).getLast hne, (List.dropLast_concat_getLast hne).symm⟩
  have := dec_ne_lf n d (by rw [hd]; simp)
  have h2 : (d == 13 || d == 10) = false := by simp [this.1, this.2]
  simp [line, trimRight, CRLF, hd, List.dropWhile, h2]

theorem lengthOf_line (c : UInt8) {n : Nat} (h : n < 2 ^ 63) : lengthOf c (c :: dec n) = some n := by
  have : ¬ ((n : Int) < 0) := by omega
  simp [lengthOf, atoi_dec h, this]

/-- A line in the buffer. -/
theorem readLine_buf {cap : Nat} {b f l rest : Bytes} (h : cut b = some (l, rest)) : readLine cap ⟨b, f⟩ = some (trimRight l, ⟨rest, f⟩) := by
  simp [readLine, readBytes, h]

theorem readLine_line {cap : Nat} (c : UInt8) (hc : c ≠ 10) (n : Nat) (b f : Bytes) :
    readLine cap ⟨line c n ++ b, f⟩ = some (c :: dec n, ⟨b, f⟩) := by
  rw [readLine_buf (cut_line c hc n b), trim_line]

/-- No complete line left. -/
theorem readLine_eof {cap : Nat} {b : Bytes} (h0 : 0 < cap) (h : cut b = none) : readLine cap ⟨b, []⟩ = none := by
  have h0' : ¬ cap = 0 := by omega
  simp only [readLine, readBytes, h, cut]
  split <;> simp [h0', readBytes]

/-- The first read fills the buffer. -/
theorem readLine_first {cap : Nat} (h0 : 0 < cap) {f : Bytes} (hf : f ≠ []) {l rest : Bytes} (h : cut (f.take cap) = some (l, rest)) :
    readLine cap ⟨[], f⟩ = some (trimRight l, ⟨rest, f.drop cap⟩) := by
  have h0' : ¬ cap = 0 := by omega
  have : 2 * f.length + 2 = (2 * f.length) + 1 + 1 := by omega
  simp only [readLine, this, readBytes, cut, List.length_nil, ge_iff_le, Nat.le_zero_eq, h0', if_false, if_neg hf, fill, List.nil_append, Nat.sub_zero, h]
  rfl

theorem readLine_first_eof {cap : Nat} (h0 : 0 < cap) {f : Bytes} (hl : f.length ≤ cap) (h : cut f = none) :
    readLine cap ⟨[], f⟩ = none := by
  have h0' : ¬ cap = 0 := by omega
  by_cases hf : f = []
  · subst hf; exact readLine_eof h0 h
  · have hp : 0 < f.length := by cases f with | nil => exact absurd rfl hf | cons _ _ => simp
    have : 2 * f.length + 2 = (2 * f.length - 1) + 1 + 1 + 1 := by omega
    have ht : f.take cap = f := List.take_of_length_le hl
    have hd : f.drop cap = [] := List.drop_eq_nil_of_le hl
    simp only [readLine, this, readBytes, cut, List.length_nil, ge_iff_le, Nat.le_zero_eq, h0', if_false, if_neg hf, fill, List.nil_append,
      Nat.sub_zero, ht, hd, h]
    split
    · obtain ⟨j, hj⟩ : ∃ j, 2 * f.length = j + 1 := ⟨2 * f.length - 1, by omega⟩
      rw [hj]
      simp [h0', readBytes, cut]
    · simp

theorem read_buf {cap n : Nat} {b f : Bytes} (hn : n ≠ 0) (hb : b ≠ []) : read cap n ⟨b, f⟩ = some (b.take n, ⟨b.drop n, f⟩) := by
  simp [read, hn, hb]

theorem read_zero {cap : Nat} {r : Rd} : read cap 0 r = some ([], r) := by simp [read]

theorem read_eof {cap n : Nat} (hn : n ≠ 0) : read cap n ⟨[], []⟩ = none := by simp [read, hn]

/-- Data that is in the buffer completely. -/
theorem read_data {cap : Nat} (a b f : Bytes) : read cap a.length ⟨a ++ b, f⟩ = some (a, ⟨b, f⟩) := by
  by_cases ha : a = []
  · subst ha; simp [read]
  · have : a.length ≠ 0 := by simpa using ha
    rw [read_buf this (by simp [ha])]
    simp

theorem read_crlf {cap : Nat} (b f : Bytes) : read cap 2 ⟨CRLF ++ b, f⟩ = some (CRLF, ⟨b, f⟩) := read_data CRLF b f

theorem bulk_line (a : Bytes) : Spec.bulk a = line 36 a.length ++ (a ++ CRLF) := by simp [Spec.bulk, line]

theorem readArg_buf {cap : Nat} {a : Bytes} (ha : a.length < 2 ^ 63) (b f : Bytes) :
    readArg cap ⟨Spec.bulk a ++ b, f⟩ = some (a, ⟨b, f⟩) := by
  have h1 : readLine cap ⟨Spec.bulk a ++ b, f⟩ = some (36 :: dec a.length, ⟨a ++ (CRLF ++ b), f⟩) := by
    rw [bulk_line, List.append_assoc, readLine_line 36 (by decide)]; simp
  simp [readArg, h1, lengthOf_line 36 ha, read_data, read_crlf]

theorem readArgs_buf {cap : Nat} : ∀ {args : List Bytes}, (∀ a ∈ args, a.length < 2 ^ 63) → ∀ (b f : Bytes),
    readArgs cap args.length ⟨(args.map Spec.bulk).flatten ++ b, f⟩ = some (args, ⟨b, f⟩)
  | [], _, b, f => by simp [readArgs]
  | a :: as, h, b, f => by
    have h1 : ((a :: as).map Spec.bulk).flatten ++ b = Spec.bulk a ++ ((as.map Spec.bulk).flatten ++ b) := by simp
    have ih := readArgs_buf (cap := cap) (args := as) (fun x hx => h x (by simp [hx])) b f
    simp [readArgs, h1, readArg_buf (h a (by simp)), ih]

/-- Sizes that `strconv.Itoa` and `Atoi` can represent. -/
def Sized (args : List Bytes) : Prop := args.length < 2 ^ 63 ∧ ∀ a ∈ args, a.length < 2 ^ 63

theorem request_line (args : List Bytes) : request args = line 42 args.length ++ (args.map Spec.bulk).flatten := by simp [request, line]

/-- A record that is in the buffer completely. -/
theorem records_buf {cap k : Nat} {args : List Bytes} (hs : Sized args) (h0 : args ≠ []) (b f : Bytes) :
    records cap (k + 1) ⟨request args ++ b, f⟩ = (records cap k ⟨b, f⟩).map (fun l => args :: l) := by
  have h1 : readLine cap ⟨request args ++ b, f⟩ = some (42 :: dec args.length, ⟨(args.map Spec.bulk).flatten ++ b, f⟩) := by
    rw [request_line, List.append_assoc, readLine_line 42 (by decide)]
  simp only [records, h1, lengthOf_line 42 hs.1, Option.bind_eq_bind, Option.bind_some, readArgs_buf hs.2, if_neg h0]
  cases records cap k ⟨b, f⟩ <;> rfl

theorem records_many {cap : Nat} : ∀ (recs : List (List Bytes)) {k : Nat} {b f : Bytes}, (∀ r ∈ recs, r ≠ [] ∧ Sized r) →
    records cap (k + recs.length) ⟨(recs.map request).flatten ++ b, f⟩ = (records cap k ⟨b, f⟩).map (fun l => recs ++ l)
  | [], k, b, f, _ => by cases h : records cap k ⟨b, f⟩ <;> simp [h]
  | r :: rs, k, b, f, h => by
    have h1 : ((r :: rs).map request).flatten ++ b = request r ++ ((rs.map request).flatten ++ b) := by simp
    have h2 : k + (r :: rs).length = k + rs.length + 1 := by simp [Nat.add_assoc]
    rw [h1, h2, records_buf (h r (by simp)).2 (h r (by simp)).1, records_many rs (fun x hx => h x (by simp [hx]))]
    cases records cap k ⟨b, f⟩ <;> simp

theorem records_eof {cap k : Nat} (h0 : 0 < cap) {b : Bytes} (h : cut b = none) : records cap k ⟨b, []⟩ = some [] := by
  cases k with
  | zero => rfl
  | succ k => simp [records, readLine_eof h0 h]

/-- A file that fits into the buffer is parsed as if it were in the buffer. -/
theorem records_small {cap k : Nat} (h0 : 0 < cap) {f : Bytes} (hl : f.length ≤ cap) : records cap k ⟨[], f⟩ = records cap k ⟨f, []⟩ := by
  cases k with
  | zero => rfl
  | succ k =>
    have : readLine cap ⟨[], f⟩ = readLine cap ⟨f, []⟩ := by
      rcases h : cut f with _ | ⟨l, rest⟩
      · rw [readLine_first_eof h0 hl h, readLine_eof h0 h]
      · have hf : f ≠ [] := by rintro rfl; simp [cut] at h
        rw [readLine_first h0 hf (l := l) (rest := rest) (by rw [List.take_of_length_le hl]; exact h), readLine_buf h, List.drop_eq_nil_of_le hl]
    simp [records, this]

theorem request_length (args : List Bytes) : 4 ≤ (request args).length := by
  have : 0 < (dec args.length).length := List.length_pos_iff.2 (dec_ne _)
  simp [request, CRLF]; omega

theorem records_length : ∀ (recs : List (List Bytes)), recs.length ≤ (recs.map request).flatten.length
  | [] => by simp
  | r :: rs => by
    have := request_length r
    have := records_length rs
    simp only [List.map_cons, List.flatten_cons, List.length_append, List.length_cons]; omega

/-- In general: complete records, then something else. -/
theorem parse_small {cap : Nat} (h0 : 0 < cap) {recs : List (List Bytes)} (h : ∀ r ∈ recs, r ≠ [] ∧ Sized r) {t : Bytes}
    (hl : ((recs.map request).flatten ++ t).length ≤ cap) :
    ∃ k, t.length ≤ k ∧ parse cap ((recs.map request).flatten ++ t) = (records cap (k + 1) ⟨t, []⟩).map (fun l => recs ++ l) := by
  have := records_length recs
  refine ⟨((recs.map request).flatten ++ t).length - recs.length, by simp only [List.length_append]; omega, ?_⟩
  have e : ((recs.map request).flatten ++ t).length + 1 = ((recs.map request).flatten ++ t).length - recs.length + 1 + recs.length := by
    simp only [List.length_append]; omega
  rw [parse, records_small h0 hl, e, records_many recs h]

/-- A part of the arguments without their end: nothing is read from it. -/
theorem readArgs_torn {cap : Nat} (h0 : 0 < cap) : ∀ (args : List Bytes), (∀ a ∈ args, a.length < 2 ^ 63) → ∀ (t u : Bytes), u ≠ [] → u ≠ [10] →
    (args.map Spec.bulk).flatten = t ++ u → readArgs cap args.length ⟨t, []⟩ = none
  | [], _, t, u, hu, _, h => by simp at h; exact absurd h.2 hu
  | a :: as, hs, t, u, hu, hu', h => by
    have ha := hs a (by simp)
    have h' : Spec.bulk a ++ (as.map Spec.bulk).flatten = t ++ u := by simpa using h
    rcases List.append_eq_append_iff.1 h' with ⟨w, hw, hw'⟩ | ⟨w, hw, hw'⟩
    · -- the first argument is complete
      have := readArgs_torn h0 as (fun x hx => hs x (by simp [hx])) w u hu hu' hw'
      simp [readArgs, hw, readArg_buf ha, this]
    · -- the cut is inside (or at the end of) the first argument
      by_cases hw0 : w = []
      · subst hw0
        simp only [List.append_nil] at hw
        have e : (as.map Spec.bulk).flatten = [] ++ u := by simpa using hw'.symm
        have := readArgs_torn h0 as (fun x hx => hs x (by simp [hx])) [] u hu hu' e
        have h2 : readArg cap ⟨t, []⟩ = some (a, ⟨[], []⟩) := by
          have := readArg_buf (cap := cap) ha [] []
          rw [List.append_nil, hw] at this; exact this
        simp [readArgs, h2, this]
      · -- `t` is a proper prefix of the first argument
        rw [bulk_line] at hw
        rcases List.append_eq_append_iff.1 hw with ⟨v, hv, hv'⟩ | ⟨v, hv, hv'⟩
        · -- the line is complete
          have h1 : readLine cap ⟨t, []⟩ = some (36 :: dec a.length, ⟨v, []⟩) := by rw [hv, readLine_line 36 (by decide)]
          rcases List.append_eq_append_iff.1 hv' with ⟨x, hx, hx'⟩ | ⟨x, hx, hx'⟩
          · -- the data are complete
            subst hx
            have hx2 : x = [] ∨ x = [13] := by
              rcases x with _ | ⟨x1, _ | ⟨x2, x⟩⟩
              · simp
              · simp [CRLF] at hx'; simp [hx'.1.symm]
              · simp [CRLF] at hx'; exact absurd hx'.2.2.2 hw0
            rcases hx2 with rfl | rfl
            · have h2 : read cap a.length ⟨a ++ [], []⟩ = some (a, ⟨[], []⟩) := read_data a [] []
              rw [List.append_nil] at h2
              simp [readArgs, readArg, h1, lengthOf_line 36 ha, h2, read_eof]
            · have h2 : read cap a.length ⟨a ++ [13], []⟩ = some (a, ⟨[13], []⟩) := read_data a [13] []
              have h3 : read cap 2 ⟨[13], []⟩ = some ([13], ⟨[], []⟩) := read_buf (by decide) (by decide)
              have h4 : as ≠ [] := by
                rintro rfl
                simp [CRLF] at hx' hw'
                exact hu' (by rw [hw', ← hx'])
              obtain ⟨b, bs, rfl⟩ := List.exists_cons_of_ne_nil h4
              have h5 : readLine cap ⟨[], []⟩ = none := readLine_eof h0 rfl
              simp [readArgs, readArg, h1, lengthOf_line 36 ha, h2, h3, h5]
          · -- the data are incomplete
            by_cases hv0 : v = []
            · subst hv0
              by_cases ha0 : a.length = 0
              · have h2 : read cap a.length ⟨[], []⟩ = some ([], ⟨[], []⟩) := by rw [ha0, read_zero]
                simp [readArgs, readArg, h1, lengthOf_line 36 ha, h2, read_eof]
              · simp [readArgs, readArg, h1, lengthOf_line 36 ha, read_eof ha0]
            · have hl : v.length ≤ a.length := by rw [hx]; simp
              have ha0 : a.length ≠ 0 := by
                have : 0 < v.length := List.length_pos_iff.2 hv0
                omega
              have h2 : read cap a.length ⟨v, []⟩ = some (v, ⟨[], []⟩) := by
                rw [read_buf ha0 hv0, List.take_of_length_le hl, List.drop_eq_nil_of_le hl]
              simp [readArgs, readArg, h1, lengthOf_line 36 ha, h2, read_eof]
        · -- the line is incomplete
          by_cases hv0 : v = []
          · subst hv0
            have e : t = line 36 a.length ++ [] := by simpa using hv.symm
            have h1 : readLine cap ⟨t, []⟩ = some (36 :: dec a.length, ⟨[], []⟩) := by rw [e, readLine_line 36 (by decide)]
            by_cases ha0 : a.length = 0
            · have h2 : read cap a.length ⟨[], []⟩ = some ([], ⟨[], []⟩) := by rw [ha0, read_zero]
              simp [readArgs, readArg, h1, lengthOf_line 36 ha, h2, read_eof]
            · simp [readArgs, readArg, h1, lengthOf_line 36 ha, read_eof ha0]
          · have hc : cut t = none := by
              refine cut_none fun c hc => ?_
              -- `t` lies in the part of the line before its last byte
              have e : (36 :: dec a.length ++ [13]) ++ [10] = t ++ v := by simpa [line, CRLF] using hv
              have : c ∈ 36 :: dec a.length ++ [13] := by
                rcases List.append_eq_append_iff.1 e with ⟨y, hy, hy'⟩ | ⟨y, hy, hy'⟩
                · have : y = [] := by
                    rcases y with _ | ⟨y1, y⟩
                    · rfl
                    · simp at hy'; exact absurd hy'.2.2 hv0
                  subst this
                  rw [List.append_nil] at hy; rw [← hy]; exact hc
                · rw [hy]; exact List.mem_append_left _ hc
              simp only [List.cons_append, List.mem_cons, List.mem_append, List.not_mem_nil, or_false] at this
              rcases this with rfl | hx | rfl
              · decide
              · exact (dec_ne_lf _ c hx).1
              · decide
            simp [readArgs, readArg, readLine_eof h0 hc]

/-- Only the last line feed is missing. -/
theorem readArgs_lf {cap : Nat} : ∀ (args : List Bytes), (∀ a ∈ args, a.length < 2 ^ 63) → ∀ (t : Bytes),
    (args.map Spec.bulk).flatten = t ++ [10] → readArgs cap args.length ⟨t, []⟩ = some (args, ⟨[], []⟩)
  | [], _, t, h => by simp at h
  | [a], hs, t, h => by
    have ha := hs a (by simp)
    have e : t = line 36 a.length ++ (a ++ [13]) := by
      have : line 36 a.length ++ (a ++ [13]) ++ [10] = t ++ [10] := by rw [← h]; simp [bulk_line, CRLF]
      exact (List.append_cancel_right this).symm
    have h1 : readLine cap ⟨t, []⟩ = some (36 :: dec a.length, ⟨a ++ [13], []⟩) := by rw [e, readLine_line 36 (by decide)]
    have h3 : read cap 2 ⟨[13], []⟩ = some ([13], ⟨[], []⟩) := read_buf (by decide) (by decide)
    simp [readArgs, readArg, h1, lengthOf_line 36 ha, read_data, h3]
  | a :: b :: as, hs, t, h => by
    have ha := hs a (by simp)
    have h' : Spec.bulk a ++ (((b :: as).map Spec.bulk).flatten) = t ++ [10] := by simpa using h
    rcases List.append_eq_append_iff.1 h' with ⟨w, hw, hw'⟩ | ⟨w, hw, hw'⟩
    · have := readArgs_lf (cap := cap) (b :: as) (fun x hx => hs x (by simp [hx])) w hw'
      rw [List.length_cons, hw]
      generalize (b :: as).length = n at this
      simp [readArgs, readArg_buf ha, this]
    · have := congrArg List.length hw'
      have hb : 5 ≤ (Spec.bulk b).length := by
        have : 0 < (dec b.length).length := List.length_pos_iff.2 (dec_ne _)
        simp [Spec.bulk, CRLF]; omega
      simp at this; omega

theorem dec_lf_free {c : UInt8} {n : Nat} {t v : Bytes} (hc : c ≠ 10) (h : line c n = t ++ v) (hv : v ≠ []) : ∀ x ∈ t, x ≠ 10 := by
  intro x hx
  have e : (c :: dec n ++ [13]) ++ [10] = t ++ v := by simpa [line, CRLF] using h
  have : x ∈ c :: dec n ++ [13] := by
    rcases List.append_eq_append_iff.1 e with ⟨y, hy, hy'⟩ | ⟨y, hy, hy'⟩
    · have : y = [] := by
        rcases y with _ | ⟨y1, y⟩
        · rfl
        · simp at hy'; exact absurd hy'.2.2 hv
      subst this
      rw [List.append_nil] at hy; rw [← hy]; exact hx
    · rw [hy]; exact List.mem_append_left _ hx
  simp only [List.cons_append, List.mem_cons, List.mem_append, List.not_mem_nil, or_false] at this
  rcases this with rfl | hx | rfl
  · exact hc
  · exact (dec_ne_lf _ x hx).1
  · decide

theorem lf_line (c : UInt8) (n : Nat) : (10 : UInt8) ∈ line c n := by simp [line, CRLF]

/-- A torn record after whose first line something is missing. -/
theorem records_torn {cap k : Nat} (h0 : 0 < cap) {r : List Bytes} (hs : Sized r) {t u : Bytes} (hu : u ≠ []) (hu' : u ≠ [10]) (h : request r = t ++ u)
    (ht : (10 : UInt8) ∈ t) : records cap (k + 1) ⟨t, []⟩ = none := by
  rw [request_line] at h
  have key : ∃ w, t = line 42 r.length ++ w ∧ (r.map Spec.bulk).flatten = w ++ u := by
    rcases List.append_eq_append_iff.1 h with ⟨w, hw, hw'⟩ | ⟨w, hw, hw'⟩
    · exact ⟨w, hw, hw'⟩
    · by_cases hw0 : w = []
      · subst hw0; exact ⟨[], by simpa using hw.symm, by simpa using hw'.symm⟩
      · exact absurd rfl (dec_lf_free (by decide) hw hw0 10 ht)
  obtain ⟨w, hw, hw'⟩ := key
  have h1 : readLine cap ⟨t, []⟩ = some (42 :: dec r.length, ⟨w, []⟩) := by rw [hw, readLine_line 42 (by decide)]
  simp [records, h1, lengthOf_line 42 hs.1, readArgs_torn h0 r hs.2 w u hu hu' hw']

/-- A record whose last byte is missing. -/
theorem records_lf {cap k : Nat} (h0 : 0 < cap) {r : List Bytes} (hs : Sized r) (hr : r ≠ []) {t : Bytes} (h : request r = t ++ [10]) :
    records cap (k + 1) ⟨t, []⟩ = some [r] := by
  rw [request_line] at h
  rcases List.append_eq_append_iff.1 h with ⟨w, hw, hw'⟩ | ⟨w, hw, hw'⟩
  · have h1 : readLine cap ⟨t, []⟩ = some (42 :: dec r.length, ⟨w, []⟩) := by rw [hw, readLine_line 42 (by decide)]
    simp [records, h1, lengthOf_line 42 hs.1, readArgs_lf r hs.2 w hw', hr, records_eof h0 (b := []) rfl]
  · exfalso
    obtain ⟨a, as, rfl⟩ := List.exists_cons_of_ne_nil hr
    have := congrArg List.length hw'
    have h2 : 5 ≤ (Spec.bulk a).length := by
      have : 0 < (dec a.length).length := List.length_pos_iff.2 (dec_ne _)
      simp [Spec.bulk, CRLF]; omega
    simp at this; omega

/-- A record ending inside its first line. -/
theorem records_header {cap k : Nat} (h0 : 0 < cap) {t : Bytes} (ht : (10 : UInt8) ∉ t) : records cap k ⟨t, []⟩ = some [] :=
  records_eof h0 (cut_none fun c hc e => ht (e ▸ hc))

/-- An argument whose data continue behind the end of the buffer. -/
theorem readArgs_split {cap : Nat} : ∀ (dn : List Bytes) {x y : Bytes} {m : Nat} {f : Bytes} {res}, (∀ d ∈ dn, d.length < 2 ^ 63) →
    (x ++ y).length < 2 ^ 63 → x ≠ [] →
    readArgs cap (dn.length + 1 + m) ⟨(dn.map Spec.bulk).flatten ++ (line 36 (x ++ y).length ++ x), f⟩ = some res →
    res.1[dn.length]? = some (x ++ List.replicate y.length 0)
  | [], x, y, m, f, res, _, ha, hx, h => by
    have h1 : readLine cap ⟨line 36 (x ++ y).length ++ x, f⟩ = some (36 :: dec (x ++ y).length, ⟨x, f⟩) := readLine_line 36 (by decide) _ _ _
    have hn : (x ++ y).length ≠ 0 := by simp [hx]
    have h2 : read cap (x ++ y).length ⟨x, f⟩ = some (x, ⟨[], f⟩) := by
      rw [read_buf hn hx, List.take_of_length_le (by simp), List.drop_eq_nil_of_le (by simp)]
    have e : ([] : List Bytes).length + 1 + m = m + 1 := by simp; omega
    rw [e] at h
    simp only [readArgs, readArg, List.map_nil, List.flatten_nil, List.nil_append, h1, Option.bind_eq_bind, Option.bind_some, lengthOf_line 36 ha, h2] at h
    rcases h3 : read cap 2 ⟨[], f⟩ with _ | ⟨c, r⟩
    · rw [h3] at h; cases h
    · rw [h3] at h
      simp only [Option.bind_some] at h
      rcases h4 : readArgs cap m r with _ | ⟨as, r'⟩
      · rw [h4] at h; cases h
      · rw [h4] at h
        simp only [Option.bind_some, Option.some.injEq] at h
        subst h
        simp
  | d :: dn, x, y, m, f, res, hd, ha, hx, h => by
    have e : (d :: dn).length + 1 + m = (dn.length + 1 + m) + 1 := by simp; omega
    have e2 : ((d :: dn).map Spec.bulk).flatten ++ (line 36 (x ++ y).length ++ x) =
        Spec.bulk d ++ ((dn.map Spec.bulk).flatten ++ (line 36 (x ++ y).length ++ x)) := by simp
    rw [e, e2] at h
    simp only [readArgs, readArg_buf (hd d (by simp)), Option.bind_eq_bind, Option.bind_some] at h
    rcases h4 : readArgs cap (dn.length + 1 + m) ⟨(dn.map Spec.bulk).flatten ++ (line 36 (x ++ y).length ++ x), f⟩ with _ | ⟨as, r'⟩
    · rw [h4] at h; cases h
    · have := readArgs_split dn (fun z hz => hd z (by simp [hz])) ha hx h4
      rw [h4] at h
      simp only [Option.bind_some, Option.some.injEq] at h
      subst h
      simpa using this

/-- Loading a file whose first buffer ends inside the data of an argument does not give back the records. -/
theorem parse_split {cap : Nat} (h0 : 0 < cap) {pre post : List (List Bytes)} {dn rest : List Bytes} {x y : Bytes}
    (hp : ∀ r ∈ pre, r ≠ [] ∧ Sized r) (hs : Sized (dn ++ (x ++ y) :: rest)) (hx : x ≠ []) (hy : ∃ c ∈ y, c ≠ 0)
    (hl : ((pre.map request).flatten ++ (line 42 (dn ++ (x ++ y) :: rest).length ++ ((dn.map Spec.bulk).flatten ++ (line 36 (x ++ y).length ++ x)))).length = cap) :
    parse cap ((pre ++ (dn ++ (x ++ y) :: rest) :: post).map request).flatten ≠ some (pre ++ (dn ++ (x ++ y) :: rest) :: post) := by
  intro hparse
  generalize hr : dn ++ (x ++ y) :: rest = r at *
  obtain ⟨F, hF⟩ : ∃ F, F = ((pre ++ r :: post).map request).flatten := ⟨_, rfl⟩
  generalize hP : (pre.map request).flatten ++ (line 42 r.length ++ ((dn.map Spec.bulk).flatten ++ (line 36 (x ++ y).length ++ x))) = P at *
  -- the file is the buffer and the rest
  obtain ⟨Q, hQ⟩ : ∃ Q, F = P ++ Q := by
    refine ⟨y ++ CRLF ++ (rest.map Spec.bulk).flatten ++ (post.map request).flatten, ?_⟩
    subst hF hP
    simp only [List.map_append, List.map_cons, List.flatten_append, List.flatten_cons, request_line r]
    rw [← hr]
    simp [bulk_line]
  rw [← hF, parse] at hparse
  have ht : F.take cap = P := by rw [hQ]; simp [← hl]
  have hd : F.drop cap = Q := by rw [hQ]; simp [← hl]
  -- the first line is in the buffer
  have hcut : ∃ l b, cut P = some (l, b) := by
    have : ∀ (rs : List (List Bytes)) (B : Bytes), B.head? = some 42 → (∃ l b, cut B = some (l, b)) → ∃ l b, cut ((rs.map request).flatten ++ B) = some (l, b) := by
      intro rs B _ hB
      cases rs with
      | nil => simpa using hB
      | cons q qs =>
        refine ⟨line 42 q.length, (q.map Spec.bulk).flatten ++ ((qs.map request).flatten ++ B), ?_⟩
        rw [← cut_line 42 (by decide)]; simp [request_line]
    rw [← hP]
    exact this pre _ (by simp [line]) ⟨_, _, cut_line 42 (by decide) _ _⟩
  obtain ⟨l0, b0, hcut⟩ := hcut
  have hF0 : F ≠ [] := by rintro rfl; simp at ht; subst ht; simp [cut] at hcut
  have hfirst : records cap (F.length + 1) ⟨[], F⟩ = records cap (F.length + 1) ⟨P, Q⟩ := by
    have : readLine cap ⟨[], F⟩ = readLine cap ⟨P, Q⟩ := by
      rw [readLine_first h0 hF0 (l := l0) (rest := b0) (by rw [ht]; exact hcut), readLine_buf hcut, hd]
    simp [records, this]
  rw [hfirst] at hparse
  have hlen : pre.length + 1 ≤ F.length + 1 := by
    have := records_length (pre ++ r :: post)
    rw [← hF] at this
    simp at this; omega
  have e : F.length + 1 = (F.length - pre.length) + 1 + pre.length := by omega
  rw [e, ← hP, records_many pre hp] at hparse
  obtain ⟨l, hl1, hl2⟩ := Option.map_eq_some_iff.1 hparse
  have hl3 : l = r :: post := List.append_cancel_left hl2
  subst hl3
  have h1 : readLine cap ⟨line 42 r.length ++ ((dn.map Spec.bulk).flatten ++ (line 36 (x ++ y).length ++ x)), Q⟩ =
      some (42 :: dec r.length, ⟨(dn.map Spec.bulk).flatten ++ (line 36 (x ++ y).length ++ x), Q⟩) := readLine_line 42 (by decide) _ _ _
  simp only [records, h1, lengthOf_line 42 hs.1, Option.bind_eq_bind, Option.bind_some] at hl1
  rcases h2 : readArgs cap r.length ⟨(dn.map Spec.bulk).flatten ++ (line 36 (x ++ y).length ++ x), Q⟩ with _ | ⟨args, r'⟩
  · rw [h2] at hl1; cases hl1
  · have hm : r.length = dn.length + 1 + rest.length := by rw [← hr]; simp; omega
    rw [hm] at h2
    have h3 := readArgs_split dn (fun d hd => hs.2 d (by rw [← hr]; simp [hd])) (hs.2 (x ++ y) (by rw [← hr]; simp)) hx h2
    rw [← hm] at h2
    rw [h2] at hl1
    simp only [Option.bind_some] at hl1
    split at hl1
    · cases hl1
    · rcases h5 : records cap (F.length - pre.length) r' with _ | l'
      · rw [h5] at hl1; cases hl1
      · rw [h5] at hl1
        simp only [Option.bind_some, Option.some.injEq, List.cons.injEq] at hl1
        obtain ⟨rfl, -⟩ := hl1
        have h6 : args[dn.length]? = some (x ++ y) := by rw [← hr]; simp
        rw [h6] at h3
        have := List.append_cancel_left (Option.some.inj h3)
        obtain ⟨c, hc, hc0⟩ := hy
        rw [this] at hc
        exact hc0 (List.eq_of_mem_replicate hc)

end Metis.Aof
