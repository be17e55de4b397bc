import Verif.Proofs.Window
/-!
Loading a log of any length that ends inside a record (C56).
-/
set_option linter.unusedSectionVars false
set_option linter.unusedSimpArgs false
set_option linter.unusedVariables false
namespace Metis.Aof
open Metis.Spec

/-- What is left of the file is read as data. -/
theorem read_rest {cap m n : Nat} (hm : m ≤ cap) {v : Bytes} (hv : v ≠ []) (hl : v.length ≤ n) (h : n ≤ m ∨ m = 0) :
    read cap n (at_ v m) = some (v, ⟨[], []⟩) := by
  have hn : n ≠ 0 := by
    have := List.length_pos_iff.2 hv
    omega
  rcases h with h | rfl
  · have e : at_ v m = ⟨v, []⟩ := by simp only [at_, Rd.mk.injEq]; exact ⟨List.take_of_length_le (by omega), List.drop_eq_nil_of_le (by omega)⟩
    rw [e, read_buf hn hv, List.take_of_length_le hl, List.drop_eq_nil_of_le hl]
  · have e : at_ v 0 = ⟨[], v⟩ := by simp [at_]
    rw [e]
    unfold read
    rw [if_neg hn, if_neg (by simp), if_neg hv]
    by_cases hc : n ≥ cap
    · rw [if_pos hc, List.take_of_length_le hl, List.drop_eq_nil_of_le hl]
    · rw [if_neg hc]
      have h1 : v.length ≤ cap := by omega
      simp only [fill, List.length_nil, Nat.sub_zero, List.nil_append, List.take_of_length_le h1, List.drop_eq_nil_of_le h1, List.take_of_length_le hl, List.drop_eq_nil_of_le hl]

theorem read_none {cap n m : Nat} (hn : n ≠ 0) : read cap n (at_ [] m) = none := by rw [at_nil]; exact read_eof hn

/-- A line without its end. -/
theorem readBytes_none {cap : Nat} : ∀ (k : Nat) (acc b f : Bytes), (10 : UInt8) ∉ b → (10 : UInt8) ∉ f → readBytes cap k acc ⟨b, f⟩ = none
  | 0, _, _, _, _, _ => rfl
  | k + 1, acc, b, f, hb, hf => by
    have hc : cut b = none := cut_none fun c hc e => hb (e ▸ hc)
    simp only [readBytes, hc]
    split
    · exact readBytes_none k _ _ _ (by simp) hf
    · split
      · rfl
      · exact readBytes_none k _ _ _ (by
          simp only [fill, List.mem_append, not_or]
          exact ⟨hb, fun h => hf (List.mem_of_mem_take h)⟩) (fun h => hf (List.mem_of_mem_drop h))

theorem readLine_none {cap m : Nat} {s : Bytes} (h : (10 : UInt8) ∉ s) : readLine cap (at_ s m) = none := by
  simp only [readLine, at_, readBytes_none _ _ _ _ (fun hx => h (List.mem_of_mem_take hx)) (fun hx => h (List.mem_of_mem_drop hx)), Option.bind_eq_bind, Option.bind_none]

/-- An argument that is cut off: nothing is read from it, unless only its last byte is missing. -/
theorem readArg_torn {cap m m' : Nat} (hcap : 22 ≤ cap) (hm : m ≤ cap) {a : Bytes} (ha : a.length < 2 ^ 63) (hw : window cap m (pieceArg a) = some m')
    {t w : Bytes} (h : Spec.bulk a = t ++ w) (hw0 : w ≠ []) :
    readArg cap (at_ t m) = if w = [10] then some (a, ⟨[], []⟩) else none := by
  rw [bulk_line] at h
  have line_only : ∀ {t}, (∃ v, line 36 a.length = t ++ v ∧ v ≠ []) → (10 : UInt8) ∉ t := by
    rintro t ⟨v, hv, hv0⟩ hx
    exact dec_lf_free (by decide) hv hv0 10 hx rfl
  have key : (∃ v, t = line 36 a.length ++ v ∧ a ++ CRLF = v ++ w) ∨ ((10 : UInt8) ∉ t ∧ w ≠ [10]) := by
    rcases List.append_eq_append_iff.1 h with ⟨v, hv, hv'⟩ | ⟨v, hv, hv'⟩
    · exact Or.inl ⟨v, hv, hv'⟩
    · by_cases hv0 : v = []
      · subst hv0
        exact Or.inl ⟨[], by simpa using hv.symm, by simpa using hv'.symm⟩
      · refine Or.inr ⟨line_only ⟨v, hv, hv0⟩, ?_⟩
        rintro rfl
        have := congrArg List.length hv'
        have h2 : 0 < v.length := List.length_pos_iff.2 hv0
        simp [CRLF] at this
        omega
  rcases key with ⟨v, rfl, hvw⟩ | ⟨h1, h2⟩
  · have h1 := readLine_at (m := m) 36 (by decide) ha hcap hm v
    have hm1 : (if (dec a.length).length + 3 ≤ m then m - ((dec a.length).length + 3) else cap - ((dec a.length).length + 3)) ≤ cap := by split <;> omega
    have hww : window cap (if (dec a.length).length + 3 ≤ m then m - ((dec a.length).length + 3) else cap - ((dec a.length).length + 3)) [.data a.length, .data 2] = some m' := by
      rw [← hw]
      simp only [pieceArg, header, window]
      split <;> rfl
    generalize (if (dec a.length).length + 3 ≤ m then m - ((dec a.length).length + 3) else cap - ((dec a.length).length + 3)) = m1 at *
    have hok : a.length ≤ m1 ∨ m1 = 0 := by
      simp only [window] at hww
      split at hww
      · left; assumption
      · split at hww
        · right; assumption
        · cases hww
    simp only [readArg, h1, Option.bind_eq_bind, Option.bind_some, lengthOf_line 36 ha]
    have cases3 : (v = a ++ [13] ∧ w = [10]) ∨ (v.length ≤ a.length ∧ w ≠ [10]) := by
      rcases List.append_eq_append_iff.1 hvw with ⟨x, hx, hx'⟩ | ⟨x, hx, hx'⟩
      · rcases x with _ | ⟨x1, _ | ⟨x2, x⟩⟩
        · right
          refine ⟨by simp [hx], ?_⟩
          rintro rfl
          simp [CRLF] at hx'
        · left
          simp [CRLF] at hx'
          exact ⟨by rw [hx, ← hx'.1], hx'.2.symm⟩
        · simp [CRLF] at hx'
          exact absurd hx'.2.2.2 hw0
      · right
        refine ⟨by rw [hx]; simp, ?_⟩
        rintro rfl
        have := congrArg List.length hx'
        simp [CRLF] at this
    rcases cases3 with ⟨rfl, rfl⟩ | ⟨hl, hne⟩
    · have h2 := read_at (by omega) hm1 a [13] hok
      have hm2 : (if a.length ≤ m1 then m1 - a.length else cap - a.length) ≤ cap := by split <;> omega
      have hw2 : window cap (if a.length ≤ m1 then m1 - a.length else cap - a.length) [.data 2] = some m' := by
        rw [← hww]
        by_cases h : a.length ≤ m1
        · simp only [window, if_pos h]
        · have h0 : m1 = 0 := by omega
          simp only [window, if_neg h, if_pos h0]
      generalize (if a.length ≤ m1 then m1 - a.length else cap - a.length) = m2 at *
      have hok2 : 2 ≤ m2 ∨ m2 = 0 := by
        simp only [window] at hw2
        split at hw2
        · left; assumption
        · split at hw2
          · right; assumption
          · cases hw2
      have h3 := read_rest (cap := cap) (m := m2) (n := 2) hm2 (v := [13]) (by decide) (by decide) hok2
      simp only [h2, h3, Option.bind_some, if_true, Nat.sub_self, List.replicate_zero, List.append_nil]
    · rw [if_neg hne]
      by_cases hv0 : v = []
      · subst hv0
        by_cases ha0 : a.length = 0
        · have h2 : read cap a.length (at_ [] m1) = some ([], at_ [] m1) := by rw [ha0, read_zero]
          simp only [h2, Option.bind_some, read_none (show 2 ≠ 0 by decide), Option.bind_none]
        · simp only [read_none ha0, Option.bind_none]
      · have h2 := read_rest hm1 hv0 hl hok
        simp only [h2, Option.bind_some, read_eof (show 2 ≠ 0 by decide), Option.bind_none]
  · rw [if_neg h2]
    simp only [readArg, readLine_none h1, Option.bind_eq_bind, Option.bind_none]

/-- Arguments that are cut off. -/
theorem readArgs_cut {cap : Nat} (hcap : 22 ≤ cap) : ∀ (args : List Bytes) {m m' : Nat}, m ≤ cap → (∀ a ∈ args, a.length < 2 ^ 63) →
    window cap m (args.flatMap pieceArg) = some m' → ∀ (t u : Bytes), u ≠ [] → (args.map Spec.bulk).flatten = t ++ u →
    readArgs cap args.length (at_ t m) = if u = [10] then some (args, ⟨[], []⟩) else none
  | [], m, m', _, _, _, t, u, hu, h => by simp at h; exact absurd h.2 hu
  | a :: as, m, m', hm, hs, hw, t, u, hu, h => by
    have ha := hs a (by simp)
    have h' : Spec.bulk a ++ (as.map Spec.bulk).flatten = t ++ u := by simpa using h
    rw [List.flatMap_cons, window_append] at hw
    obtain ⟨m1, hw1, hw2⟩ := Option.bind_eq_some_iff.1 hw
    have whole : ∀ w, t = Spec.bulk a ++ w → (as.map Spec.bulk).flatten = w ++ u →
        readArgs cap (a :: as).length (at_ t m) = if u = [10] then some (a :: as, ⟨[], []⟩) else none := by
      intro w h1 h2
      have ih := readArgs_cut hcap as (window_le _ hm hw1) (fun x hx => hs x (by simp [hx])) hw2 w u hu h2
      have h3 := (readArg_at hcap hm ha w).1 m1 hw1
      rw [h1]
      simp only [List.length_cons, readArgs, h3, ih, Option.bind_eq_bind, Option.bind_some]
      split <;> rfl
    rcases List.append_eq_append_iff.1 h' with ⟨w, h1, h2⟩ | ⟨w, h1, h2⟩
    · exact whole w h1 h2
    · by_cases hw0 : w = []
      · subst hw0
        exact whole [] (by simpa using h1.symm) (by simpa using h2.symm)
      · have h3 := readArg_torn hcap hm ha hw1 h1 hw0
        simp only [List.length_cons, readArgs, h3, Option.bind_eq_bind]
        by_cases hwl : w = [10]
        · rw [if_pos hwl]
          subst hwl
          cases as with
          | nil =>
            simp only [List.map_nil, List.flatten_nil, List.append_nil] at h2
            rw [if_pos h2]
            rfl
          | cons b bs =>
            have h4 : u ≠ [10] := by
              rintro rfl
              have := congrArg List.length h2
              simp [Spec.bulk, CRLF] at this
            rw [if_neg h4]
            have h5 : readLine cap ⟨[], []⟩ = none := readLine_eof (by omega) rfl
            simp only [Option.bind_some, List.length_cons, readArgs, readArg, h5, Option.bind_eq_bind, Option.bind_none]
        · rw [if_neg hwl]
          have h4 : u ≠ [10] := by
            rintro rfl
            have hlen := congrArg List.length h2
            have : 0 < w.length := List.length_pos_iff.2 hw0
            have h5 : as = [] := by
              cases as with
              | nil => rfl
              | cons b bs =>
                exfalso
                simp [Spec.bulk, CRLF] at hlen
                omega
            subst h5
            simp only [List.map_nil, List.flatten_nil, List.append_nil] at h2
            exact hwl h2.symm
          rw [if_neg h4]
          rfl

/-- The last record is cut off behind its first line. -/
theorem records_cut {cap k m m' : Nat} (hcap : 22 ≤ cap) (hm : m ≤ cap) {r : List Bytes} (hr : r ≠ []) (hs : Sized r) (hw : window cap m (pieces r) = some m')
    {t u : Bytes} (hu : u ≠ []) (h : request r = t ++ u) (ht : (10 : UInt8) ∈ t) :
    records cap (k + 1) (at_ t m) = if u = [10] then some [r] else none := by
  rw [request_line] at h
  have key : ∃ w, t = line 42 r.length ++ w ∧ (r.map Spec.bulk).flatten = w ++ u := by
    rcases List.append_eq_append_iff.1 h with ⟨w, hw, hw'⟩ | ⟨w, hw, hw'⟩
    · exact ⟨w, hw, hw'⟩
    · by_cases hw0 : w = []
      · subst hw0; exact ⟨[], by simpa using hw.symm, by simpa using hw'.symm⟩
      · exact absurd rfl (dec_lf_free (by decide) hw hw0 10 ht)
  obtain ⟨w, rfl, hw'⟩ := key
  have h1 := readLine_at (m := m) 42 (by decide) hs.1 hcap hm w
  have hm1 : (if (dec r.length).length + 3 ≤ m then m - ((dec r.length).length + 3) else cap - ((dec r.length).length + 3)) ≤ cap := by split <;> omega
  have hww : window cap (if (dec r.length).length + 3 ≤ m then m - ((dec r.length).length + 3) else cap - ((dec r.length).length + 3)) (r.flatMap pieceArg) = some m' := by
    rw [← hw, pieces_eq]
    simp only [header, window]
    split <;> rfl
  generalize (if (dec r.length).length + 3 ≤ m then m - ((dec r.length).length + 3) else cap - ((dec r.length).length + 3)) = m1 at *
  have h2 := readArgs_cut hcap r hm1 hs.2 hww w u hu hw'
  simp only [records, h1, lengthOf_line 42 hs.1, Option.bind_eq_bind, Option.bind_some, h2]
  by_cases hul : u = [10]
  · simp only [if_pos hul, Option.bind_some, if_neg hr]
    rw [records_eof (by omega) (b := []) rfl]
    rfl
  · simp only [if_neg hul, Option.bind_none]

/-- A log of any length whose last record is cut off behind its first line. -/
theorem parse_cut {cap : Nat} (hcap : 22 ≤ cap) {recs : List (List Bytes)} {r : List Bytes} (h : ∀ x ∈ recs ++ [r], x ≠ [] ∧ Sized x)
    (hw : window cap 0 ((recs ++ [r]).flatMap pieces) ≠ none) {t u : Bytes} (hu : u ≠ []) (he : request r = t ++ u) (ht : (10 : UInt8) ∈ t) :
    parse cap ((recs.map request).flatten ++ t) = if u = [10] then some (recs ++ [r]) else none := by
  obtain ⟨m', hm⟩ := Option.ne_none_iff_exists'.1 hw
  rw [List.flatMap_append, window_append] at hm
  obtain ⟨m1, h1, h2⟩ := Option.bind_eq_some_iff.1 hm
  rw [List.flatMap_cons, List.flatMap_nil, List.append_nil] at h2
  have hlen := records_length recs
  have htl : 0 < t.length := List.length_pos_iff.2 (by rintro rfl; simp at ht)
  have hk : ((recs.map request).flatten ++ t).length + 1 = (((recs.map request).flatten ++ t).length - recs.length + 1) + recs.length := by
    rw [List.length_append]; omega
  have e2 : parse cap ((recs.map request).flatten ++ t) = records cap (((recs.map request).flatten ++ t).length + 1) (at_ ((recs.map request).flatten ++ t) 0) := by
    simp [parse, at_]
  rw [e2, hk, records_tail hcap t recs (by omega) (fun x hx => h x (by simp [hx])) h1,
    records_cut hcap (window_le _ (by omega) h1) (h r (by simp)).1 (h r (by simp)).2 h2 hu he ht]
  split <;> simp

end Metis.Aof
