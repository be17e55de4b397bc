import Verif.Proofs.DictRun
import Mathlib.Tactic.ByContra
/-!
The dict seen as a partial function, for use by the structures built on it.
-/
set_option linter.unusedSectionVars false
set_option linter.unusedSimpArgs false
set_option linter.unusedVariables false
namespace Metis.Dict
variable {K V : Type} [DecidableEq K] {hash : K → Nat}

theorem find_map {d : Dict K V} (g : Good hash d) (k : K) :
    ∃ d', find hash d k = some ((d.abs k).map (fun v => (k, v)), d') ∧ Good hash d' ∧ d'.abs = d.abs ∧ d'.toList.Perm d.toList := by
  obtain ⟨d', h1, h2⟩ := find_spec d g.inv k
  exact ⟨d', by rw [h1, find?_eq_abs g.inv], h2.eqv.good g, h2.abs g.inv, h2.perm⟩

theorem get_map {d : Dict K V} (g : Good hash d) (k : K) :
    ∃ d', get hash d k = some (d.abs k, d') ∧ Good hash d' ∧ d'.abs = d.abs ∧ d'.toList.Perm d.toList := by
  obtain ⟨d', h1, h2⟩ := find_map g k
  refine ⟨d', ?_, h2⟩
  unfold get
  rw [h1]
  cases d.abs k <;> rfl

theorem set_map {d : Dict K V} (g : Good hash d) (k : K) (v : V) :
    ∃ d', set hash d k v = some ((d.abs k).isNone, d') ∧ Good hash d' ∧ d'.abs = fun x => if k = x then some v else d.abs x := by
  obtain ⟨r, d', h1, h2, h3⟩ := call_spec d g (.set k v)
  simp only [call] at h1
  cases hs : set hash d k v with
  | none => rw [hs] at h1; simp at h1
  | some p =>
    rw [hs] at h1
    simp only [Option.map_some, Option.bind_eq_bind, Option.bind_some] at h1
    obtain ⟨b, d2⟩ := p
    simp only [Option.some.injEq, Prod.mk.injEq] at h1
    obtain ⟨rfl, rfl⟩ := h1
    generalize hsp : spec d2 = m2 at h3
    cases h3 with
    | set_new _ _ h =>
      refine ⟨d2, ?_, h2, congrArg Spec.Map.at? hsp⟩
      have : d.abs k = none := h
      rw [this]; rfl
    | set_old _ _ w h =>
      refine ⟨d2, ?_, h2, congrArg Spec.Map.at? hsp⟩
      have : d.abs k = some w := h
      rw [this]; rfl

theorem delete_map {d : Dict K V} (g : Good hash d) (k : K) :
    ∃ r d', delete hash d k = some (r, d') ∧ Good hash d' ∧ (d'.abs = fun x => if k = x then none else d.abs x) ∧
      (r = none ↔ (d.abs k).isSome = true) := by
  obtain ⟨r, d', h1, h2, h3⟩ := call_spec d g (.delete k)
  simp only [call] at h1
  cases hs : delete hash d k with
  | none => rw [hs] at h1; simp at h1
  | some p =>
    rw [hs] at h1
    obtain ⟨e, d2⟩ := p
    simp only [Option.map_some, Option.bind_eq_bind, Option.bind_some] at h1
    simp only [Option.some.injEq, Prod.mk.injEq] at h1
    obtain ⟨h1, rfl⟩ := h1
    refine ⟨e, d2, rfl, h2, ?_⟩
    generalize hsp : spec d2 = m2 at h3
    cases h3 with
    | delete_uninit _ h =>
      have h4 : d2.abs = d.abs := congrArg Spec.Map.at? hsp
      have h0 : d.abs k = none := by
        have : d.ht0 = none := by
          have : d.ht0.isSome = false := h
          cases hd : d.ht0 <;> simp_all
        rw [abs_eq_none]
        cases g.inv with
        | empty h0 h1 hr => simp [toList, h0, h1]
        | stable t0 h0 h1 hr w0 nd => simp_all
        | rehashing t0 t1 r h0 h1 hr hle w0 w1 hsz hemp nd => simp_all
      refine ⟨?_, ?_⟩
      · rw [h4]; funext x; by_cases hx : k = x
        · subst hx; simp [h0]
        · simp [hx]
      · rw [h0]; cases e <;> simp_all
    | delete_absent _ h h' =>
      have h4 : d2.abs = d.abs := congrArg Spec.Map.at? hsp
      have h0 : d.abs k = none := h'
      refine ⟨?_, ?_⟩
      · rw [h4]; funext x; by_cases hx : k = x
        · subst hx; simp [h0]
        · simp [hx]
      · rw [h0]; cases e <;> simp_all
    | delete_present _ v h =>
      refine ⟨congrArg Spec.Map.at? hsp, ?_⟩
      have h0 : d.abs k = some v := h
      rw [h0]; cases e <;> simp_all

theorem assign_map {d : Dict K V} (g : Good hash d) (k : K) (v : V) (h : (d.abs k).isSome = true) :
    Good hash (assign hash d k v) ∧ (assign hash d k v).abs = fun x => if k = x then some v else d.abs x := by
  obtain ⟨h1, h2, h3, h4, h5, h6⟩ := assign_spec d g.inv k v
  refine ⟨⟨h1, by rw [h3, g.idle]⟩, ?_⟩
  funext x
  have hmem : k ∈ d.toList.map Prod.fst := by
    by_contra hc
    rw [← abs_eq_none] at hc
    rw [hc] at h; cases h
  by_cases hx : k = x
  · subst hx
    rw [if_pos rfl, abs_eq_some h1, h2]
    obtain ⟨e, he, hk⟩ := List.mem_map.1 hmem
    refine List.mem_map.2 ⟨e, he, ?_⟩
    unfold repl; rw [if_pos hk.symm, hk]
  · rw [if_neg hx]
    cases hd : d.abs x with
    | none => rw [abs_eq_none, h2, map_repl_fst, ← abs_eq_none, hd]
    | some w =>
      rw [abs_eq_some h1, h2]
      refine List.mem_map.2 ⟨(x, w), (abs_eq_some g.inv x w).1 hd, ?_⟩
      unfold repl; rw [if_neg hx]

end Metis.Dict
