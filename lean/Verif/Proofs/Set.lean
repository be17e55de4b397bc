import Verif.Model.Set
import Verif.Spec.FSet
import Verif.Proofs.DictRun
import Mathlib.Tactic.Tauto
set_option linter.unusedSectionVars false
set_option linter.unusedSimpArgs false
set_option linter.unusedVariables false
namespace Metis.MSet
open Metis.Spec Metis.Dict
variable {K : Type} [DecidableEq K] {hash : K → Nat}

/-- Members as a list. -/
def mems (s : MSet K) : List K := s.toList.map Prod.fst

/-- Membership. -/
def Mem (s : MSet K) (k : K) : Prop := k ∈ mems s

instance (s : MSet K) (k : K) : Decidable (Mem s k) := inferInstanceAs (Decidable (k ∈ mems s))

theorem mems_nodup {s : MSet K} (h : Inv hash s) : (mems s).Nodup := h.nodup

theorem add_spec (s : MSet K) (h : Inv hash s) (k : K) :
    ∃ s', add hash s k = some (decide (¬ Mem s k), s') ∧ Inv hash s' ∧ s'.iterators = s.iterators ∧
      ∀ x, Mem s' x ↔ x = k ∨ Mem s x := by
  obtain ⟨d', h1, h2, h3, h4, h5, h6⟩ := set_spec s h k ()
  refine ⟨d', h1, h2, h3, ?_⟩
  intro x
  by_cases hk : k ∈ s.toList.map Prod.fst
  · have hp := ((h6 hk).map Prod.fst).mem_iff (a := x)
    have hm : (s.toList.map (repl k ())).map Prod.fst = s.toList.map Prod.fst := by
      rw [List.map_map]; apply List.map_congr_left; intro e _; simp only [Function.comp, repl]; split <;> rfl
    rw [hm] at hp
    unfold Mem mems
    rw [hp]
    constructor
    · exact Or.inr
    · rintro (rfl | h) <;> assumption
  · have hp := ((h5 hk).map Prod.fst).mem_iff (a := x)
    unfold Mem mems
    rw [hp]; simp

theorem contains_spec (s : MSet K) (h : Inv hash s) (k : K) :
    ∃ s', contains hash s k = some (decide (Mem s k), s') ∧ Same hash s s' := by
  obtain ⟨d', h1, h2⟩ := find_spec s h k
  refine ⟨d', ?_, h2⟩
  unfold contains
  rw [h1, find?_eq_abs h]
  simp only [Option.bind_eq_bind, Option.bind_some, Option.isSome_map, Option.some.injEq, Prod.mk.injEq, and_true]
  cases ha : s.abs k with
  | none => have : ¬ Mem s k := (abs_eq_none k).mp ha; simp [this]
  | some v =>
    have := (abs_eq_some h k v).mp ha
    have : Mem s k := List.mem_map_of_mem (f := Prod.fst) this
    simp [this]

theorem Mem_perm {s s' : MSet K} (h : s'.toList.Perm s.toList) (x : K) : Mem s' x ↔ Mem s x := by
  unfold Mem mems; exact (h.map Prod.fst).mem_iff

theorem delete_spec' (s : MSet K) (h : Inv hash s) (k : K) :
    ∃ r s', delete hash s k = some (r, s') ∧ Inv hash s' ∧ s'.iterators = s.iterators ∧ (r = none ↔ Mem s k) ∧
      ∀ x, Mem s' x ↔ x ≠ k ∧ Mem s x := by
  obtain ⟨r, d', h1, h2, h3, h4, h5, h6, h7⟩ := delete_spec s h k
  refine ⟨r, d', h1, h2, h3, ?_⟩
  cases ha : s.abs k with
  | none =>
    have hn := (abs_eq_none k).mp ha
    have hr : r ≠ none ∧ d'.toList.Perm s.toList := by
      cases hi : s.ht0.isSome with
      | false => obtain ⟨rfl, rfl⟩ := h5 hi; exact ⟨by simp, .refl _⟩
      | true => obtain ⟨rfl, hp⟩ := h6 hi hn; exact ⟨by simp, hp⟩
    refine ⟨⟨fun h => absurd h hr.1, fun h => absurd h hn⟩, fun x => ?_⟩
    rw [Mem_perm hr.2]
    constructor
    · intro hx; exact ⟨by rintro rfl; exact hn hx, hx⟩
    · exact And.right
  | some v =>
    obtain ⟨rfl, hp⟩ := h7 v ha
    have hm : Mem s k := List.mem_map_of_mem (f := Prod.fst) ((abs_eq_some h k v).mp ha)
    refine ⟨⟨fun _ => hm, fun _ => rfl⟩, fun x => ?_⟩
    have hp' := hp.map Prod.fst
    have nd := hp'.nodup_iff.mp h.nodup
    simp only [List.map_cons, List.nodup_cons] at nd
    have hx := hp'.mem_iff (a := x)
    simp only [List.map_cons, List.mem_cons] at hx
    unfold Mem mems
    rw [hx]
    constructor
    · intro hxd; exact ⟨by rintro rfl; exact nd.1 hxd, Or.inr hxd⟩
    · rintro ⟨hne, hk | hk⟩
      · exact absurd hk hne
      · exact hk

theorem range_spec (s : MSet K) (h : Inv hash s) (hpos : 0 ≤ s.iterators) (hun : s.ht0 = none → s.iterators = 0) :
    range s = some (mems s, s) := by
  obtain ⟨d2, s', h1, _, h2, h3⟩ := forEach_spec (hash := hash) s h hpos hun [] (fun e d acc => some (d, acc ++ [e.1]))
    (fun done d2 acc => d2 = { s with iterators := s.iterators + 1 } ∧ acc = done.map Prod.fst)
    (by
      rintro done e rest d1 s _ ⟨rfl, rfl⟩ _ _ _
      exact ⟨_, _, rfl, Or.inl rfl, rfl, by simp⟩)
    ⟨rfl, rfl⟩
  unfold range
  rw [h1, h2, h3]; rfl

theorem addTo_spec (s : MSet K) (h : Inv hash s) (hpos : 0 ≤ s.iterators) (hun : s.ht0 = none → s.iterators = 0)
    (r0 : MSet K) (hr : Good hash r0) :
    ∃ s1 it r, Dict.pass s r0 (addTo hash) = some (s1, it, r) ∧ s1 = { s with iterators := s1.iterators } ∧ Good hash r ∧
      (∀ x, Mem r x ↔ Mem r0 x ∨ Mem s x) ∧ 0 ≤ s1.iterators ∧ (s1.ht0 = none → s1.iterators = 0) ∧
      ∀ x : MSet K, x.iterators = s1.iterators → iterRelease it x = { x with iterators := s.iterators } := by
  obtain ⟨d1, it, d2, s', h1, _, ⟨h3, h3b, h3c⟩, h4, h5, h6, h7⟩ := pass_spec (hash := hash) s h hpos hun r0 (addTo hash)
    (fun done d2 r => d2 = { s with iterators := s.iterators + 1 } ∧ Good hash r ∧
      ∀ x, Mem r x ↔ Mem r0 x ∨ x ∈ done.map Prod.fst)
    (by
      rintro done e rest d1 r _ ⟨rfl, g, hm⟩ _ _ _
      obtain ⟨r', ha, i', it', hm'⟩ := add_spec r g.inv e.1
      refine ⟨_, r', by unfold addTo; rw [ha]; rfl, Or.inl rfl, rfl, ⟨i', by rw [it', g.idle]⟩, ?_⟩
      intro x
      rw [hm', hm]
      simp only [List.map_append, List.map_cons, List.map_nil, List.mem_append, List.mem_singleton]
      tauto)
    ⟨rfl, hr, by simp⟩
  refine ⟨d1, it, s', h1, ?_, h3b, h3c, h5, h6, h7⟩
  rw [h4, h3]

theorem new_good' : Good hash (MSet.new : MSet K) := ⟨new_inv, rfl⟩

theorem mem_new (x : K) : ¬ Mem (MSet.new : MSet K) x := by
  simp [Mem, mems, MSet.new, Dict.new, toList]

theorem good_uninit {s : MSet K} (g : Good hash s) : s.ht0 = none → s.iterators = 0 := fun _ => g.idle

theorem union_spec (a b : MSet K) (ga : Good hash a) (gb : Good hash b) :
    ∃ r, union hash a b = some (a, b, r) ∧ Good hash r ∧ ∀ x, Mem r x ↔ Mem a x ∨ Mem b x := by
  obtain ⟨a1, it1, r1, h1, e1, g1, m1, p1, u1, rel1⟩ := addTo_spec a ga.inv (by rw [ga.idle]; omega) (good_uninit ga) MSet.new new_good'
  obtain ⟨b1, it2, r2, h2, e2, g2, m2, p2, u2, rel2⟩ := addTo_spec b gb.inv (by rw [gb.idle]; omega) (good_uninit gb) r1 g1
  refine ⟨r2, ?_, g2, ?_⟩
  · unfold union
    simp only [h1, h2, Option.bind_eq_bind, Option.bind_some]
    rw [rel1 a1 rfl, rel2 b1 rfl]
    have x1 : ({ a1 with iterators := a.iterators } : MSet K) = a := by rw [e1]
    have x2 : ({ b1 with iterators := b.iterators } : MSet K) = b := by rw [e2]
    rw [x1, x2]
  · intro x; rw [m2, m1]; simp [mem_new]

theorem unionSelf_spec (a : MSet K) (ga : Good hash a) :
    ∃ r, unionSelf hash a = some (a, r) ∧ Good hash r ∧ ∀ x, Mem r x ↔ Mem a x := by
  obtain ⟨a1, it1, r1, h1, e1, g1, m1, p1, u1, rel1⟩ := addTo_spec a ga.inv (by rw [ga.idle]; omega) (good_uninit ga) MSet.new new_good'
  have i1 : Inv hash a1 := by rw [e1]; exact ga.inv.setIters _
  obtain ⟨b1, it2, r2, h2, e2, g2, m2, p2, u2, rel2⟩ := addTo_spec a1 i1 p1 u1 r1 g1
  refine ⟨r2, ?_, g2, ?_⟩
  · unfold unionSelf
    simp only [h1, h2, Option.bind_eq_bind, Option.bind_some]
    rw [rel2 b1 rfl]
    have := rel1 { b1 with iterators := a1.iterators } rfl
    rw [this]
    have x1 : ({ b1 with iterators := a.iterators } : MSet K) = a := by rw [e2, e1]
    simp only [x1]
  · intro x; rw [m2, m1]
    have : Mem a1 x ↔ Mem a x := by rw [e1]; rfl
    rw [this]; simp [mem_new]

theorem select_spec (want : Bool) (a b : MSet K) (ga : Good hash a) (gb : Good hash b) :
    ∃ b' r, select hash want a b = some (a, b', r) ∧ Eqv hash b b' ∧ Good hash r ∧
      ∀ x, Mem r x ↔ Mem a x ∧ (want = true ↔ Mem b x) := by
  obtain ⟨d2, ⟨b', r⟩, h1, _, h2, h3, h4, h5⟩ := forEach_spec (hash := hash) a ga.inv (by rw [ga.idle]; omega) (good_uninit ga)
    (b, MSet.new) (fun e d st => do
      let (c, o) ← contains hash st.1 e.1
      if c = want then do
        let (_, r) ← add hash st.2 e.1
        some (d, (o, r))
      else some (d, (o, st.2)))
    (fun done d2 st => d2 = { a with iterators := a.iterators + 1 } ∧ Eqv hash b st.1 ∧ Good hash st.2 ∧
      ∀ x, Mem st.2 x ↔ x ∈ done.map Prod.fst ∧ (want = true ↔ Mem b x))
    (by
      rintro done e rest d1 ⟨b1, r1⟩ _ ⟨rfl, sm, g, hm⟩ _ _ _
      simp only at sm g hm
      obtain ⟨b2, hc, sm2⟩ := contains_spec b1 sm.inv e.1
      have hmb : Mem b1 e.1 ↔ Mem b e.1 := Mem_perm sm.perm _
      have smm : Eqv hash b b2 := sm.trans sm2.eqv
      by_cases hw : decide (Mem b1 e.1) = want
      · obtain ⟨r2, ha, i2, it2, hm2⟩ := add_spec r1 g.inv e.1
        refine ⟨_, (b2, r2), by simp only [hc, ha, hw, Option.bind_eq_bind, Option.bind_some, if_true], Or.inl rfl, rfl, smm,
          ⟨i2, by rw [it2, g.idle]⟩, ?_⟩
        intro x
        have hwe : (want = true ↔ Mem b e.1) := by rw [← hw, ← hmb]; simp
        simp only [hm2, hm, List.map_append, List.map_cons, List.map_nil, List.mem_append, List.mem_singleton]
        constructor
        · rintro (rfl | h)
          · exact ⟨Or.inr rfl, hwe⟩
          · exact ⟨Or.inl h.1, h.2⟩
        · rintro ⟨h | rfl, h'⟩
          · exact Or.inr ⟨h, h'⟩
          · exact Or.inl rfl
      · refine ⟨_, (b2, r1), by simp only [hc, hw, Option.bind_eq_bind, Option.bind_some, if_false], Or.inl rfl, rfl, smm, g, ?_⟩
        intro x
        simp only [hm, List.map_append, List.map_cons, List.map_nil, List.mem_append, List.mem_singleton]
        have hwe : ¬ (want = true ↔ Mem b e.1) := by
          intro hc; apply hw; rw [← hmb] at hc
          cases want
          · simpa using hc
          · simpa using hc
        constructor
        · rintro h; exact ⟨Or.inl h.1, h.2⟩
        · rintro ⟨h | rfl, h'⟩
          · exact ⟨h, h'⟩
          · exact absurd h' hwe)
    ⟨rfl, Eqv.refl gb.inv, new_good', by simp [mem_new]⟩
  refine ⟨b', r, ?_, h3, h4, h5⟩
  unfold select
  rw [h1, h2]; rfl

theorem selectSelf_spec (want : Bool) (a : MSet K) (ga : Good hash a) :
    ∃ r, selectSelf hash want a = some (a, r) ∧ Good hash r ∧ ∀ x, Mem r x ↔ Mem a x ∧ want = true := by
  obtain ⟨d2, r, h1, _, h2, h4, h5⟩ := forEach_spec (hash := hash) a ga.inv (by rw [ga.idle]; omega) (good_uninit ga)
    MSet.new (fun e d r => do
      let (b, d) ← contains hash d e.1
      if b = want then do
        let (_, r) ← add hash r e.1
        some (d, r)
      else some (d, r))
    (fun done d2 r => d2 = { a with iterators := a.iterators + 1 } ∧ Good hash r ∧
      ∀ x, Mem r x ↔ x ∈ done.map Prod.fst ∧ want = true)
    (by
      rintro done e rest d1 r1 _ ⟨rfl, g, hm⟩ hi _ he
      obtain ⟨b2, hc, sm2⟩ := contains_spec _ hi e.1
      have := sm2.froz (by simp only [ga.idle]; decide)
      subst this
      have hme : Mem { a with iterators := a.iterators + 1 } e.1 := List.mem_map_of_mem (f := Prod.fst) he
      rw [decide_eq_true hme] at hc
      by_cases hw : want = true
      · obtain ⟨r2, ha, i2, it2, hm2⟩ := add_spec r1 g.inv e.1
        refine ⟨_, r2, by simp only [hc, ha, hw, Option.bind_eq_bind, Option.bind_some, if_true], Or.inl rfl, rfl,
          ⟨i2, by rw [it2, g.idle]⟩, ?_⟩
        intro x
        simp only [hm2, hm, List.map_append, List.map_cons, List.map_nil, List.mem_append, List.mem_singleton, hw]
        tauto
      · refine ⟨_, r1, by simp only [hc, Ne.symm hw, Option.bind_eq_bind, Option.bind_some, if_false], Or.inl rfl, rfl, g, ?_⟩
        intro x
        simp [hm, hw])
    ⟨rfl, new_good', by simp [mem_new]⟩
  refine ⟨r, ?_, h4, h5⟩
  unfold selectSelf
  rw [h1, h2]

/-- Random member: fails exactly on the empty set, otherwise yields a member or waits for more draws. -/
theorem getRandom_spec (s : MSet K) (h : Inv hash s) (draws : List Nat) :
    (mems s = [] → getRandom hash s draws = none) ∧
    (mems s ≠ [] → ∃ out s' rest, getRandom hash s draws = some (out, s', rest) ∧ Eqv hash s s' ∧
      out ≠ .nil ∧ ∀ k, out = .entry k → Mem s k) := by
  obtain ⟨out, d', rest, h1, h2, h3, h4, h5, h6, h7, h8⟩ := getRandomKey_spec s h draws
  have hl : mems s = [] ↔ s.toList = [] := by simp [mems]
  constructor
  · intro he
    have := h6.mpr (hl.mp he)
    subst this
    simp [getRandom, h1]
  · intro hne
    cases out with
    | nil => exact absurd (h6.mp rfl) (fun h => hne (hl.mpr h))
    | entry e =>
      exact ⟨.entry e.1, d', rest, by simp [getRandom, h1], ⟨h2, h3, h5, h4⟩, by simp, by
        intro k hk; cases hk; exact List.mem_map_of_mem (f := Prod.fst) (h7 e rfl)⟩
    | spin => exact ⟨.spin, d', rest, by simp [getRandom, h1], ⟨h2, h3, h5, h4⟩, by simp, by intro k hk; cases hk⟩

end Metis.MSet
