import Verif.Model.SetRun
import Verif.Proofs.Set
/-! # C10: `datastruct.Set` is a finite set with exact algebra -/
set_option linter.unusedSectionVars false
namespace Metis.Props.SetP
open Metis Metis.MSet Metis.Spec Metis.Dict
variable {K : Type} [DecidableEq K]

theorem call_ok {hash : K → Nat} (s : MSet K) (g : Good hash s) (op : SetOp K) :
    ∃ r s', MSet.call hash s op = some (r, s') ∧ Good hash s' ∧ SetStep (Mem s) op r (Mem s') := by
  cases op with
  | add k =>
    obtain ⟨s', h1, h2, h3, h4⟩ := add_spec s g.inv k
    refine ⟨_, s', by simp only [MSet.call, h1]; rfl, ⟨h2, by rw [h3, g.idle]⟩, ?_⟩
    rw [show Mem s' = _ from funext fun x => propext (h4 x)]
    exact .add _ k _ (by simp)
  | delete k =>
    obtain ⟨r, s', h1, h2, h3, h4, h5⟩ := delete_spec' s g.inv k
    refine ⟨_, s', by simp only [MSet.call, h1]; rfl, ⟨h2, by rw [h3, g.idle]⟩, ?_⟩
    rw [show Mem s' = _ from funext fun x => propext (h5 x)]
    exact .delete _ k _ (by rw [← h4]; simp)
  | contains k =>
    obtain ⟨s', h1, h2⟩ := contains_spec s g.inv k
    refine ⟨_, s', by simp only [MSet.call, h1]; rfl, h2.eqv.good g, ?_⟩
    rw [show Mem s' = Mem s from funext fun x => propext (Mem_perm h2.perm x)]
    exact .contains _ k _ (by simp)
  | size =>
    refine ⟨.num (mems s).length, s, ?_, g, .size _ _ (mems_nodup g.inv) (fun k => Iff.rfl)⟩
    have := size_spec s g.inv
    simp only [MSet.call, MSet.size, this, mems, List.length_map]; rfl
  | range =>
    refine ⟨_, s, by simp only [MSet.call, range_spec s g.inv (by rw [g.idle]; omega) (good_uninit g)]; rfl, g,
      .range _ _ (mems_nodup g.inv) (fun k => Iff.rfl)⟩

theorem runCalls_ok {hash : K → Nat} (ops : List (SetOp K)) (s : MSet K) (g : Good hash s) :
    ∃ rs s', MSet.runCalls hash s ops = some (rs, s') ∧ Good hash s' ∧ SetRun (Mem s) ops rs (Mem s') := by
  induction ops generalizing s with
  | nil => exact ⟨[], s, rfl, g, .nil _⟩
  | cons op ops ih =>
    obtain ⟨r, s1, h1, g1, st⟩ := call_ok s g op
    obtain ⟨rs, s2, h2, g2, st2⟩ := ih s1 g1
    exact ⟨r :: rs, s2, by simp [MSet.runCalls, h1, h2], g2, .cons st st2⟩

/-- A set reached from `NewSet` by API calls. -/
def Reachable (hash : K → Nat) (s : MSet K) : Prop := ∃ ops rs, MSet.runCalls hash MSet.new ops = some (rs, s)

theorem Reachable.good {hash : K → Nat} {s : MSet K} (h : Reachable hash s) : Good hash s := by
  obtain ⟨ops, rs, h⟩ := h
  obtain ⟨rs', s', h1, g, _⟩ := runCalls_ok ops MSet.new (new_good' (hash := hash))
  rw [h] at h1; cases h1; exact g

/-- C10, first half: every history of calls terminates without panic and returns what a mathematical set would. -/
theorem C10_set_is_finite_set (hash : K → Nat) (ops : List (SetOp K)) :
    ∃ rs s m, MSet.runCalls hash MSet.new ops = some (rs, s) ∧ SetRun (fun _ => False) ops rs m ∧
      ∀ k, (MSet.contains hash s k).map Prod.fst = some true ↔ m k := by
  obtain ⟨rs, s, h1, g, st⟩ := runCalls_ok ops MSet.new (new_good' (hash := hash))
  rw [show Mem (MSet.new : MSet K) = fun _ => False from funext fun x => by simp [mem_new]] at st
  refine ⟨rs, s, _, h1, st, fun k => ?_⟩
  obtain ⟨s', hc, _⟩ := contains_spec s g.inv k
  rw [hc]; simp

/-- What `Contains` answers. -/
def Has (hash : K → Nat) (s : MSet K) (k : K) : Prop := (MSet.contains hash s k).map Prod.fst = some true

theorem has_iff {hash : K → Nat} {s : MSet K} (g : Good hash s) (k : K) : Has hash s k ↔ Mem s k := by
  obtain ⟨s', hc, _⟩ := contains_spec s g.inv k
  unfold Has; rw [hc]; simp

/-- C10: union of two sets. -/
theorem C10_union (hash : K → Nat) (a b : MSet K) (ha : Reachable hash a) (hb : Reachable hash b) :
    ∃ a' b' r, MSet.union hash a b = some (a', b', r) ∧ (∀ x, Has hash r x ↔ Has hash a x ∨ Has hash b x) ∧
      (∀ x, Has hash a' x ↔ Has hash a x) ∧ (∀ x, Has hash b' x ↔ Has hash b x) := by
  obtain ⟨r, h1, g, h2⟩ := union_spec a b ha.good hb.good
  refine ⟨a, b, r, h1, fun x => ?_, fun _ => Iff.rfl, fun _ => Iff.rfl⟩
  rw [has_iff g, has_iff ha.good, has_iff hb.good, h2]

/-- C10: intersection of two sets. -/
theorem C10_intersect (hash : K → Nat) (a b : MSet K) (ha : Reachable hash a) (hb : Reachable hash b) :
    ∃ a' b' r, MSet.intersect hash a b = some (a', b', r) ∧ (∀ x, Has hash r x ↔ Has hash a x ∧ Has hash b x) ∧
      (∀ x, Has hash a' x ↔ Has hash a x) ∧ (∀ x, Has hash b' x ↔ Has hash b x) := by
  obtain ⟨b', r, h1, e, g, h2⟩ := select_spec true a b ha.good hb.good
  refine ⟨a, b', r, h1, fun x => ?_, fun _ => Iff.rfl, fun x => ?_⟩
  · rw [has_iff g, has_iff ha.good, has_iff hb.good, h2]; simp
  · rw [has_iff (e.good hb.good), has_iff hb.good]; exact Mem_perm e.perm x

/-- C10: difference of two sets. -/
theorem C10_difference (hash : K → Nat) (a b : MSet K) (ha : Reachable hash a) (hb : Reachable hash b) :
    ∃ a' b' r, MSet.difference hash a b = some (a', b', r) ∧ (∀ x, Has hash r x ↔ Has hash a x ∧ ¬ Has hash b x) ∧
      (∀ x, Has hash a' x ↔ Has hash a x) ∧ (∀ x, Has hash b' x ↔ Has hash b x) := by
  obtain ⟨b', r, h1, e, g, h2⟩ := select_spec false a b ha.good hb.good
  refine ⟨a, b', r, h1, fun x => ?_, fun _ => Iff.rfl, fun x => ?_⟩
  · rw [has_iff g, has_iff ha.good, has_iff hb.good, h2]; simp
  · rw [has_iff (e.good hb.good), has_iff hb.good]; exact Mem_perm e.perm x

/-- C10: the three operations with both operands the same object. -/
theorem C10_self (hash : K → Nat) (a : MSet K) (ha : Reachable hash a) :
    (∃ a' r, MSet.unionSelf hash a = some (a', r) ∧ (∀ x, Has hash r x ↔ Has hash a x) ∧ ∀ x, Has hash a' x ↔ Has hash a x) ∧
    (∃ a' r, MSet.intersectSelf hash a = some (a', r) ∧ (∀ x, Has hash r x ↔ Has hash a x) ∧ ∀ x, Has hash a' x ↔ Has hash a x) ∧
    (∃ a' r, MSet.differenceSelf hash a = some (a', r) ∧ (∀ x, ¬ Has hash r x) ∧ ∀ x, Has hash a' x ↔ Has hash a x) := by
  refine ⟨?_, ?_, ?_⟩
  · obtain ⟨r, h1, g, h2⟩ := unionSelf_spec a ha.good
    exact ⟨a, r, h1, fun x => by rw [has_iff g, has_iff ha.good, h2], fun _ => Iff.rfl⟩
  · obtain ⟨r, h1, g, h2⟩ := selectSelf_spec true a ha.good
    exact ⟨a, r, h1, fun x => by rw [has_iff g, has_iff ha.good, h2]; simp, fun _ => Iff.rfl⟩
  · obtain ⟨r, h1, g, h2⟩ := selectSelf_spec false a ha.good
    exact ⟨a, r, h1, fun x => by rw [has_iff g, h2]; simp, fun _ => Iff.rfl⟩

/-- Two reachable sets, the first in the middle of a rehash; difference and union of them. -/
example : ∃ ra a rb b,
    MSet.runCalls (id : Nat → Nat) MSet.new ((List.range 9).map SetOp.add) = some (ra, a) ∧ a.isRehashing = true ∧
    MSet.runCalls (id : Nat → Nat) MSet.new ([2, 4, 40].map SetOp.add) = some (rb, b) ∧
    (MSet.difference id a b).map (fun p => (List.range 50).filter (· ∈ mems p.2.2)) = some [0, 1, 3, 5, 6, 7, 8] ∧
    (MSet.union id a b).map (fun p => (mems p.2.2).length) = some 10 ∧
    (MSet.unionSelf id a).map (fun p => (mems p.2).length) = some 9 := by
  refine ⟨_, _, _, _, rfl, ?_, rfl, ?_, ?_, ?_⟩ <;> decide

end Metis.Props.SetP
