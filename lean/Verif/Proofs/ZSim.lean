import Verif.Spec.Levels
import Verif.Proofs.ZCmd
import Verif.Proofs.SkiplistRun
import Verif.Proofs.SkiplistReset
/-!
Two sorted sets that hold the same scores and list the same pairs in the same order, with skiplists of different shapes: no operation
(the removal by rank from ranks beyond the first apart) can tell them from each other.
-/
set_option linter.unusedSectionVars false
set_option linter.unusedSimpArgs false
set_option linter.unusedVariables false
namespace Metis
open Spec Metis.Skiplist Metis.Skip

/-- A parsed number fits into 64 bits. -/
theorem atoi_lt {a : Bytes} {i : Int} (h : atoi a = some i) : i < 2 ^ 63 := by
  unfold atoi at h
  split at h
  · cases h
  · split at h
    · cases h
    · split at h
      · split at h
        · cases h; omega
        · cases h
      · split at h
        · cases h; omega
        · cases h

/-- The same scores, and skiplists that list the same pairs. -/
structure ZSim (z z' : AZ) : Prop where
  f   : z'.f = z.f
  nan : ∀ m v, z.f m = some v → v.isNaN = false
  s   : ∃ L L', Sorted z.s L ∧ Sorted z'.s L' ∧ pairs z'.s.heap L' = pairs z.s.heap L

theorem zsim_new : ZSim A.zNew A.zNew := ⟨rfl, (fun m v h => by cases h), [], [], new_sorted, new_sorted, rfl⟩

/-! ### Skiplists -/

section
variable {s s' : Skiplist} {L L' : List Nat}

theorem insert_both (h : Sorted s L) (h' : Sorted s' L') (e : pairs s'.heap L' = pairs s.heap L) {lv lv' : Nat} {x : F64} {m : Bytes}
    (l1 : 1 ≤ lv) (l2 : lv ≤ maxLevel) (l3 : 1 ≤ lv') (l4 : lv' ≤ maxLevel) (hx : x.isNaN = false) :
    ∃ a a' t t' M M', insert s lv x m = some (a, t) ∧ insert s' lv' x m = some (a', t') ∧ Sorted t M ∧ Sorted t' M' ∧
      pairs t'.heap M' = pairs t.heap M := by
  obtain ⟨t, A, B, a1, a2, a3, a4, a5, a6, a7⟩ := insert_sorted h x m l1 l2 hx
  obtain ⟨t', A', B', b1, b2, b3, b4, b5, b6, b7⟩ := insert_sorted h' x m l3 l4 hx
  refine ⟨_, _, t, t', _, _, a1, b1, a3, b3, ?_⟩
  obtain ⟨q1, q2⟩ := split_unique (P := fun p => plt p (x, m)) (by rw [← a4, ← b4]; exact e) b6 b7 a6 a7
  rw [a5, b5, q1, q2]

theorem delete_both (h : Sorted s L) (h' : Sorted s' L') (e : pairs s'.heap L' = pairs s.heap L) {x : F64} {m : Bytes} (hx : x.isNaN = false) :
    ∃ a a' t t' M M', delete s x m = some (a, t) ∧ delete s' x m = some (a', t') ∧ Sorted t M ∧ Sorted t' M' ∧
      pairs t'.heap M' = pairs t.heap M := by
  obtain ⟨A, B, a1, a2, a3, a4⟩ := delete_sorted h x m hx
  obtain ⟨A', B', b1, b2, b3, b4⟩ := delete_sorted h' x m hx
  have e' : pairs s'.heap A' ++ pairs s'.heap B' = pairs s.heap A ++ pairs s.heap B := by
    rw [a1, b1] at e
    simpa [pairs] using e
  obtain ⟨q1, q2⟩ := split_unique (P := fun p => plt p (x, m)) e' b2 b3 a2 a3
  rcases a4 with ⟨y, w, t, c1, c2, c3, c4, c5, _⟩ | ⟨c1, c2⟩ <;> rcases b4 with ⟨y', w', t', d1, d2, d3, d4, d5, _⟩ | ⟨d1, d2⟩
  · refine ⟨_, _, t, t', _, _, c3, d3, c4, d4, ?_⟩
    rw [pairs_congr (h := s.heap) (fun a _ => c5 a), pairs_congr (h := s'.heap) (fun a _ => d5 a)]
    rw [c1, d1] at q2
    simp only [pairs, List.map_cons, List.cons.injEq] at q2
    unfold pairs at q1 ⊢
    rw [List.map_append, List.map_append, q1, q2.2]
  · exfalso
    have := d1 (pair s.heap y) (by rw [e, a1, c1]; simp [pairs])
    rw [c2] at this; cases this
  · exfalso
    have := c1 (pair s'.heap y') (by rw [← e, b1, d1]; simp [pairs])
    rw [d2] at this; cases this
  · exact ⟨_, _, s, s', _, _, c2, d2, h, h', e⟩

theorem filter_pairs (h : Nat → SNode) (L : List Nat) (min max : F64) :
    pairs h (L.filter (inAddr h min max)) = (pairs h L).filter (inRange min max) ∧
    pairs h (L.filter (fun a => !inAddr h min max a)) = (pairs h L).filter (fun q => !inRange min max q) := by
  constructor <;> · unfold pairs; rw [List.filter_map]; rfl

theorem removed_both (h : Sorted s L) (h' : Sorted s' L') (e : pairs s'.heap L' = pairs s.heap L) {min max : F64} (h1 : min.isNaN = false)
    (h2 : max.isNaN = false) :
    ∃ N N' t t' M M', deleteRangeByScore s min max = some (N, t) ∧ deleteRangeByScore s' min max = some (N', t') ∧ Sorted t M ∧ Sorted t' M' ∧
      pairs t'.heap M' = pairs t.heap M ∧ pairs t'.heap N' = pairs t.heap N := by
  obtain ⟨t, a1, a2, _, a4⟩ := deleteRangeByScore_sorted h h1 h2
  obtain ⟨t', b1, b2, _, b4⟩ := deleteRangeByScore_sorted h' h1 h2
  refine ⟨_, _, t, t', _, _, a1, b1, a2, b2, ?_, ?_⟩
  · rw [pairs_congr (h := s.heap) (fun a _ => a4 a), pairs_congr (h := s'.heap) (fun a _ => b4 a), (filter_pairs _ _ _ _).2, (filter_pairs _ _ _ _).2, e]
  · rw [pairs_congr (h := s.heap) (fun a _ => a4 a), pairs_congr (h := s'.heap) (fun a _ => b4 a), (filter_pairs _ _ _ _).1, (filter_pairs _ _ _ _).1, e]

theorem length_both (h : Sorted s L) (h' : Sorted s' L') (e : pairs s'.heap L' = pairs s.heap L) : s'.length = s.length := by
  have := congrArg List.length e
  simp only [pairs, List.length_map] at this
  rw [h.inv.len, h'.inv.len, this]

theorem rank_both (h : Sorted s L) (h' : Sorted s' L') (e : pairs s'.heap L' = pairs s.heap L) (start stop : Int) :
    (rangeByRank s' start stop false).map (pairs s'.heap) = (rangeByRank s start stop false).map (pairs s.heap) := by
  by_cases hb : start < 1 ∨ stop < 1 ∨ start > stop
  · unfold rangeByRank; rw [if_pos hb, if_pos hb]; rfl
  · by_cases hc : stop - start + 1 ≤ maxPtrCap
    · rw [rangeByRank_fwd h.inv (by omega) (by omega) hc, rangeByRank_fwd h'.inv (by omega) (by omega) hc]
      have := congrArg (fun l => (l.drop (start - 1).toNat).take (stop - start + 1).toNat) e
      simp only [pairs, List.map_take, List.map_drop, Option.map_some] at this ⊢
      rw [this]
    · have big : ∀ {s : Skiplist} {L : List Nat}, Sorted s L → rangeByRank s start stop false = none := by
        intro s L hS
        unfold rangeByRank
        rw [if_neg hb]
        simp only [Bool.false_eq_true, if_false]
        rw [getElementByRank_spec hS.inv]
        simp only [Option.bind_eq_bind, Option.bind_some]
        rw [if_pos (by omega)]
      rw [big h, big h']; rfl

theorem score_both (h : Sorted s L) (h' : Sorted s' L') (e : pairs s'.heap L' = pairs s.heap L) {min max : F64} (h1 : min.isNaN = false)
    (h2 : max.isNaN = false) :
    (rangeByScore s' min max (-1) false).map (pairs s'.heap) = (rangeByScore s min max (-1) false).map (pairs s.heap) ∧
      count s' min max = count s min max := by
  have e1 := rangeByScore_spec h h1 h2 (-1) false
  have e2 := rangeByScore_spec h' h1 h2 (-1) false
  simp only [Bool.false_eq_true, if_false, lim, if_pos (show (-1 : Int) < 0 by omega)] at e1 e2
  have hf : pairs s'.heap (L'.filter (inAddr s'.heap min max)) = pairs s.heap (L.filter (inAddr s.heap min max)) := by
    rw [(filter_pairs _ _ _ _).1, (filter_pairs _ _ _ _).1, e]
  refine ⟨by rw [e1, e2, Option.map_some, Option.map_some, hf], ?_⟩
  rw [count_spec h h1 h2, count_spec h' h1 h2]
  have := congrArg List.length hf
  simp only [pairs, List.length_map] at this
  rw [this]
end

/-! ### Sorted sets -/

theorem look_pairs (z : AZ) (h : Nat → SNode) (xs : List Nat) : AZ.look h xs z = (pairs h xs).map (fun p => z.get p.2) := by
  unfold AZ.look pairs
  rw [List.map_map]; rfl

section
variable {z z' : AZ}

theorem ZSim.get (w : ZSim z z') (m : Bytes) : z'.get m = z.get m := by unfold AZ.get; rw [w.f]

theorem ZSim.len (w : ZSim z z') : z'.s.length = z.s.length := by
  obtain ⟨L, L', h, h', e⟩ := w.s
  exact length_both h h' e

theorem nan_upd {f : Fn F64} {m : Bytes} {x : F64} (h : ∀ m v, f m = some v → v.isNaN = false) (hx : x.isNaN = false) :
    ∀ k v, upd f m (some x) k = some v → v.isNaN = false := by
  intro k v hk
  unfold upd at hk
  split at hk
  · cases hk; exact hx
  · exact h k v hk

theorem nan_upd_none {f : Fn F64} {m : Bytes} (h : ∀ m v, f m = some v → v.isNaN = false) : ∀ k v, upd f m none k = some v → v.isNaN = false := by
  intro k v hk
  unfold upd at hk
  split at hk
  · cases hk
  · exact h k v hk

theorem ZSim.add (w : ZSim z z') {lv lv' : Nat} {x : F64} {m : Bytes} (l1 : 1 ≤ lv ∧ lv ≤ maxLevel) (l2 : 1 ≤ lv' ∧ lv' ≤ maxLevel) (hx : x.isNaN = false) :
    ∃ b y y', AZ.add z lv x m = some (b, y) ∧ AZ.add z' lv' x m = some (b, y') ∧ ZSim y y' := by
  obtain ⟨L, L', h, h', e⟩ := w.s
  unfold AZ.add
  rw [w.f]
  cases hm : z.f m with
  | none =>
    obtain ⟨a, a', t, t', M, M', q1, q2, q3, q4, q5⟩ := insert_both h h' e (m := m) l1.1 l1.2 l2.1 l2.2 hx
    simp only [q1, q2, Option.bind_eq_bind, Option.bind_some]
    exact ⟨true, _, _, rfl, rfl, rfl, nan_upd w.nan hx, M, M', q3, q4, q5⟩
  | some v =>
    simp only []
    by_cases hv : (!x.eq v) = true
    · rw [if_pos hv, if_pos hv]
      obtain ⟨a, a', t, t', M, M', q1, q2, q3, q4, q5⟩ := delete_both h h' e (m := m) hx
      obtain ⟨b, b', u, u', N, N', p1, p2, p3, p4, p5⟩ := insert_both q3 q4 q5 (m := m) l1.1 l1.2 l2.1 l2.2 hx
      simp only [q1, q2, p1, p2, Option.bind_eq_bind, Option.bind_some]
      exact ⟨false, _, _, rfl, rfl, rfl, nan_upd w.nan hx, N, N', p3, p4, p5⟩
    · rw [if_neg hv, if_neg hv]
      exact ⟨false, _, _, rfl, rfl, w⟩

theorem ZSim.delete (w : ZSim z z') (m : Bytes) : ∃ b y y', AZ.delete z m = some (b, y) ∧ AZ.delete z' m = some (b, y') ∧ ZSim y y' := by
  obtain ⟨L, L', h, h', e⟩ := w.s
  unfold AZ.delete
  rw [w.f]
  cases hm : z.f m with
  | none => exact ⟨false, _, _, rfl, rfl, w⟩
  | some v =>
    obtain ⟨a, a', t, t', M, M', q1, q2, q3, q4, q5⟩ := delete_both h h' e (m := m) (w.nan m v hm)
    simp only [q1, q2, Option.bind_eq_bind, Option.bind_some]
    exact ⟨true, _, _, rfl, rfl, rfl, nan_upd_none w.nan, M, M', q3, q4, q5⟩

theorem ZSim.remScore (w : ZSim z z') {min max : F64} (h1 : min.isNaN = false) (h2 : max.isNaN = false) :
    ∃ es es' y y', AZ.remScore z min max = some (es, y) ∧ AZ.remScore z' min max = some (es', y') ∧ es'.length = es.length ∧ ZSim y y' := by
  obtain ⟨L, L', h, h', e⟩ := w.s
  obtain ⟨N, N', t, t', M, M', q1, q2, q3, q4, q5, q6⟩ := removed_both h h' e h1 h2
  obtain ⟨d1, d2, d3⟩ := drop_f t.heap N { z with s := t }
  obtain ⟨d1', d2', d3'⟩ := drop_f t'.heap N' { z' with s := t' }
  have hl : N'.length = N.length := by
    have := congrArg List.length q6
    simpa only [pairs, List.length_map] using this
  have hm : N'.map (fun x => (t'.heap x).member) = N.map (fun x => (t.heap x).member) := by
    have := congrArg (List.map Prod.snd) q6
    simp only [pairs, List.map_map] at this
    exact this
  refine ⟨_, _, _, _, by unfold AZ.remScore; rw [q1]; rfl, by unfold AZ.remScore; rw [q2]; rfl, by rw [d1, d1', hl], ?_, ?_, ?_⟩
  · funext m
    rw [d3, d3', hm]
    simp only [w.f]
  · intro m v hv
    rw [d3] at hv
    split at hv
    · cases hv
    · exact w.nan m v hv
  · rw [d2, d2']
    exact ⟨M, M', q3, q4, q5⟩

/-- Ranks from the first on can be removed without regard to the shape. -/
theorem first_both {s s' : Skiplist} {L L' : List Nat} (h : Sorted s L) (h' : Sorted s' L') (e : pairs s'.heap L' = pairs s.heap L) {start stop : Int} (h1 : start ≤ 1 ∨ stop < start) :
    ∃ N N' t t' M M', deleteRangeByRank s start stop = some (N, t) ∧ deleteRangeByRank s' start stop = some (N', t') ∧ Sorted t M ∧ Sorted t' M' ∧
      pairs t'.heap M' = pairs t.heap M ∧ pairs t'.heap N' = pairs t.heap N := by
  by_cases hb : start < 1 ∨ stop < 1 ∨ start > stop
  · refine ⟨[], [], s, s', L, L', ?_, ?_, h, h', e, rfl⟩ <;> (unfold deleteRangeByRank; rw [if_pos hb])
  · have hs : start = 1 := by omega
    subst hs
    obtain ⟨t, a1, a2, a3⟩ := deleteRangeByRank_low h.inv (start := 1) (stop := stop) (by simp) (by omega) (by omega)
    obtain ⟨t', b1, b2, b3⟩ := deleteRangeByRank_low h'.inv (start := 1) (stop := stop) (by simp) (by omega) (by omega)
    simp only [show ((1 : Int) - 1).toNat = 0 by omega, List.drop_zero, List.take_zero, List.nil_append] at a1 a2 b1 b2
    refine ⟨_, _, t, t', _, _, a1, b1, sublist_sorted h a2 (List.drop_sublist _ _) a3, sublist_sorted h' b2 (List.drop_sublist _ _) b3, ?_, ?_⟩
    · rw [pairs_congr (h := s.heap) (fun a _ => a3 a), pairs_congr (h := s'.heap) (fun a _ => b3 a)]
      unfold pairs at e ⊢
      rw [List.map_drop, List.map_drop, e]
    · rw [pairs_congr (h := s.heap) (fun a _ => a3 a), pairs_congr (h := s'.heap) (fun a _ => b3 a)]
      unfold pairs at e ⊢
      rw [List.map_take, List.map_take, e]

theorem ZSim.remRank (w : ZSim z z') {i j : Int} (h1 : i ≤ 0 ∨ j < i) (h63 : i < 2 ^ 63) :
    ∃ es es' y y', AZ.remRank z i j = some (es, y) ∧ AZ.remRank z' i j = some (es', y') ∧ es'.length = es.length ∧ ZSim y y' := by
  obtain ⟨L, L', h, h', e⟩ := w.s
  have hm : Zset.maxInt64 = 2 ^ 63 - 1 := rfl
  have hlen : z'.s.length = z.s.length := w.len
  have hij : i + 1 ≤ 1 ∨ (if j = Zset.maxInt64 then z.s.length - 1 else j) + 1 < i + 1 := by split <;> omega
  obtain ⟨N, N', t, t', M, M', q1, q2, q3, q4, q5, q6⟩ := first_both h h' e hij
  obtain ⟨d1, d2, d3⟩ := drop_f t.heap N { z with s := t }
  obtain ⟨d1', d2', d3'⟩ := drop_f t'.heap N' { z' with s := t' }
  have hl : N'.length = N.length := by
    have := congrArg List.length q6
    simpa only [pairs, List.length_map] using this
  have hm : N'.map (fun x => (t'.heap x).member) = N.map (fun x => (t.heap x).member) := by
    have := congrArg (List.map Prod.snd) q6
    simp only [pairs, List.map_map] at this
    exact this
  refine ⟨_, _, _, _, by unfold AZ.remRank; dsimp only; rw [q1]; rfl, by unfold AZ.remRank; dsimp only; rw [hlen, q2]; rfl, by rw [d1, d1', hl], ?_, ?_, ?_⟩
  · funext m
    rw [d3, d3', hm]
    simp only [w.f]
  · intro m v hv
    rw [d3] at hv
    split at hv
    · cases hv
    · exact w.nan m v hv
  · rw [d2, d2']
    exact ⟨M, M', q3, q4, q5⟩

theorem ZSim.byRank (w : ZSim z z') (start stop : Int) : AZ.byRank z' start stop false = AZ.byRank z start stop false := by
  obtain ⟨L, L', h, h', e⟩ := w.s
  unfold AZ.byRank
  rw [w.len]
  have := rank_both h h' e (start + 1) ((if stop = Zset.maxInt64 then z.s.length - 1 else stop) + 1)
  dsimp only
  cases ha : rangeByRank z.s (start + 1) ((if stop = Zset.maxInt64 then z.s.length - 1 else stop) + 1) false with
  | none =>
    cases hb : rangeByRank z'.s (start + 1) ((if stop = Zset.maxInt64 then z.s.length - 1 else stop) + 1) false with
    | none => rfl
    | some _ => rw [ha, hb] at this; cases this
  | some N =>
    cases hb : rangeByRank z'.s (start + 1) ((if stop = Zset.maxInt64 then z.s.length - 1 else stop) + 1) false with
    | none => rw [ha, hb] at this; cases this
    | some N' =>
      rw [ha, hb] at this
      simp only [Option.map_some, Option.some.injEq] at this
      simp only [Option.bind_eq_bind, Option.bind_some, look_pairs, this]
      exact congrArg some (List.map_congr_left fun p _ => w.get p.2)

theorem ZSim.byScore (w : ZSim z z') {min max : F64} (h1 : min.isNaN = false) (h2 : max.isNaN = false) :
    AZ.byScore z' min max (-1) false = AZ.byScore z min max (-1) false ∧ count z'.s min max = count z.s min max := by
  obtain ⟨L, L', h, h', e⟩ := w.s
  obtain ⟨this, hc⟩ := score_both h h' e h1 h2
  refine ⟨?_, hc⟩
  unfold AZ.byScore
  cases ha : rangeByScore z.s min max (-1) false with
  | none =>
    cases hb : rangeByScore z'.s min max (-1) false with
    | none => rfl
    | some _ => rw [ha, hb] at this; cases this
  | some N =>
    cases hb : rangeByScore z'.s min max (-1) false with
    | none => rw [ha, hb] at this; cases this
    | some N' =>
      rw [ha, hb] at this
      simp only [Option.map_some, Option.some.injEq] at this
      simp only [Option.bind_eq_bind, Option.bind_some, look_pairs, this]
      exact congrArg some (List.map_congr_left fun p _ => w.get p.2)
end

theorem linksR_unique {T : Nat → Prop} [DecidablePred T] {g : Nat → Option Lvl} : ∀ (X X' : List Nat) (a : Nat), (∀ b ∈ a :: X, T b) → (∀ b ∈ a :: X', T b) →
    LinksR T g (a :: X) [] → LinksR T g (a :: X') [] → X' = X := by
  intro X
  induction X with
  | nil =>
    intro X' a h1 h2 h3 h4
    cases X' with
    | nil => rfl
    | cons b X' =>
      have e1 := h3.1 (h1 a (by simp))
      rw [h4.1 (h2 a (by simp))] at e1
      simp [nxt, h2 b (by simp)] at e1
  | cons c X ih =>
    intro X' a h1 h2 h3 h4
    have e1 := h3.1 (h1 a (by simp))
    rw [h4.1 (h2 a (by simp))] at e1
    cases X' with
    | nil => simp [nxt, h1 c (by simp)] at e1
    | cons b X' =>
      simp [nxt, h1 c (by simp), h2 b (by simp)] at e1
      obtain ⟨rfl, -⟩ := e1
      rw [ih X' b (fun x hx => h1 x (by simp at hx ⊢; tauto)) (fun x hx => h2 x (by simp at hx ⊢; tauto)) h3.2 h4.2]

theorem inv_unique {s : Skiplist} {L L' : List Nat} (h : Inv s L) (h' : Inv s L') : L' = L := by
  refine linksR_unique (T := Tall s.heap 0) L L' 0 ?_ ?_ (h.links 0 (by have := h.lev1; omega)) (h'.links 0 (by have := h.lev1; omega))
  · intro b hb
    rcases List.mem_cons.1 hb with rfl | hb
    · show 0 < ht s.heap 0
      rw [h.headHt]; decide
    · have := (h.hts b hb).1
      show 0 < ht s.heap b; omega
  · intro b hb
    rcases List.mem_cons.1 hb with rfl | hb
    · show 0 < ht s.heap 0
      rw [h.headHt]; decide
    · have := (h'.hts b hb).1
      show 0 < ht s.heap b; omega
theorem ZSim.join {z a b : AZ} (ha : ZSim z a) (hb : ZSim z b) : ZSim a b := by
  obtain ⟨L, La, h1, h2, h3⟩ := ha.s
  obtain ⟨M, Mb, k1, k2, k3⟩ := hb.s
  cases inv_unique h1.inv k1.inv
  exact ⟨hb.f.trans ha.f.symm, fun m v h => ha.nan m v (by rw [← ha.f]; exact h), La, Mb, h2, k2, k3.trans h3.symm⟩

theorem ZSim.right {z a : AZ} (h : ZSim z a) : ZSim a a := h.join h

theorem zremLoop_pair : ∀ (ms : List Bytes) {z z' : AZ} (n : Nat), ZSim z z' →
    ∃ y y' m, A.zremLoop ms z n = some (y, m) ∧ A.zremLoop ms z' n = some (y', m) ∧ ZSim y y'
  | [], z, z', n, w => ⟨z, z', n, rfl, rfl, w⟩
  | m :: ms, z, z', n, w => by
    obtain ⟨b, y, y', h1, h2, h3⟩ := w.delete m
    obtain ⟨u, u', k, q1, q2, q3⟩ := zremLoop_pair ms (if b then n + 1 else n) h3
    exact ⟨u, u', k, by simp only [A.zremLoop, h1, Option.bind_eq_bind, Option.bind_some, q1],
      by simp only [A.zremLoop, h2, Option.bind_eq_bind, Option.bind_some, q2], q3⟩

theorem zaddLoop_pair {e e2 : Env} (hp2 : e2.parseFloat = e.parseFloat) (l1 : LevelsOk e.level) (l2 : LevelsOk e2.level) : ∀ (l : List Bytes) (i : Nat) {z z' : AZ} (n : Nat), NoNaN e l → ZSim z z' →
    ∃ y y' j c bad, A.zaddLoop e l i z n = some (y, j, c, bad) ∧ A.zaddLoop e2 l i z' n = some (y', j, c, bad) ∧ ZSim y y'
  | [], i, z, z', n, _, w => ⟨z, z', i, n, none, rfl, rfl, w⟩
  | [_], i, z, z', n, _, w => ⟨z, z', i, n, none, rfl, rfl, w⟩
  | a :: b :: rest, i, z, z', n, hn, w => by
    unfold A.zaddLoop
    rw [hp2]
    cases hp : e.parseFloat a with
    | none => exact ⟨z, z', i, n, some a, rfl, rfl, w⟩
    | some x =>
      simp only
      obtain ⟨c, y, y', h1, h2, h3⟩ := w.add (m := b) (l1 i) (l2 i) (hn a (by simp) x hp)
      simp only [h1, h2, Option.bind_eq_bind, Option.bind_some]
      exact zaddLoop_pair hp2 l1 l2 rest (i + 1) _ (fun v hv => hn v (by simp [hv])) h3

end Metis
