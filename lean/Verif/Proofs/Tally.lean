import Verif.Spec.Tally
import Verif.Proofs.ZSim
import Verif.Proofs.SkiplistReset
/-!
Sorted sets after any history without NaN and without ZREMRANGEBYRANK from ranks beyond the first on: the table of scores and the entries of the skiplist.
-/
set_option linter.unusedSectionVars false
set_option linter.unusedSimpArgs false
set_option linter.unusedVariables false
namespace Metis
open Spec Metis.Skiplist Metis.Skip

/-- A pair as an entry. -/
def keyed (p : Pair) : Entry := (p.1.key, p.2)

theorem keyed_lt {p q : Pair} : Entry.lt (keyed p) (keyed q) ↔ plt p q := Iff.rfl

theorem entry_total {p q : Entry} (h1 : ¬ Entry.lt p q) (h2 : ¬ Entry.lt q p) : p = q := by
  have key : p.1 = q.1 := by
    rcases Int.lt_trichotomy p.1 q.1 with h | h | h
    · exact absurd (Or.inl h) h1
    · exact h
    · exact absurd (Or.inl h) h2
  have := plt_total (F64.zero, p.2) (F64.zero, q.2)
  rcases this with h | h | h
  · rcases h with h | ⟨_, h⟩
    · exact absurd h (Int.lt_irrefl _)
    · exact absurd (Or.inr ⟨key, h⟩) h1
  · exact Prod.ext key (same_iff.1 h).2
  · rcases h with h | ⟨_, h⟩
    · exact absurd h (Int.lt_irrefl _)
    · exact absurd (Or.inr ⟨key.symm, h⟩) h2

theorem inOrder_unique {t : Tally} {l l' : List Entry} (h : t.InOrder l) (h' : t.InOrder l') : l = l' :=
  List.Perm.eq_of_pairwise (fun a b _ _ h1 h2 => entry_total h2 h1) h.2 h'.2 (h.1.trans h'.1.symm)

/-- The sorted set `z` is the tally `t`. -/
structure Holds (z : AZ) (t : Tally) : Prop where
  scores : z.f = t.scores
  nan    : ∀ m v, t.scores m = some v → v.isNaN = false
  list   : ∃ L, Sorted z.s L ∧ ((pairs z.s.heap L).map keyed).Perm t.entries

theorem holds_new : Holds A.zNew Tally.none := ⟨rfl, (fun m v h => by cases h), [], new_sorted, List.Perm.refl _⟩

theorem holds_of_sim {z z' : AZ} (h : ZSim z z') : ∃ t, Holds z t := by
  obtain ⟨L, L', h1, _, _⟩ := h.s
  exact ⟨⟨z.f, (pairs z.s.heap L).map keyed⟩, rfl, h.nan, L, h1, List.Perm.refl _⟩

theorem Holds.sim {z : AZ} {t : Tally} (h : Holds z t) : ZSim z z := by
  obtain ⟨L, h1, _⟩ := h.list
  exact ⟨rfl, by rw [h.scores]; exact h.nan, L, L, h1, h1, rfl⟩

theorem order_pairs {s : Skiplist} {L : List Nat} (h : Sorted s L) : ((pairs s.heap L).map keyed).Pairwise (fun p q => ¬ Entry.lt q p) :=
  List.pairwise_map.2 h.ord

theorem Holds.inOrder {z : AZ} {t : Tally} (h : Holds z t) {l : List Entry} (hl : t.InOrder l) :
    ∃ L, Sorted z.s L ∧ (pairs z.s.heap L).map keyed = l := by
  obtain ⟨L, h1, h2⟩ := h.list
  exact ⟨L, h1, inOrder_unique (t := t) ⟨h2, order_pairs h1⟩ hl⟩

theorem Holds.ordered {z : AZ} {t : Tally} (h : Holds z t) : ∃ l, t.InOrder l := by
  obtain ⟨L, h1, h2⟩ := h.list
  exact ⟨_, h2, order_pairs h1⟩

/-! ### skiplists as collections of entries -/

theorem insert_entries {s : Skiplist} {L : List Nat} (h : Sorted s L) {lv : Nat} {x : F64} {m : Bytes} (l1 : 1 ≤ lv) (l2 : lv ≤ maxLevel)
    (hx : x.isNaN = false) {es : List Entry} (hp : ((pairs s.heap L).map keyed).Perm es) :
    ∃ a s' L', insert s lv x m = some (a, s') ∧ Sorted s' L' ∧ ((pairs s'.heap L').map keyed).Perm ((x.key, m) :: es) := by
  obtain ⟨s', A, B, a1, a2, a3, a4, a5, a6, a7⟩ := insert_sorted h x m l1 l2 hx
  refine ⟨_, s', _, a1, a3, ?_⟩
  rw [a5, List.map_append, List.map_cons]
  rw [a4, List.map_append] at hp
  exact List.perm_middle.trans (hp.cons _)

theorem delete_entries {s : Skiplist} {L : List Nat} (h : Sorted s L) {x : F64} {m : Bytes} (hx : x.isNaN = false) {es : List Entry}
    (hp : ((pairs s.heap L).map keyed).Perm es) :
    ∃ a s' L', delete s x m = some (a, s') ∧ Sorted s' L' ∧ ((pairs s'.heap L').map keyed).Perm (es.erase (x.key, m)) := by
  obtain ⟨A, B, a1, a2, a3, a4⟩ := delete_sorted h x m hx
  rcases a4 with ⟨y, w, t, c1, c2, c3, c4, c5, _⟩ | ⟨c1, c2⟩
  · refine ⟨_, t, _, c3, c4, ?_⟩
    rw [pairs_congr (h := s.heap) (fun a _ => c5 a)]
    have hk : (x.key, m) = keyed (pair s.heap y) := Prod.ext (same_iff.1 c2).1 (same_iff.1 c2).2
    have : ((pairs s.heap L).map keyed).Perm ((x.key, m) :: (pairs s.heap (A ++ w)).map keyed) := by
      rw [a1, c1, hk]
      simp only [pairs, List.map_append, List.map_cons]
      exact List.perm_middle
    have := (hp.symm.trans this).erase (x.key, m)
    rw [List.erase_cons_head] at this
    exact this.symm
  · refine ⟨_, s, L, c2, h, ?_⟩
    rw [List.erase_of_not_mem]
    · exact hp
    · intro hm
      obtain ⟨p, hp1, hp2⟩ := List.mem_map.1 (hp.symm.subset hm)
      have := c1 p hp1
      rw [same_iff.2 ⟨(congrArg Prod.fst hp2).symm, (congrArg Prod.snd hp2).symm⟩] at this
      cases this

theorem within_keyed {min max : F64} (h1 : min.isNaN = false) (h2 : max.isNaN = false) (p : Pair) : within min max (keyed p) = inRange min max p := by
  simp only [within, inRange, keyed, h1, h2, Bool.not_false, Bool.true_and]
  congr

theorem filter_keyed {min max : F64} (h1 : min.isNaN = false) (h2 : max.isNaN = false) (l : List Pair) :
    (l.filter (inRange min max)).map keyed = (l.map keyed).filter (within min max) := by
  rw [List.filter_map]
  congr 1
  exact List.filter_congr (fun p _ => (within_keyed h1 h2 p).symm)

theorem filter_keyed_not {min max : F64} (h1 : min.isNaN = false) (h2 : max.isNaN = false) (l : List Pair) :
    (l.filter (fun q => !inRange min max q)).map keyed = (l.map keyed).filter (fun q => !within min max q) := by
  rw [List.filter_map]
  congr 1
  exact List.filter_congr (fun p _ => by simp [within_keyed h1 h2 p])

/-! ### the calls -/

section
variable {z : AZ} {t : Tally}

theorem entered_upd (x : F64) (m : Bytes) : t.entered x m = upd t.scores m (some x) := by
  funext m'; simp [Tally.entered, upd, eq_comm]

theorem Holds.add (h : Holds z t) {lv : Nat} (l1 : 1 ≤ lv ∧ lv ≤ maxLevel) {x : F64} {m : Bytes} (hx : x.isNaN = false) :
    ∃ z', AZ.add z lv x m = some ((t.scores m).isNone, z') ∧ Holds z' (t.add x m) := by
  obtain ⟨L, hS, hp⟩ := h.list
  unfold AZ.add Tally.add
  rw [h.scores]
  cases hm : t.scores m with
  | none =>
    obtain ⟨a, s', L', q1, q2, q3⟩ := insert_entries hS (m := m) l1.1 l1.2 hx hp
    simp only [q1, Option.bind_eq_bind, Option.bind_some]
    refine ⟨_, rfl, (entered_upd x m).symm, ?_, L', q2, q3⟩
    simp only [entered_upd]; exact nan_upd h.nan hx
  | some v =>
    simp only
    rw [show x.eq v = numEq v x from by unfold F64.eq numEq; cases x.isNaN <;> cases v.isNaN <;> simp [Bool.beq_eq_decide_eq, eq_comm]]
    cases hv : numEq v x with
    | true => exact ⟨z, rfl, h⟩
    | false =>
      simp only [Bool.not_false, if_true, Bool.false_eq_true, if_false]
      obtain ⟨a, s', L', q1, q2, q3⟩ := delete_entries hS (m := m) hx hp
      obtain ⟨b, s2, L2, p1, p2, p3⟩ := insert_entries q2 (m := m) l1.1 l1.2 hx q3
      simp only [q1, p1, Option.bind_eq_bind, Option.bind_some]
      refine ⟨_, rfl, (entered_upd x m).symm, ?_, L2, p2, p3⟩
      simp only [entered_upd]; exact nan_upd h.nan hx

theorem Holds.rem (h : Holds z t) (m : Bytes) : ∃ z', AZ.delete z m = some ((t.scores m).isSome, z') ∧ Holds z' (t.rem m) := by
  obtain ⟨L, hS, hp⟩ := h.list
  unfold AZ.delete Tally.rem
  rw [h.scores]
  cases hm : t.scores m with
  | none => exact ⟨z, rfl, h⟩
  | some v =>
    obtain ⟨a, s', L', q1, q2, q3⟩ := delete_entries hS (m := m) (h.nan m v hm) hp
    simp only [q1, Option.bind_eq_bind, Option.bind_some]
    have e : (fun m' => if m' = m then none else t.scores m') = upd t.scores m none := by funext m'; simp [upd, eq_comm]
    refine ⟨_, rfl, e.symm, ?_, L', q2, q3⟩
    rw [e]; exact nan_upd_none h.nan

theorem Holds.cut (h : Holds z t) {min max : F64} (h1 : min.isNaN = false) (h2 : max.isNaN = false) :
    ∃ es z', AZ.remScore z min max = some (es, z') ∧ es.length = (t.entries.filter (within min max)).length ∧ Holds z' (t.cut min max) := by
  obtain ⟨L, hS, hp⟩ := h.list
  obtain ⟨s', a1, a2, _, a4⟩ := deleteRangeByScore_sorted hS h1 h2
  obtain ⟨d1, d2, d3⟩ := drop_f s'.heap (L.filter (inAddr z.s.heap min max)) { z with s := s' }
  have hf := filter_pairs z.s.heap L min max
  have hperm : ((pairs z.s.heap (L.filter (inAddr z.s.heap min max))).map keyed).Perm (t.entries.filter (within min max)) := by
    rw [hf.1, filter_keyed h1 h2]; exact hp.filter _
  have hmem : ∀ m, (m ∈ (L.filter (inAddr z.s.heap min max)).map (fun x => (s'.heap x).member)) ↔
      t.entries.any (fun p => within min max p && p.2 == m) = true := by
    intro m
    have e : (L.filter (inAddr z.s.heap min max)).map (fun x => (s'.heap x).member) =
        ((pairs z.s.heap (L.filter (inAddr z.s.heap min max))).map keyed).map Prod.snd := by
      simp only [pairs, List.map_map]
      exact List.map_congr_left (fun x _ => (a4 x).2)
    rw [e, List.any_eq_true]
    constructor
    · intro hm
      obtain ⟨p, hp1, rfl⟩ := List.mem_map.1 hm
      obtain ⟨q1, q2⟩ := List.mem_filter.1 (hperm.subset hp1)
      exact ⟨p, q1, by simp [q2]⟩
    · rintro ⟨p, hp1, hp2⟩
      simp only [Bool.and_eq_true, beq_iff_eq] at hp2
      exact List.mem_map.2 ⟨p, hperm.symm.subset (List.mem_filter.2 ⟨hp1, hp2.1⟩), hp2.2⟩
  have hfun : (AZ.drop s'.heap (L.filter (inAddr z.s.heap min max)) { z with s := s' }).2.f = (t.cut min max).scores := by
    funext m
    rw [d3]
    simp only [Tally.cut]
    by_cases hm : t.entries.any (fun p => within min max p && p.2 == m) = true
    · rw [if_pos hm, if_pos ((hmem m).2 hm)]
    · rw [if_neg hm, if_neg (fun q => hm ((hmem m).1 q))]
      exact congrFun h.scores m
  refine ⟨_, _, by unfold AZ.remScore; rw [a1]; rfl, ?_, hfun, ?_, ?_⟩
  · rw [d1, ← hperm.length_eq]; simp [pairs]
  · intro m v hv
    simp only [Tally.cut] at hv
    split at hv
    · cases hv
    · exact h.nan m v hv
  · refine ⟨L.filter (fun a => !inAddr z.s.heap min max a), by rw [d2]; exact a2, ?_⟩
    rw [d2]
    rw [pairs_congr (h := z.s.heap) (fun a _ => a4 a), hf.2, filter_keyed_not h1 h2]
    exact hp.filter _

/-- Removal of ranks from the first on, or of none. -/
theorem Holds.shed (h : Holds z t) {l : List Entry} (hl : t.InOrder l) {i j : Int} (hij : i ≤ 0 ∨ j < i) (h63 : i < 2 ^ 63) :
    ∃ es z', AZ.remRank z i j = some (es, z') ∧ es.length = (picked l i j).length ∧ Holds z' (t.shed l i j) := by
  obtain ⟨L, hS, hp⟩ := h.inOrder hl
  have hlen : z.s.length = l.length := by rw [hS.inv.len, ← hp]; simp [pairs]
  have hm : Zset.maxInt64 = 2 ^ 63 - 1 := rfl
  unfold AZ.remRank Tally.shed picked stretch
  rw [hlen, hm]
  dsimp only
  have hij' : i ≤ 0 ∨ (if j = 2 ^ 63 - 1 then (l.length : Int) - 1 else j) < i := by
    split <;> omega
  revert hij'
  generalize (if j = 2 ^ 63 - 1 then (l.length : Int) - 1 else j) = j'
  intro hij'
  by_cases hb : i < 0 ∨ j' < i
  · have e : deleteRangeByRank z.s (i + 1) (j' + 1) = some ([], z.s) := by
      unfold deleteRangeByRank; rw [if_pos (by omega)]
    simp only [if_pos hb, e, Option.bind_eq_bind, Option.bind_some]
    refine ⟨_, _, rfl, by simp [AZ.drop], ?_⟩
    have : (⟨fun m => if (l.drop 0).take 0 |>.any (fun p => p.2 == m) then none else t.scores m, l.take 0 ++ l.drop (0 + 0)⟩ : Tally) = ⟨t.scores, l⟩ := by simp
    rw [this]
    obtain ⟨L2, q1, q2⟩ := h.list
    exact ⟨h.scores, h.nan, L2, q1, q2.trans hl.1.symm⟩
  · have hi : i = 0 := by omega
    subst hi
    obtain ⟨s', e1, i1, d1⟩ := deleteRangeByRank_low hS.inv (start := 0 + 1) (stop := j' + 1) (by simp) (by omega) (by omega)
    simp only [show ((0 : Int) + 1 - 1).toNat = 0 by omega, List.drop_zero, List.take_zero, List.nil_append,
      show (j' + 1 - (0 + 1) + 1).toNat = (j' - 0 + 1).toNat by omega] at e1 i1
    simp only [if_neg hb, e1, Option.bind_eq_bind, Option.bind_some, Int.toNat_zero, List.drop_zero, List.take_zero, List.nil_append, Nat.zero_add]
    generalize (j' - 0 + 1).toNat = c at *
    obtain ⟨q1, q2, q3⟩ := drop_f s'.heap (L.take c) { z with s := s' }
    have hS' := sublist_sorted hS i1 (List.drop_sublist _ _) d1
    have hmem : (L.take c).map (fun x => (s'.heap x).member) = (l.take c).map Prod.snd := by
      rw [← hp]
      simp only [pairs, List.map_take, List.map_map]
      exact congrArg _ (List.map_congr_left (fun x _ => (d1 x).2))
    refine ⟨_, _, rfl, ?_, ?_, ?_, L.drop c, by rw [q2]; exact hS', ?_⟩
    · rw [q1, ← hp]; simp [pairs]
    · funext m
      rw [q3, hmem, ← h.scores]
      simp only [List.any_eq_true, beq_iff_eq, List.mem_map]
    · intro m v hv
      simp only at hv
      split at hv
      · cases hv
      · exact h.nan m v hv
    · rw [q2]
      simp only
      rw [pairs_congr (h := z.s.heap) (fun a _ => d1 a), ← hp]
      simp only [pairs, List.map_drop]
      exact List.Perm.refl _

theorem Holds.length (h : Holds z t) : z.s.length = t.entries.length := by
  obtain ⟨L, hS, hp⟩ := h.list
  rw [hS.inv.len, ← hp.length_eq]; simp [pairs]

theorem Holds.count (h : Holds z t) {min max : F64} (h1 : min.isNaN = false) (h2 : max.isNaN = false) :
    Skiplist.count z.s min max = some ((t.entries.filter (within min max)).length : Int) := by
  obtain ⟨L, hS, hp⟩ := h.list
  rw [count_spec hS h1 h2, ← (hp.filter _).length_eq, ← filter_keyed h1 h2, ← (filter_pairs _ _ _ _).1]
  simp [pairs]

/-- The elements of a selection of entries. -/
def Tally.elems (t : Tally) (l : List Entry) : List (Option Elem) := l.map (fun p => (t.scores p.2).map (fun v => ⟨p.2, v⟩))

theorem look_tally (h : Holds z t) (hp : Nat → SNode) (xs : List Nat) : AZ.look hp xs z = Tally.elems t ((pairs hp xs).map keyed) := by
  rw [look_pairs]
  unfold Tally.elems
  rw [List.map_map]
  exact List.map_congr_left (fun p _ => by unfold AZ.get; rw [h.scores]; rfl)

theorem Holds.byScore (h : Holds z t) {l : List Entry} (hl : t.InOrder l) {min max : F64} (h1 : min.isNaN = false) (h2 : max.isNaN = false) :
    AZ.byScore z min max (-1) false = some (Tally.elems t (l.filter (within min max))) := by
  obtain ⟨L, hS, hp⟩ := h.inOrder hl
  have e1 := rangeByScore_spec hS h1 h2 (-1) false
  simp only [Bool.false_eq_true, if_false, lim, if_pos (show (-1 : Int) < 0 by omega)] at e1
  unfold AZ.byScore
  rw [e1]
  simp only [Option.bind_eq_bind, Option.bind_some]
  rw [look_tally h, (filter_pairs _ _ _ _).1, filter_keyed h1 h2, hp]

theorem Holds.byRank (h : Holds z t) {l : List Entry} (hl : t.InOrder l) (i j : Int) :
    AZ.byRank z i j false = (ranks l i j).map (Tally.elems t) := by
  obtain ⟨L, hS, hp⟩ := h.inOrder hl
  have hlen : z.s.length = l.length := by rw [hS.inv.len, ← hp]; simp [pairs]
  have hm : Zset.maxInt64 = 2 ^ 63 - 1 := rfl
  unfold AZ.byRank ranks
  rw [hlen, hm]
  dsimp only
  generalize (if j = 2 ^ 63 - 1 then (l.length : Int) - 1 else j) = j'
  by_cases hb : i < 0 ∨ j' < 0 ∨ j' < i
  · rw [if_pos hb]
    have : rangeByRank z.s (i + 1) (j' + 1) false = some [] := by unfold rangeByRank; rw [if_pos (by omega)]
    simp only [this, Option.bind_eq_bind, Option.bind_some, Option.map_some]
    rfl
  · rw [if_neg hb]
    have hc : maxPtrCap = 2 ^ 45 := rfl
    by_cases hw : 2 ^ 45 < j' - i + 1
    · rw [if_pos hw]
      have : rangeByRank z.s (i + 1) (j' + 1) false = none := by
        unfold rangeByRank
        rw [if_neg (by omega)]
        simp only [Bool.false_eq_true, if_false]
        rw [getElementByRank_spec hS.inv]
        simp only [Option.bind_eq_bind, Option.bind_some]
        rw [if_pos (by omega)]
      simp only [this, Option.bind_eq_bind, Option.bind_none, Option.map_none]
    · rw [if_neg hw]
      have e1 := rangeByRank_fwd hS.inv (start := i + 1) (stop := j' + 1) (by omega) (by omega) (by omega)
      simp only [e1, Option.bind_eq_bind, Option.bind_some, Option.map_some]
      rw [look_tally h, ← hp]
      rw [show (i + 1 - 1).toNat = i.toNat by omega, show (j' + 1 - (i + 1) + 1).toNat = (j' - i + 1).toNat by omega]
      simp only [pairs, List.map_take, List.map_drop]

theorem elems_told {l : List Entry} {ps : List Pair} (h : t.told l = some ps) : Tally.elems t l = Zset.elems ps := by
  induction l generalizing ps with
  | nil => cases h; rfl
  | cons p l ih =>
    unfold Tally.told at h
    split at h
    · next v l' h1 h2 =>
      cases h
      have := ih h2
      unfold Tally.elems Zset.elems at this ⊢
      simp only [List.map_cons, h1, Option.map_some, this]
    · cases h

theorem elems_untold {l : List Entry} (h : t.told l = none) : none ∈ Tally.elems t l := by
  induction l with
  | nil => cases h
  | cons p l ih =>
    unfold Tally.told at h
    unfold Tally.elems at ih ⊢
    cases h1 : t.scores p.2 with
    | none => simp [h1]
    | some v =>
      cases h2 : t.told l with
      | none => exact List.mem_cons_of_mem _ (ih h2)
      | some q => rw [h1, h2] at h; cases h

/-- A crash: the member of a selected entry is not in the table. -/
theorem told_none {l : List Entry} : t.told l = none ↔ ∃ p ∈ l, t.scores p.2 = none := by
  induction l with
  | nil => simp [Tally.told]
  | cons p l ih =>
    unfold Tally.told
    cases h1 : t.scores p.2 with
    | none => simp [h1]
    | some v =>
      cases h2 : t.told l with
      | none => rw [h2] at ih; simpa [h1] using ih.1 rfl
      | some q =>
        rw [h2] at ih
        simp only [reduceCtorEq, List.mem_cons, exists_eq_or_imp, h1, false_or, false_iff] at ih ⊢
        exact ih
end

theorem zElems_none {e : Env} {ws : Bool} : ∀ {l : List (Option Elem)}, none ∈ l → Reply.zElems e ws l = none
  | [], h => by cases h
  | none :: l, _ => rfl
  | some x :: l, h => by
    have := zElems_none (e := e) (ws := ws) (l := l) (by simpa using h)
    simp only [Reply.zElems, this, Option.bind_eq_bind, Option.bind_none]

/-! ### ZADD and ZREM -/

theorem Holds.zadd {e : Env} (hlv : LevelsOk e.level) : ∀ {args : List Bytes} {ps : List Pair}, ZArgs e args ps → ∀ (i : Nat) {z : AZ} {t : Tally} (n : Nat),
    Holds z t → (∀ p ∈ ps, p.1.isNaN = false) →
      ∃ z', A.zaddLoop e args i z n = some (z', i + ps.length, n + t.fresh ps, none) ∧ Holds z' (t.addAll ps)
  | _, _, .nil, i, z, t, n, h, _ => ⟨z, by simp [A.zaddLoop, Tally.fresh], h⟩
  | _, _, .cons (sc := sc) (m := m) (rest := rest) (x := x) (ps := ps) hp q, i, z, t, n, h, hn => by
    obtain ⟨z1, e1, h1⟩ := h.add (hlv i) (m := m) (hn (x, m) (by simp))
    obtain ⟨z2, e2, h2⟩ := Holds.zadd hlv q (i + 1) (if (t.scores m).isNone then n + 1 else n) h1 (fun p hp => hn p (by simp [hp]))
    refine ⟨z2, ?_, h2⟩
    simp only [A.zaddLoop, hp, e1, Option.bind_eq_bind, Option.bind_some, e2, Tally.fresh, List.length_cons]
    refine congrArg some (Prod.ext rfl (Prod.ext (by simp; omega) (Prod.ext ?_ rfl)))
    simp only
    split <;> omega

theorem Holds.zrem : ∀ (ms : List Bytes) {z : AZ} {t : Tally} (n : Nat), Holds z t →
    ∃ z', A.zremLoop ms z n = some (z', n + t.gone ms) ∧ Holds z' (t.remAll ms)
  | [], z, t, n, h => ⟨z, rfl, h⟩
  | m :: ms, z, t, n, h => by
    obtain ⟨z1, e1, h1⟩ := h.rem m
    obtain ⟨z2, e2, h2⟩ := Holds.zrem ms (if (t.scores m).isSome then n + 1 else n) h1
    refine ⟨z2, ?_, h2⟩
    simp only [A.zremLoop, e1, Option.bind_eq_bind, Option.bind_some, e2, Tally.gone]
    refine congrArg some (Prod.ext rfl ?_)
    simp only
    split <;> omega

end Metis
