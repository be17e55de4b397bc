import Verif.Proofs.Coll
import Verif.Proofs.Zset
import Verif.Spec.ZsetCmd
/-!
The sorted-set commands on a sorted set whose score map and skiplist agree.
-/
set_option linter.unusedSectionVars false
set_option linter.unusedSimpArgs false
set_option linter.unusedVariables false
namespace Metis
open Spec Metis.Skiplist Metis.Skip
open Metis.Zset (nd_uniq nosame filter_ne elems)
variable {hash : Bytes → Nat}

/-- Map and skiplist hold the same pairs. -/
def ZOk (z : AZ) : Prop := ∃ L, Sorted z.s L ∧ Arranged z.f (pairs z.s.heap L)

theorem znew_ok : ZOk A.zNew := ⟨[], new_sorted, List.Pairwise.nil, List.nodup_nil, fun m v => by simp [A.zNew, nil, pairs]⟩

theorem numEq_iff {a b : F64} (ha : a.isNaN = false) (hb : b.isNaN = false) : numEq a b = true ↔ a.key = b.key := by
  simp [numEq, ha, hb]

theorem scored_new {f : Bytes → Option F64} {x : F64} {m : Bytes} (h : f m = none) : scored f x m = upd f m (some x) := by
  unfold scored; rw [h]; funext k; simp only [upd]
  by_cases hk : k = m
  · subst hk; simp
  · rw [if_neg hk, if_neg (fun h => hk h.symm)]

theorem scored_old {f : Bytes → Option F64} {x v : F64} {m : Bytes} (h : f m = some v) (he : numEq v x = true) : scored f x m = f := by
  unfold scored; rw [h]; simp [he]

theorem ZOk.nan {z : AZ} (h : ZOk z) {m : Bytes} {v : F64} (hv : z.f m = some v) : v.isNaN = false := by
  obtain ⟨L, hS, _, _, hm⟩ := h
  obtain ⟨a, ha, e⟩ := List.mem_map.1 ((hm m v).1 hv)
  have := hS.nan a ha
  rw [show (z.s.heap a).score = v from congrArg Prod.fst e] at this
  exact this

/-- Adding one member. -/
theorem zok_add {z : AZ} (h : ZOk z) {lv : Nat} (h1 : 1 ≤ lv) (h2 : lv ≤ maxLevel) {x : F64} {m : Bytes} (hx : x.isNaN = false)
    (hk : ∀ v, z.f m = some v → v.key = x.key) :
    ∃ z', AZ.add z lv x m = some (decide (z.f m = none), z') ∧ ZOk z' ∧ z'.f = scored z.f x m := by
  cases hm : z.f m with
  | some v =>
    have he : v.key = x.key := hk v hm
    have hv := h.nan hm
    refine ⟨z, ?_, h, (scored_old hm ((numEq_iff hv hx).2 he)).symm⟩
    unfold AZ.add
    rw [hm]
    have : x.eq v = true := (F64.eq_iff hx hv).2 he.symm
    simp [this]
  | none =>
    obtain ⟨L, hS, ho, nd, map⟩ := h
    obtain ⟨s', A, B, e3, hAB, hS', p1, p2, _, _⟩ := insert_sorted hS x m h1 h2 hx
    refine ⟨⟨upd z.f m (some x), s'⟩, ?_, ⟨_, hS', hS'.ord, ?_, ?_⟩, (scored_new hm).symm⟩
    · unfold AZ.add; rw [hm]; simp [e3]
    · rw [p2]
      have : (m :: (pairs z.s.heap L).map Prod.snd).Nodup := by
        rw [List.nodup_cons]
        refine ⟨?_, nd⟩
        intro hc
        obtain ⟨q, hq, e⟩ := List.mem_map.1 hc
        have := (map m q.1).2 (by rw [← e]; exact hq)
        rw [hm] at this; cases this
      rw [p1] at this
      simp only [List.map_append, List.map_cons] at this ⊢
      exact (List.perm_middle.nodup_iff).2 this
    · intro y v
      rw [p2]
      simp only [List.mem_append, List.mem_cons, Prod.mk.injEq]
      have hmem : (v, y) ∈ pairs z.s.heap L ↔ (v, y) ∈ pairs z.s.heap A ∨ (v, y) ∈ pairs z.s.heap B := by rw [p1, List.mem_append]
      by_cases hy : m = y
      · subst hy
        simp only [upd_at, Option.some.injEq]
        have hno : (v, m) ∉ pairs z.s.heap L := by
          intro hc; have := (map m v).2 hc; rw [hm] at this; cases this
        rw [hmem] at hno
        constructor
        · intro e; exact Or.inr (Or.inl ⟨e.symm, trivial⟩)
        · rintro (e | e | e)
          · exact absurd (Or.inl e) hno
          · exact e.1.symm
          · exact absurd (Or.inr e) hno
      · simp only [upd_ne _ _ (fun h => hy h.symm), map, hmem]
        constructor
        · rintro (e | e)
          · exact Or.inl e
          · exact Or.inr (Or.inr e)
        · rintro (e | e | e)
          · exact Or.inl e
          · exact absurd e.2.symm hy
          · exact Or.inr e

/-- Removing one member. -/
theorem zok_rem {z : AZ} (h : ZOk z) (m : Bytes) :
    ∃ z', AZ.delete z m = some (decide (z.f m ≠ none), z') ∧ ZOk z' ∧ z'.f = upd z.f m none := by
  cases hm : z.f m with
  | none =>
    refine ⟨z, by unfold AZ.delete; rw [hm]; rfl, h, ?_⟩
    funext y
    by_cases hy : m = y
    · subst hy; simp [hm]
    · rw [upd_ne _ _ (fun h => hy h.symm)]
  | some v =>
    have hv := h.nan hm
    obtain ⟨L, hS, ho, nd, map⟩ := h
    obtain ⟨A, B, hAB, hA, hB, h⟩ := delete_sorted hS v m hv
    rcases h with ⟨y, w, s', hB', hsame, e3, hS', hd, _⟩ | ⟨habs, e3⟩
    · have hym : (pair z.s.heap y).2 = m := (same_iff.1 hsame).2.symm
      have hpairs : pairs s'.heap (A ++ w) = (pairs z.s.heap L).filter (fun q => q.2 != m) := by
        rw [pairs_congr (h := z.s.heap) (fun a _ => hd a)]
        have hnd := nd
        rw [hAB, hB'] at hnd ⊢
        simp only [pairs, List.map_append, List.map_cons] at hnd ⊢
        rw [hym] at hnd
        have hn := List.nodup_append.1 hnd
        rw [List.filter_append, List.filter_cons_of_neg (by simp [hym])]
        congr 1
        · refine (filter_ne ?_).symm
          intro q hq e
          exact hn.2.2 q.2 (List.mem_map.2 ⟨q, hq, rfl⟩) m (by simp) e
        · refine (filter_ne ?_).symm
          intro q hq e
          exact (List.nodup_cons.1 hn.2.1).1 (List.mem_map.2 ⟨q, hq, e⟩)
      refine ⟨⟨upd z.f m none, s'⟩, ?_, ⟨_, hS', hS'.ord, ?_, ?_⟩, rfl⟩
      · unfold AZ.delete; rw [hm]; simp [e3]
      · rw [hpairs]; exact List.Nodup.sublist (List.Sublist.map _ List.filter_sublist) nd
      · intro x v
        rw [hpairs]
        simp only [List.mem_filter, bne_iff_ne, ne_eq]
        by_cases hx : m = x
        · subst hx; simp
        · simp only [upd_ne _ _ (fun h => hx h.symm), map]
          constructor
          · intro h; exact ⟨h, fun e => hx e.symm⟩
          · exact And.left
    · have := habs _ ((map m v).1 hm)
      rw [same_iff.2 ⟨rfl, rfl⟩] at this
      cases this

theorem drop_f (h : Nat → SNode) : ∀ (xs : List Nat) (z : AZ), (AZ.drop h xs z).1.length = xs.length ∧ (AZ.drop h xs z).2.s = z.s ∧
    ∀ m, (AZ.drop h xs z).2.f m = if m ∈ xs.map (fun x => (h x).member) then none else z.f m
  | [], z => ⟨rfl, rfl, fun m => by simp [AZ.drop]⟩
  | x :: xs, z => by
    obtain ⟨i1, i2, i3⟩ := drop_f h xs { z with f := upd z.f (h x).member none }
    refine ⟨by simp [AZ.drop, i1], by simp only [AZ.drop]; exact i2, fun m => ?_⟩
    simp only [AZ.drop]
    rw [i3]
    simp only [List.map_cons, List.mem_cons]
    by_cases h1 : m ∈ xs.map (fun x => (h x).member)
    · simp [h1]
    · by_cases h2 : m = (h x).member
      · subst h2; simp
      · rw [if_neg h1, if_neg (by rintro (e | e); exacts [h2 e, h1 e]), upd_ne _ _ h2]

/-- Removing a score range. -/
theorem zremScore_ok {z : AZ} (h : ZOk z) {min max : F64} (h1 : min.isNaN = false) (h2 : max.isNaN = false) :
    ∃ es z', AZ.remScore z min max = some (es, z') ∧ ZOk z' ∧ z'.f = outside z.f min max ∧
      ∀ l, Arranged z.f l → es.length = (l.filter (inRange min max)).length := by
  obtain ⟨L, hS, ho, nd, map⟩ := h
  obtain ⟨s', e, hS', _, hd⟩ := deleteRangeByScore_sorted hS h1 h2
  obtain ⟨d1, d2, d3⟩ := drop_f s'.heap (L.filter (inAddr z.s.heap min max)) { z with s := s' }
  have hin : pairs z.s.heap (L.filter (inAddr z.s.heap min max)) = (pairs z.s.heap L).filter (inRange min max) := by
    unfold pairs; rw [List.filter_map]; rfl
  have hout : pairs s'.heap (L.filter (fun a => !inAddr z.s.heap min max a)) = (pairs z.s.heap L).filter (fun q => !inRange min max q) := by
    rw [pairs_congr (h := z.s.heap) (fun a _ => hd a)]
    unfold pairs; rw [List.filter_map]; rfl
  have hmem : ∀ m, m ∈ (L.filter (inAddr z.s.heap min max)).map (fun x => (s'.heap x).member) ↔ ∃ v, z.f m = some v ∧ inRange min max (v, m) = true := by
    intro m
    have : (L.filter (inAddr z.s.heap min max)).map (fun x => (s'.heap x).member) =
        (pairs z.s.heap (L.filter (inAddr z.s.heap min max))).map Prod.snd := by
      unfold pairs
      rw [List.map_map]
      exact List.map_congr_left (fun a _ => (hd a).2)
    rw [this, hin, List.mem_map]
    constructor
    · rintro ⟨⟨v, m'⟩, hq, rfl⟩
      obtain ⟨hq1, hq2⟩ := List.mem_filter.1 hq
      exact ⟨v, (map _ _).2 hq1, hq2⟩
    · rintro ⟨v, hv, hr⟩
      exact ⟨(v, m), List.mem_filter.2 ⟨(map _ _).1 hv, hr⟩, rfl⟩
  have hf : (AZ.drop s'.heap (L.filter (inAddr z.s.heap min max)) { z with s := s' }).2.f = outside z.f min max := by
    funext m
    rw [d3]
    unfold outside
    cases hm : z.f m with
    | none => simp
    | some v =>
      simp only []
      by_cases hr : inRange min max (v, m) = true
      · rw [if_pos ((hmem m).2 ⟨v, hm, hr⟩), if_pos hr]
      · rw [if_neg (by
          intro hc
          obtain ⟨v', hv', hr'⟩ := (hmem m).1 hc
          rw [hm] at hv'; cases hv'; exact hr hr'), if_neg hr]
  refine ⟨_, _, by unfold AZ.remScore; rw [e]; rfl, ⟨_, by rw [d2]; exact hS', by rw [d2]; exact hS'.ord, ?_, ?_⟩, hf, ?_⟩
  · rw [d2, hout]; exact List.Nodup.sublist (List.Sublist.map _ List.filter_sublist) nd
  · intro m v
    rw [d2, hf, hout, List.mem_filter, ← map]
    unfold outside
    cases hm : z.f m with
    | none => simp
    | some w =>
      simp only []
      by_cases hr : inRange min max (w, m) = true
      · rw [if_pos hr]
        constructor
        · intro h; cases h
        · rintro ⟨h, h'⟩; cases h; rw [hr] at h'; cases h'
      · rw [if_neg hr]
        constructor
        · intro h; cases h; exact ⟨rfl, by simp [hr]⟩
        · exact And.left
  · intro l hl
    rw [d1, ← List.length_map (f := pair z.s.heap), show (L.filter (inAddr z.s.heap min max)).map (pair z.s.heap) = pairs z.s.heap (L.filter (inAddr z.s.heap min max)) from rfl, hin]
    refine (List.Perm.filter _ ?_).length_eq
    refine (List.perm_ext_iff_of_nodup (List.Nodup.of_map _ nd) (List.Nodup.of_map _ hl.2.1)).2 ?_
    rintro ⟨v, m⟩
    rw [← map, ← hl.2.2]

/-- The arrangement is unique. -/
theorem arranged_unique {f : Bytes → Option F64} {l l' : List Pair} (h : Arranged f l) (h' : Arranged f l') : l = l' := by
  refine ordered_unique ?_ (nosame h.2.1) h.1 h'.1
  refine (List.perm_ext_iff_of_nodup (List.Nodup.of_map _ h.2.1) (List.Nodup.of_map _ h'.2.1)).2 ?_
  rintro ⟨v, m⟩
  rw [← h.2.2, ← h'.2.2]

/-- The skiplist of a sound sorted set lists any arrangement. -/
theorem ZOk.at {z : AZ} (h : ZOk z) : ∃ L l, Sorted z.s L ∧ Arranged z.f l ∧ pairs z.s.heap L = l := by
  obtain ⟨L, hS, ha⟩ := h
  exact ⟨L, _, hS, ha, rfl⟩

theorem look_elems {z : AZ} {l : List Pair} (h : Arranged z.f l) {xs : List Nat} (hx : ∀ x ∈ xs, pair z.s.heap x ∈ l) :
    AZ.look z.s.heap xs z = elems (pairs z.s.heap xs) := by
  unfold AZ.look elems pairs
  rw [List.map_map]
  refine List.map_congr_left (fun x hxm => ?_)
  unfold AZ.get
  rw [(h.2.2 (z.s.heap x).member (z.s.heap x).score).2 (hx x hxm)]; rfl

theorem byScore_ok {z : AZ} (h : ZOk z) {min max : F64} (h1 : min.isNaN = false) (h2 : max.isNaN = false) :
    ∃ l, Arranged z.f l ∧ AZ.byScore z min max (-1) false = some (elems (l.filter (inRange min max))) ∧
      Skiplist.count z.s min max = some ((l.filter (inRange min max)).length : Int) ∧ z.s.length = l.length := by
  obtain ⟨L, l, hS, ha, hl⟩ := h.at
  have hf : l.filter (inRange min max) = pairs z.s.heap (L.filter (inAddr z.s.heap min max)) := by
    rw [← hl]; unfold pairs; rw [List.filter_map]; rfl
  refine ⟨l, ha, ?_, ?_, by rw [hS.inv.len, ← hl]; simp [pairs]⟩
  · have e1 := rangeByScore_spec hS h1 h2 (-1) false
    simp only [Bool.false_eq_true, if_false, lim, if_pos (show (-1 : Int) < 0 by omega)] at e1
    unfold AZ.byScore
    rw [e1, hf]
    simp only [Option.bind_eq_bind, Option.bind_some]
    rw [look_elems ha (fun x hx => hl ▸ List.mem_map_of_mem (List.mem_filter.1 hx).1)]
  · rw [count_spec hS h1 h2, hf]; simp [pairs]

/-- Ranks `start` to `stop`, both from 0. -/
theorem byRank_ok {z : AZ} (h : ZOk z) {start stop : Int} (h0 : 0 ≤ start) (h1 : stop ≠ Zset.maxInt64) (hc : stop - start + 1 ≤ maxPtrCap) :
    ∃ l, Arranged z.f l ∧ AZ.byRank z start stop false = some (elems ((l.drop start.toNat).take (stop - start + 1).toNat)) := by
  obtain ⟨L, l, hS, ha, hl⟩ := h.at
  refine ⟨l, ha, ?_⟩
  unfold AZ.byRank
  rw [if_neg h1]
  by_cases hb : start > stop
  · have : Skiplist.rangeByRank z.s (start + 1) (stop + 1) false = some [] := by
      unfold Skiplist.rangeByRank; rw [if_pos (by omega)]
    simp only [this, Option.bind_eq_bind, Option.bind_some]
    rw [show (stop - start + 1).toNat = 0 by omega]; rfl
  · have e1 := rangeByRank_fwd hS.inv (start := start + 1) (stop := stop + 1) (by omega) (by omega) (by omega)
    simp only [e1, Option.bind_eq_bind, Option.bind_some]
    rw [show (start + 1 - 1).toNat = start.toNat by omega, show (stop + 1 - (start + 1) + 1).toNat = (stop - start + 1).toNat by omega]
    rw [look_elems ha (fun x hx => hl ▸ List.mem_map_of_mem ((List.take_sublist _ _).trans (List.drop_sublist _ _) |>.subset hx)), ← hl]
    simp only [pairs, List.map_take, List.map_drop]

/-! ### ZADD and ZREM with several members -/

/-- Score-member arguments that parse to the given pairs. -/
inductive ZArgs (e : Env) : List Bytes → List Pair → Prop
  | nil : ZArgs e [] []
  | cons {sc m rest x ps} (h : e.parseFloat sc = some x) (t : ZArgs e rest ps) : ZArgs e (sc :: m :: rest) ((x, m) :: ps)

theorem zaddLoop_ok {e : Env} (hlv : ∀ j, 1 ≤ e.level j ∧ e.level j ≤ maxLevel) : ∀ {args : List Bytes} {ps : List Pair}, ZArgs e args ps →
    ∀ (i : Nat) (z : AZ) (n : Nat), ZOk z → Keeps z.f ps →
      ∃ z', A.zaddLoop e args i z n = some (z', i + ps.length, n + newOnes z.f ps, none) ∧ ZOk z' ∧ z'.f = scoredAll z.f ps
  | _, _, .nil, i, z, n, h, _ => ⟨z, by simp [A.zaddLoop, newOnes], h, rfl⟩
  | _, _, .cons (sc := sc) (m := m) (rest := rest) (x := x) (ps := ps) hp t, i, z, n, h, hk => by
    obtain ⟨h1, h2, h3⟩ := hk
    obtain ⟨z1, e1, o1, f1⟩ := zok_add h (hlv i).1 (hlv i).2 h1 h2
    obtain ⟨z2, e2, o2, f2⟩ := zaddLoop_ok hlv t (i + 1) z1 (if z.f m = none then n + 1 else n) o1 (by rw [f1]; exact h3)
    refine ⟨z2, ?_, o2, by rw [f2, f1]; rfl⟩
    simp only [A.zaddLoop, hp, e1, Option.bind_eq_bind, Option.bind_some]
    by_cases hm : z.f m = none
    · simp only [hm, decide_true, if_true] at e2 ⊢
      rw [e2]
      simp only [newOnes, hm, if_true, f1, List.length_cons]
      congr 2
      · exact Prod.ext (by simp; omega) (Prod.ext (by simp; omega) rfl)
    · simp only [hm, decide_false, if_false, Bool.false_eq_true] at e2 ⊢
      rw [e2]
      simp only [newOnes, hm, if_false, f1, List.length_cons]
      congr 2
      · exact Prod.ext (by simp; omega) (Prod.ext (by simp) rfl)

theorem zremLoop_ok : ∀ (ms : List Bytes) (z : AZ) (n : Nat), ZOk z →
    ∃ z' l, Lists l (fun x => x ∈ ms ∧ (z.f x).isSome = true) ∧ A.zremLoop ms z n = some (z', n + l.length) ∧ ZOk z' ∧ z'.f = without z.f ms
  | [], z, n, h => ⟨z, [], ⟨List.nodup_nil, by simp⟩, rfl, h, by funext m; simp [without]⟩
  | m :: ms, z, n, h => by
    obtain ⟨z1, e1, o1, f1⟩ := zok_rem h m
    obtain ⟨z2, l, ⟨h1, h2⟩, e2, o2, f2⟩ := zremLoop_ok ms z1 (if z.f m ≠ none then n + 1 else n) o1
    rw [f1] at h2
    have hx : ∀ x, x ∈ l ↔ x ∈ ms ∧ x ≠ m ∧ (z.f x).isSome = true := by
      intro x; rw [h2 x]
      by_cases hp : m = x
      · simp [upd, hp]
      · simp [upd, hp, Ne.symm hp]
    have hf : without (upd z.f m none) ms = without z.f (m :: ms) := by
      funext x
      unfold without
      by_cases hp : m = x
      · simp [upd, hp]
      · simp [upd, hp, Ne.symm hp]
    rw [f1, hf] at f2
    cases hv : z.f m with
    | some v =>
      refine ⟨z2, m :: l, ⟨List.nodup_cons.2 ⟨fun h => absurd rfl ((hx _).1 h).2.1, h1⟩, ?_⟩, ?_, o2, f2⟩
      · intro x
        simp only [List.mem_cons, hx]
        by_cases hp : x = m
        · simp [hp, hv]
        · simp [hp]
      · simp only [hv, ne_eq, reduceCtorEq, not_false_eq_true, decide_true, if_true] at e1 e2
        simp only [A.zremLoop, e1, Option.bind_eq_bind, Option.bind_some, if_true, e2, List.length_cons]
        congr 2; omega
    | none =>
      refine ⟨z2, l, ⟨h1, ?_⟩, ?_, o2, f2⟩
      · intro x
        simp only [hx, List.mem_cons]
        by_cases hp : x = m
        · simp [hp, hv]
        · simp [hp]
      · simp only [hv, ne_eq, not_true_eq_false, decide_false, if_false] at e1 e2
        simp only [A.zremLoop, e1, Option.bind_eq_bind, Option.bind_some, Bool.false_eq_true, if_false, e2]

/-! ### every gentle event keeps the sorted set of a key sound -/

/-- If `k` holds a sorted set, it is sound. -/
def ZAt (k : Bytes) (s : AS) : Prop := ∀ z, s.v k = some (.zset z) → ZOk z

/-- Score-member arguments up to the first that does not parse. -/
def zPairs (e : Env) : List Bytes → List Pair
  | sc :: m :: rest =>
    match e.parseFloat sc with
    | some x => (x, m) :: zPairs e rest
    | none => []
  | _ => []

theorem zat_swept {e : Env} {s s' : AS} {k : Bytes} (h : Swept e s s') (hs : ZAt k s) : ZAt k s' := by
  intro z hz
  rcases h k with ⟨h, _⟩ | ⟨_, h, _⟩
  · exact hs z (h ▸ hz)
  · rw [h] at hz; cases hz
theorem zat_exp {e : Env} {s : AS} {k key : Bytes} (hs : ZAt k s) : ZAt k (A.exp e s key) := zat_swept swept_exp hs
theorem zat_upd {s : AS} {k key : Bytes} {o : AObj} {t : Fn Int} (hs : ZAt k s) (ho : k = key → ∀ z, o = .zset z → ZOk z) :
    ZAt k ⟨upd s.v key (some o), t⟩ := by
  intro z hz
  by_cases h : k = key
  · subst h; simp only [upd_at, Option.some.injEq] at hz; exact ho rfl z hz
  · simp only [upd_ne _ _ h] at hz; exact hs z hz
theorem zat_put {s : AS} {k key : Bytes} {o : AObj} (hs : ZAt k s) (ho : k = key → ∀ z, o = .zset z → ZOk z) : ZAt k (A.put s key o) :=
  zat_upd hs ho
theorem zat_orNew {β : Type} {as : AObj → Option β} {fr : AObj} {s : AS} {k key : Bytes} (hs : ZAt k s)
    (ho : ∀ z, fr = .zset z → ZOk z) : ZAt k (A.orNew as fr s key).2 := by
  unfold A.orNew; split
  · exact zat_put hs (fun _ => ho)
  · exact hs
theorem zat_t {s : AS} {k : Bytes} {t : Fn Int} (hs : ZAt k s) : ZAt k { s with t := t } := hs

theorem asZset_eq {o : AObj} {z : AZ} (h : o.asZset = some z) : o = .zset z := by
  cases o <;> cases h; rfl

theorem orNew_zset {s : AS} {k : Bytes} (z : AZ) (h : (A.orNew AObj.asZset (.zset A.zNew) s k).1 = some z) :
    zsetOf (s.v k) = some z.f ∧ (ZAt k s → ZOk z) := by
  unfold A.orNew at h
  split at h
  · next hk => cases h; exact ⟨by rw [hk]; rfl, fun _ => znew_ok⟩
  · next o ho => exact ⟨by rw [ho, asZset_eq h]; rfl, fun hs => hs z (by rw [ho, asZset_eq h])⟩

macro "zat" : tactic =>
  `(tactic| first
      | assumption
      | exact zat_exp (by assumption)
      | exact zat_t (by assumption)
      | exact zat_upd (by assumption) (fun _ q h => by cases h)
      | exact zat_put (by assumption) (fun _ q h => by cases h)
      | exact zat_put (zat_exp (by assumption)) (fun _ q h => by cases h)
      | exact zat_orNew (by assumption) (fun q h => by first | (cases h; exact znew_ok) | (cases h; done))
      | exact zat_put (zat_orNew (by assumption) (fun q h => by cases h)) (fun _ q h => by cases h))

/-- The loop of ZADD, also when it stops at a score that does not parse. -/
theorem zaddLoop_sound {e : Env} (hlv : ∀ j, 1 ≤ e.level j ∧ e.level j ≤ maxLevel) (args : List Bytes) :
    ∀ (i : Nat) (z : AZ) (n : Nat), ZOk z → Keeps z.f (zPairs e args) → ∀ r, A.zaddLoop e args i z n = some r → ZOk r.1 := by
  induction args using zPairs.induct e with
  | case1 sc m rest x hp ih =>
    intro i z n h hk r hr
    simp only [zPairs, hp] at hk
    obtain ⟨h1, h2, h3⟩ := hk
    obtain ⟨z1, e1, o1, f1⟩ := zok_add h (hlv i).1 (hlv i).2 h1 h2
    simp only [A.zaddLoop, hp, e1, Option.bind_eq_bind, Option.bind_some] at hr
    exact ih _ z1 _ o1 (by rw [f1]; exact h3) r hr
  | case2 sc m rest hp =>
    intro i z n h hk r hr
    simp only [A.zaddLoop, hp] at hr
    cases hr; exact h
  | case3 args hn =>
    intro i z n h hk r hr
    match args, hn, hr with
    | [], _, hr => simp only [A.zaddLoop] at hr; cases hr; exact h
    | [_], _, hr => simp only [A.zaddLoop] at hr; cases hr; exact h
    | a :: b :: t, hn, _ => exact absurd rfl (hn a b t)

/-- What a request may do to the sorted set of `k`, given the value of `k`. -/
def GentleReq (e : Env) (args : List Bytes) (k : Bytes) (o : Option AObj) (c : Cmd) : Prop :=
  args[1]? = some k →
    (c = .zadd → (∀ j, 1 ≤ e.level j ∧ e.level j ≤ maxLevel) ∧ ∀ f, zsetOf o = some f → Keeps f (zPairs e (args.drop 2))) ∧
    c ≠ .zremrangebyrank ∧
    (c = .zremrangebyscore → ∀ a b x y, args[2]? = some a → args[3]? = some b → e.parseFloat a = some x → e.parseFloat b = some y → x.isNaN = false ∧ y.isNaN = false)

theorem zat_w {e : Env} {args : List Bytes} {s : AS} {c : Cmd} {f} {k : Bytes} (hs : ZAt k s) (hg : GentleReq e args k (s.v k) c)
    (hc : aFn c = some f) (hw : writes c = true) : All (fun a => ZAt k a.s) (f e args s) := by
  cases c <;> cases hc <;> first | (cases hw; done) | skip
  case set => unfold A.set; cmd_all; all_goals zat
  case setex => unfold A.setEx; cmd_all; all_goals zat
  case expire => unfold A.expire; cmd_all; all_goals zat
  case expireat => unfold A.expireAt; cmd_all; all_goals zat
  case hset => unfold A.hset; cmd_all; all_goals zat
  case hdel => unfold A.hdel; cmd_all; all_goals zat
  case lpush => unfold A.lpush; cmd_all; all_goals zat
  case rpush => unfold A.rpush; cmd_all; all_goals zat
  case lpop => unfold A.lpop A.popCmd; cmd_all; all_goals zat
  case rpop => unfold A.rpop A.popCmd; cmd_all; all_goals zat
  case sadd => unfold A.sadd; cmd_all; all_goals zat
  case srem => unfold A.srem; cmd_all; all_goals zat
  case zadd =>
    unfold A.zadd
    split
    · exact all_some hs
    · refine all_bind fun key hk => ?_
      have hn := @orNew_zset s key
      have h1 : ZAt k (A.orNew AObj.asZset (.zset A.zNew) s key).2 := by zat
      generalize A.orNew AObj.asZset (.zset A.zNew) s key = p at hn h1
      obtain ⟨z, s1⟩ := p
      dsimp only at *
      split
      · exact all_some h1
      · next z =>
        refine all_bind fun r hr => ?_
        have key' : k = key → ∀ x, AObj.zset r.1 = .zset x → ZOk x := by
          rintro rfl x hx
          cases hx
          obtain ⟨hlv, hkp⟩ := (hg hk).1 rfl
          obtain ⟨q1, q2⟩ := hn z rfl
          exact zaddLoop_sound hlv _ 0 z 0 (q2 hs) (hkp _ q1) _ hr
        obtain ⟨z', n', cr, bad⟩ := r
        dsimp only at *
        split
        · exact all_some (zat_put h1 key')
        · exact all_some (zat_put h1 key')
  case zrem =>
    unfold A.zrem
    refine all_bind fun key hk => ?_
    dsimp only
    split
    · exact all_some (by zat)
    · exact all_some (by zat)
    · next z hz =>
      refine all_bind fun r hr => all_some ?_
      obtain ⟨z', n'⟩ := r
      refine zat_put (zat_exp hs) ?_
      rintro rfl x hx
      cases hx
      obtain ⟨o, h1, h2⟩ := look_found hz
      obtain ⟨z2, l, _, e2, o2, _⟩ := zremLoop_ok (args.drop 2) z 0 (zat_exp hs z (by rw [h1, asZset_eq h2]))
      rw [e2] at hr; cases hr; exact o2
  case zremrangebyrank =>
    unfold A.zremRangeByRank
    cmd_all
    any_goals first | assumption | exact zat_exp hs
    all_goals
      refine zat_put (zat_exp hs) ?_
      rintro rfl
      exact absurd rfl (hg (by assumption)).2.1
  case zremrangebyscore =>
    unfold A.zremRangeByScore
    refine all_bind fun key hk => ?_
    refine all_bind fun a ha => ?_
    split
    · exact all_some hs
    · next min hmin =>
      refine all_bind fun b hb => ?_
      split
      · exact all_some hs
      · next max hmax =>
        dsimp only
        split
        · exact all_some (by zat)
        · exact all_some (by zat)
        · next z hz =>
          refine all_bind fun r hr => all_some ?_
          obtain ⟨es, z'⟩ := r
          refine zat_put (zat_exp hs) ?_
          rintro rfl x hx
          cases hx
          obtain ⟨o, h1, h2⟩ := look_found hz
          obtain ⟨n1, n2⟩ := (hg hk).2.2 rfl a b min max ha hb hmin hmax
          obtain ⟨es2, z2, e2, o2, _⟩ := zremScore_ok (zat_exp hs z (by rw [h1, asZset_eq h2])) n1 n2
          rw [e2] at hr; cases hr; exact o2

theorem zat_step {e : Env} {args : List Bytes} {s : AS} {c : Cmd} {a : AOut} {k : Bytes} (h : AStep e args s c a) (hs : ZAt k s)
    (hg : GentleReq e args k (s.v k) c) : ZAt k a.s := by
  cases hw : writes c with
  | false => exact zat_swept (reads h hw).1 hs
  | true =>
    cases h with
    | det hc h => exact zat_w hs hg hc hw a h
    | randomget => cases hw
    | @spop m a h =>
      have : All (fun a => ZAt k a.s) (A.spop m e args s) := by unfold A.spop; cmd_all; all_goals zat
      exact this a h
    | spopEmpty h =>
      have : All (fun a => ZAt k a.s) (A.spopEmpty e args s) := by unfold A.spopEmpty; cmd_all; all_goals zat
      exact this a h

/-- An event that keeps to what `GentleReq` says for key `k` of database `i`. -/
def Gentle (s : Sys) (i : Nat) (k : Bytes) : Event → Prop
  | .request fd e args => ∀ c cmd, s.sess fd = some c → c.db = i → commandOf e args = some cmd → GentleReq e args k (s.val i k) cmd
  | _ => True

theorem zat_moved {s : Sys} {i : Nat} {d : Db} {d' r ev} {k : Bytes} (hd : s.srv.dbs[i]? = some d) (h : Moved s i d.view d' r ev) (hs : ZAt k d.view)
    (hg : Gentle s i k ev) : ZAt k d' := by
  cases h with
  | same h => exact h ▸ hs
  | cron h => exact zat_swept h hs
  | request c hc hi cmd hcmd hok hauth a h hd' hr =>
    exact hd' ▸ zat_step h hs (by have := hg c cmd hc hi hcmd; rw [val_eq hd] at this; exact this)

/-- The sorted set at `k` in database `i` is sound. -/
def Sys.zok (s : Sys) (i : Nat) (k : Bytes) : Prop := ∀ z, s.val i k = some (.zset z) → ZOk z

/-- Every event of the history is gentle to key `k` of database `i`. -/
def GentleRun (i : Nat) (k : Bytes) : Sys → List Event → Prop
  | _, [] => True
  | s, ev :: evs => Gentle s i k ev ∧ ∀ s' r, Sys.step s ev = some (s', r) → GentleRun i k s' evs

theorem zok_event {s s' : Sys} {ev : Event} {r : List Bytes} {i : Nat} {k : Bytes} (g : SysGood hash s) (he : EvOk hash ev)
    (h : Sys.step s ev = some (s', r)) (hz : s.zok i k) (hg : Gentle s i k ev) : s'.zok i k := by
  obtain ⟨g', _, _, hlen, hdb⟩ := step_db g he h
  cases hd : s.srv.dbs[i]? with
  | none =>
    have : s'.srv.dbs[i]? = none := by
      rw [List.getElem?_eq_none_iff] at hd ⊢; omega
    intro z hz'
    unfold Sys.val at hz'
    rw [this] at hz'; cases hz'
  | some d =>
    obtain ⟨d', h1, h2, h3⟩ := hdb i d hd
    have := zat_moved hd h3 (fun z hz' => hz z (by rw [val_eq hd]; exact hz')) hg
    intro z hz'
    rw [val_eq h1] at hz'
    exact this z hz'

theorem zok_history : ∀ (evs : List Event) {s s' : Sys} {rs : List (List Bytes)} {i : Nat} {k : Bytes}, SysGood hash s → (∀ ev ∈ evs, EvOk hash ev) →
    Sys.run s evs = some (s', rs) → s.zok i k → GentleRun i k s evs → s'.zok i k
  | [], s, s', rs, i, k, g, he, h, hz, hg => by cases h; exact hz
  | ev :: evs, s, s', rs, i, k, g, he, h, hz, hg => by
    simp only [Sys.run, Option.bind_eq_bind, Option.bind_eq_some_iff] at h
    obtain ⟨⟨s1, r⟩, h1, ⟨s2, rs'⟩, h2, h3⟩ := h
    cases h3
    exact zok_history evs (step_db g (he ev (by simp)) h1).1 (fun x hx => he x (List.mem_cons_of_mem _ hx)) h2
      (zok_event g (he ev (by simp)) h1 hz hg.1) (hg.2 s1 r h1)

end Metis
