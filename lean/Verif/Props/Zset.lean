import Verif.Proofs.ZsetWeak
/-! # Properties of `datastruct.Zset` (C23-C25, C62) -/
set_option linter.unusedSectionVars false
set_option linter.unusedVariables false
namespace Metis.Props.ZsetP
open Metis Metis.Zset Metis.Spec
open Metis.Skiplist (pairs)

/-- The pairs a history leaves. -/
def content (ops : List (ZOp × Nat)) : List Pair := (zRun [] (ops.map Prod.fst)).2

/-- `z` is the zset after the history, in which no member is re-scored and no NaN is used. -/
structure Built (hash : Bytes → Nat) (ops : List (ZOp × Nat)) (z : Zset) : Prop where
  run    : ∃ rs, run hash Zset.new ops = some (rs, z)
  calm   : NoRescore [] (ops.map Prod.fst)
  levels : Levels ops

theorem Built.rep {hash ops z} (h : Built hash ops z) : Rep hash z (content ops) := by
  obtain ⟨z', e, r⟩ := run_rep ops Zset.new [] new_rep h.levels h.calm
  obtain ⟨rs, e'⟩ := h.run
  rw [e'] at e
  cases e
  exact r

/-- `sorted` is the sorted arrangement of the content. -/
def IsSorted (ops : List (ZOp × Nat)) (sorted : List Pair) : Prop := sorted.Perm (content ops) ∧ Ordered sorted

/-- Slice of 0-based ranks start..stop. -/
def slice (l : List Pair) (start stop : Int) : List Pair :=
  if start < 0 ∨ start > stop then [] else (l.drop start.toNat).take (stop - start + 1).toNat

/-- The score of a member in a list of pairs. -/
def scoreOf (l : List Pair) (m : Bytes) : Option F64 := (l.find? (fun q => q.2 == m)).map Prod.fst

theorem scoreOf_iff {l : List Pair} (nd : (l.map Prod.snd).Nodup) (m : Bytes) (v : F64) : scoreOf l m = some v ↔ (v, m) ∈ l := by
  unfold scoreOf
  constructor
  · intro h
    obtain ⟨q, hq, e⟩ := Option.map_eq_some_iff.1 h
    have h1 := List.find?_some hq
    have h2 : q.2 = m := by simpa using h1
    have : q = (v, m) := by rw [← e, ← h2]
    rw [← this]; exact List.mem_of_find?_eq_some hq
  · intro h
    cases e : l.find? (fun q => q.2 == m) with
    | none => exact absurd (List.find?_eq_none.1 e _ h) (by simp)
    | some q =>
      have h1 := List.find?_some e
      have h2 : q.2 = m := by simpa using h1
      rw [nd_uniq nd (List.mem_of_find?_eq_some e) h h2]; rfl

theorem abs_scoreOf {d : Dict Bytes F64} {l : List Pair} (hm : ∀ m v, d.abs m = some v ↔ (v, m) ∈ l) (nd : (l.map Prod.snd).Nodup) (m : Bytes) :
    d.abs m = scoreOf l m := by
  cases e : scoreOf l m with
  | some v => exact (hm m v).2 ((scoreOf_iff nd m v).1 e)
  | none =>
    cases e' : d.abs m with
    | none => rfl
    | some v =>
      have := (scoreOf_iff nd m v).2 ((hm m v).1 e')
      rw [e] at this; cases this

/-! ## Concrete material -/

def f0 : F64 := ⟨0⟩
def f1 : F64 := ⟨0x3FF0000000000000⟩
def f2 : F64 := ⟨0x4000000000000000⟩
def f3 : F64 := ⟨0x4008000000000000⟩
def f4 : F64 := ⟨0x4010000000000000⟩
def f5 : F64 := ⟨0x4014000000000000⟩
def nan : F64 := ⟨0x7FF8000000000001⟩

/-- Additions out of order, an equal re-addition, a removal, a range removal, a new addition of a removed member. -/
def hist : List (ZOp × Nat) :=
  [(.add f3 [99], 1), (.add f1 [97], 2), (.add f4 [100], 1), (.add f2 [98], 3), (.add f3 [99], 5), (.rem [97], 1), (.rem [120], 1),
   (.remRange f3 f3, 1), (.add f5 [97], 2)]

theorem hist_calm : NoRescore [] (hist.map Prod.fst) := by
  refine ⟨⟨by decide, by decide⟩, ⟨by decide, by decide⟩, ⟨by decide, by decide⟩, ⟨by decide, by decide⟩, ⟨by decide, by decide⟩, trivial, trivial,
    ⟨by decide, by decide⟩, ⟨by decide, by decide⟩, trivial⟩

theorem hist_levels : Levels hist := by unfold Levels; decide

theorem hist_built (hash : Bytes → Nat) : ∃ z, Built hash hist z := by
  obtain ⟨z, e, _⟩ := run_rep (hash := hash) hist Zset.new [] new_rep hist_levels hist_calm
  exact ⟨z, ⟨_, e⟩, hist_calm, hist_levels⟩

example : content hist = [(f5, [97]), (f2, [98]), (f4, [100])] := by decide

theorem hist_sorted : IsSorted hist [(f2, [98]), (f4, [100]), (f5, [97])] := by
  refine ⟨by decide, ?_⟩
  have hlt : ∀ {p q : Pair}, p.1.key < q.1.key → ¬ plt q p := by
    intro p q h hc
    rcases hc with hc | ⟨hc, _⟩ <;> omega
  refine List.Pairwise.cons ?_ (List.Pairwise.cons ?_ (List.Pairwise.cons ?_ List.Pairwise.nil)) <;>
    · intro q hq
      apply hlt
      revert q
      decide

/-! ## C23 -/

theorem range_all {hash : Bytes → Nat} {z : Zset} {l sorted : List Pair} (r : Rep hash z l) (hp : sorted.Perm l) (ho : Ordered sorted)
    (start stop : Int) (hc : (if stop = maxInt64 then (sorted.length : Int) - 1 else stop) - start + 1 ≤ Skiplist.maxPtrCap) :
    ∃ z', rangeByRank hash z start stop false =
      some (elems (slice sorted start (if stop = maxInt64 then (sorted.length : Int) - 1 else stop)), z') ∧ Rep hash z' l := by
  obtain ⟨L, hS, e⟩ := r.sorted hp ho
  have hlen : z.skiplist.length = sorted.length := by rw [hS.inv.len, ← e]; simp [pairs]
  unfold rangeByRank
  rw [hlen]
  generalize (if stop = maxInt64 then (sorted.length : Int) - 1 else stop) = st at hc ⊢
  unfold slice
  by_cases hb : start < 0 ∨ start > st
  · have : Skiplist.rangeByRank z.skiplist (start + 1) (st + 1) false = some [] := by
      unfold Skiplist.rangeByRank; rw [if_pos (by omega)]
    refine ⟨z, ?_, r⟩
    simp only [this, if_pos hb]
    rfl
  · have e1 := Skiplist.rangeByRank_fwd hS.inv (start := start + 1) (stop := st + 1) (by omega) (by omega) (by omega)
    have hsub : ((L.drop (start + 1 - 1).toNat).take (st + 1 - (start + 1) + 1).toNat).Sublist L :=
      (List.take_sublist _ _).trans (List.drop_sublist _ _)
    obtain ⟨d, e2, g2, a2⟩ := look_pairs r (xs := (L.drop (start + 1 - 1).toNat).take (st + 1 - (start + 1) + 1).toNat)
      (fun x hx => hp.subset (e ▸ List.mem_map_of_mem (hsub.subset hx)))
    refine ⟨{ z with dict := d }, ?_, r.dict g2 a2⟩
    simp only [e1, if_neg hb, Option.bind_eq_bind, Option.bind_some]
    rw [e2, ← e]
    simp only [pairs, List.map_take, List.map_drop]
    rw [show (start + 1 - 1).toNat = start.toNat by omega, show (st + 1 - (start + 1) + 1).toNat = (st - start + 1).toNat by omega]

/-- C23 without re-scoring: no call panics, all results are those of the specification, each member occurs once, `Size` counts the
members, and the full range query lists the members once each, sorted, with their scores. Full statement: for all histories
including re-scoring; that is false (below). -/
theorem C23_members_once_partial (hash : Bytes → Nat) (ops : List (ZOp × Nat)) (hv : NoRescore [] (ops.map Prod.fst)) (hl : Levels ops) :
    ∃ z, run hash Zset.new ops = some ((zRun [] (ops.map Prod.fst)).1, z) ∧ ((content ops).map Prod.snd).Nodup ∧
      size z = (content ops).length ∧
      ∀ sorted, IsSorted ops sorted → (sorted.length : Int) ≤ Skiplist.maxPtrCap →
        ∃ z', rangeByRank hash z 0 maxInt64 false = some (elems sorted, z') := by
  obtain ⟨z, e, r⟩ := run_rep (hash := hash) ops Zset.new [] new_rep hl hv
  refine ⟨z, e, r.nd, r.length, ?_⟩
  intro sorted hs hc
  obtain ⟨z', e', _⟩ := range_all r hs.1 hs.2 0 maxInt64 (by rw [if_pos rfl]; omega)
  rw [if_pos rfl] at e'
  refine ⟨z', ?_⟩
  rw [e']
  congr 3
  unfold slice
  split
  · have : sorted.length = 0 := by omega
    exact (List.length_eq_zero_iff.1 this).symm
  · simp [List.take_of_length_le]

/-- C23, the part that survives re-scoring: after every history of Add and Delete with any scores, NaN included, no call panics, the
results (new member or not, removed or not) are right and `Get` (ZSCORE) returns the latest score of each member. -/
theorem C23_score_always_latest (hash : Bytes → Nat) (ops : List (ZOp × Nat)) (hl : Levels ops) (hr : ∀ o ∈ ops, ∀ a b, o.1 ≠ .remRange a b) :
    ∃ z, run hash Zset.new ops = some ((zRun [] (ops.map Prod.fst)).1, z) ∧
      ∀ m, ∃ z', get hash z m = some ((scoreOf (content ops) m).map (fun v => ⟨m, v⟩), z') := by
  obtain ⟨z, e, r⟩ := run_weak (hash := hash) ops Zset.new [] new_rep.weak hl hr
  refine ⟨z, e, fun m => ?_⟩
  obtain ⟨d, e1, _⟩ := get_ok r.good m
  exact ⟨_, by rw [e1, abs_scoreOf r.map r.nd]; rfl⟩

/-- C23 fails on every zset: re-scoring a live member keeps its old entry, `Size` grows by one and the full range lists the member
twice (both times with the new score). -/
theorem C23_rescoring_duplicates {hash ops z} (h : Built hash ops z) {lv : Nat} (h1 : 1 ≤ lv) (h2 : lv ≤ Skiplist.maxLevel)
    {s v : F64} {m : Bytes} (hs : s.isNaN = false) (hm : (v, m) ∈ content ops) (hk : v.key ≠ s.key)
    (hc : ((content ops).length : Int) + 1 ≤ Skiplist.maxPtrCap) :
    ∃ z' z'' es, add hash z lv s m = some (false, z') ∧ size z' = (content ops).length + 1 ∧
      rangeByRank hash z' 0 maxInt64 false = some (es, z'') ∧ es.count (some ⟨m, s⟩) = 2 := by
  have r := h.rep
  obtain ⟨z', L, e, hS, hp, g, a⟩ := add_rescore r h1 h2 hs hm hk
  have hlen : L.length = (content ops).length + 1 := by
    have := hp.length_eq; simpa [pairs] using this
  have hne : content ops ≠ [] := by intro hc; rw [hc] at hm; cases hm
  have hpos : 0 < (content ops).length := List.length_pos_iff.2 hne
  have e1 := Skiplist.rangeByRank_fwd hS.inv (start := 1) (stop := L.length) (by omega) (by omega) (by omega)
  obtain ⟨d, e2, g2, a2⟩ := lookNodes_spec (h := z'.skiplist.heap) L z' g
  refine ⟨z', { z' with dict := d },
    L.map (fun x => (z'.dict.abs (z'.skiplist.heap x).member).map (fun v => ⟨(z'.skiplist.heap x).member, v⟩)), e, ?_, ?_, ?_⟩
  · unfold size; rw [hS.inv.len, hlen]; rfl
  · unfold rangeByRank
    rw [if_pos rfl, hS.inv.len]
    simp only [Int.zero_add, Int.sub_add_cancel]
    rw [e1]
    simp only [Option.bind_eq_bind, Option.bind_some, Int.sub_self, Int.toNat_zero, List.drop_zero]
    rw [List.take_of_length_le (by omega)]
    exact e2
  · have hcount : (L.map (fun x => (z'.skiplist.heap x).member)).count m = 2 := by
      have : L.map (fun x => (z'.skiplist.heap x).member) = (pairs z'.skiplist.heap L).map Prod.snd := by simp [pairs, Skiplist.pair]
      rw [this, (hp.map Prod.snd).count_eq]
      simp only [List.map_cons, List.count_cons_self]
      rw [List.count_eq_one_of_mem r.nd (List.mem_map.2 ⟨_, hm, rfl⟩)]
    have key : ∀ (l : List Nat), (l.map (fun x => (z'.dict.abs (z'.skiplist.heap x).member).map (fun v => (⟨(z'.skiplist.heap x).member, v⟩ : Elem)))).count (some ⟨m, s⟩)
        = (l.map (fun x => (z'.skiplist.heap x).member)).count m := by
      intro l
      induction l with
      | nil => rfl
      | cons x l ih =>
        simp only [List.map_cons, List.count_cons, ih]
        congr 1
        by_cases hx : (z'.skiplist.heap x).member = m
        · simp [hx, a]
        · rw [if_neg, if_neg]
          · simpa using hx
          · intro hc
            have hc := eq_of_beq hc
            obtain ⟨w, _, hw⟩ := Option.map_eq_some_iff.1 hc
            exact hx (congrArg Elem.member hw)
    rw [key, hcount]

/-- C23 fails, concretely: ZADD a with 1 and then 2 gives cardinality 2 and lists a twice. -/
theorem C23_fails :
    (run (fun _ => 0) Zset.new [(.add f1 [97], 1), (.add f2 [97], 1)]).bind (fun r => (rangeByRank (fun _ => 0) r.2 0 maxInt64 false).map (fun q => (size r.2, q.1)))
      = some (2, [some ⟨[97], f2⟩, some ⟨[97], f2⟩]) := by decide

example : (run (fun _ => 0) Zset.new hist).bind (fun r => (rangeByRank (fun _ => 0) r.2 0 maxInt64 false).map Prod.fst)
    = some [some ⟨[98], f2⟩, some ⟨[100], f4⟩, some ⟨[97], f5⟩] := by decide

/-! ## C24 -/

/-- C24 without re-scoring: forward rank ranges (of at most 2^45 ranks) and forward score ranges with any bounds, NaN included,
return only elements that exist: nothing for the reply code to dereference is nil. Full statement: after any history, any range.
Missing: histories with re-scoring or ZREMRANGEBYRANK and longer ranges, all refuted below. -/
theorem C24_ranges_never_nil_partial {hash ops z} (h : Built hash ops z) :
    (∀ start stop : Int, (if stop = maxInt64 then ((content ops).length : Int) - 1 else stop) - start + 1 ≤ Skiplist.maxPtrCap →
      ∃ es z', rangeByRank hash z start stop false = some (es, z') ∧ ∀ e ∈ es, e ≠ none) ∧
    (∀ (min max : F64) (limit : Int), ∃ es z', rangeByScore hash z min max limit false = some (es, z') ∧ ∀ e ∈ es, e ≠ none) := by
  have r := h.rep
  have hel : ∀ (l : List Pair), ∀ e ∈ elems l, e ≠ none := by
    intro l e he hc
    obtain ⟨p, _, hp⟩ := List.mem_map.1 he
    rw [hc] at hp; cases hp
  obtain ⟨L, hS, hL⟩ := r.list
  constructor
  · intro start stop hc
    rw [← hL.length_eq] at hc
    obtain ⟨z', e, _⟩ := range_all r hL hS.ord start stop hc
    exact ⟨_, z', e, hel _⟩
  · intro min max limit
    obtain ⟨xs, e, hx⟩ := Skiplist.rangeByScore_inv hS.inv min max limit
    obtain ⟨d, e2, g2, a2⟩ := look_pairs r (xs := xs) (fun x hx' => hL.subset (List.mem_map_of_mem (hx.subset hx')))
    refine ⟨elems (pairs z.skiplist.heap xs), { z with dict := d }, ?_, hel _⟩
    unfold rangeByScore
    rw [e]
    exact e2

/-- C24 fails: ZADD 1 a, ZADD 2 a, ZREM a, ZRANGE 0 0 hits a nil element. -/
theorem C24_nil_after_rescoring :
    (run (fun _ => 0) Zset.new [(.add f1 [97], 1), (.add f2 [97], 1), (.rem [97], 1)]).bind
      (fun r => (rangeByRank (fun _ => 0) r.2 0 0 false).map Prod.fst) = some [none] := by decide

/-- C24 fails: so does ZRANGEBYSCORE. -/
theorem C24_nil_after_rescoring_by_score :
    (run (fun _ => 0) Zset.new [(.add f1 [97], 1), (.add f2 [97], 1), (.rem [97], 1)]).bind
      (fun r => (rangeByScore (fun _ => 0) r.2 f0 f5 (-1) false).map Prod.fst) = some [none] := by decide

/-- C24 fails without re-scoring after ZREMRANGEBYRANK: five members with heights 1 2 2 1 2, remove rank 2, ask for rank 3. -/
theorem C24_nil_after_zremrangebyrank :
    (run (fun _ => 0) Zset.new [(.add f1 [97], 1), (.add f2 [98], 2), (.add f3 [99], 2), (.add f4 [100], 1), (.add f5 [101], 2)]).bind
      (fun r => (deleteRangeByRank (fun _ => 0) r.2 2 2).bind (fun q => (rangeByRank (fun _ => 0) q.2 3 3 false).map Prod.fst)) = some [none] := by decide

/-- C24 fails: a rank range of more than 2^45 ranks (and whose end is not exactly MaxInt64) panics on every zset. -/
theorem C24_huge_range_crashes {hash ops z} (h : Built hash ops z) (start stop : Int) (h0 : 0 ≤ start) (h1 : stop ≠ maxInt64)
    (h2 : stop - start + 1 > Skiplist.maxPtrCap) : rangeByRank hash z start stop false = none := by
  obtain ⟨L, hS, hL⟩ := h.rep.list
  have : Skiplist.maxPtrCap = 35184372088832 := rfl
  have : Skiplist.rangeByRank z.skiplist (start + 1) (stop + 1) false = none := by
    unfold Skiplist.rangeByRank
    rw [if_neg (by omega)]
    simp only [Bool.false_eq_true, if_false]
    rw [Skiplist.getElementByRank_spec hS.inv]
    simp only [Option.bind_eq_bind, Option.bind_some]
    rw [if_pos (by omega)]
  unfold rangeByRank
  rw [if_neg h1]
  simp only [this]
  rfl

/-! ## C25 -/

/-- C25: on every zset built without re-scoring, score lookup, count, score range, rank range and rank answer from one sorted list
of the pairs. Full statement: for all bounds and members. Missing: NaN bounds (C18), the empty member for GetRank (C16), ranges
of more than 2^45 ranks (C24). -/
theorem C25_queries_consistent_partial {hash ops z} (h : Built hash ops z) {sorted} (hs : IsSorted ops sorted) :
    (∀ m, ∃ z', get hash z m = some ((scoreOf sorted m).map (fun v => ⟨m, v⟩), z')) ∧
    (∀ min max : F64, min.isNaN = false → max.isNaN = false →
      count z min max = some ((sorted.filter (inRange min max)).length : Int) ∧
      ∃ z', rangeByScore hash z min max (-1) false = some (elems (sorted.filter (inRange min max)), z')) ∧
    (∀ start stop : Int, stop - start + 1 ≤ Skiplist.maxPtrCap → stop ≠ maxInt64 →
      ∃ z', rangeByRank hash z start stop false = some (elems (slice sorted start stop), z')) ∧
    (∀ (i : Nat) (p : Pair), sorted[i]? = some p → p.2 ≠ [] →
      (∃ z', getRank hash z p.2 false = some ((i : Int), z')) ∧ ∃ z', getRank hash z p.2 true = some ((sorted.length : Int) - 1 - i, z')) ∧
    (∀ m, (∀ p ∈ sorted, p.2 ≠ m) → ∀ rev, ∃ z', getRank hash z m rev = some (-1, z')) := by
  have r := h.rep
  have nd : (sorted.map Prod.snd).Nodup := (hs.1.map Prod.snd).nodup_iff.2 r.nd
  have hmap : ∀ m v, z.dict.abs m = some v ↔ (v, m) ∈ sorted := fun m v => (r.map m v).trans hs.1.mem_iff.symm
  obtain ⟨L, hS, e⟩ := r.sorted hs.1 hs.2
  have hlen : z.skiplist.length = sorted.length := by rw [hS.inv.len, ← e]; simp [pairs]
  refine ⟨?_, ?_, ?_, ?_, ?_⟩
  · intro m
    obtain ⟨d, e1, _⟩ := get_ok r.good m
    exact ⟨_, by rw [e1, abs_scoreOf hmap nd]⟩
  · intro min max h1 h2
    have hf : sorted.filter (inRange min max) = pairs z.skiplist.heap (L.filter (Skiplist.inAddr z.skiplist.heap min max)) := by
      rw [← e]; unfold pairs; rw [List.filter_map]; rfl
    refine ⟨?_, ?_⟩
    · unfold count; rw [Skiplist.count_spec hS h1 h2, hf]; simp [pairs]
    · have e1 := Skiplist.rangeByScore_spec hS h1 h2 (-1) false
      simp only [Bool.false_eq_true, if_false, Skiplist.lim, if_pos (show (-1 : Int) < 0 by omega)] at e1
      obtain ⟨d, e2, _⟩ := look_pairs r (xs := L.filter (Skiplist.inAddr z.skiplist.heap min max))
        (fun x hx => hs.1.subset (e ▸ List.mem_map_of_mem (List.mem_filter.1 hx).1))
      refine ⟨{ z with dict := d }, ?_⟩
      unfold rangeByScore
      rw [e1, hf]
      exact e2
  · intro start stop hc hne
    obtain ⟨z', e1, _⟩ := range_all r hs.1 hs.2 start stop (by rw [if_neg hne]; exact hc)
    rw [if_neg hne] at e1
    exact ⟨z', e1⟩
  · intro i p hp hne
    have hpm : p ∈ sorted := List.mem_of_getElem? hp
    obtain ⟨d, e1, g1, a1⟩ := get_ok r.good p.2
    have hsome := (hmap p.2 p.1).2 hpm
    have hrank : Skiplist.getRank z.skiplist p.1 p.2 = some ((i : Int) + 1) := by
      rw [← e] at hp
      simp only [pairs, List.getElem?_map, Option.map_eq_some_iff] at hp
      obtain ⟨t, ht, hpt⟩ := hp
      obtain ⟨hi, ht'⟩ := List.getElem?_eq_some_iff.1 ht
      have hL : L = L.take i ++ t :: L.drop (i + 1) := by
        rw [← ht', ← List.drop_eq_getElem_cons hi, List.take_append_drop]
      have ndL : (L.map (fun a => (z.skiplist.heap a).member)).Nodup := by
        have : L.map (fun x => (z.skiplist.heap x).member) = (pairs z.skiplist.heap L).map Prod.snd := by simp [pairs, Skiplist.pair]
        rw [this, e]; exact nd
      subst hpt
      have := Skiplist.getRank_spec (A := L.take i) (B := L.drop (i + 1)) (t := t) (score := (z.skiplist.heap t).score) (hL ▸ hS) (by
        intro a ha hma
        rw [← hL] at ha
        exact List.inj_on_of_nodup_map ndL ha (List.mem_of_getElem? ht) hma) hne (hS.nan t (List.mem_of_getElem? ht)) rfl
      rw [List.length_take, Nat.min_eq_left (by omega)] at this
      exact this
    constructor
    · refine ⟨{ z with dict := d }, ?_⟩
      unfold getRank
      rw [e1, hsome]
      simp only [Option.map_some, Option.bind_eq_bind, Option.bind_some, hrank]
      simp
    · refine ⟨{ z with dict := d }, ?_⟩
      unfold getRank
      rw [e1, hsome]
      simp only [Option.map_some, Option.bind_eq_bind, Option.bind_some, hrank]
      simp [hlen]
      omega
  · intro m hm rev
    obtain ⟨d, e1, g1, a1⟩ := get_ok r.good m
    refine ⟨{ z with dict := d }, ?_⟩
    unfold getRank
    have : z.dict.abs m = none := by
      rw [abs_scoreOf hmap nd]
      cases es : scoreOf sorted m with
      | none => rfl
      | some v => exact absurd rfl (hm _ ((scoreOf_iff nd m v).1 es))
    rw [e1, this]
    rfl

example (hash : Bytes → Nat) : ∃ z, Built hash hist z ∧ IsSorted hist [(f2, [98]), (f4, [100]), (f5, [97])] := by
  obtain ⟨z, h⟩ := hist_built hash
  exact ⟨z, h, hist_sorted⟩

example : (run (fun _ => 0) Zset.new hist).bind (fun r => (getRank (fun _ => 0) r.2 [97] true).map Prod.fst) = some 0 := by decide

/-! ## C62 -/

/-- C62 without re-scoring: ZREMRANGEBYSCORE removes exactly the members whose score lies in the range, reports their number, and
the others stay with their scores. Full statement: after any history and for all bounds; refuted below. -/
theorem C62_remrangebyscore_partial {hash ops z} (h : Built hash ops z) (min max : F64) (h1 : min.isNaN = false) (h2 : max.isNaN = false) :
    ∃ es z', deleteRangeByScore hash z min max = some (es, z') ∧ es.length = ((content ops).filter (inRange min max)).length ∧
      size z' = size z - es.length ∧
      ∀ m, ∃ z'', get hash z' m = some (((scoreOf (content ops) m).filter (fun v => !inRange min max (v, m))).map (fun v => ⟨m, v⟩), z'') := by
  have r := h.rep
  obtain ⟨es, z', e, hl, r'⟩ := remRange_spec r h1 h2
  refine ⟨es, z', e, hl, ?_, ?_⟩
  · rw [r.length, r'.length, hl]
    have : ∀ l : List Pair, l.length = (l.filter (inRange min max)).length + (l.filter (fun q => !inRange min max q)).length := by
      intro l
      induction l with
      | nil => rfl
      | cons x l ih => simp only [List.filter_cons]; cases inRange min max x <;> simp <;> omega
    have := this (content ops)
    omega
  · intro m
    obtain ⟨d, e1, _⟩ := get_ok r'.good m
    refine ⟨{ z' with dict := d }, ?_⟩
    rw [e1, abs_scoreOf r'.map r'.nd]
    have : scoreOf ((content ops).filter (fun q => !inRange min max q)) m = (scoreOf (content ops) m).filter (fun v => !inRange min max (v, m)) := by
      ext v
      simp only [Option.filter_eq_some_iff]
      have ha := scoreOf_iff r'.nd m v
      have hb := scoreOf_iff r.nd m v
      rw [ha, hb, List.mem_filter]
    rw [this]

/-- C62 fails: ZADD 1 a, ZADD 5 a, ZREMRANGEBYSCORE 0 2 removes a, whose score is 5. -/
theorem C62_removes_live_member :
    (run (fun _ => 0) Zset.new [(.add f1 [97], 1), (.add f5 [97], 1), (.remRange f0 f2, 1)]).bind
      (fun r => (get (fun _ => 0) r.2 [97]).map (fun q => (r.1, q.1))) = some ([.bool true, .bool false, .num 1], none) := by decide

/-- C62 fails: NaN as lower bound removes every member up to the upper bound. -/
theorem C62_nan_removes :
    (run (fun _ => 0) Zset.new [(.add f1 [97], 1), (.add f5 [98], 1), (.remRange nan f2, 1)]).map Prod.fst = some [.bool true, .bool true, .num 1] := by decide

end Metis.Props.ZsetP
