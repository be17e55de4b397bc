import Verif.Proofs.Zset
/-!
What survives re-scoring and NaN: the structural invariant of the skiplist and the dict.
-/
set_option linter.unusedSectionVars false
set_option linter.unusedSimpArgs false
set_option linter.unusedVariables false
namespace Metis.Skiplist
open Metis.Skip Metis.Spec

/-- `Delete` with any arguments. -/
theorem delete_inv {s : Skiplist} {L : List Nat} (inv : Inv s L) (score : F64) (member : Bytes) :
    ∃ r s' L', delete s score member = some (r, s') ∧ Inv s' L' ∧ L'.Sublist L ∧
      (∀ a, (s'.heap a).score = (s.heap a).score ∧ (s'.heap a).member = (s.heap a).member) := by
  obtain ⟨A, B, x, upd, hd, hL, ⟨P, hP⟩, hF, hg1, hg2⟩ := search inv (before score member)
  subst hL
  obtain ⟨l, hl1, hl2⟩ := next0 inv hP
  unfold delete
  rw [hd]
  simp only [Option.bind_eq_bind, Option.bind_some, hl1, hl2]
  cases B with
  | nil => exact ⟨none, s, _, rfl, inv, List.Sublist.refl _, fun _ => ⟨rfl, rfl⟩⟩
  | cons y w =>
    simp only [List.head?_cons]
    split
    · obtain ⟨s', e, inv', _, hdat, _⟩ := deleteNode_spec inv hF.path
      exact ⟨some y, s', _, by rw [e]; rfl, inv', List.Sublist.append (List.Sublist.refl A) (List.sublist_cons_self y w), fun a => ⟨(hdat a).1, (hdat a).2.1⟩⟩
    · exact ⟨some y, s, _, rfl, inv, List.Sublist.refl _, fun _ => ⟨rfl, rfl⟩⟩

/-- `DeleteRangeByScore` with any arguments. -/
theorem deleteRangeByScore_inv {s : Skiplist} {L : List Nat} (inv : Inv s L) (min max : F64) :
    ∃ A C D s', L = A ++ (C ++ D) ∧ deleteRangeByScore s min max = some (C, s') ∧ Inv s' (A ++ D) ∧
      (∀ a, (s'.heap a).score = (s.heap a).score ∧ (s'.heap a).member = (s.heap a).member) := by
  obtain ⟨A, B, x, upd, hd, hL, ⟨P, hP⟩, hF, hg1, hg2⟩ := search inv (fun n _ => n.score.lt min)
  subst hL
  obtain ⟨l, hl1, hl2⟩ := next0 inv hP
  have hlen := inv.chain_le
  obtain ⟨C, D, s', hCD, e, i', n', d', _, hC, hD⟩ := deleteLoop_spec (cond := fun n _ => n.score.le max) B (s.next + 1) 0 s inv hF.path (by simp at hlen; omega)
  subst hCD
  refine ⟨A, C, D, s', rfl, ?_, i', fun a => ⟨(d' a).1, (d' a).2.1⟩⟩
  unfold deleteRangeByScore
  rw [hd]
  simp only [Option.bind_eq_bind, Option.bind_some, hl1, hl2]
  exact e

theorem scoreLoop_inv {s : Skiplist} {min max : F64} {limit : Int} :
    ∀ (B A : List Nat) (fuel i : Nat), Inv s (A ++ B) → B.length < fuel →
    ∃ xs, scoreLoop s.heap min max limit false fuel i B.head? = some xs ∧ xs.Sublist B := by
  intro B
  induction B with
  | nil => intro A fuel i inv hf; exact ⟨[], scoreLoop_none (by simpa using hf), List.Sublist.refl _⟩
  | cons x B ih =>
    intro A fuel i inv hf
    cases fuel with
    | zero => simp at hf
    | succ fuel =>
      unfold scoreLoop
      by_cases hlim : limit < 0 ∨ (i : Int) < limit
      · have inv' : Inv s ((A ++ [x]) ++ B) := by simpa using inv
        obtain ⟨l, hl1, hl2⟩ := next0 (P := 0 :: A) (x := x) inv' (by simp)
        rw [if_pos hlim]
        simp only [List.head?_cons, follow, Bool.false_eq_true, if_false, hl1, Option.bind_eq_bind, Option.bind_some, hl2]
        obtain ⟨xs, e, hx⟩ := ih (A ++ [x]) fuel (i + 1) inv' (by simp at hf; omega)
        cases B with
        | nil =>
          simp only [List.head?_nil] at e ⊢
          exact ⟨x :: xs, by rw [e]; rfl, hx.cons_cons x⟩
        | cons y B =>
          simp only [List.head?_cons] at e ⊢
          split
          · exact ⟨[x], rfl, by simp⟩
          · exact ⟨x :: xs, by rw [e]; rfl, hx.cons_cons x⟩
      · rw [if_neg hlim]; exact ⟨[], rfl, by simp⟩

theorem hasInScoreRange_inv {s : Skiplist} {L : List Nat} (inv : Inv s L) (min max : F64) : ∃ b, hasInScoreRange s min max = some b := by
  obtain ⟨l, hl1, hl2⟩ := first_lvl inv
  unfold hasInScoreRange
  rw [hl1]
  simp only [Option.bind_eq_bind, Option.bind_some, hl2]
  cases L.head? with
  | none => exact ⟨_, rfl⟩
  | some y =>
    dsimp only
    split
    · exact ⟨_, rfl⟩
    · cases s.tail with
      | none => exact ⟨_, rfl⟩
      | some t => dsimp only; split <;> exact ⟨_, rfl⟩

theorem getFirst_inv {s : Skiplist} {L : List Nat} (inv : Inv s L) (min max : F64) :
    getFirstInScoreRange s min max = some none ∨ ∃ A y w, L = A ++ y :: w ∧ getFirstInScoreRange s min max = some (some y) := by
  obtain ⟨b, hb⟩ := hasInScoreRange_inv inv min max
  obtain ⟨A2, B2, x, upd, hd, hL2, ⟨P, hP⟩, hFo, hg1, hg2⟩ := search inv (fun n _ => n.score.lt min)
  subst hL2
  obtain ⟨l, hl1, hl2⟩ := next0 inv hP
  unfold getFirstInScoreRange
  rw [hb]
  simp only [Option.bind_eq_bind, Option.bind_some, hd, hl1, hl2]
  cases b with
  | false => exact Or.inl rfl
  | true =>
    simp only [Bool.not_true, Bool.false_eq_true, if_false]
    cases B2 with
    | nil => exact Or.inl rfl
    | cons y w =>
      simp only [List.head?_cons]
      split
      · exact Or.inr ⟨A2, y, w, rfl, rfl⟩
      · exact Or.inl rfl

/-- Forward `RangeByScore` with any arguments returns nodes of the list. -/
theorem rangeByScore_inv {s : Skiplist} {L : List Nat} (inv : Inv s L) (min max : F64) (limit : Int) :
    ∃ xs, rangeByScore s min max limit false = some xs ∧ xs.Sublist L := by
  have hlen := inv.chain_le
  unfold rangeByScore
  simp only [Bool.false_eq_true, if_false]
  rcases getFirst_inv inv min max with h | ⟨A, y, w, hL, h⟩
  · rw [h]; exact ⟨[], scoreLoop_none (by omega), by simp⟩
  · rw [h]
    subst hL
    obtain ⟨xs, e, hx⟩ := scoreLoop_inv (min := min) (max := max) (limit := limit) (y :: w) A (s.next + 1) 0 inv (by simp at hlen ⊢; omega)
    exact ⟨xs, e, hx.trans (List.sublist_append_right A _)⟩

end Metis.Skiplist

namespace Metis.Zset
open Metis.Skiplist Metis.Skip Metis.Spec
variable {hash : Bytes → Nat}

/-- The dict holds `l`; the skiplist is well linked, whatever it holds. -/
structure Weak (hash : Bytes → Nat) (z : Zset) (l : List Pair) : Prop where
  good : Dict.Good hash z.dict
  list : ∃ L, Inv z.skiplist L
  map  : ∀ m v, z.dict.abs m = some v ↔ (v, m) ∈ l
  nd   : (l.map Prod.snd).Nodup

theorem Rep.weak {z : Zset} {l : List Pair} (r : Rep hash z l) : Weak hash z l := by
  obtain ⟨L, hS, _⟩ := r.list
  exact ⟨r.good, ⟨L, hS.inv⟩, r.map, r.nd⟩

theorem Weak.none {z : Zset} {l : List Pair} (r : Weak hash z l) (m : Bytes) : z.dict.abs m = none ↔ ∀ q ∈ l, q.2 ≠ m := by
  constructor
  · intro h q hq e
    have := (r.map m q.1).2 (by rw [← e]; exact hq)
    rw [h] at this; cases this
  · intro h
    cases e : z.dict.abs m with
    | none => rfl
    | some v => exact absurd rfl (h _ ((r.map m v).1 e))

theorem eq_numEq (a b : F64) : a.eq b = numEq b a := by
  unfold F64.eq numEq
  cases a.isNaN <;> cases b.isNaN <;> simp
  rw [Bool.eq_iff_iff, decide_eq_true_iff, beq_iff_eq]
  exact eq_comm

theorem upd_map {z : Zset} {l : List Pair} (r : Weak hash z l) {s : F64} {m : Bytes} {d : Dict Bytes F64}
    (a : d.abs = fun x => if m = x then some s else z.dict.abs x) :
    (∀ x v, d.abs x = some v ↔ (v, x) ∈ (s, m) :: l.filter (fun q => q.2 != m)) ∧ (((s, m) :: l.filter (fun q => q.2 != m)).map Prod.snd).Nodup := by
  constructor
  · intro x v
    simp only [a, List.mem_cons, Prod.mk.injEq, List.mem_filter, bne_iff_ne, ne_eq]
    by_cases hx : m = x
    · subst hx; simp [eq_comm]
    · simp only [if_neg hx, r.map]
      constructor
      · intro h; exact Or.inr ⟨h, fun e => hx e.symm⟩
      · rintro (h | h)
        · exact absurd h.2.symm hx
        · exact h.1
  · simp only [List.map_cons, List.nodup_cons]
    refine ⟨?_, List.Nodup.sublist (List.Sublist.map _ List.filter_sublist) r.nd⟩
    intro hc
    obtain ⟨q, hq, e⟩ := List.mem_map.1 hc
    have := (List.mem_filter.1 hq).2
    simp [e] at this

theorem step_weak {z : Zset} {l : List Pair} (r : Weak hash z l) (op : ZOp × Nat) (hl : 1 ≤ op.2 ∧ op.2 ≤ maxLevel)
    (hop : ∀ a b, op.1 ≠ .remRange a b) : ∃ z', step hash z op = some (zRes l op.1, z') ∧ Weak hash z' (zStep l op.1) := by
  obtain ⟨op, lv⟩ := op
  obtain ⟨L, inv⟩ := r.list
  cases op with
  | remRange a b => exact absurd rfl (hop a b)
  | add s m =>
    obtain ⟨d, e1, g1, a1⟩ := get_ok r.good m
    cases ha : l.any (fun q => q.2 == m) with
    | false =>
      have hm := any_false.1 ha
      have hnone := (r.none m).2 hm
      obtain ⟨d2, e2, g2, a2⟩ := Dict.set_map g1 m s
      obtain ⟨A, B, s', _, e3, inv', _⟩ := insert_spec inv lv s m hl.1 hl.2
      have : l.any (fun q => q.2 == m && numEq q.1 s) = false := by
        rw [List.any_eq_false]
        intro q hq
        simp [hm q hq]
      refine ⟨⟨d2, s'⟩, ?_, ?_⟩
      · simp only [step]
        unfold add
        rw [e1, hnone]
        simp [e2, e3, zRes, ha]
      · simp only [zStep, this, Bool.false_eq_true, if_false]
        obtain ⟨u1, u2⟩ := upd_map r (s := s) (m := m) (d := d2) (by rw [a2, a1])
        exact ⟨g2, ⟨_, inv'⟩, u1, u2⟩
    | true =>
      obtain ⟨v, hm⟩ := any_mem.1 ha
      have hsome := (r.map m v).2 hm
      have hq : l.any (fun q => q.2 == m && numEq q.1 s) = numEq v s := by
        rw [Bool.eq_iff_iff, List.any_eq_true]
        constructor
        · rintro ⟨q, hq, e⟩
          rw [Bool.and_eq_true] at e
          have := nd_uniq r.nd hq hm (by simpa using e.1)
          rw [this] at e; exact e.2
        · intro h; exact ⟨_, hm, by simp [h]⟩
      cases hne : numEq v s with
      | true =>
        refine ⟨{ z with dict := d }, ?_, ?_⟩
        · simp only [step]
          unfold add
          rw [e1, hsome]
          simp [eq_numEq, hne, zRes, ha]
        · simp only [zStep, hq, hne, if_true]
          exact ⟨g1, r.list, by simp only [a1]; exact r.map, r.nd⟩
      | false =>
        obtain ⟨g2, a2⟩ := Dict.assign_map g1 m s (by rw [a1, hsome]; rfl)
        obtain ⟨_, s1, L1, e3, inv1, _, _⟩ := delete_inv inv s m
        obtain ⟨A, B, s2, _, e4, inv2, _⟩ := insert_spec inv1 lv s m hl.1 hl.2
        refine ⟨⟨Dict.assign hash d m s, s2⟩, ?_, ?_⟩
        · simp only [step]
          unfold add
          rw [e1, hsome]
          simp [eq_numEq, hne, e3, e4, zRes, ha]
        · simp only [zStep, hq, hne, Bool.false_eq_true, if_false]
          obtain ⟨u1, u2⟩ := upd_map r (s := s) (m := m) (d := Dict.assign hash d m s) (by rw [a2, a1])
          exact ⟨g2, ⟨_, inv2⟩, u1, u2⟩
  | rem m =>
    obtain ⟨d, e1, g1, a1⟩ := get_ok r.good m
    cases ha : l.any (fun q => q.2 == m) with
    | false =>
      have hm := any_false.1 ha
      refine ⟨{ z with dict := d }, ?_, ?_⟩
      · simp only [step]
        unfold delete
        rw [e1, (r.none m).2 hm]
        simp [zRes, ha]
      · simp only [zStep, filter_ne hm]
        exact ⟨g1, r.list, by simp only [a1]; exact r.map, r.nd⟩
    | true =>
      obtain ⟨v, hm⟩ := any_mem.1 ha
      have hsome := (r.map m v).2 hm
      obtain ⟨rr, d2, e2, g2, a2, _⟩ := Dict.delete_map g1 m
      obtain ⟨_, s1, L1, e3, inv1, _, _⟩ := delete_inv inv v m
      refine ⟨⟨d2, s1⟩, ?_, ⟨g2, ⟨_, inv1⟩, ?_, ?_⟩⟩
      · simp only [step]
        unfold delete
        rw [e1, hsome]
        simp [e2, e3, zRes, ha]
      · intro x v
        simp only [zStep, a2, a1, List.mem_filter, bne_iff_ne, ne_eq]
        by_cases hx : m = x
        · subst hx; simp
        · simp only [if_neg hx, r.map]
          constructor
          · intro h; exact ⟨h, fun e => hx e.symm⟩
          · exact And.left
      · exact List.Nodup.sublist (List.Sublist.map _ List.filter_sublist) r.nd

theorem run_weak : ∀ (ops : List (ZOp × Nat)) (z : Zset) (l : List Pair), Weak hash z l → Levels ops → (∀ o ∈ ops, ∀ a b, o.1 ≠ .remRange a b) →
    ∃ z', run hash z ops = some ((zRun l (ops.map Prod.fst)).1, z') ∧ Weak hash z' (zRun l (ops.map Prod.fst)).2 := by
  intro ops
  induction ops with
  | nil => intro z l r _ _; exact ⟨z, rfl, r⟩
  | cons op ops ih =>
    intro z l r hl hv
    obtain ⟨z1, e1, r1⟩ := step_weak r op (hl op (by simp)) (hv op (by simp))
    obtain ⟨z2, e2, r2⟩ := ih z1 _ r1 (fun o ho => hl o (by simp [ho])) (fun o ho => hv o (by simp [ho]))
    exact ⟨z2, by simp [run, e1, e2, zRun], r2⟩

/-- Re-scoring a member leaves its old pair in the skiplist. -/
theorem add_rescore {z : Zset} {l : List Pair} (r : Rep hash z l) {lv : Nat} (h1 : 1 ≤ lv) (h2 : lv ≤ maxLevel) {s v : F64} {m : Bytes}
    (hs : s.isNaN = false) (hm : (v, m) ∈ l) (hk : v.key ≠ s.key) :
    ∃ z' L, add hash z lv s m = some (false, z') ∧ Sorted z'.skiplist L ∧ (pairs z'.skiplist.heap L).Perm ((s, m) :: l) ∧
      Dict.Good hash z'.dict ∧ z'.dict.abs m = some s := by
  obtain ⟨d, e1, g1, a1⟩ := get_ok r.good m
  have hsome := (r.map m v).2 hm
  have hv := r.nan _ hm
  have hne : s.eq v = false := by
    cases h : s.eq v with
    | false => rfl
    | true => exact absurd ((F64.eq_iff hs hv).1 h).symm hk
  obtain ⟨g2, a2⟩ := Dict.assign_map g1 m s (by rw [a1, hsome]; rfl)
  obtain ⟨L, hS, hL⟩ := r.list
  obtain ⟨A, B, hAB, hA, hB, h⟩ := delete_sorted hS s m hs
  rcases h with ⟨y, w, s', hB', hsame, e3, _⟩ | ⟨habs, e3⟩
  · exfalso
    have hy : pair z.skiplist.heap y ∈ l := hL.subset (by rw [hAB, hB']; simp [pairs])
    obtain ⟨k1, k2⟩ := same_iff.1 hsame
    have k1 : s.key = (pair z.skiplist.heap y).1.key := k1
    have := nd_uniq r.nd hm hy k2
    rw [← this] at k1
    exact hk k1.symm
  · obtain ⟨s', A, B, e4, hAB, hS', p1, p2, _, _⟩ := insert_sorted hS s m h1 h2 hs
    refine ⟨⟨Dict.assign hash d m s, s'⟩, _, ?_, hS', ?_, g2, by simp [a2]⟩
    · unfold add
      rw [e1, hsome]
      simp [hne, e3, e4]
    · rw [p2]
      exact List.perm_middle.trans (List.Perm.cons _ (p1 ▸ hL))

end Metis.Zset
