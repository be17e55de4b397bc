import Verif.Spec.Picture
import Verif.Proofs.Rewrite
import Verif.Proofs.ExactSys
/-!
The rewrite that nothing interrupts, against `Spec/Picture.lean`.
-/
set_option linter.unusedSectionVars false
set_option linter.unusedSimpArgs false
set_option linter.unusedVariables false
namespace Metis.PictureSim
open Metis Metis.Spec
open _root_.Metis.ExactSim (ShowsSys Shows)
variable {hash : Bytes → Nat} {e : Env} {s : AS} {S : Exact.Store}

theorem chunks_full {n : Nat} (hn : 1 ≤ n) : ∀ (f : Nat) (l : List Bytes), l.length ≤ f →
    (∀ c ∈ Aof.chunks n f l, c ≠ [] ∧ c.length ≤ n) ∧ ∀ c ∈ (Aof.chunks n f l).dropLast, c.length = n
  | 0, l, h => by simp [Aof.chunks]
  | f + 1, l, h => by
    unfold Aof.chunks
    split
    · simp
    · next hne =>
      have hpos := List.length_pos_iff.mpr hne
      obtain ⟨h1, h2⟩ := chunks_full hn f (l.drop n) (by rw [List.length_drop]; omega)
      refine ⟨fun c hc => ?_, fun c hc => ?_⟩
      · rcases List.mem_cons.1 hc with rfl | hc
        · refine ⟨fun h0 => ?_, List.length_take_le _ _⟩
          have := congrArg List.length h0
          rw [List.length_take] at this; simp only [List.length_nil] at this; omega
        · exact h1 c hc
      · cases hr : Aof.chunks n f (l.drop n) with
        | nil => rw [hr] at hc; simp at hc
        | cons a t =>
          rw [hr, List.dropLast_cons_cons] at hc
          rcases List.mem_cons.1 hc with rfl | hc
          · have : l.drop n ≠ [] := by
              intro h0
              rw [h0] at hr
              cases f <;> simp [Aof.chunks] at hr
            have := List.length_pos_iff.mpr this
            rw [List.length_drop] at this
            rw [List.length_take]; omega
          · exact h2 c (by rw [hr]; exact hc)

theorem pieces_portions (name k : Bytes) {n : Nat} (hn : 1 ≤ n) (items : List Bytes) : Exact.Portions name k n items (Aof.pieces name k n items) :=
  ⟨Aof.chunks n items.length items, chunks_flatten hn _ _ (Nat.le_refl _), (chunks_full hn _ _ (Nat.le_refl _)).1, (chunks_full hn _ _ (Nat.le_refl _)).2, rfl⟩

theorem zsetItems_told (e : Env) : ∀ ps : List Pair, Aof.zsetItems e (Zset.elems ps) = some (ps.flatMap (fun p => [p.2, e.fmtFloat p.1]))
  | [] => rfl
  | p :: ps => by
    have := zsetItems_told e ps
    simp only [Zset.elems, List.map_cons] at this ⊢
    simp only [Aof.zsetItems, this, Option.bind_eq_bind, Option.bind_some, List.flatMap_cons, List.cons_append, List.nil_append]

theorem zsetItems_none (e : Env) : ∀ l : List (Option Elem), none ∈ l → Aof.zsetItems e l = none
  | none :: _, _ => rfl
  | some x :: l, h => by
    simp only [Aof.zsetItems, zsetItems_none e l (by simpa using h), Option.bind_eq_bind, Option.bind_none]

theorem ranks_all {α : Type} (l : List α) : ranks l 0 ((l.length : Int) - 1) = if 2 ^ 45 < l.length then none else some l := by
  unfold ranks
  have hj : (if (l.length : Int) - 1 = 2 ^ 63 - 1 then (l.length : Int) - 1 else (l.length : Int) - 1) = (l.length : Int) - 1 := by split <;> rfl
  simp only [hj]
  by_cases h0 : l.length = 0
  · rw [if_pos (by omega), if_neg (by omega), List.eq_nil_of_length_eq_zero h0]
  · rw [if_neg (by omega)]
    by_cases hb : 2 ^ 45 < l.length
    · rw [if_pos (by omega), if_pos hb]
    · rw [if_neg (by omega), if_neg hb]
      simp only [Int.toNat_zero, List.drop_zero, Option.some.injEq]
      exact List.take_of_length_le (by omega)

/-- One value. -/
theorem dumpObj_shot (he : e.hash = hash) (h : Shows s S) {k : Bytes} {o : Obj} (g : o.Good hash) (hv : s.v k = some o.view) :
    (∀ R, Aof.dumpObj e k o = some R → Exact.Shot e S k (RefSim.val o.view) R) ∧ (Aof.dumpObj e k o = none ↔ Exact.Spoiled S k) := by
  have hval : S.base.val k = some (RefSim.val o.view) := by rw [h.base, RefSim.store_val, hv]; rfl
  have fine : ∀ R0, Aof.dumpObj e k o = some R0 → Exact.Shot e S k (RefSim.val o.view) R0 → (∀ f, RefSim.val o.view ≠ .zset f) →
      (∀ R, Aof.dumpObj e k o = some R → Exact.Shot e S k (RefSim.val o.view) R) ∧ (Aof.dumpObj e k o = none ↔ Exact.Spoiled S k) := by
    intro R0 h1 h2 h3
    refine ⟨fun R hR => (by rw [h1] at hR; cases hR; exact h2), ⟨fun hn => (by rw [h1] at hn; cases hn), ?_⟩⟩
    rintro ⟨f, hf, _⟩
    rw [hval] at hf
    exact absurd (Option.some.inj hf) (h3 f)
  cases o with
  | str b => exact fine _ rfl rfl (fun f hf => by cases hf)
  | list q =>
    have w := (h.list k q hv).1
    exact fine _ (by simp only [Aof.dumpObj, listItems_spec w, Option.bind_eq_bind, Option.bind_some]; rfl) (pieces_portions _ _ (by decide) _) (fun f hf => by cases hf)
  | hash d =>
    have gd : Dict.Good hash d := g
    have hc := Dict.collect_spec d gd.inv (by rw [gd.idle]) (fun _ => gd.idle)
    exact fine _ (by simp only [Aof.dumpObj, size_ref gd, hc, Option.bind_eq_bind, Option.bind_some]; rfl)
      ⟨d.toList, ⟨gd.inv.nodup, fun x v => (Dict.abs_eq_some gd.inv x v).symm⟩, pieces_portions _ _ (by decide) _⟩ (fun f hf => by cases hf)
  | set d =>
    have gd : Dict.Good hash d := g
    have hc := MSet.range_spec d gd.inv (by rw [gd.idle]) (fun _ => gd.idle)
    refine fine _ (by simp only [Aof.dumpObj, hc, Option.bind_eq_bind, Option.bind_some]; rfl)
      ⟨d.toList.map Prod.fst, gd.inv.nodup, fun x => ?_, pieces_portions _ _ (by decide) _⟩ (fun f hf => by cases hf)
    show x ∈ _ ↔ (Dict.abs d x).isSome = true
    cases ha : Dict.abs d x with
    | none => simp only [Option.isSome_none, Bool.false_eq_true, iff_false]; exact (Dict.abs_eq_none x).1 ha
    | some u => simp only [Option.isSome_some, iff_true]; exact List.mem_map_of_mem (f := Prod.fst) ((Dict.abs_eq_some gd.inv x u).1 ha)
  | zset z =>
    have hz := h.zset k _ hv
    obtain ⟨l, hl⟩ := hz.ordered
    have hlen : Zset.size z = l.length := by
      have := hz.length
      rw [hl.1.length_eq]
      exact_mod_cast this
    have hr := zbyRank_one (hash := hash) (z := z) (a := ⟨z.dict.abs, z.skiplist⟩) ⟨g, rfl, rfl⟩ 0 (Zset.size z - 1) false
    rw [hz.byRank hl, hlen, ranks_all] at hr
    have hsp : Exact.Spoiled S k ↔ (2 ^ 45 < l.length ∨ Tally.told ⟨z.dict.abs, S.entries k⟩ l = none) := by
      constructor
      · rintro ⟨f, hf, q⟩
        rw [hval] at hf
        cases hf
        exact q l hl
      · intro q
        refine ⟨_, hval, fun l' hl' => ?_⟩
        rw [inOrder_unique hl' hl]
        exact q
    rw [hsp]
    simp only [Aof.dumpObj, he, hlen]
    by_cases hb : 2 ^ 45 < l.length
    · rw [if_pos hb] at hr
      cases hx : Zset.rangeByRank hash z 0 (l.length - 1) false with
      | none => simp [hb]
      | some p => rw [hx] at hr; exact hr.elim
    · rw [if_neg hb] at hr
      cases hx : Zset.rangeByRank hash z 0 (l.length - 1) false with
      | none => rw [hx] at hr; exact hr.elim
      | some p =>
        rw [hx] at hr
        obtain ⟨els, z'⟩ := p
        obtain ⟨rfl, _⟩ := hr
        simp only [Option.bind_eq_bind, Option.bind_some]
        cases ht : Tally.told ⟨z.dict.abs, S.entries k⟩ l with
        | none =>
          have := zsetItems_none e _ (elems_untold ht)
          simp [this]
        | some ps =>
          rw [elems_told ht, zsetItems_told]
          refine ⟨fun R hR => ?_, by simp [hb]⟩
          simp only [Option.bind_some, Option.some.injEq] at hR
          subst hR
          exact ⟨l, ps, hl, by omega, ht, pieces_portions _ _ (by decide) _⟩

theorem dumpChore_key (e : Env) (it : Aof.Item) : Aof.dumpChore e (.key it) = (Aof.dumpObj e it.key it.obj).map (fun cs => cs ++ Aof.dumpDeadline it.key it.deadline) := by
  simp only [Aof.dumpChore]
  cases h : Aof.dumpObj e it.key it.obj <;> rfl

/-- The keys of a database. -/
theorem keys_shots (he : e.hash = hash) (h : Shows s S) {i : Nat} : ∀ (l : List (Bytes × Obj)), (∀ p ∈ l, p.2.Good hash ∧ s.v p.1 = some p.2.view) →
    (∀ R, Aof.dumpChores e (keyChores i s.t l) = some R → Exact.Shots e S (l.map Prod.fst) R) ∧
    (Aof.dumpChores e (keyChores i s.t l) = none ↔ ∃ k ∈ l.map Prod.fst, Exact.Spoiled S k)
  | [], _ => ⟨fun R hR => (by simp only [keyChores, List.map_nil, Aof.dumpChores, Option.some.injEq] at hR; subst hR; exact .nil), by simp [keyChores, Aof.dumpChores]⟩
  | (k, o) :: l, hg => by
    obtain ⟨q1, q2⟩ := keys_shots he h (i := i) l (fun p hp => hg p (by simp [hp]))
    obtain ⟨g, hv⟩ := hg (k, o) (by simp)
    obtain ⟨d1, d2⟩ := dumpObj_shot he h g hv
    have hval : S.base.val k = some (RefSim.val o.view) := by rw [h.base, RefSim.store_val, hv]; rfl
    have hterm : Aof.dumpDeadline k (s.t k) = Exact.term S k := by
      unfold Exact.term Aof.dumpDeadline
      rw [h.base]
      show _ = match s.t k with | none => [] | some d => _
      cases s.t k <;> rfl
    have hstep : Aof.dumpChores e (keyChores i s.t ((k, o) :: l)) =
        (Aof.dumpObj e k o).bind (fun a => (Aof.dumpChores e (keyChores i s.t l)).map (fun b => a ++ Exact.term S k ++ b)) := by
      simp only [keyChores, List.map_cons, Aof.dumpChores, dumpChore_key, hterm]
      cases Aof.dumpObj e k o with
      | none => rfl
      | some a =>
        simp only [Option.map_some, Option.bind_eq_bind, Option.bind_some]
        cases Aof.dumpChores e (l.map (fun p => Aof.Chore.key ⟨i, p.1, p.2, s.t p.1⟩)) <;> rfl
    rw [hstep]
    cases ho : Aof.dumpObj e k o with
    | none => exact ⟨fun R hR => (by cases hR), ⟨fun _ => ⟨k, by simp, d2.1 ho⟩, fun _ => rfl⟩⟩
    | some a =>
      have hns : ¬ Exact.Spoiled S k := fun hs => by rw [d2.2 hs] at ho; cases ho
      simp only [Option.bind_some]
      constructor
      · intro R hR
        obtain ⟨b, hb, rfl⟩ := Option.map_eq_some_iff.1 hR
        exact .cons hval (d1 a ho) (q1 b hb)
      · rw [Option.map_eq_none_iff, q2]
        constructor
        · rintro ⟨x, hx, hs⟩; exact ⟨x, by simp only [List.map_cons, List.mem_cons]; exact Or.inr hx, hs⟩
        · rintro ⟨x, hx, hs⟩
          simp only [List.map_cons, List.mem_cons] at hx
          rcases hx with rfl | hx
          · exact absurd hs hns
          · exact ⟨x, hx, hs⟩

/-- All databases. -/
theorem chores_album (he : e.hash = hash) {D : Nat → Exact.Store} : ∀ (cs : List Db) (i : Nat), (∀ j c, cs[j]? = some c → c.Good hash ∧ Shows c.view (D (i + j))) →
    ∃ ch, Aof.chores e i cs = some ch ∧ (∀ R, Aof.dumpChores e ch = some R → Exact.Album e D cs.length i R) ∧
      (Aof.dumpChores e ch = none ↔ ∃ j k, j < cs.length ∧ Exact.Spoiled (D (i + j)) k)
  | [], i, _ => ⟨[], rfl, fun R hR => (by simp only [Aof.dumpChores, Option.some.injEq] at hR; exact hR.symm), by simp [Aof.dumpChores]⟩
  | c :: cs, i, hg => by
    obtain ⟨ch, h1, h2, h3⟩ := chores_album he (D := D) cs (i + 1) (fun j d hd => by
      have := hg (j + 1) d (by simpa using hd)
      rw [show i + 1 + j = i + (j + 1) by omega]; exact this)
    obtain ⟨hc, hS⟩ := hg 0 c rfl
    rw [Nat.add_zero] at hS
    have gd := hc.dict
    have hsz := size_ref gd
    have hkeys : ∀ k, (D i).base.val k ≠ none ↔ k ∈ c.dict.toList.map Prod.fst := by
      intro k
      rw [hS.base, RefSim.store_val]
      show ((Dict.abs c.dict k).map Obj.view).map RefSim.val ≠ none ↔ _
      have hn := Dict.abs_eq_none (d := c.dict) k
      cases ha : Dict.abs c.dict k with
      | none => simp only [Option.map_none, ne_eq, not_true_eq_false, false_iff]; exact hn.1 ha
      | some o =>
        simp only [Option.map_some, ne_eq, reduceCtorEq, not_false_eq_true, true_iff]
        by_contra hx
        rw [hn.2 hx] at ha; cases ha
    have hbad : (∃ j k, j < (c :: cs).length ∧ Exact.Spoiled (D (i + j)) k) ↔
        (∃ k, Exact.Spoiled (D i) k) ∨ ∃ j k, j < cs.length ∧ Exact.Spoiled (D (i + 1 + j)) k := by
      constructor
      · rintro ⟨j, k, hj, hk⟩
        cases j with
        | zero => exact Or.inl ⟨k, hk⟩
        | succ j => exact Or.inr ⟨j, k, by simpa using hj, by rw [show i + 1 + j = i + (j + 1) by omega]; exact hk⟩
      · rintro (⟨k, hk⟩ | ⟨j, k, hj, hk⟩)
        · exact ⟨0, k, by simp, hk⟩
        · exact ⟨j + 1, k, by simpa using hj, by rw [show i + (j + 1) = i + 1 + j by omega]; exact hk⟩
    rw [hbad]
    by_cases hne : c.dict.toList = []
    · have hnone : ∀ k, ¬ Exact.Spoiled (D i) k := by
        rintro k ⟨f, hf, _⟩
        have := (hkeys k).1 (by rw [hf]; simp)
        rw [hne] at this; cases this
      refine ⟨ch, by simp [Aof.chores, hsz, h1, hne], fun R hR => ?_, ?_⟩
      · refine ⟨[], R, ⟨[], [], List.nodup_nil, fun k => ?_, .nil, rfl⟩, h2 R hR, rfl⟩
        rw [hkeys k, hne]; simp
      · rw [h3]
        exact ⟨Or.inr, fun h => h.elim (fun ⟨k, hk⟩ => absurd hk (hnone k)) id⟩
    · have hcol := Dict.collect_spec c.dict gd.inv (by rw [gd.idle]) (fun _ => gd.idle)
      obtain ⟨its, i1, i2⟩ := items_spec e he i c.dict.toList c.expire hc.expire
      obtain ⟨k1, k2⟩ := keys_shots he hS (i := i) c.dict.toList (fun p hp => by
        have ha := (Dict.abs_eq_some gd.inv p.1 p.2).2 hp
        exact ⟨hc.objs _ _ ha, by show (Dict.abs c.dict p.1).map Obj.view = _; rw [ha]; rfl⟩)
      have ht : c.view.t = c.expire.abs := rfl
      rw [ht] at k1 k2
      refine ⟨.select i :: (keyChores i c.expire.abs c.dict.toList ++ ch), ?_, ?_⟩
      · simp only [Aof.chores, hsz, h1, hcol, i1, Option.bind_eq_bind, Option.bind_some, i2]
        rw [if_neg (by simp [hne])]; rfl
      · have hd : Aof.dumpChores e (.select i :: (keyChores i c.expire.abs c.dict.toList ++ ch)) =
            (Aof.dumpChores e (keyChores i c.expire.abs c.dict.toList)).bind (fun a => (Aof.dumpChores e ch).map (fun b => (selectRec i :: a) ++ b)) := by
          simp only [Aof.dumpChores, Aof.dumpChore, dumpChores_append, Option.bind_eq_bind, Option.bind_some]
          cases Aof.dumpChores e (keyChores i c.expire.abs c.dict.toList) with
          | none => rfl
          | some a =>
            cases Aof.dumpChores e ch <;> rfl
        rw [hd]
        have hk : (∃ k ∈ c.dict.toList.map Prod.fst, Exact.Spoiled (D i) k) ↔ ∃ k, Exact.Spoiled (D i) k := by
          refine ⟨fun ⟨k, _, h⟩ => ⟨k, h⟩, fun ⟨k, h⟩ => ⟨k, (hkeys k).1 ?_, h⟩⟩
          obtain ⟨f, hf, _⟩ := h
          rw [hf]; simp
        rw [hk] at k2
        cases ha : Aof.dumpChores e (keyChores i c.expire.abs c.dict.toList) with
        | none => exact ⟨fun R hR => (by cases hR), ⟨fun _ => Or.inl (k2.1 ha), fun _ => rfl⟩⟩
        | some a =>
          have hno : ¬ ∃ k, Exact.Spoiled (D i) k := fun h => by rw [k2.2 h] at ha; cases ha
          simp only [Option.bind_some]
          constructor
          · intro R hR
            obtain ⟨b, hb, rfl⟩ := Option.map_eq_some_iff.1 hR
            refine ⟨selectRec i :: a, b, ⟨c.dict.toList.map Prod.fst, a, gd.inv.nodup, fun k => (hkeys k).symm, k1 a ha, ?_⟩, h2 b hb, rfl⟩
            rw [if_neg (by simpa using hne)]
          · rw [Option.map_eq_none_iff, h3]
            exact ⟨Or.inr, fun h => h.elim (fun h => absurd h hno) id⟩

end Metis.PictureSim
