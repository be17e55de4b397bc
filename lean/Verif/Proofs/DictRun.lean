import Verif.Model.DictRun
import Verif.Proofs.DictIter
/-! Refinement of dict histories to the map specification, and shape of the tables over time. -/
set_option linter.unusedSectionVars false
set_option linter.unusedSimpArgs false
set_option linter.unusedVariables false
namespace Metis.Dict
open Spec
variable {K V : Type} [DecidableEq K] {hash : K → Nat}

/-- Invariant of a dict between calls that leave no iterator behind. -/
structure Good (hash : K → Nat) (d : Dict K V) : Prop where
  inv  : Inv hash d
  idle : d.iterators = 0

/-- Same content and iterator count, possibly a different rehash state. -/
structure Eqv (hash : K → Nat) (d d' : Dict K V) : Prop where
  inv   : Inv hash d'
  perm  : d'.toList.Perm d.toList
  init  : d'.ht0.isSome = d.ht0.isSome
  iters : d'.iterators = d.iterators

theorem Same.eqv {d d' : Dict K V} (s : Same hash d d') : Eqv hash d d' := ⟨s.inv, s.perm, s.init, s.iters⟩
theorem Eqv.refl {d : Dict K V} (h : Inv hash d) : Eqv hash d d := ⟨h, .refl _, rfl, rfl⟩
theorem Eqv.trans {d d' d'' : Dict K V} (a : Eqv hash d d') (b : Eqv hash d' d'') : Eqv hash d d'' :=
  ⟨b.inv, b.perm.trans a.perm, b.init.trans a.init, b.iters.trans a.iters⟩
theorem Eqv.good {d d' : Dict K V} (a : Eqv hash d d') (g : Good hash d) : Good hash d' := ⟨a.inv, by rw [a.iters, g.idle]⟩
theorem Eqv.abs {d d' : Dict K V} (s : Eqv hash d d') (h : Inv hash d) : d'.abs = d.abs := abs_perm h s.perm

/-- The abstract state of a dict. -/
def spec (d : Dict K V) : Map K V := ⟨d.abs, d.ht0.isSome⟩

theorem lists_toList {d : Dict K V} (h : Inv hash d) : Map.Lists (spec d) d.toList :=
  ⟨h.nodup, fun k v => (abs_eq_some h k v).symm⟩

theorem find?_eq_abs {d : Dict K V} (h : Inv hash d) (k : K) :
    d.toList.find? (fun e => k == e.1) = (d.abs k).map (fun v => (k, v)) := by
  unfold abs
  cases hc : d.toList.find? (fun e => k == e.1) with
  | none => rfl
  | some e =>
    have := ((find?_key_iff h.nodup k e).mp hc).2
    cases e; simp at this; simp [this]

theorem call_spec (d : Dict K V) (h : Good hash d) (op : MapOp K V) :
    ∃ r d', call hash d op = some (r, d') ∧ Good hash d' ∧ Map.Step (spec d) op r (spec d') := by
  have same : ∀ d', Same hash d d' → spec d' = spec d := by
    intro d' s
    unfold spec; rw [s.abs h.inv, s.init]
  cases op with
  | set k v =>
    obtain ⟨d', h1, h2, h3, h4, h5, h6⟩ := set_spec d h.inv k v
    have ha : spec d' = ⟨fun x => if k = x then some v else (spec d).at? x, true⟩ := by
      unfold spec; rw [set_abs h.inv h2 h5 h6, h4]
    refine ⟨.isNew (decide (k ∉ d.toList.map Prod.fst)), d', by simp [call, h1], ⟨h2, by rw [h3, h.idle]⟩, ?_⟩
    rw [ha]
    cases hk : d.abs k with
    | none =>
      have : k ∉ d.toList.map Prod.fst := (abs_eq_none k).mp hk
      rw [decide_eq_true this]
      exact .set_new _ k v hk
    | some w =>
      have : ¬ (k ∉ d.toList.map Prod.fst) := by rw [← abs_eq_none, hk]; simp
      rw [decide_eq_false this]
      exact .set_old _ k v w hk
  | get k =>
    obtain ⟨d', h1, s⟩ := get_spec d h.inv k
    refine ⟨_, d', by simp [call, h1]; rfl, ⟨s.inv, by rw [s.iters, h.idle]⟩, ?_⟩
    rw [same d' s]; exact .get _ k
  | find k =>
    obtain ⟨d', h1, s⟩ := find_spec d h.inv k
    refine ⟨_, d', by simp [call, h1]; rfl, ⟨s.inv, by rw [s.iters, h.idle]⟩, ?_⟩
    rw [same d' s, find?_eq_abs h.inv]; exact .find _ k
  | delete k =>
    obtain ⟨r, d', h1, h2, h3, h4, h5, h6, h7⟩ := delete_spec d h.inv k
    refine ⟨_, d', by simp [call, h1]; rfl, ⟨h2, by rw [h3, h.idle]⟩, ?_⟩
    cases hk : d.abs k with
    | some v =>
      obtain ⟨rfl, hp⟩ := h7 v hk
      have : spec d' = ⟨fun x => if k = x then none else (spec d).at? x, (spec d).init⟩ := by
        unfold spec; rw [abs_of_perm_uncons h.inv h2 hp, h4]
      rw [this]; exact .delete_present _ k v hk
    | none =>
      cases hi : d.ht0.isSome with
      | false =>
        obtain ⟨rfl, rfl⟩ := h5 hi
        exact .delete_uninit _ k hi
      | true =>
        obtain ⟨rfl, hp⟩ := h6 hi ((abs_eq_none k).mp hk)
        have : spec d' = spec d := by unfold spec; rw [abs_perm h.inv hp, h4]
        rw [this]; exact .delete_absent _ k hi hk
  | size =>
    refine ⟨_, d, by simp [call, size_spec d h.inv]; rfl, h, ?_⟩
    exact .size _ d.toList (lists_toList h.inv)
  | random draws =>
    obtain ⟨out, d', rest, h1, h2, h3, h4, h5, h6, h7, _⟩ := getRandomKey_spec d h.inv draws
    have hs : spec d' = spec d := by unfold spec; rw [abs_perm h.inv h3, h5]
    cases out with
    | nil =>
      refine ⟨_, d', by simp [call, h1]; rfl, ⟨h2, by rw [h4, h.idle]⟩, ?_⟩
      rw [hs]
      have := h6.mp rfl
      exact .random_nil _ draws (by intro k; simp [spec, abs, this])
    | entry e =>
      refine ⟨_, d', by simp [call, h1]; rfl, ⟨h2, by rw [h4, h.idle]⟩, ?_⟩
      rw [hs]
      obtain ⟨k, v⟩ := e
      exact .random_entry _ draws k v ((abs_eq_some h.inv k v).mpr (h7 _ rfl))
    | spin =>
      refine ⟨_, d', by simp [call, h1]; rfl, ⟨h2, by rw [h4, h.idle]⟩, ?_⟩
      rw [hs]
      have hne : d.toList ≠ [] := fun hc => by have := h6.mpr hc; simp at this
      obtain ⟨⟨k, v⟩, he⟩ := List.exists_mem_of_ne_nil _ hne
      exact .random_spin _ draws k v ((abs_eq_some h.inv k v).mpr he)
  | iterate =>
    have := collect_spec (hash := hash) d h.inv (by rw [h.idle]; omega) (fun _ => h.idle)
    refine ⟨_, d, by simp [call, this]; rfl, h, ?_⟩
    exact .iterate _ d.toList (lists_toList h.inv)

theorem runCalls_spec (ops : List (MapOp K V)) (d : Dict K V) (h : Good hash d) :
    ∃ rs d', runCalls hash d ops = some (rs, d') ∧ Good hash d' ∧ Map.Run (spec d) ops rs (spec d') := by
  induction ops generalizing d with
  | nil => exact ⟨[], d, rfl, h, .nil _⟩
  | cons op ops ih =>
    obtain ⟨r, d1, h1, g1, s1⟩ := call_spec d h op
    obtain ⟨rs, d2, h2, g2, s2⟩ := ih d1 g1
    exact ⟨r :: rs, d2, by simp [runCalls, h1, h2], g2, .cons s1 s2⟩

theorem new_good : Good hash (new : Dict K V) := ⟨new_inv, rfl⟩

theorem spec_new : spec (new : Dict K V) = Map.empty := by
  unfold spec Map.empty; congr 1

/-! ### shape over time -/

/-- Size of the main table (0 before initialisation). -/
def size0 (d : Dict K V) : Nat := (d.ht0.map (·.size)).getD 0

theorem rehash_shape (d d' : Dict K V) (h : stepIfRehashing hash d = some d') :
    d' = d ∨ (d.isRehashing = true ∧ d'.isRehashing = true ∧ size0 d' = size0 d) ∨
    (d.isRehashing = true ∧ d'.isRehashing = false ∧ d'.ht0 = d.ht1 ∧ d'.ht1 = none) := by
  unfold stepIfRehashing at h
  by_cases hr : d.isRehashing = true
  · simp only [hr, if_true, rehashStep] at h
    by_cases hi : d.iterators = 0
    · simp only [hi, if_true, rehashStepCount, rehash] at h
      cases h0 : d.ht0 with
      | none => simp [h0] at h
      | some t0 =>
        simp only [h0, Option.bind_eq_bind, Option.bind_some] at h
        by_cases hu : t0.used = 0
        · simp only [hu, if_true, Option.some.injEq] at h
          subst h
          right; right; exact ⟨hr, by simp [isRehashing], rfl, rfl⟩
        · simp only [hu, if_false] at h
          by_cases hn : d.rehashIndex < 0
          · simp [hn] at h
          · simp only [hn, if_false] at h
            cases hs : skipEmpty t0.tables d.rehashIndex.toNat with
            | none => simp [hs] at h
            | some i =>
              simp only [hs, Option.bind_some] at h
              cases hg : t0.tables[i]? with
              | none => simp [hg] at h
              | some chain =>
                simp only [hg, Option.bind_some] at h
                cases h1 : d.ht1 with
                | none => simp [h1] at h
                | some t1 =>
                  simp only [h1, Option.bind_some] at h
                  have hmv : ∀ (c : List (K × V)) (a b a' b' : HashTable K V), moveEntries hash c a b = some (a', b') → a'.size = a.size := by
                    intro c
                    induction c with
                    | nil => intro a b a' b' h; simp only [moveEntries, Option.some.injEq, Prod.mk.injEq] at h; rw [h.1]
                    | cons e c ih =>
                      intro a b a' b' h
                      simp only [moveEntries, Option.bind_eq_bind] at h
                      cases hb : b.tables[hash e.1 &&& b.sizeMask]? with
                      | none => simp [hb] at h
                      | some bb =>
                        simp only [hb, Option.bind_some] at h
                        have := ih _ _ _ _ h
                        exact this
                  cases hm : moveEntries hash chain t0 t1 with
                  | none => simp [hm] at h
                  | some p =>
                    obtain ⟨a', b'⟩ := p
                    simp only [hm, Option.bind_some, Option.some.injEq] at h
                    subst h
                    right; left
                    refine ⟨hr, ?_, ?_⟩
                    · simp [isRehashing]; omega
                    · simp [size0, h0, hmv _ _ _ _ _ hm]
    · simp only [hi, if_false, Option.some.injEq] at h
      exact Or.inl h.symm
  · simp only [hr, if_false, Option.some.injEq, Bool.false_eq_true] at h
    exact Or.inl h.symm

theorem assign_shape (d : Dict K V) (k : K) (v : V) :
    size0 (assign hash d k v) = size0 d ∧ (assign hash d k v).rehashIndex = d.rehashIndex := by
  unfold assign
  cases h0 : d.ht0 with
  | none => simp
  | some t0 =>
    simp only
    split <;> simp [size0, h0, assignTable]

theorem insertAt_size {t t' : HashTable K V} {i : Nat} {k : K} {v : V} (h : insertAt t i k v = some t') : t'.size = t.size := by
  unfold insertAt at h
  cases hb : t.tables[i]? with
  | none => simp [hb] at h
  | some b => simp [hb] at h; rw [← h]

/-- Table sizes and rehash position around a `Set`. -/
theorem set_shape (d : Dict K V) (h : Inv hash d) (k : K) (v : V) (b : Bool) (d' : Dict K V) (hs : set hash d k v = some (b, d')) :
    ∃ d1 d2, stepIfRehashing hash d = some d1 ∧ expandIfNeeded d1 = (true, d2) ∧ Inv hash d1 ∧ Inv hash d2 ∧
      ∃ d3, (d3 = d2 ∨ stepIfRehashing hash d2 = some d3) ∧ Inv hash d3 ∧ size0 d' = size0 d3 ∧ d'.rehashIndex = d3.rehashIndex ∧
        d3.ht0.isSome := by
  obtain ⟨d1, hs1, same⟩ := step_same d h
  obtain ⟨d2, he2, inv2, _, hsome, _⟩ := expandIfNeeded_spec d1 same.inv
  refine ⟨d1, d2, hs1, he2, same.inv, inv2, ?_⟩
  unfold set at hs
  simp only [hs1, Option.bind_eq_bind, Option.bind_some] at hs
  cases hk : keyIndex hash d1 k with
  | none => simp [hk] at hs
  | some p =>
    obtain ⟨idx, d2'⟩ := p
    have hd2 : d2' = d2 := by
      unfold keyIndex at hk
      rw [he2] at hk
      simp only [Option.bind_eq_bind] at hk
      simp only [Option.bind_eq_some_iff] at hk
      obtain ⟨t0, _, b0, _, hk⟩ := hk
      split at hk
      · simp only [Option.some.injEq, Prod.mk.injEq] at hk; exact hk.2.symm
      · split at hk
        · simp only [Option.some.injEq, Prod.mk.injEq] at hk; exact hk.2.symm
        · simp only [Option.bind_eq_some_iff] at hk
          obtain ⟨t1, _, b1, _, hk⟩ := hk
          split at hk
          · simp only [Option.some.injEq, Prod.mk.injEq] at hk; exact hk.2.symm
          · simp only [Option.some.injEq, Prod.mk.injEq] at hk; exact hk.2.symm
    subst hd2
    simp only [hk, Option.bind_some] at hs
    cases idx with
    | none =>
      simp only at hs
      obtain ⟨d3, hf, same3⟩ := find_spec d2' inv2 k
      simp only [hf, Option.bind_some] at hs
      have h3 : d3 = d2' ∨ stepIfRehashing hash d2' = some d3 := by
        right
        unfold find at hf
        have : d2'.ht0.isNone = false := by cases hq : d2'.ht0 <;> simp_all
        simp only [this, Bool.false_eq_true, if_false, Option.bind_eq_bind] at hf
        cases hst : stepIfRehashing hash d2' with
        | none => simp [hst] at hf
        | some dd =>
          simp only [hst, Option.bind_some] at hf
          simp only [Option.bind_eq_some_iff] at hf
          obtain ⟨t0, _, b0, _, hf⟩ := hf
          split at hf
          · simp only [Option.some.injEq, Prod.mk.injEq] at hf; rw [hf.2]
          · split at hf
            · simp only [Option.some.injEq, Prod.mk.injEq] at hf; rw [hf.2]
            · simp only [Option.bind_eq_some_iff, Option.some.injEq, Prod.mk.injEq] at hf
              obtain ⟨_, _, _, _, _, hf⟩ := hf; rw [hf]
      refine ⟨d3, h3, same3.inv, ?_⟩
      split at hs
      · simp at hs
      · simp only [Option.some.injEq, Prod.mk.injEq] at hs
        rw [← hs.2]
        have := assign_shape (hash := hash) d3 k v
        exact ⟨this.1, this.2, by rw [same3.init]; exact hsome⟩
    | some i =>
      refine ⟨d2', Or.inl rfl, inv2, ?_⟩
      simp only at hs
      split at hs
      · simp only [Option.bind_eq_some_iff, Option.some.injEq, Prod.mk.injEq] at hs
        obtain ⟨t1, _, t1', _, _, rfl⟩ := hs
        exact ⟨rfl, rfl, hsome⟩
      · simp only [Option.bind_eq_some_iff, Option.some.injEq, Prod.mk.injEq] at hs
        obtain ⟨t0, ht0, t0', hins, _, rfl⟩ := hs
        refine ⟨?_, rfl, hsome⟩
        simp [size0, ht0, insertAt_size hins]

/-! ### progress of a rehash -/

/-- `m` more steps at most until a table of `n` buckets is replaced by a larger one. -/
def Ph (n m : Nat) (d : Dict K V) : Prop :=
  2 * n ≤ size0 d ∨ (size0 d = n ∧ d.isRehashing = true ∧ remaining d ≤ m)

theorem Ph.mono {n m m' : Nat} {d : Dict K V} (h : Ph n m d) (hm : m ≤ m') : Ph n m' d := by
  rcases h with h | ⟨h1, h2, h3⟩
  · exact Or.inl h
  · exact Or.inr ⟨h1, h2, by omega⟩

theorem Ph.zero {n : Nat} {d : Dict K V} (hi : Inv hash d) (h : Ph n 0 d) : 2 * n ≤ size0 d := by
  rcases h with h | ⟨h1, h2, h3⟩
  · exact h
  · cases hi with
    | empty h0 h1 hr => simp [isRehashing, hr] at h2
    | stable t0 h0 h1 hr => simp [isRehashing, hr] at h2
    | rehashing t0 t1 r h0 h1' hr hle w0 w1 hsz hemp nd =>
      simp [remaining, h0, h2, hr] at h3; omega

theorem size0_done {d d' : Dict K V} (hi : Inv hash d) (hr : d.isRehashing = true) (h0' : d'.ht0 = d.ht1) :
    size0 d' = 2 * size0 d := by
  cases hi with
  | empty h0 h1 hr' => simp [isRehashing, hr'] at hr
  | stable t0 h0 h1 hr' => simp [isRehashing, hr'] at hr
  | rehashing t0 t1 r h0 h1' hr hle w0 w1 hsz hemp nd => simp [size0, h0', h1', h0, hsz]

theorem Ph.step {n m : Nat} {d d' : Dict K V} (hi : Inv hash d) (h : Ph n m d) (hs : stepIfRehashing hash d = some d') :
    Ph n m d' ∧ (d.iterators = 0 → Ph n (m - 1) d') := by
  obtain ⟨d'', hs', same⟩ := step_same d hi
  rw [hs] at hs'; cases hs'
  have hsh := rehash_shape d d' hs
  have keep : 2 * n ≤ size0 d → 2 * n ≤ size0 d' := by
    intro hle
    rcases hsh with rfl | ⟨_, _, he⟩ | ⟨hr, _, he, _⟩
    · exact hle
    · rw [he]; exact hle
    · rw [size0_done hi hr he]; omega
  rcases h with h | ⟨h1, h2, h3⟩
  · exact ⟨Or.inl (keep h), fun _ => Or.inl (keep h)⟩
  · rcases hsh with rfl | ⟨_, hr', he⟩ | ⟨hr, _, he, _⟩
    · refine ⟨Or.inr ⟨h1, h2, h3⟩, fun hit => Or.inr ⟨h1, h2, ?_⟩⟩
      have := same.prog hit h2; omega
    · by_cases hit : d.iterators = 0
      · have := same.prog hit h2
        exact ⟨Or.inr ⟨by rw [he, h1], hr', by omega⟩, fun _ => Or.inr ⟨by rw [he, h1], hr', by omega⟩⟩
      · have := same.froz hit
        subst this
        exact ⟨Or.inr ⟨h1, h2, h3⟩, fun hit' => absurd hit' hit⟩
    · have := size0_done hi hr he
      exact ⟨Or.inl (by omega), fun _ => Or.inl (by omega)⟩

theorem Ph.expand {n m : Nat} {d d' : Dict K V} (hi : Inv hash d) (h : Ph n m d) (hpos : 0 < n)
    (he : expandIfNeeded d = (true, d')) : Ph n m d' := by
  obtain ⟨d'', he', _, _, _, _, hsame, hg, hng, _⟩ := expandIfNeeded_spec d hi
  rw [he] at he'; cases he'
  have hsome : d.ht0.isSome := by
    rcases h with h | ⟨h1, h2, h3⟩
    · unfold size0 at h; cases hq : d.ht0 <;> simp_all <;> omega
    · unfold size0 at h1; cases hq : d.ht0 <;> simp_all <;> omega
  rcases h with h | ⟨h1, h2, h3⟩
  · left; unfold size0; rw [hsame hsome]; exact h
  · have : d' = d := hng (by simp [growsNow, h2]) hsome
    rw [this]; exact Or.inr ⟨h1, h2, h3⟩

theorem Ph.congr {n m : Nat} {d d' : Dict K V} (h : Ph n m d) (h0 : size0 d' = size0 d) (hr : d'.rehashIndex = d.rehashIndex)
    (hsome : d.ht0.isSome) (hsome' : d'.ht0.isSome) : Ph n m d' := by
  rcases h with h | ⟨h1, h2, h3⟩
  · left; omega
  · right
    have hri : d'.isRehashing = true := by unfold isRehashing at *; rw [hr]; exact h2
    refine ⟨by omega, hri, ?_⟩
    obtain ⟨t, ht⟩ := Option.isSome_iff_exists.mp hsome
    obtain ⟨t', ht'⟩ := Option.isSome_iff_exists.mp hsome'
    simp only [size0, ht, ht', Option.map_some, Option.getD_some] at h0
    simp only [remaining, ht, h2, if_true] at h3
    simp only [remaining, ht', hri, if_true, h0, hr]
    exact h3

/-- Calls that advance a rehash. -/
def Advances : MapOp K V → Prop
  | .set _ _ | .get _ | .find _ | .delete _ => True
  | _ => False

theorem find_shape (d : Dict K V) (k : K) (r : Option (K × V)) (d' : Dict K V) (h0 : d.ht0.isSome)
    (hf : find hash d k = some (r, d')) : stepIfRehashing hash d = some d' := by
  unfold find at hf
  have : d.ht0.isNone = false := by cases hq : d.ht0 <;> simp_all
  simp only [this, Bool.false_eq_true, if_false, Option.bind_eq_bind] at hf
  cases hst : stepIfRehashing hash d with
  | none => simp [hst] at hf
  | some dd =>
    simp only [hst, Option.bind_some] at hf
    simp only [Option.bind_eq_some_iff] at hf
    obtain ⟨t0, _, b0, _, hf⟩ := hf
    split at hf
    · simp only [Option.some.injEq, Prod.mk.injEq] at hf; rw [hf.2]
    · split at hf
      · simp only [Option.some.injEq, Prod.mk.injEq] at hf; rw [hf.2]
      · simp only [Option.bind_eq_some_iff, Option.some.injEq, Prod.mk.injEq] at hf
        obtain ⟨_, _, _, _, _, hf⟩ := hf; rw [hf]

theorem delete_shape (d : Dict K V) (k : K) (r : Option DelErr) (d' : Dict K V) (h0 : d.ht0.isSome)
    (hf : delete hash d k = some (r, d')) :
    ∃ d1, stepIfRehashing hash d = some d1 ∧ size0 d' = size0 d1 ∧ d'.rehashIndex = d1.rehashIndex := by
  unfold delete at hf
  have : d.ht0.isNone = false := by cases hq : d.ht0 <;> simp_all
  simp only [this, Bool.false_eq_true, if_false, Option.bind_eq_bind] at hf
  cases hst : stepIfRehashing hash d with
  | none => simp [hst] at hf
  | some dd =>
    refine ⟨dd, rfl, ?_⟩
    have hdel : ∀ (t t' : HashTable K V), deleteIn hash t k = some (some t') → t'.size = t.size := by
      intro t t' h
      unfold deleteIn at h
      simp only [Option.bind_eq_bind, Option.bind_eq_some_iff] at h
      obtain ⟨b, _, h⟩ := h
      split at h
      · simp at h
      · simp only [Option.some.injEq] at h; rw [← h]
    simp only [hst, Option.bind_some] at hf
    simp only [Option.bind_eq_some_iff] at hf
    obtain ⟨t0, ht0, x, hx, hf⟩ := hf
    split at hf
    · simp only [Option.some.injEq, Prod.mk.injEq] at hf
      rw [← hf.2]
      exact ⟨by simp [size0, ht0, hdel _ _ hx], rfl⟩
    · split at hf
      · simp only [Option.some.injEq, Prod.mk.injEq] at hf; rw [← hf.2]; exact ⟨rfl, rfl⟩
      · simp only [Option.bind_eq_some_iff] at hf
        obtain ⟨t1, _, y, hy, hf⟩ := hf
        split at hf
        · simp only [Option.some.injEq, Prod.mk.injEq] at hf; rw [← hf.2]; exact ⟨rfl, rfl⟩
        · simp only [Option.some.injEq, Prod.mk.injEq] at hf; rw [← hf.2]; exact ⟨rfl, rfl⟩

theorem call_progress {n m : Nat} (hpos : 0 < n) (d : Dict K V) (h : Good hash d) (hp : Ph n m d) (op : MapOp K V)
    (ha : Advances op) (r : MapRes K V) (d' : Dict K V) (hc : call hash d op = some (r, d')) : Ph n (m - 1) d' := by
  have hsome : d.ht0.isSome := by
    rcases hp with h | ⟨h1, h2, h3⟩
    · unfold size0 at h; cases hq : d.ht0 <;> simp_all <;> omega
    · unfold size0 at h1; cases hq : d.ht0 <;> simp_all <;> omega
  cases op with
  | set k v =>
    obtain ⟨d', h1, h2, h3, h4, h5, h6⟩ := set_spec d h.inv k v
    simp [call, h1] at hc
    obtain ⟨_, rfl⟩ := hc
    obtain ⟨d1, d2, hs1, he2, i1, i2, d3, hd3, i3, hsz, hri, hs3⟩ := set_shape d h.inv k v _ _ h1
    have p1 := (hp.step h.inv hs1).2 h.idle
    have p2 := p1.expand i1 hpos he2
    have p3 : Ph n (m - 1) d3 := by
      rcases hd3 with rfl | hd3
      · exact p2
      · exact (p2.step i2 hd3).1
    exact p3.congr hsz hri hs3 h4
  | get k =>
    obtain ⟨d1, hf, s⟩ := find_spec d h.inv k
    simp [call, get, hf] at hc
    obtain ⟨_, rfl⟩ := hc
    exact (hp.step h.inv (find_shape d k _ _ hsome hf)).2 h.idle
  | find k =>
    obtain ⟨d1, hf, s⟩ := find_spec d h.inv k
    simp [call, hf] at hc
    obtain ⟨_, rfl⟩ := hc
    exact (hp.step h.inv (find_shape d k _ _ hsome hf)).2 h.idle
  | delete k =>
    obtain ⟨r', d2, h1, h2, h3, h4, _⟩ := delete_spec d h.inv k
    simp [call, h1] at hc
    obtain ⟨_, rfl⟩ := hc
    obtain ⟨d1, hs1, e1, e2⟩ := delete_shape d k _ _ hsome h1
    obtain ⟨d1', hs1', same⟩ := step_same d h.inv
    rw [hs1] at hs1'; cases hs1'
    exact ((hp.step h.inv hs1).2 h.idle).congr e1 e2 (by rw [same.init]; exact hsome) (by rw [h4]; exact hsome)
  | size => exact absurd ha (by simp [Advances])
  | random => exact absurd ha (by simp [Advances])
  | iterate => exact absurd ha (by simp [Advances])

theorem runCalls_progress {n : Nat} (hpos : 0 < n) (ops : List (MapOp K V)) (ha : ∀ op ∈ ops, Advances op) :
    ∀ (m : Nat) (d : Dict K V), Good hash d → Ph n m d → ∀ rs d', runCalls hash d ops = some (rs, d') →
      Ph n (m - ops.length) d' := by
  induction ops with
  | nil => intro m d h hp rs d' hr; simp [runCalls] at hr; rw [← hr.2]; simpa using hp
  | cons op ops ih =>
    intro m d h hp rs d' hr
    obtain ⟨r, d1, h1, g1, _⟩ := call_spec d h op
    simp only [runCalls, h1, Option.bind_eq_bind, Option.bind_some, Option.bind_eq_some_iff, Option.some.injEq, Prod.mk.injEq] at hr
    obtain ⟨⟨rs', d2⟩, hr, _, rfl⟩ := hr
    have := ih (fun o ho => ha o (List.mem_cons_of_mem _ ho)) (m - 1) d1 g1
      (call_progress hpos d h hp op (ha op List.mem_cons_self) r d1 h1) rs' d2 hr
    simp only [List.length_cons]
    rw [show m - (ops.length + 1) = m - 1 - ops.length from by omega]
    exact this

theorem Ph.start {d : Dict K V} (h : Inv hash d) (hr : d.isRehashing = true) : Ph (size0 d) (size0 d + 1) d := by
  cases h with
  | empty h0 h1 hr' => simp [isRehashing, hr'] at hr
  | stable t0 h0 h1 hr' => simp [isRehashing, hr'] at hr
  | rehashing t0 t1 r h0 h1' hr' hle w0 w1 hsz hemp nd =>
    right
    exact ⟨rfl, hr, by simp [remaining, h0, hr, size0]⟩

/-! ### freezing -/

/-- Keys stored in the main (old) table. -/
def mainKeys (d : Dict K V) : List K := (d.ht0.map (fun t => t.entries.map Prod.fst)).getD []

theorem mainKeys_sub (d : Dict K V) (k : K) (h : k ∈ mainKeys d) : k ∈ d.toList.map Prod.fst := by
  unfold mainKeys at h; unfold toList
  cases h0 : d.ht0 with
  | none => simp [h0] at h
  | some t => simp only [h0, Option.map_some, Option.getD_some] at h ⊢; rw [List.map_append]; exact List.mem_append.mpr (Or.inl h)

theorem mainKeys_assign (d : Dict K V) (h : Inv hash d) (k : K) (v : V) : mainKeys (assign hash d k v) = mainKeys d := by
  have nd := h.nodup
  unfold assign
  cases h0 : d.ht0 with
  | none => rfl
  | some t0 =>
    have w0 : TInv hash t0 := by
      cases h with
      | empty h0' => simp [h0'] at h0
      | stable t h0' h1 hr w0 nd => rw [h0'] at h0; cases h0; exact w0
      | rehashing t t1 r h0' h1 hr hle w0 w1 hsz hemp nd => rw [h0'] at h0; cases h0; exact w0
    simp only
    split
    · unfold mainKeys
      simp only [h0, Option.map_some, Option.getD_some]
      rw [(assignTable_spec w0 (nodup_left h h0) k v).2.1, map_repl_fst]
    · simp [mainKeys, h0]

theorem expand_frozen (d : Dict K V) (h : Inv hash d) : ∃ d', expandIfNeeded d = (true, d') ∧ Inv hash d' ∧
    mainKeys d' = mainKeys d ∧ d'.iterators = d.iterators ∧ d'.toList = d.toList ∧ (d.isRehashing = true → d' = d) := by
  obtain ⟨d', he, i, hl, hs, hit, hsame, hg, hng, hn⟩ := expandIfNeeded_spec d h
  refine ⟨d', he, i, ?_, hit, hl, ?_⟩
  · cases h0 : d.ht0 with
    | none =>
      have : mainKeys d = [] := by simp [mainKeys, h0]
      rw [this]
      have hl' : d.toList = [] := by
        cases h with
        | empty h0 h1 hr => simp [toList, h0, h1]
        | stable t0 h0' => simp [h0] at h0'
        | rehashing t0 t1 r h0' => simp [h0] at h0'
      have hsub := mainKeys_sub d'
      rw [hl, hl'] at hsub
      exact List.eq_nil_iff_forall_not_mem.mpr (fun k hk => by simpa using hsub k hk)
    | some t =>
      unfold mainKeys; rw [hsame (by rw [h0]; rfl)]
  · intro hr
    have hsome : d.ht0.isSome := by
      cases h with
      | empty h0 h1 hr' => simp [isRehashing, hr'] at hr
      | stable t0 h0' => simp [h0']
      | rehashing t0 t1 r h0' => simp [h0']
    exact hng (by simp [growsNow, hr]) hsome

/-- While an iterator is live no key moves between the tables. -/
theorem call_frozen (d : Dict K V) (h : Inv hash d) (hit : d.iterators ≠ 0) (op : MapOp K V) (r : MapRes K V) (d' : Dict K V)
    (hop : op ≠ .iterate) (hc : call hash d op = some (r, d')) :
    (∀ k, k ∈ d.toList.map Prod.fst → k ∈ d'.toList.map Prod.fst → (k ∈ mainKeys d' ↔ k ∈ mainKeys d)) ∧
    (d.isRehashing = true → d'.rehashIndex = d.rehashIndex) ∧ d'.iterators = d.iterators := by
  have triv : d' = d → (∀ k, k ∈ d.toList.map Prod.fst → k ∈ d'.toList.map Prod.fst → (k ∈ mainKeys d' ↔ k ∈ mainKeys d)) ∧
    (d.isRehashing = true → d'.rehashIndex = d.rehashIndex) ∧ d'.iterators = d.iterators := by
    rintro rfl; exact ⟨fun _ _ _ => Iff.rfl, fun _ => rfl, rfl⟩
  obtain ⟨d1, hs1, same⟩ := step_same d h
  have hd1 := same.froz hit
  subst hd1
  cases op with
  | get k =>
    obtain ⟨d2, hf, s⟩ := find_spec d1 h k
    simp [call, get, hf] at hc
    exact triv (by rw [← hc.2]; exact s.froz hit)
  | find k =>
    obtain ⟨d2, hf, s⟩ := find_spec d1 h k
    simp [call, hf] at hc
    exact triv (by rw [← hc.2]; exact s.froz hit)
  | size =>
    simp [call, size_spec d1 h] at hc
    exact triv hc.2.symm
  | random draws =>
    obtain ⟨out, d2, rest, h1, _, _, _, _, _, _, hfr⟩ := getRandomKey_spec d1 h draws
    have := hfr hit
    subst this
    cases out <;> simp [call, h1] at hc <;> exact triv hc.2.symm
  | iterate => exact absurd rfl hop
  | delete k =>
    obtain ⟨r', d2, h1, i2, hit2, _, h5, h6, h7⟩ := delete_spec d1 h k
    have hc' : d2 = d' := by simp [call, h1] at hc; exact hc.2
    subst hc'
    cases h0 : d1.ht0.isSome with
    | false => exact triv (h5 h0).2
    | true =>
      obtain ⟨dd, hs2, e1, e2⟩ := delete_shape d1 k _ _ h0 h1
      rw [hs1] at hs2; cases hs2
      refine ⟨?_, fun _ => e2, hit2⟩
      -- the main table either loses `k` or is unchanged
      intro k' hk hk'
      have hnek : d1.abs k ≠ none → k' ≠ k := by
        intro hne hkk
        subst hkk
        obtain ⟨v, hv⟩ := Option.ne_none_iff_exists'.mp hne
        obtain ⟨_, hp⟩ := h7 v hv
        have := (abs_of_perm_uncons h i2 hp)
        have h2 : d2.abs k' = none := by rw [this]; simp
        rw [abs_eq_none] at h2
        exact h2 hk'
      unfold delete at h1
      have hnn : d1.ht0.isNone = false := by cases hq : d1.ht0 <;> simp_all
      simp only [hnn, hs1, Bool.false_eq_true, if_false, Option.bind_eq_bind, Option.bind_some, Option.bind_eq_some_iff] at h1
      obtain ⟨t0, ht0, x, hx, h1⟩ := h1
      have w0 : TInv hash t0 := by
        cases h with
        | empty h0' => simp [h0'] at ht0
        | stable t h0' h1 hr w0 nd => rw [h0'] at ht0; cases ht0; exact w0
        | rehashing t t1 r h0' h1 hr hle w0 w1 hsz hemp nd => rw [h0'] at ht0; cases ht0; exact w0
      split at h1
      · rename_i t'
        simp only [Option.some.injEq, Prod.mk.injEq] at h1
        rw [← h1.2]
        unfold mainKeys
        simp only [ht0, Option.map_some, Option.getD_some]
        rcases deleteIn_spec w0 k with ⟨_, hh⟩ | ⟨t'', v', hd', _, _, hp, _⟩
        · rw [hx] at hh; simp at hh
        · rw [hx] at hd'; simp only [Option.some.injEq] at hd'; subst hd'
          have hmem := (hp.map Prod.fst).mem_iff (a := k')
          simp only [List.map_cons, List.mem_cons] at hmem
          have habs : d1.abs k ≠ none := by
            rw [Ne, abs_eq_none]
            intro hc; apply hc
            apply mainKeys_sub
            unfold mainKeys
            simp only [ht0, Option.map_some, Option.getD_some]
            exact (hp.map Prod.fst).mem_iff.mpr (by simp)
          have := hnek habs
          constructor
          · intro hh; exact hmem.mpr (Or.inr hh)
          · intro hh; exact (hmem.mp hh).resolve_left this
      · split at h1
        · simp only [Option.some.injEq, Prod.mk.injEq] at h1; rw [← h1.2]
        · simp only [Option.bind_eq_some_iff] at h1
          obtain ⟨t1, _, y, hy, h1⟩ := h1
          split at h1
          · simp only [Option.some.injEq, Prod.mk.injEq] at h1; rw [← h1.2]
            simp [mainKeys]
          · simp only [Option.some.injEq, Prod.mk.injEq] at h1; rw [← h1.2]
  | set k v =>
    obtain ⟨d2, he2, i2, hmk, hit2, hl2, hre2⟩ := expand_frozen d1 h
    obtain ⟨df, hset, hi, hitf, _, _, _⟩ := set_spec d1 h k v
    have hc' : df = d' := by simp [call, hset] at hc; exact hc.2
    subst hc'
    have hit2' : d2.iterators ≠ 0 := by rw [hit2]; exact hit
    refine ⟨?_, ?_, hitf⟩
    · intro k' hk hk'
      rw [← hmk]
      unfold set at hset
      simp only [hs1, Option.bind_eq_bind, Option.bind_some, Option.bind_eq_some_iff] at hset
      obtain ⟨⟨idx, dk⟩, hki, hset⟩ := hset
      have hdk : dk = d2 ∧ (idx.isSome → k ∉ d2.toList.map Prod.fst) := by
        unfold keyIndex at hki
        rw [he2] at hki
        simp only [Option.bind_eq_bind, Option.bind_eq_some_iff] at hki
        obtain ⟨t0, ht0, b0, hb0, hki⟩ := hki
        have w0 : TInv hash t0 := by
          cases i2 with
          | empty h0' => simp [h0'] at ht0
          | stable t h0' h1 hr w0 nd => rw [h0'] at ht0; cases ht0; exact w0
          | rehashing t t1 r h0' h1 hr hle w0 w1 hsz hemp nd => rw [h0'] at ht0; cases ht0; exact w0
        have hany := mem_bucket_any w0 k
        rw [hb0, Option.getD_some] at hany
        split at hki
        · simp only [Option.some.injEq, Prod.mk.injEq] at hki; exact ⟨hki.2.symm, by rw [← hki.1]; simp⟩
        · next hn0 =>
          have hk0 : k ∉ t0.entries.map Prod.fst := by
            intro hc; rw [hany] at hn0; exact hn0 (decide_eq_true hc)
          split at hki
          · next hnr =>
            simp only [Option.some.injEq, Prod.mk.injEq] at hki
            refine ⟨hki.2.symm, fun _ => ?_⟩
            have h1n : d2.ht1 = none := by
              have := i2.ht1_isSome
              have hr : d2.isRehashing = false := by simpa using hnr
              rw [hr] at this; simpa using this
            simpa [toList, ht0, h1n] using hk0
          · simp only [Option.bind_eq_some_iff] at hki
            obtain ⟨t1, ht1, b1, hb1, hki⟩ := hki
            have w1 : TInv hash t1 := by
              cases i2 with
              | empty h0' h1' => simp [h1'] at ht1
              | stable t h0' h1' => simp [h1'] at ht1
              | rehashing t t1 r h0' h1' hr hle w0 w1 hsz hemp nd => rw [h1'] at ht1; cases ht1; exact w1
            have hany1 := mem_bucket_any w1 k
            rw [hb1, Option.getD_some] at hany1
            split at hki
            · simp only [Option.some.injEq, Prod.mk.injEq] at hki; exact ⟨hki.2.symm, by rw [← hki.1]; simp⟩
            · next hn1 =>
              have hk1 : k ∉ t1.entries.map Prod.fst := by
                intro hc; rw [hany1] at hn1; exact hn1 (decide_eq_true hc)
              simp only [Option.some.injEq, Prod.mk.injEq] at hki
              refine ⟨hki.2.symm, fun _ => ?_⟩
              simp only [toList, ht0, ht1, Option.map_some, Option.getD_some, List.map_append, List.mem_append, not_or]
              exact ⟨hk0, hk1⟩
      obtain ⟨rfl, hidx⟩ := hdk
      cases idx with
      | none =>
        simp only at hset
        obtain ⟨d3, hf, s3⟩ := find_spec dk i2 k
        have := s3.froz hit2'
        subst this
        simp only [hf, Option.bind_some] at hset
        split at hset
        · simp at hset
        · simp only [Option.some.injEq, Prod.mk.injEq] at hset
          rw [← hset.2, mainKeys_assign _ i2]
      | some i =>
        have hkk : k' ≠ k := by
          intro hh; subst hh
          exact hidx rfl (by rw [hl2]; exact hk)
        simp only at hset
        split at hset
        · simp only [Option.bind_eq_some_iff, Option.some.injEq, Prod.mk.injEq] at hset
          obtain ⟨t1, _, t1', _, _, rfl⟩ := hset
          simp [mainKeys]
        · simp only [Option.bind_eq_some_iff, Option.some.injEq, Prod.mk.injEq] at hset
          obtain ⟨t0, ht0, t0', hins, _, rfl⟩ := hset
          unfold insertAt at hins
          simp only [Option.bind_eq_bind, Option.bind_eq_some_iff, Option.some.injEq] at hins
          obtain ⟨b, hb, rfl⟩ := hins
          have hp := flatten_set_cons t0.tables i b (k, v) hb
          have hmem := (hp.map Prod.fst).mem_iff (a := k')
          simp only [List.map_cons, List.mem_cons, hkk, false_or] at hmem
          simp only [mainKeys, ht0, Option.map_some, Option.getD_some, HashTable.entries]
          exact hmem
    · intro hre
      obtain ⟨da, db, ha, hb, _, _, d3, hd3, _, _, hri, _⟩ := set_shape d1 h k v _ _ hset
      rw [hs1] at ha; cases ha
      rw [he2] at hb; cases hb
      have hb := hre2 hre
      subst hb
      rcases hd3 with rfl | hd3
      · exact hri
      · rw [hs1] at hd3; cases hd3; exact hri

/-- When a `Set` outside a rehash starts one. -/
theorem set_growth (d : Dict K V) (h : Inv hash d) (hr : d.isRehashing = false) (k : K) (v : V) (b : Bool) (d' : Dict K V)
    (hs : set hash d k v = some (b, d')) :
    d'.isRehashing = growsNow d ∧ size0 d' = (if d.ht0.isSome then size0 d else 4) := by
  obtain ⟨d1, d2, hs1, he2, i1, i2, d3, hd3, i3, hsz, hri, hs3⟩ := set_shape d h k v b d' hs
  obtain ⟨d1', hs1', same⟩ := step_same d h
  rw [hs1] at hs1'; cases hs1'
  have := same.stab hr
  subst this
  obtain ⟨d2', he2', _, hl2, _, hit2, hsame, hg, hng, hn⟩ := expandIfNeeded_spec d1 i1
  rw [he2] at he2'; cases he2'
  have hcong : d'.isRehashing = d3.isRehashing := by unfold isRehashing; rw [hri]
  have step3 : d3.isRehashing = d2.isRehashing ∧ size0 d3 = size0 d2 := by
    rcases hd3 with rfl | hd3
    · exact ⟨rfl, rfl⟩
    · rcases rehash_shape d2 d3 hd3 with rfl | ⟨a, b, c⟩ | ⟨a, b, c, e⟩
      · exact ⟨rfl, rfl⟩
      · exact ⟨by rw [a, b], c⟩
      · -- a step cannot finish: the old table is not empty
        exfalso
        have hgr : growsNow d1 = true := by
          cases hq : growsNow d1 with
          | true => rfl
          | false =>
            by_cases hsome : d1.ht0.isSome
            · rw [hng hq hsome, hr] at a; simp at a
            · obtain ⟨t0, _, _, h3⟩ := hn (by cases hh : d1.ht0 <;> simp_all)
              rw [h3] at a; simp at a
        have hsome : d1.ht0.isSome := by cases hq : d1.ht0 <;> simp_all [growsNow]
        obtain ⟨t0, ht0⟩ := Option.isSome_iff_exists.mp hsome
        have ht02 : d2.ht0 = some t0 := by rw [hsame hsome]; exact ht0
        have hu : t0.used > 0 := by
          simp only [growsNow, ht0, Bool.and_eq_true, decide_eq_true_iff] at hgr
          have w0 : TInv hash t0 := by
            cases i1 with
            | empty h0' => simp [h0'] at ht0
            | stable t h0' h1 hr w0 nd => rw [h0'] at ht0; cases ht0; exact w0
            | rehashing t t1 r h0' h1 hr hle w0 w1 hsz hemp nd => rw [h0'] at ht0; cases ht0; exact w0
          have := w0.size_pos
          omega
        have hnz : ¬ t0.used = 0 := by omega
        unfold stepIfRehashing rehashStep at hd3
        simp only [a, if_true] at hd3
        split at hd3
        · simp only [rehashStepCount, rehash, ht02, Option.bind_eq_bind, Option.bind_some, hnz, if_false] at hd3
          by_cases hneg : d2.rehashIndex < 0
          · simp [hneg] at hd3
          · simp only [hneg, if_false, Option.bind_eq_some_iff] at hd3
            obtain ⟨i, _, chain, _, t1, ht1, p, hp, hd3⟩ := hd3
            simp only [Option.some.injEq] at hd3
            rw [← hd3] at b
            simp [isRehashing] at b
            omega
        · simp only [Option.some.injEq] at hd3; rw [← hd3, a] at b; simp at b
  rw [hcong, hsz, step3.1, step3.2]
  cases hq : growsNow d1 with
  | true =>
    obtain ⟨h1, h2, h3⟩ := hg hq
    have hsome : d1.ht0.isSome := by cases hq' : d1.ht0 <;> simp_all [growsNow]
    exact ⟨h1, by rw [if_pos hsome]; unfold size0; rw [hsame hsome]⟩
  | false =>
    by_cases hsome : d1.ht0.isSome
    · rw [hng hq hsome, if_pos hsome]; exact ⟨hr, rfl⟩
    · obtain ⟨t0, h1, h2, h3⟩ := hn (by cases hh : d1.ht0 <;> simp_all)
      exact ⟨h3, by rw [if_neg hsome]; simp [size0, h1, h2]⟩

end Metis.Dict
