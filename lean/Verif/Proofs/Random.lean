import Verif.Proofs.Server
import Mathlib.Data.List.Perm.Subperm
/-! Helper lemmas: however the random numbers fall, those that follow can let SPOP, RANDOMGET and the cron finish. -/
set_option linter.unusedSectionVars false
set_option linter.unusedSimpArgs false
set_option linter.unusedVariables false
namespace Metis
namespace Dict
variable {K V : Type} [DecidableEq K] {hash : K → Nat}

theorem drawBucket_ext (r : Nat) (ts0 ts1 : List (List (K × V))) (hr : r < ts0.length + ts1.length) : ∀ (ds : List Nat),
    (∃ c cs rest, rest.length < ds.length ∧ ∀ t, drawBucket r ts0 ts1 (ds ++ t) = some (c :: cs, rest ++ t)) ∨
    ∀ t, drawBucket r ts0 ts1 (ds ++ t) = drawBucket r ts0 ts1 t
  | [] => Or.inr fun _ => rfl
  | x :: ds => by
    have hn : ts0.length + ts1.length - r ≠ 0 := by omega
    have hlt : x % (ts0.length + ts1.length - r) < ts0.length + ts1.length - r := Nat.mod_lt _ (by omega)
    obtain ⟨b, hb⟩ : ∃ b, (if r + x % (ts0.length + ts1.length - r) ≥ ts0.length then ts1[r + x % (ts0.length + ts1.length - r) - ts0.length]?
        else ts0[r + x % (ts0.length + ts1.length - r)]?) = some b := by
      split
      · exact ⟨_, List.getElem?_eq_getElem (by omega)⟩
      · exact ⟨_, List.getElem?_eq_getElem (by omega)⟩
    cases b with
    | nil =>
      have hone : ∀ l, drawBucket r ts0 ts1 (x :: l) = drawBucket r ts0 ts1 l := by
        intro l; simp only [drawBucket, hn, if_false, hb]
      rcases drawBucket_ext r ts0 ts1 hr ds with ⟨c, cs, rest, h1, h2⟩ | h
      · exact Or.inl ⟨c, cs, rest, by simp; omega, fun t => by rw [List.cons_append, hone, h2]⟩
      · exact Or.inr fun t => by rw [List.cons_append, hone, h]
    | cons c cs =>
      refine Or.inl ⟨c, cs, ds, by simp, fun t => ?_⟩
      rw [List.cons_append]
      simp only [drawBucket, hn, if_false, hb]

/-- How `GetRandomKey` uses the random numbers. -/
theorem getRandomKey_form (d : Dict K V) (h : Inv hash d) (hne : d.toList ≠ []) : ∃ d1 r ts0 ts1, r < ts0.length + ts1.length ∧
    ∀ draws, getRandomKey hash d draws = (drawBucket r ts0 ts1 draws).bind fun p => pickEntry d1 p.1 p.2 := by
  have h0n : d.ht0.isNone = false := by
    cases h with
    | empty h0 h1 hr => simp [toList, h0, h1] at hne
    | stable t0 h0 => simp [h0]
    | rehashing t0 t1 r h0 => simp [h0]
  have hsd : d.ht0.isSome = true := by cases hd : d.ht0 <;> simp_all
  have hz : ¬ ((d.toList.length : Int) = 0) := by
    have := List.length_pos_iff.2 hne; omega
  obtain ⟨d1, hs1, same⟩ := step_same d h
  have hs1s : d1.ht0.isSome = true := by rw [same.init, hsd]
  have hi := same.inv
  cases hi with
  | empty h0 => simp [h0] at hs1s
  | stable t0 h0 h1 hr w0 nd =>
    have hp := w0.size_pos
    have hri : d1.isRehashing = false := by simp [isRehashing, hr]
    refine ⟨d1, 0, t0.tables, [], by simp [w0.len]; omega, fun draws => ?_⟩
    unfold getRandomKey
    simp only [h0n, size_spec d h, Option.bind_eq_bind, Option.bind_some, hz, if_false, hs1, h0, hri, Bool.false_eq_true]
  | rehashing t0 t1 r h0 h1 hr hle w0 w1 hsz' hemp nd =>
    have hp := w0.size_pos
    have hri : d1.isRehashing = true := by simp [isRehashing, hr]
    have hnn : ¬ ((r : Int) < 0) := by omega
    refine ⟨d1, r, t0.tables, t1.tables, by rw [w0.len, w1.len]; omega, fun draws => ?_⟩
    unfold getRandomKey
    simp only [h0n, size_spec d h, Option.bind_eq_bind, Option.bind_some, hz, if_false, hs1, h0, hri, if_true, h1, hr, hnn, Int.toNat_natCast,
      Bool.false_eq_true]

/-- After any random numbers some more make `GetRandomKey` return an entry. -/
theorem getRandomKey_ext (d : Dict K V) (h : Inv hash d) (hne : d.toList ≠ []) (ds : List Nat) : ∃ t0 e d' rest, rest.length < (ds ++ t0).length ∧
    ∀ t, getRandomKey hash d (ds ++ t0 ++ t) = some (.entry e, d', rest ++ t) := by
  obtain ⟨d1, r, ts0, ts1, hr, hf⟩ := getRandomKey_form d h hne
  have pick : ∀ (c : K × V) (cs : List (K × V)) (y : Nat), ∃ e, ∀ l, pickEntry d1 (c :: cs) (y :: l) = some (.entry e, d1, l) := by
    intro c cs y
    have hlt : y % (c :: cs).length < (c :: cs).length := Nat.mod_lt _ (by simp)
    refine ⟨(c :: cs)[y % (c :: cs).length]'hlt, fun l => ?_⟩
    simp only [pickEntry, List.getElem?_eq_getElem hlt]; rfl
  rcases drawBucket_ext r ts0 ts1 hr ds with ⟨c, cs, rest, h1, h2⟩ | hmiss
  · cases rest with
    | nil =>
      obtain ⟨e, he⟩ := pick c cs 0
      exact ⟨[0], e, d1, [], by simp, fun t => by rw [List.append_assoc, hf, h2]; exact he t⟩
    | cons y rest =>
      obtain ⟨e, he⟩ := pick c cs y
      exact ⟨[], e, d1, rest, by simp at h1 ⊢; omega, fun t => by rw [List.append_nil, hf, h2]; exact he _⟩
  · obtain ⟨x, hx⟩ := List.exists_mem_of_ne_nil _ hne
    obtain ⟨i, j, d', hc⟩ := getRandomKey_complete d h x hx
    rw [hf] at hc
    rcases drawBucket_ext r ts0 ts1 hr [i, j] with ⟨c, cs, rest, h1, h2⟩ | hm2
    · have h3 := h2 []
      rw [List.append_nil, List.append_nil] at h3
      rw [h3] at hc
      cases rest with
      | nil => cases hc
      | cons y rest =>
        obtain ⟨e, he⟩ := pick c cs y
        refine ⟨[i, j], e, d1, rest, by simp at h1 ⊢; omega, fun t => ?_⟩
        rw [hf, List.append_assoc, hmiss, h2]; exact he _
    · have := hm2 []
      rw [List.append_nil] at this
      rw [this] at hc
      cases hc

end Dict

variable {hash : Bytes → Nat} {e : Env}

/-! ### the cron -/

theorem cronDb_ext (he : e.hash = hash) : ∀ (fuel : Nat) (db : Db), db.Good hash → ∀ ds, ∃ t0 db' rest, ∀ t, cronDb e fuel (ds ++ t0 ++ t) db = some (db', rest ++ t)
  | 0, db, g, ds => ⟨[], db, ds, fun t => by rw [List.append_nil]; rfl⟩
  | fuel + 1, db, g, ds => by
    by_cases hne : db.expire.toList = []
    · refine ⟨[], ?_⟩
      obtain ⟨out, x', dr, e1, _⟩ := Dict.getRandomKey_spec db.expire g.expire.inv ds
      have key : ∃ x', ∀ l, Dict.getRandomKey hash db.expire l = some (.nil, x', l) := by
        refine ⟨db.expire, fun l => ?_⟩
        unfold Dict.getRandomKey
        rw [Dict.size_spec _ g.expire.inv, hne]
        simp
      obtain ⟨x', hx⟩ := key
      refine ⟨{ db with expire := x' }, ds, fun t => ?_⟩
      unfold cronDb
      simp only [he, List.append_nil, hx, Option.bind_eq_bind, Option.bind_some]
    · obtain ⟨t0, ⟨k, dl⟩, x', rest, hl, hk⟩ := Dict.getRandomKey_ext db.expire g.expire.inv hne ds
      obtain ⟨out, x2, dr, e1, e2, e3, e4, e5, e6, e7, e8⟩ := Dict.getRandomKey_spec db.expire g.expire.inv (ds ++ t0 ++ [])
      rw [hk] at e1; cases e1
      have gx : Dict.Good hash x' := ⟨e2, by rw [e4, g.expire.idle]⟩
      have g1 := good_expire g gx
      by_cases hd : dl < e.now
      · obtain ⟨r1, d1, q1, g2, a1, _⟩ := Dict.delete_map g.dict k
        obtain ⟨r2, x2, q2, g3, a2, _⟩ := Dict.delete_map gx k
        have gg : Db.Good hash ⟨d1, x2⟩ := by
          refine ⟨g2, g3, ?_⟩
          intro k' o ho
          simp only [a1] at ho
          split at ho
          · cases ho
          · exact g.objs _ _ ho
        obtain ⟨t1, db', r', h'⟩ := cronDb_ext he fuel _ gg rest
        refine ⟨t0 ++ t1, db', r', fun t => ?_⟩
        unfold cronDb
        rw [show ds ++ (t0 ++ t1) ++ t = ds ++ t0 ++ (t1 ++ t) by simp, he, hk]
        simp only [Option.bind_eq_bind, Option.bind_some, hd, if_true, q1, q2]
        rw [← List.append_assoc, h']
      · obtain ⟨t1, db', r', h'⟩ := cronDb_ext he fuel _ g1 rest
        refine ⟨t0 ++ t1, db', r', fun t => ?_⟩
        unfold cronDb
        rw [show ds ++ (t0 ++ t1) ++ t = ds ++ t0 ++ (t1 ++ t) by simp, he, hk]
        simp only [Option.bind_eq_bind, Option.bind_some, hd, if_false]
        rw [← List.append_assoc, h']

theorem cronDbs_ext (he : e.hash = hash) : ∀ (dbs : List Db), (∀ (i : Nat) (db : Db), dbs[i]? = some db → db.Good hash) → ∀ ds,
    ∃ t dbs', cronDbs e (ds ++ t) dbs = some dbs'
  | [], _, ds => ⟨[], [], rfl⟩
  | db :: rest, g, ds => by
    obtain ⟨t0, db', dr, h1⟩ := cronDb_ext he checkExpireEntryCount db (g 0 db rfl) ds
    obtain ⟨t1, dbs', h2⟩ := cronDbs_ext he rest (fun i d h => g (i + 1) d h) dr
    refine ⟨t0 ++ t1, db' :: dbs', ?_⟩
    unfold cronDbs
    rw [← List.append_assoc, h1]
    simp only [Option.bind_eq_bind, Option.bind_some, h2]

/-! ### RANDOMGET -/

theorem keys_lt {db db' : Db} (g : db.Good hash) (g' : db'.Good hash) {k : Bytes} (hk : db.dict.abs k ≠ none) (hk' : db'.dict.abs k = none)
    (hsub : ∀ x, db'.dict.abs x ≠ none → db.dict.abs x ≠ none) : db'.dict.toList.length < db.dict.toList.length := by
  have mem : ∀ (d : Dict Bytes Obj) x, d.abs x ≠ none ↔ x ∈ d.toList.map Prod.fst := by
    intro d x; rw [Ne, Dict.abs_eq_none, not_not]
  have h1 : (k :: db'.dict.toList.map Prod.fst) ⊆ db.dict.toList.map Prod.fst := by
    intro x hx
    rcases List.mem_cons.1 hx with rfl | hx
    · exact (mem _ _).1 hk
    · exact (mem _ _).1 (hsub x ((mem _ _).2 hx))
  have nd : (k :: db'.dict.toList.map Prod.fst).Nodup :=
    List.nodup_cons.2 ⟨fun h => (mem _ _).2 h hk', g'.dict.inv.nodup⟩
  have := (nd.subperm h1).length_le
  simp only [List.length_cons, List.length_map] at this
  omega

theorem randomLoop_ext (he : e.hash = hash) : ∀ (n : Nat) (db : Db), db.Good hash → db.dict.toList.length ≤ n → ∀ ds,
    ∃ t, ∀ fuel, (ds ++ t).length < fuel → ∃ o, Cmds.randomLoop e fuel (ds ++ t) db = some o := by
  intro n
  induction n with
  | zero =>
    intro db g hn ds
    have hne : db.dict.toList = [] := List.length_eq_zero_iff.1 (by omega)
    refine ⟨[], fun fuel hf => ?_⟩
    obtain ⟨fuel, rfl⟩ : ∃ m, fuel = m + 1 := ⟨fuel - 1, by omega⟩
    unfold Cmds.randomLoop Dict.getRandomKey
    rw [Dict.size_spec _ g.dict.inv, hne]
    simp
  | succ n ih =>
    intro db g hn ds
    by_cases hne : db.dict.toList = []
    · exact (by
        refine ⟨[], fun fuel hf => ?_⟩
        obtain ⟨fuel, rfl⟩ : ∃ m, fuel = m + 1 := ⟨fuel - 1, by omega⟩
        unfold Cmds.randomLoop Dict.getRandomKey
        rw [Dict.size_spec _ g.dict.inv, hne]
        simp)
    · obtain ⟨t0, ⟨k, v⟩, x', rest, hl, hk⟩ := Dict.getRandomKey_ext db.dict g.dict.inv hne ds
      obtain ⟨out, x2, dr, e1, e2, e3, e4, e5, e6, e7, e8⟩ := Dict.getRandomKey_spec db.dict g.dict.inv (ds ++ t0 ++ [])
      rw [hk] at e1; cases e1
      have gd : Dict.Good hash x' := ⟨e2, by rw [e4, g.dict.idle]⟩
      have ad : x'.abs = db.dict.abs := Dict.abs_perm g.dict.inv e3
      have g1 := good_dict g gd ad
      have hin := (Dict.abs_eq_some g.dict.inv k v).2 (e7 _ rfl)
      obtain ⟨db2, h2, g2, v2⟩ := exp_ref e he g1 k
      cases hx : A.expired e (Db.view { db with dict := x' }) k with
      | false =>
        refine ⟨t0, fun fuel hf => ?_⟩
        obtain ⟨fuel, rfl⟩ : ∃ m, fuel = m + 1 := ⟨fuel - 1, by omega⟩
        have := hk []
        rw [List.append_nil, List.append_nil] at this
        unfold Cmds.randomLoop
        simp only [he, this, Option.bind_eq_bind, Option.bind_some, h2, hx, Bool.false_eq_true, if_false]
        exact ⟨_, rfl⟩
      | true =>
        have abs2 : ∀ x, (db2.dict.abs x).map Obj.view = if x = k then none else (db.dict.abs x).map Obj.view := by
          intro x
          have : db2.view.v x = (A.exp e (Db.view { db with dict := x' }) k).v x := by rw [v2]
          simp only [A.exp, hx, if_true] at this
          simp only [Db.view, ad] at this
          rw [this]
          by_cases hxk : x = k
          · subst hxk; simp [upd]
          · simp [upd, hxk, Ne.symm hxk]
        have hlt : db2.dict.toList.length < db.dict.toList.length := by
          refine keys_lt (k := k) g g2 (by rw [hin]; simp) ?_ ?_
          · have := abs2 k; simpa using this
          · intro x h3 h4
            have := abs2 x
            rw [h4] at this
            simp at this; exact h3 this
        obtain ⟨t1, h1⟩ := ih db2 g2 (by omega) rest
        refine ⟨t0 ++ t1, fun fuel hf => ?_⟩
        obtain ⟨fuel, rfl⟩ : ∃ m, fuel = m + 1 := ⟨fuel - 1, by omega⟩
        obtain ⟨o, ho⟩ := h1 fuel (by simp at hf hl ⊢; omega)
        refine ⟨o, ?_⟩
        unfold Cmds.randomLoop
        rw [← List.append_assoc]
        simp only [he, hk, Option.bind_eq_bind, Option.bind_some, h2, hx, if_true, ho]

/-! ### SPOP -/

theorem spop_ext (he : e.hash = hash) {db : Db} (g : db.Good hash) {args : List Bytes} {key : Bytes} (hk : args[1]? = some key) (ds : List Nat) :
    ∃ t o, Cmds.spop { e with draws := ds ++ t } args db = some o := by
  subst he
  obtain ⟨l, db1, h1, g1, v1, hl⟩ := look_ref e rfl g cast_set key
  have h1' : ∀ t, Db.getIfExist Obj.asSet { e with draws := ds ++ t } db key = some (l, db1) := fun t => h1
  rcases hl with ⟨rfl, hl⟩ | ⟨rfl, hl⟩ | ⟨s, b, rfl, hl, ⟨gs, rfl⟩, hk'⟩
  · refine ⟨[], ?_⟩
    unfold Cmds.spop
    simp only [hk, h1', Option.bind_eq_bind, Option.bind_some]
    exact ⟨_, rfl⟩
  · refine ⟨[], ?_⟩
    unfold Cmds.spop
    simp only [hk, h1', Option.bind_eq_bind, Option.bind_some]
    exact ⟨_, rfl⟩
  · have hsz : MSet.size s = some ((s.toList.map Prod.fst).length : Int) := size_ref gs
    by_cases hne : s.toList = []
    · refine ⟨[], ?_⟩
      unfold Cmds.spop
      simp only [hk, h1', hsz, hne, Option.bind_eq_bind, Option.bind_some]
      exact ⟨_, rfl⟩
    · obtain ⟨t0, ⟨m, u⟩, s', rest, hlt, hr⟩ := Dict.getRandomKey_ext s gs.inv hne ds
      have hr' := hr []
      rw [List.append_nil, List.append_nil] at hr'
      obtain ⟨out, x2, dr, e1, e2, e3, e4, e5, e6, e7, e8⟩ := Dict.getRandomKey_spec s gs.inv (ds ++ t0)
      rw [hr'] at e1; cases e1
      have gs' : Dict.Good e.hash s' := ⟨e2, by rw [e4, gs.idle]⟩
      obtain ⟨r, d, f1, f2, f3, f4⟩ := Dict.delete_map gs' m
      have hs : (db1.dict.abs key).isSome = true := by
        cases hd : db1.dict.abs key with
        | none => simp [Db.view, hd] at hk'
        | some x => rfl
      refine ⟨t0, ?_⟩
      have f1' : MSet.delete e.hash s' m = some (r, d) := f1
      have hz : ¬ (((s.toList.map Prod.fst).length : Int) = 0) := by
        have := List.length_pos_iff.2 hne
        rw [List.length_map]; omega
      have hgr : MSet.getRandom e.hash s (ds ++ t0) = some (.entry m, s', rest) := by
        unfold MSet.getRandom; rw [hr']; rfl
      unfold Cmds.spop
      simp only [hk, h1', hsz, Option.bind_eq_bind, Option.bind_some, hz, if_false, hgr, f1']
      split <;> exact ⟨_, rfl⟩

end Metis
