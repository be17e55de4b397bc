import Verif.Proofs.Abs
/-!
Every command of the model acts on the view of the database like its counterpart in Proofs/Abs.lean.
-/
set_option linter.unusedSectionVars false
set_option linter.unusedSimpArgs false
set_option linter.unusedVariables false
namespace Metis
open Db (Look)

/-- The value seen with every dict as a partial function. -/
def Obj.view : Obj → AObj
  | .str s => .str s
  | .list q => .list q
  | .hash d => .hash d.abs
  | .set s => .set s.abs
  | .zset z => .zset ⟨z.dict.abs, z.skiplist⟩

/-- The dicts of a value are in order. -/
def Obj.Good (hash : Bytes → Nat) : Obj → Prop
  | .str _ => True
  | .list _ => True
  | .hash d => Dict.Good hash d
  | .set s => Dict.Good hash s
  | .zset z => Dict.Good hash z.dict

/-- All dicts of a database are in order. -/
structure Db.Good (hash : Bytes → Nat) (db : Db) : Prop where
  dict : Dict.Good hash db.dict
  expire : Dict.Good hash db.expire
  objs : ∀ k o, db.dict.abs k = some o → o.Good hash

/-- View of a database. -/
def Db.view (db : Db) : AS := ⟨fun k => (db.dict.abs k).map Obj.view, db.expire.abs⟩

/-- Concrete and abstract result belong together. -/
structure Rel (hash : Bytes → Nat) (o : Out) (a : AOut) : Prop where
  good  : o.db.Good hash
  view  : o.db.view = a.s
  dirty : o.dirty = a.dirty
  reply : a.reply o.reply

/-- Both panic, or the results belong together. -/
def Ref (hash : Bytes → Nat) : Option Out → Option AOut → Prop
  | none, none => True
  | some o, some a => Rel hash o a
  | _, _ => False

variable {hash : Bytes → Nat}

theorem upd_self {V : Type} (f : Fn V) (k : Bytes) : upd f k (f k) = f := by
  funext x; unfold upd; split
  · next h => rw [h]
  · rfl

theorem upd_same {V : Type} (f : Fn V) (k : Bytes) (o : Option V) (h : f k = o) : upd f k o = f := by rw [← h, upd_self]

@[simp] theorem upd_at {V : Type} (f : Fn V) (k : Bytes) (o : Option V) : upd f k o k = o := by simp [upd]

theorem upd_ne {V : Type} (f : Fn V) {k x : Bytes} (o : Option V) (h : x ≠ k) : upd f k o x = f x := by
  unfold upd; rw [if_neg (Ne.symm h)]

theorem ref_bind {α : Type} (x : Option α) {f : α → Option Out} {g : α → Option AOut} (h : ∀ a, x = some a → Ref hash (f a) (g a)) :
    Ref hash (x >>= f) (x >>= g) := by
  cases x with
  | none => trivial
  | some a => exact h a rfl

theorem ref_some {o : Out} {a : AOut} (h : Rel hash o a) : Ref hash (some o) (some a) := h

theorem rel_ex {db : Db} {s : AS} {n : Nat} {r : List Bytes} (g : db.Good hash) (h : db.view = s) :
    Rel hash ⟨db, n, r⟩ ⟨s, n, A.ex r⟩ := ⟨g, h, rfl, rfl⟩

/-! ### Primitive steps -/

theorem view_dict {db : Db} {d : Dict Bytes Obj} (h : d.abs = db.dict.abs) : Db.view { db with dict := d } = db.view := by
  simp [Db.view, h]

theorem good_dict {db : Db} {d : Dict Bytes Obj} (g : db.Good hash) (gd : Dict.Good hash d) (h : d.abs = db.dict.abs) :
    Db.Good hash { db with dict := d } := ⟨gd, g.expire, by intro k o ho; rw [h] at ho; exact g.objs k o ho⟩

theorem good_expire {db : Db} {x : Dict Bytes Int} (g : db.Good hash) (gd : Dict.Good hash x) :
    Db.Good hash { db with expire := x } := ⟨g.dict, gd, g.objs⟩

theorem view_none {db : Db} {k : Bytes} : db.view.v k = none ↔ db.dict.abs k = none := by simp [Db.view]

theorem exp_ref (e : Env) (he : e.hash = hash) {db : Db} (g : db.Good hash) (k : Bytes) :
    ∃ db', Db.expireIfNeeded e db k = some (A.expired e db.view k, db') ∧ db'.Good hash ∧ db'.view = A.exp e db.view k := by
  subst he
  obtain ⟨x, h1, h2, h3, _⟩ := Dict.find_map g.expire k
  unfold Db.expireIfNeeded A.exp A.expired
  rw [h1]
  have ht : db.view.t k = db.expire.abs k := rfl
  rw [ht]
  cases hx : db.expire.abs k with
  | none =>
    refine ⟨{ db with expire := x }, rfl, good_expire g h2, ?_⟩
    simp [Db.view, h3]
  | some dl =>
    by_cases hd : dl < e.now
    · obtain ⟨r1, d1, e1, g1, a1, _⟩ := Dict.delete_map g.dict k
      obtain ⟨r2, d2, e2, g2, a2, _⟩ := Dict.delete_map h2 k
      refine ⟨⟨d1, d2⟩, ?_, ⟨g1, g2, ?_⟩, ?_⟩
      · simp [hd, e1, e2]
      · intro k' o ho
        rw [a1] at ho
        simp only at ho
        split at ho
        · cases ho
        · exact g.objs _ _ ho
      · simp only [hd, decide_true, if_true, Db.view, a1, a2, h3, AS.mk.injEq]
        constructor
        · funext y; unfold upd; split <;> rfl
        · funext y; unfold upd; rfl
    · refine ⟨{ db with expire := x }, by simp [hd], good_expire g h2, ?_⟩
      simp [Db.view, h3, hd]

theorem get_ref (e : Env) (he : e.hash = hash) {db : Db} (g : db.Good hash) (k : Bytes) :
    ∃ db', Db.get e db k = some (db.dict.abs k, db') ∧ db'.Good hash ∧ db'.view = db.view ∧ db'.dict.abs = db.dict.abs := by
  subst he
  obtain ⟨d, h1, h2, h3, _⟩ := Dict.get_map g.dict k
  exact ⟨{ db with dict := d }, by unfold Db.get; rw [h1]; rfl, good_dict g h2 h3, view_dict h3, h3⟩

theorem set_ref (e : Env) (he : e.hash = hash) {db : Db} (g : db.Good hash) (k : Bytes) (o : Obj) (go : o.Good hash) :
    ∃ db', Db.set e db k o = some db' ∧ db'.Good hash ∧ db'.view = A.put db.view k o.view ∧ db'.dict.abs k = some o := by
  subst he
  obtain ⟨d, h1, h2, h3⟩ := Dict.set_map g.dict k o
  refine ⟨{ db with dict := d }, by unfold Db.set; rw [h1]; rfl, ⟨h2, g.expire, ?_⟩, ?_, by simp [h3]⟩
  · intro k' o' ho
    simp only [h3] at ho
    split at ho
    · cases ho; exact go
    · exact g.objs _ _ ho
  · simp only [Db.view, A.put, h3, AS.mk.injEq, and_true]
    funext y; unfold upd; split <;> rfl

theorem setExpire_ref (e : Env) (he : e.hash = hash) {db : Db} (g : db.Good hash) (k : Bytes) (n : Int) :
    ∃ db', Db.setExpire e db k n = some db' ∧ db'.Good hash ∧ db'.view = { db.view with t := upd db.view.t k (some n) } := by
  subst he
  obtain ⟨d, h1, h2, h3⟩ := Dict.set_map g.expire k n
  refine ⟨{ db with expire := d }, by unfold Db.setExpire; rw [h1]; rfl, good_expire g h2, ?_⟩
  simp only [Db.view, h3, AS.mk.injEq, true_and]
  funext y; unfold upd; rfl

theorem delExpire_ref (e : Env) (he : e.hash = hash) {db : Db} (g : db.Good hash) (k : Bytes) :
    ∃ db', Db.delExpire e db k = some db' ∧ db'.Good hash ∧ db'.view = { db.view with t := upd db.view.t k none } := by
  subst he
  obtain ⟨r, d, h1, h2, h3, _⟩ := Dict.delete_map g.expire k
  refine ⟨{ db with expire := d }, by unfold Db.delExpire; rw [h1]; rfl, good_expire g h2, ?_⟩
  simp only [Db.view, h3, AS.mk.injEq, true_and]
  funext y; unfold upd; rfl

theorem put_ref (e : Env) (he : e.hash = hash) {db : Db} (g : db.Good hash) (k : Bytes) (o : Obj) (go : o.Good hash)
    (hk : (db.dict.abs k).isSome = true) :
    (Db.put e db k o).Good hash ∧ (Db.put e db k o).view = A.put db.view k o.view := by
  subst he
  obtain ⟨h2, h3⟩ := Dict.assign_map g.dict k o hk
  refine ⟨⟨h2, g.expire, ?_⟩, ?_⟩
  · intro k' o' ho
    simp only [Db.put, h3] at ho
    split at ho
    · cases ho; exact go
    · exact g.objs _ _ ho
  · simp only [Db.view, A.put, Db.put, h3, AS.mk.injEq, and_true]
    funext y; unfold upd; split <;> rfl

/-- writing back an object with the same view -/
theorem put_same (e : Env) (he : e.hash = hash) {db : Db} (g : db.Good hash) (k : Bytes) (o : Obj) (go : o.Good hash)
    (hk : db.view.v k = some o.view) : (Db.put e db k o).Good hash ∧ (Db.put e db k o).view = db.view := by
  have hs : (db.dict.abs k).isSome = true := by
    cases h : db.dict.abs k with
    | none => simp [Db.view, h] at hk
    | some _ => rfl
  obtain ⟨h1, h2⟩ := put_ref e he g k o go hs
  refine ⟨h1, ?_⟩
  rw [h2]; unfold A.put; rw [upd_same _ _ _ hk]

/-- A type assertion and its counterpart: related results, and the object is recovered from the result. -/
structure Cast (hash : Bytes → Nat) {α β : Type} (as : Obj → Option α) (aas : AObj → Option β) (R : α → β → Prop) (mk : β → AObj) : Prop where
  none : ∀ o : Obj, as o = none ↔ aas o.view = none
  some : ∀ (o : Obj) a, o.Good hash → as o = some a → ∃ b, aas o.view = some b ∧ R a b ∧ o.view = mk b

theorem cast_list : Cast hash Obj.asList AObj.asList (fun a b => a = b) AObj.list := by
  constructor
  · intro o; cases o <;> simp [Obj.asList, AObj.asList, Obj.view]
  · intro o a g h; cases o <;> simp [Obj.asList] at h; subst h; exact ⟨_, rfl, rfl, rfl⟩

theorem cast_hash : Cast hash Obj.asHash AObj.asHash (fun a b => Dict.Good hash a ∧ a.abs = b) AObj.hash := by
  constructor
  · intro o; cases o <;> simp [Obj.asHash, AObj.asHash, Obj.view]
  · intro o a g h; cases o <;> simp [Obj.asHash] at h; subst h; exact ⟨_, rfl, ⟨g, rfl⟩, rfl⟩

theorem cast_set : Cast hash Obj.asSet AObj.asSet (fun a b => Dict.Good hash a ∧ a.abs = b) AObj.set := by
  constructor
  · intro o; cases o <;> simp [Obj.asSet, AObj.asSet, Obj.view]
  · intro o a g h; cases o <;> simp [Obj.asSet] at h; subst h; exact ⟨_, rfl, ⟨g, rfl⟩, rfl⟩

/-- related sorted sets -/
def ZRel (hash : Bytes → Nat) (z : Zset) (a : AZ) : Prop := Dict.Good hash z.dict ∧ z.dict.abs = a.f ∧ z.skiplist = a.s

theorem cast_zset : Cast hash Obj.asZset AObj.asZset (ZRel hash) AObj.zset := by
  constructor
  · intro o; cases o <;> simp [Obj.asZset, AObj.asZset, Obj.view]
  · intro o a g h; cases o <;> simp [Obj.asZset] at h; subst h; exact ⟨_, rfl, ⟨g, rfl, rfl⟩, rfl⟩

/-- `get…IfExist` and what follows it. -/
theorem ref_look {α β : Type} {as : Obj → Option α} {aas : AObj → Option β} {R : α → β → Prop} {mk : β → AObj}
    (c : Cast hash as aas R mk) (e : Env) (he : e.hash = hash) {db : Db} (g : db.Good hash) (k : Bytes)
    {f : Look α × Db → Option Out} {r : Option AOut}
    (hm : ∀ db', db'.Good hash → db'.view = A.exp e db.view k → A.look aas (A.exp e db.view k) k = .missing →
      Ref hash (f (.missing, db')) r)
    (hw : ∀ db', db'.Good hash → db'.view = A.exp e db.view k → A.look aas (A.exp e db.view k) k = .wrong →
      Ref hash (f (.wrong, db')) r)
    (hf : ∀ db' a b, db'.Good hash → db'.view = A.exp e db.view k → A.look aas (A.exp e db.view k) k = .found b → R a b →
      db'.view.v k = some (mk b) → (db'.dict.abs k).isSome = true → Ref hash (f (.found a, db')) r) :
    Ref hash (Db.getIfExist as e db k >>= f) r := by
  obtain ⟨db1, h1, g1, v1⟩ := exp_ref e he g k
  obtain ⟨db2, h2, g2, v2, a2⟩ := get_ref e he g1 k
  have hv : db2.view.v k = (db1.dict.abs k).map Obj.view := by rw [v2]; rfl
  unfold Db.getIfExist
  simp only [h1, h2, Option.bind_eq_bind, Option.bind_some]
  rw [← v1, ← v2] at hm hw hf
  unfold A.look at hm hw hf
  rw [hv] at hm hw hf
  cases ho : db1.dict.abs k with
  | none => exact hm db2 g2 rfl (by rw [ho]; rfl)
  | some o =>
    rw [ho] at hm hw hf
    cases ha : as o with
    | none =>
      have := (c.none o).1 ha
      simp only [ha, Option.bind_some]
      exact hw db2 g2 rfl (by simp only [Option.map_some, this])
    | some a =>
      obtain ⟨b, hb, hR, hmk⟩ := c.some o a (g1.objs _ _ ho) ha
      simp only [ha, Option.bind_some]
      refine hf db2 a b g2 rfl (by simp only [Option.map_some, hb]) hR ?_ ?_
      · rw [hv, ho]; simp [hmk]
      · rw [a2, ho]; rfl

/-- `getHash` etc. and what follows. -/
theorem ref_new {α β : Type} {as : Obj → Option α} {aas : AObj → Option β} {R : α → β → Prop} {mk : β → AObj}
    (c : Cast hash as aas R mk) (e : Env) (he : e.hash = hash) (fresh : Obj) (gf : fresh.Good hash) {db : Db} (g : db.Good hash) (k : Bytes)
    {f : Option α × Db → Option Out} {r : Option AOut} {af : AObj} (haf : fresh.view = af)
    (hw : ∀ db', db'.Good hash → A.orNew aas af db.view k = (none, db'.view) → Ref hash (f (none, db')) r)
    (hf : ∀ db' a b, db'.Good hash → A.orNew aas af db.view k = (some b, db'.view) → R a b → (db'.dict.abs k).isSome = true →
      Ref hash (f (some a, db')) r) :
    Ref hash (Db.getOrNew as fresh e db k >>= f) r := by
  subst haf
  obtain ⟨db2, h2, g2, v2, a2⟩ := get_ref e he g k
  unfold Db.getOrNew
  unfold A.orNew at hw hf
  simp only [h2, Option.bind_eq_bind, Option.bind_some]
  have hv : db.view.v k = (db.dict.abs k).map Obj.view := rfl
  rw [hv] at hw hf
  cases ho : db.dict.abs k with
  | none =>
    rw [ho] at hw hf
    obtain ⟨db3, h3, g3, v3, a3⟩ := set_ref e he g2 k fresh gf
    simp only [h3, Option.bind_some, Option.map_none]
    simp only [Option.map_none] at hw hf
    rw [← v2, ← v3] at hw hf
    cases ha : as fresh with
    | none => exact hw db3 g3 (by rw [(c.none _).1 ha])
    | some a =>
      obtain ⟨b, hb, hR, hmk⟩ := c.some _ a gf ha
      exact hf db3 a b g3 (by rw [hb]) hR (by rw [a3]; rfl)
  | some o =>
    rw [ho] at hw hf
    simp only [Option.map_some] at hw hf ⊢
    rw [← v2] at hw hf
    cases ha : as o with
    | none => exact hw db2 g2 (by rw [(c.none o).1 ha])
    | some a =>
      obtain ⟨b, hb, hR, hmk⟩ := c.some o a (g.objs _ _ ho) ha
      exact hf db2 a b g2 (by rw [hb]) hR (by rw [a2, ho]; rfl)

/-! ### Keys and strings -/
variable (e : Env) (he : e.hash = hash) (args : List Bytes) {db : Db} (g : db.Good hash)
include he g

theorem ping_ref : Ref hash (Cmds.ping e args db) (A.ping e args db.view) := rel_ex g rfl

theorem expire_ref : Ref hash (Cmds.expire e args db) (A.expire e args db.view) := by
  unfold Cmds.expire A.expire
  refine ref_bind _ fun key _ => ref_bind _ fun a _ => ?_
  cases atoi a with
  | none => exact rel_ex g rfl
  | some n =>
    obtain ⟨db', h, g', v'⟩ := setExpire_ref e he g key (wrap64 (e.now + wrap64 (n * 1000)))
    simp only [h, Option.bind_eq_bind, Option.bind_some]
    exact rel_ex g' v'

theorem expireAt_ref : Ref hash (Cmds.expireAt e args db) (A.expireAt e args db.view) := by
  unfold Cmds.expireAt A.expireAt
  refine ref_bind _ fun key _ => ref_bind _ fun a _ => ?_
  cases atoi a with
  | none => exact rel_ex g rfl
  | some n =>
    obtain ⟨db', h, g', v'⟩ := setExpire_ref e he g key (wrap64 (n * 1000))
    simp only [h, Option.bind_eq_bind, Option.bind_some]
    exact rel_ex g' v'

theorem ttl_ref : Ref hash (Cmds.ttl e args db) (A.ttl e args db.view) := by
  unfold Cmds.ttl A.ttl
  refine ref_bind _ fun key _ => ?_
  subst he
  obtain ⟨d, h1, h2, h3, _⟩ := Dict.find_map g.dict key
  simp only [h1, Option.bind_eq_bind, Option.bind_some]
  have hv : db.view.v key = (db.dict.abs key).map Obj.view := rfl
  rw [hv]
  cases ho : db.dict.abs key with
  | none => exact rel_ex (good_dict g h2 h3) (view_dict h3)
  | some o =>
    obtain ⟨x, e1, e2, e3, _⟩ := Dict.find_map g.expire key
    simp only [Option.map_some, e1, Option.bind_some]
    have ht : db.view.t key = db.expire.abs key := rfl
    rw [ht]
    have gg : Db.Good e.hash { dict := d, expire := x } := ⟨h2, e2, (good_dict g h2 h3).objs⟩
    have gv : Db.view { dict := d, expire := x } = db.view := by simp [Db.view, h3, e3]
    cases hx : db.expire.abs key with
    | none => exact rel_ex gg gv
    | some dl => exact rel_ex gg gv

theorem set_cmd_ref : Ref hash (Cmds.set e args db) (A.set e args db.view) := by
  unfold Cmds.set A.set
  refine ref_bind _ fun key _ => ref_bind _ fun a _ => ?_
  obtain ⟨db1, h1, g1, v1⟩ := delExpire_ref e he g key
  obtain ⟨db2, h2, g2, v2, _⟩ := set_ref e he g1 key (.str a) trivial
  simp only [h1, h2, Option.bind_eq_bind, Option.bind_some]
  refine rel_ex g2 ?_
  rw [v2, v1]; rfl

theorem setEx_ref : Ref hash (Cmds.setEx e args db) (A.setEx e args db.view) := by
  unfold Cmds.setEx A.setEx
  refine ref_bind _ fun key _ => ref_bind _ fun v _ => ref_bind _ fun a _ => ?_
  cases atoi a with
  | none => exact rel_ex g rfl
  | some n =>
    obtain ⟨db1, h1, g1, v1⟩ := setExpire_ref e he g key (wrap64 (e.now + wrap64 (n * 1000)))
    obtain ⟨db2, h2, g2, v2, _⟩ := set_ref e he g1 key (.str v) trivial
    simp only [h1, h2, Option.bind_eq_bind, Option.bind_some]
    refine rel_ex g2 ?_
    rw [v2, v1]; rfl

theorem get_cmd_ref : Ref hash (Cmds.get e args db) (A.get e args db.view) := by
  unfold Cmds.get A.get
  refine ref_bind _ fun key _ => ?_
  obtain ⟨db1, h1, g1, v1⟩ := exp_ref e he g key
  obtain ⟨db2, h2, g2, v2, a2⟩ := get_ref e he g1 key
  simp only [h1, h2, Option.bind_eq_bind, Option.bind_some]
  rw [← v1, ← v2]
  have hv : db2.view.v key = (db1.dict.abs key).map Obj.view := by rw [v2]; rfl
  rw [hv]
  cases ho : db1.dict.abs key with
  | none => exact rel_ex g2 rfl
  | some o => cases o <;> exact rel_ex g2 rfl

/-! ### Hashes -/

omit he g in
theorem hash_new_good : Dict.Good hash (Dict.new : Dict Bytes Bytes) := ⟨Dict.new_inv, rfl⟩

omit he g in
theorem abs_new {V : Type} : (Dict.new : Dict Bytes V).abs = nil := by
  funext x; simp [Dict.abs, Dict.toList, Dict.new, nil]

omit g in
theorem hsetLoop_ref : ∀ (l : List Bytes) (h : Dict Bytes Bytes) (n : Nat), Dict.Good hash h →
    ∃ h', Cmds.hsetLoop e l h n = some (h', (A.hsetLoop l h.abs n).2) ∧ Dict.Good hash h' ∧ h'.abs = (A.hsetLoop l h.abs n).1
  | [], h, n, gh => ⟨h, rfl, gh, rfl⟩
  | [x], h, n, gh => ⟨h, rfl, gh, rfl⟩
  | f :: v :: rest, h, n, gh => by
    obtain ⟨h1, e1, g1, a1⟩ := Dict.set_map gh f v
    obtain ⟨h2, e2, g2, a2⟩ := hsetLoop_ref rest h1 (if (h.abs f).isNone then n + 1 else n) g1
    have hu : h1.abs = upd h.abs f (some v) := by rw [a1]; rfl
    rw [hu] at e2 a2
    exact ⟨h2, by simp only [Cmds.hsetLoop, he, e1, Option.bind_eq_bind, Option.bind_some]; exact e2, g2, a2⟩

theorem hset_ref : Ref hash (Cmds.hset e args db) (A.hset e args db.view) := by
  unfold Cmds.hset A.hset
  split
  · exact rel_ex g rfl
  · refine ref_bind _ fun key _ => ?_
    refine ref_new cast_hash e he (.hash Dict.new) hash_new_good g key (af := .hash nil) (by simp [Obj.view, abs_new]) ?_ ?_
    · intro db' g' hl; simp only [hl]; exact rel_ex g' rfl
    · rintro db' a b g' hl ⟨ga, rfl⟩ hs
      obtain ⟨h', e1, g1, a1⟩ := hsetLoop_ref e he (args.drop 2) a 0 ga
      obtain ⟨p1, p2⟩ := put_ref e he g' key (.hash h') g1 hs
      simp only [hl, e1, Option.bind_eq_bind, Option.bind_some]
      refine rel_ex p1 ?_
      rw [p2]; simp only [Obj.view, a1]

theorem hget_ref : Ref hash (Cmds.hget e args db) (A.hget e args db.view) := by
  unfold Cmds.hget A.hget
  refine ref_bind _ fun key _ => ref_bind _ fun field _ => ?_
  refine ref_look cast_hash e he g key ?_ ?_ ?_
  · intro db' g' hv hl; simp only [hl]; exact rel_ex g' hv
  · intro db' g' hv hl; simp only [hl]; exact rel_ex g' hv
  · rintro db' a b g' hv hl ⟨ga, rfl⟩ hk hs
    obtain ⟨d, h1, h2, h3, _⟩ := Dict.get_map ga field
    obtain ⟨p1, p2⟩ := put_same e he g' key (.hash d) h2 (by rw [hk]; simp [Obj.view, h3])
    simp only [hl, he, h1, Option.bind_eq_bind, Option.bind_some]
    rw [hv] at p2
    cases a.abs field with
    | none => exact rel_ex p1 p2
    | some v => exact rel_ex p1 p2

omit g in
theorem hdelLoop_ref : ∀ (l : List Bytes) (h : Dict Bytes Bytes) (n : Nat), Dict.Good hash h →
    ∃ h', Cmds.hdelLoop e l h n = some (h', (A.delLoop l h.abs n).2) ∧ Dict.Good hash h' ∧ h'.abs = (A.delLoop l h.abs n).1
  | [], h, n, gh => ⟨h, rfl, gh, rfl⟩
  | f :: rest, h, n, gh => by
    obtain ⟨r, h1, e1, g1, a1, hr⟩ := Dict.delete_map gh f
    obtain ⟨h2, e2, g2, a2⟩ := hdelLoop_ref rest h1 (if (h.abs f).isSome then n + 1 else n) g1
    have hu : h1.abs = upd h.abs f none := by rw [a1]; rfl
    have hb : r.isNone = (h.abs f).isSome := by rw [Bool.eq_iff_iff, ← hr, Option.isNone_iff_eq_none]
    rw [hu] at e2 a2
    exact ⟨h2, by simp only [Cmds.hdelLoop, he, e1, hb, Option.bind_eq_bind, Option.bind_some]; exact e2, g2, a2⟩

theorem hdel_ref : Ref hash (Cmds.hdel e args db) (A.hdel e args db.view) := by
  unfold Cmds.hdel A.hdel
  refine ref_bind _ fun key _ => ?_
  refine ref_look cast_hash e he g key ?_ ?_ ?_
  · intro db' g' hv hl; simp only [hl]; exact rel_ex g' hv
  · intro db' g' hv hl; simp only [hl]; exact rel_ex g' hv
  · rintro db' a b g' hv hl ⟨ga, rfl⟩ hk hs
    obtain ⟨h', e1, g1, a1⟩ := hdelLoop_ref e he (args.drop 2) a 0 ga
    obtain ⟨p1, p2⟩ := put_ref e he g' key (.hash h') g1 hs
    simp only [hl, e1, Option.bind_eq_bind, Option.bind_some]
    refine rel_ex p1 ?_
    rw [p2, hv]; simp only [Obj.view, a1]

theorem hexists_ref : Ref hash (Cmds.hexists e args db) (A.hexists e args db.view) := by
  unfold Cmds.hexists A.hexists
  refine ref_bind _ fun key _ => ref_bind _ fun field _ => ?_
  refine ref_look cast_hash e he g key ?_ ?_ ?_
  · intro db' g' hv hl; simp only [hl]; exact rel_ex g' hv
  · intro db' g' hv hl; simp only [hl]; exact rel_ex g' hv
  · rintro db' a b g' hv hl ⟨ga, rfl⟩ hk hs
    obtain ⟨d, h1, h2, h3, _⟩ := Dict.find_map ga field
    obtain ⟨p1, p2⟩ := put_same e he g' key (.hash d) h2 (by rw [hk]; simp [Obj.view, h3])
    simp only [hl, he, h1, Option.bind_eq_bind, Option.bind_some, Option.isSome_map]
    rw [hv] at p2
    exact rel_ex p1 p2

omit he g in
theorem enum_toList {V : Type} {d : Dict Bytes V} (gd : Dict.Good hash d) : Enum d.abs (d.toList.map Prod.fst) := by
  refine ⟨gd.inv.nodup, fun x => ?_⟩
  cases h : d.abs x with
  | none => simpa using (Dict.abs_eq_none x).1 h
  | some v =>
    have := (Dict.abs_eq_some gd.inv x v).1 h
    simpa using ⟨v, this⟩

omit he g in
theorem size_ref {V : Type} {d : Dict Bytes V} (gd : Dict.Good hash d) : Dict.size d = some ((d.toList.map Prod.fst).length : Int) := by
  rw [Dict.size_spec d gd.inv, List.length_map]

theorem hkeys_ref : Ref hash (Cmds.hkeys e args db) (A.hkeys e args db.view) := by
  unfold Cmds.hkeys A.hkeys
  refine ref_bind _ fun key _ => ?_
  refine ref_look cast_hash e he g key ?_ ?_ ?_
  · intro db' g' hv hl; simp only [hl]; exact rel_ex g' hv
  · intro db' g' hv hl; simp only [hl]; exact rel_ex g' hv
  · rintro db' a b g' hv hl ⟨ga, rfl⟩ hk hs
    have hc := Dict.collect_spec a ga.inv (by rw [ga.idle]; omega) (fun _ => ga.idle)
    obtain ⟨p1, p2⟩ := put_same e he g' key (.hash a) ga (by rw [hk]; rfl)
    rw [hv] at p2
    simp only [hl, size_ref ga, hc, Option.bind_eq_bind, Option.bind_some]
    exact ⟨p1, p2, rfl, _, enum_toList ga, rfl⟩

theorem hlen_ref : Ref hash (Cmds.hlen e args db) (A.hlen e args db.view) := by
  unfold Cmds.hlen A.hlen
  refine ref_bind _ fun key _ => ?_
  refine ref_look cast_hash e he g key ?_ ?_ ?_
  · intro db' g' hv hl; simp only [hl]; exact rel_ex g' hv
  · intro db' g' hv hl; simp only [hl]; exact rel_ex g' hv
  · rintro db' a b g' hv hl ⟨ga, rfl⟩ hk hs
    simp only [hl, size_ref ga, Option.bind_eq_bind, Option.bind_some]
    exact ⟨g', hv, rfl, _, enum_toList ga, rfl⟩

/-! ### Lists -/

theorem lpush_ref : Ref hash (Cmds.lpush e args db) (A.lpush e args db.view) := by
  unfold Cmds.lpush A.lpush
  refine ref_bind _ fun key _ => ?_
  refine ref_new cast_list e he (.list Quicklist.new) trivial g key (af := .list Quicklist.new) rfl ?_ ?_
  · intro db' g' hl; simp only [hl]; exact rel_ex g' rfl
  · rintro db' a b g' hl rfl hs
    simp only [hl]
    refine ref_bind _ fun q _ => ?_
    obtain ⟨p1, p2⟩ := put_ref e he g' key (.list q) trivial hs
    exact rel_ex p1 p2

theorem rpush_ref : Ref hash (Cmds.rpush e args db) (A.rpush e args db.view) := by
  unfold Cmds.rpush A.rpush
  refine ref_bind _ fun key _ => ?_
  refine ref_new cast_list e he (.list Quicklist.new) trivial g key (af := .list Quicklist.new) rfl ?_ ?_
  · intro db' g' hl; simp only [hl]; exact rel_ex g' rfl
  · rintro db' a b g' hl rfl hs
    simp only [hl]
    obtain ⟨p1, p2⟩ := put_ref e he g' key (.list (Cmds.rpushLoop (args.drop 2) a)) trivial hs
    exact rel_ex p1 p2

theorem popCmd_ref (pop : Quicklist Bytes → Option (Option Bytes × Quicklist Bytes)) :
    Ref hash (Cmds.popCmd pop e args db) (A.popCmd pop e args db.view) := by
  unfold Cmds.popCmd A.popCmd
  refine ref_bind _ fun key _ => ?_
  refine ref_look cast_list e he g key ?_ ?_ ?_
  · intro db' g' hv hl; simp only [hl]; exact rel_ex g' hv
  · intro db' g' hv hl; simp only [hl]; exact rel_ex g' hv
  · rintro db' a b g' hv hl rfl hk hs
    simp only [hl]
    split
    · exact rel_ex g' hv
    · refine ref_bind _ fun x _ => ?_
      obtain ⟨v, q⟩ := x
      refine ref_bind _ fun v _ => ?_
      obtain ⟨p1, p2⟩ := put_ref e he g' key (.list q) trivial hs
      rw [hv] at p2
      exact rel_ex p1 p2

theorem llen_ref : Ref hash (Cmds.llen e args db) (A.llen e args db.view) := by
  unfold Cmds.llen A.llen
  refine ref_bind _ fun key _ => ?_
  refine ref_look cast_list e he g key ?_ ?_ ?_
  · intro db' g' hv hl; simp only [hl]; exact rel_ex g' hv
  · intro db' g' hv hl; simp only [hl]; exact rel_ex g' hv
  · rintro db' a b g' hv hl rfl hk hs
    simp only [hl]; exact rel_ex g' hv

theorem lindex_ref : Ref hash (Cmds.lindex e args db) (A.lindex e args db.view) := by
  unfold Cmds.lindex A.lindex
  refine ref_bind _ fun key _ => ?_
  refine ref_look cast_list e he g key ?_ ?_ ?_
  · intro db' g' hv hl; simp only [hl]; exact rel_ex g' hv
  · intro db' g' hv hl; simp only [hl]; exact rel_ex g' hv
  · rintro db' q b g' hv hl rfl hk hs
    simp only [hl]
    refine ref_bind _ fun a _ => ?_
    cases atoi a with
    | none => exact rel_ex g' hv
    | some i =>
      refine ref_bind _ fun v _ => ?_
      cases v <;> exact rel_ex g' hv

theorem lrange_ref : Ref hash (Cmds.lrange e args db) (A.lrange e args db.view) := by
  unfold Cmds.lrange A.lrange
  refine ref_bind _ fun key _ => ?_
  refine ref_look cast_list e he g key ?_ ?_ ?_
  · intro db' g' hv hl; simp only [hl]; exact rel_ex g' hv
  · intro db' g' hv hl; simp only [hl]; exact rel_ex g' hv
  · rintro db' q b g' hv hl rfl hk hs
    simp only [hl]
    refine ref_bind _ fun a _ => ?_
    cases atoi a with
    | none => exact rel_ex g' hv
    | some i =>
      refine ref_bind _ fun b _ => ?_
      cases atoi b with
      | none => exact rel_ex g' hv
      | some j =>
        refine ref_bind _ fun vs _ => ?_
        by_cases hvs : vs = []
        · simp only [hvs, if_true]; exact rel_ex g' hv
        · simp only [hvs, if_false]; exact rel_ex g' hv

/-! ### Sets -/

omit he g in
theorem set_new_good : Dict.Good hash (Dict.new : Dict Bytes Unit) := ⟨Dict.new_inv, rfl⟩

omit g in
theorem saddLoop_ref : ∀ (l : List Bytes) (h : MSet Bytes) (n : Nat), Dict.Good hash h →
    ∃ h', Cmds.saddLoop e l h n = some (h', (A.saddLoop l h.abs n).2) ∧ Dict.Good hash h' ∧ h'.abs = (A.saddLoop l h.abs n).1
  | [], h, n, gh => ⟨h, rfl, gh, rfl⟩
  | m :: rest, h, n, gh => by
    obtain ⟨h1, e1, g1, a1⟩ := Dict.set_map gh m ()
    obtain ⟨h2, e2, g2, a2⟩ := saddLoop_ref rest h1 (if (h.abs m).isNone then n + 1 else n) g1
    have hu : h1.abs = upd h.abs m (some ()) := by rw [a1]; rfl
    rw [hu] at e2 a2
    exact ⟨h2, by simp only [Cmds.saddLoop, MSet.add, he, e1, Option.bind_eq_bind, Option.bind_some]; exact e2, g2, a2⟩

theorem sadd_ref : Ref hash (Cmds.sadd e args db) (A.sadd e args db.view) := by
  unfold Cmds.sadd A.sadd
  refine ref_bind _ fun key _ => ?_
  refine ref_new cast_set e he (.set MSet.new) set_new_good g key (af := .set nil) (by simp [Obj.view, MSet.new, abs_new]) ?_ ?_
  · intro db' g' hl; simp only [hl]; exact rel_ex g' rfl
  · rintro db' a b g' hl ⟨ga, rfl⟩ hs
    obtain ⟨h', e1, g1, a1⟩ := saddLoop_ref e he (args.drop 2) a 0 ga
    obtain ⟨p1, p2⟩ := put_ref e he g' key (.set h') g1 hs
    simp only [hl, e1, Option.bind_eq_bind, Option.bind_some]
    refine rel_ex p1 ?_
    rw [p2]; simp only [Obj.view, a1]

omit g in
theorem sremLoop_ref : ∀ (l : List Bytes) (h : MSet Bytes) (n : Nat), Dict.Good hash h →
    ∃ h', Cmds.sremLoop e l h n = some (h', (A.delLoop l h.abs n).2) ∧ Dict.Good hash h' ∧ h'.abs = (A.delLoop l h.abs n).1
  | [], h, n, gh => ⟨h, rfl, gh, rfl⟩
  | f :: rest, h, n, gh => by
    obtain ⟨r, h1, e1, g1, a1, hr⟩ := Dict.delete_map gh f
    obtain ⟨h2, e2, g2, a2⟩ := sremLoop_ref rest h1 (if (h.abs f).isSome then n + 1 else n) g1
    have hu : h1.abs = upd h.abs f none := by rw [a1]; rfl
    have hb : r.isNone = (h.abs f).isSome := by rw [Bool.eq_iff_iff, ← hr, Option.isNone_iff_eq_none]
    rw [hu] at e2 a2
    exact ⟨h2, by simp only [Cmds.sremLoop, MSet.delete, he, e1, hb, Option.bind_eq_bind, Option.bind_some]; exact e2, g2, a2⟩

theorem srem_ref : Ref hash (Cmds.srem e args db) (A.srem e args db.view) := by
  unfold Cmds.srem A.srem
  refine ref_bind _ fun key _ => ?_
  refine ref_look cast_set e he g key ?_ ?_ ?_
  · intro db' g' hv hl; simp only [hl]; exact rel_ex g' hv
  · intro db' g' hv hl; simp only [hl]; exact rel_ex g' hv
  · rintro db' a b g' hv hl ⟨ga, rfl⟩ hk hs
    obtain ⟨h', e1, g1, a1⟩ := sremLoop_ref e he (args.drop 2) a 0 ga
    obtain ⟨p1, p2⟩ := put_ref e he g' key (.set h') g1 hs
    simp only [hl, e1, Option.bind_eq_bind, Option.bind_some]
    refine rel_ex p1 ?_
    rw [p2, hv]; simp only [Obj.view, a1]

theorem scard_ref : Ref hash (Cmds.scard e args db) (A.scard e args db.view) := by
  unfold Cmds.scard A.scard
  refine ref_bind _ fun key _ => ?_
  refine ref_look cast_set e he g key ?_ ?_ ?_
  · intro db' g' hv hl; simp only [hl]; exact rel_ex g' hv
  · intro db' g' hv hl; simp only [hl]; exact rel_ex g' hv
  · rintro db' a b g' hv hl ⟨ga, rfl⟩ hk hs
    simp only [hl, MSet.size, size_ref ga, Option.bind_eq_bind, Option.bind_some]
    exact ⟨g', hv, rfl, _, enum_toList ga, rfl⟩

theorem sismember_ref : Ref hash (Cmds.sismember e args db) (A.sismember e args db.view) := by
  unfold Cmds.sismember A.sismember
  refine ref_bind _ fun key _ => ref_bind _ fun m _ => ?_
  refine ref_look cast_set e he g key ?_ ?_ ?_
  · intro db' g' hv hl; simp only [hl]; exact rel_ex g' hv
  · intro db' g' hv hl; simp only [hl]; exact rel_ex g' hv
  · rintro db' a b g' hv hl ⟨ga, rfl⟩ hk hs
    obtain ⟨d, h1, h2, h3, _⟩ := Dict.find_map ga m
    obtain ⟨p1, p2⟩ := put_same e he g' key (.set d) h2 (by rw [hk]; simp [Obj.view, h3])
    simp only [hl, MSet.contains, he, h1, Option.bind_eq_bind, Option.bind_some, Option.isSome_map]
    rw [hv] at p2
    exact rel_ex p1 p2

omit he g in
theorem reply_set {s : MSet Bytes} (gs : Dict.Good hash s) :
    ∃ r, Reply.set s = some (r, s) ∧ A.dom s.abs r := by
  have hr := MSet.range_spec s gs.inv (by rw [gs.idle]; omega) (fun _ => gs.idle)
  refine ⟨Reply.array (MSet.mems s), ?_, _, enum_toList gs, rfl⟩
  unfold Reply.set
  simp only [MSet.size, size_ref gs, hr, Option.bind_eq_bind, Option.bind_some]
  rfl

theorem smembers_ref : Ref hash (Cmds.smembers e args db) (A.smembers e args db.view) := by
  unfold Cmds.smembers A.smembers
  refine ref_bind _ fun key _ => ?_
  refine ref_look cast_set e he g key ?_ ?_ ?_
  · intro db' g' hv hl; simp only [hl]; exact rel_ex g' hv
  · intro db' g' hv hl; simp only [hl]; exact rel_ex g' hv
  · rintro db' a b g' hv hl ⟨ga, rfl⟩ hk hs
    obtain ⟨r, h1, h2⟩ := reply_set ga
    obtain ⟨p1, p2⟩ := put_same e he g' key (.set a) ga (by rw [hk]; rfl)
    rw [hv] at p2
    simp only [hl, h1, Option.bind_eq_bind, Option.bind_some]
    exact ⟨p1, p2, rfl, h2⟩

/-- a set operation of the model and its Boolean function -/
structure OpRel (hash : Bytes → Nat) (op : Cmds.SetOp) (f : Bool → Bool → Bool) : Prop where
  two : ∀ a b : MSet Bytes, Dict.Good hash a → Dict.Good hash b → ∃ a' b' r, op.two hash a b = some (a', b', r) ∧ Dict.Good hash a' ∧
    a'.abs = a.abs ∧ Dict.Good hash b' ∧ b'.abs = b.abs ∧ Dict.Good hash r ∧
    r.abs = fun x => if f (a.abs x).isSome (b.abs x).isSome then some () else none
  self : ∀ a : MSet Bytes, Dict.Good hash a → ∃ r, op.self hash a = some (a, r) ∧ Dict.Good hash r ∧
    r.abs = fun x => if f (a.abs x).isSome (a.abs x).isSome then some () else none

omit he g in
theorem mem_isSome {s : MSet Bytes} (gs : Dict.Good hash s) (x : Bytes) : MSet.Mem s x ↔ (s.abs x).isSome = true :=
  (enum_toList gs).2 x

omit he g in
theorem abs_of_mem {s : MSet Bytes} (gs : Dict.Good hash s) (b : Bytes → Bool) (h : ∀ x, MSet.Mem s x ↔ b x = true) :
    s.abs = fun x => if b x then some () else none := by
  funext x
  have h1 := (mem_isSome gs x).symm.trans (h x)
  cases hx : s.abs x with
  | none => rw [hx] at h1; cases hb : b x <;> simp_all
  | some v => rw [hx] at h1; cases v; have : b x = true := h1.1 rfl; simp [this]

omit he g in
theorem op_union : OpRel hash { two := MSet.union, self := MSet.unionSelf, stopIfMissing := false } (fun a b => a || b) := by
  constructor
  · intro a b ga gb
    obtain ⟨r, h1, h2, h3⟩ := MSet.union_spec a b ga gb
    refine ⟨a, b, r, h1, ga, rfl, gb, rfl, h2, abs_of_mem h2 (fun x => (a.abs x).isSome || (b.abs x).isSome) ?_⟩
    intro x; rw [h3, mem_isSome ga, mem_isSome gb]; simp
  · intro a ga
    obtain ⟨r, h1, h2, h3⟩ := MSet.unionSelf_spec a ga
    refine ⟨r, h1, h2, abs_of_mem h2 (fun x => (a.abs x).isSome || (a.abs x).isSome) ?_⟩
    intro x; rw [h3, mem_isSome ga]; simp

omit he g in
theorem op_select (want : Bool) (f : Bool → Bool → Bool) (hf : ∀ a b, f a b = (a && (b == want))) (stop : Bool) :
    OpRel hash { two := fun h => MSet.select h want, self := fun h => MSet.selectSelf h want, stopIfMissing := stop } f := by
  constructor
  · intro a b ga gb
    obtain ⟨b', r, h1, hb, h2, h3⟩ := MSet.select_spec want a b ga gb
    refine ⟨a, b', r, h1, ga, rfl, hb.good gb, ?_, h2, abs_of_mem h2 (fun x => f (a.abs x).isSome (b.abs x).isSome) ?_⟩
    · exact hb.abs gb.inv
    · intro x; rw [h3, mem_isSome ga, mem_isSome gb, hf]; cases want <;> simp
  · intro a ga
    obtain ⟨r, h1, h2, h3⟩ := MSet.selectSelf_spec want a ga
    refine ⟨r, h1, h2, abs_of_mem h2 (fun x => f (a.abs x).isSome (a.abs x).isSome) ?_⟩
    intro x; rw [h3, mem_isSome ga, hf]; cases want <;> cases a.abs x <;> simp

theorem look_ref {α β : Type} {as : Obj → Option α} {aas : AObj → Option β} {R : α → β → Prop} {mk : β → AObj}
    (c : Cast hash as aas R mk) (k : Bytes) :
    ∃ l db', Db.getIfExist as e db k = some (l, db') ∧ db'.Good hash ∧ db'.view = A.exp e db.view k ∧
      ((l = .missing ∧ A.look aas (A.exp e db.view k) k = .missing) ∨ (l = .wrong ∧ A.look aas (A.exp e db.view k) k = .wrong) ∨
       ∃ a b, l = .found a ∧ A.look aas (A.exp e db.view k) k = .found b ∧ R a b ∧ db'.view.v k = some (mk b)) := by
  obtain ⟨db1, h1, g1, v1⟩ := exp_ref e he g k
  obtain ⟨db2, h2, g2, v2, a2⟩ := get_ref e he g1 k
  have hv : db2.view.v k = (db1.dict.abs k).map Obj.view := by rw [v2]; rfl
  unfold Db.getIfExist
  simp only [h1, h2, Option.bind_eq_bind, Option.bind_some]
  rw [← v1, ← v2]
  unfold A.look
  rw [hv]
  cases ho : db1.dict.abs k with
  | none => exact ⟨_, db2, rfl, g2, rfl, Or.inl ⟨rfl, rfl⟩⟩
  | some o =>
    cases ha : as o with
    | none =>
      have := (c.none o).1 ha
      exact ⟨.wrong, db2, by simp only [ha], g2, rfl, Or.inr (Or.inl ⟨rfl, by simp only [Option.map_some, this]⟩)⟩
    | some a =>
      obtain ⟨b, hb, hR, hmk⟩ := c.some o a (g1.objs _ _ ho) ha
      exact ⟨.found a, db2, by simp only [ha], g2, rfl, Or.inr (Or.inr ⟨a, b, rfl, by simp only [Option.map_some, hb], hR, by rw [hv, ho, Option.map_some, hmk]⟩)⟩

/-- the local variable of SDIFF/SINTER/SUNION -/
def CurRel (hash : Bytes → Nat) (e : Env) (s : AS) : Cmds.Cur → Fn Unit → Prop
  | .fresh a, h => Dict.Good hash a ∧ a.abs = h
  | .stored k a, h => Dict.Good hash a ∧ a.abs = h ∧ s.v k = some (.set h) ∧ A.expired e s k = false

omit he g in
theorem exp_other {s : AS} {k k' : Bytes} (h : A.expired e s k' = false) :
    (A.exp e s k).v k' = s.v k' ∧ A.expired e (A.exp e s k) k' = false := by
  unfold A.exp
  split
  · next h1 =>
    have hne : k' ≠ k := by rintro rfl; rw [h] at h1; cases h1
    refine ⟨upd_ne _ _ hne, ?_⟩
    unfold A.expired at h ⊢
    simp only [upd_ne _ _ hne]; exact h
  · exact ⟨rfl, h⟩

omit he g in
theorem opLoop_ref (he : e.hash = hash) {op : Cmds.SetOp} {f : Bool → Bool → Bool} (ho : OpRel hash op f) :
    ∀ (rest : List Bytes) (cur : Cmds.Cur) (h : Fn Unit) (db : Db), db.Good hash → CurRel hash e db.view cur h →
    ∃ r db', Cmds.opLoop op e rest cur db = some (r, db') ∧ db'.Good hash ∧ db'.view = (A.opLoop f op.stopIfMissing e rest h db.view).2 ∧
      ((∃ x, r = .inr x ∧ (A.opLoop f op.stopIfMissing e rest h db.view).1 = .inr x) ∨
       ∃ c' h', r = .inl c' ∧ (A.opLoop f op.stopIfMissing e rest h db.view).1 = .inl h' ∧ CurRel hash e db'.view c' h')
  | [], cur, h, db, g, hc => ⟨_, db, rfl, g, rfl, Or.inr ⟨cur, h, rfl, rfl, hc⟩⟩
  | key :: rest, cur, h, db, g, hc => by
    obtain ⟨l, db1, h1, g1, v1, hl⟩ := look_ref e he g cast_set key
    have hc1 : CurRel hash e db1.view cur h := by
      cases cur with
      | fresh a => exact hc
      | stored k a =>
        obtain ⟨c1, c2, c3, c4⟩ := hc
        have := exp_other e (k := key) c4
        rw [← v1] at this
        exact ⟨c1, c2, by rw [this.1, c3], this.2⟩
    unfold Cmds.opLoop A.opLoop
    simp only [h1, Option.bind_eq_bind, Option.bind_some]
    rcases hl with ⟨rfl, hl⟩ | ⟨rfl, hl⟩ | ⟨a, b, rfl, hl, ⟨ga, rfl⟩, hk⟩
    · simp only [hl]
      cases hst : op.stopIfMissing with
      | true =>
        simp only [if_true]
        exact ⟨_, db1, rfl, g1, v1, Or.inl ⟨_, rfl, rfl⟩⟩
      | false =>
        have := opLoop_ref he ho rest cur h db1 g1 hc1
        rw [hst, v1] at this
        simpa using this
    · simp only [hl]
      exact ⟨_, db1, rfl, g1, v1, Or.inl ⟨_, rfl, rfl⟩⟩
    · simp only [hl]
      have step : ∃ c2 db2, Cmds.applyOp op e db1 cur key a = some (c2, db2) ∧ db2.Good hash ∧ db2.view = db1.view ∧
          CurRel hash e db2.view c2 (fun x => if f (h x).isSome (a.abs x).isSome then some () else none) := by
        unfold Cmds.applyOp
        cases cur with
        | fresh s =>
          obtain ⟨gs, rfl⟩ := hc1
          obtain ⟨s', a', r, e1, e2, e3, e4, e5, e6, e7⟩ := ho.two s a gs ga
          obtain ⟨p1, p2⟩ := put_same e he g1 key (.set a') e4 (by rw [hk]; simp [Obj.view, e5])
          refine ⟨.fresh r, Db.put e db1 key (.set a'), ?_, p1, p2, e6, e7⟩
          simp only [he, e1, Option.bind_eq_bind, Option.bind_some]
        | stored k1 s =>
          obtain ⟨gs, rfl, hk1, hx⟩ := hc1
          by_cases hkk : k1 = key
          · subst hkk
            rw [hk] at hk1
            simp only [Option.some.injEq, AObj.set.injEq] at hk1
            obtain ⟨r, e1, e2, e3⟩ := ho.self s gs
            obtain ⟨p1, p2⟩ := put_same e he g1 k1 (.set s) gs (by rw [hk]; simp [Obj.view, hk1])
            refine ⟨.fresh r, Db.put e db1 k1 (.set s), ?_, p1, p2, e2, ?_⟩
            · simp only [he, e1, Option.bind_eq_bind, Option.bind_some, if_true]
            · rw [e3, hk1]
          · obtain ⟨s', a', r, e1, e2, e3, e4, e5, e6, e7⟩ := ho.two s a gs ga
            obtain ⟨p1, p2⟩ := put_same e he g1 key (.set a') e4 (by rw [hk]; simp [Obj.view, e5])
            obtain ⟨q1, q2⟩ := put_same e he p1 k1 (.set s') e2 (by rw [p2, hk1]; simp [Obj.view, e3])
            refine ⟨.fresh r, Db.put e (Db.put e db1 key (.set a')) k1 (.set s'), ?_, q1, by rw [q2, p2], e6, e7⟩
            simp only [he, e1, Option.bind_eq_bind, Option.bind_some, if_neg hkk]
      obtain ⟨c2, db2, s1, s2, s3, s4⟩ := step
      have := opLoop_ref he ho rest c2 _ db2 s2 s4
      rw [s3, v1] at this
      simp only [s1, Option.bind_some]
      exact this

theorem setOp_ref {op : Cmds.SetOp} {f : Bool → Bool → Bool} (ho : OpRel hash op f) :
    Ref hash (Cmds.setOpCmd op e args db) (A.setOp f op.stopIfMissing e args db.view) := by
  unfold Cmds.setOpCmd A.setOp
  refine ref_bind _ fun key _ => ?_
  refine ref_look cast_set e he g key ?_ ?_ ?_
  · intro db' g' hv hl; simp only [hl]; exact rel_ex g' hv
  · intro db' g' hv hl; simp only [hl]; exact rel_ex g' hv
  · rintro db' a b g' hv hl ⟨ga, rfl⟩ hk hs
    have hx : A.expired e db'.view key = false := by
      rw [hv]; unfold A.exp
      by_cases h : A.expired e db.view key = true
      · rw [if_pos h]; simp [A.expired]
      · rw [if_neg h]; simpa using h
    obtain ⟨r, db2, h1, g2, v2, hr⟩ := opLoop_ref e he ho (args.drop 2) (.stored key a) a.abs db' g' ⟨ga, rfl, hk, hx⟩
    rw [hv] at v2 hr
    simp only [hl, h1, Option.bind_eq_bind, Option.bind_some]
    generalize A.opLoop f op.stopIfMissing e (args.drop 2) a.abs (A.exp e db.view key) = res at v2 hr ⊢
    obtain ⟨res, s2⟩ := res
    simp only at v2 hr
    rcases hr with ⟨x, rfl, rfl⟩ | ⟨c', h', rfl, rfl, hc⟩
    · exact rel_ex g2 v2
    · cases c' with
      | fresh s =>
        obtain ⟨gs, rfl⟩ := hc
        obtain ⟨r, e1, e2⟩ := reply_set gs
        simp only [e1, Option.bind_some]
        exact ⟨g2, v2, rfl, e2⟩
      | stored k s =>
        obtain ⟨gs, rfl, hk', _⟩ := hc
        obtain ⟨r, e1, e2⟩ := reply_set gs
        obtain ⟨p1, p2⟩ := put_same e he g2 k (.set s) gs (by rw [hk']; rfl)
        simp only [e1, Option.bind_some]
        exact ⟨p1, by rw [p2, v2], rfl, e2⟩

theorem sdiff_ref : Ref hash (Cmds.sdiff e args db) (A.sdiff e args db.view) :=
  setOp_ref e he args g (op_select false _ (by intro a b; cases a <;> cases b <;> rfl) false)
theorem sinter_ref : Ref hash (Cmds.sinter e args db) (A.sinter e args db.view) :=
  setOp_ref e he args g (op_select true _ (by intro a b; cases a <;> cases b <;> rfl) true)
theorem sunion_ref : Ref hash (Cmds.sunion e args db) (A.sunion e args db.view) := setOp_ref e he args g op_union

end Metis
