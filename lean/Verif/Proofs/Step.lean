import Verif.Proofs.AbsRefZ
import Verif.Spec.Keyspace
/-!
All commands on databases at once: what one command can do to the view of a database.
-/
set_option linter.unusedSectionVars false
set_option linter.unusedSimpArgs false
set_option linter.unusedVariables false
namespace Metis
open Spec
variable {hash : Bytes → Nat}

/-- The commands that work on the client's database. -/
def dbProc : Cmd → Option (Env → List Bytes → Db → Option Out)
  | .ping => some Cmds.ping
  | .select => none
  | .auth => none
  | .bgrewriteaof => none
  | .expire => some Cmds.expire
  | .expireat => some Cmds.expireAt
  | .ttl => some Cmds.ttl
  | .keys => some Cmds.keys
  | .set => some Cmds.set
  | .setex => some Cmds.setEx
  | .get => some Cmds.get
  | .randomget => some Cmds.randomGet
  | .hset => some Cmds.hset
  | .hget => some Cmds.hget
  | .hdel => some Cmds.hdel
  | .hexists => some Cmds.hexists
  | .hkeys => some Cmds.hkeys
  | .hlen => some Cmds.hlen
  | .lpush => some Cmds.lpush
  | .rpush => some Cmds.rpush
  | .lpop => some Cmds.lpop
  | .rpop => some Cmds.rpop
  | .llen => some Cmds.llen
  | .lindex => some Cmds.lindex
  | .lrange => some Cmds.lrange
  | .sadd => some Cmds.sadd
  | .srem => some Cmds.srem
  | .spop => some Cmds.spop
  | .scard => some Cmds.scard
  | .sismember => some Cmds.sismember
  | .smembers => some Cmds.smembers
  | .sdiff => some Cmds.sdiff
  | .sinter => some Cmds.sinter
  | .sunion => some Cmds.sunion
  | .zadd => some Cmds.zadd
  | .zrange => some Cmds.zrange
  | .zrangebyscore => some Cmds.zrangeByScore
  | .zrem => some Cmds.zrem
  | .zremrangebyrank => some Cmds.zremRangeByRank
  | .zremrangebyscore => some Cmds.zremRangeByScore
  | .zcard => some Cmds.zcard
  | .zcount => some Cmds.zcount
  | .zscore => some Cmds.zscore

/-- The same on views, for the commands without random choice. -/
def aFn : Cmd → Option (Env → List Bytes → AS → Option AOut)
  | .ping => some A.ping
  | .select => none
  | .auth => none
  | .bgrewriteaof => none
  | .expire => some A.expire
  | .expireat => some A.expireAt
  | .ttl => some A.ttl
  | .keys => some A.keys
  | .set => some A.set
  | .setex => some A.setEx
  | .get => some A.get
  | .randomget => none
  | .hset => some A.hset
  | .hget => some A.hget
  | .hdel => some A.hdel
  | .hexists => some A.hexists
  | .hkeys => some A.hkeys
  | .hlen => some A.hlen
  | .lpush => some A.lpush
  | .rpush => some A.rpush
  | .lpop => some A.lpop
  | .rpop => some A.rpop
  | .llen => some A.llen
  | .lindex => some A.lindex
  | .lrange => some A.lrange
  | .sadd => some A.sadd
  | .srem => some A.srem
  | .spop => none
  | .scard => some A.scard
  | .sismember => some A.sismember
  | .smembers => some A.smembers
  | .sdiff => some A.sdiff
  | .sinter => some A.sinter
  | .sunion => some A.sunion
  | .zadd => some A.zadd
  | .zrange => some A.zrange
  | .zrangebyscore => some A.zrangeByScore
  | .zrem => some A.zrem
  | .zremrangebyrank => some A.zremRangeByRank
  | .zremrangebyscore => some A.zremRangeByScore
  | .zcard => some A.zcard
  | .zcount => some A.zcount
  | .zscore => some A.zscore

/-- Possible results of a command. -/
inductive AStep (e : Env) (args : List Bytes) (s : AS) : Cmd → AOut → Prop
  | det {c f a} (hc : aFn c = some f) (h : f e args s = some a) : AStep e args s c a
  | spop {m a} (h : A.spop m e args s = some a) : AStep e args s .spop a
  | spopEmpty {a} (h : A.spopEmpty e args s = some a) : AStep e args s .spop a
  | randomget {ks a} (h : A.randomGet e ks s = some a) : AStep e args s .randomget a

theorem proc_db {c : Cmd} {f} (h : dbProc c = some f) : Server.proc c = Server.onDb f := by
  cases c <;> first | (cases h; done) | (cases h; rfl)

theorem det_ref (e : Env) (he : e.hash = hash) (args : List Bytes) {db : Db} (g : db.Good hash) {c : Cmd} {f f'}
    (h : dbProc c = some f) (h' : aFn c = some f') : Ref hash (f e args db) (f' e args db.view) := by
  cases c <;> cases h <;> cases h'
  · exact ping_ref e he args g
  · exact expire_ref e he args g
  · exact expireAt_ref e he args g
  · exact ttl_ref e he args g
  · exact keys_ref e he args g
  · exact set_cmd_ref e he args g
  · exact setEx_ref e he args g
  · exact get_cmd_ref e he args g
  · exact hset_ref e he args g
  · exact hget_ref e he args g
  · exact hdel_ref e he args g
  · exact hexists_ref e he args g
  · exact hkeys_ref e he args g
  · exact hlen_ref e he args g
  · exact lpush_ref e he args g
  · exact rpush_ref e he args g
  · exact popCmd_ref e he args g _
  · exact popCmd_ref e he args g _
  · exact llen_ref e he args g
  · exact lindex_ref e he args g
  · exact lrange_ref e he args g
  · exact sadd_ref e he args g
  · exact srem_ref e he args g
  · exact scard_ref e he args g
  · exact sismember_ref e he args g
  · exact smembers_ref e he args g
  · exact sdiff_ref e he args g
  · exact sinter_ref e he args g
  · exact sunion_ref e he args g
  · exact zadd_ref e he args g
  · exact zrange_ref e he args g
  · exact zrangeByScore_ref e he args g
  · exact zrem_ref e he args g
  · exact zremRangeByRank_ref e he args g
  · exact zremRangeByScore_ref e he args g
  · exact zcard_ref e he args g
  · exact zcount_ref e he args g
  · exact zscore_ref e he args g

theorem step_sound (e : Env) (he : e.hash = hash) (args : List Bytes) {db : Db} (g : db.Good hash) {c : Cmd} {f}
    (h : dbProc c = some f) {o : Out} (ho : f e args db = some o) : ∃ a, AStep e args db.view c a ∧ Rel hash o a := by
  cases hf : aFn c with
  | some f' =>
    have := det_ref e he args g h hf
    rw [ho] at this
    cases ha : f' e args db.view with
    | none => rw [ha] at this; exact this.elim
    | some a => rw [ha] at this; exact ⟨a, .det hf ha, this⟩
  | none =>
    cases c <;> first | (cases hf; done) | (cases h; done) | skip
    · cases h
      obtain ⟨ks, a, h1, h2⟩ := randomGet_ref e he args g ho
      exact ⟨a, .randomget h1, h2⟩
    · cases h
      rcases spop_ref e he args g ho with ⟨m, a, h1, h2⟩ | ⟨a, h1, h2⟩
      · exact ⟨a, .spop h1, h2⟩
      · exact ⟨a, .spopEmpty h1, h2⟩

/-! ### Frame -/

/-- `s'` agrees with `s` outside `K` -/
def Touch (K : Bytes → Prop) (s s' : AS) : Prop := ∀ k, ¬ K k → s'.v k = s.v k ∧ s'.t k = s.t k

theorem touch_refl {K : Bytes → Prop} {s : AS} : Touch K s s := fun _ _ => ⟨rfl, rfl⟩

theorem touch_trans {K : Bytes → Prop} {s s' s'' : AS} (a : Touch K s s') (b : Touch K s' s'') : Touch K s s'' :=
  fun k h => ⟨(b k h).1.trans (a k h).1, (b k h).2.trans (a k h).2⟩

theorem touch_exp {K : Bytes → Prop} {e : Env} {s : AS} {k : Bytes} (hk : K k) : Touch K s (A.exp e s k) := by
  intro x hx
  have : x ≠ k := fun h => hx (h ▸ hk)
  unfold A.exp
  split
  · exact ⟨upd_ne _ _ this, upd_ne _ _ this⟩
  · exact ⟨rfl, rfl⟩

theorem touch_put {K : Bytes → Prop} {s : AS} {k : Bytes} {o : AObj} (hk : K k) : Touch K s (A.put s k o) := by
  intro x hx
  have : x ≠ k := fun h => hx (h ▸ hk)
  exact ⟨upd_ne _ _ this, rfl⟩

theorem touch_upd {K : Bytes → Prop} {s : AS} {k : Bytes} {o : Option AObj} {t : Option Int} (hk : K k) :
    Touch K s ⟨upd s.v k o, upd s.t k t⟩ := by
  intro x hx
  have : x ≠ k := fun h => hx (h ▸ hk)
  exact ⟨upd_ne _ _ this, upd_ne _ _ this⟩

theorem touch_t {K : Bytes → Prop} {s : AS} {k : Bytes} {t : Option Int} (hk : K k) :
    Touch K s ⟨s.v, upd s.t k t⟩ := by
  intro x hx
  have : x ≠ k := fun h => hx (h ▸ hk)
  exact ⟨rfl, upd_ne _ _ this⟩

theorem touch_orNew {β : Type} {as : AObj → Option β} {fr : AObj} {K : Bytes → Prop} {s : AS} {k : Bytes} (hk : K k) :
    Touch K s (A.orNew as fr s k).2 := by
  unfold A.orNew
  split
  · exact touch_put hk
  · exact touch_refl

theorem touch_opLoop {f stop} {K : Bytes → Prop} {e : Env} : ∀ (rest : List Bytes) (h : Fn Unit) (s : AS), (∀ k ∈ rest, K k) →
    Touch K s (A.opLoop f stop e rest h s).2
  | [], _, _, _ => touch_refl
  | key :: rest, h, s, hk => by
    have h1 : Touch K s (A.exp e s key) := touch_exp (hk _ (by simp))
    unfold A.opLoop
    simp only
    split
    · split
      · exact h1
      · exact touch_trans h1 (touch_opLoop rest h _ (fun k h => hk k (by simp [h])))
    · exact h1
    · exact touch_trans h1 (touch_opLoop rest _ _ (fun k h => hk k (by simp [h])))

/-- every result satisfies `P` -/
def All (P : AOut → Prop) (x : Option AOut) : Prop := ∀ a, x = some a → P a

theorem all_none {P : AOut → Prop} : All P none := fun _ h => by cases h
theorem all_some {P : AOut → Prop} {a : AOut} (h : P a) : All P (some a) := fun _ h' => Option.some.inj h' ▸ h
theorem all_bind {α : Type} {P : AOut → Prop} {x : Option α} {f : α → Option AOut} (h : ∀ a, x = some a → All P (f a)) :
    All P (x >>= f) := by
  cases x with
  | none => exact all_none
  | some a => exact h a rfl

/-- take apart a goal `All P (body of a command)` -/
macro "cmd_all" : tactic =>
  `(tactic| repeat' (with_reducible first
      | exact all_none
      | refine all_some ?_
      | refine all_bind fun _ _ => ?_
      | dsimp only
      | split))

theorem mem_key {args : List Bytes} {k : Bytes} (h : args[1]? = some k) : k ∈ (args.drop 1).take 1 := by
  match args, h with
  | _ :: b :: _, h => simp at h; simp [h]

macro "touch" : tactic =>
  `(tactic| first
      | exact touch_refl
      | exact touch_exp (mem_key (by assumption))
      | exact touch_orNew (mem_key (by assumption))
      | exact touch_trans (touch_exp (mem_key (by assumption))) (touch_put (mem_key (by assumption)))
      | exact touch_trans (touch_orNew (mem_key (by assumption))) (touch_put (mem_key (by assumption)))
      | exact touch_upd (mem_key (by assumption))
      | exact touch_t (mem_key (by assumption)))

theorem frame_setOp {f stop e args s} : All (fun a => Touch (fun k => k ∈ args.drop 1) s a.s) (A.setOp f stop e args s) := by
  unfold A.setOp
  refine all_bind fun key hk => ?_
  have h1 : key ∈ args.drop 1 := List.mem_of_mem_take (mem_key hk)
  have h2 : ∀ k ∈ args.drop 2, k ∈ args.drop 1 := by
    intro k hk
    match args, hk with
    | _ :: _ :: _, hk => simp at hk; simp [hk]
  dsimp only
  split
  · exact all_some (touch_exp h1)
  · exact all_some (touch_exp h1)
  · have := touch_opLoop (f := f) (stop := stop) (e := e) (K := fun k => k ∈ args.drop 1) (args.drop 2)
    rename_i h _
    have := touch_trans (touch_exp (e := e) (s := s) (K := fun k => k ∈ args.drop 1) h1) (this h (A.exp e s key) h2)
    split
    all_goals (next heq => rw [heq] at this; exact all_some this)

theorem frame_det {e : Env} {args : List Bytes} {s : AS} {c : Cmd} {f} (hc : aFn c = some f)
    (hk : c ≠ .keys) : All (fun a => Touch (fun k => k ∈ keysOf c args) s a.s) (f e args s) := by
  cases c <;> cases hc <;> first | (exact absurd rfl hk) | skip
  case sdiff => exact frame_setOp
  case sinter => exact frame_setOp
  case sunion => exact frame_setOp
  case ping => unfold A.ping; cmd_all; all_goals touch
  case expire => unfold A.expire; cmd_all; all_goals touch
  case expireat => unfold A.expireAt; cmd_all; all_goals touch
  case ttl => unfold A.ttl; cmd_all; all_goals touch
  case set => unfold A.set; cmd_all; all_goals touch
  case setex => unfold A.setEx; cmd_all; all_goals touch
  case get => unfold A.get; cmd_all; all_goals touch
  case hset => unfold A.hset; cmd_all; all_goals touch
  case hget => unfold A.hget; cmd_all; all_goals touch
  case hdel => unfold A.hdel; cmd_all; all_goals touch
  case hexists => unfold A.hexists; cmd_all; all_goals touch
  case hkeys => unfold A.hkeys; cmd_all; all_goals touch
  case hlen => unfold A.hlen; cmd_all; all_goals touch
  case lpush => unfold A.lpush; cmd_all; all_goals touch
  case rpush => unfold A.rpush; cmd_all; all_goals touch
  case lpop => unfold A.lpop A.popCmd; cmd_all; all_goals touch
  case rpop => unfold A.rpop A.popCmd; cmd_all; all_goals touch
  case llen => unfold A.llen; cmd_all; all_goals touch
  case lindex => unfold A.lindex; cmd_all; all_goals touch
  case lrange => unfold A.lrange; cmd_all; all_goals touch
  case sadd => unfold A.sadd; cmd_all; all_goals touch
  case srem => unfold A.srem; cmd_all; all_goals touch
  case scard => unfold A.scard; cmd_all; all_goals touch
  case sismember => unfold A.sismember; cmd_all; all_goals touch
  case smembers => unfold A.smembers; cmd_all; all_goals touch
  case zadd => unfold A.zadd; cmd_all; all_goals touch
  case zrange => unfold A.zrange; cmd_all; all_goals touch
  case zrangebyscore => unfold A.zrangeByScore; cmd_all; all_goals touch
  case zrem => unfold A.zrem; cmd_all; all_goals touch
  case zremrangebyrank => unfold A.zremRangeByRank; cmd_all; all_goals touch
  case zremrangebyscore => unfold A.zremRangeByScore; cmd_all; all_goals touch
  case zcard => unfold A.zcard; cmd_all; all_goals touch
  case zcount => unfold A.zcount; cmd_all; all_goals touch
  case zscore => unfold A.zscore; cmd_all; all_goals touch

theorem frame {e : Env} {args : List Bytes} {s : AS} {c : Cmd} {a : AOut} (h : AStep e args s c a) (h1 : c ≠ .keys) (h2 : c ≠ .randomget) :
    Touch (fun k => k ∈ keysOf c args) s a.s := by
  cases h with
  | det hc h => exact frame_det hc h1 a h
  | randomget => exact absurd rfl h2
  | @spop m a h =>
    have : All (fun a => Touch (fun k => k ∈ keysOf .spop args) s a.s) (A.spop m e args s) := by
      unfold A.spop; cmd_all; all_goals touch
    exact this a h
  | spopEmpty h =>
    have : All (fun a => Touch (fun k => k ∈ keysOf .spop args) s a.s) (A.spopEmpty e args s) := by
      unfold A.spopEmpty; cmd_all; all_goals touch
    exact this a h

/-! ### Commands that write nothing -/

/-- Nothing happened but the removal of some expired keys. -/
def Swept (e : Env) (s s' : AS) : Prop :=
  ∀ k, (s'.v k = s.v k ∧ s'.t k = s.t k) ∨ (A.expired e s k = true ∧ s'.v k = none ∧ s'.t k = none)

theorem swept_refl {e : Env} {s : AS} : Swept e s s := fun _ => Or.inl ⟨rfl, rfl⟩

theorem expired_t {e : Env} {s s' : AS} {k : Bytes} (h : s'.t k = s.t k) : A.expired e s' k = A.expired e s k := by
  unfold A.expired; rw [h]

theorem swept_trans {e : Env} {s s' s'' : AS} (a : Swept e s s') (b : Swept e s' s'') : Swept e s s'' := by
  intro k
  rcases a k with ⟨a1, a2⟩ | ⟨a1, a2, a3⟩
  · rcases b k with ⟨b1, b2⟩ | ⟨b1, b2, b3⟩
    · exact Or.inl ⟨b1.trans a1, b2.trans a2⟩
    · exact Or.inr ⟨by rw [← expired_t a2]; exact b1, b2, b3⟩
  · rcases b k with ⟨b1, b2⟩ | ⟨b1, b2, b3⟩
    · exact Or.inr ⟨a1, b1.trans a2, b2.trans a3⟩
    · exact Or.inr ⟨a1, b2, b3⟩

theorem swept_exp {e : Env} {s : AS} {k : Bytes} : Swept e s (A.exp e s k) := by
  intro x
  unfold A.exp
  split
  · next h =>
    by_cases hx : x = k
    · subst hx; exact Or.inr ⟨h, upd_at _ _ _, upd_at _ _ _⟩
    · exact Or.inl ⟨upd_ne _ _ hx, upd_ne _ _ hx⟩
  · exact Or.inl ⟨rfl, rfl⟩

theorem swept_sweep {e : Env} {s : AS} {m : Bytes → Bool} : Swept e s (A.sweep e m s) := by
  intro k
  unfold A.sweep
  cases h1 : m k <;> cases h2 : A.expired e s k <;> cases h3 : s.v k <;> simp [h1, h2, h3]

theorem swept_opLoop {f stop} {e : Env} : ∀ (rest : List Bytes) (h : Fn Unit) (s : AS), Swept e s (A.opLoop f stop e rest h s).2
  | [], _, _ => swept_refl
  | key :: rest, h, s => by
    unfold A.opLoop
    simp only
    split
    · split
      · exact swept_exp
      · exact swept_trans swept_exp (swept_opLoop rest h _)
    · exact swept_exp
    · exact swept_trans swept_exp (swept_opLoop rest _ _)

/-- `P` for commands that write nothing -/
def Reads (e : Env) (s : AS) (a : AOut) : Prop := Swept e s a.s ∧ a.dirty = 0

macro "reads" : tactic => `(tactic| first | exact ⟨swept_refl, rfl⟩ | exact ⟨swept_exp, rfl⟩ | exact ⟨swept_sweep, rfl⟩)

theorem reads_setOp {f stop e args s} : All (Reads e s) (A.setOp f stop e args s) := by
  unfold A.setOp
  refine all_bind fun key hk => ?_
  dsimp only
  split
  · exact all_some ⟨swept_exp, rfl⟩
  · exact all_some ⟨swept_exp, rfl⟩
  · rename_i h _
    have := swept_trans (swept_exp (e := e) (s := s) (k := key)) (swept_opLoop (f := f) (stop := stop) (args.drop 2) h (A.exp e s key))
    split
    all_goals (next heq => rw [heq] at this; exact all_some ⟨this, rfl⟩)

theorem reads_det {e : Env} {args : List Bytes} {s : AS} {c : Cmd} {f} (hc : aFn c = some f) (hw : writes c = false) :
    All (Reads e s) (f e args s) := by
  cases c <;> cases hc <;> first | (cases hw; done) | skip
  case sdiff => exact reads_setOp
  case sinter => exact reads_setOp
  case sunion => exact reads_setOp
  case ping => unfold A.ping; cmd_all; all_goals reads
  case ttl => unfold A.ttl; cmd_all; all_goals reads
  case keys => unfold A.keys; cmd_all; all_goals reads
  case get => unfold A.get; cmd_all; all_goals reads
  case hget => unfold A.hget; cmd_all; all_goals reads
  case hexists => unfold A.hexists; cmd_all; all_goals reads
  case hkeys => unfold A.hkeys; cmd_all; all_goals reads
  case hlen => unfold A.hlen; cmd_all; all_goals reads
  case llen => unfold A.llen; cmd_all; all_goals reads
  case lindex => unfold A.lindex; cmd_all; all_goals reads
  case lrange => unfold A.lrange; cmd_all; all_goals reads
  case scard => unfold A.scard; cmd_all; all_goals reads
  case sismember => unfold A.sismember; cmd_all; all_goals reads
  case smembers => unfold A.smembers; cmd_all; all_goals reads
  case zrange => unfold A.zrange; cmd_all; all_goals reads
  case zrangebyscore => unfold A.zrangeByScore; cmd_all; all_goals reads
  case zcard => unfold A.zcard; cmd_all; all_goals reads
  case zcount => unfold A.zcount; cmd_all; all_goals reads
  case zscore => unfold A.zscore; cmd_all; all_goals reads

theorem reads_randomGet {e : Env} : ∀ (ks : List Bytes) (s : AS), All (Reads e s) (A.randomGet e ks s)
  | [], s => all_some ⟨swept_refl, rfl⟩
  | k :: ks, s => by
    unfold A.randomGet
    split
    · exact all_none
    · split
      · intro a h
        have := reads_randomGet ks _ a h
        exact ⟨swept_trans swept_exp this.1, this.2⟩
      · exact all_some ⟨swept_refl, rfl⟩

theorem reads {e : Env} {args : List Bytes} {s : AS} {c : Cmd} {a : AOut} (h : AStep e args s c a) (hw : writes c = false) :
    Reads e s a := by
  cases h with
  | det hc h => exact reads_det hc hw a h
  | randomget h => exact reads_randomGet _ _ a h
  | spop => cases hw
  | spopEmpty => cases hw

/-! ### Commands that do not count as a change -/

theorem delLoop_ge {V : Type} : ∀ (l : List Bytes) (h : Fn V) (n : Nat), n ≤ (A.delLoop l h n).2 ∧ ((A.delLoop l h n).2 = n → (A.delLoop l h n).1 = h)
  | [], h, n => ⟨Nat.le_refl _, fun _ => rfl⟩
  | f :: l, h, n => by
    unfold A.delLoop
    cases hf : h f with
    | none =>
      have := delLoop_ge l (upd h f none) n
      rw [upd_same _ _ _ hf] at this ⊢
      simpa using this
    | some v =>
      have := (delLoop_ge l (upd h f none) (n + 1)).1
      simp only [Option.isSome_some, if_true]
      exact ⟨by omega, fun h => by omega⟩

theorem zremLoop_ge : ∀ (l : List Bytes) (z : AZ) (n : Nat) {z' n'}, A.zremLoop l z n = some (z', n') → n ≤ n' ∧ (n' = n → z' = z)
  | [], z, n, z', n', h => by cases h; exact ⟨Nat.le_refl _, fun _ => rfl⟩
  | m :: l, z, n, z', n', h => by
    unfold A.zremLoop AZ.delete at h
    cases hf : z.f m with
    | none =>
      simp only [hf, Option.bind_eq_bind, Option.bind_some] at h
      exact zremLoop_ge l z n h
    | some v =>
      simp only [hf, Option.bind_eq_bind] at h
      cases hd : Skiplist.delete z.s v m with
      | none => rw [hd] at h; cases h
      | some p =>
        simp only [hd, Option.bind_some, if_true] at h
        have := (zremLoop_ge l _ _ h).1
        exact ⟨by omega, fun h => by omega⟩

theorem deleteLoop_nil {guard upd} : ∀ (fuel : Nat) (k : Nat) (o : Option Nat) (s : Skiplist) {s'},
    Skiplist.deleteLoop guard upd fuel k o s = some ([], s') → s' = s
  | 0, _, _, _, _, h => by simp [Skiplist.deleteLoop] at h
  | fuel + 1, k, none, s, s', h => by simp [Skiplist.deleteLoop] at h; exact h.symm
  | fuel + 1, k, some x, s, s', h => by
    unfold Skiplist.deleteLoop at h
    split at h
    · simp only [Option.bind_eq_bind, Option.bind_eq_some_iff] at h
      obtain ⟨_, _, _, _, p, _, h⟩ := h
      simp at h
    · simp at h; exact h.symm

theorem deleteRangeByRank_nil {s s' : Skiplist} {a b : Int} (hq : Skiplist.deleteRangeByRank s a b = some ([], s')) : s' = s := by
  unfold Skiplist.deleteRangeByRank at hq
  split at hq
  · cases hq; rfl
  · simp only [Option.bind_eq_bind, Option.bind_eq_some_iff] at hq
    obtain ⟨_, _, _, _, hq⟩ := hq
    exact deleteLoop_nil _ _ _ _ hq

theorem drop_length (h : Nat → SNode) : ∀ (l : List Nat) (z : AZ), (AZ.drop h l z).1.length = l.length
  | [], _ => rfl
  | x :: l, z => by
    unfold AZ.drop
    simp [drop_length h l]

theorem put_same' {s : AS} {k : Bytes} {o : AObj} (h : s.v k = some o) : A.put s k o = s := by
  unfold A.put; rw [upd_same _ _ _ h]

theorem look_found {β : Type} {as : AObj → Option β} {s : AS} {k : Bytes} {b : β} (h : A.look as s k = .found b) :
    ∃ o, s.v k = some o ∧ as o = some b := by
  unfold A.look at h
  split at h
  · cases h
  · next o ho =>
    split at h
    · cases h
    · next b' hb => cases h; exact ⟨o, ho, hb⟩

theorem look_set {s : AS} {k : Bytes} {b} (h : A.look AObj.asSet s k = .found b) : s.v k = some (.set b) := by
  obtain ⟨o, h1, h2⟩ := look_found h
  cases o <;> cases h2; exact h1
theorem look_hash {s : AS} {k : Bytes} {b} (h : A.look AObj.asHash s k = .found b) : s.v k = some (.hash b) := by
  obtain ⟨o, h1, h2⟩ := look_found h
  cases o <;> cases h2; exact h1
theorem look_zset {s : AS} {k : Bytes} {b} (h : A.look AObj.asZset s k = .found b) : s.v k = some (.zset b) := by
  obtain ⟨o, h1, h2⟩ := look_found h
  cases o <;> cases h2; exact h1
theorem look_list {s : AS} {k : Bytes} {b} (h : A.look AObj.asList s k = .found b) : s.v k = some (.list b) := by
  obtain ⟨o, h1, h2⟩ := look_found h
  cases o <;> cases h2; exact h1

theorem orNew_none {β : Type} {as : AObj → Option β} {fr : AObj} {s : AS} {k : Bytes} (hf : (as fr).isSome = true)
    (h : (A.orNew as fr s k).1 = none) : (A.orNew as fr s k).2 = s := by
  unfold A.orNew at h ⊢
  split at h
  · simp only at h; rw [h] at hf; cases hf
  · rfl

/-- `P` for commands that report no change -/
def Quiet (e : Env) (s : AS) (a : AOut) : Prop := a.dirty = 0 → Swept e s a.s

theorem quiet_w {e : Env} {args : List Bytes} {s : AS} {c : Cmd} {f} (hc : aFn c = some f) (hz : c ≠ .zadd)
    (ha : 3 ≤ args.length) (hh : c = .hset → 4 ≤ args.length) (hw : writes c = true) (hl : c ≠ .lpop) (hr : c ≠ .rpop) : All (Quiet e s) (f e args s) := by
  cases c <;> cases hc <;> first | (cases hw; done) | (exact absurd rfl hz) | (exact absurd rfl hl) | (exact absurd rfl hr) | skip
  case expire => unfold A.expire; cmd_all; all_goals (intro h; first | (cases h; done) | exact swept_refl)
  case expireat => unfold A.expireAt; cmd_all; all_goals (intro h; first | (cases h; done) | exact swept_refl)
  case set => unfold A.set; cmd_all; all_goals (intro h; first | (cases h; done) | exact swept_refl)
  case setex => unfold A.setEx; cmd_all; all_goals (intro h; first | (cases h; done) | exact swept_refl)
  case hset =>
    have := hh rfl
    unfold A.hset; cmd_all
    · intro _; exact swept_refl
    · next h => intro _; simp only [orNew_none rfl h]; exact swept_refl
    · intro h; simp only [List.length_drop] at h; omega
  case lpush =>
    unfold A.lpush; cmd_all
    · next h => intro _; simp only [orNew_none rfl h]; exact swept_refl
    · intro h; simp only [List.length_drop] at h; omega
  case rpush =>
    unfold A.rpush; cmd_all
    · next h => intro _; simp only [orNew_none rfl h]; exact swept_refl
    · intro h; simp only [List.length_drop] at h; omega
  case sadd =>
    unfold A.sadd; cmd_all
    · next h => intro _; simp only [orNew_none rfl h]; exact swept_refl
    · intro h; simp only [List.length_drop] at h; omega
  case hdel =>
    unfold A.hdel; cmd_all
    · intro _; exact swept_exp
    · intro _; exact swept_exp
    · next hl =>
      intro h
      simp only at h
      rw [(delLoop_ge _ _ _).2 h, put_same' (look_hash hl)]; exact swept_exp
  case srem =>
    unfold A.srem; cmd_all
    · intro _; exact swept_exp
    · intro _; exact swept_exp
    · next hl =>
      intro h
      simp only at h
      rw [(delLoop_ge _ _ _).2 h, put_same' (look_set hl)]; exact swept_exp
  case zrem =>
    unfold A.zrem; cmd_all
    · intro _; exact swept_exp
    · intro _; exact swept_exp
    · next hl p hp =>
      intro h
      simp only at h
      rw [(zremLoop_ge _ _ _ hp).2 h, put_same' (look_zset hl)]; exact swept_exp
  case zremrangebyrank =>
    unfold A.zremRangeByRank; cmd_all
    any_goals (intro _; first | exact swept_refl | exact swept_exp)
    next z hl p hp =>
    intro h
    simp only at h
    unfold AZ.remRank at hp
    simp only [Option.bind_eq_bind, Option.bind_eq_some_iff, Option.some.injEq] at hp
    obtain ⟨q, hq, hp⟩ := hp
    rw [← hp, drop_length, List.length_eq_zero_iff] at h
    obtain ⟨q1, q2⟩ := q
    simp only at h; subst h
    have : q2 = z.s := by exact deleteRangeByRank_nil hq
    subst this
    have hz : p.2 = z := by rw [← hp]; rfl
    rw [hz, put_same' (look_zset hl)]; exact swept_exp
  case zremrangebyscore =>
    unfold A.zremRangeByScore; cmd_all
    any_goals (intro _; first | exact swept_refl | exact swept_exp)
    next z hl p hp =>
    intro h
    simp only at h
    unfold AZ.remScore at hp
    simp only [Option.bind_eq_bind, Option.bind_eq_some_iff, Option.some.injEq] at hp
    obtain ⟨q, hq, hp⟩ := hp
    rw [← hp, drop_length, List.length_eq_zero_iff] at h
    obtain ⟨q1, q2⟩ := q
    simp only at h; subst h
    have : q2 = z.s := by
      unfold Skiplist.deleteRangeByScore at hq
      simp only [Option.bind_eq_bind, Option.bind_eq_some_iff] at hq
      obtain ⟨_, _, _, _, hq⟩ := hq
      exact deleteLoop_nil _ _ _ _ hq
    subst this
    have hz : p.2 = z := by rw [← hp]; rfl
    rw [hz, put_same' (look_zset hl)]; exact swept_exp

theorem quiet_pop {pop} {e : Env} {args : List Bytes} {s : AS} : All (Quiet e s) (A.popCmd pop e args s) := by
  unfold A.popCmd; cmd_all; all_goals (intro h; first | (cases h; done) | exact swept_exp)

/-- the arities of the command table -/
def arity (c : Cmd) : Int := ((commandTable.find? (fun x => x.proc = c)).map CmdEntry.arity).getD 0

theorem arity_ok {c : Cmd} {n : Nat} (h : Server.badArity n (arity c) = false) :
    (0 < arity c → (n : Int) = arity c) ∧ -arity c ≤ n := by
  unfold Server.badArity at h
  simp only [decide_eq_false_iff_not, not_or, not_and, Decidable.not_not] at h
  exact ⟨h.1, by omega⟩

theorem quiet {e : Env} {args : List Bytes} {s : AS} {c : Cmd} {a : AOut} (h : AStep e args s c a) (hz : c ≠ .zadd)
    (ha : Server.badArity args.length (arity c) = false) (hd : a.dirty = 0) : Swept e s a.s := by
  cases hw : writes c with
  | false => exact (reads h hw).1
  | true =>
    cases h with
    | @det c f a hc h =>
      by_cases h1 : c = .lpop
      · subst h1; cases hc; exact quiet_pop a h hd
      by_cases h2 : c = .rpop
      · subst h2; cases hc; exact quiet_pop a h hd
      obtain ⟨q1, q2⟩ := arity_ok ha
      have h3 : c ≠ .spop := by rintro rfl; cases hc
      have h34 : (3 : Int) ≤ args.length ∧ (c = .hset → (4 : Int) ≤ args.length) := by
        clear h hc
        cases c <;> first | (cases hw; done) | (exact absurd rfl h1) | (exact absurd rfl h2) | (exact absurd rfl h3) | skip
        all_goals (simp [arity, commandTable] at q1 q2; exact ⟨by omega, fun h => by first | omega | cases h⟩)
      exact quiet_w hc hz (by omega) (fun h => by have := h34.2 h; omega) hw h1 h2 a h hd
    | randomget => cases hw
    | @spop m a h =>
      have : All (Quiet e s) (A.spop m e args s) := by
        unfold A.spop; cmd_all; all_goals (intro h; first | (cases h; done) | exact swept_exp)
      exact this a h hd
    | spopEmpty h =>
      have : All (Quiet e s) (A.spopEmpty e args s) := by
        unfold A.spopEmpty; cmd_all; all_goals (intro h; first | (cases h; done) | exact swept_exp)
      exact this _ h hd

end Metis
