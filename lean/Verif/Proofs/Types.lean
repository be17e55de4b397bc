import Verif.Proofs.Server
/-! Commands on a key of another type. -/
set_option linter.unusedSectionVars false
set_option linter.unusedSimpArgs false
set_option linter.unusedVariables false
namespace Metis
open Spec
variable {hash : Bytes → Nat}

/-- The type of a value. -/
def AObj.ty : AObj → Ty
  | .str _ => .str
  | .list _ => .list
  | .hash _ => .hash
  | .set _ => .set
  | .zset _ => .zset

theorem asStr_wrong {o : AObj} (h : o.ty ≠ .str) : o.asStr = none := by cases o <;> first | rfl | exact absurd rfl h
theorem asHash_wrong {o : AObj} (h : o.ty ≠ .hash) : o.asHash = none := by cases o <;> first | rfl | exact absurd rfl h
theorem asList_wrong {o : AObj} (h : o.ty ≠ .list) : o.asList = none := by cases o <;> first | rfl | exact absurd rfl h
theorem asSet_wrong {o : AObj} (h : o.ty ≠ .set) : o.asSet = none := by cases o <;> first | rfl | exact absurd rfl h
theorem asZset_wrong {o : AObj} (h : o.ty ≠ .zset) : o.asZset = none := by cases o <;> first | rfl | exact absurd rfl h

theorem exp_live {e : Env} {s : AS} {k : Bytes} (h : A.expired e s k = false) : A.exp e s k = s := by
  unfold A.exp; rw [h]; rfl

theorem arg_lt {args : List Bytes} {i : Nat} (h : i < args.length) : ∃ a, args[i]? = some a := ⟨args[i], List.getElem?_eq_getElem h⟩

/-- exactly an error and no change -/
def Fails (s : AS) (x : Option AOut) : Prop := ∃ r, x = some ⟨s, 0, A.ex r⟩ ∧ isError r

theorem fails_mk {s : AS} (m : Bytes) : Fails s (some ⟨s, 0, A.ex (Reply.error m)⟩) := ⟨_, rfl, error_isError m⟩
theorem fails_inv {s : AS} (m a b : Bytes) : Fails s (some ⟨s, 0, A.ex (Cmds.invalid m a b)⟩) := ⟨_, rfl, error_isError _⟩

theorem wrong_setOp {f stop e args s key o} (hk : args[1]? = some key) (hv : s.v key = some o) (ht : o.ty ≠ .set)
    (hx : A.expired e s key = false) : Fails s (A.setOp f stop e args s) := by
  unfold A.setOp
  simp only [hk, exp_live hx, A.look, hv, asSet_wrong ht, Option.bind_eq_bind, Option.bind_some]
  exact fails_mk _

theorem wrong_det {e : Env} {args : List Bytes} {s : AS} {c : Cmd} {f} (hc : aFn c = some f) {ty : Ty} (hty : typeOf c = some ty)
    {key : Bytes} {o : AObj} (hk : args[1]? = some key) (hv : s.v key = some o) (ht : o.ty ≠ ty) (hx : A.expired e s key = false)
    (hok : Server.badArity args.length (arity c) = false) : Fails s (f e args s) := by
  obtain ⟨q1, q2⟩ := arity_ok hok
  have hex := exp_live hx
  cases c <;> cases hty <;> cases hc
  case sdiff => exact wrong_setOp hk hv ht hx
  case sinter => exact wrong_setOp hk hv ht hx
  case sunion => exact wrong_setOp hk hv ht hx
  case get =>
    simp only [A.get, hk, hex, hv, asStr_wrong ht, Option.bind_eq_bind, Option.bind_some]; exact fails_mk _
  case hset =>
    unfold A.hset
    split
    · exact fails_mk _
    · simp only [hk, A.orNew, hv, asHash_wrong ht, Option.bind_eq_bind, Option.bind_some]; exact fails_mk _
  case hget =>
    obtain ⟨a, ha⟩ := arg_lt (args := args) (i := 2) (by have : arity .hget = 3 := rfl; have := q1 (by omega); omega)
    simp only [A.hget, hk, ha, hex, A.look, hv, asHash_wrong ht, Option.bind_eq_bind, Option.bind_some]; exact fails_mk _
  case hexists =>
    obtain ⟨a, ha⟩ := arg_lt (args := args) (i := 2) (by have : arity .hexists = 3 := rfl; have := q1 (by omega); omega)
    simp only [A.hexists, hk, ha, hex, A.look, hv, asHash_wrong ht, Option.bind_eq_bind, Option.bind_some]; exact fails_mk _
  case hdel =>
    simp only [A.hdel, hk, hex, A.look, hv, asHash_wrong ht, Option.bind_eq_bind, Option.bind_some]; exact fails_mk _
  case hkeys =>
    simp only [A.hkeys, hk, hex, A.look, hv, asHash_wrong ht, Option.bind_eq_bind, Option.bind_some]; exact fails_mk _
  case hlen =>
    simp only [A.hlen, hk, hex, A.look, hv, asHash_wrong ht, Option.bind_eq_bind, Option.bind_some]; exact fails_mk _
  case lpush =>
    simp only [A.lpush, hk, A.orNew, hv, asList_wrong ht, Option.bind_eq_bind, Option.bind_some]; exact fails_mk _
  case rpush =>
    simp only [A.rpush, hk, A.orNew, hv, asList_wrong ht, Option.bind_eq_bind, Option.bind_some]; exact fails_mk _
  case lpop =>
    simp only [A.lpop, A.popCmd, hk, hex, A.look, hv, asList_wrong ht, Option.bind_eq_bind, Option.bind_some]; exact fails_mk _
  case rpop =>
    simp only [A.rpop, A.popCmd, hk, hex, A.look, hv, asList_wrong ht, Option.bind_eq_bind, Option.bind_some]; exact fails_mk _
  case llen =>
    simp only [A.llen, hk, hex, A.look, hv, asList_wrong ht, Option.bind_eq_bind, Option.bind_some]; exact fails_mk _
  case lindex =>
    simp only [A.lindex, hk, hex, A.look, hv, asList_wrong ht, Option.bind_eq_bind, Option.bind_some]; exact fails_mk _
  case lrange =>
    simp only [A.lrange, hk, hex, A.look, hv, asList_wrong ht, Option.bind_eq_bind, Option.bind_some]; exact fails_mk _
  case sadd =>
    simp only [A.sadd, hk, A.orNew, hv, asSet_wrong ht, Option.bind_eq_bind, Option.bind_some]; exact fails_mk _
  case srem =>
    simp only [A.srem, hk, hex, A.look, hv, asSet_wrong ht, Option.bind_eq_bind, Option.bind_some]; exact fails_mk _
  case scard =>
    simp only [A.scard, hk, hex, A.look, hv, asSet_wrong ht, Option.bind_eq_bind, Option.bind_some]; exact fails_mk _
  case sismember =>
    obtain ⟨a, ha⟩ := arg_lt (args := args) (i := 2) (by have : arity .sismember = 3 := rfl; have := q1 (by omega); omega)
    simp only [A.sismember, hk, ha, hex, A.look, hv, asSet_wrong ht, Option.bind_eq_bind, Option.bind_some]; exact fails_mk _
  case smembers =>
    simp only [A.smembers, hk, hex, A.look, hv, asSet_wrong ht, Option.bind_eq_bind, Option.bind_some]; exact fails_mk _
  case zadd =>
    unfold A.zadd
    split
    · exact fails_mk _
    · simp only [hk, A.orNew, hv, asZset_wrong ht, Option.bind_eq_bind, Option.bind_some]; exact fails_mk _
  case zcard =>
    simp only [A.zcard, hk, hex, A.look, hv, asZset_wrong ht, Option.bind_eq_bind, Option.bind_some]; exact fails_mk _
  case zscore =>
    simp only [A.zscore, hk, hex, A.look, hv, asZset_wrong ht, Option.bind_eq_bind, Option.bind_some]; exact fails_mk _
  case zrem =>
    simp only [A.zrem, hk, hex, A.look, hv, asZset_wrong ht, Option.bind_eq_bind, Option.bind_some]; exact fails_mk _
  all_goals
    have n1 : arity .zrange = -4 := rfl
    have n2 : arity .zrangebyscore = -4 := rfl
    have n3 : arity .zremrangebyrank = -4 := rfl
    have n4 : arity .zremrangebyscore = -4 := rfl
    have n5 : arity .zcount = 4 := rfl
    have h4 : 4 ≤ args.length := by omega
    obtain ⟨a, ha⟩ := arg_lt (args := args) (i := 2) (by omega)
    obtain ⟨b, hb⟩ := arg_lt (args := args) (i := 3) (by omega)
    simp only [A.zrange, A.zrangeByScore, A.zremRangeByRank, A.zremRangeByScore, A.zcount, hk, ha, hb, Option.bind_eq_bind, Option.bind_some]
    split
    · exact fails_inv _ _ _
    · split
      · exact fails_inv _ _ _
      · simp only [hex, A.look, hv, asZset_wrong ht]; exact fails_mk _

theorem asSet_view {o : Obj} (h : o.view.ty ≠ .set) : o.asSet = none := by
  cases o <;> first | rfl | exact absurd rfl h

theorem wrong_spop {e : Env} (he : e.hash = hash) {args : List Bytes} {d : Db} (g : d.Good hash) {key : Bytes} {o : AObj} (hk : args[1]? = some key)
    (hv : d.view.v key = some o) (ht : o.ty ≠ .set) (hx : A.expired e d.view key = false) :
    ∃ o', Cmds.spop e args d = some o' ∧ Rel hash o' ⟨d.view, 0, A.ex (Reply.error Reply.errWrongType)⟩ := by
  obtain ⟨l, db1, h1, g1, v1, hl⟩ := look_ref e he g cast_set key
  have hw : A.look AObj.asSet (A.exp e d.view key) key = .wrong := by
    rw [exp_live hx]; simp only [A.look, hv, asSet_wrong ht]
  rw [hw] at hl
  rcases hl with ⟨_, hl⟩ | ⟨rfl, _⟩ | ⟨_, _, _, hl, _⟩
  · cases hl
  · refine ⟨⟨db1, 0, Reply.error Reply.errWrongType⟩, by simp only [Cmds.spop, hk, h1, Option.bind_eq_bind, Option.bind_some], g1, by rw [v1, exp_live hx], rfl, rfl⟩
  · cases hl

theorem exp_same_at {e : Env} {s : AS} {k x : Bytes} (h : A.expired e s x = false) :
    (A.exp e s k).v x = s.v x ∧ (A.exp e s k).t x = s.t x := by
  by_cases hx : x = k
  · subst hx; rw [exp_live h]; exact ⟨rfl, rfl⟩
  · exact touch_exp (K := fun y => y = k) rfl x hx

theorem opLoop_wrong {f stop} {e : Env} {key : Bytes} {o : AObj} (ht : o.ty ≠ .set) : ∀ (rest : List Bytes) (h : Fn Unit) (s : AS), key ∈ rest →
    s.v key = some o → A.expired e s key = false →
    (stop = true → ∀ k ∈ rest, (s.v k).isSome = true ∧ A.expired e s k = false) → (A.opLoop f stop e rest h s).1 = .inr (Reply.error Reply.errWrongType)
  | [], _, _, hk, _, _, _ => by cases hk
  | k :: rest, h, s, hk, hv, hx, hst => by
    unfold A.opLoop
    simp only
    have hsame : ∀ x, A.expired e s x = false → (A.exp e s k).v x = s.v x ∧ A.expired e (A.exp e s k) x = A.expired e s x := by
      intro x hx
      obtain ⟨a, b⟩ := exp_same_at (k := k) hx
      exact ⟨a, expired_t b⟩
    by_cases hkk : key = k
    · subst hkk
      have : A.look AObj.asSet (A.exp e s key) key = .wrong := by
        simp only [A.look, (hsame key hx).1, hv, asSet_wrong ht]
      rw [this]
    · have hk' : key ∈ rest := by
        rcases List.mem_cons.1 hk with h | h
        · exact absurd h hkk
        · exact h
      have ih : ∀ h', (A.opLoop f stop e rest h' (A.exp e s k)).1 = .inr (Reply.error Reply.errWrongType) := by
        intro h'
        apply opLoop_wrong ht rest h' _ hk' ((hsame key hx).1.trans hv) ((hsame key hx).2.trans hx)
        intro hs x hx'
        obtain ⟨p, q⟩ := hst hs x (by simp [hx'])
        rw [(hsame x q).1, (hsame x q).2]; exact ⟨p, q⟩
      split
      · next hm =>
        split
        · next hs =>
          exfalso
          obtain ⟨p, q⟩ := hst hs k (by simp)
          unfold A.look at hm
          rw [(hsame k q).1] at hm
          cases hvk : s.v k with
          | none => rw [hvk] at p; cases p
          | some x => rw [hvk] at hm; simp only at hm; split at hm <;> cases hm
        · exact ih _
      · rfl
      · exact ih _

end Metis
