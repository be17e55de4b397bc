import Verif.Proofs.Types
/-! Deadlines, and commands on missing or expired keys. -/
set_option linter.unusedSectionVars false
set_option linter.unusedSimpArgs false
set_option linter.unusedVariables false
namespace Metis
open Spec
variable {hash : Bytes → Nat}

/-- no new deadline -/
def NoNew (s s' : AS) : Prop := ∀ k, s'.t k = s.t k ∨ s'.t k = none

theorem noNew_refl {s : AS} : NoNew s s := fun _ => Or.inl rfl
theorem noNew_swept {e : Env} {s s' : AS} (h : Swept e s s') : NoNew s s' := fun k => by
  rcases h k with h | h
  · exact Or.inl h.2
  · exact Or.inr h.2.2
theorem noNew_exp {e : Env} {s : AS} {k : Bytes} : NoNew s (A.exp e s k) := noNew_swept swept_exp
theorem noNew_put {s s' : AS} {k : Bytes} {o : AObj} (h : NoNew s s') : NoNew s (A.put s' k o) := h
theorem noNew_orNew {β : Type} {as : AObj → Option β} {fr : AObj} {s : AS} {k : Bytes} : NoNew s (A.orNew as fr s k).2 := by
  unfold A.orNew; split
  · exact noNew_refl
  · exact noNew_refl
theorem noNew_del {s : AS} {k : Bytes} {v : Fn AObj} : NoNew s ⟨v, upd s.t k none⟩ := fun x => by
  by_cases h : x = k
  · subst h; exact Or.inr (upd_at _ _ _)
  · exact Or.inl (upd_ne _ _ h)

macro "nonew" : tactic =>
  `(tactic| first
      | exact noNew_refl
      | exact noNew_exp
      | exact noNew_orNew
      | exact noNew_put noNew_exp
      | exact noNew_put noNew_orNew
      | exact noNew_del)

theorem noNew_w {e : Env} {args : List Bytes} {s : AS} {c : Cmd} {f} (hc : aFn c = some f) (hw : writes c = true)
    (h1 : c ≠ .expire) (h2 : c ≠ .expireat) (h3 : c ≠ .setex) : All (fun a => NoNew s a.s) (f e args s) := by
  cases c <;> cases hc <;> first | (cases hw; done) | (exact absurd rfl h1) | (exact absurd rfl h2) | (exact absurd rfl h3) | skip
  case set => unfold A.set; cmd_all; all_goals nonew
  case hset => unfold A.hset; cmd_all; all_goals nonew
  case hdel => unfold A.hdel; cmd_all; all_goals nonew
  case lpush => unfold A.lpush; cmd_all; all_goals nonew
  case rpush => unfold A.rpush; cmd_all; all_goals nonew
  case lpop => unfold A.lpop A.popCmd; cmd_all; all_goals nonew
  case rpop => unfold A.rpop A.popCmd; cmd_all; all_goals nonew
  case sadd => unfold A.sadd; cmd_all; all_goals nonew
  case srem => unfold A.srem; cmd_all; all_goals nonew
  case zadd => unfold A.zadd; cmd_all; all_goals nonew
  case zrem => unfold A.zrem; cmd_all; all_goals nonew
  case zremrangebyrank => unfold A.zremRangeByRank; cmd_all; all_goals nonew
  case zremrangebyscore => unfold A.zremRangeByScore; cmd_all; all_goals nonew

theorem noNew {e : Env} {args : List Bytes} {s : AS} {c : Cmd} {a : AOut} (h : AStep e args s c a)
    (h1 : c ≠ .expire) (h2 : c ≠ .expireat) (h3 : c ≠ .setex) : NoNew s a.s := by
  cases hw : writes c with
  | false => exact noNew_swept (reads h hw).1
  | true =>
    cases h with
    | det hc h => exact noNew_w hc hw h1 h2 h3 a h
    | randomget => cases hw
    | @spop m a h =>
      have : All (fun a => NoNew s a.s) (A.spop m e args s) := by unfold A.spop; cmd_all; all_goals nonew
      exact this a h
    | spopEmpty h =>
      have : All (fun a => NoNew s a.s) (A.spopEmpty e args s) := by unfold A.spopEmpty; cmd_all; all_goals nonew
      exact this a h

theorem wrap_range (n : Int) : -2 ^ 63 ≤ wrap64 n ∧ wrap64 n < 2 ^ 63 := by
  unfold wrap64; omega

/-- all deadlines are int64 values -/
def TOk (s : AS) : Prop := ∀ k d, s.t k = some d → -2 ^ 63 ≤ d ∧ d < 2 ^ 63

theorem tok_step {e : Env} {args : List Bytes} {s : AS} {c : Cmd} {a : AOut} (h : AStep e args s c a) (hs : TOk s) : TOk a.s := by
  by_cases h1 : c = .expire ∨ c = .expireat ∨ c = .setex
  · have key : ∀ (v : Fn AObj) (k : Bytes) (n : Int), TOk ⟨v, upd s.t k (some (wrap64 n))⟩ := by
      intro v k n x d hd
      by_cases hx : x = k
      · subst hx; simp only [upd_at, Option.some.injEq] at hd; subst hd; exact wrap_range n
      · simp only [upd_ne _ _ hx] at hd; exact hs x d hd
    cases h with
    | @det c f a hc h =>
      have : All (fun a => TOk a.s) (f e args s) := by
        rcases h1 with rfl | rfl | rfl <;> cases hc
        · unfold A.expire; cmd_all; all_goals first | exact hs | exact key _ _ _
        · unfold A.expireAt; cmd_all; all_goals first | exact hs | exact key _ _ _
        · unfold A.setEx; cmd_all; all_goals first | exact hs | exact key _ _ _
      exact this a h
    | randomget => rcases h1 with h | h | h <;> cases h
    | spop => rcases h1 with h | h | h <;> cases h
    | spopEmpty => rcases h1 with h | h | h <;> cases h
  · have := noNew h (fun h => h1 (Or.inl h)) (fun h => h1 (Or.inr (Or.inl h))) (fun h => h1 (Or.inr (Or.inr h)))
    intro k d hd
    rcases this k with h | h
    · exact hs k d (h ▸ hd)
    · rw [h] at hd; cases hd

theorem tok_swept {e : Env} {s s' : AS} (h : Swept e s s') (hs : TOk s) : TOk s' := by
  intro k d hd
  rcases h k with ⟨_, h⟩ | ⟨_, _, h⟩
  · exact hs k d (h ▸ hd)
  · rw [h] at hd; cases hd

theorem tok_moved {s : Sys} {i d d' r ev} (h : Moved s i d d' r ev) (hs : TOk d) : TOk d' := by
  cases h with
  | same h => exact h ▸ hs
  | cron h => exact tok_swept h hs
  | request c hc hi cmd hcmd hok hauth a h hd hr => exact hd ▸ tok_step h hs

/-- An invariant of single databases that every event keeps. -/
theorem reach_inv (P : AS → Prop) (h0 : P ⟨nil, nil⟩) (hst : ∀ {s : Sys} {i d d' r ev}, SysGood hash s → Moved s i d d' r ev → P d → P d') {s : Sys} (hs : Reach hash s) :
    ∀ (i : Nat) (d : Db), s.srv.dbs[i]? = some d → P d.view := by
  obtain ⟨n, pw, aof, evs, rs, h1, h2⟩ := hs
  have h00 : ∀ (i : Nat) (d : Db), (Sys.init n pw aof).srv.dbs[i]? = some d → P d.view := by
    intro i d hd
    have := List.mem_of_getElem? hd
    simp only [Sys.init, Server.init, List.mem_replicate] at this
    rw [this.2]
    have e1 : Db.new.view = ⟨nil, nil⟩ := by
      have h1 : Db.new.dict.abs = nil := abs_new
      have h2 : Db.new.expire.abs = nil := abs_new
      unfold Db.view
      rw [h1, h2]; rfl
    rw [e1]; exact h0
  revert h00 h2
  generalize hs0 : Sys.init n pw aof = s0
  have g0 : SysGood hash s0 := hs0 ▸ init_good n pw aof
  clear hs0
  revert s0 rs
  induction evs with
  | nil => intro rs s0 g0 h2 h; cases h2; exact h
  | cons ev rest ih =>
    intro rs s0 g0 h2 h
    obtain ⟨s1, r, rs', e1, e2, _⟩ := run_cons h2
    obtain ⟨g1, _, _, hlen, hm⟩ := step_db g0 (h1 ev (by simp)) e1
    refine ih (fun e h => h1 e (by simp [h])) rs' s1 g1 e2 ?_
    intro i d hd
    obtain ⟨d0, hd0⟩ := get_lt (l := s0.srv.dbs) (i := i) (by have := lt_get hd; omega)
    obtain ⟨d', q1, q2, q3⟩ := hm i d0 hd0
    rw [hd] at q1; cases q1
    exact hst g0 q3 (h i d0 hd0)

/-! ### Missing keys -/

/-- the same reply and no change but expiration -/
def SameReply (e : Env) (s1 s2 : AS) (x y : Option AOut) : Prop :=
  ∃ r s1' s2', x = some ⟨s1', 0, A.ex r⟩ ∧ y = some ⟨s2', 0, A.ex r⟩ ∧ Swept e s1 s1' ∧ Swept e s2 s2'

theorem look_missing {β : Type} {as : AObj → Option β} {s : AS} {k : Bytes} (h : s.v k = none) : A.look as s k = .missing := by
  unfold A.look; rw [h]

theorem missing_det {e : Env} {args : List Bytes} {s1 s2 : AS} {c : Cmd} {f} (hc : aFn c = some f) (hl : looksUp c = true)
    {key : Bytes} (hk : args[1]? = some key) (h1 : (A.exp e s1 key).v key = none) (h2 : (A.exp e s2 key).v key = none)
    (hok : Server.badArity args.length (arity c) = false) : SameReply e s1 s2 (f e args s1) (f e args s2) := by
  obtain ⟨q1, q2⟩ := arity_ok hok
  have fin : ∀ r, SameReply e s1 s2 (some ⟨A.exp e s1 key, 0, A.ex r⟩) (some ⟨A.exp e s2 key, 0, A.ex r⟩) :=
    fun r => ⟨r, _, _, rfl, rfl, swept_exp, swept_exp⟩
  have fin' : ∀ r, SameReply e s1 s2 (some ⟨s1, 0, A.ex r⟩) (some ⟨s2, 0, A.ex r⟩) :=
    fun r => ⟨r, _, _, rfl, rfl, swept_refl, swept_refl⟩
  cases c <;> first | (cases hl; done) | (cases hc; done) | cases hc
  case get => simp only [A.get, hk, h1, h2, Option.bind_eq_bind, Option.bind_some]; exact fin _
  case hget =>
    obtain ⟨a, ha⟩ := arg_lt (args := args) (i := 2) (by have : arity .hget = 3 := rfl; have := q1 (by omega); omega)
    simp only [A.hget, hk, ha, look_missing h1, look_missing h2, Option.bind_eq_bind, Option.bind_some]; exact fin _
  case hexists =>
    obtain ⟨a, ha⟩ := arg_lt (args := args) (i := 2) (by have : arity .hexists = 3 := rfl; have := q1 (by omega); omega)
    simp only [A.hexists, hk, ha, look_missing h1, look_missing h2, Option.bind_eq_bind, Option.bind_some]; exact fin _
  case sismember =>
    obtain ⟨a, ha⟩ := arg_lt (args := args) (i := 2) (by have : arity .sismember = 3 := rfl; have := q1 (by omega); omega)
    simp only [A.sismember, hk, ha, look_missing h1, look_missing h2, Option.bind_eq_bind, Option.bind_some]; exact fin _
  case hdel => simp only [A.hdel, hk, look_missing h1, look_missing h2, Option.bind_eq_bind, Option.bind_some]; exact fin _
  case hkeys => simp only [A.hkeys, hk, look_missing h1, look_missing h2, Option.bind_eq_bind, Option.bind_some]; exact fin _
  case hlen => simp only [A.hlen, hk, look_missing h1, look_missing h2, Option.bind_eq_bind, Option.bind_some]; exact fin _
  case lpop => simp only [A.lpop, A.popCmd, hk, look_missing h1, look_missing h2, Option.bind_eq_bind, Option.bind_some]; exact fin _
  case rpop => simp only [A.rpop, A.popCmd, hk, look_missing h1, look_missing h2, Option.bind_eq_bind, Option.bind_some]; exact fin _
  case llen => simp only [A.llen, hk, look_missing h1, look_missing h2, Option.bind_eq_bind, Option.bind_some]; exact fin _
  case lindex => simp only [A.lindex, hk, look_missing h1, look_missing h2, Option.bind_eq_bind, Option.bind_some]; exact fin _
  case lrange => simp only [A.lrange, hk, look_missing h1, look_missing h2, Option.bind_eq_bind, Option.bind_some]; exact fin _
  case srem => simp only [A.srem, hk, look_missing h1, look_missing h2, Option.bind_eq_bind, Option.bind_some]; exact fin _
  case scard => simp only [A.scard, hk, look_missing h1, look_missing h2, Option.bind_eq_bind, Option.bind_some]; exact fin _
  case smembers => simp only [A.smembers, hk, look_missing h1, look_missing h2, Option.bind_eq_bind, Option.bind_some]; exact fin _
  case zcard => simp only [A.zcard, hk, look_missing h1, look_missing h2, Option.bind_eq_bind, Option.bind_some]; exact fin _
  case zscore => simp only [A.zscore, hk, look_missing h1, look_missing h2, Option.bind_eq_bind, Option.bind_some]; exact fin _
  case zrem => simp only [A.zrem, hk, look_missing h1, look_missing h2, Option.bind_eq_bind, Option.bind_some]; exact fin _
  all_goals
    have n1 : arity .zrange = -4 := rfl
    have n2 : arity .zrangebyscore = -4 := rfl
    have n3 : arity .zremrangebyrank = -4 := rfl
    have n4 : arity .zremrangebyscore = -4 := rfl
    have n5 : arity .zcount = 4 := rfl
    have h4 : 4 ≤ args.length := by omega
    obtain ⟨a, ha⟩ := arg_lt (args := args) (i := 2) (by omega)
    obtain ⟨b, hb⟩ := arg_lt (args := args) (i := 3) (by omega)
  case zrange =>
    simp only [A.zrange, hk, ha, hb, Option.bind_eq_bind, Option.bind_some]
    cases atoi a with
    | none => exact fin' _
    | some x => cases atoi b with
      | none => exact fin' _
      | some y => simp only [look_missing h1, look_missing h2]; exact fin _
  case zremrangebyrank =>
    simp only [A.zremRangeByRank, hk, ha, hb, Option.bind_eq_bind, Option.bind_some]
    cases atoi a with
    | none => exact fin' _
    | some x => cases atoi b with
      | none => exact fin' _
      | some y => simp only [look_missing h1, look_missing h2]; exact fin _
  case zrangebyscore =>
    simp only [A.zrangeByScore, hk, ha, hb, Option.bind_eq_bind, Option.bind_some]
    cases e.parseFloat a with
    | none => exact fin' _
    | some x => cases e.parseFloat b with
      | none => exact fin' _
      | some y => simp only [look_missing h1, look_missing h2]; exact fin _
  case zremrangebyscore =>
    simp only [A.zremRangeByScore, hk, ha, hb, Option.bind_eq_bind, Option.bind_some]
    cases e.parseFloat a with
    | none => exact fin' _
    | some x => cases e.parseFloat b with
      | none => exact fin' _
      | some y => simp only [look_missing h1, look_missing h2]; exact fin _
  case zcount =>
    simp only [A.zcount, hk, ha, hb, Option.bind_eq_bind, Option.bind_some]
    cases e.parseFloat a with
    | none => exact fin' _
    | some x => cases e.parseFloat b with
      | none => exact fin' _
      | some y => simp only [look_missing h1, look_missing h2]; exact fin _

theorem missing_spop {e : Env} (he : e.hash = hash) {args : List Bytes} {d : Db} (g : d.Good hash) {key : Bytes} (hk : args[1]? = some key)
    (h : (A.exp e d.view key).v key = none) :
    ∃ o', Cmds.spop e args d = some o' ∧ Rel hash o' ⟨A.exp e d.view key, 0, A.ex Reply.null⟩ := by
  obtain ⟨l, db1, h1, g1, v1, hl⟩ := look_ref e he g cast_set key
  rw [look_missing h] at hl
  rcases hl with ⟨rfl, hl⟩ | ⟨_, hl⟩ | ⟨_, _, _, hl, _⟩
  · exact ⟨⟨db1, 0, Reply.null⟩, by simp only [Cmds.spop, hk, h1, Option.bind_eq_bind, Option.bind_some], g1, v1, rfl, rfl⟩
  · cases hl
  · cases hl

theorem exp_gone {e : Env} {s : AS} {k : Bytes} (h : A.expired e s k = true ∨ s.v k = none) : (A.exp e s k).v k = none := by
  unfold A.exp
  split
  · exact upd_at _ _ _
  · next hx =>
    rcases h with h | h
    · exact absurd h hx
    · exact h

end Metis
