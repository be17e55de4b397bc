import Verif.Model.AofLoad
/-!
The words a command reads (C115).
-/
set_option linter.unusedSectionVars false
set_option linter.unusedSimpArgs false
set_option linter.unusedVariables false
namespace Metis.WordsSim
open Metis

/-- How many words a command reads at most, if there is such a number. -/
def reads : Cmd → Option Nat
  | .ping => some 1 | .select => some 2 | .auth => some 2 | .bgrewriteaof => some 1 | .expire => some 3 | .expireat => some 3 | .ttl => some 2 | .keys => some 2
  | .set => some 3 | .setex => some 4 | .get => some 2 | .randomget => some 1 | .hget => some 3 | .hexists => some 3 | .hkeys => some 2 | .hlen => some 2
  | .lpop => some 2 | .rpop => some 2 | .llen => some 2 | .lindex => some 3 | .lrange => some 4 | .spop => some 2 | .scard => some 2 | .sismember => some 3
  | .smembers => some 2 | .zremrangebyrank => some 4 | .zremrangebyscore => some 4 | .zcard => some 2 | .zcount => some 4 | .zscore => some 3
  | _ => none

theorem proc_take {c : Cmd} {n : Nat} (hn : reads c = some n) (e : Env) (args : List Bytes) : Server.proc c e args = Server.proc c e (args.take n) := by
  cases c <;> simp only [reads, Option.some.injEq, reduceCtorEq] at hn <;> subst hn <;> funext srv s <;>
    simp only [Server.proc, Server.onDb, Server.select, Server.auth, Server.bgRewriteAof, Cmds.ping, Cmds.expire, Cmds.expireAt, Cmds.ttl, Cmds.keys, Cmds.set, Cmds.setEx, Cmds.get,
      Cmds.randomGet, Cmds.hget, Cmds.hexists, Cmds.hkeys, Cmds.hlen, Cmds.lpop, Cmds.rpop, Cmds.popCmd, Cmds.llen, Cmds.lindex, Cmds.lrange, Cmds.spop, Cmds.scard,
      Cmds.sismember, Cmds.smembers, Cmds.zremRangeByRank, Cmds.zremRangeByScore, Cmds.zcard, Cmds.zcount, Cmds.zscore, List.getElem?_take,
      show (1 : Nat) < 2 from by decide, show (1 : Nat) < 3 from by decide, show (2 : Nat) < 3 from by decide, show (1 : Nat) < 4 from by decide,
      show (2 : Nat) < 4 from by decide, show (3 : Nat) < 4 from by decide, if_true]

/-- How many words a command cannot do without. -/
def needs : Cmd → Nat
  | .ping => 0 | .auth => 0 | .bgrewriteaof => 0 | .randomget => 0 | .hset => 0 | .zadd => 0
  | .expire => 3 | .expireat => 3 | .set => 3 | .setex => 4 | .hget => 3 | .hexists => 3 | .sismember => 3 | .zcount => 3 | .zrange => 3 | .zrangebyscore => 3
  | .zremrangebyrank => 3 | .zremrangebyscore => 3
  | _ => 2

theorem proc_needs {c : Cmd} {args : List Bytes} (hn : args.length < needs c) (e : Env) (srv : Server) (s : Session) : Server.proc c e args srv s = none := by
  have bind_none : ∀ {α β : Type} (x : Option α), (x.bind fun _ => (none : Option β)) = none := fun x => by cases x <;> rfl
  rcases args with _ | ⟨a0, _ | ⟨a1, _ | ⟨a2, _ | ⟨a3, t⟩⟩⟩⟩ <;> cases c <;>
    first
    | (exfalso; simp only [needs, List.length_cons, List.length_nil] at hn; omega)
    | simp only [Server.proc, Server.onDb, Server.select, Cmds.expire, Cmds.expireAt, Cmds.ttl, Cmds.keys, Cmds.set, Cmds.setEx, Cmds.get,
        Cmds.hget, Cmds.hexists, Cmds.hkeys, Cmds.hlen, Cmds.hdel, Cmds.lpush, Cmds.rpush, Cmds.lpop, Cmds.rpop, Cmds.popCmd, Cmds.llen, Cmds.lindex, Cmds.lrange,
        Cmds.sadd, Cmds.srem, Cmds.spop, Cmds.scard, Cmds.sismember, Cmds.smembers, Cmds.sdiff, Cmds.sinter, Cmds.sunion, Cmds.setOpCmd, Cmds.zremRangeByRank,
        Cmds.zremRangeByScore, Cmds.zrange, Cmds.zrangeByScore, Cmds.zrem, Cmds.zcard, Cmds.zcount, Cmds.zscore, List.getElem?_cons_zero, List.getElem?_cons_succ, List.getElem?_nil,
        Option.bind_eq_bind, Option.bind_none, Option.bind_some, bind_none]

end Metis.WordsSim
