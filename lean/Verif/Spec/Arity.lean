import Verif.Spec.Keyspace
/-!
How many words (command name included) each command takes, read off the command reference.
-/
namespace Metis.Spec

/-- The command accepts a request of `n` words. -/
def accepts (c : Cmd) (n : Nat) : Prop :=
  match c with
  | .ping | .bgrewriteaof | .randomget => n = 1
  | .select | .auth | .ttl | .keys | .get | .hkeys | .hlen | .lpop | .rpop | .llen | .spop | .scard | .smembers | .zcard => n = 2
  | .expire | .expireat | .hget | .hexists | .lindex | .sismember | .zscore => n = 3
  | .setex | .zcount => n = 4
  | .set | .hdel | .lpush | .rpush | .sadd | .srem | .sdiff | .sinter | .sunion | .zrem => 3 ≤ n
  | .hset | .lrange | .zadd | .zrange | .zrangebyscore | .zremrangebyrank | .zremrangebyscore => 4 ≤ n

instance (c : Cmd) (n : Nat) : Decidable (accepts c n) := by unfold accepts; split <;> infer_instance

end Metis.Spec
