import Verif.Spec.Log
import Verif.Spec.Levels
import Verif.Model.Sys
/-!
The histories for which restarting from the log is claimed to reproduce the data.
-/
namespace Metis.Spec

/-- `strings.ToLower` leaves the names of the command table as they are. -/
def LowerOk (lower : Bytes → Bytes) : Prop := ∀ c ∈ commandTable, lower c.name = c.name

/-- No random choice (SPOP), no dependence on the random levels of a skiplist (ZREMRANGEBYRANK from ranks beyond the first, NaN as a score), no ZADD whose first score
cannot be read, and no deadline before `T`. -/
def Plain (T : Int) (e : Env) (cmd : Cmd) (args : List Bytes) : Prop :=
  match cmd with
  | .spop => False
  | .zremrangebyrank => FromFirst args
  | .zadd => (∀ sc, args[2]? = some sc → e.parseFloat sc ≠ none) ∧ NoNaN e args
  | .zremrangebyscore => NoNaN e args
  | .expire | .setex => ∀ a n, args[2]? = some a → atoi a = some n → T ≤ (e.now / 1000 + n) * 1000 ∧ e.now + n * 1000 < 2 ^ 63
  | .expireat => ∀ a n, args[2]? = some a → atoi a = some n → T ≤ n * 1000 ∧ n * 1000 < 2 ^ 63
  | _ => True

/-- An event up to time `T`. -/
def Steady (lower : Bytes → Bytes) (pf : Bytes → Option F64) (T : Int) : Event → Prop
  | .request _ e args => 0 ≤ e.now ∧ e.now ≤ T ∧ e.lower = lower ∧ e.parseFloat = pf ∧ LevelsOk e.level ∧ ∀ cmd, commandOf e args = some cmd → Plain T e cmd args
  | .cron e => e.now ≤ T
  | _ => True

/-- What the outside world supplies to a replay: the same functions, a clock up to `T`, and levels as `randomLevel` draws them. -/
structure World (hash : Bytes → Nat) (lower : Bytes → Bytes) (pf : Bytes → Option F64) (T : Int) (e : Env) : Prop where
  hash  : e.hash = hash
  lower : e.lower = lower
  pf    : e.parseFloat = pf
  now   : e.now ≤ T
  lv    : LevelsOk e.level

end Metis.Spec
