import Verif.Model.Proc
/-!
What a power failure leaves of the append-only file. `Model/Proc.lean` says what the file contains; here is added how much of it is on stable storage.

Simplification: what is not synced is lost from the end (a file is extended by appending only); the operating system may write any part of
it earlier. The directory entry of a synced file is on stable storage. After `mv` nothing of the new file is: neither the rewrite goroutine nor `mv`
calls fsync (server/aof.go:231-283, 380).
-/
namespace Metis
namespace Power
open Proc (Proc Ev Result)

/-- How many bytes of the file are on stable storage after a step from `p` to `p'`: server/aof.go:114-133 `aofFileSync`, called by `flushAppendOnlyFile` after a
write (110) and at the end of `aofRewriteDoneCallback` (411). -/
def synced (p p' : Proc) (safe : Nat) : Ev → Nat
  | .node (.sleep _) => if p.node.sys.srv.aofBuf ≠ [] ∧ p.node.conf.policy = .always then p'.disk.length else safe
  | .mv _ => 0
  | .publish => if p.node.conf.policy = .always then p'.disk.length else safe
  | .sync => p'.disk.length
  | _ => safe

/-- A history of a process that lives; `safe` bytes are on stable storage at its beginning. -/
def run (p : Proc) (safe : Nat) : List Ev → Option (Proc × Nat)
  | [] => some (p, safe)
  | ev :: rest =>
    match Proc.step p ev with
    | some (.alive p') => run p' (synced p p' safe ev) rest
    | _ => none

end Power
end Metis
