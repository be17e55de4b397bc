import Verif.Model.Proc
/-!
Failures of input and output of the log (a full disk, an error of the device): server/aof.go ends the process whenever an operation on the log file or
on the temporary file fails. `Model/Proc.lean` has the process without failures; here is what a failure leaves on the disk.

Simplifications: a write that fails has written a part of its bytes; a sync that fails leaves everything in the file (what the operating system does with
pages that it could not write is not modelled). The errors that are ignored (`Close`, server/aof.go:373, and `os.Remove`, 377) change nothing.
-/
namespace Metis
namespace Proc

/-- What can fail while the server runs. -/
inductive Fault
  /-- `flushAppendOnlyFile` has written `k` bytes of the buffer when the error comes: exit (server/aof.go:101-104) -/
  | write (k : Nat)
  /-- the sync behind the write, with the policy always: panic (server/aof.go:118-121) -/
  | sync
  /-- the sync in a goroutine, with the policy everysec: panic of the goroutine, which ends the process (server/aof.go:124-128) -/
  | background
  /-- the rewriting goroutine cannot create or write its temporary file: panic of the goroutine (server/aof.go:232-276) -/
  | temp (i : Nat)
  /-- an operation of the callback at the end of a rewrite: panic (server/aof.go:380-385, 387-391, 394-397, 402-405) -/
  | callback
deriving Repr, DecidableEq

/-- The loop is about to call `beforeSleep`, and has something to write. -/
def flushing (p : Proc) : Bool :=
  match p.node.phase with
  | .idle => p.doing.isNone && p.opened && !p.node.sys.srv.aofBuf.isEmpty
  | _ => false

/-- The file when the process has ended because of the failure; `none` = this cannot fail now. -/
def fail (p : Proc) : Fault → Option Bytes
  | .write k => if flushing p = true ∧ k < p.node.sys.srv.aofBuf.length then some (p.disk ++ p.node.sys.srv.aofBuf.take k) else none
  | .sync => if flushing p = true ∧ p.node.conf.policy = .always then some (p.disk ++ p.node.sys.srv.aofBuf) else none
  | .background => if p.syncs > 0 ∧ p.opened = true then some p.disk else none
  | .temp i => if i < p.node.jobs.length then some p.disk else none
  | .callback => if p.doing.isSome then some p.disk else none

end Proc
end Metis
