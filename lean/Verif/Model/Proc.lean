import Verif.Model.Node
/-!
Model of the process with all its goroutines in small steps: the event loop, the rewrite goroutine, the goroutines that `aofFileSync` starts
with the policy everysec (server/aof.go:124-128), and the main goroutine, which stops the server on a signal (cmd/root.go:47-51,
server/server.go:141-149). `Model/Node.lean` replaces the file in one step and knows no shutdown; here `aofRewriteDoneCallback` takes several
steps, between which the other goroutines run.

The state of the loop is a `Node` that is ahead of the disk: it has the callback behind it as soon as the callback starts. `disk` is what the file
really contains.

Simplifications: writes to the disk do not fail (Model/Fail.lean has their failures), and a write in `flushAppendOnlyFile` is one step. `el.stop` (ae/ae.go:165, 185) is a plain variable
that the loop may see late: the loop may take any number of turns after `Stop` has set it. With the log disabled `srv.aofFile` is nil before the first
callback; it is not used then, and `opened` does not matter.
-/
namespace Metis
namespace Proc

/-- What the callback (server/aof.go:369-412) has still to do; `due` = a goroutine will be started to sync the new file (411). -/
inductive Stage
  /-- the old file is closed (373) and the name of the new one received (376); `mv` copies it (380) -/
  | move (tmp buf : Bytes) (due : Bool)
  /-- the new file is open; the rewrite buffer is appended (387-398) -/
  | append (tmp buf : Bytes) (due : Bool)
deriving Repr, DecidableEq

structure Proc where
  node : Node
  /-- the contents of the append-only file -/
  disk : Bytes
  /-- `srv.aofFile` is an open file -/
  opened : Bool
  /-- goroutines that are going to call `srv.aofFile.Sync()` -/
  syncs : Nat
  /-- inside the callback -/
  doing : Option Stage
  /-- how many statements of `Stop` (server/server.go:141-149) have been executed -/
  stop : Nat

/-- Before the loop starts. -/
def start (n : Node) : Proc := ⟨n, n.file, true, 0, none, 0⟩

/-- Why a process ends. -/
inductive End
  /-- `Sync` of a closed file in a goroutine: panic (server/aof.go:126) -/
  | sync
  /-- the log cannot be written because the file is closed: exit (server/aof.go:103) -/
  | flush
  /-- send on a closed channel: panic (server/aof.go:282) -/
  | send
  /-- `Stop` has returned, and so does `main` (cmd/root.go:51) -/
  | exit
deriving Repr, DecidableEq

inductive Result
  | alive (p : Proc)
  | dead (why : End) (disk : Bytes)

/-- A sync is due (server/aof.go:116-117) and is left to a goroutine. -/
def due (t : Int) (n : Node) : Bool :=
  match n.conf.policy with
  | .everysec =>
    match n.lastSync with
    | none => true
    | some l => decide (t - l > 1000000000)
  | _ => false

inductive Ev
  /-- a step of the loop or of the rewrite goroutine -/
  | node (ev : Node.Ev)
  /-- `mv` has copied `k` bytes -/
  | mv (k : Nat)
  /-- `k` bytes of the rewrite buffer have been appended -/
  | append (k : Nat)
  /-- the end of the callback (server/aof.go:409-411) -/
  | publish
  /-- a goroutine calls `Sync` -/
  | sync
  /-- the next statement of `Stop` -/
  | stop

/-- server/aof.go:94-111 `flushAppendOnlyFile` and the wait of the loop. -/
def sleep (t : Int) (p : Proc) : Option Result :=
  if p.node.sys.srv.aofBuf = [] then (Node.step p.node (.sleep t)).map fun n => .alive { p with node := n }
  else if p.opened then
    (Node.step p.node (.sleep t)).map fun n => .alive { p with node := n, disk := p.disk ++ p.node.sys.srv.aofBuf, syncs := p.syncs + (due t p.node).toNat }
  else some (.dead .flush p.disk)

/-- server/server.go:251-272 `serverCron` up to the point where the callback has closed the old file. -/
def cron (e : Env) (t : Int) (p : Proc) : Option Result :=
  (Node.step p.node (.cron e t)).map fun n =>
    match p.node.done with
    | [] => .alive { p with node := n }
    | tmp :: _ => .alive { p with node := n, opened := false, doing := some (.move tmp p.node.sys.srv.aofRewriteBuf (due t p.node)) }

/-- server/aof.go:231-283: a step of the rewrite goroutine. -/
def work (i : Nat) (e : Env) (c : Node.Pace) (p : Proc) : Option Result :=
  match p.node.jobs[i]? with
  | none => none
  | some j =>
    if j.todo.isEmpty ∧ p.stop ≥ 3 then some (.dead .send p.disk)
    else (Node.step p.node (.work i e c)).map fun n => .alive { p with node := n }

/-- server/server.go:141-149 `Stop`: the flag, the listening socket, the channel, the file; then the process exits. -/
def stopping (p : Proc) : Result :=
  match p.stop with
  | 0 => .alive { p with stop := 1 }
  | 1 => .alive { p with stop := 2 }
  | 2 => .alive { p with stop := 3 }
  | 3 => .alive { p with stop := 4, opened := false }
  | _ => .dead .exit p.disk

/-- One step; `none` = cannot happen, or a panic of the loop. The loop does nothing else while the callback runs. -/
def step (p : Proc) : Ev → Option Result
  | .node (.work i e c) => work i e c p
  | .node (.restart _) | .node (.crashInDone _ _) => none
  | .node (.sleep t) => if p.doing.isSome then none else sleep t p
  | .node (.cron e t) => if p.doing.isSome then none else cron e t p
  | .node (.accept fd) => if p.doing.isSome ∨ p.stop ≥ 2 then none else (Node.step p.node (.accept fd)).map fun n => .alive { p with node := n }
  | .node ev => if p.doing.isSome then none else (Node.step p.node ev).map fun n => .alive { p with node := n }
  | .mv k =>
    match p.doing with
    | some (.move tmp buf d) => some (.alive { p with disk := tmp.take k, doing := some (if tmp.length ≤ k then .append tmp buf d else .move tmp buf d) })
    | _ => none
  | .append k =>
    match p.doing with
    | some (.append tmp buf _) => some (.alive { p with disk := tmp ++ buf.take k })
    | _ => none
  | .publish =>
    match p.doing with
    | some (.append tmp buf d) =>
      if p.disk = tmp ++ buf then some (.alive { p with opened := true, doing := none, syncs := p.syncs + d.toNat }) else none
    | _ => none
  | .sync =>
    match p.syncs with
    | 0 => none
    | k + 1 => if p.opened then some (.alive { p with syncs := k }) else some (.dead .sync p.disk)
  | .stop => some (stopping p)

/-- A history; it ends with the process. -/
def run (p : Proc) : List Ev → Option Result
  | [] => some (.alive p)
  | ev :: rest =>
    match step p ev with
    | none => none
    | some (.alive p) => run p rest
    | some (.dead why disk) => if rest.isEmpty then some (.dead why disk) else none

end Proc
end Metis
