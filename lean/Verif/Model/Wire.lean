import Verif.Model.Node
import Verif.Model.Resp
/-!
Model of the server as its clients see it: bytes in, bytes out. The callbacks of the event loop for the listening socket and the
connections (server/server.go:151-249), with the parser (`Conn`), the commands (`Sys`) and the output queues (`Net`) put together.

Simplifications. The parser is run over all the bytes of a read before the commands it found are executed, where the code executes each as
it is found; after a command the query buffer is empty (client.go:198), so that there is at most one (`one_command` in Proofs/Wire). The
append-only file is left out here (see `Node`).
-/
namespace Metis.Wire

/-- What `read` on a connection returned. -/
inductive Got
  | data (d : Bytes)
  /-- the end of the stream, or ECONNRESET (server.go:190, 199) -/
  | eof
  /-- EAGAIN, EINTR (188), or an error that is only logged (192) -/
  | nothing

structure Wire where
  sys  : Sys
  net  : Net.Net
  /-- the parser's part of each `Client` -/
  conn : Nat → Option Conn

inductive Ev
  | accept (fd : Nat)
  | readable (fd : Nat) (g : Got) (e : Env)
  | writable (fd : Nat) (rs : List Wrote)
  | cron (e : Env)

/-- server/server.go:65-107 `NewServer` -/
def init (n : Nat) (password : Bytes) (aof : Bool) : Wire := { sys := .init n password aof, net := .new, conn := fun _ => none }

/-- server/client.go:182-196 `free` -/
def drop (w : Wire) (fd : Nat) : Wire :=
  { sys := { w.sys with sess := fun x => if x = fd then none else w.sys.sess x }
    net := Net.free w.net fd
    conn := fun x => if x = fd then none else w.conn x }

/-- server/command.go:105-127 `processCommand` for the commands found, with the replies queued. -/
def exec (fd : Nat) (e : Env) : List (List Bytes) → Wire → Option Wire
  | [], w => some w
  | args :: rest, w => do
    let (sys, r) ← Sys.step w.sys (.request fd e args)
    let net ← Node.say w.net fd r
    exec fd e rest { w with sys, net }

/-- server/server.go:179-212 `readQueryFromClient` -/
def readable (fd : Nat) (g : Got) (e : Env) (w : Wire) : Option Wire := do
  let c ← w.conn fd
  match g with
  | .nothing => some { w with conn := fun x => if x = fd then some (Conn.grow c) else w.conn x }
  | .eof => some (drop w fd)
  | .data d => do
    let (cmds, c') ← Conn.read c d
    let w ← exec fd e cmds w
    match c' with
    | none => some (drop w fd)
    | some c' => some { w with conn := fun x => if x = fd then some c' else w.conn x }

/-- One callback; `none` = panic, or the event cannot happen. -/
def step (w : Wire) : Ev → Option Wire
  | .accept fd => do
    let net ← Net.step w.net (.accept fd)
    let (sys, _) ← Sys.step w.sys (.connect fd)
    some { sys, net, conn := fun x => if x = fd then some Conn.new else w.conn x }
  | .readable fd g e => readable fd g e w
  | .writable fd rs => do
    let net ← Net.step w.net (.writable fd rs)
    if (net.clients fd).isSome then some { w with net } else some { drop w fd with net }
  | .cron e => do
    let (sys, _) ← Sys.step w.sys (.cron e)
    some { w with sys }

/-- A history. -/
def run (w : Wire) : List Ev → Option Wire
  | [] => some w
  | ev :: rest => do
    let w ← step w ev
    run w rest

end Metis.Wire
