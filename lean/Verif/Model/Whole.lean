import Verif.Model.Wire
/-!
Model of the whole process: bytes in, bytes out, and the append-only file. `Node` (event loop, commands, file, rewriting goroutine, restarts) with the parser of
each connection (`Conn`), which `Node` leaves out.

Simplification: as in `Wire`, the parser is run over the bytes of a read before the command it found is executed.
-/
namespace Metis.Whole
open Metis Node

structure Whole where
  node : Node
  /-- the parser's part of each `Client` (server/client.go:27-40) -/
  conn : Nat → Option Conn

inductive Ev
  | sleep (t : Int)
  | cron (e : Env) (t : Int)
  | noCron
  | turn
  | work (i : Nat) (e : Env) (p : Pace)
  | restart (es : Nat → Env)
  | crashInDone (m : Nat) (es : Nat → Env)
  | accept (fd : Nat)
  /-- server/server.go:179-212 `readQueryFromClient` -/
  | readable (fd : Nat) (g : Wire.Got) (e : Env)
  | writable (fd : Nat) (rs : List Wrote)

/-- A new process with an empty file (server/server.go:65-140). -/
def boot (n : Nat) (pw : Bytes) (aof : Bool) (conf : Conf) : Whole := { node := Node.boot n pw aof conf, conn := fun _ => none }

/-- One parser changed. -/
def setConn (w : Whole) (fd : Nat) (c : Option Conn) : Whole := { w with conn := fun x => if x = fd then c else w.conn x }

/-- server/client.go:182-196 `free` -/
def drop (w : Whole) (fd : Nat) : Option Whole := do
  let node ← step w.node (.close fd)
  some (setConn { w with node } fd none)

/-- server/command.go:105-127 `processCommand` for the commands found. -/
def exec (fd : Nat) (e : Env) : List (List Bytes) → Whole → Option Whole
  | [], w => some w
  | args :: rest, w => do
    let node ← Node.step w.node (.request fd e args)
    exec fd e rest { w with node }

/-- The parser of a connection, while file events are handled (ae/ae.go:189-208, the file events of a turn, as in `Node`). -/
def parser (w : Whole) (fd : Nat) : Option Conn :=
  match w.node.phase with
  | .files _ => w.conn fd
  | _ => none

/-- server/server.go:179-212 `readQueryFromClient`, in a turn of the event loop. -/
def readable (fd : Nat) (g : Wire.Got) (e : Env) (w : Whole) : Option Whole := do
  let c ← parser w fd
  match g with
  | .nothing => some (setConn w fd (some (Conn.grow c)))
  | .eof => drop w fd
  | .data d => do
    let (cmds, c') ← Conn.read c d
    let w ← exec fd e cmds w
    match c' with
    | none => drop w fd
    | some c' => some (setConn w fd (some c'))

/-- An event in which no parser takes part. -/
def lift (w : Whole) (ev : Node.Ev) : Option Whole := (Node.step w.node ev).map (fun node => { w with node })

/-- One step; `none` = panic, or the event cannot happen. After a restart there are no connections; a connection that is lost while writing has its parser freed with it. -/
def step (w : Whole) : Ev → Option Whole
  | .sleep t => lift w (.sleep t)
  | .cron e t => lift w (.cron e t)
  | .noCron => lift w .noCron
  | .turn => lift w .turn
  | .work i e p => lift w (.work i e p)
  | .restart es => (Node.step w.node (.restart es)).map (fun node => { node, conn := fun _ => none })
  | .crashInDone m es => (Node.step w.node (.crashInDone m es)).map (fun node => { node, conn := fun _ => none })
  | .accept fd => (lift w (.accept fd)).map (fun w => setConn w fd (some Conn.new))
  | .readable fd g e => readable fd g e w
  | .writable fd rs => (lift w (.writable fd rs)).map (fun w => if (w.node.net.clients fd).isSome then w else setConn w fd none)

/-- A history. -/
def run (w : Whole) : List Ev → Option Whole
  | [] => some w
  | ev :: rest => do
    let w ← step w ev
    run w rest

end Metis.Whole
