import Verif.Model.Mem
/-!
What the memory of the request parser must look like from outside: each client has a parser over values, and nothing is shared.
-/
namespace Metis
namespace Heap

/-- One event with a parser over values for each client. -/
def vstep (V : Nat → Option Conn) : Event → Option ((Nat → Option Conn) × List (List Bytes))
  | .connect fd => some (fun x => if x = fd then some Conn.new else V x, [])
  | .close fd => some (fun x => if x = fd then none else V x, [])
  | .again fd _ => (V fd).map fun c => (fun x => if x = fd then some (Conn.grow c) else V x, [])
  | .read fd _ data =>
    match V fd with
    | none => none
    | some c =>
      if data.length ≤ (Conn.grow c).slack then
        match Conn.read c data with
        | none => none
        | some (cmds, r) => some (fun x => if x = fd then r else V x, cmds)
      else none

/-- A history with a parser over values for each client. -/
def vrun (V : Nat → Option Conn) : List Event → Option ((Nat → Option Conn) × List (List (List Bytes)))
  | [] => some (V, [])
  | ev :: rest =>
    match vstep V ev with
    | none => none
    | some (V, cmds) =>
      match vrun V rest with
      | none => none
      | some (V, more) => some (V, cmds :: more)

/-- The connection an event is about. -/
def Event.fd : Event → Nat
  | .connect fd => fd
  | .close fd => fd
  | .read fd _ _ => fd
  | .again fd _ => fd

/-- The bytes received from one client. -/
def received_from (fd : Nat) : List Event → List Bytes
  | [] => []
  | .read fd' _ data :: rest => if fd' = fd then data :: received_from fd rest else received_from fd rest
  | _ :: rest => received_from fd rest

/-- The commands executed for one client. -/
def executed_for {α : Type} (fd : Nat) : List Event → List (List α) → List α
  | ev :: rest, cmds :: more => if ev.fd = fd then cmds ++ executed_for fd rest more else executed_for fd rest more
  | _, _ => []

/-- The connection is neither opened nor closed from outside. -/
def Event.keeps (fd : Nat) : Event → Prop
  | .connect fd' => fd' ≠ fd
  | .close fd' => fd' ≠ fd
  | _ => True

end Heap
end Metis
