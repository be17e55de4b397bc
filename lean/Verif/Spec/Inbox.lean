import Verif.Model.Wire
import Verif.Spec.Frame
/-!
Specification of C91: the bytes received on a connection since its last command.
-/
namespace Metis.Spec
open Metis Wire

/-- What an event does to the bytes received on the connection `fd` since the last command, and to the room for more. -/
def heard (fd : Nat) (p : Bytes × Nat) : Ev → Bytes × Nat
  | .accept x => if x = fd then ([], 4096) else p
  | .readable x g _ =>
    if x ≠ fd then p
    else match g with
      | .eof => p
      | .nothing => (p.1, roomAfter p.2 0)
      | .data d =>
        match verdict (roomAfter p.2 d.length) (p.1 ++ d) with
        | .wait => (p.1 ++ d, roomAfter p.2 d.length)
        | _ => ([], 0)
  | _ => p

/-- After a history. -/
def inbox (fd : Nat) (evs : List Ev) : Bytes × Nat := evs.foldl (heard fd) ([], 0)

/-- A read returns at least one byte. -/
def Read : Ev → Prop
  | .readable _ (.data d) _ => d ≠ []
  | _ => True

end Metis.Spec
