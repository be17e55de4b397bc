import Verif.Spec.ExactKeeper
import Verif.Spec.Frame
import Verif.Model.Whole
/-!
The exact reference with a disk (`Spec/ExactKeeper.lean`) behind sockets. A connection is what has been received on it since the last command and the room in the
query buffer; what a read means is said by `verdict` (Spec/Frame), a parser without memory.
-/
namespace Metis.Spec.Exact
open Metis Whole

structure Process where
  keeper : Keeper
  /-- the bytes since the last command, and the room -/
  inbox  : Nat → Option (Bytes × Nat)

/-- One connection changed. -/
def Process.plug (P : Process) (fd : Nat) (l : Option (Bytes × Nat)) (B : Keeper) : Process := ⟨B, fun x => if x = fd then l else P.inbox x⟩

/-- One event. -/
def Works (n : Nat) (pw : Bytes) (P : Process) : Ev → Process → Prop
  | .sleep t, P' => Lives n pw P.keeper (.sleep t) P'.keeper ∧ P'.inbox = P.inbox
  | .cron e t, P' => Lives n pw P.keeper (.cron e t) P'.keeper ∧ P'.inbox = P.inbox
  | .noCron, P' => P' = P
  | .turn, P' => P' = P
  | .work _ _ _, P' => P' = P
  | .restart _, P' => P' = ⟨P.keeper.reborn, fun _ => none⟩
  | .crashInDone _ _, P' => P' = ⟨P.keeper.reborn, fun _ => none⟩
  | .accept fd, P' => ∃ B, Lives n pw P.keeper (.accept fd) B ∧ P' = P.plug fd (some ([], 4096)) B
  | .writable fd rs, P' => P' = P ∨ (.fail ∈ rs ∧ P' = P.plug fd none (P.keeper.drop fd))
  | .readable fd g e, P' =>
    match P.inbox fd with
    | none => False
    | some (x, room) =>
      match g with
      | .eof => P' = P.plug fd none (P.keeper.drop fd)
      | .nothing => P' = P.plug fd (some (x, roomAfter room 0)) P.keeper
      | .data d =>
        match verdict (roomAfter room d.length) (x ++ d) with
        | .crash => False
        | .close => P' = P.plug fd none (P.keeper.drop fd)
        | .wait => P' = P.plug fd (some (x ++ d, roomAfter room d.length)) P.keeper
        | .run args =>
          if args = [] then P' = P.plug fd (some ([], 0)) P.keeper
          else ∃ B, Lives n pw P.keeper (.request fd e args) B ∧ P' = P.plug fd (some ([], 0)) B

/-- Nothing on the disk, nobody connected. -/
def Process.start : Process := ⟨.start, fun _ => none⟩

/-- The command `args` that the bytes of the event complete, if they complete one. -/
def Process.Asks (P : Process) (ev : Ev) (fd : Nat) (e : Env) (args : List Bytes) : Prop :=
  ∃ d x room, ev = .readable fd (.data d) e ∧ P.inbox fd = some (x, room) ∧ verdict (roomAfter room d.length) (x ++ d) = .run args ∧ args ≠ []

end Metis.Spec.Exact
