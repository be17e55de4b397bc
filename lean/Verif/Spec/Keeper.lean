import Verif.Spec.Reference
import Verif.Model.Node
/-!
A reference server that is killed and started again: the server of `Spec/Reference.lean`, a disk that holds the databases as they were when it last wrote
them, and what it has said on each connection. There is no file format here, no log, no rewriting and no goroutine.
-/
namespace Metis.Spec.Ref
open Metis Node

structure Keeper where
  state : State
  disk  : Nat → Store
  out   : Nat → Option Bytes

/-- Deadlines are kept to the second. -/
def Store.rounded (s : Store) : Store := ⟨s.val, fun k => (s.due k).map (fun d => d / 1000 * 1000)⟩

/-- A connection closed. -/
def Keeper.drop (B : Keeper) (fd : Nat) : Keeper := { B with state := B.state.know fd none, out := fun x => if x = fd then none else B.out x }

/-- Killed and started again: the databases are read from the disk, nobody is connected. -/
def Keeper.reborn (B : Keeper) : Keeper := ⟨⟨fun i => (B.disk i).rounded, fun _ => none⟩, fun i => (B.disk i).rounded, fun _ => none⟩

/-- One event. The databases are written to the disk before the process waits for events, and perhaps by the timer. -/
def Lives (n : Nat) (pw : Bytes) (B : Keeper) : Ev → Keeper → Prop
  | .sleep _, B' => B' = { B with disk := B.state.dbs }
  | .cron e _, B' => Moves n pw B.state (.cron e) B'.state none ∧ B'.out = B.out ∧ (B'.disk = B.disk ∨ B'.disk = B'.state.dbs)
  | .accept fd, B' => B' = { B with state := B.state.know fd (some ⟨0, false⟩), out := fun x => if x = fd then some [] else B.out x }
  | .close fd, B' => B' = B.drop fd
  | .request fd e args, B' => ∃ R v, Moves n pw B.state (.request fd e args) R (some v) ∧
      B' = { B with state := R, out := fun x => if x = fd then (B.out x).map (· ++ v.encode) else B.out x }
  | .writable fd rs, B' => B' = B ∨ (.fail ∈ rs ∧ B' = B.drop fd)
  | .restart _, B' => B' = B.reborn
  | .crashInDone _ _, B' => B' = B.reborn
  | .noCron, B' => B' = B
  | .turn, B' => B' = B
  | .work _ _ _, B' => B' = B

/-- Nothing on the disk, nobody connected. -/
def Keeper.start : Keeper := ⟨Ref.start, Ref.start.dbs, fun _ => none⟩

/-- The request stays within the limits of `Within`. -/
def Keeper.Fine (B : Keeper) : Ev → Prop
  | .request fd e args => Ref.Fine B.state (.request fd e args)
  | _ => True

/-- Every request of the history stays within the limits, whatever the reference does before. -/
def Keeper.Safe (n : Nat) (pw : Bytes) : Keeper → List Ev → Prop
  | _, [] => True
  | B, ev :: evs => B.Fine ev ∧ ∀ B', Lives n pw B ev B' → Keeper.Safe n pw B' evs

end Metis.Spec.Ref
