import Verif.Spec.Exact
import Verif.Spec.Keeper
/-!
The exact reference of `Spec/Exact.lean`, killed and started again: it has a disk, which holds the databases as they were when it last wrote them (with the
pages of the lists and the entries of the sorted sets), and what it has said on each connection. A request for which the exact reference has no
outcome has none here: it brings down the process.
-/
namespace Metis.Spec.Exact
open Metis Node

structure Keeper where
  state : State
  disk  : Nat → Store
  out   : Nat → Option Bytes

/-- Deadlines are kept to the second; pages and entries as they are. -/
def Store.rounded (S : Store) : Store := { S with base := S.base.rounded }

/-- A connection closed. -/
def Keeper.drop (B : Keeper) (fd : Nat) : Keeper := { B with state := B.state.know fd none, out := fun x => if x = fd then none else B.out x }

/-- Killed and started again: the databases are read from the disk, nobody is connected. -/
def Keeper.reborn (B : Keeper) : Keeper := ⟨⟨fun i => (B.disk i).rounded, fun _ => none⟩, fun i => (B.disk i).rounded, fun _ => none⟩

/-- One event. The databases are written to the disk before the process waits for events, and perhaps by the timer. -/
def Lives (n : Nat) (pw : Bytes) (B : Keeper) : Ev → Keeper → Prop
  | .sleep _, B' => B' = { B with disk := B.state.dbs }
  | .cron e _, B' => Moves n pw B.state (.cron e) B'.state none ∧ B'.out = B.out ∧ (B'.disk = B.disk ∨ B'.disk = B'.state.dbs)
  | .accept fd, B' => B' = { B with state := B.state.know fd (some ⟨0, false⟩), out := fun x => if x = fd then some [] else B.out x }
  | .close fd, B' => B' = B.drop fd
  | .request fd e args, B' => ∃ R v, Moves n pw B.state (.request fd e args) R (some v) ∧
      B' = { B with state := R, out := fun x => if x = fd then (B.out x).map (· ++ v.encode) else B.out x }
  | .writable fd rs, B' => B' = B ∨ (.fail ∈ rs ∧ B' = B.drop fd)
  | .restart _, B' => B' = B.reborn
  | .crashInDone _ _, B' => B' = B.reborn
  | .noCron, B' => B' = B
  | .turn, B' => B' = B
  | .work _ _ _, B' => B' = B

/-- Nothing on the disk, nobody connected. -/
def Keeper.start : Keeper := ⟨Exact.start, Exact.start.dbs, fun _ => none⟩

/-- The event is not left out (see `Covered`). -/
def Told : Ev → Prop
  | .request fd e args => Covered (.request fd e args)
  | _ => True

end Metis.Spec.Exact
