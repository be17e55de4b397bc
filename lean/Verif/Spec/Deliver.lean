import Verif.Proofs.Host
/-!
What it means that a client goes on reading (C95).
-/
namespace Metis.Spec
open Metis.Wire
open _root_.Metis.Net (pending)

/-- The socket of `fd` can be written, and takes at least a byte. -/
def Takes (fd : Nat) : Wire.Ev → Prop
  | .writable x (.bytes k :: _) => x = fd ∧ 0 < k
  | _ => False

/-- A history without end, from a moment of a history of the server on. -/
structure Forever (hash : Bytes → Nat) (n : Nat) (pw : Bytes) (aof : Bool) (ev : Nat → Ev) (w : Nat → Wire) : Prop where
  start : ∃ evs, EvsOk hash evs ∧ run (init n pw aof) evs = some (w 0)
  step  : ∀ i, Wire.step (w i) (ev i) = some (w (i + 1))
  env   : ∀ i, EvsOk hash [ev i]

/-- The client has been told at the moment `i` what is on the wire and what is pending. -/
def toldAt (w : Wire) (fd : Nat) : Option Bytes := (w.net.clients fd).map (fun o => w.net.wire fd ++ pending o)

/-- How many of the events are a write to `fd` that takes a byte. -/
def takes (fd : Nat) : List Ev → Nat
  | [] => 0
  | .writable x (.bytes k :: _) :: evs => (if x = fd ∧ 0 < k then 1 else 0) + takes fd evs
  | _ :: evs => takes fd evs

/-- The connection stays open. -/
def Stays (fd : Nat) (w : Wire) (evs : List Ev) : Prop := ∀ pre post w', evs = pre ++ post → run w pre = some w' → w'.net.clients fd ≠ none

end Metis.Spec
