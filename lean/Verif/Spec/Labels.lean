import Verif.Model.Sys
/-!
Other descriptors for the connections.
-/
namespace Metis.Spec

/-- The event on the connection with the other descriptor. -/
def Event.relabelled (τ : Nat → Nat) : Event → Event
  | .connect fd => .connect (τ fd)
  | .close fd => .close (τ fd)
  | .request fd e args => .request (τ fd) e args
  | .cron e => .cron e

end Metis.Spec
