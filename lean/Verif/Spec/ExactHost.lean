import Verif.Spec.Exact
import Verif.Spec.Host
/-!
The exact reference of `Spec/Exact.lean` behind sockets: bytes in, bytes out, crashes included. A read that crashes the parser, and a command for
which the exact reference has no outcome, have none here.
-/
namespace Metis.Spec.Exact
open Metis Wire

/-- The server and its connections (what has been received since the last command, the room in the query buffer, all that has been said). -/
structure Host where
  state : State
  line  : Nat → Option Ref.Line

/-- One connection changed. -/
def Host.plug (H : Host) (fd : Nat) (l : Option Ref.Line) : Host := { H with line := fun x => if x = fd then l else H.line x }
/-- A connection closed. -/
def Host.drop (H : Host) (fd : Nat) : Host := { state := H.state.know fd none, line := fun x => if x = fd then none else H.line x }

/-- One callback. -/
def Serves (n : Nat) (pw : Bytes) (H : Host) : Ev → Host → Prop
  | .accept fd, H' => H.line fd = none ∧ H' = { state := H.state.know fd (some ⟨0, false⟩), line := fun x => if x = fd then some ⟨[], 4096, []⟩ else H.line x }
  | .cron e, H' => H'.line = H.line ∧ Moves n pw H.state (.cron e) H'.state none
  | .writable fd rs, H' => H.line fd ≠ none ∧ (H' = H ∨ (.fail ∈ rs ∧ H' = H.drop fd))
  | .readable fd g e, H' =>
    match H.line fd with
    | none => False
    | some l =>
      match g with
      | .eof => H' = H.drop fd
      | .nothing => H' = H.plug fd (some { l with room := roomAfter l.room 0 })
      | .data d =>
        match verdict (roomAfter l.room d.length) (l.inbox ++ d) with
        | .crash => False
        | .close => H' = H.drop fd
        | .wait => H' = H.plug fd (some { l with inbox := l.inbox ++ d, room := roomAfter l.room d.length })
        | .run args =>
          if args = [] then H' = H.plug fd (some { l with inbox := [], room := 0 })
          else ∃ R v, Moves n pw H.state (.request fd e args) R (some v) ∧
            H' = { state := R, line := fun x => if x = fd then some ⟨[], 0, l.out ++ v.encode⟩ else H.line x }

inductive Hosts (n : Nat) (pw : Bytes) : Host → List Ev → Host → Prop
  | nil {H} : Hosts n pw H [] H
  | cons {H H1 H2 ev evs} : Serves n pw H ev H1 → Hosts n pw H1 evs H2 → Hosts n pw H (ev :: evs) H2

def Host.start : Host := ⟨Exact.start, fun _ => none⟩

/-- The command `args` that the bytes of the event complete, if they complete one. -/
def Host.Asks (H : Host) (ev : Ev) (fd : Nat) (e : Env) (args : List Bytes) : Prop :=
  ∃ d l, ev = .readable fd (.data d) e ∧ H.line fd = some l ∧ verdict (roomAfter l.room d.length) (l.inbox ++ d) = .run args ∧ args ≠ []

/-- The command in the bytes read, if there is one, is not left out. -/
def Host.Covered (H : Host) (ev : Ev) : Prop := ∀ fd e args, H.Asks ev fd e args → Exact.Covered (.request fd e args)

/-- No event of the history is left out, whatever the reference does before. -/
def Host.Safe (n : Nat) (pw : Bytes) : Host → List Ev → Prop
  | _, [] => True
  | H, ev :: evs => H.Covered ev ∧ ∀ H', Serves n pw H ev H' → Host.Safe n pw H' evs

end Metis.Spec.Exact
