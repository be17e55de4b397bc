import Verif.Model.Proc
/-!
Notions for the properties of the process (C77 to C79).
-/
namespace Metis
namespace Proc

/-- The steps of the loop and of the rewrite goroutine in a history. -/
def nodes (evs : List Ev) : List Node.Ev :=
  evs.filterMap fun ev => match ev with
    | .node ev => some ev
    | _ => none

/-- What a new process does, started with the same configuration after the death of this one: it loads what is on the disk. -/
def next (es : Nat → Env) (p : Proc) : Option Node := Node.restart es { p.node with file := p.disk }

/-- No signal is sent to the process. -/
def Unstopped (evs : List Ev) : Prop := Ev.stop ∉ evs

end Proc
end Metis
