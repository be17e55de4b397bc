import Verif.Spec.Log
import Verif.Model.Chunks
/-!
Which sequences of reads deliver a log without cutting data.
-/
namespace Metis.Spec

/-- A reader with a window of at most `cap` bytes, `m` of them not consumed, reads until it has a whole line of `n` bytes; the lengths of what the next
reads of the file find are given. -/
def fetch (cap n : Nat) : Nat → List Nat → Option (Nat × List Nat)
  | m, [] => if n ≤ m then some (m, []) else none
  | m, c :: cs => if n ≤ m then some (m, c :: cs) else if c ≤ cap - m then fetch cap n (m + c) cs else some (cap, (c - (cap - m)) :: cs)

/-- Data of `n` bytes: they are in the window, or the window is used up and one read finds them all. `none`: they are cut. -/
def grasp (cap n m : Nat) (cs : List Nat) : Option (Nat × List Nat) :=
  if n ≤ m then some (m - n, cs)
  else if m ≠ 0 then none
  else match cs with
    | [] => none
    | c :: cs =>
      if c < n then none
      else if cap ≤ n then some (0, if c = n then cs else (c - n) :: cs)
      else if c ≤ cap then some (c - n, cs) else some (cap - n, (c - cap) :: cs)

/-- Through a sequence of pieces. `none`: some data are cut. -/
def pass (cap : Nat) : Nat → List Nat → List Piece → Option (Nat × List Nat)
  | m, cs, [] => some (m, cs)
  | m, cs, .line n :: ps => do
    let (m, cs) ← fetch cap n m cs
    pass cap (m - n) cs ps
  | m, cs, .data n :: ps => do
    let (m, cs) ← grasp cap n m cs
    pass cap m cs ps

/-- The lengths of what the reads find. -/
def lengths : Chunks.Src → List Nat
  | [] => []
  | .bytes _ cs :: s => (cs.length + 1) :: lengths s
  | .error :: s => lengths s

/-- The reads deliver the log without cutting data. -/
def Delivered (src : Chunks.Src) (recs : List (List Bytes)) : Prop :=
  .error ∉ src ∧ src.bytes = log recs ∧ pass 65536 0 (lengths src) (recs.flatMap pieces) ≠ none

end Metis.Spec
