import Verif.Model.Set
import Verif.Spec.FSet
/-! Histories of calls on the set model (glue between `Model/Set.lean` and `Spec/FSet.lean`). -/
namespace Metis.MSet
open Spec
variable {K : Type} [DecidableEq K] (hash : K → Nat)

/-- One API call (datastruct/set.go: Add 11, Delete 15, Size 19, Range 23, Contains 39). -/
def call (s : MSet K) : SetOp K → Option (SetRes K × MSet K)
  | .add k => do let (b, s) ← add hash s k; some (.bool b, s)
  | .delete k => do let (e, s) ← delete hash s k; some (.ok e.isNone, s)
  | .contains k => do let (b, s) ← contains hash s k; some (.bool b, s)
  | .size => do let n ← size s; some (.num n, s)
  | .range => do let (l, s) ← range s; some (.members l, s)

/-- A history; `none` if a call panics. -/
def runCalls (s : MSet K) : List (SetOp K) → Option (List (SetRes K) × MSet K)
  | [] => some ([], s)
  | op :: ops => do
    let (r, s) ← call hash s op
    let (rs, s) ← runCalls s ops
    some (r :: rs, s)

end Metis.MSet
