import Verif.Model.Quicklist
/-! Histories of calls on the quicklist model. -/
namespace Metis.Quicklist
variable {α : Type}

/-- Mutating calls of datastruct/quicklist.go (PushBack 82, PushFront 99, PopFront 103, PopBack 107, Insert 111, Remove 156) and
`Len` (231). -/
inductive QOp (α : Type)
  | pushFront (v : α) | pushBack (v : α) | popFront | popBack | insert (i : Int) (v : α) | remove (i : Int) | len
deriving Repr

/-- Results of the calls. -/
inductive QRes (α : Type) | unit | value (v : Option α) | bool (b : Bool) | num (n : Nat)
deriving Repr, DecidableEq

/-- One call with the page size of the code; `none` if it panics. -/
def call (q : Quicklist α) : QOp α → Option (QRes α × Quicklist α)
  | .pushFront v => do let q ← pushFront pageSize q v; some (.unit, q)
  | .pushBack v => some (.unit, pushBack pageSize q v)
  | .popFront => do let (v, q) ← popFront q; some (.value v, q)
  | .popBack => do let (v, q) ← popBack q; some (.value v, q)
  | .insert i v => do let (b, q) ← insert pageSize q i v; some (.bool b, q)
  | .remove i => do let (v, q) ← remove q i; some (.value v, q)
  | .len => some (.num q.len, q)

/-- A history. -/
def runCalls (q : Quicklist α) : List (QOp α) → Option (List (QRes α) × Quicklist α)
  | [] => some ([], q)
  | op :: ops => do
    let (r, q) ← call q op
    let (rs, q) ← runCalls q ops
    some (r :: rs, q)

/-- Calling `Next` (quicklist.go:34-54) `n` times. -/
def walk (q : Quicklist α) : Nat → QIter → Option (List (Option α))
  | 0, _ => some []
  | n + 1, it => do
    let (v, it) ← iterNext q it
    let rest ← walk q n it
    some (v :: rest)

end Metis.Quicklist
