import Verif.Model.Bytes
/-!
Specification for the sorted set: score/member pairs ordered by score, then by member. Scores are compared by the integer their
IEEE pattern stands for, members by an explicit definition of lexicographic order; nothing of the skiplist code is used.
-/
namespace Metis.Spec

/-- A score/member pair. -/
abbrev Pair := F64 × Bytes

/-- Lexicographic order: proper prefix, or a smaller byte at the first difference. -/
def lexLt (a b : Bytes) : Prop :=
  (∃ c r, b = a ++ c :: r) ∨ ∃ p c d s t, a = p ++ c :: s ∧ b = p ++ d :: t ∧ c.toNat < d.toNat

/-- Strictly before in the order of a sorted set. -/
def plt (p q : Pair) : Prop := p.1.key < q.1.key ∨ (p.1.key = q.1.key ∧ lexLt p.2 q.2)

/-- Sorted by score, then member. -/
def Ordered (l : List Pair) : Prop := l.Pairwise (fun p q => ¬ plt q p)

/-- The same pair (`-0` and `0` are the same score). -/
def same (p q : Pair) : Bool := p.1.key == q.1.key && p.2 == q.2

/-- `min ≤ score ≤ max`, with NaN in no range. -/
def inRange (min max : F64) (p : Pair) : Bool :=
  !min.isNaN && !max.isNaN && decide (min.key ≤ p.1.key) && decide (p.1.key ≤ max.key)

/-- The operations of the history. -/
inductive SkOp
  | insert (p : Pair)
  | delete (p : Pair)
  | deleteRange (min max : F64)

/-- Effect on the unordered collection of pairs. -/
def skStep (l : List Pair) : SkOp → List Pair
  | .insert p => p :: l
  | .delete p => l.eraseP (same p)
  | .deleteRange min max => l.filter (fun p => !inRange min max p)

/-- Effect of a history on the empty collection. -/
def skRun (ops : List SkOp) : List Pair := ops.foldl skStep []

/-- No pair is inserted while the same pair is present, no NaN is used. -/
def SkValid : List Pair → List SkOp → Prop
  | _, [] => True
  | l, op :: ops =>
    (match op with
      | .insert p => p.1.isNaN = false ∧ ∀ q ∈ l, same p q = false
      | .delete p => p.1.isNaN = false
      | .deleteRange min max => min.isNaN = false ∧ max.isNaN = false) ∧ SkValid (skStep l op) ops

end Metis.Spec
