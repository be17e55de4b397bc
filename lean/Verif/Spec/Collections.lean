import Verif.Proofs.Abs
/-!
What the commands on hashes, sets and lists mean: maps, finite sets and sequences. A missing key counts as an empty collection.
-/
namespace Metis.Spec

/-- The map held by a key, if it is missing or holds a hash. -/
def hashOf : Option AObj → Option (Bytes → Option Bytes)
  | none => some (fun _ => none)
  | some (.hash f) => some f
  | some _ => none

/-- The set (as membership test) held by a key, if it is missing or holds a set. -/
def setOf : Option AObj → Option (Bytes → Bool)
  | none => some (fun _ => false)
  | some (.set f) => some (fun x => (f x).isSome)
  | some _ => none

/-- The sequence held by a key, if it is missing or holds a list. -/
def listOf : Option AObj → Option (List Bytes)
  | none => some []
  | some (.list q) => some q.pages.flatten
  | some _ => none

/-- Field-value pairs as arguments. -/
def pairArgs (ps : List (Bytes × Bytes)) : List Bytes := ps.flatMap (fun p => [p.1, p.2])

/-- The map after assigning all pairs: the last pair of a field counts. -/
def assigned (ps : List (Bytes × Bytes)) (h : Bytes → Option Bytes) (x : Bytes) : Option Bytes :=
  match ps.reverse.find? (fun p => p.1 = x) with
  | some p => some p.2
  | none => h x

/-- `l` lists exactly the elements with property `p`, each once. -/
def Lists (l : List Bytes) (p : Bytes → Prop) : Prop := l.Nodup ∧ ∀ x, x ∈ l ↔ p x

end Metis.Spec
