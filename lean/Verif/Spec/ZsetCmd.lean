import Verif.Spec.ZsetSpec
import Verif.Spec.Collections
/-!
What the sorted-set commands mean: a map from members to scores, and its arrangement by score, then member.
-/
namespace Metis.Spec

/-- The scores held by a key, if it is missing or holds a sorted set. -/
def zsetOf : Option AObj → Option (Bytes → Option F64)
  | none => some (fun _ => none)
  | some (.zset z) => some z.f
  | some _ => none

/-- `l` lists the members with their scores, each once, sorted by score, then member. -/
def Arranged (f : Bytes → Option F64) (l : List Pair) : Prop := Ordered l ∧ (l.map Prod.snd).Nodup ∧ ∀ m v, f m = some v ↔ (v, m) ∈ l

/-- Giving a member a score; a numerically equal score is no change. -/
def scored (f : Bytes → Option F64) (x : F64) (m : Bytes) : Bytes → Option F64 :=
  match f m with
  | some v => if numEq v x then f else fun k => if k = m then some x else f k
  | none => fun k => if k = m then some x else f k

/-- Giving scores to several members, one after the other. -/
def scoredAll (f : Bytes → Option F64) : List Pair → Bytes → Option F64
  | [] => f
  | p :: ps => scoredAll (scored f p.1 p.2) ps

/-- How many of the members are new. -/
def newOnes (f : Bytes → Option F64) : List Pair → Nat
  | [] => 0
  | p :: ps => (if f p.2 = none then 1 else 0) + newOnes (scored f p.1 p.2) ps

/-- No NaN, and a member that is there is only given its own score. -/
def Keeps (f : Bytes → Option F64) : List Pair → Prop
  | [] => True
  | p :: ps => p.1.isNaN = false ∧ (∀ v, f p.2 = some v → v.key = p.1.key) ∧ Keeps (scored f p.1 p.2) ps

/-- The map without some members. -/
def without (f : Bytes → Option F64) (ms : List Bytes) (m : Bytes) : Option F64 := if m ∈ ms then none else f m

/-- The map without the members in a score range. -/
def outside (f : Bytes → Option F64) (min max : F64) (m : Bytes) : Option F64 :=
  match f m with
  | some v => if inRange min max (v, m) then none else some v
  | none => none

end Metis.Spec
