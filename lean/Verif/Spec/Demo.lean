import Verif.Model.Sys
/-!
A concrete environment, for examples and for the witnesses of refutations.
-/
namespace Metis.Spec

/-- The float64 1.0. -/
def one : F64 := ⟨0x3ff0000000000000⟩
/-- The float64 2.0. -/
def two : F64 := ⟨0x4000000000000000⟩

/-- Clock `now`; lower-case command names; scores are small natural numbers. -/
def demo (now : Int) : Env where
  hash := fun b => (b.map UInt8.toNat).sum
  now := now
  lower := fun b => b
  withScores := fun b => b == b!"WITHSCORES"
  atoiErr := fun _ => b!"bad"
  intErr := fun _ => b!"bad"
  floatErr := fun _ => b!"bad"
  parseFloat := fun b => if b = b!"1" then some one else if b = b!"2" then some two else none
  fmtFloat := fun f => if f.bits = one.bits then b!"1" else b!"2"
  compile := fun p => if p = b!"[" then none else some (fun k => p == k)
  regexpErr := fun _ => b!"bad"
  draws := []
  level := fun _ => 1

end Metis.Spec
