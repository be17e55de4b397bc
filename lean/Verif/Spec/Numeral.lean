import Verif.Model.Num
/-!
Numbers as clients write them: independent of how they are read.
-/
namespace Metis.Spec
open Metis

/-- The value of decimal digits, by their places. -/
def place : Bytes → Nat
  | [] => 0
  | c :: cs => (c.toNat - 48) * 10 ^ cs.length + place cs

/-- The text denotes the number: an optional sign, at least one digit (zeros in front are allowed), nothing else; the number fits in 64 bits. -/
def Numeral (s : Bytes) (i : Int) : Prop :=
  (-2 ^ 63 ≤ i ∧ i < 2 ^ 63) ∧ ∃ sign ds, s = sign ++ ds ∧ ds ≠ [] ∧ (∀ c ∈ ds, 48 ≤ c.toNat ∧ c.toNat ≤ 57) ∧
    ((sign = [] ∨ sign = b!"+") ∧ i = place ds ∨ sign = b!"-" ∧ i = -(place ds : Int))

end Metis.Spec
