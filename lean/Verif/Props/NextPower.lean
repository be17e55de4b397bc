import Verif.Proofs.NextPower

/-! C08: the bit trick of GetNextPower. -/
namespace Metis.Props.NextPowerP
open Metis

/-- C08: for `n ≤ 2^62` the result is the smallest power of two that is at least `n` and at least 4. -/
theorem C08_next_power (n : BitVec 64) (h : n.toInt ≤ 2 ^ 62) :
    ∃ j : Nat, (getNextPower64 n).toInt = 2 ^ j ∧ n.toInt ≤ 2 ^ j ∧ (4 : Int) ≤ 2 ^ j ∧
      ∀ i : Nat, n.toInt ≤ 2 ^ i → (4 : Int) ≤ 2 ^ i → (2 : Int) ^ j ≤ 2 ^ i := by
  rw [getNextPower64_eq]
  have cast : ∀ i : Nat, ((2 ^ i : Nat) : Int) = (2 : Int) ^ i := fun i => by rw [Int.natCast_pow]; rfl
  by_cases h4 : n.toInt ≤ 4
  · rw [if_pos h4]; exact ⟨2, by decide, by simpa using h4, by decide, fun i _ hi => by simpa using hi⟩
  · rw [if_neg h4, if_pos h]
    obtain ⟨⟨j, hj⟩, h1, h2, h3⟩ := nextPow2_least n.toInt.toNat
    refine ⟨j, by rw [hj, cast], ?_, ?_, ?_⟩
    · rw [← cast, ← hj]; omega
    · rw [← cast, ← hj]; omega
    · intro i hi hi4
      rw [← cast] at hi hi4 ⊢
      rw [← cast, ← hj]
      have := h3 i (by omega) (by omega)
      omega

/-- C08: above `2^62` the result is math.MaxInt64. -/
theorem C08_overflow (n : BitVec 64) (h : 2 ^ 62 < n.toInt) : (getNextPower64 n).toInt = 2 ^ 63 - 1 := by
  rw [getNextPower64_eq, if_neg (by omega), if_neg (by omega)]

/-- The dict model uses the arithmetic function; it agrees with the bit-level one wherever a table can exist. -/
theorem C08_model_agrees (n : Nat) (h : n ≤ 2 ^ 62) : (getNextPower64 (BitVec.ofNat 64 n)).toInt = nextPow2 n := by
  have hn : (BitVec.ofNat 64 n).toNat = n := by rw [BitVec.toNat_ofNat]; omega
  have ht : (BitVec.ofNat 64 n).toInt = n := by rw [toInt_of_lt (by omega), hn]
  rw [getNextPower64_eq, ht]
  by_cases h4 : n ≤ 4
  · rw [if_pos (by omega)]; simp [nextPow2, tableInitialSize, h4]
  · rw [if_neg (by omega), if_pos (by omega)]; rfl

example : (getNextPower64 1025#64).toInt = 2048 := by decide
example : (getNextPower64 (BitVec.ofInt 64 (-7))).toInt = 4 := by decide
example : (getNextPower64 (BitVec.ofInt 64 (2 ^ 62 + 1))).toInt = 2 ^ 63 - 1 := by decide

end Metis.Props.NextPowerP
