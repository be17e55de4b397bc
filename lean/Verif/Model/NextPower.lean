/-
Model of GetNextPower of datastruct/dict.go at the bit level (int64 = 64-bit two's complement).
-/
namespace Metis

/-- math.MaxInt64 -/
def maxInt64 : BitVec 64 := BitVec.intMax 64

/-- datastruct/dict.go:409, one iteration of the loop body: `res |= res >> i` (arithmetic shift). -/
def smear1 (res : BitVec 64) (i : Nat) : BitVec 64 := res ||| res.sshiftRight i

/-- dict.go:408-410 `for i := 1; i <= 64; i *= 2`; `fuel` bounds the iterations (7 are made). -/
def smearLoop : (fuel : Nat) → (i : Nat) → BitVec 64 → BitVec 64
  | 0, _, res => res
  | n + 1, i, res => if i ≤ 64 then smearLoop n (i * 2) (smear1 res i) else res

/-- dict.go:402-417 `GetNextPower`. -/
def getNextPower64 (size : BitVec 64) : BitVec 64 :=
  if size.toInt ≤ 4 then 4#64
  else
    let res := smearLoop 8 1 (size - 1#64)
    if res.toInt < 0 ∨ res = maxInt64 then maxInt64 else res + 1#64

end Metis
