import Verif.Model.Bytes
/-!
Specification of addresses.
-/
namespace Metis
namespace Spec

/-- The decimal notation of a byte. -/
def decByte (a : UInt8) : Bytes :=
  if a < 10 then [48 + a]
  else if a < 100 then [48 + a / 10, 48 + a % 10]
  else [48 + a / 100, 48 + a / 10 % 10, 48 + a % 10]

/-- The usual notation of an IPv4 address. -/
def dotted (a b c d : UInt8) : Bytes := decByte a ++ 46 :: (decByte b ++ 46 :: (decByte c ++ 46 :: decByte d))

/-- A connection to the address `dest` of the machine arrives at a socket that listens on `addr`. -/
def reaches (addr dest : Bytes) : Prop := addr = [0, 0, 0, 0] ∨ addr = dest

end Spec
end Metis
