import Verif.Spec.RespSpec
/-!
The values of RESP that a server sends, and their encoding.
-/
namespace Metis.Spec

/-- Decimal representation of an integer. -/
def decI (n : Int) : Bytes := if n < 0 then 45 :: dec n.natAbs else dec n.natAbs

/-- A reply. Arrays contain bulk strings only. -/
inductive Value
  | status (s : Bytes)
  | err (s : Bytes)
  | int (n : Int)
  | bulk (b : Bytes)
  | null
  | arr (l : List Bytes)
deriving DecidableEq

/-- The encoding of a reply. -/
def Value.encode : Value → Bytes
  | .status s => 43 :: (s ++ CRLF)
  | .err s => 45 :: (s ++ CRLF)
  | .int n => 58 :: (decI n ++ CRLF)
  | .bulk b => Spec.bulk b
  | .null => [36, 45, 49] ++ CRLF
  | .arr l => 42 :: (dec l.length ++ CRLF) ++ (l.map Spec.bulk).flatten

/-- The queued strings `r` are the encoding of `v`. -/
def Says (r : List Bytes) (v : Value) : Prop := r.flatten = v.encode

end Metis.Spec
