import Verif.Model.Bytes
/-!
The wire format of RESP (https://redis.io/docs/reference/protocol-spec/), independent of the server code.
-/
namespace Metis.Spec

/-- Decimal representation. -/
def dec (n : Nat) : Bytes := (Nat.toDigits 10 n).map (fun c => UInt8.ofNat c.toNat)

/-- Carriage return, line feed. -/
def CRLF : Bytes := [13, 10]

/-- A bulk string: `$<length>\r\n<data>\r\n`. -/
def bulk (a : Bytes) : Bytes := 36 :: (dec a.length ++ CRLF ++ a ++ CRLF)

/-- A request: `*<number of arguments>\r\n` and the arguments as bulk strings. -/
def request (args : List Bytes) : Bytes := 42 :: (dec args.length ++ CRLF) ++ (args.map bulk).flatten

/-- The request of `n` arguments up to the end of the data of `a`, after the complete arguments `dn`. -/
def dataEnd (n : Nat) (dn : List Bytes) (a : Bytes) : Bytes :=
  42 :: (dec n ++ CRLF) ++ (dn.map bulk).flatten ++ (36 :: dec a.length ++ CRLF ++ a)

/-- `x` ends directly before, or in the middle of, the line end after the data of an argument of the request `all`. -/
def BadCut (all : List Bytes) (x : Bytes) : Prop :=
  ∃ dn a rest, all = dn ++ a :: rest ∧ (x = dataEnd all.length dn a ∨ x = dataEnd all.length dn a ++ [13])

/-- Somewhere in `b` a line end is preceded by some byte and a text that reads as the number `n`. -/
def Declares (parse : Bytes → Option Int) (b : Bytes) (n : Int) : Prop :=
  ∃ u x s v, b = u ++ (x :: s ++ CRLF) ++ v ∧ parse s = some n

end Metis.Spec
