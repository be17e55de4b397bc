import Verif.Spec.ReplySpec
/-!
A decoder of RESP replies, as a client library has it: independent of the server code and of the encoder.
-/
namespace Metis.Spec

/-- Up to the next line end; the line and what follows. -/
def line : Bytes → Option (Bytes × Bytes)
  | [] => none
  | b :: r => if b = 13 ∧ r.head? = some 10 then some ([], r.tail) else (line r).map (fun p => (b :: p.1, p.2))

/-- Value of decimal digits read from the left. -/
def digitsFrom (acc : Nat) : Bytes → Option Nat
  | [] => some acc
  | c :: cs => if 48 ≤ c.toNat ∧ c.toNat ≤ 57 then digitsFrom (acc * 10 + (c.toNat - 48)) cs else none

/-- An integer: an optional minus sign and at least one digit. -/
def intOf : Bytes → Option Int
  | [] => none
  | c :: cs => if c = 45 then (if cs = [] then none else (digitsFrom 0 cs).map (fun k : Nat => -(k : Int)))
    else (digitsFrom 0 (c :: cs)).map (fun k : Nat => (k : Int))

/-- `n` bytes of data and a line end. -/
def payload (n : Nat) (b : Bytes) : Option (Bytes × Bytes) :=
  if b.length < n + 2 then none
  else if (b.drop n).take 2 = CRLF then some (b.take n, b.drop (n + 2)) else none

/-- A bulk string. -/
def bulkAt : Bytes → Option (Bytes × Bytes)
  | [] => none
  | t :: r =>
    if t = 36 then do
      let (l, r) ← line r
      let n ← intOf l
      if n < 0 then none else payload n.toNat r
    else none

/-- `n` bulk strings. -/
def bulksAt : Nat → Bytes → Option (List Bytes × Bytes)
  | 0, r => some ([], r)
  | n + 1, r => do
    let (x, r) ← bulkAt r
    let (xs, r) ← bulksAt n r
    some (x :: xs, r)

/-- One reply; the value and the bytes after it. -/
def decode : Bytes → Option (Value × Bytes)
  | [] => none
  | t :: r =>
    if t = 43 then (line r).map (fun p => (.status p.1, p.2))
    else if t = 45 then (line r).map (fun p => (.err p.1, p.2))
    else if t = 58 then do
      let (l, r) ← line r
      let n ← intOf l
      some (.int n, r)
    else if t = 36 then do
      let (l, r) ← line r
      let n ← intOf l
      if n = -1 then some (.null, r)
      else if n < 0 then none
      else do
        let (x, r) ← payload n.toNat r
        some (.bulk x, r)
    else if t = 42 then do
      let (l, r) ← line r
      let n ← intOf l
      if n < 0 then none
      else do
        let (xs, r) ← bulksAt n.toNat r
        some (.arr xs, r)
    else none

/-- Text that fits into a line. -/
def Clean (s : Bytes) : Prop := (13 : UInt8) ∉ s ∧ (10 : UInt8) ∉ s

/-- The value has an unambiguous encoding: the text of a status or error fits into a line. -/
def Value.Plain : Value → Prop
  | .status s => Clean s
  | .err s => Clean s
  | _ => True

/-- Not an error. -/
def Value.isErr : Value → Prop
  | .err _ => True
  | _ => False

end Metis.Spec
