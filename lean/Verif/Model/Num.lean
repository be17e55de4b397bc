import Verif.Model.Bytes
/-!
Decimal integers as Go prints (`%d`, `strconv.Itoa`, `FormatInt(_, 10)`) and parses (`strconv.Atoi`, `ParseInt(_, 10, 64)`) them.
-/
namespace Metis

/-- `b!"text"` is the list of the (ASCII) bytes of the text. -/
syntax:max "b!" str : term
open Lean in
macro_rules
  | `(b! $s:str) => do
    let bs := s.getString.toUTF8.toList
    let xs ← bs.mapM (fun b => `(($(quote b.toNat) : UInt8)))
    `(([$(xs.toArray),*] : Bytes))

/-- Decimal digits of `n`; the fuel is at least the number of digits. -/
def digits : Nat → Nat → Bytes
  | 0, _ => []
  | f + 1, n => if n < 10 then [UInt8.ofNat (48 + n)] else digits f (n / 10) ++ [UInt8.ofNat (48 + n % 10)]

/-- `%d` / `strconv.Itoa` of a non-negative number. -/
def natToa (n : Nat) : Bytes := digits (n + 1) n

/-- `%d` / `strconv.Itoa`. -/
def itoa (n : Int) : Bytes := if n < 0 then 45 :: natToa n.natAbs else natToa n.natAbs

/-- Value of a string of digits; `none` if a byte is not a digit. -/
def digitsVal : Bytes → Nat → Option Nat
  | [], acc => some acc
  | c :: cs, acc => if 48 ≤ c.toNat ∧ c.toNat ≤ 57 then digitsVal cs (acc * 10 + (c.toNat - 48)) else none

/-- Sign and digits. -/
def signOf : Bytes → Bool × Bytes
  | 45 :: r => (true, r)
  | 43 :: r => (false, r)
  | r => (false, r)

/-- `strconv.Atoi` / `strconv.ParseInt(s, 10, 64)` on a 64-bit machine; `none` = error (syntax or range). -/
def atoi (s : Bytes) : Option Int :=
  if (signOf s).2 = [] then none
  else
    match digitsVal (signOf s).2 0 with
    | none => none
    | some n =>
      if (signOf s).1 then (if n ≤ 2 ^ 63 then some (-(n : Int)) else none)
      else if n < 2 ^ 63 then some (n : Int) else none

end Metis
