import Verif.Model.Num
/-!
Model of the address the server listens on: socket/socket.go `Bind`, server/tcp.go `CreateTCPServer`.

`net.ParseIP` is a library function; its IPv4 half is modelled after the sources of Go 1.20 (later versions accept the same texts), its IPv6 half is a
parameter. It returns 16 bytes also for IPv4 addresses (documented: "IPv4 addresses are returned in the 16-byte form").
-/
namespace Metis.Listen

/-- net/parse.go `big`: numbers are not read beyond. -/
def big : Nat := 0xFFFFFF

/-- net/parse.go `dtoi`: a decimal number at the beginning, and how many bytes it has. -/
def dtoiLoop : Bytes → Nat → Nat → Option (Nat × Nat)
  | [], n, i => if i = 0 then none else some (n, i)
  | c :: s, n, i =>
    if 48 ≤ c ∧ c ≤ 57 then
      if n * 10 + (c.toNat - 48) ≥ big then none else dtoiLoop s (n * 10 + (c.toNat - 48)) (i + 1)
    else if i = 0 then none else some (n, i)

/-- net/ip.go `parseIPv4`, one number: at most 255, no leading zeros; and what is left. -/
def octet (s : Bytes) : Option (UInt8 × Bytes) :=
  match dtoiLoop s 0 0 with
  | none => none
  | some (n, c) =>
    if n > 255 then none
    else if c > 1 ∧ s.head? = some 48 then none
    else some (UInt8.ofNat n, s.drop c)

/-- net/ip.go `parseIPv4`, the dot before the next number. -/
def dot : Bytes → Option Bytes
  | 46 :: s => some s
  | _ => none

/-- net/ip.go `parseIPv4` and `IPv4`: the address in its IPv6 form, 16 bytes. -/
def parse4 (s : Bytes) : Option Bytes := do
  let (a, s) ← octet s
  let s ← dot s
  let (b, s) ← octet s
  let s ← dot s
  let (c, s) ← octet s
  let s ← dot s
  let (d, s) ← octet s
  if s = [] then some [0, 0, 0, 0, 0, 0, 0, 0, 0, 0, 255, 255, a, b, c, d] else none

/-- net/ip.go `ParseIP`: the first dot or colon decides; `parse6` is the IPv6 half. -/
def parseIP (parse6 : Bytes → Option Bytes) (s : Bytes) : Option Bytes :=
  match s.find? (fun c => c = 46 ∨ c = 58) with
  | some c => if c = 46 then parse4 s else parse6 s
  | none => none

/-- Go's `copy(dst[:], src)`: as many bytes as both have. -/
def copy (dst src : Bytes) : Bytes := src.take dst.length ++ dst.drop src.length

/-- A socket address: four bytes and the port. -/
abbrev Addr := Bytes × UInt16

/-- socket/socket.go:44-57 `Bind` (and 29-42 `Connect`): the address given to the system call; `none` = "invalid ip address". -/
def bind (parse6 : Bytes → Option Bytes) (ip : Bytes) (port : UInt16) : Option Addr :=
  match parseIP parse6 ip with
  | none => none
  | some a => some (copy [0, 0, 0, 0] a, port)

end Metis.Listen
