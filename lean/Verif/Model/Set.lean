import Verif.Model.Dict
/-!
Model of datastruct/set.go. The stored value is always nil: `Unit`.

A method with two receivers comes in two versions, one for two distinct sets and one (`…Self`) for `s.Op(s)`, because in Go the
two operands may be the same object. `entry.Key.(string)` cannot fail: only strings are added (server/commandset.go).
-/
namespace Metis

/-- datastruct/set.go:3-5 -/
abbrev MSet (K : Type) := Dict K Unit

namespace MSet
variable {K : Type} [DecidableEq K] (hash : K → Nat)

/-- set.go:7-9 `NewSet`. -/
def new : MSet K := Dict.new

/-- set.go:11-13 `Add`. -/
def add (s : MSet K) (k : K) : Option (Bool × MSet K) := Dict.set hash s k ()

/-- set.go:15-17 `Delete`; `none` inside = nil error. -/
def delete (s : MSet K) (k : K) : Option (Option Dict.DelErr × MSet K) := Dict.delete hash s k

/-- set.go:19-21 `Size`. -/
def size (s : MSet K) : Option Int := Dict.size s

/-- set.go:23-33 `Range`. -/
def range (s : MSet K) : Option (List K × MSet K) := do
  let (s, l) ← Dict.forEach s [] (fun e d acc => some (d, acc ++ [e.1]))
  some (l, s)

/-- set.go:35-37 `GetRandom`: panics (nil dereference) on an empty set. -/
def getRandom (s : MSet K) (draws : List Nat) : Option (Dict.RandOut K × MSet K × List Nat) := do
  let (out, s, draws) ← Dict.getRandomKey hash s draws
  match out with
  | .nil => none
  | .entry e => some (.entry e.1, s, draws)
  | .spin => some (.spin, s, draws)

/-- set.go:39-41 `Contains`. -/
def contains (s : MSet K) (k : K) : Option (Bool × MSet K) := do
  let (e, s) ← Dict.find hash s k
  some (e.isSome, s)

/-- `result.Add(entry.Key.(string))` -/
def addTo (e : K × Unit) (d : MSet K) (r : MSet K) : Option (MSet K × MSet K) := do
  let (_, r) ← add hash r e.1
  some (d, r)

/-- set.go:43-60 `Union` of two distinct sets: new operands and result. -/
def union (s other : MSet K) : Option (MSet K × MSet K × MSet K) := do
  let (s, it1, r) ← Dict.pass s new (addTo hash)
  let (other, it2, r) ← Dict.pass other r (addTo hash)
  some (Dict.iterRelease it1 s, Dict.iterRelease it2 other, r)

/-- set.go:43-60, `s.Union(s)`: the second pass runs while the first iterator is unreleased; deferred calls run last-in-first-out. -/
def unionSelf (s : MSet K) : Option (MSet K × MSet K) := do
  let (s, it1, r) ← Dict.pass s new (addTo hash)
  let (s, it2, r) ← Dict.pass s r (addTo hash)
  some (Dict.iterRelease it1 (Dict.iterRelease it2 s), r)

/-- set.go:62-74 `Intersect` (`want = true`) and set.go:76-88 `Difference` (`want = false`) of two distinct sets. -/
def select (want : Bool) (s other : MSet K) : Option (MSet K × MSet K × MSet K) := do
  let (s, other, r) ← Dict.forEach s (other, new) (fun e d st => do
    let (b, o) ← contains hash st.1 e.1
    if b = want then do
      let (_, r) ← add hash st.2 e.1
      some (d, (o, r))
    else some (d, (o, st.2)))
  some (s, other, r)

/-- set.go:62-88 with `other` the same object as the receiver. -/
def selectSelf (want : Bool) (s : MSet K) : Option (MSet K × MSet K) :=
  Dict.forEach s new (fun e d r => do
    let (b, d) ← contains hash d e.1
    if b = want then do
      let (_, r) ← add hash r e.1
      some (d, r)
    else some (d, r))

/-- set.go:62 -/
def intersect (s other : MSet K) := select hash true s other
/-- set.go:76 -/
def difference (s other : MSet K) := select hash false s other
/-- set.go:62 -/
def intersectSelf (s : MSet K) := selectSelf hash true s
/-- set.go:76 -/
def differenceSelf (s : MSet K) := selectSelf hash false s

end MSet
end Metis
