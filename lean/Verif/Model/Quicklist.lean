/-!
Model of datastruct/quicklist.go.

`container/list` is a doubly linked list of pages: here a `List` of pages, a list element (`*list.Element`) is the page number.
Every page is a Go slice of capacity `pageSize`, so a slice expression `page[:i+1]` with `i < pageSize` never fails on capacity.
Functions take the page size `ps`; the code has `pageSize = 1024`.
-/
namespace Metis

/-- datastruct/quicklist.go:7 -/
def pageSize : Nat := 1024

/-- quicklist.go:15-18 `Quicklist`. -/
structure Quicklist (α : Type) where
  pages  : List (List α)
  length : Nat
deriving Repr, DecidableEq

/-- quicklist.go:20-24 `QuicklistIterator` (the list it walks is passed separately). -/
structure QIter where
  node   : Option Nat
  offset : Int
deriving Repr, DecidableEq

namespace Quicklist
variable {α : Type}

/-- quicklist.go:26-32 `NewQuicklistIterator`. -/
def iterNew : QIter := { node := none, offset := 0 }

/-- quicklist.go:67-69 `page`; panics on a nil node. -/
def iterPage (q : Quicklist α) (it : QIter) : Option (List α) := do
  let n ← it.node
  q.pages[n]?

/-- quicklist.go:71-73 `value`; panics if the offset is outside the page. -/
def iterValue (q : Quicklist α) (it : QIter) : Option α := do
  let page ← iterPage q it
  if it.offset < 0 then none
  page[it.offset.toNat]?

/-- quicklist.go:34-54 `Next`; the inner `none` is a nil result. -/
def iterNext (q : Quicklist α) (it : QIter) : Option (Option α × QIter) :=
  if q.length = 0 then some (none, it)
  else
    match it.node with
    | none => do
      let it := { it with node := if q.pages.isEmpty then none else some 0 }
      let v ← iterValue q it
      some (some v, it)
    | some n => do
      let page ← q.pages[n]?
      let off := it.offset + 1
      if off ≥ (page.length : Int) then
        if n + 1 < q.pages.length then do
          let it : QIter := { node := some (n + 1), offset := 0 }
          let v ← iterValue q it
          some (some v, it)
        else some (none, { node := none, offset := off })
      else do
        let it : QIter := { node := some n, offset := off }
        let v ← iterValue q it
        some (some v, it)

/-- quicklist.go:75-80 `NewQuicklist`. -/
def new : Quicklist α := { pages := [], length := 0 }

/-- quicklist.go:82-97 `PushBack`. -/
def pushBack (ps : Nat) (q : Quicklist α) (v : α) : Quicklist α :=
  match q.pages.getLast? with
  | none => { pages := q.pages ++ [[v]], length := q.length + 1 }
  | some last =>
    if last.length = ps then { pages := q.pages ++ [[v]], length := q.length + 1 }
    else { pages := q.pages.dropLast ++ [last ++ [v]], length := q.length + 1 }

/-- quicklist.go:251-260, the forward search of `get`: the node (nil if the loop runs off the end) and `pageIndex`. -/
def frontFind (index : Int) : List (List α) → Nat → Int → Option Nat × Int
  | [], _, acc => (none, acc)
  | p :: rest, n, acc => if acc + p.length > index then (some n, acc) else frontFind index rest (n + 1) (acc + p.length)

/-- quicklist.go:262-268, the backward search of `get` over the reversed pages; `pi` is the inner `pageIndex`. -/
def backFind (index : Int) : List (List α) → Int → Option Nat
  | [], _ => none
  | p :: rest, pi => if pi - p.length ≤ index then some rest.length else backFind index rest (pi - p.length)

/-- quicklist.go:243-276 `get`. In the backward branch the search variable shadows `pageIndex` (line 262), so the offset returned is
`index - 0`: modelled as written. -/
def getPos (q : Quicklist α) (index : Int) : Option QIter :=
  if index < 0 ∨ index ≥ q.length then none
  else if index < ((q.length / 2 : Nat) : Int) then
    let (node, pageIndex) := frontFind index q.pages 0 0
    some { node := node, offset := index - pageIndex }
  else
    let node := backFind index q.pages.reverse q.length
    some { node := node, offset := index - 0 }

/-- `append(page[:off+1], page[off:]...)` followed by `page[off] = v` (quicklist.go:128-129, 141-142, 145-146): panics if `off`
is beyond the end of the page. -/
def insertAt (page : List α) (off : Int) (v : α) : Option (List α) :=
  if off < 0 ∨ off > page.length then none else some (page.take off.toNat ++ v :: page.drop off.toNat)

/-- quicklist.go:111-154 `Insert`; the Boolean result is first. -/
def insert (ps : Nat) (q : Quicklist α) (index : Int) (v : α) : Option (Bool × Quicklist α) :=
  if index < 0 ∨ index > q.length then some (false, q)
  else if index = q.length then some (true, pushBack ps q v)
  else do
    let q := { q with length := q.length + 1 }
    let it ← getPos q index
    let n ← it.node
    let page ← q.pages[n]?
    if page.length < ps then do
      let page ← insertAt page it.offset v
      some (true, { q with pages := q.pages.set n page })
    else do
      let nextPage := page.drop (ps / 2)
      let page := page.take (ps / 2)
      if it.offset < page.length then do
        let page ← insertAt page it.offset v
        some (true, { q with pages := q.pages.take n ++ page :: nextPage :: q.pages.drop (n + 1) })
      else do
        let nextPage ← insertAt nextPage (it.offset - (ps / 2 : Nat)) v
        some (true, { q with pages := q.pages.take n ++ page :: nextPage :: q.pages.drop (n + 1) })

/-- quicklist.go:99-101 `PushFront`. -/
def pushFront (ps : Nat) (q : Quicklist α) (v : α) : Option (Quicklist α) := do
  let (_, q) ← insert ps q 0 v
  some q

/-- quicklist.go:156-174 `Remove`; the inner `none` is a nil result. -/
def remove (q : Quicklist α) (index : Int) : Option (Option α × Quicklist α) :=
  match getPos q index with
  | none => some (none, q)
  | some it => do
    let n ← it.node
    let page ← q.pages[n]?
    if it.offset < 0 then none
    let v ← page[it.offset.toNat]?
    let page := page.take it.offset.toNat ++ page.drop (it.offset.toNat + 1)
    if page.length > 0 then some (some v, { pages := q.pages.set n page, length := q.length - 1 })
    else some (some v, { pages := q.pages.eraseIdx n, length := q.length - 1 })

/-- quicklist.go:103-105 `PopFront`. -/
def popFront (q : Quicklist α) : Option (Option α × Quicklist α) := remove q 0

/-- quicklist.go:107-109 `PopBack`. -/
def popBack (q : Quicklist α) : Option (Option α × Quicklist α) := remove q ((q.length : Int) - 1)

/-- quicklist.go:179-183, the inner loop of `Find`. -/
def findIn [DecidableEq α] (v : α) : List α → Nat → Option Nat
  | [], _ => none
  | x :: xs, i => if x = v then some i else findIn v xs (i + 1)

/-- quicklist.go:177-187, the outer loop of `Find`. -/
def findLoop [DecidableEq α] (v : α) : List (List α) → Nat → Int
  | [], _ => -1
  | p :: rest, pageIndex =>
    match findIn v p 0 with
    | some i => ((pageIndex + i : Nat) : Int)
    | none => findLoop v rest (pageIndex + p.length)

/-- quicklist.go:176-190 `Find`. -/
def find [DecidableEq α] (q : Quicklist α) (v : α) : Int := findLoop v q.pages 0

/-- Largest capacity `make([]any, 0, n)` accepts on a 64-bit Linux (`runtime.makeslice`: 16·n must not exceed 2^48); beyond it the
call panics. Below it the allocation is assumed to succeed. -/
def maxCap : Int := 2 ^ 44

/-- quicklist.go:211-217, the loop of `Range`; the first argument is the number of turns left (`stop - i + 1`). -/
def rangeLoop (q : Quicklist α) : Nat → QIter → Option (List α)
  | 0, _ => some []
  | n + 1, it => do
    let v ← iterValue q it
    let (nx, it) ← iterNext q it
    match nx with
    | none => some [v]
    | some _ => do
      let rest ← rangeLoop q n it
      some (v :: rest)

/-- quicklist.go:192-220 `Range`; a nil slice is `[]`. -/
def range (q : Quicklist α) (start stop : Int) : Option (List α) :=
  let start := if start < 0 then q.length + start else start
  let stop := if stop < 0 then q.length + stop else stop
  if start < 0 ∨ stop < 0 ∨ start > stop ∨ start ≥ q.length then some []
  else
    match getPos q start with
    | none => some []
    | some it =>
      if stop - start + 1 > maxCap then none
      else rangeLoop q (stop - start + 1).toNat it

/-- quicklist.go:222-229 `Get`; the inner `none` is a nil result. -/
def get (q : Quicklist α) (index : Int) : Option (Option α) :=
  match getPos q index with
  | none => some none
  | some it => do
    let v ← iterValue q it
    some (some v)

/-- quicklist.go:231-233 `Len`. -/
def len (q : Quicklist α) : Nat := q.length

/-- quicklist.go:235-237 `Size`. -/
def size (q : Quicklist α) : Nat := q.pages.length

end Quicklist
end Metis
