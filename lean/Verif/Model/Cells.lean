import Verif.Model.Dict
/-!
Model of datastruct/dict.go with the entries as objects in memory. `Model/Dict.lean` takes a bucket as the list of its entries; here a bucket
is a pointer to a `DictEntry`, entries are linked by their `next` pointers, and an entry that was unlinked stays in memory for whoever
still points at it. This is what an iterator of another goroutine sees while the server changes the dict (server/aof.go:310-330).

Conventions as in `Model/Dict.lean`: `none` = the Go call panics or loops for ever. An address is a position of `mem`; nothing is ever freed
(the garbage collector frees only what nobody points at). Loops along a chain have the number of objects as their fuel: a longer walk would
meet an object twice and never end.
-/
namespace Metis

/-- datastruct/dict.go:29-33 `DictEntry`. -/
structure Cell (K V : Type) where
  key  : K
  val  : V
  next : Option Nat
deriving Repr, DecidableEq

/-- datastruct/dict.go:35-40 `hashTable`, the buckets being pointers. -/
structure CTable where
  heads    : List (Option Nat)
  size     : Nat
  sizeMask : Nat
  used     : Int
deriving Repr, DecidableEq

/-- datastruct/dict.go:42-47 `Dict`, together with the memory its entries are in. -/
structure Cells (K V : Type) where
  mem         : List (Cell K V)
  ht0         : Option CTable
  ht1         : Option CTable
  rehashIndex : Int
  iterators   : Int
deriving Repr, DecidableEq

namespace Cells
variable {K V : Type} [DecidableEq K] (hash : K → Nat)

/-- datastruct/dict.go:107-112 `NewDict`. -/
def new : Cells K V := { mem := [], ht0 := none, ht1 := none, rehashIndex := -1, iterators := 0 }

/-- datastruct/dict.go:398-400 `isRehashing`. -/
def isRehashing (p : Cells K V) : Bool := p.rehashIndex != -1

/-- The loop of `skipEmpty` on the buckets from position `i` on. -/
def skipFrom : List (Option Nat) → Nat → Option Nat
  | [], _ => none
  | none :: rest, i => skipFrom rest (i + 1)
  | some _ :: _, i => some i

/-- dict.go:376-378 `for tables[rehashIndex] == nil { rehashIndex++ }`; running off the array panics. -/
def skipEmpty (hs : List (Option Nat)) (i : Nat) : Option Nat := skipFrom (hs.drop i) i

/-- dict.go:380-391: move the entries of one bucket to the second table, head first, by changing their `next` pointers. -/
def moveEntries : Nat → List (Cell K V) → Option Nat → CTable → CTable → Option (List (Cell K V) × CTable × CTable)
  | _, m, none, t0, t1 => some (m, t0, t1)
  | 0, _, some _, _, _ => none
  | fuel + 1, m, some a, t0, t1 => do
    let c ← m[a]?
    let nextEntry := c.next
    let index := hash c.key &&& t1.sizeMask
    let h ← t1.heads[index]?
    moveEntries fuel (m.set a { c with next := h }) nextEntry { t0 with used := t0.used - 1 }
      { t1 with heads := t1.heads.set index (some a), used := t1.used + 1 }

/-- dict.go:364-396 `rehash`. -/
def rehash : Nat → Cells K V → Option (Cells K V)
  | 0, p => some p
  | step + 1, p => do
    let t0 ← p.ht0
    if t0.used = 0 then
      some { p with ht0 := p.ht1, ht1 := none, rehashIndex := -1 }
    else do
      if p.rehashIndex < 0 then none
      let i ← skipEmpty t0.heads p.rehashIndex.toNat
      let entry ← t0.heads[i]?
      let t1 ← p.ht1
      let (m, t0', t1') ← moveEntries hash p.mem.length p.mem entry t0 t1
      rehash step { p with
        mem := m
        ht0 := some { t0' with heads := t0'.heads.set i none }
        ht1 := some t1'
        rehashIndex := (i : Int) + 1 }

/-- dict.go:358-362 `rehashStep`. -/
def rehashStep (p : Cells K V) : Option (Cells K V) :=
  if p.iterators = 0 then rehash hash rehashStepCount p else some p

/-- The guard `if d.isRehashing() { d.rehashStep() }` (dict.go:117-119, 160-162, 201-203, 238-240). -/
def stepIfRehashing (p : Cells K V) : Option (Cells K V) :=
  if p.isRehashing then rehashStep hash p else some p

/-- dict.go:245-251, 299-305: follow the pointers to the first entry with the key. -/
def seek : Nat → List (Cell K V) → K → Option Nat → Option (Option Nat)
  | _, _, _, none => some none
  | 0, _, _, some _ => none
  | fuel + 1, m, key, some a => do
    let c ← m[a]?
    if key == c.key then some (some a) else seek fuel m key c.next

/-- dict.go:243-251: the search in one table. -/
def seekIn (p : Cells K V) (t : CTable) (key : K) : Option (Option Nat) := do
  let h ← t.heads[hash key &&& t.sizeMask]?
  seek p.mem.length p.mem key h

/-- dict.go:233-259 `Find`: the address of the entry. -/
def find (p : Cells K V) (key : K) : Option (Option Nat × Cells K V) :=
  if p.ht0.isNone then some (none, p)
  else do
    let p ← stepIfRehashing hash p
    let t0 ← p.ht0
    match ← seekIn hash p t0 key with
    | some a => some (some a, p)
    | none =>
      if !p.isRehashing then some (none, p)
      else do
        let t1 ← p.ht1
        let r ← seekIn hash p t1 key
        some (r, p)

/-- dict.go:145-152 `Get`. -/
def get (p : Cells K V) (key : K) : Option (Option V × Cells K V) := do
  let (e, p) ← find hash p key
  match e with
  | none => some (none, p)
  | some a => do
    let c ← p.mem[a]?
    some (some c.val, p)

/-- dict.go:331-356 `expand`; the Boolean is `err == nil`. -/
def expand (p : Cells K V) (size : Nat) : Bool × Cells K V :=
  let realSize := nextPow2 size
  let tooSmall := match p.ht0 with | some t0 => decide (t0.size ≥ realSize) | none => false
  if p.isRehashing || tooSmall then (false, p)
  else
    let table : CTable := { heads := List.replicate realSize none, size := realSize, sizeMask := realSize - 1, used := 0 }
    if p.ht0.isNone then (true, { p with ht0 := some table })
    else (true, { p with ht1 := some table, rehashIndex := 0 })

/-- dict.go:315-329 `expandIfNeeded`. -/
def expandIfNeeded (p : Cells K V) : Bool × Cells K V :=
  if p.isRehashing then (true, p)
  else
    match p.ht0 with
    | none => expand p tableInitialSize
    | some t0 =>
      if t0.used / (t0.size : Int) > forceResizeRatio then expand p (t0.size * resizeRatio) else (true, p)

/-- dict.go:288-313 `keyIndex`; the result `none` inside is Go's `-1`. -/
def keyIndex (p : Cells K V) (key : K) : Option (Option Nat × Cells K V) :=
  match expandIfNeeded p with
  | (false, p) => some (none, p)
  | (true, p) => do
    let t0 ← p.ht0
    match ← seekIn hash p t0 key with
    | some _ => some (none, p)
    | none =>
      if !p.isRehashing then some (some (hash key &&& t0.sizeMask), p)
      else do
        let t1 ← p.ht1
        match ← seekIn hash p t1 key with
        | some _ => some (none, p)
        | none => some (some (hash key &&& t1.sizeMask), p)

/-- dict.go:135-140: a new entry in front of bucket `index`. -/
def insertAt (m : List (Cell K V)) (t : CTable) (index : Nat) (key : K) (v : V) : Option (List (Cell K V) × CTable) := do
  let h ← t.heads[index]?
  some (m ++ [{ key, val := v, next := h }], { t with heads := t.heads.set index (some m.length), used := t.used + 1 })

/-- dict.go:116-143 `Set`; returns whether the key is new. -/
def set (p : Cells K V) (key : K) (v : V) : Option (Bool × Cells K V) := do
  let p ← stepIfRehashing hash p
  let (index, p) ← keyIndex hash p key
  match index with
  | none => do
    let (e, p) ← find hash p key
    match e with
    | none => none            -- `entry.Value` on a nil entry
    | some a => do
      let c ← p.mem[a]?
      some (false, { p with mem := p.mem.set a { c with val := v } })
  | some index =>
    if p.isRehashing then do
      let t1 ← p.ht1
      let (m, t1) ← insertAt p.mem t1 index key v
      some (true, { p with mem := m, ht1 := some t1 })
    else do
      let t0 ← p.ht0
      let (m, t0) ← insertAt p.mem t0 index key v
      some (true, { p with mem := m, ht0 := some t0 })

/-- dict.go:207-223, the loop with `prev`: the entry with the key and the one before it. -/
def trail : Nat → List (Cell K V) → K → Option Nat → Option Nat → Option (Option (Option Nat × Nat))
  | _, _, _, _, none => some none
  | 0, _, _, _, some _ => none
  | fuel + 1, m, key, prev, some a => do
    let c ← m[a]?
    if key == c.key then some (some (prev, a)) else trail fuel m key (some a) c.next

/-- dict.go:206-223 for one table. Outer `none` = panic, inner `none` = key not in this table. -/
def deleteIn (m : List (Cell K V)) (t : CTable) (key : K) : Option (Option (List (Cell K V) × CTable)) := do
  let index := hash key &&& t.sizeMask
  let h ← t.heads[index]?
  match ← trail m.length m key none h with
  | none => some none
  | some (prev, a) => do
    let c ← m[a]?
    match prev with
    | some b => do
      let cb ← m[b]?
      some (some (m.set b { cb with next := c.next }, { t with used := t.used - 1 }))
    | none => some (some (m, { t with heads := t.heads.set index c.next, used := t.used - 1 }))

/-- dict.go:196-231 `Delete`; the inner `none` is a nil error. -/
def delete (p : Cells K V) (key : K) : Option (Option Dict.DelErr × Cells K V) :=
  if p.ht0.isNone then some (some .notInitialized, p)
  else do
    let p ← stepIfRehashing hash p
    let t0 ← p.ht0
    match ← deleteIn hash p.mem t0 key with
    | some (m, t0') => some (none, { p with mem := m, ht0 := some t0' })
    | none =>
      if !p.isRehashing then some (some .keyNotFound, p)
      else do
        let t1 ← p.ht1
        match ← deleteIn hash p.mem t1 key with
        | some (m, t1') => some (none, { p with mem := m, ht1 := some t1' })
        | none => some (some .keyNotFound, p)

/-- datastruct/dict.go:49-55 `DictIterator`. -/
structure Iter where
  table : Nat
  index : Int
  entry : Option Nat
  next  : Option Nat
deriving Repr, DecidableEq

/-- dict.go:57-63 `NewDictIterator`. -/
def iterNew : Iter := { table := 0, index := -1, entry := none, next := none }

/-- dict.go:65-69 `Release`. -/
def iterRelease (it : Iter) (p : Cells K V) : Cells K V :=
  if it.index ≠ -1 ∨ p.iterators ≠ 0 then { p with iterators := p.iterators - 1 } else p

/-- `di.dict.hashTables[di.table]`. -/
def tableNo (p : Cells K V) (n : Nat) : Option CTable :=
  match n with
  | 0 => p.ht0
  | 1 => p.ht1
  | _ => none

/-- dict.go:76-102, the `for` loop of `Next`. -/
def iterLoop : Nat → Cells K V → Iter → Option (Option Nat × Cells K V × Iter)
  | 0, _, _ => none
  | fuel + 1, p, it =>
    match it.entry with
    | none => do
      let p := if it.index = -1 ∧ it.table = 0 then { p with iterators := p.iterators + 1 } else p
      let it := { it with index := it.index + 1 }
      let t ← tableNo p it.table
      let brk := decide (it.index ≥ (t.size : Int)) && !(p.isRehashing && it.table == 0)
      if brk then some (none, p, it)
      else do
        let it := if it.index ≥ (t.size : Int) then { it with table := 1, index := 0 } else it
        let t ← tableNo p it.table
        if it.index < 0 then none
        match ← t.heads[it.index.toNat]? with
        | none => iterLoop fuel p { it with entry := none }
        | some a => do
          let c ← p.mem[a]?
          some (some a, p, { it with entry := some a, next := c.next })
    | some _ =>
      match it.next with
      | none => iterLoop fuel p { it with entry := none }
      | some a => do
        let c ← p.mem[a]?
        some (some a, p, { it with entry := some a, next := c.next })

/-- dict.go:71-105 `Next`. The fuel is the number of buckets of both tables plus two, an upper bound of the turns of the loop. -/
def iterNext (p : Cells K V) (it : Iter) : Option (Option Nat × Cells K V × Iter) :=
  match p.ht0 with
  | none => some (none, p, it)
  | some t0 => iterLoop (t0.size + (p.ht1.map (·.size)).getD 0 + 2) p it

end Cells
end Metis
