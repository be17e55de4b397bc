import Verif.Model.Bytes
/-!
Model of datastruct/skiplist.go as a pointer heap.

A node pointer is an address (`Nat`), nil is `none`. Address 0 is the head. The heap maps addresses to nodes; `next` is the first
address never allocated. Nodes are not freed (garbage collection is not observable). Result `none` of a function = panic
(index out of range of `Levels`, of `update`/`rank`, or too large an allocation); the inner search loops take fuel, running out
of it is `none` as well and is shown not to happen.

`Level` and the loop counters are int8 in 1..32 (unbounded here; `randomLevel` is modelled with int8 wrap-around). `Length`, spans
and ranks are unbounded integers (an overflow would need 2^63 elements).
-/
namespace Metis

/-- skiplist.go:22-25, one entry of `Levels`. -/
structure Lvl where
  fwd  : Option Nat
  span : Int
deriving Repr, DecidableEq

/-- skiplist.go:18-26 `SkiplistNode`. -/
structure SNode where
  member   : Bytes
  score    : F64
  backward : Option Nat
  levels   : List Lvl
deriving Repr, DecidableEq

/-- skiplist.go:12-16 `Skiplist` with the heap its pointers live in. -/
structure Skiplist where
  heap   : Nat → SNode
  next   : Nat
  tail   : Option Nat
  length : Int
  level  : Nat

namespace Skiplist

/-- skiplist.go:8 -/
def maxLevel : Nat := 32

/-- skiplist.go:395-405 `newSkiplistNode`. -/
def newNode (level : Nat) (score : F64) (member : Bytes) : SNode :=
  { member := member, score := score, backward := none, levels := List.replicate level { fwd := none, span := 0 } }

/-- skiplist.go:28-35 `NewSkiplist`. -/
def new : Skiplist :=
  { heap := fun _ => newNode maxLevel F64.zero [], next := 1, tail := none, length := 0, level := 1 }

/-- `x.Levels[i]`. -/
def getLvl (h : Nat → SNode) (x i : Nat) : Option Lvl := (h x).levels[i]?

/-- `x.Levels[i] = l` for an index known to be in range. -/
def setLvl (h : Nat → SNode) (x i : Nat) (l : Lvl) : Nat → SNode :=
  fun y => if y = x then { h x with levels := (h x).levels.set i l } else h y

/-- `x.Backward = p`. -/
def setBack (h : Nat → SNode) (x : Nat) (p : Option Nat) : Nat → SNode :=
  fun y => if y = x then { h x with backward := p } else h y

/-- Storing a node at an address (allocation). -/
def store (h : Nat → SNode) (x : Nat) (n : SNode) : Nat → SNode := fun y => if y = x then n else h y

/-- The score/member pair of a node. -/
def pair (h : Nat → SNode) (x : Nat) : F64 × Bytes := ((h x).score, (h x).member)

/-- The inner loop common to all searches: `for x.Levels[i].Forward != nil && guard { rank += x.Levels[i].Span; x = x.Levels[i].Forward }`.
The guard sees the forward node and the rank it would have. -/
def advance (h : Nat → SNode) (guard : SNode → Int → Bool) (i : Nat) : Nat → Nat → Int → Option (Nat × Int)
  | 0, _, _ => none
  | fuel + 1, x, rank => do
    let l ← getLvl h x i
    match l.fwd with
    | none => some (x, rank)
    | some y => if guard (h y) (rank + l.span) then advance h guard i fuel y (rank + l.span) else some (x, rank)

/-- The outer loop `for i := s.Level - 1; i >= 0; i--` of the searches that record `update[i]` and `rank[i]`: the final `x` and
the pairs `(update[i], rank[i])` from level 0 up. -/
def descend (h : Nat → SNode) (guard : SNode → Int → Bool) (fuel : Nat) : Nat → Nat → Int → Option (Nat × List (Nat × Int))
  | 0, x, _ => some (x, [])
  | i + 1, x, rank => do
    let (x, rank) ← advance h guard i fuel x rank
    let (xf, rest) ← descend h guard fuel i x rank
    some (xf, rest ++ [(x, rank)])

/-- The guard of `Insert` and `Delete` (skiplist.go:51-53, 111-113): forward score and member before (score, member). -/
def before (score : F64) (member : Bytes) (n : SNode) (_ : Int) : Bool :=
  n.score.lt score || (n.score.eq score && bytesLt n.member member)

/-- skiplist.go:62-70: `update[i] = s.Head; update[i].Levels[i].Span = s.Length` for the levels from `i` on, `n` of them. -/
def raiseHead (len : Int) : Nat → Nat → (Nat → SNode) → Option (Nat → SNode)
  | 0, _, h => some h
  | n + 1, i, h => do
    let l ← getLvl h 0 i
    raiseHead len n (i + 1) (setLvl h 0 i { l with span := len })

/-- skiplist.go:73-80: link the new node `x` on the levels from `i` on, `n` of them. -/
def linkLevels (x : Nat) (rank0 : Int) : Nat → Nat → List (Nat × Int) → (Nat → SNode) → Option (Nat → SNode)
  | 0, _, _, h => some h
  | _ + 1, _, [], _ => none
  | n + 1, i, (u, r) :: us, h => do
    let lu ← getLvl h u i
    let _ ← getLvl h x i
    let h := setLvl h x i { fwd := lu.fwd, span := lu.span - (rank0 - r) }
    let h := setLvl h u i { fwd := some x, span := rank0 - r + 1 }
    linkLevels x rank0 n (i + 1) us h

/-- skiplist.go:83-85: `update[i].Levels[i].Span++` for the levels from `i` on. -/
def bumpLevels : Nat → List (Nat × Int) → (Nat → SNode) → Option (Nat → SNode)
  | _, [], h => some h
  | i, (u, _) :: us, h => do
    let lu ← getLvl h u i
    bumpLevels (i + 1) us (setLvl h u i { lu with span := lu.span + 1 })

/-- skiplist.go:37-102 `Insert`; `level` is the value `randomLevel` returned. Returns the new node's address. -/
def insert (s : Skiplist) (level : Nat) (score : F64) (member : Bytes) : Option (Nat × Skiplist) := do
  let (_, upd) ← descend s.heap (before score member) (s.next + 1) s.level 0 0
  let (_, rank0) ← upd[0]?
  let h ← raiseHead s.length (level - s.level) s.level s.heap
  let upd := upd ++ List.replicate (level - s.level) (0, 0)
  let slevel := if level > s.level then level else s.level
  let x := s.next
  let h := store h x (newNode level score member)
  let h ← linkLevels x rank0 level 0 upd h
  let h ← bumpLevels level ((upd.take slevel).drop level) h
  let (u0, _) ← upd[0]?
  let h := setBack h x (if u0 = 0 then none else some u0)
  let l0 ← getLvl h x 0
  match l0.fwd with
  | some y => some (x, { heap := setBack h y (some x), next := s.next + 1, tail := s.tail, length := s.length + 1, level := slevel })
  | none => some (x, { heap := h, next := s.next + 1, tail := some x, length := s.length + 1, level := slevel })

/-- skiplist.go:360-367: the level loop of `deleteNode`, levels from `i` on, `n` of them. -/
def unlinkLevels (x : Nat) : Nat → Nat → List (Nat × Int) → (Nat → SNode) → Option (Nat → SNode)
  | 0, _, _, h => some h
  | _ + 1, _, [], _ => none
  | n + 1, i, (u, _) :: us, h => do
    let lu ← getLvl h u i
    if lu.fwd = some x then do
      let lx ← getLvl h x i
      unlinkLevels x n (i + 1) us (setLvl h u i { fwd := lx.fwd, span := lu.span + (lx.span - 1) })
    else unlinkLevels x n (i + 1) us (setLvl h u i { lu with span := lu.span - 1 })

/-- skiplist.go:375-377: `for s.Level > 1 && s.Head.Levels[s.Level-1].Forward == nil { s.Level-- }`. -/
def shrink (h : Nat → SNode) : Nat → Option Nat
  | 0 => some 0
  | 1 => some 1
  | n + 2 => do
    let l ← getLvl h 0 (n + 1)
    if l.fwd = none then shrink h (n + 1) else some (n + 2)

/-- skiplist.go:359-380 `deleteNode`. -/
def deleteNode (s : Skiplist) (x : Nat) (upd : List (Nat × Int)) : Option Skiplist := do
  let h ← unlinkLevels x s.level 0 upd s.heap
  let lx ← getLvl h x 0
  let (h, tail) :=
    match lx.fwd with
    | some y => (setBack h y (h x).backward, s.tail)
    | none => (h, (h x).backward)
  let lev ← shrink h s.level
  some { heap := h, next := s.next, tail := tail, length := s.length - 1, level := lev }

/-- skiplist.go:104-126 `Delete`: the node returned (nil = `none`) and the new list. As in the code, the node after the searched
position is returned even if it is not the requested pair. -/
def delete (s : Skiplist) (score : F64) (member : Bytes) : Option (Option Nat × Skiplist) := do
  let (x, upd) ← descend s.heap (before score member) (s.next + 1) s.level 0 0
  let l ← getLvl s.heap x 0
  match l.fwd with
  | none => some (none, s)
  | some x =>
    if score.eq (s.heap x).score && member == (s.heap x).member then do
      let s ← deleteNode s x upd
      some (some x, s)
    else some (some x, s)

/-- skiplist.go:143-149 and 178-185, the deletion loops; `cond` sees the node and the number of nodes deleted so far.
Fuel bounds the turns. -/
def deleteLoop (cond : SNode → Nat → Bool) (upd : List (Nat × Int)) : Nat → Nat → Option Nat → Skiplist → Option (List Nat × Skiplist)
  | 0, _, _, _ => none
  | _ + 1, _, none, s => some ([], s)
  | fuel + 1, k, some x, s =>
    if cond (s.heap x) k then do
      let l ← getLvl s.heap x 0
      let s ← deleteNode s x upd
      let (ds, s) ← deleteLoop cond upd fuel (k + 1) l.fwd s
      some (x :: ds, s)
    else some ([], s)

/-- skiplist.go:128-152 `DeleteRangeByScore`. -/
def deleteRangeByScore (s : Skiplist) (min max : F64) : Option (List Nat × Skiplist) := do
  let (x, upd) ← descend s.heap (fun n _ => n.score.lt min) (s.next + 1) s.level 0 0
  let l ← getLvl s.heap x 0
  deleteLoop (fun n _ => n.score.le max) upd (s.next + 1) 0 l.fwd s

/-- skiplist.go:164-172: the search of `DeleteRangeByRank`, in which `rank` restarts from 0 on every level. -/
def descendReset (h : Nat → SNode) (guard : SNode → Int → Bool) (fuel : Nat) : Nat → Nat → Option (Nat × List (Nat × Int))
  | 0, x => some (x, [])
  | i + 1, x => do
    let (x, rank) ← advance h guard i fuel x 0
    let (xf, rest) ← descendReset h guard fuel i x
    some (xf, rest ++ [(x, rank)])

/-- skiplist.go:154-188 `DeleteRangeByRank`. -/
def deleteRangeByRank (s : Skiplist) (start stop : Int) : Option (List Nat × Skiplist) :=
  if start < 1 ∨ stop < 1 ∨ start > stop then some ([], s)
  else do
    let (x, upd) ← descendReset s.heap (fun _ r => decide (r < start)) (s.next + 1) s.level 0
    let l ← getLvl s.heap x 0
    deleteLoop (fun _ k => decide (start + k ≤ stop)) upd (s.next + 1) 0 l.fwd s

/-- skiplist.go:195-206: the level loop of `GetRank`. -/
def rankLoop (h : Nat → SNode) (guard : SNode → Int → Bool) (member : Bytes) (fuel : Nat) : Nat → Nat → Int → Option Int
  | 0, _, _ => some 0
  | i + 1, x, rank => do
    let (x, rank) ← advance h guard i fuel x rank
    if member = (h x).member then some rank else rankLoop h guard member fuel i x rank

/-- skiplist.go:190-209 `GetRank`. -/
def getRank (s : Skiplist) (score : F64) (member : Bytes) : Option Int :=
  rankLoop s.heap (fun n _ => n.score.lt score || (n.score.eq score && bytesLe n.member member)) member (s.next + 1) s.level 0 0

/-- skiplist.go:216-225: the level loop of `GetElementByRank`. -/
def elementLoop (h : Nat → SNode) (rank : Int) (fuel : Nat) : Nat → Nat → Int → Option (Option Nat)
  | 0, _, _ => some none
  | i + 1, x, traversed => do
    let (x, traversed) ← advance h (fun _ r => decide (r ≤ rank)) i fuel x traversed
    if traversed = rank then some (some x) else elementLoop h rank fuel i x traversed

/-- skiplist.go:211-228 `GetElementByRank`; inner `none` = nil. -/
def getElementByRank (s : Skiplist) (rank : Int) : Option (Option Nat) :=
  elementLoop s.heap rank (s.next + 1) s.level 0 0

/-- The successor followed by the range loops (skiplist.go:255-259, 278-282). -/
def follow (h : Nat → SNode) (reverse : Bool) (x : Nat) : Option (Option Nat) :=
  if reverse then some (h x).backward
  else do
    let l ← getLvl h x 0
    some l.fwd

/-- skiplist.go:252-260: the loop of `RangeByRank`; the first argument is the number of turns left. -/
def takeNodes (h : Nat → SNode) (reverse : Bool) : Nat → Option Nat → Option (List Nat)
  | 0, _ => some []
  | _ + 1, none => some []
  | n + 1, some x => do
    let nx ← follow h reverse x
    let rest ← takeNodes h reverse n nx
    some (x :: rest)

/-- Largest capacity `make([]*SkiplistNode, 0, n)` accepts on 64-bit Linux (8·n ≤ 2^48); beyond it the call panics. -/
def maxPtrCap : Int := 2 ^ 45

/-- skiplist.go:230-263 `RangeByRank`. The branches `start > 0` are always taken (start ≥ 1 here). -/
def rangeByRank (s : Skiplist) (start stop : Int) (reverse : Bool) : Option (List Nat) :=
  if start < 1 ∨ stop < 1 ∨ start > stop then some []
  else do
    let node ← if reverse then getElementByRank s (s.length - start + 1) else getElementByRank s start
    let rangeLen := stop - start + 1
    if rangeLen > maxPtrCap then none
    else takeNodes s.heap reverse rangeLen.toNat node

/-- skiplist.go:345-357 `HasInScoreRange`. -/
def hasInScoreRange (s : Skiplist) (min max : F64) : Option Bool := do
  let l ← getLvl s.heap 0 0
  match l.fwd with
  | none => some false
  | some y =>
    if max.lt (s.heap y).score then some false
    else
      match s.tail with
      | none => some false
      | some t => if (s.heap t).score.lt min then some false else some true

/-- skiplist.go:304-323 `GetFirstInScoreRange`. -/
def getFirstInScoreRange (s : Skiplist) (min max : F64) : Option (Option Nat) := do
  if !(← hasInScoreRange s min max) then some none
  else do
    let (x, _) ← descend s.heap (fun n _ => n.score.lt min) (s.next + 1) s.level 0 0
    let l ← getLvl s.heap x 0
    match l.fwd with
    | none => some none
    | some y => if (s.heap y).score.le max then some (some y) else some none

/-- skiplist.go:325-343 `GetLastInScoreRange`. (`x` can be the head, whose score is 0.) -/
def getLastInScoreRange (s : Skiplist) (min max : F64) : Option (Option Nat) := do
  if !(← hasInScoreRange s min max) then some none
  else do
    let (x, _) ← descend s.heap (fun n _ => n.score.le max) (s.next + 1) s.level 0 0
    if min.le (s.heap x).score then some (some x) else some none

/-- skiplist.go:275-287: the loop of `RangeByScore`. A negative limit means no limit; fuel bounds the turns. -/
def scoreLoop (h : Nat → SNode) (min max : F64) (limit : Int) (reverse : Bool) : Nat → Nat → Option Nat → Option (List Nat)
  | 0, _, _ => none
  | fuel + 1, i, node =>
    if limit < 0 ∨ (i : Int) < limit then
      match node with
      | none => some []
      | some x => do
        let nx ← follow h reverse x
        match nx with
        | some y =>
          if (h y).score.lt min || max.lt (h y).score then some [x]
          else do
            let rest ← scoreLoop h min max limit reverse fuel (i + 1) (some y)
            some (x :: rest)
        | none => do
          let rest ← scoreLoop h min max limit reverse fuel (i + 1) none
          some (x :: rest)
    else some []

/-- skiplist.go:265-290 `RangeByScore`. -/
def rangeByScore (s : Skiplist) (min max : F64) (limit : Int) (reverse : Bool) : Option (List Nat) := do
  let node ← if reverse then getLastInScoreRange s min max else getFirstInScoreRange s min max
  scoreLoop s.heap min max limit reverse (s.next + 1) 0 node

/-- skiplist.go:296-299: the loop of `Count`. -/
def countLoop (h : Nat → SNode) (max : F64) : Nat → Option Nat → Option Int
  | 0, _ => none
  | _ + 1, none => some 0
  | fuel + 1, some x =>
    if (h x).score.le max then do
      let l ← getLvl h x 0
      let n ← countLoop h max fuel l.fwd
      some (n + 1)
    else some 0

/-- skiplist.go:292-302 `Count`. -/
def count (s : Skiplist) (min max : F64) : Option Int := do
  let x ← getFirstInScoreRange s min max
  countLoop s.heap max (s.next + 1) x

/-- `level++` on an int8. -/
def inc8 (l : Int) : Int := if l = 127 then -128 else l + 1

/-- skiplist.go:382-393 `randomLevel`. `small` lists, draw by draw, whether `float64(rand.Int31()&0xFFFF) < 0.25*0xFFFF`; a missing
entry counts as false. -/
def randomLevelFrom (level : Int) : List Bool → Int
  | true :: rest => randomLevelFrom (inc8 level) rest
  | _ => if level < (maxLevel : Int) then level else maxLevel

/-- skiplist.go:382-393 `randomLevel`. -/
def randomLevel (small : List Bool) : Int := randomLevelFrom 1 small

/-- The forward walk along the bottom level: the addresses in order. -/
def walk (s : Skiplist) : Option (List Nat) := do
  let l ← getLvl s.heap 0 0
  takeNodes s.heap false (s.next + 1) l.fwd

end Skiplist
end Metis
