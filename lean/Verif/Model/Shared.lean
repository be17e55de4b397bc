import Verif.Model.Cells
/-!
A dict that is iterated and changed at the same time. The goroutine that rewrites the append-only file walks along the hashes and sets of
the server with iterators (server/aof.go:310-320, 330-333; datastruct/set.go:23-33) while the server goes on calling `Set`, `Get`, `Delete` on them and
iterates over them itself (HGETALL and others). Here every call of `Next`, `Release`, `Set`, `Get`, `Delete` is one step, in any order.

In `Shared` a call is one step. In the code the two goroutines share the dict without a lock, and the steps inside the calls can be interleaved
too. Of these, `Racy` models the two that change the counter `iterators`, `d.iterators++` and `d.iterators--`, each of which reads the counter and
writes it later. The steps inside the calls are those of `Model/Fine.lean`.
-/
namespace Metis.Cells
variable {K V : Type} [DecidableEq K] (hash : K → Nat)

/-- A loop `iter := NewDictIterator(d); for entry := iter.Next(); entry != nil; entry = iter.Next() { items = append(items, …) }` in progress
(server/aof.go:313-319): the iterator, what was collected, whether `Next` has returned nil, and whether the iterator was released. -/
structure Walker (K V : Type) where
  it    : Iter
  items : List (K × V)
  done  : Bool
  gone  : Bool
deriving Repr, DecidableEq

/-- A dict and the loops over it. -/
structure Shared (K V : Type) where
  dict    : Cells K V
  walkers : List (Walker K V)
deriving Repr, DecidableEq

/-- Calls of the server. -/
inductive Call (K V : Type)
  | set (k : K) (v : V) | get (k : K) | delete (k : K)
deriving Repr, DecidableEq

/-- What a call returns: whether the key is new, the value, the error of `Delete`. -/
inductive Ret (V : Type)
  | isNew (b : Bool) | value (v : Option V) | deleted (err : Option Dict.DelErr)
deriving Repr, DecidableEq

/-- A step: a call, the beginning of a loop, a call of `Next`, the release at the end of the loop. -/
inductive Move (K V : Type)
  | call (c : Call K V) | enter | next (i : Nat) | leave (i : Nat)
deriving Repr, DecidableEq

/-- dict.go:116-152, 196-231: a call on the dict. -/
def call (p : Cells K V) : Call K V → Option (Ret V × Cells K V)
  | .set k v => do let (b, p) ← set hash p k v; some (.isNew b, p)
  | .get k => do let (v, p) ← get hash p k; some (.value v, p)
  | .delete k => do let (e, p) ← delete hash p k; some (.deleted e, p)

/-- One turn of the loop (server/aof.go:316-318): `Next`, and the key and value of the entry are read. -/
def Walker.turn (w : Walker K V) (p : Cells K V) : Option (Walker K V × Cells K V) := do
  let (e, p, it) ← iterNext p w.it
  match e with
  | none => some ({ w with it, done := true }, p)
  | some a => do
    let c ← p.mem[a]?
    some ({ w with it, items := w.items ++ [(c.key, c.val)] }, p)

/-- One step; what a call returns. A loop goes on until `Next` returns nil and is left once. -/
def Shared.step (s : Shared K V) : Move K V → Option (List (Ret V) × Shared K V)
  | .call c => do
    let (r, p) ← call hash s.dict c
    some ([r], { s with dict := p })
  | .enter => some ([], { s with walkers := s.walkers ++ [{ it := iterNew, items := [], done := false, gone := false }] })
  | .next i =>
    match s.walkers[i]? with
    | none => some ([], s)
    | some w =>
      if w.done then some ([], s)
      else do
        let (w, p) ← w.turn s.dict
        some ([], { dict := p, walkers := s.walkers.set i w })
  | .leave i =>
    match s.walkers[i]? with
    | none => some ([], s)
    | some w =>
      if w.done && !w.gone then
        some ([], { dict := iterRelease w.it s.dict, walkers := s.walkers.set i { w with gone := true } })
      else some ([], s)

/-- A sequence of steps, with what the calls return. -/
def Shared.run (s : Shared K V) : List (Move K V) → Option (List (Ret V) × Shared K V)
  | [] => some ([], s)
  | m :: ms => do
    let (r, s) ← Shared.step hash s m
    let (rs, s) ← Shared.run s ms
    some (r ++ rs, s)

/-- A new dict. -/
def Shared.new : Shared K V := ⟨Cells.new, []⟩

/-- The machine when `iterators++` (dict.go:79) and `iterators--` (dict.go:67) read and write in two steps: for every loop the value it has read. -/
structure Racy (K V : Type) where
  shared : Shared K V
  regs   : List (Option Int)
deriving Repr, DecidableEq

/-- A step, or the reading half of the next `++` or `--` of a loop. -/
inductive RMove (K V : Type)
  | move (m : Move K V) | load (i : Nat)
deriving Repr, DecidableEq

/-- dict.go:78-80, 65-69: a loop that has read the counter before writes what follows from the value it read. -/
def Racy.step (s : Racy K V) : RMove K V → Option (List (Ret V) × Racy K V)
  | .load i => some ([], { s with regs := s.regs.set i (some s.shared.dict.iterators) })
  | .move .enter => do
    let (r, t) ← Shared.step hash s.shared .enter
    some (r, ⟨t, s.regs ++ [none]⟩)
  | .move (.next i) => do
    let (r, t) ← Shared.step hash s.shared (.next i)
    match s.regs[i]?, (s.shared.walkers[i]?).map (fun w => w.it.index) with
    | some (some n), some (-1) => some (r, ⟨{ t with dict := { t.dict with iterators := n + 1 } }, s.regs.set i none⟩)
    | _, _ => some (r, ⟨t, s.regs⟩)
  | .move (.leave i) => do
    let (r, t) ← Shared.step hash s.shared (.leave i)
    match s.regs[i]?, (s.shared.walkers[i]?).map (fun w => w.done && !w.gone) with
    | some (some n), some true => some (r, ⟨{ t with dict := { t.dict with iterators := n - 1 } }, s.regs.set i none⟩)
    | _, _ => some (r, ⟨t, s.regs⟩)
  | .move (.call c) => do
    let (r, t) ← Shared.step hash s.shared (.call c)
    some (r, ⟨t, s.regs⟩)

/-- A sequence of steps. -/
def Racy.run (s : Racy K V) : List (RMove K V) → Option (List (Ret V) × Racy K V)
  | [] => some ([], s)
  | m :: ms => do
    let (r, s) ← Racy.step hash s m
    let (rs, s) ← Racy.run s ms
    some (r ++ rs, s)

/-- A new dict. -/
def Racy.new : Racy K V := ⟨Shared.new, []⟩

end Metis.Cells
