import Verif.Model.Commands
import Verif.Proofs.DictMap
import Verif.Proofs.Set
/-!
The database seen as two partial functions (values and deadlines), and the commands on this view. This is a proof device: every
command of the model is shown (Proofs/AbsRef.lean) to act on the view like its counterpart here, so that properties can be proved
without looking at hash tables.
-/
set_option linter.unusedSectionVars false
set_option linter.unusedSimpArgs false
set_option linter.unusedVariables false
namespace Metis

/-- Partial functions on byte strings. -/
abbrev Fn (V : Type) := Bytes → Option V

/-- Change at one point. -/
def upd {V : Type} (f : Fn V) (k : Bytes) (o : Option V) : Fn V := fun x => if k = x then o else f x

/-- `l` lists the domain of `f` without repetition. -/
def Enum {V : Type} (f : Fn V) (l : List Bytes) : Prop := l.Nodup ∧ ∀ x, x ∈ l ↔ (f x).isSome = true

/-- A sorted set with its dict as a partial function. -/
structure AZ where
  f : Fn F64
  s : Skiplist

/-- A value with every dict as a partial function. -/
inductive AObj
  | str (s : Bytes)
  | list (q : Quicklist Bytes)
  | hash (f : Fn Bytes)
  | set (f : Fn Unit)
  | zset (z : AZ)

/-- View of a database. -/
structure AS where
  v : Fn AObj
  t : Fn Int

structure AOut where
  s     : AS
  dirty : Nat
  /-- the possible replies -/
  reply : List Bytes → Prop

namespace AZ

def get (z : AZ) (m : Bytes) : Option Elem := (z.f m).map (fun v => ⟨m, v⟩)

def add (z : AZ) (lv : Nat) (score : F64) (m : Bytes) : Option (Bool × AZ) :=
  match z.f m with
  | some v =>
    if !score.eq v then do
      let (_, s) ← Skiplist.delete z.s score m
      let (_, s) ← Skiplist.insert s lv score m
      some (false, ⟨upd z.f m (some score), s⟩)
    else some (false, z)
  | none => do
    let (_, s) ← Skiplist.insert z.s lv score m
    some (true, ⟨upd z.f m (some score), s⟩)

def delete (z : AZ) (m : Bytes) : Option (Bool × AZ) :=
  match z.f m with
  | none => some (false, z)
  | some v => do
    let (_, s) ← Skiplist.delete z.s v m
    some (true, ⟨upd z.f m none, s⟩)

def drop (h : Nat → SNode) : List Nat → AZ → List (Option Elem) × AZ
  | [], z => ([], z)
  | x :: xs, z =>
    let r := drop h xs { z with f := upd z.f (h x).member none }
    (z.get (h x).member :: r.1, r.2)

def look (h : Nat → SNode) (xs : List Nat) (z : AZ) : List (Option Elem) := xs.map (fun x => z.get (h x).member)

def remRank (z : AZ) (start stop : Int) : Option (List (Option Elem) × AZ) := do
  let stop := if stop = Zset.maxInt64 then z.s.length - 1 else stop
  let (nodes, s) ← Skiplist.deleteRangeByRank z.s (start + 1) (stop + 1)
  some (drop s.heap nodes { z with s := s })

def remScore (z : AZ) (min max : F64) : Option (List (Option Elem) × AZ) := do
  let (nodes, s) ← Skiplist.deleteRangeByScore z.s min max
  some (drop s.heap nodes { z with s := s })

def byRank (z : AZ) (start stop : Int) (reverse : Bool) : Option (List (Option Elem)) := do
  let stop := if stop = Zset.maxInt64 then z.s.length - 1 else stop
  let nodes ← Skiplist.rangeByRank z.s (start + 1) (stop + 1) reverse
  some (look z.s.heap nodes z)

def byScore (z : AZ) (min max : F64) (limit : Int) (reverse : Bool) : Option (List (Option Elem)) := do
  let nodes ← Skiplist.rangeByScore z.s min max limit reverse
  some (look z.s.heap nodes z)

end AZ

namespace AObj
def asStr : AObj → Option Bytes | str s => some s | _ => none
def asList : AObj → Option (Quicklist Bytes) | list q => some q | _ => none
def asHash : AObj → Option (Fn Bytes) | hash d => some d | _ => none
def asSet : AObj → Option (Fn Unit) | set s => some s | _ => none
def asZset : AObj → Option AZ | zset z => some z | _ => none
end AObj

/-- The empty partial function. -/
def nil {V : Type} : Fn V := fun _ => none

namespace A
open Db (Look)
open Reply
open Cmds (invalid)

/-- exactly this reply -/
def ex (r : List Bytes) : List Bytes → Prop := fun x => x = r
/-- an array of the listed domain, in any order -/
def dom {V : Type} (f : Fn V) : List Bytes → Prop := fun x => ∃ l, Enum f l ∧ x = array l
/-- the size of the domain -/
def card {V : Type} (f : Fn V) : List Bytes → Prop := fun x => ∃ l, Enum f l ∧ x = int (l.length : Int)

def expired (e : Env) (s : AS) (k : Bytes) : Bool := match s.t k with | some d => decide (d < e.now) | none => false

/-- `expireIfNeeded` -/
def exp (e : Env) (s : AS) (k : Bytes) : AS :=
  if expired e s k then { v := upd s.v k none, t := upd s.t k none } else s

/-- `get…IfExist` after `expireIfNeeded` -/
def look {β : Type} (as : AObj → Option β) (s : AS) (k : Bytes) : Look β :=
  match s.v k with
  | none => .missing
  | some o => match as o with | none => .wrong | some b => .found b

def put (s : AS) (k : Bytes) (o : AObj) : AS := { s with v := upd s.v k (some o) }

/-- `getHash` etc. -/
def orNew {β : Type} (as : AObj → Option β) (fresh : AObj) (s : AS) (k : Bytes) : Option β × AS :=
  match s.v k with
  | none => (as fresh, put s k fresh)
  | some o => (as o, s)

def ping (_ : Env) (_ : List Bytes) (s : AS) : Option AOut := some ⟨s, 0, ex (simple b!"PONG")⟩

def expire (e : Env) (args : List Bytes) (s : AS) : Option AOut := do
  let key ← args[1]?
  let a ← args[2]?
  match atoi a with
  | none => some ⟨s, 0, ex (invalid b!"expire" a (e.intErr a))⟩
  | some n => some ⟨{ s with t := upd s.t key (some (wrap64 (e.now + wrap64 (n * 1000)))) }, 1, ex ok⟩

def expireAt (e : Env) (args : List Bytes) (s : AS) : Option AOut := do
  let key ← args[1]?
  let a ← args[2]?
  match atoi a with
  | none => some ⟨s, 0, ex (invalid b!"expire" a (e.intErr a))⟩
  | some n => some ⟨{ s with t := upd s.t key (some (wrap64 (n * 1000))) }, 1, ex ok⟩

def ttl (e : Env) (args : List Bytes) (s : AS) : Option AOut := do
  let key ← args[1]?
  match s.v key with
  | none => some ⟨s, 0, ex (int (-2))⟩
  | some _ =>
    match s.t key with
    | none => some ⟨s, 0, ex (int (-1))⟩
    | some deadline => some ⟨s, 0, ex (int ((wrap64 (deadline - e.now)).tdiv 1000))⟩

/-- the keys a KEYS pattern selects; `none` = invalid pattern -/
def pat (e : Env) (pattern : Bytes) : Option (Bytes → Bool) :=
  if pattern = b!"*" then some (fun _ => true) else e.compile pattern

/-- view after KEYS: the expired among the matching keys are gone -/
def sweep (e : Env) (m : Bytes → Bool) (s : AS) : AS :=
  { v := fun k => if m k && expired e s k then none else s.v k
    t := fun k => if m k && expired e s k && (s.v k).isSome then none else s.t k }

def keys (e : Env) (args : List Bytes) (s : AS) : Option AOut := do
  let pattern ← args[1]?
  match pat e pattern with
  | none => some ⟨s, 0, fun r => ((∀ k, s.v k = none) ∧ r = array []) ∨
      ((∃ k, (s.v k).isSome = true) ∧ r = invalid b!"pattern" pattern (e.regexpErr pattern))⟩
  | some m => some ⟨sweep e m s, 0, dom (fun k => if m k then (sweep e m s).v k else none)⟩

def set (e : Env) (args : List Bytes) (s : AS) : Option AOut := do
  let key ← args[1]?
  let value ← args[2]?
  some ⟨{ v := upd s.v key (some (.str value)), t := upd s.t key none }, 1, ex ok⟩

def setEx (e : Env) (args : List Bytes) (s : AS) : Option AOut := do
  let key ← args[1]?
  let value ← args[3]?
  let a ← args[2]?
  match atoi a with
  | none => some ⟨s, 0, ex (invalid b!"expire" a (e.intErr a))⟩
  | some n => some ⟨{ v := upd s.v key (some (.str value)), t := upd s.t key (some (wrap64 (e.now + wrap64 (n * 1000)))) }, 1, ex ok⟩

def get (e : Env) (args : List Bytes) (s : AS) : Option AOut := do
  let key ← args[1]?
  let s := exp e s key
  match s.v key with
  | none => some ⟨s, 0, ex null⟩
  | some v =>
    match v.asStr with
    | none => some ⟨s, 0, ex (error b!"value is not a string")⟩
    | some b => some ⟨s, 0, ex (bulk b)⟩

/-- RANDOMGET with the keys drawn (`none` if one is not in the database); no more are drawn when the database is empty. -/
def randomGet (e : Env) : List Bytes → AS → Option AOut
  | [], s => some ⟨s, 0, fun r => (∀ k, s.v k = none) ∧ r = null⟩
  | k :: ks, s =>
    if (s.v k).isNone then none
    else if expired e s k then randomGet e ks (exp e s k) else some ⟨s, 0, ex (bulk k)⟩

def hsetLoop : List Bytes → Fn Bytes → Nat → Fn Bytes × Nat
  | f :: v :: rest, h, n => hsetLoop rest (upd h f (some v)) (if (h f).isNone then n + 1 else n)
  | _, h, n => (h, n)

def hset (e : Env) (args : List Bytes) (s : AS) : Option AOut :=
  if args.length % 2 ≠ 0 then some ⟨s, 0, ex (error b!"wrong number of arguments for 'hset' command")⟩
  else do
    let key ← args[1]?
    let (h, s) := orNew AObj.asHash (.hash nil) s key
    match h with
    | none => some ⟨s, 0, ex (error errWrongType)⟩
    | some h =>
      let r := hsetLoop (args.drop 2) h 0
      some ⟨put s key (.hash r.1), (args.drop 2).length / 2, ex (int r.2)⟩

def hget (e : Env) (args : List Bytes) (s : AS) : Option AOut := do
  let key ← args[1]?
  let field ← args[2]?
  let s := exp e s key
  match look AObj.asHash s key with
  | .missing => some ⟨s, 0, ex null⟩
  | .wrong => some ⟨s, 0, ex (error errWrongType)⟩
  | .found h =>
    match h field with
    | none => some ⟨s, 0, ex null⟩
    | some v => some ⟨s, 0, ex (bulk v)⟩

/-- removal of a list of keys, counting -/
def delLoop {V : Type} : List Bytes → Fn V → Nat → Fn V × Nat
  | [], h, n => (h, n)
  | f :: rest, h, n => delLoop rest (upd h f none) (if (h f).isSome then n + 1 else n)

def hdel (e : Env) (args : List Bytes) (s : AS) : Option AOut := do
  let key ← args[1]?
  let s := exp e s key
  match look AObj.asHash s key with
  | .missing => some ⟨s, 0, ex (int 0)⟩
  | .wrong => some ⟨s, 0, ex (error errWrongType)⟩
  | .found h =>
    let r := delLoop (args.drop 2) h 0
    some ⟨put s key (.hash r.1), r.2, ex (int r.2)⟩

def hexists (e : Env) (args : List Bytes) (s : AS) : Option AOut := do
  let key ← args[1]?
  let field ← args[2]?
  let s := exp e s key
  match look AObj.asHash s key with
  | .missing => some ⟨s, 0, ex (int 0)⟩
  | .wrong => some ⟨s, 0, ex (error errWrongType)⟩
  | .found h => some ⟨s, 0, ex (int (if (h field).isSome then 1 else 0))⟩

def hkeys (e : Env) (args : List Bytes) (s : AS) : Option AOut := do
  let key ← args[1]?
  let s := exp e s key
  match look AObj.asHash s key with
  | .missing => some ⟨s, 0, ex empty⟩
  | .wrong => some ⟨s, 0, ex (error errWrongType)⟩
  | .found h => some ⟨s, 0, dom h⟩

def hlen (e : Env) (args : List Bytes) (s : AS) : Option AOut := do
  let key ← args[1]?
  let s := exp e s key
  match look AObj.asHash s key with
  | .missing => some ⟨s, 0, ex (int 0)⟩
  | .wrong => some ⟨s, 0, ex (error errWrongType)⟩
  | .found h => some ⟨s, 0, card h⟩

def saddLoop : List Bytes → Fn Unit → Nat → Fn Unit × Nat
  | [], h, n => (h, n)
  | m :: rest, h, n => saddLoop rest (upd h m (some ())) (if (h m).isNone then n + 1 else n)

def sadd (e : Env) (args : List Bytes) (s : AS) : Option AOut := do
  let key ← args[1]?
  let (h, s) := orNew AObj.asSet (.set nil) s key
  match h with
  | none => some ⟨s, 0, ex (error errWrongType)⟩
  | some h =>
    let r := saddLoop (args.drop 2) h 0
    some ⟨put s key (.set r.1), (args.drop 2).length, ex (int r.2)⟩

def srem (e : Env) (args : List Bytes) (s : AS) : Option AOut := do
  let key ← args[1]?
  let s := exp e s key
  match look AObj.asSet s key with
  | .missing => some ⟨s, 0, ex (int 0)⟩
  | .wrong => some ⟨s, 0, ex (error errWrongType)⟩
  | .found h =>
    let r := delLoop (args.drop 2) h 0
    some ⟨put s key (.set r.1), r.2, ex (int r.2)⟩

/-- SPOP with the member drawn. -/
def spop (m : Bytes) (e : Env) (args : List Bytes) (s : AS) : Option AOut := do
  let key ← args[1]?
  let s := exp e s key
  match look AObj.asSet s key with
  | .missing => some ⟨s, 0, ex null⟩
  | .wrong => some ⟨s, 0, ex (error errWrongType)⟩
  | .found h => if (h m).isSome then some ⟨put s key (.set (upd h m none)), 1, ex (bulk m)⟩ else none

/-- SPOP of an empty set -/
def spopEmpty (e : Env) (args : List Bytes) (s : AS) : Option AOut := do
  let key ← args[1]?
  let s := exp e s key
  match look AObj.asSet s key with
  | .found h => some ⟨s, 0, fun r => (∀ m, h m = none) ∧ r = null⟩
  | _ => none

def scard (e : Env) (args : List Bytes) (s : AS) : Option AOut := do
  let key ← args[1]?
  let s := exp e s key
  match look AObj.asSet s key with
  | .missing => some ⟨s, 0, ex (int 0)⟩
  | .wrong => some ⟨s, 0, ex (error errWrongType)⟩
  | .found h => some ⟨s, 0, card h⟩

def sismember (e : Env) (args : List Bytes) (s : AS) : Option AOut := do
  let key ← args[1]?
  let m ← args[2]?
  let s := exp e s key
  match look AObj.asSet s key with
  | .missing => some ⟨s, 0, ex (int 0)⟩
  | .wrong => some ⟨s, 0, ex (error errWrongType)⟩
  | .found h => some ⟨s, 0, ex (int (if (h m).isSome then 1 else 0))⟩

def smembers (e : Env) (args : List Bytes) (s : AS) : Option AOut := do
  let key ← args[1]?
  let s := exp e s key
  match look AObj.asSet s key with
  | .missing => some ⟨s, 0, ex empty⟩
  | .wrong => some ⟨s, 0, ex (error errWrongType)⟩
  | .found h => some ⟨s, 0, dom h⟩

/-- the loop over the further keys of SDIFF/SINTER/SUNION -/
def opLoop (f : Bool → Bool → Bool) (stop : Bool) (e : Env) : List Bytes → Fn Unit → AS → (Fn Unit ⊕ List Bytes) × AS
  | [], h, s => (.inl h, s)
  | key :: rest, h, s =>
    let s := exp e s key
    match look AObj.asSet s key with
    | .missing => if stop then (.inr empty, s) else opLoop f stop e rest h s
    | .wrong => (.inr (error errWrongType), s)
    | .found g => opLoop f stop e rest (fun x => if f (h x).isSome (g x).isSome then some () else none) s

def setOp (f : Bool → Bool → Bool) (stop : Bool) (e : Env) (args : List Bytes) (s : AS) : Option AOut := do
  let key ← args[1]?
  let s := exp e s key
  match look AObj.asSet s key with
  | .missing => some ⟨s, 0, ex empty⟩
  | .wrong => some ⟨s, 0, ex (error errWrongType)⟩
  | .found h =>
    match opLoop f stop e (args.drop 2) h s with
    | (.inr r, s) => some ⟨s, 0, ex r⟩
    | (.inl h, s) => some ⟨s, 0, dom h⟩

def sdiff := setOp (fun a b => a && !b) false
def sinter := setOp (fun a b => a && b) true
def sunion := setOp (fun a b => a || b) false

def lpush (e : Env) (args : List Bytes) (s : AS) : Option AOut := do
  let key ← args[1]?
  let (q, s) := orNew AObj.asList (.list Quicklist.new) s key
  match q with
  | none => some ⟨s, 0, ex (error errNotExist)⟩
  | some q => do
    let q ← Cmds.lpushLoop (args.drop 2) q
    some ⟨put s key (.list q), (args.drop 2).length, ex (int (Quicklist.len q))⟩

def rpush (e : Env) (args : List Bytes) (s : AS) : Option AOut := do
  let key ← args[1]?
  let (q, s) := orNew AObj.asList (.list Quicklist.new) s key
  match q with
  | none => some ⟨s, 0, ex (error errNotExist)⟩
  | some q =>
    let q := Cmds.rpushLoop (args.drop 2) q
    some ⟨put s key (.list q), (args.drop 2).length, ex (int (Quicklist.len q))⟩

def popCmd (pop : Quicklist Bytes → Option (Option Bytes × Quicklist Bytes)) (e : Env) (args : List Bytes) (s : AS) : Option AOut := do
  let key ← args[1]?
  let s := exp e s key
  match look AObj.asList s key with
  | .missing => some ⟨s, 0, ex null⟩
  | .wrong => some ⟨s, 0, ex (error errWrongType)⟩
  | .found q =>
    if Quicklist.len q = 0 then some ⟨s, 0, ex null⟩
    else do
      let (v, q) ← pop q
      let v ← v
      some ⟨put s key (.list q), 1, ex (bulk v)⟩

def lpop := popCmd Quicklist.popFront
def rpop := popCmd Quicklist.popBack

def llen (e : Env) (args : List Bytes) (s : AS) : Option AOut := do
  let key ← args[1]?
  let s := exp e s key
  match look AObj.asList s key with
  | .missing => some ⟨s, 0, ex (int 0)⟩
  | .wrong => some ⟨s, 0, ex (error errWrongType)⟩
  | .found q => some ⟨s, 0, ex (int (Quicklist.len q))⟩

def lindex (e : Env) (args : List Bytes) (s : AS) : Option AOut := do
  let key ← args[1]?
  let s := exp e s key
  match look AObj.asList s key with
  | .missing => some ⟨s, 0, ex null⟩
  | .wrong => some ⟨s, 0, ex (error errWrongType)⟩
  | .found q => do
    let a ← args[2]?
    match atoi a with
    | none => some ⟨s, 0, ex (invalid b!"index" a (e.atoiErr a))⟩
    | some i => do
      let v ← Quicklist.get q i
      match v with
      | none => some ⟨s, 0, ex null⟩
      | some v => some ⟨s, 0, ex (bulk v)⟩

def lrange (e : Env) (args : List Bytes) (s : AS) : Option AOut := do
  let key ← args[1]?
  let s := exp e s key
  match look AObj.asList s key with
  | .missing => some ⟨s, 0, ex empty⟩
  | .wrong => some ⟨s, 0, ex (error errWrongType)⟩
  | .found q => do
    let a ← args[2]?
    match atoi a with
    | none => some ⟨s, 0, ex (invalid b!"start" a (e.atoiErr a))⟩
    | some start => do
      let b ← args[3]?
      match atoi b with
      | none => some ⟨s, 0, ex (invalid b!"stop" b (e.atoiErr b))⟩
      | some stop => do
        let vs ← Quicklist.range q start stop
        if vs = [] then some ⟨s, 0, ex null⟩ else some ⟨s, 0, ex (array vs)⟩

def zaddLoop (e : Env) : List Bytes → Nat → AZ → Nat → Option (AZ × Nat × Nat × Option Bytes)
  | sc :: m :: rest, i, z, created =>
    match e.parseFloat sc with
    | none => some (z, i, created, some sc)
    | some score => do
      let (isNew, z) ← AZ.add z (e.level i) score m
      zaddLoop e rest (i + 1) z (if isNew then created + 1 else created)
  | _, i, z, created => some (z, i, created, none)

/-- a new sorted set -/
def zNew : AZ := ⟨nil, Skiplist.new⟩

def zadd (e : Env) (args : List Bytes) (s : AS) : Option AOut :=
  if args.length % 2 ≠ 0 then some ⟨s, 0, ex (error b!"wrong number of arguments for 'zadd' command")⟩
  else do
    let key ← args[1]?
    let (z, s) := orNew AObj.asZset (.zset zNew) s key
    match z with
    | none => some ⟨s, 0, ex (error errWrongType)⟩
    | some z => do
      let (z, n, created, bad) ← zaddLoop e (args.drop 2) 0 z 0
      match bad with
      | some sc => some ⟨put s key (.zset z), n, ex (invalid b!"score" sc (e.floatErr sc))⟩
      | none => some ⟨put s key (.zset z), n, ex (int created)⟩

def zcard (e : Env) (args : List Bytes) (s : AS) : Option AOut := do
  let key ← args[1]?
  let s := exp e s key
  match look AObj.asZset s key with
  | .missing => some ⟨s, 0, ex (int 0)⟩
  | .wrong => some ⟨s, 0, ex (error errWrongType)⟩
  | .found z => some ⟨s, 0, ex (int z.s.length)⟩

def zscore (e : Env) (args : List Bytes) (s : AS) : Option AOut := do
  let key ← args[1]?
  let s := exp e s key
  match look AObj.asZset s key with
  | .missing => some ⟨s, 0, ex null⟩
  | .wrong => some ⟨s, 0, ex (error errWrongType)⟩
  | .found z => do
    let m ← args[2]?
    match z.get m with
    | none => some ⟨s, 0, ex null⟩
    | some el => some ⟨s, 0, ex (simple (e.fmtFloat el.score))⟩

def zcount (e : Env) (args : List Bytes) (s : AS) : Option AOut := do
  let key ← args[1]?
  let a ← args[2]?
  match e.parseFloat a with
  | none => some ⟨s, 0, ex (invalid b!"min" a (e.floatErr a))⟩
  | some min => do
    let b ← args[3]?
    match e.parseFloat b with
    | none => some ⟨s, 0, ex (invalid b!"max" b (e.floatErr b))⟩
    | some max =>
      let s := exp e s key
      match look AObj.asZset s key with
      | .missing => some ⟨s, 0, ex (int 0)⟩
      | .wrong => some ⟨s, 0, ex (error errWrongType)⟩
      | .found z => do
        let n ← Skiplist.count z.s min max
        some ⟨s, 0, ex (int n)⟩

def zrange (e : Env) (args : List Bytes) (s : AS) : Option AOut := do
  let key ← args[1]?
  let a ← args[2]?
  match atoi a with
  | none => some ⟨s, 0, ex (invalid b!"start" a (e.intErr a))⟩
  | some start => do
    let b ← args[3]?
    match atoi b with
    | none => some ⟨s, 0, ex (invalid b!"stop" b (e.intErr b))⟩
    | some stop =>
      let s := exp e s key
      match look AObj.asZset s key with
      | .missing => some ⟨s, 0, ex null⟩
      | .wrong => some ⟨s, 0, ex (error errWrongType)⟩
      | .found z => do
        let els ← z.byRank start stop false
        let r ← Reply.zset e args els
        some ⟨s, 0, ex r⟩

def zrangeByScore (e : Env) (args : List Bytes) (s : AS) : Option AOut := do
  let key ← args[1]?
  let a ← args[2]?
  match e.parseFloat a with
  | none => some ⟨s, 0, ex (invalid b!"start" a (e.floatErr a))⟩
  | some min => do
    let b ← args[3]?
    match e.parseFloat b with
    | none => some ⟨s, 0, ex (invalid b!"start" b (e.floatErr b))⟩
    | some max =>
      let s := exp e s key
      match look AObj.asZset s key with
      | .missing => some ⟨s, 0, ex null⟩
      | .wrong => some ⟨s, 0, ex (error errWrongType)⟩
      | .found z => do
        let els ← z.byScore min max (-1) false
        let r ← Reply.zset e args els
        some ⟨s, 0, ex r⟩

def zremLoop : List Bytes → AZ → Nat → Option (AZ × Nat)
  | [], z, deleted => some (z, deleted)
  | m :: rest, z, deleted => do
    let (b, z) ← AZ.delete z m
    zremLoop rest z (if b then deleted + 1 else deleted)

def zrem (e : Env) (args : List Bytes) (s : AS) : Option AOut := do
  let key ← args[1]?
  let s := exp e s key
  match look AObj.asZset s key with
  | .missing => some ⟨s, 0, ex (int 0)⟩
  | .wrong => some ⟨s, 0, ex (error errWrongType)⟩
  | .found z => do
    let (z, deleted) ← zremLoop (args.drop 2) z 0
    some ⟨put s key (.zset z), deleted, ex (int deleted)⟩

def zremRangeByRank (e : Env) (args : List Bytes) (s : AS) : Option AOut := do
  let key ← args[1]?
  let a ← args[2]?
  match atoi a with
  | none => some ⟨s, 0, ex (invalid b!"start" a (e.intErr a))⟩
  | some start => do
    let b ← args[3]?
    match atoi b with
    | none => some ⟨s, 0, ex (invalid b!"start" b (e.intErr b))⟩
    | some stop =>
      let s := exp e s key
      match look AObj.asZset s key with
      | .missing => some ⟨s, 0, ex (int 0)⟩
      | .wrong => some ⟨s, 0, ex (error errWrongType)⟩
      | .found z => do
        let (els, z) ← z.remRank start stop
        some ⟨put s key (.zset z), els.length, ex (int els.length)⟩

def zremRangeByScore (e : Env) (args : List Bytes) (s : AS) : Option AOut := do
  let key ← args[1]?
  let a ← args[2]?
  match e.parseFloat a with
  | none => some ⟨s, 0, ex (invalid b!"start" a (e.floatErr a))⟩
  | some min => do
    let b ← args[3]?
    match e.parseFloat b with
    | none => some ⟨s, 0, ex (invalid b!"start" b (e.floatErr b))⟩
    | some max =>
      let s := exp e s key
      match look AObj.asZset s key with
      | .missing => some ⟨s, 0, ex (int 0)⟩
      | .wrong => some ⟨s, 0, ex (error errWrongType)⟩
      | .found z => do
        let (els, z) ← z.remScore min max
        some ⟨put s key (.zset z), els.length, ex (int els.length)⟩

end A
end Metis
