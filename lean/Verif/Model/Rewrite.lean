import Verif.Model.Sys
import Verif.Model.AofLoad
/-!
Model of the rewrite of the append-only file, server/aof.go:216-366: the commands that the goroutine writes for the databases that
were copied when it was started. The work is cut into chores; one chore is the SELECT of a database or one key with its deadline.
-/
namespace Metis.Aof

/-- server/aof.go:25 `AofRewriteItemsPerCommand` -/
def itemsPerCommand : Nat := 64

/-- `lo.Chunk`; `fuel` is the length of the list. -/
def chunks (n : Nat) : Nat → List Bytes → List (List Bytes)
  | 0, _ => []
  | f + 1, l => if l = [] then [] else l.take n :: chunks n f (l.drop n)

/-- server/aof.go:302-308, 323-329, 339-345, 357-363: the commands for the items of a collection. -/
def pieces (name key : Bytes) (n : Nat) (items : List Bytes) : List (List Bytes) :=
  (chunks n items.length items).map (fun c => name :: key :: c)

/-- server/aof.go:297-300: all elements in order; `fuel` exceeds the number of elements. -/
def listItems (q : Quicklist Bytes) : Nat → QIter → Option (List Bytes)
  | 0, _ => none
  | f + 1, it => do
    let (v, it) ← Quicklist.iterNext q it
    match v with
    | none => some []
    | some v => do
      let rest ← listItems q f it
      some (v :: rest)

/-- server/aof.go:353-355: member, then score. A nil element panics. -/
def zsetItems (e : Env) : List (Option Elem) → Option (List Bytes)
  | [] => some []
  | none :: _ => none
  | some x :: rest => do
    let rest ← zsetItems e rest
    some (x.member :: e.fmtFloat x.score :: rest)

/-- server/aof.go:251-264 with 285-366: the commands for one object. `none` = panic. -/
def dumpObj (e : Env) (key : Bytes) : Obj → Option (List (List Bytes))
  | .str s => some [[b!"set", key, s]]
  | .list q => do
    let items ← listItems q (q.length + 1) Quicklist.iterNew
    some (pieces b!"lpush" key itemsPerCommand items)
  | .hash d => do
    let _ ← Dict.size d
    let (_, l) ← Dict.collect d
    some (pieces b!"hset" key (itemsPerCommand * 2) (l.flatMap (fun x => [x.1, x.2])))
  | .set s => do
    let (l, _) ← MSet.range s
    some (pieces b!"sadd" key itemsPerCommand l)
  | .zset z => do
    let (l, _) ← Zset.rangeByRank e.hash z 0 (Zset.size z - 1) false
    let items ← zsetItems e l
    some (pieces b!"zadd" key (itemsPerCommand * 2) items)

/-- The fields of a hash with their values; the members of a set (with no values). -/
def parts : Obj → Option (List (Bytes × Bytes))
  | .hash d => (Dict.collect d).map Prod.snd
  | .set s => (MSet.range s).map (fun r => r.1.map (fun x => (x, [])))
  | _ => none

/-- server/aof.go:322-329, 331-345: the commands for what a loop over a hash or a set has collected. -/
def dumpItems (key : Bytes) (items : List (Bytes × Bytes)) : Obj → Option (List (List Bytes))
  | .hash _ => some (pieces b!"hset" key (itemsPerCommand * 2) (items.flatMap (fun x => [x.1, x.2])))
  | .set _ => some (pieces b!"sadd" key itemsPerCommand (items.map Prod.fst))
  | _ => none

/-- server/aof.go:270-275 -/
def dumpDeadline (key : Bytes) : Option Int → List (List Bytes)
  | none => []
  | some d => [[b!"expireat", key, itoa (d.tdiv 1000)]]

/-- An entry of a copied database with the deadline that the copy holds for it. -/
structure Item where
  db       : Nat
  key      : Bytes
  obj      : Obj
  deadline : Option Int

inductive Chore
  | select (db : Nat)
  | key (it : Item)

/-- server/aof.go:248-276: the entries in the order of the iterator, with the result of `db.Expire.Find`, which may move entries of that dict. -/
def items (e : Env) (i : Nat) : List (Bytes × Obj) → Dict Bytes Int → Option (List Item)
  | [], _ => some []
  | (k, o) :: rest, x => do
    let (d, x) ← Dict.find e.hash x k
    let its ← items e i rest x
    some ({ db := i, key := k, obj := o, deadline := d.map Prod.snd } :: its)

/-- server/aof.go:239-277, the loop over the databases, empty ones being skipped; `i` is the ID of the first. -/
def chores (e : Env) : Nat → List Db → Option (List Chore)
  | _, [] => some []
  | i, c :: cs => do
    let n ← Dict.size c.dict
    let rest ← chores e (i + 1) cs
    if n = 0 then some rest
    else do
      let (_, l) ← Dict.collect c.dict
      let its ← items e i l c.expire
      some (.select i :: its.map .key ++ rest)

/-- The commands written for a chore. -/
def dumpChore (e : Env) : Chore → Option (List (List Bytes))
  | .select i => some [[b!"select", itoa i]]
  | .key it => do
    let cs ← dumpObj e it.key it.obj
    some (cs ++ dumpDeadline it.key it.deadline)

def dumpChores (e : Env) : List Chore → Option (List (List Bytes))
  | [] => some []
  | c :: rest => do
    let a ← dumpChore e c
    let b ← dumpChores e rest
    some (a ++ b)

/-- server/aof.go:231-283 `rewriteAppendOnlyFile`, uninterrupted: all commands in the temporary file. -/
def dump (e : Env) (dbs : List Db) : Option (List (List Bytes)) := do
  let cs ← chores e 0 dbs
  dumpChores e cs

/-- The contents of that file (server/aof.go:76-92 for each command). -/
def rewritten (e : Env) (dbs : List Db) : Option Bytes := (dump e dbs).map (fun recs => (recs.map cat).flatten)

end Metis.Aof
