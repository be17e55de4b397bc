import Verif.Model.Db
/-!
Model of the commands on databases: server/commandkey.go, commandstring.go, commandhash.go, commandset.go, commandlist.go,
commandzset.go. `args` is `client.args`, `db` is `client.db`; `args[i]?` = `none` is an index out of range.
-/
namespace Metis
namespace Cmds
open Db Reply

/-- `client.addReplyErrorf("invalid WHAT: %s, error: %v", arg, err)` -/
def invalid (what arg err : Bytes) : List Bytes := error (b!"invalid " ++ what ++ b!": " ++ arg ++ b!", error: " ++ err)

/-! ### server/commandkey.go, commandconnection.go:5-7 -/

/-- commandconnection.go:5-7 -/
def ping (_ : Env) (_ : List Bytes) (db : Db) : Option Out := some { db, reply := simple b!"PONG" }

/-- commandkey.go:11-24 -/
def expire (e : Env) (args : List Bytes) (db : Db) : Option Out := do
  let key ← args[1]?
  let a ← args[2]?
  match atoi a with
  | none => some { db, reply := invalid b!"expire" a (e.intErr a) }
  | some n => do
    let db ← setExpire e db key (wrap64 (e.now + wrap64 (n * 1000)))
    some { db, dirty := 1, reply := ok }

/-- commandkey.go:26-38 -/
def expireAt (e : Env) (args : List Bytes) (db : Db) : Option Out := do
  let key ← args[1]?
  let a ← args[2]?
  match atoi a with
  | none => some { db, reply := invalid b!"expire" a (e.intErr a) }
  | some n => do
    let db ← setExpire e db key (wrap64 (n * 1000))
    some { db, dirty := 1, reply := ok }

/-- commandkey.go:40-60; Go's division truncates. -/
def ttl (e : Env) (args : List Bytes) (db : Db) : Option Out := do
  let key ← args[1]?
  let (v, d) ← Dict.find e.hash db.dict key
  let db := { db with dict := d }
  match v with
  | none => some { db, reply := int (-2) }
  | some _ => do
    let (x, ex) ← Dict.find e.hash db.expire key
    let db := { db with expire := ex }
    match x with
    | none => some { db, reply := int (-1) }
    | some (_, deadline) => some { db, reply := int ((wrap64 (deadline - e.now)).tdiv 1000) }

/-- commandkey.go:69-94: one turn of the loop; the state is the `Expire` dict, the keys found, and whether the pattern was invalid
(then the loop is left). -/
def keysBody (e : Env) (pattern : Bytes) (entry : Bytes × Obj) (d : Dict Bytes Obj) (st : Dict Bytes Int × List Bytes × Bool) :
    Option (Dict Bytes Obj × (Dict Bytes Int × List Bytes × Bool)) :=
  if st.2.2 then some (d, st)
  else
    match (if pattern = b!"*" then some (fun _ => true) else e.compile pattern) with
    | none => some (d, (st.1, st.2.1, true))
    | some isMatch =>
      if isMatch entry.1 then do
        let (expired, db) ← expireIfNeeded e { dict := d, expire := st.1 } entry.1
        some (db.dict, (db.expire, if expired then st.2.1 else st.2.1 ++ [entry.1], false))
      else some (d, st)

/-- commandkey.go:62-97. Simplification: with an invalid pattern the loop of the model runs on without doing anything, where the
code returns; the iterator is released in both cases. (`dict.Size()` for the capacity is evaluated inside `forEach`.) -/
def keys (e : Env) (args : List Bytes) (db : Db) : Option Out := do
  let pattern ← args[1]?
  let (d, (ex, ks, bad)) ← Dict.forEach db.dict (db.expire, [], false) (keysBody e pattern)
  let db := { dict := d, expire := ex }
  if bad then some { db, reply := invalid b!"pattern" pattern (e.regexpErr pattern) }
  else some { db, reply := array ks }

/-! ### server/commandstring.go -/

/-- commandstring.go:10-17 -/
def set (e : Env) (args : List Bytes) (db : Db) : Option Out := do
  let key ← args[1]?
  let value ← args[2]?
  let db ← delExpire e db key
  let db ← Db.set e db key (.str value)
  some { db, dirty := 1, reply := ok }

/-- commandstring.go:19-32 -/
def setEx (e : Env) (args : List Bytes) (db : Db) : Option Out := do
  let key ← args[1]?
  let value ← args[3]?
  let a ← args[2]?
  match atoi a with
  | none => some { db, reply := invalid b!"expire" a (e.intErr a) }
  | some n => do
    let db ← setExpire e db key (wrap64 (e.now + wrap64 (n * 1000)))
    let db ← Db.set e db key (.str value)
    some { db, dirty := 1, reply := ok }

/-- commandstring.go:34-53 -/
def get (e : Env) (args : List Bytes) (db : Db) : Option Out := do
  let key ← args[1]?
  let (_, db) ← expireIfNeeded e db key
  let (v, db) ← Db.get e db key
  match v with
  | none => some { db, reply := null }
  | some v =>
    match v.asStr with
    | none => some { db, reply := error b!"value is not a string" }
    | some s => some { db, reply := bulk s }

/-- commandstring.go:57-71, the loop of `randomGetCommand`; every turn needs at least one random draw or ends. -/
def randomLoop (e : Env) : Nat → List Nat → Db → Option Out
  | 0, _, _ => none
  | fuel + 1, draws, db => do
    let (r, d, draws) ← Dict.getRandomKey e.hash db.dict draws
    let db := { db with dict := d }
    match r with
    | .nil => some { db, reply := null }
    | .spin => none
    | .entry (k, _) => do
      let (expired, db) ← expireIfNeeded e db k
      if expired then randomLoop e fuel draws db else some { db, reply := bulk k }

/-- commandstring.go:55-80 -/
def randomGet (e : Env) (_ : List Bytes) (db : Db) : Option Out := randomLoop e (e.draws.length + 1) e.draws db

/-! ### server/commandhash.go -/

/-- commandhash.go:22-27: the loop of HSET; returns the hash and the number of created fields. -/
def hsetLoop (e : Env) : List Bytes → Dict Bytes Bytes → Nat → Option (Dict Bytes Bytes × Nat)
  | f :: v :: rest, h, created => do
    let (isNew, h) ← Dict.set e.hash h f v
    hsetLoop e rest h (if isNew then created + 1 else created)
  | _, h, created => some (h, created)

/-- commandhash.go:9-30. (The loop cannot fail before the writes are visible, so writing the hash back once is the same.) -/
def hset (e : Env) (args : List Bytes) (db : Db) : Option Out :=
  if args.length % 2 ≠ 0 then some { db, reply := error b!"wrong number of arguments for 'hset' command" }
  else do
    let key ← args[1]?
    let (h, db) ← getOrNew Obj.asHash (.hash Dict.new) e db key
    match h with
    | none => some { db, reply := error errWrongType }
    | some h => do
      let (h, created) ← hsetLoop e (args.drop 2) h 0
      some { db := put e db key (.hash h), dirty := (args.drop 2).length / 2, reply := int created }

/-- commandhash.go:32-50 -/
def hget (e : Env) (args : List Bytes) (db : Db) : Option Out := do
  let key ← args[1]?
  let field ← args[2]?
  let (h, db) ← getIfExist Obj.asHash e db key
  match h with
  | .missing => some { db, reply := null }
  | .wrong => some { db, reply := error errWrongType }
  | .found h => do
    let (v, h) ← Dict.get e.hash h field
    let db := put e db key (.hash h)
    match v with
    | none => some { db, reply := null }
    | some v => some { db, reply := bulk v }

/-- commandhash.go:64-70: the loop of HDEL. -/
def hdelLoop (e : Env) : List Bytes → Dict Bytes Bytes → Nat → Option (Dict Bytes Bytes × Nat)
  | [], h, deleted => some (h, deleted)
  | f :: rest, h, deleted => do
    let (err, h) ← Dict.delete e.hash h f
    hdelLoop e rest h (if err.isNone then deleted + 1 else deleted)

/-- commandhash.go:52-73 -/
def hdel (e : Env) (args : List Bytes) (db : Db) : Option Out := do
  let key ← args[1]?
  let (h, db) ← getIfExist Obj.asHash e db key
  match h with
  | .missing => some { db, reply := int 0 }
  | .wrong => some { db, reply := error errWrongType }
  | .found h => do
    let (h, deleted) ← hdelLoop e (args.drop 2) h 0
    some { db := put e db key (.hash h), dirty := deleted, reply := int deleted }

/-- commandhash.go:75-92 -/
def hexists (e : Env) (args : List Bytes) (db : Db) : Option Out := do
  let key ← args[1]?
  let field ← args[2]?
  let (h, db) ← getIfExist Obj.asHash e db key
  match h with
  | .missing => some { db, reply := int 0 }
  | .wrong => some { db, reply := error errWrongType }
  | .found h => do
    let (v, h) ← Dict.find e.hash h field
    some { db := put e db key (.hash h), reply := int (if v.isSome then 1 else 0) }

/-- commandhash.go:94-115 -/
def hkeys (e : Env) (args : List Bytes) (db : Db) : Option Out := do
  let key ← args[1]?
  let (h, db) ← getIfExist Obj.asHash e db key
  match h with
  | .missing => some { db, reply := empty }
  | .wrong => some { db, reply := error errWrongType }
  | .found h => do
    let _ ← Dict.size h
    let (h, es) ← Dict.collect h
    some { db := put e db key (.hash h), reply := array (es.map Prod.fst) }

/-- commandhash.go:117-130 -/
def hlen (e : Env) (args : List Bytes) (db : Db) : Option Out := do
  let key ← args[1]?
  let (h, db) ← getIfExist Obj.asHash e db key
  match h with
  | .missing => some { db, reply := int 0 }
  | .wrong => some { db, reply := error errWrongType }
  | .found h => do
    let n ← Dict.size h
    some { db, reply := int n }

/-! ### server/commandset.go -/

/-- commandset.go:17-24: the loop of SADD. -/
def saddLoop (e : Env) : List Bytes → MSet Bytes → Nat → Option (MSet Bytes × Nat)
  | [], s, created => some (s, created)
  | m :: rest, s, created => do
    let (isNew, s) ← MSet.add e.hash s m
    saddLoop e rest s (if isNew then created + 1 else created)

/-- commandset.go:9-27 -/
def sadd (e : Env) (args : List Bytes) (db : Db) : Option Out := do
  let key ← args[1]?
  let (s, db) ← getOrNew Obj.asSet (.set MSet.new) e db key
  match s with
  | none => some { db, reply := error errWrongType }
  | some s => do
    let (s, created) ← saddLoop e (args.drop 2) s 0
    some { db := put e db key (.set s), dirty := (args.drop 2).length, reply := int created }

/-- commandset.go:41-47: the loop of SREM. -/
def sremLoop (e : Env) : List Bytes → MSet Bytes → Nat → Option (MSet Bytes × Nat)
  | [], s, deleted => some (s, deleted)
  | m :: rest, s, deleted => do
    let (err, s) ← MSet.delete e.hash s m
    sremLoop e rest s (if err.isNone then deleted + 1 else deleted)

/-- commandset.go:29-50 -/
def srem (e : Env) (args : List Bytes) (db : Db) : Option Out := do
  let key ← args[1]?
  let (s, db) ← getIfExist Obj.asSet e db key
  match s with
  | .missing => some { db, reply := int 0 }
  | .wrong => some { db, reply := error errWrongType }
  | .found s => do
    let (s, deleted) ← sremLoop e (args.drop 2) s 0
    some { db := put e db key (.set s), dirty := deleted, reply := int deleted }

/-- commandset.go:52-76 -/
def spop (e : Env) (args : List Bytes) (db : Db) : Option Out := do
  let key ← args[1]?
  let (s, db) ← getIfExist Obj.asSet e db key
  match s with
  | .missing => some { db, reply := null }
  | .wrong => some { db, reply := error errWrongType }
  | .found s => do
    let n ← MSet.size s
    if n = 0 then some { db, reply := null }
    else do
      let (r, s, _) ← MSet.getRandom e.hash s e.draws
      match r with
      | .entry m => do
        let (err, s) ← MSet.delete e.hash s m
        let db := put e db key (.set s)
        if err = some .notInitialized then some { db, reply := error b!"delete random member error: dict is not initialized" }
        else some { db, dirty := 1, reply := bulk m }
      | _ => none

/-- commandset.go:78-91 -/
def scard (e : Env) (args : List Bytes) (db : Db) : Option Out := do
  let key ← args[1]?
  let (s, db) ← getIfExist Obj.asSet e db key
  match s with
  | .missing => some { db, reply := int 0 }
  | .wrong => some { db, reply := error errWrongType }
  | .found s => do
    let n ← MSet.size s
    some { db, reply := int n }

/-- commandset.go:93-110 -/
def sismember (e : Env) (args : List Bytes) (db : Db) : Option Out := do
  let key ← args[1]?
  let m ← args[2]?
  let (s, db) ← getIfExist Obj.asSet e db key
  match s with
  | .missing => some { db, reply := int 0 }
  | .wrong => some { db, reply := error errWrongType }
  | .found s => do
    let (b, s) ← MSet.contains e.hash s m
    some { db := put e db key (.set s), reply := int (if b then 1 else 0) }

/-- commandset.go:112-125 -/
def smembers (e : Env) (args : List Bytes) (db : Db) : Option Out := do
  let key ← args[1]?
  let (s, db) ← getIfExist Obj.asSet e db key
  match s with
  | .missing => some { db, reply := empty }
  | .wrong => some { db, reply := error errWrongType }
  | .found s => do
    let (r, s) ← Reply.set s
    some { db := put e db key (.set s), reply := r }

/-- The local variable `set` of SDIFF/SINTER/SUNION: the set stored under a key, or a new one. -/
inductive Cur | stored (key : Bytes) (s : MSet Bytes) | fresh (s : MSet Bytes)

/-- The three commands differ in the method called and in what a missing further key does (`stopIfMissing`: SINTER). -/
structure SetOp where
  two : (Bytes → Nat) → MSet Bytes → MSet Bytes → Option (MSet Bytes × MSet Bytes × MSet Bytes)
  self : (Bytes → Nat) → MSet Bytes → Option (MSet Bytes × MSet Bytes)
  stopIfMissing : Bool

/-- `set = set.Op(set2)`, `set2` being the set stored under `key`. -/
def applyOp (op : SetOp) (e : Env) (db : Db) (cur : Cur) (key : Bytes) (s2 : MSet Bytes) : Option (Cur × Db) :=
  match cur with
  | .fresh s => do
    let (_, s2, r) ← op.two e.hash s s2
    some (.fresh r, put e db key (.set s2))
  | .stored k1 s =>
    if k1 = key then do
      let (s, r) ← op.self e.hash s
      some (.fresh r, put e db key (.set s))
    else do
      let (s, s2, r) ← op.two e.hash s s2
      some (.fresh r, put e (put e db key (.set s2)) k1 (.set s))

/-- commandset.go:137-148, 163-174, 189-200: the loop over the further keys; an early reply ends it. -/
def opLoop (op : SetOp) (e : Env) : List Bytes → Cur → Db → Option ((Cur ⊕ List Bytes) × Db)
  | [], cur, db => some (.inl cur, db)
  | key :: rest, cur, db => do
    let (s2, db) ← getIfExist Obj.asSet e db key
    match s2 with
    | .missing => if op.stopIfMissing then some (.inr empty, db) else opLoop op e rest cur db
    | .wrong => some (.inr (error errWrongType), db)
    | .found s2 => do
      let (cur, db) ← applyOp op e db cur key s2
      opLoop op e rest cur db

/-- commandset.go:127-203: SDIFF, SINTER, SUNION. -/
def setOpCmd (op : SetOp) (e : Env) (args : List Bytes) (db : Db) : Option Out := do
  let key ← args[1]?
  let (s, db) ← getIfExist Obj.asSet e db key
  match s with
  | .missing => some { db, reply := empty }
  | .wrong => some { db, reply := error errWrongType }
  | .found s => do
    let (r, db) ← opLoop op e (args.drop 2) (.stored key s) db
    match r with
    | .inr reply => some { db, reply }
    | .inl (.fresh s) => do
      let (reply, _) ← Reply.set s
      some { db, reply }
    | .inl (.stored k s) => do
      let (reply, s) ← Reply.set s
      some { db := put e db k (.set s), reply }

/-- commandset.go:127-151 -/
def sdiff := setOpCmd { two := MSet.difference, self := MSet.differenceSelf, stopIfMissing := false }
/-- commandset.go:153-177 -/
def sinter := setOpCmd { two := MSet.intersect, self := MSet.intersectSelf, stopIfMissing := true }
/-- commandset.go:179-203 -/
def sunion := setOpCmd { two := MSet.union, self := MSet.unionSelf, stopIfMissing := false }

/-! ### server/commandlist.go -/

/-- commandlist.go:18-21: the loop of LPUSH. -/
def lpushLoop : List Bytes → Quicklist Bytes → Option (Quicklist Bytes)
  | [], q => some q
  | v :: rest, q => do
    let q ← Quicklist.pushFront pageSize q v
    lpushLoop rest q

/-- commandlist.go:10-24; a wrong type is reported as "not exist" (commandlist.go:169). -/
def lpush (e : Env) (args : List Bytes) (db : Db) : Option Out := do
  let key ← args[1]?
  let (q, db) ← getOrNew Obj.asList (.list Quicklist.new) e db key
  match q with
  | none => some { db, reply := error errNotExist }
  | some q => do
    let q ← lpushLoop (args.drop 2) q
    some { db := put e db key (.list q), dirty := (args.drop 2).length, reply := int (Quicklist.len q) }

/-- commandlist.go:34-37: the loop of RPUSH. -/
def rpushLoop (vs : List Bytes) (q : Quicklist Bytes) : Quicklist Bytes := vs.foldl (Quicklist.pushBack pageSize) q

/-- commandlist.go:26-40 -/
def rpush (e : Env) (args : List Bytes) (db : Db) : Option Out := do
  let key ← args[1]?
  let (q, db) ← getOrNew Obj.asList (.list Quicklist.new) e db key
  match q with
  | none => some { db, reply := error errNotExist }
  | some q =>
    let q := rpushLoop (args.drop 2) q
    some { db := put e db key (.list q), dirty := (args.drop 2).length, reply := int (Quicklist.len q) }

/-- commandlist.go:42-61 (`pop = PopFront`) and 63-82 (`pop = PopBack`); a nil element fails the type assertion: panic. -/
def popCmd (pop : Quicklist Bytes → Option (Option Bytes × Quicklist Bytes)) (e : Env) (args : List Bytes) (db : Db) : Option Out := do
  let key ← args[1]?
  let (q, db) ← getIfExist Obj.asList e db key
  match q with
  | .missing => some { db, reply := null }
  | .wrong => some { db, reply := error errWrongType }
  | .found q =>
    if Quicklist.len q = 0 then some { db, reply := null }
    else do
      let (v, q) ← pop q
      let v ← v
      some { db := put e db key (.list q), dirty := 1, reply := bulk v }

/-- commandlist.go:42-61 -/
def lpop := popCmd Quicklist.popFront
/-- commandlist.go:63-82 -/
def rpop := popCmd Quicklist.popBack

/-- commandlist.go:84-97 -/
def llen (e : Env) (args : List Bytes) (db : Db) : Option Out := do
  let key ← args[1]?
  let (q, db) ← getIfExist Obj.asList e db key
  match q with
  | .missing => some { db, reply := int 0 }
  | .wrong => some { db, reply := error errWrongType }
  | .found q => some { db, reply := int (Quicklist.len q) }

/-- commandlist.go:99-122 -/
def lindex (e : Env) (args : List Bytes) (db : Db) : Option Out := do
  let key ← args[1]?
  let (q, db) ← getIfExist Obj.asList e db key
  match q with
  | .missing => some { db, reply := null }
  | .wrong => some { db, reply := error errWrongType }
  | .found q => do
    let a ← args[2]?
    match atoi a with
    | none => some { db, reply := invalid b!"index" a (e.atoiErr a) }
    | some i => do
      let v ← Quicklist.get q i
      match v with
      | none => some { db, reply := null }
      | some v => some { db, reply := bulk v }

/-- commandlist.go:124-157. `Range` returns nil exactly when it finds nothing (`values == nil`): null reply. -/
def lrange (e : Env) (args : List Bytes) (db : Db) : Option Out := do
  let key ← args[1]?
  let (q, db) ← getIfExist Obj.asList e db key
  match q with
  | .missing => some { db, reply := empty }
  | .wrong => some { db, reply := error errWrongType }
  | .found q => do
    let a ← args[2]?
    match atoi a with
    | none => some { db, reply := invalid b!"start" a (e.atoiErr a) }
    | some start => do
      let b ← args[3]?
      match atoi b with
      | none => some { db, reply := invalid b!"stop" b (e.atoiErr b) }
      | some stop => do
        let vs ← Quicklist.range q start stop
        if vs = [] then some { db, reply := null } else some { db, reply := array vs }

/-! ### server/commandzset.go -/

/-- commandzset.go:24-36: the loop of ZADD; `i` counts the pairs. The result has the pairs applied, how many were new, and the bad
score if one ended the loop. -/
def zaddLoop (e : Env) : List Bytes → Nat → Zset → Nat → Option (Zset × Nat × Nat × Option Bytes)
  | sc :: m :: rest, i, z, created =>
    match e.parseFloat sc with
    | none => some (z, i, created, some sc)
    | some score => do
      let (isNew, z) ← Zset.add e.hash z (e.level i) score m
      zaddLoop e rest (i + 1) z (if isNew then created + 1 else created)
  | _, i, z, created => some (z, i, created, none)

/-- commandzset.go:11-39 -/
def zadd (e : Env) (args : List Bytes) (db : Db) : Option Out :=
  if args.length % 2 ≠ 0 then some { db, reply := error b!"wrong number of arguments for 'zadd' command" }
  else do
    let key ← args[1]?
    let (z, db) ← getOrNew Obj.asZset (.zset Zset.new) e db key
    match z with
    | none => some { db, reply := error errWrongType }
    | some z => do
      let (z, n, created, bad) ← zaddLoop e (args.drop 2) 0 z 0
      let db := put e db key (.zset z)
      match bad with
      | some sc => some { db, dirty := n, reply := invalid b!"score" sc (e.floatErr sc) }
      | none => some { db, dirty := n, reply := int created }

/-- commandzset.go:41-54 -/
def zcard (e : Env) (args : List Bytes) (db : Db) : Option Out := do
  let key ← args[1]?
  let (z, db) ← getIfExist Obj.asZset e db key
  match z with
  | .missing => some { db, reply := int 0 }
  | .wrong => some { db, reply := error errWrongType }
  | .found z => some { db, reply := int (Zset.size z) }

/-- commandzset.go:56-77 -/
def zscore (e : Env) (args : List Bytes) (db : Db) : Option Out := do
  let key ← args[1]?
  let (z, db) ← getIfExist Obj.asZset e db key
  match z with
  | .missing => some { db, reply := null }
  | .wrong => some { db, reply := error errWrongType }
  | .found z => do
    let m ← args[2]?
    let (el, z) ← Zset.get e.hash z m
    let db := put e db key (.zset z)
    match el with
    | none => some { db, reply := null }
    | some el => some { db, reply := simple (e.fmtFloat el.score) }

/-- commandzset.go:79-104 -/
def zcount (e : Env) (args : List Bytes) (db : Db) : Option Out := do
  let key ← args[1]?
  let a ← args[2]?
  match e.parseFloat a with
  | none => some { db, reply := invalid b!"min" a (e.floatErr a) }
  | some min => do
    let b ← args[3]?
    match e.parseFloat b with
    | none => some { db, reply := invalid b!"max" b (e.floatErr b) }
    | some max => do
      let (z, db) ← getIfExist Obj.asZset e db key
      match z with
      | .missing => some { db, reply := int 0 }
      | .wrong => some { db, reply := error errWrongType }
      | .found z => do
        let n ← Zset.count z min max
        some { db, reply := int n }

/-- commandzset.go:106-131 -/
def zrange (e : Env) (args : List Bytes) (db : Db) : Option Out := do
  let key ← args[1]?
  let a ← args[2]?
  match atoi a with
  | none => some { db, reply := invalid b!"start" a (e.intErr a) }
  | some start => do
    let b ← args[3]?
    match atoi b with
    | none => some { db, reply := invalid b!"stop" b (e.intErr b) }
    | some stop => do
      let (z, db) ← getIfExist Obj.asZset e db key
      match z with
      | .missing => some { db, reply := null }
      | .wrong => some { db, reply := error errWrongType }
      | .found z => do
        let (els, z) ← Zset.rangeByRank e.hash z start stop false
        let reply ← Reply.zset e args els
        some { db := put e db key (.zset z), reply }

/-- commandzset.go:133-158 -/
def zrangeByScore (e : Env) (args : List Bytes) (db : Db) : Option Out := do
  let key ← args[1]?
  let a ← args[2]?
  match e.parseFloat a with
  | none => some { db, reply := invalid b!"start" a (e.floatErr a) }
  | some min => do
    let b ← args[3]?
    match e.parseFloat b with
    | none => some { db, reply := invalid b!"start" b (e.floatErr b) }
    | some max => do
      let (z, db) ← getIfExist Obj.asZset e db key
      match z with
      | .missing => some { db, reply := null }
      | .wrong => some { db, reply := error errWrongType }
      | .found z => do
        let (els, z) ← Zset.rangeByScore e.hash z min max (-1) false
        let reply ← Reply.zset e args els
        some { db := put e db key (.zset z), reply }

/-- commandzset.go:173-178: the loop of ZREM. -/
def zremLoop (e : Env) : List Bytes → Zset → Nat → Option (Zset × Nat)
  | [], z, deleted => some (z, deleted)
  | m :: rest, z, deleted => do
    let (b, z) ← Zset.delete e.hash z m
    zremLoop e rest z (if b then deleted + 1 else deleted)

/-- commandzset.go:160-181 -/
def zrem (e : Env) (args : List Bytes) (db : Db) : Option Out := do
  let key ← args[1]?
  let (z, db) ← getIfExist Obj.asZset e db key
  match z with
  | .missing => some { db, reply := int 0 }
  | .wrong => some { db, reply := error errWrongType }
  | .found z => do
    let (z, deleted) ← zremLoop e (args.drop 2) z 0
    some { db := put e db key (.zset z), dirty := deleted, reply := int deleted }

/-- commandzset.go:183-209 -/
def zremRangeByRank (e : Env) (args : List Bytes) (db : Db) : Option Out := do
  let key ← args[1]?
  let a ← args[2]?
  match atoi a with
  | none => some { db, reply := invalid b!"start" a (e.intErr a) }
  | some start => do
    let b ← args[3]?
    match atoi b with
    | none => some { db, reply := invalid b!"start" b (e.intErr b) }
    | some stop => do
      let (z, db) ← getIfExist Obj.asZset e db key
      match z with
      | .missing => some { db, reply := int 0 }
      | .wrong => some { db, reply := error errWrongType }
      | .found z => do
        let (els, z) ← Zset.deleteRangeByRank e.hash z start stop
        some { db := put e db key (.zset z), dirty := els.length, reply := int els.length }

/-- commandzset.go:211-237 -/
def zremRangeByScore (e : Env) (args : List Bytes) (db : Db) : Option Out := do
  let key ← args[1]?
  let a ← args[2]?
  match e.parseFloat a with
  | none => some { db, reply := invalid b!"start" a (e.floatErr a) }
  | some min => do
    let b ← args[3]?
    match e.parseFloat b with
    | none => some { db, reply := invalid b!"start" b (e.floatErr b) }
    | some max => do
      let (z, db) ← getIfExist Obj.asZset e db key
      match z with
      | .missing => some { db, reply := int 0 }
      | .wrong => some { db, reply := error errWrongType }
      | .found z => do
        let (els, z) ← Zset.deleteRangeByScore e.hash z min max
        some { db := put e db key (.zset z), dirty := els.length, reply := int els.length }

end Cmds
end Metis
