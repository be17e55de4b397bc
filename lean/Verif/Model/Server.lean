import Verif.Model.Commands
/-!
Model of server/command.go (command table, `processCommand`, `call`), server/commandconnection.go, server/commandserver.go and of
the functions of server/aof.go that the execution of a command calls.
-/
namespace Metis

/-- The procedures of the command table. -/
inductive Cmd
  | ping | select | auth | bgrewriteaof | expire | expireat | ttl | keys | set | setex | get | randomget
  | hset | hget | hdel | hexists | hkeys | hlen | lpush | rpush | lpop | rpop | llen | lindex | lrange
  | sadd | srem | spop | scard | sismember | smembers | sdiff | sinter | sunion
  | zadd | zrange | zrangebyscore | zrem | zremrangebyrank | zremrangebyscore | zcard | zcount | zscore
deriving DecidableEq, Repr

/-- server/command.go:15-19 -/
structure CmdEntry where
  name  : Bytes
  proc  : Cmd
  arity : Int

/-- server/command.go:21-74 `commandTable`. -/
def commandTable : List CmdEntry :=
  [⟨b!"ping", .ping, 1⟩, ⟨b!"select", .select, 2⟩, ⟨b!"auth", .auth, 2⟩,
   ⟨b!"bgrewriteaof", .bgrewriteaof, 1⟩,
   ⟨b!"expire", .expire, 3⟩, ⟨b!"expireat", .expireat, 3⟩, ⟨b!"ttl", .ttl, 2⟩, ⟨b!"keys", .keys, 2⟩,
   ⟨b!"set", .set, -3⟩, ⟨b!"setex", .setex, 4⟩, ⟨b!"get", .get, 2⟩, ⟨b!"randomget", .randomget, 1⟩,
   ⟨b!"hset", .hset, -4⟩, ⟨b!"hget", .hget, 3⟩, ⟨b!"hdel", .hdel, -3⟩, ⟨b!"hexists", .hexists, 3⟩,
   ⟨b!"hkeys", .hkeys, 2⟩, ⟨b!"hlen", .hlen, 2⟩,
   ⟨b!"lpush", .lpush, -3⟩, ⟨b!"rpush", .rpush, -3⟩, ⟨b!"lpop", .lpop, 2⟩, ⟨b!"rpop", .rpop, 2⟩,
   ⟨b!"llen", .llen, 2⟩, ⟨b!"lindex", .lindex, 3⟩, ⟨b!"lrange", .lrange, -4⟩,
   ⟨b!"sadd", .sadd, -3⟩, ⟨b!"srem", .srem, -3⟩, ⟨b!"spop", .spop, 2⟩, ⟨b!"scard", .scard, 2⟩,
   ⟨b!"sismember", .sismember, 3⟩, ⟨b!"smembers", .smembers, 2⟩, ⟨b!"sdiff", .sdiff, -3⟩, ⟨b!"sinter", .sinter, -3⟩,
   ⟨b!"sunion", .sunion, -3⟩,
   ⟨b!"zadd", .zadd, -4⟩, ⟨b!"zrange", .zrange, -4⟩, ⟨b!"zrangebyscore", .zrangebyscore, -4⟩, ⟨b!"zrem", .zrem, -3⟩,
   ⟨b!"zremrangebyrank", .zremrangebyrank, -4⟩, ⟨b!"zremrangebyscore", .zremrangebyscore, -4⟩, ⟨b!"zcard", .zcard, 2⟩,
   ⟨b!"zcount", .zcount, 4⟩, ⟨b!"zscore", .zscore, 3⟩]

/-- server/command.go:95-103 `lookupCommand`. -/
def lookupCommand (name : Bytes) : Option CmdEntry := commandTable.find? (fun c => c.name == name)

/-- server/server.go:28-34 -/
inductive Task | none | rdb | aofRewrite
deriving DecidableEq, Repr

/-- The fields of server/server.go:36-63 `Server` that commands read or write. -/
structure Server where
  dbs       : List Db
  password  : Bytes
  dirty     : Int
  task      : Task
  aofEnable : Bool
  aofSelect : Nat
  aofBuf    : Bytes
  aofRewriteBuf : Bytes
  /-- the copies on which the goroutine started by `rewriteAppendOnlyFileBackground` works -/
  snapshot  : Option (List Db)

/-- The fields of server/client.go:27-40 `Client` that commands read or write; `db` is the position in `srv.dbs`. -/
structure Session where
  db   : Nat
  auth : Bool
deriving DecidableEq, Repr

namespace Server

/-- `client.db`, used by a command procedure. -/
def onDb (f : Env → List Bytes → Db → Option Out) (e : Env) (args : List Bytes) (srv : Server) (s : Session) :
    Option (Server × Session × List Bytes) := do
  let db ← srv.dbs[s.db]?
  let o ← f e args db
  some ({ srv with dbs := srv.dbs.set s.db o.db, dirty := srv.dirty + o.dirty }, s, o.reply)

/-- server/commandconnection.go:9-22; a negative index panics. -/
def select (e : Env) (args : List Bytes) (srv : Server) (s : Session) : Option (Server × Session × List Bytes) := do
  let a ← args[1]?
  match atoi a with
  | none => some (srv, s, Reply.error (e.atoiErr a))
  | some i =>
    if i ≥ (srv.dbs.length : Int) then some (srv, s, Reply.error b!"invalid db index")
    else if i < 0 then none
    else some (srv, { s with db := i.toNat }, Reply.ok)

/-- server/commandconnection.go:24-33; `args[1]` is only evaluated if a password is set. -/
def auth (_ : Env) (args : List Bytes) (srv : Server) (s : Session) : Option (Server × Session × List Bytes) :=
  if srv.password = [] then some (srv, { s with auth := true }, Reply.ok)
  else do
    let a ← args[1]?
    if srv.password = a then some (srv, { s with auth := true }, Reply.ok)
    else some (srv, { s with auth := false }, Reply.error b!"invalid password")

/-- database/database.go:21-27 `DeepCopy`: the original (which is iterated) and the copy. Collections are shared by pointer. -/
def copyDb (e : Env) (db : Db) : Option (Db × Db) := do
  let (d, d') ← Dict.deepCopy e.hash db.dict
  let (x, x') ← Dict.deepCopy e.hash db.expire
  some ({ dict := d, expire := x }, { dict := d', expire := x' })

/-- server/aof.go:223-226 -/
def copyAll (e : Env) : List Db → Option (List Db × List Db)
  | [] => some ([], [])
  | db :: rest => do
    let (o, c) ← copyDb e db
    let (os, cs) ← copyAll e rest
    some (o :: os, c :: cs)

/-- server/aof.go:218-229 `rewriteAppendOnlyFileBackground`. -/
def startRewrite (e : Env) (srv : Server) : Option Server :=
  if srv.task ≠ .none then some srv
  else do
    let (os, cs) ← copyAll e srv.dbs
    some { srv with task := .aofRewrite, dbs := os, snapshot := some cs }

/-- server/commandserver.go:3-13 -/
def bgRewriteAof (e : Env) (_ : List Bytes) (srv : Server) (s : Session) : Option (Server × Session × List Bytes) :=
  if srv.task ≠ .none then some (srv, s, Reply.simple b!"Background append only file rewriting scheduled")
  else do
    let srv ← startRewrite e srv
    some (srv, s, Reply.simple b!"Background append only file rewriting started")

/-- `cmd.proc(client)` -/
def proc : Cmd → Env → List Bytes → Server → Session → Option (Server × Session × List Bytes)
  | .ping => onDb Cmds.ping
  | .select => select
  | .auth => auth
  | .bgrewriteaof => bgRewriteAof
  | .expire => onDb Cmds.expire
  | .expireat => onDb Cmds.expireAt
  | .ttl => onDb Cmds.ttl
  | .keys => onDb Cmds.keys
  | .set => onDb Cmds.set
  | .setex => onDb Cmds.setEx
  | .get => onDb Cmds.get
  | .randomget => onDb Cmds.randomGet
  | .hset => onDb Cmds.hset
  | .hget => onDb Cmds.hget
  | .hdel => onDb Cmds.hdel
  | .hexists => onDb Cmds.hexists
  | .hkeys => onDb Cmds.hkeys
  | .hlen => onDb Cmds.hlen
  | .lpush => onDb Cmds.lpush
  | .rpush => onDb Cmds.rpush
  | .lpop => onDb Cmds.lpop
  | .rpop => onDb Cmds.rpop
  | .llen => onDb Cmds.llen
  | .lindex => onDb Cmds.lindex
  | .lrange => onDb Cmds.lrange
  | .sadd => onDb Cmds.sadd
  | .srem => onDb Cmds.srem
  | .spop => onDb Cmds.spop
  | .scard => onDb Cmds.scard
  | .sismember => onDb Cmds.sismember
  | .smembers => onDb Cmds.smembers
  | .sdiff => onDb Cmds.sdiff
  | .sinter => onDb Cmds.sinter
  | .sunion => onDb Cmds.sunion
  | .zadd => onDb Cmds.zadd
  | .zrange => onDb Cmds.zrange
  | .zrangebyscore => onDb Cmds.zrangeByScore
  | .zrem => onDb Cmds.zrem
  | .zremrangebyrank => onDb Cmds.zremRangeByRank
  | .zremrangebyscore => onDb Cmds.zremRangeByScore
  | .zcard => onDb Cmds.zcard
  | .zcount => onDb Cmds.zcount
  | .zscore => onDb Cmds.zscore

end Server

namespace Aof

/-- server/aof.go:83-89, one argument. -/
def catArg (a : Bytes) : Bytes := 36 :: itoa a.length ++ [13, 10] ++ a ++ [13, 10]

/-- server/aof.go:76-92 `catAppendOnlyGenericCommand`. -/
def cat (args : List Bytes) : Bytes := 42 :: itoa args.length ++ [13, 10] ++ (args.map catArg).flatten

/-- server/aof.go:61-73 `catAppendOnlyExpireCommand`; the time is in whole seconds. A bad number is `log.Fatal`. -/
def catExpire (e : Env) (args : List Bytes) : Option Bytes := do
  let a ← args[2]?
  let n ← atoi a
  some (cat ((args.set 0 b!"expireat").set 2 (itoa (wrap64 (e.now / 1000 + n)))))

/-- server/aof.go:38-50, the record of the command. -/
def record (e : Env) (name : Bytes) (args : List Bytes) : Option Bytes :=
  if name = b!"expire" then catExpire e args
  else if name = b!"setex" then do
    let k ← args[1]?
    let v ← args[3]?
    let n ← args[2]?
    let x ← catExpire e [b!"expireat", k, n]
    some (cat [b!"set", k, v] ++ x)
  else some (cat args)

/-- server/aof.go:29-57 `feedAppendOnlyFile`. -/
def feed (e : Env) (name : Bytes) (dbId : Nat) (args : List Bytes) (srv : Server) : Option Server := do
  let sel := if srv.aofSelect ≠ dbId then cat [b!"select", itoa dbId] else []
  let body ← record e name args
  some { srv with
    aofSelect := dbId
    aofBuf := srv.aofBuf ++ (sel ++ body)
    aofRewriteBuf := if srv.task = .aofRewrite then srv.aofRewriteBuf ++ (sel ++ body) else srv.aofRewriteBuf }

end Aof

namespace Server

/-- server/command.go:130-142 `call`. `addReply` fails only if the event loop refuses the event; not modelled here. -/
def call (e : Env) (cmd : CmdEntry) (args : List Bytes) (srv : Server) (s : Session) :
    Option (Server × Session × List Bytes) := do
  let (srv', s', r) ← proc cmd.proc e args srv s
  if srv'.aofEnable ∧ srv'.dirty - srv.dirty ≠ 0 then do
    let srv' ← Aof.feed e cmd.name s'.db args srv'
    some (srv', s', r)
  else some (srv', s', r)

/-- server/command.go:113 -/
def badArity (n : Nat) (arity : Int) : Bool := decide ((arity > 0 ∧ (n : Int) ≠ arity) ∨ (n : Int) < -arity)

/-- server/command.go:105-127 `processCommand`. -/
def processCommand (e : Env) (args : List Bytes) (srv : Server) (s : Session) : Option (Server × Session × List Bytes) := do
  let a0 ← args[0]?
  let name := e.lower a0
  match lookupCommand name with
  | none => some (srv, s, Reply.error b!"unknown command")
  | some cmd =>
    if badArity args.length cmd.arity then some (srv, s, Reply.error b!"wrong number of arguments")
    else if srv.password ≠ [] ∧ s.auth = false ∧ name ≠ b!"auth" then some (srv, s, Reply.error b!"operation not permitted")
    else call e cmd args srv s

end Server
end Metis
