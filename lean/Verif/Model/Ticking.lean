import Verif.Model.Sys
/-!
A clock that moves while a command runs. `Model/Commands.lean` gives a command one time, `e.now`. In the code KEYS (commandkey.go:85), RANDOMGET (commandstring.go:63) and SDIFF, SINTER and SUNION (commandset.go:128, 138, 154, 164, 180, 190) look at the clock once for each key that has a deadline, the timer (server.go:290) once for each key
that it samples, and EXPIRE and SETEX once for the database (commandkey.go:19, commandstring.go:26) and once more for the log (aof.go:67). All
other commands read the clock at most once. Here `clk i` is the time of the i-th turn of the loop that reads the clock; `e.now` is not used.
-/
namespace Metis
namespace Ticking
open Db Reply Cmds

/-- The readings of the clock during one command. -/
abbrev Clock := Nat → Int

/-- The surroundings of a command at a given time. -/
def atTime (e : Env) (t : Int) : Env := { e with now := t }

/-- commandkey.go:69-94: one turn of the loop of KEYS, the number of the turn counted along. -/
def keysBody (clk : Clock) (e : Env) (pattern : Bytes) (entry : Bytes × Obj) (d : Dict Bytes Obj) (st : (Dict Bytes Int × List Bytes × Bool) × Nat) :
    Option (Dict Bytes Obj × ((Dict Bytes Int × List Bytes × Bool) × Nat)) := do
  let (d, r) ← Cmds.keysBody (atTime e (clk st.2)) pattern entry d st.1
  some (d, (r, st.2 + 1))

/-- commandkey.go:62-97, simplified as `Cmds.keys`. -/
def keys (clk : Clock) (e : Env) (args : List Bytes) (db : Db) : Option Out := do
  let pattern ← args[1]?
  let (d, ((ex, ks, bad), _)) ← Dict.forEach db.dict ((db.expire, [], false), 0) (keysBody clk e pattern)
  let db := { dict := d, expire := ex }
  if bad then some { db, reply := invalid b!"pattern" pattern (e.regexpErr pattern) }
  else some { db, reply := array ks }

/-- commandstring.go:57-71; `i` is the number of the turn. -/
def randomLoop (clk : Clock) (e : Env) : Nat → Nat → List Nat → Db → Option Out
  | 0, _, _, _ => none
  | fuel + 1, i, draws, db => do
    let (r, d, draws) ← Dict.getRandomKey e.hash db.dict draws
    let db := { db with dict := d }
    match r with
    | .nil => some { db, reply := null }
    | .spin => none
    | .entry (k, _) => do
      let (expired, db) ← expireIfNeeded (atTime e (clk i)) db k
      if expired then randomLoop clk e fuel (i + 1) draws db else some { db, reply := bulk k }

/-- commandstring.go:55-80 -/
def randomGet (clk : Clock) (e : Env) (_ : List Bytes) (db : Db) : Option Out := randomLoop clk e (e.draws.length + 1) 0 e.draws db

/-- A set whose key was removed from the database is no longer stored there, although the command goes on with it (commandset.go:128, 138: `set` is
a pointer; server/command.go:85). At one moment that cannot happen. -/
def lost (key : Bytes) : Cur → Cur
  | .stored k s => if k = key then .fresh s else .stored k s
  | .fresh s => .fresh s

/-- commandset.go:137-148, 163-174, 189-200; `i` is the number of the key. -/
def opLoop (clk : Clock) (op : SetOp) (e : Env) : Nat → List Bytes → Cur → Db → Option ((Cur ⊕ List Bytes) × Db)
  | _, [], cur, db => some (.inl cur, db)
  | i, key :: rest, cur, db => do
    let (s2, db) ← getIfExist Obj.asSet (atTime e (clk i)) db key
    match s2 with
    | .missing => if op.stopIfMissing then some (.inr empty, db) else opLoop clk op e (i + 1) rest (lost key cur) db
    | .wrong => some (.inr (error errWrongType), db)
    | .found s2 => do
      let (cur, db) ← applyOp op e db cur key s2
      opLoop clk op e (i + 1) rest cur db

/-- commandset.go:127-203: SDIFF, SINTER, SUNION. -/
def setOpCmd (op : SetOp) (clk : Clock) (e : Env) (args : List Bytes) (db : Db) : Option Out := do
  let key ← args[1]?
  let (s, db) ← getIfExist Obj.asSet (atTime e (clk 0)) db key
  match s with
  | .missing => some { db, reply := empty }
  | .wrong => some { db, reply := error errWrongType }
  | .found s => do
    let (r, db) ← opLoop clk op e 1 (args.drop 2) (.stored key s) db
    match r with
    | .inr reply => some { db, reply }
    | .inl (.fresh s) => do
      let (reply, _) ← Reply.set s
      some { db, reply }
    | .inl (.stored k s) => do
      let (reply, s) ← Reply.set s
      some { db := put e db k (.set s), reply }

/-- commandset.go:127-151 -/
def sdiff := setOpCmd { two := MSet.difference, self := MSet.differenceSelf, stopIfMissing := false }
/-- commandset.go:153-177 -/
def sinter := setOpCmd { two := MSet.intersect, self := MSet.intersectSelf, stopIfMissing := true }
/-- commandset.go:179-203 -/
def sunion := setOpCmd { two := MSet.union, self := MSet.unionSelf, stopIfMissing := false }

/-- `cmd.proc(client)` -/
def proc (clk : Clock) : Cmd → Env → List Bytes → Server → Session → Option (Server × Session × List Bytes)
  | .keys => Server.onDb (keys clk)
  | .randomget => Server.onDb (randomGet clk)
  | .sdiff => Server.onDb (sdiff clk)
  | .sinter => Server.onDb (sinter clk)
  | .sunion => Server.onDb (sunion clk)
  | c => fun e => Server.proc c (atTime e (clk 0))

/-- server/command.go:130-142 `call`. The log takes a second reading (only EXPIRE and SETEX look at it, which have made one before). -/
def call (clk : Clock) (e : Env) (cmd : CmdEntry) (args : List Bytes) (srv : Server) (s : Session) :
    Option (Server × Session × List Bytes) := do
  let (srv', s', r) ← proc clk cmd.proc e args srv s
  if srv'.aofEnable ∧ srv'.dirty - srv.dirty ≠ 0 then do
    let srv' ← Aof.feed (atTime e (clk 1)) cmd.name s'.db args srv'
    some (srv', s', r)
  else some (srv', s', r)

/-- server/command.go:105-127 `processCommand`. -/
def processCommand (clk : Clock) (e : Env) (args : List Bytes) (srv : Server) (s : Session) : Option (Server × Session × List Bytes) := do
  let a0 ← args[0]?
  let name := e.lower a0
  match lookupCommand name with
  | none => some (srv, s, Reply.error b!"unknown command")
  | some cmd =>
    if Server.badArity args.length cmd.arity then some (srv, s, Reply.error b!"wrong number of arguments")
    else if srv.password ≠ [] ∧ s.auth = false ∧ name ≠ b!"auth" then some (srv, s, Reply.error b!"operation not permitted")
    else call clk e cmd args srv s

/-- server/server.go:277-294; `i` is the number of keys sampled before. -/
def cronDb (clk : Clock) (e : Env) : Nat → Nat → List Nat → Db → Option (Db × List Nat × Nat)
  | 0, i, draws, db => some (db, draws, i)
  | fuel + 1, i, draws, db => do
    let (r, x, draws) ← Dict.getRandomKey e.hash db.expire draws
    let db := { db with expire := x }
    match r with
    | .nil => some (db, draws, i)
    | .spin => none
    | .entry (k, deadline) =>
      if deadline < clk i then do
        let (_, d) ← Dict.delete e.hash db.dict k
        let (_, x) ← Dict.delete e.hash db.expire k
        cronDb clk e fuel (i + 1) draws { dict := d, expire := x }
      else cronDb clk e fuel (i + 1) draws db

/-- server/server.go:276-295, the loop over the databases. -/
def cronDbs (clk : Clock) (e : Env) : Nat → List Nat → List Db → Option (List Db)
  | _, _, [] => some []
  | i, draws, db :: rest => do
    let (db, draws, i) ← cronDb clk e checkExpireEntryCount i draws db
    let rest ← cronDbs clk e i draws rest
    some (db :: rest)

/-- An event with the readings of the clock during it. -/
inductive Event
  /-- server/server.go:151-177 `acceptTCPHandler` -/
  | connect (fd : Nat)
  /-- server/client.go:182-196 `free` -/
  | close (fd : Nat)
  /-- a complete request: server/command.go:105 `processCommand` -/
  | request (fd : Nat) (e : Env) (clk : Clock) (args : List Bytes)
  /-- server/server.go:254 -/
  | cron (e : Env) (clk : Clock)

/-- One event, as `Sys.step`. -/
def step (s : Sys) : Event → Option (Sys × List Bytes)
  | .connect fd => Sys.step s (.connect fd)
  | .close fd => Sys.step s (.close fd)
  | .request fd e clk args => do
    let c ← s.sess fd
    let (srv, c, r) ← processCommand clk e args s.srv c
    some ({ srv, sess := fun x => if x = fd then some c else s.sess x }, r)
  | .cron e clk => do
    let dbs ← cronDbs clk e 0 e.draws s.srv.dbs
    some ({ s with srv := { s.srv with dbs } }, [])

/-- A history. -/
def run (s : Sys) : List Event → Option (Sys × List (List Bytes))
  | [] => some (s, [])
  | ev :: rest => do
    let (s, r) ← step s ev
    let (s, rs) ← run s rest
    some (s, r :: rs)

end Ticking
end Metis
