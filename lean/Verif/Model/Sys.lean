import Verif.Model.Server
/-!
Model of the server with its connections: server/server.go `acceptTCPHandler`, `databasesCron`, server/client.go `NewClient`, `free`,
and the order in which the event loop lets them run. One event is one callback's work for one client, or one run of the cron.
-/
namespace Metis

/-- server/server.go:277-294, the sampling of one database; `fuel` counts the remaining turns. `none` as a result of `GetRandomKey`
that waits for more random numbers is `none` here. -/
def cronDb (e : Env) : Nat → List Nat → Db → Option (Db × List Nat)
  | 0, draws, db => some (db, draws)
  | fuel + 1, draws, db => do
    let (r, x, draws) ← Dict.getRandomKey e.hash db.expire draws
    let db := { db with expire := x }
    match r with
    | .nil => some (db, draws)
    | .spin => none
    | .entry (k, deadline) =>
      if deadline < e.now then do
        let (_, d) ← Dict.delete e.hash db.dict k
        let (_, x) ← Dict.delete e.hash db.expire k
        cronDb e fuel draws { dict := d, expire := x }
      else cronDb e fuel draws db

/-- server/server.go:23 `checkExpireEntryCount` -/
def checkExpireEntryCount : Nat := 100

/-- server/server.go:276-295, the loop over the databases. -/
def cronDbs (e : Env) : List Nat → List Db → Option (List Db)
  | _, [] => some []
  | draws, db :: rest => do
    let (db, draws) ← cronDb e checkExpireEntryCount draws db
    let rest ← cronDbs e draws rest
    some (db :: rest)

/-- server/server.go:274-296 `databasesCron`. -/
def databasesCron (e : Env) (srv : Server) : Option Server := do
  let dbs ← cronDbs e e.draws srv.dbs
  some { srv with dbs }

/-- server/server.go:65-107 `NewServer`: the databases and an empty log buffer. -/
def Server.init (n : Nat) (password : Bytes) (aof : Bool) : Server :=
  { dbs := List.replicate n Db.new, password, dirty := 0, task := .none, aofEnable := aof, aofSelect := 0, aofBuf := [],
    aofRewriteBuf := [], snapshot := none }

/-- server/client.go:42-50 `NewClient`; `srv.dbs[0]` panics if there is no database. -/
def Session.new : Session := { db := 0, auth := false }

/-- The server and its connections (`srv.clients`), by file descriptor. -/
structure Sys where
  srv  : Server
  sess : Nat → Option Session

inductive Event
  /-- server/server.go:151-177 `acceptTCPHandler` -/
  | connect (fd : Nat)
  /-- server/client.go:182-196 `free` -/
  | close (fd : Nat)
  /-- a complete request: server/command.go:105 `processCommand` -/
  | request (fd : Nat) (e : Env) (args : List Bytes)
  /-- server/server.go:254 -/
  | cron (e : Env)

namespace Sys

/-- One event; the result includes the reply to a request. A request on a closed connection cannot happen. -/
def step (s : Sys) : Event → Option (Sys × List Bytes)
  | .connect fd =>
    if s.srv.dbs.length = 0 then none
    else some ({ s with sess := fun x => if x = fd then some Session.new else s.sess x }, [])
  | .close fd => some ({ s with sess := fun x => if x = fd then none else s.sess x }, [])
  | .request fd e args => do
    let c ← s.sess fd
    let (srv, c, r) ← Server.processCommand e args s.srv c
    some ({ srv, sess := fun x => if x = fd then some c else s.sess x }, r)
  | .cron e => do
    let srv ← databasesCron e s.srv
    some ({ s with srv }, [])

/-- A history. -/
def run (s : Sys) : List Event → Option (Sys × List (List Bytes))
  | [] => some (s, [])
  | ev :: rest => do
    let (s, r) ← step s ev
    let (s, rs) ← run s rest
    some (s, r :: rs)

/-- The server right after its start. -/
def init (n : Nat) (password : Bytes) (aof : Bool) : Sys := { srv := .init n password aof, sess := fun _ => none }

end Sys
end Metis
