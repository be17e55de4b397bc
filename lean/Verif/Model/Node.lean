import Verif.Model.Rewrite
import Verif.Model.Net
/-!
Model of the running process: the server with its connections, the append-only file on disk, the goroutine that rewrites it, and the order in
which the event loop lets them act (ae/ae.go:164-207 `Main`, `processEvents`; server/server.go:251-303; server/aof.go:94-133, 218-283, 369-412).

One turn of the loop: the log buffer is written to the file, `epoll_wait` tells which descriptors are ready, the timers run (`serverCron`), then
the callbacks of the file events. The goroutine may work at any time between these steps.

The copies that `DeepCopy` makes share the collections with the server. The goroutine may walk along a hash or a set while the server goes on
changing it: such a loop has a beginning and an end (`Pace.enter`, `Pace.collect`), and between them the server may do anything. What the loop has collected then is
right for the fields that have not changed since it began, in any order, and can be anything for the others (`loose`); what the loops of
datastruct/dict.go really collect is the subject of Model/Shared.lean and C97, C98.

Simplifications. The goroutine writes a string, a list or a sorted set in one step, as it is at that moment. The beginning and the end of a loop
do not fall into the execution of a request, and such a loop is not counted in the dict, so that it does not hold up the rehash (which only the order of
iterations and random choices depend on). `File.Sync` of the policy everysec, which runs in a goroutine of its own, is
done as soon as it is requested. Writes to the file succeed. `mv` succeeds at once.
-/
namespace Metis

/-- config/config.go:22-24 -/
inductive Policy | always | everysec | no
deriving DecidableEq, Repr

/-- server/server.go:36-63, the fields set from the configuration; `uint` has 64 bits. -/
structure Conf where
  percent : UInt64
  minSize : UInt64
  policy  : Policy
deriving DecidableEq, Repr

/-- A chore of the goroutine; `shared`: the server still has the same object under the key; `stale`: a loop over the fields has begun, and these
have got another value since. -/
structure Todo where
  chore  : Aof.Chore
  shared : Bool
  stale  : Option (Bytes → Bool)

/-- A goroutine that executes server/aof.go:231-283 `rewriteAppendOnlyFile`: what it has still to do, and the temporary file. -/
structure Job where
  todo : List Todo
  tmp  : Bytes

/-- Where the event loop is; the function tells which descriptors `epoll_wait` was asked to watch for writing and have not had their turn. -/
inductive Phase
  | idle
  | timers (w : Nat → Bool)
  | files (w : Nat → Bool)

structure Node where
  sys  : Sys
  net  : Net.Net
  conf : Conf
  /-- the append-only file -/
  file : Bytes
  /-- how many bytes of it have been synced -/
  synced : Nat
  /-- `aofCurrentSize` -/
  cur  : UInt64
  /-- `aofRewriteBaseSize` -/
  base : UInt64
  /-- `aofLastFsyncTime` in nanoseconds; `none` is the zero time -/
  lastSync : Option Int
  jobs : List Job
  /-- `aofRewriteDoneCh`, of capacity 1; a temporary file is represented by its contents -/
  done : List Bytes
  phase : Phase

namespace Node

/-- server/server.go:65-107 `NewServer` and the state before the event loop starts, for a file and a server that has been loaded from it. -/
def start (conf : Conf) (file : Bytes) (srv : Server) : Node :=
  { sys := ⟨srv, fun _ => none⟩, net := .new, conf, file, synced := 0, cur := if srv.aofEnable then UInt64.ofNat file.length else 0, base := 0,
    lastSync := none, jobs := [], done := [], phase := .idle }

/-- The first start: the file does not exist yet. -/
def boot (n : Nat) (password : Bytes) (aof : Bool) (conf : Conf) : Node := start conf [] (Server.init n password aof)

/-- server/aof.go:114-133 `aofFileSync`; `t` is the time in nanoseconds. -/
def sync (t : Int) (n : Node) : Node :=
  match n.conf.policy with
  | .always => { n with synced := n.file.length, lastSync := some t }
  | .everysec =>
    match n.lastSync with
    | none => { n with synced := n.file.length, lastSync := some t }
    | some l => if t - l > 1000000000 then { n with synced := n.file.length, lastSync := some t } else n
  | .no => n

/-- server/aof.go:94-111 `flushAppendOnlyFile` -/
def flush (t : Int) (n : Node) : Node :=
  if n.sys.srv.aofBuf = [] then n
  else sync t { n with
    file := n.file ++ n.sys.srv.aofBuf
    cur := n.cur + UInt64.ofNat n.sys.srv.aofBuf.length
    sys := { n.sys with srv := { n.sys.srv with aofBuf := [] } } }

/-- The object under a key. -/
def peek (e : Env) (dbs : List Db) (i : Nat) (k : Bytes) : Option Obj := do
  let db ← dbs[i]?
  let (r, _) ← Dict.find e.hash db.dict k
  r.map Prod.snd

/-- The deadline of a key. -/
def peekDeadline (e : Env) (dbs : List Db) (i : Nat) (k : Bytes) : Option Int := do
  let db ← dbs[i]?
  let (r, _) ← Dict.find e.hash db.expire k
  r.map Prod.snd

/-- Collections of the same type. -/
def sameKind : Obj → Obj → Bool
  | .list _, .list _ | .hash _, .hash _ | .set _, .set _ | .zset _, .zset _ => true
  | _, _ => false

/-- The deadline was passed and is gone: the key has been removed (and perhaps made anew). -/
def removed (now : Int) : Option Int → Option Int → Bool
  | some d, none => decide (d < now)
  | _, _ => false

/-- The value of a field of a hash; whether something is a member of a set. -/
def field (e : Env) (o : Obj) (y : Bytes) : Option Bytes :=
  match o with
  | .hash d => (Dict.find e.hash d y).bind (fun r => r.1.map Prod.snd)
  | .set s => (Dict.find e.hash s y).bind (fun r => r.1.map (fun _ => []))
  | _ => none

/-- A chore after the server has changed its databases. Collections are changed in place; a key gets another object by SET or SETEX (a string) or
after its removal by expiration. -/
def follow (e : Env) (before after : List Db) (t : Todo) : Todo :=
  match t.chore, t.shared with
  | .key it, true =>
    match peek e after it.db it.key with
    | some o =>
      if sameKind it.obj o && !removed e.now (peekDeadline e before it.db it.key) (peekDeadline e after it.db it.key)
      then ⟨.key { it with obj := o }, true, t.stale.map (fun f y => f y || decide (field e it.obj y ≠ field e o y))⟩ else ⟨.key it, false, t.stale⟩
    | none => ⟨.key it, false, t.stale⟩
  | _, _ => t

def followAll (e : Env) (before after : List Db) (js : List Job) : List Job :=
  js.map (fun j => { j with todo := j.todo.map (follow e before after) })

/-- server/aof.go:228, the statement `go rewriteAppendOnlyFile(tmpDBs, srv)` after `Server.startRewrite`. -/
def launch (e : Env) (n : Node) : Option Node :=
  match n.sys.srv.snapshot with
  | none => some n
  | some cs => do
    let ch ← Aof.chores e 0 cs
    some { n with
      sys := { n.sys with srv := { n.sys.srv with snapshot := none } }
      jobs := n.jobs ++ [{ todo := ch.map (fun c => ⟨c, true, none⟩), tmp := [] }] }

/-- server/server.go:109-140 `Run` of a new process with the same configuration; the file is what the old one left. A record BGREWRITEAOF in
it (which the server never writes) would start a goroutine. `none` = panic. -/
def restart (es : Nat → Env) (n : Node) : Option Node := do
  let fresh := Server.init n.sys.srv.dbs.length n.sys.srv.password n.sys.srv.aofEnable
  let srv ← if fresh.aofEnable then Aof.load Aof.readerSize es n.file fresh else some fresh
  launch (es 0) (start n.conf n.file srv)

/-- server/server.go:256-266, the decision to start a rewrite, on unsigned numbers. -/
def grown (conf : Conf) (cur base : UInt64) : Bool :=
  decide (conf.percent > 0) && decide (cur > conf.minSize) && decide (cur * 100 / (if base = 0 then 1 else base) - 100 ≥ conf.percent)

/-- server/aof.go:369-412 `aofRewriteDoneCallback`; `tmp` is what the received name stands for. -/
def finish (t : Int) (tmp : Bytes) (n : Node) : Node :=
  let file := tmp ++ n.sys.srv.aofRewriteBuf
  sync t { n with
    file
    synced := 0
    cur := UInt64.ofNat file.length
    base := UInt64.ofNat file.length
    sys := { n.sys with srv := { n.sys.srv with aofRewriteBuf := [], task := .none } } }

/-- server/server.go:251-272 `serverCron` -/
def cron (e : Env) (t : Int) (n : Node) : Option Node := do
  let srv ← databasesCron e n.sys.srv
  let n := { n with sys := { n.sys with srv }, jobs := followAll e n.sys.srv.dbs srv.dbs n.jobs }
  let n ← if n.sys.srv.task = .none ∧ grown n.conf n.cur n.base = true then do
      let srv ← Server.startRewrite e n.sys.srv
      launch e { n with sys := { n.sys with srv } }
    else some n
  match n.done with
  | [] => some n
  | tmp :: rest => some (finish t tmp { n with done := rest })

/-- `addReply` for the parts of a reply. -/
def say (net : Net.Net) (fd : Nat) : List Bytes → Option Net.Net
  | [] => some net
  | s :: rest => do
    let net ← Net.addReply net fd s
    say net fd rest

/-- server/server.go:179-212 `readQueryFromClient` with a complete request. -/
def request (fd : Nat) (e : Env) (args : List Bytes) (n : Node) : Option Node := do
  let (sys, r) ← Sys.step n.sys (.request fd e args)
  let net ← say n.net fd r
  launch e { n with sys, net, jobs := followAll e n.sys.srv.dbs sys.srv.dbs n.jobs }

/-- How a goroutine goes on: with a chore in one step; with the beginning of a loop over a hash or a set (server/aof.go:313, datastruct/set.go:24);
with the end of such a loop, which has collected these. -/
inductive Pace
  | whole
  | enter
  | collect (items : List (Bytes × Bytes))

/-- What a loop may have collected from a collection that now consists of `now`, when the fields `stale` have changed since it began: of the other fields
what is there, in any order. -/
def loose (stale : Bytes → Bool) (now items : List (Bytes × Bytes)) : Bool :=
  (items.filter (fun x => !stale x.1)).isPerm (now.filter (fun x => !stale x.1))

/-- server/aof.go:313, 331 with datastruct/set.go:24: a loop over a hash or a set begins. -/
def enter (t : Todo) : Option Todo :=
  match t.chore, t.stale with
  | .key it, none => if (Aof.parts it.obj).isSome then some { t with stale := some (fun _ => false) } else none
  | _, _ => none

/-- server/aof.go:310-345, 270-275: the loop is over; the commands for the key. -/
def collect (items : List (Bytes × Bytes)) (t : Todo) : Option (List (List Bytes)) :=
  match t.chore, t.stale with
  | .key it, some f => do
    let l ← Aof.parts it.obj
    let recs ← Aof.dumpItems it.key items it.obj
    if loose f l items then some (recs ++ Aof.dumpDeadline it.key it.deadline) else none
  | _, _ => none

/-- One step of a goroutine: the next chore (server/aof.go:243-276) or a part of it, or the end (282), which waits for room in the channel.
`none` = panic, or it cannot happen. -/
def work (i : Nat) (e : Env) (p : Pace) (n : Node) : Option Node := do
  let j ← n.jobs[i]?
  match p, j.todo with
  | .whole, t :: rest => do
    let recs ← if t.stale.isNone then Aof.dumpChore e t.chore else none
    some { n with jobs := n.jobs.set i { todo := rest, tmp := j.tmp ++ (recs.map Aof.cat).flatten } }
  | .whole, [] => if n.done = [] then some { n with jobs := n.jobs.eraseIdx i, done := [j.tmp] } else none
  | .enter, t :: rest => do
    let t ← enter t
    some { n with jobs := n.jobs.set i { j with todo := t :: rest } }
  | .collect items, t :: rest => do
    let recs ← collect items t
    some { n with jobs := n.jobs.set i { todo := rest, tmp := j.tmp ++ (recs.map Aof.cat).flatten } }
  | _, [] => none

inductive Ev
  /-- `beforeSleep` at time `t`, then `epoll_wait` -/
  | sleep (t : Int)
  /-- the timer is due -/
  | cron (e : Env) (t : Int)
  /-- it is not -/
  | noCron
  | accept (fd : Nat)
  | close (fd : Nat)
  | request (fd : Nat) (e : Env) (args : List Bytes)
  | writable (fd : Nat) (rs : List Wrote)
  /-- the end of a turn -/
  | turn
  | work (i : Nat) (e : Env) (p : Pace)
  /-- the process is killed and started again -/
  | restart (es : Nat → Env)
  /-- the same, while server/aof.go:369-412 replaces the file: `m` bytes of the new contents have been written -/
  | crashInDone (m : Nat) (es : Nat → Env)

/-- One step; `none` = panic, or the event cannot happen. -/
def step (n : Node) : Ev → Option Node
  | .sleep t =>
    match n.phase with
    | .idle =>
      let n := flush t n
      some { n with phase := .timers (fun fd => (n.net.loop.files (Ae.key fd .writable)).isSome) }
    | _ => none
  | .cron e t =>
    match n.phase with
    | .timers w => (cron e t n).map (fun n => { n with phase := .files w })
    | _ => none
  | .noCron =>
    match n.phase with
    | .timers w => some { n with phase := .files w }
    | _ => none
  | .accept fd =>
    match n.phase with
    | .files w => do
      let net ← Net.step n.net (.accept fd)
      let (sys, _) ← Sys.step n.sys (.connect fd)
      some { n with net, sys, phase := .files w }
    | _ => none
  | .close fd =>
    match n.phase with
    | .files w => do
      let net ← Net.step n.net (.free fd)
      let (sys, _) ← Sys.step n.sys (.close fd)
      some { n with net, sys, phase := .files (fun x => if x = fd then false else w x) }
    | _ => none
  | .request fd e args =>
    match n.phase with
    | .files _ => request fd e args n
    | _ => none
  | .writable fd rs =>
    match n.phase with
    | .files w =>
      if w fd then do
        let net ← Net.step n.net (.writable fd rs)
        let sess := if (net.clients fd).isSome then n.sys.sess else fun x => if x = fd then none else n.sys.sess x
        some { n with net, sys := { n.sys with sess }, phase := .files (fun x => if x = fd then false else w x) }
      else none
    | _ => none
  | .turn =>
    match n.phase with
    | .files _ => some { n with phase := .idle }
    | _ => none
  | .work i e p => work i e p n
  | .restart es => restart es n
  | .crashInDone m es =>
    match n.phase, n.done with
    | .timers _, tmp :: _ => restart es { n with file := (tmp ++ n.sys.srv.aofRewriteBuf).take m }
    | _, _ => none

/-- A history. -/
def run (n : Node) : List Ev → Option Node
  | [] => some n
  | ev :: rest => do
    let n ← step n ev
    run n rest

end Node
end Metis
