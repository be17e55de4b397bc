import Verif.Model.Net
/-!
Model of the descriptors of the process: which descriptor number is open on what, and which system calls the server makes with which number.

A `Client` is an object that remembers the number of its socket (client.go:29). `free` (182-196) closes the number, but does not change the object, and the
callbacks that `wait` has collected (ae.go:224-238) keep pointing to it. The kernel hands out numbers again as soon as they are closed, also
to the goroutine that rewrites the append-only file (aof.go:232 `os.CreateTemp`), which runs beside the event loop.

Here the objects are known by their order of creation, the callbacks of a turn are executed one by one from the list made by `wait`, and every system call on a
number is recorded with the object that makes it and what the number was open on.

Simplifications. The parser and the commands are left out: a read yields some replies, and an error or not. `epoll_ctl` refuses only what conflicts
with the interest list. Closing a number takes it out of the interest list (the child process `mv` of aof.go:381, which inherits the sockets for the time
of its run, is left out). A `write` to a socket and the `free` after its failure are two steps, for the goroutine may act in between.
-/
namespace Metis.Fds

/-- What descriptors are opened for: the listening socket, the connection of the i-th client, the j-th file. -/
inductive Target
  | listen
  | conn (i : Nat)
  | file (j : Nat)
deriving DecidableEq, Repr

/-- server/client.go:27-40, the fields `fd`, `replayHead`, `sentLen`. -/
structure Client where
  fd  : Nat
  out : Sender
deriving DecidableEq, Repr

inductive Call | read | write (b : Bytes) | close
deriving DecidableEq, Repr

/-- A system call on an open descriptor: for which object the number was remembered, what the number was open on at the call. -/
structure Use where
  by_  : Target
  call : Call
  on   : Target
deriving DecidableEq, Repr

structure State where
  /-- the descriptor table -/
  tab     : Nat → Option Target
  /-- the event loop; callbacks: 0 is `acceptTCPHandler`, `i + 1` those of the i-th client -/
  loop    : Ae.Loop
  /-- the `Client` objects in order of creation -/
  heap    : List Client
  /-- the `os.File` objects with their numbers, in order of creation; `none`: closed by their owner -/
  files   : List (Option Nat)
  /-- the callbacks of this turn that have not run yet (ae.go:224-238) -/
  fired   : List Ae.FileEvent
  /-- the client on which `free` is about to be called (server.go:228) -/
  closing : Option Nat
  log     : List Use

/-- server/server.go:109-131: the listening socket is registered. -/
def init (lfd : Nat) : State :=
  { tab := fun x => if x = lfd then some .listen else none, loop := (Ae.addFile .new lfd .readable 0 true).1, heap := [], files := [], fired := [],
    closing := none, log := [] }

/-- A system call on number `fd` for the object `by_`; on a number that is not open (EBADF) it does nothing. -/
def State.use (s : State) (who : Target) (c : Call) (fd : Nat) : State :=
  match s.tab fd with
  | none => s
  | some t => { s with log := s.log ++ [⟨who, c, t⟩] }

/-- `close` -/
def State.close (s : State) (who : Target) (fd : Nat) : State :=
  let s := s.use who .close fd
  { s with tab := fun x => if x = fd then none else s.tab x, loop := { s.loop with kernel := fun x => if x = fd then none else s.loop.kernel x } }

/-- server/client.go:182-196 `free` of the i-th client -/
def free (s : State) (i : Nat) : Option State := do
  let c ← s.heap[i]?
  let l := (Ae.removeFile s.loop c.fd .readable true).1
  let l := (Ae.removeFile l c.fd .writable true).1
  some ({ s with loop := l }.close (.conn i) c.fd)

/-- server/client.go:65-75 `addReply`; the second component: no error. -/
def addReply (s : State) (i : Nat) (r : Bytes) : Option (State × Bool) := do
  let c ← s.heap[i]?
  let s' := { s with heap := s.heap.set i { c with out := { c.out with queue := c.out.queue ++ [r] } } }
  if c.out.queue = [] then
    match Ae.addFile s.loop c.fd .writable (i + 1) true with
    | (l, true) => some ({ s' with loop := l }, true)
    | (l, false) => some ({ s with loop := l }, false)
  else some (s', true)

/-- The replies of a read, until an error. -/
def say (s : State) (i : Nat) : List Bytes → Option (State × Bool)
  | [] => some (s, true)
  | r :: rest => do
    let (s, ok) ← addReply s i r
    if ok then say s i rest else some (s, false)

/-- What the outside world answers to the system call of a callback. -/
inductive Answer
  /-- `accept` returns a number (or fails) -/
  | accept (fd : Option Nat)
  /-- `read` returns nothing that can be used (server.go:188, 192) -/
  | nothing
  /-- the end of the stream, or ECONNRESET (190, 199) -/
  | eof
  /-- data for which the commands give these replies; `ok = false`: the input is refused (206) -/
  | data (rs : List Bytes) (ok : Bool)
  /-- the results of `write` -/
  | wrote (rs : List Wrote)
deriving DecidableEq, Repr

/-- server/server.go:151-177 `acceptTCPHandler`; the number must be free. -/
def accept (s : State) (fd : Nat) : Option State :=
  if (s.tab fd).isSome then none
  else
    let i := s.heap.length
    let s := { s with tab := fun x => if x = fd then some (.conn i) else s.tab x, heap := s.heap ++ [({ fd, out := {} } : Client)] }
    match Ae.addFile s.loop fd .readable (i + 1) true with
    | (l, true) => some { s with loop := l }
    | (l, false) => free { s with loop := l } i

/-- server/server.go:179-212 `readQueryFromClient` -/
def readable (s : State) (i fd : Nat) : Answer → Option State
  | .nothing => some s
  | .eof => free (s.use (.conn i) .read fd) i
  | .data rs ok => do
    let (s, ok') ← say (s.use (.conn i) .read fd) i rs
    if ok && ok' then some s else free s i
  | _ => none

/-- server/server.go:214-249 `sendReplayToClient`; a number that is not open gives EBADF. -/
def writable (s : State) (i : Nat) (rs : List Wrote) : Option State := do
  let c ← s.heap[i]?
  let rs := if (s.tab c.fd).isSome then rs else [.fail]
  match Net.sendLoop rs c.out [] with
  | .done o b =>
    let s := { s.use (.conn i) (.write b) c.fd with heap := s.heap.set i { c with out := o } }
    if o.queue = [] then some { s with loop := (Ae.removeFile s.loop c.fd .writable true).1 } else some s
  | .again o b => some { s.use (.conn i) (.write b) c.fd with heap := s.heap.set i { c with out := o } }
  | .failed b => some { s.use (.conn i) (.write b) c.fd with closing := some i }
  | .spin => none

inductive Ev
  /-- `epoll_wait` returns (ae.go:218): numbers with the bits EPOLLIN = 1, EPOLLOUT = 4 -/
  | poll (ready : List (Nat × UInt32))
  /-- the next callback (ae.go:203-205) -/
  | callback (a : Answer)
  /-- `free` after a failed `write` (server.go:228) -/
  | free
  /-- a file is opened and gets a number (aof.go:232, 389) -/
  | openFile (fd : Nat)
  /-- its owner writes to it (aof.go:101, 243-276, 397) -/
  | writeFile (j : Nat) (b : Bytes)
  /-- its owner closes it (aof.go:236, 373) -/
  | closeFile (j : Nat)

/-- One step; `none` = panic, or the event cannot happen. -/
def step (s : State) : Ev → Option State
  | .poll ready =>
    if s.fired = [] ∧ s.closing = none ∧ (ready.map Prod.fst).Nodup then some { s with fired := ready.flatMap (Ae.eventsOf s.loop) } else none
  | .callback a =>
    match s.closing, s.fired with
    | none, ev :: rest =>
      let s := { s with fired := rest }
      match ev.proc, ev.kind, a with
      | 0, _, .accept none => some s
      | 0, _, .accept (some fd) => accept (s.use .listen .read ev.fd) fd
      | i + 1, .readable, a => readable s i ev.fd a
      | i + 1, .writable, .wrote rs => writable s i rs
      | _, _, _ => none
    | _, _ => none
  | .free =>
    match s.closing with
    | some i => free { s with closing := none } i
    | none => none
  | .openFile fd => if (s.tab fd).isSome then none
    else some { s with tab := fun x => if x = fd then some (.file s.files.length) else s.tab x, files := s.files ++ [some fd] }
  | .writeFile j b =>
    match s.files[j]? with
    | some (some fd) => if (s.tab fd).isSome then some (s.use (.file j) (.write b) fd) else none
    | _ => none
  | .closeFile j =>
    match s.files[j]? with
    | some (some fd) => some { s.close (.file j) fd with files := s.files.set j none }
    | _ => none

/-- A history. -/
def run (s : State) : List Ev → Option State
  | [] => some s
  | ev :: rest => do
    let s ← step s ev
    run s rest

end Metis.Fds
