import Verif.Model.Ae
/-!
Model of the output side of a connection: server/client.go `addReply`, `free`, server/server.go `acceptTCPHandler`, `sendReplayToClient`.

The kernel's `epoll_ctl` refuses a call only if it conflicts with the interest list. `write` accepts any number of the bytes offered
(at most all), or fails with EAGAIN/EINTR, or with another error.
-/
namespace Metis

/-- server/client.go:27-40, the fields `replayHead` and `sentLen`. -/
structure Sender where
  queue : List Bytes := []
  sent  : Nat := 0
deriving DecidableEq, Repr

/-- The result of `write`. -/
inductive Wrote | bytes (n : Nat) | again | fail
deriving DecidableEq, Repr

namespace Net

/-- The event loop, the clients by descriptor, and what the kernel has accepted for the connection behind a descriptor. -/
structure Net where
  loop    : Ae.Loop
  clients : Nat → Option Sender
  wire    : Nat → Bytes

def Net.new : Net := { loop := .new, clients := fun _ => none, wire := fun _ => [] }

/-- server/client.go:182-196 `free` -/
def free (n : Net) (fd : Nat) : Net :=
  let l := (Ae.removeFile n.loop fd .readable true).1
  let l := (Ae.removeFile l fd .writable true).1
  { n with loop := l, clients := fun x => if x = fd then none else n.clients x }

/-- server/server.go:151-177 `acceptTCPHandler`; the token of the callback is the descriptor. -/
def accept (n : Net) (fd : Nat) : Net :=
  match Ae.addFile n.loop fd .readable fd true with
  | (l, true) => { loop := l, clients := fun x => if x = fd then some {} else n.clients x, wire := fun x => if x = fd then [] else n.wire x }
  | (l, false) => free { n with loop := l } fd

/-- server/client.go:65-75 `addReply`; an error closes the connection (server.go:206-210). `none` = no such client. -/
def addReply (n : Net) (fd : Nat) (s : Bytes) : Option Net := do
  let o ← n.clients fd
  if o.queue = [] then
    match Ae.addFile n.loop fd .writable fd true with
    | (l, true) => some { n with loop := l, clients := fun x => if x = fd then some { o with queue := o.queue ++ [s] } else n.clients x }
    | (l, false) => some (free { n with loop := l } fd)
  else some { n with clients := fun x => if x = fd then some { o with queue := o.queue ++ [s] } else n.clients x }

/-- How the loop of `sendReplayToClient` ends. -/
inductive Sent
  /-- the loop ended or was left by `break`; what is left, and the bytes accepted -/
  | done (o : Sender) (b : Bytes)
  /-- EAGAIN or EINTR -/
  | again (o : Sender) (b : Bytes)
  /-- another error -/
  | failed (b : Bytes)
  /-- the loop never ends -/
  | spin
deriving DecidableEq, Repr

/-- server/server.go:216-241, the loop; `rs` are the results of `write` (EAGAIN when they are used up), `acc` the bytes accepted so far. -/
def sendLoop : List Wrote → Sender → Bytes → Sent
  | _, ⟨[], n⟩, acc => .done ⟨[], n⟩ acc
  | rs, ⟨s :: q, n⟩, acc =>
    if n < s.length then
      match rs with
      | [] => .again ⟨s :: q, n⟩ acc
      | .again :: _ => .again ⟨s :: q, n⟩ acc
      | .fail :: _ => .failed acc
      | .bytes k :: rs =>
        let k := min k (s.length - n)
        if n + k = s.length then sendLoop rs ⟨q, 0⟩ (acc ++ (s.drop n).take k)
        else .done ⟨s :: q, n + k⟩ (acc ++ (s.drop n).take k)
    else .spin

/-- server/server.go:214-249 `sendReplayToClient`. `none` = no such client, or the loop never ends. -/
def writable (n : Net) (fd : Nat) (rs : List Wrote) : Option Net := do
  let o ← n.clients fd
  match sendLoop rs o [] with
  | .done o b =>
    let n := { n with clients := fun x => if x = fd then some o else n.clients x, wire := fun x => if x = fd then n.wire fd ++ b else n.wire x }
    if o.queue = [] then some { n with loop := (Ae.removeFile n.loop fd .writable true).1 } else some n
  | .again o b => some { n with clients := fun x => if x = fd then some o else n.clients x, wire := fun x => if x = fd then n.wire fd ++ b else n.wire x }
  | .failed b => some (free { n with wire := fun x => if x = fd then n.wire fd ++ b else n.wire x } fd)
  | .spin => none

/-- What can happen to the connections. The kernel hands out descriptors that are not in use. -/
inductive Ev
  | accept (fd : Nat)
  | reply (fd : Nat) (s : Bytes)
  | writable (fd : Nat) (rs : List Wrote)
  | free (fd : Nat)
deriving DecidableEq, Repr

def step (n : Net) : Ev → Option Net
  | .accept fd => if (n.clients fd).isSome then none else some (accept n fd)
  | .reply fd s => addReply n fd s
  | .writable fd rs => writable n fd rs
  | .free fd => if (n.clients fd).isSome then some (free n fd) else none

def run (n : Net) : List Ev → Option Net
  | [] => some n
  | ev :: evs => do
    let n ← step n ev
    run n evs

end Net
end Metis
