import Verif.Spec.Loading
import Verif.Spec.ExactKeeper
import Verif.Spec.Log
/-!
The exact reference of `Spec/Exact.lean` that keeps a log and never rewrites it: it writes a record for each command that has changed something (judging by the
reply), the records reach the file before it waits for events, and when it is killed and started again it carries out the records of the file.
-/
namespace Metis.Spec.Exact
open Metis Node

structure Scribe where
  state : State
  /-- the records in the file, those not yet written, and the database the last of them is about -/
  file  : List (List Bytes)
  buf   : List (List Bytes)
  sel   : Nat
  out   : Nat → Option Bytes

/-- A command with this reply leaves a record. Status replies and elements taken out do; numbers do if they count something removed, or if they come from a command that adds
(an element that was there before is counted as a change, too). Errors do not, but ZADD may have given scores before it came across one that cannot be read. -/
def Noted (e : Env) (cmd : Cmd) (w : List Bytes) (S : Store) (v : Value) : Prop :=
  writes cmd = true ∧
  match v with
  | .status _ => True
  | .bulk _ => True
  | .int n => n ≠ 0 ∨ cmd = .hset ∨ cmd = .sadd ∨ cmd = .zadd ∨ cmd = .lpush ∨ cmd = .rpush
  | .err _ =>
    match cmd, w with
    | .zadd, k :: sc :: rest => rest.length % 2 = 1 ∧ tally S k ≠ none ∧ e.parseFloat sc ≠ none
    | _, _ => False
  | _ => False

/-- The client may give this command, and it has the right number of words. -/
def Carried (pw : Bytes) (B : Scribe) (fd : Nat) (e : Env) (args : List Bytes) (c : Ref.Client) (cmd : Cmd) : Prop :=
  B.state.client fd = some c ∧ commandOf e args = some cmd ∧ accepts cmd args.length ∧ (pw = [] ∨ c.auth = true)

/-- The records and the database after a request with this reply. -/
def Scribe.Writes (pw : Bytes) (B : Scribe) (fd : Nat) (e : Env) (args : List Bytes) (v : Value) (buf : List (List Bytes)) (sel : Nat) : Prop :=
  (∃ c cmd rs, Carried pw B fd e args c cmd ∧ Noted e cmd (args.drop 1) (B.state.dbs c.db) v ∧ entries e.now cmd args = some rs ∧
    buf = B.buf ++ ((if B.sel ≠ c.db then [selectRec c.db] else []) ++ rs) ∧ sel = c.db) ∨
  ((∀ c cmd, Carried pw B fd e args c cmd → ¬ Noted e cmd (args.drop 1) (B.state.dbs c.db) v) ∧ buf = B.buf ∧ sel = B.sel)

/-- A connection closed. -/
def Scribe.drop (B : Scribe) (fd : Nat) : Scribe := { B with state := B.state.know fd none, out := fun x => if x = fd then none else B.out x }

/-- One event. -/
def Scribe.Lives (n : Nat) (pw : Bytes) (B : Scribe) : Ev → Scribe → Prop
  | .sleep _, B' => B' = { B with file := B.file ++ B.buf, buf := [] }
  | .cron e _, B' => ∃ R, Moves n pw B.state (.cron e) R none ∧ B' = { B with state := R }
  | .accept fd, B' => B' = { B with state := B.state.know fd (some ⟨0, false⟩), out := fun x => if x = fd then some [] else B.out x }
  | .close fd, B' => B' = B.drop fd
  | .request fd e args, B' => ∃ R v buf sel, Moves n pw B.state (.request fd e args) R (some v) ∧ B.Writes pw fd e args v buf sel ∧
      B' = { B with state := R, buf, sel, out := fun x => if x = fd then (B.out x).map (· ++ v.encode) else B.out x }
  | .writable fd rs, B' => B' = B ∨ (.fail ∈ rs ∧ B' = B.drop fd)
  | .restart es, B' => ∃ D cur, Loads n es B.file blank 0 D cur ∧ B' = ⟨⟨D, fun _ => none⟩, B.file, [], 0, fun _ => none⟩
  | .noCron, B' => B' = B
  | .turn, B' => B' = B
  | .crashInDone _ _, _ => False
  | .work _ _ _, _ => False

/-- Nothing in the file, nobody connected. -/
def Scribe.start : Scribe := ⟨Exact.start, [], [], 0, fun _ => none⟩

end Metis.Spec.Exact
