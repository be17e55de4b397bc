import Verif.Spec.Scribe
import Verif.Spec.Picture
/-!
The exact reference that keeps a log (`Spec/Scribe.lean`) and rewrites it. A rewrite begins when a client asks for it or when the file has grown; it writes down all databases
(`Spec/Picture.lean`), meanwhile nothing is carried out. The file is replaced when the timer comes next, by what was written down and what was recorded since.
-/
namespace Metis.Spec.Exact
open Metis Node

/-- No rewrite; one that writes down the databases; one that has done so: the records of the new file. -/
inductive Stage
  | idle
  | copying
  | ready (new : List (List Bytes))

structure Clerk where
  book  : Scribe
  stage : Stage
  /-- how long the file was when it was replaced last by this process -/
  base  : UInt64

/-- The length of the file, as the server counts it. -/
def size (recs : List (List Bytes)) : UInt64 := UInt64.ofNat (log recs).length

/-- The file has grown so much that it is rewritten; the numbers have 64 bits. -/
def Due (conf : Conf) (now base : UInt64) : Prop :=
  0 < conf.percent ∧ conf.minSize < now ∧ conf.percent ≤ now * 100 / (if base = 0 then 1 else base) - 100

/-- The request is BGREWRITEAOF, and it is carried out. -/
def Clerk.Asks (pw : Bytes) (B : Clerk) (fd : Nat) (e : Env) (args : List Bytes) : Prop := ∃ c, Carried pw B.book fd e args c .bgrewriteaof

/-- The reply to it. -/
def Clerk.answer (B : Clerk) : Value :=
  match B.stage with
  | .idle => .status b!"Background append only file rewriting started"
  | _ => .status b!"Background append only file rewriting scheduled"

/-- One event. -/
def Clerk.Lives (conf : Conf) (n : Nat) (pw : Bytes) (B : Clerk) (ev : Ev) (B' : Clerk) : Prop :=
  match ev with
  | .cron _ _ => ∃ K, B.book.Lives n pw ev K ∧
      match B.stage with
      | .idle => B'.book = K ∧ B'.base = B.base ∧ (Due conf (size B.book.file) B.base → B'.stage = .copying) ∧ (¬ Due conf (size B.book.file) B.base → B'.stage = .idle)
      | .copying => False
      | .ready new => B' = ⟨{ K with file := new }, .idle, size new⟩
  | .request fd e args => B.book.Lives n pw ev B'.book ∧ B'.base = B.base ∧
      (B.Asks pw fd e args → B'.book.out fd = (B.book.out fd).map (· ++ B.answer.encode)) ∧
      match B.stage with
      | .idle => (B.Asks pw fd e args → B'.stage = .copying) ∧ (¬ B.Asks pw fd e args → B'.stage = .idle)
      | .copying => False
      | .ready new => ∃ add, B'.book.buf = B.book.buf ++ add ∧ B'.stage = .ready (new ++ add)
  | .work _ e _ => B.stage = .copying ∧ (B' = B ∨ ∃ recs, Album e B.book.state.dbs n 0 recs ∧ B' = { B with stage := .ready recs })
  | .restart _ => B.book.Lives n pw ev B'.book ∧ B'.stage = .idle ∧ B'.base = 0
  | _ => B.book.Lives n pw ev B'.book ∧ B'.stage = B.stage ∧ B'.base = B.base

/-- Nothing in the file, nobody connected, no rewrite. -/
def Clerk.start : Clerk := ⟨.start, .idle, 0⟩

end Metis.Spec.Exact
