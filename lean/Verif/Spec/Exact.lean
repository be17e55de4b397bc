import Verif.Spec.Reference
import Verif.Spec.Tally
import Verif.Spec.Fatal
/-!
The reference server of `Spec/Reference.lean` with the defects of metis: deadlines wrap around like 64-bit integers; lists are cut into
pages, and some positions lead to other elements or to a crash; sorted sets keep entries of scores that were replaced. The sizes of the
pages and the entries stand beside the databases. A request for which no outcome is given brings down the server.
-/
namespace Metis.Spec.Exact

/-- A database: values and deadlines; how the list of a key is cut into pages; the entries of the sorted set of a key. -/
structure Store where
  base    : Ref.Store
  sizes   : Bytes → List Nat
  entries : Bytes → List Entry

/-- What a command may lead to: a database and a reply. -/
abbrev Effect := Store → Value → Prop

/-- The server goes down. -/
def crash : Effect := fun _ _ => False
/-- A change of values and deadlines only. -/
def on (S : Store) (P : Ref.Effect) : Effect := fun S' v => P S'.base v ∧ S'.sizes = S.sizes ∧ S'.entries = S.entries
/-- exactly this -/
def gives (S : Store) (v : Value) : Effect := fun S' v' => S' = S ∧ v' = v
/-- an error message -/
def fails (S : Store) : Effect := fun S' v' => S' = S ∧ ∃ t, v' = .err (b!"ERR " ++ t)

noncomputable section

/-- The database after a look at `k`. -/
def fresh (now : Int) (S : Store) (k : Bytes) : Store := { S with base := Ref.fresh now S.base k }
/-- Giving a key a list. -/
def holdList (S : Store) (k : Bytes) (l : List Bytes) (sizes : List Nat) : Store :=
  { S with base := Ref.hold S.base k (.list l), sizes := fun x => if x = k then sizes else S.sizes x }
/-- Giving a key a sorted set. -/
def holdZset (S : Store) (k : Bytes) (t : Tally) : Store :=
  { S with base := Ref.hold S.base k (.zset t.scores), entries := fun x => if x = k then t.entries else S.entries x }

/-! ### deadlines -/

/-- What a 64-bit integer makes of a number. -/
def wrapped (n : Int) : Int := (n + 2 ^ 63) % 2 ^ 64 - 2 ^ 63

def expire (e : Env) (w : List Bytes) (S : Store) : Effect :=
  match w with
  | k :: a :: _ =>
    match atoi a with
    | none => fails S
    | some n => gives { S with base := { S.base with due := Ref.put S.base.due k (some (wrapped (e.now + wrapped (n * 1000)))) } } Ref.OK
  | _ => crash

def expireat (w : List Bytes) (S : Store) : Effect :=
  match w with
  | k :: a :: _ =>
    match atoi a with
    | none => fails S
    | some n => gives { S with base := { S.base with due := Ref.put S.base.due k (some (wrapped (n * 1000))) } } Ref.OK
  | _ => crash

def setex (e : Env) (w : List Bytes) (S : Store) : Effect :=
  match w with
  | k :: a :: v :: _ =>
    match atoi a with
    | none => fails S
    | some n => gives { S with base := ⟨Ref.put S.base.val k (some (.str v)), Ref.put S.base.due k (some (wrapped (e.now + wrapped (n * 1000))))⟩ } Ref.OK
  | _ => crash

def ttl (e : Env) (w : List Bytes) (S : Store) : Effect :=
  match w with
  | k :: _ =>
    match S.base.val k, S.base.due k with
    | none, _ => gives S (.int (-2))
    | some _, none => gives S (.int (-1))
    | some _, some d => gives S (.int ((wrapped (d - e.now)).tdiv 1000))
  | _ => crash

/-! ### lists -/

/-- One element more at the end: on a new page if the last one has 1024. -/
def grownBack : List Nat → List Nat
  | [] => [1]
  | [n] => if n = 1024 then [n, 1] else [n + 1]
  | n :: ns => n :: grownBack ns
/-- One element more at the front: a first page of 1024 is cut into halves. -/
def grownFront : List Nat → List Nat
  | [] => [1]
  | n :: ns => if n = 1024 then 513 :: 512 :: ns else (n + 1) :: ns
/-- One element less at the front. -/
def shrunk : List Nat → List Nat
  | [] => []
  | n :: ns => if n ≤ 1 then ns else (n - 1) :: ns

/-- A change of the sizes, several times. -/
def several (f : List Nat → List Nat) : Nat → List Nat → List Nat
  | 0, s => s
  | n + 1, s => several f n (f s)

def push (front : Bool) (w : List Bytes) (S : Store) : Effect :=
  match w with
  | k :: vs =>
    match Ref.listOr (S.base.val k) with
    | some l =>
      let sizes := if (S.base.val k).isNone then [] else S.sizes k
      gives (holdList S k (if front then vs.reverse ++ l else l ++ vs) (several (if front then grownFront else grownBack) vs.length sizes)) (.int (l.length + vs.length))
    | none => fails S
  | _ => crash

def lpop (e : Env) (w : List Bytes) (S : Store) : Effect :=
  match w with
  | k :: _ =>
    let S := fresh e.now S k
    match S.base.val k with
    | none => gives S .null
    | some (.list []) => gives S .null
    | some (.list (x :: l)) => gives (holdList S k l (shrunk (S.sizes k))) (.bulk x)
    | some _ => fails S
  | _ => crash

/-- RPOP works on lists of one page only. -/
def rpop (e : Env) (w : List Bytes) (S : Store) : Effect :=
  match w with
  | k :: _ =>
    let S := fresh e.now S k
    match S.base.val k with
    | none => gives S .null
    | some (.list l) =>
      match l.getLast? with
      | none => gives S .null
      | some x => if 2 ≤ (S.sizes k).length then crash else gives (holdList S k l.dropLast (shrunk (S.sizes k))) (.bulk x)
    | some _ => fails S
  | _ => crash

/-- LINDEX reads the position `lands` gives. -/
def lindex (e : Env) (w : List Bytes) (S : Store) : Effect :=
  match w with
  | k :: a :: _ =>
    let S := fresh e.now S k
    match S.base.val k with
    | none => gives S .null
    | some (.list l) =>
      match atoi a with
      | none => fails S
      | some i =>
        if 0 ≤ i ∧ i < l.length then
          match lands (S.sizes k) i.toNat with
          | none => crash
          | some m => gives S (Ref.bulk? l[m]?)
        else gives S .null
    | some _ => fails S
  | _ => crash

/-- LRANGE reads from the position `lands` gives for the first one; the memory for 2^44 elements is not to be had. -/
def lrange (e : Env) (w : List Bytes) (S : Store) : Effect :=
  match w with
  | k :: a :: b :: _ =>
    let S := fresh e.now S k
    match S.base.val k with
    | none => gives S (.arr [])
    | some (.list l) =>
      match atoi a, atoi b with
      | some i, some j =>
        match bounds l.length i j with
        | none => gives S .null
        | some (x, y) =>
          match lands (S.sizes k) x with
          | none => crash
          | some m => if y - x < 2 ^ 44 then gives S (.arr ((l.drop m).take (y + 1 - x))) else crash
      | _, _ => fails S
    | some _ => fails S
  | _ => crash

/-! ### sorted sets -/

/-- The table and the entries of a key, both empty if it is missing; `none` if it holds something else. -/
def tally (S : Store) (k : Bytes) : Option Tally :=
  match S.base.val k with
  | none => some Tally.none
  | some (.zset f) => some ⟨f, S.entries k⟩
  | some _ => none

def zadd (e : Env) (w : List Bytes) (S : Store) : Effect :=
  match w with
  | k :: rest =>
    if rest.length % 2 = 1 then fails S
    else
      match tally S k with
      | some t =>
        let S' := holdZset S k (t.addAll (Ref.scores e rest).1)
        if (Ref.scores e rest).2 then fails S' else gives S' (.int (t.fresh (Ref.scores e rest).1))
      | none => fails S
  | _ => crash

/-- ZCARD counts the entries. -/
def zcard (e : Env) (w : List Bytes) (S : Store) : Effect :=
  match w with
  | k :: _ =>
    let S := fresh e.now S k
    match tally S k with
    | some t => gives S (.int t.entries.length)
    | none => fails S
  | _ => crash

def zcount (e : Env) (w : List Bytes) (S : Store) : Effect :=
  match w with
  | k :: a :: b :: _ =>
    match e.parseFloat a, e.parseFloat b with
    | some x, some y =>
      let S := fresh e.now S k
      match tally S k with
      | some t => gives S (.int (t.entries.filter (within x y)).length)
      | none => fails S
    | _, _ => fails S
  | _ => crash

/-- The answer of the range commands: the members of the selected entries with the scores of the table; the server goes down if one is
not in the table. -/
def ranged (e : Env) (opts : List Bytes) (t : Tally) (sel : List Entry) (S : Store) : Effect :=
  match opts with
  | [] => match t.told sel with | none => crash | some ps => gives S (.arr (Ref.lines e false ps))
  | o :: _ => if e.withScores o then (match t.told sel with | none => crash | some ps => gives S (.arr (Ref.lines e true ps))) else fails S

def zrange (e : Env) (w : List Bytes) (S : Store) : Effect :=
  match w with
  | k :: a :: b :: opts =>
    match atoi a, atoi b with
    | some i, some j =>
      let S := fresh e.now S k
      match S.base.val k with
      | none => gives S .null
      | some (.zset f) => fun S' v => ∃ l sel, Tally.InOrder ⟨f, S.entries k⟩ l ∧ ranks l i j = some sel ∧ ranged e opts ⟨f, S.entries k⟩ sel S S' v
      | some _ => fails S
    | _, _ => fails S
  | _ => crash

def zrangebyscore (e : Env) (w : List Bytes) (S : Store) : Effect :=
  match w with
  | k :: a :: b :: opts =>
    match e.parseFloat a, e.parseFloat b with
    | some x, some y =>
      let S := fresh e.now S k
      match S.base.val k with
      | none => gives S .null
      | some (.zset f) => fun S' v => ∃ l, Tally.InOrder ⟨f, S.entries k⟩ l ∧ ranged e opts ⟨f, S.entries k⟩ (l.filter (within x y)) S S' v
      | some _ => fails S
    | _, _ => fails S
  | _ => crash

def zrem (e : Env) (w : List Bytes) (S : Store) : Effect :=
  match w with
  | k :: ms =>
    let S := fresh e.now S k
    match S.base.val k with
    | none => gives S (.int 0)
    | some (.zset f) => gives (holdZset S k (Tally.remAll ⟨f, S.entries k⟩ ms)) (.int (Tally.gone ⟨f, S.entries k⟩ ms))
    | some _ => fails S
  | _ => crash

def zremrangebyscore (e : Env) (w : List Bytes) (S : Store) : Effect :=
  match w with
  | k :: a :: b :: _ =>
    match e.parseFloat a, e.parseFloat b with
    | some x, some y =>
      let S := fresh e.now S k
      match S.base.val k with
      | none => gives S (.int 0)
      | some (.zset f) => gives (holdZset S k (Tally.cut ⟨f, S.entries k⟩ x y)) (.int ((S.entries k).filter (within x y)).length)
      | some _ => fails S
    | _, _ => fails S
  | _ => crash

def zremrangebyrank (e : Env) (w : List Bytes) (S : Store) : Effect :=
  match w with
  | k :: a :: b :: _ =>
    match atoi a, atoi b with
    | some i, some j =>
      let S := fresh e.now S k
      match S.base.val k with
      | none => gives S (.int 0)
      | some (.zset f) => fun S' v => ∃ l, Tally.InOrder ⟨f, S.entries k⟩ l ∧
          gives (holdZset S k (Tally.shed ⟨f, S.entries k⟩ l i j)) (.int (picked l i j).length) S' v
      | some _ => fails S
    | _, _ => fails S
  | _ => crash

/-! ### all commands -/

/-- The commands on the selected database. What is not listed is as in the reference. -/
def perform (e : Env) (c : Cmd) (w : List Bytes) (S : Store) : Effect :=
  match c with
  | .expire => expire e w S
  | .expireat => expireat w S
  | .setex => setex e w S
  | .ttl => ttl e w S
  | .lpush => push true w S
  | .rpush => push false w S
  | .lpop => lpop e w S
  | .rpop => rpop e w S
  | .lindex => lindex e w S
  | .lrange => lrange e w S
  | .zadd => zadd e w S
  | .zcard => zcard e w S
  | .zcount => zcount e w S
  | .zrange => zrange e w S
  | .zrangebyscore => zrangebyscore e w S
  | .zrem => zrem e w S
  | .zremrangebyscore => zremrangebyscore e w S
  | .zremrangebyrank => zremrangebyrank e w S
  | c => on S (Ref.perform e c w S.base)

end

/-! ### the server -/

/-- The server: its databases (numbered from 0) and its connected clients. -/
structure State where
  dbs    : Nat → Store
  client : Nat → Option Ref.Client

/-- One client more, less or changed. -/
def State.know (R : State) (fd : Nat) (c : Option Ref.Client) : State := { R with client := fun x => if x = fd then c else R.client x }
/-- One database changed. -/
def State.store (R : State) (i : Nat) (S : Store) : State := { R with dbs := fun x => if x = i then S else R.dbs x }

/-- A request by a connected client, to a server of `n` databases with password `pw` (empty: none). SELECT of a negative number brings
down the server. -/
def answers (n : Nat) (pw : Bytes) (R : State) (fd : Nat) (c : Ref.Client) (e : Env) (args : List Bytes) (R' : State) (v : Value) : Prop :=
  let refused := R' = R ∧ ∃ t, v = .err (b!"ERR " ++ t)
  match commandOf e args with
  | none => refused
  | some cmd =>
    if ¬ accepts cmd args.length then refused
    else if pw ≠ [] ∧ c.auth = false ∧ cmd ≠ .auth then refused
    else match cmd, args.drop 1 with
      | .select, a :: _ =>
        match atoi a with
        | none => refused
        | some i => if i < 0 then False else if i < n then R' = R.know fd (some { c with db := i.toNat }) ∧ v = Ref.OK else refused
      | .auth, a :: _ =>
        if pw = [] ∨ a = pw then R' = R.know fd (some { c with auth := true }) ∧ v = Ref.OK
        else R' = R.know fd (some { c with auth := false }) ∧ ∃ t, v = .err (b!"ERR " ++ t)
      | .bgrewriteaof, _ => R' = R ∧ (v = .status b!"Background append only file rewriting started" ∨ v = .status b!"Background append only file rewriting scheduled")
      | cmd, w => ∃ S, perform e cmd w (R.dbs c.db) S v ∧ R' = R.store c.db S

/-- One event, and the reply, if it is a request of a connected client. -/
def Moves (n : Nat) (pw : Bytes) (R : State) : Event → State → Option Value → Prop
  | .connect fd, R', r => R' = R.know fd (some ⟨0, false⟩) ∧ r = none
  | .close fd, R', r => R' = R.know fd none ∧ r = none
  | .cron e, R', r => (∀ i, Ref.Swept e.now (R.dbs i).base (R'.dbs i).base ∧ (R'.dbs i).sizes = (R.dbs i).sizes ∧ (R'.dbs i).entries = (R.dbs i).entries) ∧
      R'.client = R.client ∧ r = none
  | .request fd e args, R', r =>
    match R.client fd with
    | none => False
    | some c => ∃ v, answers n pw R fd c e args R' v ∧ r = some v

/-- A run, and the replies. -/
inductive Runs (n : Nat) (pw : Bytes) : State → List Event → State → List (Option Value) → Prop
  | nil {R} : Runs n pw R [] R []
  | cons {R R1 R2 ev evs r rs} : Moves n pw R ev R1 r → Runs n pw R1 evs R2 rs → Runs n pw R (ev :: evs) R2 (r :: rs)

/-- No keys, no clients. -/
def start : State := ⟨fun _ => ⟨⟨fun _ => none, fun _ => none⟩, fun _ => [], fun _ => []⟩, fun _ => none⟩

/-! ### what is left out -/

/-- The request has no NaN among its scores, and if it is ZREMRANGEBYRANK then it begins with the first rank (or asks for none). (ZADD: the random levels are those Go draws, 1 to 32.) -/
def Usual (e : Env) (c : Cmd) (w : List Bytes) : Prop :=
  match c, w with
  | .zadd, _ :: rest => (∀ j, 1 ≤ e.level j ∧ e.level j ≤ 32) ∧ ∀ p ∈ (Ref.scores e rest).1, p.1.isNaN = false
  | .zcount, _ :: a :: b :: _ => ∀ x y, e.parseFloat a = some x → e.parseFloat b = some y → x.isNaN = false ∧ y.isNaN = false
  | .zrangebyscore, _ :: a :: b :: _ => ∀ x y, e.parseFloat a = some x → e.parseFloat b = some y → x.isNaN = false ∧ y.isNaN = false
  | .zremrangebyscore, _ :: a :: b :: _ => ∀ x y, e.parseFloat a = some x → e.parseFloat b = some y → x.isNaN = false ∧ y.isNaN = false
  | .zremrangebyrank, _ :: a :: b :: _ => ∀ i j, atoi a = some i → atoi b = some j → i ≤ 0 ∨ j < i
  | _, _ => True

/-- The event is not left out. -/
def Covered : Event → Prop
  | .request _ e args => ∀ cmd, commandOf e args = some cmd → Usual e cmd (args.drop 1)
  | _ => True

end Metis.Spec.Exact
