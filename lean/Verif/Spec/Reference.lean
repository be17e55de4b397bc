import Verif.Spec.ReplySpec
import Verif.Spec.ZsetCmd
import Verif.Spec.Deque
import Verif.Spec.Arity
import Verif.Model.Sys
/-!
A reference server: values are plain maps, sets, sequences and score maps, and each command says in a few lines which state and which
reply it may lead to. There are no hash tables, pages, skiplists, levels, buffers or files here. A late key (its deadline has passed) is
removed when a command looks it up; where metis does not look at the deadline, or deviates from Redis in another way, the comment says
so.
-/
namespace Metis.Spec.Ref

/-- What a key may hold. -/
inductive Val
  | str (b : Bytes)
  | list (l : List Bytes)
  | hash (f : Bytes → Option Bytes)
  | set (p : Bytes → Bool)
  | zset (f : Bytes → Option F64)

/-- A database: values, and deadlines in milliseconds. -/
structure Store where
  val : Bytes → Option Val
  due : Bytes → Option Int

/-- A map changed at one point. -/
def put {V : Type} (f : Bytes → Option V) (k : Bytes) (o : Option V) : Bytes → Option V := fun x => if k = x then o else f x

/-- The deadline of the key has passed. -/
def late (now : Int) (s : Store) (k : Bytes) : Prop := ∃ d, s.due k = some d ∧ d < now

/-- Giving a key a value; the deadline stays. -/
def hold (s : Store) (k : Bytes) (o : Val) : Store := { s with val := put s.val k (some o) }

open Classical in
/-- The database after a look at `k`. -/
noncomputable def fresh (now : Int) (s : Store) (k : Bytes) : Store :=
  if late now s k then ⟨put s.val k none, put s.due k none⟩ else s

/-- What a command may lead to: a database and a reply. -/
abbrev Effect := Store → Value → Prop

/-- exactly this -/
def gives (s : Store) (v : Value) : Effect := fun s' v' => s' = s ∧ v' = v
/-- an error message -/
def fails (s : Store) : Effect := fun s' v' => s' = s ∧ ∃ t, v' = .err (b!"ERR " ++ t)
/-- an array of the elements with property `p`, each once, in any order -/
def enumerates (s : Store) (p : Bytes → Prop) : Effect := fun s' v' => s' = s ∧ ∃ l, v' = .arr l ∧ Lists l p
/-- the number of elements with property `p` -/
def counts (s : Store) (p : Bytes → Prop) : Effect := fun s' v' => s' = s ∧ ∃ l, v' = .int (l : List Bytes).length ∧ Lists l p
/-- a bulk string, or null -/
def bulk? : Option Bytes → Value
  | some b => .bulk b
  | none => .null
/-- 0 or 1 -/
def bit (b : Bool) : Value := .int (if b then 1 else 0)
def OK : Value := .status b!"OK"

/-- The hash of a key, empty if the key is missing; `none` if it holds something else. -/
def hashOr : Option Val → Option (Bytes → Option Bytes)
  | none => some (fun _ => none)
  | some (.hash h) => some h
  | some _ => none
/-- likewise for sets -/
def setOr : Option Val → Option (Bytes → Bool)
  | none => some (fun _ => false)
  | some (.set p) => some p
  | some _ => none
/-- likewise for lists -/
def listOr : Option Val → Option (List Bytes)
  | none => some []
  | some (.list l) => some l
  | some _ => none
/-- likewise for sorted sets -/
def zsetOr : Option Val → Option (Bytes → Option F64)
  | none => some (fun _ => none)
  | some (.zset f) => some f
  | some _ => none

/-! ### keys -/

noncomputable section

/-- EXPIRE sets the deadline of a key that does not exist too. -/
def expire (e : Env) (w : List Bytes) (s : Store) : Effect :=
  match w with
  | k :: a :: _ =>
    match atoi a with
    | none => fails s
    | some n => gives { s with due := put s.due k (some (e.now + n * 1000)) } OK
  | _ => fun _ _ => False

def expireat (w : List Bytes) (s : Store) : Effect :=
  match w with
  | k :: a :: _ =>
    match atoi a with
    | none => fails s
    | some n => gives { s with due := put s.due k (some (n * 1000)) } OK
  | _ => fun _ _ => False

/-- TTL does not remove a late key; the answer is then 0 or negative. -/
def ttl (e : Env) (w : List Bytes) (s : Store) : Effect :=
  match w with
  | k :: _ =>
    match s.val k, s.due k with
    | none, _ => gives s (.int (-2))
    | some _, none => gives s (.int (-1))
    | some _, some d => gives s (.int ((d - e.now).tdiv 1000))
  | _ => fun _ _ => False

open Classical in
/-- KEYS removes the late keys among the matching ones. An invalid pattern is only noticed if there are keys. -/
def keys (e : Env) (w : List Bytes) (s : Store) : Effect :=
  match w with
  | p :: _ =>
    match (if p = b!"*" then some (fun _ => true) else e.compile p) with
    | none => fun s' v => ((∀ k, s.val k = none) ∧ gives s (.arr []) s' v) ∨ ((∃ k, s.val k ≠ none) ∧ fails s s' v)
    | some m => enumerates ⟨fun k => if m k = true ∧ late e.now s k then none else s.val k,
        fun k => if m k = true ∧ late e.now s k ∧ s.val k ≠ none then none else s.due k⟩
        (fun k => m k = true ∧ s.val k ≠ none ∧ ¬ late e.now s k)
  | _ => fun _ _ => False

/-- `s'` is `s` without some late keys. -/
def Swept (now : Int) (s s' : Store) : Prop :=
  ∀ k, (s'.val k = s.val k ∧ s'.due k = s.due k) ∨ (late now s k ∧ s'.val k = none ∧ s'.due k = none)

/-- RANDOMGET answers with a key (not a value) that is not late. -/
def randomget (e : Env) (s : Store) : Effect := fun s' v =>
  Swept e.now s s' ∧ ((∃ k, v = .bulk k ∧ s'.val k ≠ none ∧ ¬ late e.now s' k) ∨ (v = .null ∧ ∀ k, s'.val k = none))

/-! ### strings -/

def set (w : List Bytes) (s : Store) : Effect :=
  match w with
  | k :: v :: _ => gives ⟨put s.val k (some (.str v)), put s.due k none⟩ OK
  | _ => fun _ _ => False

def setex (e : Env) (w : List Bytes) (s : Store) : Effect :=
  match w with
  | k :: a :: v :: _ =>
    match atoi a with
    | none => fails s
    | some n => gives ⟨put s.val k (some (.str v)), put s.due k (some (e.now + n * 1000))⟩ OK
  | _ => fun _ _ => False

def get (e : Env) (w : List Bytes) (s : Store) : Effect :=
  match w with
  | k :: _ =>
    let s := fresh e.now s k
    match s.val k with
    | none => gives s .null
    | some (.str b) => gives s (.bulk b)
    | some _ => fails s
  | _ => fun _ _ => False

/-! ### hashes -/

/-- Pairs up the words. -/
def paired : List Bytes → List (Bytes × Bytes)
  | f :: v :: rest => (f, v) :: paired rest
  | _ => []

/-- HSET does not look at the deadline: it changes a late hash. -/
def hset (w : List Bytes) (s : Store) : Effect :=
  match w with
  | k :: rest =>
    if rest.length % 2 = 1 then fails s
    else
      match hashOr (s.val k) with
      | some h => counts (hold s k (.hash (assigned (paired rest) h))) (fun x => x ∈ (paired rest).map Prod.fst ∧ h x = none)
      | none => fails s
  | _ => fun _ _ => False

def hget (e : Env) (w : List Bytes) (s : Store) : Effect :=
  match w with
  | k :: f :: _ =>
    let s := fresh e.now s k
    match s.val k with
    | none => gives s .null
    | some (.hash h) => gives s (bulk? (h f))
    | some _ => fails s
  | _ => fun _ _ => False

/-- A hash (set, sorted set, list) that has become empty stays. -/
def hdel (e : Env) (w : List Bytes) (s : Store) : Effect :=
  match w with
  | k :: fs =>
    let s := fresh e.now s k
    match s.val k with
    | none => gives s (.int 0)
    | some (.hash h) => counts (hold s k (.hash (fun x => if x ∈ fs then none else h x))) (fun x => x ∈ fs ∧ h x ≠ none)
    | some _ => fails s
  | _ => fun _ _ => False

def hexists (e : Env) (w : List Bytes) (s : Store) : Effect :=
  match w with
  | k :: f :: _ =>
    let s := fresh e.now s k
    match s.val k with
    | none => gives s (.int 0)
    | some (.hash h) => gives s (bit (h f).isSome)
    | some _ => fails s
  | _ => fun _ _ => False

def hkeys (e : Env) (w : List Bytes) (s : Store) : Effect :=
  match w with
  | k :: _ =>
    let s := fresh e.now s k
    match s.val k with
    | none => gives s (.arr [])
    | some (.hash h) => enumerates s (fun x => h x ≠ none)
    | some _ => fails s
  | _ => fun _ _ => False

def hlen (e : Env) (w : List Bytes) (s : Store) : Effect :=
  match w with
  | k :: _ =>
    let s := fresh e.now s k
    match s.val k with
    | none => gives s (.int 0)
    | some (.hash h) => counts s (fun x => h x ≠ none)
    | some _ => fails s
  | _ => fun _ _ => False

/-! ### sets -/

/-- SADD does not look at the deadline. -/
def sadd (w : List Bytes) (s : Store) : Effect :=
  match w with
  | k :: ms =>
    match setOr (s.val k) with
    | some p => counts (hold s k (.set (fun x => p x || decide (x ∈ ms)))) (fun x => x ∈ ms ∧ p x = false)
    | none => fails s
  | _ => fun _ _ => False

def srem (e : Env) (w : List Bytes) (s : Store) : Effect :=
  match w with
  | k :: ms =>
    let s := fresh e.now s k
    match s.val k with
    | none => gives s (.int 0)
    | some (.set p) => counts (hold s k (.set (fun x => p x && !decide (x ∈ ms)))) (fun x => x ∈ ms ∧ p x = true)
    | some _ => fails s
  | _ => fun _ _ => False

/-- SPOP takes any member. -/
def spop (e : Env) (w : List Bytes) (s : Store) : Effect :=
  match w with
  | k :: _ =>
    let s := fresh e.now s k
    match s.val k with
    | none => gives s .null
    | some (.set p) => fun s' v => (∃ m, p m = true ∧ gives (hold s k (.set (fun x => p x && !decide (x = m)))) (.bulk m) s' v) ∨
        ((∀ m, p m = false) ∧ gives s .null s' v)
    | some _ => fails s
  | _ => fun _ _ => False

def scard (e : Env) (w : List Bytes) (s : Store) : Effect :=
  match w with
  | k :: _ =>
    let s := fresh e.now s k
    match s.val k with
    | none => gives s (.int 0)
    | some (.set p) => counts s (fun x => p x = true)
    | some _ => fails s
  | _ => fun _ _ => False

def sismember (e : Env) (w : List Bytes) (s : Store) : Effect :=
  match w with
  | k :: m :: _ =>
    let s := fresh e.now s k
    match s.val k with
    | none => gives s (.int 0)
    | some (.set p) => gives s (bit (p m))
    | some _ => fails s
  | _ => fun _ _ => False

def smembers (e : Env) (w : List Bytes) (s : Store) : Effect :=
  match w with
  | k :: _ =>
    let s := fresh e.now s k
    match s.val k with
    | none => gives s (.arr [])
    | some (.set p) => enumerates s (fun x => p x = true)
    | some _ => fails s
  | _ => fun _ _ => False

/-- The further keys of SDIFF, SINTER and SUNION, one after the other. A missing key ends SINTER (`all`) with an empty answer. -/
def combine (op : Bool → Bool → Bool) (all : Bool) (e : Env) : List Bytes → (Bytes → Bool) → Store → Effect
  | [], p, s => enumerates s (fun x => p x = true)
  | k :: ks, p, s =>
    let s := fresh e.now s k
    match s.val k with
    | none => if all then gives s (.arr []) else combine op all e ks p s
    | some (.set q) => combine op all e ks (fun x => op (p x) (q x)) s
    | some _ => fails s

/-- A missing first key ends SUNION too with an empty answer, unlike in Redis. -/
def setop (op : Bool → Bool → Bool) (all : Bool) (e : Env) (w : List Bytes) (s : Store) : Effect :=
  match w with
  | k :: ks =>
    let s := fresh e.now s k
    match s.val k with
    | none => gives s (.arr [])
    | some (.set p) => combine op all e ks p s
    | some _ => fails s
  | _ => fun _ _ => False

/-! ### lists -/

/-- The element at an index. -/
def nth (l : List Bytes) (i : Int) : Option Bytes := if i < 0 then none else l[i.toNat]?

/-- LPUSH (`front`) and RPUSH do not look at the deadline. -/
def push (front : Bool) (w : List Bytes) (s : Store) : Effect :=
  match w with
  | k :: vs =>
    match listOr (s.val k) with
    | some l => gives (hold s k (.list (if front then vs.reverse ++ l else l ++ vs))) (.int (l.length + vs.length))
    | none => fails s
  | _ => fun _ _ => False

def lpop (e : Env) (w : List Bytes) (s : Store) : Effect :=
  match w with
  | k :: _ =>
    let s := fresh e.now s k
    match s.val k with
    | none => gives s .null
    | some (.list []) => gives s .null
    | some (.list (x :: l)) => gives (hold s k (.list l)) (.bulk x)
    | some _ => fails s
  | _ => fun _ _ => False

def rpop (e : Env) (w : List Bytes) (s : Store) : Effect :=
  match w with
  | k :: _ =>
    let s := fresh e.now s k
    match s.val k with
    | none => gives s .null
    | some (.list l) =>
      match l.getLast? with
      | none => gives s .null
      | some x => gives (hold s k (.list l.dropLast)) (.bulk x)
    | some _ => fails s
  | _ => fun _ _ => False

def llen (e : Env) (w : List Bytes) (s : Store) : Effect :=
  match w with
  | k :: _ =>
    let s := fresh e.now s k
    match s.val k with
    | none => gives s (.int 0)
    | some (.list l) => gives s (.int l.length)
    | some _ => fails s
  | _ => fun _ _ => False

/-- A negative index is out of range, unlike in Redis; the index is not looked at if the key is missing. -/
def lindex (e : Env) (w : List Bytes) (s : Store) : Effect :=
  match w with
  | k :: a :: _ =>
    let s := fresh e.now s k
    match s.val k with
    | none => gives s .null
    | some (.list l) =>
      match atoi a with
      | none => fails s
      | some i => gives s (bulk? (nth l i))
    | some _ => fails s
  | _ => fun _ _ => False

/-- An empty range of an existing list is null, unlike in Redis. -/
def lrange (e : Env) (w : List Bytes) (s : Store) : Effect :=
  match w with
  | k :: a :: b :: _ =>
    let s := fresh e.now s k
    match s.val k with
    | none => gives s (.arr [])
    | some (.list l) =>
      match atoi a, atoi b with
      | some i, some j => gives s (if slice l i j = [] then .null else .arr (slice l i j))
      | _, _ => fails s
    | some _ => fails s
  | _ => fun _ _ => False

/-! ### sorted sets -/

/-- The score-member pairs up to the first score that is not a number, and whether there is one. -/
def scores (e : Env) : List Bytes → List Pair × Bool
  | a :: m :: rest =>
    match e.parseFloat a with
    | some x => ((x, m) :: (scores e rest).1, (scores e rest).2)
    | none => ([], true)
  | _ => ([], false)

/-- ZADD does not look at the deadline. The pairs before a bad score are added, unlike in Redis. -/
def zadd (e : Env) (w : List Bytes) (s : Store) : Effect :=
  match w with
  | k :: rest =>
    if rest.length % 2 = 1 then fails s
    else
      match zsetOr (s.val k) with
      | some f =>
        let s' := hold s k (.zset (scoredAll f (scores e rest).1))
        if (scores e rest).2 then fails s' else gives s' (.int (newOnes f (scores e rest).1))
      | none => fails s
  | _ => fun _ _ => False

def zcard (e : Env) (w : List Bytes) (s : Store) : Effect :=
  match w with
  | k :: _ =>
    let s := fresh e.now s k
    match s.val k with
    | none => gives s (.int 0)
    | some (.zset f) => counts s (fun m => f m ≠ none)
    | some _ => fails s
  | _ => fun _ _ => False

def zscore (e : Env) (w : List Bytes) (s : Store) : Effect :=
  match w with
  | k :: m :: _ =>
    let s := fresh e.now s k
    match s.val k with
    | none => gives s .null
    | some (.zset f) => gives s (match f m with | some x => .status (e.fmtFloat x) | none => .null)
    | some _ => fails s
  | _ => fun _ _ => False

def zcount (e : Env) (w : List Bytes) (s : Store) : Effect :=
  match w with
  | k :: a :: b :: _ =>
    match e.parseFloat a, e.parseFloat b with
    | some x, some y =>
      let s := fresh e.now s k
      match s.val k with
      | none => gives s (.int 0)
      | some (.zset f) => fun s' v => ∃ l, Arranged f l ∧ gives s (.int (l.filter (inRange x y)).length) s' v
      | some _ => fails s
    | _, _ => fails s
  | _ => fun _ _ => False

/-- The members, with WITHSCORES each followed by its score. -/
def lines (e : Env) (with' : Bool) (l : List Pair) : List Bytes := l.flatMap (fun p => if with' then [p.2, e.fmtFloat p.1] else [p.2])

/-- The answer of the range commands; the only option is WITHSCORES. -/
def ranged (e : Env) (opts : List Bytes) (l : List Pair) (s : Store) : Effect :=
  match opts with
  | [] => gives s (.arr (lines e false l))
  | o :: _ => if e.withScores o then gives s (.arr (lines e true l)) else fails s

/-- The range of a missing key is null, and negative ranks are not counted from the end, unlike in Redis. -/
def zrange (e : Env) (w : List Bytes) (s : Store) : Effect :=
  match w with
  | k :: a :: b :: opts =>
    match atoi a, atoi b with
    | some i, some j =>
      let s := fresh e.now s k
      match s.val k with
      | none => gives s .null
      | some (.zset f) => fun s' v => ∃ l, Arranged f l ∧ ranged e opts ((l.drop i.toNat).take (j - i + 1).toNat) s s' v
      | some _ => fails s
    | _, _ => fails s
  | _ => fun _ _ => False

def zrangebyscore (e : Env) (w : List Bytes) (s : Store) : Effect :=
  match w with
  | k :: a :: b :: opts =>
    match e.parseFloat a, e.parseFloat b with
    | some x, some y =>
      let s := fresh e.now s k
      match s.val k with
      | none => gives s .null
      | some (.zset f) => fun s' v => ∃ l, Arranged f l ∧ ranged e opts (l.filter (inRange x y)) s s' v
      | some _ => fails s
    | _, _ => fails s
  | _ => fun _ _ => False

def zrem (e : Env) (w : List Bytes) (s : Store) : Effect :=
  match w with
  | k :: ms =>
    let s := fresh e.now s k
    match s.val k with
    | none => gives s (.int 0)
    | some (.zset f) => counts (hold s k (.zset (without f ms))) (fun m => m ∈ ms ∧ f m ≠ none)
    | some _ => fails s
  | _ => fun _ _ => False

def zremrangebyscore (e : Env) (w : List Bytes) (s : Store) : Effect :=
  match w with
  | k :: a :: b :: _ =>
    match e.parseFloat a, e.parseFloat b with
    | some x, some y =>
      let s := fresh e.now s k
      match s.val k with
      | none => gives s (.int 0)
      | some (.zset f) => fun s' v => ∃ l, Arranged f l ∧ gives (hold s k (.zset (outside f x y))) (.int (l.filter (inRange x y)).length) s' v
      | some _ => fails s
    | _, _ => fails s
  | _ => fun _ _ => False

/-- Metis does not do this; see `Within`. -/
def zremrangebyrank (e : Env) (w : List Bytes) (s : Store) : Effect :=
  match w with
  | k :: a :: b :: _ =>
    match atoi a, atoi b with
    | some i, some j =>
      let s := fresh e.now s k
      match s.val k with
      | none => gives s (.int 0)
      | some (.zset f) => fun s' v => ∃ l, Arranged f l ∧
          let gone := (l.drop i.toNat).take (j - i + 1).toNat
          gives (hold s k (.zset (without f (gone.map (·.2))))) (.int gone.length) s' v
      | some _ => fails s
    | _, _ => fails s
  | _ => fun _ _ => False

/-! ### all commands -/

/-- The commands on the selected database. -/
def perform (e : Env) (c : Cmd) (w : List Bytes) (s : Store) : Effect :=
  match c with
  | .ping => gives s (.status b!"PONG")
  | .expire => expire e w s
  | .expireat => expireat w s
  | .ttl => ttl e w s
  | .keys => keys e w s
  | .randomget => randomget e s
  | .set => set w s
  | .setex => setex e w s
  | .get => get e w s
  | .hset => hset w s
  | .hget => hget e w s
  | .hdel => hdel e w s
  | .hexists => hexists e w s
  | .hkeys => hkeys e w s
  | .hlen => hlen e w s
  | .sadd => sadd w s
  | .srem => srem e w s
  | .spop => spop e w s
  | .scard => scard e w s
  | .sismember => sismember e w s
  | .smembers => smembers e w s
  | .sdiff => setop (fun a b => a && !b) false e w s
  | .sinter => setop (fun a b => a && b) true e w s
  | .sunion => setop (fun a b => a || b) false e w s
  | .lpush => push true w s
  | .rpush => push false w s
  | .lpop => lpop e w s
  | .rpop => rpop e w s
  | .llen => llen e w s
  | .lindex => lindex e w s
  | .lrange => lrange e w s
  | .zadd => zadd e w s
  | .zcard => zcard e w s
  | .zscore => zscore e w s
  | .zcount => zcount e w s
  | .zrange => zrange e w s
  | .zrangebyscore => zrangebyscore e w s
  | .zrem => zrem e w s
  | .zremrangebyscore => zremrangebyscore e w s
  | .zremrangebyrank => zremrangebyrank e w s
  | .select | .auth | .bgrewriteaof => fun _ _ => False

end

/-! ### the server -/

/-- What a client is to the server. -/
structure Client where
  db   : Nat
  auth : Bool

/-- The server: its databases (numbered from 0) and its connected clients. -/
structure State where
  dbs    : Nat → Store
  client : Nat → Option Client

/-- One client more, less or changed. -/
def State.know (R : State) (fd : Nat) (c : Option Client) : State := { R with client := fun x => if x = fd then c else R.client x }
/-- One database changed. -/
def State.store (R : State) (i : Nat) (s : Store) : State := { R with dbs := fun x => if x = i then s else R.dbs x }

/-- A request by a connected client, to a server of `n` databases with password `pw` (empty: none). -/
def answers (n : Nat) (pw : Bytes) (R : State) (fd : Nat) (c : Client) (e : Env) (args : List Bytes) (R' : State) (v : Value) : Prop :=
  let refused := R' = R ∧ ∃ t, v = .err (b!"ERR " ++ t)
  match commandOf e args with
  | none => refused
  | some cmd =>
    if ¬ accepts cmd args.length then refused
    else if pw ≠ [] ∧ c.auth = false ∧ cmd ≠ .auth then refused
    else match cmd, args.drop 1 with
      | .select, a :: _ =>
        match atoi a with
        | none => refused
        | some i => if i < n then R' = R.know fd (some { c with db := i.toNat }) ∧ v = OK else refused
      | .auth, a :: _ =>
        if pw = [] ∨ a = pw then R' = R.know fd (some { c with auth := true }) ∧ v = OK
        else R' = R.know fd (some { c with auth := false }) ∧ ∃ t, v = .err (b!"ERR " ++ t)
      | .bgrewriteaof, _ => R' = R ∧ (v = .status b!"Background append only file rewriting started" ∨ v = .status b!"Background append only file rewriting scheduled")
      | cmd, w => ∃ s, perform e cmd w (R.dbs c.db) s v ∧ R' = R.store c.db s

/-- One event, and the reply, if it is a request of a connected client. -/
def Moves (n : Nat) (pw : Bytes) (R : State) : Event → State → Option Value → Prop
  | .connect fd, R', r => R' = R.know fd (some ⟨0, false⟩) ∧ r = none
  | .close fd, R', r => R' = R.know fd none ∧ r = none
  | .cron e, R', r => (∀ i, Swept e.now (R.dbs i) (R'.dbs i)) ∧ R'.client = R.client ∧ r = none
  | .request fd e args, R', r =>
    match R.client fd with
    | none => False
    | some c => ∃ v, answers n pw R fd c e args R' v ∧ r = some v

/-- A run, and the replies. -/
inductive Runs (n : Nat) (pw : Bytes) : State → List Event → State → List (Option Value) → Prop
  | nil {R} : Runs n pw R [] R []
  | cons {R R1 R2 ev evs r rs} : Moves n pw R ev R1 r → Runs n pw R1 evs R2 rs → Runs n pw R (ev :: evs) R2 (r :: rs)

/-- The strings sent are the encoding of the reply; events that are no requests send nothing. -/
def Told (r : List Bytes) : Option Value → Prop
  | none => r = []
  | some v => Says r v

/-- No keys, no clients. -/
def start : State := ⟨fun _ => ⟨fun _ => none, fun _ => none⟩, fun _ => none⟩

/-! ### the limits -/

/-- The numbers an `int64` can hold. -/
def Fits (n : Int) : Prop := -2 ^ 63 ≤ n ∧ n < 2 ^ 63

/-- The request is one that metis handles like the reference: no overflow of times, no list beyond 1024 elements, no sorted set whose
member changes its score, no NaN, ranks not negative, no ZREMRANGEBYRANK. -/
def Within (e : Env) (c : Cmd) (w : List Bytes) (s : Store) : Prop :=
  match c, w with
  | .expire, _ :: a :: _ => ∀ n, atoi a = some n → Fits (e.now + n * 1000)
  | .setex, _ :: a :: _ => ∀ n, atoi a = some n → Fits (e.now + n * 1000)
  | .expireat, _ :: a :: _ => ∀ n, atoi a = some n → Fits (n * 1000)
  | .ttl, k :: _ => ∀ d, s.due k = some d → Fits (d - e.now)
  | .lpush, k :: vs => ∀ l, listOr (s.val k) = some l → l.length + vs.length ≤ 1024
  | .rpush, k :: vs => ∀ l, listOr (s.val k) = some l → l.length + vs.length ≤ 1024
  | .lrange, _ :: _ :: b :: _ => ∀ j, atoi b = some j → j < 2 ^ 44
  | .zadd, k :: rest => (∀ j, 1 ≤ e.level j ∧ e.level j ≤ 32) ∧ ∀ f, zsetOr (s.val k) = some f → Keeps f (scores e rest).1
  | .zcount, _ :: a :: b :: _ => ∀ x y, e.parseFloat a = some x → e.parseFloat b = some y → x.isNaN = false ∧ y.isNaN = false
  | .zrangebyscore, _ :: a :: b :: _ => ∀ x y, e.parseFloat a = some x → e.parseFloat b = some y → x.isNaN = false ∧ y.isNaN = false
  | .zremrangebyscore, _ :: a :: b :: _ => ∀ x y, e.parseFloat a = some x → e.parseFloat b = some y → x.isNaN = false ∧ y.isNaN = false
  | .zrange, _ :: a :: b :: _ => ∀ i j, atoi a = some i → atoi b = some j → 0 ≤ i ∧ j < 2 ^ 45
  | .zremrangebyrank, _ => False
  | .select, a :: _ => ∀ i, atoi a = some i → 0 ≤ i
  | _, _ => True

/-- The event stays within the limits. -/
def Fine (R : State) : Event → Prop
  | .request fd e args => ∀ c cmd, R.client fd = some c → commandOf e args = some cmd → Within e cmd (args.drop 1) (R.dbs c.db)
  | _ => True

/-- Every event of the history stays within the limits, whatever the reference does before. -/
def Safe (n : Nat) (pw : Bytes) : State → List Event → Prop
  | _, [] => True
  | R, ev :: evs => Fine R ev ∧ ∀ R' v, Moves n pw R ev R' v → Safe n pw R' evs

end Metis.Spec.Ref
