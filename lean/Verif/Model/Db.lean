import Verif.Model.Num
import Verif.Model.Set
import Verif.Model.Quicklist
import Verif.Model.Zset
/-!
Model of database/database.go, of the reply functions of server/client.go and of what the commands share (server/command.go).

The result `none` of a command stands for a Go panic; for SPOP and RANDOMGET, which draw random numbers until one hits a non-empty
bucket, it also stands for "the supplied draws are used up".
-/
namespace Metis

/-- A value of `Databse.Dict`: a string or a pointer to a collection (the cases of server/aof.go:254-267). -/
inductive Obj
  | str (s : Bytes)
  | list (q : Quicklist Bytes)
  | hash (d : Dict Bytes Bytes)
  | set (s : MSet Bytes)
  | zset (z : Zset)

/-- database/database.go:7-11. `ID` is the position of the database in the server's list. -/
structure Db where
  dict   : Dict Bytes Obj
  expire : Dict Bytes Int

/-- Everything outside the code that a command depends on. The clock does not advance while one command runs. -/
structure Env where
  /-- FNV-1a (database/dict.go:11-16) -/
  hash : Bytes → Nat
  /-- `time.Now().UnixMilli()` -/
  now : Int
  /-- `strings.ToLower` -/
  lower : Bytes → Bytes
  /-- `strings.EqualFold(_, "WITHSCORES")` -/
  withScores : Bytes → Bool
  /-- texts of the errors of `strconv.Atoi`, `ParseInt` and `ParseFloat` -/
  atoiErr : Bytes → Bytes
  intErr : Bytes → Bytes
  floatErr : Bytes → Bytes
  /-- `strconv.ParseFloat(_, 64)` without error -/
  parseFloat : Bytes → Option F64
  /-- `strconv.FormatFloat(_, 'f', -1, 64)` -/
  fmtFloat : F64 → Bytes
  /-- `regexp.Compile` without error, and `MatchString` of the result -/
  compile : Bytes → Option (Bytes → Bool)
  regexpErr : Bytes → Bytes
  /-- results of `rand` during this command -/
  draws : List Nat
  /-- level of the node that the i-th `Zset.Add` of this command inserts -/
  level : Nat → Nat

/-- Result of a command: the database, by how much `srv.dirty` grew, and the strings passed to `addReply`. -/
structure Out where
  db    : Db
  dirty : Nat := 0
  reply : List Bytes

/-- int64 arithmetic wraps around. -/
def wrap64 (n : Int) : Int := (n + 2 ^ 63) % 2 ^ 64 - 2 ^ 63

namespace Db

/-- database/database.go:13-19 `NewDatabase`. -/
def new : Db := { dict := Dict.new, expire := Dict.new }

/-- Writing through the pointer stored under `key` (every method of a collection may change it). -/
def put (e : Env) (db : Db) (key : Bytes) (o : Obj) : Db := { db with dict := Dict.assign e.hash db.dict key o }

/-- server/command.go:76-93 `expireIfNeeded`. The values of `Expire` are always integers, there is no error. -/
def expireIfNeeded (e : Env) (db : Db) (key : Bytes) : Option (Bool × Db) := do
  let (x, ex) ← Dict.find e.hash db.expire key
  match x with
  | none => some (false, { db with expire := ex })
  | some (_, deadline) =>
    if deadline < e.now then do
      let (_, d) ← Dict.delete e.hash db.dict key
      let (_, ex) ← Dict.delete e.hash ex key
      some (true, { dict := d, expire := ex })
    else some (false, { db with expire := ex })

/-- `dict.Get(key)` on the keyspace. -/
def get (e : Env) (db : Db) (key : Bytes) : Option (Option Obj × Db) := do
  let (v, d) ← Dict.get e.hash db.dict key
  some (v, { db with dict := d })

/-- `dict.Set(key, value)` on the keyspace. -/
def set (e : Env) (db : Db) (key : Bytes) (v : Obj) : Option Db := do
  let (_, d) ← Dict.set e.hash db.dict key v
  some { db with dict := d }

/-- `Expire.Set(key, when)`. -/
def setExpire (e : Env) (db : Db) (key : Bytes) (deadline : Int) : Option Db := do
  let (_, x) ← Dict.set e.hash db.expire key deadline
  some { db with expire := x }

/-- `Expire.Delete(key)`. -/
def delExpire (e : Env) (db : Db) (key : Bytes) : Option Db := do
  let (_, x) ← Dict.delete e.hash db.expire key
  some { db with expire := x }

/-- Result of the functions `getHashIfExist` etc.: a pointer, `errNotExist` or `errWrongType`. -/
inductive Look (α : Type) | missing | wrong | found (a : α)

/-- server/commandhash.go:148-166 `getHashIfExist`, commandset.go:221-239 `getSetIfExist`, commandlist.go:175-193
`getQuickListIfExist`, commandzset.go:255-273 `getZsetIfExist`; `as` is the type assertion. -/
def getIfExist {α : Type} (as : Obj → Option α) (e : Env) (db : Db) (key : Bytes) : Option (Look α × Db) := do
  let (_, db) ← expireIfNeeded e db key
  let (v, db) ← get e db key
  match v with
  | none => some (.missing, db)
  | some v =>
    match as v with
    | none => some (.wrong, db)
    | some a => some (.found a, db)

/-- server/commandhash.go:132-146 `getHash`, commandset.go:205-219 `getSet`, commandlist.go:159-173 `getQuickList`,
commandzset.go:239-253 `getZset`; `none` inside = wrong type. -/
def getOrNew {α : Type} (as : Obj → Option α) (fresh : Obj) (e : Env) (db : Db) (key : Bytes) : Option (Option α × Db) := do
  let (v, db) ← get e db key
  match v with
  | none => do
    let db ← set e db key fresh
    some (as fresh, db)
  | some v => some (as v, db)

end Db

namespace Obj

/-- `value.(string)` -/
def asStr : Obj → Option Bytes | str s => some s | _ => none
/-- `value.(*datastruct.Quicklist)` -/
def asList : Obj → Option (Quicklist Bytes) | list q => some q | _ => none
/-- `value.(*datastruct.Dict)` -/
def asHash : Obj → Option (Dict Bytes Bytes) | hash d => some d | _ => none
/-- `value.(*datastruct.Set)` -/
def asSet : Obj → Option (MSet Bytes) | set s => some s | _ => none
/-- `value.(*datastruct.Zset)` -/
def asZset : Obj → Option Zset | zset z => some z | _ => none

end Obj

/-! ### Replies (server/client.go:77-180): the strings passed to `addReply` -/
namespace Reply

/-- The two bytes at the end of a line. -/
def nl : Bytes := [13, 10]

/-- client.go:85-87 `addReplySimpleString`. -/
def simple (s : Bytes) : List Bytes := [43 :: s ++ nl]

/-- client.go:89-91 `addReplyBulkString`. -/
def bulk (s : Bytes) : List Bytes := [36 :: natToa s.length ++ nl ++ s ++ nl]

/-- client.go:93-95 `addReplyInt`. -/
def int (n : Int) : List Bytes := [58 :: itoa n ++ nl]

/-- client.go:97-103 `addReplyError`, `addReplyErrorf`. -/
def error (s : Bytes) : List Bytes := [b!"-ERR " ++ s ++ nl]

/-- client.go:105-107 `addReplyOK`. -/
def ok : List Bytes := [b!"+OK\r\n"]

/-- client.go:109-111 `addReplyNull`. -/
def null : List Bytes := [b!"$-1\r\n"]

/-- The first string of an array reply. -/
def header (n : Int) : List Bytes := [42 :: itoa n ++ nl]

/-- client.go:117-129 `addReplyArrays`. -/
def array (l : List Bytes) : List Bytes := header l.length ++ (l.map bulk).flatten

/-- client.go:113-115 `addReplyEmpty`. -/
def empty : List Bytes := array []

/-- client.go:152-163: the elements of a sorted set; a nil element is dereferenced: panic. -/
def zElems (e : Env) (ws : Bool) : List (Option Elem) → Option (List Bytes)
  | [] => some []
  | none :: _ => none
  | some el :: rest => do
    let r ← zElems e ws rest
    some (bulk el.member ++ (if ws then bulk (e.fmtFloat el.score) else []) ++ r)

/-- client.go:131-166 `addReplyZsetElements` with `withScoreIndex = 4`. -/
def zset (e : Env) (args : List Bytes) (els : List (Option Elem)) : Option (List Bytes) :=
  match args[4]? with
  | none => do
    let r ← zElems e false els
    some (header els.length ++ r)
  | some opt =>
    if e.withScores opt then do
      let r ← zElems e true els
      some (header (els.length * 2 : Nat) ++ r)
    else some (error (b!"invalid option: %s" ++ opt))

/-- client.go:168-180 `addReplySet`: the reply and the set after `Range`. -/
def set (s : MSet Bytes) : Option (List Bytes × MSet Bytes) := do
  let n ← MSet.size s
  let (l, s) ← MSet.range s
  some (header n ++ (l.map bulk).flatten, s)

/-- command.go:11 -/
def errNotExist : Bytes := b!"not exist"
/-- command.go:12 -/
def errWrongType : Bytes := b!"wrong type"

end Reply
end Metis
