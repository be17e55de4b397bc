import Verif.Model.Num
/-!
Model of the request parser: server/resp.go and the input side of server/client.go and server/server.go.

The query buffer of Go, `queryBuf` with the first `queryLen` bytes received, is modelled by the received bytes `buf` and the number
`slack = len(queryBuf) - queryLen` of further bytes of the slice. The slack bytes are zero: the slice is created and extended
zero-filled (client.go:47, server.go:182) and `read` only writes the bytes it reports.

Arguments are `B2S` views of the buffer (no copy). The bytes of a view are consumed, later reads write after them, and `reset` drops
the buffer, so they are never overwritten; the model treats them as values.

Executing a command is outside this file: a parsed command is recorded, and then `reset` is called (command.go:124); a command whose
execution fails closes the connection, which the parser does not see.
-/
namespace Metis

/-- client.go:18-25 -/
inductive CmdType | unknown | inline | bulk | multiBulk
deriving Repr, DecidableEq

/-- client.go:27-40: the fields of `Client` used by the parser. -/
structure Conn where
  buf          : Bytes := []
  slack        : Nat := 0
  cmdType      : CmdType := .unknown
  args         : List Bytes := []
  multiBulkLen : Int := 0
  bulkLen      : Int := 0
deriving Repr, DecidableEq

namespace Conn

/-- server.go:23 `maxBulk`. -/
def maxBulk : Nat := 4096

/-- resp.go:10 `MaxInlineSize`. -/
def maxInline : Nat := 65536

/-- client.go:42-50 `NewClient`. -/
def new : Conn := { slack := maxBulk }

/-- client.go:198-205 `reset`. -/
def reset (_ : Conn) : Conn := {}

/-- `queryBuf[i]`; `none` = index out of range. -/
def byteAt (c : Conn) (i : Int) : Option UInt8 :=
  if i < 0 then none
  else if i < c.buf.length then c.buf[i.toNat]?
  else if i < c.buf.length + c.slack then some 0
  else none

/-- `bytes.Index(b, "\r\n")`. -/
def crlf : Bytes → Option Nat
  | [] => none
  | a :: rest =>
    match rest with
    | [] => none
    | b :: _ => if a = 13 ∧ b = 10 then some 0 else (crlf rest).map (· + 1)

/-- client.go:56-58 `getNumFromQueryBuffer`; only called with a CRLF at `index ≥ 1`. `none` = error. -/
def getNum (c : Conn) (index : Nat) : Option Int := atoi ((c.buf.take index).drop 1)

/-- client.go:60-63 `moveToNextLineInQueryBuffer`, for a line end inside the received bytes. -/
def move (c : Conn) (index : Nat) : Conn := { c with buf := c.buf.drop (index + 2) }

/-- `strings.Split(s, " ")`. -/
def split : Bytes → List Bytes
  | [] => [[]]
  | c :: cs =>
    if c = 32 then [] :: split cs
    else
      match split cs with
      | [] => [[c]]
      | w :: ws => (c :: w) :: ws

/-- What a `process*Buffer` function returns: an error, "wait for more data", or a complete command. -/
inductive Step | err | more (c : Conn) | done (c : Conn)
deriving Repr, DecidableEq

/-- resp.go:60-77 `processInlineBuffer`. A line end at index 0 makes the slice `queryBuf[1:0]` panic. -/
def inlineBuf (c : Conn) : Option Step :=
  match crlf c.buf with
  | none => some (if c.buf.length > maxInline then .err else .more c)
  | some 0 => none
  | some (i + 1) => some (.done (move { c with args := split ((c.buf.take (i + 1)).drop 1) } (i + 1)))

/-- resp.go:104-113: the data part of `processBulkBuffer`. The sum `bulkLen + 2` wraps for the two largest int64, and then the
slice expression panics. -/
def bulkData (c : Conn) : Option Step :=
  if c.bulkLen + 2 < 2 ^ 63 ∧ (c.buf.length : Int) < c.bulkLen + 2 then some (.more c)
  else if c.bulkLen < 0 ∨ c.bulkLen + 2 ≥ 2 ^ 63 then none
  else some (.done { move { c with args := c.args ++ [c.buf.take c.bulkLen.toNat] } c.bulkLen.toNat with bulkLen := 0 })

/-- resp.go:79-114 `processBulkBuffer`. -/
def bulkBuf (c : Conn) : Option Step :=
  if c.bulkLen = 0 then
    match crlf c.buf with
    | none => some (if c.buf.length > maxInline then .err else .more c)
    | some i =>
      match getNum c i with
      | none => some .err
      | some num => if num = 0 then some (.done (move c i)) else bulkData { move c i with bulkLen := num }
  else bulkData c

/-- resp.go:166-179: the data part of one turn of the loop in `processMultiBulkBuffer`; `.done` = go on with the loop.
`queryLen < bulkLen` is the code's test; the two bytes after the data are read from the whole slice. (A line end inside the slack is
impossible, its bytes being zero.) -/
def multiData (c : Conn) : Option Step :=
  if (c.buf.length : Int) < c.bulkLen then some (.more c)
  else
    match byteAt c c.bulkLen with
    | none => none
    | some x =>
      if x ≠ 13 then some .err
      else
        match byteAt c (c.bulkLen + 1) with
        | none => none
        | some y =>
          if y ≠ 10 then some .err
          else
            some (.done (move { c with
              args := c.args.set (c.args.length - c.multiBulkLen.toNat) (c.buf.take c.bulkLen.toNat), bulkLen := 0, multiBulkLen := c.multiBulkLen - 1 } c.bulkLen.toNat))

/-- resp.go:143-179: one turn of the loop in `processMultiBulkBuffer`. -/
def multiTurn (c : Conn) : Option Step :=
  if c.bulkLen = 0 then
    match crlf c.buf with
    | none => some (if c.buf.length > maxInline then .err else .more c)
    | some i =>
      if byteAt c 0 ≠ some 36 then some .err
      else
        match getNum c i with
        | none => some .err
        | some num => multiData (move { c with bulkLen := num } i)
  else multiData c

/-- resp.go:142-180: the loop; fuel is `multiBulkLen + 1`. -/
def multiLoop : Nat → Conn → Option Step
  | 0, _ => none
  | fuel + 1, c =>
    if c.multiBulkLen > 0 then
      match multiTurn c with
      | some (.done c) => multiLoop fuel c
      | r => r
    else some (.done c)

/-- Largest length `make([]string, n)` accepts on 64-bit Linux (16·n ≤ 2^48). -/
def maxStrCap : Int := 2 ^ 44

/-- resp.go:116-183 `processMultiBulkBuffer`. `make([]string, num)` panics for negative and for huge `num`. -/
def multiBuf (c : Conn) : Option Step :=
  if c.multiBulkLen = 0 then
    match crlf c.buf with
    | none => some (if c.buf.length > maxInline then .err else .more c)
    | some i =>
      match getNum c i with
      | none => some .err
      | some num =>
        if num = 0 then some (.done (move c i))
        else if num < 0 ∨ num > maxStrCap then none
        else multiLoop (num.toNat + 1) { move c i with multiBulkLen := num, args := List.replicate num.toNat [] }
  else multiLoop (c.multiBulkLen.toNat + 1) c

/-- resp.go:15-24: the type of the command is decided by the first byte. -/
def setType (c : Conn) : Conn :=
  if c.cmdType = .unknown then
    { c with cmdType := if c.buf.head? = some 42 then .multiBulk else if c.buf.head? = some 36 then .bulk else .inline }
  else c

/-- resp.go:31-38 -/
def parse (c : Conn) : Option Step :=
  match c.cmdType with
  | .inline => inlineBuf c
  | .bulk => bulkBuf c
  | .multiBulk => multiBuf c
  | .unknown => some (.more c)

/-- resp.go:13-58 `processInputBuffer`: the commands executed and the connection, `none` inside = closed. Fuel bounds the loop. -/
def processInput : Nat → Conn → Option (List (List Bytes) × Option Conn)
  | 0, _ => none
  | fuel + 1, c =>
    if c.buf.length > 0 then
      match parse (setType c) with
      | none => none
      | some .err => some ([], none)
      | some (.more c) => some ([], some c)
      | some (.done c) =>
        if c.args.length > 0 then do
          let (cmds, c') ← processInput fuel (reset c)
          some (c.args :: cmds, c')
        else processInput fuel (reset c)
    else some ([], some c)

/-- server.go:181-183: room for the read. -/
def grow (c : Conn) : Conn := if c.slack < maxBulk then { c with slack := c.slack + maxBulk } else c

/-- server.go:179-212 `readQueryFromClient` with a successful read of `data`, which `read` limits to the room. -/
def read (c : Conn) (data : Bytes) : Option (List (List Bytes) × Option Conn) :=
  let c := grow c
  processInput (c.buf.length + data.length + 2) { c with buf := c.buf ++ data, slack := c.slack - data.length }

/-- Can the next read return these bytes? -/
def Fits (c : Conn) (data : Bytes) : Prop := data ≠ [] ∧ data.length ≤ (grow c).slack

/-- A sequence of reads: all commands executed and the final connection; reads after closing do not happen. -/
def reads : Conn → List Bytes → Option (List (List Bytes) × Option Conn)
  | c, [] => some ([], some c)
  | c, d :: ds =>
    match read c d with
    | none => none
    | some (cmds, none) => some (cmds, none)
    | some (cmds, some c') =>
      match reads c' ds with
      | none => none
      | some (cmds', r) => some (cmds ++ cmds', r)

/-- Each read respects the room of the buffer. -/
def AllFit : Conn → List Bytes → Prop
  | _, [] => True
  | c, d :: ds => Fits c d ∧ ∀ cmds c', read c d = some (cmds, some c') → AllFit c' ds

end Conn
end Metis
