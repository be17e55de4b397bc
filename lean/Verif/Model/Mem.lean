import Verif.Model.Resp
/-!
Model of the memory behind the request parser: server/resp.go, server/client.go and server/server.go `readQueryFromClient` once more, with
slices of shared backing arrays instead of values. Arguments are strings made by `byteutils.B2S` without copying, so they are windows into
the memory that later reads write to. `Model/Resp.lean` treats them as values; `Props/Mem.lean` shows that this is right.
-/
namespace Metis
namespace Heap

/-- The backing arrays, each with its whole capacity; they are never freed while a string points into them (garbage collection). -/
abbrev Mem := List Bytes

/-- A Go slice of bytes. -/
structure Slice where
  a   : Nat
  off : Nat
  len : Nat
  cap : Nat
deriving Repr, DecidableEq

/-- A Go string. -/
structure View where
  a   : Nat
  off : Nat
  len : Nat
deriving Repr, DecidableEq

/-- The bytes of a window. -/
def window (m : Mem) (a off len : Nat) : Bytes := (((m[a]?).getD []).drop off).take len

/-- What a string reads as. -/
def str (m : Mem) (v : View) : Bytes := window m v.a v.off v.len

/-- Bytes of an array overwritten. -/
def patch (b : Bytes) (off : Nat) (d : Bytes) : Bytes := b.take off ++ d ++ b.drop (off + d.length)

/-- Writing to an array. -/
def write (m : Mem) (a off : Nat) (d : Bytes) : Mem :=
  match m[a]? with
  | none => m
  | some b => m.set a (patch b off d)

/-- client.go:27-40: the fields of `Client` used by the parser. -/
structure Client where
  queryBuf     : Slice
  queryLen     : Nat
  cmdType      : CmdType
  args         : List View
  multiBulkLen : Int
  bulkLen      : Int
deriving Repr, DecidableEq

/-- The nil slice. -/
def nilSlice : Slice := ⟨0, 0, 0, 0⟩

/-- client.go:198-205 `reset`. -/
def reset (_ : Client) : Client := ⟨nilSlice, 0, .unknown, [], 0, 0⟩

/-- client.go:42-50 `NewClient`: `make([]byte, maxBulk)`. -/
def newClient (m : Mem) : Mem × Client :=
  (m ++ [List.replicate Conn.maxBulk 0], ⟨⟨m.length, 0, Conn.maxBulk, Conn.maxBulk⟩, 0, .unknown, [], 0, 0⟩)

/-- The received bytes, `queryBuf[:queryLen]`. -/
def received (m : Mem) (c : Client) : Bytes := window m c.queryBuf.a c.queryBuf.off c.queryLen

/-- `queryBuf[i]`; `none` = index out of range. -/
def byteAt (m : Mem) (c : Client) (i : Int) : Option UInt8 :=
  if i < 0 then none else (window m c.queryBuf.a c.queryBuf.off c.queryBuf.len)[i.toNat]?

/-- client.go:56-58 `getNumFromQueryBuffer`. -/
def getNum (m : Mem) (c : Client) (index : Nat) : Option Int := atoi (str m ⟨c.queryBuf.a, c.queryBuf.off + 1, index - 1⟩)

/-- client.go:60-63 `moveToNextLineInQueryBuffer`. -/
def move (c : Client) (index : Nat) : Client :=
  { c with queryBuf := ⟨c.queryBuf.a, c.queryBuf.off + (index + 2), c.queryBuf.len - (index + 2), c.queryBuf.cap - (index + 2)⟩
           queryLen := c.queryLen - (index + 2) }

/-- `strings.Split(s, " ")` of the string `b` at `off`: substrings share the memory of the string. -/
def split (a off : Nat) : Bytes → List View
  | [] => [⟨a, off, 0⟩]
  | c :: cs =>
    if c = 32 then ⟨a, off, 0⟩ :: split a (off + 1) cs
    else
      match split a (off + 1) cs with
      | [] => [⟨a, off, 1⟩]
      | w :: ws => ⟨a, off, w.len + 1⟩ :: ws

/-- What a `process*Buffer` function returns. -/
inductive Step | err | more (c : Client) | done (c : Client)
deriving Repr, DecidableEq

/-- resp.go:60-77 `processInlineBuffer`. -/
def inlineBuf (m : Mem) (c : Client) : Option Step :=
  match Conn.crlf (received m c) with
  | none => some (if c.queryLen > Conn.maxInline then .err else .more c)
  | some 0 => none
  | some (i + 1) =>
    let v : View := ⟨c.queryBuf.a, c.queryBuf.off + 1, i⟩
    some (.done (move { c with args := split v.a v.off (str m v) } (i + 1)))

/-- resp.go:104-113 -/
def bulkData (_ : Mem) (c : Client) : Option Step :=
  if c.bulkLen + 2 < 2 ^ 63 ∧ (c.queryLen : Int) < c.bulkLen + 2 then some (.more c)
  else if c.bulkLen < 0 ∨ c.bulkLen + 2 ≥ 2 ^ 63 then none
  else some (.done { move { c with args := c.args ++ [⟨c.queryBuf.a, c.queryBuf.off, c.bulkLen.toNat⟩] } c.bulkLen.toNat with bulkLen := 0 })

/-- resp.go:79-114 `processBulkBuffer`. -/
def bulkBuf (m : Mem) (c : Client) : Option Step :=
  if c.bulkLen = 0 then
    match Conn.crlf (received m c) with
    | none => some (if c.queryLen > Conn.maxInline then .err else .more c)
    | some i =>
      match getNum m c i with
      | none => some .err
      | some num => if num = 0 then some (.done (move c i)) else bulkData m { move c i with bulkLen := num }
  else bulkData m c

/-- resp.go:166-179 -/
def multiData (m : Mem) (c : Client) : Option Step :=
  if (c.queryLen : Int) < c.bulkLen then some (.more c)
  else
    match byteAt m c c.bulkLen with
    | none => none
    | some x =>
      if x ≠ 13 then some .err
      else
        match byteAt m c (c.bulkLen + 1) with
        | none => none
        | some y =>
          if y ≠ 10 then some .err
          else
            some (.done (move { c with
              args := c.args.set (c.args.length - c.multiBulkLen.toNat) ⟨c.queryBuf.a, c.queryBuf.off, c.bulkLen.toNat⟩,
              bulkLen := 0, multiBulkLen := c.multiBulkLen - 1 } c.bulkLen.toNat))

/-- resp.go:143-179 -/
def multiTurn (m : Mem) (c : Client) : Option Step :=
  if c.bulkLen = 0 then
    match Conn.crlf (received m c) with
    | none => some (if c.queryLen > Conn.maxInline then .err else .more c)
    | some i =>
      if byteAt m c 0 ≠ some 36 then some .err
      else
        match getNum m c i with
        | none => some .err
        | some num => multiData m (move { c with bulkLen := num } i)
  else multiData m c

/-- resp.go:142-180 -/
def multiLoop (m : Mem) : Nat → Client → Option Step
  | 0, _ => none
  | fuel + 1, c =>
    if c.multiBulkLen > 0 then
      match multiTurn m c with
      | some (.done c) => multiLoop m fuel c
      | r => r
    else some (.done c)

/-- resp.go:116-183 `processMultiBulkBuffer`; `make([]string, num)` gives empty strings. -/
def multiBuf (m : Mem) (c : Client) : Option Step :=
  if c.multiBulkLen = 0 then
    match Conn.crlf (received m c) with
    | none => some (if c.queryLen > Conn.maxInline then .err else .more c)
    | some i =>
      match getNum m c i with
      | none => some .err
      | some num =>
        if num = 0 then some (.done (move c i))
        else if num < 0 ∨ num > Conn.maxStrCap then none
        else multiLoop m (num.toNat + 1) { move c i with multiBulkLen := num, args := List.replicate num.toNat ⟨0, 0, 0⟩ }
  else multiLoop m (c.multiBulkLen.toNat + 1) c

/-- resp.go:15-24 -/
def setType (m : Mem) (c : Client) : Client :=
  if c.cmdType = .unknown then
    { c with cmdType := if byteAt m c 0 = some 42 then .multiBulk else if byteAt m c 0 = some 36 then .bulk else .inline }
  else c

/-- resp.go:31-38 -/
def parse (m : Mem) (c : Client) : Option Step :=
  match c.cmdType with
  | .inline => inlineBuf m c
  | .bulk => bulkBuf m c
  | .multiBulk => multiBuf m c
  | .unknown => some (.more c)

/-- resp.go:13-58 `processInputBuffer`: the arguments given to `processCommand`, which resets the client (command.go:124). It reads the
memory and does not write to it. -/
def processInput (m : Mem) : Nat → Client → Option (List (List View) × Option Client)
  | 0, _ => none
  | fuel + 1, c =>
    if c.queryLen > 0 then
      match parse m (setType m c) with
      | none => none
      | some .err => some ([], none)
      | some (.more c) => some ([], some c)
      | some (.done c) =>
        if c.args.length > 0 then do
          let (cmds, c') ← processInput m fuel (reset c)
          some (c.args :: cmds, c')
        else processInput m fuel (reset c)
    else some ([], some c)

/-- server.go:181-183: `append(queryBuf, make([]byte, maxBulk)...)`. With enough capacity the zeros are written behind the slice in place;
otherwise the bytes are copied to a new array, whose further capacity (`extra`, of any size and content) the runtime chooses. -/
def grow (m : Mem) (c : Client) (extra : Bytes) : Mem × Client :=
  let b := c.queryBuf
  if b.len - c.queryLen < Conn.maxBulk then
    if b.len + Conn.maxBulk ≤ b.cap then
      (write m b.a (b.off + b.len) (List.replicate Conn.maxBulk 0), { c with queryBuf := { b with len := b.len + Conn.maxBulk } })
    else
      (m ++ [window m b.a b.off b.len ++ List.replicate Conn.maxBulk 0 ++ extra],
        { c with queryBuf := ⟨m.length, 0, b.len + Conn.maxBulk, b.len + Conn.maxBulk + extra.length⟩ })
  else (m, c)

/-- The memory and the clients by file descriptor. -/
structure World where
  mem : Mem
  clients : Nat → Option Client

def init : World := ⟨[], fun _ => none⟩

inductive Event
  /-- server.go:151-177 `acceptTCPHandler` -/
  | connect (fd : Nat)
  /-- client.go:182-196 `free` -/
  | close (fd : Nat)
  /-- server.go:178-212 with a successful read of `data` -/
  | read (fd : Nat) (extra data : Bytes)
  /-- the same without data: EAGAIN, EINTR -/
  | again (fd : Nat) (extra : Bytes)

/-- One event; the result includes the commands executed, with their arguments as strings. `none` = panic, or no such client, or more bytes
than `read` had room for. -/
def step (w : World) : Event → Option (World × List (List View))
  | .connect fd =>
    let (m, c) := newClient w.mem
    some (⟨m, fun x => if x = fd then some c else w.clients x⟩, [])
  | .close fd => some (⟨w.mem, fun x => if x = fd then none else w.clients x⟩, [])
  | .again fd extra =>
    match w.clients fd with
    | none => none
    | some c =>
      let (m, c) := grow w.mem c extra
      some (⟨m, fun x => if x = fd then some c else w.clients x⟩, [])
  | .read fd extra data =>
    match w.clients fd with
    | none => none
    | some c =>
      let (m, c) := grow w.mem c extra
      if data.length ≤ c.queryBuf.len - c.queryLen then
        let m := write m c.queryBuf.a (c.queryBuf.off + c.queryLen) data
        match processInput m (c.queryLen + data.length + 2) { c with queryLen := c.queryLen + data.length } with
        | none => none
        | some (cmds, c') => some (⟨m, fun x => if x = fd then c' else w.clients x⟩, cmds)
      else none

/-- A history; the result includes the commands executed in each event. -/
def run (w : World) : List Event → Option (World × List (List (List View)))
  | [] => some (w, [])
  | ev :: rest =>
    match step w ev with
    | none => none
    | some (w, cmds) =>
      match run w rest with
      | none => none
      | some (w, more) => some (w, cmds :: more)

end Heap
end Metis
