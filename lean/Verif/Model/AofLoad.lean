import Verif.Model.Sys
/-!
Model of server/aof.go:136-215 `loadAppendOnlyFile`: the buffered reader, the parser of the records and their execution.

`bufio.Reader` is modelled as far as the loader uses it (`ReadBytes`, `Read`). A read from the file returns as many bytes as there is
room for, or all that is left (a regular file); it never fails except at the end of the file. The size of the buffer is a parameter
(`cap`); the code uses 65536. Memory is unlimited (`make([]byte, argLen)` succeeds for every `argLen ≥ 0`).
-/
namespace Metis.Aof

/-- server/aof.go:156 with server/resp.go:10 -/
def readerSize : Nat := 65536

/-- `bufio.Reader`: the bytes in the buffer that have not been consumed, and the bytes of the file that have not been read. -/
structure Rd where
  buf  : Bytes
  file : Bytes
deriving DecidableEq, Repr

/-- `bufio.Reader.fill`: the unread bytes are moved to the front of the buffer and one read fills the rest of it. -/
def fill (cap : Nat) (r : Rd) : Rd :=
  { buf := r.buf ++ r.file.take (cap - r.buf.length), file := r.file.drop (cap - r.buf.length) }

/-- Splits after the first line feed. -/
def cut : Bytes → Option (Bytes × Bytes)
  | [] => none
  | c :: cs => if c = 10 then some ([10], cs) else (cut cs).map (fun p => (c :: p.1, p.2))

/-- `bufio.Reader.ReadBytes('\n')`; `none` = io.EOF. `acc` holds the full buffers collected so far. Every turn consumes a full buffer
or reads at least one byte, so that twice the length of the file plus two is enough fuel. -/
def readBytes (cap : Nat) : Nat → Bytes → Rd → Option (Bytes × Rd)
  | 0, _, _ => none
  | f + 1, acc, r =>
    match cut r.buf with
    | some (l, rest) => some (acc ++ l, { r with buf := rest })
    | none =>
      if r.buf.length ≥ cap then readBytes cap f (acc ++ r.buf) { r with buf := [] }
      else if r.file = [] then none
      else readBytes cap f acc (fill cap r)

/-- `bytes.TrimRight(buf, "\r\n")` -/
def trimRight (l : Bytes) : Bytes := (l.reverse.dropWhile (fun c => c == 13 || c == 10)).reverse

/-- server/aof.go:138-145 `readLine`; `none` = io.EOF. -/
def readLine (cap : Nat) (r : Rd) : Option (Bytes × Rd) := do
  let (l, r) ← readBytes cap (2 * r.file.length + 2) [] r
  some (trimRight l, r)

/-- `bufio.Reader.Read` into a slice of length `n`: the bytes read (perhaps fewer than `n`); `none` = io.EOF. -/
def read (cap : Nat) (n : Nat) (r : Rd) : Option (Bytes × Rd) :=
  if n = 0 then some ([], r)
  else if r.buf ≠ [] then some (r.buf.take n, { r with buf := r.buf.drop n })
  else if r.file = [] then none
  else if n ≥ cap then some (r.file.take n, { r with file := r.file.drop n })
  else some ((fill cap r).buf.take n, { fill cap r with buf := (fill cap r).buf.drop n })

/-- `buf[0] != c` and `strconv.Atoi(buf[1:])` as used for a length, server/aof.go:168-177 and 184-193; a negative length makes `make`
panic. `none` = panic. -/
def lengthOf (c : UInt8) (line : Bytes) : Option Nat :=
  match line with
  | [] => none
  | x :: ds =>
    if x ≠ c then none
    else do
      let n ← atoi ds
      if n < 0 then none else some n.toNat

/-- server/aof.go:179-204, one argument: what `Read` did not fill stays zero. `none` = panic. -/
def readArg (cap : Nat) (r : Rd) : Option (Bytes × Rd) := do
  let (l, r) ← readLine cap r
  let n ← lengthOf 36 l
  let (d, r) ← read cap n r
  let (_, r) ← read cap 2 r
  some (d ++ List.replicate (n - d.length) 0, r)

/-- server/aof.go:179-204, the loop. -/
def readArgs (cap : Nat) : Nat → Rd → Option (List Bytes × Rd)
  | 0, r => some ([], r)
  | n + 1, r => do
    let (a, r) ← readArg cap r
    let (as, r) ← readArgs cap n r
    some (a :: as, r)

/-- server/aof.go:157-204, the argument lists of all records. `none` = panic. `fuel` counts records; each takes at least one byte. -/
def records (cap : Nat) : Nat → Rd → Option (List (List Bytes))
  | 0, _ => some []
  | f + 1, r =>
    match readLine cap r with
    | none => some []
    | some (l, r) => do
      let n ← lengthOf 42 l
      let (args, r) ← readArgs cap n r
      if args = [] then none
      else do
        let rest ← records cap f r
        some (args :: rest)

/-- server/aof.go:155-204: the records of a file. -/
def parse (cap : Nat) (file : Bytes) : Option (List (List Bytes)) := records cap (file.length + 1) { buf := [], file }

/-- server/aof.go:206-213: one record is executed by the fake client; neither the number of arguments nor the password is checked, the
reply is dropped, nothing is logged. -/
def exec (e : Env) (args : List Bytes) (srv : Server) (s : Session) : Option (Server × Session) := do
  let a0 ← args[0]?
  match lookupCommand (e.lower a0) with
  | none => some (srv, s)
  | some cmd => do
    let (srv, s, _) ← Server.proc cmd.proc e args srv s
    some (srv, s)

/-- The records are executed one after the other; `es i` is what the outside world supplies to the i-th of them. -/
def replay (es : Nat → Env) : List (List Bytes) → Server → Session → Option (Server × Session)
  | [], srv, s => some (srv, s)
  | args :: rest, srv, s => do
    let (srv, s) ← exec (es 0) args srv s
    replay (fun n => es (n + 1)) rest srv s

/-- server/aof.go:136-215 `loadAppendOnlyFile`; the fake client starts in database 0. Simplification: reading and executing alternate in
the code; as neither depends on the other, all records are read first. `none` = panic. -/
def load (cap : Nat) (es : Nat → Env) (file : Bytes) (srv : Server) : Option Server := do
  let recs ← parse cap file
  let (srv, _) ← replay es recs srv Session.new
  some srv

end Metis.Aof
