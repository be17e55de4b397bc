import Verif.Model.AofLoad
/-!
Model of server/aof.go:136-215 `loadAppendOnlyFile` once more, without the assumption of `Model/AofLoad.lean` that a read of the file succeeds and
returns as much as there is room for: the operating system may return fewer bytes, and may fail.

`(*os.File).Read` returns at least one byte, or an error, or io.EOF at the end (it hides EINTR). What the reads find is a parameter.
-/
namespace Metis.Chunks

/-- What one read of the file finds: some bytes, or an error. -/
inductive Find
  | bytes (c : UInt8) (cs : Bytes)
  | error
deriving DecidableEq, Repr

/-- What is still to be read; the end of the list is the end of the file. -/
abbrev Src := List Find

/-- All bytes of a source. -/
def Src.bytes : Src → Bytes
  | [] => []
  | .bytes c cs :: s => c :: cs ++ Src.bytes s
  | .error :: s => Src.bytes s

/-- The outcome of an operation on the reader. -/
inductive Res (α : Type)
  | ok (a : α)
  | eof
  | fail
deriving DecidableEq, Repr

/-- `(*os.File).Read` with room for `n > 0` bytes: what does not fit is found by the next read. -/
def fileRead (n : Nat) : Src → Res (Bytes × Src)
  | [] => .eof
  | .error :: _ => .fail
  | .bytes c cs :: s => .ok ((c :: cs).take n, match (c :: cs).drop n with
    | [] => s
    | d :: ds => .bytes d ds :: s)

/-- `bufio.Reader` as in `Aof.Rd`. -/
structure Rd where
  buf : Bytes
  src : Src
deriving DecidableEq, Repr

/-- `bufio.Reader.ReadBytes('\n')`; the two kinds of errors of the file are passed on. Fuel as in `Aof.readBytes`. -/
def readBytes (cap : Nat) : Nat → Bytes → Rd → Res (Bytes × Rd)
  | 0, _, _ => .eof
  | f + 1, acc, r =>
    match Aof.cut r.buf with
    | some (l, rest) => .ok (acc ++ l, { r with buf := rest })
    | none =>
      if r.buf.length ≥ cap then readBytes cap f (acc ++ r.buf) { r with buf := [] }
      else
        match fileRead (cap - r.buf.length) r.src with
        | .ok (b, src) => readBytes cap f acc { buf := r.buf ++ b, src }
        | .eof => .eof
        | .fail => .fail

/-- server/aof.go:138-145 `readLine` -/
def readLine (cap : Nat) (r : Rd) : Res (Bytes × Rd) :=
  match readBytes cap (2 * r.src.bytes.length + 2) [] r with
  | .ok (l, r) => .ok (Aof.trimRight l, r)
  | .eof => .eof
  | .fail => .fail

/-- `bufio.Reader.Read` into a slice of length `n`; `none` = an error of either kind. -/
def read (cap : Nat) (n : Nat) (r : Rd) : Option (Bytes × Rd) :=
  if n = 0 then some ([], r)
  else if r.buf ≠ [] then some (r.buf.take n, { r with buf := r.buf.drop n })
  else if n ≥ cap then
    match fileRead n r.src with
    | .ok (b, src) => some (b, { r with src })
    | _ => none
  else
    match fileRead cap r.src with
    | .ok (b, src) => some (b.take n, { buf := b.drop n, src })
    | _ => none

/-- server/aof.go:179-204, one argument. `none` = panic. -/
def readArg (cap : Nat) (r : Rd) : Option (Bytes × Rd) :=
  match readLine cap r with
  | .ok (l, r) => do
    let n ← Aof.lengthOf 36 l
    let (d, r) ← read cap n r
    let (_, r) ← read cap 2 r
    some (d ++ List.replicate (n - d.length) 0, r)
  | _ => none

/-- server/aof.go:179-204, the loop. -/
def readArgs (cap : Nat) : Nat → Rd → Option (List Bytes × Rd)
  | 0, r => some ([], r)
  | n + 1, r => do
    let (a, r) ← readArg cap r
    let (as, r) ← readArgs cap n r
    some (a :: as, r)

/-- server/aof.go:157-204: only io.EOF at the beginning of a record ends the loop (159-166); `none` = panic. -/
def records (cap : Nat) : Nat → Rd → Option (List (List Bytes))
  | 0, _ => some []
  | f + 1, r =>
    match readLine cap r with
    | .eof => some []
    | .fail => none
    | .ok (l, r) => do
      let n ← Aof.lengthOf 42 l
      let (args, r) ← readArgs cap n r
      if args = [] then none
      else do
        let rest ← records cap f r
        some (args :: rest)

/-- server/aof.go:155-204: the records of a file. -/
def parse (cap : Nat) (src : Src) : Option (List (List Bytes)) := records cap (src.bytes.length + 1) { buf := [], src }

/-- server/aof.go:136-215 `loadAppendOnlyFile`, with the simplification of `Aof.load`. -/
def load (cap : Nat) (es : Nat → Env) (src : Src) (srv : Server) : Option Server := do
  let recs ← parse cap src
  let (srv, _) ← Aof.replay es recs srv Session.new
  some srv

end Metis.Chunks
