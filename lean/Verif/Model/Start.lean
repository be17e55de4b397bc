import Verif.Model.Node
import Verif.Model.Listen
/-!
Model of the start of the process: the command line (cmd/root.go:34-44), the configuration (config/config.go:48-76), the logger (log/log.go:22-52),
`NewServer` (server/server.go:65-107) and the part of `Run` before the event loop (server/server.go:109-136); `Bind` is in `Model/Listen.lean`.

External: viper, the logger and the operating system are given by `Os`. `filepath.Ext` is a library function
whose behaviour matters here; it is modelled after its source.

Simplifications: running out of memory below the limit of `make` is not modelled, nor are changes of the configuration file while the
server runs (the server has copied what it needs by then, and nothing reads the configuration again; a new file that cannot be decoded ends
the process, config/config.go:65-67, like a crash).
-/
namespace Metis
namespace Start

/-- config/config.go:34-46 `Config`; `uint` has 64 bits. -/
structure Config where
  host      : Bytes
  port      : UInt16
  logFile   : Bytes
  logLevel  : Bytes
  databases : Int
  password  : Bytes
  aof       : Bool
  aofFile   : Bytes
  fsync     : Bytes
  percent   : UInt64
  minSize   : UInt64
deriving DecidableEq, Repr

/-- log/log.go:30-41: the levels of the logger. -/
inductive Level | debug | info | warn | error
deriving DecidableEq, Repr

/-- What the process asks of its libraries and of the operating system. -/
structure Os where
  /-- config/config.go:50-61: viper reads the file, given its name and its type; `none` = an error, the process exits -/
  config : Bytes → Bytes → Option Config
  /-- log/log.go:24-43: the logger for the name of its file and the level; `false` = panic -/
  logger : Bytes → Level → Bool
  /-- server/server.go:88-98: the contents of the append-only file after it has been opened (and created if necessary); `none` = an error -/
  file : Bytes → Option Bytes
  /-- `net.ParseIP` for texts in which a colon comes before the first dot -/
  parse6 : Bytes → Option Bytes
  /-- socket, setsockopt, bind and listen (server/tcp.go:9-34) succeed for the address and the port -/
  listen : Listen.Addr → Bool
  /-- `epoll_create` succeeds, and adding the listening socket -/
  epoll : Bool

/-- How the start ends. -/
inductive Outcome
  /-- a panic -/
  | panic
  /-- a message and exit status 1 -/
  | fatal
  /-- the event loop starts; the address and the port on which the process listens, and the level of the logger -/
  | up (addr : Listen.Addr) (level : Level) (node : Node)

/-- `filepath.Ext` (path/filepath/path.go): from the last dot of the last element of the path; empty without a dot. The loop runs from the end, so
the function takes the path reversed; `suffix` is what has been passed. -/
def extLoop : Bytes → Bytes → Bytes
  | [], _ => []
  | c :: rest, suffix => if c = 47 then [] else if c = 46 then 46 :: suffix else extLoop rest (c :: suffix)

def ext (path : Bytes) : Bytes := extLoop path.reverse []

/-- cmd/root.go:35 `filepath.Ext(configFile)[1:]`; slicing an empty string from 1 panics. -/
def configType (path : Bytes) : Option Bytes :=
  match ext path with
  | [] => none
  | _ :: t => some t

/-- log/log.go:30-41 -/
def level (s : Bytes) : Level :=
  if s = b!"debug" then .debug
  else if s = b!"info" then .info
  else if s = b!"warn" then .warn
  else if s = b!"error" then .error
  else .info

/-- server/aof.go:116-119: what the text of the configuration amounts to; the code compares with two of the three words. -/
def policy (s : Bytes) : Policy :=
  if s = b!"always" then .always
  else if s = b!"everysec" then .everysec
  else .no

/-- server/server.go:66-69 -/
def dbNum (databases : Int) : Nat := if databases > 0 then databases.toNat else 16

/-- The longest slice of pointers that `make` allows: 2^48 bytes. -/
def maxSlice : Nat := 2 ^ 45

/-- The fields of the server that come from the configuration (server/server.go:71-82). -/
def conf (c : Config) : Conf := { percent := c.percent, minSize := c.minSize, policy := policy c.fsync }

/-- server/server.go:109-136 `Run` up to the event loop; errors of epoll make the caller panic (cmd/root.go:39-43). -/
def run (os : Os) (es : Nat → Env) (c : Config) (file : Bytes) : Outcome :=
  match Listen.bind os.parse6 c.host c.port with
  | none => .fatal
  | some addr =>
    if os.listen addr then
      if os.epoll then
        match Node.restart es (Node.start (conf c) file (Server.init (dbNum c.databases) c.password c.aof)) with
        | none => .panic
        | some node => .up addr (level c.logLevel) node
      else .panic
    else .fatal

/-- server/server.go:65-107 `NewServer`, and `Run`. -/
def serve (os : Os) (es : Nat → Env) (c : Config) : Outcome :=
  match if c.aof then os.file c.aofFile else some [] with
  | none => .fatal
  | some file => if dbNum c.databases > maxSlice then .panic else run os es c file

/-- cmd/root.go:34-44 `run` -/
def main (os : Os) (es : Nat → Env) (path : Bytes) : Outcome :=
  match configType path with
  | none => .panic
  | some t =>
    match os.config path t with
    | none => .fatal
    | some c => if os.logger c.logFile (level c.logLevel) then serve os es c else .panic

end Start
end Metis
