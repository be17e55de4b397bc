import Verif.Model.Start
/-!
Specification of the start of the process: names of files, and what it means to obey a configuration.
-/
namespace Metis
namespace Spec

/-- The last element of the path ends with a dot and `t`, which has no dot. -/
def HasExt (path t : Bytes) : Prop := (∃ pre, path = pre ++ 46 :: t) ∧ (46 : UInt8) ∉ t ∧ (47 : UInt8) ∉ t

/-- The words of the configuration (config/config.go:22-31). -/
def policyWord : Policy → Bytes
  | .always => b!"always"
  | .everysec => b!"everysec"
  | .no => b!"no"

def levelWord : Start.Level → Bytes
  | .debug => b!"debug"
  | .info => b!"info"
  | .warn => b!"warn"
  | .error => b!"error"

/-- A process has the settings of the configuration; the address apart. -/
structure Obeys (c : Start.Config) (port : UInt16) (level : Start.Level) (node : Node) : Prop where
  port     : port = c.port
  level    : levelWord level = c.logLevel
  dbs      : (node.sys.srv.dbs.length : Int) = c.databases
  password : node.sys.srv.password = c.password
  aof      : node.sys.srv.aofEnable = c.aof
  fsync    : policyWord node.conf.policy = c.fsync
  percent  : node.conf.percent = c.percent
  minSize  : node.conf.minSize = c.minSize

/-- The words and the number of databases are ones that the server knows. -/
structure Sensible (c : Start.Config) : Prop where
  level : ∃ l, c.logLevel = levelWord l
  fsync : ∃ p, c.fsync = policyWord p
  dbs   : 1 ≤ c.databases

/-- The libraries and the operating system do what they are asked. -/
structure Willing (os : Start.Os) (c : Start.Config) : Prop where
  logger : ∀ l, os.logger c.logFile l = true
  file   : ∃ f, os.file c.aofFile = some f
  listen : ∀ a, os.listen a = true
  epoll  : os.epoll = true

end Spec
end Metis
