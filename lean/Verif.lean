import Verif.Model.Ae
import Verif.Model.AofLoad
import Verif.Model.Bytes
import Verif.Model.Cells
import Verif.Model.Chunks
import Verif.Model.Commands
import Verif.Model.Db
import Verif.Model.Dict
import Verif.Model.DictRun
import Verif.Model.Fail
import Verif.Model.Fds
import Verif.Model.Fine
import Verif.Model.Listen
import Verif.Model.Mem
import Verif.Model.Net
import Verif.Model.NextPower
import Verif.Model.Node
import Verif.Model.Num
import Verif.Model.Power
import Verif.Model.Proc
import Verif.Model.Quicklist
import Verif.Model.QuicklistRun
import Verif.Model.Resp
import Verif.Model.Rewrite
import Verif.Model.Server
import Verif.Model.Set
import Verif.Model.SetRun
import Verif.Model.Shared
import Verif.Model.Skiplist
import Verif.Model.Start
import Verif.Model.Sys
import Verif.Model.Ticking
import Verif.Model.Whole
import Verif.Model.Wire
import Verif.Model.Zset
import Verif.Proofs.Abs
import Verif.Proofs.AbsRef
import Verif.Proofs.AbsRefZ
import Verif.Proofs.Ae
import Verif.Proofs.Again
import Verif.Proofs.AofLoad
import Verif.Proofs.Apart
import Verif.Proofs.Book
import Verif.Proofs.Cells
import Verif.Proofs.Chunks
import Verif.Proofs.Clerk
import Verif.Proofs.Coll
import Verif.Proofs.Decode
import Verif.Proofs.Deliver
import Verif.Proofs.Dict
import Verif.Proofs.DictIter
import Verif.Proofs.DictMap
import Verif.Proofs.DictRun
import Verif.Proofs.Durable
import Verif.Proofs.ExactAll
import Verif.Proofs.ExactCmd
import Verif.Proofs.ExactDet
import Verif.Proofs.ExactHost
import Verif.Proofs.ExactKeeper
import Verif.Proofs.ExactList
import Verif.Proofs.ExactSys
import Verif.Proofs.Expire
import Verif.Proofs.Fail
import Verif.Proofs.Fatal
import Verif.Proofs.Fds
import Verif.Proofs.Fine
import Verif.Proofs.Frame
import Verif.Proofs.Host
import Verif.Proofs.Keeper
import Verif.Proofs.Lapse
import Verif.Proofs.Levels
import Verif.Proofs.Listen
import Verif.Proofs.Loading
import Verif.Proofs.Local
import Verif.Proofs.Log
import Verif.Proofs.Mem
import Verif.Proofs.Naming
import Verif.Proofs.Net
import Verif.Proofs.NextPower
import Verif.Proofs.Node
import Verif.Proofs.Noted
import Verif.Proofs.Num
import Verif.Proofs.Numeral
import Verif.Proofs.Picture
import Verif.Proofs.Proc
import Verif.Proofs.Quicklist
import Verif.Proofs.Random
import Verif.Proofs.Reader
import Verif.Proofs.RefBase
import Verif.Proofs.RefColl
import Verif.Proofs.RefSys
import Verif.Proofs.Refused
import Verif.Proofs.Repeat
import Verif.Proofs.Replay
import Verif.Proofs.Reply
import Verif.Proofs.Resp
import Verif.Proofs.RespSafe
import Verif.Proofs.Restart
import Verif.Proofs.Rewrite
import Verif.Proofs.Saved
import Verif.Proofs.Scribe
import Verif.Proofs.Server
import Verif.Proofs.Set
import Verif.Proofs.Shared
import Verif.Proofs.SkipLevel
import Verif.Proofs.SkipOrder
import Verif.Proofs.Skiplist
import Verif.Proofs.SkiplistOps
import Verif.Proofs.SkiplistQueries
import Verif.Proofs.SkiplistReset
import Verif.Proofs.SkiplistRun
import Verif.Proofs.Start
import Verif.Proofs.Step
import Verif.Proofs.Sys
import Verif.Proofs.Tally
import Verif.Proofs.TallyCmd
import Verif.Proofs.Ticking
import Verif.Proofs.Timer
import Verif.Proofs.Told
import Verif.Proofs.Torn
import Verif.Proofs.Total
import Verif.Proofs.Twice
import Verif.Proofs.Types
import Verif.Proofs.Whole
import Verif.Proofs.Window
import Verif.Proofs.Wire
import Verif.Proofs.Words
import Verif.Proofs.ZCmd
import Verif.Proofs.ZSim
import Verif.Proofs.Zset
import Verif.Proofs.ZsetWeak
import Verif.Props.Acked
import Verif.Props.Ae
import Verif.Props.Again
import Verif.Props.AofLoad
import Verif.Props.Apart
import Verif.Props.Book
import Verif.Props.Calm
import Verif.Props.Chunks
import Verif.Props.Clerk
import Verif.Props.Collections
import Verif.Props.Deliver
import Verif.Props.Dict
import Verif.Props.Durable
import Verif.Props.Exact
import Verif.Props.ExactHost
import Verif.Props.ExactKeeper
import Verif.Props.Expire
import Verif.Props.Fail
import Verif.Props.Fatal
import Verif.Props.Fds
import Verif.Props.Fine
import Verif.Props.Frame
import Verif.Props.Host
import Verif.Props.Keeper
import Verif.Props.Keys
import Verif.Props.Labels
import Verif.Props.Lapse
import Verif.Props.Levels
import Verif.Props.Listen
import Verif.Props.Lists
import Verif.Props.Loading
import Verif.Props.Log
import Verif.Props.Loops
import Verif.Props.Mem
import Verif.Props.Naming
import Verif.Props.Net
import Verif.Props.NextPower
import Verif.Props.Node
import Verif.Props.Numbers
import Verif.Props.Numeral
import Verif.Props.Picture
import Verif.Props.Power
import Verif.Props.Proc
import Verif.Props.Quicklist
import Verif.Props.Reader
import Verif.Props.Reference
import Verif.Props.Refused
import Verif.Props.Repeat
import Verif.Props.Reply
import Verif.Props.Resp
import Verif.Props.Rewrite
import Verif.Props.Scribe
import Verif.Props.Server
import Verif.Props.Set
import Verif.Props.Shared
import Verif.Props.Skiplist
import Verif.Props.Sorted
import Verif.Props.Stamp
import Verif.Props.Start
import Verif.Props.Stranger
import Verif.Props.Tally
import Verif.Props.Ticking
import Verif.Props.Timer
import Verif.Props.Traceless
import Verif.Props.Twice
import Verif.Props.Types
import Verif.Props.Up
import Verif.Props.Whole
import Verif.Props.Wire
import Verif.Props.Words
import Verif.Props.Zset
import Verif.Spec.Apart
import Verif.Spec.Arity
import Verif.Spec.Chunks
import Verif.Spec.Clerk
import Verif.Spec.Collections
import Verif.Spec.Deliver
import Verif.Spec.Demo
import Verif.Spec.Deque
import Verif.Spec.Exact
import Verif.Spec.ExactHost
import Verif.Spec.ExactKeeper
import Verif.Spec.FMap
import Verif.Spec.FSet
import Verif.Spec.Fatal
import Verif.Spec.Fds
import Verif.Spec.Fine
import Verif.Spec.Frame
import Verif.Spec.Host
import Verif.Spec.Inbox
import Verif.Spec.Keeper
import Verif.Spec.Keyspace
import Verif.Spec.Labels
import Verif.Spec.Lapse
import Verif.Spec.Levels
import Verif.Spec.Listen
import Verif.Spec.Loading
import Verif.Spec.Log
import Verif.Spec.Mem
import Verif.Spec.Naming
import Verif.Spec.Numbers
import Verif.Spec.Numeral
import Verif.Spec.Picture
import Verif.Spec.Power
import Verif.Spec.Proc
import Verif.Spec.Reference
import Verif.Spec.ReplyDecode
import Verif.Spec.ReplySpec
import Verif.Spec.RespSpec
import Verif.Spec.Restart
import Verif.Spec.Scribe
import Verif.Spec.Session
import Verif.Spec.Shared
import Verif.Spec.SortedPairs
import Verif.Spec.Start
import Verif.Spec.Stranger
import Verif.Spec.Tally
import Verif.Spec.Ticking
import Verif.Spec.Timer
import Verif.Spec.Whole
import Verif.Spec.ZsetCmd
import Verif.Spec.ZsetSpec
