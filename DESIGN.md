# Formal model of IfanTsai/metis in Lean 4

Properties: `properties.jsonl`. Status: `MANIFEST.json`. Bug-seeding log: `seeded/LOG.jsonl`.

How to read the log: `failed_lemmas` are the declarations whose proofs Lean rejected in the edited copy. `failed` is every property theorem that is one of them or depends on one of them. A long list in `failed` therefore mostly means that a shared lemma broke, often only its proof script, and does not show that each listed theorem tells the wrong program from the right one. Where the lemma that broke is imported by the theorem's file, that file was not rebuilt at all. The last 19 entries were built for the files of C117 to C122 only, not for the whole project.

Five of these 19 were followed further, with the lemma that broke first set aside in the scratch copy. SELECT that answers with the current number then breaks the proof of C121 (its log entry names only C37 and C111), and EXPIREAT that counts from now breaks that of C118. GET in lower case (C120), HSET that counts every field and ZREM that counts every member (both C118) stopped at further shared lemmas: it is not shown that C120 and C118 themselves notice these three.

## 1. Layout (under `lean/Verif/`)

| directory | content |
|---|---|
| `Model/` | the model of the Go code, one file per Go file group; every definition cites file and lines |
| `Spec/`  | small specifications (plain maps, lists, sorted lists) used only to state the properties |
| `Proofs/`| invariants and helper lemmas |
| `Props/` | the property theorems (named `Cxx_...`), refutations and non-vacuity examples, nothing else |

## 2. Conventions

* A Go `string`/`[]byte` is `Bytes = List UInt8`. Signed machine integers are `Int`/`Nat` unless the property is about
  overflow (`GetNextPower`, AOF growth arithmetic), where fixed-width arithmetic is used.
* A Go run-time panic (index out of range, nil dereference, negative make, `log.Panic`/`log.Fatal`) kills the process
  (there is no `recover` in the repository). It is the result `none` of an `Option`-valued model function.
* A function mutating through a pointer returns the new value. Loops are structural recursion or take fuel; where fuel is
  used, running out is also `none` and a theorem shows it does not happen in reachable states.
* External calls are parameters: hash function (any), random draws (any), clock readings (any), `strconv.ParseFloat` /
  `FormatFloat`, `regexp`, epoll, read/write results.
* A `float64` is its 64-bit pattern with IEEE-754 comparison defined on bits (NaN, signed zero included).

## 3. Plan per property

* C01-C03, C05, C06, C07, C09 `Model/Dict.lean` (two tables of buckets, incremental rehash, iterator counter). Invariant +
  refinement to an association list/map by induction over operation lists, for an arbitrary hash function.
* C04 iterator model (`table`, `index`, current chain) with a loop body that may delete the current key.
* C08 `getNextPower` over 64-bit two's complement; bit-level proof.
* C10 `Model/Set.lean` on top of Dict.
* C11-C14 `Model/Quicklist.lean` (list of pages, with the shadowed `pageIndex` in `get` as written). C12 is false of the code:
  prove the negation with witnesses and the part that holds (`_partial`).
* C15-C22 `Model/Skiplist.lean`: pointer heap (addresses, levels with forward/span, backward, tail). Invariant relating the
  heap to a sorted list with heights; C17, C20 are false of the code (rank reset inside the level loop; the successor is
  returned): negation + partial.
* C23-C25 `Model/Zset.lean`; C23, C24 are false (score overwritten before the skiplist delete): negation + partial.
* C26-C29 `Model/Resp.lean`: query buffer as received bytes + zero slack, the three parsers, `readQueryFromClient`. C27, C28,
  C29 are false: negations + partials.
* C30 reply encoders + an independent RESP decoder. C31, C32 reply-queue state machine.
* C33-C43 `Model/Server.lean`, `Model/Commands.lean`: all commands of the command table over the concrete data structures.
* C44-C56 `Model/Aof.lean`: feed, flush, fsync, loader over a model of `bufio.Reader`, rewrite, done-callback with crash points.
* C57-C60, C63 `Model/Ae.lean`. C61, C62 as C04 and C24.
* C69 (Proofs/Total, Proofs/Random, Props/Calm) which requests cannot crash the server, over single steps and whole histories.
* C70 `Model/Wire.lean` (parser, commands and output queues together, bytes to bytes): simulation by a sequential history of `Sys`, by induction over
  the callbacks; then C28 and C30 for the requests and the decoded replies.
* C71 from C51 and the silence of the loop between flushes (C54). C72 `Model/Listen.lean`: false of the code, exact behaviour proved.
* C76 (`Model/Mem.lean`, `Spec/Mem.lean`, `Proofs/Mem.lean`, `Props/Mem.lean`) models the parser a second time over memory: arrays, slices
  and strings as windows, `append`, `read` and `reset`. The invariant: buffers of different clients lie in different arrays, the bytes not yet
  received are zero, and every string handed out lies before the part of its array that anyone can still write to. The parser over memory then
  refines the parser over values client by client, so that the theorems about the latter (C26–C29, C70) hold of the former.
* C73, C74, C75 (`Spec/Apart.lean`, `Proofs/Apart.lean`, `Props/Apart.lean`) compare two executions: a command run on two databases that agree
  on the keys it names has the same effect there and the same reply, whatever the hash function. A value counts as the same if it is the same
  as a value of the view: same string, same map, same set, same pages of a list, same nodes of a sorted set.
* C64-C68 end-to-end theorems about single requests in reachable states (list reads, KEYS, deadlines, arity, sorted sets), stated
  on what a key shows at a time (`Sys.seen`) and on decoded replies (`Says`), by the refinement used for C33-C43.
* C77 to C79 (`Model/Proc.lean`, `Spec/Proc.lean`, `Proofs/Proc.lean`, `Props/Proc.lean`) are about the process as a set of goroutines: the loop, the
  rewrite goroutine, the syncs of everysec, and the main goroutine that executes `Stop`. The state is a `Node` and the real contents of the disk, which lag behind
  during the callback of a rewrite. C77 is a refinement in both directions; C78 says which schedule crashes the server; C79 what a shutdown loses.
* C80 and C81 (`Model/Power.lean`, `Spec/Power.lean`, `Props/Power.lean`) add to this what of the file is on stable storage, and power failures.
* C82 (`Spec/Levels.lean`, `Proofs/Levels.lean`, `Props/Levels.lean`) compares executions that draw different skiplist levels: two sorted sets are
  related when they hold the same scores and their skiplists list the same pairs in the same order; every command except ZREMRANGEBYRANK from ranks
  beyond the first keeps this and replies the same.
* C83 (`Props/Again.lean`) joins C48 and C82: what is loaded from the log is related to what was in memory by the relation under which C82 shows that
  replies agree. For this the replay of C46 keeps more than the contents of a sorted set: the two skiplists list the same entries in the same order
  (`Proofs/ZSim.lean`), which also lets ZREMRANGEBYSCORE be replayed.
* `Proofs/Window.lean` (C45) says exactly which logs the loader reads back, for logs of any length; the other properties about the file use it
  (`Readable`).
* C84 and C85 (`Props/Fds.lean`) are about descriptor numbers. `Model/Fds.lean` separates the object (the i-th client, the j-th file) from the number that it
  remembers; every system call is recorded with both the object that makes it and what the number is open on. The invariant says that the only callback that can belong
  to a closed number is the writable one right after the readable one that closed it. `Spare` is the exact condition on the goroutine (`C84_clash`).
* C86 and C87 (`Props/Timer.lean`, `Props/Book.lean`) compare a run with the run of the same history without its timer events. The relation (`Gone`) allows a key to be
  missing on the side of the timer if it is past its deadline on the other; `Awake` says which requests could notice. For C87 two such runs are joined by C82, and
  `Proofs/Book.lean` shows that what a request adds to the log depends only on the request, the selected databases and whether anything was changed.
* C88 (`Props/Lapse.lean`) generalises C46 to histories in which deadlines pass: the removal of expired keys is not logged, and the log is replayed at a later
  time than it was written. `Lapsed` relates the running server and the replayed log key by key: keys whose deadlines lie after the restart have a faithful
  copy; keys that have had an earlier deadline either have a faithful copy or are gone on both sides. That the commands of the log act on one key (`LocalAt`) carries the lemmas of C46 over.
* C89 (`Props/Stranger.lean`) is noninterference: a statement about two runs, with and without the connections that do not authenticate (integrity), and on two
  different servers (secrecy). The reply to such a request is given by a separate function `answer` of the request (`Spec/Stranger.lean`).
* C64, C69, exact (`Props/Fatal.lean`): for the commands that do not depend on random numbers or the order of sorted sets, an if-and-only-if for the panic, in terms of
  the sizes of the pages of the list (`lands`, Spec/Fatal: where the code lands instead of the element asked for).
* C90 (`Props/Frame.lean`) relates the incremental parser to `verdict` (Spec/Frame), which looks at all bytes since the last command anew and has no state. From this
  the exact set of byte sequences that crash the parser is derived as a grammar (`Fragile`, `C29_exact`).
* C91 (`Props/Up.lean`) puts C90, C89, C69 and C70 together on the model of the whole server (`Wire`): `inbox` computes from the events what has been received on a
  connection since its last command. False of the code, with the exact condition proved.
* C92 (`Spec/Reference.lean`, `Proofs/RefBase.lean`, `RefColl.lean`, `RefSys.lean`, `Props/Reference.lean`) is a refinement of the server
  by a reference server that a reader can take in: each command is a relation between a plain database, the words, a new database and a reply
  value. Where metis deviates from Redis without misbehaving (EXPIRE of a missing key, LPUSH and the like not looking at the deadline, TTL of a late key, RANDOMGET,
  empty collections that stay) the reference does what metis does and says so. Where metis misbehaves the reference does the right thing and
  the request is outside `Within`. The theorem for histories without restriction of any kind is `C92_until_partial`.
* C93 (`Spec/Host.lean`, `Proofs/Host.lean`, `Props/Host.lean`) puts the reference of C92 behind sockets (`Host`, `Serves`) with the stateless parser of C90, and relates it
  to the model of the whole server (`Wire`): parser state, session, output queue and kernel buffer of each connection against two byte strings and a number.
* C94 (`Model/Start.lean`, `Spec/Start.lean`, `Props/Start.lean`) is about the way from the command line to the event loop. The extension of the file name is specified by
  concatenation, not by a loop. The result of a start is the `Node` from which the properties of the running process begin.
* C95 (`Spec/Deliver.lean`, `Proofs/Deliver.lean`, `Props/Deliver.lean`) is a liveness property on the model of the wire: a history without end is a function from the natural
  numbers to states and events with `Wire.step` between them. The fairness assumed is that, while something is pending, the socket takes at least one byte again at some later moment
  (`Takes`); the progress measure is the number of bytes pending at the moment considered.
* C96 (`Spec/Keeper.lean`, `Proofs/Keeper.lean`, `Props/Keeper.lean`) joins C92 with C48 to C51 on the model of the running process (`Model/Node.lean`). The specification is the
  reference server of C92 with a disk: a flush writes the databases to the disk, a restart reads them, with deadlines to the second. The simulation relation ties the disk to the
  databases that the file of the process would load to; the replies are compared connection by connection at every moment of the history, not only at its end.
* C97 (`Model/Cells.lean`, `Model/Shared.lean`, `Spec/Shared.lean`, `Proofs/Cells.lean`, `Proofs/Shared.lean`, `Props/Shared.lean`) models the dict a second time, with its entries as objects in a
  memory that are linked by `next` pointers, and any number of loops over it whose turns are interleaved with calls. `Proofs/Cells.lean` shows that this dict refines the one of `Model/Dict.lean`
  (every entry paired with its address), and what a call does to the memory: it makes, changes or unlinks one object with its key. The invariant of a loop: every entry whose key was never absent
  since the loop began is either among the objects it has returned, or on the path of pointers from its saved pointer, or in a bucket ahead, and only once. The specification
  (`Spec/Shared.lean`) knows only functions from keys to values.
* C98 (`Props/Loops.lean`) joins C97 with the model of the process: `Node` knows of a loop only when it begins and when it ends, and which fields have changed between; the theorem says that
  whatever a loop of `Shared` collects while the requests are executed call by call is one of the things that `Node` lets it collect, so that C48 to C51, C71, C77, C79 to C83 and C96, which are
  proved for all of them, hold for the real loops.
* C99 (`Model/Fail.lean`, `Props/Fail.lean`): every operation of server/aof.go that ends the process when it fails is a `Fault` of the process of `Proc.lean`; `fail` says what is then in the
  file. The claim is the one of C51 and C71 for the file that a failure leaves. When the loader accepts such a file follows from C56, which is exact for logs of any length (`Proofs/Torn.lean`).
* C100 (`Model/Fine.lean`, `Spec/Fine.lean`, `Proofs/Fine.lean`, `Props/Fine.lean`) splits the calls of the server and the turns of the loops of C97 into single steps: a call goes on by one write that
  a loop can see, a loop by one read of what the server can write. The invariant is the one of C97 with the stage of each loop; inside a step of a rehash it is said of the state in which that step will
  end, which is sound because no loop on its way and no other write can fall into it. The order in which calls take effect is the order in which they end.
* C101 (`Spec/Tally.lean`, `Proofs/Tally.lean`, `Proofs/TallyCmd.lean`, `Props/Tally.lean`) states what sorted sets do when members are given new scores, which C23, C24, C62 and C68 exclude. The
  specification is a table of scores and an unordered collection of entries (score as an integer, member); `Tally.add`, `rem`, `cut`, `shed`, `told` and `ranks` are a few lines each and do not mention skiplists.
  `Books o t` relates the value of a key to a tally; it determines the tally up to the order of entries (`books_unique`). A listing is `none`, a crash, if a listed member is not in the table.
* C102 (`Spec/Exact.lean`, `Proofs/ExactList.lean`, `Proofs/ExactCmd.lean`, `Proofs/ExactAll.lean`, `Proofs/ExactSys.lean`, `Props/Exact.lean`) is C92 without its limits. The exact reference keeps, beside
  the values and deadlines of C92, the sizes of the pages of each list and the entries of each sorted set (C101); nothing else of the representation (no skiplist levels, no hash tables, no page
  contents other than the list itself). A request that crashes the server is one for which it has no outcome. What it does with these two is the behaviour of the code where the code deviates from
  the reference of C92: positions of LINDEX and LRANGE are sought page by page in the way of `lands` (C64), RPOP of a list of two and more pages has no outcome, pushes fill pages of 1024, deadlines
  are reduced to 64 bits, ZREMRANGEBYRANK does not count ranks from the end. All other commands are literally those of C92.
* C103 (`Spec/ExactHost.lean`, `Proofs/ExactHost.lean`, `Proofs/ExactDet.lean`, `Props/ExactHost.lean`) is to C102 what C93 is to C92: the exact reference behind sockets. The framing is that of
  `Spec/Frame.lean`; a read that crashes the parser has no outcome. `Agree` says of the state reached which next events the server survives. For whole histories (`C102_history_partial`,
  `C103_history_partial`) the reference must be deterministic, which `Proofs/ExactDet.lean` shows for all commands but SPOP and RANDOMGET.
* C104 (`Model/Ticking.lean`, `Spec/Ticking.lean`, `Proofs/Ticking.lean`, `Props/Ticking.lean`) drops the simplification that a command reads the clock once. A
  clock is a function from the number of the reading to the time; the commands with loops read it once per turn. In the reference SDIFF, SINTER and SUNION look
  at each key at its own reading; other commands are those of C102 at the first reading, in a database without some keys whose deadlines pass meanwhile. Set
  operations needed a form of their own since a key named twice can be there for one look and gone for the next (`Model/Ticking.lean` `lost`: the set is still in
  hand, its key is gone from the database). A turn of KEYS, RANDOMGET or of the set operations counts as a reading even if the key
  has no deadline, where the code reads no clock; since all clocks that do not go back are considered, and every sequence of readings is one of them, nothing
  is lost.
* C105 (`Props/Stamp.lean`) uses the same model: the record of EXPIRE and SETEX is made with a second reading (`aof.go` catAppendOnlyExpireCommand).
* C106 (`Model/Chunks.lean`, `Spec/Chunks.lean`, `Proofs/Chunks.lean`, `Props/Chunks.lean`) models the loader a second time over a file whose reads may come
  back short or fail; `parse_whole` shows that it is the first model if they do not. `Spec.pass` follows the lengths of the portions only, not the bytes.
* C107 (`Spec/ExactKeeper.lean`, `Proofs/ExactKeeper.lean`, `Props/ExactKeeper.lean`) is to C96 what C102 is to C92: the exact reference with a disk. The disk holds the databases together
  with the sizes of the pages of the lists and the entries of the sorted sets, since these decide what later requests answer and which of them crash. That a replay of the log makes the same
  pages is part of the relation `OSame` of the replay proofs (lists are equal page by page), that it leaves the same entries is part of `ZSim`. `Warned` is the statement about crashes; it needs that the reply
  can always be queued and the goroutine can always be started (`request_some`), so the only way down is the command itself.
* C108 (`Model/Whole.lean`, `Spec/Whole.lean`, `Proofs/Whole.lean`, `Props/Whole.lean`) puts the parser of C90 in front of the process of C107. The events are those of the process, but instead of requests
  there are reads; `inner` gives the events of `Model/Node.lean` of which an event consists. What a read means in the reference is said by `verdict` (`Spec/Frame.lean`), a parser without memory.
* C109 (`Spec/Loading.lean`, `Proofs/Loading.lean`, `Props/Loading.lean`) says what loading is in terms of the exact reference: `Exact.Takes` is one record, `Exact.Loads` all of them. The loader of the model
  (`Aof.load`) is compared with it for records of any origin; the proof takes a record as a request of a connection that is alone with the server and needs no password (`Loading.aloneRef`).
* C110 (`Spec/Scribe.lean`, `Proofs/Noted.lean`, `Proofs/Scribe.lean`, `Props/Scribe.lean`) puts C109 under the process: `Exact.Scribe` is the exact reference with a file, a buffer of records and the database of the last record.
  `Noted` says from the reply alone whether a command leaves a record; `noted_iff` proves that this is when the dirty counter of `call` moves. `Scribe.Lives` has no hypothesis about the moment of a restart. `Sober` is what a history must satisfy
  (world, nothing left out of C102, no BGREWRITEAOF, loaded files readable). The reference of C107 rewrites and is limited to orderly restarts; this one restarts anywhere and does not rewrite.
* C111 (`Spec/Numeral.lean`, `Proofs/Numeral.lean`, `Props/Numeral.lean`): `place` is the value of digits by their places, `Numeral` the texts that denote a number. A seeded error (`+` read as a minus) had survived: nothing said what `atoi` does
  with texts that the server did not print itself.
* C112 (`Spec/Picture.lean`, `Proofs/Picture.lean`, `Props/Picture.lean`): `Exact.Shot` are the commands for one value, `Exact.Album` those for all databases, `Exact.Spoiled` the sorted sets on which the rewrite crashes. The order of keys, fields and members is
  left open, everything else is fixed; `Portions` says how items are cut into commands without the chunking function of the model.
* C113 (`Spec/Clerk.lean`, `Proofs/Clerk.lean`, `Props/Clerk.lean`) adds the rewrite to C110. `Exact.Clerk` is `Exact.Scribe` with a stage (no rewrite; the databases are being written down; the records of the new file) and the length at the last replacement; what is written down is `Exact.Album` of C112, when a rewrite begins by itself is said in 64-bit numbers (`Exact.Due`). The invariant `ClerkSim.COk` carries the portfolio of the goroutine: while it works nothing changes, so the copies it took are the databases (`Copying`), and the records it has written and those it will write together are an album. Rewritten files contain ZADD records with member and score exchanged (C49); what such records do when they are loaded is said by the reference that loads (C109), except that a member read as NaN is left out.
* C114 (`Proofs/Twice.lean`, `Props/Twice.lean`) joins C56 with the process of C52-C55. The reader side (`Aof.parse_joined`) is that a file with records, a part of one at which C56 lets the file end, and at least one more record is not read: the part and the next first line make one line with a star in it, which is no number, or the last argument is followed by `\r*` in place of `\r\n` and the next line begins with a digit. The process side (`Node.Tidy`, `run_tidy`) is that everything that is or will be written (buffer, rewrite buffer, temporary files) consists of whole records. The file is opened for appending and never cut (server/server.go, server/aof.go:95-110), which is what makes the claim false.
* C115 (`Proofs/Words.lean`, `Props/Words.lean`) says what becomes of words too many or too few. The two tables in the property file (`looksAt`, `takes`) are written down from the sources of the commands and are compared with the model by the proofs; the loader calls the procedures without counting (server/aof.go:206-213), the server counts before it does (server/command.go:113), and only where the table of commands gives a fixed number does it refuse surplus words.
* C116 (`Proofs/Reader.lean`, `Props/Reader.lean`) compares a history with the one in which some of the reading requests are left out, with the relation of C86 (same values and deadlines, but for keys past their deadline that one of the two has removed). Reading requests are those of the list `asks`, which is written down in the property file.
* C117 (`Proofs/Refused.lean`, `Props/Refused.lean`): `Untouched` lists what a client could see, now or after a restart: sessions, values and deadlines (with the relation of C86, so a key past its deadline may have been removed), log, counter and task. It leaves out the inner arrangement of the dictionaries, which reading also changes.
* C118 (`Proofs/Repeat.lean`, `Props/Repeat.lean`) is about two equal requests in a row on one connection. The second may have another clock and other draws and levels (another `Env`); for ZADD the texts must be the same numbers. That the second request succeeds is a hypothesis (C69 says when requests do).
* C119 (`Props/Traceless.lean`): which requests are left out may depend on their replies (`gone` is about an event and its reply); otherwise as C116.
* C120 (`Spec/Naming.lean`, `Props/Naming.lean`): which words of a request are keys is `renArgs`: all after the first of SDIFF, SINTER and SUNION, the second of the other commands on keys. The command names and the other words are not renamed.
* C121 (`Spec/Numbers.lean`, `Props/Numbers.lean`): only the argument of SELECT is changed, and only if it is the number of a database. Since every connection starts on database 0, a renumbering has to keep 0.
* C122 (`Spec/Labels.lean`, `Props/Labels.lean`): stated of complete requests (`Sys`); that buffers do not mix up descriptors is C76 and its kind. The theorem holds of equal random choices in both histories.

No property of the list was found to be inexpressible; for those involving the OS (epoll, files, fsync, sockets) the model
carries the bookkeeping logic and the OS contract is an explicit parameter.

## 4. Trusted base

* Lean 4.33.0's kernel (and, for the library facts used, Mathlib as installed, which the kernel checks as well).
* Axioms: every theorem of `MANIFEST.json` depends on a subset of `propext`, `Classical.choice`, `Quot.sound`; the exact list per
  theorem is in `AXIOMS.txt` (output of `#print axioms`). There is no axiom of our own, no `sorry`, `native_decide` or `bv_decide`.
* The faithfulness of `Model/` to the Go source, by reading. Nothing of the Go code was executed.
* The reading of each property in `Props/` and `Spec/` (both are short and are meant to be read).

## 5. What is modelled, and how it is simplified

| Go | model | left out |
|---|---|---|
| `datastruct/dict.go` | `Model/Dict.lean`, `DictRun.lean`, `NextPower.lean`; `Model/Cells.lean` with entries as objects linked by pointers, `Model/Shared.lean` with several loops over one dict, `Model/Fine.lean` with the steps inside the calls | nothing (`GetRandomKey` and `DeepCopy` only in `Dict.lean`) |
| `datastruct/set.go` | `Model/Set.lean`, `SetRun.lean` | nothing |
| `datastruct/quicklist.go` | `Model/Quicklist.lean`, `QuicklistRun.lean` | page capacity growth (`append`) |
| `datastruct/skiplist.go` | `Model/Skiplist.lean` | garbage: removed nodes stay in the heap |
| `datastruct/zset.go` | `Model/Zset.lean` | nothing |
| `database/*.go` | `Model/Db.lean` | nothing |
| `server/command*.go` | `Model/Commands.lean`, `Model/Server.lean`; `Model/Ticking.lean` with a clock that moves while a command runs | log output |
| `server/resp.go`, `client.go` (input) | `Model/Resp.lean`; `Model/Mem.lean` with slices of shared memory | nothing (that strings made by `B2S` behave as values is C76) |
| `server/client.go` (output), `tcp.go` | `Model/Net.lean`; `Model/Fds.lean` with the client objects and descriptor numbers | socket options |
| `server/server.go` | `Model/Server.lean`, `Sys.lean`, `Node.lean`, `Wire.lean`; `Start.lean` (`NewServer`, `Run`); `Proc.lean` (`Stop`); `Whole.lean` (parser, process and disk together) | nothing |
| `server/aof.go` | `Model/AofLoad.lean`, `Rewrite.lean`, `Node.lean`; `Chunks.lean` (short and failing reads); `Proc.lean` and `Power.lean` (syncs), `Fail.lean` (errors) | nothing |
| `socket/socket.go` | `Model/Listen.lean` (`Bind`, `Connect`); the other calls are events of `Net`, `Node`, `Wire` | the IPv6 half of `net.ParseIP` is a parameter |
| `ae/ae.go` | `Model/Ae.lean`; `Stop` in `Model/Proc.lean` | nothing |
| `config`, `cmd`, `log`, `main.go` | `Model/Start.lean`; the wait for the signal in `Model/Proc.lean` | viper and the logger are parameters; reloading the configuration: it has no effect on the server, which has copied what it needs, unless the new file cannot be decoded, which ends the process (config/config.go:65-67) like a crash at any moment (C51) |

Simplifications, by area:

* **Integers.** `int`, `int64` are unbounded except in `GetNextPower`, the AOF growth arithmetic, the timer arithmetic, deadlines in
  `EXPIRE`/`SETEX`/`EXPIREAT` and the numbers of list and range commands where overflow is part of the property.
* **Sharing.** Values of a dict are shared by reference in Go. The model copies them; the only place where the difference shows is the
  rewrite goroutine, which reads collections that the server goes on changing. `Node.follow` models this: a pending key sees the
  collection as it is when it is written, until the server puts another object under the key. A loop over a hash or a set may begin and end at different moments;
  it collects the fields that have not changed between them, and anything of the others (`Node.loose`; C98 proves that the loops of `Shared` do).
* **Iterators.** In `Dict.lean` the saved chain of a dict iterator is the list of entries the pointers lead to when the bucket is entered. `Cells.lean`
  has the pointers themselves; C97 is proved there, for calls and turns of loops as atomic steps. `Fine.lean` splits the calls and turns into single
  reads and writes of what both sides share (C100); steps are seen by the other goroutine in the order in which they are made (Go's memory model promises this only for synchronised
  programs). The race on the counter of iterators is modelled apart (`Racy`).
* **Skiplist.** `randomLevel` is a parameter, with its `int8` counter modelled for C22. Slices of pointers are limited to 2^45 elements,
  above which `make` panics (`maxPtrCap`).
* **Clock.** One reading per event, except in `Model/Ticking.lean` (C104, C105), where every turn of a loop and the log have their own.
* **Query buffer.** In `Model/Mem.lean` a slice of a backing array, with `append` in place or into a new array of any capacity; in
  `Model/Resp.lean`, which it refines (C76), received bytes followed by zero bytes of slack; growth by doubling as written. Memory is unlimited otherwise.
* **Random draws.** A list supplied by the environment; `none` also stands for a list that is used up (SPOP, RANDOMGET, the timer), so theorems
  say "if the call returns"; SPOP and RANDOMGET on an empty database loop for ever in Go as well.
* **Commands.** Collections are written back with `put`, where Go changes them in place. `addReply` never fails inside `call`.
  KEYS with an invalid pattern goes on with the loop after the error reply, as in the code.
* **Loader.** Reads the file with `bufio.Reader` semantics, whole records first, execution after that; file reads return full blocks.
* **Event loop.** Callbacks are lists of registrations and removals (`Ae`). Timer ids are unbounded. `epoll_ctl` refuses only what
  conflicts with the registered state (C57 quantifies over further refusals).
* **Stale callbacks.** `Net`, `Node` and `Wire` let a freed client do nothing more. In the code a callback collected before the client was freed still runs; `Fds` models
  this, and C84, C85 say when it has no effect (always, unless a rewrite opens its file in between).
* **Process (`Node`).** Steps of the goroutine are atomic per string, list and sorted set; loops over hashes and sets are not, but begin and end between requests, and do not hold up
  the rehash in `Node`. `mv` takes no time, but a crash may leave any prefix of the new file
  (`crashInDone`). `File.Sync` of everysec is done when it is requested. `Model/Proc.lean` drops these two simplifications: the callback
  takes several steps, syncs are goroutines, `Stop` runs beside the loop; C77 proves that it refines `Node`. A restart forgets what was synced (`synced := 0`).
* **Power failures** (`Model/Power.lean`). A file loses what was not synced from its end only; the operating system may have written any part of it earlier.

## 6. Where the code does not have the property

For each of these the full statement is a definition `Cxx` (or is negated directly), the negation is proved with a concrete
witness in the model, and what remains true is proved as `Cxx_..._partial`.

* **C100** The full claim `C100` is refuted (`C100_false`): a loop that begins inside the last step of a rehash may crash the process (`C100_crash`), so may `Size` (`C100_crash_in_size`), it may miss every key (`C100_misses_all`) or collect keys twice that nobody touched (`C100_twice`). Proved for all interleavings: the server's own calls are never disturbed (`C100_server`), and a call without interruption is the call of `Cells.lean` (`C100_atomic`). Proved under the condition `Calm` (`C100_inside_calls_partial`): the whole claim. Missing: the condition, that loops begin outside of the steps of a rehash and that no such step begins inside of a `Size`; the code does not establish it.
* **C102** The claim is false if ZREMRANGEBYRANK is to remove the entries of the ranks asked for (`C102_refuted`: rank 2 to 2 removes nothing for some levels; C17 says exactly when it removes the wrong ones). Proved for all histories without scores that are NaN in which every ZREMRANGEBYRANK begins with the first rank or asks for none (`C102_partial`): every reply is the one of the exact reference; in the state reached, every possible event (request, connection, timer) without the two is survived - given enough random numbers for SPOP, RANDOMGET and the timer - exactly if the exact reference has an outcome for it; for requests that draw no random numbers the server crashes exactly if it has none. Over whole histories without random draws and timer events: the server is brought down exactly if the reference has no run (`C102_history_partial`). No other limit: lists of any length, any deadlines, re-scored members, negative SELECT. Missing: ZREMRANGEBYRANK from a rank beyond the first, and NaN. With a clock that moves during commands: C104.
* **C103** Refuted: as C102 (C103_refuted). Proved for all histories of socket events in which no completed command is left out (NaN, ZREMRANGEBYRANK from a rank beyond the first): every connection has been sent, or has queued, exactly the bytes of the exact reference, and in the state reached every next event is survived exactly if the reference has an outcome for it (`C103_partial`); without random draws, timer events and failing writes, whole histories bring the server down exactly if the reference has no run for them (`C103_history_partial`). Missing: what C102 leaves out.
* **C104** Refuted (C104_refuted): with deadlines 5000 of a and 10000 of b, KEYS * answers a alone if the clock reads 5000 for a and 20000 for b; at no single moment is a alive and b dead. `C104_twice`: SDIFF s s answers with a member if s dies between the two looks. Proved for all histories of C102 with clocks that do not go back (`C104_partial`): SDIFF, SINTER and SUNION look at their keys one after the other, each at its own reading of the clock, repeated keys included; every other command is carried out at its first reading; KEYS and RANDOMGET may miss keys that they look at whose deadlines pass while they run, and these are gone from then on. The state reached knows which requests (other than SPOP and RANDOMGET) bring down the server next, whatever the clock does meanwhile (`C104_crashes_partial`). If no deadline of a key looked at passes, the command happens at one moment (`C104_still_partial`). Missing: what C102 leaves out.
* **C105** Refuted (C105_refuted): EXPIRE k 1 whose first reading is 0.999 s and whose second is 1.000 s has the deadline 1.999 s in memory and 2 s in the log. Proved for EXPIRE and SETEX of a positive number of seconds without overflow in every state reached by histories of C104 with the log on (`C105_partial`, `C105_setex_partial`): the request is survived, the deadline in memory is the first reading plus the seconds, and the one in the log is at most later by the time between the readings and less than a second earlier than that; if the clock stands still it is not later (`C105_still_partial`). The record, read again by any server with the log on, gives the deadline that it says (`C105_again`). Missing: the claim itself, which is false.
* **C106** The second half is refuted (C106_refuted): a read that ends inside of a value makes the loader take zeros for the rest of it and go on inside of the value (`C106_injection`: a command that is contained in a value is executed). Proved: a failing read, wherever it is, keeps the server from starting (`C106_fails`, in full); logs of any length that are read without failure are executed as they are if and only if the reads cut no data (`C106_exact_partial`, `C106_partial`; the condition is computed from the lengths of the portions, `Spec.pass`); if every read returns as much as there is room for, this is the loader of C45 (`C106_whole`).
* **C107** The full claim `C107` is refuted as C96: after a restart a write may go to another database (`C107_refuted`). Proved (`C107_partial`): for orderly histories (see C48) in which nothing is left out of C102 (NaN, ZREMRANGEBYRANK from a rank beyond the first) there is a life of the exact reference with a disk that agrees at every moment with what has been sent or queued on every connection; and at every moment of it a request of a connected client that draws no random numbers brings down the process exactly if the reference has no outcome for it. No limit on the length of lists, on scores given twice, or on numbers. Example: a sorted set in which a stale entry is left is restarted; the listing that includes the entry crashes the process after the restart as before. What is missing: histories that are not orderly, deadlines that pass (C88), crashes of the rewriting goroutine (C98).
* **C108** The full claim `C108` is refuted as C107: after a restart a write may go to another database (`C108_refuted`, as bytes). Proved (`C108_partial`): for orderly histories (every command completed by the bytes, every rewrite and every restart as in C107) there is a life of the reference that agrees at every moment with what has been sent or queued on every connection; and at every moment a read on an open connection, if a command it completes draws no random numbers, brings down the process exactly if the reference has no outcome for the bytes - the parser crashes, or the command does. Examples: requests cut into pieces around a restart that forgets half a request; a negative length that arrives in the second of two reads. What is missing: as in C107.
* **C109** The full claim `C109` is refuted: a logged ZREMRANGEBYRANK from a rank beyond the first may remove nothing when it is loaded (`C109_refuted`, the defect of C17). Proved (`C109_partial`): for logs of any records that have the number of words their command accepts, nothing being left out of C102, and that the reader does not cut (C45), the server that has loaded the log answers every later history as the reference that has carried out the records, crashes included; and (`C109_crash_partial`) if no record draws random numbers, the load fails exactly if the reference cannot carry out the records. No hypothesis says that the log was written by a server or that deadlines lie in the future. Examples: a log with an unknown command, a SELECT too large, a listing, a password and a sorted set with a stale entry; the same log with a listing that hits the stale entry does not load. What is missing: records with another number of words (the loader does not check it; see C115), those left out of C102, logs cut by the reader.
* **C110** The full claim `C110` is refuted as C102: ZREMRANGEBYRANK from a rank beyond the first may remove nothing (`C110_refuted`, on the wire of a process). Proved (`C110_partial`): with rewriting off there is, for every history in which nothing is left out of C102 and every file loaded is not cut by the reader (C45; all files of at most 64 KiB), a life of the exact reference with a log that agrees at every moment with what has been sent or queued on every connection and with the records in the file; at every moment a request of a connected client without random numbers, and a start on a file without such records, fails exactly if the reference has no outcome for it. Kills and restarts need not be orderly: what C48, C96 and C107 exclude (writes in another database after two restarts, deadlines that have passed) is described here. `C110_file_partial`: the same if the first start finds a file of any records with the right numbers of words. Examples: the history that refutes C107; a deadline that passes while the process is down together with a stale entry whose listing crashes the process after the restart; a foreign file with an unknown command. What is missing: NaN, ZREMRANGEBYRANK from the second rank on, cut files; rewrites are in C113.
* **C112** Proved for the states after all histories that C102 describes (`C112_partial`): the copies are made, the rewrite fails exactly if the reference holds a sorted set that cannot be written (`Exact.Spoiled`), and otherwise the file is the log of records that depict the databases of the reference (`Exact.Album`), which fixes every record up to the order of keys, fields and members. What the records make of a server that loads them is C109; that lists come back reversed and sorted sets are lost follows (C49). Examples: the history that leaves an entry of a member that is gone, after which the rewrite brings down the process; a string with a deadline, a list and a sorted set in two of three databases. What is missing: the histories that C102 leaves out; changes while the rewrite runs (C97, C98).
* **C113** The full claim `C113` is refuted as C102 (`C113_refuted`, on the wire of a process). Proved (`C113_partial`): if nothing is left out of C102, no request and no timer event comes while the goroutine writes down the databases, and every file loaded is whole for the reader (C45) and has no ZADD record whose words are read as NaN, there is a life of the exact reference with a log that it rewrites, in agreement at every moment with what has been sent or queued on every connection, with the records in the file and with the stage of the rewrite. At every moment a request of a connected client without random numbers, and a start on a file without such records, fails exactly if the reference has no outcome for it; the goroutine fails only if there is a sorted set with an entry of a member that is gone, and it gets ready, if it is left to work, exactly if there is none. Kills may come at any moment but one: in the middle of the replacement (C51). Examples: a rewrite on request, records while it waits for the timer, the replacement and a restart, after which a list is in the opposite order; a file that has grown and is rewritten by itself; a rewrite that fails. What is missing: NaN, ZREMRANGEBYRANK from the second rank on, cut files, what happens while the goroutine writes (C97, C98, C100), a kill in the middle of the replacement (C51).
* **C114** The full claim `C114` is refuted (`C114_refuted`: a record and three bytes of another, one SET). Proved (`C114_torn_partial`): for every log that C45 covers and every place inside a record at which a file may end and still be loaded, as long as no rewrite gets ready the process only ever appends whole records, through any restarts; the file is as it was, or it cannot be read and no process can be started with it. With rewrites (`C114_either`): the file is what the process was started with and whole records behind it, or it has been replaced and consists of whole records; the first timer event after a rewrite got ready makes it so whatever it was (`C114_healed`), and it stays so (`C114_stays`). Missing of the full claim: a log of whole records is read if it is not cut by the reader (C45); a kill inside the callback of a rewrite (C51).
* **C115** The full claim `C115` is refuted (`C115_refuted`: SET with options). Proved, for every command that looks at a bounded number of words: surplus words make no difference, in a record (`C115_surplus`), in a whole log that C45 covers (`C115_loaded`) and, where the server does not refuse them, in a request (`C115_client`: reply, databases, session and counter are the same). Too few words: the process stops for every command but PING, AUTH, BGREWRITEAOF, RANDOMGET, HSET and ZADD (`C115_missing`, `C115_stops`); an odd number of words of HSET and ZADD does nothing (`C115_odd`). missing: what a record does that has the words taken without counting but not all the others (it stops the process, or answers, or creates an empty collection).
* **C116** Refuted where a key is past its deadline (`C116_refuted`: HSET after the deadline keeps its field only if somebody has asked for the hash before). Proved (`C116_partial`): any choice of reading requests, together with the timer, may be left out: the replies to the others are the same (KEYS, SMEMBERS and the like up to the order), the log is the same, and the data differ at most in keys past their deadline, as long as in what remains HSET, SADD, LPUSH, RPUSH, ZADD, EXPIRE, EXPIREAT and TTL name no key past its deadline and patterns of KEYS are valid. missing: SPOP and RANDOMGET among what remains; histories with the timer in both (C86 compares them).
* **C117** The full claim `C117` is refuted (`C117_refuted`: ZADD z 1 a x b adds a and answers with an error). Proved (`C117_partial`): it holds of every request but AUTH and ZADD, whatever the error: unknown commands, wrong numbers of words, missing authentication, values of another type, words that are no numbers, indices of databases that do not exist, invalid patterns. `C117_auth`: a refused AUTH changes at most the authentication of its own connection, and only from yes to no. `C117_zadd`: ZADD with a score that is none in a later pair does to data, sessions, counter and task exactly what ZADD with only the pairs before it does (the log gets the whole request). `C117_first`: ZADD whose first score is none changes nothing, but that an empty sorted set is created if the key does not exist; this is neither counted nor logged.
* **C118** The full claim `C118` is refuted (`C118_refuted`: ZADD z nan a, sent twice, enters a twice; ZRANGE then lists it twice). Proved: `C118_partial` for SET, EXPIREAT, HSET, HDEL, SADD, SREM and ZREM with any arguments, in any state, at any clock; `C118_zadd` for ZADD that names every member once and gives none the score NaN (also if it stops at a score that is none); `C118_relative`: EXPIRE and SETEX change the second time nothing but the deadline of their key. Not covered: ZADD that names a member twice, whose second run moves nodes of the skip list about.
* **C119** The full claim `C119` is refuted (`C119_refuted`: a ZADD that was answered with an error has added a member, which ZCARD counts). Proved (`C119_partial`): any choice of requests other than ZADD and AUTH that were answered with an error, together with any choice of reading requests (C116) and the timer, may be left out: the replies to the others are the same (KEYS, SMEMBERS and the like up to the order), the log is the same, and the data differ at most in keys past their deadline, as long as in what remains HSET, SADD, LPUSH, RPUSH, ZADD, EXPIRE, EXPIREAT and TTL name no key that is past its deadline, patterns are valid and nothing is drawn (as for C86).
* **C12** false of the code (quicklist.go:262 shadows pageIndex): PopBack panics on every list of more than one page, Get returns another element or panics in the second half beyond the first page, Range with a huge stop panics; exact behaviour of Get characterised, the correct part proved
* **C16** false of the code in corner cases, each refuted: reverse range from Length+1 returns the head, ranges above 2^45 panic, rank of the empty member, rank of a member stored under two scores; everything else proved
* **C17** false of the code: rank is reset on every level (skiplist.go:165); refuted by witnesses; proved for start beyond the end and when no node before rank start has more than one level, and shown to fail in every other case (C17_exact)
* **C18** NaN bounds misbehave (refuted); proved for all other bounds, limits, directions
* **C20** an absent pair returns the following node instead of nil (refuted); removal itself proved exact
* **C21** GetRank of the empty member and DeleteRangeByRank depend on the levels (refuted); proved for all other queries
* **C22** int8 wraps after 127 consecutive small draws (refuted); proved below that
* **C23** re-scoring a member leaves its old entry (refuted in general and concretely); proved for histories without re-scoring, and for results and ZSCORE in all histories of ZADD/ZREM What happens with re-scored members: exactly, C101.
* **C24** nil elements after re-scoring or ZREMRANGEBYRANK, panic on huge ranges (refuted); proved for histories without re-scoring What happens with re-scored members: exactly, C101.
* **C25** GetRank of the empty member and NaN bounds excluded (C16, C18)
* **C27** false of the code: a read ending directly before or inside the line end after an argument's data closes the connection or crashes the server (proved for every request); every other fragmentation proved
* **C28** false of the code: everything after the first request in a read is dropped (proved for every request and continuation); proved when no read spans two requests
* **C29** false of the code: empty line, negative or huge lengths, and legal requests whose first 4096 bytes end at an argument's end crash the parser; proved for all other streams; C29_exact: if and only if the bytes have one of the forms of `Fragile`
* **C30** false of the code: error replies repeat arguments raw, so an argument with a line end forges further replies (refuted); proved: every request in every reachable state gets exactly one value, decoded by an independent decoder, if the reply is no error or no argument contains a line end; all payloads binary-safe
* **C35** false of the code for the further keys of SUNION/SDIFF with a missing first key and of SINTER behind a missing key (refuted); proved for every command on its first key, and for the further keys otherwise
* **C37** false of the code: a negative number crashes the server (proved for every negative number); the rest proved
* **C38** RPOP crashes on every list of more than 1024 elements (proved, with a reachable history); proved for every list of one page and for all other commands; keys with a passed deadline are C40's subject for HSET/SADD/LPUSH/RPUSH
* **C39** SUNION with a missing first key replies with the empty array (proved for all states); SINTER and SDIFF proved in full, SUNION with an existing first key
* **C40** false of the code: TTL, EXPIRE and the commands that add to a collection use expired values (refuted); proved for every command that looks a key up, KEYS and RANDOMGET
* **C42** false of the code for keys past their deadline, where the reply is a negative number (refuted); proved for all others
* **C43** false of the code: EXPIRE on a missing key leaves a deadline that a key created later inherits (refuted); proved: it changes no value, and no other command than EXPIRE, EXPIREAT, SETEX of the key gives it a deadline
* **C44** false of the code: ZADD whose first score is not a number creates a key without being logged, and e.g. SADD of a member already present is logged though it changes nothing (both refuted); proved: every change of the stored data other than expiration is logged, reads log nothing, and what is appended is exactly the specification's records of that command in that database
* **C45** false of the code: a read at the end of bufio's 64 KiB buffer returns short data (refuted; C45_injection: a value can hide a command that the loader then executes). Proved: the written form is the specification's encoding, and logs of any length are read back exactly if and only if no data are cut by the end of a window of 65536 bytes (C45_exact_partial), which holds for all logs of at most this size. Reads that return less, or fail: C106.
* **C46** false of the code: SPOP removes other members when replayed (refuted); proved for all histories of all clients over all commands except SPOP and ZREMRANGEBYRANK from ranks beyond the first, whose effect depends on random draws, without NaN scores (Steady); sorted sets also keep the order of their lists, with times at which no key is past its deadline, and logs that can be read (C45) The two readings of the clock: C105.
* **C47** false of the code (refuted): SPOP is logged verbatim and draws anew when replayed; proved for sets of one member
* **C48** Refuted in full: after a restart the server assumes the file ends in database 0 (C48_refuted); without restarts the rewritten file ends in the last non-empty database while the log assumes the one selected before (C48_running_refuted). Proved for every orderly history of commands, rewrites interleaved with them, and restarts: the log loads to the data of every database. Orderly: rewrites start on strings, hashes and sets with the last non-empty database selected; restarts find a file that ends in database 0; logs that can be read (C45: no data cut by the end of a window of 65536 bytes).
* **C49** Refuted in full: C49_refuted (lists come back reversed, chunk by LPUSH), C49_zset_refuted (member and score swapped). Proved: C49_replay_partial for all reachable databases without sorted sets and of any size (strings, hashes, sets and deadlines to the second kept; lists exactly reversed; empty collections dropped), C49_file_partial the same down to the bytes for files that can be read (C45), C49_safe_partial full equality when lists are palindromic and collections non-empty. Writing is taken to be uninterrupted (interleavings are C50). What is written, sorted sets included: C112.
* **C50** Refuted in full: an RPUSH executed while the rewrite has not reached the list is written by the goroutine and again from the rewrite buffer (C50_refuted). Proved for strings, hashes, sets and their deadlines at the start of the rewrite, with any plain commands of any type meanwhile and any interleaving of the goroutine: the new file loads to exactly the data of the server.
* **C51** Refuted in full: a crash after the new file has replaced the old one and before the rewrite buffer is appended loses flushed writes (C51_refuted), even if mv is atomic. Proved for crashes at every other point of an orderly history: the file loads to the data of a moment since which nothing has been flushed.
* **C53** Proved for the growth since the last rewrite of the same process, while 100 times the file size fits in 64 bits: the decision of the timer is the stated one on unbounded numbers, so nothing wraps. With restarts the full claim is refuted: the base size is forgotten, so a rewrite starts without growth.
* **C54** Proved for connections that had no pending output when the loop went to sleep: nothing is sent before the next flush, which writes everything logged (and syncs it with always). Refuted for a connection whose earlier reply is still pending: the reply to a write is sent in the same turn, before the flush.
* **C55** always and no are proved as stated. everysec is proved between two flushes that write something; refuted without later traffic: the last records are never synced.
* **C56** false of the code: most truncation points make the loader panic (`C56_refuted`). Proved exactly for logs of any length that C45 covers (`C56_exact_partial`): a cut inside the first line of a record leaves the complete records, a cut before the last byte of the file leaves all of them, every other cut makes the loader panic.
* **C58** false of the code: now+interval overflows for huge intervals and the timer fires early (refuted); proved: ids unique, one-shot timers fire at most once in all histories, and no timer fires early if now+interval does not overflow
* **C59** false of the code if the clock is set back while timers are pending (refuted); proved for clocks not set back, readings less than 1 s apart
* **C60** false of the code: a one-shot timer that removes itself makes the loop skip the rest of the batch (refuted); proved for callbacks that remove no timers
* **C61** false of the code: releasing an unused iterator while another is live unfreezes the rehash (refuted by witness); the rest is proved
* **C62** stale entries remove live members, NaN lower bound removes too much (refuted); proved without re-scoring and NaN What happens with re-scored members: exactly, C101.
* **C63** false of the code: events gathered before dispatch still run after their removal by an earlier callback of the batch (refuted); proved: every callback dispatched was registered when the loop woke up
* **C64** Refuted: LINDEX crashes the server on the last element of lists of more than 1024 elements (C64_lindex_crashes, C64_refuted). Proved: LINDEX for lists of one page and, on longer lists, for the indices that the code finds from the right side (the first page and those characterised in C12); C64_lindex_exact and C64_lrange_exact say for every reachable list, index and range whether the command crashes and otherwise what it answers. LRANGE for every list with a range length that fits a slice.
* **C66** Refuted: the deadline overflows for huge numbers of seconds and the key is gone at once (C66_refuted, SETEX 9223372036854775807). Proved whenever the deadline fits in 64 bits.
* **C68** Refuted: ZADD of a member with another score leaves its old entry, ZCARD counts it twice (C68_refuted). Proved: ZSCORE after any history; all the others for sorted sets after every history in which no ZADD gives a member a new score or NaN and ZREMRANGEBYRANK is not used on the key (C68_history_partial); ZRANGE for ranks from 0 (negative ranks are not counted from the end in the code), bounds other than NaN. What happens with re-scored members: exactly, C101.
* **C69** Refuted: SELECT -1 (C69_refuted); also RPOP on lists of more than one page, LINDEX (C64), ZREMRANGEBYRANK. Proved: every request that is no command, has a wrong number of words or is not permitted; PING, AUTH, BGREWRITEAOF, EXPIRE, EXPIREAT, TTL, KEYS, SET, SETEX, GET, hash and set commands, LPUSH, RPUSH, LPOP, LLEN, ZCARD, ZSCORE with any words and any data (C69_plain_partial: over whole histories); SPOP, RANDOMGET (C69_random); the cron (C69_cron); SELECT from 0; RPOP on one page; LINDEX and LRANGE where C64 holds; sorted-set commands on keys kept sound as in C68. C69_exact: for all commands except those on the order of sorted sets and those that draw random numbers, exactly which requests crash. Missing: ZREMRANGEBYRANK, ZRANGE with negative first rank, NaN bounds. Which listings of sorted sets crash: C101. Outside the limits: exactly, C102.
* **C70** Refuted: pipelined requests are dropped (C70_refuted). Proved for all interleavings and bytes: one sequential history in the order of the reads explains the data and everything sent to all clients, with the requests the parser finds (C70_sequential); for clients that wait for each reply and whose reads do not end at the end of an argument's data, these are the requests sent (C70_partial), and the client decodes one value per request (C70_decoded_partial, arguments without line ends); everything queued is delivered once the socket takes it (C70_delivery); a read with a command as in C69 does not panic (C70_alive_partial). Missing: pipelining and the cuts of C27.
* **C71** Refuted: a client with pending output is sent the reply before the flush (C71_refuted). Proved for clients that had nothing to be sent when the loop last went to sleep before the request, in the orderly histories of C51 (which says what is missing there).
* **C72** Refuted: Bind copies the first four bytes of the 16-byte form of the address, which are zero, so that the server listens on all interfaces whatever the setting (C72_everywhere for every address, C72_refuted for 127.0.0.1). The claim holds exactly for 0.0.0.0 (C72_partial). C72_started: for the whole process, from the configuration file; C72_six: of an IPv6 address the first four bytes are taken; C72_invalid: all other texts are refused.
* **C73** Refuted: KEYS and RANDOMGET of other clients and the cron remove expired keys, and TTL and the commands that add to values notice whether an expired key has been removed (C73_refuted). Proved if these run only while no key of the group is past its deadline; the group's own requests make no random choice (SPOP, RANDOMGET).
* **C78** Refuted: with the policy everysec a goroutine started by a flush may call Sync while the callback of a rewrite has closed the file and not yet put the new one in its place, which panics (C78_refuted). C78_only_sync: this is the only way a process that nobody stops can die; proved for the other policies and for schedules without it.
* **C79** Refuted: Stop does not flush the log buffer, so that executed commands are lost (C79_refuted), and does not wait for the callback that replaces the file, so that everything can be lost (C79_flushed_refuted). Proved, for orderly histories as in C48: outside the callback nothing is lost if there is nothing to flush, what was flushed is never lost, and what was acknowledged is not lost.
* **C80** Refuted: after mv the new file is not synced before the end of the callback, and a power failure can leave an empty file (C80_refuted). Proved for power failures outside the callback, in the histories of C71.
* **C81** Refuted: with the policies no and everysec a power failure can leave a part of a record, and the loader panics (C81_refuted). Proved with the policy always for power failures outside the callback, and with any policy for kills outside the callback (orderly histories, files that C45 covers).
* **C82** Refuted: whether ZREMRANGEBYRANK removes anything depends on the levels (C82_refuted), and so does the order of the members once a score is NaN (C82_nan). Proved for all histories without scores that are NaN in which ZREMRANGEBYRANK begins with the first rank or asks for none, whatever is added, re-scored, removed and listed.
* **C83** Refuted: a deadline within a second is rounded down, TTL changes (C83_refuted). Proved for orderly histories (C48), deadlines in whole seconds, readable files, any requests afterwards (C82), of any clients, at any times.
* **C84** Refuted: free leaves its number in the client object; a stale writable callback writes a reply into the new append-only file (C84_refuted), or closes that file, after which the dump of the databases is written to a client (C84_leak). Proved as long as files get spare numbers, in particular while no rewrite starts (C84_clients_partial); the condition is exact (C84_clash).
* **C85** Refuted by the same leak (C85_refuted). Proved as long as files get spare numbers, with stale callbacks, failing writes, double closes and reuse of numbers.
* **C86** Refuted: HSET, SADD, LPUSH, RPUSH, ZADD, EXPIRE, EXPIREAT and TTL do not drop the key they name if its deadline has passed: what HSET adds to an expired hash is lost unless the timer has come by (C86_refuted), and EXPIRE brings an expired key back (C86_raised). Proved as long as these commands name no key past its deadline and the patterns of KEYS are valid; then the logs are the same too.
* **C87** Refuted for the same reason (C87_refuted). Proved under the conditions of C82 and C86 together.
* **C88** Refuted both ways: what is stored under a key after it has expired and been dropped is lost, because the drop is not logged and the replayed HSET adds to the old hash with the old deadline (C88_refuted); and an expired set comes back, because the replayed SREM takes the key for expired, drops it, and the replayed SADD creates it without a deadline (C88_refuted_risen). Proved for values of all types, under two rules for the keys that have ever had a deadline before the restart: commands that do not look at deadlines are used on them only while they are there, and nothing is taken from a value that has such a deadline before it. Each refutation breaks one of the rules; missing: the claim without them.
* **C91** Refuted: an empty line from a fresh connection (C91_refuted). Exact: an unauthenticated client crashes the server if and only if the bytes since its last command have one of the forms of `Fragile` (C91_partial); for any client, these or a request that crashes it (C91_read, C69_exact); nothing else on a connection does (C91_rest). Missing: the claim itself, which is false of the code.
* **C92** Refuted: SETEX with a deadline beyond int64 milliseconds (C92_refuted). Proved: every history is answered like by the reference up to the first request outside the limits `Within` (C92_until_partial); hence entirely if it has none (C92_partial); and within the limits the server neither crashes nor hangs (C92_answers_partial). The limits: no overflow of times, lists of at most 1024 elements, no new score for a member of a sorted set, no NaN, no negative start rank and no huge ranks, no negative SELECT, no ZREMRANGEBYRANK. Missing: the claim outside the limits, where it is false of the code. Outside the limits: exactly, C102.
* **C93** Refuted: as C92 (C93_refuted). Proved on the model of the whole server (sockets, parser, commands, output queues): whatever bytes arrive in whatever pieces, each connection is sent the bytes of the reference up to the first command outside the limits of C92 (C93_until_partial), entirely if there is none (C93_partial), and the server stays up as long as the bytes do not crash the parser (C93_answers_partial; C29_exact says which do). Missing: the claim outside the limits, false of the code. The framing of the reference is that of metis (Spec/Frame); its deviations from RESP are the subject of C26 to C29. Outside the limits: exactly, C102. At the level of bytes: C103.
* **C94** Refuted: a configuration file without an extension crashes the process before it is read (C94_refuted, C94_crash). Proved: a process that has started obeys a sensible configuration (C94_partial); it starts on a willing machine if the file name has an extension, the address is IPv4, there are at most 2^45 databases and the log can be loaded (C94_starts); C94_only: the only reasons for a crash; C94_causes: they are reasons; C94_first: a new log gives the empty server; C94_default: what other values amount to. Missing: the claim for file names without an extension, false of the code. The address is the subject of C72.
* **C96** The full claim `C96` (every history within the limits of C92) is refuted: after a restart the server assumes that the file ends in database 0, so a write is in another database after the next restart (`C96_refuted`). Proved (`C96_partial`): for orderly histories (see C48) within the limits of C92 there is a life of the reference that agrees at every moment with what has been said on every connection. Missing: deadlines that pass (C88 has them, without rewrites), rewrites of lists and sorted sets, and the restrictions on the selected database.
* **C97** The full claim `C97` is refuted: the counter of iterators is incremented and decremented without a lock, so two loops can both read 0 and write 1; when the first ends the rehash goes on and the other loses keys (`C97_false`), or the counter stays at -1 (`C97_miscount`) and the rehash never goes on again (`C97_stuck`). Without any race the same happens when a loop over a dict in which nothing was ever stored ends while another is on its way (`C97_empty_dict_false`). Proved (`C97_loops_and_calls_partial`, `C97_loops_end`): everything else, for all interleavings of whole calls and turns after a first `Set`; `C97_twice`: a key that is deleted and set again may be collected twice; `C97_atomic` relates the two machines. Interleavings inside a call: C100.
* **C99** False of the code: a write that fails inside a record leaves a file from which no server starts (`C99_refuted`; `C99_start_partial` says exactly from which files one starts); between the two records of a SETEX it leaves a key that lives for ever (`C99_setex`); a failure in the callback of a rewrite loses flushed data (`C99_callback`). Proved for orderly histories (C48): errors of syncs and of the temporary file (`C99_sync_partial`), writes that fail between commands (`C99_write_partial`), and that acknowledged writes survive them (`C99_acked_partial`).
