{"id": "C01", "title": "Dict behaves as a map under incremental rehash", "statement": "For every sequence of Set, Get, Find, Delete and GetRandomKey calls on a Dict, every Get/Find/Delete result and the boolean returned by Set are exactly those of a plain finite map: Set returns true iff the key was absent, Get/Find return the last value set and not deleted since, Delete fails with ErrNotInitialized iff nothing was ever set, with ErrKeyNotFound iff the key is absent, and otherwise removes it.", "quantifier": "all operation sequences, all key/value types, all hash functions, all moments at which an incremental rehash is in progress", "why_tests_cant": "The incremental rehash moves one bucket per call, so correctness depends on the interleaving of every operation with every rehash position and every collision pattern of the hash; tests only see FNV on a few key shapes.", "anchors": ["datastruct/dict.go: Dict.Set, Dict.Get, Dict.Find, Dict.Delete, Dict.rehash, Dict.keyIndex, Dict.expandIfNeeded"]}
{"id": "C02", "title": "Dict.Size is the number of live keys", "statement": "After any history, Size() equals the number of distinct keys that are currently present, including in the middle of a rehash.", "quantifier": "all operation sequences and all hash functions", "why_tests_cant": "used counters are maintained separately in two tables and adjusted by insert, delete and migration; a miscount only shows on particular interleavings.", "anchors": ["datastruct/dict.go: Dict.Size, hashTable.used"]}
{"id": "C03", "title": "Dict operations never panic", "statement": "No sequence of Dict operations (Set, Get, Find, Delete, GetRandomKey, full iteration, DeepCopy) on a dict created by NewDict indexes out of range, dereferences nil or runs off the end of the bucket array while searching the next bucket to migrate.", "quantifier": "all operation sequences, all hash functions, all random sources", "why_tests_cant": "The unguarded loop that scans for the next non-empty bucket is safe only because of an invariant linking used, rehashIndex and bucket contents that holds over all histories.", "anchors": ["datastruct/dict.go: Dict.rehash, Dict.keyIndex, Dict.Set, Dict.GetRandomKey"]}
{"id": "C04", "title": "A dict iteration yields every entry exactly once", "statement": "A complete pass of a DictIterator (Next until nil) returns each key/value pair present at the start exactly once, whether or not a rehash is in progress, and even if the loop body looks keys up in, or deletes the current entry from, the dict being iterated.", "quantifier": "all dict states reachable by any history, all choices of which visited entries are deleted during the pass", "why_tests_cant": "Requires that rehash is frozen while an iterator is live, at every rehash position and for every subset of deletions.", "anchors": ["datastruct/dict.go: DictIterator.Next, DictIterator.Release, Dict.rehashStep", "server/commandkey.go: keysCommand"]}
{"id": "C05", "title": "Rehash is frozen exactly while iterators are live and otherwise finishes", "statement": "While at least one started iterator has not been released no bucket is migrated; once all are released each Set, Get, Find or Delete call migrates at least one bucket, so a rehash that started on a table of n buckets is over after at most n+1 further such calls.", "quantifier": "all dict states and operation sequences", "why_tests_cant": "It is a progress property over all future operation sequences.", "anchors": ["datastruct/dict.go: Dict.rehashStep, Dict.rehash, DictIterator.Release"]}
{"id": "C06", "title": "GetRandomKey returns a live key", "statement": "GetRandomKey returns nil iff the dict is empty; otherwise, whatever the random source yields, the returned entry is a key/value pair currently in the dict, and every live entry is returned for some random draw.", "quantifier": "all dict states, all random draws", "why_tests_cant": "Depends on the random source and on the rehash position.", "anchors": ["datastruct/dict.go: Dict.GetRandomKey"]}
{"id": "C07", "title": "DeepCopy is an equal and independent dict", "statement": "DeepCopy returns a dict holding exactly the same key/value pairs; later Set/Delete on either one does not change what lookups on the other return.", "quantifier": "all dict states, all later operation sequences on either copy", "why_tests_cant": "Ranges over all states including mid-rehash and all later histories.", "anchors": ["datastruct/dict.go: Dict.DeepCopy", "database/database.go: Databse.DeepCopy"]}
{"id": "C08", "title": "GetNextPower rounds up to a power of two", "statement": "For every int64 n ≤ 2^62, GetNextPower(n) is the smallest power of two that is at least max(n,4); for n > 2^62 it is math.MaxInt64.", "quantifier": "all int64 inputs", "why_tests_cant": "2^64 inputs; the bit-smearing loop is correct only by an argument about bits.", "anchors": ["datastruct/dict.go: GetNextPower"]}
{"id": "C09", "title": "Dict tables keep power-of-two sizes and bounded load at growth", "statement": "In every reachable dict each bucket array has a power-of-two size at least 4, the mask is size-1, an entry always sits in the bucket selected by its hash, and a table starts growing to twice its size exactly when an insert or overwrite finds used ≥ 2·size outside a rehash.", "quantifier": "all operation sequences", "why_tests_cant": "State invariant over all histories.", "anchors": ["datastruct/dict.go: Dict.expand, Dict.expandIfNeeded, hashTable"]}
{"id": "C10", "title": "Set is a finite set with exact algebra", "statement": "Add/Delete/Contains/Size/Range on a Set behave as on a mathematical finite set, and Union, Intersect and Difference return exactly the union, intersection and difference, leaving the members of the operands unchanged - including when both operands are the same set.", "quantifier": "all histories of both operand sets, all hash functions", "why_tests_cant": "All pairs of set states with any overlap and any rehash position.", "anchors": ["datastruct/set.go: Set.Add, Set.Delete, Set.Contains, Set.Range, Set.Union, Set.Intersect, Set.Difference"]}
{"id": "C11", "title": "LPUSH/RPUSH/LPOP form an exact deque", "statement": "For every history of PushFront, PushBack and PopFront the Quicklist holds exactly the sequence a plain list would hold and PopFront returns its first element (nil when empty); Len is the number of elements.", "quantifier": "all operation sequences of any length, lists of any number of pages", "why_tests_cant": "Page boundaries and splits at 1024 elements in every combination.", "anchors": ["datastruct/quicklist.go: Quicklist.PushBack, PushFront, PopFront, Insert, Remove, Len", "server/commandlist.go: lPushCommand, rPushCommand, lPopCommand"]}
{"id": "C12", "title": "Positional access returns the element at that index", "statement": "Get(i), Remove(i), PopBack, Insert(i) and Range(start,stop) address the i-th element of the list for every i, on lists of any size, and never panic.", "quantifier": "all list states reachable by pushes and pops, all indices", "why_tests_cant": "Needs lists over 1024 elements with indices in the second half; the shipped tests only remove index 0.", "anchors": ["datastruct/quicklist.go: Quicklist.get, Get, Remove, PopBack, Insert, Range", "server/commandlist.go: rPopCommand, lIndexCommand, lRangeCommand"]}
{"id": "C13", "title": "Quicklist pages stay well formed", "statement": "In every reachable quicklist no page is empty, no page holds more than 1024 values and the recorded length is the sum of the page lengths.", "quantifier": "all operation sequences", "why_tests_cant": "Invariant over all histories.", "anchors": ["datastruct/quicklist.go: Quicklist.PushBack, Insert, Remove"]}
{"id": "C14", "title": "Find and the iterator walk the list in order", "statement": "Find(v) returns the index of the first element equal to v or -1, and iterating with NewQuicklistIterator/Next yields the elements in order, then nil.", "quantifier": "all list states, all values", "why_tests_cant": "All page layouts.", "anchors": ["datastruct/quicklist.go: Quicklist.Find, QuicklistIterator.Next"]}
{"id": "C15", "title": "Skiplist order is the sorted set of inserted pairs", "statement": "After any history of Insert, Delete and DeleteRangeByScore (without NaN scores and without inserting a pair twice) a walk along the bottom level lists exactly the inserted-and-not-deleted (score, member) pairs, sorted by score and then by member.", "quantifier": "all operation sequences, all random level choices in 1..32", "why_tests_cant": "The node heights are random; the pointer surgery must be right for every combination of heights and positions.", "anchors": ["datastruct/skiplist.go: Skiplist.Insert, Delete, DeleteRangeByScore, deleteNode"]}
{"id": "C16", "title": "Spans give exact ranks", "statement": "In every reachable skiplist GetElementByRank(r) returns the r-th element of the sorted order (nil beyond the end), GetRank of a stored pair returns its position, and RangeByRank returns exactly the requested slice.", "quantifier": "all histories, all level choices, all ranks", "why_tests_cant": "Span bookkeeping interacts with every height combination.", "anchors": ["datastruct/skiplist.go: Skiplist.GetElementByRank, GetRank, RangeByRank"]}
{"id": "C17", "title": "Removing by rank removes exactly that rank range", "statement": "DeleteRangeByRank(start,end) / ZREMRANGEBYRANK removes exactly the elements whose rank lies in the range and leaves a well-formed skiplist, whatever the node heights.", "quantifier": "all skiplist states, all ranges, all level choices", "why_tests_cant": "The outcome depends on random heights; tests only delete from rank 1.", "anchors": ["datastruct/skiplist.go: Skiplist.DeleteRangeByRank", "datastruct/zset.go: Zset.DeleteRangeByRank", "server/commandzset.go: zRemRangeByRankCommand"]}
{"id": "C18", "title": "Score-range queries are exact", "statement": "RangeByScore, Count, GetFirstInScoreRange, GetLastInScoreRange and DeleteRangeByScore select exactly the elements with min ≤ score ≤ max, in order (or reverse order), cut to the limit.", "quantifier": "all histories, all min/max including min>max and infinities, all limits", "why_tests_cant": "All boundary positions and duplicates.", "anchors": ["datastruct/skiplist.go: RangeByScore, Count, GetFirstInScoreRange, GetLastInScoreRange, HasInScoreRange, DeleteRangeByScore"]}
{"id": "C19", "title": "Backward pointers and tail mirror the forward order", "statement": "In every reachable skiplist walking Backward from Tail yields the reverse of the forward walk, so reverse range queries are the reversal of forward ones.", "quantifier": "all histories, all level choices", "why_tests_cant": "Pointer invariant over all histories.", "anchors": ["datastruct/skiplist.go: Insert, deleteNode, SkiplistNode.Backward, Skiplist.Tail"]}
{"id": "C20", "title": "Skiplist.Delete reports what it deleted", "statement": "Delete(score, member) removes exactly that pair and returns its node if present, and returns nil and changes nothing if it is absent.", "quantifier": "all skiplist states, all arguments", "why_tests_cant": "Must hold for every state, present or absent pair.", "anchors": ["datastruct/skiplist.go: Skiplist.Delete"]}
{"id": "C21", "title": "Random levels are unobservable", "statement": "Two skiplists built by the same operation history with different random levels give the same answers to every query.", "quantifier": "all histories, all pairs of random level sequences", "why_tests_cant": "Relational property over pairs of executions.", "anchors": ["datastruct/skiplist.go: randomLevel, Insert"]}
{"id": "C22", "title": "randomLevel stays in 1..32", "statement": "randomLevel returns a level between 1 and 32 for every random sequence, so node allocation never fails and head levels are never indexed out of range.", "quantifier": "all random bit sequences", "why_tests_cant": "Rare long runs of small draws.", "anchors": ["datastruct/skiplist.go: randomLevel, newSkiplistNode"]}
{"id": "C23", "title": "A sorted set holds each member once with its latest score", "statement": "After any history of ZADD/ZREM each live member appears exactly once in range queries, with the score of its last ZADD, and ZCARD is the number of live members.", "quantifier": "all ZADD/ZREM histories including re-scoring existing members", "why_tests_cant": "Two structures (dict and skiplist) must agree after every history.", "anchors": ["datastruct/zset.go: Zset.Add, Zset.Delete, Zset.Size, Zset.RangeByRank", "server/commandzset.go"]}
{"id": "C24", "title": "Sorted-set queries never crash the server", "statement": "After any history of sorted-set commands ZRANGE and ZRANGEBYSCORE reply; they never dereference a missing element.", "quantifier": "all histories of sorted-set commands", "why_tests_cant": "The failure needs a three-command history.", "anchors": ["datastruct/zset.go: Zset.RangeByRank, Zset.Delete, Zset.Add", "server/client.go: addReplyZsetElements"]}
{"id": "C25", "title": "Zset lookups agree between score map and order", "statement": "ZSCORE, ZCOUNT, ZRANGE, ZRANGEBYSCORE and GetRank are consistent: the members in a score range are exactly those whose ZSCORE lies in the range, and rank is the position in score-then-member order.", "quantifier": "all zset histories in which no member is re-scored", "why_tests_cant": "Cross-structure consistency over all histories.", "anchors": ["datastruct/zset.go"]}
{"id": "C26", "title": "A request array is parsed to exactly its arguments", "statement": "For every non-empty list of binary-safe arguments, the multi-bulk encoding arriving in one read is parsed to exactly those arguments and executed once.", "quantifier": "all argument lists, all byte contents and lengths", "why_tests_cant": "Unbounded input space including CRLF and zero bytes inside arguments.", "anchors": ["server/resp.go: processMultiBulkBuffer, processInputBuffer", "server/client.go: getCRLFIndexFromQueryBuffer, moveToNextLineInQueryBuffer"]}
{"id": "C27", "title": "Parsing is independent of how TCP fragments a request", "statement": "Splitting a request over any number of reads at any byte positions yields the same parsed command as a single read.", "quantifier": "all requests, all fragmentations", "why_tests_cant": "Exponentially many fragmentations.", "anchors": ["server/resp.go: processMultiBulkBuffer, processBulkBuffer", "server/server.go: readQueryFromClient"]}
{"id": "C28", "title": "Pipelined requests are all executed in order", "statement": "If several complete requests arrive in one read, each is executed exactly once, in order.", "quantifier": "all request sequences and read boundaries", "why_tests_cant": "All batchings of requests into reads.", "anchors": ["server/resp.go: processInputBuffer", "server/client.go: reset", "server/command.go: processCommand"]}
{"id": "C29", "title": "No byte sequence from a client crashes the server", "statement": "Whatever bytes a client sends, the server process keeps running: the input is executed, answered with an error or the connection is closed.", "quantifier": "all byte sequences in all fragmentations", "why_tests_cant": "All malformed inputs.", "anchors": ["server/resp.go", "server/commandconnection.go: selectCommand"]}
{"id": "C30", "title": "Replies are well-formed RESP and unambiguous", "statement": "Every command produces exactly one RESP value; a standard RESP decoder recovers the reply (status, integer, bulk string, null, array) and nothing else from the bytes, for binary-safe payloads.", "quantifier": "all replies, all payload bytes", "why_tests_cant": "Unbounded payloads.", "anchors": ["server/client.go: addReply*"]}
{"id": "C31", "title": "Replies reach the socket completely, in order and once", "statement": "For any pattern of partial writes and EAGAIN results the bytes written to a client's socket are a prefix of the concatenation of its queued replies in order, and the writable event is removed only when everything has been sent.", "quantifier": "all reply queues, all short-write/EAGAIN schedules", "why_tests_cant": "All write schedules.", "anchors": ["server/server.go: sendReplayToClient", "server/client.go: addReply"]}
{"id": "C32", "title": "Output interest is registered exactly while output is pending", "statement": "While a client is connected its writable event is registered with the event loop iff its reply queue is non-empty.", "quantifier": "all interleavings of commands and writable callbacks", "why_tests_cant": "State-machine invariant over all schedules.", "anchors": ["server/client.go: addReply", "server/server.go: sendReplayToClient", "ae/ae.go: AddFileEvent, RemoveFileEvent"]}
{"id": "C33", "title": "Authentication gate", "statement": "When a password is configured, a connection that has not successfully authenticated can neither read nor change any database content: every command other than AUTH is answered with an error and leaves all databases, the dirty counter and the AOF buffer unchanged; a failed AUTH de-authenticates.", "quantifier": "all command histories of a connection", "why_tests_cant": "All command sequences.", "anchors": ["server/command.go: processCommand", "server/commandconnection.go: authCommand"]}
{"id": "C34", "title": "GET returns the last SET", "statement": "After SET k v, GET k returns v until the key is next written or expires; SET replaces a value of any type and clears the key's TTL.", "quantifier": "all histories of commands on other keys in between, all keys and values", "why_tests_cant": "All interleavings of other keys' commands and of incremental rehash.", "anchors": ["server/commandstring.go: setCommand, getCommand"]}
{"id": "C35", "title": "Wrong-type operations fail without effect", "statement": "A data-type command applied to a key holding another type replies with an error and leaves every key, value and TTL unchanged and is not logged.", "quantifier": "all type pairs, all arguments, all states", "why_tests_cant": "All states and arguments.", "anchors": ["server/commandhash.go: getHash, getHashIfExist", "server/commandlist.go: getQuickList", "server/commandset.go: getSet", "server/commandzset.go: getZset"]}
{"id": "C36", "title": "Commands touch only their own key and database", "statement": "A command addressed to key k in database i leaves every other key of that database and every other database unchanged.", "quantifier": "all commands, all states, all keys", "why_tests_cant": "All pairs of keys and states (hash collisions, rehash).", "anchors": ["server/command*.go", "server/server.go: Server.dbs"]}
{"id": "C37", "title": "SELECT switches database or fails cleanly", "statement": "SELECT n with 0 ≤ n < databases makes later commands of that connection use database n only; any other argument gives an error and changes nothing.", "quantifier": "all arguments", "why_tests_cant": "All integers, including negative ones.", "anchors": ["server/commandconnection.go: selectCommand"]}
{"id": "C38", "title": "Hash, set and list commands implement their abstract types", "statement": "HSET/HGET/HDEL/HEXISTS/HLEN/HKEYS, SADD/SREM/SCARD/SISMEMBER/SMEMBERS, LPUSH/RPUSH/LPOP/RPOP/LLEN reply and act as on a map, a finite set and a sequence, including the counts of created and removed elements.", "quantifier": "all argument lists (with repeated fields) and all states", "why_tests_cant": "All argument multiplicities and states.", "anchors": ["server/commandhash.go", "server/commandset.go", "server/commandlist.go"]}
{"id": "C39", "title": "SUNION/SINTER/SDIFF over any number of keys", "statement": "SUNION, SINTER and SDIFF over any list of keys reply with exactly the union, intersection and difference of the named sets, missing keys counting as empty sets.", "quantifier": "all key lists, all set contents", "why_tests_cant": "Unbounded number of keys, any subset missing.", "anchors": ["server/commandset.go: sUnionCommand, sInterCommand, sDiffCommand"]}
{"id": "C40", "title": "Expired keys are never readable", "statement": "Once the deadline of a key has passed, no read command (GET, HGET, LRANGE, SMEMBERS, ZSCORE, KEYS, TTL, ...) reveals the key or its old value, and a write starts from an empty key.", "quantifier": "all histories, all deadlines and clock values", "why_tests_cant": "Depends on time and on whether the random sampling cron already removed the key.", "anchors": ["server/command.go: expireIfNeeded", "server/commandkey.go", "server/command*.go: get*IfExist, get*"]}
{"id": "C41", "title": "A live key is never removed by expiration", "statement": "Neither lazy expiration nor the expiration cron removes or alters a key that has no deadline or whose deadline has not passed, whatever keys the cron samples.", "quantifier": "all states, all clock values, all random samples", "why_tests_cant": "All random samples.", "anchors": ["server/command.go: expireIfNeeded", "server/server.go: databasesCron"]}
{"id": "C42", "title": "TTL reports the remaining time", "statement": "TTL k is -2 if k does not exist, -1 if it exists without a deadline and otherwise the remaining whole seconds (never negative).", "quantifier": "all states and clock values", "why_tests_cant": "All clock values around the deadline.", "anchors": ["server/commandkey.go: ttlCommand, expireCommand, expireAtCommand"]}
{"id": "C43", "title": "EXPIRE applies only to existing keys", "statement": "EXPIRE/EXPIREAT on a missing key has no effect; a key created later has no deadline until one is set.", "quantifier": "all histories", "why_tests_cant": "Needs the history EXPIRE, then create.", "anchors": ["server/commandkey.go: expireCommand, expireAtCommand", "server/commandstring.go: setCommand"]}
{"id": "C44", "title": "Every state change is logged and nothing else", "statement": "With AOF enabled, a command appends to the AOF buffer iff it changed the stored data (expiration apart), and what it appends re-executes as that command in that database.", "quantifier": "all commands, arguments and states", "why_tests_cant": "All commands in all states.", "anchors": ["server/command.go: call", "server/aof.go: feedAppendOnlyFile"]}
{"id": "C45", "title": "AOF records decode to the logged commands", "statement": "Loading a file made of any sequence of logged commands executes exactly those commands with exactly those arguments, whatever the argument sizes and bytes.", "quantifier": "all command sequences, all argument bytes and sizes", "why_tests_cant": "Reads near the 64 KiB reader-buffer boundary.", "anchors": ["server/aof.go: catAppendOnlyGenericCommand, loadAppendOnlyFile"]}
{"id": "C46", "title": "Restart reproduces the data", "statement": "After any history of commands, restarting from the AOF yields the same databases: same keys, values and deadlines (to the second).", "quantifier": "all command histories over all databases, clients and random choices", "why_tests_cant": "All histories.", "anchors": ["server/aof.go: feedAppendOnlyFile, loadAppendOnlyFile"]}
{"id": "C47", "title": "Replayed random commands remove the same elements", "statement": "SPOP replayed from the AOF removes the same members it removed originally.", "quantifier": "all set states and random draws", "why_tests_cant": "Depends on the random source in two runs.", "anchors": ["server/commandset.go: sPopCommand", "server/aof.go: feedAppendOnlyFile"]}
{"id": "C48", "title": "The log stays in the right database across restarts and rewrites", "statement": "Commands logged after a restart or after an AOF rewrite are replayed into the database in which they were executed.", "quantifier": "all histories over several databases with restarts and rewrites", "why_tests_cant": "Needs a restart or rewrite between commands of different databases.", "anchors": ["server/aof.go: feedAppendOnlyFile, rewriteAppendOnlyFile, aofRewriteDoneCallback", "server/server.go: NewServer"]}
{"id": "C49", "title": "AOF rewrite preserves every value", "statement": "Replaying the file produced by a rewrite yields, for every key, the same value (string, list order, hash, set, sorted-set scores) and deadline (to the second).", "quantifier": "all database contents, all collection sizes", "why_tests_cant": "All contents; lists and zsets of any size.", "anchors": ["server/aof.go: rewriteAppendOnlyFile, rewriteStringObject, rewriteListObject, rewriteHashObject, rewriteSetObject, rewriteZsetObject"]}
{"id": "C50", "title": "Writes during a rewrite are kept exactly once", "statement": "Commands executed while a background rewrite runs appear exactly once in the effect of replaying the new file, whatever the interleaving of the rewrite goroutine with the main loop.", "quantifier": "all interleavings of main-loop commands with the rewrite goroutine", "why_tests_cant": "Schedules of two goroutines.", "anchors": ["server/aof.go: rewriteAppendOnlyFileBackground, rewriteAppendOnlyFile, feedAppendOnlyFile, aofRewriteDoneCallback", "datastruct/dict.go: DeepCopy"]}
{"id": "C51", "title": "A crash during rewrite loses nothing already logged", "statement": "At every crash point of a rewrite the AOF on disk replays to at least everything that had been flushed before the crash.", "quantifier": "all crash points, all histories", "why_tests_cant": "Crash points.", "anchors": ["server/aof.go: aofRewriteDoneCallback"]}
{"id": "C52", "title": "Only one background rewrite at a time", "statement": "At no time are two rewrite goroutines running, and changes are accumulated for the rewrite exactly while one is pending.", "quantifier": "all interleavings of BGREWRITEAOF, cron ticks, goroutine completion and commands", "why_tests_cant": "All schedules.", "anchors": ["server/aof.go: rewriteAppendOnlyFileBackground, aofRewriteDoneCallback", "server/server.go: serverCron", "server/commandserver.go"]}
{"id": "C53", "title": "Automatic rewrite triggers at the configured growth", "statement": "The cron starts a rewrite iff none is running, the percentage is positive, the AOF exceeds the minimum size and it has grown by at least the configured percentage since the last rewrite; the unsigned arithmetic never wraps.", "quantifier": "all sizes and histories", "why_tests_cant": "Unsigned wrap-around.", "anchors": ["server/server.go: serverCron", "server/aof.go: flushAppendOnlyFile, aofRewriteDoneCallback"]}
{"id": "C54", "title": "A reply is sent only after its command is in the AOF file", "statement": "With AOF enabled no reply byte of a write command is sent before the command's log record has been written to the file (and synced when appendfsync=always).", "quantifier": "all event-loop schedules", "why_tests_cant": "Depends on event order inside a loop iteration and on pending output.", "anchors": ["server/server.go: beforeSleepProc, sendReplayToClient", "ae/ae.go: Main, processEvents", "server/aof.go: flushAppendOnlyFile"]}
{"id": "C55", "title": "everysec bounds the unsynced window", "statement": "With appendfsync=everysec every flushed record is fsynced within about one second of event-loop time; with always every flush is synced; with no, none.", "quantifier": "all histories of flushes and clock values", "why_tests_cant": "Depends on later traffic.", "anchors": ["server/aof.go: flushAppendOnlyFile, aofFileSync"]}
{"id": "C56", "title": "A torn AOF tail does not prevent start-up", "statement": "If the file ends in the middle of a record because of a crash, loading executes all complete records and the server starts.", "quantifier": "all truncation points of all files", "why_tests_cant": "All truncation points.", "anchors": ["server/aof.go: loadAppendOnlyFile"]}
{"id": "C57", "title": "Kernel interest equals registered events", "statement": "After any sequence of AddFileEvent/RemoveFileEvent calls the epoll interest mask of each fd is exactly the union of the event kinds registered for it, duplicates and unknown removals are rejected without effect.", "quantifier": "all call sequences over all fds", "why_tests_cant": "All sequences.", "anchors": ["ae/ae.go: AddFileEvent, RemoveFileEvent, getEpollEventMask, getFileEventMapKey"]}
{"id": "C58", "title": "Timers: unique ids, never early, one-shot fires once", "statement": "Timer ids are unique, a timer callback never runs before its due time, a one-shot timer runs at most once and a periodic timer's runs are at least its interval apart.", "quantifier": "all sequences of timer additions, removals and loop iterations, all clock readings", "why_tests_cant": "All schedules.", "anchors": ["ae/ae.go: AddTimeEvent, RemoveTimeEvent, processEvents, wait"]}
{"id": "C59", "title": "The loop never sleeps past the next timer", "statement": "The poll timeout is positive, at most one second and not later than the earliest timer that is still in the future (10 ms if one is already due).", "quantifier": "all timer sets and clock readings", "why_tests_cant": "All timer sets.", "anchors": ["ae/ae.go: wait, getNearestTime"]}
{"id": "C60", "title": "Fairness of dispatch: each ready event runs once per iteration", "statement": "In one iteration each due timer and each ready registered file event is dispatched exactly once, timers before files, readable before writable for one fd.", "quantifier": "all epoll results and registrations", "why_tests_cant": "All readiness combinations.", "anchors": ["ae/ae.go: wait, processEvents"]}
{"id": "C61", "title": "Releasing an iterator never unfreezes another one's rehash", "statement": "Release of an iterator on which Next has never been called leaves the iterator count of the dict alone, so a rehash stays frozen while another started iterator is live.", "quantifier": "all dict states, all numbers of live iterators", "why_tests_cant": "Needs two iterators on one dict, one of them unused, while a rehash is running; no test does that.", "anchors": ["datastruct/dict.go: DictIterator.Release"]}
{"id": "C62", "title": "ZREMRANGEBYSCORE removes exactly the live members in range", "statement": "Deleting a score range removes exactly the members whose current score lies in the range, returns their number, and leaves every other member with its score.", "quantifier": "all zset histories, all score bounds", "why_tests_cant": "Needs histories with re-scoring and all bound pairs; the dict and the skiplist can disagree.", "anchors": ["datastruct/zset.go: Zset.DeleteRangeByScore", "datastruct/skiplist.go: DeleteRangeByScore", "server/commandzset.go"]}
{"id": "C63", "title": "No callback for a removed file event", "statement": "Once RemoveFileEvent has returned for a descriptor and mask, the callback is not dispatched any more unless it is registered again; in particular no callback runs for a client freed earlier in the same iteration.", "quantifier": "all loop iterations, all sets of ready events, all callbacks", "why_tests_cant": "Needs callbacks that remove other ready events of the same batch.", "anchors": ["ae/ae.go: wait, processEvents, RemoveFileEvent", "server/client.go: free"]}
{"id": "C64", "title": "LINDEX and LRANGE return the elements of the list", "statement": "For a key holding the list l: LINDEX with an index i replies the element at i, or null when i lies outside the list (negative numbers do); LRANGE with start and stop replies exactly the slice of l between them (negative numbers count from the end), null if it is empty; neither changes what any key holds.", "quantifier": "all reachable states, all lists, all index numbers", "why_tests_cant": "Lists of several pages and all pairs of indices; existing tests use short lists of one page.", "anchors": ["server/commandlist.go: lIndexCommand, lRangeCommand", "datastruct/quicklist.go: Get, Range"]}
{"id": "C65", "title": "KEYS lists exactly the visible keys that match", "statement": "KEYS replies with exactly the names, each once, of the keys of the selected database that are not past their deadline and match the pattern; an invalid pattern gives an error; it changes what no key holds.", "quantifier": "all reachable states (all sizes, rehash in progress or not), all patterns", "why_tests_cant": "Needs all table states, including a rehash in progress while expired keys are deleted inside the iteration.", "anchors": ["server/commandkey.go: keysCommand", "datastruct/dict.go: NewDictIterator", "database/database.go"]}
{"id": "C66", "title": "EXPIRE, EXPIREAT and SETEX: the value is visible exactly until the deadline", "statement": "After EXPIRE n / SETEX n / EXPIREAT t with a positive number accepted by the server at time now, the key is seen with its value at every time up to the deadline (now + 1000 n ms, 1000 t ms) and not afterwards.", "quantifier": "all reachable states, all numbers of seconds in int64, all clock readings", "why_tests_cant": "Numbers near the end of the int64 range and all later clock readings.", "anchors": ["server/commandkey.go: expireCommand, expireAtCommand", "server/commandstring.go: setExCommand", "database/database.go"]}
{"id": "C67", "title": "Requests with an unknown name or a wrong number of words change nothing", "statement": "A request whose first word is no command, or whose number of words the command does not accept (written down separately, command by command), is answered with an error and changes nothing; a request with an accepted number of words reaches the command.", "quantifier": "all server states, all requests", "why_tests_cant": "All commands times all argument counts.", "anchors": ["server/command.go: commandTable, lookupCommand, processCommand"]}
{"id": "C68", "title": "Sorted-set commands act on a map from members to scores, arranged by score", "statement": "ZADD, ZREM, ZREMRANGEBYSCORE change the map from members to scores as asked and reply the number of new or removed members; ZCARD, ZSCORE, ZCOUNT, ZRANGE (ranks from the end if negative), ZRANGEBYSCORE answer from the arrangement of the map by score, then member.", "quantifier": "all reachable states, all members, scores, ranks, bounds", "why_tests_cant": "All histories; the dict and the skiplist of a sorted set can disagree.", "anchors": ["server/commandzset.go", "datastruct/zset.go", "datastruct/skiplist.go"]}
{"id": "C69", "title": "No request crashes the server", "statement": "Every non-empty request of a connected client is answered: executing it neither panics nor hangs, whatever the words are and whatever the databases hold. The same for the periodic cron. Commands that draw random numbers (SPOP, RANDOMGET, the cron) can finish whatever numbers came first.", "quantifier": "all reachable states, all requests with all words, all random numbers", "why_tests_cant": "A panic takes the whole server down; the words of a request and the history before it are unbounded.", "anchors": ["server/command.go:105-158", "server/commandlist.go", "server/commandzset.go", "server/commandset.go:52-76", "server/commandstring.go:55-80", "server/server.go:274-296"]}
{"id": "C70", "title": "What the clients see is one sequential execution of their requests", "statement": "For every interleaving of connections, reads of arbitrary pieces of bytes, partial writes, closes and cron runs there is one sequential history of requests, in the order in which they were completely read, that gives the present data, and such that each connected client was sent, followed by what is queued for it, exactly the replies to its own requests, in order; the requests of a client in this history are those it sent.", "quantifier": "all numbers of clients, all interleavings of callbacks, all splits of the byte streams, all partial writes", "why_tests_cant": "Interleavings, read boundaries and partial writes are chosen by the network; tests send one request at a time.", "anchors": ["server/server.go:151-249", "server/client.go:40-200", "server/resp.go", "server/command.go:105-158"]}
{"id": "C71", "title": "A write whose reply was sent survives a kill of the process", "statement": "If more was sent to a client than what was due to it before one of its requests, then at every later moment the append-only file, loaded by a new process, gives the data of a moment after that request: an acknowledged write is not lost when the process is killed.", "quantifier": "all histories with any interleaving of clients, rewrites and restarts before; all moments of the kill; all partial writes", "why_tests_cant": "Needs a kill at every point between the execution, the flush and the write to the socket.", "anchors": ["server/server.go:214-249", "server/aof.go", "ae/ae.go: Main", "server/client.go:65-75"]}
{"id": "C72", "title": "The server listens on the address it was told to", "statement": "With an IPv4 address in dotted form as the bind setting, the listening socket is bound to exactly this address and the configured port; a text that is no address is refused.", "quantifier": "all IPv4 addresses and ports", "why_tests_cant": "The tests connect through the same code to 127.0.0.1, which reaches a socket bound to any address of the machine.", "anchors": ["socket/socket.go:31-59", "server/tcp.go", "config/config.go"]}
{"id": "C73", "title": "Clients on different keys do not affect each other", "statement": "What a group of clients is told, as long as it keeps to its own keys and the other clients keep away from these, is what it would be told if the other clients were not connected and the expiration cron did not run.", "quantifier": "all reachable states, groups of clients, sets of keys and histories of events", "why_tests_cant": "The tests use one client; interference needs another client's command at the right moment between two commands.", "anchors": ["server/command.go:105-160", "server/commandkey.go", "database/database.go", "server/server.go:274-296"]}
{"id": "C74", "title": "Requests on different keys commute", "statement": "Two requests of different clients that look at different keys or work in different databases, and make no random choice, can be exchanged: in the other order they are executed too, with the same replies (up to the order within unordered listings), the same data, deadlines and sessions at the end.", "quantifier": "all reachable states and pairs of requests", "why_tests_cant": "The number of pairs of commands, values and rehashing states of the dicts is unbounded.", "anchors": ["server/command.go:105-160", "datastruct/dict.go", "database/database.go"]}
{"id": "C75", "title": "The hash function cannot be observed", "statement": "Two servers that use different hash functions, and one with and one without a log, give the same replies (up to the order within unordered listings) and hold the same data after the same history of connects, disconnects and requests without random choice.", "quantifier": "all hash functions, passwords, numbers of databases and histories", "why_tests_cant": "The hash function is fixed in the code; collisions and rehash positions reached by tests are few.", "anchors": ["datastruct/dict.go", "datastruct/set.go", "database/database.go", "server/command.go:105-160"]}
{"id": "C76", "title": "Strings made without copying never change", "statement": "The arguments of a command are windows into the query buffers. Whatever any client sends afterwards, in any fragments, whatever capacities append chooses and whichever connections open and close, a string handed to a command reads the same ever after; and the parser over this memory executes the same commands as a parser over values with nothing shared between clients.", "quantifier": "all histories of connects, closes and reads of all clients, all capacities chosen by the runtime", "why_tests_cant": "Corruption would need a later read to land in a buffer that a stored key or value still points into; it depends on capacities and timing.", "anchors": ["server/resp.go", "server/client.go:42-63", "server/client.go:198-205", "server/server.go:151-212", "server/resp.go:70,108,175 (byteutils.B2S)"]}
{"id": "C77", "title": "The interleaving of the goroutines is invisible", "statement": "However the event loop, the rewrite goroutine, the background syncs, the steps of the callback that replaces the file, and the shutdown are interleaved, the loop goes through the states of a single thread that replaces the file in one step; and whenever the process dies, the next one finds on the disk what it would find if that single thread had been killed at some moment. Conversely each history of the single thread is possible.", "quantifier": "all schedules of the goroutines, all histories of events, all moments of death", "why_tests_cant": "Go tests run one schedule; the windows inside the callback are microseconds wide.", "anchors": ["server/aof.go:94-133, 217-283, 369-412", "server/server.go:141-149, 251-272", "ae/ae.go:164-207", "cmd/root.go:34-52"]}
{"id": "C78", "title": "The server does not crash as long as nobody stops it, whatever the schedule of its goroutines", "statement": "Without a signal, no schedule of the event loop, the rewrite goroutine and the background syncs ends the process: the file is open whenever it is written or synced, and the channel is open whenever the rewrite goroutine sends.", "quantifier": "all schedules, all configurations, all histories of events", "why_tests_cant": "Needs a schedule in which a goroutine started by a flush runs only during the callback of a rewrite.", "anchors": ["server/aof.go:114-133, 369-412", "server/server.go:141-149"]}
{"id": "C79", "title": "A shutdown loses nothing that was executed", "statement": "When Stop has closed the file and the process is about to exit, the file, loaded by a new process, gives the data of the server.", "quantifier": "all histories, all moments of the signal, all schedules", "why_tests_cant": "The tests never stop the server; the data lost depends on where the loop is when the signal arrives.", "anchors": ["server/server.go:141-149", "server/aof.go:94-111, 369-412", "cmd/root.go:47-51"]}
{"id": "C80", "title": "With fsync always, a write whose reply was sent survives a power failure", "statement": "With the policy always, a write of a client that waits for its replies, once its reply has been sent, is in whatever a power failure leaves of the append-only file (of which only the synced part is sure to be there).", "quantifier": "all histories with any interleaving of clients, goroutines and rewrites; all moments of the failure; all amounts of unsynced data that survive", "why_tests_cant": "Power failures cannot be produced in a test; what is left of unsynced data is arbitrary.", "anchors": ["server/aof.go:94-133, 369-412", "server/server.go:214-249"]}
{"id": "C81", "title": "The server starts again after a power failure", "statement": "Whatever a power failure leaves of the append-only file, loading it does not fail.", "quantifier": "all histories, all moments of the failure, all amounts of unsynced data that survive", "why_tests_cant": "The file can be cut at every byte.", "anchors": ["server/aof.go:94-133, 136-215, 369-412"]}
{"id": "C82", "title": "The random levels of the skiplists cannot be observed", "statement": "Two servers that draw different levels for the entries of their sorted sets give the same replies to the same requests.", "quantifier": "all histories, all level draws, all pairs of hash functions", "why_tests_cant": "The levels are random; every test run sees one shape of each skiplist, and the shapes on which a traversal goes wrong are rare.", "anchors": ["datastruct/skiplist.go: Skiplist.randomLevel, Insert, Delete, RangeByRank, RangeByScore, Count", "datastruct/zset.go", "server/commandzset.go"]}
{"id": "C83", "title": "A restart cannot be observed", "statement": "When the log buffer has been flushed and the process is killed and started again, clients that connect afterwards get the replies that they would have got from the process that was killed.", "quantifier": "all histories before the restart, all requests after it, all skiplist levels drawn by the two processes", "why_tests_cant": "It compares two executions that differ in all the internal structures that the log does not record: tables, chunks of lists, levels; a test compares a few values.", "anchors": ["server/aof.go: loadAppendOnlyFile, catAppendOnlyGenericCommand, feedAppendOnlyFile", "server/server.go: NewServer", "server/command*.go"]}
{"id": "C84", "title": "System calls hit what their descriptor was opened for", "statement": "Every read, write and close that the server makes on a descriptor number hits the connection or the file for which the number was obtained, although numbers are reused by the kernel, clients are freed while callbacks for them are still to run, and the goroutine that rewrites the log opens files at the same time.", "quantifier": "all histories of connections, reads, writes, failures, callbacks in a turn, and files opened by the goroutine at any moment; all numbers handed out by the kernel", "why_tests_cant": "It takes a client that disconnects with replies outstanding and another goroutine that opens a file between two callbacks of one turn; a test cannot place the two.", "anchors": ["server/client.go: free, addReply", "server/server.go: readQueryFromClient, sendReplayToClient, acceptTCPHandler", "ae/ae.go: wait, processEvents", "server/aof.go: rewriteAppendOnlyFile"]}
{"id": "C85", "title": "A connection receives the replies to its own requests and nothing else", "statement": "What has arrived at a connection is the beginning of the concatenated replies to the requests of this connection, and while the connection is open the rest is in its queue, although numbers are reused and callbacks may run for clients that are gone.", "quantifier": "all histories as in C84, all splits of the replies by partial writes", "why_tests_cant": "A byte of another client shows up only when a number is reused within one turn of the loop; tests use few connections and orderly disconnects.", "anchors": ["server/client.go: free, addReply", "server/server.go: readQueryFromClient, sendReplayToClient, acceptTCPHandler", "ae/ae.go: wait, processEvents"]}
{"id": "C86", "title": "The expiry timer cannot be observed", "statement": "A server whose timer removes expired keys at arbitrary moments gives the same replies as one whose timer never fires, and has the same data except for keys that are past their deadline.", "quantifier": "all histories, all moments of the timer, all keys it samples", "why_tests_cant": "The timer samples random keys every millisecond; tests run for too short a time, and none checks both a key that it has removed and one that it has not.", "anchors": ["server/server.go: serverCron, databasesCron", "server/command.go: expireIfNeeded", "server/commandkey.go", "server/commandhash.go, commandset.go, commandlist.go, commandzset.go: getOrNew and find helpers"]}
{"id": "C87", "title": "The log is a function of the requests", "statement": "Two servers with different hash functions, different random levels and different timers append the same bytes to their logs for the same requests.", "quantifier": "all histories, all pairs of hash functions, all level draws, all moments of the timers", "why_tests_cant": "It compares two executions that differ in everything internal; a test sees one execution.", "anchors": ["server/command.go: call", "server/aof.go: feedAppendOnlyFile, catAppendOnlyGenericCommand", "server/server.go: databasesCron"]}
{"id": "C88", "title": "Expiry and restarts agree", "statement": "Although the removal of expired keys is not logged, and the log is replayed at a time at which deadlines have passed that had not when its commands were executed, a restart at any time shows clients the values that the running server would show them: nothing that is there is lost and nothing that has expired comes back.", "quantifier": "all histories, all deadlines before and after the restart, all moments at which expired keys are dropped by requests or by the timer", "why_tests_cant": "Needs a deadline that passes between the execution of a command and its replay; tests that restart the server do so at once, tests of expiry do not restart it.", "anchors": ["server/aof.go: loadAppendOnlyFile, catAppendOnlyGenericCommand, feedAppendOnlyFile", "server/command.go: call, expireIfNeeded", "server/server.go: databasesCron", "server/commandkey.go, commandstring.go, commandhash.go, commandset.go"]}
{"id": "C89", "title": "Clients without the password neither change nor learn anything", "statement": "Connections that never send the password could as well not have been there: the server, all other connections and all replies to these are the same without them. What they are told depends on their own requests alone: not on the data, on what other clients do, on the number of databases, or on the password (beyond that their guesses are wrong).", "quantifier": "all histories, any set of connections that do not authenticate, all pairs of servers with different contents and passwords", "why_tests_cant": "It compares executions; a test checks that a few commands are refused, not that the refusals carry no information and leave no trace.", "anchors": ["server/command.go: processCommand, call", "server/commandconnection.go: authCommand", "server/client.go: NewClient, free"]}
{"id": "C90", "title": "What the server makes of a byte stream depends only on the bytes since the last command", "statement": "Whatever the reads, the commands executed on a connection, and whether it is closed or the server panics, are what a parser without memory says of the bytes received since the last command (and of the room left in the query buffer): the state the parser keeps between reads (type, counts, lengths, arguments already taken, bytes consumed) cannot be observed. The words of an inline command are its line without the first byte, split at single spaces.", "quantifier": "all byte streams in all fragmentations, new and used connections", "why_tests_cant": "A test feeds some streams in some fragmentations; here the incremental parser is related to a one-shot one for all of them.", "anchors": ["server/resp.go", "server/client.go: reset", "server/server.go: readQueryFromClient, processInputBuffer"]}
{"id": "C91", "title": "A client without the password cannot bring the server down", "statement": "With a password set, whatever a client that has not authenticated does on its connection (any bytes in any pieces, closing, not reading), the server goes on.", "quantifier": "all histories of the whole server, all unauthenticated connections, all bytes", "why_tests_cant": "All byte streams in all states of the parser and of the server; the test suite has no malformed input.", "anchors": ["server/resp.go", "server/server.go: readQueryFromClient, sendReplayToClient", "server/command.go: processCommand"]}
{"id": "C92", "title": "The server is indistinguishable from a small reference server", "statement": "A reference server keeps plain strings, sequences, maps, sets and score maps with deadlines, has no hash tables, pages, skiplists, buffers or files, and says of each of the 43 commands in a few lines which state and which reply it may lead to. Whatever connections, requests (right or wrong, by any number of clients in any database) and timer events arrive in whatever order, the bytes metis sends are those of some run of the reference server.", "quantifier": "all histories of all clients over all commands, from the empty server, with and without a password", "why_tests_cant": "It is the conjunction of the behaviour of all commands in all states after all histories; tests compare single commands on small states.", "anchors": ["server/command.go", "server/commandkey.go, commandstring.go, commandhash.go, commandset.go, commandlist.go, commandzset.go, commandconnection.go, commandserver.go", "server/server.go: databasesCron", "database/, datastruct/"]}
{"id": "C93", "title": "Bytes in, bytes out: the reference server behind sockets", "statement": "The reference server of C92 is given connections: a connection is the bytes received since the last command and the bytes said so far; a stateless function says what a read means. Whatever any number of clients send, in whatever pieces, however slowly they read, and whenever they connect and leave, the bytes sent to and queued for every connection are those that some run of the reference says to it.", "quantifier": "all interleavings of all byte streams of all clients, all fragmentations, all partial writes, failing writes and disconnections", "why_tests_cant": "Joins the event callbacks, the parser, all commands, and the output queues; end-to-end tests send a few whole requests over one connection.", "anchors": ["server/server.go: acceptTCPHandler, readQueryFromClient, sendReplayToClient, databasesCron", "server/resp.go", "server/client.go", "server/command.go and all command files", "database/, datastruct/"]}
{"id": "C94", "title": "The server starts with the settings it was given", "statement": "Whatever the name of the configuration file and whatever it says: on a machine that does what it is asked, the server starts, and it has the number of databases, the password, the port, the level of the logger and the settings of the append-only file that the configuration names; with a new append-only file it starts empty.", "quantifier": "all file names, all configurations, all contents of the append-only file, all answers of the operating system", "why_tests_cant": "The tests construct a configuration in the program and never run the code that reads one; each deployment exercises one file name and one configuration.", "anchors": ["cmd/root.go: run", "config/config.go: LoadConfig", "log/log.go: InitLogger", "server/server.go: NewServer, Run", "server/tcp.go: CreateTCPServer", "server/aof.go: aofFileSync"]}
{"id": "C95", "title": "A client that goes on reading gets all its replies", "statement": "If a connection stays open and its socket takes a byte again and again while something is pending, then whatever has been said to the connection at any moment is sent completely and in order at some later moment, whatever other clients and the timer do meanwhile; it takes at most as many writes as bytes were pending; and the loop is asked to call back for writing exactly while something is pending.", "quantifier": "all histories without end, all interleavings of clients, all sizes of partial writes", "why_tests_cant": "It is a liveness property: every finite test is consistent with its negation, and a lost registration of the writable event shows only under back-pressure.", "anchors": ["server/server.go: sendReplayToClient, readQueryFromClient", "server/client.go: addReply", "ae/ae.go: AddFileEvent, RemoveFileEvent"]}
{"id": "C96", "title": "Through rewrites, kills and restarts the process is a small reference server with a disk", "statement": "Whatever clients ask and however rewrites of the log are interleaved with their commands, and wherever the process is killed and started again, it says on every connection, at every moment, what a reference server says that has no log but a disk, which holds the databases of the moment of the last flush: after a restart it knows these, with deadlines to the second, and nothing else.", "quantifier": "all histories of commands, flushes, timers, goroutine steps, kills and restarts; all connections; every moment", "why_tests_cant": "Tests restart at a few points with a few data; what a client is told after a restart depends on the whole history of commands, flushes and rewrites before it.", "anchors": ["server/server.go: Run, serverCron, readQueryFromClient", "server/aof.go: flushAppendOnlyFile, loadAppendOnlyFile, rewriteAppendOnlyFile, aofRewriteDoneCallback", "server/command.go: processCommand"]}
{"id": "C97", "title": "Loops over a dict that is changed meanwhile", "statement": "While the goroutine that rewrites the log walks along a hash or a set of the server, the server goes on setting, reading and deleting in it and walks along it itself. Whatever is called and however the calls and the turns of any number of loops are interleaved, nothing crashes and the calls return what they would return without the loops; everything that a loop has collected was in the dict at some moment since the loop began; a loop that is over has collected every key that was there all the time exactly once, with its value if that did not change; storing what it has collected and then repeating the calls made since it began gives the contents of the dict; every loop ends if it is given its turns; and when all loops have ended nothing keeps the rehash from going on.", "quantifier": "all hash functions, all contents, all interleavings of calls and of turns of any number of loops, with entries as objects linked by pointers", "why_tests_cant": "The outcome depends on where in a chain of pointers a loop stands when an entry before, at or behind it is unlinked, and on whether a rehash is going on; a test sees a few of these interleavings, and none that it can choose.", "anchors": ["datastruct/dict.go: NewDictIterator, Next, Release, Set, Get, Delete, Find, rehash, expand", "datastruct/set.go: Range", "server/aof.go: rewriteHashObject, rewriteSetObject"]}
{"id": "C98", "title": "The loops of the rewrite fit the model of the process", "statement": "While the rewriting goroutine walks along a hash or a set entry by entry, the server executes requests call by call. Whatever the requests, as long as none sets one field to two different values, and wherever the turns of the loop fall, at its end the loop has collected, of every field that is the same before and after each request, what is there, once; so the log that results holds the data of the server (C50).", "quantifier": "all contents, all requests, all positions of the turns of the loop between the calls of the requests", "why_tests_cant": "It ties two levels of the program together: pointers of a hash table and the file that a restart reads years later; a test would have to stop a goroutine inside a loop.", "anchors": ["server/aof.go: rewriteHashObject, rewriteSetObject, rewriteAppendOnlyFile", "datastruct/dict.go: Next, Set, Delete", "datastruct/set.go: Range"]}
{"id": "C99", "title": "A full disk does not cost acknowledged data", "statement": "When an operation on the log fails (a write of the log that stops in the middle, a sync, the temporary file of a rewrite, the replacement of the file), the process ends; the server can be started again and has the data of a moment after the last flush, so that every acknowledged write is there.", "quantifier": "all histories of the process, all failures at all moments, all lengths of the part that was written", "why_tests_cant": "It needs a disk that fails at a chosen byte, in the middle of a rewrite or of a flush; tests run on disks that work.", "anchors": ["server/aof.go: flushAppendOnlyFile, aofFileSync, rewriteAppendOnlyFile, aofRewriteDoneCallback, loadAppendOnlyFile"]}
{"id": "C100", "title": "Loops over a dict whose reads fall inside of calls", "statement": "The goroutine that rewrites the log reads the tables and entries of a hash or a set while the server is in the middle of a call on it. However the single reads of any number of loops and the single writes of the calls are interleaved, nothing crashes; the calls return what they would return without the loops; everything that a loop has collected was in the dict at some moment since it began; a loop that is over has collected every key that was there all the time exactly once; and storing what it has collected and then repeating the calls that have ended since it began gives the contents of the dict.", "quantifier": "all hash functions, all contents, all calls, all interleavings of single reads and writes of the server and of any number of loops", "why_tests_cant": "The wrong outcomes need a read between two neighbouring assignments of another goroutine, while the last buckets of a rehash are moved; no test can place it there, and a race detector says that there is a race but not what it does.", "anchors": ["datastruct/dict.go: Next, Release, Size, Set, Get, Delete, keyIndex, Find, expand, rehash, rehashStep", "server/aof.go: rewriteHashObject, rewriteSetObject"]}
{"id": "C101", "title": "What a sorted set is when members have been given new scores", "statement": "After every history that keeps from scores that are not a number and from ZREMRANGEBYRANK beginning beyond the first rank, the sorted set of a key is a table of scores and a collection of entries (score, member) such that every member of the table has an entry with its score. ZADD of a new score adds an entry and leaves the old one; ZREM removes the entry of the current score only; ZREMRANGEBYSCORE removes the entries in the range and strikes their members off the table; so does ZREMRANGEBYRANK from the first rank on with the entries of these ranks; ZCARD and ZCOUNT count entries; ZRANGE and ZRANGEBYSCORE list the entries in order of score and member, each with the score in the table, and crash the server exactly when an entry of the selection has a member that is not in the table (or more than 2^45 ranks are asked for); so does the rewrite of the log.", "quantifier": "all histories of all clients without NaN and without ZREMRANGEBYRANK from a rank beyond the first on the key, all levels drawn, all requests", "why_tests_cant": "It is the exact behaviour behind the refutations of C23, C24, C62 and C68: which histories make a listing crash depends on all scores that a member ever had.", "anchors": ["datastruct/zset.go: Add, Delete, RangeByRank, RangeByScore, DeleteRangeByScore, Count", "datastruct/skiplist.go", "server/commandzset.go", "server/aof.go: rewriteZsetObject"]}
{"id": "C102", "title": "The server is one exact reference machine, crashes included", "statement": "There is a small reference machine - per key the value, the deadline, for lists the sizes of their pages, for sorted sets the entries that remain of former scores - such that whatever clients send, in whatever order, every reply is the one the reference gives, and the server survives the next request exactly if the reference has an outcome for it. Deadlines wrap around in 64 bits, long lists lose what lies beyond a page where LINDEX, LRANGE and RPOP look in the wrong place, members with former scores are listed more than once or bring down the server, as the code does it.", "quantifier": "all histories of all clients (connections, requests, timer events), all numbers of databases, all passwords, all levels and random numbers drawn", "why_tests_cant": "C92 compares the server with the reference only up to the first request outside of its limits; here nothing but NaN and ZREMRANGEBYRANK from a rank beyond the first is left out, and crashes are predicted in both directions, from any state, which needs an invariant for lists of many pages and for sorted sets with stale entries at once.", "anchors": ["server/command*.go", "server/command.go: processCommand", "datastruct/quicklist.go", "datastruct/zset.go", "database/database.go"]}
{"id": "C103", "title": "Bytes in, bytes out, exactly, crashes included", "statement": "Behind its sockets the server is the exact reference machine of C102: whatever bytes arrive, cut into whatever reads, on however many connections, each connection gets exactly the bytes of the reference, and the next read, write, connection or timer event brings the server down exactly if the reference has no outcome for it.", "quantifier": "all histories of socket events (accepts, reads of any bytes in any pieces, partial and failing writes, hang-ups, timer events), all contents, all numbers of databases and passwords", "why_tests_cant": "The outcome of a read depends on all bytes read before it on the same connection, on all commands of all clients before, and on the room left in the query buffer; crashes must be predicted in both directions for each of them.", "anchors": ["server/server.go: acceptTCPHandler, readQueryFromClient, sendReplayToClient", "server/resp.go", "server/client.go", "server/command*.go"]}
{"id": "C104", "title": "A command happens at one moment although the clock moves while it runs", "statement": "Commands read the clock for each key that they look at (KEYS and RANDOMGET for each key of the database, SDIFF, SINTER and SUNION for each operand, the timer for each draw). Whatever the clock does meanwhile, as long as it does not go back, every history of requests has the replies of a history in which each command happens at one moment between its first and its last reading.", "quantifier": "all histories of all clients, all clocks that do not go back (any number of readings per command, any steps between them)", "why_tests_cant": "The clock would have to pass a deadline between two turns of a loop that takes microseconds; no test can place it there, and a frozen test clock hides it.", "anchors": ["server/commandkey.go: keysCommand", "server/commandstring.go: randomGetCommand", "server/command.go: expireIfNeeded", "server/commandset.go: sDiffCommand, sInterCommand, sUnionCommand, getSetIfExist", "server/server.go: databasesCron"]}
{"id": "C105", "title": "The deadline in the log is not later than the one in memory", "statement": "EXPIRE and SETEX compute the deadline twice: in milliseconds from one reading of the clock for the memory, and in whole seconds from a later reading for the log. The deadline that a restart reads from the log is not later than the one that was in memory, so that a restart prolongs no life; and it is less than a second earlier.", "quantifier": "all states reached by histories of requests, all clocks that do not go back, all numbers of seconds without overflow", "why_tests_cant": "The difference is below a second and depends on whether a second begins between two neighbouring readings of the clock; tests compare deadlines with a tolerance, or with a frozen clock.", "anchors": ["server/aof.go: catAppendOnlyExpireCommand, feedAppendOnlyFile", "server/commandkey.go: expireCommand, expireAtCommand", "server/commandstring.go: setExCommand", "server/command.go: call"]}
{"id": "C106", "title": "The log is loaded whole or not at all, however the reads deliver it", "statement": "Loading the log does not depend on the portions in which the operating system delivers the file: if a read fails, wherever it is, the server does not start, and otherwise exactly the logged commands are executed.", "quantifier": "all logs, all sequences of reads of all lengths, all places of a failing read, any buffer size of at least 22 bytes in the lemmas", "why_tests_cant": "Reads of regular files come back short or fail only under signals, on network file systems and on broken disks; a test reads a small file in one piece.", "anchors": ["server/aof.go: loadAppendOnlyFile"]}
{"id": "C107", "title": "Defects and all, the process is one exact reference machine with a disk", "statement": "Through requests, background rewrites, kills and restarts the process is the exact reference machine of C102 with a disk: every connection gets exactly the bytes of the reference, after a restart the server holds what was on the disk - lists cut into the same pages, sorted sets with the same entries of former scores, deadlines to the second - and a request brings down the process exactly if the reference has no outcome for it. What is damaged stays damaged over a restart.", "quantifier": "all histories of the process (connections, requests, socket writes, timer, flushes, steps of the rewriting goroutine, kills, restarts), all data, all numbers of databases and passwords", "why_tests_cant": "A restart rebuilds the data by executing the log, so the pages of the lists and the leftovers in the sorted sets are made anew by other calls than before; that the result answers, and crashes, in the same way for every later request has to hold for every history.", "anchors": ["server/aof.go: loadAppendOnlyFile, rewriteAppendOnlyFile, aofRewriteDoneCallback", "server/server.go: beforeSleepProc, serverCron, readQueryFromClient", "datastruct/quicklist.go", "datastruct/zset.go"]}
{"id": "C108", "title": "From bytes to disk and back, the process is one reference machine", "statement": "The whole process - sockets, query parser, commands, log, background rewrites, kills and restarts - is one reference machine that receives bytes and sends bytes: whatever the pieces in which requests arrive, every connection gets exactly the bytes of the reference; a restart forgets the halves of requests and keeps the data; and a read brings down the process exactly if the reference has no outcome for the bytes.", "quantifier": "all histories of the process (connections, reads of all pieces of bytes, partial and failing writes, timer, flushes, steps of the rewriting goroutine, kills, restarts), all data, all numbers of databases and passwords", "why_tests_cant": "The parts are tested one by one, the parser with whole requests and the commands without sockets; that no combination of a cut request, a rewrite under way and a restart changes an answer is a statement about all interleavings.", "anchors": ["server/server.go: readQueryFromClient, sendReplayToClient, acceptTCPHandler", "server/client.go: free, reset", "server/resp.go", "server/aof.go: loadAppendOnlyFile, rewriteAppendOnlyFile, aofRewriteDoneCallback", "ae/ae.go: processEvents"]}
{"id": "C109", "title": "Loading a log is the reference carrying out its records", "statement": "A server that starts with a log - of any records, whether metis wrote them or somebody else did - holds exactly what the exact reference machine of C102 holds after carrying out the records one after the other from empty databases, beginning with database 0: unknown commands and databases that do not exist are passed over, nobody is asked for a password, deadlines pass and random members are drawn anew while loading. The server does not come up exactly if the reference cannot carry out a record.", "quantifier": "all logs of all records, all clocks, levels and random numbers during the load, all histories of requests after it, all numbers of databases and passwords", "why_tests_cant": "Logs are edited, joined and cut by hand or written by another version; what a test would load are logs that the server itself has just written, and a record that crashes the load may stand anywhere behind any other records.", "anchors": ["server/aof.go: loadAppendOnlyFile", "server/command.go: lookupCommand, expireIfNeeded", "server/command*.go"]}
{"id": "C110", "title": "Without rewrites, the process is the reference with a log, through any kills and restarts", "statement": "If rewriting is off (percentage 0) and nobody asks for it, then through any kills and restarts, at any time, with any clocks, the process has sent or queued on every connection, at every moment, exactly the bytes of the exact reference machine of C102 that keeps a log; and its file consists, at every moment, of the records of that reference. The reference writes a record for a command exactly if its reply says that it changed something (status replies, elements taken out, numbers that are not 0; adding commands always; a ZADD that failed half way), with a SELECT record only if the last record of this life was for another database; it forgets which at a restart, where it carries out the records of the file one after the other and drops what was not written. A request or a start brings the process down exactly if the reference has no outcome for it.", "quantifier": "all histories of connections, requests, timer events, kills and restarts, all clocks, all values and deadlines, all files found at the first start", "why_tests_cant": "After a restart writes may land in another database at the next restart, deadlines may have passed, and stale entries come back: which key has which value after several restarts depends on the whole history of the file, and no test restarts the server at every moment.", "anchors": ["server/aof.go: loadAppendOnlyFile, feedAppendOnlyFile, flushAppendOnlyFile", "server/command.go: call, processCommand", "server/server.go: beforeSleepProc, serverCron"]}
{"id": "C111", "title": "Exactly the decimal numerals of 64-bit numbers are numbers", "statement": "Wherever a client or a log gives a number (SELECT, EXPIRE, EXPIREAT, SETEX, LINDEX, LRANGE, ZRANGE, ZREMRANGEBYRANK, the lengths in RESP headers and in the log), a text is accepted if and only if it is an optional + or - followed by at least one decimal digit and nothing else, and the number it denotes by the places of its digits fits in 64 bits; it is read as that number. Printed numbers are numerals of themselves, and the shortest ones. SELECT in particular changes the database exactly for the numerals of the databases.", "quantifier": "all byte strings, all 64-bit numbers, all servers and sessions", "why_tests_cant": "Signs, leading zeros, the two bounds of the range and bytes behind the digits are single points in an infinite set of texts.", "anchors": ["server/commandconnection.go: selectCommand", "server/client.go: getNumFromQueryBuffer", "server/aof.go: loadAppendOnlyFile, catAppendOnlyGenericCommand", "server/commandkey.go: expireCommand", "server/commandlist.go: lIndexCommand"]}
{"id": "C112", "title": "What a rewrite writes, for values of all kinds, and when it brings down the process", "statement": "A rewrite that nothing interrupts writes, for each database with keys, one SELECT and then for each key once, in some order: SET for a string; LPUSH of the elements from the first to the last, 64 to a command, for a list; HSET of all fields with their values, 128 words to a command, for a hash; SADD of all members, 64 to a command, for a set; for a sorted set ZADD of all entries, member before score, the score being the one in the table; and EXPIREAT with the deadline in whole seconds if there is one. It brings down the process exactly if some sorted set has an entry left of a member that is gone (or more than 2^45 entries).", "quantifier": "all histories of commands, all values, sizes, keys and deadlines, all numbers of databases", "why_tests_cant": "The rewrite is correct or not for every shape of every collection; the crash depends on what was done long before to the scores of a member, and a test that rewrites small databases sees neither the reversed lists nor the exchanged words unless it looks for them.", "anchors": ["server/aof.go: rewriteAppendOnlyFile, rewriteStringObject, rewriteListObject, rewriteHashObject, rewriteSetObject, rewriteZsetObject", "datastruct/zset.go"]}
{"id": "C113", "title": "The process that rewrites its log is the reference that does, through any kills and restarts", "statement": "Rewriting included, through any kills and restarts, the process has sent or queued on every connection, at every moment, exactly the bytes of the exact reference machine with a log (C110) that rewrites it; its file consists, at every moment, of the records of that reference; and a rewrite is under way, or done and not yet in use, in both or in neither. The reference begins a rewrite when BGREWRITEAOF is carried out (it answers 'started', or 'scheduled' if one has been begun that is not in use, and then begins none) or when the timer finds that the file has grown by the configured percentage and is longer than the configured length (in 64-bit numbers); writes down the databases as in C112; adds what is recorded afterwards; and replaces the file at the next timer event. A sorted set that cannot be written stops the process, not the reference.", "quantifier": "all histories of connections, requests, timer events, steps of the rewriting goroutine, kills and restarts, all clocks, all values and deadlines, all configurations", "why_tests_cant": "Which records are in the file after a rewrite, and so what a restart makes of lists, sorted sets and selected databases, depends on when the rewrite was begun, on what came between its end and the timer, and on the restarts before; tests rewrite once, at rest, and do not load the result.", "anchors": ["server/aof.go: rewriteAppendOnlyFileBackground, rewriteAppendOnlyFile, aofRewriteDoneCallback, feedAppendOnlyFile, loadAppendOnlyFile", "server/commandserver.go: bgRewriteAofCommand", "server/server.go: serverCron, beforeSleepProc"]}
{"id": "C114", "title": "What becomes of a log that ends inside a record when the server goes on writing", "statement": "A process that was started with a log, complete or not, leaves at every later moment a log that can be read. (False of the code: a file that ends inside the first line of a record, or before its very last byte, is loaded without a word (C56), the rest is not removed, and the first record appended behind it makes the file one with which no process can be started; until then nothing is lost, and a rewrite that gets into use before the next start puts it right.)", "quantifier": "all logs, all places inside a record at which they may end and be loaded, all histories of connections, requests, timer events, rewrites and restarts afterwards", "why_tests_cant": "A test that cuts a log and starts the server once passes; the damage is done by the next write and shows at the start after that, with an error about a number or a length in a place where nothing was ever cut.", "anchors": ["server/aof.go: loadAppendOnlyFile, feedAppendOnlyFile, flushAppendOnlyFile, aofRewriteDoneCallback"]}
{"id": "C115", "title": "Words too many and words too few, in requests and in the log", "statement": "A request or a record of the log with more words than its command looks at changes nothing. (False of the code: `SET k v EX 10` is answered OK, sets k for ever and ignores the rest, as do LRANGE, ZREMRANGEBYRANK and ZREMRANGEBYSCORE, and the loader, which does not count words, carries out every such record as the one without them.) A record with fewer words than its command takes without counting stops the process, wherever in the log it is; HSET and ZADD count and do nothing.", "quantifier": "all commands, all words, all states, all logs", "why_tests_cant": "Tests of options send options the server knows; a server that takes unknown ones for granted gives no error, and the loader is tested on logs the server has written.", "anchors": ["server/command.go: processCommand, commandTable", "server/commandstring.go: setCommand", "server/aof.go: loadAppendOnlyFile"]}
{"id": "C116", "title": "Whether somebody reads cannot be observed", "statement": "If any of the requests that only ask (GET, TTL, KEYS, HGET, LRANGE, SMEMBERS, SUNION, ZRANGE and so on), of any clients, are left out of a history, the replies to all other requests, the log and the data are the same.", "quantifier": "all histories of all clients, all choices of reading requests, all values and deadlines", "why_tests_cant": "Reading rehashes, expires keys, reorders nothing and allocates iterators; that none of it is visible later is a statement about pairs of histories, while a test runs one.", "anchors": ["server/command.go: expireIfNeeded, call", "server/commandkey.go: ttlCommand, keysCommand", "server/commandhash.go: hGetCommand", "datastruct/dict.go: Find"]}
{"id": "C117", "title": "A request that is answered with an error has changed nothing", "statement": "After a request whose reply is an error the sessions, the values and deadlines of all keys, the log, the count of changes and the background task are what they were, but for the removal of keys that are past their deadline. (False of the code in two places: ZADD with a score that is not a number adds the pairs before it, creates the key if there are none, and answers with an error; AUTH with a wrong password takes away the authentication the connection had.)", "quantifier": "all requests of all commands, all states, all error replies", "why_tests_cant": "Whether a command checks everything before it changes anything has to hold for every command and every kind of error; tests look at the reply of a refused request and seldom at the state behind it.", "anchors": ["server/command.go: processCommand, call", "server/commandzset.go: zAddCommand", "server/commandconnection.go: authCommand", "server/commandhash.go: hSetCommand"]}
{"id": "C118", "title": "A request that says how something is to be may be sent again", "statement": "If the request SET, EXPIREAT, HSET, HDEL, SADD, SREM, ZADD or ZREM is sent a second time (because the first reply was lost, say), the second changes no session, no value and no deadline, but for the removal of keys that are past their deadline, and its reply, where it is a count, counts nothing. EXPIRE and SETEX move nothing but the deadline of their key. (False of the code for ZADD with the score NaN, which is equal to no score and is entered anew into the order every time.)", "quantifier": "all such requests with any number of fields, members and pairs, repeated or not, all states, all clocks, draws and levels the second time", "why_tests_cant": "That a request does nothing the second time has to hold for all states it may meet and for arguments that name the same field twice; tests repeat a request on one small value.", "anchors": ["server/commandhash.go: hSetCommand, hDelCommand", "server/commandset.go: sAddCommand, sRemCommand", "server/commandzset.go: zAddCommand, zRemCommand", "server/commandstring.go: setCommand", "datastruct/zset.go: Add"]}
{"id": "C119", "title": "Whether somebody was refused cannot be observed", "statement": "If any of the requests that were answered with an error, of any clients, are left out of a history, the replies to all other requests, the log and the data are the same. (False of the code: see C117.)", "quantifier": "all histories of all clients, all choices of requests that were answered with an error", "why_tests_cant": "It compares two histories of any length and of which only one contains the errors; a test runs one history.", "anchors": ["server/command.go: processCommand, call", "server/commandzset.go: zAddCommand"]}
{"id": "C120", "title": "Keys are only names", "statement": "If throughout a history every key is given another name, no two keys the same, every client is told exactly what it was told before (members of sets and fields of hashes possibly in another order, and the new names of the keys where a client asks for the names of all), and every value and deadline is afterwards under the new name of its key.", "quantifier": "all one-to-one renamings of all byte strings; all histories of requests of all clients (all commands; KEYS only with the pattern *, since other patterns look at the names, and not RANDOMGET, SPOP and the timer, which draw), any number of databases, with or without password and log", "why_tests_cant": "It is about infinitely many renamings and compares two histories. A key that is treated specially, a key that is confused with another because of its bytes or its length, or a key that gets into a reply or a value would show only for the right choice of names.", "anchors": ["server/command.go: processCommand, call", "database/dict.go: Hash, Equal", "server/command.go: expireIfNeeded", "datastruct/dict.go: Set, Get, Delete"]}
{"id": "C121", "title": "Databases are only numbers", "statement": "If throughout a history the databases are given other numbers (database 0, on which every connection starts, keeps its own), so that every SELECT names the other number, every client is told exactly what it was told before (unordered listings possibly in another order), and what was in a database is afterwards in the database with the other number.", "quantifier": "all renumberings of any number of databases; all histories of connects, closes and requests of all clients (not RANDOMGET, SPOP and the timer, which draw), with or without password and log", "why_tests_cant": "It is about all permutations of the databases and compares two histories. A database that is treated specially, a command that works on the wrong database or a selection that leaks from one connection to another would show only in the right history.", "anchors": ["server/commandconnection.go: selectCommand", "server/command.go: processCommand, call", "server/server.go: NewServer", "server/client.go: NewClient"]}
{"id": "C122", "title": "Connections are only descriptors", "statement": "If throughout a history the connections have other descriptors, no two the same, everything is as before: every reply, the data, the log, the state of a rewrite, and the database and the authentication of every connection.", "quantifier": "all one-to-one relabellings of descriptors; all histories of connects, closes, requests (all commands) and runs of the timer", "why_tests_cant": "It is about all choices of descriptors by the kernel, including their reuse. A state that is kept under the wrong descriptor or survives a close would show only for the right choice.", "anchors": ["server/server.go: acceptTCPHandler", "server/client.go: NewClient, free", "server/command.go: processCommand"]}
