{
 "claims": [
  {
   "property": "C01",
   "status": "proved",
   "theorems": [
    "Metis.Props.DictP.C01_dict_is_finite_map"
   ],
   "note": ""
  },
  {
   "property": "C02",
   "status": "proved",
   "theorems": [
    "Metis.Props.DictP.C02_size_counts_live_keys"
   ],
   "note": ""
  },
  {
   "property": "C03",
   "status": "proved",
   "theorems": [
    "Metis.Props.DictP.C03_dict_never_panics",
    "Metis.Props.DictP.C03_deepCopy_never_panics"
   ],
   "note": "every modelled call returns (never none), for all hash functions and draws"
  },
  {
   "property": "C04",
   "status": "proved",
   "theorems": [
    "Metis.Props.DictP.C04_iteration_visits_each_entry_once"
   ],
   "note": "loop body: arbitrary lookups in the iterated dict, then possibly deletion of the current entry"
  },
  {
   "property": "C05",
   "status": "proved",
   "theorems": [
    "Metis.Props.DictP.C05_frozen_while_iterating",
    "Metis.Props.DictP.C05_start_counts",
    "Metis.Props.DictP.C05_release_uncounts",
    "Metis.Props.DictP.C05_rehash_finishes"
   ],
   "note": "freeze for any non-zero iterator count; completion after n+1 calls of Set/Get/Find/Delete"
  },
  {
   "property": "C06",
   "status": "proved",
   "theorems": [
    "Metis.Props.DictP.C06_random_nil_iff_empty",
    "Metis.Props.DictP.C06_random_returns_live",
    "Metis.Props.DictP.C06_every_entry_reachable"
   ],
   "note": ""
  },
  {
   "property": "C07",
   "status": "proved",
   "theorems": [
    "Metis.Props.DictP.C07_deepCopy_equal_and_independent"
   ],
   "note": "independence of the copies rests on the value semantics of the model; values themselves are shared in Go (see C50)"
  },
  {
   "property": "C08",
   "status": "proved",
   "theorems": [
    "Metis.Props.NextPowerP.C08_next_power",
    "Metis.Props.NextPowerP.C08_overflow",
    "Metis.Props.NextPowerP.C08_model_agrees"
   ],
   "note": "64-bit two's complement"
  },
  {
   "property": "C09",
   "status": "proved",
   "theorems": [
    "Metis.Props.DictP.C09_tables_well_formed",
    "Metis.Props.DictP.C09_growth_condition",
    "Metis.Props.DictP.C09_only_set_grows"
   ],
   "note": ""
  },
  {
   "property": "C10",
   "status": "proved",
   "theorems": [
    "Metis.Props.SetP.C10_set_is_finite_set",
    "Metis.Props.SetP.C10_union",
    "Metis.Props.SetP.C10_intersect",
    "Metis.Props.SetP.C10_difference",
    "Metis.Props.SetP.C10_self"
   ],
   "note": "two distinct operands and the same object twice; all hash functions"
  },
  {
   "property": "C11",
   "status": "proved",
   "theorems": [
    "Metis.Props.QuicklistP.C11_exact_deque"
   ],
   "note": ""
  },
  {
   "property": "C12",
   "status": "partial",
   "theorems": [
    "Metis.Props.QuicklistP.C12_popBack_crashes",
    "Metis.Props.QuicklistP.C12_get_wrong_element",
    "Metis.Props.QuicklistP.C12_range_huge_stop_crashes",
    "Metis.Props.QuicklistP.C12_get_characterised",
    "Metis.Props.QuicklistP.C12_out_of_range",
    "Metis.Props.QuicklistP.C12_positional_access_partial"
   ],
   "note": "false of the code (quicklist.go:262 shadows pageIndex): PopBack panics on every list of more than one page, Get returns another element or panics in the second half beyond the first page, Range with a huge stop panics; exact behaviour of Get characterised, the correct part proved"
  },
  {
   "property": "C13",
   "status": "proved",
   "theorems": [
    "Metis.Props.QuicklistP.C13_pages_well_formed"
   ],
   "note": "holds even for the calls that address the wrong element"
  },
  {
   "property": "C14",
   "status": "proved",
   "theorems": [
    "Metis.Props.QuicklistP.C14_find",
    "Metis.Props.QuicklistP.C14_iterator"
   ],
   "note": ""
  },
  {
   "property": "C15",
   "status": "proved",
   "theorems": [
    "Metis.Props.SkiplistP.C15_sorted_pairs"
   ],
   "note": "all level choices in 1..32; no NaN, no pair inserted while present (as the property says)"
  },
  {
   "property": "C16",
   "status": "partial",
   "theorems": [
    "Metis.Props.SkiplistP.C16_element_by_rank",
    "Metis.Props.SkiplistP.C16_range_by_rank_partial",
    "Metis.Props.SkiplistP.C16_rank_partial",
    "Metis.Props.SkiplistP.C16_reverse_past_end_returns_head",
    "Metis.Props.SkiplistP.C16_huge_range_crashes",
    "Metis.Props.SkiplistP.C16_empty_member_rank_wrong",
    "Metis.Props.SkiplistP.C16_repeated_member_rank_wrong"
   ],
   "note": "false of the code in corner cases, each refuted: reverse range from Length+1 returns the head, ranges above 2^45 panic, rank of the empty member, rank of a member stored under two scores; everything else proved"
  },
  {
   "property": "C17",
   "status": "partial",
   "theorems": [
    "Metis.Props.SkiplistP.C17_delete_range_by_rank_partial",
    "Metis.Props.SkiplistP.C17_starts_late",
    "Metis.Props.SkiplistP.C17_exact",
    "Metis.Props.SkiplistP.C17_deletes_nothing",
    "Metis.Props.SkiplistP.C17_deletes_wrong_element"
   ],
   "note": "false of the code: rank is reset on every level (skiplist.go:165); refuted by witnesses; proved for start beyond the end and when no node before rank start has more than one level, and shown to fail in every other case (C17_exact)"
  },
  {
   "property": "C18",
   "status": "partial",
   "theorems": [
    "Metis.Props.SkiplistP.C18_score_queries_partial",
    "Metis.Props.SkiplistP.C18_delete_range_by_score_partial",
    "Metis.Props.SkiplistP.C18_nan_reverse_returns_head",
    "Metis.Props.SkiplistP.C18_nan_deletes"
   ],
   "note": "NaN bounds misbehave (refuted); proved for all other bounds, limits, directions"
  },
  {
   "property": "C19",
   "status": "proved",
   "theorems": [
    "Metis.Props.SkiplistP.C19_backward_mirrors_forward",
    "Metis.Props.SkiplistP.C19_reverse_range_is_reversal"
   ],
   "note": ""
  },
  {
   "property": "C20",
   "status": "partial",
   "theorems": [
    "Metis.Props.SkiplistP.C20_delete_partial",
    "Metis.Props.SkiplistP.C20_absent_returns_other_node"
   ],
   "note": "an absent pair returns the following node instead of nil (refuted); removal itself proved exact"
  },
  {
   "property": "C21",
   "status": "partial",
   "theorems": [
    "Metis.Props.SkiplistP.C21_levels_unobservable_partial",
    "Metis.Props.SkiplistP.C21_rank_depends_on_levels",
    "Metis.Props.SkiplistP.C21_delete_by_rank_depends_on_levels"
   ],
   "note": "GetRank of the empty member and DeleteRangeByRank depend on the levels (refuted); proved for all other queries"
  },
  {
   "property": "C22",
   "status": "partial",
   "theorems": [
    "Metis.Props.SkiplistP.C22_random_level_partial",
    "Metis.Props.SkiplistP.C22_random_level_wraps"
   ],
   "note": "int8 wraps after 127 consecutive small draws (refuted); proved below that"
  },
  {
   "property": "C23",
   "status": "partial",
   "theorems": [
    "Metis.Props.ZsetP.C23_members_once_partial",
    "Metis.Props.ZsetP.C23_score_always_latest",
    "Metis.Props.ZsetP.C23_rescoring_duplicates",
    "Metis.Props.ZsetP.C23_fails"
   ],
   "note": "re-scoring a member leaves its old entry (refuted in general and concretely); proved for histories without re-scoring, and for results and ZSCORE in all histories of ZADD/ZREM What happens with re-scored members: exactly, C101."
  },
  {
   "property": "C24",
   "status": "partial",
   "theorems": [
    "Metis.Props.ZsetP.C24_ranges_never_nil_partial",
    "Metis.Props.ZsetP.C24_nil_after_rescoring",
    "Metis.Props.ZsetP.C24_nil_after_rescoring_by_score",
    "Metis.Props.ZsetP.C24_nil_after_zremrangebyrank",
    "Metis.Props.ZsetP.C24_huge_range_crashes"
   ],
   "note": "nil elements after re-scoring or ZREMRANGEBYRANK, panic on huge ranges (refuted); proved for histories without re-scoring What happens with re-scored members: exactly, C101."
  },
  {
   "property": "C25",
   "status": "partial",
   "theorems": [
    "Metis.Props.ZsetP.C25_queries_consistent_partial"
   ],
   "note": "GetRank of the empty member and NaN bounds excluded (C16, C18)"
  },
  {
   "property": "C26",
   "status": "proved",
   "theorems": [
    "Metis.Props.RespP.C26_request_parsed",
    "Metis.Props.RespP.C26_request_injective"
   ],
   "note": ""
  },
  {
   "property": "C27",
   "status": "partial",
   "theorems": [
    "Metis.Props.RespP.C27_fragments_partial",
    "Metis.Props.RespP.C27_bad_cut",
    "Metis.Props.RespP.C27_fails"
   ],
   "note": "false of the code: a read ending directly before or inside the line end after an argument's data closes the connection or crashes the server (proved for every request); every other fragmentation proved"
  },
  {
   "property": "C28",
   "status": "partial",
   "theorems": [
    "Metis.Props.RespP.C28_sequence_partial",
    "Metis.Props.RespP.C28_rest_dropped",
    "Metis.Props.RespP.C28_fails"
   ],
   "note": "false of the code: everything after the first request in a read is dropped (proved for every request and continuation); proved when no read spans two requests"
  },
  {
   "property": "C29",
   "status": "partial",
   "theorems": [
    "Metis.Props.FrameP.C29_exact",
    "Metis.Props.RespP.C29_no_crash_partial",
    "Metis.Props.RespP.C29_requests_never_crash_partial",
    "Metis.Props.RespP.C29_empty_line_crashes",
    "Metis.Props.RespP.C29_bad_lengths_crash",
    "Metis.Props.RespP.C29_legal_request_crashes",
    "Metis.Props.RespP.C29_legal_request_exists"
   ],
   "note": "false of the code: empty line, negative or huge lengths, and legal requests whose first 4096 bytes end at an argument's end crash the parser; proved for all other streams; C29_exact: if and only if the bytes have one of the forms of `Fragile`"
  },
  {
   "property": "C30",
   "status": "partial",
   "theorems": [
    "Metis.Props.ReplyP.C30_encoders",
    "Metis.Props.ReplyP.C30_partial",
    "Metis.Props.ReplyP.C30_stream_partial",
    "Metis.Props.ReplyP.C30_nonempty",
    "Metis.Props.ReplyP.C30_refuted"
   ],
   "note": "false of the code: error replies repeat arguments raw, so an argument with a line end forges further replies (refuted); proved: every request in every reachable state gets exactly one value, decoded by an independent decoder, if the reply is no error or no argument contains a line end; all payloads binary-safe"
  },
  {
   "property": "C31",
   "status": "proved",
   "theorems": [
    "Metis.Props.NetP.C31_prefix",
    "Metis.Props.NetP.C31_complete",
    "Metis.Props.NetP.C31_returns",
    "Metis.Props.NetP.C31_flush"
   ],
   "note": "for all histories of connections, replies, and kernel answers to write; replies are non-empty strings (C30)"
  },
  {
   "property": "C32",
   "status": "proved",
   "theorems": [
    "Metis.Props.NetP.C32_kernel"
   ],
   "note": "for all histories of connections, replies, and kernel answers to write; replies are non-empty strings (C30)"
  },
  {
   "property": "C33",
   "status": "proved",
   "theorems": [
    "Metis.Props.ServerP.C33_gate",
    "Metis.Props.ServerP.C33_failed_auth",
    "Metis.Props.ServerP.C33_history"
   ],
   "note": "for whole histories of all connections"
  },
  {
   "property": "C34",
   "status": "proved",
   "theorems": [
    "Metis.Props.ServerP.C34_set_get",
    "Metis.Props.ServerP.C34_set_replaces"
   ],
   "note": "any history of all connections, databases and cron runs in between"
  },
  {
   "property": "C35",
   "status": "partial",
   "theorems": [
    "Metis.Props.TypesP.C35_wrong_type_partial",
    "Metis.Props.TypesP.C35_further_keys_partial",
    "Metis.Props.TypesP.C35_refuted"
   ],
   "note": "false of the code for the further keys of SUNION/SDIFF with a missing first key and of SINTER behind a missing key (refuted); proved for every command on its first key, and for the further keys otherwise"
  },
  {
   "property": "C36",
   "status": "proved",
   "theorems": [
    "Metis.Props.ServerP.C36_frame",
    "Metis.Props.ServerP.C36_other_database"
   ],
   "note": "KEYS and RANDOMGET may remove expired keys only"
  },
  {
   "property": "C37",
   "status": "partial",
   "theorems": [
    "Metis.Props.ServerP.C37_select",
    "Metis.Props.ServerP.C37_select_error_partial",
    "Metis.Props.ServerP.C37_refuted_negative",
    "Metis.Props.ServerP.C37_sticky"
   ],
   "note": "false of the code: a negative number crashes the server (proved for every negative number); the rest proved"
  },
  {
   "property": "C38",
   "status": "partial",
   "theorems": [
    "Metis.Props.CollectionsP.C38_hset",
    "Metis.Props.CollectionsP.C38_hdel",
    "Metis.Props.CollectionsP.C38_hash_reads",
    "Metis.Props.CollectionsP.C38_sadd",
    "Metis.Props.CollectionsP.C38_srem",
    "Metis.Props.CollectionsP.C38_set_reads",
    "Metis.Props.CollectionsP.C38_spop",
    "Metis.Props.CollectionsP.C38_push",
    "Metis.Props.CollectionsP.C38_llen_lpop",
    "Metis.Props.CollectionsP.C38_rpop_partial",
    "Metis.Props.CollectionsP.C38_rpop_crashes",
    "Metis.Props.CollectionsP.C38_refuted_rpop"
   ],
   "note": "RPOP crashes on every list of more than 1024 elements (proved, with a reachable history); proved for every list of one page and for all other commands; keys with a passed deadline are C40's subject for HSET/SADD/LPUSH/RPUSH"
  },
  {
   "property": "C39",
   "status": "partial",
   "theorems": [
    "Metis.Props.CollectionsP.C39_sinter",
    "Metis.Props.CollectionsP.C39_sdiff",
    "Metis.Props.CollectionsP.C39_sunion_partial",
    "Metis.Props.CollectionsP.C39_sunion_missing",
    "Metis.Props.CollectionsP.C39_refuted"
   ],
   "note": "SUNION with a missing first key replies with the empty array (proved for all states); SINTER and SDIFF proved in full, SUNION with an existing first key"
  },
  {
   "property": "C40",
   "status": "partial",
   "theorems": [
    "Metis.Props.ExpireP.C40_lookup_partial",
    "Metis.Props.ExpireP.C40_keys_partial",
    "Metis.Props.ExpireP.C40_randomget_partial",
    "Metis.Props.ExpireP.C40_refuted"
   ],
   "note": "false of the code: TTL, EXPIRE and the commands that add to a collection use expired values (refuted); proved for every command that looks a key up, KEYS and RANDOMGET"
  },
  {
   "property": "C41",
   "status": "proved",
   "theorems": [
    "Metis.Props.ServerP.C41_live",
    "Metis.Props.ServerP.C41_history"
   ],
   "note": "all events, any samples, also along histories"
  },
  {
   "property": "C42",
   "status": "partial",
   "theorems": [
    "Metis.Props.ExpireP.C42_ttl_partial",
    "Metis.Props.ExpireP.C42_refuted"
   ],
   "note": "false of the code for keys past their deadline, where the reply is a negative number (refuted); proved for all others"
  },
  {
   "property": "C43",
   "status": "partial",
   "theorems": [
    "Metis.Props.ExpireP.C43_no_value_partial",
    "Metis.Props.ExpireP.C43_deadline_partial",
    "Metis.Props.ExpireP.C43_refuted"
   ],
   "note": "false of the code: EXPIRE on a missing key leaves a deadline that a key created later inherits (refuted); proved: it changes no value, and no other command than EXPIRE, EXPIREAT, SETEX of the key gives it a deadline"
  },
  {
   "property": "C44",
   "status": "partial",
   "theorems": [
    "Metis.Props.LogP.C44_changes_partial",
    "Metis.Props.LogP.C44_reads",
    "Metis.Props.LogP.C44_strict_partial",
    "Metis.Props.LogP.C44_appends",
    "Metis.Props.LogP.C44_refuted",
    "Metis.Props.LogP.C44_refuted_sadd"
   ],
   "note": "false of the code: ZADD whose first score is not a number creates a key without being logged, and e.g. SADD of a member already present is logged though it changes nothing (both refuted); proved: every change of the stored data other than expiration is logged, reads log nothing, and what is appended is exactly the specification's records of that command in that database"
  },
  {
   "property": "C45",
   "status": "partial",
   "theorems": [
    "Metis.Props.AofLoadP.C45_format",
    "Metis.Props.AofLoadP.C45_exact_partial",
    "Metis.Props.AofLoadP.C45_partial",
    "Metis.Props.AofLoadP.C45_small_partial",
    "Metis.Props.AofLoadP.C45_injection",
    "Metis.Props.AofLoadP.C45_split_fails",
    "Metis.Props.AofLoadP.C45_refuted"
   ],
   "note": "false of the code: a read at the end of bufio's 64 KiB buffer returns short data (refuted; C45_injection: a value can hide a command that the loader then executes). Proved: the written form is the specification's encoding, and logs of any length are read back exactly if and only if no data are cut by the end of a window of 65536 bytes (C45_exact_partial), which holds for all logs of at most this size. Reads that return less, or fail: C106."
  },
  {
   "property": "C46",
   "status": "partial",
   "theorems": [
    "Metis.Props.LogP.C46_partial",
    "Metis.Props.LogP.C46_refuted"
   ],
   "note": "false of the code: SPOP removes other members when replayed (refuted); proved for all histories of all clients over all commands except SPOP and ZREMRANGEBYRANK from ranks beyond the first, whose effect depends on random draws, without NaN scores (Steady); sorted sets also keep the order of their lists, with times at which no key is past its deadline, and logs that can be read (C45) The two readings of the clock: C105."
  },
  {
   "property": "C47",
   "status": "partial",
   "theorems": [
    "Metis.Props.LogP.C47_refuted",
    "Metis.Props.LogP.C47_single_partial"
   ],
   "note": "false of the code (refuted): SPOP is logged verbatim and draws anew when replayed; proved for sets of one member"
  },
  {
   "property": "C48",
   "status": "partial",
   "theorems": [
    "Metis.Props.DurableP.C48_partial",
    "Metis.Props.DurableP.C48_refuted",
    "Metis.Props.DurableP.C48_running_refuted"
   ],
   "note": "Refuted in full: after a restart the server assumes the file ends in database 0 (C48_refuted); without restarts the rewritten file ends in the last non-empty database while the log assumes the one selected before (C48_running_refuted). Proved for every orderly history of commands, rewrites interleaved with them, and restarts: the log loads to the data of every database. Orderly: rewrites start on strings, hashes and sets with the last non-empty database selected; restarts find a file that ends in database 0; logs that can be read (C45: no data cut by the end of a window of 65536 bytes)."
  },
  {
   "property": "C49",
   "status": "partial",
   "theorems": [
    "Metis.Props.RewriteP.C49_replay_partial",
    "Metis.Props.RewriteP.C49_file_partial",
    "Metis.Props.RewriteP.C49_safe_partial",
    "Metis.Props.RewriteP.C49_refuted",
    "Metis.Props.RewriteP.C49_zset_refuted"
   ],
   "note": "Refuted in full: C49_refuted (lists come back reversed, chunk by LPUSH), C49_zset_refuted (member and score swapped). Proved: C49_replay_partial for all reachable databases without sorted sets and of any size (strings, hashes, sets and deadlines to the second kept; lists exactly reversed; empty collections dropped), C49_file_partial the same down to the bytes for files that can be read (C45), C49_safe_partial full equality when lists are palindromic and collections non-empty. Writing is taken to be uninterrupted (interleavings are C50). What is written, sorted sets included: C112."
  },
  {
   "property": "C50",
   "status": "partial",
   "theorems": [
    "Metis.Props.DurableP.C50_partial",
    "Metis.Props.DurableP.C50_refuted"
   ],
   "note": "Refuted in full: an RPUSH executed while the rewrite has not reached the list is written by the goroutine and again from the rewrite buffer (C50_refuted). Proved for strings, hashes, sets and their deadlines at the start of the rewrite, with any plain commands of any type meanwhile and any interleaving of the goroutine: the new file loads to exactly the data of the server."
  },
  {
   "property": "C51",
   "status": "partial",
   "theorems": [
    "Metis.Props.DurableP.C51_partial",
    "Metis.Props.DurableP.C51_refuted"
   ],
   "note": "Refuted in full: a crash after the new file has replaced the old one and before the rewrite buffer is appended loses flushed writes (C51_refuted), even if mv is atomic. Proved for crashes at every other point of an orderly history: the file loads to the data of a moment since which nothing has been flushed."
  },
  {
   "property": "C52",
   "status": "proved",
   "theorems": [
    "Metis.Props.NodeP.C52_one",
    "Metis.Props.NodeP.C52_collected",
    "Metis.Props.NodeP.C52_since_start"
   ],
   "note": "For every history of requests, timer ticks, goroutine steps, crashes and restarts: at most one rewrite is running or waiting to be taken over, and the task flag says so; a request's log bytes are also collected for the rewrite iff one is running; from the start to the end of a rewrite what is collected equals what the log has grown by."
  },
  {
   "property": "C53",
   "status": "partial",
   "theorems": [
    "Metis.Props.NodeP.C53_partial",
    "Metis.Props.NodeP.C53_refuted"
   ],
   "note": "Proved for the growth since the last rewrite of the same process, while 100 times the file size fits in 64 bits: the decision of the timer is the stated one on unbounded numbers, so nothing wraps. With restarts the full claim is refuted: the base size is forgotten, so a rewrite starts without growth."
  },
  {
   "property": "C54",
   "status": "partial",
   "theorems": [
    "Metis.Props.NodeP.C54_partial",
    "Metis.Props.NodeP.C54_refuted"
   ],
   "note": "Proved for connections that had no pending output when the loop went to sleep: nothing is sent before the next flush, which writes everything logged (and syncs it with always). Refuted for a connection whose earlier reply is still pending: the reply to a write is sent in the same turn, before the flush."
  },
  {
   "property": "C55",
   "status": "partial",
   "theorems": [
    "Metis.Props.NodeP.C55_always",
    "Metis.Props.NodeP.C55_always_run",
    "Metis.Props.NodeP.C55_no",
    "Metis.Props.NodeP.C55_partial",
    "Metis.Props.NodeP.C55_refuted"
   ],
   "note": "always and no are proved as stated. everysec is proved between two flushes that write something; refuted without later traffic: the last records are never synced."
  },
  {
   "property": "C56",
   "status": "partial",
   "theorems": [
    "Metis.Props.AofLoadP.C56_header_partial",
    "Metis.Props.AofLoadP.C56_exact_partial",
    "Metis.Props.AofLoadP.C56_otherwise_fails",
    "Metis.Props.AofLoadP.C56_refuted"
   ],
   "note": "false of the code: most truncation points make the loader panic (`C56_refuted`). Proved exactly for logs of any length that C45 covers (`C56_exact_partial`): a cut inside the first line of a record leaves the complete records, a cut before the last byte of the file leaves all of them, every other cut makes the loader panic."
  },
  {
   "property": "C57",
   "status": "proved",
   "theorems": [
    "Metis.Props.AeP.C57_interest",
    "Metis.Props.AeP.C57_add",
    "Metis.Props.AeP.C57_remove"
   ],
   "note": "for all histories of additions, removals and refusals by the kernel"
  },
  {
   "property": "C58",
   "status": "partial",
   "theorems": [
    "Metis.Props.AeP.C58_ids",
    "Metis.Props.AeP.C58_once",
    "Metis.Props.AeP.C58_first_partial",
    "Metis.Props.AeP.C58_period_partial",
    "Metis.Props.AeP.C58_refuted"
   ],
   "note": "false of the code: now+interval overflows for huge intervals and the timer fires early (refuted); proved: ids unique, one-shot timers fire at most once in all histories, and no timer fires early if now+interval does not overflow"
  },
  {
   "property": "C59",
   "status": "partial",
   "theorems": [
    "Metis.Props.AeP.C59_partial",
    "Metis.Props.AeP.C59_refuted"
   ],
   "note": "false of the code if the clock is set back while timers are pending (refuted); proved for clocks not set back, readings less than 1 s apart"
  },
  {
   "property": "C60",
   "status": "partial",
   "theorems": [
    "Metis.Props.AeP.C60_partial",
    "Metis.Props.AeP.C60_refuted"
   ],
   "note": "false of the code: a one-shot timer that removes itself makes the loop skip the rest of the batch (refuted); proved for callbacks that remove no timers"
  },
  {
   "property": "C61",
   "status": "partial",
   "theorems": [
    "Metis.Props.DictP.C61_release_of_unused_iterator_unfreezes",
    "Metis.Props.DictP.C61_release_partial"
   ],
   "note": "false of the code: releasing an unused iterator while another is live unfreezes the rehash (refuted by witness); the rest is proved"
  },
  {
   "property": "C62",
   "status": "partial",
   "theorems": [
    "Metis.Props.ZsetP.C62_remrangebyscore_partial",
    "Metis.Props.ZsetP.C62_removes_live_member",
    "Metis.Props.ZsetP.C62_nan_removes"
   ],
   "note": "stale entries remove live members, NaN lower bound removes too much (refuted); proved without re-scoring and NaN What happens with re-scored members: exactly, C101."
  },
  {
   "property": "C63",
   "status": "partial",
   "theorems": [
    "Metis.Props.AeP.C63_registered_partial",
    "Metis.Props.AeP.C63_refuted"
   ],
   "note": "false of the code: events gathered before dispatch still run after their removal by an earlier callback of the batch (refuted); proved: every callback dispatched was registered when the loop woke up"
  },
  {
   "property": "C64",
   "status": "partial",
   "theorems": [
    "Metis.Props.FatalP.C64_lindex_exact",
    "Metis.Props.FatalP.C64_lrange_exact",
    "Metis.Props.ListsP.C64_lindex_partial",
    "Metis.Props.ListsP.C64_lrange_partial",
    "Metis.Props.ListsP.C64_lindex_crashes",
    "Metis.Props.ListsP.C64_refuted"
   ],
   "note": "Refuted: LINDEX crashes the server on the last element of lists of more than 1024 elements (C64_lindex_crashes, C64_refuted). Proved: LINDEX for lists of one page and, on longer lists, for the indices that the code finds from the right side (the first page and those characterised in C12); C64_lindex_exact and C64_lrange_exact say for every reachable list, index and range whether the command crashes and otherwise what it answers. LRANGE for every list with a range length that fits a slice."
  },
  {
   "property": "C65",
   "status": "proved",
   "theorems": [
    "Metis.Props.KeysP.C65_keys",
    "Metis.Props.KeysP.C65_invalid"
   ],
   "note": "all reachable states and patterns; matching itself (regexp) is a parameter"
  },
  {
   "property": "C66",
   "status": "partial",
   "theorems": [
    "Metis.Props.KeysP.C66_expire_partial",
    "Metis.Props.KeysP.C66_setex_partial",
    "Metis.Props.KeysP.C66_expireat_partial",
    "Metis.Props.KeysP.C66_refuted"
   ],
   "note": "Refuted: the deadline overflows for huge numbers of seconds and the key is gone at once (C66_refuted, SETEX 9223372036854775807). Proved whenever the deadline fits in 64 bits."
  },
  {
   "property": "C67",
   "status": "proved",
   "theorems": [
    "Metis.Props.KeysP.C67_unknown",
    "Metis.Props.KeysP.C67_count"
   ],
   "note": "all server states and requests, against a separately written table"
  },
  {
   "property": "C68",
   "status": "partial",
   "theorems": [
    "Metis.Props.SortedP.C68_zscore",
    "Metis.Props.SortedP.C68_zcard_partial",
    "Metis.Props.SortedP.C68_zcount_partial",
    "Metis.Props.SortedP.C68_zrange_partial",
    "Metis.Props.SortedP.C68_zrangebyscore_partial",
    "Metis.Props.SortedP.C68_missing",
    "Metis.Props.SortedP.C68_zadd_partial",
    "Metis.Props.SortedP.C68_zrem_partial",
    "Metis.Props.SortedP.C68_zremrangebyscore_partial",
    "Metis.Props.SortedP.C68_history_partial",
    "Metis.Props.SortedP.C68_refuted"
   ],
   "note": "Refuted: ZADD of a member with another score leaves its old entry, ZCARD counts it twice (C68_refuted). Proved: ZSCORE after any history; all the others for sorted sets after every history in which no ZADD gives a member a new score or NaN and ZREMRANGEBYRANK is not used on the key (C68_history_partial); ZRANGE for ranks from 0 (negative ranks are not counted from the end in the code), bounds other than NaN. What happens with re-scored members: exactly, C101."
  },
  {
   "property": "C69",
   "status": "partial",
   "theorems": [
    "Metis.Props.CalmP.C69_partial",
    "Metis.Props.CalmP.C69_random",
    "Metis.Props.CalmP.C69_cron",
    "Metis.Props.CalmP.C69_refuted",
    "Metis.Props.CalmP.C69_history_partial",
    "Metis.Props.CalmP.C69_plain_partial",
    "Metis.Props.FatalP.C69_exact"
   ],
   "note": "Refuted: SELECT -1 (C69_refuted); also RPOP on lists of more than one page, LINDEX (C64), ZREMRANGEBYRANK. Proved: every request that is no command, has a wrong number of words or is not permitted; PING, AUTH, BGREWRITEAOF, EXPIRE, EXPIREAT, TTL, KEYS, SET, SETEX, GET, hash and set commands, LPUSH, RPUSH, LPOP, LLEN, ZCARD, ZSCORE with any words and any data (C69_plain_partial: over whole histories); SPOP, RANDOMGET (C69_random); the cron (C69_cron); SELECT from 0; RPOP on one page; LINDEX and LRANGE where C64 holds; sorted-set commands on keys kept sound as in C68. C69_exact: for all commands except those on the order of sorted sets and those that draw random numbers, exactly which requests crash. Missing: ZREMRANGEBYRANK, ZRANGE with negative first rank, NaN bounds. Which listings of sorted sets crash: C101. Outside the limits: exactly, C102."
  },
  {
   "property": "C70",
   "status": "partial",
   "theorems": [
    "Metis.Props.WireP.C70_sequential",
    "Metis.Props.WireP.C70_partial",
    "Metis.Props.WireP.C70_decoded_partial",
    "Metis.Props.WireP.C70_delivery",
    "Metis.Props.WireP.C70_refuted",
    "Metis.Props.WireP.C70_alive_partial",
    "Metis.Props.WireP.C70_open"
   ],
   "note": "Refuted: pipelined requests are dropped (C70_refuted). Proved for all interleavings and bytes: one sequential history in the order of the reads explains the data and everything sent to all clients, with the requests the parser finds (C70_sequential); for clients that wait for each reply and whose reads do not end at the end of an argument's data, these are the requests sent (C70_partial), and the client decodes one value per request (C70_decoded_partial, arguments without line ends); everything queued is delivered once the socket takes it (C70_delivery); a read with a command as in C69 does not panic (C70_alive_partial). Missing: pipelining and the cuts of C27."
  },
  {
   "property": "C71",
   "status": "partial",
   "theorems": [
    "Metis.Props.AckedP.C71_partial",
    "Metis.Props.AckedP.C71_refuted"
   ],
   "note": "Refuted: a client with pending output is sent the reply before the flush (C71_refuted). Proved for clients that had nothing to be sent when the loop last went to sleep before the request, in the orderly histories of C51 (which says what is missing there)."
  },
  {
   "property": "C72",
   "status": "partial",
   "theorems": [
    "Metis.Props.ListenP.C72_everywhere",
    "Metis.Props.ListenP.C72_partial",
    "Metis.Props.ListenP.C72_refuted",
    "Metis.Props.ListenP.C72_invalid",
    "Metis.Props.ListenP.C72_six",
    "Metis.Props.ListenP.C72_reaches",
    "Metis.Props.StartP.C72_started"
   ],
   "note": "Refuted: Bind copies the first four bytes of the 16-byte form of the address, which are zero, so that the server listens on all interfaces whatever the setting (C72_everywhere for every address, C72_refuted for 127.0.0.1). The claim holds exactly for 0.0.0.0 (C72_partial). C72_started: for the whole process, from the configuration file; C72_six: of an IPv6 address the first four bytes are taken; C72_invalid: all other texts are refused."
  },
  {
   "property": "C73",
   "status": "partial",
   "theorems": [
    "Metis.Props.ApartP.C73_partial",
    "Metis.Props.ApartP.C73_refuted"
   ],
   "note": "Refuted: KEYS and RANDOMGET of other clients and the cron remove expired keys, and TTL and the commands that add to values notice whether an expired key has been removed (C73_refuted). Proved if these run only while no key of the group is past its deadline; the group's own requests make no random choice (SPOP, RANDOMGET)."
  },
  {
   "property": "C74",
   "status": "proved",
   "theorems": [
    "Metis.Props.ApartP.C74_exchange"
   ],
   "note": ""
  },
  {
   "property": "C75",
   "status": "proved",
   "theorems": [
    "Metis.Props.ApartP.C75_hash"
   ],
   "note": ""
  },
  {
   "property": "C76",
   "status": "proved",
   "theorems": [
    "Metis.Props.MemP.C76_strings_never_change",
    "Metis.Props.MemP.C76_memory_is_unobservable",
    "Metis.Props.MemP.C76_client",
    "Metis.Props.MemP.C76_requests"
   ],
   "note": ""
  },
  {
   "property": "C77",
   "status": "proved",
   "theorems": [
    "Metis.Props.ProcP.C77_refines",
    "Metis.Props.ProcP.C77_death",
    "Metis.Props.ProcP.C77_disk",
    "Metis.Props.ProcP.C77_complete",
    "Metis.Props.ProcP.C77_window"
   ],
   "note": ""
  },
  {
   "property": "C78",
   "status": "partial",
   "theorems": [
    "Metis.Props.ProcP.C78_only_sync",
    "Metis.Props.ProcP.C78_partial",
    "Metis.Props.ProcP.C78_refuted"
   ],
   "note": "Refuted: with the policy everysec a goroutine started by a flush may call Sync while the callback of a rewrite has closed the file and not yet put the new one in its place, which panics (C78_refuted). C78_only_sync: this is the only way a process that nobody stops can die; proved for the other policies and for schedules without it."
  },
  {
   "property": "C79",
   "status": "partial",
   "theorems": [
    "Metis.Props.ProcP.C79_partial",
    "Metis.Props.ProcP.C79_kill_partial",
    "Metis.Props.ProcP.C79_refuted",
    "Metis.Props.ProcP.C79_flushed_refuted",
    "Metis.Props.ProcP.C79_acked_partial"
   ],
   "note": "Refuted: Stop does not flush the log buffer, so that executed commands are lost (C79_refuted), and does not wait for the callback that replaces the file, so that everything can be lost (C79_flushed_refuted). Proved, for orderly histories as in C48: outside the callback nothing is lost if there is nothing to flush, what was flushed is never lost, and what was acknowledged is not lost."
  },
  {
   "property": "C80",
   "status": "partial",
   "theorems": [
    "Metis.Props.PowerP.C80_partial",
    "Metis.Props.PowerP.C80_refuted"
   ],
   "note": "Refuted: after mv the new file is not synced before the end of the callback, and a power failure can leave an empty file (C80_refuted). Proved for power failures outside the callback, in the histories of C71."
  },
  {
   "property": "C81",
   "status": "partial",
   "theorems": [
    "Metis.Props.PowerP.C81_partial",
    "Metis.Props.PowerP.C81_kill_partial",
    "Metis.Props.PowerP.C81_refuted"
   ],
   "note": "Refuted: with the policies no and everysec a power failure can leave a part of a record, and the loader panics (C81_refuted). Proved with the policy always for power failures outside the callback, and with any policy for kills outside the callback (orderly histories, files that C45 covers)."
  },
  {
   "property": "C82",
   "status": "partial",
   "theorems": [
    "Metis.Props.LevelsP.C82_levels_partial",
    "Metis.Props.LevelsP.C82_refuted",
    "Metis.Props.LevelsP.C82_nan"
   ],
   "note": "Refuted: whether ZREMRANGEBYRANK removes anything depends on the levels (C82_refuted), and so does the order of the members once a score is NaN (C82_nan). Proved for all histories without scores that are NaN in which ZREMRANGEBYRANK begins with the first rank or asks for none, whatever is added, re-scored, removed and listed."
  },
  {
   "property": "C83",
   "status": "partial",
   "theorems": [
    "Metis.Props.AgainP.C83_partial",
    "Metis.Props.AgainP.C83_refuted"
   ],
   "note": "Refuted: a deadline within a second is rounded down, TTL changes (C83_refuted). Proved for orderly histories (C48), deadlines in whole seconds, readable files, any requests afterwards (C82), of any clients, at any times."
  },
  {
   "property": "C84",
   "status": "partial",
   "theorems": [
    "Metis.Props.FdsP.C84_partial",
    "Metis.Props.FdsP.C84_clients_partial",
    "Metis.Props.FdsP.C84_clash",
    "Metis.Props.FdsP.C84_refuted",
    "Metis.Props.FdsP.C84_leak"
   ],
   "note": "Refuted: free leaves its number in the client object; a stale writable callback writes a reply into the new append-only file (C84_refuted), or closes that file, after which the dump of the databases is written to a client (C84_leak). Proved as long as files get spare numbers, in particular while no rewrite starts (C84_clients_partial); the condition is exact (C84_clash)."
  },
  {
   "property": "C85",
   "status": "partial",
   "theorems": [
    "Metis.Props.FdsP.C85_partial",
    "Metis.Props.FdsP.C85_refuted"
   ],
   "note": "Refuted by the same leak (C85_refuted). Proved as long as files get spare numbers, with stale callbacks, failing writes, double closes and reuse of numbers."
  },
  {
   "property": "C86",
   "status": "partial",
   "theorems": [
    "Metis.Props.TimerP.C86_timer_partial",
    "Metis.Props.TimerP.C86_refuted",
    "Metis.Props.TimerP.C86_raised"
   ],
   "note": "Refuted: HSET, SADD, LPUSH, RPUSH, ZADD, EXPIRE, EXPIREAT and TTL do not drop the key they name if its deadline has passed: what HSET adds to an expired hash is lost unless the timer has come by (C86_refuted), and EXPIRE brings an expired key back (C86_raised). Proved as long as these commands name no key past its deadline and the patterns of KEYS are valid; then the logs are the same too."
  },
  {
   "property": "C87",
   "status": "partial",
   "theorems": [
    "Metis.Props.BookP.C87_log_partial",
    "Metis.Props.BookP.C87_refuted"
   ],
   "note": "Refuted for the same reason (C87_refuted). Proved under the conditions of C82 and C86 together."
  },
  {
   "property": "C88",
   "status": "partial",
   "theorems": [
    "Metis.Props.LapseP.C88_partial",
    "Metis.Props.LapseP.C88_refuted",
    "Metis.Props.LapseP.C88_refuted_risen"
   ],
   "note": "Refuted both ways: what is stored under a key after it has expired and been dropped is lost, because the drop is not logged and the replayed HSET adds to the old hash with the old deadline (C88_refuted); and an expired set comes back, because the replayed SREM takes the key for expired, drops it, and the replayed SADD creates it without a deadline (C88_refuted_risen). Proved for values of all types, under two rules for the keys that have ever had a deadline before the restart: commands that do not look at deadlines are used on them only while they are there, and nothing is taken from a value that has such a deadline before it. Each refutation breaks one of the rules; missing: the claim without them."
  },
  {
   "property": "C89",
   "status": "proved",
   "theorems": [
    "Metis.Props.StrangerP.C89_request",
    "Metis.Props.StrangerP.C89_refused",
    "Metis.Props.StrangerP.C89_integrity",
    "Metis.Props.StrangerP.C89_secrecy"
   ],
   "note": "C89_integrity (without all events of such connections the rest is the same), C89_secrecy (two servers with other passwords, data and activity tell them the same), C89_refused (leaving out the single refused requests), C89_request (one request). On the level of complete requests; that malformed bytes of any client can stop the process is the subject of C30."
  },
  {
   "property": "C90",
   "status": "proved",
   "theorems": [
    "Metis.Props.FrameP.C90_parser",
    "Metis.Props.FrameP.C90_words"
   ],
   "note": "C90_parser: the incremental parser agrees with the one-shot `verdict` for all sequences of non-empty reads; C90_words: inline words"
  },
  {
   "property": "C91",
   "status": "partial",
   "theorems": [
    "Metis.Props.UpP.C91_refuted",
    "Metis.Props.UpP.C91_read",
    "Metis.Props.UpP.C91_partial",
    "Metis.Props.UpP.C91_rest"
   ],
   "note": "Refuted: an empty line from a fresh connection (C91_refuted). Exact: an unauthenticated client crashes the server if and only if the bytes since its last command have one of the forms of `Fragile` (C91_partial); for any client, these or a request that crashes it (C91_read, C69_exact); nothing else on a connection does (C91_rest). Missing: the claim itself, which is false of the code."
  },
  {
   "property": "C92",
   "status": "partial",
   "theorems": [
    "Metis.Props.RefP.C92_refuted",
    "Metis.Props.RefP.C92_until_partial",
    "Metis.Props.RefP.C92_partial",
    "Metis.Props.RefP.C92_answers_partial"
   ],
   "note": "Refuted: SETEX with a deadline beyond int64 milliseconds (C92_refuted). Proved: every history is answered like by the reference up to the first request outside the limits `Within` (C92_until_partial); hence entirely if it has none (C92_partial); and within the limits the server neither crashes nor hangs (C92_answers_partial). The limits: no overflow of times, lists of at most 1024 elements, no new score for a member of a sorted set, no NaN, no negative start rank and no huge ranks, no negative SELECT, no ZREMRANGEBYRANK. Missing: the claim outside the limits, where it is false of the code. Outside the limits: exactly, C102."
  },
  {
   "property": "C93",
   "status": "partial",
   "theorems": [
    "Metis.Props.HostP.C93_refuted",
    "Metis.Props.HostP.C93_until_partial",
    "Metis.Props.HostP.C93_partial",
    "Metis.Props.HostP.C93_answers_partial"
   ],
   "note": "Refuted: as C92 (C93_refuted). Proved on the model of the whole server (sockets, parser, commands, output queues): whatever bytes arrive in whatever pieces, each connection is sent the bytes of the reference up to the first command outside the limits of C92 (C93_until_partial), entirely if there is none (C93_partial), and the server stays up as long as the bytes do not crash the parser (C93_answers_partial; C29_exact says which do). Missing: the claim outside the limits, false of the code. The framing of the reference is that of metis (Spec/Frame); its deviations from RESP are the subject of C26 to C29. Outside the limits: exactly, C102. At the level of bytes: C103."
  },
  {
   "property": "C94",
   "status": "partial",
   "theorems": [
    "Metis.Props.StartP.C94_refuted",
    "Metis.Props.StartP.C94_partial",
    "Metis.Props.StartP.C94_starts",
    "Metis.Props.StartP.C94_crash",
    "Metis.Props.StartP.C94_only",
    "Metis.Props.StartP.C94_causes",
    "Metis.Props.StartP.C94_first",
    "Metis.Props.StartP.C94_default"
   ],
   "note": "Refuted: a configuration file without an extension crashes the process before it is read (C94_refuted, C94_crash). Proved: a process that has started obeys a sensible configuration (C94_partial); it starts on a willing machine if the file name has an extension, the address is IPv4, there are at most 2^45 databases and the log can be loaded (C94_starts); C94_only: the only reasons for a crash; C94_causes: they are reasons; C94_first: a new log gives the empty server; C94_default: what other values amount to. Missing: the claim for file names without an extension, false of the code. The address is the subject of C72."
  },
  {
   "property": "C95",
   "status": "proved",
   "theorems": [
    "Metis.Props.DeliverP.C95_delivered",
    "Metis.Props.DeliverP.C95_reference",
    "Metis.Props.DeliverP.C95_possible",
    "Metis.Props.DeliverP.C95_bound",
    "Metis.Props.DeliverP.C95_registered"
   ],
   "note": "C95_delivered: liveness over histories without end; C95_reference: with C93, all that the reference server has said arrives; C95_bound: how soon; C95_registered: the writable event is registered if and only if something is pending; C95_possible: fair histories exist from every state with an open connection. The fairness of the kernel (that the socket takes a byte again) is a hypothesis; that a loop which is asked to call back does so is part of it."
  },
  {
   "property": "C96",
   "status": "partial",
   "theorems": [
    "Metis.Props.KeepP.C96_partial",
    "Metis.Props.KeepP.C96_refuted"
   ],
   "note": "The full claim `C96` (every history within the limits of C92) is refuted: after a restart the server assumes that the file ends in database 0, so a write is in another database after the next restart (`C96_refuted`). Proved (`C96_partial`): for orderly histories (see C48) within the limits of C92 there is a life of the reference that agrees at every moment with what has been said on every connection. Missing: deadlines that pass (C88 has them, without rewrites), rewrites of lists and sorted sets, and the restrictions on the selected database."
  },
  {
   "property": "C97",
   "status": "partial",
   "theorems": [
    "Metis.Props.SharedP.C97_false",
    "Metis.Props.SharedP.C97_miscount",
    "Metis.Props.SharedP.C97_stuck",
    "Metis.Props.SharedP.C97_empty_dict_false",
    "Metis.Props.SharedP.C97_loops_and_calls_partial",
    "Metis.Props.SharedP.C97_loops_end",
    "Metis.Props.SharedP.C97_atomic",
    "Metis.Props.SharedP.C97_twice"
   ],
   "note": "The full claim `C97` is refuted: the counter of iterators is incremented and decremented without a lock, so two loops can both read 0 and write 1; when the first ends the rehash goes on and the other loses keys (`C97_false`), or the counter stays at -1 (`C97_miscount`) and the rehash never goes on again (`C97_stuck`). Without any race the same happens when a loop over a dict in which nothing was ever stored ends while another is on its way (`C97_empty_dict_false`). Proved (`C97_loops_and_calls_partial`, `C97_loops_end`): everything else, for all interleavings of whole calls and turns after a first `Set`; `C97_twice`: a key that is deleted and set again may be collected twice; `C97_atomic` relates the two machines. Interleavings inside a call: C100."
  },
  {
   "property": "C98",
   "status": "proved",
   "theorems": [
    "Metis.Props.LoopsP.C98_collect",
    "Metis.Props.LoopsP.C98_limit"
   ],
   "note": "`C98_limit` shows that the condition is needed for the model of the process as it is: HSET h f 2 f 1 on a hash in which f is 1 changes nothing, but the loop may collect the 2. The log is right nevertheless, because the command is repeated from the rewrite buffer; the model of the process forbids that collection (DESIGN.md, section 4)."
  },
  {
   "property": "C99",
   "status": "partial",
   "theorems": [
    "Metis.Props.FailP.C99_sync_partial",
    "Metis.Props.FailP.C99_write_partial",
    "Metis.Props.FailP.C99_acked_partial",
    "Metis.Props.FailP.C99_start_partial",
    "Metis.Props.FailP.C99_refuted",
    "Metis.Props.FailP.C99_setex",
    "Metis.Props.FailP.C99_callback"
   ],
   "note": "False of the code: a write that fails inside a record leaves a file from which no server starts (`C99_refuted`; `C99_start_partial` says exactly from which files one starts); between the two records of a SETEX it leaves a key that lives for ever (`C99_setex`); a failure in the callback of a rewrite loses flushed data (`C99_callback`). Proved for orderly histories (C48): errors of syncs and of the temporary file (`C99_sync_partial`), writes that fail between commands (`C99_write_partial`), and that acknowledged writes survive them (`C99_acked_partial`)."
  },
  {
   "property": "C100",
   "status": "partial",
   "theorems": [
    "Metis.Props.FineP.C100_crash",
    "Metis.Props.FineP.C100_crash_in_size",
    "Metis.Props.FineP.C100_false",
    "Metis.Props.FineP.C100_misses_all",
    "Metis.Props.FineP.C100_twice",
    "Metis.Props.FineP.C100_server",
    "Metis.Props.FineP.C100_atomic",
    "Metis.Props.FineP.C100_inside_calls_partial"
   ],
   "note": "The full claim `C100` is refuted (`C100_false`): a loop that begins inside the last step of a rehash may crash the process (`C100_crash`), so may `Size` (`C100_crash_in_size`), it may miss every key (`C100_misses_all`) or collect keys twice that nobody touched (`C100_twice`). Proved for all interleavings: the server's own calls are never disturbed (`C100_server`), and a call without interruption is the call of `Cells.lean` (`C100_atomic`). Proved under the condition `Calm` (`C100_inside_calls_partial`): the whole claim. Missing: the condition, that loops begin outside of the steps of a rehash and that no such step begins inside of a `Size`; the code does not establish it."
  },
  {
   "property": "C101",
   "status": "proved",
   "theorems": [
    "Metis.Props.TallyP.C101_zadd",
    "Metis.Props.TallyP.C101_zrem",
    "Metis.Props.TallyP.C101_zremrangebyscore",
    "Metis.Props.TallyP.C101_zremrangebyrank",
    "Metis.Props.TallyP.C101_zcard",
    "Metis.Props.TallyP.C101_zcount",
    "Metis.Props.TallyP.C101_zrange",
    "Metis.Props.TallyP.C101_zrangebyscore",
    "Metis.Props.TallyP.C101_history",
    "Metis.Props.TallyP.C101_poison",
    "Metis.Props.TallyP.C101_rewrite"
   ],
   "note": "Each sorted-set request on a table of scores and a collection of entries (`C101_zadd`, `C101_zrem`, `C101_zremrangebyscore`, `C101_zremrangebyrank`, `C101_zcard`, `C101_zcount`, `C101_zrange`, `C101_zrangebyscore`: the last two say exactly when the server crashes), that after every history there are such a table and such entries (`C101_history`), that ZADD of another score and ZREM of the member let the next listing over the old score crash the server, in every state (`C101_poison`), and what a rewrite writes for the sorted set or that it crashes (`C101_rewrite`, at most 2^45 entries). ZREMRANGEBYRANK from a rank beyond the first: C17, C18."
  },
  {
   "property": "C102",
   "status": "partial",
   "theorems": [
    "Metis.Props.ExactP.C102_refuted",
    "Metis.Props.ExactP.C102_partial",
    "Metis.Props.ExactP.C102_history_partial"
   ],
   "note": "The claim is false if ZREMRANGEBYRANK is to remove the entries of the ranks asked for (`C102_refuted`: rank 2 to 2 removes nothing for some levels; C17 says exactly when it removes the wrong ones). Proved for all histories without scores that are NaN in which every ZREMRANGEBYRANK begins with the first rank or asks for none (`C102_partial`): every reply is the one of the exact reference; in the state reached, every possible event (request, connection, timer) without the two is survived - given enough random numbers for SPOP, RANDOMGET and the timer - exactly if the exact reference has an outcome for it; for requests that draw no random numbers the server crashes exactly if it has none. Over whole histories without random draws and timer events: the server is brought down exactly if the reference has no run (`C102_history_partial`). No other limit: lists of any length, any deadlines, re-scored members, negative SELECT. Missing: ZREMRANGEBYRANK from a rank beyond the first, and NaN. With a clock that moves during commands: C104."
  },
  {
   "property": "C103",
   "status": "partial",
   "theorems": [
    "Metis.Props.ExactHostP.C103_refuted",
    "Metis.Props.ExactHostP.C103_partial",
    "Metis.Props.ExactHostP.C103_history_partial"
   ],
   "note": "Refuted: as C102 (C103_refuted). Proved for all histories of socket events in which no completed command is left out (NaN, ZREMRANGEBYRANK from a rank beyond the first): every connection has been sent, or has queued, exactly the bytes of the exact reference, and in the state reached every next event is survived exactly if the reference has an outcome for it (`C103_partial`); without random draws, timer events and failing writes, whole histories bring the server down exactly if the reference has no run for them (`C103_history_partial`). Missing: what C102 leaves out."
  },
  {
   "property": "C104",
   "status": "partial",
   "theorems": [
    "Metis.Props.TickingP.C104_refuted",
    "Metis.Props.TickingP.C104_partial",
    "Metis.Props.TickingP.C104_crashes_partial",
    "Metis.Props.TickingP.C104_still_partial",
    "Metis.Props.TickingP.C104_twice"
   ],
   "note": "Refuted (C104_refuted): with deadlines 5000 of a and 10000 of b, KEYS * answers a alone if the clock reads 5000 for a and 20000 for b; at no single moment is a alive and b dead. `C104_twice`: SDIFF s s answers with a member if s dies between the two looks. Proved for all histories of C102 with clocks that do not go back (`C104_partial`): SDIFF, SINTER and SUNION look at their keys one after the other, each at its own reading of the clock, repeated keys included; every other command is carried out at its first reading; KEYS and RANDOMGET may miss keys that they look at whose deadlines pass while they run, and these are gone from then on. The state reached knows which requests (other than SPOP and RANDOMGET) bring down the server next, whatever the clock does meanwhile (`C104_crashes_partial`). If no deadline of a key looked at passes, the command happens at one moment (`C104_still_partial`). Missing: what C102 leaves out."
  },
  {
   "property": "C105",
   "status": "partial",
   "theorems": [
    "Metis.Props.StampP.C105_partial",
    "Metis.Props.StampP.C105_setex_partial",
    "Metis.Props.StampP.C105_still_partial",
    "Metis.Props.StampP.C105_again",
    "Metis.Props.StampP.C105_refuted"
   ],
   "note": "Refuted (C105_refuted): EXPIRE k 1 whose first reading is 0.999 s and whose second is 1.000 s has the deadline 1.999 s in memory and 2 s in the log. Proved for EXPIRE and SETEX of a positive number of seconds without overflow in every state reached by histories of C104 with the log on (`C105_partial`, `C105_setex_partial`): the request is survived, the deadline in memory is the first reading plus the seconds, and the one in the log is at most later by the time between the readings and less than a second earlier than that; if the clock stands still it is not later (`C105_still_partial`). The record, read again by any server with the log on, gives the deadline that it says (`C105_again`). Missing: the claim itself, which is false."
  },
  {
   "property": "C106",
   "status": "partial",
   "theorems": [
    "Metis.Props.ChunksP.C106_fails",
    "Metis.Props.ChunksP.C106_injection",
    "Metis.Props.ChunksP.C106_refuted",
    "Metis.Props.ChunksP.C106_exact_partial",
    "Metis.Props.ChunksP.C106_partial",
    "Metis.Props.ChunksP.C106_whole"
   ],
   "note": "The second half is refuted (C106_refuted): a read that ends inside of a value makes the loader take zeros for the rest of it and go on inside of the value (`C106_injection`: a command that is contained in a value is executed). Proved: a failing read, wherever it is, keeps the server from starting (`C106_fails`, in full); logs of any length that are read without failure are executed as they are if and only if the reads cut no data (`C106_exact_partial`, `C106_partial`; the condition is computed from the lengths of the portions, `Spec.pass`); if every read returns as much as there is room for, this is the loader of C45 (`C106_whole`)."
  },
  {
   "property": "C107",
   "status": "partial",
   "theorems": [
    "Metis.Props.ExactKeepP.C107_partial",
    "Metis.Props.ExactKeepP.C107_refuted"
   ],
   "note": "The full claim `C107` is refuted as C96: after a restart a write may go to another database (`C107_refuted`). Proved (`C107_partial`): for orderly histories (see C48) in which nothing is left out of C102 (NaN, ZREMRANGEBYRANK from a rank beyond the first) there is a life of the exact reference with a disk that agrees at every moment with what has been sent or queued on every connection; and at every moment of it a request of a connected client that draws no random numbers brings down the process exactly if the reference has no outcome for it. No limit on the length of lists, on scores given twice, or on numbers. Example: a sorted set in which a stale entry is left is restarted; the listing that includes the entry crashes the process after the restart as before. What is missing: histories that are not orderly, deadlines that pass (C88), crashes of the rewriting goroutine (C98)."
  },
  {
   "property": "C108",
   "status": "partial",
   "theorems": [
    "Metis.Props.WholeP.C108_partial",
    "Metis.Props.WholeP.C108_refuted"
   ],
   "note": "The full claim `C108` is refuted as C107: after a restart a write may go to another database (`C108_refuted`, as bytes). Proved (`C108_partial`): for orderly histories (every command completed by the bytes, every rewrite and every restart as in C107) there is a life of the reference that agrees at every moment with what has been sent or queued on every connection; and at every moment a read on an open connection, if a command it completes draws no random numbers, brings down the process exactly if the reference has no outcome for the bytes - the parser crashes, or the command does. Examples: requests cut into pieces around a restart that forgets half a request; a negative length that arrives in the second of two reads. What is missing: as in C107."
  },
  {
   "property": "C109",
   "status": "partial",
   "theorems": [
    "Metis.Props.LoadingP.C109_partial",
    "Metis.Props.LoadingP.C109_crash_partial",
    "Metis.Props.LoadingP.C109_refuted"
   ],
   "note": "The full claim `C109` is refuted: a logged ZREMRANGEBYRANK from a rank beyond the first may remove nothing when it is loaded (`C109_refuted`, the defect of C17). Proved (`C109_partial`): for logs of any records that have the number of words their command accepts, nothing being left out of C102, and that the reader does not cut (C45), the server that has loaded the log answers every later history as the reference that has carried out the records, crashes included; and (`C109_crash_partial`) if no record draws random numbers, the load fails exactly if the reference cannot carry out the records. No hypothesis says that the log was written by a server or that deadlines lie in the future. Examples: a log with an unknown command, a SELECT too large, a listing, a password and a sorted set with a stale entry; the same log with a listing that hits the stale entry does not load. What is missing: records with another number of words (the loader does not check it; see C115), those left out of C102, logs cut by the reader."
  },
  {
   "property": "C110",
   "status": "partial",
   "theorems": [
    "Metis.Props.ScribeP.C110_partial",
    "Metis.Props.ScribeP.C110_file_partial",
    "Metis.Props.ScribeP.C110_refuted"
   ],
   "note": "The full claim `C110` is refuted as C102: ZREMRANGEBYRANK from a rank beyond the first may remove nothing (`C110_refuted`, on the wire of a process). Proved (`C110_partial`): with rewriting off there is, for every history in which nothing is left out of C102 and every file loaded is not cut by the reader (C45; all files of at most 64 KiB), a life of the exact reference with a log that agrees at every moment with what has been sent or queued on every connection and with the records in the file; at every moment a request of a connected client without random numbers, and a start on a file without such records, fails exactly if the reference has no outcome for it. Kills and restarts need not be orderly: what C48, C96 and C107 exclude (writes in another database after two restarts, deadlines that have passed) is described here. `C110_file_partial`: the same if the first start finds a file of any records with the right numbers of words. Examples: the history that refutes C107; a deadline that passes while the process is down together with a stale entry whose listing crashes the process after the restart; a foreign file with an unknown command. What is missing: NaN, ZREMRANGEBYRANK from the second rank on, cut files; rewrites are in C113."
  },
  {
   "property": "C111",
   "status": "proved",
   "theorems": [
    "Metis.Props.NumeralP.C111_read",
    "Metis.Props.NumeralP.C111_unique",
    "Metis.Props.NumeralP.C111_write",
    "Metis.Props.NumeralP.C111_select"
   ],
   "note": "`C111_read`: the model of strconv.Atoi and ParseInt(_, 10, 64), through which every one of these numbers goes, accepts exactly the numerals of the specification, as what they denote; `C111_unique`; `C111_write`: the printed text is the only shortest numeral; `C111_select`: the three outcomes of SELECT for all texts (negative numbers crash, C37). That Go's functions behave as modelled is part of the trusted base; floats are not touched (C82)."
  },
  {
   "property": "C112",
   "status": "partial",
   "theorems": [
    "Metis.Props.PictureP.C112_partial"
   ],
   "note": "Proved for the states after all histories that C102 describes (`C112_partial`): the copies are made, the rewrite fails exactly if the reference holds a sorted set that cannot be written (`Exact.Spoiled`), and otherwise the file is the log of records that depict the databases of the reference (`Exact.Album`), which fixes every record up to the order of keys, fields and members. What the records make of a server that loads them is C109; that lists come back reversed and sorted sets are lost follows (C49). Examples: the history that leaves an entry of a member that is gone, after which the rewrite brings down the process; a string with a deadline, a list and a sorted set in two of three databases. What is missing: the histories that C102 leaves out; changes while the rewrite runs (C97, C98)."
  },
  {
   "property": "C113",
   "status": "partial",
   "theorems": [
    "Metis.Props.ClerkP.C113_partial",
    "Metis.Props.ClerkP.C113_refuted"
   ],
   "note": "The full claim `C113` is refuted as C102 (`C113_refuted`, on the wire of a process). Proved (`C113_partial`): if nothing is left out of C102, no request and no timer event comes while the goroutine writes down the databases, and every file loaded is whole for the reader (C45) and has no ZADD record whose words are read as NaN, there is a life of the exact reference with a log that it rewrites, in agreement at every moment with what has been sent or queued on every connection, with the records in the file and with the stage of the rewrite. At every moment a request of a connected client without random numbers, and a start on a file without such records, fails exactly if the reference has no outcome for it; the goroutine fails only if there is a sorted set with an entry of a member that is gone, and it gets ready, if it is left to work, exactly if there is none. Kills may come at any moment but one: in the middle of the replacement (C51). Examples: a rewrite on request, records while it waits for the timer, the replacement and a restart, after which a list is in the opposite order; a file that has grown and is rewritten by itself; a rewrite that fails. What is missing: NaN, ZREMRANGEBYRANK from the second rank on, cut files, what happens while the goroutine writes (C97, C98, C100), a kill in the middle of the replacement (C51)."
  },
  {
   "property": "C114",
   "status": "partial",
   "theorems": [
    "Metis.Props.TwiceP.C114_torn_partial",
    "Metis.Props.TwiceP.C114_either",
    "Metis.Props.TwiceP.C114_stays",
    "Metis.Props.TwiceP.C114_healed",
    "Metis.Props.TwiceP.C114_refuted"
   ],
   "note": "The full claim `C114` is refuted (`C114_refuted`: a record and three bytes of another, one SET). Proved (`C114_torn_partial`): for every log that C45 covers and every place inside a record at which a file may end and still be loaded, as long as no rewrite gets ready the process only ever appends whole records, through any restarts; the file is as it was, or it cannot be read and no process can be started with it. With rewrites (`C114_either`): the file is what the process was started with and whole records behind it, or it has been replaced and consists of whole records; the first timer event after a rewrite got ready makes it so whatever it was (`C114_healed`), and it stays so (`C114_stays`). Missing of the full claim: a log of whole records is read if it is not cut by the reader (C45); a kill inside the callback of a rewrite (C51)."
  },
  {
   "property": "C115",
   "status": "partial",
   "theorems": [
    "Metis.Props.WordsP.C115_surplus",
    "Metis.Props.WordsP.C115_loaded",
    "Metis.Props.WordsP.C115_missing",
    "Metis.Props.WordsP.C115_stops",
    "Metis.Props.WordsP.C115_odd",
    "Metis.Props.WordsP.C115_client",
    "Metis.Props.WordsP.C115_refuted"
   ],
   "note": "The full claim `C115` is refuted (`C115_refuted`: SET with options). Proved, for every command that looks at a bounded number of words: surplus words make no difference, in a record (`C115_surplus`), in a whole log that C45 covers (`C115_loaded`) and, where the server does not refuse them, in a request (`C115_client`: reply, databases, session and counter are the same). Too few words: the process stops for every command but PING, AUTH, BGREWRITEAOF, RANDOMGET, HSET and ZADD (`C115_missing`, `C115_stops`); an odd number of words of HSET and ZADD does nothing (`C115_odd`). missing: what a record does that has the words taken without counting but not all the others (it stops the process, or answers, or creates an empty collection)."
  },
  {
   "property": "C116",
   "status": "partial",
   "theorems": [
    "Metis.Props.ReaderP.C116_partial",
    "Metis.Props.ReaderP.C116_refuted"
   ],
   "note": "Refuted where a key is past its deadline (`C116_refuted`: HSET after the deadline keeps its field only if somebody has asked for the hash before). Proved (`C116_partial`): any choice of reading requests, together with the timer, may be left out: the replies to the others are the same (KEYS, SMEMBERS and the like up to the order), the log is the same, and the data differ at most in keys past their deadline, as long as in what remains HSET, SADD, LPUSH, RPUSH, ZADD, EXPIRE, EXPIREAT and TTL name no key past its deadline and patterns of KEYS are valid. missing: SPOP and RANDOMGET among what remains; histories with the timer in both (C86 compares them)."
  },
  {
   "property": "C117",
   "status": "partial",
   "theorems": [
    "Metis.Props.RefusedP.C117_partial",
    "Metis.Props.RefusedP.C117_auth",
    "Metis.Props.RefusedP.C117_zadd",
    "Metis.Props.RefusedP.C117_first",
    "Metis.Props.RefusedP.C117_refuted"
   ],
   "note": "The full claim `C117` is refuted (`C117_refuted`: ZADD z 1 a x b adds a and answers with an error). Proved (`C117_partial`): it holds of every request but AUTH and ZADD, whatever the error: unknown commands, wrong numbers of words, missing authentication, values of another type, words that are no numbers, indices of databases that do not exist, invalid patterns. `C117_auth`: a refused AUTH changes at most the authentication of its own connection, and only from yes to no. `C117_zadd`: ZADD with a score that is none in a later pair does to data, sessions, counter and task exactly what ZADD with only the pairs before it does (the log gets the whole request). `C117_first`: ZADD whose first score is none changes nothing, but that an empty sorted set is created if the key does not exist; this is neither counted nor logged."
  },
  {
   "property": "C118",
   "status": "partial",
   "theorems": [
    "Metis.Props.RepeatP.C118_partial",
    "Metis.Props.RepeatP.C118_zadd",
    "Metis.Props.RepeatP.C118_relative",
    "Metis.Props.RepeatP.C118_refuted"
   ],
   "note": "The full claim `C118` is refuted (`C118_refuted`: ZADD z nan a, sent twice, enters a twice; ZRANGE then lists it twice). Proved: `C118_partial` for SET, EXPIREAT, HSET, HDEL, SADD, SREM and ZREM with any arguments, in any state, at any clock; `C118_zadd` for ZADD that names every member once and gives none the score NaN (also if it stops at a score that is none); `C118_relative`: EXPIRE and SETEX change the second time nothing but the deadline of their key. Not covered: ZADD that names a member twice, whose second run moves nodes of the skip list about."
  },
  {
   "property": "C119",
   "status": "partial",
   "theorems": [
    "Metis.Props.TracelessP.C119_partial",
    "Metis.Props.TracelessP.C119_refuted"
   ],
   "note": "The full claim `C119` is refuted (`C119_refuted`: a ZADD that was answered with an error has added a member, which ZCARD counts). Proved (`C119_partial`): any choice of requests other than ZADD and AUTH that were answered with an error, together with any choice of reading requests (C116) and the timer, may be left out: the replies to the others are the same (KEYS, SMEMBERS and the like up to the order), the log is the same, and the data differ at most in keys past their deadline, as long as in what remains HSET, SADD, LPUSH, RPUSH, ZADD, EXPIRE, EXPIREAT and TTL name no key that is past its deadline, patterns are valid and nothing is drawn (as for C86)."
  },
  {
   "property": "C120",
   "status": "proved",
   "theorems": [
    "Metis.Props.NamingP.C120_names"
   ],
   "note": "For every bijective renaming of keys and every history of connects, closes and requests other than SPOP, RANDOMGET and KEYS with a pattern other than * (and without the timer) from the start, the renamed history runs too, its replies are the same (SMEMBERS and the like up to the order; KEYS * lists exactly the new names), and every value and deadline is under the new name."
  },
  {
   "property": "C121",
   "status": "proved",
   "theorems": [
    "Metis.Props.NumbersP.C121_numbers"
   ],
   "note": "For every renumbering that keeps database 0 and every history of connects, closes and requests other than SPOP and RANDOMGET (and without the timer) from the start, the history with the other numbers in SELECT runs too, its replies are the same (unordered listings up to the order), and every value and deadline is in the database with the other number. SELECT of a number that is no database is left as it is. At most 2^63 - 1 databases, as in Go."
  },
  {
   "property": "C122",
   "status": "proved",
   "theorems": [
    "Metis.Props.LabelsP.C122_labels"
   ],
   "note": "For every injective relabelling and every history from the start, including all random choices and the timer, the relabelled history runs with the same replies, ends with the same server (data, log, rewrite), and every connection has the same database and authentication."
  }
 ]
}