'Metis.Props.AckedP.C71_partial' depends on axioms: [propext, Classical.choice, Quot.sound]
'Metis.Props.AckedP.C71_refuted' depends on axioms: [propext, Quot.sound]
'Metis.Props.AeP.C57_interest' depends on axioms: [propext, Classical.choice, Quot.sound]
'Metis.Props.AeP.C57_add' depends on axioms: [propext, Quot.sound]
'Metis.Props.AeP.C57_remove' depends on axioms: [propext, Quot.sound]
'Metis.Props.AeP.C58_ids' depends on axioms: [propext, Quot.sound]
'Metis.Props.AeP.C58_once' depends on axioms: [propext, Classical.choice, Quot.sound]
'Metis.Props.AeP.C58_first_partial' depends on axioms: [propext, Quot.sound]
'Metis.Props.AeP.C58_period_partial' depends on axioms: [propext, Quot.sound]
'Metis.Props.AeP.C58_refuted' depends on axioms: [propext, Quot.sound]
'Metis.Props.AeP.C59_partial' depends on axioms: [propext, Quot.sound]
'Metis.Props.AeP.C59_refuted' depends on axioms: [propext, Quot.sound]
'Metis.Props.AeP.C60_partial' depends on axioms: [propext, Classical.choice, Quot.sound]
'Metis.Props.AeP.C60_refuted' depends on axioms: [propext, Quot.sound]
'Metis.Props.AeP.C63_registered_partial' depends on axioms: [propext, Quot.sound]
'Metis.Props.AeP.C63_refuted' depends on axioms: [propext, Quot.sound]
'Metis.Props.AgainP.C83_partial' depends on axioms: [propext, Classical.choice, Quot.sound]
'Metis.Props.AgainP.C83_refuted' depends on axioms: [propext, Quot.sound]
'Metis.Props.AofLoadP.C45_format' depends on axioms: [propext, Classical.choice, Quot.sound]
'Metis.Props.AofLoadP.C45_exact_partial' depends on axioms: [propext, Classical.choice, Quot.sound]
'Metis.Props.AofLoadP.C45_partial' depends on axioms: [propext, Classical.choice, Quot.sound]
'Metis.Props.AofLoadP.C45_small_partial' depends on axioms: [propext, Classical.choice, Quot.sound]
'Metis.Props.AofLoadP.C45_injection' depends on axioms: [propext, Classical.choice, Quot.sound]
'Metis.Props.AofLoadP.C45_split_fails' depends on axioms: [propext, Classical.choice, Quot.sound]
'Metis.Props.AofLoadP.C45_refuted' depends on axioms: [propext, Classical.choice, Quot.sound]
'Metis.Props.AofLoadP.C56_header_partial' depends on axioms: [propext, Classical.choice, Quot.sound]
'Metis.Props.AofLoadP.C56_exact_partial' depends on axioms: [propext, Classical.choice, Quot.sound]
'Metis.Props.AofLoadP.C56_otherwise_fails' depends on axioms: [propext, Classical.choice, Quot.sound]
'Metis.Props.AofLoadP.C56_refuted' depends on axioms: [propext]
'Metis.Props.ApartP.C73_partial' depends on axioms: [propext, Classical.choice, Quot.sound]
'Metis.Props.ApartP.C73_refuted' depends on axioms: [propext, Quot.sound]
'Metis.Props.ApartP.C74_exchange' depends on axioms: [propext, Classical.choice, Quot.sound]
'Metis.Props.ApartP.C75_hash' depends on axioms: [propext, Classical.choice, Quot.sound]
'Metis.Props.BookP.C87_log_partial' depends on axioms: [propext, Classical.choice, Quot.sound]
'Metis.Props.BookP.C87_refuted' depends on axioms: [propext, Quot.sound]
'Metis.Props.CalmP.C69_partial' depends on axioms: [propext, Classical.choice, Quot.sound]
'Metis.Props.CalmP.C69_random' depends on axioms: [propext, Classical.choice, Quot.sound]
'Metis.Props.CalmP.C69_cron' depends on axioms: [propext, Classical.choice, Quot.sound]
'Metis.Props.CalmP.C69_refuted' depends on axioms: [propext, Quot.sound]
'Metis.Props.CalmP.C69_history_partial' depends on axioms: [propext, Classical.choice, Quot.sound]
'Metis.Props.CalmP.C69_plain_partial' depends on axioms: [propext, Classical.choice, Quot.sound]
'Metis.Props.FatalP.C69_exact' depends on axioms: [propext, Classical.choice, Quot.sound]
'Metis.Props.ChunksP.C106_fails' depends on axioms: [propext, Quot.sound]
'Metis.Props.ChunksP.C106_injection' depends on axioms: [propext]
'Metis.Props.ChunksP.C106_refuted' depends on axioms: [propext]
'Metis.Props.ChunksP.C106_exact_partial' depends on axioms: [propext, Classical.choice, Quot.sound]
'Metis.Props.ChunksP.C106_partial' depends on axioms: [propext, Classical.choice, Quot.sound]
'Metis.Props.ChunksP.C106_whole' depends on axioms: [propext, Quot.sound]
'Metis.Props.ClerkP.C113_partial' depends on axioms: [propext, Classical.choice, Quot.sound]
'Metis.Props.ClerkP.C113_refuted' depends on axioms: [propext, Classical.choice, Quot.sound]
'Metis.Props.CollectionsP.C38_hset' depends on axioms: [propext, Classical.choice, Quot.sound]
'Metis.Props.CollectionsP.C38_hdel' depends on axioms: [propext, Classical.choice, Quot.sound]
'Metis.Props.CollectionsP.C38_hash_reads' depends on axioms: [propext, Classical.choice, Quot.sound]
'Metis.Props.CollectionsP.C38_sadd' depends on axioms: [propext, Classical.choice, Quot.sound]
'Metis.Props.CollectionsP.C38_srem' depends on axioms: [propext, Classical.choice, Quot.sound]
'Metis.Props.CollectionsP.C38_set_reads' depends on axioms: [propext, Classical.choice, Quot.sound]
'Metis.Props.CollectionsP.C38_spop' depends on axioms: [propext, Classical.choice, Quot.sound]
'Metis.Props.CollectionsP.C38_push' depends on axioms: [propext, Classical.choice, Quot.sound]
'Metis.Props.CollectionsP.C38_llen_lpop' depends on axioms: [propext, Classical.choice, Quot.sound]
'Metis.Props.CollectionsP.C38_rpop_partial' depends on axioms: [propext, Classical.choice, Quot.sound]
'Metis.Props.CollectionsP.C38_rpop_crashes' depends on axioms: [propext, Classical.choice, Quot.sound]
'Metis.Props.CollectionsP.C38_refuted_rpop' depends on axioms: [propext, Classical.choice, Quot.sound]
'Metis.Props.CollectionsP.C39_sinter' depends on axioms: [propext, Classical.choice, Quot.sound]
'Metis.Props.CollectionsP.C39_sdiff' depends on axioms: [propext, Classical.choice, Quot.sound]
'Metis.Props.CollectionsP.C39_sunion_partial' depends on axioms: [propext, Classical.choice, Quot.sound]
'Metis.Props.CollectionsP.C39_sunion_missing' depends on axioms: [propext, Classical.choice, Quot.sound]
'Metis.Props.CollectionsP.C39_refuted' depends on axioms: [propext]
'Metis.Props.DeliverP.C95_delivered' depends on axioms: [propext, Classical.choice, Quot.sound]
'Metis.Props.DeliverP.C95_reference' depends on axioms: [propext, Classical.choice, Quot.sound]
'Metis.Props.DeliverP.C95_possible' depends on axioms: [propext, Classical.choice, Quot.sound]
'Metis.Props.DeliverP.C95_bound' depends on axioms: [propext, Classical.choice, Quot.sound]
'Metis.Props.DeliverP.C95_registered' depends on axioms: [propext, Classical.choice, Quot.sound]
'Metis.Props.DictP.C01_dict_is_finite_map' depends on axioms: [propext, Classical.choice, Quot.sound]
'Metis.Props.DictP.C02_size_counts_live_keys' depends on axioms: [propext, Classical.choice, Quot.sound]
'Metis.Props.DictP.C03_dict_never_panics' depends on axioms: [propext, Classical.choice, Quot.sound]
'Metis.Props.DictP.C03_deepCopy_never_panics' depends on axioms: [propext, Classical.choice, Quot.sound]
'Metis.Props.DictP.C04_iteration_visits_each_entry_once' depends on axioms: [propext, Classical.choice, Quot.sound]
'Metis.Props.DictP.C05_frozen_while_iterating' depends on axioms: [propext, Classical.choice, Quot.sound]
'Metis.Props.DictP.C05_start_counts' depends on axioms: [propext, Classical.choice, Quot.sound]
'Metis.Props.DictP.C05_release_uncounts' depends on axioms: [propext]
'Metis.Props.DictP.C05_rehash_finishes' depends on axioms: [propext, Classical.choice, Quot.sound]
'Metis.Props.DictP.C06_random_nil_iff_empty' depends on axioms: [propext, Classical.choice, Quot.sound]
'Metis.Props.DictP.C06_random_returns_live' depends on axioms: [propext, Classical.choice, Quot.sound]
'Metis.Props.DictP.C06_every_entry_reachable' depends on axioms: [propext, Classical.choice, Quot.sound]
'Metis.Props.DictP.C07_deepCopy_equal_and_independent' depends on axioms: [propext, Classical.choice, Quot.sound]
'Metis.Props.DictP.C09_tables_well_formed' depends on axioms: [propext, Classical.choice, Quot.sound]
'Metis.Props.DictP.C09_growth_condition' depends on axioms: [propext, Classical.choice, Quot.sound]
'Metis.Props.DictP.C09_only_set_grows' depends on axioms: [propext, Classical.choice, Quot.sound]
'Metis.Props.DictP.C61_release_of_unused_iterator_unfreezes' depends on axioms: [propext]
'Metis.Props.DictP.C61_release_partial' depends on axioms: [propext]
'Metis.Props.DurableP.C48_partial' depends on axioms: [propext, Classical.choice, Quot.sound]
'Metis.Props.DurableP.C48_refuted' depends on axioms: [propext, Quot.sound]
'Metis.Props.DurableP.C48_running_refuted' depends on axioms: [propext, Quot.sound]
'Metis.Props.DurableP.C50_partial' depends on axioms: [propext, Classical.choice, Quot.sound]
'Metis.Props.DurableP.C50_refuted' depends on axioms: [propext, Quot.sound]
'Metis.Props.DurableP.C51_partial' depends on axioms: [propext, Classical.choice, Quot.sound]
'Metis.Props.DurableP.C51_refuted' depends on axioms: [propext, Quot.sound]
'Metis.Props.ExactP.C102_refuted' depends on axioms: [propext, Classical.choice, Quot.sound]
'Metis.Props.ExactP.C102_partial' depends on axioms: [propext, Classical.choice, Quot.sound]
'Metis.Props.ExactP.C102_history_partial' depends on axioms: [propext, Classical.choice, Quot.sound]
'Metis.Props.ExactHostP.C103_refuted' depends on axioms: [propext, Classical.choice, Quot.sound]
'Metis.Props.ExactHostP.C103_partial' depends on axioms: [propext, Classical.choice, Quot.sound]
'Metis.Props.ExactHostP.C103_history_partial' depends on axioms: [propext, Classical.choice, Quot.sound]
'Metis.Props.ExactKeepP.C107_partial' depends on axioms: [propext, Classical.choice, Quot.sound]
'Metis.Props.ExactKeepP.C107_refuted' depends on axioms: [propext, Classical.choice, Quot.sound]
'Metis.Props.ExpireP.C40_lookup_partial' depends on axioms: [propext, Classical.choice, Quot.sound]
'Metis.Props.ExpireP.C40_keys_partial' depends on axioms: [propext, Classical.choice, Quot.sound]
'Metis.Props.ExpireP.C40_randomget_partial' depends on axioms: [propext, Classical.choice, Quot.sound]
'Metis.Props.ExpireP.C40_refuted' depends on axioms: [propext]
'Metis.Props.ExpireP.C42_ttl_partial' depends on axioms: [propext, Classical.choice, Quot.sound]
'Metis.Props.ExpireP.C42_refuted' depends on axioms: [propext]
'Metis.Props.ExpireP.C43_no_value_partial' depends on axioms: [propext, Classical.choice, Quot.sound]
'Metis.Props.ExpireP.C43_deadline_partial' depends on axioms: [propext, Classical.choice, Quot.sound]
'Metis.Props.ExpireP.C43_refuted' depends on axioms: [propext]
'Metis.Props.FailP.C99_sync_partial' depends on axioms: [propext, Classical.choice, Quot.sound]
'Metis.Props.FailP.C99_write_partial' depends on axioms: [propext, Classical.choice, Quot.sound]
'Metis.Props.FailP.C99_acked_partial' depends on axioms: [propext, Classical.choice, Quot.sound]
'Metis.Props.FailP.C99_start_partial' depends on axioms: [propext, Classical.choice, Quot.sound]
'Metis.Props.FailP.C99_refuted' depends on axioms: [propext, Quot.sound]
'Metis.Props.FailP.C99_setex' depends on axioms: [propext, Quot.sound]
'Metis.Props.FailP.C99_callback' depends on axioms: [propext, Quot.sound]
'Metis.Props.FatalP.C64_lindex_exact' depends on axioms: [propext, Classical.choice, Quot.sound]
'Metis.Props.FatalP.C64_lrange_exact' depends on axioms: [propext, Classical.choice, Quot.sound]
'Metis.Props.ListsP.C64_lindex_partial' depends on axioms: [propext, Classical.choice, Quot.sound]
'Metis.Props.ListsP.C64_lrange_partial' depends on axioms: [propext, Classical.choice, Quot.sound]
'Metis.Props.ListsP.C64_lindex_crashes' depends on axioms: [propext, Classical.choice, Quot.sound]
'Metis.Props.ListsP.C64_refuted' depends on axioms: [propext, Classical.choice, Quot.sound]
'Metis.Props.FdsP.C84_partial' depends on axioms: [propext, Quot.sound]
'Metis.Props.FdsP.C84_clients_partial' depends on axioms: [propext, Quot.sound]
'Metis.Props.FdsP.C84_clash' depends on axioms: [propext, Classical.choice, Quot.sound]
'Metis.Props.FdsP.C84_refuted' depends on axioms: [propext, Quot.sound]
'Metis.Props.FdsP.C84_leak' depends on axioms: [propext, Quot.sound]
'Metis.Props.FdsP.C85_partial' depends on axioms: [propext, Quot.sound]
'Metis.Props.FdsP.C85_refuted' depends on axioms: [propext, Quot.sound]
'Metis.Props.FineP.C100_crash' depends on axioms: [propext]
'Metis.Props.FineP.C100_crash_in_size' depends on axioms: [propext]
'Metis.Props.FineP.C100_false' depends on axioms: [propext]
'Metis.Props.FineP.C100_misses_all' depends on axioms: [propext, Quot.sound]
'Metis.Props.FineP.C100_twice' depends on axioms: [propext, Quot.sound]
'Metis.Props.FineP.C100_server' depends on axioms: [propext, Classical.choice, Quot.sound]
'Metis.Props.FineP.C100_atomic' depends on axioms: [propext, Quot.sound]
'Metis.Props.FineP.C100_inside_calls_partial' depends on axioms: [propext, Classical.choice, Quot.sound]
'Metis.Props.FrameP.C90_parser' depends on axioms: [propext, Quot.sound]
'Metis.Props.FrameP.C90_words' depends on axioms: [propext, Quot.sound]
'Metis.Props.FrameP.C29_exact' depends on axioms: [propext, Classical.choice, Quot.sound]
'Metis.Props.RespP.C29_no_crash_partial' depends on axioms: [propext, Classical.choice, Quot.sound]
'Metis.Props.RespP.C29_requests_never_crash_partial' depends on axioms: [propext, Classical.choice, Quot.sound]
'Metis.Props.RespP.C29_empty_line_crashes' depends on axioms: [propext]
'Metis.Props.RespP.C29_bad_lengths_crash' depends on axioms: [propext]
'Metis.Props.RespP.C29_legal_request_crashes' depends on axioms: [propext, Classical.choice, Quot.sound]
'Metis.Props.RespP.C29_legal_request_exists' depends on axioms: [propext, Quot.sound]
'Metis.Props.HostP.C93_refuted' depends on axioms: [propext, Classical.choice, Quot.sound]
'Metis.Props.HostP.C93_until_partial' depends on axioms: [propext, Classical.choice, Quot.sound]
'Metis.Props.HostP.C93_partial' depends on axioms: [propext, Classical.choice, Quot.sound]
'Metis.Props.HostP.C93_answers_partial' depends on axioms: [propext, Classical.choice, Quot.sound]
'Metis.Props.KeepP.C96_partial' depends on axioms: [propext, Classical.choice, Quot.sound]
'Metis.Props.KeepP.C96_refuted' depends on axioms: [propext, Classical.choice, Quot.sound]
'Metis.Props.KeysP.C65_keys' depends on axioms: [propext, Classical.choice, Quot.sound]
'Metis.Props.KeysP.C65_invalid' depends on axioms: [propext, Classical.choice, Quot.sound]
'Metis.Props.KeysP.C66_expire_partial' depends on axioms: [propext, Classical.choice, Quot.sound]
'Metis.Props.KeysP.C66_setex_partial' depends on axioms: [propext, Classical.choice, Quot.sound]
'Metis.Props.KeysP.C66_expireat_partial' depends on axioms: [propext, Classical.choice, Quot.sound]
'Metis.Props.KeysP.C66_refuted' depends on axioms: [propext, Quot.sound]
'Metis.Props.KeysP.C67_unknown' depends on axioms: [propext, Quot.sound]
'Metis.Props.KeysP.C67_count' depends on axioms: [propext, Classical.choice, Quot.sound]
'Metis.Props.LabelsP.C122_labels' depends on axioms: [propext, Quot.sound]
'Metis.Props.LapseP.C88_partial' depends on axioms: [propext, Classical.choice, Quot.sound]
'Metis.Props.LapseP.C88_refuted' depends on axioms: [propext, Classical.choice, Quot.sound]
'Metis.Props.LapseP.C88_refuted_risen' depends on axioms: [propext, Classical.choice, Quot.sound]
'Metis.Props.LevelsP.C82_levels_partial' depends on axioms: [propext, Classical.choice, Quot.sound]
'Metis.Props.LevelsP.C82_refuted' depends on axioms: [propext, Quot.sound]
'Metis.Props.LevelsP.C82_nan' depends on axioms: [propext]
'Metis.Props.ListenP.C72_everywhere' depends on axioms: [propext, Classical.choice, Quot.sound]
'Metis.Props.ListenP.C72_partial' depends on axioms: [propext, Classical.choice, Quot.sound]
'Metis.Props.ListenP.C72_refuted' depends on axioms: [propext, Classical.choice, Quot.sound]
'Metis.Props.ListenP.C72_invalid' depends on axioms: [propext, Classical.choice, Quot.sound]
'Metis.Props.ListenP.C72_six' depends on axioms: [propext, Classical.choice, Quot.sound]
'Metis.Props.ListenP.C72_reaches' depends on axioms: [propext, Classical.choice, Quot.sound]
'Metis.Props.StartP.C72_started' depends on axioms: [propext, Classical.choice, Quot.sound]
'Metis.Props.LoadingP.C109_partial' depends on axioms: [propext, Classical.choice, Quot.sound]
'Metis.Props.LoadingP.C109_crash_partial' depends on axioms: [propext, Classical.choice, Quot.sound]
'Metis.Props.LoadingP.C109_refuted' depends on axioms: [propext, Classical.choice, Quot.sound]
'Metis.Props.LogP.C44_changes_partial' depends on axioms: [propext, Classical.choice, Quot.sound]
'Metis.Props.LogP.C44_reads' depends on axioms: [propext, Classical.choice, Quot.sound]
'Metis.Props.LogP.C44_strict_partial' depends on axioms: [propext, Classical.choice, Quot.sound]
'Metis.Props.LogP.C44_appends' depends on axioms: [propext, Classical.choice, Quot.sound]
'Metis.Props.LogP.C44_refuted' depends on axioms: [propext, Quot.sound]
'Metis.Props.LogP.C44_refuted_sadd' depends on axioms: [propext]
'Metis.Props.LogP.C46_partial' depends on axioms: [propext, Classical.choice, Quot.sound]
'Metis.Props.LogP.C46_refuted' depends on axioms: [propext, Quot.sound]
'Metis.Props.LogP.C47_refuted' depends on axioms: [propext, Quot.sound]
'Metis.Props.LogP.C47_single_partial' depends on axioms: [propext, Classical.choice, Quot.sound]
'Metis.Props.LoopsP.C98_collect' depends on axioms: [propext, Classical.choice, Quot.sound]
'Metis.Props.LoopsP.C98_limit' depends on axioms: [propext, Classical.choice, Quot.sound]
'Metis.Props.MemP.C76_strings_never_change' depends on axioms: [propext, Classical.choice, Quot.sound]
'Metis.Props.MemP.C76_memory_is_unobservable' depends on axioms: [propext, Classical.choice, Quot.sound]
'Metis.Props.MemP.C76_client' depends on axioms: [propext, Classical.choice, Quot.sound]
'Metis.Props.MemP.C76_requests' depends on axioms: [propext, Classical.choice, Quot.sound]
'Metis.Props.NamingP.C120_names' depends on axioms: [propext, Classical.choice, Quot.sound]
'Metis.Props.NetP.C31_prefix' depends on axioms: [propext, Quot.sound]
'Metis.Props.NetP.C31_complete' depends on axioms: [propext, Quot.sound]
'Metis.Props.NetP.C31_returns' depends on axioms: [propext, Quot.sound]
'Metis.Props.NetP.C31_flush' depends on axioms: [propext, Quot.sound]
'Metis.Props.NetP.C32_kernel' depends on axioms: [propext, Quot.sound]
'Metis.Props.NextPowerP.C08_next_power' depends on axioms: [propext, Classical.choice, Quot.sound]
'Metis.Props.NextPowerP.C08_overflow' depends on axioms: [propext, Classical.choice, Quot.sound]
'Metis.Props.NextPowerP.C08_model_agrees' depends on axioms: [propext, Classical.choice, Quot.sound]
'Metis.Props.NodeP.C52_one' depends on axioms: [propext, Classical.choice, Quot.sound]
'Metis.Props.NodeP.C52_collected' depends on axioms: [propext, Classical.choice, Quot.sound]
'Metis.Props.NodeP.C52_since_start' depends on axioms: [propext, Classical.choice, Quot.sound]
'Metis.Props.NodeP.C53_partial' depends on axioms: [propext, Classical.choice, Quot.sound]
'Metis.Props.NodeP.C53_refuted' depends on axioms: [propext, Quot.sound]
'Metis.Props.NodeP.C54_partial' depends on axioms: [propext, Quot.sound]
'Metis.Props.NodeP.C54_refuted' depends on axioms: [propext, Classical.choice, Quot.sound]
'Metis.Props.NodeP.C55_always' depends on axioms: [propext, Quot.sound]
'Metis.Props.NodeP.C55_always_run' depends on axioms: [propext, Quot.sound]
'Metis.Props.NodeP.C55_no' depends on axioms: [propext, Quot.sound]
'Metis.Props.NodeP.C55_partial' depends on axioms: [propext, Quot.sound]
'Metis.Props.NodeP.C55_refuted' depends on axioms: [propext, Quot.sound]
'Metis.Props.NumbersP.C121_numbers' depends on axioms: [propext, Classical.choice, Quot.sound]
'Metis.Props.NumeralP.C111_read' depends on axioms: [propext, Classical.choice, Quot.sound]
'Metis.Props.NumeralP.C111_unique' depends on axioms: [propext, Classical.choice, Quot.sound]
'Metis.Props.NumeralP.C111_write' depends on axioms: [propext, Classical.choice, Quot.sound]
'Metis.Props.NumeralP.C111_select' depends on axioms: [propext, Classical.choice, Quot.sound]
'Metis.Props.PictureP.C112_partial' depends on axioms: [propext, Classical.choice, Quot.sound]
'Metis.Props.PowerP.C80_partial' depends on axioms: [propext, Classical.choice, Quot.sound]
'Metis.Props.PowerP.C80_refuted' depends on axioms: [propext, Classical.choice, Quot.sound]
'Metis.Props.PowerP.C81_partial' depends on axioms: [propext, Classical.choice, Quot.sound]
'Metis.Props.PowerP.C81_kill_partial' depends on axioms: [propext, Classical.choice, Quot.sound]
'Metis.Props.PowerP.C81_refuted' depends on axioms: [propext, Classical.choice, Quot.sound]
'Metis.Props.ProcP.C77_refines' depends on axioms: [propext, Classical.choice, Quot.sound]
'Metis.Props.ProcP.C77_death' depends on axioms: [propext, Classical.choice, Quot.sound]
'Metis.Props.ProcP.C77_disk' depends on axioms: [propext, Quot.sound]
'Metis.Props.ProcP.C77_complete' depends on axioms: [propext, Quot.sound]
'Metis.Props.ProcP.C77_window' depends on axioms: [propext, Quot.sound]
'Metis.Props.ProcP.C78_only_sync' depends on axioms: [propext, Classical.choice, Quot.sound]
'Metis.Props.ProcP.C78_partial' depends on axioms: [propext, Classical.choice, Quot.sound]
'Metis.Props.ProcP.C78_refuted' depends on axioms: [propext, Quot.sound]
'Metis.Props.ProcP.C79_partial' depends on axioms: [propext, Classical.choice, Quot.sound]
'Metis.Props.ProcP.C79_kill_partial' depends on axioms: [propext, Classical.choice, Quot.sound]
'Metis.Props.ProcP.C79_refuted' depends on axioms: [propext, Quot.sound]
'Metis.Props.ProcP.C79_flushed_refuted' depends on axioms: [propext, Quot.sound]
'Metis.Props.ProcP.C79_acked_partial' depends on axioms: [propext, Classical.choice, Quot.sound]
'Metis.Props.QuicklistP.C11_exact_deque' depends on axioms: [propext, Classical.choice, Quot.sound]
'Metis.Props.QuicklistP.C13_pages_well_formed' depends on axioms: [propext, Classical.choice, Quot.sound]
'Metis.Props.QuicklistP.C14_find' depends on axioms: [propext, Classical.choice, Quot.sound]
'Metis.Props.QuicklistP.C14_iterator' depends on axioms: [propext, Classical.choice, Quot.sound]
'Metis.Props.QuicklistP.C12_popBack_crashes' depends on axioms: [propext, Classical.choice, Quot.sound]
'Metis.Props.QuicklistP.C12_get_wrong_element' depends on axioms: [propext, Quot.sound]
'Metis.Props.QuicklistP.C12_range_huge_stop_crashes' depends on axioms: [propext, Classical.choice, Quot.sound]
'Metis.Props.QuicklistP.C12_get_characterised' depends on axioms: [propext, Classical.choice, Quot.sound]
'Metis.Props.QuicklistP.C12_out_of_range' depends on axioms: [propext, Classical.choice, Quot.sound]
'Metis.Props.QuicklistP.C12_positional_access_partial' depends on axioms: [propext, Classical.choice, Quot.sound]
'Metis.Props.ReaderP.C116_partial' depends on axioms: [propext, Classical.choice, Quot.sound]
'Metis.Props.ReaderP.C116_refuted' depends on axioms: [propext, Quot.sound]
'Metis.Props.RefP.C92_refuted' depends on axioms: [propext, Classical.choice, Quot.sound]
'Metis.Props.RefP.C92_until_partial' depends on axioms: [propext, Classical.choice, Quot.sound]
'Metis.Props.RefP.C92_partial' depends on axioms: [propext, Classical.choice, Quot.sound]
'Metis.Props.RefP.C92_answers_partial' depends on axioms: [propext, Classical.choice, Quot.sound]
'Metis.Props.RefusedP.C117_partial' depends on axioms: [propext, Classical.choice, Quot.sound]
'Metis.Props.RefusedP.C117_auth' depends on axioms: [propext, Classical.choice, Quot.sound]
'Metis.Props.RefusedP.C117_zadd' depends on axioms: [propext, Classical.choice, Quot.sound]
'Metis.Props.RefusedP.C117_first' depends on axioms: [propext, Classical.choice, Quot.sound]
'Metis.Props.RefusedP.C117_refuted' depends on axioms: [propext, Classical.choice, Quot.sound]
'Metis.Props.RepeatP.C118_partial' depends on axioms: [propext, Classical.choice, Quot.sound]
'Metis.Props.RepeatP.C118_zadd' depends on axioms: [propext, Classical.choice, Quot.sound]
'Metis.Props.RepeatP.C118_relative' depends on axioms: [propext, Classical.choice, Quot.sound]
'Metis.Props.RepeatP.C118_refuted' depends on axioms: [propext, Classical.choice, Quot.sound]
'Metis.Props.ReplyP.C30_encoders' depends on axioms: [propext, Classical.choice, Quot.sound]
'Metis.Props.ReplyP.C30_partial' depends on axioms: [propext, Classical.choice, Quot.sound]
'Metis.Props.ReplyP.C30_stream_partial' depends on axioms: [propext, Classical.choice, Quot.sound]
'Metis.Props.ReplyP.C30_nonempty' depends on axioms: [propext, Classical.choice, Quot.sound]
'Metis.Props.ReplyP.C30_refuted' depends on axioms: [propext, Quot.sound]
'Metis.Props.RespP.C26_request_parsed' depends on axioms: [propext, Classical.choice, Quot.sound]
'Metis.Props.RespP.C26_request_injective' depends on axioms: [propext, Classical.choice, Quot.sound]
'Metis.Props.RespP.C27_fragments_partial' depends on axioms: [propext, Classical.choice, Quot.sound]
'Metis.Props.RespP.C27_bad_cut' depends on axioms: [propext, Classical.choice, Quot.sound]
'Metis.Props.RespP.C27_fails' depends on axioms: [propext]
'Metis.Props.RespP.C28_sequence_partial' depends on axioms: [propext, Classical.choice, Quot.sound]
'Metis.Props.RespP.C28_rest_dropped' depends on axioms: [propext, Classical.choice, Quot.sound]
'Metis.Props.RespP.C28_fails' depends on axioms: [propext, Classical.choice, Quot.sound]
'Metis.Props.RewriteP.C49_replay_partial' depends on axioms: [propext, Classical.choice, Quot.sound]
'Metis.Props.RewriteP.C49_file_partial' depends on axioms: [propext, Classical.choice, Quot.sound]
'Metis.Props.RewriteP.C49_safe_partial' depends on axioms: [propext, Classical.choice, Quot.sound]
'Metis.Props.RewriteP.C49_refuted' depends on axioms: [propext, Quot.sound]
'Metis.Props.RewriteP.C49_zset_refuted' depends on axioms: [propext, Classical.choice, Quot.sound]
'Metis.Props.ScribeP.C110_partial' depends on axioms: [propext, Classical.choice, Quot.sound]
'Metis.Props.ScribeP.C110_file_partial' depends on axioms: [propext, Classical.choice, Quot.sound]
'Metis.Props.ScribeP.C110_refuted' depends on axioms: [propext, Classical.choice, Quot.sound]
'Metis.Props.ServerP.C33_gate' depends on axioms: [propext, Quot.sound]
'Metis.Props.ServerP.C33_failed_auth' depends on axioms: [propext, Quot.sound]
'Metis.Props.ServerP.C33_history' depends on axioms: [propext, Classical.choice, Quot.sound]
'Metis.Props.ServerP.C34_set_get' depends on axioms: [propext, Classical.choice, Quot.sound]
'Metis.Props.ServerP.C34_set_replaces' depends on axioms: [propext, Classical.choice, Quot.sound]
'Metis.Props.ServerP.C36_frame' depends on axioms: [propext, Classical.choice, Quot.sound]
'Metis.Props.ServerP.C36_other_database' depends on axioms: [propext, Classical.choice, Quot.sound]
'Metis.Props.ServerP.C37_select' depends on axioms: [propext, Classical.choice, Quot.sound]
'Metis.Props.ServerP.C37_select_error_partial' depends on axioms: [propext, Quot.sound]
'Metis.Props.ServerP.C37_refuted_negative' depends on axioms: [propext, Classical.choice, Quot.sound]
'Metis.Props.ServerP.C37_sticky' depends on axioms: [propext, Classical.choice, Quot.sound]
'Metis.Props.ServerP.C41_live' depends on axioms: [propext, Classical.choice, Quot.sound]
'Metis.Props.ServerP.C41_history' depends on axioms: [propext, Classical.choice, Quot.sound]
'Metis.Props.SetP.C10_set_is_finite_set' depends on axioms: [propext, Classical.choice, Quot.sound]
'Metis.Props.SetP.C10_union' depends on axioms: [propext, Classical.choice, Quot.sound]
'Metis.Props.SetP.C10_intersect' depends on axioms: [propext, Classical.choice, Quot.sound]
'Metis.Props.SetP.C10_difference' depends on axioms: [propext, Classical.choice, Quot.sound]
'Metis.Props.SetP.C10_self' depends on axioms: [propext, Classical.choice, Quot.sound]
'Metis.Props.SharedP.C97_false' depends on axioms: [propext, Quot.sound]
'Metis.Props.SharedP.C97_miscount' depends on axioms: [propext, Quot.sound]
'Metis.Props.SharedP.C97_stuck' depends on axioms: [propext, Quot.sound]
'Metis.Props.SharedP.C97_empty_dict_false' depends on axioms: [propext, Quot.sound]
'Metis.Props.SharedP.C97_loops_and_calls_partial' depends on axioms: [propext, Classical.choice, Quot.sound]
'Metis.Props.SharedP.C97_loops_end' depends on axioms: [propext, Classical.choice, Quot.sound]
'Metis.Props.SharedP.C97_atomic' depends on axioms: [propext, Quot.sound]
'Metis.Props.SharedP.C97_twice' depends on axioms: [propext, Quot.sound]
'Metis.Props.SkiplistP.C15_sorted_pairs' depends on axioms: [propext, Classical.choice, Quot.sound]
'Metis.Props.SkiplistP.C16_element_by_rank' depends on axioms: [propext, Classical.choice, Quot.sound]
'Metis.Props.SkiplistP.C16_range_by_rank_partial' depends on axioms: [propext, Classical.choice, Quot.sound]
'Metis.Props.SkiplistP.C16_rank_partial' depends on axioms: [propext, Classical.choice, Quot.sound]
'Metis.Props.SkiplistP.C16_reverse_past_end_returns_head' depends on axioms: [propext, Classical.choice, Quot.sound]
'Metis.Props.SkiplistP.C16_huge_range_crashes' depends on axioms: [propext, Classical.choice, Quot.sound]
'Metis.Props.SkiplistP.C16_empty_member_rank_wrong' depends on axioms: [propext]
'Metis.Props.SkiplistP.C16_repeated_member_rank_wrong' depends on axioms: [propext]
'Metis.Props.SkiplistP.C17_delete_range_by_rank_partial' depends on axioms: [propext, Classical.choice, Quot.sound]
'Metis.Props.SkiplistP.C17_starts_late' depends on axioms: [propext, Classical.choice, Quot.sound]
'Metis.Props.SkiplistP.C17_exact' depends on axioms: [propext, Classical.choice, Quot.sound]
'Metis.Props.SkiplistP.C17_deletes_nothing' depends on axioms: [propext]
'Metis.Props.SkiplistP.C17_deletes_wrong_element' depends on axioms: [propext]
'Metis.Props.SkiplistP.C18_score_queries_partial' depends on axioms: [propext, Classical.choice, Quot.sound]
'Metis.Props.SkiplistP.C18_delete_range_by_score_partial' depends on axioms: [propext, Classical.choice, Quot.sound]
'Metis.Props.SkiplistP.C18_nan_reverse_returns_head' depends on axioms: [propext]
'Metis.Props.SkiplistP.C18_nan_deletes' depends on axioms: [propext]
'Metis.Props.SkiplistP.C19_backward_mirrors_forward' depends on axioms: [propext, Classical.choice, Quot.sound]
'Metis.Props.SkiplistP.C19_reverse_range_is_reversal' depends on axioms: [propext, Classical.choice, Quot.sound]
'Metis.Props.SkiplistP.C20_delete_partial' depends on axioms: [propext, Classical.choice, Quot.sound]
'Metis.Props.SkiplistP.C20_absent_returns_other_node' depends on axioms: [propext]
'Metis.Props.SkiplistP.C21_levels_unobservable_partial' depends on axioms: [propext, Classical.choice, Quot.sound]
'Metis.Props.SkiplistP.C21_rank_depends_on_levels' depends on axioms: [propext]
'Metis.Props.SkiplistP.C21_delete_by_rank_depends_on_levels' depends on axioms: [propext]
'Metis.Props.SkiplistP.C22_random_level_partial' depends on axioms: [propext, Classical.choice, Quot.sound]
'Metis.Props.SkiplistP.C22_random_level_wraps' depends on axioms: [propext]
'Metis.Props.SortedP.C68_zscore' depends on axioms: [propext, Classical.choice, Quot.sound]
'Metis.Props.SortedP.C68_zcard_partial' depends on axioms: [propext, Classical.choice, Quot.sound]
'Metis.Props.SortedP.C68_zcount_partial' depends on axioms: [propext, Classical.choice, Quot.sound]
'Metis.Props.SortedP.C68_zrange_partial' depends on axioms: [propext, Classical.choice, Quot.sound]
'Metis.Props.SortedP.C68_zrangebyscore_partial' depends on axioms: [propext, Classical.choice, Quot.sound]
'Metis.Props.SortedP.C68_missing' depends on axioms: [propext, Classical.choice, Quot.sound]
'Metis.Props.SortedP.C68_zadd_partial' depends on axioms: [propext, Classical.choice, Quot.sound]
'Metis.Props.SortedP.C68_zrem_partial' depends on axioms: [propext, Classical.choice, Quot.sound]
'Metis.Props.SortedP.C68_zremrangebyscore_partial' depends on axioms: [propext, Classical.choice, Quot.sound]
'Metis.Props.SortedP.C68_history_partial' depends on axioms: [propext, Classical.choice, Quot.sound]
'Metis.Props.SortedP.C68_refuted' depends on axioms: [propext, Classical.choice, Quot.sound]
'Metis.Props.StampP.C105_partial' depends on axioms: [propext, Classical.choice, Quot.sound]
'Metis.Props.StampP.C105_setex_partial' depends on axioms: [propext, Classical.choice, Quot.sound]
'Metis.Props.StampP.C105_still_partial' depends on axioms: [propext, Classical.choice, Quot.sound]
'Metis.Props.StampP.C105_again' depends on axioms: [propext, Classical.choice, Quot.sound]
'Metis.Props.StampP.C105_refuted' depends on axioms: [propext, Classical.choice, Quot.sound]
'Metis.Props.StartP.C94_refuted' depends on axioms: [propext]
'Metis.Props.StartP.C94_partial' depends on axioms: [propext, Quot.sound]
'Metis.Props.StartP.C94_starts' depends on axioms: [propext, Classical.choice, Quot.sound]
'Metis.Props.StartP.C94_crash' depends on axioms: [propext, Quot.sound]
'Metis.Props.StartP.C94_only' depends on axioms: [propext, Quot.sound]
'Metis.Props.StartP.C94_causes' depends on axioms: [propext, Classical.choice, Quot.sound]
'Metis.Props.StartP.C94_first' depends on axioms: [propext, Quot.sound]
'Metis.Props.StartP.C94_default' depends on axioms: [propext, Quot.sound]
'Metis.Props.StrangerP.C89_request' depends on axioms: [propext, Classical.choice, Quot.sound]
'Metis.Props.StrangerP.C89_refused' depends on axioms: [propext, Classical.choice, Quot.sound]
'Metis.Props.StrangerP.C89_integrity' depends on axioms: [propext, Classical.choice, Quot.sound]
'Metis.Props.StrangerP.C89_secrecy' depends on axioms: [propext, Classical.choice, Quot.sound]
'Metis.Props.TallyP.C101_zadd' depends on axioms: [propext, Classical.choice, Quot.sound]
'Metis.Props.TallyP.C101_zrem' depends on axioms: [propext, Classical.choice, Quot.sound]
'Metis.Props.TallyP.C101_zremrangebyscore' depends on axioms: [propext, Classical.choice, Quot.sound]
'Metis.Props.TallyP.C101_zremrangebyrank' depends on axioms: [propext, Classical.choice, Quot.sound]
'Metis.Props.TallyP.C101_zcard' depends on axioms: [propext, Classical.choice, Quot.sound]
'Metis.Props.TallyP.C101_zcount' depends on axioms: [propext, Classical.choice, Quot.sound]
'Metis.Props.TallyP.C101_zrange' depends on axioms: [propext, Classical.choice, Quot.sound]
'Metis.Props.TallyP.C101_zrangebyscore' depends on axioms: [propext, Classical.choice, Quot.sound]
'Metis.Props.TallyP.C101_history' depends on axioms: [propext, Classical.choice, Quot.sound]
'Metis.Props.TallyP.C101_poison' depends on axioms: [propext, Classical.choice, Quot.sound]
'Metis.Props.TallyP.C101_rewrite' depends on axioms: [propext, Classical.choice, Quot.sound]
'Metis.Props.TickingP.C104_refuted' depends on axioms: [propext, Classical.choice, Quot.sound]
'Metis.Props.TickingP.C104_partial' depends on axioms: [propext, Classical.choice, Quot.sound]
'Metis.Props.TickingP.C104_crashes_partial' depends on axioms: [propext, Classical.choice, Quot.sound]
'Metis.Props.TickingP.C104_still_partial' depends on axioms: [propext, Classical.choice, Quot.sound]
'Metis.Props.TickingP.C104_twice' depends on axioms: [propext, Classical.choice, Quot.sound]
'Metis.Props.TimerP.C86_timer_partial' depends on axioms: [propext, Classical.choice, Quot.sound]
'Metis.Props.TimerP.C86_refuted' depends on axioms: [propext, Quot.sound]
'Metis.Props.TimerP.C86_raised' depends on axioms: [propext]
'Metis.Props.TracelessP.C119_partial' depends on axioms: [propext, Classical.choice, Quot.sound]
'Metis.Props.TracelessP.C119_refuted' depends on axioms: [propext, Quot.sound]
'Metis.Props.TwiceP.C114_torn_partial' depends on axioms: [propext, Classical.choice, Quot.sound]
'Metis.Props.TwiceP.C114_either' depends on axioms: [propext, Classical.choice, Quot.sound]
'Metis.Props.TwiceP.C114_stays' depends on axioms: [propext, Classical.choice, Quot.sound]
'Metis.Props.TwiceP.C114_healed' depends on axioms: [propext, Classical.choice, Quot.sound]
'Metis.Props.TwiceP.C114_refuted' depends on axioms: [propext, Quot.sound]
'Metis.Props.TypesP.C35_wrong_type_partial' depends on axioms: [propext, Classical.choice, Quot.sound]
'Metis.Props.TypesP.C35_further_keys_partial' depends on axioms: [propext, Classical.choice, Quot.sound]
'Metis.Props.TypesP.C35_refuted' depends on axioms: [propext]
'Metis.Props.UpP.C91_refuted' depends on axioms: [propext, Quot.sound]
'Metis.Props.UpP.C91_read' depends on axioms: [propext, Classical.choice, Quot.sound]
'Metis.Props.UpP.C91_partial' depends on axioms: [propext, Classical.choice, Quot.sound]
'Metis.Props.UpP.C91_rest' depends on axioms: [propext, Classical.choice, Quot.sound]
'Metis.Props.WholeP.C108_partial' depends on axioms: [propext, Classical.choice, Quot.sound]
'Metis.Props.WholeP.C108_refuted' depends on axioms: [propext, Classical.choice, Quot.sound]
'Metis.Props.WireP.C70_sequential' depends on axioms: [propext, Classical.choice, Quot.sound]
'Metis.Props.WireP.C70_partial' depends on axioms: [propext, Classical.choice, Quot.sound]
'Metis.Props.WireP.C70_decoded_partial' depends on axioms: [propext, Classical.choice, Quot.sound]
'Metis.Props.WireP.C70_delivery' depends on axioms: [propext, Classical.choice, Quot.sound]
'Metis.Props.WireP.C70_refuted' depends on axioms: [propext, Quot.sound]
'Metis.Props.WireP.C70_alive_partial' depends on axioms: [propext, Classical.choice, Quot.sound]
'Metis.Props.WireP.C70_open' depends on axioms: [propext, Classical.choice, Quot.sound]
'Metis.Props.WordsP.C115_surplus' depends on axioms: [propext, Quot.sound]
'Metis.Props.WordsP.C115_loaded' depends on axioms: [propext, Classical.choice, Quot.sound]
'Metis.Props.WordsP.C115_missing' depends on axioms: [propext, Quot.sound]
'Metis.Props.WordsP.C115_stops' depends on axioms: [propext, Quot.sound]
'Metis.Props.WordsP.C115_odd' depends on axioms: [propext, Quot.sound]
'Metis.Props.WordsP.C115_client' depends on axioms: [propext, Quot.sound]
'Metis.Props.WordsP.C115_refuted' depends on axioms: [propext, Quot.sound]
'Metis.Props.ZsetP.C23_members_once_partial' depends on axioms: [propext, Classical.choice, Quot.sound]
'Metis.Props.ZsetP.C23_score_always_latest' depends on axioms: [propext, Classical.choice, Quot.sound]
'Metis.Props.ZsetP.C23_rescoring_duplicates' depends on axioms: [propext, Classical.choice, Quot.sound]
'Metis.Props.ZsetP.C23_fails' depends on axioms: [propext]
'Metis.Props.ZsetP.C24_ranges_never_nil_partial' depends on axioms: [propext, Classical.choice, Quot.sound]
'Metis.Props.ZsetP.C24_nil_after_rescoring' depends on axioms: [propext]
'Metis.Props.ZsetP.C24_nil_after_rescoring_by_score' depends on axioms: [propext]
'Metis.Props.ZsetP.C24_nil_after_zremrangebyrank' depends on axioms: [propext]
'Metis.Props.ZsetP.C24_huge_range_crashes' depends on axioms: [propext, Classical.choice, Quot.sound]
'Metis.Props.ZsetP.C25_queries_consistent_partial' depends on axioms: [propext, Classical.choice, Quot.sound]
'Metis.Props.ZsetP.C62_remrangebyscore_partial' depends on axioms: [propext, Classical.choice, Quot.sound]
'Metis.Props.ZsetP.C62_removes_live_member' depends on axioms: [propext]
'Metis.Props.ZsetP.C62_nan_removes' depends on axioms: [propext] 