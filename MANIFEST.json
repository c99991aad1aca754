{
 "claims": [
  {
   "property": "C01",
   "status": "proved",
   "theorems": [
    "LogCache.C01_cap_concurrent",
    "LogCache.C01_capacity",
    "LogCache.C01_put_total"
   ],
   "note": ""
  },
  {
   "property": "C02",
   "status": "proved",
   "theorems": [
    "LogCache.C02_read_sound_concurrent",
    "LogCache.C02_read_sound",
    "LogCache.C02_read_order",
    "LogCache.C02_read_total"
   ],
   "note": ""
  },
  {
   "property": "C03",
   "status": "partial",
   "theorems": [
    "LogCache.C03_spread_partial",
    "LogCache.C03_spread_all_partial",
    "LogCache.C03_ascending_complete_partial",
    "LogCache.C03_ascending_monotone_partial",
    "LogCache.C03_in_order_partial",
    "LogCache.C03_ascending_complete_false"
   ],
   "note": "False with equal timestamps (C03_ascending_complete_false); proved for distinct timestamps and, up to overshoot, for timestamp-ordered storage (C03_ascending_monotone_partial), which is shown to be that of every history whose equal timestamps are spread out, in any order of arrival, with evictions and prunes (C03_spread_partial; exact if there is room for all results, C03_spread_all_partial)."
  },
  {
   "property": "C04",
   "status": "partial",
   "theorems": [
    "LogCache.C04_spread_all_partial",
    "LogCache.C04_descending_complete_partial",
    "LogCache.C04_descending_complete_false"
   ],
   "note": "False with equal timestamps (C04_descending_complete_false); proved for distinct timestamps, and for equal ones that are spread out as for C03."
  },
  {
   "property": "C05",
   "status": "partial",
   "theorems": [
    "LogCache.C05_overshoot_partial",
    "LogCache.C05_limit_partial",
    "LogCache.C05_limit_false"
   ],
   "note": "False (C05_limit_false); exact limit proved for distinct timestamps; for any timestamps the overshoot is at most twice the number of moved entries (C05_overshoot_partial)."
  },
  {
   "property": "C06",
   "status": "partial",
   "theorems": [
    "LogCache.C06_group_split_false",
    "LogCache.C06_resume_partial"
   ],
   "note": "False (C06_group_split_false); resuming proved lossless for distinct timestamps."
  },
  {
   "property": "C07",
   "status": "partial",
   "theorems": [
    "LogCache.C07_spread_partial",
    "LogCache.C07_put_keeps_all_partial",
    "LogCache.C07_put_keeps_all_false"
   ],
   "note": "False at 4002 equal timestamps (C07_put_keeps_all_false); proved while a key is free; C07_spread_partial for equal timestamps that are spread out, also in full sources."
  },
  {
   "property": "C08",
   "status": "partial",
   "theorems": [
    "LogCache.C08_evicts_small",
    "LogCache.C08_evicts_false",
    "LogCache.C08_evicts_oldest_partial"
   ],
   "note": "False from capacity 4002 on (C08_evicts_false); proved up to capacity 4001 (C08_evicts_small) and while a key is free."
  },
  {
   "property": "C09",
   "status": "proved",
   "theorems": [
    "LogCache.C09_meta_agrees",
    "LogCache.C09_oldest_exact",
    "LogCache.C09_newest_stale"
   ],
   "note": ""
  },
  {
   "property": "C10",
   "status": "proved",
   "theorems": [
    "LogCache.C10_conservation",
    "LogCache.C10_bookkeeping"
   ],
   "note": ""
  },
  {
   "property": "C11",
   "status": "proved",
   "theorems": [
    "LogCache.C11_isolation"
   ],
   "note": ""
  },
  {
   "property": "C12",
   "status": "proved",
   "theorems": [
    "LogCache.C12_prune_oldest",
    "LogCache.C12_prune_exact"
   ],
   "note": ""
  },
  {
   "property": "C13",
   "status": "partial",
   "theorems": [
    "LogCache.C13_prune_crash_iff",
    "LogCache.C13_prune_no_crash_partial",
    "LogCache.C13_prune_distinct_partial",
    "LogCache.C13_prune_sparse_partial",
    "LogCache.C13_prune_crash_false"
   ],
   "note": "False after overwrites (C13_prune_crash_false); exact crash condition proved."
  },
  {
   "property": "C14",
   "status": "proved",
   "theorems": [
    "LogCache.C14_emptied_source"
   ],
   "note": ""
  },
  {
   "property": "C15",
   "status": "partial",
   "theorems": [
    "LogCache.C15_store_size",
    "LogCache.C15_store_size_partial",
    "LogCache.C15_store_size_false"
   ],
   "note": "False after overwrites (C15_store_size_false); exact drift law proved."
  },
  {
   "property": "C16",
   "status": "partial",
   "theorems": [
    "LogCache.C16_cache_period_partial",
    "LogCache.C16_cache_period_false"
   ],
   "note": "False with several sources (C16_cache_period_false)."
  },
  {
   "property": "C17",
   "status": "proved",
   "theorems": [
    "LogCache.C17_read_pure"
   ],
   "note": ""
  },
  {
   "property": "C18",
   "status": "proved",
   "theorems": [
    "LogCache.C18_name_filter",
    "LogCache.C18_no_filter"
   ],
   "note": ""
  },
  {
   "property": "C19",
   "status": "partial",
   "theorems": [
    "LogCache.C19_none_within",
    "LogCache.C19_quantity",
    "LogCache.C19_range",
    "LogCache.C19_monotone",
    "LogCache.C19_not_excessive",
    "LogCache.C19_overflow_false",
    "LogCache.C19_float_within",
    "LogCache.C19_float_range",
    "LogCache.C19_float_quantity",
    "LogCache.C19_unknown_memory_false",
    "LogCache.C19_float_monotone"
   ],
   "note": "False for huge usage (C19_overflow_false) and when the memory of the system cannot be read: the error is ignored, the percentage becomes infinite and nothing is ever pruned (C19_unknown_memory_false). The rest proved, in exact arithmetic and in float64 (C19_float_within, C19_float_range, C19_float_quantity); C19_float_monotone: monotone in float64 for every whole percentage, which are those that can be configured."
  },
  {
   "property": "C20",
   "status": "proved",
   "theorems": [
    "LogCache.C20_linearizable",
    "LogCache.C20_reads",
    "LogCache.C20_history"
   ],
   "note": "Linearizability of the stored envelopes, counts and answers for every schedule without a prune that removes something; call histories for every schedule. The oldest-timestamp value is not linearizable: see C95."
  },
  {
   "property": "C21",
   "status": "partial",
   "theorems": [
    "LogCache.C21_false",
    "LogCache.C21_leak_false",
    "LogCache.C21_exclusive_partial",
    "LogCache.C21_no_pruning_partial",
    "LogCache.C21_causes_partial"
   ],
   "note": "False (C21_false, C21_leak_false); proved for exclusive schedules and without pruning; causes of every crash proved."
  },
  {
   "property": "C22",
   "status": "partial",
   "theorems": [
    "LogCache.C22_false",
    "LogCache.C22_stays_partial",
    "LogCache.C22_returned_took_effect"
   ],
   "note": "False (C22_false); proved while the source is not dropped since the Put was made."
  },
  {
   "property": "C23",
   "status": "partial",
   "theorems": [
    "LogCache.C23_false",
    "LogCache.C23_meta_partial"
   ],
   "note": "False (C23_false); proved while no source is dropped during the Meta."
  },
  {
   "property": "C94",
   "status": "partial",
   "theorems": [
    "LogCache.C94_count_false",
    "LogCache.C94_count_partial"
   ],
   "note": "False (C94_count_false); proved without late commits and crowded Puts."
  },
  {
   "property": "C95",
   "status": "partial",
   "theorems": [
    "LogCache.C95_oldest_false",
    "LogCache.C95_never_older_partial",
    "LogCache.C95_serial_partial"
   ],
   "note": "False (C95_oldest_false). C95_never_older_partial: in every schedule without pruning the oldest timestamp is never older than the sequential one; C95_serial_partial: it is equal, and so is the cache period, when no Put takes effect between the taking effect and the return of another. Missing: runs that prune."
  },
  {
   "property": "C24",
   "status": "proved",
   "theorems": [
    "LogCache.C24_rejected_iff",
    "LogCache.C24_defaults"
   ],
   "note": ""
  },
  {
   "property": "C25",
   "status": "proved",
   "theorems": [
    "LogCache.C25_any",
    "LogCache.C25_any_ignored"
   ],
   "note": ""
  },
  {
   "property": "C26",
   "status": "proved",
   "theorems": [
    "LogCache.C26_read_api",
    "LogCache.C26_spread",
    "LogCache.C26_read_contract"
   ],
   "note": ""
  },
  {
   "property": "C27",
   "status": "proved",
   "theorems": [
    "LogCache.C27_lookup_exact",
    "LogCache.C27_initial"
   ],
   "note": ""
  },
  {
   "property": "C28",
   "status": "proved",
   "theorems": [
    "LogCache.C28_last_request",
    "LogCache.C28_total"
   ],
   "note": ""
  },
  {
   "property": "C29",
   "status": "proved",
   "theorems": [
    "LogCache.C29_lookupAll"
   ],
   "note": ""
  },
  {
   "property": "C30",
   "status": "partial",
   "theorems": [
    "LogCache.C30_partition",
    "LogCache.C30_wrap_false"
   ],
   "note": "Proved for every count from 1 to 2^32; false at 2^32+1 (C30_wrap_false)."
  },
  {
   "property": "C31",
   "status": "proved",
   "theorems": [
    "LogCache.C31_static",
    "LogCache.C31_in_range_monotone",
    "LogCache.C31_invalid"
   ],
   "note": ""
  },
  {
   "property": "C32",
   "status": "proved",
   "theorems": [
    "LogCache.C32_delivery",
    "LogCache.C32_no_owner"
   ],
   "note": ""
  },
  {
   "property": "C33",
   "status": "proved",
   "theorems": [
    "LogCache.C33_local_only",
    "LogCache.C33_forward_once"
   ],
   "note": ""
  },
  {
   "property": "C34",
   "status": "proved",
   "theorems": [
    "LogCache.C34_read_owner",
    "LogCache.C34_read_any_owner"
   ],
   "note": ""
  },
  {
   "property": "C35",
   "status": "proved",
   "theorems": [
    "LogCache.C35_read_your_writes",
    "LogCache.C35_stored",
    "LogCache.C35_spread"
   ],
   "note": ""
  },
  {
   "property": "C36",
   "status": "partial",
   "theorems": [
    "LogCache.C36_terminates_partial",
    "LogCache.C36_terminates_false",
    "LogCache.C36_chain",
    "LogCache.C36_forever_iff",
    "LogCache.C36_acyclic_partial",
    "LogCache.C36_owners_agree_partial"
   ],
   "note": "False when tables disagree (C36_terminates_false); at most one hop proved when they agree, or when every named node owns the id by its own table (C36_owners_agree_partial). C36_chain: exactly which chains of forwards occur; C36_forever_iff: forwarding can go on for ever exactly if a Read can come back to a node; C36_acyclic_partial: otherwise fewer hops than nodes."
  },
  {
   "property": "C37",
   "status": "proved",
   "theorems": [
    "LogCache.C37_meta_merge"
   ],
   "note": ""
  },
  {
   "property": "C38",
   "status": "proved",
   "theorems": [
    "LogCache.C38_cached_fresh",
    "LogCache.C38_failure_not_cached"
   ],
   "note": ""
  },
  {
   "property": "C39",
   "status": "proved",
   "theorems": [
    "LogCache.C39_range_list"
   ],
   "note": ""
  },
  {
   "property": "C40",
   "status": "partial",
   "theorems": [
    "LogCache.C40_snapshot_partial",
    "LogCache.C40_snapshot_false",
    "LogCache.C40_removed"
   ],
   "note": "False (C40_snapshot_false): the returned list aliases the live slice. C40_removed: exactly what a RemoveRange does to a list handed out before; C40_snapshot_partial: additions do nothing to it."
  },
  {
   "property": "C41",
   "status": "proved",
   "theorems": [
    "LogCache.C41_leader_only",
    "LogCache.C41_push"
   ],
   "note": ""
  },
  {
   "property": "C43",
   "status": "proved",
   "theorems": [
    "LogCache.C43_order"
   ],
   "note": ""
  },
  {
   "property": "C44",
   "status": "proved",
   "theorems": [
    "LogCache.C44_window"
   ],
   "note": ""
  },
  {
   "property": "C45",
   "status": "partial",
   "theorems": [
    "LogCache.C45_spread_partial",
    "LogCache.C45_static_log",
    "LogCache.C45_groups",
    "LogCache.C45_store_partial",
    "LogCache.C45_store_false"
   ],
   "note": "On an abstract log proved outright, also for whole groups of one time (C45_groups); on the real store false (C45_store_false) and proved for distinct timestamps (C45_store_partial) and for times that are spread out when a read has room for everything (C45_spread_partial)."
  },
  {
   "property": "C47",
   "status": "proved",
   "theorems": [
    "LogCache.C47_gives_up"
   ],
   "note": ""
  },
  {
   "property": "C48",
   "status": "partial",
   "theorems": [
    "LogCache.C48_requests",
    "LogCache.C48_outcomes_partial",
    "LogCache.C48_partial_data_false"
   ],
   "note": "False (C48_partial_data_false); the possible outcomes are proved."
  },
  {
   "property": "C53",
   "status": "proved",
   "theorems": [
    "LogCache.C53_valid",
    "LogCache.C53_identity",
    "LogCache.C53_idempotent",
    "LogCache.C53_pointwise"
   ],
   "note": ""
  },
  {
   "property": "C54",
   "status": "partial",
   "theorems": [
    "LogCache.C54_series_id_partial",
    "LogCache.C54_series_partial",
    "LogCache.C54_series_false"
   ],
   "note": "False for labels containing dashes (C54_series_false); proved for unambiguous labels."
  },
  {
   "property": "C55",
   "status": "partial",
   "theorems": [
    "LogCache.C55_selector_partial",
    "LogCache.C55_not_equal_false",
    "LogCache.C55_instance_id_false",
    "LogCache.C55_select_reads_all",
    "LogCache.C55_timer_partial",
    "LogCache.C55_timer_false"
   ],
   "note": "False for != and instance_id (C55_not_equal_false, C55_instance_id_false) and for the value of a timer of more than 292 years (C55_timer_false); proved for equality on ordinary labels."
  },
  {
   "property": "C57",
   "status": "proved",
   "theorems": [
    "LogCache.C57_extract",
    "LogCache.C57_reads_only",
    "LogCache.C57_reads_all"
   ],
   "note": ""
  },
  {
   "property": "C61",
   "status": "proved",
   "theorems": [
    "LogCache.C61_read",
    "LogCache.C61_chain"
   ],
   "note": ""
  },
  {
   "property": "C62",
   "status": "proved",
   "theorems": [
    "LogCache.C62_names_authorized",
    "LogCache.C62_no_leak",
    "LogCache.C62_exact",
    "LogCache.C62_pipe_false"
   ],
   "note": ""
  },
  {
   "property": "C63",
   "status": "proved",
   "theorems": [
    "LogCache.C63_meta"
   ],
   "note": ""
  },
  {
   "property": "C64",
   "status": "proved",
   "theorems": [
    "LogCache.C64_fresh",
    "LogCache.C64_refusal"
   ],
   "note": ""
  },
  {
   "property": "C65",
   "status": "partial",
   "theorems": [
    "LogCache.C65_rate_partial",
    "LogCache.C65_concurrent_false"
   ],
   "note": "Proved for sequential calls; false for concurrent ones (C65_concurrent_false)."
  },
  {
   "property": "C66",
   "status": "partial",
   "theorems": [
    "LogCache.C66_prune_partial",
    "LogCache.C66_race_false"
   ],
   "note": "Proved when prune rounds do not overlap calls; false otherwise (C66_race_false)."
  },
  {
   "property": "C67",
   "status": "proved",
   "theorems": [
    "LogCache.C67_complete",
    "LogCache.C67_host",
    "LogCache.C67_ids",
    "LogCache.C67_related"
   ],
   "note": ""
  },
  {
   "property": "C68",
   "status": "proved",
   "theorems": [
    "LogCache.C68_success",
    "LogCache.C68_failure"
   ],
   "note": ""
  },
  {
   "property": "C69",
   "status": "partial",
   "theorems": [
    "LogCache.C69_throttle_partial",
    "LogCache.C69_concurrent_false"
   ],
   "note": "Proved for sequential calls; false for concurrent ones (C69_concurrent_false)."
  },
  {
   "property": "C70",
   "status": "proved",
   "theorems": [
    "LogCache.C70_accept",
    "LogCache.C70_bearer",
    "LogCache.C70_no_bearer"
   ],
   "note": ""
  },
  {
   "property": "C71",
   "status": "partial",
   "theorems": [
    "LogCache.C71_buffer",
    "LogCache.C71_batch_size",
    "LogCache.C71_conservation",
    "LogCache.C71_order",
    "LogCache.C71_counters",
    "LogCache.C71_ahead_false",
    "LogCache.C71_bounded",
    "LogCache.C71_flush",
    "LogCache.C71_drop_false"
   ],
   "note": "Proved except that drops are metered (C71_drop_false) and that egress never overtakes ingress (C71_ahead_false): both false."
  },
  {
   "property": "C72",
   "status": "partial",
   "theorems": [
    "LogCache.C72_selectors_partial",
    "LogCache.C72_each",
    "LogCache.C72_unknown_false"
   ],
   "note": "Proved for known names; false for unknown ones (C72_unknown_false)."
  },
  {
   "property": "C74",
   "status": "partial",
   "theorems": [
    "LogCache.C74_structured",
    "LogCache.C74_log",
    "LogCache.C74_counter_roundtrip",
    "LogCache.C74_timer_roundtrip",
    "LogCache.C74_crash_partial",
    "LogCache.C74_crash_false",
    "LogCache.C74_counts",
    "LogCache.C74_counted_false"
   ],
   "note": "Conversion proved exact; counting false on failed sends (C74_counted_false); crash-freedom false (C74_crash_false), exact crash condition proved."
  },
  {
   "property": "C89",
   "status": "partial",
   "theorems": [
    "LogCache.C89_several_partial",
    "LogCache.C89_several_false",
    "LogCache.C89_deterministic_partial",
    "LogCache.C89_deterministic_false"
   ],
   "note": "Proved for at most one structured-data element; false for two."
  },
  {
   "property": "C90",
   "status": "proved",
   "theorems": [
    "LogCache.C90_instance",
    "LogCache.C90_any"
   ],
   "note": ""
  },
  {
   "property": "C91",
   "status": "partial",
   "theorems": [
    "LogCache.C91_time_partial",
    "LogCache.C91_time_false"
   ],
   "note": "Proved for times in int64 nanoseconds; false beyond."
  },
  {
   "property": "C76",
   "status": "proved",
   "theorems": [
    "LogCache.C76_float64",
    "LogCache.C76_grammar",
    "LogCache.C76_unambiguous",
    "LogCache.C76_decoder",
    "LogCache.C76_json",
    "LogCache.C76_text",
    "LogCache.C76_line",
    "LogCache.C76_marshal",
    "LogCache.C76_roundtrip",
    "LogCache.C76_exact",
    "LogCache.C76_nil_false"
   ],
   "note": "C76_exact is about JSON trees, C76_text and C76_line about the text sent; C76_grammar, C76_decoder and C76_unambiguous: the reader accepts exactly the texts of the grammar of RFC 8259. For every float library with the stated text laws (FloatLaws), which C76_float64 proves for float64."
  },
  {
   "property": "C92",
   "status": "proved",
   "theorems": [
    "LogCache.C92_error_body",
    "LogCache.C92_only_results"
   ],
   "note": ""
  },
  {
   "property": "C93",
   "status": "partial",
   "theorems": [
    "LogCache.C93_float64",
    "LogCache.C93_end_to_end",
    "LogCache.C93_crash_partial",
    "LogCache.C93_crash_false"
   ],
   "note": "End to end proved under FloatLaws, and for float64 (C93_float64); crash-freedom false for string values (C93_crash_false)."
  },
  {
   "property": "C77",
   "status": "partial",
   "theorems": [
    "LogCache.C77_crash_spread_partial",
    "LogCache.C77_unknown_type_panics",
    "LogCache.C77_crash_iff_partial",
    "LogCache.C77_crash_only",
    "LogCache.C77_crash_monotone_partial",
    "LogCache.C77_crash_all_partial",
    "LogCache.C77_safe_before"
   ],
   "note": "False (C77_unknown_type_panics is the counterexample). C77_crash_only: whatever the history and the timestamps, a crash needs an envelope in the window that passes the name filter and trips; C77_safe_before: requests that are safe although they carry an unknown type, for every store. C77_crash_iff_partial: for sources without equal timestamps, exactly which reads crash; C77_crash_monotone_partial and C77_crash_all_partial (C77_crash_spread_partial for histories): with equal timestamps in storage order, when reads must crash, exactly so if there is room for all results. Missing: equal timestamps out of order, and how far a read goes beyond its limit."
  },
  {
   "property": "C78",
   "status": "proved",
   "theorems": [
    "LogCache.C78_global_conservation"
   ],
   "note": ""
  },
  {
   "property": "C79",
   "status": "proved",
   "theorems": [
    "LogCache.C79_cache_period_before_prune",
    "LogCache.C79_cache_period",
    "LogCache.C79_evicted_false"
   ],
   "note": ""
  },
  {
   "property": "C42",
   "status": "proved",
   "theorems": [
    "LogCache.C42_owners"
   ],
   "note": ""
  },
  {
   "property": "C80",
   "status": "partial",
   "theorems": [
    "LogCache.C80_unknown_address_false",
    "LogCache.C80_lookup_partial"
   ],
   "note": "False (C80_unknown_address_false). C80_lookup_partial: where every range goes, for every list of nodes and request: nodes other than the first get exactly their own ranges, the first also those of all unknown addresses."
  },
  {
   "property": "C81",
   "status": "partial",
   "theorems": [
    "LogCache.C81_crash_iff",
    "LogCache.C81_no_crash_partial",
    "LogCache.C81_no_crash_false"
   ],
   "note": "False (C81_no_crash_false); proved when every AddRange carries a range; exact crash condition C81_crash_iff."
  },
  {
   "property": "C82",
   "status": "partial",
   "theorems": [
    "LogCache.C82_empty_send_false",
    "LogCache.C82_no_crash_partial"
   ],
   "note": "False (C82_empty_send_false); proved for all other Sends."
  },
  {
   "property": "C83",
   "status": "partial",
   "theorems": [
    "LogCache.C83_clients_partial",
    "LogCache.C83_clients_false",
    "LogCache.C83_clients_exact_partial",
    "LogCache.C83_local_iff"
   ],
   "note": "False when a dial fails (C83_clients_false); proved when all dials succeed; in general C83_clients_exact_partial and C83_local_iff."
  },
  {
   "property": "C84",
   "status": "proved",
   "theorems": [
    "LogCache.C84_worker_state",
    "LogCache.C84_pushed_tables_agree"
   ],
   "note": ""
  },
  {
   "property": "C46",
   "status": "partial",
   "theorems": [
    "LogCache.C46_groups_partial",
    "LogCache.C46_follow_partial",
    "LogCache.C46_follow_false"
   ],
   "note": "False (C46_follow_false); proved when lateness plus read latency stay within the delay, also for whole groups of one time (C46_groups_partial)."
  },
  {
   "property": "C49",
   "status": "proved",
   "theorems": [
    "LogCache.C49_groups",
    "LogCache.C49_windows",
    "LogCache.C49_call"
   ],
   "note": ""
  },
  {
   "property": "C85",
   "status": "partial",
   "theorems": [
    "LogCache.C85_default_end_false"
   ],
   "note": "False (C85_default_end_false, for every run). With an end time given, C48_outcomes_partial says what a data read returns."
  },
  {
   "property": "C56",
   "status": "partial",
   "theorems": [
    "LogCache.C56_seek",
    "LogCache.C56_series_ordered_partial",
    "LogCache.C56_order_false"
   ],
   "note": "False for colliding labels (C56_order_false); Seek itself is exact on every series in time order (C56_seek), and series are in time order when labels do not collide."
  },
  {
   "property": "C58",
   "status": "proved",
   "theorems": [
    "LogCache.C58_expansion",
    "LogCache.C58_each_selector",
    "LogCache.C58_rest_unchanged"
   ],
   "note": ""
  },
  {
   "property": "C59",
   "status": "partial",
   "theorems": [
    "LogCache.C59_select_partial",
    "LogCache.C59_gauge_partial",
    "LogCache.C59_gauge_false"
   ],
   "note": "False for gauges with two metrics of the selected name (C59_gauge_false). C59_select_partial: otherwise, with labels that do not collide (C54), a selector fails or answers with the same series whatever the order of tags, gauge metrics and source ids."
  },
  {
   "property": "C60",
   "status": "proved",
   "theorems": [
    "LogCache.C60_next"
   ],
   "note": ""
  },
  {
   "property": "C86",
   "status": "partial",
   "theorems": [
    "LogCache.C86_outage_false",
    "LogCache.C86_cached_partial",
    "LogCache.C86_steady_partial"
   ],
   "note": "False (C86_outage_false); proved while no further fetch is made."
  },
  {
   "property": "C87",
   "status": "partial",
   "theorems": [
    "LogCache.C87_endless_false",
    "LogCache.C87_ends_partial"
   ],
   "note": "False (C87_endless_false); proved for finite chains of pages."
  },
  {
   "property": "C88",
   "status": "partial",
   "theorems": [
    "LogCache.C88_crash_partial",
    "LogCache.C88_crash_false"
   ],
   "note": "False (C88_crash_false); exact crash condition proved, for every way the JWT library may decode headers: a library that refuses tokens without a string algorithm itself leaves only the missing key id."
  },
  {
   "property": "C50",
   "status": "partial",
   "theorems": [
    "LogCache.C50_sequential",
    "LogCache.C50_only_401_false",
    "LogCache.C50_concurrent_partial",
    "LogCache.C50_schedule",
    "LogCache.C50_race_false"
   ],
   "note": "Proved for sequential calls; false for concurrent ones (C50_race_false), what remains true is C50_concurrent_partial; documented 401 rule false (C50_only_401_false)."
  },
  {
   "property": "C51",
   "status": "proved",
   "theorems": [
    "LogCache.C51_path",
    "LogCache.C51_version",
    "LogCache.C51_uptime",
    "LogCache.C51_meta"
   ],
   "note": ""
  },
  {
   "property": "C52",
   "status": "partial",
   "theorems": [
    "LogCache.C52_http",
    "LogCache.C52_grpc_partial",
    "LogCache.C52_unknown_type_false"
   ],
   "note": "Proved for known envelope types; false for unknown ones (C52_unknown_type_false). Hypotheses: int64 range, which Go types guarantee."
  },
  {
   "property": "C73",
   "status": "partial",
   "theorems": [
    "LogCache.C73_all_served",
    "LogCache.C73_lines_partial",
    "LogCache.C73_forged_false",
    "LogCache.C73_fields",
    "LogCache.C73_escaping",
    "LogCache.C73_source",
    "LogCache.C73_ipv6_false",
    "LogCache.C73_time"
   ],
   "note": "Proved for requests without line feeds; false otherwise (C73_forged_false), and for IPv6 addresses without brackets (C73_ipv6_false)."
  },
  {
   "property": "C75",
   "status": "partial",
   "theorems": [
    "LogCache.C75_read",
    "LogCache.C75_read_partial",
    "LogCache.C75_colon_false",
    "LogCache.C75_alias_false",
    "LogCache.C75_query",
    "LogCache.C75_closed",
    "LogCache.C75_served_partial",
    "LogCache.C75_unreadable_false",
    "LogCache.C75_unclean_false",
    "LogCache.C75_redirect_false",
    "LogCache.C75_gateway_paths"
   ],
   "note": "Proved up to a final colon in the source id (C75_colon_false); C75_alias_false holds for gateway libraries that know JSON field names. Serving false for ids with colons or rewritten segments."
  },
  {
   "property": "C100",
   "status": "proved",
   "theorems": [
    "LogCache.C100_logarithmic",
    "LogCache.C100_search",
    "LogCache.C100_no_nil",
    "LogCache.C100_lookup"
   ],
   "note": "The AVL tree of the dependency is transcribed from recollection."
  },
  {
   "property": "C96",
   "status": "partial",
   "theorems": [
    "LogCache.C96_nearest",
    "LogCache.C96_numbers",
    "LogCache.C96_words",
    "LogCache.C96_errors",
    "LogCache.C96_seconds",
    "LogCache.C96_near_partial",
    "LogCache.C96_order",
    "LogCache.C96_dates",
    "LogCache.C96_millis_false",
    "LogCache.C96_overflow_false",
    "LogCache.C96_step_false",
    "LogCache.C96_step_overflow",
    "LogCache.C96_answer_time",
    "LogCache.C96_date",
    "LogCache.C96_date_only",
    "LogCache.C96_duration",
    "LogCache.C96_duration_false",
    "LogCache.C96_duration_only"
   ],
   "note": "Exact for whole seconds, otherwise within half a microsecond; false to the millisecond (C96_millis_false), out of range (C96_overflow_false) and for steps (C96_step_false). Dates exact (C96_date, C96_date_only); durations exact while they fit in 64 bits (C96_duration), not beyond (C96_duration_false). strconv, time.Parse and model.ParseDuration are modelled from recollection, strconv without hexadecimal numbers."
  },
  {
   "property": "C97",
   "status": "proved",
   "theorems": [
    "LogCache.C97_instant",
    "LogCache.C97_range",
    "LogCache.C97_instant_answer",
    "LogCache.C97_range_answer",
    "LogCache.C97_bad_time",
    "LogCache.C97_bad_range"
   ],
   "note": "The engine is any program that asks selectors. A data read that ends early without an error is C48."
  },
  {
   "property": "C101",
   "status": "partial",
   "theorems": [
    "LogCache.C101_client_time",
    "LogCache.C101_client_false"
   ],
   "note": "False to the millisecond (C101_client_false); proved bounds in C101_client_time."
  },
  {
   "property": "C102",
   "status": "partial",
   "theorems": [
    "LogCache.C102_forward",
    "LogCache.C102_accounted",
    "LogCache.C102_drains",
    "LogCache.C102_lossless",
    "LogCache.C102_failed_false"
   ],
   "note": "False for requests the other node does not take (C102_failed_false); proved otherwise for one Send at a time. The ring buffer and the batcher are dependencies transcribed from recollection."
  },
  {
   "property": "C103",
   "status": "partial",
   "theorems": [
    "LogCache.C103_serial_partial",
    "LogCache.C103_one_writer_partial",
    "LogCache.C103_in_turn_partial",
    "LogCache.C103_lost_false",
    "LogCache.C103_stall_false"
   ],
   "note": "False (C103_lost_false, C103_stall_false); proved for any number of calls one after the other, interleaved with the reader instruction by instruction (C103_in_turn_partial)."
  },
  {
   "property": "C98",
   "status": "partial",
   "theorems": [
    "LogCache.C98_meta_partial",
    "LogCache.C98_mixed_false",
    "LogCache.C98_empty_false"
   ],
   "note": "False (C98_mixed_false, C98_empty_false); C98_meta_partial is what remains true."
  },
  {
   "property": "C99",
   "status": "proved",
   "theorems": [
    "LogCache.C99_meta_complete"
   ],
   "note": "sync.Map.Range visits every key that is present for its whole duration (documented)."
  },
  {
   "property": "C104",
   "status": "partial",
   "theorems": [
    "LogCache.C104_requests",
    "LogCache.C104_instant",
    "LogCache.C104_range",
    "LogCache.C104_empty_false",
    "LogCache.C104_evaluated",
    "LogCache.C104_values"
   ],
   "note": "False for an empty result message (C104_empty_false); proved for all other answers. Float text laws as in C76."
  },
  {
   "property": "C105",
   "status": "partial",
   "theorems": [
    "LogCache.C105_raw",
    "LogCache.C105_unchecked_false"
   ],
   "note": "False for foreign answers (C105_unchecked_false); proved for the answers of the gateway."
  },
  {
   "property": "C107",
   "status": "partial",
   "theorems": [
    "LogCache.C107_expected_partial",
    "LogCache.C107_expected_false",
    "LogCache.C107_value",
    "LogCache.C107_short_false",
    "LogCache.C107_query",
    "LogCache.C107_window_false"
   ],
   "note": "False for fractions of seconds (C107_expected_false) and for aligned windows (C107_window_false, given that a range selector is closed at both ends, as in the Prometheus engine of that time) and when the window is shorter than the distance (C107_short_false)."
  },
  {
   "property": "C108",
   "status": "partial",
   "theorems": [
    "LogCache.C108_published_partial",
    "LogCache.C108_disabled_false"
   ],
   "note": "False with the default configuration (C108_disabled_false)."
  },
  {
   "property": "C109",
   "status": "partial",
   "theorems": [
    "LogCache.C109_emissions",
    "LogCache.C109_attempts_partial",
    "LogCache.C109_silent_false",
    "LogCache.C109_missing_false"
   ],
   "note": "False (C109_silent_false, C109_missing_false); the rest proved."
  },
  {
   "property": "C106",
   "status": "partial",
   "theorems": [
    "LogCache.C106_meaning",
    "LogCache.C106_field",
    "LogCache.C106_info",
    "LogCache.C106_read",
    "LogCache.C106_escape_false"
   ],
   "note": "False for versions with quotes or backslashes (C106_escape_false); proved for all other versions and all uptimes; C106_meaning gives what is read for every version that is the inside of a JSON string, C106_field which answers are accepted. semver.Parse is a parameter."
  },
  {
   "property": "C110",
   "status": "partial",
   "theorems": [
    "LogCache.C110_segments",
    "LogCache.C110_frames",
    "LogCache.C110_cut",
    "LogCache.C110_within",
    "LogCache.C110_steady",
    "LogCache.C110_stream",
    "LogCache.C110_after_error_false",
    "LogCache.C110_long_false",
    "LogCache.C110_empty_false",
    "LogCache.C110_slow_false"
   ],
   "note": "False (C110_after_error_false, C110_long_false, C110_slow_false, C110_empty_false); the rest proved. The octet-counting parser is a dependency modelled from recollection."
  },
  {
   "property": "C111",
   "status": "partial",
   "theorems": [
    "LogCache.C111_parse",
    "LogCache.C111_logs",
    "LogCache.C111_crash_false",
    "LogCache.C111_limits"
   ],
   "note": "False for messages without process id or text (C111_crash_false); proved for all log lines with both. The RFC 5424 parser is a dependency modelled from recollection; the theorem C111_parse shows the model accepts exactly the grammar."
  },
  {
   "property": "C112",
   "status": "partial",
   "theorems": [
    "LogCache.C112_run",
    "LogCache.C112_period",
    "LogCache.C112_end_false"
   ],
   "note": "False at the end of the range (C112_end_false); C112_run transfers every theorem about histories of the store (Run) to 64 bit arithmetic for timestamps before it, C112_period gives the gauge."
  },
  {
   "property": "C113",
   "status": "proved",
   "theorems": [
    "LogCache.C113_format",
    "LogCache.C113_meta_format",
    "LogCache.C113_read",
    "LogCache.C113_meta",
    "LogCache.C113_document"
   ],
   "note": "C113_read and C113_meta: the client library reads back what the gateway got; C113_format and C113_meta_format: the text has the documented fields and forms. jsonpb, base64 and the number formats are modelled from memory (libraries not in the sandbox)."
  },
  {
   "property": "C114",
   "status": "proved",
   "theorems": [
    "LogCache.C114_unknown",
    "LogCache.C114_order",
    "LogCache.C114_names",
    "LogCache.C114_null",
    "LogCache.C114_meta_unknown",
    "LogCache.C114_meta_order",
    "LogCache.C114_meta"
   ],
   "note": "C114_null covers the fields beside the message; what a null message becomes depends on the version of the library and is not claimed."
  },
  {
   "property": "C115",
   "status": "proved",
   "theorems": [
    "LogCache.C115_send",
    "LogCache.C115_read_answer",
    "LogCache.C115_read_request",
    "LogCache.C115_meta",
    "LogCache.C115_ranges",
    "LogCache.C115_promql_request",
    "LogCache.C115_promql_answer",
    "LogCache.C115_varint",
    "LogCache.C115_bytes_read_request",
    "LogCache.C115_bytes_envelope",
    "LogCache.C115_bytes_envelopes",
    "LogCache.C115_bytes_meta",
    "LogCache.C115_bytes_ranges",
    "LogCache.C115_bytes_promql"
   ],
   "note": ""
  },
  {
   "property": "C116",
   "status": "proved",
   "theorems": [
    "LogCache.C116_unknown",
    "LogCache.C116_merge",
    "LogCache.C116_empty"
   ],
   "note": ""
  },
  {
   "property": "C117",
   "status": "proved",
   "theorems": [
    "LogCache.C117_values",
    "LogCache.C117_starts",
    "LogCache.C117_required",
    "LogCache.C117_duration",
    "LogCache.C117_node_defaults",
    "LogCache.C117_scheduler_defaults",
    "LogCache.C117_gateway_defaults",
    "LogCache.C117_proxy_defaults",
    "LogCache.C117_nozzle",
    "LogCache.C117_syslog",
    "LogCache.C117_blackbox"
   ],
   "note": "Durations are exact unless they have decimals finer than nanoseconds (then within 1.1 ns per part), because fractions are computed in float64."
  },
  {
   "property": "C118",
   "status": "partial",
   "theorems": [
    "LogCache.C118_refused_partial",
    "LogCache.C118_switch_false",
    "LogCache.C118_comma_false",
    "LogCache.C118_alone",
    "LogCache.C118_default_false"
   ],
   "note": "Full property is false: switches and lists are never refused; proved for numbers and durations. C118_alone: without NODE_ADDRS a node is set up as the only one."
  },
  {
   "property": "C119",
   "status": "partial",
   "theorems": [
    "LogCache.C119_works_partial",
    "LogCache.C119_count_false",
    "LogCache.C119_interval_false",
    "LogCache.C119_tokens_false",
    "LogCache.C119_blackbox_false",
    "LogCache.C119_capacity_false"
   ],
   "note": "Full property is false: zero and negative settings are accepted; proved for positive settings."
  },
  {
   "property": "C120",
   "status": "partial",
   "theorems": [
    "LogCache.C120_url_partial",
    "LogCache.C120_name_partial",
    "LogCache.C120_port_false",
    "LogCache.C120_ip_false"
   ],
   "note": "Full property is false for host:port without scheme; proved for URLs and bare names."
  },
  {
   "property": "C121",
   "status": "partial",
   "theorems": [
    "LogCache.C121_lands_partial",
    "LogCache.C121_outside_false",
    "LogCache.C121_single_false",
    "LogCache.C121_swapped_false"
   ],
   "note": "Full property is false as indexes are not checked; proved when every index is the node's place."
  },
  {
   "property": "C122",
   "status": "partial",
   "theorems": [
    "LogCache.C122_leader_partial",
    "LogCache.C122_bodies_false"
   ],
   "note": "Full property is false: bodies of answers are never closed; proved while connections remain."
  },
  {
   "property": "C123",
   "status": "partial",
   "theorems": [
    "LogCache.C123_published",
    "LogCache.C123_withdrawn_partial",
    "LogCache.C123_undisturbed_partial",
    "LogCache.C123_race_false",
    "LogCache.C123_lost_false",
    "LogCache.C123_forever_false"
   ],
   "note": "Full property is false (races, no periodic refresh); proved for refreshes that are not followed by stores of calls that asked earlier."
  },
  {
   "property": "C124",
   "status": "partial",
   "theorems": [
    "LogCache.C124_bound_partial",
    "LogCache.C124_asked",
    "LogCache.C124_slow_false",
    "LogCache.C124_overtaken_false"
   ],
   "note": "Full property is false for slow answers; proved with the latency of CAPI added to the bound."
  },
  {
   "property": "C125",
   "status": "partial",
   "theorems": [
    "LogCache.C125_age_partial",
    "LogCache.C125_listed_partial",
    "LogCache.C125_own_store",
    "LogCache.C125_two_periods_false",
    "LogCache.C125_hidden_false"
   ],
   "note": "Full property is false (two caches in a row, failed requests); proved with two periods and the delays."
  },
  {
   "property": "C126",
   "status": "partial",
   "theorems": [
    "LogCache.C126_read_partial",
    "LogCache.C126_equal_times_false",
    "LogCache.C126_colon_false",
    "LogCache.C126_stranger_false",
    "LogCache.C126_spread_partial"
   ],
   "note": "Whole path composed from C115, C35, C24, C75, C52 and C113, with the answer passing every node on its way. Partial: for clusters at rest with distinct timestamps, ids without colon, newline and rewritten segments, answers within the grpc limit. C126_spread_partial: the same for sources whose equal times are spread out (the others may have any times), if the limit leaves room for all of the source. The request is taken from its bytes (C132); the engine of name filters is a predicate. Refuted for equal times without room (C126_equal_times_false) and for ids with colons: C126_colon_false (nobody gets anything), C126_stranger_false (a user gets a source they have no right to)."
  },
  {
   "property": "C127",
   "status": "partial",
   "theorems": [
    "LogCache.C127_large",
    "LogCache.C127_bound_partial",
    "LogCache.C127_large_false"
   ],
   "note": "False for large answers (C127_large_false; C127_large shows that then every read fails); C127_bound_partial: answered when limit times envelope size fits in 4 MiB. The limit of grpc-go is from recollection; no server or client of the repository sets another."
  },
  {
   "property": "C128",
   "status": "partial",
   "theorems": [
    "LogCache.C128_bound_partial",
    "LogCache.C128_sizes_partial",
    "LogCache.C128_batch_false",
    "LogCache.C128_forward_false"
   ],
   "note": "False for large envelopes (C128_batch_false for every writer, C128_forward_false); C128_bound_partial and C128_sizes_partial: arrives when the largest number times the size fits."
  },
  {
   "property": "C129",
   "status": "partial",
   "theorems": [
    "LogCache.C129_spread_partial",
    "LogCache.C129_owner_partial",
    "LogCache.C129_own_node",
    "LogCache.C129_elsewhere_false"
   ],
   "note": "False if the node is not the owner (C129_elsewhere_false); C129_owner_partial says exactly what every read returns, C129_own_node that nothing is missing when syslog servers write to the owner. C129_spread_partial: the same when only the source that is read has its equal times spread out."
  },
  {
   "property": "C130",
   "status": "proved",
   "theorems": [
    "LogCache.C130_peer",
    "LogCache.C130_blackbox",
    "LogCache.C130_missing",
    "LogCache.C130_skip_false"
   ],
   "note": "With SKIP_CERT_VERIFY (proxy to UAA and CAPI) or SKIP_TLS_VERIFY (blackbox) any server with a key of its own passes (C130_skip_false). The decisions of crypto/tls are modelled from recollection. The blackbox calls the proxy with the authorities of the system."
  },
  {
   "property": "C131",
   "status": "partial",
   "theorems": [
    "LogCache.C131_caller_partial",
    "LogCache.C131_repaired_partial",
    "LogCache.C131_proxy",
    "LogCache.C131_anyone_false",
    "LogCache.C131_gateway",
    "LogCache.C131_syslog",
    "LogCache.C131_no_certificate"
   ],
   "note": "False: NewMutualTLSConfig sets RootCAs but neither ClientAuth nor ClientCAs, and the node uses it as server credentials, so every node that starts serves callers without a certificate (C131_anyone_false): whoever reaches the port can read, write and set the ranges. What a node does demand is TLS 1.2 with two suites or later, exactly (C131_caller_partial); the same holds of the proxy, whose callers show tokens (C131_proxy), and the gateway, which asks for no token, takes TLS 1.0 too (C131_gateway). The syslog server asks its callers for no certificate either (C131_syslog); none of these listeners starts without its own certificate (C131_no_certificate). Setting ClientAuth and ClientCAs on the listener would make the claim true (C131_repaired_partial)."
  },
  {
   "property": "C132",
   "status": "partial",
   "theorems": [
    "LogCache.C132_seen",
    "LogCache.C132_line",
    "LogCache.C132_read",
    "LogCache.C132_promql",
    "LogCache.C132_malformed_false"
   ],
   "note": "Everything but the last sentence is proved (C132_seen, C132_line, C132_read, C132_promql). The last is false: URL.Query() leaves out parameters with malformed escapes and the request is served without them (C132_malformed_false). net/url is modelled from recollection."
  },
  {
   "property": "C133",
   "status": "partial",
   "theorems": [
    "LogCache.C133_instant_partial",
    "LogCache.C133_whole_second",
    "LogCache.C133_reader",
    "LogCache.C133_now_false"
   ],
   "note": "C133_instant_partial with C133_whole_second; C133_reader: the reader behind the queries of a node satisfies its hypothesis on reads (on distinct timestamps, C45). Not seen: an envelope of the time of the query (C133_now_false). Excluded: matchers for which C55 is false, labels that collide (C54). The engine and its buffered iterator are a library modelled from recollection; staleness markers are left out."
  },
  {
   "property": "C134",
   "status": "partial",
   "theorems": [
    "LogCache.C134_range_partial",
    "LogCache.C134_like_instant",
    "LogCache.C134_nothing_like_instant",
    "LogCache.C134_future_false",
    "LogCache.C134_zero_step_false",
    "LogCache.C134_short_step",
    "LogCache.C134_steps",
    "LogCache.C134_negative_step_false"
   ],
   "note": "C134_range_partial says exactly what is shown at each step; C134_like_instant when it is what an instant query shows; C134_future_false a disagreement; C134_zero_step_false the crash of a query with one time and step 0; C134_short_step: all other steps from 0 to a millisecond are refused. C134_steps: the loop of the engine (from memory) goes through the steps; C134_negative_step_false: with a negative step it does not end. plainRange does not consider negative steps."
  },
  {
   "property": "C135",
   "status": "proved",
   "theorems": [
    "LogCache.C135_number",
    "LogCache.C135_apart",
    "LogCache.C135_spread",
    "LogCache.C135_share",
    "LogCache.C135_collision"
   ],
   "note": "The checksum of the standard library (hash/crc64, from recollection), with its table and its loop over eight bytes, against division of polynomials over two elements. Eight bytes range over all byte values, not only those of valid text."
  },
  {
   "property": "C136",
   "status": "partial",
   "theorems": [
    "LogCache.C136_delivered_partial",
    "LogCache.C136_counts_partial",
    "LogCache.C136_lost_false",
    "LogCache.C136_spread_partial",
    "LogCache.C136_counts_spread_partial"
   ],
   "note": "False as stated (C136_lost_false). Composed from C71 and C35: for clusters at rest with one table, without losses between nodes, distinct timestamps and room for the source; C136_spread_partial and C136_counts_spread_partial when only the source that is read has its equal times spread out."
  },
  {
   "property": "C137",
   "status": "partial",
   "theorems": [
    "LogCache.C137_range_partial",
    "LogCache.C137_function_partial",
    "LogCache.C137_end_false"
   ],
   "note": "Proved for selectors that compare labels for equality and clear labels, for envelopes from before the query's time. False for an envelope of exactly the query's time (C137_end_false): the read behind the selector ends before it. The engine is from recollection; functions of ranges in range queries are not modelled."
  },
  {
   "property": "C138",
   "status": "partial",
   "theorems": [
    "LogCache.C138_instant_partial",
    "LogCache.C138_now_false",
    "LogCache.C138_range_partial",
    "LogCache.C138_unreadable"
   ],
   "note": "Composed from C104, C105, C101, C76 (on doubles) and C133, C134, with their conditions. C138_now_false: not for an envelope of the time given. The parser of the engine is any function; a read that fails is in C104."
  },
  {
   "property": "C139",
   "status": "proved",
   "theorems": [
    "LogCache.C139_read",
    "LogCache.C139_instant",
    "LogCache.C139_range"
   ],
   "note": "The format of the answers to reads is C113_format. How grpc-gateway reads parameters is from recollection; it takes further notations of numbers and flags, about which nothing is claimed. Times up to 2^43 seconds; labels have different names."
  },
  {
   "property": "C140",
   "status": "partial",
   "theorems": [
    "LogCache.C140_own_copies",
    "LogCache.C140_stored_partial",
    "LogCache.C140_elsewhere_partial",
    "LogCache.C140_false"
   ],
   "note": "False for a source of another node: the serving node has only put the envelope into the buffer of its batched client, it is in no store when Send returns, and a full buffer or a failed batch loses it for good (C140_false, C140_elsewhere_partial say exactly what is stored and queued). True of the sources the serving node owns and of local-only requests (C140_stored_partial), with one stored copy per mention of the node in its own table (C140_own_copies). Background prunes between the request and its return are not modelled here (C10-C12 bound them)."
  },
  {
   "property": "C141",
   "status": "partial",
   "theorems": [
    "LogCache.C141_false",
    "LogCache.C141_alone_partial",
    "LogCache.C141_history_partial",
    "LogCache.C141_reports_partial"
   ],
   "note": "C141_false: a run of which no sequential history with the same Puts, in whatever order, gives the stored envelopes and the count. C141_alone_partial and C141_history_partial: in runs in which no call waits while a prune removes, prunes are single steps of the sequential store; C141_reports_partial: when such a prune returns, the oldest timestamp and the cache period are its too. The store as it runs does not enforce that: Puts and reads arrive while the prune loop runs."
  },
  {
   "property": "C142",
   "status": "partial",
   "theorems": [
    "LogCache.C142_meta",
    "LogCache.C142_path",
    "LogCache.C142_refused",
    "LogCache.C142_one",
    "LogCache.C142_unset_false"
   ],
   "note": "C142_path and C142_refused together cover every version text without quotes, backslashes and control characters (C106_escape_false says what those do). The full claim is refuted by C142_unset_false. semver.Parse is modelled from knowledge of blang/semver version 3, which is not in /repo."
  },
  {
   "property": "C143",
   "status": "partial",
   "theorems": [
    "LogCache.C143_stuck",
    "LogCache.C143_retries_forever",
    "LogCache.C143_query_gets_nothing",
    "LogCache.C143_walk_partial",
    "LogCache.C143_walk_false"
   ],
   "note": "C143_walk_partial for sizes within the limit, for any back-off and number of hops between nodes, on distinct timestamps (C45). C143_walk_false, C143_stuck, C143_retries_forever and C143_query_gets_nothing refute the rest. A page is never asked for again with a smaller limit. Contexts that end are left out here (C48)."
  },
  {
   "property": "C144",
   "status": "partial",
   "theorems": [
    "LogCache.C144_over",
    "LogCache.C144_shared_partial",
    "LogCache.C144_growing_partial",
    "LogCache.C144_short_false"
   ],
   "note": "C144_growing_partial and, for windows of at most 100 envelopes, which may have the same time, C144_shared_partial (with C144_over for the windows and their times); C144_short_false for short intervals. The timeout of a walk is a failed read here."
  },
  {
   "property": "C145",
   "status": "partial",
   "theorems": [
    "LogCache.C145_walk",
    "LogCache.C145_window_partial",
    "LogCache.C145_window_false"
   ],
   "note": "C145_walk holds in full; C145_window_partial says when a Window returns, C145_window_false that an ended context is not among the reasons. Readers that answer although the context has ended are not covered (Walk then goes on)."
  },
  {
   "property": "C146",
   "status": "partial",
   "theorems": [
    "LogCache.C146_ends",
    "LogCache.C146_default",
    "LogCache.C146_retry_partial",
    "LogCache.C146_retry_false"
   ],
   "note": "C146_ends and C146_default hold in full; C146_retry_partial says when a walk with AlwaysRetryBackoff over a fixed log ends, C146_retry_false that it may never."
  },
  {
   "property": "C147",
   "status": "partial",
   "theorems": [
    "LogCache.C147_apart_partial",
    "LogCache.C147_crash_partial",
    "LogCache.C147_alone",
    "LogCache.C147_crash_false",
    "LogCache.C147_deaf_false"
   ],
   "note": "C147_apart_partial while the process runs, C147_crash_partial exactly when it ends, C147_alone ties the single connection to C110 and C74; refuted by C147_crash_false and C147_deaf_false. Handling a result is one step."
  },
  {
   "property": "C148",
   "status": "partial",
   "theorems": [
    "LogCache.C148_gateway_partial",
    "LogCache.C148_no_route",
    "LogCache.C148_forwarded",
    "LogCache.C148_blame_false",
    "LogCache.C148_proxy",
    "LogCache.C148_outage_false",
    "LogCache.C148_query_false",
    "LogCache.C148_query_passed"
   ],
   "note": "C148_gateway_partial and C148_no_route give the exact status when the node that is asked owns the source or nobody does, C148_forwarded otherwise; C148_proxy and C148_query_passed for the proxy. Refuted by C148_blame_false, C148_outage_false, C148_query_false. The table of grpc-gateway from codes to statuses is from recollection."
  },
  {
   "property": "C149",
   "status": "partial",
   "theorems": [
    "LogCache.C149_query_partial",
    "LogCache.C149_read_from",
    "LogCache.C149_comma_false",
    "LogCache.C149_outage_false",
    "LogCache.C149_read_false"
   ],
   "note": "C149_query_partial: with a reachable Cloud Controller, and for names without a comma and ids without '|', the forwarded query names exactly the permitted ids among those asked for and the apps of those names; C149_read_from: each is then read, or the query fails. False in general: C149_comma_false (a name with a comma never finds its app), C149_outage_false (while the Cloud Controller does not answer, an admin's query is answered without the apps' data and without an error), C149_read_false (reads never take names)."
  },
  {
   "property": "C150",
   "status": "partial",
   "theorems": [
    "LogCache.C150_client",
    "LogCache.C150_client_refused",
    "LogCache.C150_read",
    "LogCache.C150_user",
    "LogCache.C150_refused",
    "LogCache.C150_format_partial",
    "LogCache.C150_empty_false",
    "LogCache.C150_zero_false",
    "LogCache.C150_gateway_false"
   ],
   "note": "C150_user: what the client library reads through the proxy is, per id, what the log cache answered if the caller is an admin or the source is available to them, and nothing else; C150_read: the body is read back with the same numbers; C150_refused: the statuses otherwise. C150_format_partial: the body has the documented format, if a source is listed and its count and times are not zero. False in general: C150_empty_false (no field meta at all without a source), C150_zero_false (times that are zero are left out), C150_gateway_false (the gateway itself names the fields oldest_timestamp and newest_timestamp, so clients that ask it directly never see the documented names)."
  },
  {
   "property": "C151",
   "status": "partial",
   "theorems": [
    "LogCache.C151_metrics",
    "LogCache.C151_gauge_exact",
    "LogCache.C151_other_data",
    "LogCache.C151_tags_false",
    "LogCache.C151_event_false"
   ],
   "note": "C151_metrics: every mixture of log lines, counters, gauges, events and timers, each line following RFC 5424 with one element whose parameters come in any order and among others, is stored completely and in order. C151_gauge_exact: every float64 can be sent and is stored to the last bit. C151_other_data: a message whose elements have other names is lost. Refuted by C151_tags_false, C151_event_false."
  },
  {
   "property": "C152",
   "status": "partial",
   "theorems": [
    "LogCache.C152_options",
    "LogCache.C152_command",
    "LogCache.C152_clustered",
    "LogCache.C152_forwards_none",
    "LogCache.C152_kept",
    "LogCache.C152_standalone_false",
    "LogCache.C152_stores_all_partial"
   ],
   "note": "False as documented (C152_standalone_false: no scheduler, nothing stored, Sends succeed). C152_forwards_none and C152_kept are exact for every history; C152_stores_all_partial composes with C26. C152_options and C152_command settle the options and their defaults; C152_clustered says what clients a member of a cluster has. Options of grpc are opaque names; that a listener can be opened is assumed."
  },
  {
   "property": "C153",
   "status": "proved",
   "theorems": [
    "LogCache.C153_walk",
    "LogCache.C153_zero_start",
    "LogCache.C153_walk_reads",
    "LogCache.C153_library_walks",
    "LogCache.C153_window",
    "LogCache.C153_client",
    "LogCache.C153_scheduler",
    "LogCache.C153_tasks",
    "LogCache.C153_scheduler_command",
    "LogCache.C153_senders",
    "LogCache.C153_epoch",
    "LogCache.C153_gateway",
    "LogCache.C153_gateway_read",
    "LogCache.C153_gateway_unversioned",
    "LogCache.C153_gateway_command",
    "LogCache.C153_capi",
    "LogCache.C153_auth_command",
    "LogCache.C153_meta",
    "LogCache.C153_proxy",
    "LogCache.C153_proxy_command"
   ],
   "note": "C153_zero_start: a walk told to start at the zero time starts in 1754. Numbers within int64 and types the API knows (for others see C52). Scheduler counts between 1 and 2^32 (for others see C30, C119). Loggers are not modelled; dial options, leadership functions and HTTP clients are opaque."
  },
  {
   "property": "C154",
   "status": "partial",
   "theorems": [
    "LogCache.C154_accounts",
    "LogCache.C154_survivor_partial",
    "LogCache.C154_restarted_partial",
    "LogCache.C154_who_answers",
    "LogCache.C154_hidden_false",
    "LogCache.C154_acknowledged_false"
   ],
   "note": "False as stated: a node that crashed and has its ranges again answers Reads itself, from its empty store, although another owner holds the data (C154_hidden_false), and a Send answered with success is lost with the buffer of the node that took it (C154_acknowledged_false). Proved instead: exact books of what was for a node, is stored, on its way or gone (C154_accounts), completeness of an owner that stays up (C154_survivor_partial), exactness of one that crashed (C154_restarted_partial), who answers (C154_who_answers). Not covered: pruning for memory, which is no step of these histories."
  },
  {
   "property": "C155",
   "status": "partial",
   "theorems": [
    "LogCache.C155_tables",
    "LogCache.C155_owners_partial",
    "LogCache.C155_follower",
    "LogCache.C155_any_state",
    "LogCache.C155_absent_false",
    "LogCache.C155_unreached_false"
   ],
   "note": "False when nodes do not answer (C155_absent_false, C155_unreached_false); proved for rounds in which all requests get through, with the placement by the orchestrator library as a hypothesis (its source is not in the sandbox), and the exact tables for every round (C155_tables)."
  },
  {
   "property": "C156",
   "status": "partial",
   "theorems": [
    "LogCache.C156_recovers_partial",
    "LogCache.C156_round_partial",
    "LogCache.C156_pruned_partial"
   ],
   "note": "C156_recovers_partial, C156_pruned_partial (nodes may also have pruned before the recovery) and C156_round_partial (from C155). Partial: sources whose equal times are spread out (the store loses others, C07), a continuation without crashes and losses (C154 says what those do), and calls of the go-orchestrator library that place the ranges (its source is not available). Not covered: pruning for memory after the recovery (C167_only says what is left of the claim then)."
  },
  {
   "property": "C157",
   "status": "partial",
   "theorems": [
    "LogCache.C157_reader",
    "LogCache.C157_instant_partial",
    "LogCache.C157_range_partial",
    "LogCache.C157_any_node"
   ],
   "note": "Joins C51/C78 (writes reach their nodes), C143 (walks through grpc), C133/C134 (values) and C138 (the client). C157_reader: a read of data for a query ends, at every node, and returns the envelopes of the window that were sent. C157_instant_partial, C157_range_partial: what the client then gets. C157_any_node: two nodes give the same. Partial because the full claim is false: envelopes of more than 41937 bytes can stop the walk without an error (C143), the newest value is not seen if it is from the query's own time (C133), labels can collide (C54), and a cluster that lost messages or in which two envelopes of a source share a time can lack envelopes (C51, C02)."
  },
  {
   "property": "C158",
   "status": "partial",
   "theorems": [
    "LogCache.C158_instant_partial",
    "LogCache.C158_range_partial",
    "LogCache.C158_refused",
    "LogCache.C158_stranger",
    "LogCache.C158_bad"
   ],
   "note": "C158_instant_partial and C158_range_partial: what the user gets through askProxy (the client's request as bytes, the proxy's handler, the rewritten request as bytes, the gateway, a node) is exactly what was sent of the sources they may see. C158_refused: 404 and no data when nothing of a named source may be read. C158_stranger: without a valid token only 404 or 400. C158_bad: a query that is no good is turned down with 400 and the reason, which PromQLRaw returns. Missing: what C157 leaves out (C133, C134: envelopes of the query's own time; clear labels; plain selectors; sizes), and authorized ids with '|' in them (C62_pipe_false). Assumed: a node parses the printed selector to the selector that was printed."
  },
  {
   "property": "C159",
   "status": "partial",
   "theorems": [
    "LogCache.C159_options",
    "LogCache.C159_user",
    "LogCache.C159_one_login",
    "LogCache.C159_client_partial",
    "LogCache.C159_colon_false",
    "LogCache.C159_answer",
    "LogCache.C159_sent",
    "LogCache.C159_refused",
    "LogCache.C159_empty_false"
   ],
   "note": "C159_options, C159_user, C159_client_partial (with C159_one_login: a server reads one user and one password in the header), C159_answer, C159_sent, C159_refused. False: a client id with a colon is read as another client (C159_colon_false); an answer without a token is not an error, the request is sent with a token that is a space (C159_empty_false). Assumed: the Authorization header of a URL with a user is net/http's; the address can be parsed."
  },
  {
   "property": "C160",
   "status": "partial",
   "theorems": [
    "LogCache.C160_page",
    "LogCache.C160_page_only",
    "LogCache.C160_listing",
    "LogCache.C160_ids_only",
    "LogCache.C160_keys",
    "LogCache.C160_keys_only",
    "LogCache.C160_token",
    "LogCache.C160_access",
    "LogCache.C160_admin_only",
    "LogCache.C160_read",
    "LogCache.C160_forever_false"
   ],
   "note": "C160_page, C160_page_only, C160_listing, C160_ids_only, C160_keys, C160_keys_only, C160_token, C160_access, C160_admin_only, C160_read (with C61_chain: every Read sent on goes back to signed texts). False for the most distant expiry times: C160_forever_false. Objects that repeat a field are left out of the reading theorems (Go merges them); the 'only' theorems cover them as far as the model takes the last field. PEM and JWT signatures are parameters."
  },
  {
   "property": "C161",
   "status": "partial",
   "theorems": [
    "LogCache.C161_client_partial",
    "LogCache.C161_auth_partial",
    "LogCache.C161_prefix_false",
    "LogCache.C161_port_false",
    "LogCache.C161_slash_false"
   ],
   "note": "False as stated: C161_prefix_false, C161_port_false, C161_slash_false. C161_client_partial, C161_auth_partial: where requests go with addresses scheme://host[:port][/path] (for the gateway's address see C120). Addresses with users, queries, fragments or escapes are not modelled."
  },
  {
   "property": "C162",
   "status": "partial",
   "theorems": [
    "LogCache.C162_stop",
    "LogCache.C162_failed",
    "LogCache.C162_serving_false",
    "LogCache.C162_early_stop_false",
    "LogCache.C162_connection"
   ],
   "note": "C162_stop, C162_failed and C162_connection hold for every history. C162_early_stop_false, C162_serving_false: where the claim fails. Missing: a server started twice, and the time that handling a message takes."
  },
  {
   "property": "C163",
   "status": "partial",
   "theorems": [
    "LogCache.C163_answered",
    "LogCache.C163_crash",
    "LogCache.C163_early_false"
   ],
   "note": "C163_answered and C163_crash hold for every history; C163_early_false is the exception. GracefulStop and Serve of grpc are taken as documented."
  },
  {
   "property": "C164",
   "status": "partial",
   "theorems": [
    "LogCache.C164_asked",
    "LogCache.C164_page",
    "LogCache.C164_walk_partial",
    "LogCache.C164_stuck",
    "LogCache.C164_answered",
    "LogCache.C164_walk_false"
   ],
   "note": "C164_page says what each page gets, at every node; C164_answered that it gets an answer; C164_walk_partial is the walk, C164_stuck and C164_walk_false what happens with large pages. As in C143: the cluster does not change during the walk, all is older than the delay, no two envelopes of a source have the same time; the rights of the user and their token stay as they are."
  },
  {
   "property": "C165",
   "status": "partial",
   "theorems": [
    "LogCache.C165_user_partial",
    "LogCache.C165_fits",
    "LogCache.C165_large",
    "LogCache.C165_stranger",
    "LogCache.C165_user_false"
   ],
   "note": "C165_user_partial is the claim for answers that fit in a grpc message, C165_fits when they do, C165_large and C165_user_false what happens when they do not, C165_stranger the refusal. Assumed: equal times of a source are spread out as in C126 (atRest_spread: distinct times are), no source has more envelopes than a node keeps per source and nothing is pruned (C09 says what Meta tells then); answers that nodes keep for metaCacheDuration are from after the cluster came to rest (C38, C125). The newest time of a source with all times below 0 is told as 0, see C09."
  },
  {
   "property": "C166",
   "status": "proved",
   "theorems": [
    "LogCache.C166_through",
    "LogCache.C166_age",
    "LogCache.C166_listed"
   ],
   "note": "C166_age and C166_listed join the caches of C125 with the way to the user of C165 (C166_through, which needs nothing of the cluster but that the answer fits in a message). Each field is taken by itself, as a store reads them at different times. The times are up to the answer of the node; the way back is not counted. That one cache period is not enough, and that a failed request hides sources, is in C125."
  },
  {
   "property": "C167",
   "status": "partial",
   "theorems": [
    "LogCache.C167_only",
    "LogCache.C167_any",
    "LogCache.C167_recovers_partial",
    "LogCache.C167_pages_partial",
    "LogCache.C167_acknowledged_false"
   ],
   "note": "C167_only and, for whatever request, C167_any hold after any history (FairTables: no table names a node twice for an id). C167_recovers_partial needs, as C156 and C126, equal times that are spread out, room for all of the source in the store and in the limit of the request, and an answer that fits in a grpc message (else C167_only says that there is no answer). C167_pages_partial: with a smaller limit the answer is a first part of what matches, as long as the limit or all of it. C167_any also gives the order of time if equal times are spread out. Refuted for envelopes taken with an OK: C167_acknowledged_false. C167_only and C167_any cover stores that prune at any time; C167_recovers_partial those that prune before the recovery. A prune that panics (C13) is a crash."
  },
  {
   "property": "C168",
   "status": "partial",
   "theorems": [
    "LogCache.C168_only",
    "LogCache.C168_recovers_partial",
    "LogCache.C168_pruned_partial",
    "LogCache.C168_moved_false"
   ],
   "note": "C168_only holds after any history (FairTables: no table names a node twice for an id) in which the numbers fit in 64 bits (SmallNumbers). C168_recovers_partial needs in addition, as C167, equal times that are spread out and room for all of the source in a store, an answer that fits in a grpc message, an owner that is heard, and that no other node holds any of the source; without the last it is refuted by C168_moved_false. C168_only covers stores that prune at any time; C168_pruned_partial is C168_recovers_partial for stores that also prune before the recovery: what was pruned is told of as expired, and the oldest time may be up to the fudge (4000 ns) too late. Neither covers stores that prune after it. Not covered: answers that nodes kept from earlier (C38, C125, C166)."
  },
  {
   "property": "C169",
   "status": "partial",
   "theorems": [
    "LogCache.C169_gateway_instant_partial",
    "LogCache.C169_gateway_range_partial",
    "LogCache.C169_instant_partial",
    "LogCache.C169_range_partial",
    "LogCache.C169_covers",
    "LogCache.C169_recovers_partial",
    "LogCache.C169_recovers_range_partial",
    "LogCache.C169_recovers_user_partial"
   ],
   "note": "C169_gateway_instant_partial and C169_gateway_range_partial: what a client gets over HTTP and over grpc; C169_instant_partial and C169_range_partial: what a user gets through the auth proxy. The reader behind a query (ReadsAnyhow) is a walk in which every page is answered by the cluster after some history of its own (CrashReader: AnyHistory for a first part of what was sent) or fails. C169_covers: the readers of C157, over a cluster at rest, are among these, so that the case beside the theorems has a user who gets a value. Missing: queries other than plain selectors, colliding labels (C54), times with fractions of seconds (C101). That nothing is missing in the answer is false while nodes crash (C167_acknowledged_false); C157 and C158 say so for a cluster at rest, and C169_recovers_partial, C169_recovers_range_partial and C169_recovers_user_partial for what was sent since a recovery (Recovered of C167), of sources with one owner, fewer than a hundred envelopes and different times: sources with more owners, larger ones and equal times are missing."
  },
  {
   "property": "C170",
   "status": "partial",
   "theorems": [
    "LogCache.C170_batch_partial",
    "LogCache.C170_once_partial",
    "LogCache.C170_covers",
    "LogCache.C170_recovers_partial",
    "LogCache.C170_answered_partial",
    "LogCache.C170_all_partial",
    "LogCache.C170_recovered_covers",
    "LogCache.C170_twice_false"
   ],
   "note": "C170_batch_partial: every batch, whatever the times. C170_once_partial: the whole walk. The reader (HttpCrashReader) fails whenever it likes, or answers by the cluster after some history of its own (AnyHistory for a first part of what was sent). C170_covers: the walks of C164, over a cluster at rest, are among these. C170_recovers_partial: after a recovery (Recovered of C167) the first page that is answered has all that was sent since, if one page has room for all of the source; C170_all_partial: however small the pages are, a walk that ends after a recovery has delivered each envelope sent since whose time no other one of the source has; C170_answered_partial: every node answers its reads, unless a page is too large for a message; C170_recovered_covers: C170_once_partial speaks of these walks, too. C170_twice_false: that no envelope comes twice is false if equal times are not spread out: the store keeps the later one of two of time 1 after one of time 2, and a page that ends with it makes the next page begin at time 2 again (C43 asks for reads that are sorted, and such a page is not). Missing: times of 2^63-1 (the next start would wrap), sources with equal times larger than a page after a recovery (a page that ends between two of equal time skips the second, as C164 says), and that nothing is missing while nodes crash, which is false (C167_acknowledged_false)."
  }
 ]
}