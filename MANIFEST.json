{
 "claims": [
  {
   "property": "C01",
   "status": "proved",
   "theorems": [
    "Verif.Queue.C01_any_history",
    "Verif.Queue.C01_queue_best_l",
    "Verif.Queue.C01_queue_growable",
    "Verif.Queue.C01_bestOf_meaning",
    "Verif.Queue.C01_newest_wins_ties",
    "Verif.Queue.C01_zero_capacity_panics"
   ],
   "note": ""
  },
  {
   "property": "C02",
   "status": "partial",
   "theorems": [
    "Verif.Queue.C02_retain_restarts_partial",
    "Verif.Queue.C02_binv_of_history",
    "Verif.Queue.C02_drain_truncate_partial",
    "Verif.Queue.C02_best_unexpanded_partial",
    "Verif.Queue.C02_offered_once_partial",
    "Verif.Queue.C02_drain_best_reoffers_expanded",
    "Verif.Queue.C02_truncate_reoffers_expanded",
    "Verif.Queue.C02_retain_all_offers_nothing",
    "Verif.Queue.C02_remove_skips_nothing_partial",
    "Verif.Queue.C02_remove_reoffers_expanded"
   ],
   "note": "Holds for insert, pop, reconfigure and clear; drain_best, truncate, retain and remove violate it (witness theorems), partial theorems say what they still guarantee."
  },
  {
   "property": "C03",
   "status": "partial",
   "theorems": [
    "Verif.Queue.C03_remove_partial",
    "Verif.Queue.C03_remove_only",
    "Verif.Queue.C03_remove_fails_on_tie"
   ],
   "note": "Holds when no earlier entry has the same distance; violated on ties (C03_remove_fails_on_tie)."
  },
  {
   "property": "C04",
   "status": "proved",
   "theorems": [
    "Verif.Queue.C04_pages",
    "Verif.Queue.C04_pages_ordered"
   ],
   "note": ""
  },
  {
   "property": "C05",
   "status": "proved",
   "theorems": [
    "Verif.Graph.C05_adjacency_nodup",
    "Verif.Graph.C05_push",
    "Verif.Graph.C05_extend",
    "Verif.Graph.C05_from_stream",
    "Verif.Graph.C05_all_unique"
   ],
   "note": ""
  },
  {
   "property": "C06",
   "status": "proved",
   "theorems": [
    "Verif.Graph.C06_backedge_buffer",
    "Verif.Graph.C06_first_seen_meaning"
   ],
   "note": ""
  },
  {
   "property": "C07",
   "status": "partial",
   "theorems": [
    "Verif.Graph.C07_pruned_list_partial",
    "Verif.Graph.C07_terminates_partial",
    "Verif.Graph.C07_nan_alpha_diverges",
    "Verif.Graph.C07_duplicate_pool_gives_duplicate_neighbors",
    "Verif.Graph.C07_saturation_fills"
   ],
   "note": "Holds for pools without repeated ids and any numeric alpha; violated by repeated ids under the Occluding rule and by a NaN alpha (witness theorems)."
  },
  {
   "property": "C08",
   "status": "partial",
   "theorems": [
    "Verif.Graph.C08_coverage_partial",
    "Verif.Graph.C08_closest_first_any_rule",
    "Verif.Graph.C08_occluding_forgets",
    "Verif.Graph.C08_stored_list"
   ],
   "note": "Proved for the triangle-inequality rule; the Occluding rule violates it (C08_occluding_forgets)."
  },
  {
   "property": "C09",
   "status": "proved",
   "theorems": [
    "Verif.Graph.C09_degree_bound_all",
    "Verif.Graph.C09_prune_reaches_target",
    "Verif.Graph.C09_degree_bound"
   ],
   "note": ""
  },
  {
   "property": "C10",
   "status": "partial",
   "theorems": [
    "Verif.Graph.C10_room_appends",
    "Verif.Graph.C10_only_source",
    "Verif.Graph.C10_drawn_from_old_and_targets_partial",
    "Verif.Graph.C10_stale_scratch_written"
   ],
   "note": "Missing: the case of a vertex whose vector became unreadable, which the code gets wrong (C10_stale_scratch_written)."
  },
  {
   "property": "C11",
   "status": "proved",
   "theorems": [
    "Verif.Graph.C11_consolidation",
    "Verif.Graph.C11_no_write_otherwise"
   ],
   "note": ""
  },
  {
   "property": "C12",
   "status": "proved",
   "theorems": [
    "Verif.Graph.C12_drop_deleted",
    "Verif.Graph.C12_deleted_vertex_untouched"
   ],
   "note": ""
  },
  {
   "property": "C13",
   "status": "proved",
   "theorems": [
    "Verif.Search.C13_search_at_most_once",
    "Verif.Search.C13_fuel_irrelevant"
   ],
   "note": ""
  },
  {
   "property": "C14",
   "status": "proved",
   "theorems": [
    "Verif.Search.C14_exact_general",
    "Verif.Search.C14_exact_on_reachable",
    "Verif.Search.C14_true_k_nearest"
   ],
   "note": ""
  },
  {
   "property": "C15",
   "status": "proved",
   "theorems": [
    "Verif.Search.C15_results_sound"
   ],
   "note": ""
  },
  {
   "property": "C16",
   "status": "proved",
   "theorems": [
    "Verif.Search.C16_reachable_count"
   ],
   "note": ""
  },
  {
   "property": "C17",
   "status": "proved",
   "theorems": [
    "Verif.Search.C17_range_search_sound",
    "Verif.Search.C17_range_expansion_complete",
    "Verif.Search.C17_slack_narrows_negative_radius"
   ],
   "note": ""
  },
  {
   "property": "C18",
   "status": "proved",
   "theorems": [
    "Verif.Search.C18_buffer",
    "Verif.Search.C18_unequal_lengths_refused",
    "Verif.Search.C18_buffer_associated"
   ],
   "note": ""
  },
  {
   "property": "C19",
   "status": "proved",
   "theorems": [
    "Verif.Inmem.C19_read_slots_stay_intact",
    "Verif.Inmem.C19_reads_are_recorded_until_leaving",
    "Verif.Inmem.C19_atomic_store"
   ],
   "note": ""
  },
  {
   "property": "C20",
   "status": "proved",
   "theorems": [
    "Verif.Inmem.C20_assertions_never_fire",
    "Verif.Inmem.C20_single_owner",
    "Verif.Inmem.C20_reclaimed_at_most_once",
    "Verif.Inmem.C20_retired_not_lost",
    "Verif.Inmem.C20_registrations_not_leaked"
   ],
   "note": ""
  },
  {
   "property": "C21",
   "status": "proved",
   "theorems": [
    "Verif.Inmem.C21_frozen_forever",
    "Verif.Inmem.C21_frozen_events"
   ],
   "note": ""
  },
  {
   "property": "C22",
   "status": "proved",
   "theorems": [
    "Verif.Inmem.C22_insert",
    "Verif.Inmem.C22_delete",
    "Verif.Inmem.C22_bijection",
    "Verif.Inmem.C22_concurrent",
    "Verif.Inmem.C22_never_panics"
   ],
   "note": ""
  },
  {
   "property": "C23",
   "status": "proved",
   "theorems": [
    "Verif.Inmem.C23_quiescent",
    "Verif.Inmem.C23_failed_set",
    "Verif.Inmem.C23_set_point_of_no_return",
    "Verif.Inmem.C23_successful_set",
    "Verif.Inmem.C23_internal_never_exists",
    "Verif.Inmem.C23_failed_delete",
    "Verif.Inmem.C23_delete_point_of_no_return",
    "Verif.Inmem.C23_successful_delete"
   ],
   "note": ""
  },
  {
   "property": "C24",
   "status": "partial",
   "theorems": [
    "Verif.Inmem.C24_mint_unique",
    "Verif.Inmem.C24_acquire_sound",
    "Verif.Inmem.C24_acquire_exclusive",
    "Verif.Inmem.C24_acquire_complete_partial",
    "Verif.Inmem.C24_acquire_incomplete"
   ],
   "note": "Minting is proved for every schedule; completeness of acquire needs the scan counter not to wrap (C24_acquire_incomplete shows the failure)."
  },
  {
   "property": "C25",
   "status": "proved",
   "theorems": [
    "Verif.Inmem.C25_linearizable",
    "Verif.Inmem.C25_memory_safe",
    "Verif.Inmem.C25_bounded",
    "Verif.Inmem.C25_exclusion"
   ],
   "note": ""
  },
  {
   "property": "C26",
   "status": "proved",
   "theorems": [
    "Verif.AsyncTools.C26_balancer_exactly_once",
    "Verif.AsyncTools.C26_balancer_progress"
   ],
   "note": ""
  },
  {
   "property": "C27",
   "status": "proved",
   "theorems": [
    "Verif.AsyncTools.C27_partition",
    "Verif.AsyncTools.C27_partition_iter"
   ],
   "note": ""
  },
  {
   "property": "C28",
   "status": "proved",
   "theorems": [
    "Verif.AsyncTools.C28_around",
    "Verif.AsyncTools.C28_around_window",
    "Verif.AsyncTools.C28_around_empty"
   ],
   "note": ""
  },
  {
   "property": "C29",
   "status": "proved",
   "theorems": [
    "Verif.AsyncTools.C29_arc_chunks"
   ],
   "note": ""
  },
  {
   "property": "C30",
   "status": "partial",
   "theorems": [
    "Verif.WorkingSet.C30_pinned",
    "Verif.WorkingSet.C30_filled",
    "Verif.WorkingSet.C30_size_partial",
    "Verif.WorkingSet.C30_layers_disjoint",
    "Verif.WorkingSet.C30_generation_wrap"
   ],
   "note": "The size bound holds until the generation counter wraps (C30_generation_wrap)."
  },
  {
   "property": "C31",
   "status": "proved",
   "theorems": [
    "Verif.Garnet.C31_no_double_allocation",
    "Verif.Garnet.C31_holder_acquired",
    "Verif.Garnet.C31_count",
    "Verif.Garnet.C31_count_any_time",
    "Verif.Garnet.C31_no_spurious_failure",
    "Verif.Garnet.C31_visit_used"
   ],
   "note": ""
  },
  {
   "property": "C32",
   "status": "partial",
   "theorems": [
    "Verif.Garnet.C32_restart_partial",
    "Verif.Garnet.C32_restart_free_list",
    "Verif.Garnet.C32_read_failure"
   ],
   "note": "Proved when every stored block can be read; a read failure is taken for the end of the data (C32_read_failure)."
  },
  {
   "property": "C33",
   "status": "partial",
   "theorems": [
    "Verif.Garnet.C33_backfill_covers",
    "Verif.Garnet.C33_backfill_in_range",
    "Verif.Garnet.C33_backfill_disjoint_partial",
    "Verif.Garnet.C33_backfill_overlap"
   ],
   "note": "Disjointness holds when no range start wraps (C33_backfill_overlap)."
  },
  {
   "property": "C34",
   "status": "partial",
   "theorems": [
    "Verif.Garnet.C34_cache_prefix",
    "Verif.Garnet.C34_cache_coherent_partial",
    "Verif.Garnet.C34_append_stale"
   ],
   "note": "Coherence holds except after the early return of append (C34_append_stale); C34_cache_prefix holds always."
  },
  {
   "property": "C35",
   "status": "partial",
   "theorems": [
    "Verif.Record.C35_disk_round_trip_partial",
    "Verif.Record.C35_same_reads_same",
    "Verif.Record.C35_memory_round_trip",
    "Verif.Record.C35_typed_round_trip_partial",
    "Verif.Record.C35_sentinel_strings",
    "Verif.Record.C35_nested_option",
    "Verif.Record.C35_rejects_unversioned",
    "Verif.Record.C35_accepted_objects",
    "Verif.Record.C35_vector_elementwise"
   ],
   "note": "Round trip excludes the three sentinel strings and nested options (witness theorems)."
  },
  {
   "property": "C36",
   "status": "partial",
   "theorems": [
    "Verif.Record.C36_int_of_int",
    "Verif.Record.C36_int_of_float_partial",
    "Verif.Record.C36_int_of_float_complete",
    "Verif.Record.C36_int_of_float_lossy",
    "Verif.Record.C36_float_of_int_partial",
    "Verif.Record.C36_float_of_int_lossy",
    "Verif.Record.C36_float_of_float"
   ],
   "note": "Exact except at the 64-bit maxima (witness theorems)."
  },
  {
   "property": "C37",
   "status": "proved",
   "theorems": [
    "Verif.Record.C37_parse_iff",
    "Verif.Record.C37_round_trip",
    "Verif.Record.C37_display_injective",
    "Verif.Record.C37_liberal"
   ],
   "note": ""
  },
  {
   "property": "C38",
   "status": "proved",
   "theorems": [
    "Verif.Record.C38_names_distinct",
    "Verif.Record.C38_bad_hint_ignored",
    "Verif.Record.C38_trailing_slash"
   ],
   "note": ""
  },
  {
   "property": "C39",
   "status": "proved",
   "theorems": [
    "Verif.Record.C39_crash_atomic",
    "Verif.Record.C39_last_is_last_commit",
    "Verif.Record.C39_unfinished_artifact_fails"
   ],
   "note": "Assumes a single saver at a time; C40_torn_manifest shows what two savers can do."
  },
  {
   "property": "C40",
   "status": "partial",
   "theorems": [
    "Verif.Record.C40_removes_only_own_partial",
    "Verif.Record.C40_writes_only_own",
    "Verif.Record.C40_removes_foreign_temp",
    "Verif.Record.C40_torn_manifest"
   ],
   "note": "A save removes only its own files unless another save shares its temporary manifest name (witness theorems)."
  },
  {
   "property": "C41",
   "status": "partial",
   "theorems": [
    "Verif.Label.C41_injective_partial",
    "Verif.Label.C41_nul_collides",
    "Verif.Label.C41_empty_collides",
    "Verif.Label.C41_reverse_distinct"
   ],
   "note": "Injective for fields without NUL and values other than Empty and the empty string (witness theorems)."
  },
  {
   "property": "C42",
   "status": "partial",
   "theorems": [
    "Verif.Label.C42_int_order",
    "Verif.Label.C42_float_order_partial",
    "Verif.Label.C42_neg_zero",
    "Verif.Label.C42_int_space",
    "Verif.Label.C42_float_space",
    "Verif.Label.C42_nul_in_space"
   ],
   "note": "Integer keys in full; float keys except for -0.0; ranges for fields without NUL (witness theorems)."
  },
  {
   "property": "C43",
   "status": "partial",
   "theorems": [
    "Verif.Label.C43_agrees_partial",
    "Verif.Label.C43_exact",
    "Verif.Label.C43_gt_returns_equal",
    "Verif.Label.C43_lte_misses_equal",
    "Verif.Label.C43_fractional_bound",
    "Verif.Label.C43_huge_bound_panics",
    "Verif.Label.C43_empty_and",
    "Verif.Label.C43_array",
    "Verif.Label.C43_neg_zero",
    "Verif.Label.C43_u64_collides",
    "Verif.Label.C43_null_panics",
    "Verif.Label.C43_wide_id",
    "Verif.Label.C43_reinsert_stale"
   ],
   "note": "Agreement proved on an explicit fragment; eleven witness theorems show the disagreements outside it."
  },
  {
   "property": "C44",
   "status": "partial",
   "theorems": [
    "Verif.Label.C44_meaning_partial",
    "Verif.Label.C44_unknown_logical_rejected",
    "Verif.Label.C44_unknown_comparison_rejected",
    "Verif.Label.C44_siblings_dropped",
    "Verif.Label.C44_siblings_violation",
    "Verif.Label.C44_plain_value_dropped"
   ],
   "note": "Meaning preserved for objects without siblings of logical operators and without plain-value conditions (witness theorems)."
  },
  {
   "property": "C45",
   "status": "proved",
   "theorems": [
    "Verif.Label.C45_round_trip",
    "Verif.Label.C45_no_out_of_bounds",
    "Verif.Label.C45_truncation_rejected"
   ],
   "note": ""
  },
  {
   "property": "C46",
   "status": "proved",
   "theorems": [
    "Verif.Quant.C46_dense_is_array",
    "Verif.Quant.C46_constructed_iff",
    "Verif.Quant.C46_dense_set",
    "Verif.Quant.C46_binary_set",
    "Verif.Quant.C46_history"
   ],
   "note": ""
  },
  {
   "property": "C47",
   "status": "proved",
   "theorems": [
    "Verif.Quant.C47_constructed_iff",
    "Verif.Quant.C47_transpose_is_array",
    "Verif.Quant.C47_transpose_set",
    "Verif.Quant.C47_history"
   ],
   "note": ""
  },
  {
   "property": "C48",
   "status": "proved",
   "theorems": [
    "Verif.Quant.C48_new",
    "Verif.Quant.C48_update_root",
    "Verif.Quant.C48_history"
   ],
   "note": ""
  },
  {
   "property": "C49",
   "status": "proved",
   "theorems": [
    "Verif.Disk.C49_reads",
    "Verif.Disk.C49_concat",
    "Verif.Disk.C49_read_u32"
   ],
   "note": ""
  },
  {
   "property": "C50",
   "status": "proved",
   "theorems": [
    "Verif.Disk.C50_writes",
    "Verif.Disk.C50_refines",
    "Verif.Disk.C50_reset_size_wrong",
    "Verif.Disk.C50_new"
   ],
   "note": ""
  },
  {
   "property": "C51",
   "status": "partial",
   "theorems": [
    "Verif.Disk.C51_read_back_partial",
    "Verif.Disk.C51_trailing_lists",
    "Verif.Disk.C51_disjoint",
    "Verif.Disk.C51_header_overlaps_first_vertex"
   ],
   "note": "Read-back holds when the header does not overlap the first vertex (C51_header_overlaps_first_vertex)."
  },
  {
   "property": "C52",
   "status": "proved",
   "theorems": [
    "Verif.Disk.C52_round_trip",
    "Verif.Disk.C52_truncated",
    "Verif.Disk.C52_every_truncation",
    "Verif.Disk.C52_total",
    "Verif.Disk.C52_max_degree"
   ],
   "note": ""
  },
  {
   "property": "C53",
   "status": "partial",
   "theorems": [
    "Verif.Disk.C53_vectors",
    "Verif.Disk.C53_lists_partial",
    "Verif.Disk.C53_reinsert_stale",
    "Verif.Disk.C53_reinsert_corrupts_other"
   ],
   "note": "Lists served correctly for ids inserted once; re-insertion violates it (witness theorems). Vectors in full."
  },
  {
   "property": "C54",
   "status": "proved",
   "theorems": [
    "Verif.Bench.C54_recall",
    "Verif.Bench.C54_recall_reported",
    "Verif.Bench.C54_average_precision"
   ],
   "note": ""
  },
  {
   "property": "C55",
   "status": "proved",
   "theorems": [
    "Verif.Bftree.C55_history",
    "Verif.Bftree.C55_append_adds",
    "Verif.Bftree.C55_foreign_records",
    "Verif.Bftree.C55_concurrent",
    "Verif.Bftree.C55_no_deadlock",
    "Verif.Bftree.C55_stripe_exists"
   ],
   "note": ""
  },
  {
   "property": "C56",
   "status": "partial",
   "theorems": [
    "Verif.Graph.C56_unlinks",
    "Verif.Graph.C56_replacements",
    "Verif.Graph.C56_then_cleanup",
    "Verif.Graph.C56_batch_partial",
    "Verif.Graph.C56_batch_links_to_deleted"
   ],
   "note": "Single deletions in full. Batches: only relative to what each deletion of the batch saw; racing deletions violate it (C56_batch_links_to_deleted)."
  },
  {
   "property": "C57",
   "status": "proved",
   "theorems": [
    "Verif.Search.C57_pages_sound",
    "Verif.Search.C57_short_page_means_exhausted",
    "Verif.Search.C57_seed_ids_never_returned"
   ],
   "note": ""
  },
  {
   "property": "C58",
   "status": "proved",
   "theorems": [
    "Verif.Search.C58_pooled_scratch_is_fresh"
   ],
   "note": ""
  },
  {
   "property": "C59",
   "status": "partial",
   "theorems": [
    "Verif.Search.C59_first_round_stats_partial",
    "Verif.Search.C59_second_round_stats_wrong"
   ],
   "note": "Correct when the second phase does not run; wrong when it does (C59_second_round_stats_wrong)."
  },
  {
   "property": "C60",
   "status": "partial",
   "theorems": [
    "Verif.Disk.C60_batch_partial",
    "Verif.Disk.C60_repeated_id_misaligns"
   ],
   "note": "Holds for batches of distinct ids; violated by repeated ids (C60_repeated_id_misaligns)."
  },
  {
   "property": "C61",
   "status": "proved",
   "theorems": [
    "Verif.Disk.C61_bfs_cache",
    "Verif.Disk.C61_zero_refused",
    "Verif.Disk.C61_cached_provider"
   ],
   "note": ""
  },
  {
   "property": "C62",
   "status": "proved",
   "theorems": [
    "Verif.Garnet.C62_handover",
    "Verif.Garnet.C62_no_reuse_before_enabled"
   ],
   "note": ""
  },
  {
   "property": "C63",
   "status": "partial",
   "theorems": [
    "Verif.Queue.C63_diverse_total",
    "Verif.Queue.C63_best_unique",
    "Verif.Queue.C63_diverse_best_partial",
    "Verif.Queue.C63_diverse_results_partial",
    "Verif.Queue.C63_at_most_k_per_attribute_partial",
    "Verif.Queue.C63_tie_breaks_limit",
    "Verif.Queue.C63_zero_local_limit_panics"
   ],
   "note": "Holds when distances are distinct; violated on ties (C63_tie_breaks_limit). Totality in full."
  },
  {
   "property": "C64",
   "status": "proved",
   "theorems": [
    "Verif.Graph.C64_batch_insert",
    "Verif.Graph.C64_schedule_independent",
    "Verif.Graph.C64_batch_of_one",
    "Verif.Graph.C64_cut_in_visit_order"
   ],
   "note": "For fresh ids and readable vectors. The batch-of-one equality needs a provider that can supply every vector; with a bounded working set the two insertion paths differ (C64_cut_in_visit_order)."
  },
  {
   "property": "C65",
   "status": "proved",
   "theorems": [
    "Verif.Search.C65_inline_sound",
    "Verif.Search.C65_inline_best_accepted",
    "Verif.Search.C65_inline_exact",
    "Verif.Search.C65_inline_same_traversal",
    "Verif.Search.C65_adaptive_size",
    "Verif.Search.C65_adaptive_can_narrow",
    "Verif.Search.C65_adaptive_accepted",
    "Verif.Search.C65_nan_scale_panics",
    "Verif.Search.C65_infinite_scale_panics",
    "Verif.Search.C65_nan_distance_returned",
    "Verif.Search.C65_adaptive_once"
   ],
   "note": "For finite scale factors of at least 1 whose list can be allocated; the departures for other values are proved as negations."
  },
  {
   "property": "C66",
   "status": "proved",
   "theorems": [
    "Verif.Search.C66_multihop_sound",
    "Verif.Search.C66_multihop_best_accepted",
    "Verif.Search.C66_multihop_exact",
    "Verif.Search.C66_second_hop_closest",
    "Verif.Search.C66_truncated_candidates_lost"
   ],
   "note": "The sort of rejected neighbours is assumed not to panic, which it may when a distance is NaN."
  },
  {
   "property": "C67",
   "status": "proved",
   "theorems": [
    "Verif.Search.C67_filtered_range_sound",
    "Verif.Search.C67_first_phase_matches_kept",
    "Verif.Search.C67_second_phase_complete",
    "Verif.Search.C67_inner_radius_uses_up_maximum",
    "Verif.Search.C67_maximum_keeps_far_matches"
   ],
   "note": "Completeness needs radius * range_slack to be at least radius, which fails for negative radii (see C17_slack_narrows_negative_radius)."
  },
  {
   "property": "C68",
   "status": "partial",
   "theorems": [
    "Verif.Disk.C68_layout",
    "Verif.Disk.C68_round_trip",
    "Verif.Disk.C68_provider_round_trip",
    "Verif.Disk.C68_truncated_refused",
    "Verif.Disk.C68_interrupted_prefix",
    "Verif.Disk.C68_interrupted_refused_partial",
    "Verif.Disk.C68_interrupted_accepted",
    "Verif.Disk.C68_long_list_panics"
   ],
   "note": "Detection of interrupted saves holds only for graphs with extra start points and before the header update; the general statement (a leading part) is proved for all cut points."
  },
  {
   "property": "C69",
   "status": "partial",
   "theorems": [
    "Verif.Disk.C69_disk_edges",
    "Verif.Disk.C69_disk_lists",
    "Verif.Disk.C69_disk_file",
    "Verif.Disk.C69_disk_reachable_in_memory",
    "Verif.Disk.C69_reachable_partial",
    "Verif.Disk.C69_point_lost",
    "Verif.Disk.C69_duplicates"
   ],
   "note": "Reachability is characterised exactly (C69_reachable_partial): it holds iff the start point's own neighbours stay reachable; the general claim is false (C69_point_lost)."
  },
  {
   "property": "C70",
   "status": "partial",
   "theorems": [
    "Verif.Disk.C70_write",
    "Verif.Disk.C70_write_read",
    "Verif.Disk.C70_truncated_refused",
    "Verif.Disk.C70_save_layout",
    "Verif.Disk.C70_iterator",
    "Verif.Disk.C70_save_load",
    "Verif.Disk.C70_truncated_load_succeeds",
    "Verif.Disk.C70_interrupted_save_loads_empty",
    "Verif.Disk.C70_sampling_partial",
    "Verif.Disk.C70_callback_error_shifts"
   ],
   "note": "Refusal of cut files holds for the matrix reader and the sampling reader only; sampling is proved for callbacks that do not fail."
  },
  {
   "property": "C71",
   "status": "partial",
   "theorems": [
    "Verif.Disk.C71_closest",
    "Verif.Disk.C71_partition",
    "Verif.Disk.C71_partition_sharded",
    "Verif.Disk.C71_merge",
    "Verif.Disk.C71_file",
    "Verif.Disk.C71_edges",
    "Verif.Disk.C71_reachable_partial",
    "Verif.Disk.C71_cut_loses_point",
    "Verif.Disk.C71_shard_lost"
   ],
   "note": "Reachability of every point holds when no list is cut, each shard graph is strongly connected and the shards are linked by common points; otherwise it fails (two witnesses)."
  },
  {
   "property": "C72",
   "status": "proved",
   "theorems": [
    "Verif.Pool.C72_one_place",
    "Verif.Pool.C72_bounded",
    "Verif.Pool.C72_transparent",
    "Verif.Pool.C72_vectors",
    "Verif.Pool.C72_reuse_order",
    "Verif.Pool.C72_exclusive"
   ],
   "note": ""
  },
  {
   "property": "C73",
   "status": "partial",
   "theorems": [
    "Verif.Quant.Scalar.C73_codes",
    "Verif.Quant.Scalar.C73_lengths",
    "Verif.Quant.Scalar.C73_distances_partial",
    "Verif.Quant.Scalar.C73_distance_lengths",
    "Verif.Quant.Scalar.C73_train",
    "Verif.Quant.Scalar.C73_constant_training"
   ],
   "note": "Scale 0 is excluded from C73_distances_partial; C73_constant_training shows what happens there. f32 rounding is not modelled."
  },
  {
   "property": "C74",
   "status": "proved",
   "theorems": [
    "Verif.Quant.MinMax.C74_codes",
    "Verif.Quant.MinMax.C74_lengths",
    "Verif.Quant.MinMax.C74_range",
    "Verif.Quant.MinMax.C74_one_bit",
    "Verif.Quant.MinMax.C74_constant",
    "Verif.Quant.MinMax.C74_distances",
    "Verif.Quant.MinMax.C74_distance_lengths",
    "Verif.Quant.MinMax.C74_query",
    "Verif.Quant.MinMax.C74_recompress",
    "Verif.Quant.MinMax.C74_cosine_zero"
   ],
   "note": "f32 rounding is not modelled."
  },
  {
   "property": "C75",
   "status": "partial",
   "theorems": [
    "Verif.Quant.C75_squared_l2",
    "Verif.Quant.C75_inner_product",
    "Verif.Quant.C75_exact_when_it_fits",
    "Verif.Quant.C75_architectures_agree",
    "Verif.Quant.C75_hamming",
    "Verif.Quant.C75_transposed",
    "Verif.Quant.C75_full_precision",
    "Verif.Quant.C75_unequal_lengths",
    "Verif.Quant.C75_eight_bit_partial",
    "Verif.Quant.C75_eight_bit_zero",
    "Verif.Quant.C75_eight_bit_inexact"
   ],
   "note": "Eight bits against eight is proved exact below 2^24 and within one part in 2^24 below 2^31 (C75_eight_bit_partial); the code is not exact beyond. f32 rounding in the float kernels is not modelled. A debug build panics where a scalar sum wraps."
  },
  {
   "property": "C76",
   "status": "proved",
   "theorems": [
    "Verif.Vec.C76_float_l2",
    "Verif.Vec.C76_float_full_l2",
    "Verif.Vec.C76_float_inner_product",
    "Verif.Vec.C76_float_cosine_normalized",
    "Verif.Vec.C76_float_cosine",
    "Verif.Vec.C76_cosine_range",
    "Verif.Vec.C76_normalized_agrees",
    "Verif.Vec.C76_float_lengths",
    "Verif.Vec.C76_int_lengths",
    "Verif.Vec.C76_int_l2",
    "Verif.Vec.C76_int_inner_product",
    "Verif.Vec.C76_int_cosine_range",
    "Verif.Vec.C76_int_cosine",
    "Verif.Vec.C76_int_dimensions",
    "Verif.Vec.C76_int_overflow",
    "Verif.Vec.C76_provider",
    "Verif.Vec.C76_provider_int",
    "Verif.Vec.C76_provider_lengths",
    "Verif.Vec.C76_provider_enforced",
    "Verif.Vec.C76_norms",
    "Verif.Vec.C76_max_norm",
    "Verif.Vec.C76_resumable"
   ],
   "note": "f32/f16 rounding, overflow and NaN are not modelled: float results are those of exact arithmetic."
  },
  {
   "property": "C77",
   "status": "proved",
   "theorems": [
    "Verif.Vec.C77_bytes",
    "Verif.Vec.C77_words",
    "Verif.Vec.C77_words_wrap",
    "Verif.Vec.C77_neon_halves",
    "Verif.Vec.C77_neon_wide",
    "Verif.Vec.C77_masked",
    "Verif.Vec.C77_emulated",
    "Verif.Vec.C77_doubled",
    "Verif.Vec.C77_masked_store",
    "Verif.Vec.C77_emulated_store",
    "Verif.Vec.C77_doubled_store",
    "Verif.Vec.C77_bit_mask",
    "Verif.Vec.C77_x86_mask",
    "Verif.Vec.C77_neon_mask"
   ],
   "note": "Conversions between lane masks and bit masks are not modelled."
  },
  {
   "property": "C78",
   "status": "proved",
   "theorems": [
    "Verif.Vec.C78_strided",
    "Verif.Vec.C78_roundtrip",
    "Verif.Vec.C78_layout",
    "Verif.Vec.C78_set",
    "Verif.Vec.C78_padding",
    "Verif.Vec.C78_budget"
   ],
   "note": "The mutable sub-views of strided matrices and pooled construction are not modelled."
  },
  {
   "property": "C79",
   "status": "proved",
   "theorems": [
    "Verif.Pq.C79_batch",
    "Verif.Pq.C79_matrix",
    "Verif.Pq.C79_matrix_nonfinite",
    "Verif.Pq.C79_process",
    "Verif.Pq.C79_any",
    "Verif.Pq.C79_offsets",
    "Verif.Pq.C79_partition",
    "Verif.Pq.C79_basic",
    "Verif.Pq.C79_basic_nonfinite",
    "Verif.Pq.C79_build",
    "Verif.Pq.C79_transposed",
    "Verif.Pq.C79_transposed_nonfinite",
    "Verif.Pq.C79_agree",
    "Verif.Pq.C79_args",
    "Verif.Pq.C79_ties_false",
    "Verif.Pq.C79_batch_nan_false"
   ],
   "note": "Arithmetic is exact: rounding is not modelled, so ties and near ties of rounded distances are outside the model. `Bounded` asks for a pivot at a squared distance below the largest f32. The order of the summation in the basic table is simplified (C76 covers it). AVX/NEON instruction selection is not modelled beyond lanes."
  },
  {
   "property": "C80",
   "status": "proved",
   "theorems": [
    "Verif.Pq.C80_batch",
    "Verif.Pq.C80_one",
    "Verif.Pq.C80_ids",
    "Verif.Pq.C80_ids_args",
    "Verif.Pq.C80_disk",
    "Verif.Pq.C80_few_centers_false",
    "Verif.Pq.C80_two",
    "Verif.Pq.C80_versions",
    "Verif.Pq.C80_mixed",
    "Verif.Pq.C80_multi_query",
    "Verif.Pq.C80_single_version",
    "Verif.Pq.C80_multi_length_false",
    "Verif.Pq.C80_normalized_false",
    "Verif.Pq.C80_new",
    "Verif.Pq.C80_from",
    "Verif.Pq.C80_decode",
    "Verif.Pq.C80_inflate",
    "Verif.Pq.C80_direct",
    "Verif.Pq.C80_codes",
    "Verif.Pq.C80_query",
    "Verif.Pq.C80_normalized",
    "Verif.Pq.C80_closest"
   ],
   "note": "Arithmetic is exact: rounding is not modelled, except that batch and single lookup are shown to perform the same additions in the same order. Debug assertions are off. Pivots are finite. Vectors are taken to be f32 already."
  },
  {
   "property": "C81",
   "status": "proved",
   "theorems": [
    "Verif.DiskSearch.C81_flat",
    "Verif.DiskSearch.C81_flat_exact",
    "Verif.DiskSearch.C81_graph",
    "Verif.DiskSearch.C81_graph_exact",
    "Verif.DiskSearch.C81_reads",
    "Verif.DiskSearch.C81_arguments",
    "Verif.DiskSearch.C81_diverse",
    "Verif.DiskSearch.C81_flat_zero_list_panics",
    "Verif.DiskSearch.C81_rerank_reads_uncounted"
   ],
   "note": "The vertex provider is taken with the contract proved in C60 and C61, quantized distances with the one of C80. The sort and the diversity selection are arbitrary functions with their contract. The inline-filter mode is not repeated here (C65). Timers are not modelled. Full-precision distances are not NaN."
  },
  {
   "property": "C82",
   "status": "proved",
   "theorems": [
    "Verif.DiskSearch.C82_disk",
    "Verif.Diversity.C82_selection",
    "Verif.Diversity.C82_arguments",
    "Verif.Diversity.C82_in_memory",
    "Verif.Diversity.C82_greedy",
    "Verif.Diversity.C82_relevance",
    "Verif.Diversity.C82_eta_ignored",
    "Verif.Diversity.C82_similarity_above_one",
    "Verif.Diversity.C82_ridge_false",
    "Verif.Diversity.C82_nan_false",
    "Verif.Diversity.C82_params"
   ],
   "note": "The determinant theorem is for exact arithmetic with `powf` and `sqrt` as arbitrary functions; the theorems about which rows are returned hold for any arithmetic. Output buffers are C18."
  },
  {
   "property": "C83",
   "status": "proved",
   "theorems": [
    "Verif.Rotate.C83_hadamard",
    "Verif.Rotate.C83_hadamard_isometry",
    "Verif.Rotate.C83_new",
    "Verif.Rotate.C83_preserves_norms",
    "Verif.Rotate.C83_lengths",
    "Verif.Rotate.C83_padding",
    "Verif.Rotate.C83_double",
    "Verif.Rotate.C83_rotation",
    "Verif.Rotate.C83_null",
    "Verif.Rotate.C83_preserves",
    "Verif.Rotate.C83_unbiased",
    "Verif.Rotate.C83_single_transform_false"
   ],
   "note": "Exact arithmetic in an ordered field; random signs, samples and the orthogonal matrix are inputs (`Draws`) with the specification of the generators as hypothesis (`Draws.Fair`). Serialization is C84."
  },
  {
   "property": "C84",
   "status": "partial",
   "theorems": [
    "Verif.Rotate.C84_accepts",
    "Verif.Rotate.C84_round_trip",
    "Verif.Rotate.C84_rewrite",
    "Verif.Rotate.C84_usable_partial",
    "Verif.Rotate.C84_isometry",
    "Verif.Rotate.C84_double_unpack_panics",
    "Verif.Rotate.C84_debug_assert_false"
   ],
   "note": "Partial: accepted double transforms can panic (`C84_double_unpack_panics`); `C84_usable_partial` covers all others. Flatbuffer encoding itself is outside the model."
  },
  {
   "property": "C85",
   "status": "proved",
   "theorems": [
    "Verif.Kmeans.C85_lloyds",
    "Verif.Kmeans.C85_never_worse",
    "Verif.Kmeans.C85_more_repetitions",
    "Verif.Kmeans.C85_result_stale",
    "Verif.Kmeans.C85_no_repetition",
    "Verif.Kmeans.C85_no_centers_panics",
    "Verif.Kmeans.C85_plusplus",
    "Verif.Kmeans.C85_plusplus_empty",
    "Verif.Kmeans.C85_plusplus_no_centers_panics",
    "Verif.Kmeans.C85_columns",
    "Verif.Kmeans.C85_train",
    "Verif.Kmeans.C85_train_lossless",
    "Verif.Kmeans.C85_train_canceled",
    "Verif.Kmeans.C85_train_empty",
    "Verif.Kmeans.C85_flatten"
   ],
   "note": "Exact arithmetic; chunks are trained one after the other (rayon's order of errors is not modelled). The documented meaning of the values returned by `lloyds` is refuted by `C85_result_stale`; the theorems state what they are."
  },
  {
   "property": "C86",
   "status": "partial",
   "theorems": [
    "Verif.Kmeans.Disk.C86_closest",
    "Verif.Kmeans.Disk.C86_closest_far",
    "Verif.Kmeans.Disk.C86_closest_k",
    "Verif.Kmeans.Disk.C86_closest_errors",
    "Verif.Kmeans.Disk.C86_closest_zero_panics",
    "Verif.Kmeans.Disk.C86_lloyds",
    "Verif.Kmeans.Disk.C86_never_worse",
    "Verif.Kmeans.Disk.C86_residual_partial",
    "Verif.Kmeans.Disk.C86_residual_le",
    "Verif.Kmeans.Disk.C86_residual_wrong",
    "Verif.Kmeans.Disk.C86_lloyds_idle",
    "Verif.Kmeans.Disk.C86_pivots",
    "Verif.Kmeans.Disk.C86_pivots_errors",
    "Verif.Kmeans.Disk.C86_pivots_no_centers_panics",
    "Verif.Kmeans.Disk.C86_clustering_lossless",
    "Verif.Kmeans.Disk.C86_clustering",
    "Verif.Kmeans.Disk.C86_norms"
   ],
   "note": "Partial: the residual is the sum of the squared distances only up to 16384 points (C86_residual_partial); beyond that it is refuted (C86_residual_wrong). All other parts are proved in full."
  },
  {
   "property": "C87",
   "status": "partial",
   "theorems": [
    "Verif.Label.Encoded.C87_equality",
    "Verif.Label.Encoded.C87_operations",
    "Verif.Label.Encoded.C87_inverted",
    "Verif.Label.Encoded.C87_filter",
    "Verif.Label.Encoded.C87_accepted",
    "Verif.Label.Encoded.C87_unknown_value_refused",
    "Verif.Label.Encoded.C87_big_integers_collide",
    "Verif.Label.Encoded.C87_scores",
    "Verif.Label.Encoded.C87_results",
    "Verif.Label.Encoded.C87_beta_favours_partial",
    "Verif.Label.Encoded.C87_beta_negative_wrong",
    "Verif.Label.Encoded.C87_insert_values_wrong",
    "Verif.Label.Encoded.C87_insert_values_partial",
    "Verif.Label.Encoded.C87_status_partial",
    "Verif.Label.Encoded.C87_deleted_is_error"
   ],
   "note": "Partial: refuted for the status of deleted documents, for negative distances and for insert_values; everything else is proved for every history."
  },
  {
   "property": "C88",
   "status": "partial",
   "theorems": [
    "Verif.Multi.C88_scores",
    "Verif.Multi.C88_kernels",
    "Verif.Multi.C88_agree",
    "Verif.Multi.C88_dimension",
    "Verif.Multi.C88_chamfer_partial",
    "Verif.Multi.C88_empty_document_stale",
    "Verif.Multi.C88_empty_document_chamfer",
    "Verif.Multi.C88_eigen",
    "Verif.Multi.C88_buffer",
    "Verif.Multi.C88_quantized_partial",
    "Verif.Multi.C88_quantized_mismatch_silent",
    "Verif.Multi.C88_quantized_empty"
   ],
   "note": "Partial: `MaxSim` and `Chamfer` are right for documents with vectors (C88_chamfer_partial) and quantized ones of equal dimension (C88_quantized_partial); the empty document and the dropped error are refuted. The tiled kernels are proved outright."
  },
  {
   "property": "C89",
   "status": "proved",
   "theorems": [
    "Verif.Search.Flat.C89_exact",
    "Verif.Search.Flat.C89_small_buffer",
    "Verif.Search.Flat.C89_order_free",
    "Verif.Search.Flat.C89_no_partial_results",
    "Verif.Search.Flat.C89_filter_after_cut",
    "Verif.Search.Flat.C89_filter_may_starve",
    "Verif.Search.Flat.C89_overflow"
   ],
   "note": "Flat search (`C89_exact`, `C89_small_buffer`, `C89_order_free`, `C89_no_partial_results`, `C89_filter_after_cut`, `C89_filter_may_starve`). The visitor and the distance are the caller's and are parameters; 2^32 elements or more overflow the comparison counter and panic (`C89_overflow`)."
  },
  {
   "property": "C90",
   "status": "proved",
   "theorems": [
    "Verif.Tools.C90_nearest",
    "Verif.Tools.C90_file",
    "Verif.Tools.C90_too_few_points_panics",
    "Verif.Tools.C90_filtered_file",
    "Verif.Tools.C90_filter_file",
    "Verif.Tools.C90_range",
    "Verif.Tools.C90_aggregation",
    "Verif.Tools.C90_multi",
    "Verif.Tools.C90_missing_bitmap_panics",
    "Verif.Tools.C90_skip_renumbers",
    "Verif.Tools.C90_inserted_associated_panics",
    "Verif.Tools.C90_unit_associated_data_misread",
    "Verif.Tools.C90_associated_file"
   ],
   "note": "Ground truth (`C90_nearest`, `C90_file`, `C90_filtered_file`, `C90_filter_file`, `C90_range`, `C90_aggregation`, `C90_multi`, `C90_associated_file`) with five disagreements. At most 2^32 points; sizes within u32 and u64. Not modelled: the thread pool (each query has its own queue), reading the data files (C70), rounding."
  },
  {
   "property": "C91",
   "status": "partial",
   "theorems": [
    "Verif.Tools.C91_attributes",
    "Verif.Tools.C91_exact_numbers",
    "Verif.Tools.C91_inexact_integer_fails",
    "Verif.Tools.C91_largest_integer_rounded",
    "Verif.Tools.C91_bitmaps",
    "Verif.Tools.C91_agrees_partial",
    "Verif.Tools.C91_one_type",
    "Verif.Tools.C91_not_drops_documents",
    "Verif.Tools.C91_not_depends_on_order",
    "Verif.Tools.C91_equal_as_doubles",
    "Verif.Tools.C91_type_mismatch_fails",
    "Verif.Tools.C91_integer_and_real_fail",
    "Verif.Tools.C91_null_panics",
    "Verif.Tools.C91_dotted_name_matches"
   ],
   "note": "The meaning of every bitmap is proved outright (C91_bitmaps). Agreement with the direct evaluator is proved on the filters where it holds; the rest is refuted with witnesses. rayon, BitSet, HashMap and BTreeMap are trusted."
  },
  {
   "property": "C92",
   "status": "partial",
   "theorems": [
    "Verif.Spherical.C92_query_errors",
    "Verif.Spherical.C92_correction_error",
    "Verif.Spherical.C92_unequal_lengths",
    "Verif.Spherical.C92_center_query",
    "Verif.Spherical.C92_errors",
    "Verif.Spherical.C92_codes",
    "Verif.Spherical.C92_data_distance",
    "Verif.Spherical.C92_full_distance",
    "Verif.Spherical.C92_query_distance",
    "Verif.Spherical.C92_projection",
    "Verif.Spherical.C92_full_error",
    "Verif.Spherical.C92_own_distance",
    "Verif.Spherical.C92_center_distance",
    "Verif.Spherical.C92_self_distance",
    "Verif.Spherical.C92_own_distance_subsampled",
    "Verif.Spherical.C92_query_error_partial",
    "Verif.Spherical.C92_query_nan",
    "Verif.Spherical.C92_eight_bits",
    "Verif.Spherical.C92_train",
    "Verif.Spherical.C92_transforms",
    "Verif.Spherical.C92_negative_distance",
    "Verif.Spherical.C92_scaled_distance_false",
    "Verif.Spherical.C92_query_nan_example",
    "Verif.Spherical.C92_eight_bits_rejects"
   ],
   "note": "Exact arithmetic: rounding of 32 and 16 bit floats is not modelled, the conversion to 16 bits is a parameter. Refuted: every finite vector is accepted, distances are numbers, compatible distances under a pre-scale."
  },
  {
   "property": "C93",
   "status": "proved",
   "theorems": [
    "Verif.Spherical.C93_one_bit",
    "Verif.Spherical.C93_near_best"
   ],
   "note": "Squared similarities, exact arithmetic; the code's epsilon of 1/10000 costs the last part in a thousand."
  },
  {
   "property": "C94",
   "status": "partial",
   "theorems": [
    "Verif.Pq.C94_round_trip",
    "Verif.Pq.C94_any_file",
    "Verif.Pq.C94_interrupted_partial",
    "Verif.Pq.C94_write_refused",
    "Verif.Pq.C94_generate",
    "Verif.Pq.C94_prepared",
    "Verif.Pq.C94_stuck",
    "Verif.Pq.C94_success_without_table",
    "Verif.Pq.C94_existing_file",
    "Verif.Pq.C94_centering",
    "Verif.Pq.C94_centroid",
    "Verif.Pq.C94_dimension_not_checked"
   ],
   "note": "Round trip, any file, refused writes, preparation and centering proved; C94_interrupted_partial leaves out the seven crash points inside the last header field; recovery refuted."
  },
  {
   "property": "C95",
   "status": "partial",
   "theorems": [
    "Verif.Pq.C95_generated",
    "Verif.Pq.C95_unencodable",
    "Verif.Pq.C95_refused",
    "Verif.Pq.C95_interrupted",
    "Verif.Pq.C95_short_data",
    "Verif.Pq.C95_resume_partial",
    "Verif.Pq.C95_offset_panics",
    "Verif.Pq.C95_tool_element_type",
    "Verif.Pq.C95_load_checks",
    "Verif.Pq.C95_zero_dimension",
    "Verif.Pq.C95_not_validated"
   ],
   "note": "Contents, failures, interruptions and resuming proved; validation of the existing file and element types of the tool refuted."
  },
  {
   "property": "C96",
   "status": "proved",
   "theorems": [
    "Verif.Runbook.C96_validated",
    "Verif.Runbook.C96_loaded",
    "Verif.Runbook.C96_loads",
    "Verif.Runbook.C96_gaps_accepted",
    "Verif.Runbook.C96_too_many_points_kept",
    "Verif.Runbook.C96_negative_accepted",
    "Verif.Runbook.C96_replacement_lengths",
    "Verif.Runbook.C96_groundtruth",
    "Verif.Runbook.C96_groundtruth_stage",
    "Verif.Runbook.C96_groundtruth_written"
   ],
   "note": "Validation, loading and ground truth files proved; the documented checks of stage numbers and number of points refuted."
  },
  {
   "property": "C97",
   "status": "partial",
   "theorems": [
    "Verif.Runbook.C97_immediate",
    "Verif.Runbook.C97_deferred_partial",
    "Verif.Runbook.C97_headroom",
    "Verif.Runbook.C97_reinsertion_lost",
    "Verif.Runbook.C97_half_runs_out",
    "Verif.Runbook.C97_start_point_overwritten",
    "Verif.Runbook.C97_one_start_point",
    "Verif.Runbook.C97_short_data_panics",
    "Verif.Runbook.C97_active_off_by_one"
   ],
   "note": "Immediate reuse, headroom below one half and one start point proved; deferred reuse proved for runbooks that insert no tag twice; reinsertion, threshold one half and several start points refuted."
  },
  {
   "property": "C98",
   "status": "proved",
   "theorems": [
    "Verif.Runbook.C98_truth",
    "Verif.Runbook.C98_too_few",
    "Verif.Runbook.C98_short_data_ignored",
    "Verif.Runbook.C98_replacement_drops",
    "Verif.Runbook.C98_tags_cut"
   ],
   "note": "Every search stage writes the nearest active tags with their current vectors; unchecked data length, replacement lengths and 32 bit tags refuted."
  },
  {
   "property": "C99",
   "status": "partial",
   "theorems": [
    "Verif.Provider.C99_slots",
    "Verif.Provider.C99_history",
    "Verif.Provider.C99_step",
    "Verif.Provider.C99_refused",
    "Verif.Provider.C99_failed_set",
    "Verif.Provider.C99_out_of_range",
    "Verif.Provider.C99_append",
    "Verif.Provider.C99_start_points",
    "Verif.Provider.C99_save_load_partial",
    "Verif.Provider.C99_deletions_lost",
    "Verif.Provider.C99_several_starts_not_saved",
    "Verif.Provider.C99_extra_list",
    "Verif.Provider.C99_start_not_protected",
    "Verif.Provider.C99_capacity_cut",
    "Verif.Provider.C99_codes",
    "Verif.Provider.C99_torn_code"
   ],
   "note": "All histories proved; save and load proved except for deletions, which the code does not save (refuted)."
  },
  {
   "property": "C100",
   "status": "partial",
   "theorems": [
    "Verif.Start.C100_medoid_partial",
    "Verif.Start.C100_medoid_not_finite",
    "Verif.Start.C100_medoid_empty",
    "Verif.Start.C100_count",
    "Verif.Start.C100_errors",
    "Verif.Start.C100_samples",
    "Verif.Start.C100_latin",
    "Verif.Start.C100_latin_panics",
    "Verif.Start.C100_random_vector",
    "Verif.Start.C100_random_zero",
    "Verif.Start.C100_file_medoid",
    "Verif.Start.C100_file_errors",
    "Verif.Start.C100_medoids_agree",
    "Verif.Start.C100_sampled_medoid",
    "Verif.Start.C100_sample_above_maximum",
    "Verif.Start.C100_sample_empty",
    "Verif.Start.C100_truncated_medoid"
   ],
   "note": "Partial: the medoid needs finite values and a vector closer to the mean than the largest float; the refuted cases are listed. Rounding is not modelled; the generators are arbitrary."
  },
  {
   "property": "C101",
   "status": "proved",
   "theorems": [
    "Verif.Build.C101_inserted",
    "Verif.Build.C101_never_twice",
    "Verif.Build.C101_ends",
    "Verif.Build.C101_no_error",
    "Verif.Build.C101_ids_fit",
    "Verif.Build.C101_count_not_checked",
    "Verif.Build.C101_final_prune",
    "Verif.Build.C101_prune_interrupted",
    "Verif.Build.C101_prune_ends",
    "Verif.Build.C101_prune_too_many",
    "Verif.Build.C101_saved",
    "Verif.Build.C101_saved_degree"
   ],
   "note": ""
  },
  {
   "property": "C102",
   "status": "partial",
   "theorems": [
    "Verif.Config.C102_build",
    "Verif.Config.C102_refused",
    "Verif.Config.C102_settings",
    "Verif.Config.C102_slack_partial",
    "Verif.Config.C102_ratio_partial",
    "Verif.Config.C102_slack_not_floor",
    "Verif.Config.C102_slack_one_refused",
    "Verif.Config.C102_ratio_one_refused",
    "Verif.Config.C102_occlusion_limit",
    "Verif.Config.C102_alpha_not_checked",
    "Verif.Config.C102_retry",
    "Verif.Config.C102_no_retry",
    "Verif.Config.C102_empty_attempts",
    "Verif.Config.C102_insert_degree",
    "Verif.Config.C102_threshold_above_degree",
    "Verif.Config.C102_setting_counts",
    "Verif.Config.C102_not_set",
    "Verif.Config.C102_rounding",
    "Verif.Config.C102_error"
   ],
   "note": ""
  },
  {
   "property": "C103",
   "status": "partial",
   "theorems": [
    "Verif.Harness.C103_dynamic_batches",
    "Verif.Harness.C103_dynamic_success",
    "Verif.Harness.C103_dynamic_one_task",
    "Verif.Harness.C103_dynamic_error",
    "Verif.Harness.C103_dynamic_ends",
    "Verif.Harness.C103_batch_one_parallel",
    "Verif.Harness.C103_fixed_partial",
    "Verif.Harness.C103_fixed_whole",
    "Verif.Harness.C103_fixed_empty",
    "Verif.Harness.C103_fixed_large_batch",
    "Verif.Harness.C103_fixed_overflow",
    "Verif.Harness.C103_aggregate",
    "Verif.Harness.C103_search",
    "Verif.Harness.C103_search_error"
   ],
   "note": "Refuted parts: non-empty ranges, all batch sizes, sequential execution with batch size 1; a build that failed leaves its other tasks running, which is not modelled"
  },
  {
   "property": "C104",
   "status": "partial",
   "theorems": [
    "Verif.Search.C104_parameters",
    "Verif.Search.C104_declared_error_never",
    "Verif.Search.C104_total",
    "Verif.Search.C104_best_partial",
    "Verif.Search.C104_limit_partial",
    "Verif.Search.C104_exact_partial",
    "Verif.Search.C104_no_attribute_start",
    "Verif.Search.C104_hidden",
    "Verif.Search.C104_start_takes_place",
    "Verif.Search.C104_start_takes_attribute"
   ],
   "note": "Exactness, best selection and the limit per attribute need distinct distances (ties break them: C63_tie_breaks_limit)."
  },
  {
   "property": "C105",
   "status": "partial",
   "theorems": [
    "Verif.Shard.C105_limit",
    "Verif.Shard.C105_chunks",
    "Verif.Shard.C105_zero_chunks",
    "Verif.Shard.C105_strategy",
    "Verif.Shard.C105_strategy_monotone",
    "Verif.Shard.C105_initial",
    "Verif.Shard.C105_search",
    "Verif.Shard.C105_never_ends",
    "Verif.Shard.C105_small_data",
    "Verif.Shard.C105_fits_partial",
    "Verif.Shard.C105_over_budget",
    "Verif.Shard.C105_copies_never_end",
    "Verif.Shard.C105_empty_sample",
    "Verif.Shard.C105_empty_file",
    "Verif.Shard.C105_empty_test_panics",
    "Verif.Shard.C105_empty_shards"
   ],
   "note": ""
  },
  {
   "property": "C106",
   "status": "partial",
   "theorems": [
    "Verif.Garnet.Store.C106_clean_map_partial",
    "Verif.Garnet.Store.C106_clean_answers",
    "Verif.Garnet.Store.C106_faulty_map_partial",
    "Verif.Garnet.Store.C106_others_partial",
    "Verif.Garnet.Store.C106_count",
    "Verif.Garnet.Store.C106_orphans_stay",
    "Verif.Garnet.Store.C106_lost_mapping_refuted",
    "Verif.Garnet.Store.C106_failed_insert_refuted",
    "Verif.Garnet.Store.C106_failed_insert_reported_refuted",
    "Verif.Garnet.Store.C106_failed_remove_reported_refuted",
    "Verif.Garnet.Store.C106_twice_refuted",
    "Verif.Garnet.Store.C106_remove_reports",
    "Verif.Garnet.Store.C106_count_refuted"
   ],
   "note": "Proved for histories without storage failures and re-insertions, and for failures other than losing the mapping to the internal id; the rest is refuted."
  },
  {
   "property": "C107",
   "status": "partial",
   "theorems": [
    "Verif.Garnet.Start.C107_once",
    "Verif.Garnet.Start.C107_passed",
    "Verif.Garnet.Start.C107_failed_reopens",
    "Verif.Garnet.Start.C107_progress",
    "Verif.Garnet.Start.C107_set_partial",
    "Verif.Garnet.Start.C107_first_stays",
    "Verif.Garnet.Start.C107_failed_for_ever",
    "Verif.Garnet.Start.C107_no_index_refuted"
   ],
   "note": "Trying again after a failed first insertion is refuted; the rest is proved."
  },
  {
   "property": "C108",
   "status": "partial",
   "theorems": [
    "Verif.Garnet.Report.C108_written",
    "Verif.Garnet.Report.C108_full_search",
    "Verif.Garnet.Report.C108_quantized_search",
    "Verif.Garnet.Report.C108_random_members",
    "Verif.Garnet.Report.C108_random_members_all",
    "Verif.Garnet.Report.C108_random_members_full",
    "Verif.Garnet.Report.C108_random_members_silent",
    "Verif.Garnet.Report.C108_neighbors_partial",
    "Verif.Garnet.Report.C108_dangling"
   ],
   "note": "Listing neighbours is proved when no neighbour was removed; otherwise it fails."
  },
  {
   "property": "C109",
   "status": "partial",
   "theorems": [
    "Verif.Garnet.Quant.C109_covered_partial",
    "Verif.Garnet.Quant.C109_reuse_after_partial",
    "Verif.Garnet.Quant.C109_finishes_partial",
    "Verif.Garnet.Quant.C109_stays_partial",
    "Verif.Garnet.Quant.C109_extra_tasks",
    "Verif.Garnet.Quant.C109_trained_once",
    "Verif.Garnet.Quant.C109_train_answers",
    "Verif.Garnet.Quant.C109_task_answers",
    "Verif.Garnet.Quant.C109_shares",
    "Verif.Garnet.Quant.C109_restart_refuted",
    "Verif.Garnet.Quant.C109_retry_refuted",
    "Verif.Garnet.Quant.C109_failed_write_refuted",
    "Verif.Garnet.Quant.C109_start_point_refuted",
    "Verif.Garnet.Quant.C109_same_task_refuted"
   ],
   "note": "Proved for runs in which storage calls succeed and each task is started once; otherwise refuted."
  },
  {
   "property": "C110",
   "status": "partial",
   "theorems": [
    "Verif.Io.C110_read_partial",
    "Verif.Io.C110_ends",
    "Verif.Io.C110_errors_noticed",
    "Verif.Io.C110_contained",
    "Verif.Io.C110_short_refuted",
    "Verif.Io.C110_left_over",
    "Verif.Io.C110_after_error_refuted",
    "Verif.Io.C110_signal_refuted",
    "Verif.Io.C110_error_code_refuted",
    "Verif.Io.C110_storage",
    "Verif.Io.C110_aligned",
    "Verif.Io.C110_unaligned",
    "Verif.Io.C110_accepts",
    "Verif.Io.C110_queue"
   ],
   "note": "Proved when reads are not short, no signal ends a wait and no earlier call failed; each of the three is refuted."
  },
  {
   "property": "C111",
   "status": "partial",
   "theorems": [
    "Verif.Alloc.C111_next_multiple",
    "Verif.Alloc.C111_bump",
    "Verif.Alloc.C111_kept",
    "Verif.Alloc.C111_fails_only_full",
    "Verif.Alloc.C111_progress",
    "Verif.Alloc.C111_new_partial",
    "Verif.Alloc.C111_new_refuted",
    "Verif.Alloc.C111_new_with",
    "Verif.Alloc.C111_from_iter",
    "Verif.Alloc.C111_made"
   ],
   "note": "The bump allocator is proved in full; a pointer to a single value for values with a size."
  },
  {
   "property": "C112",
   "status": "partial",
   "theorems": [
    "Verif.Runner.C112_subset",
    "Verif.Runner.C112_subset_order",
    "Verif.Runner.C112_score",
    "Verif.Runner.C112_best",
    "Verif.Runner.C112_registered",
    "Verif.Runner.C112_tolerances",
    "Verif.Runner.C112_checks",
    "Verif.Runner.C112_problems",
    "Verif.Runner.C112_accepts",
    "Verif.Runner.C112_no_panic",
    "Verif.Runner.C112_verdict_partial",
    "Verif.Runner.C112_outcome",
    "Verif.Runner.C112_report",
    "Verif.Runner.C112_inputs_ignored",
    "Verif.Runner.C112_other_benchmark_refuted",
    "Verif.Runner.C112_tolerance_type_refuted",
    "Verif.Runner.C112_output_refuted",
    "Verif.Runner.C112_wrong_results_refuted"
   ],
   "note": ""
  },
  {
   "property": "C113",
   "status": "partial",
   "theorems": [
    "Verif.Runner.C113_whole",
    "Verif.Runner.C113_kept",
    "Verif.Runner.C113_before_job",
    "Verif.Runner.C113_success",
    "Verif.Runner.C113_no_errors_partial",
    "Verif.Runner.C113_stuck",
    "Verif.Runner.C113_restart_refuted",
    "Verif.Runner.C113_two_writers_refuted"
   ],
   "note": "atomic documents and kept results proved for all crash points of runs one after the other; restarts after a kill in a save and concurrent saves are refuted"
  },
  {
   "property": "C114",
   "status": "proved",
   "theorems": [
    "Verif.Garnet.Beam.C114_reported",
    "Verif.Garnet.Beam.C114_start_missing",
    "Verif.Garnet.Beam.C114_filtered_same",
    "Verif.Garnet.Beam.C114_decisions",
    "Verif.Garnet.Beam.C114_accept_only",
    "Verif.Garnet.Beam.C114_accept_only_same",
    "Verif.Garnet.Beam.C114_no_panic",
    "Verif.Garnet.Beam.C114_fill"
   ],
   "note": ""
  },
  {
   "property": "C115",
   "status": "partial",
   "theorems": [
    "Verif.Garnet.Race.C115_kept_partial",
    "Verif.Garnet.Race.C115_fresh_kept",
    "Verif.Garnet.Race.C115_lists_partial",
    "Verif.Garnet.Race.C115_reuse_refuted",
    "Verif.Garnet.Race.C115_double_remove_refuted",
    "Verif.Garnet.Race.C115_lost_edge_refuted"
   ],
   "note": ""
  },
  {
   "property": "C116",
   "status": "proved",
   "theorems": [
    "Verif.Label.Fault.C116_others",
    "Verif.Label.Fault.C116_retry",
    "Verif.Label.Fault.C116_between",
    "Verif.Label.Fault.C116_progress",
    "Verif.Label.Fault.C116_fault_free",
    "Verif.Label.Fault.C116_full_label",
    "Verif.Label.Fault.C116_orphan_refuted",
    "Verif.Label.Fault.C116_stale_refuted",
    "Verif.Label.Fault.C116_lost_refuted",
    "Verif.Label.Fault.C116_full_refuted"
   ],
   "note": ""
  },
  {
   "property": "C117",
   "status": "proved",
   "theorems": [
    "Verif.Bftree.Vecs.C117_kept",
    "Verif.Bftree.Vecs.C117_gone",
    "Verif.Bftree.Vecs.C117_no_ghost",
    "Verif.Bftree.Vecs.C117_agree",
    "Verif.Bftree.Vecs.C117_given",
    "Verif.Bftree.Vecs.C117_progress",
    "Verif.Bftree.Vecs.C117_expand",
    "Verif.Bftree.Vecs.C117_rerank",
    "Verif.Bftree.Vecs.C117_deleted_not_found",
    "Verif.Bftree.Vecs.C117_start",
    "Verif.Bftree.Vecs.C117_stale_refuted",
    "Verif.Bftree.Vecs.C117_start_deleted_refuted",
    "Verif.Bftree.Vecs.C117_ghost_refuted"
   ],
   "note": ""
  },
  {
   "property": "C118",
   "status": "proved",
   "theorems": [
    "Verif.Bftree.Save.C118_saved",
    "Verif.Bftree.Save.C118_round_trip",
    "Verif.Bftree.Save.C118_plain_of_quant",
    "Verif.Bftree.Save.C118_wrong_kind",
    "Verif.Bftree.Save.C118_others",
    "Verif.Bftree.Save.C118_fresh_crash",
    "Verif.Bftree.Save.C118_no_snapshot",
    "Verif.Bftree.Save.C118_crash_refuted",
    "Verif.Bftree.Save.C118_failed_refuted",
    "Verif.Bftree.Save.C118_copy_refuted",
    "Verif.Bftree.Save.C118_storage_refuted",
    "Verif.Bftree.Save.C118_dtype_refuted",
    "Verif.Bftree.Save.C118_moment_refuted"
   ],
   "note": ""
  },
  {
   "property": "C119",
   "status": "proved",
   "theorems": [
    "Verif.Vec.Contains.C119_u32",
    "Verif.Vec.Contains.C119_u64"
   ],
   "note": ""
  },
  {
   "property": "C120",
   "status": "partial",
   "theorems": [
    "Verif.Search.Beta.C120_neutral",
    "Verif.Search.Beta.C120_results",
    "Verif.Search.Beta.C120_preferred_partial",
    "Verif.Search.Beta.C120_small_factor",
    "Verif.Search.Beta.C120_accepted",
    "Verif.Search.Beta.C120_negative_refuted",
    "Verif.Search.Beta.C120_stop_refuted",
    "Verif.Search.Beta.C120_factor_refuted"
   ],
   "note": "preference holds for non-negative distances; refuted for negative ones, for early termination and for the check of the factor"
  },
  {
   "property": "C121",
   "status": "partial",
   "theorems": [
    "Verif.Inmem.Live.C121_outcome",
    "Verif.Inmem.Live.C121_results",
    "Verif.Inmem.Live.C121_deleted",
    "Verif.Inmem.Live.C121_distinct",
    "Verif.Inmem.Live.C121_count_partial",
    "Verif.Inmem.Live.C121_count_refuted",
    "Verif.Inmem.Live.C121_progress",
    "Verif.Inmem.Live.C121_expand",
    "Verif.Inmem.Live.C121_expand_error",
    "Verif.Inmem.Live.C121_prefetch",
    "Verif.Inmem.Live.C121_reuse_refuted"
   ],
   "note": "the count is right only if the output is not full; edges of an element in a reused slot can be dropped by the deletion of its predecessor"
  },
  {
   "property": "C122",
   "status": "proved",
   "theorems": [
    "Verif.Vec.Lane.C122_compare_unsigned",
    "Verif.Vec.Lane.C122_compare_signed",
    "Verif.Vec.Lane.C122_select",
    "Verif.Vec.Lane.C122_mul",
    "Verif.Vec.Lane.C122_min_max",
    "Verif.Vec.Lane.C122_min_max_fast",
    "Verif.Vec.Lane.C122_shift",
    "Verif.Vec.Lane.C122_sum_order",
    "Verif.Vec.Lane.C122_sum",
    "Verif.Vec.Lane.C122_dot",
    "Verif.Vec.Lane.C122_zip",
    "Verif.Vec.Lane.C122_unzip",
    "Verif.Vec.Lane.C122_from_bits",
    "Verif.Vec.Lane.C122_to_bits",
    "Verif.Vec.Lane.C122_bits_round_trip",
    "Verif.Vec.Lane.C122_keep_first",
    "Verif.Vec.Lane.C122_bits_build",
    "Verif.Vec.Lane.C122_bits_read",
    "Verif.Vec.Lane.C122_bits_split",
    "Verif.Vec.Lane.C122_doubled"
   ],
   "note": ""
  },
  {
   "property": "C123",
   "status": "partial",
   "theorems": [
    "Verif.Disk.QuantType.C123_accepts",
    "Verif.Disk.QuantType.C123_accepted_valid",
    "Verif.Disk.QuantType.C123_round_trip_partial",
    "Verif.Disk.QuantType.C123_default_deviation_lost",
    "Verif.Disk.QuantType.C123_zero_chunks_refused",
    "Verif.Disk.QuantType.C123_distinct",
    "Verif.Disk.QuantType.C123_case",
    "Verif.Disk.QuantType.C123_space"
   ],
   "note": ""
  },
  {
   "property": "C124",
   "status": "partial",
   "theorems": [
    "Verif.Runner.Latency.C124_total",
    "Verif.Runner.Latency.C124_minimum",
    "Verif.Runner.Latency.C124_percentiles",
    "Verif.Runner.Latency.C124_median",
    "Verif.Runner.Latency.C124_median_middle",
    "Verif.Runner.Latency.C124_ordered",
    "Verif.Runner.Latency.C124_order",
    "Verif.Runner.Latency.C124_mean_partial",
    "Verif.Runner.Latency.C124_mean_refuted",
    "Verif.Runner.Latency.C124_max",
    "Verif.Runner.Latency.C124_change",
    "Verif.Runner.Latency.C124_change_sign",
    "Verif.Runner.Latency.C124_check_error",
    "Verif.Runner.Latency.C124_check",
    "Verif.Runner.Latency.C124_same_partial",
    "Verif.Runner.Latency.C124_same_refuted"
   ],
   "note": ""
  },
  {
   "property": "C125",
   "status": "partial",
   "theorems": [
    "Verif.Quant.Canon.C125_front_partial",
    "Verif.Quant.Canon.C125_back_partial",
    "Verif.Quant.Canon.C125_back_mut",
    "Verif.Quant.Canon.C125_front_write_read_partial",
    "Verif.Quant.Canon.C125_back_write_read_partial",
    "Verif.Quant.Canon.C125_overflow_refuted",
    "Verif.Quant.Canon.C125_slice_partial",
    "Verif.Quant.Canon.C125_slice_accepts_partial",
    "Verif.Quant.Canon.C125_slice_overflow_refuted",
    "Verif.Quant.Canon.C125_minmax",
    "Verif.Quant.Canon.C125_minmax_round_trip",
    "Verif.Quant.Canon.C125_minmax_trailing",
    "Verif.Quant.Canon.C125_minmax_destination",
    "Verif.Quant.Canon.C125_minmax_mismatch",
    "Verif.Quant.Canon.C125_minmax_length_refuted",
    "Verif.Quant.Canon.C125_minmax_error_refuted"
   ],
   "note": ""
  },
  {
   "property": "C126",
   "status": "partial",
   "theorems": [
    "Verif.Spherical.Iface.C126_supported",
    "Verif.Spherical.Iface.C126_supported_forms",
    "Verif.Spherical.Iface.C126_layout",
    "Verif.Spherical.Iface.C126_buffer",
    "Verif.Spherical.Iface.C126_data",
    "Verif.Spherical.Iface.C126_evaluate",
    "Verif.Spherical.Iface.C126_no_unequal",
    "Verif.Spherical.Iface.C126_contents",
    "Verif.Spherical.Iface.C126_data_contents",
    "Verif.Spherical.Iface.C126_fused",
    "Verif.Spherical.Iface.C126_rescale_ignored",
    "Verif.Spherical.Iface.C126_rescale_partial",
    "Verif.Spherical.Iface.C126_zero_query_refuted",
    "Verif.Spherical.Iface.C126_confusion_partial",
    "Verif.Spherical.Iface.C126_confusion_refuted",
    "Verif.Spherical.Iface.C126_round_trip",
    "Verif.Spherical.Iface.C126_deserialize_width",
    "Verif.Spherical.Iface.C126_deserialize_errors"
   ],
   "note": ""
  },
  {
   "property": "C127",
   "status": "partial",
   "theorems": [
    "Verif.Tools.RandomData.C127_accepts",
    "Verif.Tools.RandomData.C127_rows",
    "Verif.Tools.RandomData.C127_samples_partial",
    "Verif.Tools.RandomData.C127_repeat_refuted",
    "Verif.Tools.RandomData.C127_nonzero",
    "Verif.Tools.RandomData.C127_refused",
    "Verif.Tools.RandomData.C127_failed",
    "Verif.Tools.RandomData.C127_radius",
    "Verif.Tools.RandomData.C127_nan_refuted",
    "Verif.Tools.RandomData.C127_norm_partial",
    "Verif.Tools.RandomData.C127_fp16",
    "Verif.Tools.RandomData.C127_int8_partial",
    "Verif.Tools.RandomData.C127_uint8_partial",
    "Verif.Tools.RandomData.C127_nearest_uint8",
    "Verif.Tools.RandomData.C127_nearest_int8"
   ],
   "note": ""
  },
  {
   "property": "C128",
   "status": "partial",
   "theorems": [
    "Verif.Tools.LabelGen.C128_random",
    "Verif.Tools.LabelGen.C128_zipf",
    "Verif.Tools.LabelGen.C128_one_partial",
    "Verif.Tools.LabelGen.C128_one_refuted",
    "Verif.Tools.LabelGen.C128_unknown_refuted",
    "Verif.Tools.LabelGen.C128_no_labels_refuted",
    "Verif.Tools.LabelGen.C128_matches",
    "Verif.Tools.LabelGen.C128_padded",
    "Verif.Tools.LabelGen.C128_empty_query_refuted"
   ],
   "note": ""
  },
  {
   "property": "C129",
   "status": "partial",
   "theorems": [
    "Verif.Error.AnnError.C129_newest",
    "Verif.Error.AnnError.C129_is",
    "Verif.Error.AnnError.C129_agree",
    "Verif.Error.AnnError.C129_original_partial",
    "Verif.Error.AnnError.C129_original_refuted",
    "Verif.Error.AnnError.C129_display",
    "Verif.Error.AnnError.C129_write",
    "Verif.Error.AnnError.C129_write_read",
    "Verif.Error.AnnError.C129_result"
   ],
   "note": ""
  },
  {
   "property": "C130",
   "status": "partial",
   "theorems": [
    "Verif.Tools.Contrast.C130_value_partial",
    "Verif.Tools.Contrast.C130_panics",
    "Verif.Tools.Contrast.C130_short_refuted",
    "Verif.Tools.Contrast.C130_finite_refuted",
    "Verif.Tools.Contrast.C130_dimension_refuted",
    "Verif.Tools.Contrast.C130_subsample",
    "Verif.Tools.Contrast.C130_extremes",
    "Verif.Tools.Contrast.C130_subsample_refused"
   ],
   "note": ""
  },
  {
   "property": "C131",
   "status": "proved",
   "theorems": [
    "Verif.Disk.MultiVec.C131_read",
    "Verif.Disk.MultiVec.C131_accepted",
    "Verif.Disk.MultiVec.C131_truncated",
    "Verif.Disk.MultiVec.C131_errors",
    "Verif.Disk.MultiVec.C131_trailing_refuted"
   ],
   "note": ""
  },
  {
   "property": "C132",
   "status": "proved",
   "theorems": [
    "Verif.Pq.C132_history",
    "Verif.Pq.C132_set",
    "Verif.Pq.C132_refused",
    "Verif.Pq.C132_distance",
    "Verif.Pq.C132_pairs",
    "Verif.Pq.C132_zero_refuted",
    "Verif.Pq.C132_dimensions_refuted"
   ],
   "note": ""
  },
  {
   "property": "C133",
   "status": "proved",
   "theorems": [
    "Verif.Runner.Checker.C133_input",
    "Verif.Runner.Checker.C133_input_file",
    "Verif.Runner.Checker.C133_outputs",
    "Verif.Runner.Checker.C133_join_ends",
    "Verif.Runner.Checker.C133_root",
    "Verif.Runner.Checker.C133_join",
    "Verif.Runner.Checker.C133_spelling",
    "Verif.Runner.Checker.C133_parent_refuted",
    "Verif.Runner.Checker.C133_default_refuted",
    "Verif.Runner.Checker.C133_absolute_refuted",
    "Verif.Runner.Checker.C133_working_refuted"
   ],
   "note": ""
  },
  {
   "property": "C134",
   "status": "proved",
   "theorems": [
    "Verif.Label.Jsonl.C134_lines",
    "Verif.Label.Jsonl.C134_read",
    "Verif.Label.Jsonl.C134_first_error",
    "Verif.Label.Jsonl.C134_blank",
    "Verif.Label.Jsonl.C134_ground_truth",
    "Verif.Label.Jsonl.C134_ground_truth_errors",
    "Verif.Label.Jsonl.C134_count_refuted",
    "Verif.Label.Jsonl.C134_queries"
   ],
   "note": ""
  },
  {
   "property": "C135",
   "status": "proved",
   "theorems": [
    "Verif.Bench.Linear.C135_exact",
    "Verif.Bench.Linear.C135_distinct",
    "Verif.Bench.Linear.C135_error",
    "Verif.Bench.Linear.C135_schedule",
    "Verif.Bench.Linear.C135_large_refuted",
    "Verif.Bench.Linear.C135_values",
    "Verif.Bench.Linear.C135_pairs",
    "Verif.Bench.Linear.C135_zero_refuted"
   ],
   "note": ""
  },
  {
   "property": "C136",
   "status": "proved",
   "theorems": [
    "Verif.Bench.Span.C136_once",
    "Verif.Bench.Span.C136_children",
    "Verif.Bench.Span.C136_export",
    "Verif.Bench.Span.C136_metrics",
    "Verif.Bench.Span.C136_duration_refuted",
    "Verif.Bench.Span.C136_orphans_refuted",
    "Verif.Bench.Span.C136_zero_refuted",
    "Verif.Bench.Span.C136_twice_refuted"
   ],
   "note": ""
  },
  {
   "property": "C137",
   "status": "partial",
   "theorems": [
    "Verif.Tools.C137_values",
    "Verif.Tools.C137_share_partial",
    "Verif.Tools.C137_errors",
    "Verif.Tools.C137_range",
    "Verif.Tools.C137_median",
    "Verif.Tools.C137_printed",
    "Verif.Tools.C137_duplicates_refuted"
   ],
   "note": "The values and statistics are proved in full for the semantics of the bitmaps; agreement with the evaluation of filters on labels is proved for the filters of C91_agrees_partial."
  }
 ]
}