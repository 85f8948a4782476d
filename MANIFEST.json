{
 "claims": [
  {
   "property": "C01",
   "status": "proved",
   "theorems": [
    "Verif.Exec.C01_status_monotone",
    "Verif.Exec.C01_finished_is_final",
    "Verif.Exec.C01_terminal_iff_finished",
    "Verif.Exec.C01_first_final_report_wins",
    "Verif.Exec.C01_unfinished_shows_most_advanced"
   ],
   "note": "All reports in any order; the state shown is the consolidated one."
  },
  {
   "property": "C02",
   "status": "proved",
   "theorems": [
    "Verif.Exec.C02_attempts_are_bounded",
    "Verif.Exec.C02_job_fails_exactly_when_attempts_exhausted",
    "Verif.Exec.C02_job_fails_only_by_refresh"
   ],
   "note": "For every history of status reports, refreshes, clean-ups and cancellations."
  },
  {
   "property": "C03",
   "status": "partial",
   "theorems": [
    "Verif.Exec.C03_dependencies_succeeded_when_scheduled",
    "Verif.Exec.C03_blocking_inputs_complete_partial",
    "Verif.Exec.C03_dependencies_complete_partial",
    "Verif.Exec.C03_union_reads_unfinished_stage"
   ],
   "note": "Structure and schedule: when a region is handed out, every task of every region it depends on has succeeded (proved); the dependencies are complete unless a one-to-one input sits below a union, where the code misses them (C03_union_reads_unfinished_stage)."
  },
  {
   "property": "C04",
   "status": "proved",
   "theorems": [
    "Verif.Exec.C04_only_latest_attempt_is_live",
    "Verif.Exec.C04_at_most_one_live_attempt"
   ],
   "note": "For every history."
  },
  {
   "property": "C05",
   "status": "proved",
   "theorems": [
    "Verif.Exec.C05_pipelined_tasks_retry_together",
    "Verif.Exec.C05_failure_stops_the_whole_region"
   ],
   "note": "Attempt counts agree inside a region for every history; a failure stops the whole region."
  },
  {
   "property": "C06",
   "status": "partial",
   "theorems": [
    "Verif.Exec.Output.C06_output_is_one_attempt_partial",
    "Verif.Exec.Output.C06_open_stream_conflict_is_an_error",
    "Verif.Exec.Output.C06_rows_delivered_twice",
    "Verif.Exec.C06_attempt_is_added_once",
    "Verif.Exec.C06_output_complete"
   ],
   "note": "Full statement is false (C06_rows_delivered_twice). Proved: when a retry arrives while the earlier stream is still open (or delivered nothing), the rows of one attempt only are delivered, and a conflict is an error."
  },
  {
   "property": "C07",
   "status": "partial",
   "theorems": [
    "Verif.Exec.C07_success_means_every_task_succeeded",
    "Verif.Exec.C07_failed_job_never_succeeds_partial",
    "Verif.Exec.C07_failed_job_ends_canceled",
    "Verif.Exec.C07_repeated_clean_up_cancels_succeeded_job"
   ],
   "note": "Full statement is false: a failed job is reported as canceled after clean-up (C07_failed_job_ends_canceled). Proved: success implies every task succeeded; a failed job is never reported as succeeded."
  },
  {
   "property": "C08",
   "status": "proved",
   "theorems": [
    "Verif.Exec.Assign.C08_only_vacant_slots_are_used",
    "Verif.Exec.Assign.C08_slot_holds_exactly_its_task_set",
    "Verif.Exec.Assign.C08_driver_slot_holds_one_set",
    "Verif.Exec.Assign.C08_driver_removal_keeps_other_tasks",
    "Verif.Exec.Assign.C08_driver_removal_removes"
   ],
   "note": "For every history of assigner operations."
  },
  {
   "property": "C09",
   "status": "proved",
   "theorems": [
    "Verif.Exec.Assign.C09_regions_are_placed_whole_and_in_order",
    "Verif.Exec.Assign.C09_waits_only_for_lack_of_slots"
   ],
   "note": "Exact characterisation of one assignment round; waiting only for lack of slots."
  },
  {
   "property": "C10",
   "status": "partial",
   "theorems": [
    "Verif.Exec.Assign.C10_worker_limit_partial",
    "Verif.Exec.Assign.C10_initial_workers_are_not_counted"
   ],
   "note": "Full statement is false with initial workers (C10_initial_workers_are_not_counted); proved without."
  },
  {
   "property": "C11",
   "status": "partial",
   "theorems": [
    "Verif.Exec.C11_every_slot_has_work_partial",
    "Verif.Exec.C11_sliced_region_asks_for_unused_slots"
   ],
   "note": "Full statement is false for sliced regions (C11_sliced_region_asks_for_unused_slots); proved for regions that are not sliced."
  },
  {
   "property": "C12",
   "status": "proved",
   "theorems": [
    "Verif.Exec.C12_partitions_never_share_a_slot",
    "Verif.Exec.C12_every_task_in_exactly_one_set"
   ],
   "note": ""
  },
  {
   "property": "C13",
   "status": "proved",
   "theorems": [
    "Verif.Exec.Assign.C13_worker_with_output_is_not_idle",
    "Verif.Exec.Assign.C13_worker_with_task_is_not_idle",
    "Verif.Exec.Assign.C13_fresh_worker_is_idle"
   ],
   "note": "Any history before and after the placement."
  },
  {
   "property": "C14",
   "status": "proved",
   "theorems": [
    "Verif.Exec.C14_regions_cover_tasks_exactly_once",
    "Verif.Exec.C14_pipelined_tasks_share_a_region",
    "Verif.Exec.C14_region_is_connected",
    "Verif.Exec.C14_rejected_only_for_partition_mismatch",
    "Verif.Exec.C14_union_with_driver_stage_rejected"
   ],
   "note": "Includes a characterisation of the only way the split can be rejected."
  },
  {
   "property": "C15",
   "status": "partial",
   "theorems": [
    "Verif.Exec.C15_forward_exactly_once",
    "Verif.Exec.C15_forward_same_partition",
    "Verif.Exec.C15_shuffle_exactly_once",
    "Verif.Exec.C15_merge_each_reader_once",
    "Verif.Exec.C15_broadcast_each_reader_once",
    "Verif.Exec.C15_rescale_exactly_once_partial",
    "Verif.Exec.C15_rescale_union_loses_input",
    "Verif.Exec.C15_only_existing_outputs",
    "Verif.Exec.C15_missing_attempt_is_error"
   ],
   "note": "Exactly-once reading is proved for all input modes except coalesce (rescale) below a union, where the code loses input: see C15_rescale_union_loses_input."
  },
  {
   "property": "C16",
   "status": "proved",
   "theorems": [
    "Verif.Exec.C16_replicas_eq_reads",
    "Verif.Exec.C16_final_stage_one_replica",
    "Verif.Exec.Streams.C16_every_reader_gets_a_replica",
    "Verif.Exec.Streams.C16_surplus_reader_is_refused"
   ],
   "note": "For all stage graphs; number of replicas equals number of reads of each channel."
  },
  {
   "property": "C17",
   "status": "proved",
   "theorems": [
    "Verif.Exec.C17_concat_is_all_inputs",
    "Verif.Exec.C17_unique_owner",
    "Verif.Exec.C17_balanced",
    "Verif.Exec.C17_no_empty_output"
   ],
   "note": "For every number of input and output partitions."
  },
  {
   "property": "C18",
   "status": "proved",
   "theorems": [
    "Verif.Exec.Streams.C18_nothing_lost_or_reordered",
    "Verif.Exec.Streams.C18_end_of_stream_means_complete",
    "Verif.Exec.Streams.C18_committed_stream_can_be_read_completely",
    "Verif.Exec.Streams.C18_commit_can_finish"
   ],
   "note": "Any buffer size, number of readers and interleaving; includes that a suspended commit can always finish."
  },
  {
   "property": "C19",
   "status": "proved",
   "theorems": [
    "Verif.Exec.Streams.C19_committed_stream_reads_back",
    "Verif.Exec.Streams.C19_uncommitted_stream_is_a_prefix",
    "Verif.Exec.Streams.C19_other_streams_unaffected",
    "Verif.Exec.Streams.C19_abort_leaves_nothing"
   ],
   "note": "For every file-size limit, listing order and store content; fewer than 10^20 batches."
  },
  {
   "property": "C20",
   "status": "partial",
   "theorems": [
    "Verif.Exec.C20_removed_output_is_read_again",
    "Verif.Exec.C20_removed_output_is_not_needed_partial"
   ],
   "note": "Full statement is false (C20_removed_output_is_read_again): an output is removed although a later retry reads it. Proved: at the moment of removal no unfinished attempt reads it."
  },
  {
   "property": "C21",
   "status": "proved",
   "theorems": [
    "Verif.Exec.Pool.C21_applied_iff_newest",
    "Verif.Exec.Pool.C21_last_applied_is_newest"
   ],
   "note": "For every delivery order with duplicates; reports the driver makes itself carry no number."
  },
  {
   "property": "C22",
   "status": "proved",
   "theorems": [
    "Verif.Exec.Pool.C22_identifiers_increase",
    "Verif.Exec.Pool.C22_exhaustion_is_an_error"
   ],
   "note": "For any number of requests, including exhaustion."
  },
  {
   "property": "C23",
   "status": "proved",
   "theorems": [
    "Verif.Phys.Rows.C23_independent_of_batches",
    "Verif.Phys.Rows.C23_every_row_once",
    "Verif.Phys.Rows.C23_only_existing_partitions",
    "Verif.Phys.Rows.C23_order_is_kept",
    "Verif.Phys.Rows.C23_shares_are_even",
    "Verif.Phys.Rows.C23_inputs_begin_spread",
    "Verif.Phys.Rows.C23_new"
   ],
   "note": "Includes independence of batching."
  },
  {
   "property": "C24",
   "status": "partial",
   "theorems": [
    "Verif.Phys.Range.C24_partitions_make_up_the_progression_partial",
    "Verif.Phys.Range.C24_unrepresentable_end_loses_rows"
   ],
   "note": "Full statement is false: rows are lost when the next value after the last row is not a 64-bit number (C24_unrepresentable_end_loses_rows); proved otherwise."
  },
  {
   "property": "C25",
   "status": "proved",
   "theorems": [
    "Verif.Phys.Rows.C25_too_many_rows_is_an_error",
    "Verif.Phys.Rows.C25_increasing",
    "Verif.Phys.Rows.C25_distinct_across_partitions",
    "Verif.Phys.Rows.C25_value",
    "Verif.Phys.Rows.C25_partition_bound_is_sharp"
   ],
   "note": "Fewer than 2^31 partitions; the bound is shown to be sharp."
  },
  {
   "property": "C26",
   "status": "proved",
   "theorems": [
    "Verif.Phys.Rows.C26_fails_iff_matched_twice",
    "Verif.Phys.Rows.C26_passes_a_prefix"
   ],
   "note": "Rows of one target row reach one partition by the hash repartitioning required by the operator, which is not modelled."
  },
  {
   "property": "C27",
   "status": "proved",
   "theorems": [
    "Verif.Phys.Rows.C27_rows_are_the_window",
    "Verif.Phys.Rows.C27_markers_are_forwarded"
   ],
   "note": "Any skip, fetch, batching and interleaving of markers."
  },
  {
   "property": "C28",
   "status": "partial",
   "theorems": [
    "Verif.Phys.Rows.C28_round_trip_partial",
    "Verif.Phys.Rows.C28_no_column_fails"
   ],
   "note": "Full statement is false without data columns (C28_no_column_fails); proved with at least one data column for every re-batching. The byte encoding of one marker is a hypothesis."
  },
  {
   "property": "C29",
   "status": "proved",
   "theorems": [
    "Verif.Exec.Streams.C29_stops_only_when_nobody_reads",
    "Verif.Exec.Streams.C29_remaining_readers_get_everything",
    "Verif.Exec.Streams.C29_unknown_channel_is_an_error"
   ],
   "note": ""
  },
  {
   "property": "C30",
   "status": "proved",
   "theorems": [
    "Verif.Exec.C30_running_job_has_unfinished_task",
    "Verif.Exec.C30_region_dependencies_acyclic",
    "Verif.Exec.C30_no_dependencies_when_all_pipelined"
   ],
   "note": "Includes acyclicity of region dependencies."
  },
  {
   "property": "C31",
   "status": "proved",
   "theorems": [
    "Verif.Exec.C31_reported_cause_is_real",
    "Verif.Exec.C31_cause_is_kept"
   ],
   "note": ""
  },
  {
   "property": "C32",
   "status": "proved",
   "theorems": [
    "Verif.Exec.Pool.C32_ended_worker_never_runs_again",
    "Verif.Exec.Pool.C32_registers_once",
    "Verif.Exec.Pool.C32_registers_only_after_start"
   ],
   "note": "For every history of worker events."
  },
  {
   "property": "C33",
   "status": "partial",
   "theorems": [
    "Verif.Exec.Driver.C33_dispatched_attempts_are_live_partial",
    "Verif.Exec.Driver.C33_timed_out_attempt_is_dispatched",
    "Verif.Exec.Driver.C33_failed_job_is_dispatched"
   ],
   "note": "Full statement is false (C33_timed_out_attempt_is_dispatched, C33_failed_job_is_dispatched); proved when reports only concern attempts that were dispatched."
  },
  {
   "property": "C34",
   "status": "partial",
   "theorems": [
    "Verif.Exec.LocalStreams.C34_removed_output_looks_empty",
    "Verif.Exec.Streams.C34_failed_producer_looks_complete",
    "Verif.Exec.Streams.C34_end_of_data_is_genuine_partial"
   ],
   "note": "Full statement is false for in-memory streams (C34_failed_producer_looks_complete); proved for streams that are not aborted."
  },
  {
   "property": "C35",
   "status": "proved",
   "theorems": [
    "Verif.Exec.Pool.C35_silent_worker_is_detected",
    "Verif.Exec.Pool.C35_beating_worker_is_not_lost"
   ],
   "note": "For every history."
  },
  {
   "property": "C36",
   "status": "partial",
   "theorems": [
    "Verif.Exec.Pool.C36_stopped_only_after_idle_time",
    "Verif.Exec.Pool.C36_idle_worker_is_never_stopped",
    "Verif.Exec.Pool.C36_idle_worker_is_stopped_partial"
   ],
   "note": "Never released early (proved); full statement is false: an idle worker may never be released (C36_idle_worker_is_never_stopped)."
  },
  {
   "property": "C37",
   "status": "proved",
   "theorems": [
    "Verif.Delta.Log.C37_load_equals_history"
   ],
   "note": "For every history of commits, checkpoints (classic and V2, at any version and time, with or without hint) and clean-ups. Compactions are C38. Transactions and tombstones may expire; those without a time are proved to be kept."
  },
  {
   "property": "C38",
   "status": "partial",
   "theorems": [
    "Verif.Delta.Log.C38_load_with_compactions_partial",
    "Verif.Delta.Log.C38_covered_versions_load_partial",
    "Verif.Delta.Log.C38_compaction_revives_domain",
    "Verif.Delta.Log.C38_compaction_revives_file",
    "Verif.Delta.Log.C38_compaction_after_checkpoint_is_skipped"
   ],
   "note": "Proved for every history in which compacted ranges contain no removed domain and no tombstone older than the cutoff (LosslessRun) and no compaction starts right after a checkpoint (Unaligned): loading gives the table of the history and every covered version loads. Each exclusion is necessary: C38_compaction_revives_domain, C38_compaction_revives_file, C38_compaction_after_checkpoint_is_skipped."
  },
  {
   "property": "C39",
   "status": "partial",
   "theorems": [
    "Verif.Delta.Log.C39_covered_versions_load_partial",
    "Verif.Delta.Log.C39_newest_version_loads",
    "Verif.Delta.Log.C39_time_travel_below_hint_fails"
   ],
   "note": "Proved for every version not older than the last-checkpoint hint, and for the newest version of every history. Below the hint it is false: C39_time_travel_below_hint_fails. Log compactions are C38."
  },
  {
   "property": "C40",
   "status": "proved",
   "theorems": [
    "Verif.Delta.Log.C40_retained_versions_stay_covered",
    "Verif.Delta.Log.C40_retained_versions_load",
    "Verif.Delta.Log.C40_newest_version_unchanged"
   ],
   "note": "Coverage for every history; loading with the same contents for the newest version and for retained versions not older than the hint (see C39)."
  },
  {
   "property": "C41",
   "status": "partial",
   "theorems": [
    "Verif.Delta.Log.C41_hash_replay_partial",
    "Verif.Delta.Log.C41_sort_replay_partial",
    "Verif.Delta.Log.C41_plan_agrees_with_driver_partial",
    "Verif.Delta.Log.C41_gap_is_not_noticed",
    "Verif.Delta.Log.C41_order_within_commit_is_lost"
   ],
   "note": "Hash and sort replay in the query plan: for every log that resolves, every partition of the keys and every arrival order, the files are exactly those of the history, each once, and agree with the driver. Needs commits that do not add a file before removing it, compactions as in C38, and a log without gaps: witnesses C41_gap_is_not_noticed, C41_order_within_commit_is_lost."
  },
  {
   "property": "C42",
   "status": "partial",
   "theorems": [
    "Verif.Delta.Commit.C42_versions_consecutive",
    "Verif.Delta.Commit.C42_versions_final",
    "Verif.Delta.Commit.C42_one_writer_per_version",
    "Verif.Delta.Commit.C42_every_version_has_writer",
    "Verif.Delta.Commit.C42_answers_final",
    "Verif.Delta.Commit.C42_exclusive",
    "Verif.Delta.Commit.C42_append",
    "Verif.Delta.Commit.C42_read_is_log",
    "Verif.Delta.Commit.C42_create",
    "Verif.Delta.Commit.C42_actions_written",
    "Verif.Delta.Commit.C42_overwrites_of_empty_table_add_up",
    "Verif.Delta.Commit.C42_second_creation_appends",
    "Verif.Delta.Commit.C42_append_does_not_notice_delete"
   ],
   "note": "For any number of writers and every interleaving of looking at the log and put-if-absent: versions are 0,1,2,…, final, each owned by exactly one writer, and answers are final; a writer that does more than append commits exactly the version after the one it read; an append commits only if no protocol, metadata or common application transaction came in between; a creator that lost the race appends only to a table of equal protocol, schema, partitioning and configuration. Partial since replacing data in an empty table or creating a table twice is taken for an append: witnesses C42_overwrites_of_empty_table_add_up, C42_second_creation_appends, C42_append_does_not_notice_delete. Catalog-managed commits are not modelled."
  },
  {
   "property": "C43",
   "status": "partial",
   "theorems": [
    "Verif.Delta.Commit.C43_next_is_later_partial",
    "Verif.Delta.Commit.C43_recorded_times_increase_partial",
    "Verif.Delta.Commit.C43_compacted_log_time"
   ],
   "note": "Every version that records a timestamp records a larger one than the version before (recorded one or modification time), for every clock; by induction for all later versions. Needs timestamps below 2^63-1 and that the snapshot did not take its time from a compacted log file: witness C43_compacted_log_time."
  },
  {
   "property": "C44",
   "status": "partial",
   "theorems": [
    "Verif.Delta.Z85.C44_round_trip",
    "Verif.Delta.Z85.C44_padded_round_trip",
    "Verif.Delta.Z85.C44_encode_injective",
    "Verif.Delta.Z85.C44_bad_text_refused",
    "Verif.Delta.Z85.C44_overflow_accepted",
    "Verif.Delta.Z85.C44_decode_canonical_partial"
   ],
   "note": "Round trip, padding and refusal of bad lengths and characters are proved for all byte strings. Full statement is false for decoding: a group above 2^32-1 is accepted and truncated (C44_overflow_accepted)."
  },
  {
   "property": "C45",
   "status": "proved",
   "theorems": [
    "Verif.Exec.Assign.C45_enough_workers_are_requested",
    "Verif.Exec.Assign.C45_no_needless_workers",
    "Verif.Exec.Assign.C45_all_waiting_regions_are_placed"
   ],
   "note": ""
  },
  {
   "property": "C46",
   "status": "proved",
   "theorems": [
    "Verif.Exec.Assign.C46_exclusion_removes_exactly_its_regions",
    "Verif.Exec.Assign.C46_excluded_task_is_not_assigned"
   ],
   "note": ""
  },
  {
   "property": "C47",
   "status": "partial",
   "theorems": [
    "Verif.Exec.LocalStreams.C47_waiting_readers_have_a_timeout",
    "Verif.Exec.LocalStreams.C47_timeout_fails_the_waiting",
    "Verif.Exec.LocalStreams.C47_creation_serves_the_waiting",
    "Verif.Exec.LocalStreams.C47_planned_readers_are_served",
    "Verif.Exec.LocalStreams.C47_surplus_reader_gets_an_error",
    "Verif.Exec.LocalStreams.C47_old_timeout_fails_new_reader"
   ],
   "note": "All parts proved except the last, which is false: C47_old_timeout_fails_new_reader."
  },
  {
   "property": "C48",
   "status": "partial",
   "theorems": [
    "Verif.Iceberg.C48_files_with_matching_rows_are_kept_partial",
    "Verif.Iceberg.C48_manifests_with_matching_rows_are_kept_partial",
    "Verif.Iceberg.C48_scan_reads_every_matching_row_partial",
    "Verif.Iceberg.C48_scan_reads_only_files_of_the_table",
    "Verif.Iceberg.C48_constant_columns_are_kept_partial",
    "Verif.Iceberg.C48_bounds_hide_matching_rows",
    "Verif.Iceberg.C48_casts_hide_matching_rows",
    "Verif.Iceberg.C48_casts_to_date_hide_matching_rows",
    "Verif.Iceberg.C48_truncated_decimals_hide_matching_rows"
   ],
   "note": "Proved for every schema, partition spec (also several, after evolution), manifest list, filters without casts, and rows: no manifest and no file with a matching row is skipped, and nothing is added. Left out: casts, decimals under bucket/truncate, column bounds that differ; the claim is false there and each has a witness theorem."
  },
  {
   "property": "C49",
   "status": "partial",
   "theorems": [
    "Verif.Iceberg.C49_follows_specification_partial",
    "Verif.Iceberg.C49_order_is_preserved_partial",
    "Verif.Iceberg.C49_bucket_in_range",
    "Verif.Iceberg.C49_dates_before_1970_panic",
    "Verif.Iceberg.C49_decimals_are_not_truncated",
    "Verif.Iceberg.C49_decimals_are_hashed_otherwise",
    "Verif.Iceberg.C49_void_is_not_null",
    "Verif.Iceberg.C49_ends_of_ranges",
    "Verif.Iceberg.C49_bytes_of_strings"
   ],
   "note": "Proved for all transforms but void on all values outside the listed exceptions, plus preservation of the order and the range of buckets. Witnesses show the claim false for dates before 1970 (panic), decimals under truncate and bucket, void, and the ends of the integer ranges."
  },
  {
   "property": "C50",
   "status": "proved",
   "theorems": [
    "Verif.Iceberg.Deletes.C50_partition_keys_are_unique",
    "Verif.Iceberg.Deletes.C50_position_deletes",
    "Verif.Iceberg.Deletes.C50_equality_deletes",
    "Verif.Iceberg.Deletes.C50_index_of_snapshot",
    "Verif.Iceberg.Deletes.C50_deletion_vectors_are_refused"
   ],
   "note": "Injectivity of the byte key over all tuples; look-up after any insertions is the rule of the specification in both directions; index of a snapshot; deletion vectors refused. The rule for delete files that name a data file does not look at the partition, as the property states it."
  },
  {
   "property": "C51",
   "status": "proved",
   "theorems": [
    "Verif.Iceberg.Deletes.C51_keeps_the_rows_not_deleted",
    "Verif.Iceberg.Deletes.C51_no_empty_batches",
    "Verif.Iceberg.Deletes.C51_succeeds",
    "Verif.Iceberg.Deletes.C51_success_means_keys_were_checked",
    "Verif.Iceberg.Deletes.C51_dropped_key_column_fails",
    "Verif.Iceberg.Deletes.C51_promoted_key_column_fails"
   ],
   "note": "Exact rows in order for every batching; no empty batches; when the read succeeds. The read fails (with an error) after a key column was dropped or promoted: two further theorems."
  },
  {
   "property": "C52",
   "status": "partial",
   "theorems": [
    "Verif.Iceberg.Limit.C52_without_limit",
    "Verif.Iceberg.Limit.C52_limit_leaves_enough_rows_partial",
    "Verif.Iceberg.Limit.C52_limit_adds_no_rows",
    "Verif.Iceberg.Limit.C52_files_left_out",
    "Verif.Iceberg.Limit.C52_deletes_leave_too_few_rows",
    "Verif.Iceberg.Limit.C52_partition_evolution_leaves_too_few_rows",
    "Verif.Iceberg.Limit.C52_exact_needs_identity"
   ],
   "note": "Proved when no row is deleted and all rows pass the pushed-down filters. Witnesses: with deletes LIMIT n can return no row of n for every n; after partition evolution an exact filter with LIMIT loses rows."
  },
  {
   "property": "C53",
   "status": "proved",
   "theorems": [
    "Verif.Iceberg.Commit.C53_new_snapshot_is_current",
    "Verif.Iceberg.Commit.C53_append_adds_its_files",
    "Verif.Iceberg.Commit.C53_overwrite_leaves_its_files",
    "Verif.Iceberg.Commit.C53_sequence_numbers_grow",
    "Verif.Iceberg.Commit.C53_sequence_numbers_of_histories",
    "Verif.Iceberg.Commit.C53_earlier_snapshots_stay",
    "Verif.Iceberg.Commit.C53_what_is_refused"
   ],
   "note": "Files of the new snapshot for append, row-level change and overwrite, sequence numbers for one commit and for all histories, earlier snapshots unchanged, and when a commit is refused."
  },
  {
   "property": "C54",
   "status": "proved",
   "theorems": [
    "Verif.Iceberg.Protocol.C54_lands_on_the_snapshot_read_concurrently",
    "Verif.Iceberg.Commit.C54_lands_on_the_snapshot_read",
    "Verif.Iceberg.Commit.C54_fails_on_another_snapshot"
   ],
   "note": "For one commit, and under every interleaving of commits to a path table (with crashes): a row-level commit that returned sits right after the snapshot it was planned on."
  },
  {
   "property": "C55",
   "status": "proved",
   "theorems": [
    "Verif.Iceberg.Commit.C55_inferred_start",
    "Verif.Iceberg.Commit.C55_ids_are_unique",
    "Verif.Iceberg.Commit.C55_histories",
    "Verif.Iceberg.Commit.C55_ids_stay",
    "Verif.Iceberg.Commit.C55_new_ids_are_new",
    "Verif.Iceberg.Commit.C55_format_ids_without_mixing",
    "Verif.Iceberg.Commit.C55_mixed_manifests_differ"
   ],
   "note": "Uniqueness within a snapshot and over all histories, stability, freshness. The ids also agree with the Iceberg format where no manifest mixes files with and without a first row id (C55_format_ids_without_mixing); for mixed manifests, which only other writers make, they differ (C55_mixed_manifests_differ)."
  },
  {
   "property": "C56",
   "status": "proved",
   "theorems": [
    "Verif.Iceberg.Commit.C56_totals",
    "Verif.Iceberg.Commit.C56_delete_totals",
    "Verif.Iceberg.Commit.C56_operation",
    "Verif.Iceberg.Commit.C56_operation_name",
    "Verif.Iceberg.Commit.C56_added_counts"
   ],
   "note": "Totals of files, rows and delete records, and the operation recorded in the summary."
  },
  {
   "property": "C57",
   "status": "partial",
   "theorems": [
    "Verif.Iceberg.Catalog.C57_recorded_table_reports_error_for_committed",
    "Verif.Iceberg.Protocol.C57_commits_are_serialised_partial",
    "Verif.Iceberg.Protocol.C57_first_snapshots_overwrite_each_other",
    "Verif.Iceberg.Protocol.C57_creations_overwrite_each_other",
    "Verif.Iceberg.Protocol.C57_first_snapshot_undoes_later_commits"
   ],
   "note": "Proved for every number of writers, every interleaving, crashes and lost hints, on tables that have a snapshot. Missing because false: first snapshots and creations overwrite each other and even later commits; a path table recorded in the session catalog reports an error for a commit that is in the table (witness theorems)."
  },
  {
   "property": "C58",
   "status": "partial",
   "theorems": [
    "Verif.Iceberg.Protocol.C58_committed_is_visible_partial",
    "Verif.Iceberg.Protocol.C58_lost_hint_hides_commit",
    "Verif.Iceberg.Protocol.C58_missing_hint_hides_commit",
    "Verif.Iceberg.Protocol.C58_lost_hint_blocks_the_table"
   ],
   "note": "Proved for tables with a snapshot and a correct hint if no writer dies or loses its hint between its two writes. Otherwise false: a lost hint hides the commit and blocks the table for ever; without a hint file the hint can move back (witness theorems)."
  },
  {
   "property": "C59",
   "status": "partial",
   "theorems": [
    "Verif.Iceberg.Catalog.C59_commits_are_serialised_partial",
    "Verif.Iceberg.Catalog.C59_leftover_blocks_the_table",
    "Verif.Iceberg.Catalog.C59_creations_overwrite_each_other"
   ],
   "note": "Proved for every number of writers, every interleaving and crashes on tables with a location, first snapshots included. Missing because false: two creations both succeed and one is lost. A crash between the write and the catalog update blocks the table for ever (C59_leftover_blocks_the_table)."
  },
  {
   "property": "C60",
   "status": "partial",
   "theorems": [
    "Verif.Connect.C60_rows_in_order_partial",
    "Verif.Connect.C60_complete_means_all_rows_partial",
    "Verif.Connect.C60_no_response_twice_partial",
    "Verif.Connect.C60_command_result_partial",
    "Verif.Connect.C60_completion_runs_once",
    "Verif.Connect.C60_schema_comes_first_partial",
    "Verif.Connect.C60_full_buffer_loses_rows",
    "Verif.Connect.C60_heartbeat_changes_nothing"
   ],
   "note": "Order, completeness and exactly-once delivery hold for every interleaving as long as the transport holds at most 126 undelivered responses (the replay buffer has 128 places); without that bound the claim is refuted by C60_full_buffer_loses_rows. The completion step of a command runs at most once without any bound. Missing: the bound is a property of the gRPC transport, which is not modelled."
  },
  {
   "property": "C61",
   "status": "partial",
   "theorems": [
    "Verif.Connect.C61_connected_client_receives_all",
    "Verif.Connect.C61_resumes_partial",
    "Verif.Connect.C61_command_resumes_partial",
    "Verif.Connect.C61_finished_task_cannot_be_resumed",
    "Verif.Connect.C61_not_found_again",
    "Verif.Connect.C61_last_responses_are_lost"
   ],
   "note": "Proved: a client of a query or command that reattaches before the server task is over receives the rest, from every reachable state. Refuted for tasks that are over: C61_finished_task_cannot_be_resumed, C61_last_responses_are_lost."
  },
  {
   "property": "C62",
   "status": "partial",
   "theorems": [
    "Verif.Connect.Ops.C62_interrupt_stops_exactly",
    "Verif.Connect.Ops.C62_interrupt_reports",
    "Verif.Connect.Ops.C62_interrupt_once",
    "Verif.Connect.Ops.C62_nothing_else_stops",
    "Verif.Connect.Ops.C62_only_reattachable_resume",
    "Verif.Connect.Ops.C62_same_id_stops_the_earlier",
    "Verif.Connect.Ops.C62_planning_escapes_interrupts"
   ],
   "note": "Interrupt by operation, by tag and of all operations stops exactly the operations it names and reports them; an operation is interrupted at most once; nothing else stops one. Uniqueness of operation ids is refuted (C62_same_id_stops_the_earlier) and operations that are still being planned escape interrupts (C62_planning_escapes_interrupts)."
  },
  {
   "property": "C63",
   "status": "partial",
   "theorems": [
    "Verif.Connect.Sess.C63_used_sessions_stay",
    "Verif.Connect.Sess.C63_idle_sessions_go",
    "Verif.Connect.Sess.C63_timer_removes_idle_session",
    "Verif.Connect.Sess.C63_ended_sessions_stay_ended",
    "Verif.Connect.Sess.C63_delete_ends",
    "Verif.Connect.Sess.C63_same_session",
    "Verif.Connect.Sess.C63_sessions_are_apart",
    "Verif.Connect.Sess.C63_other_user_gets_the_session",
    "Verif.Connect.Sess.C63_failed_creation"
   ],
   "note": "Used sessions stay, idle sessions go after the timeout, ended sessions stay ended, sessions are apart. That a session belongs to one user is refuted (C63_other_user_gets_the_session)."
  },
  {
   "property": "C64",
   "status": "partial",
   "theorems": [
    "Verif.Connect.Conf.C64_reads_depend_on_used_keys",
    "Verif.Connect.Conf.C64_unrelated_keys_keep_their_values",
    "Verif.Connect.Conf.C64_reads_what_was_set",
    "Verif.Connect.Conf.C64_unset_restores",
    "Verif.Connect.Conf.C64_unset_forgets",
    "Verif.Connect.Conf.C64_listing",
    "Verif.Connect.Conf.C64_listing_of_histories",
    "Verif.Connect.Conf.C64_option_agrees",
    "Verif.Connect.Conf.C64_known_keys_can_be_read",
    "Verif.Connect.Conf.C64_defaults",
    "Verif.Connect.Conf.C64_removed_keys_are_refused",
    "Verif.Connect.Conf.C64_removed_keys_accept_their_default",
    "Verif.Connect.Conf.C64_modifiable_can_be_set",
    "Verif.Connect.Conf.C64_warnings",
    "Verif.Connect.Conf.C64_not_modifiable_can_be_set",
    "Verif.Connect.Conf.C64_failed_set_is_not_undone",
    "Verif.Connect.Conf.C64_dangling_fallback_is_an_error"
   ],
   "note": "Read-over-write for all ways of reading, unset restores, unrelated keys untouched, listing of histories, defaults, removed keys. The last sentence is refuted: static and unknown keys are reported as not modifiable and can be set (C64_not_modifiable_can_be_set)."
  },
  {
   "property": "C65",
   "status": "partial",
   "theorems": [
    "Verif.Connect.Stream.C65_active_exactly_until_the_end",
    "Verif.Connect.Stream.C65_stopped_for_good",
    "Verif.Connect.Stream.C65_stop_stops",
    "Verif.Connect.Stream.C65_nothing_else_stops",
    "Verif.Connect.Stream.C65_stop_of_unknown",
    "Verif.Connect.Stream.C65_found_by_query_id",
    "Verif.Connect.Stream.C65_exception_is_the_last_error",
    "Verif.Connect.Stream.C65_await_one",
    "Verif.Connect.Stream.C65_await_any",
    "Verif.Connect.Stream.C65_await_is_answered",
    "Verif.Connect.Stream.C65_await_any_gives_up",
    "Verif.Connect.Stream.C65_panicked_query_stays_active"
   ],
   "note": "Active exactly until the task ends, permanence, stop, errors, waits for one and for any. A panicking task is the exception: the query stays active for ever (C65_panicked_query_stays_active). Waiting for any query gives up at once when there is none to wait for (C65_await_any_gives_up)."
  },
  {
   "property": "C66",
   "status": "partial",
   "theorems": [
    "Verif.Func.Preimage.C66_year",
    "Verif.Func.Preimage.C66_year_is_the_year",
    "Verif.Func.Preimage.C66_last_day",
    "Verif.Func.Preimage.C66_last_day_is_the_last_day",
    "Verif.Func.Preimage.C66_last_day_announced",
    "Verif.Func.Preimage.C66_floor_integer",
    "Verif.Func.Preimage.C66_floor_decimal",
    "Verif.Func.Preimage.C66_floor_double_partial",
    "Verif.Func.Preimage.C66_floor_float_partial",
    "Verif.Func.Preimage.C66_floor_nan",
    "Verif.Func.Preimage.C66_floor_negative_zero",
    "Verif.Func.Preimage.C66_year_out_of_range",
    "Verif.Func.Preimage.C66_floor_integer_fits"
   ],
   "note": "Proved for dates (year, last_day), integers, decimals and finite floats other than -0.0. Full statement is false for NaN (C66_floor_nan), for -0.0 (C66_floor_negative_zero), and for dates whose year cannot be computed, where the rewrite hides the error (C66_year_out_of_range). Floats are an abstract format with a rounding function."
  },
  {
   "property": "C67",
   "status": "proved",
   "theorems": [
    "Verif.Func.Sequence.C67_sequence_is_progression",
    "Verif.Func.Sequence.C67_reasons",
    "Verif.Func.Sequence.C67_batches"
   ],
   "note": "All start, stop and step of 64-bit integers; every batch of rows."
  },
  {
   "property": "C68",
   "status": "partial",
   "theorems": [
    "Verif.Func.TemporalSeq.C68_civil_dates",
    "Verif.Func.TemporalSeq.C68_civil_round_trip",
    "Verif.Func.TemporalSeq.C68_timestamps_partial",
    "Verif.Func.TemporalSeq.C68_descending_overshoots",
    "Verif.Func.TemporalSeq.C68_last_timestamp",
    "Verif.Func.TemporalSeq.C68_wrapped_multiples",
    "Verif.Func.TemporalSeq.C68_dates",
    "Verif.Func.TemporalSeq.C68_descending_dates_overshoot",
    "Verif.Func.TemporalSeq.C68_batches"
   ],
   "note": "Every element and the end of the sequence are proved, going down with a surplus of one microsecond; without it the full statement is false (C68_descending_overshoots, C68_descending_dates_overshoot), for the last timestamp (C68_last_timestamp) and for month multiples that wrap (C68_wrapped_multiples). Time zone UTC."
  },
  {
   "property": "C69",
   "status": "proved",
   "theorems": [
    "Verif.Func.Window.C69_exactly_the_windows",
    "Verif.Func.Window.C69_latest_first",
    "Verif.Func.Window.C69_never_empty",
    "Verif.Func.Window.C69_tumbling",
    "Verif.Func.Window.C69_rows_of_a_batch",
    "Verif.Func.Window.C69_window_time_is_inside",
    "Verif.Func.Window.C69_accepted",
    "Verif.Func.Window.C69_no_overflow"
   ],
   "note": "All durations, slides and start offsets that are accepted; also that nothing overflows for timestamps in range."
  },
  {
   "property": "C70",
   "status": "partial",
   "theorems": [
    "Verif.Func.Like.C70_like_partial",
    "Verif.Func.Like.C70_default_escape",
    "Verif.Func.Like.C70_escape_accepted",
    "Verif.Func.Like.C70_wildcard_escape",
    "Verif.Func.Like.C70_stray_backslash"
   ],
   "note": "Proved for every pattern that is valid for Spark with an escape character that is no wildcard; full statement is false for a wildcard as escape character (C70_wildcard_escape) and for a stray backslash (C70_stray_backslash). The regular expression engine below is modelled by its matching relation for the produced patterns."
  },
  {
   "property": "C71",
   "status": "partial",
   "theorems": [
    "Verif.Func.Digits.C71_hex_integer",
    "Verif.Func.Digits.C71_hex_integer_distinct",
    "Verif.Func.Digits.C71_bin",
    "Verif.Func.Digits.C71_bin_distinct",
    "Verif.Func.Digits.C71_unhex",
    "Verif.Func.Digits.C71_unhex_fails",
    "Verif.Func.Digits.C71_unhex_hex",
    "Verif.Func.Digits.C71_conv_partial",
    "Verif.Func.Digits.C71_conv_round_trip_partial",
    "Verif.Func.Digits.C71_conv_least",
    "Verif.Func.Digits.C71_conv_null_literal",
    "Verif.Func.Digits.C71_conv_integers"
   ],
   "note": "hex, unhex and bin proved for all values; conv proved except for the cases refuted: C71_conv_least, C71_conv_null_literal, C71_conv_integers."
  },
  {
   "property": "C72",
   "status": "partial",
   "theorems": [
    "Verif.Func.Bitmap.C72_bitmap_construct",
    "Verif.Func.Bitmap.C72_bitmap_construct_merges",
    "Verif.Func.Bitmap.C72_bitmap_or",
    "Verif.Func.Bitmap.C72_bitmap_or_merges",
    "Verif.Func.Bitmap.C72_bitmap_and",
    "Verif.Func.Bitmap.C72_bitmap_and_merges",
    "Verif.Func.CountMin.C72_sketch_round_trip",
    "Verif.Func.CountMin.C72_sketch_read",
    "Verif.Func.CountMin.C72_count_min",
    "Verif.Func.CountMin.C72_count_min_merges",
    "Verif.Func.CountMin.C72_count_min_merges_alike",
    "Verif.Func.Mode.C72_mode",
    "Verif.Func.Mode.C72_mode_string",
    "Verif.Func.Mode.C72_mode_nan",
    "Verif.Func.PercentileDisc.C72_percentile_disc",
    "Verif.Func.PercentileDisc.C72_groups_update",
    "Verif.Func.PercentileDisc.C72_groups_merge",
    "Verif.Func.PercentileDisc.C72_groups_state",
    "Verif.Func.PercentileDisc.C72_groups_convert",
    "Verif.Func.PercentileDisc.C72_groups_eval",
    "Verif.Func.Percentile.C72_percentile",
    "Verif.Func.Percentile.C72_percentile_nan",
    "Verif.Func.TryAvg.C72_try_avg_partial",
    "Verif.Func.TryAvg.C72_try_avg_safe_partial",
    "Verif.Func.TryAvg.C72_try_avg_null",
    "Verif.Func.TryAvg.C72_try_avg_spread"
   ],
   "note": "Proved for bitmap_construct_agg, bitmap_or_agg, bitmap_and_agg, count_min_sketch, percentile_disc, and for mode and percentile over totally ordered values, over every accumulator reachable by partitioning, batching and merging. The full statement is false for try_avg, where NULL depends on the order of the rows (C72_try_avg_null, C72_try_avg_spread; what holds is in C72_try_avg_partial and C72_try_avg_safe_partial), and for mode and percentile with NaN (C72_mode_nan, C72_percentile_nan)."
  },
  {
   "property": "C73",
   "status": "proved",
   "theorems": [
    "Verif.Func.Bitmap.C73_bitmap_construct",
    "Verif.Func.Bitmap.C73_bitmap_or",
    "Verif.Func.Bitmap.C73_bitmap_or_accepts",
    "Verif.Func.Bitmap.C73_bitmap_and",
    "Verif.Func.Bitmap.C73_bitmap_and_accepts",
    "Verif.Func.CountMin.C73_count_min",
    "Verif.Func.CountMin.C73_estimate",
    "Verif.Func.CountMin.C73_row_total",
    "Verif.Func.Histogram.C73_histogram_closest",
    "Verif.Func.Histogram.C73_histogram",
    "Verif.Func.Histogram.C73_histogram_merges",
    "Verif.Func.Histogram.C73_histogram_exact",
    "Verif.Func.Histogram.C73_histogram_spread",
    "Verif.Func.MaxBy.C73_max_by",
    "Verif.Func.MaxBy.C73_max_by_simplified",
    "Verif.Func.MaxBy.C73_max_by_unique",
    "Verif.Func.MaxBy.C73_max_by_tie",
    "Verif.Func.Mode.C73_mode",
    "Verif.Func.Mode.C73_mode_string",
    "Verif.Func.Mode.C73_tie_break",
    "Verif.Func.PercentileDisc.C73_percentile_disc",
    "Verif.Func.PercentileDisc.C73_percentile_disc_many",
    "Verif.Func.Percentile.C73_percentiles",
    "Verif.Func.Percentile.C73_percentile",
    "Verif.Func.Percentile.C73_percentile_bounds",
    "Verif.Func.Percentile.C73_percentile_interval",
    "Verif.Func.Percentile.C73_percentile_string",
    "Verif.Func.TryAvg.C73_try_avg",
    "Verif.Func.TryAvg.C73_try_avg_months",
    "Verif.Func.TryAvg.C73_try_avg_null",
    "Verif.Func.TryAvg.C73_try_avg_scale"
   ],
   "note": "Over exact arithmetic; doubles are rationals in percentile and histogram_numeric. try_avg truncates at the scale of its input (C73_try_avg_scale)."
  },
  {
   "property": "C74",
   "status": "proved",
   "theorems": [
    "Verif.Func.Percentile.C74_percentile_window",
    "Verif.Func.WindowFn.C74_ntile",
    "Verif.Func.WindowFn.C74_ntile_sizes",
    "Verif.Func.WindowFn.C74_ntile_arg",
    "Verif.Func.WindowFn.C74_first_last",
    "Verif.Func.WindowFn.C74_first_last_reverse"
   ],
   "note": "percentile over sliding frames, ntile, first_value and last_value, reversed execution."
  },
  {
   "property": "C75",
   "status": "partial",
   "theorems": [
    "Verif.Opt.C75_reorder_keeps_rows_partial",
    "Verif.Opt.C75_rows_match_schema",
    "Verif.Opt.C75_plain_joins_keep_rows",
    "Verif.Opt.C75_null_safe_key_swallows_equality"
   ],
   "note": "Proved for all plans, contents, estimators, budgets, limits and group orders, except plans in which a join has null-safe keys and beside them a plain equality of two columns: there the claim is false (C75_null_safe_key_swallows_equality). Operators other than joins and projections are arbitrary functions on bags; the estimators are arbitrary functions."
  },
  {
   "property": "C76",
   "status": "proved",
   "theorems": [
    "Verif.Opt.C76_search_ends",
    "Verif.Opt.C76_check_passes",
    "Verif.Opt.C76_tables_and_predicates_once",
    "Verif.Opt.C76_no_deferred",
    "Verif.Opt.C76_stable_name_round_trip",
    "Verif.Opt.C76_stable_name_injective",
    "Verif.Opt.C76_infinite_estimates_fail_the_check"
   ],
   "note": "For all plans, estimators and budgets. That the check passes needs finite estimates (C76_infinite_estimates_fail_the_check shows why); a failed check keeps the plan. Predicates over fewer than two tables count as depending on all tables of the join they were written at."
  },
  {
   "property": "C77",
   "status": "partial",
   "theorems": [
    "Verif.Merge.C77_cow_result_partial",
    "Verif.Merge.C77_only_changed_files_removed",
    "Verif.Merge.C77_failures_have_reasons",
    "Verif.Merge.C77_written_rows_satisfy_constraints",
    "Verif.Merge.C77_row_written_twice",
    "Verif.Merge.C77_source_read_twice_loses_rows"
   ],
   "note": "Proved for sources that give the same rows each time they are read, and, for statements with NOT MATCHED BY SOURCE clauses but no MATCHED clause, without double matches: rows, files rewritten, reasons of failures, constraints. The two exceptions are shown to lose and to duplicate rows. Expressions are modelled by their values and do not fail."
  },
  {
   "property": "C78",
   "status": "partial",
   "theorems": [
    "Verif.Merge.C78_deletion_vector_result_partial",
    "Verif.Merge.C78_hidden_rows",
    "Verif.Merge.C78_updates_refused",
    "Verif.Merge.C78_iceberg_result",
    "Verif.Merge.C78_failures_have_reasons",
    "Verif.Merge.C78_source_read_twice"
   ],
   "note": "Proved in full for Iceberg tables; for Delta tables with deletion vectors proved for sources that give the same rows each time they are read, with a counterexample for others."
  },
  {
   "property": "C79",
   "status": "proved",
   "theorems": [
    "Verif.Merge.C79_double_match_is_refused",
    "Verif.Merge.C79_success_is_unambiguous",
    "Verif.Merge.C79_unique_source_is_single",
    "Verif.Merge.C79_check_is_left_out_safely"
   ],
   "note": "The check fails exactly for double matches, success is unambiguous, and the analysis of the source query that leaves out the check is sound for queries of aliases, filters, projections and aggregations, and for sound functional dependencies."
  },
  {
   "property": "C80",
   "status": "proved",
   "theorems": [
    "Verif.Merge.C80_insert_only_appends",
    "Verif.Merge.C80_insert_only_failures",
    "Verif.Merge.C80_same_as_general_plan"
   ],
   "note": "The shortcut yields the described table, keeps all files, ignores double matches and agrees with the general plan."
  },
  {
   "property": "C81",
   "status": "partial",
   "theorems": [
    "Verif.Merge.C81_names_equal",
    "Verif.Merge.C81_aliases_are_free",
    "Verif.Merge.C81_references_read_their_column_partial",
    "Verif.Merge.C81_name_like_identifier_reads_other_column",
    "Verif.Merge.C81_equal_source_names_clash",
    "Verif.Merge.C81_unqualified_name",
    "Verif.Merge.C81_ambiguous_name_means_target"
   ],
   "note": "Aliases are proved free for all names. References are proved to read their column if no user-visible name equals an internal identifier and source names differ; counterexamples otherwise. An unqualified name that occurs in both tables is not refused but means the target column."
  },
  {
   "property": "C82",
   "status": "partial",
   "theorems": [
    "Verif.Merge.C82_metrics_partial",
    "Verif.Merge.C82_insert_only_metrics",
    "Verif.Merge.C82_deleted_row_counted_twice"
   ],
   "note": "Proved where no target row matches two source rows, and for insert-only statements; a lone DELETE clause counts a row once per match (counterexample). Counters are unbounded numbers."
  },
  {
   "property": "C83",
   "status": "partial",
   "theorems": [
    "Verif.Catalog.C83_new_table_refused",
    "Verif.Catalog.C83_new_table",
    "Verif.Catalog.C83_new_view",
    "Verif.Catalog.C83_list_tables",
    "Verif.Catalog.C83_list_views",
    "Verif.Catalog.C83_list_databases",
    "Verif.Catalog.C83_drop_keeps_contents",
    "Verif.Catalog.C83_drop_and_create",
    "Verif.Catalog.C83_failed_request_partial",
    "Verif.Catalog.C83_set_properties",
    "Verif.Catalog.C83_unset_properties",
    "Verif.Catalog.C83_column_default",
    "Verif.Catalog.C83_column_type",
    "Verif.Catalog.C83_failed_unset_removes_property",
    "Verif.Catalog.C83_view_beside_table",
    "Verif.Catalog.C83_request",
    "Verif.Catalog.C83_history",
    "Verif.Catalog.C83_initial",
    "Verif.Catalog.C83_other_tables_stay",
    "Verif.Catalog.C83_other_views_stay",
    "Verif.Catalog.C83_other_databases_stay"
   ],
   "note": "Proved as a refinement to three maps for every history, with listings and the effects of ALTER TABLE. The last sentence but one is proved for all requests except removing several properties at once, where it is false (C83_failed_unset_removes_property). Types are opaque; the change of a nested type is a parameter."
  },
  {
   "property": "C84",
   "status": "proved",
   "theorems": [
    "Verif.Catalog.C84_list_databases",
    "Verif.Catalog.C84_resolve",
    "Verif.Catalog.C84_meaningless",
    "Verif.Catalog.C84_lookup",
    "Verif.Catalog.C84_global_lookup",
    "Verif.Catalog.C84_drop_view",
    "Verif.Catalog.C84_drop_view_keeps_tables",
    "Verif.Catalog.C84_drop_table_keeps_views",
    "Verif.Catalog.C84_create_table",
    "Verif.Catalog.C84_create_existing_table",
    "Verif.Catalog.C84_create_temp",
    "Verif.Catalog.C84_drop_temp",
    "Verif.Catalog.C84_sessions_apart",
    "Verif.Catalog.C84_global_visible",
    "Verif.Catalog.C84_use",
    "Verif.Catalog.C84_default_catalog",
    "Verif.Catalog.C84_show_tables",
    "Verif.Catalog.C84_catalog_ignored",
    "Verif.Catalog.C84_use_catalog_keeps_database",
    "Verif.Catalog.C84_view_behind_table",
    "Verif.Catalog.C84_temp_blocks_table",
    "Verif.Catalog.C84_table_in_global_database"
   ],
   "note": "For all statements of all sessions over in-memory catalogs; tables whose format keeps metadata of its own are not modelled. The exceptions named in the statement are proved as witnesses, together with three more (C84_use_catalog_keeps_database, C84_temp_blocks_table, C84_table_in_global_database)."
  },
  {
   "property": "C85",
   "status": "proved",
   "theorems": [
    "Verif.Catalog.C85_changes_pass",
    "Verif.Catalog.C85_listings_current",
    "Verif.Catalog.C85_memory_lawful",
    "Verif.Catalog.C85_other_session_stale",
    "Verif.Catalog.C85_overlap_stale",
    "Verif.Catalog.C85_partial_failure_stale"
   ],
   "note": "For every catalog that meets Lawful, which the in-memory catalog does (C85_memory_lawful). Changes are steps; the overlap of a listing with a change is exhibited as a witness."
  },
  {
   "property": "C86",
   "status": "proved",
   "theorems": [
    "Verif.Catalog.C86_last_registration",
    "Verif.Catalog.C86_drop_result",
    "Verif.Catalog.C86_listing",
    "Verif.Catalog.C86_listing_prefers_system",
    "Verif.Catalog.C86_describe",
    "Verif.Catalog.C86_tracked",
    "Verif.Catalog.C86_listing_and_description_disagree"
   ],
   "note": "Fewer than 2^64 objects are handed over."
  },
  {
   "property": "C87",
   "status": "proved",
   "theorems": [
    "Verif.Catalog.C87_commit",
    "Verif.Catalog.C87_chain",
    "Verif.Catalog.C87_progress",
    "Verif.Catalog.C87_two_keys_lose_commit",
    "Verif.Catalog.C87_first_commits_both_succeed"
   ],
   "note": "For any number of writers in any interleaving; the two exceptions of the statement are proved as witnesses."
  },
  {
   "property": "C88",
   "status": "proved",
   "theorems": [
    "Verif.Sql.C88_lossless",
    "Verif.Sql.C88_quote_token",
    "Verif.Sql.C88_quote_value",
    "Verif.Sql.C88_raw",
    "Verif.Sql.C88_tick",
    "Verif.Sql.C88_escapes",
    "Verif.Sql.C88_unicode_escape",
    "Verif.Sql.C88_comment",
    "Verif.Sql.C88_line_comment",
    "Verif.Sql.C88_replace",
    "Verif.Sql.C88_dollar_swallows",
    "Verif.Sql.C88_closed",
    "Verif.Sql.C88_raw_only",
    "Verif.Sql.C88_tick_only"
   ],
   "note": "Tokens lose nothing; a quoted text, a raw string and a name in backticks are one token whatever follows and decode to the text; every character through the \\U escape; nested comments; replacing one quoted text by another changes that token only (C88_replace). The exception in the statement is shown by C88_dollar_swallows. Which non-ASCII characters are letters is a parameter of every theorem."
  },
  {
   "property": "C89",
   "status": "proved",
   "theorems": [
    "Verif.Sql.C89_written",
    "Verif.Sql.C89_roundtrip",
    "Verif.Sql.C89_namespace",
    "Verif.Sql.C89_injective",
    "Verif.Sql.C89_layout",
    "Verif.Sql.C89_only"
   ],
   "note": "Every way of writing the parts, plainly or in backticks, reads back (C89_written); the catalog's printing is one of them; layout makes no difference."
  },
  {
   "property": "C90",
   "status": "proved",
   "theorems": [
    "Verif.Sql.C90_read",
    "Verif.Sql.C90_suffix_after_point",
    "Verif.Sql.C90_decimal_value",
    "Verif.Sql.C90_decimal_type",
    "Verif.Sql.C90_decimal_crash",
    "Verif.Sql.C90_integer",
    "Verif.Sql.C90_integer_split",
    "Verif.Sql.C90_suffix",
    "Verif.Sql.C90_smallest_refused",
    "Verif.Sql.C90_sign"
   ],
   "note": "Reading over tokens (C90_read) and values: integers (C90_integer), suffixes (C90_suffix), decimals with and without exponents (C90_decimal_type, C90_decimal_value). The exceptions are exact: C90_integer_split, C90_suffix_after_point, C90_decimal_crash. Floating point parsing is a parameter, and the regular expressions are modelled by their greedy match."
  },
  {
   "property": "C91",
   "status": "proved",
   "theorems": [
    "Verif.Sql.C91_tokens",
    "Verif.Sql.C91_argument",
    "Verif.Sql.C91_variable",
    "Verif.Sql.C91_unbound",
    "Verif.Sql.C91_marker_before_word",
    "Verif.Sql.C91_dollar_digit_swallows"
   ],
   "note": "At the level of tokens: the rewritten text has the tokens of the statement with the k-th marker replaced by the variable $k, which stands for the k-th argument. The exceptions in the statement are shown by C91_marker_before_word and C91_dollar_digit_swallows. The grammar above the tokens is a function of them."
  },
  {
   "property": "C92",
   "status": "proved",
   "theorems": [
    "Verif.Sql.Pratt.C92_round_trip",
    "Verif.Sql.Pratt.C92_unique",
    "Verif.Sql.Pratt.C92_text",
    "Verif.Sql.Pratt.C92_only",
    "Verif.Sql.Pratt.C92_iff",
    "Verif.Sql.Pratt.C92_order",
    "Verif.Sql.Pratt.C92_familiar"
   ],
   "note": "Operators are single tokens; the operands between them (identifiers, calls, parenthesised expressions) are single tokens too. The operator precedence parser of the parser library is modelled from its documented algorithm."
  },
  {
   "property": "C93",
   "status": "proved",
   "theorems": [
    "Verif.Sql.C93_multi",
    "Verif.Sql.C93_multi_fits",
    "Verif.Sql.C93_single",
    "Verif.Sql.C93_opposite",
    "Verif.Sql.C93_standard_opposite",
    "Verif.Sql.C93_negated_minimum",
    "Verif.Sql.C93_smallest_refused",
    "Verif.Sql.C93_standard",
    "Verif.Sql.C93_standard_only",
    "Verif.Sql.C93_single_unit"
   ],
   "note": "All thirteen standard forms: exact length, sign and range for every text, and no other texts are accepted. Several units: the value is the exact sum; there is a value whenever the absolute values add up to what fits. A minus sign gives the opposite interval. The negated smallest number is an exception, proved."
  },
  {
   "property": "C94",
   "status": "proved",
   "theorems": [
    "Verif.Sql.C94_date",
    "Verif.Sql.C94_date_value",
    "Verif.Sql.C94_time",
    "Verif.Sql.C94_time_value",
    "Verif.Sql.C94_time_leap",
    "Verif.Sql.C94_timestamp",
    "Verif.Sql.C94_timestamp_date",
    "Verif.Sql.C94_timestamp_only",
    "Verif.Sql.C94_timestamp_value",
    "Verif.Sql.C94_timestamp_crash",
    "Verif.Sql.C94_digits_left_as_zone"
   ],
   "note": "Iff for dates and times; forward and backward for timestamps, with the time zone text described on its own. Values against the civil calendar. The leap second of the last day of the date library is a panic (witness). What a time zone name means afterwards is not modelled."
  },
  {
   "property": "C95",
   "status": "proved",
   "theorems": [
    "Verif.Sql.Ddl.C95_type",
    "Verif.Sql.Ddl.C95_schema",
    "Verif.Sql.Ddl.C95_injective",
    "Verif.Sql.Ddl.C95_unsigned",
    "Verif.Sql.Ddl.C95_empty",
    "Verif.Sql.Ddl.C95_decimal_default",
    "Verif.Sql.Ddl.C95_interval_default",
    "Verif.Sql.Ddl.C95_geometry_refused",
    "Verif.Sql.C95_precision",
    "Verif.Sql.C95_decimal_width",
    "Verif.Sql.C95_number",
    "Verif.Sql.C95_synonyms"
   ],
   "note": "Texts are characters, read by the modelled tokenizer and type parser. Types of users, geometries and types given as text are outside (they do not read back); reading of JSON schemas is not modelled."
  },
  {
   "property": "C96",
   "status": "proved",
   "theorems": [
    "Verif.Sql.C96_date",
    "Verif.Sql.C96_date_error",
    "Verif.Sql.C96_time",
    "Verif.Sql.C96_timestamp",
    "Verif.Sql.C96_months",
    "Verif.Sql.C96_duration",
    "Verif.Sql.C96_nanoseconds_cut",
    "Verif.Sql.C96_mixed_signs_shown_alike",
    "Verif.Sql.C96_day_time_one_sign"
   ],
   "note": "Dates, times, timestamps, months and durations of seconds to microseconds; exact conditions. An interval of days and milliseconds of both signs is shown wrongly (witness), of one sign correctly (`C96_day_time_one_sign`). Nanoseconds are cut when read. The text of a mixed interval (years ... seconds) and time zones are not modelled."
  },
  {
   "property": "C97",
   "status": "partial",
   "theorems": [
    "Verif.Io.Text.C97_lines_partial",
    "Verif.Io.Text.C97_lines_separator",
    "Verif.Io.Text.C97_lines_unique",
    "Verif.Io.Text.C97_round_trip",
    "Verif.Io.Text.C97_cut",
    "Verif.Io.Text.C97_whole_partial",
    "Verif.Io.Text.C97_crlf_split",
    "Verif.Io.Text.C97_not_text",
    "Verif.Io.Text.C97_whole_batch_one"
   ],
   "note": "Proved for every content, buffers and batch size under the condition that no buffer ends between CR and LF; the code adds an empty row there (witness C97_crlf_split). Row boundaries inside a character are not noticed (C97_not_text). Whole-text needs a batch size above one (C97_whole_batch_one)."
  },
  {
   "property": "C98",
   "status": "proved",
   "theorems": [
    "Verif.Io.C98_repaired",
    "Verif.Io.C98_unique",
    "Verif.Io.C98_chunks",
    "Verif.Io.C98_identity",
    "Verif.Io.C98_text",
    "Verif.Io.C98_ascii",
    "Verif.Io.C98_nonempty",
    "Verif.Io.C98_reader"
   ],
   "note": "Full specification of the repaired text, proved unique, for the stream and for the reader."
  },
  {
   "property": "C99",
   "status": "partial",
   "theorems": [
    "Verif.Io.Glob.C99_parse",
    "Verif.Io.Glob.C99_expand_partial",
    "Verif.Io.Glob.C99_alternatives",
    "Verif.Io.Glob.C99_split",
    "Verif.Io.Glob.C99_relative",
    "Verif.Io.Glob.C99_asterisks",
    "Verif.Io.Glob.C99_empty_class"
   ],
   "note": "Expansion is proved under the conditions that ranges go upwards and that no two asterisks come together in an expansion; both conditions are needed (C99_asterisks, C99_empty_class). Parser and division are proved in full. Percent decoding, schemes and authorities are not modelled; the glob crate is modelled from its documentation."
  },
  {
   "property": "C100",
   "status": "proved",
   "theorems": [
    "Verif.Celeborn.C100_unique",
    "Verif.Celeborn.C100_same",
    "Verif.Celeborn.C100_range",
    "Verif.Celeborn.C100_exhausted",
    "Verif.Celeborn.C100_gone",
    "Verif.Celeborn.C100_job_sound",
    "Verif.Celeborn.C100_job_complete"
   ],
   "note": "Every order of requests and ends of tasks, with any failures. The text of the messages and the network below are not modelled."
  },
  {
   "property": "C101",
   "status": "proved",
   "theorems": [
    "Verif.Celeborn.C101_at_most_once",
    "Verif.Celeborn.C101_only_asked",
    "Verif.Celeborn.C101_all_answered",
    "Verif.Celeborn.C101_one_task",
    "Verif.Celeborn.C101_shared",
    "Verif.Celeborn.C101_shared_error"
   ],
   "note": "Every order of requests and ends of tasks. A caller is a handle; requests after the actor stopped are not answered by the model, as the channel is closed."
  },
  {
   "property": "C102",
   "status": "proved",
   "theorems": [
    "Verif.Celeborn.C102_newer",
    "Verif.Celeborn.C102_shared",
    "Verif.Celeborn.C102_granted",
    "Verif.Celeborn.C102_excluded",
    "Verif.Celeborn.C102_stays_excluded",
    "Verif.Celeborn.C102_only_reported"
   ],
   "note": "Under the assumption that the cluster grants locations of epoch zero (used by C102_newer only). A replacement that is granted after the shuffle was unregistered is an error, C102_granted needs that nobody unregistered it."
  },
  {
   "property": "C103",
   "status": "partial",
   "theorems": [
    "Verif.Celeborn.C103_first",
    "Verif.Celeborn.C103_once",
    "Verif.Celeborn.C103_covers",
    "Verif.Celeborn.C103_response",
    "Verif.Celeborn.C103_committed_partial",
    "Verif.Celeborn.C103_failed_commit",
    "Verif.Celeborn.C103_second_attempt",
    "Verif.Celeborn.C103_frozen"
   ],
   "note": "Proved: each commit names, for every mapper, the attempt that reported first, a shuffle is committed at most once, and the commit covers every location told to a task before it. The last sentence is proved for mappers that report their end once (C103_committed_partial); it fails when a commit fails and an attempt reports again (C103_failed_commit) and for a second attempt while the commit is under way (C103_second_attempt)."
  },
  {
   "property": "C104",
   "status": "partial",
   "theorems": [
    "Verif.Celeborn.C104_not_more_partial",
    "Verif.Celeborn.C104_one_heartbeat",
    "Verif.Celeborn.C104_all_told_partial",
    "Verif.Celeborn.C104_stop_loses"
   ],
   "note": "Proved while the lifecycle manager runs. It fails when it stops: what was reported since the last heartbeat is never told to the master (C104_stop_loses)."
  },
  {
   "property": "C105",
   "status": "partial",
   "theorems": [
    "Verif.Celeborn.C105_frame",
    "Verif.Celeborn.C105_frame_whole",
    "Verif.Celeborn.C105_message",
    "Verif.Celeborn.C105_message_whole",
    "Verif.Celeborn.C105_closed_after_error",
    "Verif.Celeborn.C105_own_reply_partial",
    "Verif.Celeborn.C105_never_anothers_partial",
    "Verif.Celeborn.C105_drop_wedges"
   ],
   "note": "The answer is never that of another request, and frames and messages round trip. That an answered request is told its answer is proved when no call is abandoned between request and reply; otherwise it is false (C105_drop_wedges)."
  },
  {
   "property": "C106",
   "status": "proved",
   "theorems": [
    "Verif.Celeborn.C106_block",
    "Verif.Celeborn.C106_block_checked",
    "Verif.Celeborn.C106_read",
    "Verif.Celeborn.C106_truncated",
    "Verif.Celeborn.C106_fetch_error",
    "Verif.Celeborn.C106_corrupt",
    "Verif.Celeborn.C106_frames_in_order",
    "Verif.Celeborn.C106_batches"
   ],
   "note": "Compression, checksum and IPC are parameters with a round trip. An end of the chunks exactly between two batches cannot be noticed by the reader."
  },
  {
   "property": "C107",
   "status": "partial",
   "theorems": [
    "Verif.Celeborn.Client.C107_late_answer",
    "Verif.Celeborn.C107_once_partial",
    "Verif.Celeborn.C107_reads_more"
   ],
   "note": "Holds when only the attempts that count stored something and each batch was stored once; otherwise proved false (C107_reads_more, C107_late_answer)."
  },
  {
   "property": "C108",
   "status": "partial",
   "theorems": [
    "Verif.Celeborn.Client.C108_push_newest",
    "Verif.Celeborn.Client.C108_read_all",
    "Verif.Celeborn.Client.C108_read_opens",
    "Verif.Celeborn.Client.C108_over",
    "Verif.Celeborn.Client.C108_batch_numbers",
    "Verif.Celeborn.Client.C108_push_taken",
    "Verif.Celeborn.Client.C108_push_again",
    "Verif.Celeborn.Client.C108_split_on_retry",
    "Verif.Celeborn.Client.C108_id"
   ],
   "note": "Success is told only if a worker took the batch; the converse is false (C108_split_on_retry)."
  },
  {
   "property": "C109",
   "status": "proved",
   "theorems": [
    "Verif.Celeborn.Names.C109_worker",
    "Verif.Celeborn.Names.C109_worker_read",
    "Verif.Celeborn.Names.C109_codec",
    "Verif.Celeborn.Names.C109_codec_level",
    "Verif.Celeborn.Names.C109_location",
    "Verif.Celeborn.Names.C109_shuffle"
   ],
   "note": "Shuffle keys for ids that are not negative, which are all that are given out."
  },
  {
   "property": "C110",
   "status": "partial",
   "theorems": [
    "Verif.Delta.Log.C110_describes_partial",
    "Verif.Delta.Log.C110_no_checksum",
    "Verif.Delta.Log.C110_first_commit_refuted",
    "Verif.Delta.Log.C110_added_again_refuted",
    "Verif.Delta.Log.C110_unknown_lists_refuted"
   ],
   "note": "Every checksum in every run describes its version, for commits that add files not in the table and remove files that are, a first commit that names no application or domain twice, no log compactions, and checksums by this engine only. Outside these: refuted by witnesses. Sorting, timestamps and transaction ids are not modelled."
  },
  {
   "property": "C111",
   "status": "partial",
   "theorems": [
    "Verif.Delta.Log.C111_open_partial",
    "Verif.Delta.Log.C111_update_partial",
    "Verif.Delta.Log.C111_same_as_load_partial",
    "Verif.Delta.Log.C111_available",
    "Verif.Delta.Log.C111_wrong_counts_ignored",
    "Verif.Delta.Log.C111_no_downgrade"
   ],
   "note": "Opening and updating without files gives the header of the version, under the conditions of C110; always possible when the table can be loaded. Catalog-managed commits, undecodable files and commit timestamps are not modelled."
  },
  {
   "property": "C112",
   "status": "partial",
   "theorems": [
    "Verif.Delta.Schema.C112_create",
    "Verif.Delta.Schema.C112_evolve_partial",
    "Verif.Delta.Schema.C112_history_partial",
    "Verif.Delta.Schema.C112_kind_change_refuted",
    "Verif.Delta.Schema.C112_foreign_keys_refuted"
   ],
   "note": "Create and evolve keep every column's id and physical name and give new columns fresh ones, through any sequence of schema changes in which no column changes between kinds of type and no new column carries mapping keys of its own; both restrictions are shown necessary by counterexamples."
  },
  {
   "property": "C113",
   "status": "partial",
   "theorems": [
    "Verif.Delta.Schema.C113_lossless_partial",
    "Verif.Delta.Schema.C113_integers",
    "Verif.Delta.Schema.C113_date_refuted",
    "Verif.Delta.Schema.C113_order",
    "Verif.Delta.Schema.C113_iceberg",
    "Verif.Delta.Schema.C113_recorded",
    "Verif.Delta.Schema.C113_history",
    "Verif.Delta.Schema.C113_alter",
    "Verif.Delta.Schema.C113_stale_record_refuted"
   ],
   "note": "Proved in full for the decision table, the record of changes, validation, ALTER COLUMN and the Iceberg restriction; losslessness excludes dates whose start does not fit a timestamp, and an overwrite with column mapping keeps a stale record that makes the table unreadable (counterexamples proved)."
  },
  {
   "property": "C114",
   "status": "proved",
   "theorems": [
    "Verif.Delta.Upgrade.C114_keeps",
    "Verif.Delta.Upgrade.C114_nothing_invented",
    "Verif.Delta.Upgrade.C114_idempotent"
   ],
   "note": "The merged protocol requires everything either side required (for all protocols); for valid protocols it lists nothing else, stays valid, has no duplicates, and a second upgrade changes nothing."
  },
  {
   "property": "C115",
   "status": "proved",
   "theorems": [
    "Verif.Delta.PathText.C115_decode",
    "Verif.Delta.PathText.C115_round_trip",
    "Verif.Delta.PathText.C115_injective",
    "Verif.Delta.PathText.C115_safe",
    "Verif.Delta.PathText.C115_directories"
   ],
   "note": "Round trip, injectivity, safe characters and the directory structure for all byte strings; decoding is right for every percent-encoding. The UTF-8 check after decoding is not modelled."
  },
  {
   "property": "C116",
   "status": "partial",
   "theorems": [
    "Verif.Celeborn.C116_unregistered",
    "Verif.Celeborn.C116_refused",
    "Verif.Celeborn.C116_served",
    "Verif.Celeborn.C116_stop_partial",
    "Verif.Celeborn.C116_stop_gone",
    "Verif.Celeborn.C116_stop_leaks"
   ],
   "note": "The last sentence is refuted (C116_stop_leaks): the shuffles to unregister are listed when stop is asked for; a reservation that is under way then is granted afterwards and nobody unregisters it."
  },
  {
   "property": "C117",
   "status": "partial",
   "theorems": [
    "Verif.Delta.MetaFilter.C117_file_with_match_is_chosen_partial",
    "Verif.Delta.MetaFilter.C117_missing_statistics_never_remove",
    "Verif.Delta.MetaFilter.C117_null_check_misses_a_file"
   ],
   "note": "Every predicate and every file whose statistics describe its rows. Missing: with a null check in the predicate, partition texts that are empty or the Hive marker; there it is refuted. Casts of a partition column to another type are excluded."
  },
  {
   "property": "C118",
   "status": "partial",
   "theorems": [
    "Verif.Delta.MetaFilter.C118_scan_is_filtered_partial",
    "Verif.Delta.MetaFilter.C118_exact_filters_not_enforced",
    "Verif.Delta.MetaFilter.C118_empty_text_not_enforced",
    "Verif.Delta.MetaFilter.C118_null_markers",
    "Verif.Delta.MetaFilter.C118_left_to_the_engine"
   ],
   "note": "The scan returns exactly the rows for which all filters are true when the filters reported as exact are AND and OR of comparisons with constants, BETWEEN, IN and null checks and the partition texts can be read. Refuted for boolean columns, NOT, two columns compared and empty texts."
  },
  {
   "property": "C119",
   "status": "partial",
   "theorems": [
    "Verif.Delta.MetaFilter.C119_delete_leaves_the_others_partial",
    "Verif.Delta.MetaFilter.C119_deletion_vectors_leave_the_others_partial",
    "Verif.Delta.MetaFilter.C119_partition_condition_deletes_everything",
    "Verif.Delta.MetaFilter.C119_deletion_vectors_mixed_condition"
   ],
   "note": "Rewriting files: conditions that read a data column, and the shapes of C118 on partition columns; refuted for other conditions on partition columns (every row is deleted). Deletion vectors: conditions without partition columns; refuted for mixed conditions."
  },
  {
   "property": "C120",
   "status": "partial",
   "theorems": [
    "Verif.Delta.MetaFilter.C120_replace_where_partial",
    "Verif.Delta.MetaFilter.C120_null_condition_loses_rows",
    "Verif.Delta.MetaFilter.C120_partition_condition_replaces_everything"
   ],
   "note": "Conditions of the shapes of C118, and conditions that are never null on the files chosen. Refuted for null conditions and for other conditions on partition columns."
  },
  {
   "property": "C121",
   "status": "partial",
   "theorems": [
    "Verif.Delta.FileStats.C121_bounds_enclose_partial",
    "Verif.Delta.FileStats.C121_group_without_bounds",
    "Verif.Delta.FileStats.C121_null_counts_add_up_partial",
    "Verif.Delta.FileStats.C121_missing_null_count",
    "Verif.Delta.FileStats.C121_timestamps_partial",
    "Verif.Delta.FileStats.C121_maximum_is_cut_off",
    "Verif.Delta.FileStats.C121_nanoseconds_before_1970",
    "Verif.Delta.FileStats.C121_recorded_under_own_name_partial",
    "Verif.Delta.FileStats.C121_map_overwrites_null_count",
    "Verif.Delta.FileStats.C121_map_makes_the_write_fail"
   ],
   "note": "Bounds enclose the values when every row group that holds a value has bounds that can be read; refuted otherwise: a group without bounds (only NaN, or nanoseconds before 1970) is passed over and the bounds of the others are recorded. Null counts add up when Parquet records one for each group. Timestamps are enclosed after cutting to milliseconds and adding one. Statistics are recorded under the own name for plain columns, structs and lists; refuted for maps, whose value count overwrites the null count of a column called value or makes the write panic. Decimals, which go through floating point numbers, are not modelled."
  },
  {
   "property": "C122",
   "status": "partial",
   "theorems": [
    "Verif.Delta.PartValue.C122_read_back_partial",
    "Verif.Delta.PartValue.C122_negative_fraction",
    "Verif.Delta.PartValue.C122_null_texts",
    "Verif.Delta.PartValue.C122_binary"
   ],
   "note": "Round trip proved for nulls, integers, booleans, texts that are neither empty nor the Hive marker, and decimals of every scale that are not negative or are whole. Refuted for every negative decimal with a fraction, for empty texts and the Hive marker, and for every binary value. Dates, timestamps and floating point numbers are not modelled."
  },
  {
   "property": "C123",
   "status": "partial",
   "theorems": [
    "Verif.PySource.C123_no_rows_lost_partial",
    "Verif.PySource.C123_comparisons_are_pushed",
    "Verif.PySource.C123_not_like_is_empty",
    "Verif.PySource.C123_rows_lost"
   ],
   "note": "For all conditions, rows and readers: the answer is the same with pushdown, if casts keep the values and LIKE is plain. Refuted for NOT LIKE (the answer is empty), ILIKE, `_`, an escape character and a cast that changes the value. Floating point values are not modelled."
  },
  {
   "property": "C124",
   "status": "partial",
   "theorems": [
    "Verif.PySource.Write.C124_commits",
    "Verif.PySource.Write.C124_aborts",
    "Verif.PySource.Write.C124_first_error",
    "Verif.PySource.Write.C124_committed_iff_all_written_partial",
    "Verif.PySource.Write.C124_messages_in_order",
    "Verif.PySource.Write.C124_panic_is_end_of_data"
   ],
   "note": "For all streams of results: commit with every message at its position exactly if each expected partition reported success once; otherwise abort with the known messages and an error. From the inputs of the partitions to the calls when no input panics; refuted for a panic, which the writer sees as the end of the data."
  },
  {
   "property": "C125",
   "status": "proved",
   "theorems": [
    "Verif.PySource.Read.C125_every_row_arrives",
    "Verif.PySource.Read.C125_failures_are_reported",
    "Verif.PySource.Read.C125_tuples_in_order",
    "Verif.PySource.Read.C125_batches_in_order",
    "Verif.PySource.Read.C125_batch_size",
    "Verif.PySource.Read.C125_batch_overtakes_tuples"
   ],
   "note": "For all sequences of items and batch sizes: the rows arrive up to order, in order for tuples alone or batches alone, and every failure is reported. A batch overtakes the tuples before it (witness)."
  },
  {
   "property": "C126",
   "status": "proved",
   "theorems": [
    "Verif.PySource.Decimal.C126_exact",
    "Verif.PySource.Decimal.C126_injective",
    "Verif.PySource.Decimal.C126_overflow"
   ],
   "note": "For all values and all scales from -38 to 38, as long as the value fits 128 bits; the text built is read back as the same number."
  },
  {
   "property": "C127",
   "status": "partial",
   "theorems": [
    "Verif.Arrays.C127_map_from_arrays_partial",
    "Verif.Arrays.C127_cut_batch",
    "Verif.Arrays.C127_keys_distinct",
    "Verif.Arrays.C127_last_value",
    "Verif.Arrays.C127_distinct_keys_unchanged",
    "Verif.Arrays.C127_map_from_entries_partial",
    "Verif.Arrays.C127_map_concat"
   ],
   "note": "Proved for every pair of columns whose key column starts at the first value of its buffer (value columns may start anywhere): cell for cell the map of the row's own arguments, and failure exactly when a row has to fail; also for map_from_entries under the same condition and for map_concat without condition. The specification is separately shown to have distinct keys and last values. Refuted for cut key columns (C127_cut_batch): the mask covers the rows but is applied from the start of the buffer."
  },
  {
   "property": "C128",
   "status": "partial",
   "theorems": [
    "Verif.Arrays.C128_drops_nulls_partial",
    "Verif.Arrays.C128_cut_batch",
    "Verif.Arrays.C128_returns_start_of_buffer"
   ],
   "note": "Proved for columns that start at the first value of their buffer. Refuted for cut batches (C128_cut_batch, and in general C128_returns_start_of_buffer): the values returned are those from the start of the buffer."
  },
  {
   "property": "C129",
   "status": "partial",
   "theorems": [
    "Verif.Arrays.C129_array_min_partial",
    "Verif.Arrays.C129_array_max_partial",
    "Verif.Arrays.C129_least_is_least",
    "Verif.Arrays.C129_greatest_is_greatest",
    "Verif.Arrays.C129_empty_batch",
    "Verif.Arrays.C129_hidden_values",
    "Verif.Arrays.C129_min_of_null_concat"
   ],
   "note": "Proved for batches with a row whose NULL rows hide no values. Refuted otherwise: an empty batch fails (C129_empty_batch), a NULL row with values behind it gives their minimum (C129_hidden_values), and concat produces such rows (C129_min_of_null_concat)."
  },
  {
   "property": "C130",
   "status": "proved",
   "theorems": [
    "Verif.Arrays.C130_array_position",
    "Verif.Arrays.C130_position_is_first",
    "Verif.Arrays.C130_array_intersect",
    "Verif.Arrays.C130_intersection_is_intersection",
    "Verif.Arrays.C130_posexplode",
    "Verif.Arrays.C130_arrays_zip"
   ],
   "note": "For all list columns, wherever they start in their buffers and whatever NULL rows hide: array_position, array_intersect, arrays_zip (any number of arguments) and posexplode give cell for cell what the row's own arrays give; the cell functions are characterised separately (first position, common elements each once). Elements are compared by an abstract equality (array_position) or by their row encodings (array_intersect)."
  },
  {
   "property": "C131",
   "status": "proved",
   "theorems": [
    "Verif.Arrays.C131_exists",
    "Verif.Arrays.C131_forall",
    "Verif.Arrays.C131_stops"
   ],
   "note": "DataFusion's list_values, adjust_offsets_for_slice and list_values_row_number are trusted; the vectorised evaluation is an arbitrary outcome that, when it succeeds, agrees with the lambda on every element."
  },
  {
   "property": "C132",
   "status": "proved",
   "theorems": [
    "Verif.Arrays.C132_transform",
    "Verif.Arrays.C132_filter",
    "Verif.Arrays.C132_filter_order",
    "Verif.Arrays.C132_aggregate"
   ],
   "note": "DataFusion's list_values, adjust_offsets_for_slice and list_values_row_number are trusted, so a column is given by its cells."
  },
  {
   "property": "C133",
   "status": "partial",
   "theorems": [
    "Verif.Arrays.C133_array_insert_partial",
    "Verif.Arrays.C133_array_insert_zero",
    "Verif.Arrays.C133_insert_null_position",
    "Verif.Arrays.C133_arrays_overlap_partial",
    "Verif.Arrays.C133_overlap_empty",
    "Verif.Arrays.C133_array_contains_partial",
    "Verif.Arrays.C133_contains_null",
    "Verif.Arrays.C133_slice_partial",
    "Verif.Arrays.C133_slice_past_end",
    "Verif.Arrays.C133_slice_no_error",
    "Verif.Arrays.C133_get_partial",
    "Verif.Arrays.C133_get_from_end"
   ],
   "note": "Proved for array_insert with every position but NULL, arrays_overlap when both arrays have an element or neither has a NULL, array_contains unless the element is missing from an array with a NULL, slice from a positive start or inside the array, get from index -1 up; the remaining cases are refuted (C133_insert_null_position, C133_overlap_empty, C133_contains_null, C133_slice_past_end, C133_slice_no_error, C133_get_from_end). DataFusion's array_slice, array_element, array_has, array_has_any and array_repeat are modelled by their documented meaning."
  },
  {
   "property": "C134",
   "status": "proved",
   "theorems": [
    "Verif.Delta.Dv.C134_merge",
    "Verif.Delta.Dv.C134_merge_refuses",
    "Verif.Delta.Dv.C134_merge_succeeds",
    "Verif.Delta.Dv.C134_sorted_rows",
    "Verif.Delta.Dv.C134_delete",
    "Verif.Delta.Dv.C134_removed_and_added"
   ],
   "note": "Proved of the model for MERGE (any partitions, rows standing together) and DELETE (any cutting into batches): the marks of every file, unchanged files, counts, failures, success, and that each removal names the file with its vector and is followed by an addition. The order of the input that the plan requires is shown to give rows that stand together; that DataFusion delivers that order is trusted."
  },
  {
   "property": "C135",
   "status": "partial",
   "theorems": [
    "Verif.Delta.DvFile.C135_bytes_round_trip",
    "Verif.Delta.DvFile.C135_large_refused",
    "Verif.Delta.DvFile.C135_version_refused",
    "Verif.Delta.DvFile.C135_truncated_refused",
    "Verif.Delta.DvFile.C135_checksum_refused",
    "Verif.Delta.DvFile.C135_foreign_refused",
    "Verif.Delta.DvFile.C135_name_round_trip",
    "Verif.Delta.DvFile.C135_same_file_iff",
    "Verif.Delta.DvFile.C135_round_trip_partial",
    "Verif.Delta.DvFile.C135_escaped_location_fails"
   ],
   "note": "The bytes and the name are proved to round-trip, and other versions, cut files and wrong checksums are proved to be refused. The full statement is false: the writer escapes the table location twice and the reader once, so in a location with an escaped character the vector is not found (C135_escaped_location_fails; C135_same_file_iff says exactly when). C135_round_trip_partial is the rest. Table locations are taken to end with a slash. Roaring, CRC-32 and the escape set are parameters."
  },
  {
   "property": "C136",
   "status": "proved",
   "theorems": [
    "Verif.Delta.DvScan.C136_filter",
    "Verif.Delta.DvScan.C136_filter_empty_batches",
    "Verif.Delta.DvScan.C136_row_index",
    "Verif.Delta.DvScan.C136_chunks",
    "Verif.Delta.DvScan.C136_scan",
    "Verif.Delta.DvScan.C136_scan_positions",
    "Verif.Delta.DvScan.C136_limit",
    "Verif.Delta.DvScan.C136_after_merge",
    "Verif.Delta.DvScan.C136_visible_count"
   ],
   "note": "Proved of the model: the filter and the row index for any batches, the scan of any files in any groups with the pushed predicate, the limit, and what is shown after a MERGE of C134. What the Parquet reader returns is given; scans that only need partition values are not modelled."
  },
  {
   "property": "C137",
   "status": "partial",
   "theorems": [
    "Verif.Func.TryArith.C137_rows",
    "Verif.Func.TryArith.C137_null",
    "Verif.Func.TryArith.C137_add",
    "Verif.Func.TryArith.C137_subtract",
    "Verif.Func.TryArith.C137_multiply",
    "Verif.Func.TryArith.C137_mod_zero",
    "Verif.Func.TryArith.C137_mod_partial",
    "Verif.Func.TryArith.C137_mod_least",
    "Verif.Func.TryArith.C137_mod_decimal_partial",
    "Verif.Func.TryArith.C137_mod_decimal_null",
    "Verif.Func.TryArith.C137_add_interval",
    "Verif.Func.TryArith.C137_subtract_interval_partial",
    "Verif.Func.TryArith.C137_subtract_least_month",
    "Verif.Func.TryArith.C137_multiply_interval",
    "Verif.Func.TryArith.C137_multiply_months_partial",
    "Verif.Func.TryArith.C137_multiply_months_large"
   ],
   "note": "Proved for integers, year-month, timestamp and date-day arithmetic in add, subtract and multiply, and for interval addition and multiplication. Four cases are proved to deviate: try_mod of the least number by -1, try_subtract of intervals with a least part, try_multiply of a year-month interval by a large bigint, and decimal try_mod when rescaling overflows. Dates with calendar intervals and try_divide are not modelled."
  },
  {
   "property": "C138",
   "status": "partial",
   "theorems": [
    "Verif.Func.TryArith.C138_year_month",
    "Verif.Func.TryArith.C138_day_time",
    "Verif.Func.TryArith.C138_calendar_partial",
    "Verif.Func.TryArith.C138_calendar_wraps"
   ],
   "note": "Proved for year-month and day-time intervals. Calendar intervals longer than 292 years wrap around, which is proved; the least number of nanoseconds by -1 panics."
  },
  {
   "property": "C139",
   "status": "partial",
   "theorems": [
    "Verif.Merge.Store.C139_no_forbidden_null",
    "Verif.Merge.Store.C139_names",
    "Verif.Merge.Store.C139_names_insensitive",
    "Verif.Merge.Store.C139_same_type",
    "Verif.Merge.Store.C139_dictionary",
    "Verif.Merge.Store.C139_strict_numbers_partial",
    "Verif.Merge.Store.C139_strict_decimal_bigint",
    "Verif.Merge.Store.C139_strict_decimal_unsigned",
    "Verif.Merge.Store.C139_strict_within_ansi",
    "Verif.Merge.Store.C139_strict_not_ansi",
    "Verif.Merge.Store.C139_ansi_refuses",
    "Verif.Merge.Store.C139_other_types",
    "Verif.Merge.Store.C139_strict_float"
   ],
   "note": "Nested shapes, NULLs, field names, equal types, dictionaries and the inclusion of STRICT in ANSI are proved for all types. The claim that STRICT loses nothing is proved for integers and decimals except decimal(19,0) to bigint and decimals to unsigned integers, which are proved to be accepted although they do not fit. Floating point targets are left out: STRICT accepts them although large integers are rounded."
  },
  {
   "property": "C140",
   "status": "proved",
   "theorems": [
    "Verif.Merge.Store.C140_clause_order",
    "Verif.Merge.Store.C140_every_clause_can_fire",
    "Verif.Merge.Store.C140_refused_has_dead_clause"
   ],
   "note": "The exact characterisation, and that accepted clauses can apply and refused lists have one that cannot."
  },
  {
   "property": "C141",
   "status": "partial",
   "theorems": [
    "Verif.Evolve.C141_rows",
    "Verif.Evolve.C141_null",
    "Verif.Evolve.C141_list",
    "Verif.Evolve.C141_field",
    "Verif.Evolve.C141_unchanged",
    "Verif.Evolve.C141_required",
    "Verif.Evolve.C141_missing_required",
    "Verif.Evolve.C141_required_fields_exist",
    "Verif.Evolve.C141_identity",
    "Verif.Evolve.C141_null_column"
   ],
   "note": "C141_rows: for every pair of nested types and every well-formed array, a successful cast has the table's type and its rows are the file's rows, each converted by itself; C141_null, C141_list and C141_field say what that means for NULLs, lists and struct fields, C141_unchanged that equal types are left alone, C141_required that the check keeps NULLs out of required fields, C141_missing_required that a struct with a missing required field is refused. Partial: the check accepts a Null column for a nullable list although reading it always fails (C141_null_column); maps, variants and relaxed time zones are not modelled."
  },
  {
   "property": "C142",
   "status": "partial",
   "theorems": [
    "Verif.Evolve.C142_by_name",
    "Verif.Evolve.C142_by_identity_partial",
    "Verif.Evolve.C142_accepts",
    "Verif.Evolve.C142_missing_required",
    "Verif.Evolve.C142_swapped_names"
   ],
   "note": "C142_by_name: without column mapping every rewritten expression has the type and value it has on the rows of the table. C142_by_identity_partial: the same by physical name or field id, if no column of the file has the name of a different column of the table; without that it is false (C142_swapped_names: a.x becomes NULL after two columns swapped names). C142_accepts: only an impossible cast makes the rewriting fail. Partial also because a required column missing in the file reads as zero (C142_missing_required)."
  },
  {
   "property": "C143",
   "status": "proved",
   "theorems": [
    "Verif.Iceberg.SchemaIds.C143_ids",
    "Verif.Iceberg.SchemaIds.C143_unique",
    "Verif.Iceberg.SchemaIds.C143_paths",
    "Verif.Iceberg.SchemaIds.C143_names",
    "Verif.Iceberg.SchemaIds.C143_widened"
   ],
   "note": "C143_ids: the ids of the merged schema are a rearrangement of the old ids and of an interval above the last column id; C143_unique: no id twice if the last column id bounds the old ids; C143_paths: every path of names, list elements, map keys and values that had an id keeps it."
  },
  {
   "property": "C144",
   "status": "partial",
   "theorems": [
    "Verif.Iceberg.SchemaIds.C144_numbering",
    "Verif.Iceberg.SchemaIds.C144_bound_partial",
    "Verif.Iceberg.SchemaIds.C144_nested_list"
   ],
   "note": "C144_numbering: a new table is numbered without gaps or repetitions. C144_bound_partial: the recorded last column id bounds all ids if no list or map lies directly in a list or map. Otherwise it is wrong: C144_nested_list gives a table with array<array<int>> whose next column gets the id of the inner element."
  },
  {
   "property": "C145",
   "status": "partial",
   "theorems": [
    "Verif.Iceberg.SchemaIds.C145_struct_over_plain",
    "Verif.Iceberg.SchemaIds.C145_map_value",
    "Verif.Iceberg.SchemaIds.C145_unique_partial",
    "Verif.Iceberg.SchemaIds.C145_columns"
   ],
   "note": "C145_columns: columns keep the id of the column of the same name, new ones get an id above the last. C145_unique_partial: no id twice if columns and nested fields that keep their names keep their kinds (plain, struct, list, map). Otherwise it is wrong: C145_struct_over_plain, the fields of a struct that replaces a plain column all keep the id 0."
  },
  {
   "property": "C146",
   "status": "proved",
   "theorems": [
    "Verif.Checkpoint.C146_writer",
    "Verif.Checkpoint.C146_input_error",
    "Verif.Checkpoint.C146_location",
    "Verif.Checkpoint.C146_location_unique",
    "Verif.Checkpoint.C146_report",
    "Verif.Checkpoint.C146_collected",
    "Verif.Checkpoint.C146_commit",
    "Verif.Checkpoint.C146_roundtrip",
    "Verif.Checkpoint.C146_last_unreported",
    "Verif.Checkpoint.C146_partitioning"
   ],
   "note": "C146_writer, C146_input_error: what one partition reports and stores, and that an error in its input is not swallowed; C146_location, C146_location_unique: which files are accepted, and that those of different partitions differ; C146_report, C146_collected, C146_commit: what a successful commit has seen, and that the order of the reports does not matter; C146_roundtrip: rows, partitions, order and row counts are given back; C146_partitioning. C146_last_unreported: the commit relies on the stream of reports ending only after the last partition has reported."
  },
  {
   "property": "C147",
   "status": "partial",
   "theorems": [
    "Verif.Checkpoint.C147_published_is_readable_partial",
    "Verif.Checkpoint.C147_second_commit",
    "Verif.Checkpoint.C147_overlapping_attempts",
    "Verif.Checkpoint.C147_one_per_id",
    "Verif.Checkpoint.C147_stays_published",
    "Verif.Checkpoint.C147_no_files_left_partial",
    "Verif.Checkpoint.C147_dropped",
    "Verif.Checkpoint.C147_nothing_published_partial",
    "Verif.Checkpoint.C147_late_publish",
    "Verif.Checkpoint.C147_stopping_refuses"
   ],
   "note": "C147_published_is_readable_partial: the objects of published checkpoints exist if no relation id is used twice; C147_one_per_id, C147_stays_published; C147_stopping_refuses; C147_no_files_left_partial: no object is left if every command ended with success or error; C147_nothing_published_partial: nothing is published after stopping if no command was between looking and publishing. Without these conditions it is wrong: C147_second_commit, C147_overlapping_attempts, C147_dropped, C147_late_publish."
  },
  {
   "property": "C148",
   "status": "partial",
   "theorems": [
    "Verif.Io.Rate.C148_columns_partial",
    "Verif.Io.Rate.C148_wrong_column",
    "Verif.Io.Rate.C148_values",
    "Verif.Io.Rate.C148_partitions_repeat",
    "Verif.Io.Rate.C148_no_columns",
    "Verif.Io.Rate.C148_zero",
    "Verif.Io.Rate.C148_rate_partial",
    "Verif.Io.Rate.C148_exact_rate",
    "Verif.Io.Rate.C148_over_rate",
    "Verif.Io.Rate.C148_under_rate"
   ],
   "note": "Within a partition, the values are 0, 1, 2, ... without gaps or repetitions, whatever columns are selected and however often, as long as there is one; every row of a batch has its timestamp; a column that does not exist is refused. If there are at least as many rows per second as partitions, the total is not above the configured rate and above a quarter of it, and equal to it if it can be divided evenly. It is wrong that values are generated once with more than one partition (each partition starts at 0), that the rate is not exceeded with more partitions than rows per second, that the rate is reached (1999 gives 1000) and that rows can be generated without selected columns."
  },
  {
   "property": "C149",
   "status": "partial",
   "theorems": [
    "Verif.Iceberg.Append.C149_equivalent",
    "Verif.Iceberg.Append.C149_fits",
    "Verif.Iceberg.Append.C149_write_partial",
    "Verif.Iceberg.Append.C149_required",
    "Verif.Iceberg.Append.C149_wrong_length"
   ],
   "note": "Nested types count as the same exactly if they differ only in the name of UTC, the kind of list and NULLs inside. Plain types that are accepted can hold all values of the input, with the same scale, except for bytes of fixed size. A write succeeds exactly if the columns of the input are in the table with such types, required columns without defaults are in the input and no NULL is to be stored in a required column; it then stores exactly the values of the input, the write default, the initial default or NULL. This holds if values for columns of fixed size have that size; otherwise the value becomes NULL without an error. No NULL gets into a required column in any case. Values of nested columns are not looked into, and the cast of binary to fixed size is arrow's, described but not proved."
  },
  {
   "property": "C150",
   "status": "partial",
   "theorems": [
    "Verif.Delta.MergeSchema.C150_types",
    "Verif.Delta.MergeSchema.C150_names",
    "Verif.Delta.MergeSchema.C150_other_columns",
    "Verif.Delta.MergeSchema.C150_nullable_and_metadata_lost",
    "Verif.Delta.MergeSchema.C150_new_columns",
    "Verif.Delta.MergeSchema.C150_nothing_new",
    "Verif.Delta.MergeSchema.C150_unchanged_partial",
    "Verif.Delta.MergeSchema.C150_narrow_input_refused",
    "Verif.Delta.MergeSchema.C150_narrow_decimal",
    "Verif.Delta.MergeSchema.C150_nested_names"
   ],
   "note": "Names, order, the plain types at every path, NULLs of columns and columns that are left out are proved for every accepted merge; that nothing changes when the input brings nothing new holds only for columns without metadata. Refuted for metadata, which columns in the input lose, and for new columns, which stay required. A narrower integer in the input is refused although it fits (C150_narrow_input_refused). Tables with column mapping or type widening are not modelled."
  },
  {
   "property": "C151",
   "status": "partial",
   "theorems": [
    "Verif.Func.StructField.C151_one_name_partial",
    "Verif.Func.StructField.C151_nested_ignored",
    "Verif.Func.StructField.C151_nested_wrong",
    "Verif.Func.StructField.C151_nested_refused",
    "Verif.Func.StructField.C151_case",
    "Verif.Func.StructField.C151_duplicate_names"
   ],
   "note": "Proved for paths of one name in structs with distinct names. Refuted for longer paths: the column is updated only where a field of the outer struct has the last name of the path, so an accepted call returns its argument (C151_nested_ignored, C151_nested_wrong) and other calls fail (C151_nested_refused). Refuted for names in another case (C151_case) and for structs with two fields of the same name (C151_duplicate_names)."
  },
  {
   "property": "C152",
   "status": "partial",
   "theorems": [
    "Verif.Func.StructField.C152_rows",
    "Verif.Func.StructField.C152_refused",
    "Verif.Func.StructField.C152_case"
   ],
   "note": "The rows of an accepted call and what is refused are proved for all paths, for structs whose names are distinct and for names compared exactly; a name in another case is ignored instead of dropped (C152_case)."
  },
  {
   "property": "C153",
   "status": "partial",
   "theorems": [
    "Verif.Phys.Sample.C153_splits",
    "Verif.Phys.Sample.C153_rows",
    "Verif.Phys.Sample.C153_all",
    "Verif.Phys.Sample.C153_none",
    "Verif.Phys.Sample.C153_repeats",
    "Verif.Phys.Sample.C153_cut",
    "Verif.Phys.Sample.C153_replacement",
    "Verif.Phys.Sample.C153_by",
    "Verif.Phys.Sample.C153_by_zero"
   ],
   "note": "That the parts of a split have every row once, that a sample has rows of the input, and the fractions 0 and 1 are proved for given draws, partitions and batches; that the batches are the same each time the input is read is assumed. Refuted: the draws start again in every batch, so equal batches give the same places (C153_repeats) and the sample depends on the cut (C153_cut); a stratum with fraction 0 can give a row (C153_by_zero)."
  },
  {
   "property": "C154",
   "status": "partial",
   "theorems": [
    "Verif.Plan.RenameColumns.C154_sequence_partial",
    "Verif.Plan.RenameColumns.C154_kept",
    "Verif.Plan.RenameColumns.C154_case",
    "Verif.Plan.RenameColumns.C154_repeated"
   ],
   "note": "For distinct old names and names written in one case the columns are proved to be those after the renamings one after another, for every iteration order of the hash maps. Missing: Sail compares names with their case, so a name that differs in its case is not renamed (C154_case proves the negation). C154_repeated shows that the condition on the old names is needed."
  },
  {
   "property": "C155",
   "status": "partial",
   "theorems": [
    "Verif.Plan.SetOp.C155_except_all",
    "Verif.Plan.SetOp.C155_except",
    "Verif.Plan.SetOp.C155_except_refused",
    "Verif.Plan.SetOp.C155_union_rows",
    "Verif.Plan.SetOp.C155_union_missing_allowed",
    "Verif.Plan.SetOp.C155_union_refused_partial",
    "Verif.Plan.SetOp.C155_union_extra_dropped",
    "Verif.Plan.SetOp.C155_union_repeated"
   ],
   "note": "EXCEPT ALL, EXCEPT and the rows and columns of unionByName are proved for all tables. Missing: without allowMissingColumns a further column of the right side is dropped instead of being refused (C155_union_extra_dropped), and repeated names are not refused (C155_union_repeated). INTERSECT and the coercion of types are DataFusion's and not modelled."
  },
  {
   "property": "C156",
   "status": "partial",
   "theorems": [
    "Verif.Plan.Na.C156_drop_any_partial",
    "Verif.Plan.Na.C156_drop_threshold_partial",
    "Verif.Plan.Na.C156_threshold_zero",
    "Verif.Plan.Na.C156_unknown_ignored",
    "Verif.Plan.Na.C156_fill_partial",
    "Verif.Plan.Na.C156_fill_refused",
    "Verif.Plan.Na.C156_fill_unknown_ignored"
   ],
   "note": "dropna without a threshold and with one above zero, and fillna, are proved for all schemas and rows. Missing: dropna with the threshold zero drops rows (C156_threshold_zero), names that are not columns are ignored (C156_unknown_ignored, C156_fill_unknown_ignored), and a value that cannot be converted to the type of the column leaves NULL. The conversion itself is a parameter."
  },
  {
   "property": "C157",
   "status": "partial",
   "theorems": [
    "Verif.Plan.ColumnOp.C157_with_columns_partial",
    "Verif.Plan.ColumnOp.C157_with_columns_case",
    "Verif.Plan.ColumnOp.C157_with_columns_repeated",
    "Verif.Plan.ColumnOp.C157_replace_values",
    "Verif.Plan.ColumnOp.C157_replace_refused",
    "Verif.Plan.ColumnOp.C157_replace_names_partial",
    "Verif.Plan.ColumnOp.C157_replace_lower_case"
   ],
   "note": "The places and contents of the columns of withColumns for distinct names, and the values and refusals of replace, are proved. Missing: withColumns compares names with their case (C157_with_columns_case) and accepts a name given twice (C157_with_columns_repeated); replace changes all names to lower case (C157_replace_lower_case)."
  },
  {
   "property": "C158",
   "status": "partial",
   "theorems": [
    "Verif.Plan.Tail.C158_tail_partial",
    "Verif.Plan.Tail.C158_last_unique",
    "Verif.Plan.Tail.C158_grown",
    "Verif.Plan.Tail.C158_negative"
   ],
   "note": "Proved when both executions see the same number of rows. Missing: a table that grows between them (C158_grown), and a negative n, which is refused instead of giving no rows (C158_negative)."
  },
  {
   "property": "C159",
   "status": "partial",
   "theorems": [
    "Verif.Plan.Unpivot.C159_rows_partial",
    "Verif.Plan.Unpivot.C159_refused",
    "Verif.Plan.Unpivot.C159_nulls_kept",
    "Verif.Plan.Unpivot.C159_alias_ignored",
    "Verif.Plan.Unpivot.C159_groups_flattened"
   ],
   "note": "The rows of the result are proved for all tables for plain value columns, as in the DataFrame API. Missing, and false in Sail: leaving out NULLs in SQL (C159_nulls_kept), aliases (C159_alias_ignored), and several columns per value (C159_groups_flattened). Types are not modelled."
  },
  {
   "property": "C160",
   "status": "partial",
   "theorems": [
    "Verif.Plan.Crosstab.C160_rows",
    "Verif.Plan.Crosstab.C160_columns_partial",
    "Verif.Plan.Crosstab.C160_cells",
    "Verif.Plan.Crosstab.C160_total_partial",
    "Verif.Plan.Crosstab.C160_null_lost"
   ],
   "note": "The rows, columns and cells are proved for all inputs whose second column has no NULL, and the cells for all inputs. Missing: there is no column for NULL, so rows with NULL in the second column are counted nowhere (C160_null_lost). That equal texts are equal values, and that the table does not change between the two executions, is assumed."
  },
  {
   "property": "C161",
   "status": "proved",
   "theorems": [
    "Verif.Plan.DropColumns.C161_kept",
    "Verif.Plan.DropColumns.C161_refused"
   ],
   "note": "For all columns, names and references. Taken as given: internal field names are unique (a column is its position), every field has its info, and DataFusion accepts the projection. Arguments that are not attributes are not modelled."
  }
 ]
}
