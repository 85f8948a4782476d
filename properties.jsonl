{"id": "C01", "title": "Task status never moves backwards", "statement": "The status of a task attempt shown to the user only moves forward in the order created, scheduled, running, finished; once it is succeeded, failed or canceled no later, duplicated or reordered status report changes it.", "quantifier": "every sequence of status reports, in any order, with duplicates", "why_tests_cant": "tests replay a handful of report orders; the claim is over all interleavings of reports from workers, timeouts and cancellation", "anchors": ["crates/sail-execution/src/driver/job_scheduler/state.rs: TaskState::consolidate, TaskState::is_terminal", "crates/sail-execution/src/driver/job_scheduler/core.rs: update_task"]}
{"id": "C02", "title": "Bounded retries and job failure", "statement": "No task is ever started more than the configured maximum number of attempts, and a running job is failed exactly when some task's last allowed attempt has failed or been canceled.", "quantifier": "every job topology, every maximum attempt count and every history of task reports", "why_tests_cant": "needs an invariant over unbounded histories of failures across regions", "anchors": ["crates/sail-execution/src/driver/job_scheduler/core.rs: refresh_job, update_task_regions, schedule_task_regions"]}
{"id": "C03", "title": "Blocking inputs are complete before a consumer starts", "statement": "When tasks of a region are handed out for execution, every task of every region it depends on has succeeded.", "quantifier": "every topology and every history of reports", "why_tests_cant": "a violation needs a particular interleaving of failures and successes over several regions", "anchors": ["crates/sail-execution/src/driver/job_scheduler/core.rs: schedule_task_regions", "crates/sail-execution/src/driver/job_scheduler/topology.rs: JobTopology::try_new"]}
{"id": "C04", "title": "At most one live attempt per task", "statement": "At any moment at most one attempt of a task is unfinished, and it is the most recent attempt.", "quantifier": "every history of job events", "why_tests_cant": "the double-run needs a specific race between retry, cancellation and late reports", "anchors": ["crates/sail-execution/src/driver/job_scheduler/core.rs: schedule_task_regions, cascade_cancel_task_attempts, update_task"]}
{"id": "C05", "title": "Pipelined tasks retry together", "statement": "All tasks that exchange data through in-memory streams always have the same number of attempts, so a consumer's attempt is always wired to the producer attempt started together with it.", "quantifier": "every history of job events", "why_tests_cant": "invariant across all retries of all tasks in a region", "anchors": ["crates/sail-execution/src/driver/job_scheduler/core.rs: schedule_task_regions, TaskInputBuilder::latest_attempt"]}
{"id": "C06", "title": "Job output contains every output row once", "statement": "If the job output stream ends without an error, then for every output partition the rows returned to the client come from exactly one attempt of that partition: no row is delivered twice because a task was retried.", "quantifier": "every interleaving of output streams being added, batches arriving, streams ending and retries", "why_tests_cant": "the duplicate only appears when a retry is scheduled after the earlier attempt's stream is already exhausted", "anchors": ["crates/sail-execution/src/driver/output.rs: JobOutputStream::poll_next, TaskStreamWrapper"]}
{"id": "C07", "title": "Final job status reflects the outcome", "statement": "A job that failed is still reported as failed after its resources are cleaned up, a job that delivered all its output is reported as succeeded, and only interrupted jobs are reported as canceled.", "quantifier": "every history of job events including repeated clean-up", "why_tests_cant": "depends on the order of the clean-up message and the failure", "anchors": ["crates/sail-execution/src/driver/job_scheduler/core.rs: clean_up_job, refresh_job, stop", "crates/sail-execution/src/driver/output.rs: build_job_output"]}
{"id": "C08", "title": "A task slot runs one task set at a time", "statement": "A worker slot is only given tasks when it is empty and its worker is active, and one assignment round never gives the same slot twice.", "quantifier": "every history of worker arrivals and losses, task arrivals, completions and assignment rounds", "why_tests_cant": "invariant over all interleavings", "anchors": ["crates/sail-execution/src/driver/task_assigner/core.rs: assign_tasks, build_worker_task_slot_assigner, TaskSlotAssigner", "crates/sail-execution/src/driver/task_assigner/state.rs"]}
{"id": "C09", "title": "Gang scheduling in arrival order", "statement": "Tasks of a region are placed together or not at all, and regions are placed in exactly the order in which they were queued (none is overtaken).", "quantifier": "every queue and every free-slot layout", "why_tests_cant": "quantifies over all queues and slot layouts", "anchors": ["crates/sail-execution/src/driver/task_assigner/core.rs: assign_tasks, TaskSlotAssigner::try_assign_task_region"]}
{"id": "C10", "title": "The worker limit is respected", "statement": "With a configured maximum worker count, the number of workers that are running or have been launched and not yet registered never exceeds that maximum.", "quantifier": "every history of launches, registrations, launch failures and losses, every initial worker count", "why_tests_cant": "needs a race between the initial workers registering and new requests", "anchors": ["crates/sail-execution/src/driver/task_assigner/core.rs: request_workers, activate_worker, track_worker_failed_to_start", "crates/sail-execution/src/driver/actor/handler.rs: handle_activate, scale_up_workers"]}
{"id": "C11", "title": "A region asks for as many slots as it has work", "statement": "The number of worker slots a region needs before it can start is at most the number of tasks in it, so a job whose tasks fit the cluster one at a time can run.", "quantifier": "every job graph and partition count", "why_tests_cant": "tests use few partitions; the excess demand grows with the partition count", "anchors": ["crates/sail-execution/src/driver/job_scheduler/core.rs: build_task_region"]}
{"id": "C12", "title": "Partitions of a stage never share a slot", "statement": "Two tasks of the same stage with different partition numbers are never put in the same task set, and every task of the region is in exactly one task set.", "quantifier": "every region, stage layout and partition count", "why_tests_cant": "arithmetic over all partition counts", "anchors": ["crates/sail-execution/src/driver/job_scheduler/core.rs: build_task_region", "crates/sail-execution/src/driver/task_assigner/state.rs: TaskSlot"]}
{"id": "C13", "title": "Workers holding data are not stopped as idle", "statement": "A worker is only considered idle when none of its slots holds a task and none of the in-memory outputs it produced is still needed.", "quantifier": "every history of assignment and clean-up", "why_tests_cant": "needs arbitrary interleavings of clean-up and assignment", "anchors": ["crates/sail-execution/src/driver/task_assigner/core.rs: is_worker_idle, track_streams, untrack_local_streams"]}
{"id": "C14", "title": "Every task belongs to exactly one region", "statement": "Splitting a job into regions covers each task of each stage exactly once, and tasks connected by in-memory streams are in the same region.", "quantifier": "every job graph", "why_tests_cant": "quantifies over all graphs", "anchors": ["crates/sail-execution/src/driver/job_scheduler/topology.rs: JobTopology::try_new"]}
{"id": "C15", "title": "Every shuffle output is read by the right consumer", "statement": "For every way of wiring two stages (one-to-one, merge, shuffle, broadcast, rescale) the set of producer outputs read by the consumer partitions is what the mode promises: each output is read by exactly one consumer partition for one-to-one, shuffle and rescale, and by every consumer partition for merge and broadcast.", "quantifier": "every number of producer partitions, channels and consumer partitions", "why_tests_cant": "arithmetic over all sizes", "anchors": ["crates/sail-execution/src/driver/job_scheduler/core.rs: TaskInputBuilder::build_task_input_keys"]}
{"id": "C16", "title": "Output replicas match the number of readers", "statement": "Each in-memory output keeps exactly as many copies as there are reads of it, so no reader finds the copies exhausted and no copy is left without a reader.", "quantifier": "every job graph", "why_tests_cant": "depends on all consumers of a stage and all their modes", "anchors": ["crates/sail-execution/src/job_graph/mod.rs: JobGraph::replicas", "crates/sail-execution/src/stream/local/memory.rs: MemoryStream::subscribe"]}
{"id": "C17", "title": "Coalesce assigns each input partition once, in order", "statement": "Reducing N partitions to M assigns every input partition to exactly one output partition, in contiguous increasing ranges, every output partition receives at least one input when M is at most N, and the sizes differ by at most one.", "quantifier": "all N and M", "why_tests_cant": "number-theoretic claim over all sizes", "anchors": ["crates/sail-physical-plan/src/coalesce.rs: coalesced_input_range, CoalesceStream", "crates/sail-execution/src/driver/job_scheduler/core.rs: build_task_input_keys"]}
{"id": "C18", "title": "In-memory streams deliver every batch in order", "statement": "Every reader of an in-memory task output receives the batches in the order written without loss or duplication; after commit a reader that keeps reading receives all of them, whatever the buffer size and the speed of the reader.", "quantifier": "every interleaving of writes, reads, early subscriptions and reader drops, every buffer size", "why_tests_cant": "needs all interleavings of backpressure and overflow", "anchors": ["crates/sail-execution/src/stream/local/memory.rs: MemoryStream, MemoryStreamSink", "crates/sail-execution/src/stream/local/core.rs: LocalStreamManager"]}
{"id": "C19", "title": "Storage shuffle returns what was committed", "statement": "Reading a committed storage-backed output returns all batches in the order written, whatever the file-size limit, and an aborted output leaves nothing behind.", "quantifier": "every batch sequence and file-size limit", "why_tests_cant": "file splits depend on sizes; ordering relies on file-name order for any file count", "anchors": ["crates/sail-execution/src/stream/storage/core.rs"]}
{"id": "C20", "title": "Retried consumers still see their input", "statement": "A task that is (re)run reads the complete output of the stage it depends on; it never silently reads an empty input because the producer's output had already been removed.", "quantifier": "every history of failures and retries", "why_tests_cant": "needs a failure after a consumer's success but before the job ends", "anchors": ["crates/sail-execution/src/driver/job_scheduler/core.rs: clean_up_job_by_stage, schedule_task_regions", "crates/sail-execution/src/stream/storage/core.rs: fetch_stream", "crates/sail-execution/src/driver/actor/handler.rs: run_job_action"]}
{"id": "C21", "title": "Late reports from workers are ignored", "statement": "If status reports of an attempt arrive out of order, the status applied is always that of the highest-numbered report received so far and no report is applied twice.", "quantifier": "every permutation and duplication of reports", "why_tests_cant": "all delivery orders", "anchors": ["crates/sail-execution/src/driver/actor/handler.rs: handle_update_task"]}
{"id": "C22", "title": "Identifiers are never reused", "statement": "Generated job and worker identifiers are distinct and increasing, and exhaustion is reported as an error instead of wrapping.", "quantifier": "every number of requests", "why_tests_cant": "exhaustion cannot be tested", "anchors": ["crates/sail-execution/src/id.rs: IdGenerator"]}
{"id": "C23", "title": "Explicit repartition distributes every row once and evenly", "statement": "Round-robin repartition sends each row to exactly one output partition, keeps the relative order of rows within a partition, and after any number of batches the partition sizes contributed by one input differ by at most one, regardless of how rows are grouped in batches.", "quantifier": "every batch sequence, partition count and starting input partition", "why_tests_cant": "all groupings into batches", "anchors": ["crates/sail-physical-plan/src/repartition.rs: RowRoundRobinPartitioner"]}
{"id": "C24", "title": "range() yields exactly the arithmetic progression", "statement": "For a non-zero step, concatenating the partitions of range(start, end, step) gives start, start+step, ... up to but excluding end, for any number of partitions.", "quantifier": "all 64-bit start, end, step and all partition counts", "why_tests_cant": "boundary behaviour near the 64-bit limits and all partition counts", "anchors": ["crates/sail-logical-plan/src/range.rs: Range::partition, RangeIterator", "crates/sail-physical-plan/src/range.rs"]}
{"id": "C25", "title": "monotonically_increasing_id is unique and increasing", "statement": "Identifiers are strictly increasing within a partition across batches and distinct across partitions; a partition with more than 2^33 rows is an error rather than a collision.", "quantifier": "all partitions, batch splits and row counts", "why_tests_cant": "2^33 rows cannot be tested", "anchors": ["crates/sail-physical-plan/src/monotonic_id.rs: MonotonicIdStream::make_ids"]}
{"id": "C26", "title": "MERGE detects multiple matches", "statement": "A MERGE fails with a cardinality violation exactly when some target row is matched by more than one source row, no matter how rows are split in batches; otherwise rows pass through unchanged.", "quantifier": "all row sequences and batch splits", "why_tests_cant": "all splits across batches", "anchors": ["crates/sail-physical-plan/src/merge_cardinality_check.rs: MergeCardinalityCheckStream"]}
{"id": "C27", "title": "Streaming LIMIT/OFFSET", "statement": "The data rows emitted by a streaming limit are exactly rows skip..skip+fetch of the input data rows in order, regardless of batching and interleaved markers, and every marker before the cut-off is forwarded.", "quantifier": "all event sequences, skips and fetches", "why_tests_cant": "all batch boundaries", "anchors": ["crates/sail-physical-plan/src/streaming/limit.rs: StreamLimitState"]}
{"id": "C28", "title": "Streaming event encoding round-trips", "statement": "Encoding flow events as record batches and decoding them returns the same markers and the same data rows with the same retraction flags in the same order, also after batches are merged or re-sliced.", "quantifier": "all event sequences and all re-batchings", "why_tests_cant": "all concatenations and slices", "anchors": ["crates/sail-common-datafusion/src/streaming/event/encoding.rs"]}
{"id": "C29", "title": "Early stop only when nobody reads", "statement": "A task's writer reports that it can stop early only when every output channel has lost all its readers; a channel that still has a reader receives all its batches.", "quantifier": "every sequence of writes and reader drops", "why_tests_cant": "all interleavings", "anchors": ["crates/sail-execution/src/stream/accessor.rs: MultiChannelTaskStreamSink", "crates/sail-execution/src/plan/shuffle_write.rs: shuffle_write"]}
{"id": "C30", "title": "A running job can always make progress", "statement": "While a job is running with no unfinished task and some region not yet succeeded, evaluating it either fails the job or hands out new tasks: it is never stuck.", "quantifier": "every topology with acyclic dependencies and every history", "why_tests_cant": "liveness over all histories", "anchors": ["crates/sail-execution/src/driver/job_scheduler/core.rs: refresh_job, schedule_task_regions"]}
{"id": "C31", "title": "The reported failure cause is a real one", "statement": "The error reported for a failed job is the cause of some task attempt that failed, and one is reported whenever any attempt failed with a cause.", "quantifier": "every history", "why_tests_cant": "all histories of failures", "anchors": ["crates/sail-execution/src/driver/job_scheduler/core.rs: infer_job_failure_cause"]}
{"id": "C32", "title": "Worker lifecycle is consistent", "statement": "A worker is registered at most once, only after it was started, and a worker that was stopped, lost or failed to start never runs again under the same identifier.", "quantifier": "every sequence of worker events", "why_tests_cant": "all interleavings of timeouts, registration and stop", "anchors": ["crates/sail-execution/src/driver/worker_pool/core.rs"]}
{"id": "C33", "title": "A finished attempt is never dispatched", "statement": "A task attempt handed to a worker is still live: it has not already been reported as finished, failed, canceled or timed out, and its job has not already failed.", "quantifier": "every interleaving of status reports, placement rounds, timeouts and clean-ups", "why_tests_cant": "depends on the order in which queueing, timeouts and placement interleave", "anchors": ["crates/sail-execution/src/driver/actor/handler.rs: run_tasks, handle_probe_pending_task, run_job_action", "crates/sail-execution/src/driver/task_assigner/core.rs: exclude_task"]}
{"id": "C34", "title": "A truncated input is an error, not the end of data", "statement": "When the producer of an in-memory stream fails or is canceled before finishing, the consumer never mistakes the data received so far for the complete output: it gets an error instead of a regular end of stream.", "quantifier": "every amount of data written before the failure, every buffer size and read schedule", "why_tests_cant": "a race between the data plane and the control plane", "anchors": ["crates/sail-execution/src/plan/shuffle_write.rs: shuffle_write", "crates/sail-execution/src/stream/local/memory.rs: MemoryStreamSink::abort"]}
{"id": "C35", "title": "Lost workers are detected, live ones are not declared lost", "statement": "A worker with work on it from which a heartbeat was received less than the heartbeat timeout ago is never declared lost; and a worker that stays silent for the timeout is ended, together with its claim on resources.", "quantifier": "every interleaving of heartbeats, time, and delayed probes", "why_tests_cant": "timing races between heartbeats and probes", "anchors": ["crates/sail-execution/src/driver/worker_pool/core.rs: schedule_lost_worker_probe, update_worker_heartbeat", "crates/sail-execution/src/driver/actor/handler.rs: handle_probe_lost_worker"]}
{"id": "C36", "title": "Idle workers are released, busy ones are not", "statement": "A worker is released for idleness only if it has no tasks or streams and was not used for the configured idle time, and a worker that stays idle that long is released.", "quantifier": "every interleaving of work, time and delayed probes", "why_tests_cant": "timing races; unbounded waiting", "anchors": ["crates/sail-execution/src/driver/worker_pool/core.rs: schedule_idle_worker_probe, track_worker_activity", "crates/sail-execution/src/driver/actor/handler.rs: handle_probe_idle_worker"]}
{"id": "C37", "title": "A Delta table version contains exactly the files its history says", "statement": "Loading version v of a Delta table yields exactly the files whose last action in commits 0..v is an addition, with the metadata, protocol and domain metadata last set by those commits; it does not matter which checkpoints were written on the way, when they were written, or how much of the log was cleaned up, as long as loading succeeds.", "quantifier": "every history of commits, checkpoints at any versions and times, and log clean-ups; every version", "why_tests_cant": "tests use short logs with one checkpoint; the interaction of chained checkpoints, tombstone expiry and clean-up needs unbounded histories", "anchors": ["crates/sail-delta-lake/src/checkpoint/mod.rs: ReconciledCheckpointState, create_checkpoint, replay_commit_actions", "crates/sail-delta-lake/src/delta_log/segment.rs: resolve_for_full_state", "crates/sail-delta-lake/src/delta_log/replay.rs: load_replayed_table_state"]}
{"id": "C38", "title": "Log compaction does not change the table", "statement": "Loading a version of a Delta table gives the same files, metadata and domain metadata whether or not the log contains compacted log files written by the engine for ranges of its commits.", "quantifier": "every history of commits, every set of compacted ranges, every checkpoint position", "why_tests_cant": "needs specific alignments of checkpoint, compaction and target version", "anchors": ["crates/sail-delta-lake/src/checkpoint/mod.rs: create_log_compaction_for, build_replay_sequence", "crates/sail-delta-lake/src/delta_log/segment.rs: resolve_compactions", "crates/sail-delta-lake/src/delta_log/replay.rs: load_replayed_table_state"]}
{"id": "C39", "title": "Every retained version of a Delta table can be read", "statement": "A version of a Delta table whose commits are all still in the log can be loaded (time travel), and reading without a version reads the newest commit.", "quantifier": "every history, every version still covered by the log", "why_tests_cant": "needs logs longer than a checkpoint interval and a target older than the newest checkpoint", "anchors": ["crates/sail-delta-lake/src/delta_log/segment.rs: resolve_for_full_state, list_log_files", "crates/sail-delta-lake/src/delta_log/replay.rs: latest_replayable_version", "crates/sail-delta-lake/src/delta_log/segment_files.rs: list_log_segment_files"]}
{"id": "C40", "title": "Log clean-up keeps every version inside the retention period", "statement": "After expired log files of a Delta table are deleted, every version whose commit is newer than the retention cut-off is still covered by a checkpoint and the commits after it, and the newest version loads unchanged.", "quantifier": "every log, every cut-off, commit times that increase with the version", "why_tests_cant": "boundary between checkpoint, cut-off and commits", "anchors": ["crates/sail-delta-lake/src/delta_log/cleanup.rs: cleanup_expired_delta_log_files, RetentionCleanupBoundary"]}
{"id": "C41", "title": "The two ways of reading a Delta table agree", "statement": "Reading the list of files of a version by replaying the log inside the query plan (metadataAsDataRead, and all DELETE/UPDATE/MERGE/overwrite operations) gives the same files as replaying it on the driver.", "quantifier": "every log, every version, every order in which log rows arrive", "why_tests_cant": "the order of log rows is decided by parallel execution", "anchors": ["crates/sail-delta-lake/src/physical_plan/log_replay_exec.rs: HashReplayState, ReplayState", "crates/sail-delta-lake/src/physical_plan/planner/log_segment.rs: resolve_log_segment_files"]}
{"id": "C42", "title": "Concurrent Delta commits are serialised", "statement": "However many writers commit to a Delta table concurrently, every version is written by exactly one of them and versions are consecutive; a writer that read the table at some version and removes or replaces data commits only if nobody else committed since, and an append commits only if nobody changed the schema or protocol meanwhile.", "quantifier": "any number of writers, every interleaving of listing and put-if-absent, every retry", "why_tests_cant": "races between writers", "anchors": ["crates/sail-delta-lake/src/transaction/mod.rs: commit loop", "crates/sail-delta-lake/src/transaction/conflict_checker.rs", "crates/sail-delta-lake/src/delta_log/store.rs: write_commit_entry"]}
{"id": "C43", "title": "Commit timestamps recorded in the log strictly increase", "statement": "Once a Delta table records commit timestamps inside its commits, the timestamp of every later version is strictly larger than that of the previous version, even if clocks of the writers go backwards.", "quantifier": "every sequence of commits and every clock reading", "why_tests_cant": "clock skew", "anchors": ["crates/sail-delta-lake/src/transaction/mod.rs: finalize_attempt_actions", "crates/sail-delta-lake/src/delta_log/timestamps.rs"]}
{"id": "C44", "title": "Deletion vectors survive their text encoding", "statement": "Encoding the bytes of an inline deletion vector as text and decoding them again returns the same bytes, padded with zero bytes to a multiple of four; different aligned inputs have different encodings, and text that is not a valid encoding is refused.", "quantifier": "every byte sequence", "why_tests_cant": "unbounded inputs; overflowing groups are never tested", "anchors": ["crates/sail-delta-lake/src/deletion_vector/z85.rs"]}
{"id": "C45", "title": "Enough workers are started for the waiting work", "statement": "When the cluster scales up, the workers it requests bring enough slots, together with the free ones, for all waiting work, or the configured maximum is reached; it requests no more than needed; and without a maximum all waiting work is placed once these workers have registered.", "quantifier": "every state of the cluster, every number of slots per worker", "why_tests_cant": "arithmetic boundary over all queue and slot counts", "anchors": ["crates/sail-execution/src/driver/task_assigner/core.rs: request_workers"]}
{"id": "C46", "title": "Cancelled work is not handed out", "statement": "After a task is cancelled it is given to nobody in any later placement round unless it is submitted again; other waiting work stays in the queue in the same order.", "quantifier": "every history of the assigner", "why_tests_cant": "needs arbitrary interleavings of cancellation and placement", "anchors": ["crates/sail-execution/src/driver/task_assigner/core.rs: exclude_task"]}
{"id": "C47", "title": "A reader never waits forever for a task output", "statement": "A consumer that asks for an in-memory output before it exists is served when the output is created, or gets an error after the creation time-out; the planned number of consumers is always served whatever the order of requests and creation; a time-out only affects consumers that have waited that long.", "quantifier": "every interleaving of requests, creation, time-outs and removal", "why_tests_cant": "races between consumers, producer and timers", "anchors": ["crates/sail-execution/src/stream/local/core.rs: LocalStreamManager", "crates/sail-execution/src/task_runner/actor/handler.rs: handle_probe_pending_local_stream"]}
{"id": "C48", "title": "Partition pruning of an Iceberg scan never hides a matching row", "statement": "A SELECT with a WHERE clause on an Iceberg table reads every data file that holds a row satisfying the clause: skipping manifests by their partition summaries and data files by their partition tuples may only leave out files none of whose rows satisfy every filter.", "quantifier": "For every schema, partition spec, list of filters, manifest list, set of data files and rows, with any partition tuples that follow the Iceberg definition of the transforms.", "why_tests_cant": "The filters, the transforms, the literals and the rows range over unbounded sets; a row is lost only for particular combinations of transform, bound and operator, and the loss is silent.", "anchors": ["crates/sail-iceberg/src/datasource/pruning.rs: prune_manifests_by_partition_summaries, prune_data_files_by_partition_values, prune_files, IcebergPruningStats::contained, partition_predicates_for_spec, collect_source_eq_filters, collect_source_in_filters, collect_source_range_filters, transform_range_constraint, adjust_exclusive_bound", "crates/sail-iceberg/src/utils/conversions.rs: scalar_to_primitive_literal", "crates/sail-iceberg/src/spec/types/values.rs: PrimitiveLiteral::cmp"]}
{"id": "C49", "title": "Partition values computed for Iceberg tables are those of the Iceberg specification", "statement": "The value that identity, bucket, truncate, year, month, day and hour give for a column value is the one the Iceberg table specification defines, so files written here are found by other engines and the other way round.", "quantifier": "For every transform, column type and value in range.", "why_tests_cant": "Dates and timestamps, widths and numbers of buckets are unbounded families; wrong answers appear only before 1970, at leap years, at the ends of integer ranges or for negative decimals.", "anchors": ["crates/sail-iceberg/src/utils/transform.rs: apply_transform, days_to_year, micros_to_year, days_to_months, micros_to_months, bucket_n, hash_long, hash_decimal", "crates/sail-iceberg/src/spec/transform.rs: Transform::preserves_order"]}
{"id": "C50", "title": "Every delete file is applied to exactly the data files the Iceberg specification names", "statement": "Reading an Iceberg table applies a position delete file to a data file exactly when it names that file, or names no file and lies in the same partition of the same spec, and is not older than the data file; and an equality delete file exactly when it is newer than the data file and lies in the same partition of the same spec or in an unpartitioned spec.", "quantifier": "For every set of delete files inserted in any order and every data file.", "why_tests_cant": "The look-up goes through byte keys of partition tuples, so the claim rests on the injectivity of an encoding over all tuples, lengths and types.", "anchors": ["crates/sail-iceberg/src/spec/delete_index.rs: PartitionKey::new, encode_primitive, DeleteFileIndex::insert, DeleteFileIndex::for_data_file"]}
{"id": "C51", "title": "Applying deletes keeps exactly the rows that are not deleted", "statement": "The rows read from a data file are, in order, those whose position is in no applicable position delete file for that path and whose key columns equal those of no row of an applicable equality delete file, with NULL equal to NULL, however the file is cut into batches.", "quantifier": "For every data file, batching, list of position deletes (in any order, with repetitions) and list of equality deletes.", "why_tests_cant": "Offsets run across batches and the look-up is a binary search in a sorted list without repetitions; errors appear at batch borders only.", "anchors": ["crates/sail-iceberg/src/physical_plan/delete_apply_exec.rs: load_deleted_positions, compute_delete_mask, IcebergDeleteApplyExec::execute"]}
{"id": "C52", "title": "A LIMIT on an Iceberg scan leaves enough rows", "statement": "With LIMIT n the files chosen for the scan still hold at least n rows of the result, or all rows.", "quantifier": "For every list of files, record counts, deletes and n.", "why_tests_cant": "Whether enough rows remain depends on counts and deletes of all files.", "anchors": ["crates/sail-iceberg/src/datasource/pruning.rs: prune_files", "crates/sail-iceberg/src/datasource/provider.rs: scan, partition_source_col_only_uses_identity"]}
{"id": "C53", "title": "An Iceberg commit changes a table by exactly its files", "statement": "After an append or a row-level commit, a reader of the new snapshot finds the data files and delete files a reader of the parent found, each with the same sequence number, and the files of the commit; after an overwrite it finds the files of the commit only. The files of the commit carry a sequence number above every earlier one, and every earlier snapshot stays readable unchanged.", "quantifier": "For every table, every sequence of commits and every list of files, partition specs and format versions.", "why_tests_cant": "Needs every history of commits and every grouping of files by partition spec.", "anchors": ["crates/sail-iceberg/src/operations/snapshot.rs: SnapshotProducer::build_action_commit, manifest_inputs", "crates/sail-iceberg/src/physical_plan/commit/commit_exec.rs: IcebergCommitExec::execute", "crates/sail-iceberg/src/datasource/provider.rs: load_data_files_with_seq, build_delete_file_index"]}
{"id": "C54", "title": "A row-level change lands only on the snapshot it read", "statement": "A DELETE or MERGE that planned against a snapshot commits only if that snapshot is still the current one; otherwise the commit fails and the table is unchanged.", "quantifier": "For every table and every concurrent history.", "why_tests_cant": "Needs a concurrent commit between planning and every retry.", "anchors": ["crates/sail-iceberg/src/physical_plan/commit/commit_exec.rs: validate_requirements, expected_snapshot_requirement"]}
{"id": "C55", "title": "Row ids are never given twice", "statement": "In a version 3 table every row a reader finds has a row id, no two rows of a snapshot have the same, rows keep their ids in later snapshots, and a later commit gives its rows ids never used before.", "quantifier": "For every sequence of commits, including the upgrade of a version 2 table.", "why_tests_cant": "Ids are inherited through manifest and file positions; uniqueness is a global property of the history.", "anchors": ["crates/sail-iceberg/src/operations/snapshot.rs: build_action_commit", "crates/sail-iceberg/src/spec/metadata/table_metadata.rs: row_lineage_start_row_id, advance_next_row_id, inferred_next_row_id", "crates/sail-iceberg/src/datasource/provider.rs: load_data_files_with_seq"]}
{"id": "C56", "title": "The totals of a snapshot summary are right", "statement": "total-data-files, total-delete-files and total-records of a new snapshot are the numbers of live files and rows a reader finds in it, and total-position-deletes and total-equality-deletes, when present, the numbers of delete records; the added counts are those of the commit.", "quantifier": "For every sequence of commits on tables whose manifest counts, where present, are right.", "why_tests_cant": "Totals are computed from counts of all earlier commits.", "anchors": ["crates/sail-iceberg/src/operations/snapshot.rs: with_manifest_totals, populate_retained_manifest_counts, delete_totals_base"]}
{"id": "C57", "title": "Concurrent commits to an Iceberg path table are serialised", "statement": "Whatever the interleaving of writers, the versions of the table are the result of applying the successful commits one after the other, each to the result of the one before; no successful commit is lost and no failed one shows.", "quantifier": "For every number of writers and every interleaving of their store operations, crashes included.", "why_tests_cant": "Needs all interleavings of list, read, conditional write and hint write.", "anchors": ["crates/sail-iceberg/src/physical_plan/commit/commit_exec.rs: execute", "crates/sail-iceberg/src/table/metadata_loader.rs: find_latest_metadata_file", "crates/sail-iceberg/src/operations/bootstrap.rs: bootstrap_first_snapshot, write_metadata_version"]}
{"id": "C58", "title": "A committed Iceberg write is visible to later readers", "statement": "Once a commit to a path table has returned, everybody who opens the table later sees it.", "quantifier": "For every number of writers and every interleaving.", "why_tests_cant": "Depends on when the version hint is written relative to other writers.", "anchors": ["crates/sail-iceberg/src/table/metadata_loader.rs: find_latest_metadata_file, write_version_hint", "crates/sail-iceberg/src/physical_plan/commit/commit_exec.rs: execute"]}
{"id": "C59", "title": "Concurrent commits to an Iceberg catalog table have one winner per version", "statement": "For a table whose metadata location is kept in a catalog, at most one writer per version completes, and each completed version is derived from the completed version before it.", "quantifier": "For every number of writers and every interleaving.", "why_tests_cant": "Two writers may write files of the same version under different names.", "anchors": ["crates/sail-iceberg/src/physical_plan/commit/commit_exec.rs: execute", "crates/sail-iceberg/src/utils/metadata.rs: metadata_files_for_version"]}
{"id": "C60", "title": "Results of a reattachable operation arrive exactly once and in order", "statement": "A client that executes a reattachable query receives its result batches in the order the query produced them, none twice and none left out, whatever the number of broken connections, reattach requests and releases in between; when it receives the completion marker it has received every row. A reattachable command delivers its result exactly once and its completion step runs once.", "quantifier": "all queries and commands, all interleavings of execution, heartbeats, transport, releases, lost connections and reattach requests by a client that releases only what it received and reattaches from the last response it received", "why_tests_cant": "The guarantee is about interleavings of four parties (task, transport, client, request handlers); tests exercise one disconnect at one point.", "anchors": ["crates/sail-spark-connect/src/executor.rs: ExecutorBuffer, Executor::run_internal, run, start, pause_if_running, release", "crates/sail-spark-connect/src/service/plan_executor.rs: handle_reattach_execute, handle_release_execute"]}
{"id": "C61", "title": "A broken connection can always be resumed", "statement": "After the connection of a reattachable operation breaks, the client can reattach and receive the rest of the result, at whatever point the connection broke.", "quantifier": "all reachable states of an operation", "why_tests_cant": "The failing window is between the task finishing and the client reading the last messages.", "anchors": ["crates/sail-spark-connect/src/executor.rs: Executor::start, pause_if_running, run", "crates/sail-spark-connect/src/service/plan_executor.rs: handle_reattach_execute"]}
{"id": "C62", "title": "Interrupting operations affects exactly the operations asked for", "statement": "Interrupting by tag, by operation id or interrupting everything stops exactly the operations of this session that carry the tag, have the id, or all of them, and reports exactly their ids; other operations keep running. Two executions never share an operation id.", "quantifier": "all sequences of execute, release and interrupt requests", "why_tests_cant": "Holds over all histories of a session.", "anchors": ["crates/sail-spark-connect/src/session.rs: add_executor, remove_executors_by_tag, remove_all_executors, remove_executor", "crates/sail-spark-connect/src/service/plan_executor.rs: handle_interrupt_all, handle_interrupt_tag, handle_interrupt_operation_id, handle_execute_plan"]}
{"id": "C63", "title": "Sessions live as long as they are used and are never silently replaced", "statement": "A session that has had a request within the session timeout is not removed for idleness; a session with no request for the timeout is removed once its timer has fired. Once a session was deleted, expired or failed, requests naming it are refused; they never get a fresh session under the same id. A request gets the session its own user created.", "quantifier": "all sequences of requests, timer firings, deletions and failures of any number of sessions", "why_tests_cant": "Timers of many requests are outstanding at the same time; tests cannot cover their interleavings.", "anchors": ["crates/sail-session/src/session_manager/actor/handler.rs: handle_get_or_create_session, handle_probe_idle_session, handle_delete_session, handle_set_session_failure", "crates/sail-common-datafusion/src/session/activity.rs"]}
{"id": "C64", "title": "Runtime configuration reads what was written", "statement": "Reading a configuration key after setting it returns the value set, until it is set again or unset; unsetting restores what was read before any set; setting one key does not change what any unrelated key reads; the listing returns exactly the keys that were set, each once with its value. Reading with `get`, as an option or with a default agree whenever the key is set. A key reported as not modifiable cannot be set.", "quantifier": "all sequences of configuration requests and all configuration tables without fallback cycles", "why_tests_cant": "Quantifies over all keys, values, alternatives and fallback chains.", "anchors": ["crates/sail-spark-connect/src/config.rs: SparkRuntimeConfig", "crates/sail-spark-connect/src/session.rs: get_config, set_config, unset_config, get_all_config", "crates/sail-spark-connect/src/service/config_manager.rs"]}
{"id": "C65", "title": "Streaming query status and termination", "statement": "A streaming query is listed as active and its status says active exactly until it has stopped, and once stopped it never becomes active again; waiting for a query's termination reports success only if the query has stopped, and reports failure only after the timeout; waiting for any query reports success only if some query that has not been reset has stopped. After a stop request the query stops.", "quantifier": "all sequences of start, stop, progress, failure, reset and wait requests over any number of queries", "why_tests_cant": "Interleavings of the query task with stop and wait requests.", "anchors": ["crates/sail-spark-connect/src/streaming.rs: StreamingQuery, StreamingQueryManager", "crates/sail-spark-connect/src/service/plan_executor.rs: handle_execute_streaming_query_command, handle_execute_streaming_query_manager_command"]}
{"id": "C66", "title": "Filters on year, last_day and floor keep their rows when rewritten", "statement": "A filter that compares year(d), last_day(d) or floor(x) with a constant, by =, <>, <, <=, > or >=, keeps exactly the same rows whether the function is evaluated for every row or the filter is rewritten, as the planner does, into a comparison of the column itself with the range of values the function reports for the constant.", "quantifier": "all constants of all accepted literal types, all column values, all six comparison operators", "why_tests_cant": "Boundaries are everywhere: leap years, century years, negative values, the first and last day of a month, decimals of every scale; a test samples a few of them.", "anchors": ["crates/sail-function/src/scalar/datetime/spark_year.rs: preimage, date32_to_year", "crates/sail-function/src/scalar/datetime/spark_last_day.rs: preimage, spark_last_day", "crates/sail-function/src/scalar/math/spark_ceil_floor.rs: preimage_floor, lit_as_integer, float_bounds, int_bounds, decimal128_bounds, ceil_floor_with_target_scale"]}
{"id": "C67", "title": "sequence over integers is the arithmetic progression", "statement": "sequence(start, stop, step) over any integer type, when it succeeds, is start, start+step, start+2*step, ... containing exactly the members of that progression that do not go past stop, in order, all within the type; it fails exactly when the step points away from stop (or is zero with start <> stop), when the result would exceed the size limit, or when the span of start and stop does not fit 64 bits. Leaving the step out counts up or down by one, and a NULL argument gives NULL without disturbing the other rows.", "quantifier": "all starts, stops, steps of all four widths; all batches of rows", "why_tests_cant": "The overflow boundaries at the ends of 64 bits and steps that do not divide the span cannot be enumerated.", "anchors": ["crates/sail-function/src/scalar/array/spark_sequence.rs: valid_boundaries, sequence_length, extend_integral_values, impl_sequence_for_type, integral_row"]}
{"id": "C68", "title": "sequence over dates and timestamps follows the calendar", "statement": "In UTC or without time zone, sequence over dates or timestamps with a step of months, days and microseconds has as its k-th element the start moved by k times the step: k times the months with the day clipped to the length of the month, then k times the days, then the microseconds; nothing is accumulated from clipped elements; the elements stop at the first one past stop. The day arithmetic agrees with the Gregorian calendar for all years.", "quantifier": "all starts, stops and steps; all days before and after 1970", "why_tests_cant": "Month lengths, leap years, centuries and negative years interact with clipping; a test covers a handful of dates.", "anchors": ["crates/sail-function/src/scalar/array/spark_sequence.rs: days_from_civil, civil_from_days, days_in_month, add_wide_calendar_interval, add_temporal_interval, temporal_timestamp_row, temporal_date_row"]}
{"id": "C69", "title": "Time windows contain their rows", "statement": "For a window length and a positive slide, grouping by window(ts, length, slide, start) puts a row in exactly the windows [w, w+length) that contain its timestamp and whose start is a multiple of the slide away from the start offset, each once, latest first; rows with a NULL timestamp are in none.", "quantifier": "all timestamps before and after the epoch, all lengths, slides and offsets", "why_tests_cant": "Negative timestamps, offsets larger than the slide and slides that do not divide the length are unbounded in number.", "anchors": ["crates/sail-function/src/scalar/datetime/spark_window_buckets.rs: invoke_with_args"]}
{"id": "C70", "title": "LIKE with a custom escape character means what it says", "statement": "x LIKE pattern ESCAPE e matches exactly the strings described by the pattern, where e makes the following %, _ or e literal, % stands for any string, _ for any character and everything else, including a backslash, for itself; the pattern handed to the backslash-only kernel matches the same strings.", "quantifier": "all patterns, all escape characters, all strings", "why_tests_cant": "Interactions of escapes, backslashes and wildcards are unbounded; the unit tests compare a dozen rewritten patterns.", "anchors": ["crates/sail-function/src/scalar/predicate/rewrite_like_pattern.rs: rewrite_like_into_string"]}
{"id": "C71", "title": "hex, unhex, bin and conv are faithful", "statement": "unhex(hex(x)) = x for every binary and string; hex and bin of an integer are its 64-bit two's complement digits without leading zeros, so distinct integers print differently and reading the digits back gives the integer; unhex accepts exactly strings of hexadecimal digits, an odd one being read as if a zero preceded it; conv of the digits of a number in one base to another and back gives the number.", "quantifier": "all byte strings, all 64-bit integers, all bases 2 to 36", "why_tests_cant": "Round trips over all inputs and all pairs of bases.", "anchors": ["crates/sail-function/src/scalar/math/spark_unhex.rs: hex_int64, hex_encode, unhex_digit, unhex, spark_unhex_inner", "crates/sail-function/src/scalar/math/spark_bin.rs: bin_into", "crates/sail-function/src/scalar/math/spark_conv.rs: to_radix_string"]}
{"id": "C72", "title": "Aggregates do not depend on how the rows are spread", "statement": "For bitmap_construct_agg, bitmap_or_agg, bitmap_and_agg, mode, percentile, percentile_disc, count_min_sketch and try_avg over decimals and intervals: however the rows of a group are split into partitions, batched within a partition and however the partial states are batched and ordered when merged, the answer is the answer over all rows at once.", "quantifier": "all inputs with NULLs, all splits into partitions and batches, all orders of merging", "why_tests_cant": "The number of splits and orders is unbounded; integration tests run one cluster layout.", "anchors": ["crates/sail-function/src/aggregate/bitmap_construct_agg.rs", "crates/sail-function/src/aggregate/bitmap_or_agg.rs", "crates/sail-function/src/aggregate/bitmap_and_agg.rs", "crates/sail-function/src/aggregate/mode.rs", "crates/sail-function/src/aggregate/percentile.rs", "crates/sail-function/src/aggregate/percentile_disc.rs", "crates/sail-function/src/aggregate/count_min_sketch.rs", "crates/sail-function/src/aggregate/try_avg.rs: update_*, state, merge_batch, avg_scalar"]}
{"id": "C73", "title": "What the aggregates answer", "statement": "mode is NULL on no rows and otherwise a value that occurs at least as often as any other, the least (or greatest) such value when a tie break is asked for; percentile_disc(p) is NULL on no rows and otherwise the least value v of the rows such that at least p of the rows are <= v (greatest, >=, when descending); percentile(p) lies between neighbouring rows; bitmap aggregates have exactly the requested bits; a count-min sketch never reports less than the number of occurrences of an item and knows the number of rows; max_by and min_by return a value on a row whose ordering is extremal; histogram_numeric accounts for every row in at most the requested number of bins.", "quantifier": "all inputs with NULLs", "why_tests_cant": "Ties, duplicates and boundary percentiles over unbounded inputs.", "anchors": ["crates/sail-function/src/aggregate/mode.rs: evaluate", "crates/sail-function/src/aggregate/utils.rs: percentile_disc_index, calculate_percentile_disc", "crates/sail-function/src/aggregate/percentile.rs: calculate_percentile", "crates/sail-function/src/aggregate/max_min_by.rs", "crates/sail-function/src/aggregate/histogram_numeric.rs: add, merge, trim"]}
{"id": "C74", "title": "Aggregates over moving windows", "statement": "percentile over a sliding window frame is at every position the percentile of the rows in the frame, and asking for a value does not change what is answered later. ntile(n) numbers the rows 1 to min(n, rows) in order with sizes differing by at most one and the larger ones first; first_value and last_value return the first and last value of the frame, or the first and last non-NULL value when NULLs are ignored.", "quantifier": "all frames, all inputs", "why_tests_cant": "Frames slide over unbounded partitions.", "anchors": ["crates/sail-function/src/aggregate/percentile.rs: retract_batch", "crates/sail-function/src/window/spark_ntile.rs: evaluate_all", "crates/sail-function/src/window/spark_first_last_value.rs: valid_index, evaluate"]}
{"id": "C75", "title": "Reordering joins does not change the result of a query", "statement": "With join reordering enabled, a query over inner equi-joins (with residual filters, projections and embedded projections anywhere in the join tree) returns the same rows with the same multiplicities and the same columns in the same order as with reordering disabled, whatever the statistics of the tables, the cost weights, the budget of the search and the table limit are.", "quantifier": "All physical plans built from arbitrary operators, inner hash joins (plain or null-safe), projections and filters; all table contents, all estimators (also ones that return NaN), all emit thresholds and relation limits, all orders of the hash map of predicate groups", "why_tests_cant": "The rewritten tree depends on floating point estimates, on hash map order and on the search budget, and each predicate may land on any join; tests compare a few queries on fixed statistics", "anchors": ["crates/sail-physical-optimizer/src/join_reorder/mod.rs: JoinReorder::optimize, find_and_optimize_regions, try_optimize_region, build_final_projection", "crates/sail-physical-optimizer/src/join_reorder/builder.rs: GraphBuilder::build, visit_plan, visit_hash_join, visit_projection, combine_predicates", "crates/sail-physical-optimizer/src/join_reorder/reconstructor.rs: PlanReconstructor::reconstruct, reconstruct_join, build_join_conditions, build_join_filter, compute_required_projection", "crates/sail-physical-optimizer/src/join_reorder/enumerator.rs: PlanEnumerator::solve_with_status, solve_greedy"]}
{"id": "C76", "title": "The join order search always yields a complete join tree in which every predicate is applied exactly once", "statement": "Whenever join reordering replaces a join tree, the new tree reads every table of the old one exactly once and evaluates every join predicate exactly once, at the lowest join whose inputs together contain all tables the predicate mentions; the search ends for every query, and, as long as the row count estimates are finite, its result passes the consistency check that the rule runs before rebuilding.", "quantifier": "All query graphs of up to 64 tables with predicates over any number of tables, all estimators, all budgets (complete search, search cut off at any point, greedy fallback)", "why_tests_cant": "The number of join trees is exponential and the fallback paths depend on the point where the budget runs out; tests enumerate small graphs", "anchors": ["crates/sail-physical-optimizer/src/join_reorder/enumerator.rs: join_reorder_by_dphyp, emit_csg, enumerate_csg_rec, enumerate_cmp_rec, emit_csg_cmp, solve_greedy", "crates/sail-physical-optimizer/src/join_reorder/graph.rs: get_neighbors, get_connecting_edge_indices", "crates/sail-physical-optimizer/src/join_reorder/reconstructor.rs: validate_reconstruction_plan"]}
{"id": "C77", "title": "A MERGE on a copy-on-write Delta table leaves exactly the rows that the statement describes", "statement": "If a MERGE INTO a Delta table without deletion vectors succeeds, the table contains, as a multiset: for every old row that matches no source row, the row as changed by the first NOT MATCHED BY SOURCE clause whose condition is true, or the row itself; for every old row that matches a source row, the row as changed by the first MATCHED clause whose condition is true for the pair, or the row itself; and for every source row that matches no old row, the row built by the first NOT MATCHED clause whose condition is true, if any. A condition that is NULL is not true. Columns not assigned keep their value, columns not inserted get their default or NULL, generated columns hold their expression. Files without a changed row are not rewritten. A failure is due to a target row matched twice, a row violating a constraint, or an inserted value contradicting a generated column.", "quantifier": "all tables (any division into files), all sources, all ON conditions, all lists of clauses with all conditions and assignments, all defaults, generated columns and constraints, both settings of case sensitivity", "why_tests_cant": "the statement is expanded into a full outer join, one CASE expression per column built from predicates that exclude earlier clauses, a second query that finds the files to rewrite, and a writer that merges both; agreement of the parts depends on three-valued logic and on all combinations of clauses and file contents", "anchors": ["crates/sail-logical-plan/src/merge.rs: expand_merge, build_default_merge_expansion, first_matching_clause_predicates, build_merge_projection, build_rewrite_predicates, apply_generation_projection", "crates/sail-plan/src/resolver/command/merge.rs: analyze_merge_join", "crates/sail-delta-lake/src/physical_plan/planner/op_merge.rs: build_merge_plan, build_targeted_writer_input", "crates/sail-delta-lake/src/physical_plan/writer_exec.rs: metric_only_filter_mask"]}
{"id": "C78", "title": "A merge-on-read MERGE leaves exactly the rows that the statement describes", "statement": "The same as C77 for Delta tables with deletion vectors (statements without UPDATE clauses; others are refused) and for Iceberg tables: the rows hidden by the new deletion vectors or position deletes are exactly those that the statement deletes or replaces, and the rows added are exactly the new versions and the inserted rows.", "quantifier": "all tables, sources, ON conditions, lists of clauses, conditions and assignments", "why_tests_cant": "deletes and new rows are found by different expressions over the same join; they agree for all rows only if the disjunction of the clause conditions and the choice of the first clause agree under three-valued logic", "anchors": ["crates/sail-logical-plan/src/merge.rs: build_default_merge_expansion, build_merge_projection", "crates/sail-delta-lake/src/physical_plan/planner/op_merge.rs: build_merge_plan_mor, build_insert_rows_input", "crates/sail-iceberg/src/physical_plan/merge_row_projection.rs: merge_operation_writes_data, merge_operation_writes_position_delete"]}
{"id": "C79", "title": "A MERGE that could change a target row in two ways is refused", "statement": "A MERGE with a MATCHED clause that changes rows fails if some target row matches more than one source row, unless the only MATCHED clause is an unconditional DELETE; and the check is left out only where no target row can match two source rows, namely when the source query is grouped by the join keys or has a unique key within them.", "quantifier": "all tables, all source queries made of aliases, filters, projections and aggregations over any input, all ON conditions", "why_tests_cant": "the check is left out on the ground of a syntactic analysis of the source query; whether that is sound is a statement about all rows, including NULL keys, renamings and names differing in case", "anchors": ["crates/sail-logical-plan/src/merge.rs: should_check_cardinality, source_is_unique_on_merge_join_keys, schema_implies_unique_for_columns, map_key_cols_through_projection, aggregate_groups_exactly_on_columns, same_column_set_case_insensitive", "crates/sail-physical-plan/src/merge_cardinality_check.rs: MergeCardinalityCheckStream"]}
{"id": "C80", "title": "An insert-only MERGE written as an append gives the same table as the general plan", "statement": "For a MERGE that has only NOT MATCHED clauses the general plan is replaced by an anti join that only appends. The resulting table is the one that the statement describes, no file is removed or rewritten, and a source row that matches several target rows, or a target row that matches several source rows, makes no difference.", "quantifier": "all tables, sources, ON conditions and insert clauses", "why_tests_cant": "the shortcut has its own projection, in which clause order and NULL conditions are handled by a plain CASE and a disjunction instead of exclusive predicates", "anchors": ["crates/sail-logical-plan/src/merge.rs: can_fast_append_insert_only, insert_only_insert_filter, build_insert_only_projection, build_insert_only_noop_projection", "crates/sail-delta-lake/src/physical_plan/planner/row_level.rs: is_insert_only"]}
{"id": "C81", "title": "A column in a MERGE statement means the column of that name", "statement": "After the renaming that keeps target and source columns apart, every column reference of the statement reads the column it was resolved to, target columns keep their names, and every source column gets a name of its own that differs from all target columns and other source columns. An unqualified name that occurs in both tables is refused as ambiguous.", "quantifier": "all lists of target and source column names, both settings of case sensitivity", "why_tests_cant": "the renaming goes through two hash maps whose keys are both user-visible names and internal identifiers; whether a key is overwritten depends on all names together", "anchors": ["crates/sail-logical-plan/src/merge.rs: expand_merge, collision_free_source_alias, rewrite_merge_columns", "crates/sail-plan/src/resolver/command/merge.rs: merge_disambiguate_unqualified_plan_ids"]}
{"id": "C82", "title": "The history of a Delta table tells how many rows a MERGE inserted, updated, deleted and copied", "statement": "The operation metrics of a copy-on-write MERGE are: as inserted rows the number of source rows inserted, as updated and deleted rows the numbers of target rows that the statement updates and deletes (also by kind of clause), as copied rows the number of unchanged rows in rewritten files, and as source rows the number of rows of the source.", "quantifier": "all tables, sources and statements", "why_tests_cant": "the counters are derived from tags of rows that pass through the rewrite of touched files, so they depend on which rows reach the writer", "anchors": ["crates/sail-delta-lake/src/physical_plan/writer_exec.rs: MergeRowMetrics, accumulate_batch, source_rows", "crates/sail-logical-plan/src/merge.rs: build_source_metric_plan"]}
{"id": "C83", "title": "The in-memory catalog is a map from names to databases, tables and views", "statement": "After any sequence of CREATE/DROP DATABASE, CREATE/DROP/ALTER TABLE and CREATE/DROP VIEW requests, the in-memory catalog answers every lookup as if it kept three independent maps: one from database names to databases, one from (database, name) to tables and one from (database, name) to views. A request changes the entry it names and no other; dropping a database removes its tables and views, and its child databases stay. Listing a database shows exactly the tables (views) that lookups find, each once; listing databases under a prefix shows exactly the direct children of the prefix, and without prefix exactly the single-level databases. DROP DATABASE without CASCADE never loses a table or view. A request that reports an error leaves every answer as it was. ALTER TABLE that unsets several properties breaks the last sentence: it removes the properties named before the missing one.", "quantifier": "For all sequences of requests, all database names of any depth, all table and view names and all options.", "why_tests_cant": "The state after a history depends on every earlier request; tests try a handful of histories with one or two names.", "anchors": ["crates/sail-catalog-memory/src/provider.rs: MemoryCatalogProvider", "crates/sail-catalog/src/provider/namespace.rs: Namespace, is_child_of, is_parent_of", "crates/sail-common-datafusion/src/catalog/status.rs: alter_column_type, alter_column_default"]}
{"id": "C84", "title": "A name in a statement means one object, and statements agree on which", "statement": "A table name with several parts means the table of the named catalog when the first part is a catalog, and otherwise a table of the default catalog; a single part means the default database of the default catalog. Reading a name finds, in this order, a temporary view (single part only), a global temporary view (when the qualifier is the global temporary database), the catalog's table, the catalog's view. DROP VIEW of a name that reads as a view removes that view, removes nothing else, and afterwards the name reads as whatever it hid. A temporary view of one session is invisible to all other sessions and a global one is visible to all. The qualifiers of SHOW DATABASES do not follow the first rule when they have more than one part, and USE takes its argument as a database of the default catalog; CREATE VIEW succeeds beside a table of the same name and the view then cannot be read.", "quantifier": "For all catalogs, defaults, names with any number of parts, sets of views and tables, sessions and sequences of statements.", "why_tests_cant": "Shadowing involves four places at once and names of any depth; tests cover single cases of each.", "anchors": ["crates/sail-catalog/src/manager/mod.rs: resolve_database_reference, resolve_optional_database_reference, resolve_object_reference, is_global_temporary_view_database", "crates/sail-catalog/src/manager/table.rs: get_table_or_view, list_tables_and_views", "crates/sail-catalog/src/manager/view.rs: drop_maybe_temporary_view, list_views_and_temporary_views", "crates/sail-catalog/src/manager/database.rs: set_default_database, list_databases", "crates/sail-catalog/src/temp_view.rs: TemporaryViewManager", "crates/sail-catalog/src/command.rs: CatalogCommand::execute, prepare_create_table_storage_metadata"]}
{"id": "C85", "title": "A cached catalog listing equals the uncached one", "statement": "With the listing cache in front of a catalog, in any configuration of the three caches and with entries evicted at any time, listing databases, tables and views returns what the catalog itself would return, as long as all changes go through this cache one after another and a failed change leaves the catalog as it was. Without one of these conditions a listing can be stale: when a listing overlaps with a change it may be stored after the change removed it, and when a failed change took partial effect nothing is removed.", "quantifier": "For all sequences of requests and evictions, all configurations and all catalogs whose requests touch only the database they name.", "why_tests_cant": "Staleness needs an interleaving or an eviction at one particular moment; tests run one order.", "anchors": ["crates/sail-catalog/src/provider/cache.rs: CachingCatalogProvider, CatalogCacheBundle", "crates/sail-session/src/catalog.rs: wrap_catalog_provider"]}
{"id": "C86", "title": "User functions: the last registration wins, names ignore case, and stored plans are never mixed up", "statement": "After any sequence of registering and dropping functions, a lookup by name, in any mixture of upper and lower case ASCII letters, finds the function registered last under that name and not dropped since. Listing functions shows every name once, in ascending order, and shows every system function and every user function that matches; describing a name shows the user function before the system function of the same name, while the listing shows the system function. A plan or function handed over for later use is returned, unchanged, by the number it was given, however many others are handed over.", "quantifier": "For all sequences of registrations, drops and hand-overs, all names and all lists of system functions.", "why_tests_cant": "Collisions depend on the whole history and on the spelling of names.", "anchors": ["crates/sail-catalog/src/manager/function.rs: register_function, get_function, list_functions, get_function_status, deregister_function", "crates/sail-catalog/src/manager/tracker.rs: CatalogObjectTracker"]}
{"id": "C87", "title": "A commit to a catalog-managed table is never silently lost", "statement": "In the in-memory catalog, a writer that commits new table metadata based on the metadata it read succeeds only if no other commit happened in between; after a success the table's metadata is the one just committed, so any number of writers form a single chain in which every successful commit is based on the one before it. This needs the table to carry the metadata location under one key and the base to be known: with two spellings of the key a commit reports success while readers keep seeing the old metadata, and the first commits of two writers to a table without metadata both succeed.", "quantifier": "For all tables, properties, writers and interleavings of their reads and commits.", "why_tests_cant": "A lost commit needs a particular interleaving of two writers or an unusual set of properties.", "anchors": ["crates/sail-catalog-memory/src/managed_table.rs: validate_metadata_location_precondition", "crates/sail-common-datafusion/src/catalog/managed.rs: metadata_location_value, metadata_location_update, previous_metadata_location_update, existing_metadata_location_key", "crates/sail-iceberg/src/catalog_support/commit.rs: update_metadata_location", "crates/sail-catalog-memory/src/provider.rs: alter_table"]}
{"id": "C88", "title": "Text inside a quoted SQL string stays text, whatever it contains", "statement": "A statement split into tokens loses nothing: the texts of the tokens, put together, are the statement. Any text, written between single or double quotes with every backslash and every such quote preceded by a backslash, is read back as exactly that text; raw strings and names in backticks likewise. Putting one escaped text in place of another at the same place of a statement changes that one literal and nothing else, provided the statement before it has no free-standing dollar sign and no unclosed comment: with a `$name` variable before it a text with a dollar sign can swallow other parts of the statement. Comments may nest and contain anything.", "quantifier": "For all texts, all statements and all places in them.", "why_tests_cant": "The texts that could break out of a literal are unbounded, and a tokenizer with ordered choices depends on everything that follows.", "anchors": ["crates/sail-sql-parser/src/lexer.rs: create_lexer, string, word, single_line_comment, multi_line_comment, dollar_quoted_string", "crates/sail-sql-parser/src/string.rs: StringStyle::parse, backslash_escape_char"]}
{"id": "C89", "title": "A printed object name reads back as the same name", "statement": "A multi-part name of a table, a view, a function or a namespace printed by the catalog, with parts in backticks where needed, is parsed back to exactly the same parts, whatever characters they contain.", "quantifier": "For all non-empty lists of names over all characters, including empty names, dots, backticks, quotes and keywords.", "why_tests_cant": "Names can contain any character, and the printed text passes through tokenizer and parser.", "anchors": ["crates/sail-catalog/src/utils.rs: quote_name_if_needed, quote_names_if_needed, quote_namespace_if_needed", "crates/sail-sql-parser/src/ast/identifier.rs: parse_identifier, ObjectName", "crates/sail-sql-analyzer/src/parser.rs: parse_object_name"]}
{"id": "C90", "title": "A number literal has exactly the value that is written, in the smallest type", "statement": "A number written with digits and at most one decimal point has exactly the written value: as INT if it fits, else as BIGINT, else as a decimal whose scale is the number of digits after the point and whose precision is the number of digits without leading zeros of the whole part (at least the scale); a suffix selects the type and a value outside of its range is an error. Exceptions: an integer of 39 to 76 digits is read with a decimal point after its first 38 digits, a suffix for integers after a decimal point is read as a separate word, and a decimal with a large exponent crashes.", "quantifier": "For all digit strings, exponents and suffixes.", "why_tests_cant": "There are unboundedly many literals; the boundaries of types, the leading zeros and the exponent interact.", "anchors": ["crates/sail-sql-parser/src/ast/literal.rs: NumberState, NumberLiteral", "crates/sail-sql-analyzer/src/value.rs: from_ast_number_literal", "crates/sail-sql-analyzer/src/literal/numeric.rs: parse_decimal_string, parse_i32_string"]}
{"id": "C91", "title": "The k-th question mark takes the k-th argument", "statement": "In a statement with positional parameters, the k-th question mark outside strings, quoted names and comments is replaced by the k-th argument and everything else is read as written, provided that no question mark is directly followed by a letter, digit or underscore and the statement has no dollar sign that is free-standing or followed by a digit, and no comment that is never closed. Without that, `?AS x` is read as one parameter named `1AS`.", "quantifier": "For all statements.", "why_tests_cant": "The statement is tokenized, rewritten as text and tokenized again; the second reading may differ for particular neighbouring characters only.", "anchors": ["crates/sail-sql-analyzer/src/parser.rs: rewrite_positional_parameter_markers", "crates/sail-spark-connect/src/proto/plan.rs: positional parameters of SQL commands", "crates/sail-sql-parser/src/ast/identifier.rs: parse_named_variable"]}
{"id": "C92", "title": "Operators bind by precedence, and parentheses are never needed where the table says so", "statement": "An expression printed with parentheses only where the operator table demands them is parsed back to the same expression: unary operators bind tighter than multiplication, then addition and concatenation, shifts, bitwise operators, comparisons, predicates such as IS NULL, IN, LIKE and BETWEEN, NOT, AND and OR, all binary operators to the left; the AND of BETWEEN is never confused with the logical one.", "quantifier": "For all expression trees of any depth.", "why_tests_cant": "Expressions are unbounded trees; the AND of BETWEEN is resolved by rewriting after parsing.", "anchors": ["crates/sail-sql-parser/src/ast/expression.rs: Expr parser, ExprFragment, build_logical_and"]}
{"id": "C93", "title": "An interval literal has exactly the written length and sign", "statement": "An interval in any of the forms (`'1-2' YEAR TO MONTH`, `'1 2:03:04.5' DAY TO SECOND`, `1 day 2 hours`, with signs inside and outside) is the exact number of months or microseconds that is written, fractions of a second below a microsecond being cut, or it is an error if it does not fit; a minus sign in front gives the opposite interval, and each minus sign in front of a number changes its sign, except that the smallest 32- or 64-bit number inside an interval with several units stays as it is. An interval with several units that add up to zero months is a day-time interval.", "quantifier": "For all field values, signs and lists of units.", "why_tests_cant": "The arithmetic has several ranges (32-bit months, 64-bit microseconds, ranges of the time library) and signs at three places.", "anchors": ["crates/sail-sql-analyzer/src/literal/interval.rs: from_ast_signed_interval, parse_interval_year_month_string, parse_interval_day_time_string, from_ast_multi_unit_interval", "crates/sail-sql-analyzer/src/literal/utils.rs: parse_signed_value, extract_fraction_match"]}
{"id": "C94", "title": "A date, time or timestamp literal is the written instant", "statement": "A date, time or timestamp written in the usual form with any number of allowed digits is read as exactly these fields, with the fraction filled to nine digits; missing fields are the first month, day, hour, minute, second; all that follows the time in a timestamp is its time zone, spaces around it removed, Z being UTC and UTC before a sign being left out. The value is the number of days, microseconds or nanoseconds of the civil calendar; 23:59:60 in a timestamp is the first second of the next day. A text that is not of the form is an error, never another date.", "quantifier": "For all years of four to seven digits, months, days, hours, minutes, seconds, fractions and time zone texts.", "why_tests_cant": "There are unboundedly many texts, and optional parts make the grammar easy to get wrong at its edges.", "anchors": ["crates/sail-sql-analyzer/src/literal/datetime.rs: date, time, timestamp, timezone, create_date_parser, TimestampValue::into_naive"]}
{"id": "C95", "title": "A schema printed as DDL reads back as the same schema", "statement": "The DDL text of a schema, parsed again, gives the same column names, types and nullability at every depth of structures, arrays and maps, up to what DDL cannot express (nullability of array elements and map values, metadata). Exceptions: a schema with a single column whose name and type read together as a type, such as a column named `unsigned` of type INT, is read as that type.", "quantifier": "For all schemas of any depth and all column names.", "why_tests_cant": "Schemas nest without bound and names can contain any character.", "anchors": ["crates/sail-spark-connect/src/schema.rs: to_ddl_string, format_ddl_type, quote_field_name", "crates/sail-spark-connect/src/proto/data_type.rs: parse_spark_data_type", "crates/sail-sql-parser/src/ast/data_type.rs: DataType", "crates/sail-sql-analyzer/src/data_type.rs: from_ast_data_type"]}
{"id": "C96", "title": "A literal that is shown is read back as the same value", "statement": "The text under which a date, a time, a timestamp without time zone, an interval of months or an interval of days to seconds is shown (as the name of a column or in the output of a table) is, when written as a literal of this type, the same value. The exceptions are days outside of the supported years, which are shown as ERROR, and the smallest interval.", "quantifier": "For all days, microseconds and months of the types.", "why_tests_cant": "Values are 32 or 64 bits wide, and signs, years beyond 9999, leading zeros and cut zeros of fractions meet in one text.", "anchors": ["crates/sail-common-datafusion/src/formatter.rs: Date32Formatter, Time64MicrosecondFormatter, TimestampMicrosecondFormatter, IntervalYearMonthFormatter, IntervalDayTimeFormatter, DurationMicrosecondFormatter", "crates/sail-sql-analyzer/src/literal/datetime.rs: date, time, timestamp", "crates/sail-sql-analyzer/src/literal/interval.rs: from_ast_standard_interval"]}
{"id": "C97", "title": "Every line of a text file is one row", "statement": "Reading a text file yields its lines in order, one row each, whatever buffers the storage delivers, whatever the batch size; a file cut after line ends for several tasks yields the same rows as the whole; what the text writer writes is read back; with the whole-text option the file is one row.", "quantifier": "for every file content, every division into buffers, every batch size, every ASCII separator or the default CR/LF/CRLF", "why_tests_cant": "Unit tests read short strings that fit one buffer; the defects sit at buffer boundaries (8 KiB) and at batch boundaries, of which there are unboundedly many combinations.", "anchors": ["crates/sail-data-source/src/formats/text/reader.rs: RecordDecoder::decode, RecordDecoder::flush, Decoder::decode, BufReader::read", "crates/sail-data-source/src/formats/text/writer.rs: TextWriter::write", "crates/sail-data-source/src/formats/text/source.rs: TextOpener::open"]}
{"id": "C98", "title": "Malformed bytes in CSV text are replaced and nothing else changes", "statement": "The lossy decoder in front of the CSV reader keeps every well-formed character, replaces every malformed sequence by U+FFFD, always gives well-formed text, keeps all ASCII characters (delimiters, quotes, line ends) in order, and does not depend on how the storage cuts the bytes into buffers or on the buffers of the reader that infers the schema.", "quantifier": "for every byte sequence and every division into buffers", "why_tests_cant": "A multi-byte character may be cut at any of its bytes by any buffer; malformed sequences are of many kinds. Tests try a few.", "anchors": ["crates/sail-data-source/src/formats/csv/decoder.rs: LossyUtf8Decoder, decode_utf8_stream, LossyUtf8Reader, classify_utf8_unit"]}
{"id": "C99", "title": "A glob pattern in a path selects what its alternatives and classes say", "statement": "A path with wildcards, character classes and nested alternatives is read by the Hadoop glob syntax (or refused), is expanded into patterns without alternatives of which one matches a file path exactly if the original pattern matches it, and is divided so that the listed directory is the longest one before the first wildcard.", "quantifier": "for every pattern text and every file path, alternatives nested to any depth", "why_tests_cant": "The number of expansions is exponential and classes interact with the other library's syntax through '!', '^', '-' and ']' in every position; tests try a handful of texts and never compare the sets of matched paths.", "anchors": ["crates/sail-data-source/src/url.rs: pattern parser, expand_glob_pattern, expand_sequence, expand_character_class, split_glob_path"]}
{"id": "C100", "title": "A shuffle id names one stage of one job for ever", "statement": "With the Celeborn shuffle backend, whoever asks the driver for the shuffle id of a stage of a job gets the same number as everyone else who asked for that stage, as long as the shuffle was not unregistered. Two different stages never get the same number, at no time, and a number that was unregistered is never handed out again. The numbers are positive 32-bit integers; when they are used up the request is refused.", "quantifier": "for all sequences of requests and completions of the lifecycle manager, in all orders, with any failures of the Celeborn cluster", "why_tests_cant": "A test asks for a few ids in one order. That no interleaving of requests, failures and removals ever hands out a number twice is a statement about all histories.", "anchors": ["crates/sail-celeborn/src/lifecycle/actor/handler.rs: handle_get_shuffle_id, handle_get_job_shuffle_ids, handle_unregister_shuffle_complete"]}
{"id": "C101", "title": "Every caller of the lifecycle manager is answered once", "statement": "Every request to the Celeborn lifecycle manager is answered at most once, nothing is answered that was not asked, and when no work is in flight every request has been answered, whatever failed. However many tasks register the same shuffle at the same time, slots are requested from the cluster by one task at a time, and everybody who waited for it gets its result.", "quantifier": "for all runs of the lifecycle manager", "why_tests_cant": "Whether a caller is left waiting depends on how requests, completions and failures interleave; a test sees a few interleavings.", "anchors": ["crates/sail-celeborn/src/lifecycle/actor/handler.rs: handle_register_shuffle, handle_register_shuffle_complete, handle_revive, handle_revive_complete, handle_mapper_end, handle_mapper_end_complete, handle_unregister_shuffle, handle_unregister_shuffle_complete, handle_stop"]}
{"id": "C102", "title": "A partition that failed is replaced by a newer location", "statement": "A task that reports that it could not write to a partition location gets a location of the same partition with a larger epoch, or an error. One replacement at a time is requested for a partition; all tasks that wait for it get the same one. The worker that was reported as failing is named as excluded in the request for a replacement, and a worker that nobody reported is not.", "quantifier": "for all runs of the lifecycle manager in which the cluster grants locations of epoch zero, as it does", "why_tests_cant": "The epochs that two tasks see depend on how their reports interleave with replacements, removals and new registrations.", "anchors": ["crates/sail-celeborn/src/lifecycle/actor/handler.rs: handle_revive, handle_revive_complete, exclude_failed_workers, with_epoch, merge_worker_locations"]}
{"id": "C103", "title": "The files of a shuffle are committed when all mappers ended, from the attempts that ended first", "statement": "The lifecycle manager asks the workers to commit a shuffle once, after every mapper reported its end, and names for every mapper the attempt that reported first. The commit covers every location that any task had been told to write to, and its replica. From then on no other location of the shuffle is handed out, unless the commit fails. When all mappers of a shuffle have been told that their end was recorded, its files are committed.", "quantifier": "for all runs of the lifecycle manager", "why_tests_cant": "The order in which attempts end, fail and are retried is up to the cluster.", "anchors": ["crates/sail-celeborn/src/lifecycle/actor/handler.rs: handle_mapper_end, handle_mapper_end_complete, merge_worker_locations, append_locations"]}
{"id": "C104", "title": "No metric is lost between the tasks and the Celeborn master", "statement": "The amounts that tasks report, that commits yield and the counts of shuffles and applications all reach the Celeborn master once: at any moment the amounts reported are those in heartbeats the master confirmed, plus those in a heartbeat under way, plus those that wait for the next one; a heartbeat that fails loses nothing.", "quantifier": "for all runs of the lifecycle manager whose totals fit into 64 bits", "why_tests_cant": "Heartbeats fail and overlap with reports in arbitrary orders.", "anchors": ["crates/sail-celeborn/src/lifecycle/actor/handler.rs: handle_report_metrics, handle_heartbeat, handle_heartbeat_complete, handle_mapper_end_complete", "crates/sail-celeborn/src/common.rs: ApplicationMetrics::add_assign"]}
{"id": "C105", "title": "A Celeborn call gets the answer to its own request", "statement": "Frames and control messages are read back as they were written, whatever follows them on the connection, and nothing but a whole frame is read. On one connection, whatever happened to earlier calls (errors, timeouts, reconnections, calls abandoned by their callers), a call that is answered with data is answered with what the server said to that very request; and a call whose request the server answers is told that answer.", "quantifier": "for all sequences of calls, replies, failures and abandoned calls on a connection, all payloads and reply contents", "why_tests_cant": "Which calls are abandoned and where a connection breaks is up to schedules and networks; a test observes a few of them.", "anchors": ["crates/sail-celeborn/src/protocol/transport.rs: TransportFrame::read, TransportFrame::write, into_rpc_response, TransportConnection::request, send_rpc, push_data, fetch_chunk, TransportMessage::encode, TransportMessage::decode"]}
{"id": "C106", "title": "Shuffle data read from Celeborn is the data that was pushed", "statement": "A compressed block is unpacked to what was packed, and what is unpacked has the recorded length and checksum. However the worker cuts a partition file into chunks, the reader yields the batches in the order in which they were stored, each whole; if the chunks end within a batch, or a chunk cannot be fetched, the reader yields some of the first batches and then an error, never a damaged batch or a silent end.", "quantifier": "for all batches, all codecs that are their own inverse, all cuts into chunks", "why_tests_cant": "The chunk boundaries are chosen by the worker and may fall anywhere.", "anchors": ["crates/sail-celeborn/src/worker/client.rs: compress, decompress, decompress_block, take_batch, read_partition_stream", "crates/sail-execution/src/stream/celeborn/core.rs: CelebornStreamSink::write, fetch_stream, decode_batches"]}
{"id": "C107", "title": "A reader gets each pushed batch once, of the winning attempts only", "statement": "A task that reads a shuffle partition from Celeborn gets exactly the batches of the attempts that count, each once, also when attempts of a task failed or were superseded and when a push was repeated.", "quantifier": "for all sets of stored batches with their map, attempt and batch ids", "why_tests_cant": "Duplicates arise from retries and speculative attempts, whose timing tests do not control.", "anchors": ["crates/sail-celeborn/src/worker/client.rs: take_batch, read_partition_stream", "crates/sail-celeborn/src/shuffle/actor/handler.rs: handle_push_data", "crates/sail-execution/src/stream/celeborn/core.rs: fetch_stream, abort"]}
{"id": "C108", "title": "The shuffle client pushes to and reads from the locations it was given", "statement": "A batch is pushed to the newest location that the lifecycle manager gave for its partition; a reader opens every location given, each once, in the order of epochs; after a shuffle is over nothing is pushed or read; the batches of an attempt have different numbers; and who pushes is told of success exactly if a worker took the batch.", "quantifier": "for all sequences of messages handled by the client, all answers of workers and of the lifecycle manager", "why_tests_cant": "Locations change while pushes are under way.", "anchors": ["crates/sail-celeborn/src/shuffle/actor/handler.rs: handle_get_shuffle_id, handle_register_shuffle_complete, handle_push_data, handle_push_data_complete, handle_unregister_shuffle_complete, handle_clean_up_shuffle, handle_read_partition_stream, handle_read_partition_stream_complete, update_partition_location, push_failure_cause", "crates/sail-celeborn/src/shuffle/actor/core.rs: ShuffleClientActor::receive"]}
{"id": "C109", "title": "The texts of Celeborn name one thing", "statement": "The text by which a worker is named is read back as that worker, also if its host contains colons, and nothing without a host and four ports is read; the text of a codec is read back, and levels that Zstandard does not have are refused; two locations of a shuffle never have the same name or file, and two shuffles never the same key.", "quantifier": "for all hosts, ports, codecs, ids, epochs and applications", "why_tests_cant": "The texts are read by splitting at characters that may occur in the parts.", "anchors": ["crates/sail-celeborn/src/common.rs: WorkerIdentity, parse_worker_port, CompressionCodec, PartitionLocation::unique_id", "crates/sail-celeborn/src/worker/client.rs: read_partition_stream", "crates/sail-celeborn/src/shuffle/actor/handler.rs: shuffle_key"]}
{"id": "C110", "title": "A Delta version checksum describes its version", "statement": "Every checksum file that a commit leaves beside the log tells the state of its version: the number and the total size of its files, the last version of every application transaction, the domain metadata in force, the protocol and the metadata; whether it was computed from the checksum of the version before, or from the whole snapshot because that one is missing or a removal has no size, and whatever commits, checkpoints, clean-ups and other writers came in between.", "quantifier": "for all histories of commits, checkpoints and clean-ups and all subsets of commits that write checksums", "why_tests_cant": "The checksum is computed incrementally, so an error at one version spreads to all later ones; it shows only after particular histories.", "anchors": ["crates/sail-delta-lake/src/transaction/mod.rs: PostCommit::build_incremental_checksum, build_full_checksum_fallback, write_version_checksum_incremental", "crates/sail-delta-lake/src/snapshot/mod.rs: DeltaSnapshot::build_version_checksum", "crates/sail-delta-lake/src/spec/checksum.rs: VersionChecksum"]}
{"id": "C111", "title": "Opening a Delta table through checksums shows what the log says", "statement": "The protocol, metadata, domain metadata and application transactions of a table that is opened without its file list are those of the requested version, whether they come from the checksum of that version, from an older checksum or an older snapshot plus later commits, from a checkpoint, or from the whole log.", "quantifier": "for all histories, all sets of checksums, all snapshots that are updated and all versions", "why_tests_cant": "Which of the paths is taken depends on the files present in the log directory.", "anchors": ["crates/sail-delta-lake/src/delta_log/segment.rs: resolve_for_header, try_read_checksum_header, validate_and_build_header", "crates/sail-delta-lake/src/delta_log/replay.rs: load_replayed_table_header", "crates/sail-delta-lake/src/snapshot/mod.rs: DeltaSnapshot::try_new, update"]}
{"id": "C112", "title": "A Delta column keeps its mapping id and physical name, and ids are never used twice", "statement": "In a Delta table with column mapping (name or id mode), after the table is created and after any number of schema changes (mergeSchema, overwriteSchema, ALTER COLUMN TYPE): every column at every nesting level has a column id and a physical name; no two columns share an id or a physical name; a column that is in the schema before and after a change keeps both; an id or physical name that was ever given to one column never denotes another column, even if the first was dropped; and delta.columnMapping.maxColumnId is at least every id in the schema and never decreases.", "quantifier": "all schemas of any nesting, all sequences of candidate schemas", "why_tests_cant": "The guarantee concerns ids across the whole history of a table with nested schemas of any depth; a test checks one evolution of one schema.", "anchors": ["crates/sail-delta-lake/src/schema/mapping.rs: annotate_schema_for_column_mapping, annotate_new_fields_for_column_mapping, merge_struct, merge_types, find_matching_field, merge_metadata, compute_max_column_id", "crates/sail-delta-lake/src/schema/manager.rs: evolve_schema", "crates/sail-delta-lake/src/physical_plan/write_context.rs: handle_schema_evolution"]}
{"id": "C113", "title": "Delta type widening loses no value and its recorded history is complete", "statement": "A type change that Delta type widening accepts keeps every value of the old type representable in the new one. Accepted changes compose: what was widened in several steps could have been widened in one, and never back. After a schema change each column (and each array element, map key and map value) has in its recorded type changes exactly its previous record followed by the change just made, if any, and the schema passes the validation done when the table is opened. ALTER COLUMN TYPE changes the addressed column and nothing else.", "quantifier": "all pairs and chains of types, all values, all schemas of any nesting, all column paths", "why_tests_cant": "There are unboundedly many decimal types, values and nested schemas; tests check a list of type pairs.", "anchors": ["crates/sail-delta-lake/src/schema/type_widening.rs: is_supported_type_change, add_type_widening_metadata, rewrite_field, rewrite_data_type, collect_type_changes, validate_type_widening_metadata, alter_column_type", "crates/sail-delta-lake/src/schema/manager.rs: evolve_schema", "crates/sail-delta-lake/src/snapshot/mod.rs: DeltaSnapshot::ensure_data_read_supported"]}
{"id": "C114", "title": "A Delta protocol upgrade keeps everything the table already required", "statement": "Merging new protocol requirements into the protocol of a table never lowers the reader or writer version; every feature a reader or writer had to support before, whether listed or implied by a legacy version number, and every feature the requirements ask for, must be supported afterwards; a protocol in table-features form lists nothing that neither side asked for; and upgrading twice with the same requirements changes nothing.", "quantifier": "all protocols and requirements", "why_tests_cant": "Legacy versions imply features that are not written down, so every pair of version numbers and feature lists matters; tests check five pairs.", "anchors": ["crates/sail-delta-lake/src/spec/protocol.rs: Protocol::table_features_for_upgrade, Protocol::merge_upgrade_requirements", "crates/sail-delta-lake/src/catalog_managed.rs", "crates/sail-delta-lake/src/table_format.rs"]}
{"id": "C115", "title": "File paths written to the Delta log are read back unchanged", "statement": "Decoding the encoded form of any path gives the path back, so two different files are never confused in the log, and so does decoding any other percent-encoding of the path, as other writers produce; the encoded form contains no control character, no byte above 0x7E and none of the characters \\ { ^ } ` ] \" > [ < # | * ?, and the directory separators stay where they are.", "quantifier": "all byte strings and all percent-encodings of them", "why_tests_cant": "Paths contain partition values chosen by users, including percent signs and arbitrary Unicode.", "anchors": ["crates/sail-delta-lake/src/spec/utils.rs: encode_path, decode_path, serde_path"]}
{"id": "C116", "title": "Nothing is asked of the Celeborn cluster for an application that is not registered, and stopping releases what was reserved", "statement": "Before the application is registered with the Celeborn master, or after its registration failed, the lifecycle manager sends the cluster nothing but heartbeats, hands out no slots or locations, and answers every registration of a shuffle, revival and unregistration with an error; once it is registered, no request is refused for that reason. Stopping the manager unregisters every shuffle whose slots were handed out and not given back, and no other; nothing stays reserved when it has stopped.", "quantifier": "for all runs of the lifecycle manager, whatever the registration of the application came to", "why_tests_cant": "Whether a reservation is still being made when the manager is stopped is up to the timing of the cluster.", "anchors": ["crates/sail-celeborn/src/lifecycle/actor/mod.rs: ApplicationRegistration::error", "crates/sail-celeborn/src/lifecycle/actor/handler.rs: handle_register_shuffle, handle_revive, handle_unregister_shuffle, handle_stop"]}
{"id": "C117", "title": "Delta file skipping never hides a row that satisfies the predicate", "statement": "When Delta files are chosen from the log by a predicate (DELETE, replaceWhere, and scans of a table whose file list is not loaded), every data file with a row for which the predicate is true is chosen, for any predicate, provided the file's statistics describe its rows: bounds that are present enclose the non-null values, null counts and record counts are right. A statistic that is missing never removes a file.", "quantifier": "all predicates (comparisons, AND, OR, NOT, BETWEEN, IN, null checks, casts, nested fields, and any other expression), all files, statistics and partition values, all column mappings", "why_tests_cant": "A test picks a few predicates and a few files; a file that is skipped wrongly shows up only as a missing row for a combination of operator, null, bound and partition text that the test did not pick.", "anchors": ["crates/sail-delta-lake/src/physical_plan/planner/metadata_predicate.rs: build_metadata_filter, MetadataPredicateRewriter", "crates/sail-delta-lake/src/physical_plan/metadata_stats_exec.rs: DeltaMetadataStatsExec", "crates/sail-delta-lake/src/conversion/scalar.rs: parse_partition_value"]}
{"id": "C118", "title": "A filter that the Delta scan claims to enforce is enforced", "statement": "If the Delta table reports that it enforces a filter exactly, so that the query engine drops its own check, then a scan of a table whose file list is not loaded returns only rows for which the filter is true.", "quantifier": "all filters over partition columns, all files and partition values", "why_tests_cant": "The engine removes the filter from the plan, so a wrong claim gives wrong rows without any error; tests try the usual comparisons and not the other shapes for which the claim is made.", "anchors": ["crates/sail-delta-lake/src/datasource/expressions.rs: get_pushdown_filters, expr_is_exact_predicate_for_cols", "crates/sail-delta-lake/src/physical/scan_planner.rs: plan_delta_scan", "crates/sail-delta-lake/src/physical_plan/planner/metadata_predicate.rs: MetadataPredicateRewriter"]}
{"id": "C119", "title": "DELETE on a Delta table removes exactly the rows for which the condition is true", "statement": "After DELETE FROM t WHERE c the table holds exactly the rows for which c was false or null, each as often as before, whatever the files, statistics and partition values, both when files are rewritten and when deletion vectors are written.", "quantifier": "all conditions, all tables", "why_tests_cant": "Whether whole files may be dropped depends on the shape of the condition and on the statistics; tests use equality on a partition column, where dropping the file is right.", "anchors": ["crates/sail-delta-lake/src/physical_plan/planner/op_delete.rs: build_delete_plan, build_delete_plan_mor", "crates/sail-delta-lake/src/physical_plan/planner/metadata_predicate.rs: predicate_requires_stats, build_metadata_filter", "crates/sail-delta-lake/src/physical_plan/scan_by_adds_exec.rs: partition_scan", "crates/sail-delta-lake/src/physical_plan/dv_writer_exec.rs: scan_file_for_matching_rows"]}
{"id": "C120", "title": "Overwriting with replaceWhere replaces exactly the rows for which the condition is true", "statement": "After overwriting a Delta table with replaceWhere c the table holds the new rows and exactly those old rows for which c was false or null, each as often as before.", "quantifier": "all conditions, all tables, all new rows", "why_tests_cant": "Rows for which the condition is null are rarely in test tables, and whether they survive depends on whether their file is touched.", "anchors": ["crates/sail-delta-lake/src/physical_plan/planner/op_write.rs: build_overwrite_if_plan, build_old_data_plan", "crates/sail-delta-lake/src/physical_plan/planner/metadata_predicate.rs: build_metadata_filter"]}
{"id": "C121", "title": "The statistics written for a Delta data file enclose its values", "statement": "The minimum and maximum recorded for a column of a data file enclose every value of the column in the file, after reading them back with the one millisecond added to timestamp maxima; null counts add up over the row groups; and the null count recorded under the name of a column is the one of that column.", "quantifier": "all row groups and statistics, all timestamps, all column paths", "why_tests_cant": "Row groups without statistics, timestamps that are not whole milliseconds, and maps next to columns with a certain name are rare in tests, and a wrong bound is noticed only when a later query skips the file.", "anchors": ["crates/sail-delta-lake/src/writer/stats.rs: AggregatedStats, get_list_field_name, apply_min_max_for_column", "crates/sail-delta-lake/src/datasource/pruning.rs: widen_timestamp_max_stat"]}
{"id": "C122", "title": "Partition values are read back from the Delta log as they were written", "statement": "A partition value written to the log is read back as the same value, so rows keep the value of their partition column.", "quantifier": "all integers, booleans, texts, decimals of every scale, and binary values", "why_tests_cant": "Tests partition by positive numbers and plain words; the text of a negative fraction, an empty text or a binary value is not tried.", "anchors": ["crates/sail-delta-lake/src/conversion/scalar.rs: ScalarExt::serialize, serialize_decimal, create_escaped_binary_string, parse_partition_value"]}
{"id": "C123", "title": "Filters pushed to a Python data source lose no rows", "statement": "A query over a Python data source returns the same rows whether or not its filters are handed to the reader, for every reader that drops only rows for which a filter it accepted is false.", "quantifier": "all filters, rows, casts and readers", "why_tests_cant": "The repository tests only which filter object is built; that the object means the same as the condition, for negated, case-insensitive, escaped and wildcard patterns and for casts, needs a meaning for both sides.", "anchors": ["crates/sail-data-source/src/formats/python/filter.rs: expr_to_filter, expr_to_column, expr_to_value, FilterValue::from_scalar, exprs_to_python_filters", "crates/sail-data-source/src/formats/python/table_provider.rs: scan, supports_filters_pushdown"]}
{"id": "C124", "title": "A Python write is committed exactly when every partition wrote all its rows", "statement": "The `commit` method of a Python writer is called exactly when every partition's `write` saw all rows of the partition and returned; it gets the message of each partition at the partition's position. Otherwise `abort` is called with the messages that are known, and the query fails.", "quantifier": "all numbers of partitions, all inputs and failures, all orders of arrival", "why_tests_cant": "Failures of single partitions, duplicates, missing results and changes of the number of partitions come in too many combinations, and a panic inside the input is not tried.", "anchors": ["crates/sail-data-source/src/formats/python/commit_exec.rs: PythonDataSourceWriteCommitExec::execute, decode_write_result_batch", "crates/sail-data-source/src/formats/python/write_exec.rs: PythonDataSourceWriteExec::execute", "crates/sail-data-source/src/formats/python/executor.rs: execute_write, RecordBatchIterator::__next__"]}
{"id": "C125", "title": "Every row a Python reader yields arrives", "statement": "The rows of a partition of a Python data source are exactly the rows its `read` yields, and an exception of the reader fails the query.", "quantifier": "all sequences of yielded tuples and batches, all batch sizes", "why_tests_cant": "Depends on where the batch boundary falls relative to the end, to batches yielded in between, and to an exception.", "anchors": ["crates/sail-data-source/src/formats/python/stream.rs: run_python_reader, RowBatchCollector"]}
{"id": "C126", "title": "Decimals reach Python writers exactly", "statement": "A decimal is handed to a row-based Python writer as a number of exactly its value, for every sign and scale.", "quantifier": "all decimal values and scales whose value fits 128 bits", "why_tests_cant": "The text of a negative fraction with a zero integer part and of a negative scale needs all signs and scales.", "anchors": ["crates/sail-data-source/src/formats/python/arrow_utils.rs: extract_decimal128_value"]}
{"id": "C127", "title": "Maps are built from exactly the row's keys and values", "statement": "map, map_from_arrays, map_from_entries and map_concat return for every row the map of that row's own arguments: NULL if an argument is NULL, otherwise the distinct keys in the order in which they first appear, each with the value of its last occurrence when spark.sql.mapKeyDedupPolicy is LAST_WIN. A row with a repeated key (under the default policy), with a NULL key or with a different number of keys and values makes the query fail; a row that is NULL never does. The result does not depend on how the batch that holds the row was cut.", "quantifier": "all list columns of keys and values, all batches, both policies", "why_tests_cant": "Tests use whole batches that start at the first value and a handful of keys; the outcome must hold for every offset, every pattern of NULL rows and every repetition of keys.", "anchors": ["crates/sail-function/src/scalar/map/utils.rs: map_from_keys_values_offsets_nulls, map_deduplicate_keys", "crates/sail-function/src/scalar/map/map_from.rs: map_from_arrays_inner, map_from_entries_inner", "crates/sail-plan/src/function/scalar/map.rs: map, map_from_arrays, map_from_entries, map_concat"]}
{"id": "C128", "title": "array_compact drops the NULL elements and nothing else", "statement": "array_compact returns for every row that is not NULL the elements of that row that are not NULL, in order, and NULL for a NULL row, however the batch was cut.", "quantifier": "all list columns", "why_tests_cant": "Unit tests call the function on whole columns; whether the right elements are dropped depends on where the column starts in its buffer.", "anchors": ["crates/sail-function/src/scalar/array/spark_array_compact.rs: array_compact_generic"]}
{"id": "C129", "title": "array_min and array_max", "statement": "array_min (array_max) returns for every row the least (greatest) element that is not NULL, NULL if the row is NULL, empty or has only NULL elements; it succeeds on every batch.", "quantifier": "all list columns, all total orders of the elements", "why_tests_cant": "Whether a NULL row still holds values behind its NULL flag depends on the function that made the column (concat leaves them); tests build NULL rows without values.", "anchors": ["crates/sail-function/src/scalar/array/spark_array_min_max.rs: array_min_inner, array_max_inner, compute_min_max_values", "crates/sail-function/src/scalar/collection/spark_concat.rs: SparkConcat::invoke_with_args"]}
{"id": "C130", "title": "array_position, array_intersect, arrays_zip and posexplode see only their row", "statement": "array_position returns the 1-based position of the first element equal to the one sought, 0 if there is none, NULL if the array or the element is NULL. array_intersect returns the distinct elements of the left array that occur in the right one, in the order of the left, a NULL element counting as equal to NULL. arrays_zip returns as many structs as the longest array has elements, padding the shorter ones with NULL. posexplode numbers the elements of every row from 0. None of them depends on where the columns start in their buffers or on values behind a NULL row.", "quantifier": "all list columns of equal length, any equality of elements", "why_tests_cant": "The functions work on the flattened buffers; tests cannot cover the combinations of offsets, hidden values, NULL rows and lengths.", "anchors": ["crates/sail-function/src/scalar/array/array_position.rs: position_primitive, position_fallback, combined_nulls", "crates/sail-function/src/scalar/array/array_intersect.rs: generic_set_lists, generic_set_loop, null_element_intersection", "crates/sail-function/src/scalar/array/arrays_zip.rs: arrays_zip_generic, combine_validity_masks", "crates/sail-function/src/scalar/array/spark_array_item_with_position.rs: general_array_item_with_position"]}
{"id": "C131", "title": "exists and forall stop where Spark stops", "statement": "exists(a, f) and forall(a, f) give what evaluating f on the elements of the row from left to right and stopping at the first true (false) gives: true (false) if one is met, NULL if none is met but f was NULL somewhere, otherwise false (true); NULL for a NULL array. The query fails if and only if f fails on an element that is reached in some row.", "quantifier": "all list columns, all lambdas (any mixture of true, false, NULL and failure, depending on element and row)", "why_tests_cant": "The vectorised evaluation touches every element and is abandoned on failure; the agreement of the two paths quantifies over all lambdas and positions of failures.", "anchors": ["crates/sail-function/src/scalar/array/spark_array_exists.rs: SparkArrayExists::invoke_with_args, exists_reduce", "crates/sail-function/src/scalar/array/spark_array_forall.rs: SparkArrayForall::invoke_with_args, forall_reduce", "crates/sail-function/src/scalar/array/lambda_utils.rs: short_circuit_boolean_reduce"]}
{"id": "C132", "title": "filter, transform and aggregate work row by row", "statement": "filter(a, f) keeps in every row the elements on which f is true, transform(a, f) replaces every element, both with the element's 0-based index and with the row's own captured columns; aggregate(a, z, merge, finish) is finish applied to the left fold of merge over the row from the row's z. NULL arrays give NULL.", "quantifier": "all list columns, all lambdas", "why_tests_cant": "All rows are evaluated in one flattened batch (aggregate: in lockstep over positions); the agreement with the row-wise meaning holds for all shapes or not at all.", "anchors": ["crates/sail-function/src/scalar/array/spark_array_filter.rs: SparkArrayFilter::invoke_with_args, filter_list_values, empty_filtered_list", "crates/sail-function/src/scalar/array/spark_array_transform.rs: SparkArrayTransform::invoke_with_args", "crates/sail-function/src/scalar/array/spark_array_aggregate.rs: aggregate_offsets, scatter_updates", "crates/sail-function/src/scalar/array/lambda_utils.rs: extract_list_values, index_array, offsets_to_indices"]}
{"id": "C133", "title": "array_insert, arrays_overlap, array_contains, slice and get follow Spark", "statement": "array_insert puts the value at the given position counted from either end, padding with NULL, NULL array or position giving NULL and position 0 an error. arrays_overlap is true if a value that is not NULL is in both, otherwise NULL if both are not empty and one has a NULL element, otherwise false. array_contains is NULL if the element is not found and the array has a NULL element. slice returns length elements from start, which counts from the end when negative. get returns NULL for an index outside the array.", "quantifier": "all arrays, positions, lengths and indices", "why_tests_cant": "The functions are CASE expressions over other functions; each has a handful of literal tests.", "anchors": ["crates/sail-plan/src/function/scalar/array.rs: array_insert, arrays_overlap, array_contains, slice_expr, array_element"]}
{"id": "C134", "title": "Deletion vectors written by MERGE and DELETE mark exactly the rows the statement names", "statement": "When a merge-on-read MERGE or DELETE on a Delta table succeeds, every file of the table keeps its metadata and afterwards marks as deleted exactly the rows it marked before plus the rows the statement named in it; files in which nothing new was named are not touched, no file is removed without being added again, every removal names the file together with the deletion vector it had, and the reported number of deleted rows is the number of rows that were not deleted before. A statement that names a file that is not in the table, or a row without file or position, fails.", "quantifier": "for every table with distinct file paths, every earlier deletion vector, every assignment of files to partitions and every sequence of named rows that keeps the rows of a file together", "why_tests_cant": "Tests run one or two files with a handful of rows; they do not combine several partitions, files with and without earlier vectors, repeated rows, and statements that name only rows that are already deleted.", "anchors": ["crates/sail-delta-lake/src/physical_plan/dv_writer_exec.rs: write_merge_dv_actions_for_path, DeletionVectorRowsWriterExec::execute, DeletionVectorWriterExec::execute, scan_file_for_matching_rows, widen_stats_bounds", "crates/sail-delta-lake/src/deletion_vector/bitmap.rs: union_with, from_row_indices"]}
{"id": "C135", "title": "A deletion vector that was written can be read back", "statement": "After Sail has written a deletion vector, reading it through the descriptor recorded in the log yields the same set of rows: the reader opens the file the writer created, and the bytes decode to the same bitmap. A file with another format version, a file that was cut short and a file whose bitmap does not have the recorded checksum are refused.", "quantifier": "for every bitmap shorter than 2 GiB, every UUID and every table location", "why_tests_cant": "A test writes under a temporary directory with plain characters; whether every location leads the reader to the file of the writer, and whether every damaged file is refused, is a statement about all of them.", "anchors": ["crates/sail-delta-lake/src/deletion_vector/storage.rs: read_deletion_vector, read_dv_from_file_bytes, DeletionVectorWriter::write", "crates/sail-delta-lake/src/deletion_vector/resolve.rs: resolve_dv_absolute_path, new_uuid_dv_path", "crates/sail-delta-lake/src/deletion_vector/bitmap.rs: serialize, deserialize"]}
{"id": "C136", "title": "A scan returns exactly the rows no deletion vector marks, at their positions in the file", "statement": "Reading a Delta file with a deletion vector returns, in order, exactly the rows whose position in the file is not in the vector, however the file is cut into batches; the row position column, if asked for, holds the position in the physical file; and reading a set of files returns the rows of each file once, whatever mixture of files with and without vectors is read.", "quantifier": "for every file, every division into batches (empty ones included), every deletion vector and every list of files", "why_tests_cant": "The running offset is wrong only if a batch is skipped or counted twice, which depends on how the reader cuts the file; tests see one cutting.", "anchors": ["crates/sail-delta-lake/src/physical_plan/scan_by_adds_exec.rs: dv_filter_stream, append_row_index_stream, build_position_aware_scans, build_next_scan"]}
{"id": "C137", "title": "try_add, try_subtract, try_multiply and try_mod are exact or NULL", "statement": "For integers, dates with days, timestamps with durations and intervals, each row of try_add, try_subtract, try_multiply and try_mod is the exact mathematical result if the result type can represent it, and NULL otherwise; NULL in an argument gives NULL. A result is never wrapped, and a result that can be represented is never replaced by NULL.", "quantifier": "all columns and all values of the argument types; integers of any width", "why_tests_cant": "The range of the values is far too large to enumerate, and the mistakes are at the two ends of the ranges.", "anchors": ["crates/sail-function/src/scalar/math/utils/try_op.rs: try_binary_op_primitive, try_op_interval_yearmonth, try_add_interval_monthdaynano, try_op_interval_monthdaynano_i32, try_op_interval_monthdaynano_i64", "crates/sail-function/src/scalar/math/spark_try_add.rs: SparkTryAdd", "crates/sail-function/src/scalar/math/spark_try_subtract.rs: SparkTrySubtract", "crates/sail-function/src/scalar/math/spark_try_mult.rs: try_multiply_inner", "crates/sail-function/src/scalar/math/spark_try_mod.rs: SparkTryMod, rescale_decimal_up"]}
{"id": "C138", "title": "div of two intervals is the truncated quotient", "statement": "div of two intervals of the same kind is the quotient of their lengths (a month having 30 days where months and days are mixed) rounded towards zero, and NULL if the divisor is empty (outside ANSI mode, which raises an error before).", "quantifier": "all intervals of the three kinds", "why_tests_cant": "Overflow needs long intervals; tests divide a few months.", "anchors": ["crates/sail-function/src/scalar/math/spark_div.rs: interval_div_inner"]}
{"id": "C139", "title": "What MERGE may store in a column under the store assignment policies", "statement": "MERGE accepts a value for a column only if no NULL can arrive inside a nested value where the column type forbids NULL, and the nested shapes and field names agree; a value of exactly the column type is always accepted. Under the STRICT policy an accepted assignment between integer and decimal types loses nothing: every number of the source type is a number of the target type. Whatever STRICT accepts ANSI accepts, except between timestamp and bigint and between kinds of intervals.", "quantifier": "all pairs of types of any nesting, all values, all precisions and scales", "why_tests_cant": "Types nest without bound and the numeric claim concerns every number of every precision; tests try single pairs.", "anchors": ["crates/sail-plan/src/resolver/command/merge.rs: store_assignment_compatible, resolvable_nullability, ansi_store_assignment_compatible, strict_store_assignment_compatible, decimal_wider_than, decimal_tighter_than, legal_numeric_precedence"]}
{"id": "C140", "title": "MERGE refuses exactly the clauses that could never fire", "statement": "A list of MERGE clauses is accepted if and only if no clause follows an unconditional clause of the same kind; so each accepted clause can be the first of its kind to apply.", "quantifier": "all lists of clauses", "why_tests_cant": "The number of lists is unbounded and the three kinds interleave.", "anchors": ["crates/sail-plan/src/resolver/command/merge.rs: validate_merge_clause_order"]}
{"id": "C141", "title": "Reading files written with an older schema converts every nested value in its place", "statement": "When a data file was written with an older schema than the table's, each column and each field of a struct at any depth gets the converted value of the field of the file with the same identity (name, physical name or field id, as the table demands), or NULL if the file has none; NULL values stay NULL, lists keep their lengths and rows keep their order, and no NULL arrives where the table's type forbids it. A file of exactly the table's type is read unchanged.", "quantifier": "all pairs of nested types, all identities, all arrays with any layout of lists and NULL masks", "why_tests_cant": "Schemas evolve without bound and nesting multiplies the cases; tests have a few files with one added or moved field.", "anchors": ["crates/sail-common-datafusion/src/schema_evolution.rs: cast_array_with_schema_evolution_inner, cast_struct_array_with_schema_evolution, cast_struct_array_to_fields, find_matching_struct_field, can_cast_field_with_schema_evolution, validate_struct_compatibility_with_variant"]}
{"id": "C142", "title": "Expressions pushed into a scan mean the same on files with an older schema", "statement": "A filter or projection that is pushed into the scan of a file gives the same values as evaluating it on the rows of the table that the file stands for, whichever columns were renamed, moved, added or changed in type since.", "quantifier": "all schemas and all expressions over columns and struct fields", "why_tests_cant": "The error needs several renames together with an added field; it makes values NULL silently.", "anchors": ["crates/sail-common-datafusion/src/schema_evolution.rs: create_column_mapping, rewrite_expr, rewrite_column, handle_existing_column, try_rewrite_struct_field_access"]}
{"id": "C143", "title": "Adding columns to an Iceberg table keeps the identity of every existing column", "statement": "Writing to an Iceberg table with mergeSchema keeps the field id of every existing column and of every field inside structs, lists and maps, drops none of them, and gives each new column and each field inside it an id above the last one the table has used; no id is given twice.", "quantifier": "all table schemas, all input schemas, any order in which omitted struct fields come out of the hash map", "why_tests_cant": "Identities decide which data old files show under which name; tests merge one column at a time.", "anchors": ["crates/sail-iceberg/src/schema_evolution.rs: merge_schema, merge_field, merge_struct, build_field_from_arrow, assign_type_ids, assign_nested_ids"]}
{"id": "C144", "title": "The last column id of an Iceberg table is at least every field id", "statement": "The last column id that is recorded for a table bounds the ids of all its fields at any depth, so that a column added later cannot get an id that is in use.", "quantifier": "all schemas", "why_tests_cant": "Only a list or map directly inside a list or map shows the error, and only when a column is added afterwards.", "anchors": ["crates/sail-iceberg/src/spec/schema/mod.rs: build, build_id_to_field_index, index_fields_recursive", "crates/sail-iceberg/src/schema_evolution.rs: assign_schema_field_ids_starting_at, reassign_ids_recursive", "crates/sail-iceberg/src/physical_plan/commit/commit_exec.rs: apply_schema_update"]}
{"id": "C145", "title": "Replacing the schema of an Iceberg table gives every column its own id", "statement": "Writing with overwriteSchema gives every column and nested field of the new schema an id of its own: the one of the column of the same name and place, or a new one.", "quantifier": "all old and new schemas", "why_tests_cant": "The error needs a column that changes from a plain type to a nested one; reading then mixes the fields up silently.", "anchors": ["crates/sail-iceberg/src/schema_evolution.rs: overwrite_schema, reuse_nested_ids_from_existing, types_share_shape"]}
{"id": "C146", "title": "A checkpoint gives back the rows it was made of", "statement": "`df.checkpoint()` returns a DataFrame with the rows of `df`, in the same partitions and in the same order inside each partition, including partitions without rows and data without columns; the row count recorded for a partition, from which `count()` may be answered, is the number of its rows; and the command fails unless every partition up to the last reported one has reported exactly once, with a file of its own directly below the path of the checkpoint.", "quantifier": "All numbers of partitions, all divisions of their rows into batches, all orders in which the partitions report, all reports.", "why_tests_cant": "Tests write one or two partitions of a few batches; the reports arrive in any order from many tasks.", "anchors": ["crates/sail-physical-plan/src/remote_checkpoint.rs: write_checkpoint_partition, collect_checkpoint_partitions, validate_partition_location, checkpoint_partitioning_with_count", "crates/sail-session/src/planner.rs: RemoteCheckpointRelationNode"]}
{"id": "C147", "title": "A published checkpoint has its files, and a stopped session leaves nothing behind", "statement": "As long as the session is not stopped a checkpoint that was published stays published, is not replaced by another with its id, and all its files exist. When the session has been stopped and the commands that were running have ended, no file of the session is left and no checkpoint is published.", "quantifier": "All numbers of concurrent checkpoint commands, all interleavings of their steps with each other and with the steps of stopping the session.", "why_tests_cant": "The interleavings of planning, writing, checking, publishing and cleaning up with stopping cannot be produced by a test.", "anchors": ["crates/sail-cache/src/remote_checkpoint.rs: RemoteCheckpointRegistry", "crates/sail-physical-plan/src/remote_checkpoint.rs: commit_checkpoint", "crates/sail-session/src/session_manager/actor/handler.rs: delete_session", "crates/sail-execution/src/job_runner.rs: LocalJobRunner"]}
{"id": "C148", "title": "The rate source generates consecutive values at the configured rate", "statement": "`spark.readStream.format(\"rate\")` generates the values 0, 1, 2, ... each once, whatever columns are selected, repeated or left out, with one timestamp for all rows of a batch, and it generates `rowsPerSecond` rows per second and not more, whatever the number of partitions.", "quantifier": "All projections, all rates, all numbers of partitions, all numbers of batches.", "why_tests_cant": "A test sees the first batches of one partition with one rate.", "anchors": ["crates/sail-data-source/src/formats/rate/reader.rs: RateSourceExec::execute, BatchGenerator"]}
{"id": "C149", "title": "Rows are written to an Iceberg table as they are or not at all", "statement": "Appending a data frame to an Iceberg table without schema options stores for every row, under every column of the table, the value the row has in the column of that name, or else the default of the column, or else NULL. A data frame with other columns or with types whose values the table cannot hold is refused, and no NULL is stored in a required column.", "quantifier": "All table schemas, all input schemas with their nested types, all rows.", "why_tests_cant": "The cases are pairs of types and combinations of missing, required and defaulted columns, and a lost value is not an error.", "anchors": ["crates/sail-iceberg/src/schema_evolution.rs: SchemaEvolver::validate_exact_schema, field_types_equivalent, is_safe_write_cast, nested_types_equivalent", "crates/sail-iceberg/src/operations/write/table_writer.rs: align_batch_with_table_schema, build_missing_column_array", "crates/sail-common-datafusion/src/array/record_batch.rs: cast_record_batch_relaxed_tz"]}
{"id": "C150", "title": "Appending with mergeSchema only adds to the schema of a Delta table", "statement": "After an append with `mergeSchema` a Delta table has its columns and nested fields in their order with their types, and behind them the new ones. A column may have NULLs if it could before or if the input may have them; new columns may be NULL, since the rows that are already there have no value for them. The comments, defaults and generation expressions of columns are kept, and an input that brings nothing new does not change the schema.", "quantifier": "All table schemas, all input schemas, nested to any depth.", "why_tests_cant": "What is lost in the schema shows only in later reads and writes, and the number of shapes is unlimited.", "anchors": ["crates/sail-delta-lake/src/physical_plan/write_context.rs: handle_schema_evolution, merge_schemas", "crates/sail-delta-lake/src/conversion/type_promotion.rs: DeltaTypeConverter::promote_field_types", "crates/sail-delta-lake/src/schema/type_widening.rs: collect_type_changes"]}
{"id": "C151", "title": "withField sets exactly one field of a struct", "statement": "`withField(path, v)` gives NULL for a NULL struct. For any other struct it gives the struct in which the field at the path is `v`, in its place if the field is there and behind the others if it is not, and every other field is as it was. The path may lead through nested structs, and names are compared as Spark does, without regard to case by default.", "quantifier": "All structs nested to any depth, all paths, all values and rows.", "why_tests_cant": "Tests set single fields of small structs; paths, depths, duplicate names and positions of NULLs have no bound.", "anchors": ["crates/sail-function/src/scalar/update_struct_field.rs: UpdateStructField::update_nested_field, update_nested_field_from_array", "crates/sail-plan/src/resolver/expression/misc.rs: resolve_expression_update_fields"]}
{"id": "C152", "title": "dropFields removes exactly the field at the path", "statement": "`dropFields(path)` gives NULL for a NULL struct and otherwise the struct without the field at the path. The path may lead through nested structs; a field that is not there is ignored. The call is refused only if no field would be left in a struct or if the path leads through a value that is not a struct. Names are compared as Spark does, without regard to case by default.", "quantifier": "All structs nested to any depth, all paths and rows.", "why_tests_cant": "Which columns of an array go with which field shows only for structs with many shapes, nested to any depth.", "anchors": ["crates/sail-function/src/scalar/drop_struct_field.rs: DropStructField::drop_nested_field, drop_nested_field_from_array"]}
{"id": "C153", "title": "Sampling gives every row its chance and randomSplit every row its split", "statement": "The parts of a `randomSplit` together have every row of the input exactly once. `sample` without replacement gives rows of the input, each at most as often as it is there; a fraction of 1 gives all rows and a fraction of 0 none, also for a stratum of `sampleBy`. Whether a row is taken is drawn for each row on its own, and the sample for a seed does not depend on how the rows are cut into batches.", "quantifier": "All inputs, batches, partitions, seeds, bounds and fractions.", "why_tests_cant": "A sample is random, so tests compare sizes roughly or pin the result for one seed and one batch; that draws repeat shows only in inputs of many batches.", "anchors": ["crates/sail-plan/src/resolver/query/sample.rs: apply_sample_to_plan, resolve_sample_without_replacement, resolve_sample_with_replacement", "crates/sail-plan/src/resolver/query/stat.rs: resolve_query_stat_sample_by", "crates/sail-function/src/scalar/math/random.rs: Random::invoke_with_args"]}
{"id": "C154", "title": "withColumnsRenamed renames as if one renaming followed the other", "statement": "DataFrame.withColumnsRenamed with a list of renamings gives every column the name it has after the renamings were applied one after another, in the order given: a later renaming also applies to a name that an earlier one produced, and a name that no renaming mentions is kept. The number, the order and the contents of the columns do not change. Names are compared without regard to case.", "quantifier": "for all lists of columns and all lists of renamings with distinct old names, and whatever order the hash maps iterate in", "why_tests_cant": "The renamings are collected in an inverse hash map whose iteration order differs from run to run; chains, swaps and merges of names of every length would have to be tried under every order.", "anchors": ["crates/sail-plan/src/resolver/query/column_op.rs: resolve_query_with_columns_renamed"]}
{"id": "C155", "title": "EXCEPT and unionByName give the rows they name", "statement": "EXCEPT ALL (exceptAll) returns each row as often as the left side has it more than the right side has it, where NULL equals NULL; EXCEPT (subtract) returns once each row of the left side that the right side does not have; both refuse inputs with different numbers of columns. unionByName returns the rows of the left side and then the rows of the right side; under each column name a row has the value that its own side has under this name, ignoring case, and NULL if the side has no such column and missing columns are allowed. Without allowMissingColumns the union is refused if the sides do not have the same columns.", "quantifier": "for all inputs, any numbers of duplicate rows, any order in which the rows are numbered, and all column lists", "why_tests_cant": "The result is a statement about how often each row occurs for every pair of inputs and every numbering order; the by-name union must place every column for every permutation and every missing column.", "anchors": ["crates/sail-plan/src/resolver/query/set_op.rs: resolve_query_set_operation"]}
{"id": "C156", "title": "dropna and fillna act on exactly the missing values", "statement": "DataFrame.dropna keeps, in order, exactly the rows in which enough of the chosen columns have a value: all of them without a threshold, at least the threshold otherwise; NULL and NaN are missing values. DataFrame.fillna keeps all rows and all columns, and changes exactly the missing values in the chosen columns whose type accepts the given value; each of these becomes the given value of its column, converted to the type of the column. A name that is not the name of a column is refused.", "quantifier": "for all schemas, rows, lists of chosen columns, thresholds and given values", "why_tests_cant": "Which values are changed depends on every combination of column list, type and missing values; the conditions are three-valued expressions in which NULL and NaN meet.", "anchors": ["crates/sail-plan/src/resolver/query/na.rs: resolve_query_fill_na, resolve_query_drop_na, can_cast_fill_na_types, is_nan_float"]}
{"id": "C157", "title": "withColumns and replace change exactly the columns and values they name", "statement": "DataFrame.withColumns keeps the order of the existing columns; a column whose name is given gets the new contents, computed from the input and not from other new columns, every other column is kept, and the further given names follow in the order given. Names are compared without regard to case. DataFrame.replace keeps the names and the order of all columns; in the chosen columns, each value that equals an old value whose type fits the column becomes the new value of the first such pair, and every other value is kept; NULL is never replaced. A chosen name that is not a column is refused.", "quantifier": "for all lists of columns, given columns, replacement pairs, chosen columns and values", "why_tests_cant": "Positions, names and contents of all columns must be right for every combination of existing and new names; the replacement depends on the order of pairs and the type of each column.", "anchors": ["crates/sail-plan/src/resolver/query/column_op.rs: resolve_query_with_columns, resolve_query_replace"]}
{"id": "C158", "title": "tail returns the last rows", "statement": "DataFrame.tail(n) returns the last n rows of the result in their order, or all rows if there are fewer; it returns no row for n at most zero.", "quantifier": "for all inputs and all n", "why_tests_cant": "The rows are counted in one execution and read in another; the offset is computed from the count, and the boundary cases n = 0, n = count and n > count hold for every size only by proof.", "anchors": ["crates/sail-plan/src/resolver/query/limit.rs: resolve_query_tail"]}
{"id": "C159", "title": "unpivot gives one row for each value column of each row", "statement": "Unpivoting (DataFrame.unpivot or melt, and UNPIVOT in SQL) gives, for each row in order and each value column in order, one row with the id columns, the name of the value column and its value in this row. If only ids or only values are given, the other columns of the table in their order take the other role. In SQL an alias of a value column is shown in place of its name, and rows whose value is NULL are left out unless INCLUDE NULLS is written.", "quantifier": "for all tables, id columns, value columns and rows", "why_tests_cant": "The position and the contents of each row of the result are a statement about all pairs of a row and a value column, for all splits of the columns.", "anchors": ["crates/sail-plan/src/resolver/query/pivoting.rs: resolve_query_unpivot"]}
{"id": "C160", "title": "crosstab counts every pair", "statement": "DataFrame.crosstab of two columns has one row for each value of the first column and one column for each value of the second one, and the cell is the number of rows with this pair of values, zero if there is none; NULL counts as a value in both. The counts sum up to the number of rows.", "quantifier": "for all inputs", "why_tests_cant": "Every cell must be the number of rows with its pair for every input; the values are collected in one execution and counted in another.", "anchors": ["crates/sail-plan/src/resolver/query/stat.rs: resolve_query_stat_cross_tab"]}
{"id": "C161", "title": "drop removes exactly the columns it names", "statement": "DataFrame.drop keeps the order and contents of the columns and removes exactly those that are named: by a name all visible columns of this name, ignoring ASCII case, and by a column reference the one column it refers to. A name or reference that matches nothing, and a reference to a nested field, remove nothing. A reference that matches several columns is refused.", "quantifier": "for all lists of columns, names and references", "why_tests_cant": "Whether a column survives depends on every name and reference in the call; repeated names, hidden columns and plan ids would have to be combined in all ways.", "anchors": ["crates/sail-plan/src/resolver/query/column_op.rs: resolve_query_drop", "crates/sail-plan/src/resolver/schema.rs: resolve_column_candidates, resolve_optional_column"]}
