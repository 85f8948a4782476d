NOTES={
'C01':('proved','All reports in any order; the state shown is the consolidated one.'),
'C02':('proved','For every history of status reports, refreshes, clean-ups and cancellations.'),
'C03':('partial','Structure and schedule: when a region is handed out, every task of every region it depends on has succeeded (proved); the dependencies are complete unless a one-to-one input sits below a union, where the code misses them (C03_union_reads_unfinished_stage).'),
'C04':('proved','For every history.'),
'C05':('proved','Attempt counts agree inside a region for every history; a failure stops the whole region.'),
'C07':('partial','Full statement is false: a failed job is reported as canceled after clean-up (C07_failed_job_ends_canceled). Proved: success implies every task succeeded; a failed job is never reported as succeeded.'),
'C08':('proved','For every history of assigner operations.'),
'C09':('proved','Exact characterisation of one assignment round; waiting only for lack of slots.'),
'C10':('partial','Full statement is false with initial workers (C10_initial_workers_are_not_counted); proved without.'),
'C11':('partial','Full statement is false for sliced regions (C11_sliced_region_asks_for_unused_slots); proved for regions that are not sliced.'),
'C12':('proved',''),
'C13':('proved','Any history before and after the placement.'),
'C14':('proved','Includes a characterisation of the only way the split can be rejected.'),
'C15':('partial','Exactly-once reading is proved for all input modes except coalesce (rescale) below a union, where the code loses input: see C15_rescale_union_loses_input.'),
'C16':('proved','For all stage graphs; number of replicas equals number of reads of each channel.'),
'C17':('proved','For every number of input and output partitions.'),
'C20':('partial','Full statement is false (C20_removed_output_is_read_again): an output is removed although a later retry reads it. Proved: at the moment of removal no unfinished attempt reads it.'),
'C30':('proved','Includes acyclicity of region dependencies.'),
'C31':('proved',''),
'C06':('partial','Full statement is false (C06_rows_delivered_twice). Proved: when a retry arrives while the earlier stream is still open (or delivered nothing), the rows of one attempt only are delivered, and a conflict is an error.'),
'C18':('proved','Any buffer size, number of readers and interleaving; includes that a suspended commit can always finish.'),
'C19':('proved','For every file-size limit, listing order and store content; fewer than 10^20 batches.'),
'C29':('proved',''),
'C33':('partial','Full statement is false (C33_timed_out_attempt_is_dispatched, C33_failed_job_is_dispatched); proved when reports only concern attempts that were dispatched.'),
'C34':('partial','Full statement is false for in-memory streams (C34_failed_producer_looks_complete); proved for streams that are not aborted.'),
'C21':('proved', 'For every delivery order with duplicates; reports the driver makes itself carry no number.'),
'C22':('proved', 'For any number of requests, including exhaustion.'),
'C32':('proved', 'For every history of worker events.'),
'C35':('proved', 'For every history.'),
'C36':('partial', 'Never released early (proved); full statement is false: an idle worker may never be released (C36_idle_worker_is_never_stopped).'),
'C23':('proved', 'Includes independence of batching.'),
'C24':('partial', 'Full statement is false: rows are lost when the next value after the last row is not a 64-bit number (C24_unrepresentable_end_loses_rows); proved otherwise.'),
'C25':('proved', 'Fewer than 2^31 partitions; the bound is shown to be sharp.'),
'C26':('proved', 'Rows of one target row reach one partition by the hash repartitioning required by the operator, which is not modelled.'),
'C27':('proved', 'Any skip, fetch, batching and interleaving of markers.'),
'C28':('partial', 'Full statement is false without data columns (C28_no_column_fails); proved with at least one data column for every re-batching. The byte encoding of one marker is a hypothesis.'),
'C44':('partial', 'Round trip, padding and refusal of bad lengths and characters are proved for all byte strings. Full statement is false for decoding: a group above 2^32-1 is accepted and truncated (C44_overflow_accepted).'),
'C37':('proved', 'For every history of commits, checkpoints (classic and V2, at any version and time, with or without hint) and clean-ups. Compactions are C38. Transactions and tombstones may expire; those without a time are proved to be kept.'),
'C39':('partial', 'Proved for every version not older than the last-checkpoint hint, and for the newest version of every history. Below the hint it is false: C39_time_travel_below_hint_fails. Log compactions are C38.'),
'C40':('proved', 'Coverage for every history; loading with the same contents for the newest version and for retained versions not older than the hint (see C39).'),
'C45':('proved', ''),
'C46':('proved', ''),
'C47':('partial', 'All parts proved except the last, which is false: C47_old_timeout_fails_new_reader.'),
'C38':('partial', 'Proved for every history in which compacted ranges contain no removed domain and no tombstone older than the cutoff (LosslessRun) and no compaction starts right after a checkpoint (Unaligned): loading gives the table of the history and every covered version loads. Each exclusion is necessary: C38_compaction_revives_domain, C38_compaction_revives_file, C38_compaction_after_checkpoint_is_skipped.'),
'C41':('partial', 'Hash and sort replay in the query plan: for every log that resolves, every partition of the keys and every arrival order, the files are exactly those of the history, each once, and agree with the driver. Needs commits that do not add a file before removing it, compactions as in C38, and a log without gaps: witnesses C41_gap_is_not_noticed, C41_order_within_commit_is_lost.'),
'C42':('partial', 'For any number of writers and every interleaving of looking at the log and put-if-absent: versions are 0,1,2,…, final, each owned by exactly one writer, and answers are final; a writer that does more than append commits exactly the version after the one it read; an append commits only if no protocol, metadata or common application transaction came in between; a creator that lost the race appends only to a table of equal protocol, schema, partitioning and configuration. Partial since replacing data in an empty table or creating a table twice is taken for an append: witnesses C42_overwrites_of_empty_table_add_up, C42_second_creation_appends, C42_append_does_not_notice_delete. Catalog-managed commits are not modelled.'),
'C43':('partial', 'Every version that records a timestamp records a larger one than the version before (recorded one or modification time), for every clock; by induction for all later versions. Needs timestamps below 2^63-1 and that the snapshot did not take its time from a compacted log file: witness C43_compacted_log_time.'),
'C48':('partial', 'Proved for every schema, partition spec (also several, after evolution), manifest list, filters without casts, and rows: no manifest and no file with a matching row is skipped, and nothing is added. Left out: casts, decimals under bucket/truncate, column bounds that differ; the claim is false there and each has a witness theorem.'),
'C49':('partial', 'Proved for all transforms but void on all values outside the listed exceptions, plus preservation of the order and the range of buckets. Witnesses show the claim false for dates before 1970 (panic), decimals under truncate and bucket, void, and the ends of the integer ranges.'),
'C50':('proved', 'Injectivity of the byte key over all tuples; look-up after any insertions is the rule of the specification in both directions; index of a snapshot; deletion vectors refused. The rule for delete files that name a data file does not look at the partition, as the property states it.'),
'C51':('proved', 'Exact rows in order for every batching; no empty batches; when the read succeeds. The read fails (with an error) after a key column was dropped or promoted: two further theorems.'),
'C52':('partial', 'Proved when no row is deleted and all rows pass the pushed-down filters. Witnesses: with deletes LIMIT n can return no row of n for every n; after partition evolution an exact filter with LIMIT loses rows.'),
'C53':('proved', 'Files of the new snapshot for append, row-level change and overwrite, sequence numbers for one commit and for all histories, earlier snapshots unchanged, and when a commit is refused.'),
'C54':('proved', 'For one commit, and under every interleaving of commits to a path table (with crashes): a row-level commit that returned sits right after the snapshot it was planned on.'),
'C55':('proved', 'Uniqueness within a snapshot and over all histories, stability, freshness. The ids also agree with the Iceberg format where no manifest mixes files with and without a first row id (C55_format_ids_without_mixing); for mixed manifests, which only other writers make, they differ (C55_mixed_manifests_differ).'),
'C56':('proved', 'Totals of files, rows and delete records, and the operation recorded in the summary.'),
'C57':('partial', 'Proved for every number of writers, every interleaving, crashes and lost hints, on tables that have a snapshot. Missing because false: first snapshots and creations overwrite each other and even later commits; a path table recorded in the session catalog reports an error for a commit that is in the table (witness theorems).'),
'C58':('partial', 'Proved for tables with a snapshot and a correct hint if no writer dies or loses its hint between its two writes. Otherwise false: a lost hint hides the commit and blocks the table for ever; without a hint file the hint can move back (witness theorems).'),
'C59':('partial', 'Proved for every number of writers, every interleaving and crashes on tables with a location, first snapshots included. Missing because false: two creations both succeed and one is lost. A crash between the write and the catalog update blocks the table for ever (C59_leftover_blocks_the_table).'),
'C60':('partial', 'Order, completeness and exactly-once delivery hold for every interleaving as long as the transport holds at most 126 undelivered responses (the replay buffer has 128 places); without that bound the claim is refuted by C60_full_buffer_loses_rows. The completion step of a command runs at most once without any bound. Missing: the bound is a property of the gRPC transport, which is not modelled.'),
'C61':('partial', 'Proved: a client of a query or command that reattaches before the server task is over receives the rest, from every reachable state. Refuted for tasks that are over: C61_finished_task_cannot_be_resumed, C61_last_responses_are_lost.'),
'C62':('partial', 'Interrupt by operation, by tag and of all operations stops exactly the operations it names and reports them; an operation is interrupted at most once; nothing else stops one. Uniqueness of operation ids is refuted (C62_same_id_stops_the_earlier) and operations that are still being planned escape interrupts (C62_planning_escapes_interrupts).'),
'C63':('partial', 'Used sessions stay, idle sessions go after the timeout, ended sessions stay ended, sessions are apart. That a session belongs to one user is refuted (C63_other_user_gets_the_session).'),
'C64':('partial', 'Read-over-write for all ways of reading, unset restores, unrelated keys untouched, listing of histories, defaults, removed keys. The last sentence is refuted: static and unknown keys are reported as not modifiable and can be set (C64_not_modifiable_can_be_set).'),
'C65':('partial', 'Active exactly until the task ends, permanence, stop, errors, waits for one and for any. A panicking task is the exception: the query stays active for ever (C65_panicked_query_stays_active). Waiting for any query gives up at once when there is none to wait for (C65_await_any_gives_up).'),
'C66':('partial', 'Proved for dates (year, last_day), integers, decimals and finite floats other than -0.0. Full statement is false for NaN (C66_floor_nan), for -0.0 (C66_floor_negative_zero), and for dates whose year cannot be computed, where the rewrite hides the error (C66_year_out_of_range). Floats are an abstract format with a rounding function.'),
'C67':('proved', 'All start, stop and step of 64-bit integers; every batch of rows.'),
'C68':('partial', 'Every element and the end of the sequence are proved, going down with a surplus of one microsecond; without it the full statement is false (C68_descending_overshoots, C68_descending_dates_overshoot), for the last timestamp (C68_last_timestamp) and for month multiples that wrap (C68_wrapped_multiples). Time zone UTC.'),
'C69':('proved', 'All durations, slides and start offsets that are accepted; also that nothing overflows for timestamps in range.'),
'C70':('partial', 'Proved for every pattern that is valid for Spark with an escape character that is no wildcard; full statement is false for a wildcard as escape character (C70_wildcard_escape) and for a stray backslash (C70_stray_backslash). The regular expression engine below is modelled by its matching relation for the produced patterns.'),
'C71':('partial', 'hex, unhex and bin proved for all values; conv proved except for the cases refuted: C71_conv_least, C71_conv_null_literal, C71_conv_integers.'),
'C72':('partial', 'Proved for bitmap_construct_agg, bitmap_or_agg, bitmap_and_agg, count_min_sketch, percentile_disc, and for mode and percentile over totally ordered values, over every accumulator reachable by partitioning, batching and merging. The full statement is false for try_avg, where NULL depends on the order of the rows (C72_try_avg_null, C72_try_avg_spread; what holds is in C72_try_avg_partial and C72_try_avg_safe_partial), and for mode and percentile with NaN (C72_mode_nan, C72_percentile_nan).'),
'C73':('proved', 'Over exact arithmetic; doubles are rationals in percentile and histogram_numeric. try_avg truncates at the scale of its input (C73_try_avg_scale).'),
'C74':('proved', 'percentile over sliding frames, ntile, first_value and last_value, reversed execution.'),
'C75':('partial', 'Proved for all plans, contents, estimators, budgets, limits and group orders, except plans in which a join has null-safe keys and beside them a plain equality of two columns: there the claim is false (C75_null_safe_key_swallows_equality). Operators other than joins and projections are arbitrary functions on bags; the estimators are arbitrary functions.'),
'C76':('proved', 'For all plans, estimators and budgets. That the check passes needs finite estimates (C76_infinite_estimates_fail_the_check shows why); a failed check keeps the plan. Predicates over fewer than two tables count as depending on all tables of the join they were written at.'),
'C77':('partial', 'Proved for sources that give the same rows each time they are read, and, for statements with NOT MATCHED BY SOURCE clauses but no MATCHED clause, without double matches: rows, files rewritten, reasons of failures, constraints. The two exceptions are shown to lose and to duplicate rows. Expressions are modelled by their values and do not fail.'),
'C78':('partial', 'Proved in full for Iceberg tables; for Delta tables with deletion vectors proved for sources that give the same rows each time they are read, with a counterexample for others.'),
'C79':('proved', 'The check fails exactly for double matches, success is unambiguous, and the analysis of the source query that leaves out the check is sound for queries of aliases, filters, projections and aggregations, and for sound functional dependencies.'),
'C80':('proved', 'The shortcut yields the described table, keeps all files, ignores double matches and agrees with the general plan.'),
'C81':('partial', 'Aliases are proved free for all names. References are proved to read their column if no user-visible name equals an internal identifier and source names differ; counterexamples otherwise. An unqualified name that occurs in both tables is not refused but means the target column.'),
'C82':('partial', 'Proved where no target row matches two source rows, and for insert-only statements; a lone DELETE clause counts a row once per match (counterexample). Counters are unbounded numbers.'),
'C83':('partial', 'Proved as a refinement to three maps for every history, with listings and the effects of ALTER TABLE. The last sentence but one is proved for all requests except removing several properties at once, where it is false (C83_failed_unset_removes_property). Types are opaque; the change of a nested type is a parameter.'),
'C84':('proved', 'For all statements of all sessions over in-memory catalogs; tables whose format keeps metadata of its own are not modelled. The exceptions named in the statement are proved as witnesses, together with three more (C84_use_catalog_keeps_database, C84_temp_blocks_table, C84_table_in_global_database).'),
'C85':('proved', 'For every catalog that meets Lawful, which the in-memory catalog does (C85_memory_lawful). Changes are steps; the overlap of a listing with a change is exhibited as a witness.'),
'C86':('proved', 'Fewer than 2^64 objects are handed over.'),
'C87':('proved', 'For any number of writers in any interleaving; the two exceptions of the statement are proved as witnesses.'),
'C88':('proved', 'Tokens lose nothing; a quoted text, a raw string and a name in backticks are one token whatever follows and decode to the text; every character through the \\U escape; nested comments; replacing one quoted text by another changes that token only (C88_replace). The exception in the statement is shown by C88_dollar_swallows. Which non-ASCII characters are letters is a parameter of every theorem.'),
'C89':('proved', "Every way of writing the parts, plainly or in backticks, reads back (C89_written); the catalog's printing is one of them; layout makes no difference."),
'C91':('proved', 'At the level of tokens: the rewritten text has the tokens of the statement with the k-th marker replaced by the variable $k, which stands for the k-th argument. The exceptions in the statement are shown by C91_marker_before_word and C91_dollar_digit_swallows. The grammar above the tokens is a function of them.'),
'C90':('proved', 'Reading over tokens (C90_read) and values: integers (C90_integer), suffixes (C90_suffix), decimals with and without exponents (C90_decimal_type, C90_decimal_value). The exceptions are exact: C90_integer_split, C90_suffix_after_point, C90_decimal_crash. Floating point parsing is a parameter, and the regular expressions are modelled by their greedy match.'),
'C93':('proved', 'All thirteen standard forms: exact length, sign and range for every text, and no other texts are accepted. Several units: the value is the exact sum; there is a value whenever the absolute values add up to what fits. A minus sign gives the opposite interval. The negated smallest number is an exception, proved.'),
'C94':('proved', 'Iff for dates and times; forward and backward for timestamps, with the time zone text described on its own. Values against the civil calendar. The leap second of the last day of the date library is a panic (witness). What a time zone name means afterwards is not modelled.'),
'C96':('proved', 'Dates, times, timestamps, months and durations of seconds to microseconds; exact conditions. An interval of days and milliseconds of both signs is shown wrongly (witness), of one sign correctly (`C96_day_time_one_sign`). Nanoseconds are cut when read. The text of a mixed interval (years ... seconds) and time zones are not modelled.'),
'C92':('proved', 'Operators are single tokens; the operands between them (identifiers, calls, parenthesised expressions) are single tokens too. The operator precedence parser of the parser library is modelled from its documented algorithm.'),
'C95':('proved', 'Texts are characters, read by the modelled tokenizer and type parser. Types of users, geometries and types given as text are outside (they do not read back); reading of JSON schemas is not modelled.'),
'C97':('partial', 'Proved for every content, buffers and batch size under the condition that no buffer ends between CR and LF; the code adds an empty row there (witness C97_crlf_split). Row boundaries inside a character are not noticed (C97_not_text). Whole-text needs a batch size above one (C97_whole_batch_one).'),
'C98':('proved', 'Full specification of the repaired text, proved unique, for the stream and for the reader.'),
'C99':('partial', 'Expansion is proved under the conditions that ranges go upwards and that no two asterisks come together in an expansion; both conditions are needed (C99_asterisks, C99_empty_class). Parser and division are proved in full. Percent decoding, schemes and authorities are not modelled; the glob crate is modelled from its documentation.'),
'C100':('proved', 'Every order of requests and ends of tasks, with any failures. The text of the messages and the network below are not modelled.'),
'C101':('proved', 'Every order of requests and ends of tasks. A caller is a handle; requests after the actor stopped are not answered by the model, as the channel is closed.'),
'C102':('proved', 'Under the assumption that the cluster grants locations of epoch zero (used by C102_newer only). A replacement that is granted after the shuffle was unregistered is an error, C102_granted needs that nobody unregistered it.'),
'C103':('partial', 'Proved: each commit names, for every mapper, the attempt that reported first, a shuffle is committed at most once, and the commit covers every location told to a task before it. The last sentence is proved for mappers that report their end once (C103_committed_partial); it fails when a commit fails and an attempt reports again (C103_failed_commit) and for a second attempt while the commit is under way (C103_second_attempt).'),
'C104':('partial', 'Proved while the lifecycle manager runs. It fails when it stops: what was reported since the last heartbeat is never told to the master (C104_stop_loses).'),
'C105':('partial', 'The answer is never that of another request, and frames and messages round trip. That an answered request is told its answer is proved when no call is abandoned between request and reply; otherwise it is false (C105_drop_wedges).'),
'C106':('proved', 'Compression, checksum and IPC are parameters with a round trip. An end of the chunks exactly between two batches cannot be noticed by the reader.'),
'C107':('partial', 'Holds when only the attempts that count stored something and each batch was stored once; otherwise proved false (C107_reads_more, C107_late_answer).'),
'C108':('partial', 'Success is told only if a worker took the batch; the converse is false (C108_split_on_retry).'),
'C109':('proved', 'Shuffle keys for ids that are not negative, which are all that are given out.'),
'C110':('partial', 'Every checksum in every run describes its version, for commits that add files not in the table and remove files that are, a first commit that names no application or domain twice, no log compactions, and checksums by this engine only. Outside these: refuted by witnesses. Sorting, timestamps and transaction ids are not modelled.'),
'C111':('partial', 'Opening and updating without files gives the header of the version, under the conditions of C110; always possible when the table can be loaded. Catalog-managed commits, undecodable files and commit timestamps are not modelled.'),
'C112':('partial', "Create and evolve keep every column's id and physical name and give new columns fresh ones, through any sequence of schema changes in which no column changes between kinds of type and no new column carries mapping keys of its own; both restrictions are shown necessary by counterexamples."),
'C113':('partial', 'Proved in full for the decision table, the record of changes, validation, ALTER COLUMN and the Iceberg restriction; losslessness excludes dates whose start does not fit a timestamp, and an overwrite with column mapping keeps a stale record that makes the table unreadable (counterexamples proved).'),
'C114':('proved', 'The merged protocol requires everything either side required (for all protocols); for valid protocols it lists nothing else, stays valid, has no duplicates, and a second upgrade changes nothing.'),
'C115':('proved', 'Round trip, injectivity, safe characters and the directory structure for all byte strings; decoding is right for every percent-encoding. The UTF-8 check after decoding is not modelled.'),
'C116':('partial', 'The last sentence is refuted (C116_stop_leaks): the shuffles to unregister are listed when stop is asked for; a reservation that is under way then is granted afterwards and nobody unregisters it.'),
'C117':('partial', 'Every predicate and every file whose statistics describe its rows. Missing: with a null check in the predicate, partition texts that are empty or the Hive marker; there it is refuted. Casts of a partition column to another type are excluded.'),
'C118':('partial', 'The scan returns exactly the rows for which all filters are true when the filters reported as exact are AND and OR of comparisons with constants, BETWEEN, IN and null checks and the partition texts can be read. Refuted for boolean columns, NOT, two columns compared and empty texts.'),
'C119':('partial', 'Rewriting files: conditions that read a data column, and the shapes of C118 on partition columns; refuted for other conditions on partition columns (every row is deleted). Deletion vectors: conditions without partition columns; refuted for mixed conditions.'),
'C120':('partial', 'Conditions of the shapes of C118, and conditions that are never null on the files chosen. Refuted for null conditions and for other conditions on partition columns.'),
'C121':('partial', 'Bounds enclose the values when every row group that holds a value has bounds that can be read; refuted otherwise: a group without bounds (only NaN, or nanoseconds before 1970) is passed over and the bounds of the others are recorded. Null counts add up when Parquet records one for each group. Timestamps are enclosed after cutting to milliseconds and adding one. Statistics are recorded under the own name for plain columns, structs and lists; refuted for maps, whose value count overwrites the null count of a column called value or makes the write panic. Decimals, which go through floating point numbers, are not modelled.'),
'C122':('partial', 'Round trip proved for nulls, integers, booleans, texts that are neither empty nor the Hive marker, and decimals of every scale that are not negative or are whole. Refuted for every negative decimal with a fraction, for empty texts and the Hive marker, and for every binary value. Dates, timestamps and floating point numbers are not modelled.'),
'C123':('partial', 'For all conditions, rows and readers: the answer is the same with pushdown, if casts keep the values and LIKE is plain. Refuted for NOT LIKE (the answer is empty), ILIKE, `_`, an escape character and a cast that changes the value. Floating point values are not modelled.'),
'C124':('partial', 'For all streams of results: commit with every message at its position exactly if each expected partition reported success once; otherwise abort with the known messages and an error. From the inputs of the partitions to the calls when no input panics; refuted for a panic, which the writer sees as the end of the data.'),
'C125':('proved', 'For all sequences of items and batch sizes: the rows arrive up to order, in order for tuples alone or batches alone, and every failure is reported. A batch overtakes the tuples before it (witness).'),
'C126':('proved', 'For all values and all scales from -38 to 38, as long as the value fits 128 bits; the text built is read back as the same number.'),
'C127':('partial', "Proved for every pair of columns whose key column starts at the first value of its buffer (value columns may start anywhere): cell for cell the map of the row's own arguments, and failure exactly when a row has to fail; also for map_from_entries under the same condition and for map_concat without condition. The specification is separately shown to have distinct keys and last values. Refuted for cut key columns (C127_cut_batch): the mask covers the rows but is applied from the start of the buffer."),
'C128':('partial', 'Proved for columns that start at the first value of their buffer. Refuted for cut batches (C128_cut_batch, and in general C128_returns_start_of_buffer): the values returned are those from the start of the buffer.'),
'C129':('partial', 'Proved for batches with a row whose NULL rows hide no values. Refuted otherwise: an empty batch fails (C129_empty_batch), a NULL row with values behind it gives their minimum (C129_hidden_values), and concat produces such rows (C129_min_of_null_concat).'),
'C130':('proved', "For all list columns, wherever they start in their buffers and whatever NULL rows hide: array_position, array_intersect, arrays_zip (any number of arguments) and posexplode give cell for cell what the row's own arrays give; the cell functions are characterised separately (first position, common elements each once). Elements are compared by an abstract equality (array_position) or by their row encodings (array_intersect)."),
'C133':('partial', "Proved for array_insert with every position but NULL, arrays_overlap when both arrays have an element or neither has a NULL, array_contains unless the element is missing from an array with a NULL, slice from a positive start or inside the array, get from index -1 up; the remaining cases are refuted (C133_insert_null_position, C133_overlap_empty, C133_contains_null, C133_slice_past_end, C133_slice_no_error, C133_get_from_end). DataFusion's array_slice, array_element, array_has, array_has_any and array_repeat are modelled by their documented meaning."),
'C131':('proved', "DataFusion's list_values, adjust_offsets_for_slice and list_values_row_number are trusted; the vectorised evaluation is an arbitrary outcome that, when it succeeds, agrees with the lambda on every element."),
'C132':('proved', "DataFusion's list_values, adjust_offsets_for_slice and list_values_row_number are trusted, so a column is given by its cells."),
'C134':('proved', 'Proved of the model for MERGE (any partitions, rows standing together) and DELETE (any cutting into batches): the marks of every file, unchanged files, counts, failures, success, and that each removal names the file with its vector and is followed by an addition. The order of the input that the plan requires is shown to give rows that stand together; that DataFusion delivers that order is trusted.'),
'C135':('partial', 'The bytes and the name are proved to round-trip, and other versions, cut files and wrong checksums are proved to be refused. The full statement is false: the writer escapes the table location twice and the reader once, so in a location with an escaped character the vector is not found (C135_escaped_location_fails; C135_same_file_iff says exactly when). C135_round_trip_partial is the rest. Table locations are taken to end with a slash. Roaring, CRC-32 and the escape set are parameters.'),
'C136':('proved', 'Proved of the model: the filter and the row index for any batches, the scan of any files in any groups with the pushed predicate, the limit, and what is shown after a MERGE of C134. What the Parquet reader returns is given; scans that only need partition values are not modelled.'),
'C137':('partial', 'Proved for integers, year-month, timestamp and date-day arithmetic in add, subtract and multiply, and for interval addition and multiplication. Four cases are proved to deviate: try_mod of the least number by -1, try_subtract of intervals with a least part, try_multiply of a year-month interval by a large bigint, and decimal try_mod when rescaling overflows. Dates with calendar intervals and try_divide are not modelled.'),
'C138':('partial', 'Proved for year-month and day-time intervals. Calendar intervals longer than 292 years wrap around, which is proved; the least number of nanoseconds by -1 panics.'),
'C139':('partial', 'Nested shapes, NULLs, field names, equal types, dictionaries and the inclusion of STRICT in ANSI are proved for all types. The claim that STRICT loses nothing is proved for integers and decimals except decimal(19,0) to bigint and decimals to unsigned integers, which are proved to be accepted although they do not fit. Floating point targets are left out: STRICT accepts them although large integers are rounded.'),
'C140':('proved', 'The exact characterisation, and that accepted clauses can apply and refused lists have one that cannot.'),
'C141':('partial', "C141_rows: for every pair of nested types and every well-formed array, a successful cast has the table's type and its rows are the file's rows, each converted by itself; C141_null, C141_list and C141_field say what that means for NULLs, lists and struct fields, C141_unchanged that equal types are left alone, C141_required that the check keeps NULLs out of required fields, C141_missing_required that a struct with a missing required field is refused. Partial: the check accepts a Null column for a nullable list although reading it always fails (C141_null_column); maps, variants and relaxed time zones are not modelled."),
'C142':('partial', 'C142_by_name: without column mapping every rewritten expression has the type and value it has on the rows of the table. C142_by_identity_partial: the same by physical name or field id, if no column of the file has the name of a different column of the table; without that it is false (C142_swapped_names: a.x becomes NULL after two columns swapped names). C142_accepts: only an impossible cast makes the rewriting fail. Partial also because a required column missing in the file reads as zero (C142_missing_required).'),
'C143':('proved', 'C143_ids: the ids of the merged schema are a rearrangement of the old ids and of an interval above the last column id; C143_unique: no id twice if the last column id bounds the old ids; C143_paths: every path of names, list elements, map keys and values that had an id keeps it.'),
'C144':('partial', 'C144_numbering: a new table is numbered without gaps or repetitions. C144_bound_partial: the recorded last column id bounds all ids if no list or map lies directly in a list or map. Otherwise it is wrong: C144_nested_list gives a table with array<array<int>> whose next column gets the id of the inner element.'),
'C145':('partial', 'C145_columns: columns keep the id of the column of the same name, new ones get an id above the last. C145_unique_partial: no id twice if columns and nested fields that keep their names keep their kinds (plain, struct, list, map). Otherwise it is wrong: C145_struct_over_plain, the fields of a struct that replaces a plain column all keep the id 0.'),
'C146':('proved', 'C146_writer, C146_input_error: what one partition reports and stores, and that an error in its input is not swallowed; C146_location, C146_location_unique: which files are accepted, and that those of different partitions differ; C146_report, C146_collected, C146_commit: what a successful commit has seen, and that the order of the reports does not matter; C146_roundtrip: rows, partitions, order and row counts are given back; C146_partitioning. C146_last_unreported: the commit relies on the stream of reports ending only after the last partition has reported.'),
'C147':('partial', 'C147_published_is_readable_partial: the objects of published checkpoints exist if no relation id is used twice; C147_one_per_id, C147_stays_published; C147_stopping_refuses; C147_no_files_left_partial: no object is left if every command ended with success or error; C147_nothing_published_partial: nothing is published after stopping if no command was between looking and publishing. Without these conditions it is wrong: C147_second_commit, C147_overlapping_attempts, C147_dropped, C147_late_publish.'),
'C148':('partial', 'Within a partition, the values are 0, 1, 2, ... without gaps or repetitions, whatever columns are selected and however often, as long as there is one; every row of a batch has its timestamp; a column that does not exist is refused. If there are at least as many rows per second as partitions, the total is not above the configured rate and above a quarter of it, and equal to it if it can be divided evenly. It is wrong that values are generated once with more than one partition (each partition starts at 0), that the rate is not exceeded with more partitions than rows per second, that the rate is reached (1999 gives 1000) and that rows can be generated without selected columns.'),
'C149':('partial', "Nested types count as the same exactly if they differ only in the name of UTC, the kind of list and NULLs inside. Plain types that are accepted can hold all values of the input, with the same scale, except for bytes of fixed size. A write succeeds exactly if the columns of the input are in the table with such types, required columns without defaults are in the input and no NULL is to be stored in a required column; it then stores exactly the values of the input, the write default, the initial default or NULL. This holds if values for columns of fixed size have that size; otherwise the value becomes NULL without an error. No NULL gets into a required column in any case. Values of nested columns are not looked into, and the cast of binary to fixed size is arrow's, described but not proved."),
'C150':('partial', 'Names, order, the plain types at every path, NULLs of columns and columns that are left out are proved for every accepted merge; that nothing changes when the input brings nothing new holds only for columns without metadata. Refuted for metadata, which columns in the input lose, and for new columns, which stay required. A narrower integer in the input is refused although it fits (C150_narrow_input_refused). Tables with column mapping or type widening are not modelled.'),
'C151':('partial', 'Proved for paths of one name in structs with distinct names. Refuted for longer paths: the column is updated only where a field of the outer struct has the last name of the path, so an accepted call returns its argument (C151_nested_ignored, C151_nested_wrong) and other calls fail (C151_nested_refused). Refuted for names in another case (C151_case) and for structs with two fields of the same name (C151_duplicate_names).'),
'C152':('partial', 'The rows of an accepted call and what is refused are proved for all paths, for structs whose names are distinct and for names compared exactly; a name in another case is ignored instead of dropped (C152_case).'),
'C153':('partial', 'That the parts of a split have every row once, that a sample has rows of the input, and the fractions 0 and 1 are proved for given draws, partitions and batches; that the batches are the same each time the input is read is assumed. Refuted: the draws start again in every batch, so equal batches give the same places (C153_repeats) and the sample depends on the cut (C153_cut); a stratum with fraction 0 can give a row (C153_by_zero).'),
'C154':('partial', 'For distinct old names and names written in one case the columns are proved to be those after the renamings one after another, for every iteration order of the hash maps. Missing: Sail compares names with their case, so a name that differs in its case is not renamed (C154_case proves the negation). C154_repeated shows that the condition on the old names is needed.'),
'C155':('partial', "EXCEPT ALL, EXCEPT and the rows and columns of unionByName are proved for all tables. Missing: without allowMissingColumns a further column of the right side is dropped instead of being refused (C155_union_extra_dropped), and repeated names are not refused (C155_union_repeated). INTERSECT and the coercion of types are DataFusion's and not modelled."),
'C156':('partial', 'dropna without a threshold and with one above zero, and fillna, are proved for all schemas and rows. Missing: dropna with the threshold zero drops rows (C156_threshold_zero), names that are not columns are ignored (C156_unknown_ignored, C156_fill_unknown_ignored), and a value that cannot be converted to the type of the column leaves NULL. The conversion itself is a parameter.'),
'C157':('partial', 'The places and contents of the columns of withColumns for distinct names, and the values and refusals of replace, are proved. Missing: withColumns compares names with their case (C157_with_columns_case) and accepts a name given twice (C157_with_columns_repeated); replace changes all names to lower case (C157_replace_lower_case).'),
'C158':('partial', 'Proved when both executions see the same number of rows. Missing: a table that grows between them (C158_grown), and a negative n, which is refused instead of giving no rows (C158_negative).'),
'C159':('partial', 'The rows of the result are proved for all tables for plain value columns, as in the DataFrame API. Missing, and false in Sail: leaving out NULLs in SQL (C159_nulls_kept), aliases (C159_alias_ignored), and several columns per value (C159_groups_flattened). Types are not modelled.'),
'C160':('partial', 'The rows, columns and cells are proved for all inputs whose second column has no NULL, and the cells for all inputs. Missing: there is no column for NULL, so rows with NULL in the second column are counted nowhere (C160_null_lost). That equal texts are equal values, and that the table does not change between the two executions, is assumed.'),
'C161':('proved', 'For all columns, names and references. Taken as given: internal field names are unique (a column is its position), every field has its info, and DataFusion accepts the projection. Arguments that are not attributes are not modelled.'),
}
