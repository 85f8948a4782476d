# Design

## 1. What is verified and how

The Rust sources in `/repo` (lakehq/sail) are read as text and transcribed, function by
function, into small total Lean 4 definitions under `lean/Verif/`. Each definition
carries the file and line range it was transcribed from and every simplification made.
The theorems are about those definitions. Nothing is extracted mechanically, so the
correspondence between a definition and the Rust function it cites is by inspection.

Layout: `Verif/<Area>/<Topic>.lean` is the model of a topic, with helper lemmas;
`Verif/<Area>/<Topic>Props.lean` (or a final `Properties` section) has the property
theorems and, next to each, an `example` with a concrete, non-trivial instance of its
hypotheses. Specifications that do not come from the code are kept in `Spec` namespaces.

## 2. Trusted base

* The Lean 4.33.0 kernel and the Mathlib modules imported.
* Axioms: only `propext`, `Classical.choice`, `Quot.sound` (checked by `#print axioms`;
  no axiom of our own, no `sorry`, no `native_decide`, no `bv_decide`).
* The transcription from Rust to Lean (inspection; each definition cites its lines).
* Third-party code is assumed to behave as documented: tokio channels are FIFO,
  `IndexMap`/`HashMap` are maps, `object_store` listing returns all keys with a prefix,
  Arrow `take`/`slice`/`concat` select the rows they say they select.
* Actor handlers are atomic (each actor processes one message at a time:
  `sail-common/src/actor.rs`), so concurrency is an arbitrary interleaving of messages.

Iceberg: modelled are `utils/transform.rs`, `datasource/pruning.rs` (partition predicates,
`contained`, the limit), the file loading and push-down rules of `datasource/provider.rs`,
`spec/delete_index.rs` and `physical_plan/delete_apply_exec.rs`. DataFusion's
`PruningPredicate`, Parquet, Avro and the schema adapter are not.
Of commits: `operations/snapshot.rs`, the row lineage of `spec/metadata/table_metadata.rs`, the commit loop of
`physical_plan/commit/commit_exec.rs` with `bootstrap.rs` and `metadata_loader.rs` (store and catalog requests are
atomic steps of interleaved writers; the store is strongly consistent). REST catalog commits are not.

Not modelled: gRPC transport, serialization of plans, DataFusion operators, the actual
threads, time (timeouts are events that may happen at any moment), memory exhaustion.

## 3. Plan per property

| id | model | shape of proof |
|----|-------|----------------|
| C01 | `TaskState`, `consolidate` as a fold over any report list | rank is monotone; terminal absorbing, by induction over reports |
| C02 | job state machine: `updateTask`, `refresh` (all five phases), `cleanUp`, `stop` | invariant over all event histories: attempts ≤ max; failed iff exhausted |
| C03 | same machine, emitted `schedule` actions | invariant + post-condition of `scheduleRegions` |
| C04 | same | invariant: every attempt but the last is terminal |
| C05 | same | invariant: attempt counts agree inside a region |
| C06 | `JobOutputStream` as a state machine over poll events | full property is false (see §4): negation by witness, `_partial` under "earlier attempt still in the set or delivered nothing" |
| C07 | `cleanUp`, `refresh`, `stop` | false for failed jobs: witness, plus partial for succeeded |
| C08 | `TaskAssigner` with slots as lists | invariant over all operations |
| C09 | `assignTasks` | refinement to "longest assignable prefix of the queue" |
| C10 | worker accounting (assigner counter + pool) | false: witness; partial for zero initial workers |
| C11 | `buildTaskRegion` | false: witness for all n; partial for full regions |
| C12 | `buildTaskRegion` | arithmetic on bucket index + exact cover |
| C13 | assigner with tracked streams | post-condition |
| C14 | `JobTopology` components and slicing | exact cover; connectivity |
| C15, C17 | `inputKeys`, `coalescedInputRange` | exact cover by counting; arithmetic |
| C16 | `replicas` vs number of reads generated by `inputKeys` | counting equality |
| C18 | memory stream with bounded channel, overflow queue | invariant: delivered ++ buffered ++ overflow = written |
| C19 | storage writer/reader incl. decimal zero-padded names | round-trip; padded names sort as numbers |
| C20 | job machine + storage namespace | false: witness history; partial for jobs whose regions contain no pipelined consumer of a blocking stage's consumer |
| C21 | sequence filter | fold = max, by induction |
| C22 | `IdGenerator` | invariant |
| C23 | `RowRoundRobinPartitioner` | refinement: batch-independent; counting |
| C24 | `Range.partition`, iterator with 64-bit wrap | false near the bounds: witness; partial when the exclusive end is representable |
| C25 | `make_ids` | injectivity, monotonicity |
| C26 | set-threaded check over batches | iff over flattened rows |
| C27 | `StreamLimitState::step` | refinement to `drop`/`take` |
| C28 | encode/decode over rows | round-trip modulo empty data events, closed under re-batching |
| C29 | `MultiChannelTaskStreamSink` | invariant |
| C30 | job machine | progress lemma from acyclicity |
| C31 | `infer_job_failure_cause` | soundness + completeness |
| C32 | worker pool state machine | invariant over events |
| C33 | job machine + dispatch queue | false: witnesses; `_partial` when reports only concern dispatched attempts |
| C34 | memory stream | false for every output that fits the buffer: indistinguishability theorem; `_partial` without abort |
| C35 | worker pool with clock and delayed messages | invariant: every running worker is watched by a probe for its last heartbeat |
| C36 | same | safety by invariant; the second half is false: witness for any number of heartbeats; `_partial` while a probe is on its way |
| C37 | log store with commits, checkpoints, hint; replay of actions; checkpoint creation with tombstone expiry; clean-up | invariant over all histories: every checkpoint agrees with the history; loading refines the last-action-wins specification |
| C38 | compaction writer, selection of compactions, replay sequence | false in three ways: witnesses; `_partial` for aligned compactions without removed domains or expired tombstones |
| C39 | log listing from the last-checkpoint hint, segment resolution and validation | false for versions older than the newest checkpoint: witness; `_partial` from the newest checkpoint on |
| C40 | retention boundary and deletion of log files | boundary lemma + invariant of the log store |
| C41 | hash and sort replay of log rows; planner file selection | order-independence + refinement to last-action-wins; false for versions older than the newest checkpoint: witness of silently missing files |
| C42 | writers as state machines over a shared log with put-if-absent; conflict checker | invariant over interleavings |
| C43 | timestamp assignment in the commit loop | invariant |
| C44 | Z85 encoder and decoder over bytes | round-trip, injectivity; last part false for groups above 2^32-1: witness |
| C45 | task assigner (queue, slots, worker counts) | arithmetic of rounding up; combined with the placement theorem of C09 |
| C46 | task assigner | invariant over histories |
| C47 | stream manager for one key with waiting readers and scheduled probes | invariant; last part false: witness |
| C48 | Filter expressions (columns, literals, casts, aliases, comparisons, AND, IN, anything else opaque), literals with their order, specs, manifests with summaries, files with partition tuples and rows; SQL evaluation of filters on rows | A row satisfying all filters gives a partition value that meets every derived predicate, by uniqueness and monotonicity of the transforms as defined by the Iceberg specification; `_partial`: filters without casts, and literals for which C49 holds. Witnesses of lost rows for casts, for column bounds, for decimals |
| C49 | apply_transform on literals with wrap-around of i32/i64 and panics as an explicit value; the proleptic Gregorian calendar; Murmur3 as a parameter | Agreement with the specification stated through first days of years and months; `_partial`: away from the ends of the integer ranges, and not for decimals and binaries. Witnesses for each excluded case |
| C50 | Byte encoding of partition tuples, the four parts of the index as association lists, insertion and look-up | Injectivity of the encoding by prefix decoding; look-up after any list of insertions compared with the rule of the specification, in both directions |
| C51 | Positions, sorting and removal of repetitions, the mask per batch, equality key sets | Induction over batches |
| C52 | The loop over files that stops once the limit is passed, live rows per file | `_partial`: enough rows when no delete applies and every row of a kept file satisfies the filters; witnesses of too few rows with deletes and after a change of partitioning |
| C53 | `Iceberg/Snapshot`: the snapshot producer, the metadata update and the reader of manifests as functions on tables whose manifests are inlined | Permutation lemmas for grouping by spec and for the manifest walk; invariant over sequences of commits |
| C54 | `Iceberg/Snapshot` requirements, `Iceberg/Protocol` retries | Case analysis of the requirement; combined with C57 over interleavings |
| C55 | `Iceberg/Snapshot`: first_row_id of manifests and files, next_row_id of the table | Invariant: the id ranges claimed by manifests and files are pairwise disjoint and below next_row_id |
| C56 | `Iceberg/Snapshot`: counts of manifests and the summary | Induction over manifests; invariant over commits |
| C57 | `Iceberg/Protocol`: writers as processes, store operations as atomic steps, versioned metadata files and the version hint | Inductive invariant over all interleavings; counterexample run for the first snapshot |
| C58 | `Iceberg/Protocol` | Invariant that the hint trails the newest version only while its writer is between the two writes; counterexample runs for a missing hint and a failed hint write, and a proof that the table then rejects every later commit |
| C59 | `Iceberg/Catalog`: writers that put, list and withdraw uniquely named files | Inductive invariant: a writer that has seen only its own file keeps it, so that every later writer of the version sees it |
| C60 | `Connect/Executor`: task program counter, replay buffer, one-place channel, transport queue, client; events are arbitrary interleavings | inductive invariant over all event lists: everything emitted = received ++ in flight, and the buffer covers what is in flight; partial because of the buffer limit |
| C61 | same model as C60 | resumption and termination of the remaining delivery by a decreasing measure; negation by witness for finished tasks; partial |
| C62 | `Connect/Operations`: the session's table of operations under all request sequences | induction over request sequences; the uniqueness part is refuted |
| C63 | `Connect/Sessions`: session table, clock and outstanding timers | invariants over all event sequences; the user part is refuted |
| C64 | `Connect/Config`: configuration table entries (alternatives, fallback, default, removed, static) and the map of set values | read-over-write laws by induction on the fallback chain; the last sentence is refuted |
| C65 | `Connect/Streaming`: query table with running tasks and the wait requests | invariants over all event sequences |
| C66 | Func/Preimage.lean: the announced range of each function and the rewrite of the six comparisons; the calendar of Base/Calendar.lean; floats as finite rationals with signed zero, infinities and NaN under the order of the comparison kernels | proved for dates in range, decimals, integers and finite non-negative-zero floats; the failing float values are refuted (`_partial`) |
| C67 | Func/Sequence.lean: the length computation with its overflow branches, the fill, the two passes over a batch | proved |
| C68 | Func/Civil.lean (the conversion between days and civil dates) against Base/Calendar.lean; Func/TemporalSeq.lean: steps, scaling with 32/64 bit wrap, the loop | proved for the calendar; element formula and stopping proved; the descending overshoot by one microsecond and wrapped multiples refuted |
| C69 | Func/Window.lean: the loop of one row | proved |
| C70 | Func/Like.lean: the rewrite, the kernel's reading of a pattern, the meaning of patterns | proved when e is neither % nor _ or every escape is valid; otherwise refuted (`_partial`) |
| C71 | Func/Digits.lean: digits, hex, unhex, bin, conv | proved except for conv of the least 64-bit integer, refuted |
| C72 | Func/Accumulator.lean: accumulators as update, state, merge, evaluate over batches of optional values and the set of accumulators reachable by any partitioning, batching and merging; Func/Bitmap, Mode, CountMin, Percentile, PercentileDisc, TryAvg | invariants over all reachable accumulators; NaN in mode and percentile and overflow in try_avg refuted, with the rest as `_partial` |
| C73 | the evaluations in Func/Bitmap, Mode, CountMin, Percentile, PercentileDisc, TryAvg, MaxBy, Histogram; fractions are exact rationals instead of floats | proved over exact arithmetic, for all reachable accumulators |
| C74 | Func/Percentile (retract), Func/WindowFn (ntile, first and last value) | proved |
| C75 | `Opt/JoinPlan`: plans and their rows as bags under SQL semantics (three valued filters, plain and null-safe keys). `Opt/JoinGraph`: building the query graph. `Opt/JoinEnum`: the search with arbitrary estimates. `Opt/JoinRebuild`: rebuilding, final projection, the bottom-up traversal | Refinement: a visited plan is the filtered product of its relations (induction over the plan); a rebuilt tree over a set of relations is the product of that set filtered by the edges inside it (induction over the tree, using C76); hence `optimize` permutes the rows. Needs that no join has both null-safe keys and a residual equality of two columns; the negation is proved with a witness |
| C76 | `Opt/JoinEnum` (DP table, DPhyp recursion with a bound on its depth, greedy fallback), `validate` in `Opt/JoinRebuild` | Invariant of the DP table under every emit; each edge spans exactly one join of a tree; the forbidden set grows at every level, so the recursion is never deeper than 64 |
| C77 | the splitting of the ON condition, the full join, the clause predicates and CASE expressions evaluated on joined rows, the touched-file query, the writer's filter and the resulting table; conditions and values are functions of the joined row | a refinement theorem to a row-by-row specification of MERGE that knows nothing of joins; the counterexample for a statement without MATCHED clauses |
| C78 | as C77, with the row-index query, the row filter of the deletion-vector plan and the two row filters of the Iceberg writer | refinement theorems to the same specification |
| C79 | the check over the joined rows and the analysis of the source query, whose operators have their SQL meaning | equivalence of the failure with a double match; soundness of the analysis by induction on the source query |
| C80 | the anti and semi joins, the insert-only projection and operation column | refinement to the same specification |
| C81 | the two rename maps, the search for a free alias, the rewriting of a column reference, the choice of the side for an unqualified name | theorems on the maps for names that are not of the form of an internal identifier; counterexamples otherwise and for ambiguous names |
| C82 | the counters as counts over the writer's input | equalities with counts over the specification; counterexample where a row is matched twice |
| C83 | `Catalog/Memory.lean`: the nested map of databases with tables and views as association lists, every request as a function returning a result and the new state. Storage location, formats, constraints and the other fields no request reads are one opaque payload; nested column types are changed by an abstract function. | Refinement of histories to three flat functions; listings by membership and absence of duplicates; a frame theorem for failed requests with the unset case excluded, and a witness for that case. |
| C84 | `Catalog/Manager.lean`: the session's manager over in-memory catalogs, temporary views, and a world of sessions sharing the global temporary views. Patterns of SHOW statements are an abstract filter. | Theorems on the resolution of `catalog ++ namespace ++ name`, on the order of lookups, on DROP VIEW with a frame for every other name, and on sessions by induction over histories; witnesses for the exceptions. |
| C85 | `Catalog/Cache.lean`: the caching wrapper over an abstract catalog (state, change, listings) with caches as association lists and evictions as steps; expiry times are evictions. | An invariant (every cached entry equals the current listing) kept by all steps, instantiated for the in-memory catalog; witnesses for the overlap and for the partial failure. |
| C86 | `Catalog/Function.lean`: the registry as an association list over lower-cased names, the sorted and deduplicated listing, the tracker with its counter. | Refinement of histories to the last event for a name; sortedness, absence of duplicates and membership of the listing; uniqueness of numbers by an invariant; a witness for the two answers on a shared name. |
| C87 | `Catalog/Managed.lean`: the property lookups with their trimming and case folding, the precondition check, the update, and a system of writers that read and commit in any order. | Invariant of the interleaved system: the log of successful commits is a chain ending at the current metadata; witnesses for the two exceptions. |
| C88 | `Sql/Lexer.lean`: every tokenizer alternative in order over a list of characters (the class of non-ASCII letters is a parameter); `Sql/Str.lean`: decoding of every string style. | Induction on the text for the round trips; a locality theorem of the tokenizer for replacing one literal; witness for the dollar sign. |
| C89 | `Sql/Name.lean`: quoting, the identifier and object name parsers over tokens of `Sql/Lexer.lean`. | Induction on the list of names. |
| C90 | `Sql/Number.lean`: the state machine over adjacent tokens, the choice of types, the regular expression captures (greedy), and the decimal arithmetic with 8-bit wrap-around. Floating point parsing is a parameter. | Value theorems by induction on digits; witnesses for the exceptions. |
| C91 | `Sql/Param.lean`: the rewriting over the tokens of `Sql/Lexer.lean`. | The tokens of the rewritten text are those of the statement with the k-th marker replaced by `$` and `k`; uses the locality of the tokenizer and that decimal numerals differ; witnesses. |
| C92 | `Sql/Pratt.lean`: the operator precedence parser over operator tokens and the fragment rewriting. | Round trip by induction on expressions with a lemma on binding powers. |
| C93 | `Sql/Interval.lean`: the thirteen regular expressions as parsers of fields, checked arithmetic, multi-unit sums. | Value theorems for all fields; error exactly outside of the range; witnesses. |
| C94 | `Sql/Datetime.lean`: the parsers over characters, validity of dates as in `Calendar`. | Round trips by digits; soundness of accepted texts. |
| C95 | `Sql/Ddl.lean`: the printer, and the type parser over tokens. | Round trip by induction on types; witness for the exception. |
| C96 | `Sql/Display.lean`: the formatters over characters, the civil date as in `Calendar`. | Round trips through C93 and C94: the shown text is of the written form, with the right digits. |
| C97 | The record decoder with its buffered rows and its partial line, the loop of the buffered reader over arbitrary non-empty buffers, the batch limit, the UTF-8 check at the flush, and the writer with its 8 KiB buffer (Io/Text). The bounds of the decoder are not modelled, since nobody sets them; nor is the choice of byte ranges, which is DataFusion's. | An inductive specification of the lines of a file, with a proof that it determines them; a loop invariant relates the rows, the partial line and the bytes to come to it. Partial: the code breaks the claim where a buffer ends between CR and LF, which is proved by a witness, as are the unchecked row boundaries of UTF-8 and the whole-text mode with batches of one row. |
| C98 | The classification of a sequence byte by byte, the repair loop, the decoder with its incomplete tail, the stream, and the reader with its buffers (Io/Utf8). Bytes are numbers. | The specification says which bytes are kept and which are replaced (the longest beginning of a character, surrogates counted as characters, or one byte) in terms of the encoding of Lean's own characters, and is proved to have one solution. Chunk independence from the fact that a classification that is not `incomplete` does not change when bytes are appended. |
| C99 | The parser of the glob syntax, the expansion with the collected class, the division of the path (Io/Glob). The `glob` crate is modelled from its documented behaviour (tokens and matching). | The grammar is an inductive relation between segments and text, proved equal to the parser (GlobParse). Matching of the original pattern is an inductive relation; the expansions are the choices of one alternative in each alternation; each token of the crate has the characters of the class it was written from (GlobLemmas). |
| C100 | the actor's state, its handlers and the tasks in flight (`Celeborn/Lifecycle.lean`); a run is any list of requests and task completions | invariants over all runs (`Celeborn/IdProps.lean`) |
| C101 | as C100; a oneshot sender is a value of an arbitrary type | an invariant that counts the callers who asked, were answered and wait (`Celeborn/AnswerProps.lean`) |
| C102 | as C100 | invariants over the replacements in flight and those who wait for them (`Celeborn/ReviveProps.lean`) |
| C103 | as C100 | invariants over the attempts recorded and the commits begun (`Celeborn/CommitProps.lean`, and `Celeborn/StopProps.lean` for revivals during and after a commit); the last sentence fails, with witnesses, when a commit fails or an attempt reports its end while the commit runs |
| C104 | as C100 | a conservation law over all runs (`Celeborn/MetricsProps.lean`) |
| C105 | The frame codec over bytes, the control messages, and a connection with its stream, its request counter and the answers that arrive (`Celeborn/Transport.lean`). Sockets and timers are not modelled: a timeout or an I/O error is an outcome of a call. The Java serialization around messages of workers and masters is not modelled. | Round trips over all bytes; an invariant relating what is left in the stream to the requests that were sent; the second half fails, with a proof for every continuation, when a call is abandoned between request and reply. |
| C106 | The block format, the batch header, the loop over chunks with its remainder, and the record batch streams over all locations (`Celeborn/Data.lean`). The compression algorithm, the checksum and the Arrow IPC format are parameters, of which only the round trip is assumed. | Induction on the chunks with the remainder generalised; little-endian round trips. |
| C107 | As C106, with the ids of the header kept in the specification only, as the reader drops them. | Equality under the hypothesis that nothing else was stored (`C107_once_partial`); otherwise the reader provably gets more (`C107_reads_more`), and an answer that comes late suffices (`C107_late_answer`). |
| C108 | The state of the client actor, its handlers and the task that pushes one batch (`Celeborn/Client.lean`). | Invariants over all runs relating the state to the messages handled; the push task by cases; the converse of the last sentence fails, with a witness (`C108_split_on_retry`). |
| C109 | The printers and parsers over characters (`Celeborn/Names.lean`), with the integer parser of C93. | Round trips by splitting at the last colon; injectivity by the digits before the first or after the last dash. |
| C110 | The computation of a checksum on top of the log model of C37; a run interleaves log events with checksums for any version, each with or without the checksum before it and with or without a base snapshot (`Delta/Checksum.lean`). Sorting of the lists, transaction ids and commit timestamps are not modelled. | Invariant over all runs: every stored checksum describes its version in the sense of the last-action-wins specification of C37; counting lemma for commits that add new files and remove existing ones. False for checksums of other writers that leave out the optional lists: witness. |
| C111 | The resolution for headers and the replay of header actions on top of C37 and C110 (`Delta/Checksum.lean`). Catalog-managed commits and undecodable files are not modelled. | Refinement to the last-action-wins specification from the invariant of C110, for logs without compactions (C38). |
| C112 | Schemas as mutually recursive types and field lists; annotation and merging with the id counter and the stream of generated names threaded through (`Delta/Schema.lean`). Field metadata other than the mapping keys and the type changes is left out. | Induction over the candidate schema, then over the sequence of schema changes. The candidate must carry no foreign mapping keys and must not turn a column into a different kind of container; both exceptions are refuted with witnesses. |
| C113 | The decision table and the schema walks over the types of `Delta/Schema.lean` (`Delta/Widening.lean`). Recorded changes are structured values: their JSON text is trusted to read back. | The decision table against sets of rational values; induction over schemas for the record and the validation; the stale record left by overwriteSchema is refuted with a witness. |
| C114 | The two functions over integers and feature lists (`Delta/Upgrade.lean`). | Case analysis over the version thresholds against a specification of what each protocol requires. |
| C115 | Percent encoding and decoding over byte lists (`Delta/PathText.lean`); the percent-encoding crate is modelled from its documentation. | Induction over the bytes. |
| C116 | The lifecycle manager of C100-C104 (`Verif.Celeborn.Lifecycle`): `Registration.error`, `stop` and the guards of the handlers. | Invariants over all runs: with a registration that is not `succeeded` every task is a heartbeat or an empty stop and no answer grants anything; with a `succeeded` one no answer is the error of the application. A stop names every shuffle that a caller was told slots for, and only shuffles that the cluster granted; a shuffle whose unregistration ended well is not named. That nothing stays reserved is refuted by a reservation that is granted after the stop was asked for. |
| C117 | Expressions with three-valued evaluation over a row and over a metadata row, the rewriter function by function, and the metadata row made of raw partition texts and parsed statistics (`Verif.Delta.MetaFilter`). | Induction over predicates: true on a row of a described file implies that the rewritten predicate is true on the metadata row. Refuted where a partition text is the empty text or the Hive default marker (read as NULL, but not null in the metadata row) and kept as `_partial` with that excluded. |
| C118 | `expr_is_exact_predicate_for_cols` over the expressions of C117 and the scan as the rows of the files chosen (`Verif.Delta.MetaFilter`, `Verif.Delta.RowDelete`). | For AND and OR of comparisons of a partition column with a constant, BETWEEN, IN and null checks the rewritten predicate has the value of the filter on every row, so the claim holds (`_partial`). Refuted for a boolean partition column used as a filter, for a comparison of two partition columns and for NOT. |
| C119 | DELETE as a function from a list of files to a list of rows: the files chosen by C117's filter are removed, and the rows of them for which the condition is not true are written back unless the condition reads partition columns only (`Verif.Delta.RowDelete`). | With C117: the rows left are a permutation of the rows for which the condition is not true, if the condition reads a data column, or is of the shape covered by C118 (`_partial`). Refuted for a condition that reads only partition columns and has another shape: every row of the table is deleted. With deletion vectors: proved for conditions without partition columns (`_partial`), refuted for conditions that read both kinds of columns. |
| C120 | The overwrite as a function from files and new rows to rows; old rows of the files chosen are written back where NOT c is true (`Verif.Delta.RowDelete`). | Proved when c is never null on the rows of the files chosen (`_partial`): a permutation of the rows for which c is false, and the new rows. Refuted in general: a row for which c is null is lost with its file. |
| C121 | Aggregation over row groups, timestamp texts as truncation to milliseconds, and the null counts written per leaf column (`Verif.Delta.FileStats`). | Induction over row groups, with every group that holds a value having bounds (`_partial`; refuted without). Arithmetic for the truncation. The null-count key is the column for plain and list columns (`_partial`); refuted for maps: the count of the map's values overwrites the count of a column called value. |
| C122 | `serialize` and `parse_partition_value` on characters, with the usual reading of decimal numerals for the engine's text casts (`Verif.Delta.PartValue`). | Round trip for integers, booleans, texts that are neither empty nor the Hive marker, and decimals that are not negative with a fraction (`_partial`). Refuted for negative decimals with a fraction, empty texts and binary values. |
| C123 | SQL conditions, Python filters and their three-valued meanings, LIKE patterns with escapes (`Verif.PySource.Filter`). | Agreement of meanings by induction on the condition, for casts that keep the value and plain patterns (`_partial`); refuted for NOT LIKE, ILIKE, `_`, escapes and casts that change the value. |
| C124 | The pump, the iterator seen by Python, the result row of a partition and the commit loop (`Verif.PySource.Write`). | Invariant of the commit loop over all streams of results; end to end over all orders of arrival when no input panics (`_partial`). Refuted for a panic in the input, which the writer sees as the end of the data. |
| C125 | The loop over the items of the iterator and the row collector (`Verif.PySource.Read`). | Induction on the items: same rows up to order, same order when the reader does not mix tuples and batches, and an error exactly when something failed. The order of mixed items is refuted. |
| C126 | The text built from a decimal, and the exact reading of decimal numerals (`Verif.PySource.Decimal`). | Round trip for all scales. |
| C127 | `Verif.Arrays.Layout` (list columns: flat values, first offset, row lengths, validity) and `Verif.Arrays.MapFrom`: the loop over rows and entries with its mask, value indices, hash map and offsets, then `filter`/`take`. | Loop invariant over the entries of a row and over the rows: mask, indices and hash map describe the entries read so far. Full statement refuted for columns whose first offset is not zero; proved for those whose first offset is zero. |
| C128 | `Verif.Arrays.Compact`: the keep mask, the new offsets and `filter`. | Induction over the rows; refuted for a column that does not start at the first value of its buffer. |
| C129 | `Verif.Arrays.MinMax`: the loop over rows which does not look at validity, and `iter_to_array`, which needs one value. | Fold lemma for the accumulator; refuted for a NULL row with values behind it and for an empty batch. |
| C130 | `Verif.Arrays.RowWise`: the four loops over offsets, hash sets as lists without repetition, `take` with missing indices. | Induction over the rows with the position in the output as the invariant. |
| C131 | `Verif.Arrays.Lambda`: the vectorised evaluation, the reduction with constants and arrays, and the retry element by element. | Both reductions are shown equal to a left-to-right specification by induction over the elements. |
| C132 | `Verif.Arrays.Lambda`: flattening, per-element index and row number, filtering with counts, and the lockstep loop of aggregate. | Induction over rows (filter, transform) and over positions (aggregate: after d rounds every accumulator is the fold of the first d elements). |
| C133 | `Verif.Arrays.Planned`: the CASE expressions in three-valued logic over list functions of DataFusion as documented. | Case analysis; refuted where the rewriting differs from Spark (NULL position, empty array, NULL elements, slices that pass the end, negative index), proved elsewhere. |
| C134 | `Delta/DvWrite.lean`: the bitmap is a finite set; a store of written vectors with fresh names; `writePath` (one file), `rowStep`/`runRows` (the streaming loop of MERGE), `runFiles` (the loop of DELETE), `matchingRows` (the scan of one file), and the replay of the emitted actions by path and vector | induction over the rows to reduce the loop to one call per file, then over the files with the invariant that a file is changed at most once; refinement to `old ∪ named` per file; counts by the cardinality of the unions |
| C135 | `Delta/DvFile.lean`: the bytes of the file and of the descriptor; the bitmap format of the roaring crate, the CRC function, the text of a UUID and the escaping of `object_store::path::Path` are parameters with stated assumptions | round trip of the framing by list arithmetic; round trip of the name with the Z85 theorem of C44; the two paths are compared by the length of their escapes |
| C136 | `Delta/DvScan.lean`: a stream is the list of its batches; `dvFilter`, `appendRowIndex`, `scanChunk`, `scanAll` (chunks of files) | induction over the batches with the offset generalised; the split into plain and marked files is a permutation; joined with C134: what a scan shows after MERGE |
| C137 | `Func/TryArith`: checked arithmetic of `w` bits, the row loop, intervals of months, days and nanoseconds, decimals as unscaled integers with a scale | case analysis on the range, uniqueness of the remainder; the exceptions (remainder of the least number by -1, subtracting the least part of an interval, a factor above 32 bits, rescaling that overflows) are proved as such |
| C138 | `Func/TryArith`: the 64-bit sums that wrap in a release build and the division that panics on overflow | year-month and day-time: no sum can wrap; calendar intervals: only if the nanoseconds fit 64 bits, with the wrong sign proved for 3559 to 7116 months |
| C139 | `Merge/StoreAssign`: the types as trees, the recursion on the pair of types, the leaf rules with their ranks, widths and precisions | induction on the source type against an inductive description of the values; arithmetic on powers of ten and two; counterexamples for decimal(19,0) to bigint and for decimals to unsigned integers |
| C140 | `Merge/StoreAssign`: the loop with its three flags | induction with the flags as invariant |
| C141 | `Evolve/Cast`: types with names, physical names and field ids, arrays with their children, masks and list ranges, and the functions that cast and check them | induction on the target type: the rows of the cast array are the row-wise conversion; the check implies that required fields are filled |
| C142 | `Evolve/Rewrite`: the column mapping with defaults, and the bottom-up rewriting of columns and field accesses | induction on the expression under the condition that no column of the file has the name of a different column of the table; a counterexample without it |
| C143 | `Iceberg/SchemaIds`: nested types with ids, the numbering of new fields, the recursive merge with its pool of unused fields | induction on the input type: the ids of the result are a rearrangement of the old ids and of the interval of new ones; every path keeps its id |
| C144 | `Iceberg/SchemaIds`: the index of ids and the numbering of a new table | the numbering is exactly 1 to n (induction); the index is complete if no list or map lies directly in a list or map; a counterexample otherwise, with the duplicate id it leads to |
| C145 | `Iceberg/SchemaIds`: the recursion over old and new type | a counterexample for a column that becomes a struct; induction on the new type if columns that keep their name keep their kind |
| C146 | The writer of a partition as a function of its batches and errors; the reports as a list; file names as characters; the scan as a function of the store. Parquet, JSON and the object store are trusted. | Induction over batches and reports; the files of different partitions have different names because the number before the dash can be read back. |
| C147 | A transition system: commands with their stages, the objects in the store, the published checkpoints, the stages of stopping. | Invariants over all runs; runs that break the property as witnesses. |
| C148 | The list of actions for a projection, the generation of a batch, the sizes and numbers of the batches; time is given. | Induction over the projection and over the batches; arithmetic of the rates; witnesses for rates and partitions for which it is wrong. |
| C149 | The checks on types, the alignment of columns, the cast and the check for NULLs; nested columns are checked by type and written as they are. | Equality of normal forms for nested types, by induction; the outcome of a write characterised for all tables and inputs; a witness for binary values of the wrong length. |
| C150 | Merging of fields and the check of type changes, for tables without column mapping and type widening; what arrow can cast is a parameter. | Induction over the input for names, NULLs and the types at every path; theorems that metadata is lost and new columns stay required. |
| C151 | Struct columns with their types and validity, the update of the type and of the column, the checks of `StructArray::try_new`. | Equality with the change of single rows for paths of one name; for longer paths a proof that an accepted call changes nothing. |
| C152 | The same columns; dropping in the type and in the column, which goes by whether the types differ. | Induction over the path: the rows of the result are the rows with the field removed, and the call succeeds whenever the type has a result. |
| C153 | Partitions of batches of rows; the draws of a seed as a sequence of numbers that starts again in each batch; bounds and fractions as numbers of the same scale. | Counting of rows over the splits by induction over the bounds; theorems that equal batches give equally many rows and that the cut matters. |
| C154 | The inverse map built by folding over the renamings, the forward map collected from it in any order, and the renamed columns. | Induction over the renamings from the end: the pairs in the inverse map are exactly the old names with their names after all renamings; hence the forward map is a function and any iteration order gives it. |
| C155 | Row numbers within equal rows, the anti join and the projection of EXCEPT ALL; the distinct and anti join of EXCEPT; the two projections of UNION BY NAME as functions on tables with named columns. Equality of rows is Lean equality, as NULL equals NULL here. INTERSECT and the coercion of types by UNION are DataFusion's and not modelled. | EXCEPT ALL: the numbers of a row are exactly 0 to its count, so the anti join keeps the difference of the counts. UNION BY NAME: induction over the columns; the refusals are compared with the column sets, and extra columns on the right are shown to be dropped silently. |
| C156 | The predicates of dropna and the expressions of fillna, in three-valued logic, on rows of values that may be NULL or NaN; the cast is a parameter that may fail. | Case analysis of the three-valued conditions and induction over the columns; the cases in which Sail differs from the statement are proved as witnesses. |
| C157 | The ordered map of given columns, the projection built from it, and the CASE expression of replace per column; the cast of a literal is a parameter. | Induction over the given columns and the pairs; the lower-cased names of replace and the comparison of names with their case in withColumns are proved as witnesses. |
| C158 | The offset from the count and the limit of the second execution, with the rows of both executions given separately. | Arithmetic on the offset; a witness shows rows that are not the last ones when the input grew between the two executions. |
| C159 | The choice of id and value columns and the array of structs that is exploded for each row. Columns are positions in a table without repeated names; the types of the value columns and their coercion are not modelled. | Induction over the rows gives the row at each position; that aliases and the treatment of NULLs are ignored is proved for all inputs. |
| C160 | The distinct texts of the second column, one 0/1 column for each, and their sums per value of the first column, on rows of two values that may be NULL. A value is its text. Both executions see the same rows. | Induction over the rows: the sum in a group is the number of rows with the pair; the missing column for NULL is proved for all inputs. |
| C161 | The candidates of a name among the columns with their visible names, plan ids and hidden flags, the check for ambiguity, and the projection to the columns that are not excluded. Columns are positions, as their internal names are unique. | Induction over the references for the excluded positions; then the kept columns are compared with the columns that match nothing. |

## 4. Disagreements between code and property

Each entry names the Lean theorem that exhibits the behaviour. All are about the code as
transcribed; none was observed by running it.

1. **C03** `C03_union_reads_unfinished_stage`: with storage shuffle, the dependency of a stage on a
   blocking stage below a union is missed, so the region is handed out before its input exists.
2. **C06** `C06_rows_delivered_twice`: the conflict check of the job output looks only at streams
   that are still in the `SelectAll`; a stream that has ended has been dropped from it, so the
   output of a later attempt of the same task is appended to the rows already delivered.
3. **C07** `C07_failed_job_ends_canceled`, `C07_repeated_clean_up_cancels_succeeded_job`: clean-up
   turns a failed job into a canceled one; a second clean-up cancels a succeeded job.
4. **C10** `C10_initial_workers_are_not_counted`: workers started at activation are not counted as
   requested, so `worker_max_count` can be exceeded.
5. **C11** `C11_sliced_region_asks_for_unused_slots`: empty task sets of sliced regions ask for slots.
6. **C14** `C14_union_with_driver_stage_rejected`: a driver-placed stage below a union is rejected.
7. **C15** `C15_rescale_union_loses_input`: the coalesced input range is computed against the
   partition count of the union, so partitions of the union's inputs are not read.
8. **C20** `C20_removed_output_is_read_again`: the storage output of a stage is removed when its
   consumers have succeeded, but a consumer may be re-run as part of its region.
9. **C33** `C33_timed_out_attempt_is_dispatched`, `C33_failed_job_is_dispatched`: nothing removes the
   region of a failed attempt from the queue, so it is dispatched later.
10. **C34** `C34_failed_producer_looks_complete`: aborting an in-memory stream drops its senders
    without sending an error; the consumer sees a regular end of stream.
11. **C36** `C36_idle_worker_is_never_stopped`: idle probes are only scheduled by activity. If the probe of the
    last activity arrives while the worker is busy, none is scheduled when the work ends (unless a clean-up of
    local streams is sent to the worker), so the worker is never released.
12. **C24** (crates/sail-logical-plan/src/range.rs, `RangeIterator`): `Range::partition` replaces the exclusive end by the first value after the last row and truncates it to 64 bits (`as i64`), so if that value overflows the wrapped end lies before the start and the partition is empty; `range(2^63-2, 2^63-1, 10)` yields no row although it should yield one. Witness: `C24_unrepresentable_end_loses_rows`.
13. **C28** (crates/sail-common-datafusion/src/streaming/event/encoding.rs): a stream whose data has no column (e.g. the input of a streaming `count(*)`) is encoded, but decoding builds the data batch with `RecordBatch::try_new`, which fails for zero columns. Witness: `C28_no_column_fails`.
14. **C44** `C44_overflow_accepted`: `z85_decode` accepts five-character groups whose value exceeds 2^32-1 and drops the high bits, so that damaged text such as `#####` decodes to bytes instead of being refused, and two different texts decode to the same bytes. The encoder never produces such text.
15. **C39** `C39_time_travel_below_hint_fails`: when a version older than `_last_checkpoint` is read, the listing starts one
   version before the requested one, so the checkpoint and the commits it needs are not seen and loading
   fails with a contiguity error although no file is missing.
16. **C47** `C47_old_timeout_fails_new_reader`: the probe scheduled for a stream that was removed meanwhile is not
   cancelled; it fails a later reader of the same stream before that reader has waited for the time-out.
17. **C34** `C34_removed_output_looks_empty`: removing the streams of a stage or job ends the channels of readers that
   still wait for them without an error, so they see a complete, empty input.
18. **C38 (removed domains).** A log compaction leaves out removals of domain metadata, so a domain set before the compacted range comes back (`C38_compaction_revives_domain`).
19. **C38 (old tombstones).** A log compaction leaves out expired tombstones even when the file was added before the range, so the file comes back (`C38_compaction_revives_file`).
20. **C38 (alignment).** A compaction that begins right after a checkpoint and is followed by a commit is skipped by replay: files added in its range are not seen (`C38_compaction_after_checkpoint_is_skipped`).
21. **C41 (gaps).** The query plan does not check the selected log files for gaps; below the checkpoint hint it silently reads a subset of the files while the driver reports an error (`C41_gap_is_not_noticed`).
22. **C41 (order within a commit).** A commit adding and then removing one file: gone for the driver, present for the plan (`C41_order_within_commit_is_lost`).
23. **C42 (empty table).** An overwrite that finds no file to remove is classified as a blind append and retried after conflicts, so two concurrent overwrites of an empty table both succeed and the result is their union (`C42_overwrites_of_empty_table_add_up`).
24. **C42 (creation).** A writer that wanted to create a table but lost the race appends its files to the table of the winner if the schema matches, whatever its save mode was (`C42_second_creation_appends`).
25. **C42 (reading appends).** An append without predicate counts as blind even if its rows were computed from the table itself; it does not conflict with a deletion of those rows (`C42_append_does_not_notice_delete`). The isolation level has no effect: only `Merge` reads the whole table, and it is never retried; the downgrade test is false whenever the winner has commit info.
26. **C43 (compacted log).** The time of a version read through a compacted log file is the modification time of that file, not the recorded timestamp, so the next recorded timestamp can be smaller (`C43_compacted_log_time`).
27. **C48 (casts).** Filters are matched through casts of the column (`strip` in pruning.rs), so `WHERE id > -3000000000` on an INT partition column compares a long with ints by the order of their types and reads no file (`C48_casts_hide_matching_rows`); `CAST(ts AS DATE) = d` on a table partitioned by month(ts) takes days for microseconds (`C48_casts_to_date_hide_matching_rows`).
28. **C48 (column bounds).** `IcebergPruningStats::contained` answers that a file does not contain a value unless both bounds equal it, so equality and IN on a partition source column skip files whose bounds differ (`C48_bounds_hide_matching_rows`). Files written by this code have no bounds; those of other engines do.
29. **C48 (decimals).** Decimals are not truncated, and are hashed over other bytes than the specification says, so partitions of other engines are skipped (`C48_truncated_decimals_hide_matching_rows`).
30. **C49.** year and month of dates before 1970 panic (`C49_dates_before_1970_panic`); decimals (`C49_decimals_are_not_truncated`, `C49_decimals_are_hashed_otherwise`); void passes the value on (`C49_void_is_not_null`); truncation wraps at the lower end of the range (`C49_ends_of_ranges`).
31. **C51.** A table cannot be read after the column of an equality delete file was dropped or its type was promoted (`C51_dropped_key_column_fails`, `C51_promoted_key_column_fails`); the specification asks for the deletes to be applied still.
32. **C52.** LIMIT counts rows as written, before deletes, so `LIMIT n` can return too few rows (`C52_deletes_leave_too_few_rows`); and a filter that is exact only for newer partition specs is pushed down with the limit (`C52_partition_evolution_leaves_too_few_rows`).
33. **C55 (mixed manifests).** A reader advances the inherited row id also past files that carry their own first row id (provider.rs:358-363); the format counts only files without one, so for manifests of other writers that mix both the ids differ (`C55_mixed_manifests_differ`).
34. **C57 (first snapshot).** The first snapshot of a path table is written with a plain put and no check (bootstrap.rs:72-109): two concurrent first inserts into a table made by CREATE TABLE both succeed and one is lost (`C57_first_snapshots_overwrite_each_other`), and a slow one undoes later commits too (`C57_first_snapshot_undoes_later_commits`). The same holds for the creation (`C57_creations_overwrite_each_other`).
35. **C57 (recorded path tables).** For a path table recorded in the session catalog, the location expected at the update of the catalog is read once, before the retries (commit_exec.rs:606-611, 1212-1221): a commit that had to retry is written and visible, and then reports a conflict error (`C57_recorded_table_reports_error_for_committed`). Repeating the statement doubles its rows.
36. **C58 (lost hint).** The version hint is written best effort and then followed blindly. If one write of it fails (or the writer dies before), the commit is invisible (`C58_lost_hint_hides_commit`), and since every later writer starts from the hinted version and finds the next one taken, no commit to the table succeeds ever again (`C58_lost_hint_blocks_the_table`).
37. **C58 (no hint file).** In a table without a hint file the slower of two writers sets the hint back, hiding a commit that returned (`C58_missing_hint_hides_commit`), with the same consequence.
38. **C59 (creation).** The creation of a catalog table has no expected location: two concurrent ones both succeed and one is lost (`C59_creations_overwrite_each_other`).
39. **C59 (leftover).** A metadata file left by a writer that died before the update of the catalog (or by a failed update) makes every later writer believe in a conflict: no commit succeeds ever again (`C59_leftover_blocks_the_table`).
40. **C60 (replay buffer).** The buffer of a reattachable operation holds 128 responses and drops the oldest when it is full, also when the client has not received them (executor.rs, `ExecutorBuffer::add`). After a reattach such responses are skipped silently and the completion marker is still sent (`C60_full_buffer_loses_rows`). Spark keeps responses until they are released and reports an error when one is gone.
41. **C60 (resumed stream).** After a resume the schema response is sent again, and a query that had produced no row in the resumed part sends one more empty batch. Harmless to clients: the rows are the same.
42. **C61 (finished task).** When the task of an operation has finished, a reattach request is answered with "task context not found", although responses that the client has not read are still in the replay buffer (`C61_finished_task_cannot_be_resumed`, `C61_last_responses_are_lost`). The window is every disconnect after the last response was handed to the transport, which for small results is the whole time the client reads.
43. **C61 (failed task).** The error of a task that fails while the client is away is not replayed; a later reattach gets a generic failure. Results that do not come from an executor (SQL command results, streaming query commands) are not registered as operations and cannot be reattached at all.
44. **A second operation with the same id stops the first (C62).** `add_executor` replaces the table entry, so a running operation with the same operation id is dropped and stopped without an error to its client; Spark refuses the second operation. Proved: `C62_same_id_stops_the_earlier`.
45. **Operations that are still being planned cannot be interrupted (C62).** An operation enters the table only when its plan has been made; an interrupt before that does not see it. Proved: `C62_planning_escapes_interrupts`.
46. **A session is found by its id alone (C63).** `get_or_create_session` looks sessions up by session id and ignores the user id once the session exists, so another user who names the id gets the session (Spark keys sessions by user and id). Proved: `C63_other_user_gets_the_session`. Also: an error of the session factory leaves a failed session, so the id is refused for ever, while an error of the runner factory leaves nothing (`C63_failed_creation`).
47. **Keys that are not modifiable can be set (C64).** `is_modifiable` is false for static keys and unknown keys, but `set` checks only for removed keys. Proved: `C64_not_modifiable_can_be_set`. A set request with several pairs that fails leaves the pairs before the failing one set (`C64_failed_set_is_not_undone`); a known key whose fallback key is not in the table cannot be read with `get` (`C64_dangling_fallback_is_an_error`; e.g. `spark.sql.execution.pandas.udf.buffer.size` falls back to `spark.buffer.size`, which is not in the table).
48. **A streaming query whose task panics stays active for ever (C65).** The last line of `StreamingQuery::run` is not reached, so the listing and the status say active, while waiting for it reports termination (the closed channel is taken for termination). Proved: `C65_panicked_query_stays_active`. An error in the stream does not end the query either, the loop goes on (`C65_exception_is_the_last_error`).
49. **Waiting for any streaming query gives up at once if there is none (C65).** Without a timeout, `awaitAnyTermination` answers false at once if no query was started or all were reset; Spark waits. Proved: `C65_await_any_gives_up`.
50. **floor of NaN and of negative zero, and hidden errors (C66).** Filters on `floor(x)` are rewritten to filters on x. The rewritten `floor(x) = 0` loses NaN (whose floor is 0 here) and the rewritten `floor(x) > 5` lets it pass (`C66_floor_nan`); the rewritten `floor(x) = 0` loses -0.0 and `floor(x) = -1` lets it pass (`C66_floor_negative_zero`), because the comparison kernels order -0.0 below 0.0. A date whose year cannot be computed makes the query fail, but not when the filter is rewritten (`C66_year_out_of_range`).
51. **Descending temporal sequences pass the stop (C68).** A descending sequence may contain the timestamp one microsecond past the stop (`C68_descending_overshoots`), and with a step of a day and a microsecond a date past the stop (`C68_descending_dates_overshoot`); Spark does the same. A sequence ending at the largest timestamp is empty (`C68_last_timestamp`), and a multiple of the step beyond 64 bits wraps around (`C68_wrapped_multiples`).
52. **LIKE with a wildcard as escape character, and with a stray backslash (C70).** A `%` that is the escape character and escapes nothing stays a wildcard (`C70_wildcard_escape`); a backslash that escapes nothing vanishes when it is the escape character (`C70_stray_backslash`). Spark rejects such patterns.
53. **conv (C71).** The least 64-bit number prints as `-?000000000000000` in base 16 (`C71_conv_least`); a NULL literal is converted as the text NULL (`C71_conv_null_literal`); an integer column ignores the source base while an integer literal does not (`C71_conv_integers`).
54. **try_avg depends on the order of the rows (C72).** The sum is checked against the result type after every row, so rows whose sum fits may still answer NULL when an intermediate sum does not: `C72_try_avg_null` (order of the rows), `C72_try_avg_spread` (partitions).
55. **try_avg of decimals loses the fraction (C73).** The result type keeps the scale of the input where Spark adds four digits, and the quotient is truncated: the average of 1 and 2 is 1 (`C73_try_avg_scale`).
56. **mode and percentile of NaN (C72).** With NaN among doubles the comparison used for sorting is not an order, so the answer depends on the iteration order of a hash map (`C72_mode_nan`, `C72_percentile_nan`).
57. **histogram_numeric depends on the partitions (C73).** Equal values from two partitions stay in two bins with the same centre (`C73_histogram_spread`); the function is documented as approximate.
58. **An equality beside a null-safe key is dropped (C75).** `a JOIN b ON a.x <=> b.x AND a.x = b.x` joined with a third table: the residual filter `a.x = b.x` is taken for the join key, which is null-safe, and removed, so rows with NULL keys appear once the tree is reordered (`C75_null_safe_key_swallows_equality`). DataFusion may simplify such filters before; the rule itself does not check.
59. **Infinite estimates (C76).** If the estimate of a join overflows to infinity but that of a cross product does not, the greedy fallback prefers the cross product although a predicate connects the inputs, the consistency check fails and the plan is kept as written (`C76_infinite_estimates_fail_the_check`).
60. **C77: a NOT MATCHED BY SOURCE clause without a MATCHED clause can duplicate rows.** The cardinality of matches is checked only if there is a MATCHED clause (merge.rs:1466-1479), but the full outer join emits a target row once per matching source row, each as a Copy row. If the file of that row is rewritten because another of its rows is changed, the row is written as many times as it matches (`C77_row_written_twice`).
61. **C77, C78: the source query is evaluated several times.** The inserted rows, the rewritten rows, the touched files of the writer and the removed files are separate plans over the same source (op_merge.rs:105-164, 376-446). With a source that is not deterministic a file can be removed whose rows are not written again (`C77_source_read_twice_loses_rows`), and with deletion vectors the hidden rows need not fit the inserted ones (`C78_source_read_twice`). Iceberg runs one plan.
62. **C78: UPDATE clauses are refused on Delta tables with deletion vectors**, whatever the rows are (op_merge.rs:199-230; `C78_updates_refused`).
63. **C79: the check ignores the conditions of the clauses.** A target row with two matches fails the statement also if no MATCHED clause, or only one for one of the pairs, has a true condition. Spark counts only the pairs that a clause applies to. The theorem states the code's behaviour: it is stricter, never ambiguous.
64. **C81: an unqualified name that occurs in both tables means the target column.** `merge_disambiguate_unqualified_plan_ids` (sail-plan/src/resolver/command/merge.rs:1398-1410) prefers the target, so `ON id = id` compares the target with itself and matches every pair of rows with a non-NULL id (`C81_ambiguous_name_means_target`). Spark reports an ambiguous reference.
65. **C81: renaming goes by names that a user can choose.** The rename maps have internal identifiers and user-visible names as keys of one map: a source column called `#2` captures references to the column with that identifier (`C81_name_like_identifier_reads_other_column`), and two source columns of the same name get the same alias, so that the plan is refused (`C81_equal_source_names_clash`).
66. **C82: a lone DELETE counts a row once per match.** Without the cardinality check, a target row with two matches is two rows of the writer's input, and both are counted as deleted (`C82_deleted_row_counted_twice`).
67. **ALTER TABLE … UNSET TBLPROPERTIES is not atomic in the in-memory catalog.** `alter_table` (`sail-catalog-memory/src/provider.rs:357-368`) removes the keys one by one and returns an error at the first missing key; the keys before it stay removed (`C83_failed_unset_removes_property`).
68. **CREATE VIEW beside a table succeeds and the view cannot be read.** `create_view` looks only at the map of views, `get_table_or_view` tries the table first. `CREATE OR REPLACE TABLE` over a view has the same effect (`C83_view_beside_table`, `C84_view_behind_table`).
69. **SHOW DATABASES IN catalog.namespace looks in the default catalog.** `resolve_optional_database_reference` (`sail-catalog/src/manager/mod.rs:166-185`) treats the first part as a catalog only when it is the only part; all other statements treat it as a catalog whenever it is one. `USE catalog.namespace` looks up the whole name in the default catalog (`C84_catalog_ignored`).
70. **SHOW FUNCTIONS and DESCRIBE FUNCTION disagree on a user function named like a system function.** The sort is stable with the system functions first and the deduplication keeps the first, while the lookup prefers the user function (`C86_listing_and_description_disagree`).
71. **A commit can be lost when a table has the metadata location under both spellings.** The update uses the first property with either key, readers prefer `metadata-location`; the precondition check reads the same value as readers, so commits keep succeeding without effect. The first commit of a table without metadata is not checked at all (`C87_two_keys_lose_commit`, `C87_first_commits_both_succeed`).
72. **C84: USE CATALOG keeps the default database.** `set_default_catalog` (`sail-catalog/src/manager/catalog.rs:14-26`) changes only the catalog, so unqualified names may then lie in a database that does not exist (`C84_use_catalog_keeps_database`).
73. **C84: CREATE TABLE looks at temporary views.** The check before CREATE TABLE uses the same lookup as queries (`command.rs:734-757`), so a temporary view makes CREATE TABLE IF NOT EXISTS do nothing and CREATE TABLE fail, although no table has the name (`C84_temp_blocks_table`). A table created in a database called like the global temporary database cannot be read (`C84_table_in_global_database`).
74. **C85: caches of sessions do not notice changes of other sessions.** With the cache type `session` every session has caches of its own in front of a shared catalog (`cache.rs:72-130`), so listings stay stale until they expire; without a time to live they never do (`C85_other_session_stale`). Also with shared caches a listing that overlaps with a change can be stored after it (`C85_overlap_stale`), and a failed change with a partial effect removes nothing (`C85_partial_failure_stale`).
75. **Dollar quoting changes what a quoted text can do (C88, C91).** Any text between two dollar signs is taken as the tag of a dollar quoted string when it occurs again later, even if the first dollar sign belongs to a variable `$x` and the second is inside of a quoted string. With `$x||'$',$x||'$',' OR a --'` the contents of the last literal are read as SQL (`C88_dollar_swallows`). PostgreSQL restricts tags to identifiers; Spark has no dollar quoted strings with arbitrary tags.
76. **`?AS x` is one parameter named `1AS` (C91).** Markers are rewritten to `$1` without a separator, so a marker directly followed by a word takes the word as part of its name (`C91_marker_before_word`), and a string with a dollar sign and a digit can make a marker start a dollar quoted string (`C91_dollar_digit_swallows`).
77. **C90: an integer of 39 to 76 digits is divided by a power of ten.** The decimal point in `DECIMAL_REGEX` (`sail-sql-analyzer/src/literal/numeric.rs:18-20`) is optional while the whole part has at most 38 digits, so the digits after the 38th become the fraction (`C90_integer_split`). A unit test in the same file expects this result.
78. **C90: a decimal with a large exponent crashes.** The width is an `i8` sum that wraps around to a negative number, which becomes a huge format width (`C90_decimal_crash` gives the exact condition; an example is 38 digits, a point, 38 digits and `e114BD`).
79. **C90: the smallest values of the integer types cannot be written with a suffix.** The sign is an operator, so `-128Y`, `-32768S` and `-9223372036854775808L` are errors (`C90_smallest_refused`); Spark accepts them. `1.5L` is read as `1.` followed by the word `5L`, that is, as the number one with the alias `5L` (`C90_suffix_after_point`).
80. **The negated smallest number in an interval keeps its sign.** `parse_signed_value` negates a parsed `i32` or `i64` with a plain minus, which wraps in a release build: `-'-2147483648' MONTH 1 DAY` is −2147483648 months (`C93_negated_minimum`, for any number of minus signs).
81. **The smallest interval cannot be written in the standard form.** `'-178956970-8' YEAR TO MONTH` is −2147483648 months in Spark; here the absolute value must fit, so it is an error (`C93_smallest_refused`). The several-unit form accepts it.
82. **Fields are not bounded.** Spark refuses `'1-13' YEAR TO MONTH` and `'1 24:00:00' DAY TO SECOND`; here a field can be any number and the total counts (`C93_standard`).
83. **Seconds next to other units have 32 bits.** `5000000000 SECONDS` is accepted, `5000000000 SECONDS 1 DAY` is an error (hypothesis of `C93_multi_fits`; `decimalSecond`).
84. **The time literal 23:59:60 is 23:59:59.** The leap second is stored with the nanoseconds above one second, and the value reads only the nanoseconds of the second (`C94_time_leap`); in a timestamp it is the next midnight.
85. **A timestamp can stop the thread.** `TIMESTAMP '262142-12-31 23:59:60'` adds a second to the last date time of the library, which panics (`C94_timestamp_crash`).
86. **Dates and times accept other texts than Spark.** `DATE '2020-01-01T00:00'` is an error here and a date in Spark; `TIME '12.5'` is 12:00:00.5 here (`C94_date`, `C94_time`).
87. **Digits that are too many become a time zone.** `2020-01-01 123` is twelve o'clock in the zone `3`, and the tenth digit of a fraction is a zone as well. SQL then refuses the zone, but a default value of an Iceberg column of type timestamp ignores it (`values.rs:197-205`), so the text is accepted there (`C94_digits_left_as_zone`).
88. **A day less a millisecond is shown as a day and a millisecond.** The formatter of intervals of days and milliseconds shows absolute values of the parts of the milliseconds and takes the sign from the days only (`C96_mixed_signs_shown_alike`); with one sign it is right (`C96_day_time_one_sign`).
89. **Nanoseconds of a duration are shown but not read.** `C96_nanoseconds_cut`.
90. **C92: NOT and predicates can be operands where Spark refuses them.** The table has one level for all predicates and lets a prefix operator be the right operand of a tighter operator, so `a + NOT b` is `a + (NOT b)` and predicates chain. The tests IS NULL, IS TRUE and so on bind tighter than the AND of BETWEEN only on their own side: `x BETWEEN 1 AND 2 IS NULL` tests the upper bound, not the predicate (`C92_iff` describes all of these: what is read is what needs no parentheses by the table).
91. **C95: the text of a schema with one column called `unsigned` of an integer type reads as an unsigned integer.** The reader tries the text as a type before it tries it as columns (`C95_unsigned`; `C95_schema` shows that there is no other such schema).
92. **C95: some schemas have texts that cannot be read or mean something else.** `decimal` without parameters is printed as `DECIMAL(?,?)` (`C95_decimal_default`), geometries are printed without their number (`C95_geometry_refused`), a schema without columns is refused (`C95_empty`). `interval year` of a JSON schema lasts from years to months but its text is of years only, and an interval without fields is printed as a calendar interval (`C95_interval_default`). `TIMESTAMP` is a timestamp with local time zone in the protocol and a timestamp of the configured kind in a text.
93. **C97, buffers that end between CR and LF.** `RecordDecoder::decode` looks for the LF of a CRLF only in the same buffer (`reader.rs:378-383`). If a buffer ends in CR and the next begins with LF, the line ends at the CR and the LF ends a second, empty line. Local files are read through buffers of 8 KiB, so a CRLF file of some size gets spurious empty rows. Witness `C97_crlf_split`.
94. **C97, rows that are not text.** `RecordDecoder::flush` checks the bytes of all rows in one piece, without the separators, and `StringRecords` then cuts them with `get_unchecked`. The bytes C3 0A A9 pass, and give two rows that are not valid UTF-8, which is undefined behaviour for `str`. Witness `C97_not_text`.
95. **C97, whole text.** With a batch size of one, `Decoder::decode` reads nothing more after the first buffer and the file becomes one row for each buffer (`C97_whole_batch_one`). An empty file has no row. `TextSource` leaves `supports_repartitioning` at its default, so byte ranges may also cut a large file in whole-text mode; that is DataFusion's part and not modelled.
96. **C99: asterisks that meet in an expansion.** `/{a*,b}*` is expanded to `/a**` and `/b*`; the `glob` crate refuses the first, so that a valid pattern is an error (`C99_asterisks`).
97. **C99: downward ranges.** A class such as `[!- ]` has no characters, but is expanded to the empty text and then matches the directory itself (`C99_empty_class`).
98. **C99: relative patterns.** A path whose first component has a wildcard (`part-*.csv`) is refused because the part before it is empty (`C99_relative`).
99. **C103** `C103_failed_commit`: when committing the files of a shuffle fails, the shuffle stays marked as ended by all its mappers. A mapper that reports its end again is told that the end was recorded, and nothing is ever committed.
100. **C103** `C103_second_attempt`: an attempt that reports the end of its mapper while the commit is under way is told at once that the end was recorded; the commit may fail afterwards.
101. **C104** `C104_stop_loses`: stopping the lifecycle manager sends no last heartbeat, so what tasks reported since the last one never reaches the master.
102. **C105** `C105_drop_wedges`: when the future of a call is dropped between its request and its reply (a reader that stops early, as under LIMIT), the reply stays in the connection. A reply of another request is an error but does not reset the connection, so every later call on it fails, though the server answers each (`transport.rs:375-405`).
103. **C107** `C107_reads_more`: the reader ignores the map, attempt and batch ids of the batch header, aborting a writer does nothing, and the shuffle id belongs to the stage rather than to an attempt; so batches of failed or superseded attempts are read as well.
104. **C107** `C107_late_answer`: a push whose answer is late is repeated at the revived location although the worker stored it, and both copies are read.
105. **C108** `C108_split_on_retry`: a worker that takes a repeated push and asks for a split is reported to the writer as a failure; the first push is treated as taken in the same case.
106. **C110, checksums of other writers.** The lists of transactions and of domain metadata in a version checksum are optional, and a writer that does not track them leaves them out. `build_incremental_checksum` (transaction/mod.rs:1833-1855) and `validate_and_build_header` (segment.rs:365-376) take a missing list to be an empty one. After such a checksum, the checksum of the next commit states that there are no transactions and no domains, and a table opened through it has forgotten them: an idempotent write is then applied again (`C110_unknown_lists_refuted`).
107. **C110, first commit.** For version 0 the lists of the commit are taken as they are: a domain that is set and removed in the same commit stays in the checksum, and an application named twice is listed twice (`C110_first_commit_refuted`). Later versions merge by name.
108. **C110, files added again.** The incremental count adds one for every `add` action, also for a path that is in the table already, which the log protocol allows (`C110_added_again_refuted`).
109. **C112: changing a column to a struct under column mapping leaves the nested columns unmapped.** `merge_column_mapping` (mapping.rs:203) keeps the candidate type as it is when the kinds differ, so with `overwriteSchema` the nested columns have no `delta.columnMapping.id` and no physical name, then or ever after. Proved as `C112_kind_change_refuted`.
110. **C112: a new column that carries another table's mapping keys takes over an existing column.** Matching is by id first, and field metadata of the written data flows into the candidate schema, so two columns end with the same id and physical name. Proved as `C112_foreign_keys_refuted`.
111. **C113: overwriting a widened column makes the table unreadable.** With column mapping, `evolve_schema` keeps the old `delta.typeChanges` of a column whose type is overwritten, and opening the table then fails because the latest recorded change does not lead to the schema's type. Proved as `C113_stale_record_refuted`.
112. **C113: date to timestamp is not lossless.** The accepted change from `date` to `timestamp_ntz` covers `i32` days whose microseconds do not fit an `i64`. Proved as `C113_date_refuted`; the Delta protocol itself allows the change.
113. **A reservation that is under way when the Celeborn lifecycle manager stops is not released.** `handle_stop` (`crates/sail-celeborn/src/lifecycle/actor/handler.rs:567-592`) lists the registered shuffles when the request arrives. A reservation that the master grants afterwards is not in the list: if it ends before `StopComplete` its callers are told the slots, if it ends later its message is dropped; in both cases the shuffle stays registered at the master until the application times out there (`C116_stop_leaks`).
114. **DELETE with a condition on partition columns only can delete the whole table (C119).** Such a condition is decided per file by the rewritten predicate (`crates/sail-delta-lake/src/physical_plan/planner/op_delete.rs:59`), and the files are dropped without reading them. The rewriter turns every expression it does not know into TRUE (`metadata_predicate.rs:140-194`): LIKE, NOT, arithmetic, functions, a comparison of two columns, a boolean column by itself. `DELETE FROM t WHERE q LIKE 'a%'` on a table partitioned by q then removes all files. Witness: `C119_partition_condition_deletes_everything`.
115. **DELETE with deletion vectors reads partition columns as NULL (C119).** `scan_file_for_matching_rows` (`crates/sail-delta-lake/src/physical_plan/dv_writer_exec.rs:876-954`) reads the data file with the schema of the table but without its partition values, so `p = 1 AND x = 8` deletes nothing and `p IS NULL OR x = 8` deletes every row of a file that is chosen. Witness: `C119_deletion_vectors_mixed_condition`.
116. **replaceWhere loses rows for which the condition is null (C120).** The old rows of a file that is touched are kept where NOT c is true (`crates/sail-delta-lake/src/physical_plan/planner/op_write.rs:345-347`), while DELETE uses IS NOT TRUE. Witness: `C120_null_condition_loses_rows`. Conditions on partition columns that the rewriter does not know lose every old row: `C120_partition_condition_replaces_everything`.
117. **Filters reported as exact are not enforced (C118).** `expr_is_exact_predicate_for_cols` accepts more shapes than the rewriter does, so the engine drops filters that only the rewriter's TRUE stands for. Witness: `C118_exact_filters_not_enforced`. A scan with a loaded file list goes through the engine's pruning instead, which is not modelled.
118. **The empty text as a partition value is NULL in rows and a text in the log (C117, C118).** `parse_partition_value` reads it as NULL (`crates/sail-delta-lake/src/conversion/scalar.rs:537-540`), the metadata row has the text. `q IS NULL` skips the file and `q < 'a'` returns its rows. Witnesses: `C117_null_check_misses_a_file`, `C118_empty_text_not_enforced`.
119. **C121** `C121_group_without_bounds`, `C121_nanoseconds_before_1970`, `C121_missing_null_count`: a row group without bounds is passed over when the statistics of a file are added up, so the bounds of the other groups are recorded although they leave out its values. This is so for a group of nothing but NaN, for which the Parquet writer records none, and NaN is greater than every number for Spark; and for nanoseconds before 1970, whose bounds cannot be read.
120. **C121** `C121_map_overwrites_null_count`: the null count of the keys and values of a map column is recorded under `key` and `value`, the last part of the path, and replaces the null count of a column of that name that comes before the map. A search for nulls in that column passes the file over.
121. **C121** `C121_map_makes_the_write_fail`: if a struct column called `value` or `key` comes after a map column, collecting the statistics reaches `unreachable!` and the write panics.
122. **C122** `C122_negative_fraction`: a negative decimal partition value with a fraction is written with a second sign, `-1.50` as `-1.-50` and `-0.05` as `0.-5`, which is no number.
123. **C122** `C122_binary`, `C122_null_texts`: a binary partition value is written with escapes that reading does not undo, so it comes back six times as long; an empty text comes back as null.
124. **C123** `C123_not_like_is_empty`: `c NOT LIKE 'p%'` over a Python data source is pushed as the filter 'starts with p', so a reader that applies its filters leaves nothing of the answer.
125. **C123** `C123_rows_lost`: `ILIKE`, `_` in a prefix or suffix pattern and an escaped `%` are pushed as if they were plain text, and a cast around the column is dropped; each loses rows of the answer.
126. **C124** `C124_panic_is_end_of_data`: a panic while polling the input of a partition closes the channel to the Python writer, which takes it for the end of the data; the partial write is committed and the query succeeds.
127. **C125** `C125_batch_overtakes_tuples`: a reader that yields both tuples and record batches has its rows reordered.
128. **Maps from a cut batch (C127).** `map_deduplicate_keys` (`crates/sail-function/src/scalar/map/utils.rs`) builds a mask with one flag per value spanned by the rows and applies it to the whole buffer of keys, so that for a column that was cut out of a larger batch (a `LIMIT … OFFSET`, a `slice` by an operator) the keys come from the start of the buffer while the values, taken by absolute index, are right: map_from_arrays pairs another row's keys with this row's values. `C127_cut_batch` is a witness.
129. **array_compact on a cut batch (C128).** The same mask without the offset of the first row (`crates/sail-function/src/scalar/array/spark_array_compact.rs` 91-121): elements of rows that are not in the batch are returned.
130. **array_min and array_max (C129).** Both read the values between the offsets without looking at the validity of the row, and `concat` of arrays makes rows that are NULL with values behind them (`nullif`), so that `array_min(concat(a, NULL))` is the minimum of `a` instead of NULL. On a batch without rows `ScalarValue::iter_to_array` fails.
131. **array_insert with a NULL position (C133).** The CASE that turns the position into an index has no ELSE, and its NULL is taken for position 0: the query fails with the error for index 0 (`crates/sail-plan/src/function/scalar/array.rs` 177-198). The repository's feature file marks the case as rejected by Sail.
132. **arrays_overlap of an empty array (C133).** `arrays_overlap(array(), array(NULL))` is NULL; Spark gives FALSE because an empty array overlaps with nothing.
133. **array_contains with NULLs (C133).** `coalesce(array_has(a, x), FALSE)` answers FALSE where Spark answers NULL: for an element that is missing from an array with a NULL, and for a NULL element.
134. **slice from the end (C133).** slice(a, s, n) is planned as array_slice(a, s, s + n - 1); with a negative `s` and a length that passes the end, `s + n - 1` is 0 or positive and is read as a position from the front, so that `slice(array(1,2,3), -1, 2)` is empty instead of `[3]`. Start 0 and negative lengths give an array instead of an error.
135. **get below -1 (C133).** `get(a, i)` is planned as array_element(a, i + 1), which counts from the end when negative: `get(a, -2)` is the last element, Spark gives NULL.
136. **C135, deletion vectors in locations with escaped characters.** `DeletionVectorWriter::write` (deletion_vector/storage.rs:185-191) turns the path of the table URL into an object store path, prints it, and parses the result again with `Path::from`, which escapes `%` a second time; `read_deletion_vector` (storage.rs:45) parses the URL path once. For a table whose URL path contains an escape (a space is `%20`) the vector is written to `my%252520table/...` and looked for at `my%2520table/...`, so every scan after the MERGE or DELETE fails. `C135_escaped_location_fails` proves it for every such location, with a witness.
137. **C135, sizes of 2 GiB and more.** The size of a vector is recorded as `len() as i32` (storage.rs:168), which is negative from 2 GiB on; the reader refuses a negative size, so such a vector is written and can never be read (`C135_large_refused`).
138. **try_mod of the least number by -1 is NULL (C137).** `checked_rem` reports an overflow for it, although the remainder is 0 (`C137_mod_least`).
139. **try_subtract of calendar intervals negates the right side with wrap-around (C137).** Subtracting the least number of months from a number that is not negative gives a result of the wrong sign instead of NULL, and from a negative one gives NULL although the difference can be represented (`C137_subtract_least_month`).
140. **try_multiply of a year-month interval by a bigint above 32 bits is NULL even if the product is in range (C137).** This concerns zero months, and minus one month times 2^31 (`C137_multiply_months_large`).
141. **try_mod of decimals is NULL if a value overflows 128 bits at the larger scale (C137),** although the remainder is smaller than the divisor and may be representable (`C137_mod_decimal_null`).
142. **div of calendar intervals wraps around (C138).** From 3559 months on the nanoseconds do not fit 64 bits: 3559 months div 1 month is -3557 (`C138_calendar_wraps`).
143. **C139: STRICT store assignment accepts decimals that do not fit.** decimal(19,0) is accepted for bigint (`C139_strict_decimal_bigint`; Spark's rule has the same gap), and a decimal is accepted for an unsigned integer although it can be negative (`C139_strict_decimal_unsigned`).
144. **C142: after two columns have swapped names, a field access can read NULL from old files.** schema_evolution.rs:158-170 rewrites bottom-up, so by the time `try_rewrite_struct_field_access` (196-262) sees `get_field(column, 'x')` the column already has its name in the file, but line 226 looks that name up in the schema of the table. Iceberg tables (matched by field id, with the same metadata key in both schemas) reach this: table `a: struct<x>` and `b: struct<y, x>`, file written when they were called `b` and `a` and the second had no `x`; `a.x` becomes a NULL literal for all rows of the file (`C142_swapped_names`).
145. **C142: a required column that is missing in a file is read as zero.** schema_evolution.rs:133-143 uses `ScalarValue::new_zero` for a column that may not be NULL, so an added required bigint reads 0 from old files, while the same field inside a struct is refused with an error (`C142_missing_required`, `C141_missing_required`).
146. **C141: a column of type Null passes the check for a list and then fails.** `can_cast_field_with_schema_evolution` (391-398) accepts a Null column for every nullable target, but `cast_array_with_schema_evolution_inner` (827-833) wants a `ListArray` and fails at run time; for structs the same column is read as NULLs (`C141_null_column`).
147. **C144: a list or map directly inside a list or map is not counted in the last column id.** `index_fields_recursive` (crates/sail-iceberg/src/spec/schema/mod.rs:200-230) looks into the element of a list, or the key and value of a map, only if it is a struct. CREATE TABLE with `a array<array<int>>` assigns the ids 1, 2, 3 but records `last-column-id` 2 (operations/bootstrap.rs:281), and the column that mergeSchema adds next gets the id 3 of the inner element (`C144_nested_list`). Columns are read by field id, so the metadata is ambiguous.
148. **C145: overwriteSchema leaves the id 0 on the fields of a struct that replaces a plain column.** `reuse_nested_ids_from_existing` (schema_evolution.rs:620-697) does nothing if the old and the new type are of different kinds, except inside maps, so the ids that `arrow_field_to_iceberg` gives when the input has none, all 0, stay in the schema (`C145_struct_over_plain`). `CREATE TABLE` refuses the id 0 (table_format.rs:281), this path does not, and only for columns. Reading matches fields by id and takes the first, so `a.y` shows the values of `a.x`.
149. **C147: a checkpoint may be published after the session was stopped.** `insert` (crates/sail-cache/src/remote_checkpoint.rs:77-98) reads `closed` before it takes the lock, and `cleanup_session` sets `closed`, deletes the objects and clears the registry. A command that has read `closed` before may publish after the registry was cleared; its descriptor stays, its files are gone (`C147_late_publish`). Reading `closed` under the lock would exclude this. In local mode stopping the job runner only sets a flag (crates/sail-execution/src/job_runner.rs:73-75), so commands are running at this time.
150. **C147: the cleanup of one attempt deletes the files of another.** All attempts to commit a checkpoint share the path of the relation, and after an error `commit_checkpoint` (crates/sail-physical-plan/src/remote_checkpoint.rs:630-643) deletes everything below it. If the commit task runs twice, the second one finds the id taken, fails, and deletes the files of the published checkpoint (`C147_second_commit`); if the first one fails late, it deletes the files that the second one is writing, which are then published (`C147_overlapping_attempts`). The relation id itself is a new UUID for every command, so only repeated tasks are affected.
151. **C148, values of the rate source.** Every partition numbers its rows from 0, so with `numPartitions` above 1 every value is generated once per partition, where Spark numbers all rows consecutively (`C148_partitions_repeat`). With more partitions than `rowsPerSecond`, one row per partition is generated, although the option is described as a maximum (`C148_over_rate`). With more than 1000 rows per second in a partition the rows of a batch are rounded down, so 1999 gives 1000 (`C148_under_rate`). Without selected columns, as when counting rows, every batch is an error (`C148_no_columns`).
152. **C149, bytes of the wrong length.** Binary input counts as safe to write to a column of fixed size (`is_safe_write_cast`), and arrow's default cast makes values of another length NULL, so that appending them to an optional column `fixed(n)` loses them without an error (`C149_wrong_length`). Timestamps without time zone and with UTC count as the same type and keep their number, so a local timestamp is stored as if it were in UTC, whatever the time zone of the session (`C149_equivalent`).
153. **C150 (metadata and required columns).** Merging a column of the input into a column of the table builds the field again from name, type and nullability (type_promotion.rs:55-62, 187-189). Its metadata is not taken over, and without column mapping the new schema of the table is the merged one. So an append with `mergeSchema` removes the comments, defaults and generation expressions of all columns in the input, also when the input brings nothing new (`C150_nothing_new`). A new column is taken from the input as it is and stays required if it is required there (`C150_new_columns`), although the rows in the table have no value for it. A column `bigint` and an input `int` give `int`, because arrow can cast both ways, and the append is then refused as a change of type (`C150_narrow_input_refused`).
154. **C151 (withField on nested fields).** `update_nested_field_from_array` compares the fields of the outer struct with the last name of the path instead of its first (update_struct_field.rs:111-132), while the new type is made with the first. For `withField("a.b", v)` the inner struct is therefore taken over as it is. If `v` has the type of `b`, the call succeeds and nothing is changed (`C151_nested_wrong`); if not, or if `b` is new, it fails (`C151_nested_refused`). Other columns are looked up by name, so that of two fields with the same name the second gets the values of the first (`C151_duplicate_names`). Names are compared exactly, while Spark ignores case by default (`C151_case`, `C152_case`).
155. **C153 (draws repeat).** `Random` starts again from the seed in every batch of every partition (random.rs:69-72; the code has a TODO for it, sample.rs:191-195). The rows at the same place of all batches are therefore taken together or not at all (`C153_repeats`), and the sample for a seed depends on the cut into batches (`C153_cut`). `sampleBy` takes rows with `draw <= fraction` (stat.rs:585) where Spark has `<`, so a stratum with fraction 0 gives a row when the draw is 0 (`C153_by_zero`).
156. **C154, the case of names in withColumnsRenamed.** `resolve_query_with_columns_renamed` looks a column up in a hash map by its exact name (column_op.rs:112), so `withColumnsRenamed({'A': 'b'})` leaves a column `a` as it is. Spark compares the names with its resolver, which ignores the case by default. Proved as `C154_case`. If a client sends the same old name twice, the new name depends on the iteration order of a hash map (`C154_repeated`); Spark uses the first.
157. **C155, unionByName and columns that only the right side has.** Without `allowMissingColumns` the right side is projected to the columns of the left side (set_op.rs:101-103), and a further column on the right is lost without an error, while Spark refuses inputs with different numbers of columns. Proved as `C155_union_extra_dropped`. Spark also refuses repeated names; Sail takes the first column of the name for each of them (`C155_union_repeated`).
158. **C156, dropna with the threshold zero and unknown names.** `dropna(thresh=0)` is treated like `how='any'` (na.rs:144-154), so rows with a missing value are dropped, while in Spark every row has at least zero values and is kept. Proved as `C156_threshold_zero`. Names that are not columns are ignored by `dropna` and `fillna`, while Spark refuses them; with a threshold and only unknown names `dropna` drops every row (`C156_unknown_ignored`, `C156_fill_unknown_ignored`).
159. **C157, replace renames columns.** `resolve_query_replace` names the projected columns by the lower-cased names it compares with (column_op.rs:303 and column_op.rs:362), so `df.replace(1, 2)` turns a column `Id` into `id`, even if nothing is replaced. Spark keeps the names. Proved as `C157_replace_lower_case`.
160. **C157, the case of names in withColumns.** An existing column is looked up by its exact name (column_op.rs:226), so `withColumn('A', ...)` on a table with a column `a` adds a second column, which can then only be referred to ambiguously; Spark replaces `a`. Proved as `C157_with_columns_case`. A name that is given twice is refused by Spark, while Sail uses the later one (`C157_with_columns_repeated`).
161. **C158, tail runs the query twice.** `resolve_query_tail` counts the rows while the plan is made and computes the offset from it (limit.rs:86-105); if the input grows before the plan is run, the rows returned are not the last ones (`C158_grown`). A negative n becomes a negative fetch, which DataFusion refuses, while Spark returns no rows (`C158_negative`).
162. **C159, SQL UNPIVOT keeps NULLs and ignores aliases.** `resolve_query_unpivot` never reads `include_nulls`, so rows whose value is NULL are in the result of `UNPIVOT` without `INCLUDE NULLS`, which Spark leaves out (`C159_nulls_kept`). It does not read the alias of a value either (`C159_alias_ignored`), and several columns per value are treated as separate values under the first value name (pivoting.rs:349-353 and pivoting.rs:400, `C159_groups_flattened`). When as many ids as columns are given, unpivot is refused even if value columns are named (`C159_refused`).
163. **C160, crosstab loses NULLs of the second column.** `resolve_query_stat_cross_tab` makes a column for each valid distinct value only (stat.rs:369-375), so rows with NULL in the second column are in no count, while Spark counts them in a column `null`. Proved as `C160_null_lost`.
