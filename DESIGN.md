# Design

Formal model, in Lean 4, of ModelarDB-RS (`/repo`, pinned commit), and proofs of the
properties in `properties.jsonl`. This file says what is modelled, how each property is
proved, and what has to be trusted. It was written before the proofs and is kept up to date.

## Layout

| directory | content |
|---|---|
| `lean/Verif/Model/`  | the model: about one file per source file, definitions only. Every definition cites file and lines and says where it is simplified |
| `lean/Verif/Spec/`   | small specifications used in theorem statements, independent of the model's helpers |
| `lean/Verif/Lemmas/` | helper lemmas and invariants |
| `lean/Verif/Props/`  | about one file per property: the theorems named in `MANIFEST.json`, each with a concrete case that meets its hypotheses, and negations with concrete witnesses when the code violates the property |
| `seeded/LOG.jsonl`   | wrong programs that the theorems were tested against |

## Trusted base

* Lean 4.33.0's kernel. Axioms: at most `propext`, `Classical.choice` and `Quot.sound` for
  every theorem in the manifest (checked with `#print axioms`). No `sorry`, no own axioms, no
  `native_decide`, no `bv_decide`. Witnesses are evaluated with `decide`, most with
  `decide +kernel`, which uses only the kernel.
* That the definitions under `Model/` say what the cited Rust lines do. Nothing was executed;
  the translation was made by reading.
* Semantics assumed for things outside the repository, listed below.

### Assumptions about Rust and the machine

* Release profile of `/repo/Cargo.toml`: `panic = "abort"` and no overflow checks, so integer
  overflow wraps and shift counts are masked. Panics (`expect`, slices out of range,
  `step_by(0)`) are explicit error values in the model.
* IEEE-754 binary32 and binary64 with round-to-nearest-even, defined over the rational numbers
  in `Model/Float.lean` and compared with Lean's run-time floats on random operands.
  `f32::log2` is a parameter of the model.
* Mutexes, reader-writer locks and condition variables as documented; FIFO channels. The
  asynchronous reader-writer locks of tokio are fair: requests are granted in the order they
  were made, so a reader waits for a writer that asked before it.

### Assumptions about files and the write-ahead log

* `rename` and a synced write are atomic, and a crash keeps a prefix of the performed
  operations. Operations on directories are durable, although the code does not sync the folder.
* 64-bit batch ids do not overflow. The reader of a file tolerates a partial batch at its end.
* The order of locks in the log is consistent, so its operations are atomic.

### Assumptions about the storage engine

* Saves in `Model/Storage.lean` succeed; failing saves are in `Model/Saving.lean`.
* Segments in the channel between threads are in no memory budget, as in the code.
* Data races between a change of the configuration, which spills buffers, and ingestion are not
  modelled: a step of a thread is atomic.

### Assumptions about Delta Lake and object stores

* A commit and the creation of a table are atomic, and a commit that returns an error has no
  effect (except in C50, where this is an explicit hypothesis).
* The files of a table are deleted in one step. Table names with empty path parts are not
  modelled. The writer requires the schema of the table.
* `vacuum` deletes the stale files that are older than the retention period.

### Assumptions about DataFusion, Arrow and sqlparser

* Streams are polled as documented. Wakers and metrics are not modelled. Reconstructing a segment
  does not panic while it is queried.
* Sorting uses any order among ties. A limit is only pushed down without a filter and cuts the
  segments of a file exactly. Types are coerced and `literal = column` is canonicalised before
  planning, except where a theorem says otherwise.
* Partial states of aggregates are merged one after another in any order. The planner chooses
  the mode of an aggregate. DISTINCT is not modelled. The sign of zero is ignored in MIN and MAX.
* `RecordBatch::try_new` rejects batches without columns.
* The tokenizer of sqlparser 0.61 with the generic dialect is modelled for ASCII letters, without
  comments, prefixed strings and numbers that are not digits only. Lower case is ASCII only.

### Assumptions about the embedded API and clusters

* Compression and the Delta writer are the oracle `encode` in `Model/Embedded.lean`. Concurrent
  writers only append.
* In `Model/Cluster.lean` each change of one data folder is atomic, universally unique
  identifiers differ, and nodes are identified by their URLs, except in C47.

## Not modelled

Network and gRPC transport, Arrow and Parquet encoding of files, DataFusion's SQL planning and
expression evaluation, object stores, memory-size measurement (`get_array_memory_size` is an
arbitrary function), the hash function (an arbitrary function), the wall clock, logging and
metrics, the command-line client and the bulk loader.

## Properties

For every property: what is modelled (files under `lean/Verif/Model/`), how it is proved, and the outcome. "False" means
that the code violates the property as stated. Then the negation is proved with a concrete witness, and theorems with the
suffix `_partial` prove what does hold under explicit hypotheses; what is missing is said beside the theorem.

### C01: Timestamps are compressed losslessly

* Model: `Bits`, `Timestamps`: `bits.rs`, `models/timestamps.rs` function by function over bytes.
* Proof: refinement of the byte builder and reader to a list of bits, then induction over the timestamps.
* Proved: `C01_timestamps_roundtrip`. For lists shorter than 2^63.

### C02: Repeated timestamps survive compression

* Model: `Bits`, `Timestamps`: `bits.rs`, `models/timestamps.rs` function by function over bytes.
* Proof: the exact condition for failure; witnesses.
* Partial: `C02_two_equal_lost`, `C02_equal_panics`, `C02_repeated_timestamps_partial`. False as stated: fails exactly when all timestamps of a segment are equal.

### C03: A segment knows how many points it stores

* Model: `Timestamps`: `models/mod.rs: len`.
* Proof: from the shape of the regular and irregular encodings.
* Proved: `C03_segment_length`. For lists shorter than 2^63.

### C04: The XOR value codec is lossless

* Model: `MacaqueV`: encoder and decoder over 32-bit patterns.
* Proof: stateful round trip by induction over the values with an invariant on the window of bits.
* Proved: `C04_xor_lossless_segment`, `C04_xor_lossless_residuals`.

### C05: The XOR value codec stays within the error bound

* Model: `MacaqueV`, `Float`: rewriting of mantissa bits.
* Proof: bounds on binary32 and binary64 rounding; witness.
* Partial: `C05_xor_within_bound_segment_partial`, `C05_xor_within_bound_residuals_partial`, `C05_xor_out_of_bound`. False as stated: values more than about 2^23 times larger than the error bound lose exponent bits (witness: bound 0.01, value 1000000 reads back as 2). Proved for values up to 2^22 times an absolute bound and for relative bounds of at least 2^-16 percent.

### C06: Constant models respect the error bound

* Model: `PmcMean`, `ErrorBound`.
* Proof: invariant by induction over offered values; monotonicity of rounding.
* Partial: `C06_constant_model_passes_check_partial`, `C06_constant_model_within_bound_partial`, `C06_constant_model_out_of_bound`. False for a relative error bound of 100 percent (witness). Proved for lossless and absolute bounds in terms of the system's own check, and in exact arithmetic for these and relative bounds from 2^-100 to 99.9999 percent.

### C07: Linear models respect the error bound

* Model: `Swing`, over any arithmetic and over binary64.
* Proof: invariant: the line stays between the bounds, up to the rounding error of the arithmetic, which is zero in exact arithmetic and is bounded for binary64; the stored last value and the values read add rounding errors; witness in binary64.
* Partial: `C07_linear_model_within_bound_partial`, `C07_linear_model_last_value_partial`, `C07_linear_model_rounding_partial`, `C07_linear_model_within_bound_exact_partial`, `C07_lossless_linear_model_exact_partial`, `C07_linear_model_not_finite`, `C07_linear_model_out_of_bound`. False of the code because of rounding (witness: eight points, lossless bound). Proved for the binary64 code if rounding, for which an explicit bound is proved, is smaller than the part of the error bound that the model leaves for it; for lossless compression if rounding is smaller than the precision of the values (C07_lossless_linear_model_exact_partial); for values that are not finite; and without conditions for the same algorithm in exact arithmetic.

### C08: Model parameters survive being packed into a segment

* Model: `Segment`: encoding and decoding of model parameters.
* Proof: case analysis over float equality.
* Partial: `C08_constant_parameter_recovered_partial`, `C08_linear_parameters_recovered_partial`, `C08_nan_not_recovered`. False for a constant model of NaN with residuals that are numbers (witness). Proved for constant models of any other value and for linear models between two numbers, up to the sign of a zero last value.

### C09: Every ingested point is in exactly one segment

* Model: `Compression`: the driver that splits a series into segments.
* Proof: induction over the loop, for any fitting decision and for the concrete one.
* Proved: `C09_segments_partition_series`, `C09_compression_partitions_series`, `C09_compressed_have_values`. For strictly increasing timestamps and series shorter than 2^63; the first theorem holds for every choice of models.

### C10: Lossless series read back unchanged

* Model: `Compression`, `Segment`.
* Proof: composition of C01, C04, C08 and C09.
* Partial: `C10_lossless_readback_partial`, `C10_lossless_readback_no_linear_partial`, `C10_lossless_readback_scale_partial`, `C10_nan_not_read_back`, `C10_line_not_read_back`. False of the code for series with NaN and for some series on a line (witnesses). Proved end to end for series without NaN whose kept linear models reconstruct their values (no condition if no linear model is kept). That they do follows from conditions on the points only if the values are large compared to the rounding on lines through them (C10_lossless_readback_scale_partial).

### C11: Lossy series read back within the error bound

* Model: `Compression`, `Segment`.
* Proof: composition with C05 and C06; the linear models are faithful by C07 if a scale of the series makes rounding small: then values are within the bound and the last value read is the last value stored, as rounding to binary32 is stable near a binary32 number.
* Partial: `C11_lossy_readback_scale_partial`, `C11_lossy_readback_partial`, `C11_residual_out_of_bound`. False of the code: a residual after a linear model can be decoded relative to another value than it was encoded (witness: bound 0.1, 1000 reads back as more than 1071). Proved end to end for series without NaN, values inside the guard of C05, relative bounds up to 99.9999 percent, if the linear models are faithful; that they are is proved from conditions on the ingested points (values not too small, slopes not too steep compared to the error bound and the timestamps).

### C12: SUM computed from a segment equals the sum of its points

* Model: `Segment`: `sum` functions, `Float`.
* Proof: explicit rounding error by induction, for lines from the error of each operation; exact arithmetic for lines; witnesses.
* Partial: `C12_sum_constant_or_xor_partial`, `C12_sum_linear_rounding_partial`, `C12_sum_linear_partial`, `C12_sum_linear_exact_partial`, `C12_sum_linear_wrong`, `C12_sum_residual_wrong`. False of the code for linear models with residuals over irregular timestamps (witness: 51 is computed as less than 6) and if the last value of the model is not reconstructed exactly (witness: more than 1087 is computed as less than 1017). Proved with an explicit rounding error for constant models, XOR encoded values and linear models over regular timestamps or without residuals; for the latter the bound depends on the timestamps, and it is exact in exact arithmetic.

### C13: Segment minimum and maximum bound the stored values

* Model: `Compression`, `Segment`: minimum and maximum of segments.
* Proof: invariant by induction over values.
* Partial: `C13_min_max_partial`, `C13_min_max_ingested_partial`, `C13_linear_rounding_partial`, `C13_linear_below_minimum`, `C13_lossy_above_maximum`. False of the code for linear models (a value read is below the stored minimum; C13_linear_rounding_partial proves that it is not further below than the rounding of the line, and that some value is as close to the minimum, likewise for the maximum) and, with a lossy bound, of the ingested values (witnesses). Proved exactly for the values read from all other segments, and for the ingested values without loss.

### C14: Series with different tags are never mixed during bulk compression

* Model: `Multivariate`: sorting and splitting of batches by tags.
* Proof: refinement to filter and sort, for any sort that meets its specification.
* Proved: `C14_series_never_mixed`, `C14_timestamps_of_series`. For any number of tag columns and any sort that meets its specification (the arrow sort is not modelled); C14_timestamps_of_series adds that the segments hold exactly the timestamps when they are distinct per series.

### C15: An acknowledged write is recoverable until it is saved

* Model: `WriteAheadLog`: files, ids, appends, deletion, crash points.
* Proof: invariant by induction over the operations of a transition system.
* Partial: `C15_acknowledged_recoverable_partial`, `C15_torn_file_not_recoverable`, `C15_failed_append_hides_next`. False of the code for two misfortunes (witnesses): a crash between the creation of a file and the writing of its schema makes the log unreadable, and an append that fails after writing hides the next acknowledged batch. Proved for every other history, with crashes inside every operation.

### C16: Log files are deleted only when everything in them is saved

* Model: `WriteAheadLog`: files, ids, appends, deletion, crash points.
* Proof: invariant by induction over the operations of a transition system, plus theorems for any log.
* Proved: `C16_deleted_only_when_saved`, `C16_active_never_removed`, `C16_notification_exact`. C16_notification_exact and C16_active_never_removed hold for any log, folder and ids; C16_deleted_only_when_saved for every step of every history without torn files and failed appends.

### C17: Batch ids are never reused

* Model: `WriteAheadLog`: files, ids, appends, deletion, crash points.
* Proof: invariant by induction over the operations of a transition system, plus theorems for any log; witnesses.
* Partial: `C17_ids_never_reused_partial`, `C17_unsaved_replayed_partial`, `C17_reused_after_out_of_order_save`, `C17_reused_after_crash_in_restart`, `C17_reused_after_crash_in_truncate`. False of the code (three witnesses): ids are reused after a newer segment is saved before an older one, and after crashes that leave an empty folder; the reused id hides an unsaved batch. Proved for all other histories.

### C18: Replay after a restart returns exactly the unsaved batches in order

* Model: `WriteAheadLog`: files, ids, appends, deletion, crash points.
* Proof: invariant by induction over the operations of a transition system, plus theorems for any log; witnesses.
* Partial: `C18_replay_exact_partial`, `C18_failed_append_replayed`. Proved for every history without torn files and failed appends, also with crashes inside operations. With a failed append the unacknowledged batch is replayed (witness).

### C19: Truncating a table forgets its log but never an id

* Model: `WriteAheadLog`: files, ids, appends, deletion, crash points.
* Proof: invariant by induction over the operations of a transition system, plus theorems for any log; witnesses; witnesses.
* Partial: `C19_truncate_forgets`, `C19_truncate_ids_increase_partial`, `C19_crash_in_truncate`, `C19_crash_in_truncate_reuses_id`. Forgetting is proved for every history, also for crashes inside truncate. Ids increase under the conditions of C17; a crash inside truncate can make an id be reused (witness).

### C20: An acknowledged point is never lost in a crash

* Model: `Storage`, `WriteAheadLog`, `Saving`: ingestion, buffers, saves, ids, crash.
* Proof: invariant on where each row is.
* Partial: `C20_lost_only_if_partly_saved_partial`, `C20_single_row_never_lost_partial`, `C20_acknowledged_lost`, `C20_failed_spill_lost`. False of the code (witnesses): the id of a batch is committed when the first of its rows is saved, a crash then loses its other rows (C20_acknowledged_lost). A buffer that cannot be written to disk when the memory is reduced loses its rows but keeps their ids, which are committed with the next rows of the series (C20_failed_spill_lost). Proved for every history without failing I/O: the first is the only way to lose a row, so rows of batches without other rows are never lost.

### C21: Different series never share a buffer

* Model: `Storage`: key of a time series.
* Proof: for every hash function; witness.
* Partial: `C21_hash_collision`, `C21_not_separate`, `C21_separate_partial`. False of the code for every hash function: the tags and the table name are hashed without separators, so (t, [ab, c]) and (t, [a, bc]) share a buffer and are stored as one series (witness for every engine). Proved for series whose tags cannot be confused and a hash without collisions.

### C22: Buffering loses and duplicates nothing

* Model: `Storage`: three threads, buffers, spilling.
* Proof: multiset invariant over every sequence of steps.
* Partial: `C22_exact_partial`, `C22_handed_over_when`, `C22_idle_buffers_finished`, `C22_sorted_and_bounded`, `C22_not_exact_failed_spill`, `C22_not_exact_repeated`, `C22_ingestion_thread_ends`. Proved for every sequence of steps of the three threads if no two series have the same hash, timestamps of a series differ and files can be written. False otherwise (witnesses).

### C23: Flush saves everything that was acknowledged before it

* Model: `Storage`: three threads, buffers, spilling.
* Proof: multiset invariant over every sequence of steps, for every schedule of a flush.
* Partial: `C23_flush_saves_everything_partial`. Proved for every schedule of the three threads and every content of the channels if no two series have the same hash, timestamps of a series differ and files can be written.

### C24: Memory accounting is exact

* Model: `MemoryPool`, `Storage`, `DataTransfer`.
* Proof: exact invariant with the drift as an explicit term.
* Partial: `C24_ingested_exact`, `C24_uncompressed_partial`, `C24_unreserved_when`, `C24_compressed_partial`, `C24_writer_never_panics`, `C24_uncompressed_drifts`, `C24_compressed_drifts`, `C24_compressed_unbounded`. Exact for ingested memory, for every history. False for uncompressed memory (a buffer created after a spill is given memory that was never reserved, but gives it back) and compressed memory (prefix sums are added for several fields); witnesses. Proved exact up to these two drifts, which are characterised. The drift of compressed memory is not bounded (C24_compressed_unbounded): with time the configured amount limits nothing.

### C25: Waiting for memory cannot be forgotten

* Model: `MemoryPool`: condition variables as a monitor.
* Proof: invariant over every schedule; a stuck state that no continuation leaves.
* Partial: `C25_handed_out_once`, `C25_no_lost_wakeup`, `C25_only_impossible_waits`, `C25_uncompressed_resumed_partial`, `C25_uncompressed_forgotten`. Proved for every schedule of threads that wait for ingested memory. False for uncompressed memory: after a flush the ingestion thread can wait for a condition nothing will change (witness: it stays stuck in every continuation); proved for histories without flush and stop requests.

### C26: Transfer moves every saved row to the remote store exactly once

* Model: `DataTransfer`: transfers, commits and crashes.
* Proof: invariant over every history; witnesses.
* Partial: `C26_exactly_once_partial`, `C26_nothing_invented`, `C26_lost_only_when`, `C26_lost_by_concurrent_commit`, `C26_twice_after_crash`, `C26_twice_after_failure`, `C26_twice_after_overlap`. False of the code (four witnesses). Proved for every history: only committed files are copied, and the only step that loses a file is the deletion by a transfer that had not read it. Exactly once is proved for histories in which nothing interferes with a transfer.

### C27: Transfer bookkeeping matches what is on disk

* Model: `DataTransfer`: transfers, commits and crashes.
* Proof: invariant over every history; witnesses.
* Partial: `C27_size_partial`, `C27_transferred_at_batch_size_partial`, `C27_below_zero`, `C27_counts_lost_file`, `C27_new_batch_size_reached`. False of the code for concurrent transfers and for a new batch size that is exactly reached (witnesses). Proved for histories in which nothing interferes with a transfer.

### C28: Changing a memory setting changes the budget by exactly the difference

* Model: `Configuration`, `MemoryPool`.
* Proof: case analysis and C24.
* Partial: `C28_ingested_partial`, `C28_uncompressed_partial`, `C28_compressed_partial`, `C28_file`, `C28_starts_iff`, `C28_large_all`, `C28_large_blocks`, `C28_large_value`. Proved for values below 2^63 and up to the drift shown in C24. False for all larger values: the server panics when it is started again from the file (C28_large_all, exactly for these by C28_starts_iff) and nothing can be ingested if it is the first change (C28_large_blocks).

### C29: Configuration precedence and validity

* Model: `Configuration`: file, arguments and defaults.
* Proof: decision table for every combination.
* Partial: `C29_no_file`, `C29_precedence_partial`, `C29_accepted_iff`, `C29_restart_keeps`, `C29_absent_setting`, `C29_invalid_accepted`. Proved for every combination of settings if the file has every setting; a setting absent from the file does not get its default and values that make the server panic are accepted (witnesses).

### C30: Table metadata survives a restart

* Model: `TableDefinition`, `DataFolder`: metadata tables as lists of rows.
* Proof: round trip of saving and loading, invariant over histories.
* Partial: `C30_restart_partial`, `C30_sql_storable`, `C30_quotes_lose_definition`, `C30_quote_prevents_start`, `C30_period_prevents_start`, `C30_generated_tag_becomes_stored`, `C30_not_equal`. Proved for every history of created and dropped tables if the definitions can be stored, which holds for every table created with SQL whose name has no quote and stands for itself (see C62). False otherwise (witnesses): a quote in a name ends the SQL literal used to load the table, a name with a period is registered in a schema that does not exist, and a generated tag column, possible with a message, is stored after a restart.

### C31: Creating a table is atomic

* Model: `DataFolder`: changes as lists of effects, a crash keeps a prefix.
* Proof: state after every prefix.
* Partial: `C31_crash_in_create_partial`, `C31_crash_in_create_normal_partial`, `C31_crash_in_drop_partial`, `C31_create_leaves_unusable_name`, `C31_create_normal_leaves_unusable_name`, `C31_drop_leaves_unusable_name`, `C31_part_of_definition`. False of the code: a crash after the first change leaves a name that can never be used (for every table), a later crash leaves a table without some error bounds and with generated columns stored. Proved: the exact state after each crash point, and that the server starts with all other tables as they were.

### C32: Only valid error bounds are accepted

* Model: `TableDefinition`: parsing, messages, C interface.
* Proof: for every float, from the printing and parsing relation.
* Partial: `C32_sql_partial`, `C32_capi_partial`, `C32_capi_iff`, `C32_capi_zero_panics`, `C32_reload_partial`, `C32_sql_accepted_again_partial`, `C32_message_accepts_everything`, `C32_not_meaningful`, `C32_message_prevents_start`, `C32_never_starts`, `C32_zero_changes`. Proved for every float for SQL, the C interface and the metadata tables. False for messages: every float is accepted (C32_message_accepts_everything) and the server then does not start again until the table is dropped, for every history (C32_never_starts).

### C33: Stored columns and query columns correspond

* Model: `TableDefinition`: positions of columns.
* Proof: index arithmetic by induction over the schema.
* Proved: `C33_columns_correspond`, `C33_same_name`.

### C34: Time filters never lose matching rows

* Model: `QueryPlan`: rewriting of filters over expression trees.
* Proof: soundness by structural induction over filters; witnesses.
* Partial: `C34_rows_partial`, `C34_reversed_equality_loses_rows`, `C34_reversed_equality_never_reads`, `C34_reversed_equality_fails`. Proved for every list of filters and every segment if no filter is an equality with the timestamp on the right: then every row the query keeps is in a segment that is read and passes the rewritten filter. False for such an equality (witnesses): the rewritten condition is the wrong way round.

### C35: Reconstruction returns every point whatever the batching

* Model: `QueryStream`: `GridStream` as a poller.
* Proof: invariant over every sequence of polls.
* Proved: `C35_every_point`, `C35_full_batches`. For every sequence of batches, pending polls and batch size above zero; reconstructing one segment is C01 to C05.

### C36: Fields of one row belong to the same timestamp

* Model: `QueryStream`: `SortedJoinStream` as a poller.
* Proof: invariant: the inputs are aligned; witnesses.
* Partial: `C36_rows_partial`, `C36_rows_mixed`, `C36_rows_lost`. Proved if the batches of each field are full and no tag that is read is called timestamp or value (C57_tag_name_panics). False of the code otherwise (witnesses): a filter or small batches misalign the fields, which mixes or loses rows.

### C37: A failed read is reported

* Model: `QueryStream`: `SortedJoinStream` as a poller.
* Proof: every sequence of results of the inputs; witnesses.
* Partial: `C37_one_field_partial`, `C37_reported_partial`, `C37_error_lost`, `C37_error_lost_at_end`. Proved for queries of one field and if no later input is pending or finished in the same poll. False of the code otherwise (witnesses): the error is replaced by the result of a later input.

### C38: COUNT, MIN, MAX, SUM and AVG are the same with and without the segment optimisation

* Model: `Aggregates`: rewriting of plans, accumulators, merging.
* Proof: induction over partitions and segments, from C12 and C13; witnesses.
* Partial: `C38_rewritten`, `C38_count`, `C38_min_partial`, `C38_max_partial`, `C38_sum_partial`, `C38_avg_partial`, `C38_query_partial`, `C38_sum_errors_partial`, `C38_avg_errors_partial`, `C38_sum_linear_partial`, `C38_avg_linear_partial`, `C38_min_errors_partial`, `C38_max_errors_partial`, `C38_min_max_linear_partial`, `C38_expression_ignored`, `C38_empty_table`, `C38_empty_all`, `C38_min_infinity_all`, `C38_max_infinity_all`, `C38_min_iff`, `C38_max_iff`, `C38_min_infinity`, `C38_sum_overflow`, `C38_sum_linear_wrong`, `C38_single_mode_aborts`. COUNT equals the number of rows for all stored segments. MIN, MAX, SUM and AVG equal those of the rows (sums up to the stated rounding) for tables with rows, finite values and segments with constant or lossless models, for all partitions and orders, and C38_query_partial lifts this to every query the rule rewrites whose aggregates are of the column itself. SUM, AVG, MIN and MAX are also proved for tables with linear models, with the errors of C12 and C13 for the segments (MIN and MAX need not be those of a row exactly). The full property is false of the code: SUM(f * 2) returns SUM(f), a table without rows gives f32::MAX, f32::MIN, 0 and NaN instead of null (never null by C38_empty_all), MIN of infinities is f32::MAX (MIN and MAX are correct exactly if not all values are that infinity, C38_min_iff and C38_max_iff), a segment whose sum exceeds binary32 gives infinity, sums of linear segments at irregular timestamps are wrong, and an aggregate planned in one step aborts the server.

### C39: Queries without a field column see every row

* Model: `QueryPlan`: choice of columns.
* Proof: index arithmetic; witness.
* Partial: `C39_rows_partial`, `C39_no_rows`. Proved if no generated column precedes the first field and no tag is called timestamp or value. False of the code otherwise (witness): the query returns no rows as an index in the query schema is used for the stored schema.

### C40: Generated columns appear where the query expects them

* Model: `QueryPlan`: columns of the plan.
* Proof: index arithmetic by induction over the schema.
* Proved: `C40_columns`. For every plan that can return batches; the plans that cannot are in C57.

### C41: A vacuum retention period outside the allowed range is rejected

* Model: `Statements`: tokens and parsing of retention periods.
* Proof: relation between text and value; arithmetic of the cast.
* Partial: `C41_sql`, `C41_api_partial`, `C41_wrapped`, `C41_default`, `C41_longest`. SQL: complete. API: the period is cast to i64, so periods of at least 2^64 - MAX wrap around and delete every stale file; everything below 2^63 is proved.

### C42: Statements act on exactly the tables they name

* Model: `Statements`: lists of table names, tokens, forwarding as text.
* Proof: parsing relation in both directions; witnesses.
* Partial: `C42_truncate`, `C42_truncate_parsed`, `C42_truncate_sound`, `C42_vacuum_partial`, `C42_vacuum_parsed_partial`, `C42_drop_partial`, `C42_drop_parsed_partial`, `C42_drop_iff`, `C42_vacuum_iff`, `C42_created_partial`, `C42_forwarded_partial`, `C42_vacuum_semicolon`, `C42_vacuum_empty`, `C42_drop_parts`, `C42_created_case`, `C42_forwarded_comma`. TRUNCATE complete; what is accepted as DROP TABLE or VACUUM and which tables it gives is proved exactly (C42_drop_iff, C42_vacuum_iff). False for VACUUM with ';' or an empty name, for DROP TABLE with a name in several parts, for names with upper-case letters and for quoted names that are forwarded to other nodes.

### C43: INCLUDE forwards exactly the query

* Model: `Statements`: `INCLUDE` with addresses.
* Proof: characterisation as an equivalence; witnesses.
* Partial: `C43_partial`, `C43_recurring`, `C43_empty`. Sent exactly as given if and only if the last address does not occur in the query; otherwise a part is sent or the node panics.

### C44: Schema compatibility is sound

* Model: `Embedded`: compatibility of schemas and writes.
* Proof: equivalence with a semantic definition.
* Proved: `C44_compatible`, `C44_preorder`, `C44_write`. Compatible exactly if every row that is valid for the first schema is valid for the second; compression and the Delta Lake are oracles.

### C45: Moving a table preserves its rows

* Model: `Embedded`: moving tables with concurrent writers and failures.
* Proof: case analysis over every failing step; witnesses.
* Partial: `C45_partial`, `C45_failed_partial`, `C45_same_table`, `C45_concurrent_iff`, `C45_concurrent`, `C45_duplicated_all`, `C45_duplicated`. Proved for different tables without concurrent writes to the source; no step that fails loses rows. False for a table moved to itself (all rows are deleted), for concurrent writes to the source, all of which are lost (C45_concurrent_iff), and, if deleting fails, rows are in both tables and are added again by each further attempt (C45_duplicated_all).

### C46: Copying a time range copies exactly that range for all fields

* Model: `Embedded`: copying time ranges of segments.
* Proof: from the ranges of segments; witness.
* Partial: `C46_partial`, `C46_iff`, `C46_boundary`. Only rows in the range are copied, and all of them if and only if no segment is partly in the range (C46_iff). False of the code otherwise (witness): whole segments are left out, differently for each field.

### C47: All nodes of a cluster use the same key

* Model: `Cluster`: joining and leaving as a transition system.
* Proof: invariants over every interleaving; witnesses.
* Partial: `C47_partial`, `C47_established`, `C47_listed`, `C47_exact`, `C47_race`, `C47_same_url`, `C47_crashed`. False in general: two nodes that start together create two keys (C47_race), and nodes with the same URL remove each other from the list. Proved if two nodes are never about to create a key at once, and for every execution once a key is established; the list is complete if URLs differ and exact without crashes.

### C48: Cluster-wide table changes reach every node

* Model: `Cluster`: changes, deliveries, joins and crashes as a transition system.
* Proof: invariant over every interleaving with one change; impossibility over every interleaving; witnesses.
* Partial: `C48_partial`, `C48_joins`, `C48_forwarded`, `C48_stale`, `C48_twice`, `C48_concurrent`, `C48_failed`, `C48_unstartable`. Proved when no other change overlaps, with nodes joining, leaving and crashing and requests being lost in any order. Overlapping changes can all succeed and leave nodes with different definitions (C48_concurrent). C48_stale and C48_twice prove for every execution that no change succeeds while a crashed node is in the list or a restarted node is in it twice.

### C49: A new node cannot join with a conflicting table

* Model: `Cluster`: tables when a node starts.
* Proof: from the data folders; both directions; witnesses.
* Partial: `C49_partial`, `C49_accepts`, `C49_interrupted`, `C49_unstartable`, `C49_kind`. Proved for data folders without interrupted changes and normal tables without the schema of segments, in both directions. False otherwise: a leftover Delta table counts as the table, and a time series table counts as a normal table with the schema of its segments.

### C50: A saved batch and its ids become visible together

* Model: `DeltaWriter`: steps of a write with failures and crashes.
* Proof: every failure point.
* Partial: `C50_atomic_partial`, `C50_answer_partial`, `C50_error_although_saved`, `C50_commit_error_after_commit`. Proved for a failure of any step and a crash after any change to the object store, if a commit of the deltalake crate that returns an error has no effect. False for the answer: an error is returned although the rows are saved if loading the table afterwards fails (witness).

### C51: The error-bound check is sound

* Model: `ErrorBound`: the check of one value.
* Proof: float comparison against the rational bound.
* Proved: `C51_check_sound`, `C51_check_complete_absolute`.

### C52: Ingestion survives memory pressure

* Model: `Storage`, `MemoryPool`.
* Proof: invariant on reserved memory.
* Partial: `C52_ingestion_survives_partial`, `C22_ingestion_thread_ends`. Proved if the memory is enough for two buffers of the largest table and is not changed; false with memory for one buffer (C22_ingestion_thread_ends).

### C53: No point is recovered twice

* Model: `Storage`, `WriteAheadLog`.
* Proof: composition of C18 and C22.
* Proved: `C53_recovered_once`. For histories as in C22: no two series with the same hash, timestamps of a series differ and files can be written; the write-ahead log replays what C18 proves.

### C54: A failed save loses nothing and is reported

* Model: `Saving`: failing writes.
* Proof: invariant over every history; witnesses.
* Partial: `C54_nothing_lost_partial`, `C54_lost_can_be_replayed`, `C54_same_without_failures`, `C54_flush_loses`, `C54_remote_failure_stops_saving`, `C54_failed_setting_kept`. False of the code (witnesses). Proved for every history: segments are only lost from memory if their write fails, and their ids are then not recorded, so the write-ahead log replays them.

### C55: Dropping a table leaves the other tables

* Model: `TableFiles`: paths of tables in the object store.
* Proof: prefix arithmetic; witness.
* Partial: `C55_other_tables_kept_partial`, `C55_dropped_gone`, `C55_drop_iff`, `C55_kept_partial`, `C55_nested`, `C55_field_deleted`, `C55_nested_table_deleted`. Proved for names without a slash, and for all names which files a drop deletes (C55_drop_iff): those whose path begins with the name and a slash. False therefore for names with a slash, which are accepted: dropping a deletes the files of every a/b (C55_nested), and dropping a/field_column=1 those of a field of a (C55_field_deleted).

### C56: A table definition is the same on every node

* Model: `TableDefinition`: message encoding.
* Proof: round trip.
* Proved: `C56_sent_definition_same`, `C56_sql`, `C56_unknown_rejected`. The order of the columns an expression refers to, which comes from a hash set, may differ.

### C57: A query never aborts the server

* Model: `QueryPlan`: panics of planning.
* Proof: exact condition; witnesses.
* Partial: `C57_no_panic_partial`, `C57_filters_panic_iff`, `C57_columns_no_panic`, `C57_sql_fields`, `C57_generated_filter_panics`, `C57_no_column_panics`, `C57_constant_column_panics`, `C57_generated_tag_panics`, `C57_tag_name_panics`. Proved if filters compare stored columns only, a stored column is read, only fields are generated and no tag is called timestamp or value. False of the code otherwise (witnesses): a filter on a generated column, COUNT(*), a query for a constant column only, a generated tag column and a tag called value or timestamp abort the server.

### C58: LIMIT returns rows of the table

* Model: `QueryStream`, `QueryPlan`: LIMIT.
* Proof: from C35; witness.
* Partial: `C58_one_field_partial`, `C58_all_read_partial`, `C58_same_ends_partial`, `C58_rows_mixed`. Proved for queries of one field, and of several fields if the limit is at least the number of segments or the segments of the fields end at the same data points (C58_same_ends_partial). False of the code otherwise (witness): different segments are read for each field and the rows are mixed.

### C59: Moved and copied data is within the error bounds of its table

* Model: `Embedded`.
* Proof: pointwise comparison of bounds; witness.
* Partial: `C59_copy_partial`, `C59_move_partial`, `C59_stricter`. Proved if the bounds of the target are not stricter. False of the code otherwise (witness): the bounds are not compared.

### C60: Requests never wait for each other forever

* Model: `Model.Locks`: tasks that ask for, are granted, hold and release tokio's fair read-write locks (a request waits for all earlier requests it is not compatible with); the lock operations of each of 20 kinds of requests, read off the code with the functions they call inlined, at every node of a cluster. Steps that do not concern locks are steps without an effect; a request may be abandoned at any await. `Spec.Locks` defines that all tasks finish: no execution is infinite and every execution that cannot continue has finished all tasks..
* Proof: The locks of a request are taken in increasing order of a rank if only the locks that some task writes are counted, so some task can always continue; a measure decreases in every step. For the refutation, a set of tasks of which each waits for one in the set is shown to stay so in every continuation..
* Partial: `C60_exclusive`, `C60_no_update_partial`, `C60_plain_partial`, `C60_create_stuck`, `C60_drop_stuck`, `C60_truncate_stuck`, `C60_kill_stuck`, `C60_nodes_stuck`, `C60_spreads`. False of the code: a request for a time series table reads the configuration twice, the second time while it holds the lock from the first, and deadlocks with a request to change the configuration that comes in between; removing a node takes two locks in the other order; two nodes can wait for each other. Proved for every set of requests as long as the configuration is not changed, and with changes of it for all requests except these.

### C61: An operation of the embedded library acts on exactly the table it is given

* Model: `Model.Client`: the text that each operation of the client sends (operations/client.rs), what a node does with it (`Model.Statements`), what a data folder does, and the C string a Python name passes through..
* Proof: The text of each operation is tokenised and parsed for every identifier; the effect is compared with `ActsOn` of `Spec.Statements`. Witnesses for the names for which it is false..
* Partial: `C61_client_partial`, `C61_client_period_partial`, `C61_folder`, `C61_text`, `C61_python_partial`, `C61_client_comma_all`, `C61_client_comma`, `C61_client_period_all`, `C61_client_empty`, `C61_client_words`, `C61_client_characters`, `C61_python_zero`. Data folders: complete. Servers: the name is inserted into SQL text, so it is proved for identifiers, and false for names with a comma (two tables are dropped, C61_client_comma_all) or a period (another table is dropped, C61_client_period_all), empty names (all tables are vacuumed), names with spaces or other characters (witnesses). Python: proved for names without a zero character.

### C62: A table is used under the name it was created with

* Model: `Model.TableNames`: the names on disk and the references in the session of DataFusion; `TableReference::parse_str`, which tokenises a name and changes words to lower case; creating, dropping and opening as in the data folder, with and without the checks of a node. DataFusion is modelled from its documentation..
* Proof: Induction over the requests with the invariant that the session holds exactly the metadata tables and one reference per table. Witnesses where it is false..
* Partial: `C62_named_partial`, `C62_does_partial`, `C62_self_names`, `C62_period`, `C62_period_all`, `C62_case`, `C62_case_all`, `C62_case_server`, `C62_failed_drop`, `C62_metadata`. Proved for every sequence of requests with names that datafusion reads as themselves, which includes all lower-case identifiers. False otherwise: creating a.b fails but the folder can then never be opened again (for all identifiers, C62_period_all), the same holds if foo is created beside Foo (C62_case_all), dropping Foo hides foo, and dropping a metadata table prevents that tables are listed.

### C63: Reading a time series table returns exactly what is asked for

* Model: `Model.ReadTable`: the text that is made from the arguments, a parser for the queries of this form (sqlparser), and their meaning over a table with a column of timestamps and tags (datafusion). How the result is computed from the columns and the rows that are kept is a parameter, so the theorem holds for every such function..
* Proof: The text is tokenised clause by clause, the tokens are parsed back to the query that is meant, and the condition is shown to keep exactly the rows asked for..
* Partial: `C63_reads_partial`, `C63_quotes`, `C63_timestamp`, `C63_timestamp_tag`, `C63_case`. Proved for all tables and requests if names are lower-case identifiers that are not words of SQL, values have no quotes and the column with timestamps is called timestamp. False otherwise (witnesses): a tag with quotes changes the condition and returns all rows, the name timestamp is fixed in the code, and columns with upper-case letters cannot be read or another column is read.

### C64: Data that is put into a table is stored as it was sent

* Model: `Model.FlightPut`: the buffers of columns in messages (arrow-ipc), decoding them with the schema of the table, and the loop that ingests each message (remote.rs). UTF-8 validation and whether the storage engine fails are parameters..
* Proof: Encoding and decoding are inverse for columns of fixed width (induction over little-endian bytes) and for text (induction over offsets), so a batch is read back if the types agree. Witnesses for other schemas..
* Partial: `C64_put_partial`, `C64_failed_partial`, `C64_missing_partial`, `C64_narrower_partial`, `C64_by_position`, `C64_types_iff`, `C64_other_order`, `C64_other_type`, `C64_additional_all`, `C64_additional`, `C64_wider_type`, `C64_failed`. Proved for all data with the schema of the table: everything is stored, or everything up to the part the storage engine fails for. Data with fewer columns, or with values of fewer bytes after columns of the same types, is always refused. False otherwise (witnesses): the schema of the sender is never read, so columns in another order, with another type of at least the same width or additional columns at the end are stored wrongly without an error, and a request that fails can have stored data. For data with the types of the table the request is correct exactly if the schemas are equal (C64_types_iff). Nulls, dictionaries and compression are not modelled; arrow-ipc is modelled from its format.

### C65: Stopping a node loses no data

* Model: `Model.Shutdown`: where the rows of a node are, and the steps of do_action, the handler for CTRL+C, the periodic transfer and ingestion with the lock of the storage engine; flushing is one step (C23) and batches are not removed from the write-ahead log (C16)..
* Proof: Invariants by induction over executions: a confirmed row is in memory or in a folder, memory is empty while KillNode holds the lock and after CTRL+C closed the storage engine, the local folder is empty after the transfer..
* Partial: `C65_stops_cleanly_partial`, `C65_kill_partial`, `C65_flush_node_partial`, `C65_wal_kept`, `C65_single_never_killed`, `C65_interrupt_loses`, `C65_kill_loses`, `C65_periodic_ends`, `C65_kill_single`. Proved for all executions in which nothing fails and no data points are ingested between the close of the storage engine by CTRL+C and the end of the process; for KillNode and FlushNode if rows can be saved, whatever else fails; and for everything if the write-ahead log is enabled. False otherwise (witnesses): the handler for CTRL+C releases the lock although its documentation says the opposite, so data is confirmed that is never saved, KillNode ends the process after errors that are only logged, a failing periodic transfer aborts the process, and a node without a remote data folder cannot be killed and answers FlushNode with an error.

### C66: Errors, pointers and structures are handled as documented by the C-API

* Model: `Model.CApi`: all exported functions as the list of their conversions in order, pointers with null and alignment, THREAD_LAST_ERROR of each thread, what is allocated, and how often exported structures are released. What the operations do is not modelled, only whether they fail. Calls are atomic..
* Proof: Induction over the list of conversions (the converted prefix is what is released) and over the requests of all threads; undefined behaviour is an explicit result..
* Partial: `C66_error_partial`, `C66_no_error`, `C66_succeeds_iff`, `C66_defined_partial`, `C66_released_at_most_once`, `C66_released_once_partial`, `C66_write_released_partial`, `C66_close_no_error`, `C66_mixed_undefined`, `C66_same_undefined`, `C66_documented_undefined`, `C66_no_policy`. Proved for all functions except closing, for pointers with the type the caller says and different sources and targets, and for structures given to functions that succeed if the caller releases the schema it created a table with. False otherwise: modelardb_embedded_close() fails without an error, so Python raises NULL or an old error; is_data_folder describes the source but is also used for the target, so copy and move between a data folder and a client reinterpret one as the other before its type is checked (for every value of is_data_folder); copying within a data folder creates two mutable references to it; and after a failure an array was released or not depending on the argument that could not be converted, so no caller that knows only the return code can release it exactly once. The Python bindings release nothing, so they leak the schema of each created table and the arrays of failed calls.

### C67: The bulk loader imports and exports whole tables

* Model: `Model/BulkLoader.lean`: the session that is opened, SQL before and after, `import`, `import_normal_table`, `import_time_series_table` with `cast_record_batch`, `DeltaTableWriter::commit` and `rollback`, and `export`. Failures and available memory are inputs. Not modelled: listing of the files and their partition columns, credentials, compression, generated columns, names that are normalised..
* Proof: Case analysis and induction on the input for both loops; an invariant that SQL only adds providers of the session; values are compared by name in `Spec/BulkLoader.lean`. That datafusion executes statements in the session only, does not run INSERT until its stream is read, and that `DeltaWriter` refuses other schemas, are assumptions from their documentation..
* Partial: `C67_all_or_nothing`, `C67_no_table`, `C67_import_normal_partial`, `C67_import_normal_succeeds_partial`, `C67_registered_partial`, `C67_import_time_series_never`, `C67_cast_never`, `C67_create_never`, `C67_export_never`, `C67_export_time_series_never`, `C67_export_left`, `C67_swapped`, `C67_nulls`, `C67_error_after_import`, `C67_files_left`, `C67_export_other`. Proved for imports: all rows or none are added whatever fails, and imports into normal tables are exact. Refuted for the rest: the bulk loader opens the data folder without registering its tables, so no time series table can be imported (C67_import_time_series_never, C67_cast_never), no table can be exported (C67_export_never, C67_export_time_series_never), and a failed export leaves an empty table that makes later exports to the path fail (C67_export_left). The SQL is given to datafusion alone, so the documented CREATE TIME SERIES TABLE is an error (C67_create_never). If tables were registered, files with the columns of the table in order are imported by name (C67_registered_partial), others by position under wrong names (C67_swapped), and nulls as zeros and empty texts (C67_nulls).

### C68: Error bounds declared in Python are those of the table

* Model: `Model/PythonBound.lean`: `__init__` and `==` of both classes, the encoding in `create`, the conversion to 32 bits, and `capiBound` of C32. Not modelled: values that are not `float`, objects that are changed after they were created, the exported map itself..
* Proof: Rounding lemmas for binary32 (error, monotonicity, exactness); thresholds with the value at the threshold computed by the kernel. That pyarrow rounds to nearest and overflows to infinity, and that `@dataclass` compares annotated fields only, are assumptions..
* Partial: `C68_construct`, `C68_succeeds_iff`, `C68_exact_partial`, `C68_near_partial`, `C68_columns_partial`, `C68_larger`, `C68_panics`, `C68_inherits_all`, `C68_inherits`, `C68_equal`. Proved for values that are 32-bit floats; for other values in their normal range the error bound is used with a relative difference of at most 2^-24. Refuted for the rest: 0.1 allows a larger error than declared (C68_larger), values of at most 2^-150 or at least 2^128-2^103 end the process (C68_panics, exactly these by C68_succeeds_iff), classes that inherit from AbsoluteErrorBound are used as relative (C68_inherits_all), and all error bounds of a class are equal (C68_equal).

### C69: The result of a query reaches the client complete

* Model: `Model/QueryResult.lean`: `send_query_result`, the readers, `SelectAll` as any interleaving of the streams, `do_get` for queries, and `record_batch_stream_to_record_batch`. What a node computes is any stream of batches and errors. Not modelled: nulls, dictionaries, and the query itself..
* Proof: Induction over the streams and over how they interleave (a permutation that keeps the order of each stream), with the encoding and decoding of batches of C64. That tonic reports broken connections and accepts messages of at most 4 MiB by default are assumptions..
* Partial: `C69_complete_partial`, `C69_single_partial`, `C69_error_partial`, `C69_never_wrong_partial`, `C69_answered`, `C69_embedded_partial`, `C69_embedded_failed`, `C69_other_schema`, `C69_truncated`, `C69_too_large`, `C69_empty`, `C69_twice`. Proved for every interleaving if the result has the same schema at all nodes, batches can be encoded and are at most as large as clients accept. Refuted for the rest: results with other column orders are given to the client in the wrong columns (C69_other_schema), a batch that cannot be encoded ends the result without an error (C69_truncated), batches above 4 MiB, e.g. 8,192 rows with a timestamp and 127 values, cannot be read by clients (C69_too_large), and without batches Python and C get no columns (C69_empty). Which text is sent to the addresses is C43.

### C70: The command-line client executes what a file says

* Model: `Model/CommandLine.lean`: `execute_queries_from_a_file`, `execute_and_print_command_or_query`, `execute_command` and both ways to print a result. Not modelled: the editor, its history and completion, what is printed for schemas, and the connection..
* Proof: Induction over the text with a reader of tokens that is written for the specification, over the lines and over the batches. That the tokenizer of sqlparser treats quotes and comments like the specification is an assumption..
* Partial: `C70_never_other`, `C70_tokens_partial`, `C70_file_partial`, `C70_print_all`, `C70_print_prefix`, `C70_print_partial`, `C70_commands`, `C70_continues`, `C70_print_stop`, `C70_quit`, `C70_unreadable`, `C70_quoted`, `C70_success`, `C70_split`, `C70_blank`, `C70_schema`, `C70_windows`, `C70_input_ends`. Proved for lines whose `--` are not in quotes: all are sent in order with the same tokens whatever the server answers; for all other lines what is sent is rejected or has the tokens of the line. Refuted for the rest: `--` in a string cuts the statement (C70_quoted), the exit code is always that for success (C70_success), statements on several lines are executed line by line (C70_split), an empty query is sent for an indented comment and errors of \dt are not reported (C70_blank), \d does not work for names with spaces (C70_schema), on Windows the second batch of a result can never be printed (C70_windows), and the client does not end when its input does (C70_input_ends).

### C71: INSERT stores the given rows

* Model: `Model/Insert.lean`: `write_all` of the three data sinks and `insert_into` of the two tables. The planning of INSERT in datafusion is modelled from its documentation; which columns it checks for null is arbitrary. The storage engine is a list of rows that can fail before or after the rows are stored..
* Proof: Induction over the batches with relations between given, planned and stored rows; the positions of the stored columns are those of C33..
* Partial: `C71_stored_partial`, `C71_failed_partial`, `C71_values_atomic`, `C71_succeeds`, `C71_missing_column`, `C71_normal_partial`, `C71_refused`, `C71_read_partial`, `C71_overwrite`, `C71_generated`, `C71_not_atomic`. Proved: what is stored and returned by a statement that succeeds, that statements with values that fit succeed, that VALUES is atomic up to failures of the storage engine after it has stored the rows, and that rows are read as given if the values of generated columns agree with their expressions. Refuted for the rest: OVERWRITE appends (C71_overwrite), values for generated columns are dropped without a check (C71_generated), and a statement with several batches that fails keeps the first batches (C71_not_atomic).

### C72: What a query returns does not depend on what the columns are called

* Model: `Model/QueryAnswer.lean`: `scan` and the operators it creates as one function from a query to the returned batches, composed from `QueryPlan` and `QueryStream`, with columns found by name in the schemas of segments, data points and joined batches..
* Proof: Each step commutes with the renaming; for filters, the operands of rewritten filters can only be tags..
* Partial: `C72_created`, `C72_same_answer_partial`, `C72_tag_names`, `C72_timestamp_name`. Proved for all renamings if no tag has a name the server uses for a column of segments or data points; the timestamp column and fields can have such names. Refuted otherwise (witnesses): a tag called value or timestamp makes queries for the tag abort the server and time filters fail, and whether a filter `expression = timestamp` fails depends on the name of the timestamp column.

### C73: A query returns the rows that were ingested

* Model: `Model/StoredTable.lean`: what compressing the finished buffers of `Model/Storage.lean` with `Model/Compression.lean` stores for a field, and the segments as they are read by `Model/QueryAnswer.lean`..
* Proof: Composition of C09, C10, C11, C22, C23, C34, C35 and C39: the buffers of a table hold its rows in time order without repeated timestamps, so each is compressed to valid segments that read back, the segments with matching rows are read, and the join of one field returns the data points as they are read..
* Partial: `C73_lossless_partial`, `C73_lossy_partial`, `C73_lossless_rows_partial`, `C73_lossy_rows_partial`. Proved for queries that read one field, also from conditions on the received rows only (C73_lossless_rows_partial, C73_lossy_rows_partial), with the conditions of the parts: no NaN, linear models that read back (C10, C11), no two series with the same hash, no repeated timestamps, no failing I/O (C22), no tags with names of the server (C57), no filters `expression = timestamp` (C34). Queries for several fields are C74. Missing are generated columns, which are shown for given segments in C40.

### C74: A query for several fields returns the rows that were ingested

* Model: As for C73, with the segments of all fields. `Spec/StorageOrder.lean` has the order in which rows are received, `Spec/EndToEndRows.lean` what is read and returned..
* Proof: An invariant of the storage engine (`Lemmas/StorageOrder.lean`): finished buffers of a series do not overlap, are before the open buffer and all are before the rows that wait. So the segments of each field do not overlap, the filter of the data points gives the same for all fields of a row (`Lemmas/FilterOrder.lean`), and the join is C39..
* Partial: `C74_rows_partial`, `C74_rows_scale_partial`, `C74_rows_mixed`. False of the code if the rows of a series are not received in the order of their timestamps: a query returns a value at a timestamp for which another value was ingested (witness from ingestion to the answer). Proved if they are, with the conditions of C73, also from conditions on the received rows only (C74_rows_scale_partial). Missing are batches of segments that are not full (C36); the segments of all fields are sorted when they are read, which is so if there are several files for each field; for other files see C80, for generated columns C77.

### C75: A CREATE TIME SERIES TABLE statement creates the table it declares

* Model: `Model/CreateTable.lean` has the parser from tokens to the statement, numbers from text to floats, and the semantic checks up to `try_new`. The expression parser, the cases of letters and the planner are inputs..
* Proof: `Lemmas/CreateTable.lean` shows that the parser accepts exactly the declared grammar (in both directions), `Lemmas/CreateTableChecks.lean` and `Lemmas/CreateTableAccept.lean` characterise each check, and `Lemmas/CreateTableNumbers.lean` shows what numbers stand for. Restarts use C30..
* Partial: `C75_written`, `C75_accepted_partial`, `C75_defines_partial`, `C75_number`, `C75_storable_partial`, `C75_restart_partial`, `C75_same_name_accepted`, `C75_expression_of_no_column`. False of the code for names of columns with other characters than ASCII characters: the names are compared with only ASCII letters in lower case but stored with all letters in lower case, so two columns can get the same name or an expression can refer to no column, and the server does not start again (witnesses). Proved for names with ASCII characters. The parts of sqlparser and datafusion that are used are given by `Sql` and assumed to be `Lawful`.

### C76: A CREATE TABLE statement creates the normal table it declares

* Model: `Model/CreateNormalTable.lean` has the checks of the parsed statement and the schema. Parsing is done by sqlparser, and `build_schema` and `flattened_fields` are those of datafusion and arrow..
* Proof: Each unsupported part is in the list of checks (by cases). The schema is related to the columns position by position; flattening keeps the declared columns as a sublist and is the identity for flat types..
* Partial: `C76_accepted`, `C76_declared`, `C76_columns_partial`, `C76_nested_fields_become_columns`, `C76_options_ignored`. False of the code for types with nested fields such as INT[]: the nested fields become columns of the table too (witness). Proved that no declared column is lost for all types, and that the columns are exactly the declared ones for types without nested fields. Options of columns such as UNIQUE and DEFAULT and the precision of timestamps are silently ignored (witness).

### C77: A query for generated columns returns the value of their expressions for the rows that were ingested

* Model: The models of C74 and C40 are composed: ingestion, buffers, compression, the stored segments, the plan, the join and `GeneratedAsExec`..
* Proof: The batches of the join have columns of one length each (by induction on the join columns), so the rows of the join are split as the batches. For each batch C40 gives the columns that are returned, which by `RowWise` are those of the rows..
* Partial: `C77_generated_partial`, `C77_generated_scale_partial`. As C74: rows of a series that are received in order of time (false otherwise, C74_rows_mixed), full batches of segments (false otherwise, C36_rows_lost), faithful linear models, which follow if the received rows have a scale (C77_generated_scale_partial). Queries for expressions that refer to no column only abort the server (C57_constant_column_panics). Expressions are evaluated by datafusion and can have any meaning that computes each row on its own (RowWise).

### C78: Requests that use a table at the same time

* Model: A transition system for one name: what is registered, on disk, in the log and in memory, and the next step of each request (lookup, steps of `create_time_series_table`, `drop_table`, `truncate_table`, batches of `do_put`)..
* Proof: An invariant for what is on disk, in memory and in the log for each step of the request that is processed, by induction on the operations. What a truncation leaves is shown with the rows received since it started. The states after a failed drop are closed under all operations, also those that are not orderly..
* Partial: `C78_rows_partial`, `C78_not_lost_partial`, `C78_logged_partial`, `C78_dropped_partial`, `C78_truncated_partial`, `C78_failed_drop`, `C78_rows_in_other_table`, `C78_rows_without_table`, `C78_created_table_deleted`, `C78_dropped_while_created`, `C78_rows_not_logged`. False in general, as no lock is held from the lookup of a table to the end of a request: rows sent to a dropped table are saved in the table created after it (C78_rows_in_other_table) or accepted and lost (C78_rows_without_table), overlapping requests to drop a table delete the next table (C78_created_table_deleted), a table dropped while it is created leaves a name that cannot be used (C78_dropped_while_created), and rows sent while a table is truncated can be missing from the log (C78_rows_not_logged). Proved if requests that create, drop or truncate the table do not overlap each other and rows are sent to the table that is registered (Orderly). Writes can overlap all other requests.

### C79: Rows survive any number of crashes and are returned once

* Model: A server with its data folder: what is in the tables and commits, the log, the batches that are still to be replayed, the batch that is in the log and not passed on, and the storage engine. A restart loses the storage engine and computes what is replayed from the log and the commits..
* Proof: An invariant by induction on the actions: the batches with ids in commits are those with a row in a table, and each other batch is in the storage engine, still to be replayed or being written. It is combined with the invariants of the storage engine for each lifetime (C20, C22, C23) and with C73 for the query. For several fields a second invariant across the restarts states that the rows of a series that were saved in earlier lifetimes are before those that are replayed or sent later; it uses that within a lifetime the saved rows of a series are before all others (saved_before)..
* Partial: `C79_no_row_twice`, `C79_acknowledged_kept_partial`, `C79_query_partial`, `C79_rows_partial`, `C79_query_scale_partial`, `C79_rows_scale_partial`, `C79_row_lost`. No row is stored twice and nothing else is stored, for all histories (C79_no_row_twice). False for rows of batches of which only other rows had been saved when the server was stopped (C79_row_lost, as in C20); all other acknowledged rows are returned, by queries for one field (C79_query_partial) and, if the rows of each series were sent in order, for any number of fields (C79_rows_partial). The write-ahead log is enabled and gives no id to two batches, its own files are the subject of C15 to C19 and of C81. Tables are neither dropped nor truncated. The other conditions are those of C22, C73 and C74: no failing I/O, no repeated timestamps, no hash collisions, and no linear models that are rounded, which follows if the rows that are sent have a scale (C79_query_scale_partial, C79_rows_scale_partial).

### C80: Rows are put together whatever files their fields are in

* Model: The saves of compressed buffers and the files each save writes for each field, where a file ends when its segments have reached a size; what a query reads of the files, sorted if there are several; the indices of the columns the files state to be sorted by..
* Proof: The data points of each field are shown to be in the same order: that of the segments in the one file, for which reading is a sublist, or the sorted order as in C74. The number of files of each field is related to the number of saves by induction. From there the join and the plan are those of C36 and C39..
* Partial: `C80_rows_partial`, `C80_one_file_partial`, `C80_rows_mixed`, `C80_stated_order_partial`, `C80_stated_order_wrong`. The segments in a file are in the order in which they were written, they are not sorted, although the plan of a query declares that they are. DataFusion relies on the declared order for one file and sorts the segments of several files. Proved if no file reached the size at which a new one is started or the table was saved at least twice (C80_rows_partial, with rows received in order), and if each field is in at most one file, for rows in any order (C80_one_file_partial). False if the table was saved once and some but not all fields got a second file: the values of different rows are returned in one row (C80_rows_mixed). The metadata of the files of every table with tags state an order by other columns (C80_stated_order_wrong). What DeltaWriter and FileScanConfig do is an assumption.

### C81: The files of the write-ahead log bring back every acknowledged row, whenever the server is stopped

* Model: The server of C79 put together with the log files of C15 to C19 for each table: ids come from the log of the table, what is replayed is read from the files, ids in commits are marked as persisted at any time after the commit, and a crash can be after each change to the folder of a log in append, mark and open..
* Proof: Simulation: each step of the server with files is no step or one step of the server of C79, and the log of each table follows a history of C15 to C19, so that ids are fresh (C17) and what is read is what was written without what is in commits (C18). The theorems of C79 then apply. The witnesses are executed by the kernel..
* Partial: `C81_replayed_partial`, `C81_no_row_twice_partial`, `C81_acknowledged_kept_partial`, `C81_rows_partial`, `C81_row_lost`, `C81_not_started`. False of the code. A row that was acknowledged alone in its batch is lost without any crash in the middle of an operation: when the segment of a newer batch is deleted before that of an older one, the id is given to another batch after the next restart, and that batch is taken to be saved (C81_row_lost). After a crash between the creation of a file of the log and the writing of its schema the server cannot be started (C81_not_started). Proved if crashes leave no file without a schema and no empty folder and if no segment is fully persisted before an older one: the server can be started and replays exactly the batches that are not in commits, and C79 then holds without its assumption that ids are not used twice, with its exception for batches of which only other rows had been saved. Tables are neither dropped nor truncated, one request at a time writes to the log, and directory operations are durable when they return.

### C82: A time series table created with the embedded library has the columns, error bounds and expressions that are asked for

* Model: try_new_time_series_table_metadata with maps as lists of pairs, TimeSeriesTableMetadata::try_new from C31, and the conversions of maps from C. The parser of expressions is a function from tokens to an expression and the tokens that are left..
* Proof: The loop over the columns is characterised with Forall₂, the constructor with the positions of the stored columns. Saving and loading is C30, sending is C56, numbers from C are C32. The false cases are executed by the kernel..
* Partial: `C82_accepted_partial`, `C82_made_partial`, `C82_nothing_ignored_partial`, `C82_storable_partial`, `C82_reopened_partial`, `C82_server`, `C82_c_partial`, `C82_c_zero_ends`, `C82_misspelled_ignored`, `C82_misspelled_not_parsed`, `C82_computed_bound_ignored`, `C82_rest_ignored`, `C82_not_computable`, `C82_computed_tag_forgotten`, `C82_tag_bound_forgotten`. False of the code in several ways. Error bounds and expressions for names that are no columns are ignored, even if the text is no expression (C82_misspelled_ignored, C82_misspelled_not_parsed), and so are error bounds of computed columns (C82_computed_bound_ignored) and what follows an expression in its text (C82_rest_ignored). Unlike for a statement it is not checked that an expression can be computed (C82_not_computable). Tags that are computed and error bounds of tags are accepted but forgotten when a data folder is opened again (C82_computed_tag_forgotten, C82_tag_bound_forgotten). From C, zero ends the process (C82_c_zero_ends). Proved for all requests without text after expressions: which are accepted, and what the table is. Proved for those in which all names are stored columns: nothing is ignored. Proved for all accepted requests: a server has the same definition. Expressions are abstract, and their texts are given as tokens.

### C83: Copying the result of a query adds exactly the rows of the result to a normal table, or nothing

* Model: DataFolder::copy and Client::copy on the tables of C44 to C46, with the result of the query as batches and errors in between. Writing to a data folder is that of C44 and to a server that of C64..
* Proof: Case analysis for data folders, induction over the batches for clients with any way of writing, C64 for servers. The false cases are executed by the kernel..
* Partial: `C83_folder`, `C83_folder_succeeds`, `C83_client_partial`, `C83_client_succeeds_partial`, `C83_to_server_partial`, `C83_client_half`, `C83_client_time_series`, `C83_client_empty`, `C83_to_server_other_order`. Proved for data folders. False for clients (witnesses): batches are written one by one, so a failure leaves the rows of the first batches, which are in the table twice when copying is tried again (C83_client_half); time series tables are accepted contrary to the documentation, so that values are approximated twice (C83_client_time_series); a result without batches is copied to a table that does not exist and one with an empty batch cannot be copied to a data folder (C83_client_empty); and a server stores columns in another order in the wrong columns (C83_to_server_other_order). Proved for clients: the rows of the first batches are added in order, and these are all batches exactly if copying succeeds. The result of the query is given, and writing all batches is one commit (C50).

### C84: Aggregates over values stored with an error bound are those of the ingested values up to the error bound

* Model: No new code: try_compress_univariate_time_series as in C09, the segments in any order and any number of partitions, and the rewritten aggregates as in C38..
* Proof: C11 for each series gives values within the bound in the order of ingestion, which are a permutation of the values of the partitions. C38 relates aggregates to the values that are read and C13 the stored minimum and maximum to them; the deviations are added up by induction. For regular timestamps the condition of C12 on each linear segment is derived from the series: the first and last value of the model are bounded by those of the series and the decoded last value is the one that is read, also if the line is zero. The false case is executed by the kernel..
* Partial: `C84_count`, `C84_min_max_partial`, `C84_sum_partial`, `C84_avg_partial`, `C84_avg_absolute_partial`, `C84_sum_regular_partial`, `C84_avg_regular_partial`, `C84_sum_wrong`, `C84_sum_negative_zero_wrong`. False for SUM (C84_sum_wrong): values at irregular timestamps that are read exactly as ingested sum to 51, but SUM is below 6, see C12. Also false with regular timestamps if a line goes from -0 to 0 (C84_sum_negative_zero_wrong): a residual of 50 is summed as -50, if f32::max of -0 and 0 is -0. COUNT is proved here for all series that C11 covers, and for all values and error bounds in C86_count. Proved for MIN and MAX of these series if their values and timestamps have the size that C13_linear_rounding_partial requires. Proved for SUM and AVG if each linear segment has no residuals or regular timestamps and reconstructs its last value, and the result is finite; the rounding error is explicit. For series with one interval between their timestamps, without negative zeros and of at most 2^24 points, C84_sum_regular_partial and C84_avg_regular_partial need no hypothesis about segments: the error is that of the bound plus an explicit rounding of the number of points and their size. What C11 requires is required here: finite values, values for which the lossless codec keeps the bound (C05), and linear models that read back values within the bound, which C11 derives from the size of the values and timestamps.

### C85: Every program that has a data folder open is told which tables exist and what they are

* Model: A data folder as its Delta tables and the rows of its metadata tables, the session of each program, and opening, closing, creating and dropping as steps; tables, schema and queries as functions of these for data folders and servers..
* Proof: Invariant over all sequences: the data folder contains the tables that exist, and the session of a program those it is up to date with. The false cases are executed by the kernel..
* Partial: `C85_listed`, `C85_listed_server_partial`, `C85_described_partial`, `C85_create_partial`, `C85_drop`, `C85_alone`, `C85_created_elsewhere`, `C85_normal_created_elsewhere`, `C85_dropped_elsewhere`, `C85_recreated`, `C85_server_out_of_date`. Proved for any number of programs: the names that are listed by programs that use the data folder directly, and the result of dropping. Proved for names that no other program tried to create or drop since the program opened the data folder, so for all names if it is alone: the schema, what can be queried and the result of creating, also for servers. False otherwise (witnesses): time series tables of other programs are listed but said not to be tables, normal tables can be written to but not queried, dropped time series tables still have a schema, creating a table again fails but creates it, and servers do not list tables of others. Servers only create and drop tables whose names they are up to date with. Requests are single steps (see C31 and C78), names stand for themselves (C62), and deltalake loads the latest version of tables.

### C86: Aggregates of a table are those of the rows that were ingested, up to the error bound

* Model: No new model: the storage engine of C21-C25, the compression of C09-C11 and the aggregates of C38. A specification of the aggregates of rows and of rows with a scale and with one interval..
* Proof: The batches of segments that are saved are parts of the rows that are received (C22, C23), so they have their scale, and for rows in order the part of a series is consecutive, so it has their interval. By C84 the aggregates of these are those of the values up to the error bound..
* Partial: `C86_count`, `C86_count_min_max_partial`, `C86_aggregates_partial`, `C86_query_partial`, `C86_restarts_partial`. Proved from conditions on the rows that are received only. COUNT: any values and error bounds (C86_count). MIN and MAX: the values are finite, not near zero compared to the error bound and do not change too much (RowsScale, the condition of C11, for lossless fields that of C10). SUM and AVG: also one interval per series and rows that are received in the order of their timestamps; SUM is wrong for irregular series (C84_sum_wrong). Missing: rows without a scale, two series with the same hash, repeated timestamps and I/O that fails (C22), sums that overflow, SUM and AVG after the server was stopped without warning (COUNT, MIN and MAX are shown in C86_restarts_partial), and GROUP BY and filters, for which the plan is not rewritten (C38).

### C87: Rows that are ingested by edge nodes are returned by queries in the cloud when they have been transferred

* Model: A new model of a node puts the server of C79 (write-ahead log, storage engine, restarts) and the transfer of a table of C26 together: what the server saves in a table is committed as a file of the table, and a restart stops both. The cloud has what the nodes have written, in any order..
* Proof: Each step of a node is a step of the server and of the table, so the invariants of C79 and C26 hold, and what is committed is what is saved. The files in the cloud are then those that are committed, as a multiset, so the rows are those that are saved; the segments are chunks that were saved, to which compression, reconstruction and queries apply as in C73 and C74. That segments do not overlap does not depend on their order and holds for different nodes as they have different series..
* Partial: `C87_nothing_invented`, `C87_one_place_partial`, `C87_acknowledged_partial`, `C87_query_partial`, `C87_rows_partial`, `C87_aggregates_partial`, `C87_row_lost`, `C87_row_twice`. Proved for histories in which nothing interferes with transfers (Calm, as for C26): nothing is committed to a table while a transfer of it runs, transfers of it do not overlap, and the node does not stop and no step fails between the write to the cloud and the local deletion. For other histories the property is false: C87_row_lost (a row that is committed while a transfer runs is deleted and not replayed either) and C87_row_twice (a crash between the write and the deletion). In every history what is returned in the cloud are rows that were sent, with their values (C87_nothing_invented, C87_query_partial). COUNT, MIN and MAX in the cloud are those of the rows (C87_aggregates_partial). Queries for several fields: each series is sent to one node with its rows in order (C74). Missing also: the cases in C73, C74 and C79, normal tables and tables that are dropped or truncated (C55, C61).

### C88: Settings that are changed while the server runs are used, reported and kept

* Model: A new model of a server with its configuration, the file, the memory of each of the three kinds, the transfer component and the log with the size of each table. A step is a request, a reservation of memory, the creation or removal of a table or a restart; whether the file can be written, memory freed and data transferred are inputs..
* Proof: What each request does is shown once for all settings (Sets, Refuses). Invariants over histories then say that the components use what is configured, that the file is a configuration that can be loaded, and that a confirmed value stays..
* Partial: `C88_confirmed`, `C88_refused_partial`, `C88_invalid_refused`, `C88_transfer_and_log`, `C88_memory_partial`, `C88_kept`, `C88_restarts_partial`, `C88_refused_used`, `C88_memory_wrong`, `C88_not_started`. False in three cases, each with a witness: a request is refused since the file cannot be written, but the value is used and reported until the next restart (C88_refused_used); compressed memory cannot be freed, and from then on the memory differs from what is reported, also after a later request is confirmed (C88_memory_wrong); a request for 2^63 bytes or more is confirmed, and the server panics each time it is started (C88_not_started). Proved for everything else. Transfers and log files use what is reported in every history.

### C89: The memory for compressed data can be changed while data is ingested

* Model: A new model of the writer thread and of a request with one step for each operation on the memory, the map and the queue: append or insert, push, reserve, check, pop, remove, write and give back. expect and unwrap abort the server..
* Proof: One invariant for all interleavings: the tables in the map are those in the queue and those taken from it, the batches are conserved and the memory is balanced. If the memory is only increased the remaining memory is not negative, so requests take nothing, and the buffer of a batch stays in the queue until there is memory. If the threads do not overlap an empty queue means that all memory has been given back..
* Partial: `C89_conserved`, `C89_within_partial`, `C89_increased_partial`, `C89_separate_partial`, `C89_reduction_aborts`, `C89_writer_aborts`, `C89_failure_aborts`. False of the code: each request that reduces the memory can abort the server (C89_reduction_aborts, for all amounts), since the memory of a buffer is only given back when it has been written but the buffer is removed from the queue before; a batch that is received while a request saves a buffer can too (C89_writer_aborts), and so can a request after a buffer could not be saved (C89_failure_aborts). Proved: the server keeps running if the memory is only increased, in every interleaving and with failures, and if requests and the writer thread do not overlap. In every interleaving nothing is lost or written twice. Missing in C89_within_partial: several fields (C24) and failures.

### C90: The memory for uncompressed data can be changed while rows are ingested

* Model: A new model of the ingestion thread, the compression thread and a request with one step for each operation on the memory and on one of the two maps, and one for writing or reading a file. expect and the first timestamp of an empty buffer abort the server; entries of a map that are replaced are recorded as lost..
* Proof: One invariant for all interleavings counts each row in the maps, the channel, the hands of the threads, what has been compressed and what is lost. If the threads do not meet, a time series has a buffer in memory or on disk but not both, what a thread has found is still there, and no buffer in memory is empty. The memory: a change that is not negative never makes a request spill, and for one that is negative what remains without it is not negative..
* Partial: `C90_conserved`, `C90_remaining_partial`, `C90_kept_partial`, `C90_increased_partial`, `C90_separate_partial`, `C90_full_aborts`, `C90_unused_aborts`, `C90_request_aborts`, `C90_overlap_loses`, `C90_ingestion_ends`, `C90_failure_aborts`, `C90_cancelled_loses`, `C90_cancelled_negative`. False of the code: a request that spills a buffer while a batch is processed can abort the server (C90_full_aborts, C90_unused_aborts, C90_request_aborts), can lose rows since a time series gets two buffers and one replaces the other on disk (C90_overlap_loses), and can end the ingestion thread (C90_ingestion_ends). A file that cannot be written empties the buffer, and spilling it again aborts the server (C90_failure_aborts). A client that goes away loses the buffer that is being written and leaves the memory negative (C90_cancelled_loses, C90_cancelled_negative). Proved: if no request spills while a batch is processed, in particular if the memory is only increased or requests and batches do not overlap, the server keeps running and no row is lost or duplicated; in every interleaving no row is duplicated and each that is lost is lost in one of these ways; without cancelled requests the remaining memory is not negative.

### C91: Rows that are deleted in the whole cluster are gone, and other rows are kept

* Model: A new model of the rows of a cluster: memory and local data folder of each node, remote data folder, list of nodes, and requests that delete rows with one step per table in the remote data folder, per node and for the node itself..
* Proof: For one row: which nodes and folders are known not to have it, depending on how far the request is, is an invariant of all steps. For a row that is not deleted: the number of times that it is in its node and the remote data folder is 1..
* Partial: `C91_gone_partial`, `C91_stay_gone`, `C91_others_kept`, `C91_truncate_node`, `C91_transferred_remains`, `C91_stopped_remains`, `C91_failed_part`, `C91_crashed_fails`, `C91_cloud_not_deleted`. False of the code: rows are deleted from the remote data folder before the nodes delete theirs, so rows that an edge node transfers in between remain although the request succeeds (C91_transferred_remains); rows in the local data folder of a node that was stopped are transferred when it is started again (C91_stopped_remains). Also shown: a request that fails is not undone (C91_failed_part), a node that crashed makes requests fail until it is started again (C91_crashed_fails), and TRUNCATE at a cloud node succeeds but deletes none of the rows it returns (C91_cloud_not_deleted). Proved: if no node transfers rows of the table or leaves while the request is executed and nodes with rows are listed, the rows are gone everywhere; rows that are gone stay gone; rows of other tables are in the cluster exactly once.

### C92: A client that asks a cluster where to execute a query is sent to a node that answers it from the rows of all nodes

* Model: The model of C91, with the mode of each node in the list of nodes and the choice of a random cloud node..
* Proof: Two invariants of the list of nodes: each node that has started is in it, and cloud nodes in it have started as cloud nodes unless they crashed. The count of a row as for C91; after FlushNode it is in the remote data folder..
* Partial: `C92_found`, `C92_each`, `C92_cloud_partial`, `C92_answered_partial`, `C92_only_ingested`, `C92_crashed`, `C92_other_mode`, `C92_starting`, `C92_no_cloud_node`, `C92_listed_twice`. False of the code: a cloud node that crashed stays in the list, so clients are sent to a node that does not answer (C92_crashed), and if it is started again as an edge node clients are sent to it and silently get its own rows only (C92_other_mode); a node is in the list before it receives requests (C92_starting). Proved: while a cloud node is running each client is sent somewhere and each running cloud node may be chosen; if cloud nodes do not crash the node is a cloud node that is running or starting, and when it has started each row that was ingested and transferred is returned exactly once; in all executions only rows that were ingested into the table are returned.

### C93: A query that includes other nodes returns each row once

* Model: The tables of C26, one for each node, with the nodes that have yet to plan a query. The receiver plans the query first and then the addresses in order; each uses the files of its data folder at that moment..
* Proof: Each node's table is the run of its own steps, so C26 holds for it. What is in the remote data folder stays there. The count of a file in the result is the sum of its counts at the moments at which the nodes plan the query..
* Partial: `C93_nothing_invented`, `C93_not_missed_partial`, `C93_edge_first_partial`, `C93_exact_partial`, `C93_cloud_first_partial`, `C93_missed_when_cloud_first`, `C93_twice_when_edge_first`, `C93_twice_in_window`, `C93_twice_when_named_twice`. False of the code: rows transferred during the query are missing if the cloud node plans it first (C93_missed_when_cloud_first) and returned twice if the edge node does (C93_twice_when_edge_first); rows that are in both data folders during a transfer are returned twice (C93_twice_in_window), and so are the rows of a node that is named twice or received the query (C93_twice_when_named_twice). Proved: only saved files are returned; nothing is missing if the edge node plans the query first; nothing is returned twice if the cloud node does and the edge node is then not between writing and deleting; each file is returned exactly as often as it was saved if the edge node transfers nothing during the query.

### C94: A statement for the whole cluster is executed by each running node, whatever machines and addresses the nodes have

* Model: Nodes with a machine, host and port, the URLs in the list of nodes, starting, listening on a port of a machine, leaving and crashing, and a network that maps a URL at a machine to a machine and port..
* Proof: Invariants: a running node with a URL of its own is in the list, and at most one node listens on a port of a machine. URLs are taken apart at the last colon..
* Partial: `C94_url`, `C94_reached_partial`, `C94_only_running`, `C94_same_address`, `C94_default_missed`, `C94_removed_by_other`, `C94_wrong_machine`, `C94_port_in_use`. False of the code: the host a node is started with is its name in the list of nodes although the server listens on 0.0.0.0 whatever the host is. If nodes on different machines have the same host and port, e.g. the default 127.0.0.1:9999 or 0.0.0.0 as in the user manual, every statement for the whole cluster succeeds and is executed by one node only, in all executions (C94_same_address); a node that leaves removes the others with its address (C94_removed_by_other); 127.0.0.1 with another port leads to the wrong machine (C94_wrong_machine); a node that cannot listen stays in the list (C94_port_in_use). Proved: URLs are equal if and only if hosts and ports are; a running node whose host and port are its own and lead to it executes each statement that succeeds, whatever the other nodes do; only running nodes execute it.

### C95: A query returns the rows that its tables have at one moment, whatever happens to the tables while it is executed

* Model: Verif.Model.Snapshots: the files of a table and of writers, the latest version of the log with the files removed from it, VACUUM, checkpoints, DROP and queries that load a version and read its files one after another, with a clock for each machine..
* Proof: An invariant over all executions: files of the table and of writers exist and are never among those that VACUUM deletes. A query is traced to the moments at which its table was scanned. Files that a query has yet to read were removed after it was sent, so that retention periods that are long enough keep them..
* Partial: `C95_one_version`, `C95_rows_returned`, `C95_not_failed_partial`, `C95_vacuum_keeps_rows`, `C95_freed_partial`, `C95_fails_without_retention`, `C95_fails_with_wrong_clock`, `C95_two_versions`, `C95_never_freed`, `C95_forgotten`. Proved for all executions that each result of a query that succeeds is the rows of the table at one moment, that VACUUM never changes rows or deletes files that are being written, and that queries shorter than the retention period less twice the difference of the clocks do not fail. False: a query fails if the files it reads are vacuumed (C95_fails_without_retention, C95_fails_with_wrong_clock), a query that mentions a table twice reads two versions of it (C95_two_versions), files of writers that were stopped before they committed are never deleted (C95_never_freed), and files that were removed a week before a checkpoint are not deleted (C95_forgotten).

### C96: The error of a generated column that cannot be computed names the column, the row and the cause

* Model: Verif.Model.FailingRow: batches with arrays of each type, the search for the first row that fails, its formatting and the loop over the generated columns. Expressions are functions that say for which batches they fail..
* Proof: Induction over the rows before the first that fails, over the columns that are formatted and over the generated columns..
* Partial: `C96_first_row_partial`, `C96_first_column`, `C96_tags_hide_row`, `C96_no_panic`. Proved for all batches without tags that the error names the column, the first row that fails and the cause, that it is the error of the first such column, and that there is no panic. False for queries that read a tag: tags are string views, which are not supported when the row is formatted, so that the error only says that the type of the tag is not supported (C96_tags_hide_row, proved for all batches with a tag).

### C97: Rows can be written with the schema of a table that programs are told

* Model: Verif.Model.SchemaOf: the schema programs are told, messages read with the schema of the stored columns as in C64, and the check of data folders as in C44..
* Proof: Messages with more columns than the table are decoded by position. Induction over the columns shows which stored column is at which position..
* Partial: `C97_told_is_returned`, `C97_by_position`, `C97_server_partial`, `C97_wrong_values`, `C97_folder`. Proved for servers if generated columns come after all stored columns, and for data folders if and only if there is no generated column (C97_folder: all other rows are rejected). False for servers otherwise: messages are read by position with the schema of the stored columns, so that a field gets the values of a generated column before it, without an error (C97_wrong_values, proved for all tables in which a stored field follows a generated column and only fields follow it).

