{"id": "C01", "title": "Timestamps are compressed losslessly", "statement": "Take any series of strictly increasing timestamps (64-bit milliseconds, differences representable in 64 bits), compress its timestamps into a segment and decompress them again from the segment's start time, end time and timestamp bytes: exactly the same timestamps come back, in the same order, with none missing, added or moved. It does not matter whether the series is regular or irregular, how large the gaps are, or how many timestamps there are.", "quantifier": "every finite strictly increasing list of signed 64-bit timestamps, of every length >= 1, every mix of delta-of-delta sizes", "why_tests_cant": "The variable-length code has six ranges per delta, a padding rule that depends on the bit position modulo 8 and a length prefix; the input space is unbounded and a wrong boundary shows only for one particular delta at one particular bit offset.", "anchors": ["crates/modelardb_compression/src/models/timestamps.rs: compress_residual_timestamps, decompress_all_timestamps", "crates/modelardb_compression/src/models/bits.rs: BitReader, BitVecBuilder"]}
{"id": "C02", "title": "Repeated timestamps survive compression", "statement": "A series in which two or more points carry the same timestamp can be stored and read back: decompressing the segment returns every timestamp as often as it was ingested and does not panic.", "quantifier": "every finite non-decreasing list of timestamps, in particular those with equal neighbours", "why_tests_cant": "Ingestion does not reject duplicates, so this is about every multiset of timestamps; the tests only use strictly increasing ones.", "anchors": ["crates/modelardb_compression/src/models/timestamps.rs: compress_residual_timestamps, decompress_all_timestamps, decompress_all_regular_timestamps", "crates/modelardb_compression/src/models/mod.rs: len"]}
{"id": "C03", "title": "A segment knows how many points it stores", "statement": "The number of points reported for a stored segment without decompressing its values (used by COUNT, by SUM and by the splitting of model values and residual values) is the number of timestamps that were compressed into it.", "quantifier": "every strictly increasing list of timestamps stored in a segment", "why_tests_cant": "The count is computed by a separate code path from the decompression; agreement must hold for every input, not for a few examples.", "anchors": ["crates/modelardb_compression/src/models/mod.rs: len", "crates/modelardb_compression/src/models/timestamps.rs: decompress_all_timestamps, are_timestamps_regular, are_compressed_timestamps_regular"]}
{"id": "C04", "title": "The XOR value codec is lossless", "statement": "With a lossless error bound the values of a series that are stored with the XOR codec (as a segment of their own, or as residuals that follow another model) decode to exactly the same bit patterns, for every 32-bit float including signed zeros, infinities, subnormals and NaN payloads.", "quantifier": "every finite list of 32-bit patterns, every preceding model value, with and without explicitly stored first value", "why_tests_cant": "The code is stateful (leading/trailing zero window carried from value to value), so correctness depends on the whole history and on the bit offset of every field.", "anchors": ["crates/modelardb_compression/src/models/macaque_v.rs: MacaqueV::compress_values, compress_values_without_first, compress_value_xor_last_value, model, grid", "crates/modelardb_compression/src/models/bits.rs"]}
{"id": "C05", "title": "The XOR value codec stays within the error bound", "statement": "With an absolute or relative error bound every value decoded from the XOR codec is within the error bound of the value that was ingested (in the sense of the system's own error-bound check), or is equal to it, or both are NaN.", "quantifier": "every finite list of 32-bit floats, every valid absolute or relative error bound", "why_tests_cant": "The mantissa rewriting uses logarithms, exponents and shifts; failures occur only for particular ratios between the error bound and the magnitude of the value.", "anchors": ["crates/modelardb_compression/src/models/macaque_v.rs: compress_value_xor_last_value, rewrite_least_mantissa_bits, rewrite_bits_by_n, get_exponent", "crates/modelardb_compression/src/models/mod.rs: is_value_within_error_bound, maximum_allowed_deviation"]}
{"id": "C06", "title": "Constant models respect the error bound", "statement": "Whenever the constant (PMC-mean) model accepts a run of values, the single value it stores is within the error bound of every one of those values, for lossless, absolute and relative bounds, including runs that contain infinities or NaN.", "quantifier": "every sequence of offered values of any length, every error bound", "why_tests_cant": "The accept decision looks only at the running minimum and maximum and a rounded mean; that this implies the bound for every value in between is an induction over all histories and a fact about monotonicity of float rounding.", "anchors": ["crates/modelardb_compression/src/models/pmc_mean.rs: PMCMean::fit_value, model", "crates/modelardb_compression/src/models/mod.rs: is_value_within_error_bound"]}
{"id": "C07", "title": "Linear models respect the error bound", "statement": "Whenever the linear (Swing) model accepts a run of points, every value reconstructed from the stored first value, last value and timestamps is within the error bound of the ingested value.", "quantifier": "every sequence of offered (timestamp, value) pairs of any length, every error bound", "why_tests_cant": "The invariant is that the final line lies between an upper and a lower line updated at every point; it must hold for every history, and floating-point rounding can break it at particular magnitudes.", "anchors": ["crates/modelardb_compression/src/models/swing.rs: Swing::fit_data_point, model, grid, compute_slope_and_intercept", "crates/modelardb_compression/src/models/mod.rs: is_value_within_error_bound"]}
{"id": "C08", "title": "Model parameters survive being packed into a segment", "statement": "The parameters of a constant or linear model that are packed into the value bytes of a segment (possibly omitted when they equal the stored minimum or maximum) are recovered exactly when the segment is read, whether or not residual values widened the stored minimum and maximum.", "quantifier": "every model (first and last value, minimum and maximum), every widening of minimum and maximum by residuals", "why_tests_cant": "The encoding has a dozen cases depending on float equality between five numbers, including NaN, infinities and signed zeros.", "anchors": ["crates/modelardb_compression/src/types.rs: CompressedSegmentBuilder::finish, encode_values_for_pmc_mean, decode_values_for_pmc_mean, encode_values_for_swing, decode_values_for_swing, ModelBuilder::finish, CompressedSegmentBuilder"]}
{"id": "C09", "title": "Every ingested point is in exactly one segment", "statement": "Compressing a univariate series produces segments that, in order, cover the series exactly: the first segment starts at the first point, each following segment starts at the point after the end of the previous one, the last segment ends at the last point; no point is skipped, repeated or reordered, no segment is empty and at most 255 points of a segment are residuals.", "quantifier": "every non-empty series, every error bound, every outcome of the model-fitting decisions", "why_tests_cant": "The splitting loop interleaves two models, an early-flush rule and a residual limit; off-by-one errors appear only for particular run lengths.", "anchors": ["crates/modelardb_compression/src/compression.rs: try_compress_univariate_time_series, fit_next_model, store_compressed_segments_with_model_and_or_residuals, compress_and_store_residuals_in_a_separate_segment", "crates/modelardb_compression/src/types.rs: CompressedSegmentBuilder"]}
{"id": "C10", "title": "Lossless series read back unchanged", "statement": "Ingesting a univariate series with strictly increasing timestamps and a lossless error bound and reading it back returns the same timestamps and, for each, an equal value (equal as a float, or NaN for NaN).", "quantifier": "every non-empty series with strictly increasing timestamps and lossless error bound", "why_tests_cant": "End-to-end statement over all inputs: segmentation, timestamp code, model choice, parameter packing, residuals and all decoders have to agree.", "anchors": ["crates/modelardb_compression/src/compression.rs: try_compress_univariate_time_series", "crates/modelardb_compression/src/models/mod.rs: grid", "crates/modelardb_compression/src/types.rs: CompressedSegmentBuilder"]}
{"id": "C11", "title": "Lossy series read back within the error bound", "statement": "Ingesting a univariate series with an absolute or relative error bound and reading it back returns the same timestamps and, for each, a value within the error bound of the ingested value.", "quantifier": "every non-empty series with strictly increasing timestamps, every valid error bound", "why_tests_cant": "Same as for lossless, plus the error-bound reasoning for each of the three models and the residuals.", "anchors": ["crates/modelardb_compression/src/compression.rs: try_compress_univariate_time_series", "crates/modelardb_compression/src/models/mod.rs: grid, is_value_within_error_bound"]}
{"id": "C12", "title": "SUM computed from a segment equals the sum of its points", "statement": "The sum that is computed directly from a segment (used to answer SUM and AVG without reconstructing the points) is the sum of the values that reading the segment returns, up to floating-point rounding of the summation, also when the segment carries residual values.", "quantifier": "every segment of every model type, with and without residuals", "why_tests_cant": "SUM uses closed formulas and its own traversal; tests compare on a handful of segments and with tolerances large enough to hide the defect.", "anchors": ["crates/modelardb_compression/src/models/mod.rs: sum", "crates/modelardb_compression/src/models/swing.rs: sum, grid", "crates/modelardb_compression/src/models/pmc_mean.rs: sum", "crates/modelardb_compression/src/models/macaque_v.rs: sum"]}
{"id": "C13", "title": "Segment minimum and maximum bound the stored values", "statement": "The minimum and maximum stored with a segment are attained by and bound the values that were ingested into it, so that MIN and MAX can be answered from them: no ingested number lies outside, and both are values of the series (NaN is ignored).", "quantifier": "every run of values represented by a segment including its residuals", "why_tests_cant": "Minimum and maximum are merged from the model and from rewritten residuals along different code paths.", "anchors": ["crates/modelardb_compression/src/types.rs: CompressedSegmentBuilder::finish", "crates/modelardb_compression/src/models/pmc_mean.rs: fit_value", "crates/modelardb_compression/src/models/swing.rs: fit_data_point", "crates/modelardb_compression/src/models/macaque_v.rs: update_min_max_and_last_value"]}
{"id": "C14", "title": "Series with different tags are never mixed during bulk compression", "statement": "Compressing a batch with rows of many series produces, for every distinct combination of tag values, segments that contain exactly the rows with these tag values, sorted by timestamp; rows of two different combinations never share a segment and no row is lost.", "quantifier": "every batch of rows with any number of tag columns and any tag values", "why_tests_cant": "Grouping is done by sorting and scanning for changes; all permutations and all tag contents have to be covered.", "anchors": ["crates/modelardb_compression/src/compression.rs: try_compress_multivariate_time_series, sort_time_series_by_tags_and_time, try_split_and_compress_univariate_time_series"]}
{"id": "C15", "title": "An acknowledged write is recoverable until it is saved", "statement": "After a write has been appended to the write-ahead log and acknowledged, a crash at any later moment and a restart leave the batch available for replay, unless its id was recorded as persisted; it keeps the id it was acknowledged with.", "quantifier": "every interleaving of appends, segment rotations, persisted-notifications, crashes (also in the middle of an operation) and restarts", "why_tests_cant": "Crash points are not enumerable in unit tests: the statement is about every prefix of every history of file operations.", "anchors": ["crates/modelardb_storage/src/write_ahead_log.rs: SegmentedLog::append_and_sync, close_active_segment, try_new, close_leftover_active_segment, find_closed_segments, unpersisted_batches"]}
{"id": "C16", "title": "Log files are deleted only when everything in them is saved", "statement": "A write-ahead-log file is removed only if every batch in it has been recorded as persisted (or the table is truncated or dropped); in particular the file that is currently written to is never removed by persisted-notifications.", "quantifier": "every history of appends, rotations and persisted-notifications with arbitrary ids, in any order", "why_tests_cant": "Ids can be persisted out of order and across several files; deletion is decided from ranges.", "anchors": ["crates/modelardb_storage/src/write_ahead_log.rs: SegmentedLog::mark_batches_as_persisted, is_fully_persisted"]}
{"id": "C17", "title": "Batch ids are never reused", "statement": "Two batches written to the same table never get the same batch id, also when the server is restarted in between, so the record of persisted ids never hides a batch that was not saved.", "quantifier": "every history of appends, rotations, persisted-notifications, truncations, crashes and restarts", "why_tests_cant": "The next id after a restart is derived from the names of the files that happen to be left; only particular orders of deletion and crash make this go wrong.", "anchors": ["crates/modelardb_storage/src/write_ahead_log.rs: SegmentedLog::try_new, load_persisted_batches_from_delta_table, truncate"]}
{"id": "C18", "title": "Replay after a restart returns exactly the unsaved batches in order", "statement": "After a restart the batches returned for replay are exactly the acknowledged batches whose ids are not recorded as persisted, each once, in the order they were acknowledged, with their original ids.", "quantifier": "every log state reachable without a crash inside an operation, every set of persisted ids", "why_tests_cant": "The ids are recomputed from file names and positions inside files; all splits of the history over files matter.", "anchors": ["crates/modelardb_storage/src/write_ahead_log.rs: unpersisted_batches, all_batches, read_batches_from_path", "crates/modelardb_server/src/context.rs: replay_write_ahead_log"]}
{"id": "C19", "title": "Truncating a table forgets its log but never an id", "statement": "After truncate returns, no batch written before is replayed after a restart, every batch written afterwards is, and ids keep increasing.", "quantifier": "every history followed by truncate and further writes, crashes at every step of truncate", "why_tests_cant": "Truncate is a sequence of file deletions and a creation; every crash point between them is a different state.", "anchors": ["crates/modelardb_storage/src/write_ahead_log.rs: SegmentedLog::truncate", "crates/modelardb_server/src/context.rs: truncate_table"]}
{"id": "C20", "title": "An acknowledged point is never lost in a crash", "statement": "If the server acknowledged a batch of rows and then crashes at an arbitrary moment, then after restart and replay every row of the batch is either in the table or replayed.", "quantifier": "every history of ingested batches with rows of several series, buffer finishes, saves and one crash at any point", "why_tests_cant": "The id of a batch is attached to every buffer it touches, and persisted as soon as the first of them is saved; the loss needs a crash between saves of different series.", "anchors": ["crates/modelardb_server/src/storage/uncompressed_data_manager.rs: insert_data_points, process_compressor_messages, compress_finished_buffer", "crates/modelardb_server/src/storage/compressed_data_manager.rs: save_compressed_data", "crates/modelardb_storage/src/write_ahead_log.rs: mark_batches_as_persisted"]}
{"id": "C21", "title": "Different series never share a buffer", "statement": "Points that belong to different tables or to different combinations of tag values are never collected in the same in-memory buffer, so they are never stored as one series.", "quantifier": "every pair of (table, tag values), every tag string", "why_tests_cant": "The buffer key is a hash of concatenated strings; colliding inputs have to be constructed, random tests do not find them.", "anchors": ["crates/modelardb_server/src/storage/uncompressed_data_manager.rs: calculate_tag_hash, insert_data_points, insert_data_point"]}
{"id": "C22", "title": "Buffering loses and duplicates nothing", "statement": "At any moment, the points in open buffers, in finished buffers and in handed-over batches together are exactly the points received so far for each series, each once; a buffer is handed over when it is full, when it has been idle, or on flush, never exceeds its capacity, and the handed-over rows are sorted by timestamp.", "quantifier": "every sequence of received batches and control messages", "why_tests_cant": "The state machine has unbounded histories; points are moved between maps and queues on several paths.", "anchors": ["crates/modelardb_server/src/storage/uncompressed_data_manager.rs: insert_data_points, insert_data_point, finish_unused_buffers, flush", "crates/modelardb_server/src/storage/uncompressed_data_buffer.rs: UncompressedInMemoryDataBuffer"]}
{"id": "C23", "title": "Flush saves everything that was acknowledged before it", "statement": "When a flush request returns successfully, every row that was acknowledged before the request is stored on disk (if no I/O operation fails), whatever was in the queues between the pipeline stages at that time.", "quantifier": "every interleaving of the ingestion, compression and saving threads, every queue content", "why_tests_cant": "It is a statement about every schedule of three threads connected by queues.", "anchors": ["crates/modelardb_server/src/storage/mod.rs: StorageEngine::flush", "crates/modelardb_server/src/storage/types.rs: Channels, Message", "crates/modelardb_server/src/storage/uncompressed_data_manager.rs: process_uncompressed_messages, process_compressor_messages", "crates/modelardb_server/src/storage/compressed_data_manager.rs: process_compressed_messages"]}
{"id": "C24", "title": "Memory accounting is exact", "statement": "For each of the three memory budgets, the remaining memory equals the configured amount minus the memory held by live batches, buffers and segments; when the pipeline is empty all of it is available again, and it never exceeds what is configured.", "quantifier": "every history of inserts, spills, compressions, saves and configuration changes", "why_tests_cant": "A drift of some bytes per operation is invisible in short tests and accumulates without limit in long runs.", "anchors": ["crates/modelardb_server/src/storage/types.rs: MemoryPool", "crates/modelardb_server/src/storage/compressed_data_manager.rs: insert_compressed_segments, save_compressed_data", "crates/modelardb_server/src/storage/compressed_data_buffer.rs: CompressedDataBuffer", "crates/modelardb_server/src/storage/uncompressed_data_manager.rs"]}
{"id": "C25", "title": "Waiting for memory cannot be forgotten", "statement": "A thread that waits for memory is resumed once enough memory has been released, no memory is handed out twice, and a request that can never be satisfied is the only one that can wait forever.", "quantifier": "every schedule of reserving, waiting and releasing threads", "why_tests_cant": "Lost wake-ups appear only for particular interleavings of a condition variable.", "anchors": ["crates/modelardb_server/src/storage/types.rs: MemoryPool::wait_for_ingested_memory, wait_for_uncompressed_memory_until, try_reserve_compressed_memory, adjust_ingested_memory"]}
{"id": "C26", "title": "Transfer moves every saved row to the remote store exactly once", "statement": "Data transfer copies the rows of a table to the remote store and removes them locally; at every moment, including after a crash or a failed step, each row is in the local or the remote table, and never in both after the transfer has finished.", "quantifier": "every interleaving of saves, transfers of the same table and crash points inside a transfer", "why_tests_cant": "Requires considering every point between remote commit and local truncate and every concurrent commit.", "anchors": ["crates/modelardb_server/src/storage/data_transfer.rs: DataTransfer::transfer_data, increase_table_size, transfer_larger_than_threshold"]}
{"id": "C27", "title": "Transfer bookkeeping matches what is on disk", "statement": "The number of bytes the transfer component believes is waiting for a table is the number of bytes saved locally and not yet transferred, it never becomes negative, and a table whose amount reaches the batch size is transferred.", "quantifier": "every sequence of size increases, transfers, drops and batch-size changes", "why_tests_cant": "Sizes are captured at one time and subtracted at another; histories are unbounded.", "anchors": ["crates/modelardb_server/src/storage/data_transfer.rs: increase_table_size, transfer_data, set_transfer_batch_size_in_bytes, mark_table_as_dropped, clear_table"]}
{"id": "C28", "title": "Changing a memory setting changes the budget by exactly the difference", "statement": "After any sequence of successful updates of the memory settings, the sum of remaining and used memory of each budget equals the currently configured value, and the configuration file holds the currently configured values.", "quantifier": "every sequence of updates, every 64-bit value, interleaved with inserts", "why_tests_cant": "The difference is computed with casts between unsigned and signed integers, so very large values matter.", "anchors": ["crates/modelardb_server/src/configuration.rs: set_multivariate_reserved_memory_in_bytes, set_uncompressed_reserved_memory_in_bytes, set_compressed_reserved_memory_in_bytes", "crates/modelardb_server/src/storage/types.rs: MemoryPool::adjust_ingested_memory"]}
{"id": "C29", "title": "Configuration precedence and validity", "statement": "The configuration the server runs with takes each setting from the command line if given there, otherwise from the configuration file, otherwise from the default, and is only used if it is valid.", "quantifier": "every combination of present and absent settings and every value", "why_tests_cant": "Three optional layers for ten settings give more combinations than can be enumerated.", "anchors": ["crates/modelardb_server/src/configuration.rs: ConfigurationManager::try_new, Configuration::validate, update_from_args"]}
{"id": "C30", "title": "Table metadata survives a restart", "statement": "The schema, error bounds and generated columns that a time series table was created with are the ones the server uses after a restart.", "quantifier": "every valid time series table definition", "why_tests_cant": "Metadata are stored column by column in a different representation; every combination of column kinds and bounds matters.", "anchors": ["crates/modelardb_storage/src/data_folder/mod.rs: save_time_series_table_metadata, time_series_table_metadata_for_time_series_table, error_bounds, generated_columns", "crates/modelardb_types/src/types.rs: TimeSeriesTableMetadata::try_new, ErrorBound"]}
{"id": "C31", "title": "Creating a table is atomic", "statement": "If the server crashes while it creates a table, then after a restart the table either exists with exactly the requested definition or does not exist and can be created again.", "quantifier": "every table definition, every crash point between the individual commits", "why_tests_cant": "Each commit boundary gives a new on-disk state; tests do not crash in between.", "anchors": ["crates/modelardb_storage/src/data_folder/mod.rs: create_time_series_table, save_time_series_table_metadata, create_normal_table, drop_table", "crates/modelardb_server/src/context.rs: create_time_series_table"]}
{"id": "C32", "title": "Only valid error bounds are accepted", "statement": "No interface of the system accepts an absolute error bound that is not a positive finite number or a relative error bound outside (0, 100]; everything that is accepted is accepted again when metadata are reloaded.", "quantifier": "every 32-bit float and bound kind, for each interface (SQL, protobuf, metadata tables)", "why_tests_cant": "There are several construction paths; the invalid set is large and includes NaN and infinities.", "anchors": ["crates/modelardb_types/src/types.rs: ErrorBound::try_new_absolute, try_new_relative", "crates/modelardb_types/src/flight/mod.rs: decode_error_bounds", "crates/modelardb_storage/src/data_folder/mod.rs: error_bounds", "crates/modelardb_storage/src/parser.rs: extract_error_bounds_for_all_columns"]}
{"id": "C33", "title": "Stored columns and query columns correspond", "statement": "The stored schema is the query schema without the generated columns, in the same order, and the positions computed from it pick for every stored column the column with its name; tag and field positions refer to the stored schema.", "quantifier": "every valid time series table definition", "why_tests_cant": "Index arithmetic over arbitrary column orders.", "anchors": ["crates/modelardb_types/src/types.rs: TimeSeriesTableMetadata::try_new, query_schema_to_schema, is_tag"]}
{"id": "C34", "title": "Time filters never lose matching rows", "statement": "A filter on the timestamp column that is pushed down to the stored segments returns every row that satisfies it: no segment that contains a matching row is skipped and no matching row is removed, whichever side of the comparison the column is on.", "quantifier": "every comparison operator, both operand orders, conjunctions and disjunctions, every segment and every timestamp", "why_tests_cant": "Wrong pruning only shows for queries whose bounds fall inside segments, with the unusual operand order.", "anchors": ["crates/modelardb_storage/src/query/time_series_table.rs: rewrite_filter, rewrite_and_combine_filters"]}
{"id": "C35", "title": "Reconstruction returns every point whatever the batching", "statement": "Reading a field returns exactly the points of its segments that satisfy the filter, once each and in order, independent of how segments are distributed over input batches and of the output batch size.", "quantifier": "every sequence of input batches, every predicate, every batch size >= 1", "why_tests_cant": "Left-over handling between batches depends on all possible sizes.", "anchors": ["crates/modelardb_storage/src/query/grid_exec.rs: GridStream::grid_and_append_to_leftovers_in_current_batch, poll_next"]}
{"id": "C36", "title": "Fields of one row belong to the same timestamp", "statement": "A query that reads several fields of a time series table returns rows in which the timestamp, the tags and all field values belong to the same ingested row, and returns all rows.", "quantifier": "every number of fields, every segmentation of each field, every batching of the inputs", "why_tests_cant": "The fields are compressed independently, so their segments and batches differ; misalignment needs particular sizes.", "anchors": ["crates/modelardb_storage/src/query/sorted_join_exec.rs: SortedJoinStream::poll_all_pending_inputs, set_batch_num_rows_to_smallest, sorted_join", "crates/modelardb_storage/src/query/grid_exec.rs"]}
{"id": "C37", "title": "A failed read is reported", "statement": "If reading one of the fields of a query fails, the query fails; it never ends normally with missing rows.", "quantifier": "every schedule in which input streams are ready, pending, failed or finished", "why_tests_cant": "The outcome depends on the order in which several asynchronous inputs become ready.", "anchors": ["crates/modelardb_storage/src/query/sorted_join_exec.rs: SortedJoinStream::poll_all_pending_inputs, poll_next"]}
{"id": "C38", "title": "COUNT, MIN, MAX, SUM and AVG are the same with and without the segment optimisation", "statement": "A query whose aggregates are computed directly from segments returns what computing the same aggregate expressions over the reconstructed rows returns (up to rounding of sums, and up to the error bound for MIN and MAX), for every aggregate expression that is rewritten, including on an empty table.", "quantifier": "every set of segments, every aggregate expression accepted by the rewrite", "why_tests_cant": "The rewrite decides on names and shapes of plans; queries outside the tested shapes are rewritten too.", "anchors": ["crates/modelardb_storage/src/optimizer/model_simple_aggregates.rs: rewrite_aggregates_to_use_segments, can_rewrite_aggregate, try_rewrite_aggregate_exprs, ModelCountAccumulator, ModelMinAccumulator, ModelMaxAccumulator, ModelSumAccumulator, ModelAvgAccumulator"]}
{"id": "C39", "title": "Queries without a field column see every row", "statement": "A query that selects only timestamps and tags returns one row for every ingested row of the table, wherever generated columns are placed in the definition.", "quantifier": "every valid time series table definition and its contents", "why_tests_cant": "Column positions differ between the stored and the queried schema only for particular column orders.", "anchors": ["crates/modelardb_storage/src/query/time_series_table.rs: TimeSeriesTable::new (fallback_field_column), scan", "crates/modelardb_types/src/types.rs: TimeSeriesTableMetadata"]}
{"id": "C40", "title": "Generated columns appear where the query expects them", "statement": "In the result of a query with generated columns every output column holds the values of the column it is named after: stored columns are copied unchanged, generated columns hold the value of their expression for the same row, and helper columns are dropped.", "quantifier": "every projection over every table definition", "why_tests_cant": "Index arithmetic with a running count over arbitrary interleavings of stored and generated columns.", "anchors": ["crates/modelardb_storage/src/query/generated_as_exec.rs: GeneratedAsStream::poll_next", "crates/modelardb_storage/src/query/time_series_table.rs: scan"]}
{"id": "C41", "title": "A vacuum retention period outside the allowed range is rejected", "statement": "Vacuuming a table with a retention period longer than the documented maximum is rejected and deletes nothing; a shorter period is used as given.", "quantifier": "every unsigned 64-bit retention period", "why_tests_cant": "The failure is confined to values near the top of the 64-bit range.", "anchors": ["crates/modelardb_storage/src/data_folder/mod.rs: vacuum_table", "crates/modelardb_storage/src/parser.rs: parse_vacuum", "crates/modelardb_types/src/types.rs: MAX_RETENTION_PERIOD_IN_SECONDS"]}
{"id": "C42", "title": "Statements act on exactly the tables they name", "statement": "DROP, TRUNCATE and VACUUM statements act on exactly the tables named in the statement; table names are treated the same by CREATE and by the statements that later refer to the table.", "quantifier": "every list of identifiers, quoted or not, with one or several parts", "why_tests_cant": "Names may contain any character when quoted; particular characters are used as internal separators.", "anchors": ["crates/modelardb_storage/src/parser.rs: parse_vacuum, tokenize_and_parse_sql_statement, semantic_checks_for_drop, semantic_checks_for_truncate, semantic_checks_for_create_table", "crates/modelardb_types/src/functions.rs: normalize_name"]}
{"id": "C43", "title": "INCLUDE forwards exactly the query", "statement": "For a query with an INCLUDE clause, the text sent to the other servers is exactly the text of the query after the clause.", "quantifier": "every list of addresses and every query text", "why_tests_cant": "The split point is found by text search; it fails when the address occurs again in the query.", "anchors": ["crates/modelardb_server/src/remote.rs: execute_query_at_addresses_and_union"]}
{"id": "C44", "title": "Schema compatibility is sound", "statement": "If data with one schema is accepted for a table with another schema, then every row that is valid for the first is valid for the table: same number of columns, same types, and no null can reach a column that does not allow it; compatibility is reflexive and transitive.", "quantifier": "every pair and triple of schemas and every row", "why_tests_cant": "Universally quantified over rows and schemas.", "anchors": ["crates/modelardb_embedded/src/operations/data_folder.rs: schemas_are_compatible, write"]}
{"id": "C45", "title": "Moving a table preserves its rows", "statement": "Moving a table's data to another table leaves every row of the source in the target exactly once, leaves the rows of the target, and empties the source, whatever the relation between source and target.", "quantifier": "every pair of source and target tables, including the same table opened twice, and every failing step", "why_tests_cant": "Aliasing of source and target and failures between steps are not exercised.", "anchors": ["crates/modelardb_embedded/src/operations/data_folder.rs: move, truncate", "crates/modelardb_storage/src/data_folder/mod.rs: write_record_batches, truncate_table"]}
{"id": "C46", "title": "Copying a time range copies exactly that range for all fields", "statement": "Copying a time series table with a start or end time copies the rows of that time range, the same rows for every field.", "quantifier": "every segmentation of each field, every time range", "why_tests_cant": "Segments that straddle the boundary of the range differ per field.", "anchors": ["crates/modelardb_embedded/src/operations/data_folder.rs: copy_time_series_table"]}
{"id": "C47", "title": "All nodes of a cluster use the same key", "statement": "Every node that joins a cluster obtains the same cluster key, and the node list contains every node that joined and has not left.", "quantifier": "every interleaving of nodes joining and leaving", "why_tests_cant": "Check-then-create races between nodes need particular interleavings.", "anchors": ["crates/modelardb_storage/src/data_folder/cluster.rs: cluster_key, save_node, remove_node, nodes", "crates/modelardb_server/src/cluster.rs: Cluster::try_new, peer_nodes"]}
{"id": "C48", "title": "Cluster-wide table changes reach every node", "statement": "If creating or dropping a table in a cluster succeeds then the remote store and every node have (or no longer have) the table, with the same definition; a request forwarded to a peer is not forwarded again.", "quantifier": "every set of nodes, every peer failing at any time", "why_tests_cant": "Partial failures among peers have exponentially many outcomes.", "anchors": ["crates/modelardb_server/src/cluster.rs: create_cluster_time_series_table, drop_cluster_tables, cluster_do_action, cluster_do_get", "crates/modelardb_server/src/remote.rs: create_time_series_table, drop_tables, cluster_key_in_request"]}
{"id": "C49", "title": "A new node cannot join with a conflicting table", "statement": "A node starts in a cluster only if each of its local tables exists remotely with the same definition; after a successful start it has exactly the cluster's tables.", "quantifier": "every pair of local and remote table sets", "why_tests_cant": "Universally quantified over table sets and definitions.", "anchors": ["crates/modelardb_server/src/cluster.rs: validate_local_tables_exist_remotely, validate_normal_tables, validate_time_series_tables, retrieve_and_create_tables"]}
{"id": "C50", "title": "A saved batch and its ids become visible together", "statement": "Saving compressed segments either makes all of them visible together with the ids of the batches they came from, or leaves the table and the recorded ids unchanged; a failed save leaves no visible rows.", "quantifier": "every set of record batches and ids, a failure at any step of writing", "why_tests_cant": "Failure points between file writes and the commit.", "anchors": ["crates/modelardb_storage/src/data_folder/delta_table_writer.rs: DeltaTableWriter::write_all_and_commit, commit, rollback", "crates/modelardb_storage/src/data_folder/mod.rs: write_record_batches_with_batch_ids"]}
{"id": "C51", "title": "The error-bound check is sound", "statement": "Whenever the system's own check accepts an approximation of a value under an error bound, the exact (real-number) difference is within the bound up to the rounding error of single-precision arithmetic: a factor 1 + 2^-23 for absolute bounds and 1 + 2^-22 for relative bounds; NaN is only accepted for NaN and an infinity only for the same infinity. Conversely every approximation that is exactly within an absolute bound is accepted.", "quantifier": "all pairs of 32-bit patterns, all valid absolute bounds, all valid relative bounds of at least 2^-100 percent", "why_tests_cant": "The check is computed with rounded subtraction, division and multiplication; tests cannot cover 2^64 pairs of values times all bounds.", "anchors": ["crates/modelardb_compression/src/models/mod.rs: is_value_within_error_bound, equal_or_nan", "crates/modelardb_types/src/types.rs: ErrorBound::try_new_absolute, try_new_relative"]}
{"id": "C52", "title": "Ingestion survives memory pressure", "statement": "As long as the server is not stopped, the thread that inserts ingested data points keeps running, however many series there are, however slow compression and saving are and however little memory is left.", "quantifier": "every history of ingestion, compression, saving and flushing, every amount of memory, every number of series", "why_tests_cant": "A thread that ends because of an error is only logged; the schedules and the amounts of memory that cause the error are not in the tests.", "anchors": ["crates/modelardb_server/src/storage/uncompressed_data_manager.rs: insert_data_point, reserve_uncompressed_memory_for_in_memory_data_buffer, spill_in_memory_data_buffer", "crates/modelardb_server/src/storage/types.rs: MemoryPool::wait_for_uncompressed_memory_until", "crates/modelardb_server/src/storage/mod.rs: StorageEngine::try_new"]}
{"id": "C53", "title": "No point is recovered twice", "statement": "If the server crashes at an arbitrary moment and is started again, no row is both in its table and replayed from the write-ahead log, no row is replayed twice, and every row recovered was ingested.", "quantifier": "every history of ingested batches, buffer finishes, saves and a crash at any point", "why_tests_cant": "The ids of batches travel through buffers that are merged, spilled, read back and compressed; a lost id duplicates the rows only after a crash at the right moment.", "anchors": ["crates/modelardb_server/src/storage/uncompressed_data_buffer.rs: insert_batch_id", "crates/modelardb_server/src/storage/uncompressed_data_manager.rs: insert_data_point, compress_finished_buffer", "crates/modelardb_server/src/storage/compressed_data_buffer.rs: append_compressed_segment_batch, batch_ids", "crates/modelardb_server/src/context.rs: replay_write_ahead_log"]}
{"id": "C54", "title": "A failed save loses nothing and is reported", "statement": "If compressed segments cannot be saved, e.g. because the disk is full or the remote store cannot be reached, they stay available and are saved later, a flush that could not save everything is answered with an error, and the server keeps saving other segments and accounting for their memory.", "quantifier": "every history of inserted segments, flushes and changes of the memory setting, and every sequence of failing and succeeding saves", "why_tests_cant": "Unit tests never let a write, the update of the write-ahead log or a transfer fail while other buffers are waiting.", "anchors": ["crates/modelardb_server/src/storage/compressed_data_manager.rs: process_compressed_messages, insert_compressed_segments, save_compressed_data_to_free_memory, flush_and_log_errors, flush, save_compressed_data"]}
{"id": "C55", "title": "Dropping a table leaves the other tables", "statement": "Dropping a table deletes all files of this table and no file of any other table.", "quantifier": "every set of table names, every history of writing to and dropping tables", "why_tests_cant": "The files of a table are found by their location, which depends on the name; tests use a few plain names.", "anchors": ["crates/modelardb_storage/src/data_folder/mod.rs: drop_table, delete_table_files", "crates/modelardb_storage/src/write_ahead_log.rs: create_table_log, remove_table_log", "crates/modelardb_storage/src/parser.rs: semantic_checks_for_create_table"]}
{"id": "C56", "title": "A table definition is the same on every node", "statement": "A time series table that is created on one node and sent to the other nodes of a cluster is accepted there and has the same columns, error bounds and generated columns.", "quantifier": "every accepted table definition", "why_tests_cant": "The message has one error bound per column of the query schema while a definition has one per stored column; the conversion must be right for every arrangement of generated columns.", "anchors": ["crates/modelardb_types/src/flight/mod.rs: encode_and_serialize_time_series_table_metadata, encode_error_bounds, deserialize_and_extract_table_metadata, decode_error_bounds, decode_generated_column_expressions"]}
{"id": "C57", "title": "A query never aborts the server", "statement": "Planning and executing a query over a time series table never aborts the server, whatever columns it reads and filters it has.", "quantifier": "every table definition, every list of projected columns, every list of filters and every content of the table", "why_tests_cant": "The server is built to abort on panic; which column indices and expressions reach an expect depends on the combination of generated columns, projection and filters.", "anchors": ["crates/modelardb_storage/src/query/time_series_table.rs: rewrite_filter, TimeSeriesTable::scan", "crates/modelardb_storage/src/query/sorted_join_exec.rs: SortedJoinStream::sorted_join", "crates/modelardb_storage/src/query/generated_as_exec.rs: GeneratedAsStream::poll_next"]}
{"id": "C58", "title": "LIMIT returns rows of the table", "statement": "A query with LIMIT n returns n rows of the table, or all rows if there are fewer, and each row has the values it was ingested with.", "quantifier": "every table, every distribution of its segments over files, every set of fields and every limit", "why_tests_cant": "The limit is applied to the segments of each field separately; tests store the same number of segments in the same order for every field.", "anchors": ["crates/modelardb_storage/src/query/time_series_table.rs: new_data_source_exec, TimeSeriesTable::scan", "crates/modelardb_storage/src/query/grid_exec.rs: GridStream::new"]}
{"id": "C59", "title": "Moved and copied data is within the error bounds of its table", "statement": "After data is copied or moved from one time series table to another, every value in the target is within the error bound of the target's column of the value that was written originally; otherwise the operation is rejected.", "quantifier": "every pair of time series tables, every list of error bounds, every set of stored segments and every failing step", "why_tests_cant": "The tests only copy between tables with the same error bounds; the property is over all pairs of bounds and all values.", "anchors": ["crates/modelardb_embedded/src/operations/data_folder.rs: copy_time_series_table, move, schemas_are_compatible"]}
{"id": "C60", "title": "Requests never wait for each other forever", "statement": "Every request that the server receives is eventually answered, whatever other requests are executed at the same time on the nodes of the cluster.", "quantifier": "every set of concurrent requests, every interleaving of their steps, every cluster", "why_tests_cant": "A deadlock only occurs in particular interleavings, as the locks are fair and a waiting writer blocks later readers; tests send one request at a time.", "anchors": ["crates/modelardb_server/src/remote.rs: create_normal_table, create_time_series_table, drop_tables, truncate_tables, do_action", "crates/modelardb_server/src/context.rs: create_time_series_table, drop_table, truncate_table, drop_table_from_storage_engine", "crates/modelardb_server/src/configuration.rs: set_multivariate_reserved_memory_in_bytes, set_segment_size_threshold_in_bytes, set_transfer_batch_size_in_bytes", "crates/modelardb_server/src/main.rs: setup_ctrl_c_handler", "crates/modelardb_server/src/storage/mod.rs: flush, set_transfer_time_in_seconds"]}
{"id": "C61", "title": "An operation of the embedded library acts on exactly the table it is given", "statement": "Dropping, truncating or vacuuming a table with the embedded library, for a data folder or for a server and from Rust, C or Python, has this effect on the table with the given name and on no other table, or it fails.", "quantifier": "every name, every retention period, every set of tables and every interface", "why_tests_cant": "For a server the operation is sent as SQL text into which the name is inserted, and for Python the name passes through a C string; tests only use identifiers.", "anchors": ["crates/modelardb_embedded/src/operations/client.rs: drop, truncate, vacuum", "crates/modelardb_embedded/src/operations/data_folder.rs: drop, truncate, vacuum", "crates/modelardb_embedded/src/capi.rs: modelardb_embedded_drop, modelardb_embedded_truncate, modelardb_embedded_vacuum", "crates/modelardb_storage/src/parser.rs: tokenize_and_parse_sql_statement"]}
{"id": "C62", "title": "A table is used under the name it was created with", "statement": "A table that is created is found under its name until it is dropped, a request to create or drop a table that fails changes nothing, and the data folder can be opened again afterwards with the same tables.", "quantifier": "every sequence of requests to create and drop tables with any names, at a node or with the embedded library", "why_tests_cant": "Names are kept as text in the metadata and on disk but parsed as SQL when they are registered; the tests only use names of lower-case letters, for which both agree.", "anchors": ["crates/modelardb_storage/src/data_folder/mod.rs: register_tables, register_normal_table, register_time_series_table, drop_table, table_names", "crates/modelardb_embedded/src/operations/data_folder.rs: create, drop", "crates/modelardb_server/src/context.rs: create_normal_table, create_time_series_table, drop_table, check_table_does_not_exist"]}
{"id": "C63", "title": "Reading a time series table returns exactly what is asked for", "statement": "read_time_series_table of the embedded library computes its result from exactly the columns, aggregates and groups that are asked for and from exactly the rows that have the given tags and are in the given range of time, and fails if the request refers to a column that does not exist.", "quantifier": "every table, every list of columns and aggregates, every range of time, every set of tags in every order", "why_tests_cant": "The arguments are inserted into SQL text; whether the text still means the same depends on the names and values, and tests only use a few harmless ones.", "anchors": ["crates/modelardb_embedded/src/operations/mod.rs: generate_read_time_series_table_sql", "crates/modelardb_embedded/src/operations/data_folder.rs: read_time_series_table", "crates/modelardb_embedded/src/operations/client.rs: read_time_series_table"]}
{"id": "C64", "title": "Data that is put into a table is stored as it was sent", "statement": "If a client writes data to a table of a node and the request succeeds, the data had the schema of the table and every row is stored with the value of each column under the name it was sent with. If the schema does not match or an error occurs, the request fails and nothing is stored.", "quantifier": "every schema of a table, every schema and all values of the data, every way to split it into messages and every message the storage engine fails for", "why_tests_cant": "The messages contain only buffers without types, so whether another schema is noticed depends on the layouts of the columns; tests only write data with the schema of the table.", "anchors": ["crates/modelardb_server/src/remote.rs: do_put", "crates/modelardb_server/src/remote.rs: flight_data_to_record_batch", "crates/modelardb_server/src/remote.rs: ingest_into_normal_table", "crates/modelardb_server/src/remote.rs: ingest_into_time_series_table", "crates/modelardb_embedded/src/operations/client.rs: write"]}
{"id": "C65", "title": "Stopping a node loses no data", "statement": "A node only ends because it was asked to by CTRL+C or KillNode. It then keeps all rows it confirmed, in its data folder, the remote data folder or the write-ahead log, and has left its cluster. After KillNode, and after a successful FlushNode, all confirmed rows are in the remote data folder. KillNode stops every node.", "quantifier": "all executions of ingestion, flushing, transfers, KillNode and CTRL+C in every order, for every kind of node, with and without the write-ahead log, with every failure to save or transfer", "why_tests_cant": "It depends on what other requests do between the steps of stopping a node, and ending the process cannot be part of a unit test.", "anchors": ["crates/modelardb_server/src/main.rs: setup_ctrl_c_handler", "crates/modelardb_server/src/remote.rs: do_action", "crates/modelardb_server/src/storage/mod.rs: transfer", "crates/modelardb_server/src/storage/mod.rs: close", "crates/modelardb_server/src/storage/data_transfer.rs: set_transfer_time_in_seconds"]}
{"id": "C66", "title": "Errors, pointers and structures are handled as documented by the C-API", "statement": "After a function of the C-API failed, modelardb_embedded_error() returns its error in the same thread until another function fails in that thread. A caller that only uses data folders and clients that are open never causes undefined behaviour, also if the source and target of a copy or move have different types or are the same. All structures that a caller exports with Apache Arrow's C Data Interface are released exactly once.", "quantifier": "all sequences of calls of all functions in all threads with all pointers, strings and exported structures, and all errors of the operations", "why_tests_cant": "Undefined behaviour, leaks and double releases cannot be observed by the tests of the operations, the tests do not call the C-API from several threads, and there are no tests of failing conversions.", "anchors": ["crates/modelardb_embedded/src/capi.rs: modelardb_embedded_error", "crates/modelardb_embedded/src/capi.rs: modelardb_embedded_close", "crates/modelardb_embedded/src/capi.rs: c_void_to_operations", "crates/modelardb_embedded/src/capi.rs: copy", "crates/modelardb_embedded/src/capi.rs: create", "crates/modelardb_embedded/src/capi.rs: write"]}
{"id": "C67", "title": "The bulk loader imports and exports whole tables", "statement": "Importing Apache Parquet files with the bulk loader adds exactly the rows of the files to the table, with each value in the column of the same name, or, if it reports an error, changes no table; exporting a table writes exactly its rows; and the SQL given to run before and after does what the same SQL does in ModelarDB.", "quantifier": "For all data folders, normal and time series tables, input files, SQL before and after, amounts of available memory, and failures when reading, writing, rolling back and committing.", "why_tests_cant": "The result depends on the combination of SQL, table type, schema of the files, memory use and where a failure happens, and the bulk loader has no tests.", "anchors": ["crates/modelardb_bulkloader/src/main.rs:import", "crates/modelardb_bulkloader/src/main.rs:import_time_series_table", "crates/modelardb_bulkloader/src/main.rs:import_normal_table", "crates/modelardb_bulkloader/src/main.rs:export", "crates/modelardb_bulkloader/src/main.rs:create_data_folder", "crates/modelardb_storage/src/data_folder/mod.rs:register_tables"]}
{"id": "C68", "title": "Error bounds declared in Python are those of the table", "statement": "Every error bound that the Python API accepts can be used to create a time series table, the table uses an error bound of the declared kind for the declared column, it never allows a larger error than declared, and two error bounds compare as equal only if they have the same value.", "quantifier": "all 64-bit floating-point values, both kinds of error bounds, classes that inherit from them, and all columns", "why_tests_cant": "The values are checked as 64-bit floats but passed as 32-bit floats, so almost all values are rounded, and tests use a few values that are small integers", "anchors": ["crates/modelardb_embedded/bindings/python/modelardb/error_bound.py:AbsoluteErrorBound", "crates/modelardb_embedded/bindings/python/modelardb/error_bound.py:RelativeErrorBound", "crates/modelardb_embedded/bindings/python/modelardb/operations.py:create", "crates/modelardb_embedded/src/capi.rs:error_bounds_array_to_error_bounds"]}
{"id": "C69", "title": "The result of a query reaches the client complete", "statement": "A client that executes a query receives every row the query has on the node it asks and, with INCLUDE, on each of the given addresses, with each value in the column it is named by; if the query fails on any node the client gets an error, and if it works on all nodes it does not.", "quantifier": "all results at all nodes, all numbers of nodes, all orders in which their batches arrive, and all nodes failing at any time", "why_tests_cant": "How the batches of the nodes interleave is not deterministic, and tests run all nodes with the same small tables.", "anchors": ["crates/modelardb_server/src/remote.rs:execute_query_at_addresses_and_union", "crates/modelardb_server/src/remote.rs:execute_query_at_address", "crates/modelardb_server/src/remote.rs:send_query_result", "crates/modelardb_server/src/remote.rs:do_get", "crates/modelardb_embedded/src/lib.rs:record_batch_stream_to_record_batch", "crates/modelardb_embedded/src/operations/client.rs:read"]}
{"id": "C70", "title": "The command-line client executes what a file says", "statement": "Each statement in a file that is given to the command-line client is executed once, in order and as written without its comments; errors are reported and show in the exit code; and each result is printed completely if the user does not stop it.", "quantifier": "all files, all answers of the server, all results and all inputs of the user", "why_tests_cant": "Comments are removed before the text is parsed, and what is text and what is a comment depends on all of the text before it; tests of the client do not exist.", "anchors": ["crates/modelardb_client/src/main.rs:execute_queries_from_a_file", "crates/modelardb_client/src/main.rs:execute_and_print_command_or_query", "crates/modelardb_client/src/main.rs:execute_command", "crates/modelardb_client/src/main.rs:print_batches_with_confirmation", "crates/modelardb_client/src/main.rs:print_batches_without_confirmation"]}
{"id": "C71", "title": "INSERT stores the given rows", "statement": "An INSERT statement that succeeds stores exactly the given rows after (or with OVERWRITE instead of) the rows of the table, with each value in the column it is given for, so that a query returns the rows as they were given, and returns their number; a statement that fails stores nothing.", "quantifier": "all table definitions, all orders and subsets of columns, all batches of rows, and all failures of the query that gives the rows and of the storage engine", "why_tests_cant": "The stored columns are picked by position from rows that include the generated columns, so it depends on where the generated columns are and in which order the columns are listed; tests insert one batch with all columns in order.", "anchors": ["crates/modelardb_server/src/storage/data_sinks.rs:TimeSeriesTableDataSink::write_all", "crates/modelardb_server/src/storage/data_sinks.rs:NormalTableDataSink::write_all", "crates/modelardb_storage/src/query/time_series_table.rs:insert_into", "crates/modelardb_storage/src/query/normal_table.rs:insert_into", "crates/modelardb_embedded/src/operations/data_folder.rs:DataFolderDataSink::write_all"]}
{"id": "C72", "title": "What a query returns does not depend on what the columns are called", "statement": "If the columns of a time series table are given other names, with a different name for each column, the table can be created as before and each query, written with the new names, returns the same rows or fails in the same way as before.", "quantifier": "all table definitions, all renamings, all contents of the table, all projections and all filters", "why_tests_cant": "The columns of the table share schemas with columns the server adds to segments and data points and are found in them by name; a test uses some fixed names and none of them is the name of such a column.", "anchors": ["crates/modelardb_storage/src/query/time_series_table.rs:scan, rewrite_filter, convert_logical_expr_to_physical_expr", "crates/modelardb_storage/src/query/sorted_join_exec.rs:sorted_join", "crates/modelardb_storage/src/query/generated_as_exec.rs:poll_next", "crates/modelardb_types/src/schemas.rs:GRID_SCHEMA, QUERY_COMPRESSED_SCHEMA"]}
{"id": "C73", "title": "A query returns the rows that were ingested", "statement": "After a flush that was requested when some rows had been acknowledged has been answered, each query for stored columns of a time series table, of which at most one is a field, returns the timestamp, the tags and the value of each of these rows that satisfies the filters of the query, as often as it was ingested, and nothing that was not ingested. The value is the ingested value for lossless fields and within the error bound otherwise.", "quantifier": "all sequences of ingested batches, operations of the threads of the server, memory sizes, buffer sizes and flushes, all table definitions, all projections and filters, and all ways the stored segments are found and batched", "why_tests_cant": "It composes the buffers, the compression, the files, the rewritten filters, the reconstruction and the join; an integration test ingests one generated data set and issues a few queries.", "anchors": ["crates/modelardb_server/src/storage/uncompressed_data_manager.rs:compress_finished_buffer", "crates/modelardb_server/src/storage/compressed_data_manager.rs:save_compressed_data", "crates/modelardb_compression/src/compression.rs:try_compress_univariate_time_series", "crates/modelardb_storage/src/query/grid_exec.rs:grid_and_append_to_leftovers_in_current_batch", "crates/modelardb_storage/src/query/time_series_table.rs:scan"]}
{"id": "C74", "title": "A query for several fields returns the rows that were ingested", "statement": "After a flush that was requested when some rows had been acknowledged has been answered, each query for stored columns of a time series table returns the timestamp, the tags and the values of all fields of each of these rows that satisfies the filters of the query, as often as it was ingested, and nothing that was not ingested. All values of a row that is returned are from the same ingested row, each is the ingested value for lossless fields and within the error bound of the field otherwise.", "quantifier": "all sequences of ingested batches, operations of the threads of the server, memory sizes, buffer sizes and flushes, all table definitions with any number of fields and error bounds, all projections and filters, and all ways the stored segments are found and batched", "why_tests_cant": "Each field is compressed to other segments, and the fields are put together by position, so whether the values of a row belong together depends on the order in which rows arrived, when buffers were finished and which models were selected; tests query a few generated data sets.", "anchors": ["crates/modelardb_server/src/storage/uncompressed_data_manager.rs:insert_data_point", "crates/modelardb_server/src/storage/uncompressed_data_manager.rs:compress_finished_buffer", "crates/modelardb_storage/src/query/grid_exec.rs:grid_and_append_to_current_batch", "crates/modelardb_storage/src/query/sorted_join_exec.rs:sorted_join", "crates/modelardb_storage/src/query/time_series_table.rs:scan"]}
{"id": "C75", "title": "A CREATE TIME SERIES TABLE statement creates the table it declares", "statement": "A CREATE TIME SERIES TABLE statement is accepted if and only if it is written as documented and its declaration makes sense: the name is not reserved and can be a path, the names of the columns differ, there is one timestamp column, a stored field and at most 32767 columns, the error bounds are meaningful, and expressions only refer to stored columns. The table that is created has the declared name and columns, each field has as error bound the float nearest to the number in the statement, zero being lossless, and each generated column has the declared expression of the declared columns. After a restart of the server the table is the same.", "quantifier": "all lists of tokens, all numbers and expressions in statements, all names of tables and columns, and all orders in which tables are created and dropped before a restart", "why_tests_cant": "The text passes a parser, column options with numbers that are turned into text and back, three checks with different normalisations of names, and the metadata table; tests have about a dozen statements with short ASCII names and a few error bounds.", "anchors": ["crates/modelardb_storage/src/parser.rs:parse_create_time_series_table", "crates/modelardb_storage/src/parser.rs:parse_columns", "crates/modelardb_storage/src/parser.rs:semantic_checks_for_create_table", "crates/modelardb_storage/src/parser.rs:extract_error_bounds_for_all_columns", "crates/modelardb_storage/src/parser.rs:extract_generation_exprs_for_all_columns", "crates/modelardb_types/src/types.rs:try_new"]}
{"id": "C76", "title": "A CREATE TABLE statement creates the normal table it declares", "statement": "A CREATE TABLE statement is accepted if and only if no part of the statement is set that is not supported, its name is not reserved and can be a path, and the types of its columns are supported. The table that is created has the declared name and exactly the declared columns in their order, with the declared names, types and nullability, where timestamps are in microseconds.", "quantifier": "all parsed statements: all names, columns, types with any nesting, column options and unsupported parts", "why_tests_cant": "There are fifty parts of a statement that must be rejected and arbitrarily nested types; tests have a few statements with flat types.", "anchors": ["crates/modelardb_storage/src/parser.rs:semantic_checks_for_create_table", "crates/modelardb_storage/src/parser.rs:check_unsupported_features_are_disabled"]}
{"id": "C77", "title": "A query for generated columns returns the value of their expressions for the rows that were ingested", "statement": "If rows were received and a flush was then requested and answered, a query of the table for stored and generated columns returns for each of the rows that satisfies its filters one row in which a generated column has the value of its expression for the values that are read for the other fields, the tags and the timestamp of the same row, also if these are not in the query. If an expression has no value for a row, an error is returned instead of the batch with the row.", "quantifier": "all executions of the storage engine, all rows, all tables and expressions, all projections and filters, all ways to distribute the segments to batches", "why_tests_cant": "The columns an expression refers to are read from different files, reconstructed with different models, joined by position and projected away again; tests query one small table.", "anchors": ["crates/modelardb_storage/src/query/time_series_table.rs:scan", "crates/modelardb_storage/src/query/generated_as_exec.rs:poll_next", "crates/modelardb_storage/src/query/sorted_join_exec.rs:sorted_join"]}
{"id": "C78", "title": "Requests that use a table at the same time", "statement": "Requests that write to, create, drop and truncate a table with one name can be processed at the same time. Every row that is accepted is kept in memory or saved in the table it was sent to as long as the table is neither dropped nor truncated. Rows are never in a table they were not sent to. With a write-ahead log every row in memory is in the log. Once a request to drop the table succeeds nothing is left of it. Once a request to truncate it succeeds all rows that are left were received after it started. If a request to drop the table fails after it was deregistered, no request with the name succeeds until the server is restarted, other than writes that had started.", "quantifier": "all numbers of requests, all interleavings of their steps, all failures of steps, with and without a write-ahead log", "why_tests_cant": "What goes wrong depends on how the steps of several requests are interleaved, tests send one request at a time.", "anchors": ["crates/modelardb_server/src/context.rs:create_time_series_table", "crates/modelardb_server/src/context.rs:drop_table", "crates/modelardb_server/src/context.rs:truncate_table", "crates/modelardb_server/src/remote.rs:do_put", "crates/modelardb_server/src/storage/compressed_data_manager.rs:save_compressed_data"]}
{"id": "C79", "title": "Rows survive any number of crashes and are returned once", "statement": "The server can be stopped without warning any number of times, at any moments, and started again. After a flush that was requested when the write-ahead log had been replayed is answered, queries return each row that was acknowledged in any of the lifetimes of the server exactly once, with its value if the field is lossless and within the error bound otherwise, and nothing that was not sent.", "quantifier": "all histories of all lifetimes, all moments at which the server is stopped, also while it replays, all tables, error bounds and queries for stored columns with at most one field", "why_tests_cant": "A crash can occur between any two steps of any thread, and what is replayed depends on what was saved in all earlier lifetimes; tests restart the server once, in one state.", "anchors": ["crates/modelardb_server/src/context.rs:replay_write_ahead_log", "crates/modelardb_server/src/main.rs:main", "crates/modelardb_server/src/storage/mod.rs:insert_data_points", "crates/modelardb_server/src/storage/mod.rs:insert_data_points_with_batch_id", "crates/modelardb_storage/src/write_ahead_log.rs:unpersisted_batches_in_table_log", "crates/modelardb_server/src/storage/uncompressed_data_manager.rs:try_new"]}
{"id": "C80", "title": "Rows are put together whatever files their fields are in", "statement": "The values of the fields of a row that a query returns are those of one row that was ingested, for every number of files the segments of each field are stored in and every order in which they were written. The order the files state to be sorted by is that of the tags and then the first timestamp.", "quantifier": "all tables with several fields, all histories of the storage engine, all groups in which segments are saved, all sizes at which a new file is started, all queries for stored columns", "why_tests_cant": "If the segments are sorted when they are read depends on the number of files of each field, a new file is only started after about 100 MB, and with one save or with small files all fields are read in the same order.", "anchors": ["crates/modelardb_storage/src/query/time_series_table.rs:new_data_source_exec", "crates/modelardb_storage/src/query/time_series_table.rs:query_order_and_requirement", "crates/modelardb_storage/src/query/time_series_table.rs:scan", "crates/modelardb_storage/src/data_folder/delta_table_writer.rs:try_new_for_time_series_table", "crates/modelardb_storage/src/data_folder/delta_table_writer.rs:write_all", "crates/modelardb_storage/src/lib.rs:apache_parquet_writer_properties", "crates/modelardb_storage/src/query/grid_exec.rs:required_input_ordering"]}
{"id": "C81", "title": "The files of the write-ahead log bring back every acknowledged row, whenever the server is stopped", "statement": "The server is stopped without warning any number of times, also in the middle of writing, closing, deleting and opening files of the write-ahead log, and started again. It can be started, it replays each batch in the files that is not in a commit to its table once, and after a flush is answered every row that was acknowledged is in its table and no row is in it twice.", "quantifier": "all numbers of tables, batches, crashes and restarts, all points in the operations of the log at which the server is stopped, all sizes of segments of the log, all interleavings of the threads of the storage engine, all orders in which buffers are saved", "why_tests_cant": "Whether a row is brought back depends on which segment files of the log are on disk, the ids in the commits to the table and the id that the next batch is given after a restart, and these depend on all saves and crashes before. The tests of the write-ahead log use one log without a storage engine, and those of the storage engine do not crash.", "anchors": ["crates/modelardb_storage/src/write_ahead_log.rs:try_new", "crates/modelardb_storage/src/write_ahead_log.rs:append_and_sync", "crates/modelardb_storage/src/write_ahead_log.rs:mark_batches_as_persisted", "crates/modelardb_storage/src/write_ahead_log.rs:unpersisted_batches", "crates/modelardb_server/src/storage/mod.rs:insert_data_points", "crates/modelardb_server/src/storage/compressed_data_manager.rs:save_compressed_data", "crates/modelardb_server/src/context.rs:replay_write_ahead_log", "crates/modelardb_server/src/main.rs:main"]}
{"id": "C82", "title": "A time series table created with the embedded library has the columns, error bounds and expressions that are asked for", "statement": "A program that creates a time series table with the embedded library gives a name, columns, error bounds for some columns and texts of expressions for some columns. The table is created if and only if the request makes sense, and then it has these columns, each error bound is that of its column, each expression computes its column, other columns are stored without loss, nothing that is given is ignored, and a server or a data folder that is opened again has the same definition.", "quantifier": "all names, columns, error bounds, expressions and numbers of them, all orders of the columns, all operations on a data folder before it is opened again, Rust and C", "why_tests_cant": "The error bounds and expressions are given by name, apart from the columns, and what is not found by name is not noticed. The tests create one table with one error bound and one expression with the right names.", "anchors": ["crates/modelardb_embedded/src/operations/mod.rs:try_new_time_series_table_metadata", "crates/modelardb_embedded/src/operations/data_folder.rs:create", "crates/modelardb_embedded/src/operations/client.rs:create", "crates/modelardb_embedded/src/capi.rs:create", "crates/modelardb_embedded/src/capi.rs:error_bounds_array_to_error_bounds", "crates/modelardb_embedded/src/capi.rs:map_array_to_map_of_string_to_string", "crates/modelardb_storage/src/parser.rs:tokenize_and_parse_sql_expression"]}
{"id": "C83", "title": "Copying the result of a query adds exactly the rows of the result to a normal table, or nothing", "statement": "A program copies the result of a query to a table with the embedded library. If this succeeds, the table is a normal table with the columns of the result, exactly the rows of the result are added to it in order, and no other table changes. If it fails, for example as the query fails in the middle, no table changes.", "quantifier": "all tables, results, numbers of batches and rows, all points at which reading the result or writing to the table fails, data folders and servers as source and as target", "why_tests_cant": "Results arrive in batches and each can fail to be read or written, and the tests copy one small batch without failures. Data folders and clients have different code for the same operation, and only that of data folders checks the target.", "anchors": ["crates/modelardb_embedded/src/operations/data_folder.rs:copy", "crates/modelardb_embedded/src/operations/client.rs:copy", "crates/modelardb_embedded/src/operations/client.rs:write", "crates/modelardb_embedded/src/operations/mod.rs:copy", "crates/modelardb_embedded/src/capi.rs:copy"]}
{"id": "C84", "title": "Aggregates over values stored with an error bound are those of the ingested values up to the error bound", "statement": "Series are ingested into a column with an error bound and COUNT, MIN, MAX, SUM and AVG are computed over the column. COUNT is the number of ingested points. MIN and MAX are within the error bound of the smallest and largest ingested value, SUM is within the sum of the deviations that the error bound allows, and AVG is within an absolute error bound of the average of the ingested values, all up to the rounding of floating-point numbers.", "quantifier": "all series of finite values, all error bounds and any number of series, any order of the segments and any number of partitions", "why_tests_cant": "Aggregates are computed from the models of segments and not from rows, so compression, the order and distribution of segments and the aggregates must fit together. Tests compare aggregates with rows that are read, for a few series, and not with what was ingested.", "anchors": ["crates/modelardb_storage/src/optimizer/model_simple_aggregates.rs", "crates/modelardb_compression/src/compression.rs:try_compress_univariate_time_series", "crates/modelardb_compression/src/models/mod.rs:sum", "crates/modelardb_compression/src/models/swing.rs:sum"]}
{"id": "C85", "title": "Every program that has a data folder open is told which tables exist and what they are", "statement": "Programs with the embedded library and servers can have the same data folder open. Each lists exactly the tables that were created and not dropped, once each, and is given the schema that a listed table was created with. A table that is listed can be queried, and a name that is not listed has no schema. Creating a table succeeds exactly if there is none with the name, and dropping succeeds exactly if there is one.", "quantifier": "all sequences in which any number of programs open and close the data folder and create and drop tables", "why_tests_cant": "The tables are known in four places, the Delta tables, two metadata tables and the session of each program, and each function uses other ones of these. Tests use one program after another and do not compare what the functions say.", "anchors": ["crates/modelardb_embedded/src/operations/data_folder.rs:tables", "crates/modelardb_embedded/src/operations/data_folder.rs:schema", "crates/modelardb_embedded/src/operations/client.rs:tables", "crates/modelardb_embedded/src/operations/client.rs:schema", "crates/modelardb_server/src/remote.rs:list_flights", "crates/modelardb_server/src/remote.rs:get_schema", "crates/modelardb_storage/src/data_folder/mod.rs:table_names", "crates/modelardb_storage/src/data_folder/mod.rs:normal_table_schema"]}
{"id": "C86", "title": "Aggregates of a table are those of the rows that were ingested, up to the error bound", "statement": "Rows are ingested into a time series table and a flush is answered. A query for COUNT, MIN, MAX, SUM and AVG of a field then returns the aggregates of the values of the rows that were ingested, up to the error bound of the field and the rounding of floating-point numbers, however the rows were split into batches of segments and segments into partitions.", "quantifier": "all sequences of requests and steps of the threads, all rows with a scale, all partitions and orders of the segments", "why_tests_cant": "The aggregates depend on how the rows are split into buffers, which depends on the memory and on how the threads are scheduled, and on the models that are fitted to each part. Tests ingest data in one way and compare the aggregates with a tolerance.", "anchors": ["crates/modelardb_server/src/storage/uncompressed_data_manager.rs:compress_finished_buffer", "crates/modelardb_compression/src/compression.rs:try_compress_univariate_time_series", "crates/modelardb_storage/src/optimizer/model_simple_aggregates.rs:ModelSimpleAggregates", "crates/modelardb_compression/src/models/mod.rs:sum"]}
{"id": "C87", "title": "Rows that are ingested by edge nodes are returned by queries in the cloud when they have been transferred", "statement": "Rows are sent to any number of edge nodes, which store them in their local data folder and transfer them to the data folder in the cloud. When everything has been transferred, queries in the cloud return each row that was acknowledged and flushed exactly once, with its timestamp, its tags and its values up to the error bounds, also if a node was stopped without warning and started again. Each row that is stored is at any time in the local data folder of its node or in the cloud and not in both.", "quantifier": "all sequences of requests to each node, steps of its threads and steps of its transfers, all crashes, any number of nodes, all rows and all queries for stored columns", "why_tests_cant": "The rows pass through the write-ahead log, buffers, compression, a commit to the local table, a transfer that reads, writes and deletes, and a query of the remote table. Transfers run at the same time as commits, and a crash can be between any two steps. Tests transfer a table when nothing else happens.", "anchors": ["crates/modelardb_server/src/storage/data_transfer.rs:transfer_data", "crates/modelardb_server/src/storage/compressed_data_manager.rs:save_compressed_data", "crates/modelardb_server/src/storage/mod.rs:insert_data_points", "crates/modelardb_storage/src/query/grid_exec.rs:GridExec"]}
{"id": "C88", "title": "Settings that are changed while the server runs are used, reported and kept", "statement": "When a request to change a setting of a running server is confirmed, exactly that setting has the new value in what GetConfiguration returns and in the configuration file, and the component it belongs to uses it. When the request is refused nothing changes. At any time each component uses the value that is reported, also for tables that are created later, and after a restart a setting has the value that was confirmed last unless it is given on the command line. The server can always be started again.", "quantifier": "all sequences of requests with any setting and value, reservations of memory, tables that are created and dropped and restarts with any flags, whether or not the file can be written, memory can be freed and data can be transferred", "why_tests_cant": "A value is held in the configuration, the file, the storage engine, the log of each table and the transfer component, and a request can fail after some of them have been changed. Tests change one setting once and no step fails.", "anchors": ["crates/modelardb_server/src/configuration.rs:ConfigurationManager", "crates/modelardb_server/src/remote.rs:do_action", "crates/modelardb_server/src/storage/mod.rs:adjust_compressed_remaining_memory_in_bytes", "crates/modelardb_storage/src/write_ahead_log.rs:WriteAheadLog"]}
{"id": "C89", "title": "The memory for compressed data can be changed while data is ingested", "statement": "While data is ingested the memory for compressed data can be set to another value. The server keeps running, no compressed data is lost or written twice, and when nothing is being processed the buffers have at most the new amount of memory and the remaining memory is what is configured without what is in the buffers.", "quantifier": "all interleavings of the single operations of the writer thread and of requests on the memory, the map and the queue, all batches, flushes and changes, whether or not buffers can be saved", "why_tests_cant": "The request and the writer thread share the memory, the map of buffers and the queue but no lock, and both free memory by saving buffers. What goes wrong depends on the order of single operations. Tests change the memory when nothing else is running.", "anchors": ["crates/modelardb_server/src/storage/compressed_data_manager.rs:save_compressed_data_to_free_memory", "crates/modelardb_server/src/storage/compressed_data_manager.rs:adjust_compressed_remaining_memory_in_bytes", "crates/modelardb_server/src/storage/compressed_data_manager.rs:insert_compressed_segments", "crates/modelardb_server/src/storage/types.rs:try_reserve_compressed_memory"]}
{"id": "C90", "title": "The memory for uncompressed data can be changed while rows are ingested", "statement": "While rows are ingested the memory for uncompressed data can be set to another value. The server keeps running and ingesting, each row that was received is compressed or still in a buffer, exactly once, and when no request is being processed the remaining memory is not negative.", "quantifier": "all interleavings of the single operations of the ingestion thread, the compression thread and of requests on the memory and the two maps of buffers, all batches, flushes and changes, whichever buffers are spilled, whether or not files can be written or read, and whether or not clients go away", "why_tests_cant": "The request and the ingestion thread share the memory and the maps of buffers but no lock, and both spill buffers. Whether a buffer is still where it was found depends on the order of single operations. Tests change the memory when nothing else is running.", "anchors": ["crates/modelardb_server/src/storage/uncompressed_data_manager.rs:insert_data_point", "crates/modelardb_server/src/storage/uncompressed_data_manager.rs:spill_in_memory_data_buffer", "crates/modelardb_server/src/storage/uncompressed_data_manager.rs:finish_unused_buffers", "crates/modelardb_server/src/storage/uncompressed_data_manager.rs:adjust_uncompressed_remaining_memory_in_bytes"]}
{"id": "C91", "title": "Rows that are deleted in the whole cluster are gone, and other rows are kept", "statement": "When TRUNCATE CLUSTER has succeeded for tables, none of the rows that had been ingested into these tables when it began is returned by any node, then or later. Rows of other tables, and rows that are ingested afterwards, are kept exactly once. TRUNCATE without CLUSTER deletes the rows of the node that executes it and no others.", "quantifier": "all clusters, tables and rows, all interleavings of the steps of requests with ingesting, saving and transferring rows, starting, stopping, killing and crashing nodes, further requests, and requests and replies that are lost", "why_tests_cant": "The remote data folder and each node delete their rows at different times, while rows move from nodes to the remote data folder. Whether a row slips through depends on the order. Tests use a cluster of one node.", "anchors": ["crates/modelardb_server/src/remote.rs:truncate_tables", "crates/modelardb_server/src/cluster.rs:truncate_cluster_tables", "crates/modelardb_server/src/cluster.rs:cluster_do_get", "crates/modelardb_server/src/context.rs:truncate_table"]}
{"id": "C92", "title": "A client that asks a cluster where to execute a query is sent to a node that answers it from the rows of all nodes", "statement": "A client that asks any node of a cluster where to execute a query (get_flight_info) is sent to a cloud node that is running, if there is one. The node returns each row that was ingested by any node and has been transferred exactly once, and no other rows.", "quantifier": "all clusters, rows and executions with any interleaving of starting, stopping, killing and crashing nodes, ingesting, saving and transferring rows, deleting rows of other tables, all random choices, and everything that happens between the two requests of the client", "why_tests_cant": "The list of nodes is changed by each node when it starts and stops, and read by other nodes at any time. Tests use a list with nodes that are not running.", "anchors": ["crates/modelardb_server/src/cluster.rs:query_node", "crates/modelardb_server/src/remote.rs:get_flight_info", "crates/modelardb_storage/src/data_folder/cluster.rs:save_node", "crates/modelardb_storage/src/data_folder/cluster.rs:remove_node"]}
{"id": "C93", "title": "A query that includes other nodes returns each row once", "statement": "A query with INCLUDE that is executed by an edge node and a cloud node returns each row that the edge node saved before the query was sent exactly once, whether or not the row has been transferred to the cloud. Only rows that were saved are returned.", "quantifier": "all nodes, files, lists of addresses and receivers, and executions with any interleaving of saving, transferring, failing, dropping and restarting at each node with the query", "why_tests_cant": "The nodes plan the query one after another while each of them transfers data in the background. Tests use one node and no transfers.", "anchors": ["crates/modelardb_server/src/remote.rs:execute_query_at_addresses_and_union", "crates/modelardb_server/src/remote.rs:do_get", "crates/modelardb_server/src/storage/data_transfer.rs:transfer_data", "crates/modelardb_storage/src/query/time_series_table.rs:scan"]}
{"id": "C94", "title": "A statement for the whole cluster is executed by each running node, whatever machines and addresses the nodes have", "statement": "A statement for the whole cluster that succeeds has been executed by each node of the cluster that is running, whatever machines the nodes run on and whatever hosts and ports they were started with, including the default host and port. Only nodes that are running execute it.", "quantifier": "all nodes, machines, hosts, ports and networks, and executions with any interleaving of starting, listening, stopping and crashing nodes", "why_tests_cant": "Tests run in one process, in which no two nodes can have the same address. What a host means depends on the machine and the network.", "anchors": ["crates/modelardb_server/src/data_folders.rs:try_from_args", "crates/modelardb_server/src/cluster.rs:peer_nodes", "crates/modelardb_server/src/cluster.rs:cluster_do_get", "crates/modelardb_server/src/cluster.rs:cluster_do_action", "crates/modelardb_server/src/remote.rs:start_apache_arrow_flight_server"]}
{"id": "C95", "title": "A query returns the rows that its tables have at one moment, whatever happens to the tables while it is executed", "statement": "A query that succeeds returns the rows its table has at one moment after the query was sent, whatever rows are saved, transferred, deleted and vacuumed while it is executed and if the table is dropped. A query does not fail because of VACUUM. VACUUM does not change the rows of a table or delete files that are being written, and deletes all other files that are not needed once the retention period has passed.", "quantifier": "all numbers of queries, files and writers, all sequences of saved files, removals, checkpoints, VACUUM statements with any retention period, drops and reads in any order, all clocks of the nodes, all queries that mention the table any number of times", "why_tests_cant": "Tests execute VACUUM with retention period zero when no query runs, and queries when nothing else happens to the table. They cannot cover the orders in which files are committed, removed and deleted while queries read them, or clocks that differ.", "anchors": ["crates/modelardb_storage/src/query/time_series_table.rs", "crates/modelardb_storage/src/query/normal_table.rs", "crates/modelardb_storage/src/data_folder/mod.rs", "crates/modelardb_storage/src/data_folder/delta_table_writer.rs"]}
{"id": "C96", "title": "The error of a generated column that cannot be computed names the column, the row and the cause", "statement": "If a generated column of a query cannot be computed, the query fails with an error that names the first column that cannot be computed, the values of the first row for which it cannot be computed, and the cause. The server does not abort.", "quantifier": "all batches of any number of rows and columns, all generated columns with expressions that are computed row by row, all values", "why_tests_cant": "The tests of the server only query generated columns that can be computed. They cannot cover all expressions, types of columns and positions of the row that fails.", "anchors": ["crates/modelardb_storage/src/query/generated_as_exec.rs", "crates/modelardb_storage/src/query/grid_exec.rs"]}
{"id": "C97", "title": "Rows can be written with the schema of a table that programs are told", "statement": "The schema that a server or a data folder tells a program for a time series table is that of the rows a query for all columns returns. Rows with this schema, e.g. rows that were read from the table, can be written to a table with the same definition: each stored column gets the values it has in the rows, and the values of generated columns are computed when they are read.", "quantifier": "all definitions of time series tables with any number of stored and generated columns in any order, all batches of rows", "why_tests_cant": "Tests write rows with only the stored columns that the test itself builds, and tables with generated columns are only queried. They cannot cover all orders of stored and generated columns.", "anchors": ["crates/modelardb_server/src/remote.rs", "crates/modelardb_server/src/context.rs", "crates/modelardb_storage/src/query/time_series_table.rs", "crates/modelardb_embedded/src/operations/data_folder.rs", "crates/modelardb_embedded/src/operations/client.rs"]}
