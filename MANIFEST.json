{
 "claims": [
  {
   "property": "C01",
   "status": "proved",
   "theorems": [
    "ModelarDB.Props.C01_timestamps_roundtrip"
   ],
   "note": "for lists shorter than 2^63"
  },
  {
   "property": "C02",
   "status": "partial",
   "theorems": [
    "ModelarDB.Props.C02_two_equal_lost",
    "ModelarDB.Props.C02_equal_panics",
    "ModelarDB.Props.C02_repeated_timestamps_partial"
   ],
   "note": "False as stated: fails exactly when all timestamps of a segment are equal"
  },
  {
   "property": "C03",
   "status": "proved",
   "theorems": [
    "ModelarDB.Props.C03_segment_length"
   ],
   "note": "for lists shorter than 2^63"
  },
  {
   "property": "C04",
   "status": "proved",
   "theorems": [
    "ModelarDB.Props.C04_xor_lossless_segment",
    "ModelarDB.Props.C04_xor_lossless_residuals"
   ],
   "note": ""
  },
  {
   "property": "C05",
   "status": "partial",
   "theorems": [
    "ModelarDB.Props.C05_xor_within_bound_segment_partial",
    "ModelarDB.Props.C05_xor_within_bound_residuals_partial",
    "ModelarDB.Props.C05_xor_out_of_bound"
   ],
   "note": "False as stated: values more than about 2^23 times larger than the error bound lose exponent bits (witness: bound 0.01, value 1000000 reads back as 2). Proved for values up to 2^22 times an absolute bound and for relative bounds of at least 2^-16 percent"
  },
  {
   "property": "C06",
   "status": "partial",
   "theorems": [
    "ModelarDB.Props.C06_constant_model_passes_check_partial",
    "ModelarDB.Props.C06_constant_model_within_bound_partial",
    "ModelarDB.Props.C06_constant_model_out_of_bound"
   ],
   "note": "False for a relative error bound of 100 percent (witness). Proved for lossless and absolute bounds in terms of the system's own check, and in exact arithmetic for these and relative bounds from 2^-100 to 99.9999 percent"
  },
  {
   "property": "C07",
   "status": "partial",
   "theorems": [
    "ModelarDB.Props.C07_linear_model_within_bound_partial",
    "ModelarDB.Props.C07_linear_model_last_value_partial",
    "ModelarDB.Props.C07_linear_model_rounding_partial",
    "ModelarDB.Props.C07_linear_model_within_bound_exact_partial",
    "ModelarDB.Props.C07_lossless_linear_model_exact_partial",
    "ModelarDB.Props.C07_linear_model_not_finite",
    "ModelarDB.Props.C07_linear_model_out_of_bound"
   ],
   "note": "False of the code because of rounding (witness: eight points, lossless bound). Proved for the binary64 code if rounding, for which an explicit bound is proved, is smaller than the part of the error bound that the model leaves for it; for lossless compression if rounding is smaller than the precision of the values (C07_lossless_linear_model_exact_partial); for values that are not finite; and without conditions for the same algorithm in exact arithmetic."
  },
  {
   "property": "C08",
   "status": "partial",
   "theorems": [
    "ModelarDB.Props.C08_constant_parameter_recovered_partial",
    "ModelarDB.Props.C08_linear_parameters_recovered_partial",
    "ModelarDB.Props.C08_nan_not_recovered"
   ],
   "note": "False for a constant model of NaN with residuals that are numbers (witness). Proved for constant models of any other value and for linear models between two numbers, up to the sign of a zero last value"
  },
  {
   "property": "C09",
   "status": "proved",
   "theorems": [
    "ModelarDB.Props.C09_segments_partition_series",
    "ModelarDB.Props.C09_compression_partitions_series",
    "ModelarDB.Props.C09_compressed_have_values"
   ],
   "note": "for strictly increasing timestamps and series shorter than 2^63; the first theorem holds for every choice of models"
  },
  {
   "property": "C10",
   "status": "partial",
   "theorems": [
    "ModelarDB.Props.C10_lossless_readback_partial",
    "ModelarDB.Props.C10_lossless_readback_no_linear_partial",
    "ModelarDB.Props.C10_lossless_readback_scale_partial",
    "ModelarDB.Props.C10_nan_not_read_back",
    "ModelarDB.Props.C10_line_not_read_back"
   ],
   "note": "False of the code for series with NaN and for some series on a line (witnesses). Proved end to end for series without NaN whose kept linear models reconstruct their values (no condition if no linear model is kept). That they do follows from conditions on the points only if the values are large compared to the rounding on lines through them (C10_lossless_readback_scale_partial)."
  },
  {
   "property": "C11",
   "status": "partial",
   "theorems": [
    "ModelarDB.Props.C11_lossy_readback_scale_partial",
    "ModelarDB.Props.C11_lossy_readback_partial",
    "ModelarDB.Props.C11_residual_out_of_bound"
   ],
   "note": "False of the code: a residual after a linear model can be decoded relative to another value than it was encoded (witness: bound 0.1, 1000 reads back as more than 1071). Proved end to end for series without NaN, values inside the guard of C05, relative bounds up to 99.9999 percent, if the linear models are faithful; that they are is proved from conditions on the ingested points (values not too small, slopes not too steep compared to the error bound and the timestamps)"
  },
  {
   "property": "C12",
   "status": "partial",
   "theorems": [
    "ModelarDB.Props.C12_sum_constant_or_xor_partial",
    "ModelarDB.Props.C12_sum_linear_rounding_partial",
    "ModelarDB.Props.C12_sum_linear_partial",
    "ModelarDB.Props.C12_sum_linear_exact_partial",
    "ModelarDB.Props.C12_sum_linear_wrong",
    "ModelarDB.Props.C12_sum_residual_wrong"
   ],
   "note": "False of the code for linear models with residuals over irregular timestamps (witness: 51 is computed as less than 6) and if the last value of the model is not reconstructed exactly (witness: more than 1087 is computed as less than 1017). Proved with an explicit rounding error for constant models, XOR encoded values and linear models over regular timestamps or without residuals; for the latter the bound depends on the timestamps, and it is exact in exact arithmetic"
  },
  {
   "property": "C13",
   "status": "partial",
   "theorems": [
    "ModelarDB.Props.C13_min_max_partial",
    "ModelarDB.Props.C13_min_max_ingested_partial",
    "ModelarDB.Props.C13_linear_rounding_partial",
    "ModelarDB.Props.C13_linear_below_minimum",
    "ModelarDB.Props.C13_lossy_above_maximum"
   ],
   "note": "False of the code for linear models (a value read is below the stored minimum; C13_linear_rounding_partial proves that it is not further below than the rounding of the line, and that some value is as close to the minimum, likewise for the maximum) and, with a lossy bound, of the ingested values (witnesses). Proved exactly for the values read from all other segments, and for the ingested values without loss"
  },
  {
   "property": "C14",
   "status": "proved",
   "theorems": [
    "ModelarDB.Props.C14_series_never_mixed",
    "ModelarDB.Props.C14_timestamps_of_series"
   ],
   "note": "for any number of tag columns and any sort that meets its specification (the arrow sort is not modelled); C14_timestamps_of_series adds that the segments hold exactly the timestamps when they are distinct per series"
  },
  {
   "property": "C15",
   "status": "partial",
   "theorems": [
    "ModelarDB.Props.C15_acknowledged_recoverable_partial",
    "ModelarDB.Props.C15_torn_file_not_recoverable",
    "ModelarDB.Props.C15_failed_append_hides_next"
   ],
   "note": "False of the code for two misfortunes (witnesses): a crash between the creation of a file and the writing of its schema makes the log unreadable, and an append that fails after writing hides the next acknowledged batch. Proved for every other history, with crashes inside every operation"
  },
  {
   "property": "C16",
   "status": "proved",
   "theorems": [
    "ModelarDB.Props.C16_deleted_only_when_saved",
    "ModelarDB.Props.C16_active_never_removed",
    "ModelarDB.Props.C16_notification_exact"
   ],
   "note": "C16_notification_exact and C16_active_never_removed hold for any log, folder and ids; C16_deleted_only_when_saved for every step of every history without torn files and failed appends"
  },
  {
   "property": "C17",
   "status": "partial",
   "theorems": [
    "ModelarDB.Props.C17_ids_never_reused_partial",
    "ModelarDB.Props.C17_unsaved_replayed_partial",
    "ModelarDB.Props.C17_reused_after_out_of_order_save",
    "ModelarDB.Props.C17_reused_after_crash_in_restart",
    "ModelarDB.Props.C17_reused_after_crash_in_truncate"
   ],
   "note": "False of the code (three witnesses): ids are reused after a newer segment is saved before an older one, and after crashes that leave an empty folder; the reused id hides an unsaved batch. Proved for all other histories"
  },
  {
   "property": "C18",
   "status": "partial",
   "theorems": [
    "ModelarDB.Props.C18_replay_exact_partial",
    "ModelarDB.Props.C18_failed_append_replayed"
   ],
   "note": "Proved for every history without torn files and failed appends, also with crashes inside operations. With a failed append the unacknowledged batch is replayed (witness)"
  },
  {
   "property": "C19",
   "status": "partial",
   "theorems": [
    "ModelarDB.Props.C19_truncate_forgets",
    "ModelarDB.Props.C19_truncate_ids_increase_partial",
    "ModelarDB.Props.C19_crash_in_truncate",
    "ModelarDB.Props.C19_crash_in_truncate_reuses_id"
   ],
   "note": "Forgetting is proved for every history, also for crashes inside truncate. Ids increase under the conditions of C17; a crash inside truncate can make an id be reused (witness)"
  },
  {
   "property": "C20",
   "status": "partial",
   "theorems": [
    "ModelarDB.Props.C20_lost_only_if_partly_saved_partial",
    "ModelarDB.Props.C20_single_row_never_lost_partial",
    "ModelarDB.Props.C20_acknowledged_lost",
    "ModelarDB.Props.C20_failed_spill_lost"
   ],
   "note": "False of the code (witnesses): the id of a batch is committed when the first of its rows is saved, a crash then loses its other rows (C20_acknowledged_lost). A buffer that cannot be written to disk when the memory is reduced loses its rows but keeps their ids, which are committed with the next rows of the series (C20_failed_spill_lost). Proved for every history without failing I/O: the first is the only way to lose a row, so rows of batches without other rows are never lost"
  },
  {
   "property": "C21",
   "status": "partial",
   "theorems": [
    "ModelarDB.Props.C21_hash_collision",
    "ModelarDB.Props.C21_not_separate",
    "ModelarDB.Props.C21_separate_partial"
   ],
   "note": "False of the code for every hash function: the tags and the table name are hashed without separators, so (t, [ab, c]) and (t, [a, bc]) share a buffer and are stored as one series (witness for every engine). Proved for series whose tags cannot be confused and a hash without collisions"
  },
  {
   "property": "C22",
   "status": "partial",
   "theorems": [
    "ModelarDB.Props.C22_exact_partial",
    "ModelarDB.Props.C22_handed_over_when",
    "ModelarDB.Props.C22_idle_buffers_finished",
    "ModelarDB.Props.C22_sorted_and_bounded",
    "ModelarDB.Props.C22_not_exact_failed_spill",
    "ModelarDB.Props.C22_not_exact_repeated",
    "ModelarDB.Props.C22_ingestion_thread_ends"
   ],
   "note": "Proved for every sequence of steps of the three threads if no two series have the same hash, timestamps of a series differ and files can be written. False otherwise (witnesses)"
  },
  {
   "property": "C23",
   "status": "partial",
   "theorems": [
    "ModelarDB.Props.C23_flush_saves_everything_partial"
   ],
   "note": "Proved for every schedule of the three threads and every content of the channels if no two series have the same hash, timestamps of a series differ and files can be written"
  },
  {
   "property": "C24",
   "status": "partial",
   "theorems": [
    "ModelarDB.Props.C24_ingested_exact",
    "ModelarDB.Props.C24_uncompressed_partial",
    "ModelarDB.Props.C24_unreserved_when",
    "ModelarDB.Props.C24_compressed_partial",
    "ModelarDB.Props.C24_writer_never_panics",
    "ModelarDB.Props.C24_uncompressed_drifts",
    "ModelarDB.Props.C24_compressed_drifts",
    "ModelarDB.Props.C24_compressed_unbounded"
   ],
   "note": "Exact for ingested memory, for every history. False for uncompressed memory (a buffer created after a spill is given memory that was never reserved, but gives it back) and compressed memory (prefix sums are added for several fields); witnesses. Proved exact up to these two drifts, which are characterised. The drift of compressed memory is not bounded (C24_compressed_unbounded): with time the configured amount limits nothing"
  },
  {
   "property": "C25",
   "status": "partial",
   "theorems": [
    "ModelarDB.Props.C25_handed_out_once",
    "ModelarDB.Props.C25_no_lost_wakeup",
    "ModelarDB.Props.C25_only_impossible_waits",
    "ModelarDB.Props.C25_uncompressed_resumed_partial",
    "ModelarDB.Props.C25_uncompressed_forgotten"
   ],
   "note": "Proved for every schedule of threads that wait for ingested memory. False for uncompressed memory: after a flush the ingestion thread can wait for a condition nothing will change (witness: it stays stuck in every continuation); proved for histories without flush and stop requests"
  },
  {
   "property": "C26",
   "status": "partial",
   "theorems": [
    "ModelarDB.Props.C26_exactly_once_partial",
    "ModelarDB.Props.C26_nothing_invented",
    "ModelarDB.Props.C26_lost_only_when",
    "ModelarDB.Props.C26_lost_by_concurrent_commit",
    "ModelarDB.Props.C26_twice_after_crash",
    "ModelarDB.Props.C26_twice_after_failure",
    "ModelarDB.Props.C26_twice_after_overlap"
   ],
   "note": "False of the code (four witnesses). Proved for every history: only committed files are copied, and the only step that loses a file is the deletion by a transfer that had not read it. Exactly once is proved for histories in which nothing interferes with a transfer"
  },
  {
   "property": "C27",
   "status": "partial",
   "theorems": [
    "ModelarDB.Props.C27_size_partial",
    "ModelarDB.Props.C27_transferred_at_batch_size_partial",
    "ModelarDB.Props.C27_below_zero",
    "ModelarDB.Props.C27_counts_lost_file",
    "ModelarDB.Props.C27_new_batch_size_reached"
   ],
   "note": "False of the code for concurrent transfers and for a new batch size that is exactly reached (witnesses). Proved for histories in which nothing interferes with a transfer"
  },
  {
   "property": "C28",
   "status": "partial",
   "theorems": [
    "ModelarDB.Props.C28_ingested_partial",
    "ModelarDB.Props.C28_uncompressed_partial",
    "ModelarDB.Props.C28_compressed_partial",
    "ModelarDB.Props.C28_file",
    "ModelarDB.Props.C28_starts_iff",
    "ModelarDB.Props.C28_large_all",
    "ModelarDB.Props.C28_large_blocks",
    "ModelarDB.Props.C28_large_value"
   ],
   "note": "Proved for values below 2^63 and up to the drift shown in C24. False for all larger values: the server panics when it is started again from the file (C28_large_all, exactly for these by C28_starts_iff) and nothing can be ingested if it is the first change (C28_large_blocks)"
  },
  {
   "property": "C29",
   "status": "partial",
   "theorems": [
    "ModelarDB.Props.C29_no_file",
    "ModelarDB.Props.C29_precedence_partial",
    "ModelarDB.Props.C29_accepted_iff",
    "ModelarDB.Props.C29_restart_keeps",
    "ModelarDB.Props.C29_absent_setting",
    "ModelarDB.Props.C29_invalid_accepted"
   ],
   "note": "Proved for every combination of settings if the file has every setting; a setting absent from the file does not get its default and values that make the server panic are accepted (witnesses)"
  },
  {
   "property": "C30",
   "status": "partial",
   "theorems": [
    "ModelarDB.Props.C30_restart_partial",
    "ModelarDB.Props.C30_sql_storable",
    "ModelarDB.Props.C30_quotes_lose_definition",
    "ModelarDB.Props.C30_quote_prevents_start",
    "ModelarDB.Props.C30_period_prevents_start",
    "ModelarDB.Props.C30_generated_tag_becomes_stored",
    "ModelarDB.Props.C30_not_equal"
   ],
   "note": "Proved for every history of created and dropped tables if the definitions can be stored, which holds for every table created with SQL whose name has no quote and stands for itself (see C62). False otherwise (witnesses): a quote in a name ends the SQL literal used to load the table, a name with a period is registered in a schema that does not exist, and a generated tag column, possible with a message, is stored after a restart"
  },
  {
   "property": "C31",
   "status": "partial",
   "theorems": [
    "ModelarDB.Props.C31_crash_in_create_partial",
    "ModelarDB.Props.C31_crash_in_create_normal_partial",
    "ModelarDB.Props.C31_crash_in_drop_partial",
    "ModelarDB.Props.C31_create_leaves_unusable_name",
    "ModelarDB.Props.C31_create_normal_leaves_unusable_name",
    "ModelarDB.Props.C31_drop_leaves_unusable_name",
    "ModelarDB.Props.C31_part_of_definition"
   ],
   "note": "False of the code: a crash after the first change leaves a name that can never be used (for every table), a later crash leaves a table without some error bounds and with generated columns stored. Proved: the exact state after each crash point, and that the server starts with all other tables as they were"
  },
  {
   "property": "C32",
   "status": "partial",
   "theorems": [
    "ModelarDB.Props.C32_sql_partial",
    "ModelarDB.Props.C32_capi_partial",
    "ModelarDB.Props.C32_capi_iff",
    "ModelarDB.Props.C32_capi_zero_panics",
    "ModelarDB.Props.C32_reload_partial",
    "ModelarDB.Props.C32_sql_accepted_again_partial",
    "ModelarDB.Props.C32_message_accepts_everything",
    "ModelarDB.Props.C32_not_meaningful",
    "ModelarDB.Props.C32_message_prevents_start",
    "ModelarDB.Props.C32_never_starts",
    "ModelarDB.Props.C32_zero_changes"
   ],
   "note": "Proved for every float for SQL, the C interface and the metadata tables. False for messages: every float is accepted (C32_message_accepts_everything) and the server then does not start again until the table is dropped, for every history (C32_never_starts)"
  },
  {
   "property": "C33",
   "status": "proved",
   "theorems": [
    "ModelarDB.Props.C33_columns_correspond",
    "ModelarDB.Props.C33_same_name"
   ],
   "note": ""
  },
  {
   "property": "C34",
   "status": "partial",
   "theorems": [
    "ModelarDB.Props.C34_rows_partial",
    "ModelarDB.Props.C34_reversed_equality_loses_rows",
    "ModelarDB.Props.C34_reversed_equality_never_reads",
    "ModelarDB.Props.C34_reversed_equality_fails"
   ],
   "note": "Proved for every list of filters and every segment if no filter is an equality with the timestamp on the right: then every row the query keeps is in a segment that is read and passes the rewritten filter. False for such an equality (witnesses): the rewritten condition is the wrong way round"
  },
  {
   "property": "C35",
   "status": "proved",
   "theorems": [
    "ModelarDB.Props.C35_every_point",
    "ModelarDB.Props.C35_full_batches"
   ],
   "note": "for every sequence of batches, pending polls and batch size above zero; reconstructing one segment is C01 to C05"
  },
  {
   "property": "C36",
   "status": "partial",
   "theorems": [
    "ModelarDB.Props.C36_rows_partial",
    "ModelarDB.Props.C36_rows_mixed",
    "ModelarDB.Props.C36_rows_lost"
   ],
   "note": "Proved if the batches of each field are full and no tag that is read is called timestamp or value (C57_tag_name_panics). False of the code otherwise (witnesses): a filter or small batches misalign the fields, which mixes or loses rows"
  },
  {
   "property": "C37",
   "status": "partial",
   "theorems": [
    "ModelarDB.Props.C37_one_field_partial",
    "ModelarDB.Props.C37_reported_partial",
    "ModelarDB.Props.C37_error_lost",
    "ModelarDB.Props.C37_error_lost_at_end"
   ],
   "note": "Proved for queries of one field and if no later input is pending or finished in the same poll. False of the code otherwise (witnesses): the error is replaced by the result of a later input"
  },
  {
   "property": "C38",
   "status": "partial",
   "theorems": [
    "ModelarDB.Props.C38_rewritten",
    "ModelarDB.Props.C38_count",
    "ModelarDB.Props.C38_min_partial",
    "ModelarDB.Props.C38_max_partial",
    "ModelarDB.Props.C38_sum_partial",
    "ModelarDB.Props.C38_avg_partial",
    "ModelarDB.Props.C38_query_partial",
    "ModelarDB.Props.C38_sum_errors_partial",
    "ModelarDB.Props.C38_avg_errors_partial",
    "ModelarDB.Props.C38_sum_linear_partial",
    "ModelarDB.Props.C38_avg_linear_partial",
    "ModelarDB.Props.C38_min_errors_partial",
    "ModelarDB.Props.C38_max_errors_partial",
    "ModelarDB.Props.C38_min_max_linear_partial",
    "ModelarDB.Props.C38_expression_ignored",
    "ModelarDB.Props.C38_empty_table",
    "ModelarDB.Props.C38_empty_all",
    "ModelarDB.Props.C38_min_infinity_all",
    "ModelarDB.Props.C38_max_infinity_all",
    "ModelarDB.Props.C38_min_iff",
    "ModelarDB.Props.C38_max_iff",
    "ModelarDB.Props.C38_min_infinity",
    "ModelarDB.Props.C38_sum_overflow",
    "ModelarDB.Props.C38_sum_linear_wrong",
    "ModelarDB.Props.C38_single_mode_aborts"
   ],
   "note": "COUNT equals the number of rows for all stored segments. MIN, MAX, SUM and AVG equal those of the rows (sums up to the stated rounding) for tables with rows, finite values and segments with constant or lossless models, for all partitions and orders, and C38_query_partial lifts this to every query the rule rewrites whose aggregates are of the column itself. SUM, AVG, MIN and MAX are also proved for tables with linear models, with the errors of C12 and C13 for the segments (MIN and MAX need not be those of a row exactly). The full property is false of the code: SUM(f * 2) returns SUM(f), a table without rows gives f32::MAX, f32::MIN, 0 and NaN instead of null (never null by C38_empty_all), MIN of infinities is f32::MAX (MIN and MAX are correct exactly if not all values are that infinity, C38_min_iff and C38_max_iff), a segment whose sum exceeds binary32 gives infinity, sums of linear segments at irregular timestamps are wrong, and an aggregate planned in one step aborts the server."
  },
  {
   "property": "C39",
   "status": "partial",
   "theorems": [
    "ModelarDB.Props.C39_rows_partial",
    "ModelarDB.Props.C39_no_rows"
   ],
   "note": "Proved if no generated column precedes the first field and no tag is called timestamp or value. False of the code otherwise (witness): the query returns no rows as an index in the query schema is used for the stored schema"
  },
  {
   "property": "C40",
   "status": "proved",
   "theorems": [
    "ModelarDB.Props.C40_columns"
   ],
   "note": "for every plan that can return batches; the plans that cannot are in C57"
  },
  {
   "property": "C41",
   "status": "partial",
   "theorems": [
    "ModelarDB.Props.C41_sql",
    "ModelarDB.Props.C41_api_partial",
    "ModelarDB.Props.C41_wrapped",
    "ModelarDB.Props.C41_default",
    "ModelarDB.Props.C41_longest"
   ],
   "note": "SQL: complete. API: the period is cast to i64, so periods of at least 2^64 - MAX wrap around and delete every stale file; everything below 2^63 is proved."
  },
  {
   "property": "C42",
   "status": "partial",
   "theorems": [
    "ModelarDB.Props.C42_truncate",
    "ModelarDB.Props.C42_truncate_parsed",
    "ModelarDB.Props.C42_truncate_sound",
    "ModelarDB.Props.C42_vacuum_partial",
    "ModelarDB.Props.C42_vacuum_parsed_partial",
    "ModelarDB.Props.C42_drop_partial",
    "ModelarDB.Props.C42_drop_parsed_partial",
    "ModelarDB.Props.C42_drop_iff",
    "ModelarDB.Props.C42_vacuum_iff",
    "ModelarDB.Props.C42_created_partial",
    "ModelarDB.Props.C42_forwarded_partial",
    "ModelarDB.Props.C42_vacuum_semicolon",
    "ModelarDB.Props.C42_vacuum_empty",
    "ModelarDB.Props.C42_drop_parts",
    "ModelarDB.Props.C42_created_case",
    "ModelarDB.Props.C42_forwarded_comma"
   ],
   "note": "TRUNCATE complete; what is accepted as DROP TABLE or VACUUM and which tables it gives is proved exactly (C42_drop_iff, C42_vacuum_iff). False for VACUUM with ';' or an empty name, for DROP TABLE with a name in several parts, for names with upper-case letters and for quoted names that are forwarded to other nodes."
  },
  {
   "property": "C43",
   "status": "partial",
   "theorems": [
    "ModelarDB.Props.C43_partial",
    "ModelarDB.Props.C43_recurring",
    "ModelarDB.Props.C43_empty"
   ],
   "note": "Sent exactly as given if and only if the last address does not occur in the query; otherwise a part is sent or the node panics."
  },
  {
   "property": "C44",
   "status": "proved",
   "theorems": [
    "ModelarDB.Props.C44_compatible",
    "ModelarDB.Props.C44_preorder",
    "ModelarDB.Props.C44_write"
   ],
   "note": "Compatible exactly if every row that is valid for the first schema is valid for the second; compression and the Delta Lake are oracles."
  },
  {
   "property": "C45",
   "status": "partial",
   "theorems": [
    "ModelarDB.Props.C45_partial",
    "ModelarDB.Props.C45_failed_partial",
    "ModelarDB.Props.C45_same_table",
    "ModelarDB.Props.C45_concurrent_iff",
    "ModelarDB.Props.C45_concurrent",
    "ModelarDB.Props.C45_duplicated_all",
    "ModelarDB.Props.C45_duplicated"
   ],
   "note": "Proved for different tables without concurrent writes to the source; no step that fails loses rows. False for a table moved to itself (all rows are deleted), for concurrent writes to the source, all of which are lost (C45_concurrent_iff), and, if deleting fails, rows are in both tables and are added again by each further attempt (C45_duplicated_all)."
  },
  {
   "property": "C46",
   "status": "partial",
   "theorems": [
    "ModelarDB.Props.C46_partial",
    "ModelarDB.Props.C46_iff",
    "ModelarDB.Props.C46_boundary"
   ],
   "note": "Only rows in the range are copied, and all of them if and only if no segment is partly in the range (C46_iff). False of the code otherwise (witness): whole segments are left out, differently for each field."
  },
  {
   "property": "C47",
   "status": "partial",
   "theorems": [
    "ModelarDB.Props.C47_partial",
    "ModelarDB.Props.C47_established",
    "ModelarDB.Props.C47_listed",
    "ModelarDB.Props.C47_exact",
    "ModelarDB.Props.C47_race",
    "ModelarDB.Props.C47_same_url",
    "ModelarDB.Props.C47_crashed"
   ],
   "note": "False in general: two nodes that start together create two keys (C47_race), and nodes with the same URL remove each other from the list. Proved if two nodes are never about to create a key at once, and for every execution once a key is established; the list is complete if URLs differ and exact without crashes."
  },
  {
   "property": "C48",
   "status": "partial",
   "theorems": [
    "ModelarDB.Props.C48_partial",
    "ModelarDB.Props.C48_joins",
    "ModelarDB.Props.C48_forwarded",
    "ModelarDB.Props.C48_stale",
    "ModelarDB.Props.C48_twice",
    "ModelarDB.Props.C48_concurrent",
    "ModelarDB.Props.C48_failed",
    "ModelarDB.Props.C48_unstartable"
   ],
   "note": "Proved when no other change overlaps, with nodes joining, leaving and crashing and requests being lost in any order. Overlapping changes can all succeed and leave nodes with different definitions (C48_concurrent). C48_stale and C48_twice prove for every execution that no change succeeds while a crashed node is in the list or a restarted node is in it twice."
  },
  {
   "property": "C49",
   "status": "partial",
   "theorems": [
    "ModelarDB.Props.C49_partial",
    "ModelarDB.Props.C49_accepts",
    "ModelarDB.Props.C49_interrupted",
    "ModelarDB.Props.C49_unstartable",
    "ModelarDB.Props.C49_kind"
   ],
   "note": "Proved for data folders without interrupted changes and normal tables without the schema of segments, in both directions. False otherwise: a leftover Delta table counts as the table, and a time series table counts as a normal table with the schema of its segments."
  },
  {
   "property": "C50",
   "status": "partial",
   "theorems": [
    "ModelarDB.Props.C50_atomic_partial",
    "ModelarDB.Props.C50_answer_partial",
    "ModelarDB.Props.C50_error_although_saved",
    "ModelarDB.Props.C50_commit_error_after_commit"
   ],
   "note": "Proved for a failure of any step and a crash after any change to the object store, if a commit of the deltalake crate that returns an error has no effect. False for the answer: an error is returned although the rows are saved if loading the table afterwards fails (witness)"
  },
  {
   "property": "C51",
   "status": "proved",
   "theorems": [
    "ModelarDB.Props.C51_check_sound",
    "ModelarDB.Props.C51_check_complete_absolute"
   ],
   "note": ""
  },
  {
   "property": "C52",
   "status": "partial",
   "theorems": [
    "ModelarDB.Props.C52_ingestion_survives_partial",
    "ModelarDB.Props.C22_ingestion_thread_ends"
   ],
   "note": "Proved if the memory is enough for two buffers of the largest table and is not changed; false with memory for one buffer (C22_ingestion_thread_ends)"
  },
  {
   "property": "C53",
   "status": "proved",
   "theorems": [
    "ModelarDB.Props.C53_recovered_once"
   ],
   "note": "for histories as in C22: no two series with the same hash, timestamps of a series differ and files can be written; the write-ahead log replays what C18 proves"
  },
  {
   "property": "C54",
   "status": "partial",
   "theorems": [
    "ModelarDB.Props.C54_nothing_lost_partial",
    "ModelarDB.Props.C54_lost_can_be_replayed",
    "ModelarDB.Props.C54_same_without_failures",
    "ModelarDB.Props.C54_flush_loses",
    "ModelarDB.Props.C54_remote_failure_stops_saving",
    "ModelarDB.Props.C54_failed_setting_kept"
   ],
   "note": "False of the code (witnesses). Proved for every history: segments are only lost from memory if their write fails, and their ids are then not recorded, so the write-ahead log replays them"
  },
  {
   "property": "C55",
   "status": "partial",
   "theorems": [
    "ModelarDB.Props.C55_other_tables_kept_partial",
    "ModelarDB.Props.C55_dropped_gone",
    "ModelarDB.Props.C55_drop_iff",
    "ModelarDB.Props.C55_kept_partial",
    "ModelarDB.Props.C55_nested",
    "ModelarDB.Props.C55_field_deleted",
    "ModelarDB.Props.C55_nested_table_deleted"
   ],
   "note": "Proved for names without a slash, and for all names which files a drop deletes (C55_drop_iff): those whose path begins with the name and a slash. False therefore for names with a slash, which are accepted: dropping a deletes the files of every a/b (C55_nested), and dropping a/field_column=1 those of a field of a (C55_field_deleted)"
  },
  {
   "property": "C56",
   "status": "proved",
   "theorems": [
    "ModelarDB.Props.C56_sent_definition_same",
    "ModelarDB.Props.C56_sql",
    "ModelarDB.Props.C56_unknown_rejected"
   ],
   "note": "the order of the columns an expression refers to, which comes from a hash set, may differ"
  },
  {
   "property": "C57",
   "status": "partial",
   "theorems": [
    "ModelarDB.Props.C57_no_panic_partial",
    "ModelarDB.Props.C57_filters_panic_iff",
    "ModelarDB.Props.C57_columns_no_panic",
    "ModelarDB.Props.C57_sql_fields",
    "ModelarDB.Props.C57_generated_filter_panics",
    "ModelarDB.Props.C57_no_column_panics",
    "ModelarDB.Props.C57_constant_column_panics",
    "ModelarDB.Props.C57_generated_tag_panics",
    "ModelarDB.Props.C57_tag_name_panics"
   ],
   "note": "Proved if filters compare stored columns only, a stored column is read, only fields are generated and no tag is called timestamp or value. False of the code otherwise (witnesses): a filter on a generated column, COUNT(*), a query for a constant column only, a generated tag column and a tag called value or timestamp abort the server"
  },
  {
   "property": "C58",
   "status": "partial",
   "theorems": [
    "ModelarDB.Props.C58_one_field_partial",
    "ModelarDB.Props.C58_all_read_partial",
    "ModelarDB.Props.C58_same_ends_partial",
    "ModelarDB.Props.C58_rows_mixed"
   ],
   "note": "Proved for queries of one field, and of several fields if the limit is at least the number of segments or the segments of the fields end at the same data points (C58_same_ends_partial). False of the code otherwise (witness): different segments are read for each field and the rows are mixed"
  },
  {
   "property": "C59",
   "status": "partial",
   "theorems": [
    "ModelarDB.Props.C59_copy_partial",
    "ModelarDB.Props.C59_move_partial",
    "ModelarDB.Props.C59_stricter"
   ],
   "note": "Proved if the bounds of the target are not stricter. False of the code otherwise (witness): the bounds are not compared."
  },
  {
   "property": "C60",
   "status": "partial",
   "theorems": [
    "ModelarDB.Props.C60_exclusive",
    "ModelarDB.Props.C60_no_update_partial",
    "ModelarDB.Props.C60_plain_partial",
    "ModelarDB.Props.C60_create_stuck",
    "ModelarDB.Props.C60_drop_stuck",
    "ModelarDB.Props.C60_truncate_stuck",
    "ModelarDB.Props.C60_kill_stuck",
    "ModelarDB.Props.C60_nodes_stuck",
    "ModelarDB.Props.C60_spreads"
   ],
   "note": "False of the code: a request for a time series table reads the configuration twice, the second time while it holds the lock from the first, and deadlocks with a request to change the configuration that comes in between; removing a node takes two locks in the other order; two nodes can wait for each other. Proved for every set of requests as long as the configuration is not changed, and with changes of it for all requests except these."
  },
  {
   "property": "C61",
   "status": "partial",
   "theorems": [
    "ModelarDB.Props.C61_client_partial",
    "ModelarDB.Props.C61_client_period_partial",
    "ModelarDB.Props.C61_folder",
    "ModelarDB.Props.C61_text",
    "ModelarDB.Props.C61_python_partial",
    "ModelarDB.Props.C61_client_comma_all",
    "ModelarDB.Props.C61_client_comma",
    "ModelarDB.Props.C61_client_period_all",
    "ModelarDB.Props.C61_client_empty",
    "ModelarDB.Props.C61_client_words",
    "ModelarDB.Props.C61_client_characters",
    "ModelarDB.Props.C61_python_zero"
   ],
   "note": "Data folders: complete. Servers: the name is inserted into SQL text, so it is proved for identifiers, and false for names with a comma (two tables are dropped, C61_client_comma_all) or a period (another table is dropped, C61_client_period_all), empty names (all tables are vacuumed), names with spaces or other characters (witnesses). Python: proved for names without a zero character."
  },
  {
   "property": "C62",
   "status": "partial",
   "theorems": [
    "ModelarDB.Props.C62_named_partial",
    "ModelarDB.Props.C62_does_partial",
    "ModelarDB.Props.C62_self_names",
    "ModelarDB.Props.C62_period",
    "ModelarDB.Props.C62_period_all",
    "ModelarDB.Props.C62_case",
    "ModelarDB.Props.C62_case_all",
    "ModelarDB.Props.C62_case_server",
    "ModelarDB.Props.C62_failed_drop",
    "ModelarDB.Props.C62_metadata"
   ],
   "note": "Proved for every sequence of requests with names that datafusion reads as themselves, which includes all lower-case identifiers. False otherwise: creating a.b fails but the folder can then never be opened again (for all identifiers, C62_period_all), the same holds if foo is created beside Foo (C62_case_all), dropping Foo hides foo, and dropping a metadata table prevents that tables are listed."
  },
  {
   "property": "C63",
   "status": "partial",
   "theorems": [
    "ModelarDB.Props.C63_reads_partial",
    "ModelarDB.Props.C63_quotes",
    "ModelarDB.Props.C63_timestamp",
    "ModelarDB.Props.C63_timestamp_tag",
    "ModelarDB.Props.C63_case"
   ],
   "note": "Proved for all tables and requests if names are lower-case identifiers that are not words of SQL, values have no quotes and the column with timestamps is called timestamp. False otherwise (witnesses): a tag with quotes changes the condition and returns all rows, the name timestamp is fixed in the code, and columns with upper-case letters cannot be read or another column is read."
  },
  {
   "property": "C64",
   "status": "partial",
   "theorems": [
    "ModelarDB.Props.C64_put_partial",
    "ModelarDB.Props.C64_failed_partial",
    "ModelarDB.Props.C64_missing_partial",
    "ModelarDB.Props.C64_narrower_partial",
    "ModelarDB.Props.C64_by_position",
    "ModelarDB.Props.C64_types_iff",
    "ModelarDB.Props.C64_other_order",
    "ModelarDB.Props.C64_other_type",
    "ModelarDB.Props.C64_additional_all",
    "ModelarDB.Props.C64_additional",
    "ModelarDB.Props.C64_wider_type",
    "ModelarDB.Props.C64_failed"
   ],
   "note": "Proved for all data with the schema of the table: everything is stored, or everything up to the part the storage engine fails for. Data with fewer columns, or with values of fewer bytes after columns of the same types, is always refused. False otherwise (witnesses): the schema of the sender is never read, so columns in another order, with another type of at least the same width or additional columns at the end are stored wrongly without an error, and a request that fails can have stored data. For data with the types of the table the request is correct exactly if the schemas are equal (C64_types_iff). Nulls, dictionaries and compression are not modelled; arrow-ipc is modelled from its format."
  },
  {
   "property": "C65",
   "status": "partial",
   "theorems": [
    "ModelarDB.Props.C65_stops_cleanly_partial",
    "ModelarDB.Props.C65_kill_partial",
    "ModelarDB.Props.C65_flush_node_partial",
    "ModelarDB.Props.C65_wal_kept",
    "ModelarDB.Props.C65_single_never_killed",
    "ModelarDB.Props.C65_interrupt_loses",
    "ModelarDB.Props.C65_kill_loses",
    "ModelarDB.Props.C65_periodic_ends",
    "ModelarDB.Props.C65_kill_single"
   ],
   "note": "Proved for all executions in which nothing fails and no data points are ingested between the close of the storage engine by CTRL+C and the end of the process; for KillNode and FlushNode if rows can be saved, whatever else fails; and for everything if the write-ahead log is enabled. False otherwise (witnesses): the handler for CTRL+C releases the lock although its documentation says the opposite, so data is confirmed that is never saved, KillNode ends the process after errors that are only logged, a failing periodic transfer aborts the process, and a node without a remote data folder cannot be killed and answers FlushNode with an error."
  },
  {
   "property": "C66",
   "status": "partial",
   "theorems": [
    "ModelarDB.Props.C66_error_partial",
    "ModelarDB.Props.C66_no_error",
    "ModelarDB.Props.C66_succeeds_iff",
    "ModelarDB.Props.C66_defined_partial",
    "ModelarDB.Props.C66_released_at_most_once",
    "ModelarDB.Props.C66_released_once_partial",
    "ModelarDB.Props.C66_write_released_partial",
    "ModelarDB.Props.C66_close_no_error",
    "ModelarDB.Props.C66_mixed_undefined",
    "ModelarDB.Props.C66_same_undefined",
    "ModelarDB.Props.C66_documented_undefined",
    "ModelarDB.Props.C66_no_policy"
   ],
   "note": "Proved for all functions except closing, for pointers with the type the caller says and different sources and targets, and for structures given to functions that succeed if the caller releases the schema it created a table with. False otherwise: modelardb_embedded_close() fails without an error, so Python raises NULL or an old error; is_data_folder describes the source but is also used for the target, so copy and move between a data folder and a client reinterpret one as the other before its type is checked (for every value of is_data_folder); copying within a data folder creates two mutable references to it; and after a failure an array was released or not depending on the argument that could not be converted, so no caller that knows only the return code can release it exactly once. The Python bindings release nothing, so they leak the schema of each created table and the arrays of failed calls."
  },
  {
   "property": "C67",
   "status": "partial",
   "theorems": [
    "ModelarDB.Props.C67_all_or_nothing",
    "ModelarDB.Props.C67_no_table",
    "ModelarDB.Props.C67_import_normal_partial",
    "ModelarDB.Props.C67_import_normal_succeeds_partial",
    "ModelarDB.Props.C67_registered_partial",
    "ModelarDB.Props.C67_import_time_series_never",
    "ModelarDB.Props.C67_cast_never",
    "ModelarDB.Props.C67_create_never",
    "ModelarDB.Props.C67_export_never",
    "ModelarDB.Props.C67_export_time_series_never",
    "ModelarDB.Props.C67_export_left",
    "ModelarDB.Props.C67_swapped",
    "ModelarDB.Props.C67_nulls",
    "ModelarDB.Props.C67_error_after_import",
    "ModelarDB.Props.C67_files_left",
    "ModelarDB.Props.C67_export_other"
   ],
   "note": "Proved for imports: all rows or none are added whatever fails, and imports into normal tables are exact. Refuted for the rest: the bulk loader opens the data folder without registering its tables, so no time series table can be imported (C67_import_time_series_never, C67_cast_never), no table can be exported (C67_export_never, C67_export_time_series_never), and a failed export leaves an empty table that makes later exports to the path fail (C67_export_left). The SQL is given to datafusion alone, so the documented CREATE TIME SERIES TABLE is an error (C67_create_never). If tables were registered, files with the columns of the table in order are imported by name (C67_registered_partial), others by position under wrong names (C67_swapped), and nulls as zeros and empty texts (C67_nulls)."
  },
  {
   "property": "C68",
   "status": "partial",
   "theorems": [
    "ModelarDB.Props.C68_construct",
    "ModelarDB.Props.C68_succeeds_iff",
    "ModelarDB.Props.C68_exact_partial",
    "ModelarDB.Props.C68_near_partial",
    "ModelarDB.Props.C68_columns_partial",
    "ModelarDB.Props.C68_larger",
    "ModelarDB.Props.C68_panics",
    "ModelarDB.Props.C68_inherits_all",
    "ModelarDB.Props.C68_inherits",
    "ModelarDB.Props.C68_equal"
   ],
   "note": "Proved for values that are 32-bit floats; for other values in their normal range the error bound is used with a relative difference of at most 2^-24. Refuted for the rest: 0.1 allows a larger error than declared (C68_larger), values of at most 2^-150 or at least 2^128-2^103 end the process (C68_panics, exactly these by C68_succeeds_iff), classes that inherit from AbsoluteErrorBound are used as relative (C68_inherits_all), and all error bounds of a class are equal (C68_equal)."
  },
  {
   "property": "C69",
   "status": "partial",
   "theorems": [
    "ModelarDB.Props.C69_complete_partial",
    "ModelarDB.Props.C69_single_partial",
    "ModelarDB.Props.C69_error_partial",
    "ModelarDB.Props.C69_never_wrong_partial",
    "ModelarDB.Props.C69_answered",
    "ModelarDB.Props.C69_embedded_partial",
    "ModelarDB.Props.C69_embedded_failed",
    "ModelarDB.Props.C69_other_schema",
    "ModelarDB.Props.C69_truncated",
    "ModelarDB.Props.C69_too_large",
    "ModelarDB.Props.C69_empty",
    "ModelarDB.Props.C69_twice"
   ],
   "note": "Proved for every interleaving if the result has the same schema at all nodes, batches can be encoded and are at most as large as clients accept. Refuted for the rest: results with other column orders are given to the client in the wrong columns (C69_other_schema), a batch that cannot be encoded ends the result without an error (C69_truncated), batches above 4 MiB, e.g. 8,192 rows with a timestamp and 127 values, cannot be read by clients (C69_too_large), and without batches Python and C get no columns (C69_empty). Which text is sent to the addresses is C43."
  },
  {
   "property": "C70",
   "status": "partial",
   "theorems": [
    "ModelarDB.Props.C70_never_other",
    "ModelarDB.Props.C70_tokens_partial",
    "ModelarDB.Props.C70_file_partial",
    "ModelarDB.Props.C70_print_all",
    "ModelarDB.Props.C70_print_prefix",
    "ModelarDB.Props.C70_print_partial",
    "ModelarDB.Props.C70_commands",
    "ModelarDB.Props.C70_continues",
    "ModelarDB.Props.C70_print_stop",
    "ModelarDB.Props.C70_quit",
    "ModelarDB.Props.C70_unreadable",
    "ModelarDB.Props.C70_quoted",
    "ModelarDB.Props.C70_success",
    "ModelarDB.Props.C70_split",
    "ModelarDB.Props.C70_blank",
    "ModelarDB.Props.C70_schema",
    "ModelarDB.Props.C70_windows",
    "ModelarDB.Props.C70_input_ends"
   ],
   "note": "Proved for lines whose `--` are not in quotes: all are sent in order with the same tokens whatever the server answers; for all other lines what is sent is rejected or has the tokens of the line. Refuted for the rest: `--` in a string cuts the statement (C70_quoted), the exit code is always that for success (C70_success), statements on several lines are executed line by line (C70_split), an empty query is sent for an indented comment and errors of \\dt are not reported (C70_blank), \\d does not work for names with spaces (C70_schema), on Windows the second batch of a result can never be printed (C70_windows), and the client does not end when its input does (C70_input_ends)."
  },
  {
   "property": "C71",
   "status": "partial",
   "theorems": [
    "ModelarDB.Props.C71_stored_partial",
    "ModelarDB.Props.C71_failed_partial",
    "ModelarDB.Props.C71_values_atomic",
    "ModelarDB.Props.C71_succeeds",
    "ModelarDB.Props.C71_missing_column",
    "ModelarDB.Props.C71_normal_partial",
    "ModelarDB.Props.C71_refused",
    "ModelarDB.Props.C71_read_partial",
    "ModelarDB.Props.C71_overwrite",
    "ModelarDB.Props.C71_generated",
    "ModelarDB.Props.C71_not_atomic"
   ],
   "note": "Proved: what is stored and returned by a statement that succeeds, that statements with values that fit succeed, that VALUES is atomic up to failures of the storage engine after it has stored the rows, and that rows are read as given if the values of generated columns agree with their expressions. Refuted for the rest: OVERWRITE appends (C71_overwrite), values for generated columns are dropped without a check (C71_generated), and a statement with several batches that fails keeps the first batches (C71_not_atomic)."
  },
  {
   "property": "C72",
   "status": "partial",
   "theorems": [
    "ModelarDB.Props.C72_created",
    "ModelarDB.Props.C72_same_answer_partial",
    "ModelarDB.Props.C72_tag_names",
    "ModelarDB.Props.C72_timestamp_name"
   ],
   "note": "Proved for all renamings if no tag has a name the server uses for a column of segments or data points; the timestamp column and fields can have such names. Refuted otherwise (witnesses): a tag called value or timestamp makes queries for the tag abort the server and time filters fail, and whether a filter `expression = timestamp` fails depends on the name of the timestamp column."
  },
  {
   "property": "C73",
   "status": "partial",
   "theorems": [
    "ModelarDB.Props.C73_lossless_partial",
    "ModelarDB.Props.C73_lossy_partial",
    "ModelarDB.Props.C73_lossless_rows_partial",
    "ModelarDB.Props.C73_lossy_rows_partial"
   ],
   "note": "Proved for queries that read one field, also from conditions on the received rows only (C73_lossless_rows_partial, C73_lossy_rows_partial), with the conditions of the parts: no NaN, linear models that read back (C10, C11), no two series with the same hash, no repeated timestamps, no failing I/O (C22), no tags with names of the server (C57), no filters `expression = timestamp` (C34). Queries for several fields are C74. Missing are generated columns, which are shown for given segments in C40."
  },
  {
   "property": "C74",
   "status": "partial",
   "theorems": [
    "ModelarDB.Props.C74_rows_partial",
    "ModelarDB.Props.C74_rows_scale_partial",
    "ModelarDB.Props.C74_rows_mixed"
   ],
   "note": "False of the code if the rows of a series are not received in the order of their timestamps: a query returns a value at a timestamp for which another value was ingested (witness from ingestion to the answer). Proved if they are, with the conditions of C73, also from conditions on the received rows only (C74_rows_scale_partial). Missing are batches of segments that are not full (C36); the segments of all fields are sorted when they are read, which is so if there are several files for each field; for other files see C80, for generated columns C77."
  },
  {
   "property": "C75",
   "status": "partial",
   "theorems": [
    "ModelarDB.Props.C75_written",
    "ModelarDB.Props.C75_accepted_partial",
    "ModelarDB.Props.C75_defines_partial",
    "ModelarDB.Props.C75_number",
    "ModelarDB.Props.C75_storable_partial",
    "ModelarDB.Props.C75_restart_partial",
    "ModelarDB.Props.C75_same_name_accepted",
    "ModelarDB.Props.C75_expression_of_no_column"
   ],
   "note": "False of the code for names of columns with other characters than ASCII characters: the names are compared with only ASCII letters in lower case but stored with all letters in lower case, so two columns can get the same name or an expression can refer to no column, and the server does not start again (witnesses). Proved for names with ASCII characters. The parts of sqlparser and datafusion that are used are given by `Sql` and assumed to be `Lawful`."
  },
  {
   "property": "C76",
   "status": "partial",
   "theorems": [
    "ModelarDB.Props.C76_accepted",
    "ModelarDB.Props.C76_declared",
    "ModelarDB.Props.C76_columns_partial",
    "ModelarDB.Props.C76_nested_fields_become_columns",
    "ModelarDB.Props.C76_options_ignored"
   ],
   "note": "False of the code for types with nested fields such as INT[]: the nested fields become columns of the table too (witness). Proved that no declared column is lost for all types, and that the columns are exactly the declared ones for types without nested fields. Options of columns such as UNIQUE and DEFAULT and the precision of timestamps are silently ignored (witness)."
  },
  {
   "property": "C77",
   "status": "partial",
   "theorems": [
    "ModelarDB.Props.C77_generated_partial",
    "ModelarDB.Props.C77_generated_scale_partial"
   ],
   "note": "As C74: rows of a series that are received in order of time (false otherwise, C74_rows_mixed), full batches of segments (false otherwise, C36_rows_lost), faithful linear models, which follow if the received rows have a scale (C77_generated_scale_partial). Queries for expressions that refer to no column only abort the server (C57_constant_column_panics). Expressions are evaluated by datafusion and can have any meaning that computes each row on its own (RowWise)."
  },
  {
   "property": "C78",
   "status": "partial",
   "theorems": [
    "ModelarDB.Props.C78_rows_partial",
    "ModelarDB.Props.C78_not_lost_partial",
    "ModelarDB.Props.C78_logged_partial",
    "ModelarDB.Props.C78_dropped_partial",
    "ModelarDB.Props.C78_truncated_partial",
    "ModelarDB.Props.C78_failed_drop",
    "ModelarDB.Props.C78_rows_in_other_table",
    "ModelarDB.Props.C78_rows_without_table",
    "ModelarDB.Props.C78_created_table_deleted",
    "ModelarDB.Props.C78_dropped_while_created",
    "ModelarDB.Props.C78_rows_not_logged"
   ],
   "note": "False in general, as no lock is held from the lookup of a table to the end of a request: rows sent to a dropped table are saved in the table created after it (C78_rows_in_other_table) or accepted and lost (C78_rows_without_table), overlapping requests to drop a table delete the next table (C78_created_table_deleted), a table dropped while it is created leaves a name that cannot be used (C78_dropped_while_created), and rows sent while a table is truncated can be missing from the log (C78_rows_not_logged). Proved if requests that create, drop or truncate the table do not overlap each other and rows are sent to the table that is registered (Orderly). Writes can overlap all other requests."
  },
  {
   "property": "C79",
   "status": "partial",
   "theorems": [
    "ModelarDB.Props.C79_no_row_twice",
    "ModelarDB.Props.C79_acknowledged_kept_partial",
    "ModelarDB.Props.C79_query_partial",
    "ModelarDB.Props.C79_rows_partial",
    "ModelarDB.Props.C79_query_scale_partial",
    "ModelarDB.Props.C79_rows_scale_partial",
    "ModelarDB.Props.C79_row_lost"
   ],
   "note": "No row is stored twice and nothing else is stored, for all histories (C79_no_row_twice). False for rows of batches of which only other rows had been saved when the server was stopped (C79_row_lost, as in C20); all other acknowledged rows are returned, by queries for one field (C79_query_partial) and, if the rows of each series were sent in order, for any number of fields (C79_rows_partial). The write-ahead log is enabled and gives no id to two batches, its own files are the subject of C15 to C19 and of C81. Tables are neither dropped nor truncated. The other conditions are those of C22, C73 and C74: no failing I/O, no repeated timestamps, no hash collisions, and no linear models that are rounded, which follows if the rows that are sent have a scale (C79_query_scale_partial, C79_rows_scale_partial)."
  },
  {
   "property": "C80",
   "status": "partial",
   "theorems": [
    "ModelarDB.Props.C80_rows_partial",
    "ModelarDB.Props.C80_one_file_partial",
    "ModelarDB.Props.C80_rows_mixed",
    "ModelarDB.Props.C80_stated_order_partial",
    "ModelarDB.Props.C80_stated_order_wrong"
   ],
   "note": "The segments in a file are in the order in which they were written, they are not sorted, although the plan of a query declares that they are. DataFusion relies on the declared order for one file and sorts the segments of several files. Proved if no file reached the size at which a new one is started or the table was saved at least twice (C80_rows_partial, with rows received in order), and if each field is in at most one file, for rows in any order (C80_one_file_partial). False if the table was saved once and some but not all fields got a second file: the values of different rows are returned in one row (C80_rows_mixed). The metadata of the files of every table with tags state an order by other columns (C80_stated_order_wrong). What DeltaWriter and FileScanConfig do is an assumption."
  },
  {
   "property": "C81",
   "status": "partial",
   "theorems": [
    "ModelarDB.Props.C81_replayed_partial",
    "ModelarDB.Props.C81_no_row_twice_partial",
    "ModelarDB.Props.C81_acknowledged_kept_partial",
    "ModelarDB.Props.C81_rows_partial",
    "ModelarDB.Props.C81_row_lost",
    "ModelarDB.Props.C81_not_started"
   ],
   "note": "False of the code. A row that was acknowledged alone in its batch is lost without any crash in the middle of an operation: when the segment of a newer batch is deleted before that of an older one, the id is given to another batch after the next restart, and that batch is taken to be saved (C81_row_lost). After a crash between the creation of a file of the log and the writing of its schema the server cannot be started (C81_not_started). Proved if crashes leave no file without a schema and no empty folder and if no segment is fully persisted before an older one: the server can be started and replays exactly the batches that are not in commits, and C79 then holds without its assumption that ids are not used twice, with its exception for batches of which only other rows had been saved. Tables are neither dropped nor truncated, one request at a time writes to the log, and directory operations are durable when they return."
  },
  {
   "property": "C82",
   "status": "partial",
   "theorems": [
    "ModelarDB.Props.C82_accepted_partial",
    "ModelarDB.Props.C82_made_partial",
    "ModelarDB.Props.C82_nothing_ignored_partial",
    "ModelarDB.Props.C82_storable_partial",
    "ModelarDB.Props.C82_reopened_partial",
    "ModelarDB.Props.C82_server",
    "ModelarDB.Props.C82_c_partial",
    "ModelarDB.Props.C82_c_zero_ends",
    "ModelarDB.Props.C82_misspelled_ignored",
    "ModelarDB.Props.C82_misspelled_not_parsed",
    "ModelarDB.Props.C82_computed_bound_ignored",
    "ModelarDB.Props.C82_rest_ignored",
    "ModelarDB.Props.C82_not_computable",
    "ModelarDB.Props.C82_computed_tag_forgotten",
    "ModelarDB.Props.C82_tag_bound_forgotten"
   ],
   "note": "False of the code in several ways. Error bounds and expressions for names that are no columns are ignored, even if the text is no expression (C82_misspelled_ignored, C82_misspelled_not_parsed), and so are error bounds of computed columns (C82_computed_bound_ignored) and what follows an expression in its text (C82_rest_ignored). Unlike for a statement it is not checked that an expression can be computed (C82_not_computable). Tags that are computed and error bounds of tags are accepted but forgotten when a data folder is opened again (C82_computed_tag_forgotten, C82_tag_bound_forgotten). From C, zero ends the process (C82_c_zero_ends). Proved for all requests without text after expressions: which are accepted, and what the table is. Proved for those in which all names are stored columns: nothing is ignored. Proved for all accepted requests: a server has the same definition. Expressions are abstract, and their texts are given as tokens."
  },
  {
   "property": "C83",
   "status": "partial",
   "theorems": [
    "ModelarDB.Props.C83_folder",
    "ModelarDB.Props.C83_folder_succeeds",
    "ModelarDB.Props.C83_client_partial",
    "ModelarDB.Props.C83_client_succeeds_partial",
    "ModelarDB.Props.C83_to_server_partial",
    "ModelarDB.Props.C83_client_half",
    "ModelarDB.Props.C83_client_time_series",
    "ModelarDB.Props.C83_client_empty",
    "ModelarDB.Props.C83_to_server_other_order"
   ],
   "note": "Proved for data folders. False for clients (witnesses): batches are written one by one, so a failure leaves the rows of the first batches, which are in the table twice when copying is tried again (C83_client_half); time series tables are accepted contrary to the documentation, so that values are approximated twice (C83_client_time_series); a result without batches is copied to a table that does not exist and one with an empty batch cannot be copied to a data folder (C83_client_empty); and a server stores columns in another order in the wrong columns (C83_to_server_other_order). Proved for clients: the rows of the first batches are added in order, and these are all batches exactly if copying succeeds. The result of the query is given, and writing all batches is one commit (C50)."
  },
  {
   "property": "C84",
   "status": "partial",
   "theorems": [
    "ModelarDB.Props.C84_count",
    "ModelarDB.Props.C84_min_max_partial",
    "ModelarDB.Props.C84_sum_partial",
    "ModelarDB.Props.C84_avg_partial",
    "ModelarDB.Props.C84_avg_absolute_partial",
    "ModelarDB.Props.C84_sum_regular_partial",
    "ModelarDB.Props.C84_avg_regular_partial",
    "ModelarDB.Props.C84_sum_wrong",
    "ModelarDB.Props.C84_sum_negative_zero_wrong"
   ],
   "note": "False for SUM (C84_sum_wrong): values at irregular timestamps that are read exactly as ingested sum to 51, but SUM is below 6, see C12. Also false with regular timestamps if a line goes from -0 to 0 (C84_sum_negative_zero_wrong): a residual of 50 is summed as -50, if f32::max of -0 and 0 is -0. COUNT is proved here for all series that C11 covers, and for all values and error bounds in C86_count. Proved for MIN and MAX of these series if their values and timestamps have the size that C13_linear_rounding_partial requires. Proved for SUM and AVG if each linear segment has no residuals or regular timestamps and reconstructs its last value, and the result is finite; the rounding error is explicit. For series with one interval between their timestamps, without negative zeros and of at most 2^24 points, C84_sum_regular_partial and C84_avg_regular_partial need no hypothesis about segments: the error is that of the bound plus an explicit rounding of the number of points and their size. What C11 requires is required here: finite values, values for which the lossless codec keeps the bound (C05), and linear models that read back values within the bound, which C11 derives from the size of the values and timestamps."
  },
  {
   "property": "C85",
   "status": "partial",
   "theorems": [
    "ModelarDB.Props.C85_listed",
    "ModelarDB.Props.C85_listed_server_partial",
    "ModelarDB.Props.C85_described_partial",
    "ModelarDB.Props.C85_create_partial",
    "ModelarDB.Props.C85_drop",
    "ModelarDB.Props.C85_alone",
    "ModelarDB.Props.C85_created_elsewhere",
    "ModelarDB.Props.C85_normal_created_elsewhere",
    "ModelarDB.Props.C85_dropped_elsewhere",
    "ModelarDB.Props.C85_recreated",
    "ModelarDB.Props.C85_server_out_of_date"
   ],
   "note": "Proved for any number of programs: the names that are listed by programs that use the data folder directly, and the result of dropping. Proved for names that no other program tried to create or drop since the program opened the data folder, so for all names if it is alone: the schema, what can be queried and the result of creating, also for servers. False otherwise (witnesses): time series tables of other programs are listed but said not to be tables, normal tables can be written to but not queried, dropped time series tables still have a schema, creating a table again fails but creates it, and servers do not list tables of others. Servers only create and drop tables whose names they are up to date with. Requests are single steps (see C31 and C78), names stand for themselves (C62), and deltalake loads the latest version of tables."
  },
  {
   "property": "C86",
   "status": "partial",
   "theorems": [
    "ModelarDB.Props.C86_count",
    "ModelarDB.Props.C86_count_min_max_partial",
    "ModelarDB.Props.C86_aggregates_partial",
    "ModelarDB.Props.C86_query_partial",
    "ModelarDB.Props.C86_restarts_partial"
   ],
   "note": "Proved from conditions on the rows that are received only. COUNT: any values and error bounds (C86_count). MIN and MAX: the values are finite, not near zero compared to the error bound and do not change too much (RowsScale, the condition of C11, for lossless fields that of C10). SUM and AVG: also one interval per series and rows that are received in the order of their timestamps; SUM is wrong for irregular series (C84_sum_wrong). Missing: rows without a scale, two series with the same hash, repeated timestamps and I/O that fails (C22), sums that overflow, SUM and AVG after the server was stopped without warning (COUNT, MIN and MAX are shown in C86_restarts_partial), and GROUP BY and filters, for which the plan is not rewritten (C38)."
  },
  {
   "property": "C87",
   "status": "partial",
   "theorems": [
    "ModelarDB.Props.C87_nothing_invented",
    "ModelarDB.Props.C87_one_place_partial",
    "ModelarDB.Props.C87_acknowledged_partial",
    "ModelarDB.Props.C87_query_partial",
    "ModelarDB.Props.C87_rows_partial",
    "ModelarDB.Props.C87_aggregates_partial",
    "ModelarDB.Props.C87_row_lost",
    "ModelarDB.Props.C87_row_twice"
   ],
   "note": "Proved for histories in which nothing interferes with transfers (Calm, as for C26): nothing is committed to a table while a transfer of it runs, transfers of it do not overlap, and the node does not stop and no step fails between the write to the cloud and the local deletion. For other histories the property is false: C87_row_lost (a row that is committed while a transfer runs is deleted and not replayed either) and C87_row_twice (a crash between the write and the deletion). In every history what is returned in the cloud are rows that were sent, with their values (C87_nothing_invented, C87_query_partial). COUNT, MIN and MAX in the cloud are those of the rows (C87_aggregates_partial). Queries for several fields: each series is sent to one node with its rows in order (C74). Missing also: the cases in C73, C74 and C79, normal tables and tables that are dropped or truncated (C55, C61)."
  },
  {
   "property": "C88",
   "status": "partial",
   "theorems": [
    "ModelarDB.Props.C88_confirmed",
    "ModelarDB.Props.C88_refused_partial",
    "ModelarDB.Props.C88_invalid_refused",
    "ModelarDB.Props.C88_transfer_and_log",
    "ModelarDB.Props.C88_memory_partial",
    "ModelarDB.Props.C88_kept",
    "ModelarDB.Props.C88_restarts_partial",
    "ModelarDB.Props.C88_refused_used",
    "ModelarDB.Props.C88_memory_wrong",
    "ModelarDB.Props.C88_not_started"
   ],
   "note": "False in three cases, each with a witness: a request is refused since the file cannot be written, but the value is used and reported until the next restart (C88_refused_used); compressed memory cannot be freed, and from then on the memory differs from what is reported, also after a later request is confirmed (C88_memory_wrong); a request for 2^63 bytes or more is confirmed, and the server panics each time it is started (C88_not_started). Proved for everything else. Transfers and log files use what is reported in every history."
  },
  {
   "property": "C89",
   "status": "partial",
   "theorems": [
    "ModelarDB.Props.C89_conserved",
    "ModelarDB.Props.C89_within_partial",
    "ModelarDB.Props.C89_increased_partial",
    "ModelarDB.Props.C89_separate_partial",
    "ModelarDB.Props.C89_reduction_aborts",
    "ModelarDB.Props.C89_writer_aborts",
    "ModelarDB.Props.C89_failure_aborts"
   ],
   "note": "False of the code: each request that reduces the memory can abort the server (C89_reduction_aborts, for all amounts), since the memory of a buffer is only given back when it has been written but the buffer is removed from the queue before; a batch that is received while a request saves a buffer can too (C89_writer_aborts), and so can a request after a buffer could not be saved (C89_failure_aborts). Proved: the server keeps running if the memory is only increased, in every interleaving and with failures, and if requests and the writer thread do not overlap. In every interleaving nothing is lost or written twice. Missing in C89_within_partial: several fields (C24) and failures."
  },
  {
   "property": "C90",
   "status": "partial",
   "theorems": [
    "ModelarDB.Props.C90_conserved",
    "ModelarDB.Props.C90_remaining_partial",
    "ModelarDB.Props.C90_kept_partial",
    "ModelarDB.Props.C90_increased_partial",
    "ModelarDB.Props.C90_separate_partial",
    "ModelarDB.Props.C90_full_aborts",
    "ModelarDB.Props.C90_unused_aborts",
    "ModelarDB.Props.C90_request_aborts",
    "ModelarDB.Props.C90_overlap_loses",
    "ModelarDB.Props.C90_ingestion_ends",
    "ModelarDB.Props.C90_failure_aborts",
    "ModelarDB.Props.C90_cancelled_loses",
    "ModelarDB.Props.C90_cancelled_negative"
   ],
   "note": "False of the code: a request that spills a buffer while a batch is processed can abort the server (C90_full_aborts, C90_unused_aborts, C90_request_aborts), can lose rows since a time series gets two buffers and one replaces the other on disk (C90_overlap_loses), and can end the ingestion thread (C90_ingestion_ends). A file that cannot be written empties the buffer, and spilling it again aborts the server (C90_failure_aborts). A client that goes away loses the buffer that is being written and leaves the memory negative (C90_cancelled_loses, C90_cancelled_negative). Proved: if no request spills while a batch is processed, in particular if the memory is only increased or requests and batches do not overlap, the server keeps running and no row is lost or duplicated; in every interleaving no row is duplicated and each that is lost is lost in one of these ways; without cancelled requests the remaining memory is not negative."
  },
  {
   "property": "C91",
   "status": "partial",
   "theorems": [
    "ModelarDB.Props.C91_gone_partial",
    "ModelarDB.Props.C91_stay_gone",
    "ModelarDB.Props.C91_others_kept",
    "ModelarDB.Props.C91_truncate_node",
    "ModelarDB.Props.C91_transferred_remains",
    "ModelarDB.Props.C91_stopped_remains",
    "ModelarDB.Props.C91_failed_part",
    "ModelarDB.Props.C91_crashed_fails",
    "ModelarDB.Props.C91_cloud_not_deleted"
   ],
   "note": "False of the code: rows are deleted from the remote data folder before the nodes delete theirs, so rows that an edge node transfers in between remain although the request succeeds (C91_transferred_remains); rows in the local data folder of a node that was stopped are transferred when it is started again (C91_stopped_remains). Also shown: a request that fails is not undone (C91_failed_part), a node that crashed makes requests fail until it is started again (C91_crashed_fails), and TRUNCATE at a cloud node succeeds but deletes none of the rows it returns (C91_cloud_not_deleted). Proved: if no node transfers rows of the table or leaves while the request is executed and nodes with rows are listed, the rows are gone everywhere; rows that are gone stay gone; rows of other tables are in the cluster exactly once."
  },
  {
   "property": "C92",
   "status": "partial",
   "theorems": [
    "ModelarDB.Props.C92_found",
    "ModelarDB.Props.C92_each",
    "ModelarDB.Props.C92_cloud_partial",
    "ModelarDB.Props.C92_answered_partial",
    "ModelarDB.Props.C92_only_ingested",
    "ModelarDB.Props.C92_crashed",
    "ModelarDB.Props.C92_other_mode",
    "ModelarDB.Props.C92_starting",
    "ModelarDB.Props.C92_no_cloud_node",
    "ModelarDB.Props.C92_listed_twice"
   ],
   "note": "False of the code: a cloud node that crashed stays in the list, so clients are sent to a node that does not answer (C92_crashed), and if it is started again as an edge node clients are sent to it and silently get its own rows only (C92_other_mode); a node is in the list before it receives requests (C92_starting). Proved: while a cloud node is running each client is sent somewhere and each running cloud node may be chosen; if cloud nodes do not crash the node is a cloud node that is running or starting, and when it has started each row that was ingested and transferred is returned exactly once; in all executions only rows that were ingested into the table are returned."
  },
  {
   "property": "C93",
   "status": "partial",
   "theorems": [
    "ModelarDB.Props.C93_nothing_invented",
    "ModelarDB.Props.C93_not_missed_partial",
    "ModelarDB.Props.C93_edge_first_partial",
    "ModelarDB.Props.C93_exact_partial",
    "ModelarDB.Props.C93_cloud_first_partial",
    "ModelarDB.Props.C93_missed_when_cloud_first",
    "ModelarDB.Props.C93_twice_when_edge_first",
    "ModelarDB.Props.C93_twice_in_window",
    "ModelarDB.Props.C93_twice_when_named_twice"
   ],
   "note": "False of the code: rows transferred during the query are missing if the cloud node plans it first (C93_missed_when_cloud_first) and returned twice if the edge node does (C93_twice_when_edge_first); rows that are in both data folders during a transfer are returned twice (C93_twice_in_window), and so are the rows of a node that is named twice or received the query (C93_twice_when_named_twice). Proved: only saved files are returned; nothing is missing if the edge node plans the query first; nothing is returned twice if the cloud node does and the edge node is then not between writing and deleting; each file is returned exactly as often as it was saved if the edge node transfers nothing during the query."
  },
  {
   "property": "C94",
   "status": "partial",
   "theorems": [
    "ModelarDB.Props.C94_url",
    "ModelarDB.Props.C94_reached_partial",
    "ModelarDB.Props.C94_only_running",
    "ModelarDB.Props.C94_same_address",
    "ModelarDB.Props.C94_default_missed",
    "ModelarDB.Props.C94_removed_by_other",
    "ModelarDB.Props.C94_wrong_machine",
    "ModelarDB.Props.C94_port_in_use"
   ],
   "note": "False of the code: the host a node is started with is its name in the list of nodes although the server listens on 0.0.0.0 whatever the host is. If nodes on different machines have the same host and port, e.g. the default 127.0.0.1:9999 or 0.0.0.0 as in the user manual, every statement for the whole cluster succeeds and is executed by one node only, in all executions (C94_same_address); a node that leaves removes the others with its address (C94_removed_by_other); 127.0.0.1 with another port leads to the wrong machine (C94_wrong_machine); a node that cannot listen stays in the list (C94_port_in_use). Proved: URLs are equal if and only if hosts and ports are; a running node whose host and port are its own and lead to it executes each statement that succeeds, whatever the other nodes do; only running nodes execute it."
  },
  {
   "property": "C95",
   "status": "partial",
   "theorems": [
    "ModelarDB.Props.C95_one_version",
    "ModelarDB.Props.C95_rows_returned",
    "ModelarDB.Props.C95_not_failed_partial",
    "ModelarDB.Props.C95_vacuum_keeps_rows",
    "ModelarDB.Props.C95_freed_partial",
    "ModelarDB.Props.C95_fails_without_retention",
    "ModelarDB.Props.C95_fails_with_wrong_clock",
    "ModelarDB.Props.C95_two_versions",
    "ModelarDB.Props.C95_never_freed",
    "ModelarDB.Props.C95_forgotten"
   ],
   "note": "Proved for all executions that each result of a query that succeeds is the rows of the table at one moment, that VACUUM never changes rows or deletes files that are being written, and that queries shorter than the retention period less twice the difference of the clocks do not fail. False: a query fails if the files it reads are vacuumed (C95_fails_without_retention, C95_fails_with_wrong_clock), a query that mentions a table twice reads two versions of it (C95_two_versions), files of writers that were stopped before they committed are never deleted (C95_never_freed), and files that were removed a week before a checkpoint are not deleted (C95_forgotten)."
  },
  {
   "property": "C96",
   "status": "partial",
   "theorems": [
    "ModelarDB.Props.C96_first_row_partial",
    "ModelarDB.Props.C96_first_column",
    "ModelarDB.Props.C96_tags_hide_row",
    "ModelarDB.Props.C96_no_panic"
   ],
   "note": "Proved for all batches without tags that the error names the column, the first row that fails and the cause, that it is the error of the first such column, and that there is no panic. False for queries that read a tag: tags are string views, which are not supported when the row is formatted, so that the error only says that the type of the tag is not supported (C96_tags_hide_row, proved for all batches with a tag)."
  },
  {
   "property": "C97",
   "status": "partial",
   "theorems": [
    "ModelarDB.Props.C97_told_is_returned",
    "ModelarDB.Props.C97_by_position",
    "ModelarDB.Props.C97_server_partial",
    "ModelarDB.Props.C97_wrong_values",
    "ModelarDB.Props.C97_folder"
   ],
   "note": "Proved for servers if generated columns come after all stored columns, and for data folders if and only if there is no generated column (C97_folder: all other rows are rejected). False for servers otherwise: messages are read by position with the schema of the stored columns, so that a field gets the values of a generated column before it, without an error (C97_wrong_values, proved for all tables in which a stored field follows a generated column and only fields follow it)."
  }
 ]
}