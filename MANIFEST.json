{
 "claims": [
  {
   "property": "C01",
   "status": "proved",
   "theorems": [
    "Verif.Codec.C01_integer_roundtrip",
    "Verif.Codec.C01_integer_plain_roundtrip"
   ],
   "note": "All lists and masks; release-mode (wrapping) arithmetic."
  },
  {
   "property": "C02",
   "status": "proved",
   "theorems": [
    "Verif.Codec.C02_unsigned_roundtrip"
   ],
   "note": "Reduction to C01; u64/i64 reinterpretation is the identity on bit patterns."
  },
  {
   "property": "C03",
   "status": "proved",
   "theorems": [
    "Verif.Codec.C03_timestamp_roundtrip",
    "Verif.Codec.C03_timestamp_roundtrip_first_valid",
    "Verif.Codec.C03_timestamp_plain_roundtrip",
    "Verif.Codec.C03_null_first_refuted"
   ],
   "note": "Holds for columns whose first row is valid; refuted with a NULL in the first row (C03_null_first_refuted), which the property excludes."
  },
  {
   "property": "C04",
   "status": "proved",
   "theorems": [
    "Verif.Codec.C04_simple8b_roundtrip"
   ],
   "note": "Accepts exactly the lists of values below 2^60."
  },
  {
   "property": "C05",
   "status": "proved",
   "theorems": [
    "Verif.Codec.C05_boolean_roundtrip",
    "Verif.Codec.C05_boolean_plain_roundtrip"
   ],
   "note": "Lists below 2^56 values (larger ones would not fit in memory; the code would index out of bounds)."
  },
  {
   "property": "C06",
   "status": "proved",
   "theorems": [
    "Verif.Codec.C06_string_snappy_roundtrip",
    "Verif.Codec.C06_string_roundtrip",
    "Verif.Codec.C06_string_plain_roundtrip"
   ],
   "note": "Compressors are parameters with decompress(compress x)=x; strings valid UTF-8."
  },
  {
   "property": "C07",
   "status": "partial",
   "theorems": [
    "Verif.Codec.C07_float_roundtrip_partial",
    "Verif.Codec.C07_never_different",
    "Verif.Codec.C07_sentinel_refused",
    "Verif.Codec.C07_sentinel_refuted",
    "Verif.Codec.C07_float_plain_roundtrip"
   ],
   "note": "Bit for bit round trip of the XOR codec for all columns but one: the reserved NaN pattern alone is written and cannot be read (refuted). Never different bits, for all columns. The reserved pattern elsewhere is refused. The codec without compression has no exception; the PCO compressor is an external crate and not modelled."
  },
  {
   "property": "C08",
   "status": "proved",
   "theorems": [
    "Verif.Codec.C08_varint_self_delimiting"
   ],
   "note": "Crate integer-encoding modelled as LEB128."
  },
  {
   "property": "C09",
   "status": "partial",
   "theorems": [
    "Verif.Page.C09_page_roundtrip_partial",
    "Verif.Page.C09_page_roundtrip_compaction_partial",
    "Verif.Page.C09_damage_noticed",
    "Verif.Page.C09_burst_noticed",
    "Verif.Page.C09_four_bytes_noticed",
    "Verif.Page.C09_bigint_deltats_refuted",
    "Verif.Page.C09_sliced_nulls_refuted",
    "Verif.Page.C09_bitmap_damage_refuted",
    "Verif.Page.C09_header_damage_refuted"
   ],
   "note": "Proved for every kind of column, every codec and every null mask: a page written by a flush or by compaction is read back with the same row count, mask and values, the codec being chosen by the first byte of the data; a changed value section fails the check unless the checksums coincide, and they never coincide when all changed bits lie within 32 consecutive bits (CRC-32 itself is modelled). Partial because the round trip fails, with proofs, for BIGINT columns with codec DELTATS that begin with a NULL and for the single reserved NaN (C07), and for sliced arrays. Beyond the property: damage to the null bitmap or header is not noticed, or crashes the check."
  },
  {
   "property": "C10",
   "status": "proved",
   "theorems": [
    "Verif.Time.C10_contains_exact",
    "Verif.Time.C10_overlaps_exact",
    "Verif.Time.C10_includes_exact",
    "Verif.Time.C10_intersect_exact",
    "Verif.Time.C10_merge_hull",
    "Verif.Time.C10_merge_union",
    "Verif.Time.C10_overlaps_empty_refuted",
    "Verif.Time.C10_boundless_exact",
    "Verif.Time.C10_total_time"
   ],
   "note": "Exact for proper ranges (min \u2264 max); the overlap test on an empty range is not exact, refuted separately."
  },
  {
   "property": "C11",
   "status": "partial",
   "theorems": [
    "Verif.Time.C11_exclude_exact",
    "Verif.Time.C11_collection_exclude_exact",
    "Verif.Time.C11_exclude_time_ranges_partial",
    "Verif.Time.C11_max_timestamp_refuted"
   ],
   "note": "Full statement C11Full is false for ranges ending at i64::MAX (refuted); exact for all others. Single exclusion and collection exclusion are exact at every timestamp."
  },
  {
   "property": "C12",
   "status": "partial",
   "theorems": [
    "Verif.Time.C12_new_exact",
    "Verif.Time.C12_insertions_partial",
    "Verif.Time.C12_overlaps_exact",
    "Verif.Time.C12_intersect_exact",
    "Verif.Time.C12_push_refuted",
    "Verif.Time.C12_empty_range_refuted",
    "Verif.Time.C12_with_bounds_exact"
   ],
   "note": "Bulk construction exact. Incremental insertion is false once both ends of time are covered (refuted); exact otherwise."
  },
  {
   "property": "C13",
   "status": "partial",
   "theorems": [
    "Verif.Predicate.C13_filter_sound_refuted",
    "Verif.Predicate.C13_boolean_order_refuted",
    "Verif.Predicate.C13_and_sound_partial",
    "Verif.Predicate.C13_filter_exact_partial"
   ],
   "note": "False as stated: x < 5 OR x <= 5 loses 5, and ordered comparisons of booleans lose values. Proved: AND-only conditions are sound; AND/OR conditions are exact when no value is compared both strictly and inclusively."
  },
  {
   "property": "C14",
   "status": "partial",
   "theorems": [
    "Verif.Predicate.C14_pushdown_sound_partial",
    "Verif.Predicate.C14_mixed_bounds_refuted",
    "Verif.Predicate.C14_arithmetic_refuted",
    "Verif.Predicate.C14_nested_comparison_refuted",
    "Verif.Predicate.C14_cast_refuted"
   ],
   "note": "False as stated in four ways (proved witnesses). Proved sound when comparison operands push nothing, literal types match and strict/inclusive comparisons are not mixed under OR."
  },
  {
   "property": "C15",
   "status": "partial",
   "theorems": [
    "Verif.Time.C15_bounds_partial",
    "Verif.Time.C15_extreme_bound_refuted"
   ],
   "note": "False for > i64::MAX and < i64::MIN (refuted); exact otherwise."
  },
  {
   "property": "C16",
   "status": "partial",
   "theorems": [
    "Verif.Tomb.C16_format_roundtrip",
    "Verif.Tomb.C16_restart_partial",
    "Verif.Tomb.C16_history_partial",
    "Verif.Tomb.C16_save_load",
    "Verif.Tomb.C16_compact_keeps",
    "Verif.Tomb.C16_both_ends_refuted",
    "Verif.Tomb.C16_delete_during_compaction_refuted",
    "Verif.Tomb.C16_leftover_compaction_refuted"
   ],
   "note": "Opening the deletion file again gives the deleted triples that were in memory, after every history of deletes, compactions of the deletion file and restarts, provided no file looks like one with a footer. After a history exactly the named points count as deleted, for columns not deleted from the beginning of time in one range and to the end of time in another (refuted for those). A delete between writing and installing a compacted deletion file is lost; the leftover of a failed compaction is installed by a later one."
  },
  {
   "property": "C17",
   "status": "partial",
   "theorems": [
    "Verif.Tomb.C17_points",
    "Verif.Tomb.C17_rows_partial",
    "Verif.Tomb.C17_after_history_partial",
    "Verif.Tomb.C17_empty_row_refuted"
   ],
   "note": "In every column exactly the stored points that are not deleted are returned, in order. A row deleted in all its columns (what DELETE records) is still returned with null values: refuted for rows."
  },
  {
   "property": "C18",
   "status": "partial",
   "theorems": [
    "Verif.Wal.C18_read_back_partial",
    "Verif.Wal.C18_append",
    "Verif.Wal.C18_empty_last_record_refuted",
    "Verif.Wal.C18_footer_lookalike_refuted"
   ],
   "note": "Proved for every record sequence whose last record is non-empty and whose file does not look like carrying a footer; both conditions are necessary, as the two refutations show."
  },
  {
   "property": "C19",
   "status": "partial",
   "theorems": [
    "Verif.Wal.C19_torn_file_partial",
    "Verif.Wal.C19_torn_wal_partial",
    "Verif.Wal.C19_wal_recovery_invents_refuted"
   ],
   "note": "Readers that stop at the first error return exactly the records that are wholly present. WAL recovery goes on searching after a torn record: proved when no record magic occurs in the torn bytes, refuted otherwise."
  },
  {
   "property": "C20",
   "status": "proved",
   "theorems": [
    "Verif.Wal.C20_checksum",
    "Verif.Wal.C20_one_call",
    "Verif.Wal.C20_damage_detected"
   ],
   "note": "For every byte string, every reader policy and every checksum function; records returned never overlap."
  },
  {
   "property": "C21",
   "status": "partial",
   "theorems": [
    "Verif.Wal.Log.C21_log_is_one_sequence",
    "Verif.Wal.Log.C21_append_visible",
    "Verif.Wal.Log.C21_last_entry_refuted",
    "Verif.Wal.C21_read_at",
    "Verif.Wal.C21_stale_reader_refuted"
   ],
   "note": "Every history of appends, prefix removals and suffix truncations and every range, at the level of file entries and positions; reading bytes at a position while the file only grows. Refuted: a reader kept open across a truncation returns the cut-off entry; last_entry reads the cache only and can report nothing while entries exist. I/O errors not modelled."
  },
  {
   "property": "C22",
   "status": "proved",
   "theorems": [
    "Verif.Wal.Ring.C22_cache_agrees",
    "Verif.Wal.Ring.C22_keeps",
    "Verif.Wal.Ring.C22_full_ring"
   ],
   "note": "Ring buffer with wrapping positions modelled; histories with ascending puts."
  },
  {
   "property": "C23",
   "status": "partial",
   "theorems": [
    "Verif.Wal.Log.C23_recovery_partial",
    "Verif.Wal.Log.C23_nothing_applied",
    "Verif.Wal.Log.C23_log_after_recovery",
    "Verif.Wal.Log.C23_error_stops_refuted",
    "Verif.Wal.Log.C23_purge_not_durable_refuted"
   ],
   "note": "Exact replay and truncation for every log, flushed and applied index when every apply succeeds. Refuted in general: an apply error ends recovery early and still reports success; a removed prefix of a file comes back after restart."
  },
  {
   "property": "C24",
   "status": "partial",
   "theorems": [
    "Verif.Wal.Entry.C24_entry_roundtrip",
    "Verif.Wal.Entry.C24_encodes",
    "Verif.Wal.Entry.C24_type_byte",
    "Verif.Wal.Entry.C24_log_roundtrip",
    "Verif.Wal.Entry.C24_blank_type_refuted",
    "Verif.Wal.Entry.C24_changed_compression_refuted"
   ],
   "note": "Type, index and contents recovered exactly for every entry and codec, alone and from a whole file; bincode and the compressors are parameters assumed lossless. Refuted: blank entries are recorded with the type of normal ones; entries written with snappy are unreadable once the configured codec is Null."
  },
  {
   "property": "C25",
   "status": "partial",
   "theorems": [
    "Verif.Mem.C25_latest_partial",
    "Verif.Mem.C25_same_schema_partial",
    "Verif.Mem.C25_series_separate",
    "Verif.Mem.C25_same_batch_refuted",
    "Verif.Mem.C25_older_schema_refuted",
    "Verif.Mem.C25_hidden_column_refuted"
   ],
   "note": "For every history of writes and deletes whose schema versions never go down, the value returned for a time and column is that of the most recent write supplying one, for times no single batch holds twice. The full statement is false: a batch holding a time twice that is merged into an earlier batch returns the first of the two values; a write with an older schema after a newer one loses, and can hide the newer columns. Also proved: the buffer of a vnode keeps series apart."
  },
  {
   "property": "C26",
   "status": "partial",
   "theorems": [
    "Verif.Mem.C26_times_partial",
    "Verif.Mem.C26_timestamps",
    "Verif.Mem.C26_last_timestamp_refuted"
   ],
   "note": "For every history of writes, deletes and dropped columns: strictly increasing, exactly the written and not deleted times in the ranges, except i64::MAX, which is never returned (refutation)."
  },
  {
   "property": "C27",
   "status": "proved",
   "theorems": [
    "Verif.Mem.C27_delete_ranges",
    "Verif.Mem.C27_delete_series",
    "Verif.Mem.C27_timestamps"
   ],
   "note": "For every history: reads after a deletion are the reads before it restricted to the times outside of the ranges, values unchanged."
  },
  {
   "property": "C28",
   "status": "partial",
   "theorems": [
    "Verif.Mem.C28_times",
    "Verif.Mem.C28_rows_partial",
    "Verif.Mem.C28_distinct_partial",
    "Verif.Mem.C28_overwritten_refuted",
    "Verif.Mem.C28_stale_write_refuted"
   ],
   "note": "Times never change; the row of a time is unchanged if no group holds the time twice. The full statement is false: dropping a column reverses the rows of equal time, so overwritten values come back; a late write with the old schema shifts values into other columns."
  },
  {
   "property": "C29",
   "status": "proved",
   "theorems": [
    "Verif.Version.C29_live",
    "Verif.Version.C29_restart",
    "Verif.Version.C29_no_failure",
    "Verif.Version.C29_snapshot",
    "Verif.Version.C29_restart_from_bytes"
   ],
   "note": "For every history of edits, rewritings of the manifest and restarts; file attributes include level, id, time range, size."
  },
  {
   "property": "C30",
   "status": "proved",
   "theorems": [
    "Verif.Version.C30_after_restart",
    "Verif.Version.C30_running"
   ],
   "note": ""
  },
  {
   "property": "C31",
   "status": "proved",
   "theorems": [
    "Verif.Version.C31_mark_is_maximum",
    "Verif.Version.C31_monotone"
   ],
   "note": ""
  },
  {
   "property": "C32",
   "status": "proved",
   "theorems": [
    "Verif.Version.C32_batch"
   ],
   "note": ""
  },
  {
   "property": "C33",
   "status": "proved",
   "theorems": [
    "Verif.Reader.C33_merge_sorted"
   ],
   "note": "Model of SortPreservingMergeStream with its tree of losers, builder, cursors and inputs that may be pending; inputs are sorted lists of rows cut into batches."
  },
  {
   "property": "C34",
   "status": "proved",
   "theorems": [
    "Verif.Reader.C34_newest_value",
    "Verif.Reader.C34_zero_batch_size_refuted"
   ],
   "note": "Needs a positive batch size and at least one input; with batch size 0 the stream ends at once (refuted witness)."
  },
  {
   "property": "C35",
   "status": "proved",
   "theorems": [
    "Verif.Reader.C35_groups",
    "Verif.Reader.C35_series_read",
    "Verif.Reader.C35_unsorted_refuted"
   ],
   "note": "C35_groups states the property for the grouping; C35_series_read says the whole read path (sort, group, merge, concatenate) gives the right answer for all sources. C35_unsorted_refuted shows that the order by time range is needed."
  },
  {
   "property": "C36",
   "status": "partial",
   "theorems": [
    "Verif.Reader.C36_respecting_partial",
    "Verif.Reader.C36_time_only_partial",
    "Verif.Reader.C36_no_shared_time_partial",
    "Verif.Reader.C36_stale_refuted",
    "Verif.Reader.C36_lost_refuted"
   ],
   "note": "False as stated: each source is filtered before the merge, so overwritten values that pass the filter come back (C36_stale_refuted) and rows whose cells come from several sources can be lost (C36_lost_refuted). Proved for predicates that decide alike for a merged row and its parts, in particular predicates on time only, and for any predicate if no time is in two sources."
  },
  {
   "property": "C37",
   "status": "partial",
   "theorems": [
    "Verif.Reader.Latest.C37_safe_partial",
    "Verif.Reader.Latest.C37_no_compaction_partial",
    "Verif.Reader.Latest.C37_compaction_refuted",
    "Verif.Reader.Latest.C37_write_after_compaction_refuted"
   ],
   "note": "False as stated: a compacted file takes a larger file id than the active write buffer, so older compacted values hide newer writes. Proved for all interleavings of write, switch and flush, and for histories in which every compaction and write is safe in the sense of Db.Safe."
  },
  {
   "property": "C38",
   "status": "partial",
   "theorems": [
    "Verif.Compact.C38_compact_partial",
    "Verif.Compact.C38_read_same_partial",
    "Verif.Compact.C38_unsorted_refuted",
    "Verif.Compact.C38_order_refuted"
   ],
   "note": "Proved for requests in the order of their first series: the output has exactly the merged rows of the input, the last file of the request wins; reading before and after gives the same rows if the request is also in the order of file ids. Refuted otherwise: a request in another order of series ends with an error; a delta compaction puts the level file first although its id may be larger, so the value read changes."
  },
  {
   "property": "C39",
   "status": "proved",
   "theorems": [
    "Verif.Compact.C39_groups"
   ],
   "note": "For all blocks of a series with lo <= hi: the groups hold each block exactly once, none is empty, and the blocks of an earlier group end before those of a later group begin."
  },
  {
   "property": "C40",
   "status": "partial",
   "theorems": [
    "Verif.Compact.C40_visits_partial",
    "Verif.Compact.C40_each_block_once_partial",
    "Verif.Compact.C40_twice_refuted",
    "Verif.Compact.C40_empty_first_refuted"
   ],
   "note": "Proved when the files of the request are in the order of their first series: each series is visited once, ascending, with all its blocks. For any order, each block of each file is visited exactly once if the first file is not empty. Refuted otherwise: the first round does not sort the files, so a series can be visited twice; an empty first file ends the compaction at once."
  },
  {
   "property": "C41",
   "status": "partial",
   "theorems": [
    "Verif.Utils.C41_filter_never_hides",
    "Verif.Utils.C41_reloaded_filter_never_hides_partial",
    "Verif.Utils.C41_small_filter_refuted"
   ],
   "note": "Proved for every filter size in memory and, after reload, for every requested size above 32 bits (the code uses 1048576); a filter of at most 32 bits changes its mask on reload, shown by a witness. Hash functions are arbitrary parameters."
  },
  {
   "property": "C42",
   "status": "proved",
   "theorems": [
    "Verif.Index.C42_index_keys_injective",
    "Verif.Index.C42_families_disjoint",
    "Verif.Index.C42_long_names_collide"
   ],
   "note": "For names shorter than 64 KiB; C42_long_names_collide shows that the bound is needed (u16 length field)."
  },
  {
   "property": "C43",
   "status": "proved",
   "theorems": [
    "Verif.Index.C43_lookups_inverse",
    "Verif.Index.C43_distinct",
    "Verif.Index.C43_register",
    "Verif.Index.C43_stable",
    "Verif.Index.C43_no_reuse",
    "Verif.Index.C43_delete",
    "Verif.Index.C43_restart"
   ],
   "note": "For all histories of registrations, lookups, deletes, renames, flushes and clean restarts. A crash that loses unflushed index entries is not in the histories; there the WAL replays the registrations."
  },
  {
   "property": "C44",
   "status": "partial",
   "theorems": [
    "Verif.Index.C44_table_exact_partial",
    "Verif.Index.C44_one_tag_exact_partial",
    "Verif.Index.C44_tags_complete",
    "Verif.Index.C44_flushed_exact_partial",
    "Verif.Index.C44_restart_when_empty_refuted",
    "Verif.Index.C44_deleted_bitmap_refuted",
    "Verif.Index.C44_dotted_table_refuted"
   ],
   "note": "Exact for table names without dots; the refutations show a lookup with several tags or a dotted table returning wrong series."
  },
  {
   "property": "C45",
   "status": "partial",
   "theorems": [
    "Verif.Index.C45_scan_exact_partial",
    "Verif.Index.C45_dotted_table_refuted",
    "Verif.Index.C45_bounded_scan_exact_partial",
    "Verif.Index.C45_range_lookup_exact_partial"
   ],
   "note": "Exact for table names without dots and numeric tag keys (the form the code writes); refuted for dotted tables."
  },
  {
   "property": "C46",
   "status": "partial",
   "theorems": [
    "Verif.Index.C46_accepted",
    "Verif.Index.C46_rejected",
    "Verif.Index.C46_new_key",
    "Verif.Index.C46_replay_refuted"
   ],
   "note": "Holds for client-issued updates; C46_replay_refuted shows that replaying an update from the WAL skips the conflict check."
  },
  {
   "property": "C47",
   "status": "partial",
   "theorems": [
    "Verif.Meta.C47_bucket_contains_partial",
    "Verif.Meta.C47_equal_or_disjoint",
    "Verif.Meta.C47_bucket_length",
    "Verif.Meta.C47_max_timestamp_refuted"
   ],
   "note": "Containment holds exactly for timestamps other than i64::MAX, whose bucket is empty because the end saturates (refuted there)."
  },
  {
   "property": "C48",
   "status": "proved",
   "theorems": [
    "Verif.Meta.C48_mapping_complete",
    "Verif.Meta.C48_mapping_tight",
    "Verif.Meta.C48_written_bucket_is_queried"
   ],
   "note": "Every bucket containing a timestamp of the range is selected, and nothing else is."
  },
  {
   "property": "C49",
   "status": "proved",
   "theorems": [
    "Verif.Meta.C49_placement"
   ],
   "note": "The word size of the index arithmetic is a parameter."
  },
  {
   "property": "C50",
   "status": "proved",
   "theorems": [
    "Verif.Auth.C50_refl",
    "Verif.Auth.C50_trans",
    "Verif.Auth.C50_tenant_scope",
    "Verif.Auth.C50_database_scope",
    "Verif.Auth.C50_db_levels",
    "Verif.Auth.C50_global_scope"
   ],
   "note": "Reflexivity, transitivity and scope for all privileges."
  },
  {
   "property": "C51",
   "status": "proved",
   "theorems": [
    "Verif.Utils.C51_rate_limit",
    "Verif.Utils.C51_build",
    "Verif.Utils.C51_acquire_all_or_nothing"
   ],
   "note": "For every request sequence and every clock, not necessarily monotone; interval must be positive. Times in nanoseconds, elapsed time truncated to milliseconds as in the code."
  },
  {
   "property": "C52",
   "status": "partial",
   "theorems": [
    "Verif.Utils.C52_pool_bound_partial",
    "Verif.Utils.C52_fitting_request_granted",
    "Verif.Utils.C52_wrapping_request_refuted"
   ],
   "note": "Proved under the condition that pool size plus request does not overflow the machine word; a wrapping request is granted, shown by a witness."
  },
  {
   "property": "C53",
   "status": "proved",
   "theorems": [
    "Verif.Utils.C53_refine_round_trip",
    "Verif.Utils.C53_monotone",
    "Verif.Utils.C53_coarsen"
   ],
   "note": "All pairs of precisions and all 64-bit timestamps."
  },
  {
   "property": "C54",
   "status": "proved",
   "theorems": [
    "Verif.Utils.C54_write_append",
    "Verif.Utils.C54_write_flatten",
    "Verif.Utils.C54_series_hash_eq_concat"
   ],
   "note": "All byte strings and splits."
  },
  {
   "property": "C55",
   "status": "partial",
   "theorems": [
    "Verif.LineProto.C55_round_trip_partial",
    "Verif.LineProto.C55_comment_ignored",
    "Verif.LineProto.C55_table_first_refuted",
    "Verif.LineProto.C55_field_first_refuted",
    "Verif.LineProto.C55_table_equals_refuted",
    "Verif.LineProto.C55_backslash_refuted",
    "Verif.LineProto.C55_comment_refuted",
    "Verif.LineProto.C55_empty_field_name_refuted",
    "Verif.LineProto.C55_trailing_space_refuted"
   ],
   "note": "Every list of points with plain names is read back, with or without a final line end, whatever bytes text values have; comments are skipped. Refuted for: table names that begin with an escaped byte or #, or have an equals sign and a space; first field names that begin with an escaped byte; backslashes in names; an empty field name at the end of the text; a space at the end of a line without time. Decimal numbers are modelled, floating point text is a parameter."
  },
  {
   "property": "C56",
   "status": "partial",
   "theorems": [
    "Verif.Predicate.C56_delete_removes_matching",
    "Verif.Predicate.C56_delete_chain",
    "Verif.Predicate.C56_delete_exact_partial",
    "Verif.Predicate.C56_delete_exact_refuted",
    "Verif.Predicate.C56_delete_null_refuted",
    "Verif.Predicate.C56_unsupported_refused",
    "Verif.Predicate.C56_delete_false_refuted",
    "Verif.Predicate.DeleteTime.C56_delete_time_complete",
    "Verif.Predicate.DeleteTime.C56_delete_time_exact_partial",
    "Verif.Predicate.DeleteTime.C56_delete_strict_bound_refuted"
   ],
   "note": "All matching rows are removed and unsupported conditions are refused; exact for chains with at most one comparison of the other kind; refuted: two time comparisons after a tag comparison, NULL literal, WHERE false, strict bounds in coarser precision."
  },
  {
   "property": "C57",
   "status": "partial",
   "theorems": [
    "Verif.Utils.C57_same_series_same_shard_partial",
    "Verif.Utils.C57_json_route_refuted",
    "Verif.Utils.C57_insert_column_order_refuted",
    "Verif.Utils.C57_insert_null_tag_refuted"
   ],
   "note": "Holds for line protocol and for INSERT with sorted, non-null tags; false for JSON lines (hash never computed), for INSERT with another column order and with null tags."
  },
  {
   "property": "C58",
   "status": "partial",
   "theorems": [
    "Verif.Meta.C58_one_bucket_per_timestamp_partial",
    "Verif.Meta.C58_create_makes_bucket",
    "Verif.Meta.C58_alter_duration_refuted",
    "Verif.Meta.C58_max_timestamp_refuted"
   ],
   "note": "Holds for histories without a change of bucket duration; ALTER DATABASE of the duration produces overlapping buckets (refuted)."
  },
  {
   "property": "C59",
   "status": "partial",
   "theorems": [
    "Verif.Meta.C59_retention_removes_only_expired",
    "Verif.Meta.C59_retention_removes_all_expired",
    "Verif.Meta.C59_infinite_retention_partial",
    "Verif.Meta.C59_infinite_retention_refuted"
   ],
   "note": "Exact for finite TTL; with INF buckets from 1970 on are never removed, a bucket far before 1970 is (refuted)."
  },
  {
   "property": "C60",
   "status": "partial",
   "theorems": [
    "Verif.Auth.C60_custom_role_exact",
    "Verif.Auth.C60_member_never_admin",
    "Verif.Auth.C60_grant_effective",
    "Verif.Auth.C60_revoke_effective",
    "Verif.Auth.C60_grant_monotone_partial",
    "Verif.Auth.C60_grant_downgrades_refuted",
    "Verif.Auth.C60_grant_statement",
    "Verif.Auth.C60_grant_statement_refused",
    "Verif.Auth.C60_revoke_statement",
    "Verif.Auth.C60_dba_allows_all"
   ],
   "note": "Exactness and REVOKE proved; GRANT of a weaker privilege takes the stronger one away (refuted), monotone when the new privilege is at least as strong."
  },
  {
   "property": "C61",
   "status": "partial",
   "theorems": [
    "Verif.Auth.C61_login_was_checked_partial",
    "Verif.Auth.C61_password_users_exact_partial",
    "Verif.Auth.C61_invalidation_effective",
    "Verif.Auth.C61_private_key_ignored_refuted",
    "Verif.Auth.C61_separator_refuted"
   ],
   "note": "Same user name, password and tenant were checked, for names without colon; the private key is not part of the cache key (refuted)."
  },
  {
   "property": "C62",
   "status": "proved",
   "theorems": [
    "Verif.Meta.C62_leader_is_replica",
    "Verif.Meta.C62_routing_total"
   ],
   "note": "Over all command histories from an empty catalogue."
  },
  {
   "property": "C63",
   "status": "proved",
   "theorems": [
    "Verif.Meta.C63_ids_unique",
    "Verif.Meta.C63_initial"
   ],
   "note": "Over all command histories below the id bound stated in the theorem."
  },
  {
   "property": "C64",
   "status": "partial",
   "theorems": [
    "Verif.Index.C64_no_other_panic_partial",
    "Verif.Index.C64_contradictory_range_refuted"
   ],
   "note": "Panics only for ranges excluding one value at both ends; those do occur (x < 'a' AND x > 'a')."
  },
  {
   "property": "C65",
   "status": "partial",
   "theorems": [
    "Verif.Index.C65_filter_exact_partial",
    "Verif.Index.C65_where_keeps_series_partial"
   ],
   "note": "For tables without dots, unless the scan panics (C64), and for WHERE clauses in the scope of C14."
  },
  {
   "property": "C66",
   "status": "partial",
   "theorems": [
    "Verif.Wal.C66_torn_file_no_panic_partial",
    "Verif.Wal.C66_wal_recovery_panics_refuted"
   ],
   "note": "No panic for torn files when the reader stops at the first error; WAL recovery panics for a file torn right after bytes that look like a record magic."
  },
  {
   "property": "C67",
   "status": "proved",
   "theorems": [
    "Verif.Wal.C67_damage_costs_one_record"
   ],
   "note": "Stated for readers that continue after a checksum error (WAL recovery), damage confined to the data of one record."
  },
  {
   "property": "C68",
   "status": "partial",
   "theorems": [
    "Verif.Wal.C68_append_behind_torn_partial",
    "Verif.Wal.C68_torn_header_loses_next_refuted"
   ],
   "note": "Proved when the cut is before the end of the record magic or behind the record header (no other record magic in the torn bytes, no checksum collision). Refuted for a cut within the header: the next appended record is lost."
  },
  {
   "property": "C69",
   "status": "partial",
   "theorems": [
    "Verif.Tomb.C69_torn_delete_partial",
    "Verif.Tomb.C69_torn_delete_refuted"
   ],
   "note": "Refuted: a file cut inside the data of its last record cannot be opened. Proved: whatever the cut, opening fails or gives exactly the deletes of a prefix of the records."
  },
  {
   "property": "C70",
   "status": "proved",
   "theorems": [
    "Verif.Mem.C70_flush_is_read"
   ],
   "note": "For every history; encoding of the pages is the subject of other properties."
  },
  {
   "property": "C71",
   "status": "proved",
   "theorems": [
    "Verif.Version.C71_edit_round_trip"
   ],
   "note": ""
  },
  {
   "property": "C72",
   "status": "partial",
   "theorems": [
    "Verif.Version.C72_torn_manifest_partial",
    "Verif.Version.C72_torn_manifest_refuted",
    "Verif.Version.C72_flush_after_torn_header_refuted"
   ],
   "note": "False in the code: a torn last record makes the manifest unreadable (refuted with a witness). Proved: what a torn manifest yields for every cut."
  },
  {
   "property": "C73",
   "status": "proved",
   "theorems": [
    "Verif.Version.C73_split",
    "Verif.Version.C73_removed",
    "Verif.Version.C73_again",
    "Verif.Version.C73_owner"
   ],
   "note": "For shared manifests in which edits of a vnode come after the one that adds it, with levels below 5."
  },
  {
   "property": "C74",
   "status": "partial",
   "theorems": [
    "Verif.Flush.C74_mark_covers_files_partial",
    "Verif.Flush.C74_no_write_lost_partial",
    "Verif.Flush.C74_failed_edit_refuted"
   ],
   "note": "Proved for every interleaving when each manifest append succeeds; refuted when one append fails and a later one succeeds."
  },
  {
   "property": "C75",
   "status": "partial",
   "theorems": [
    "Verif.Stats.C75_columns",
    "Verif.Stats.C75_no_row_lost_partial",
    "Verif.Stats.C75_all_columns",
    "Verif.Stats.C75_function_refuted"
   ],
   "note": "False in general: a filter such as (c IS NOT NULL AND a > 5) IS NOT TRUE is rewritten inside the function and loses rows of files without column c. Proved for filters in which nothing is rewritten inside a function other than AND and OR, and for files that have all the columns. That the planner leaves such an expression in this form is not modelled."
  },
  {
   "property": "C76",
   "status": "partial",
   "theorems": [
    "Verif.LineProto.C76_no_panic_partial",
    "Verif.LineProto.C76_missing_value_refuted"
   ],
   "note": "The parser panics on a field without value followed by a comma, space or line end (refuted). Every other text is read or refused, all slices of the code are shown to be in bounds."
  },
  {
   "property": "C77",
   "status": "partial",
   "theorems": [
    "Verif.Stats.C77_kept_partial",
    "Verif.Stats.C77_no_row_skipped_partial",
    "Verif.Stats.C77_nan_refuted",
    "Verif.Stats.C77_zero_refuted"
   ],
   "note": "False for float columns with NaN: NaN does not change the statistics, and a != 1.0 skips a group that holds 1.0 and NaN. Proved for all filters and all column types if float pages have no NaN (and no negative zero, if the query engine compares floats by their total order). The pruning condition of DataFusion is modelled from its documentation."
  },
  {
   "property": "C78",
   "status": "proved",
   "theorems": [
    "Verif.Stats.C78_batches",
    "Verif.Stats.C78_batched_read",
    "Verif.Stats.C78_content",
    "Verif.Stats.C78_projection"
   ],
   "note": "Bytes behind the end of the file read as zeros, as in the code."
  },
  {
   "property": "C79",
   "status": "partial",
   "theorems": [
    "Verif.Window.C79_windows_partial",
    "Verif.Window.C79_gaps_partial",
    "Verif.Window.C79_none_missed_partial",
    "Verif.Window.C79_tumbling_once",
    "Verif.Window.C79_length_partial",
    "Verif.Window.C79_before_epoch_refuted",
    "Verif.Window.C79_extra_window_refuted",
    "Verif.Window.C79_start_refuted",
    "Verif.Window.C79_length_refuted"
   ],
   "note": "Holds exactly if the length is a multiple of the slide or shorter than it; otherwise no window is missed but one too many may be given (refuted). Refuted for times more than a slide before the start (e.g. before 1970), for a start time not smaller than the window, and for lengths beyond 2^64 ns."
  },
  {
   "property": "C80",
   "status": "partial",
   "theorems": [
    "Verif.Agg.C80_first_last_partial",
    "Verif.Agg.C80_sound_partial",
    "Verif.Agg.C80_null_refuted"
   ],
   "note": "Proved for rows without NULL values; with them the first row of a batch may be NULL and hides the others, so the result depends on the batches (refuted)."
  },
  {
   "property": "C81",
   "status": "proved",
   "theorems": [
    "Verif.Agg.Gauge.C81_gauge",
    "Verif.Agg.Gauge.C81_gauge_unique"
   ],
   "note": "For every plan and every choice among equal times; with different times the result is unique."
  },
  {
   "property": "C82",
   "status": "partial",
   "theorems": [
    "Verif.Agg.StateAgg.C82_state_at_partial",
    "Verif.Agg.StateAgg.C82_duration_in_partial",
    "Verif.Agg.StateAgg.C82_duration_from_partial",
    "Verif.Agg.StateAgg.C82_duration_partial",
    "Verif.Agg.StateAgg.C82_single_refuted"
   ],
   "note": "Proved for tables with at least two rows with a time. Refuted for a single row: the result is taken for a compact one and state_at is an error."
  },
  {
   "property": "C83",
   "status": "partial",
   "theorems": [
    "Verif.Agg.Sample.C83_values_partial",
    "Verif.Agg.Sample.C83_one_batch_partial",
    "Verif.Agg.Sample.C83_too_many_refuted",
    "Verif.Agg.Sample.C83_too_few_refuted"
   ],
   "note": "The values are those of different rows, and there is one if there are rows; the number is right for a single batch. With several batches there may be more than n values, or fewer although there are enough rows (both refuted, for every random choice)."
  },
  {
   "property": "C84",
   "status": "proved",
   "theorems": [
    "Verif.Agg.Mode.C84_mode",
    "Verif.Agg.Mode.C84_ties"
   ],
   "note": "For fewer than 2^32 rows. Among values equally frequent the choice is that of the hash map."
  },
  {
   "property": "C85",
   "status": "partial",
   "theorems": [
    "Verif.Agg.Increase.C85_increase_partial",
    "Verif.Agg.Increase.C85_two_phases_partial",
    "Verif.Agg.Increase.C85_two_phases_refuted"
   ],
   "note": "Proved for plans with one phase, whatever the batches. With two phases the growth between partitions is lost (refuted); whether the planner chooses two phases is decided outside of the repository."
  },
  {
   "property": "C86",
   "status": "proved",
   "theorems": [
    "Verif.Tsm.C86_file_round_trip",
    "Verif.Tsm.C86_in_order_accepted"
   ],
   "note": "Hypotheses: numbers fit into their types (file and metadata below 2^64 bytes), pages carry their checksum, a series belongs to one table. bincode is modelled from its documentation, compressors are any lossless functions. The contents of pages are C09."
  },
  {
   "property": "C87",
   "status": "proved",
   "theorems": [
    "Verif.Tsm.C87_raw_copy"
   ],
   "note": "Same hypotheses as C86. The series key is the one in the chunk of the source."
  },
  {
   "property": "C88",
   "status": "partial",
   "theorems": [
    "Verif.Tsm.C88_update_tags_partial",
    "Verif.Tsm.C88_compressed_unreadable",
    "Verif.Tsm.C88_update_compressed_refuted",
    "Verif.Tsm.C88_interrupted_unreadable"
   ],
   "note": "Holds when tsm_meta_compress is null (the default), for any sequence of updates and whatever the compression of the file was. False with compression: the rewritten footer says version 1, so the compressed metadata is taken for uncompressed and the file cannot be opened any more. An update that is interrupted after the truncation leaves a file without footer."
  },
  {
   "property": "C89",
   "status": "proved",
   "theorems": [
    "Verif.Tsm.C89_time_ranges"
   ],
   "note": "Same hypotheses as C86."
  },
  {
   "property": "C90",
   "status": "partial",
   "theorems": [
    "Verif.Count.C90_upper_partial",
    "Verif.Count.C90_count_partial",
    "Verif.Count.C90_refuted",
    "Verif.Count.C90_added_tag_refuted",
    "Verif.Count.C90_renamed_refuted",
    "Verif.Count.C90_rule_partial",
    "Verif.Count.C90_alias_refuted"
   ],
   "note": "False in general: NULLs, deleted rows and overwritten rows are counted, an added tag shifts the positions of fields in buffers, renamed columns are looked up by the old name, a projection with an alias is ignored. Proved: never too small while names and order are kept, and right without those cases."
  },
  {
   "property": "C91",
   "status": "partial",
   "theorems": [
    "Verif.Count.C91_rows",
    "Verif.Count.C91_field",
    "Verif.Count.C91_same_partial",
    "Verif.Count.C91_refuted"
   ],
   "note": "After a flush the count of rows is right and the count of a field is the number of rows. False in general: NULLs are counted only after the flush, rows written twice only before."
  },
  {
   "property": "C92",
   "status": "proved",
   "theorems": [
    "Verif.Schema.C92_writes_extend",
    "Verif.Schema.C92_distinct",
    "Verif.Schema.C92_covered"
   ],
   "note": "Interleaved steps of any number of requests at any number of nodes with caches that are notified at any later time; no DROP TABLE (C96) and no ALTER TABLE (C95) in between."
  },
  {
   "property": "C93",
   "status": "partial",
   "theorems": [
    "Verif.Schema.C93_index",
    "Verif.Schema.C93_lookup_partial",
    "Verif.Schema.C93_taken_name_refuted"
   ],
   "note": "Positions are in bounds after any sequence. Lookup by name holds if each change_column keeps the name or uses a free one; refuted otherwise: changing the name of a column to that of another makes the other one unreachable (the planner checks this, the method does not)."
  },
  {
   "property": "C94",
   "status": "partial",
   "theorems": [
    "Verif.Schema.C94_accepted_partial",
    "Verif.Schema.C94_refuted",
    "Verif.Schema.C94_late_cache_refuted",
    "Verif.Schema.C94_two_nodes_refuted"
   ],
   "note": "Holds for requests none of whose commands is refused. Refuted: when the meta service refuses the update (UpdateTableConflict) or the creation, the code calls itself again but drops the result and returns the schema it computed first, which was never stored; values are then written under the id of another column. One node and one client are enough, since the cache is refreshed by notification only."
  },
  {
   "property": "C95",
   "status": "partial",
   "theorems": [
    "Verif.Schema.C95_ids_partial",
    "Verif.Schema.C95_raced_refuted"
   ],
   "note": "Holds for changes one after another. Refuted for two ALTER TABLE ADD at the same time: the id is computed at planning and put into the table that is read again at execution."
  },
  {
   "property": "C96",
   "status": "partial",
   "theorems": [
    "Verif.Schema.C96_no_drop_partial",
    "Verif.Schema.C96_recreated_refuted",
    "Verif.Schema.C96_dropped_comes_back_refuted"
   ],
   "note": "Holds without DROP TABLE. Refuted: versions start again at 0, so an update computed from the old table is accepted for the new one and replaces its columns; process_update_table inserts a table that does not exist."
  },
  {
   "property": "C97",
   "status": "partial",
   "theorems": [
    "Verif.Schema.C97_create",
    "Verif.Schema.C97_add",
    "Verif.Schema.C97_drop",
    "Verif.Schema.C97_rename",
    "Verif.Schema.C97_time_partial",
    "Verif.Schema.C97_second_time_refuted"
   ],
   "note": "ALTER TABLE ADD FIELD x TIMESTAMP makes a second time column; all else is proved."
  },
  {
   "property": "C98",
   "status": "partial",
   "theorems": [
    "Verif.Compact.Cols.C98_keeps_partial",
    "Verif.Compact.Cols.C98_times",
    "Verif.Compact.Cols.C98_common",
    "Verif.Compact.Cols.C98_flush_partial",
    "Verif.Compact.Cols.C98_refuted",
    "Verif.Compact.Cols.C98_again_refuted",
    "Verif.Compact.Cols.C98_version_refuted"
   ],
   "note": "Proved: rows and times are always kept; a column is kept when newer column groups of a series have it whenever older ones do, and for flushed files in which all series have one version. The full statement is false in the code: values of a new column are lost when a flushed file has series of different versions, and by a second compaction."
  },
  {
   "property": "C99",
   "status": "partial",
   "theorems": [
    "Verif.Align.C99_partial",
    "Verif.Align.C99_history_partial",
    "Verif.Align.C99_fails",
    "Verif.Align.C99_refuted",
    "Verif.Align.C99_rename_refuted"
   ],
   "note": "Proved for sources whose column groups have the same columns in the projection, and for all files as flushed and buffers at any points of any history of changes.  A chunk can be read iff all its column groups have the same projected columns (C99_fails); a compaction writes chunks where this fails after ADD or RENAME (refuted)."
  },
  {
   "property": "C100",
   "status": "partial",
   "theorems": [
    "Verif.Align.C100_partial",
    "Verif.Align.C100_history_partial",
    "Verif.Align.C100_refuted"
   ],
   "note": "Proved for histories without renames and filters that are not rewritten inside functions (C75); refuted with two renames."
  },
  {
   "property": "C101",
   "status": "partial",
   "theorems": [
    "Verif.Write.C101_write_partial",
    "Verif.Write.C101_series_partial",
    "Verif.Write.C101_group",
    "Verif.Write.C101_mixed_refuted",
    "Verif.Write.C101_strict_refuted"
   ],
   "note": "Proved for requests that extend the schema and in which no name is used for a tag and for a field. Refuted: a name that is a tag in one line and a string field in another makes the field a tag; in strict mode fields unknown to the table are dropped silently."
  },
  {
   "property": "C102",
   "status": "partial",
   "theorems": [
    "Verif.Write.C102_types_partial",
    "Verif.Write.C102_strict_refuted",
    "Verif.Write.C102_strict_panic"
   ],
   "note": "Proved for all requests that extend the schema. Refuted in strict mode (also used for replaying the log): values of any type are stored; a field with the name of a tag panics."
  },
  {
   "property": "C103",
   "status": "partial",
   "theorems": [
    "Verif.Write.C103_replay_partial",
    "Verif.Write.C103_drop_partial",
    "Verif.Write.C103_rename_refuted",
    "Verif.Write.C103_moved",
    "Verif.Write.C103_drop_refuted",
    "Verif.Write.C103_type_refuted"
   ],
   "note": "Proved if no column of the request was dropped or renamed, and for one dropped column if each line has another field. Refuted: after a rename the write is lost or its values come back in another column, after a drop a whole request can be lost."
  },
  {
   "property": "C104",
   "status": "partial",
   "theorems": [
    "Verif.Pick.C104_rows_partial",
    "Verif.Pick.C104_picked_partial",
    "Verif.Pick.C104_read_partial",
    "Verif.Pick.C104_order_refuted"
   ],
   "note": "Rows: proved for every request of the pickers if the inputs are in the order of their first series (the other orders fail, C38_unsorted_refuted). Answers: proved if the ids tell which value is newer; refuted by a delta file with a smaller id than the file of the level."
  },
  {
   "property": "C105",
   "status": "partial",
   "theorems": [
    "Verif.Pick.C105_delta",
    "Verif.Pick.C105_level",
    "Verif.Pick.C105_marked_partial",
    "Verif.Pick.C105_again_partial",
    "Verif.Pick.C105_again_refuted",
    "Verif.Pick.C105_twice_refuted"
   ],
   "note": "Files are live, free and distinct for both pickers. A request whose files are marked shares no file with a later one; refuted for the request for a gap of a level, which marks nothing, and a second job of it hides a newer value."
  },
  {
   "property": "C106",
   "status": "partial",
   "theorems": [
    "Verif.Pick.C106_delete",
    "Verif.Pick.C106_before_partial",
    "Verif.Pick.C106_running_partial",
    "Verif.Pick.C106_running_refuted"
   ],
   "note": "Deletes before a compaction stay, and deletes while it runs that touch no value of its files. Refuted for a delete of a value in a file that is being compacted."
  },
  {
   "property": "C107",
   "status": "partial",
   "theorems": [
    "Verif.Watch.C107_changes_partial",
    "Verif.Watch.C107_recent",
    "Verif.Watch.C107_watch_partial",
    "Verif.Watch.C107_refuted"
   ],
   "note": "Proved for every history of writes and restarts, also for requests that wait; a node is not sent to a full reading while its version is among the last writes since the start. Refuted for a server that installs a snapshot: its log keeps the old entries with a gap."
  },
  {
   "property": "C108",
   "status": "partial",
   "theorems": [
    "Verif.Watch.C108_follows_partial",
    "Verif.Watch.C108_commands_legal",
    "Verif.Watch.C108_refuted"
   ],
   "note": "Proved for histories in which tables and buckets are only written in databases that are stored, and names are plain; every sequence of commands that updates tables of existing databases only gives such a history. Refuted without this: updating a table of a dropped database leaves a table that comes back with the database, but not in caches."
  },
  {
   "property": "C109",
   "status": "partial",
   "theorems": [
    "Verif.Watch.C109_partial",
    "Verif.Watch.C109_refuted"
   ],
   "note": "Proved for schedules without a poll between the opening of a tenant and the moment at which it is watched. Refuted otherwise: fetch_min returns the old version, which is stored back, so changes in between are lost."
  },
  {
   "property": "C110",
   "status": "partial",
   "theorems": [
    "Verif.Watch.C110_record_fixed",
    "Verif.Watch.C110_open_partial",
    "Verif.Watch.C110_refuted"
   ],
   "note": "Opening a tenant gives its stored record. Refuted afterwards: no change ever touches the record of an open tenant, because the server does not send changes of that key to nodes that watch tenants."
  },
  {
   "property": "C111",
   "status": "partial",
   "theorems": [
    "Verif.Watch.C111_drop_db",
    "Verif.Watch.C111_drop_tenant_partial",
    "Verif.Watch.C111_refuted"
   ],
   "note": "Proved for databases (everything of it and nothing else); for tenants: record, limiter, roles, and members who are users. Refuted for users (the key of the membership is built from the wrong names), tenants (databases stay and show up in a new tenant with that name) and roles (members keep the role)."
  },
  {
   "property": "C112",
   "status": "partial",
   "theorems": [
    "Verif.Watch.C112_partial",
    "Verif.Watch.C112_refuted"
   ],
   "note": "Proved for all commands except creating buckets and roles, asking a limiter, dropping users and tenants. Refuted: the id of a role is drawn when the command is applied, and a bucket is created with the nodes that answer the server that applies the command."
  },
  {
   "property": "C113",
   "status": "partial",
   "theorems": [
    "Verif.Watch.C113_partial",
    "Verif.Watch.C113_refuted"
   ],
   "note": "Proved for names without slashes. Refuted with slashes, which writes may put into names of tables."
  },
  {
   "property": "C114",
   "status": "partial",
   "theorems": [
    "Verif.Replica.C114_partial",
    "Verif.Replica.C114_restart_partial",
    "Verif.Replica.C114_refuted_rename",
    "Verif.Replica.C114_refuted_rewrite",
    "Verif.Replica.C114_refuted_delete_replayed",
    "Verif.Replica.C114_refuted_flush",
    "Verif.Replica.C114_refuted_tombstones",
    "Verif.Replica.C114_refuted_new_series"
   ],
   "note": "False in the code, six witnesses. Proved for all runs in which deletes do not fall into a running flush, the crash has no change of tags after the flushed mark, no old keys are remembered, and a flush writes the index and takes the caches in one step."
  },
  {
   "property": "C115",
   "status": "partial",
   "theorems": [
    "Verif.Replica.C115_partial",
    "Verif.Replica.C115_refuted_tombstones",
    "Verif.Replica.C115_refuted_order",
    "Verif.Replica.C115_refuted_series"
   ],
   "note": "False in the code, three witnesses. Proved if the files are in level 0, have no tombstones and carry the keys of the index, and the log after the flushed mark has only writes."
  },
  {
   "property": "C116",
   "status": "partial",
   "theorems": [
    "Verif.Replica.C116_partial",
    "Verif.Replica.C116_flushed_partial",
    "Verif.Replica.C116_refuted_conflict",
    "Verif.Replica.C116_refuted_stop"
   ],
   "note": "False in the code after a restart, two witnesses. Proved without restart for every state, and with restarts if the refused command is not after the flushed mark."
  },
  {
   "property": "C117",
   "status": "partial",
   "theorems": [
    "Verif.Raft.C117_partial",
    "Verif.Raft.C117_queries_partial",
    "Verif.Raft.C117_single_partial",
    "Verif.Raft.C117_refuted"
   ],
   "note": "False in general: a restart removes entries of the log that were acknowledged to the leader (C117_refuted: one restart, acknowledged write lost, replicas diverge). Proved: the property for all runs in which a replica is only restarted when it has applied its whole log or nothing; together with C114_partial two replicas with equally many applied entries show the same; with one replica restarts at any time."
  },
  {
   "property": "C118",
   "status": "proved",
   "theorems": [
    "Verif.Raft.C118_groups_are_independent"
   ],
   "note": "The view of each group is the fold of its own writes from the empty view; del_group leaves nothing; all_nodes_summary is exact. JSON encoding of values is not modelled."
  },
  {
   "property": "C119",
   "status": "proved",
   "theorems": [
    "Verif.Raft.C119_snapshot_meta",
    "Verif.Raft.C119_keep_none_refuted"
   ],
   "note": "Under the stated order of events (openraft keeps at least one entry before the last snapshot, raft_logs_to_keep > 0, default 5000). For raft_logs_to_keep = 0 the log id is lost: C119_keep_none_refuted."
  },
  {
   "property": "C120",
   "status": "partial",
   "theorems": [
    "Verif.Cluster.C120_one_table_partial",
    "Verif.Cluster.C120_write_is_one_request",
    "Verif.Cluster.C120_delete_is_one_request",
    "Verif.Cluster.C120_acknowledged_is_visible_partial",
    "Verif.Cluster.C120_two_interfaces_refuted",
    "Verif.Cluster.C120_set_removed_refuted",
    "Verif.Cluster.C120_follower_read_refuted"
   ],
   "note": "Proved for every history in which rows are routed by a hash of their series, times are below the greatest i64, the bucket duration is not changed and no set loses all replicas, for reads of replicas that executed what was acknowledged (the recorded leader does). Refuted: a point written by two interfaces, or again after a set was removed, is shown twice; a follower read misses acknowledged rows. Missing: histories with an altered bucket duration; routing of one request is one step."
  },
  {
   "property": "C121",
   "status": "partial",
   "theorems": [
    "Verif.Cluster.C121_refused_request_no_effect_partial",
    "Verif.Cluster.C121_all_or_nothing_refuted"
   ],
   "note": "A request refused in routing has no effect; once its commands are sent to the sets it can be applied in part, which is the refutation."
  },
  {
   "property": "C122",
   "status": "partial",
   "theorems": [
    "Verif.Cluster.C122_executed_once_partial",
    "Verif.Cluster.C122_bounded",
    "Verif.Cluster.C122_leader_up_succeeds",
    "Verif.Cluster.C122_leader_first",
    "Verif.Cluster.C122_executed_once_refuted",
    "Verif.Cluster.C122_failed_redirect_refuted"
   ],
   "note": "Exactly once if an answer other than success means not executed; at most twice per replica otherwise. Refuted: deadline exceeded is taken for not executed, and a redirected request that failed is sent again."
  },
  {
   "property": "C123",
   "status": "proved",
   "theorems": [
    "Verif.Cluster.C123_one_replica_or_error",
    "Verif.Cluster.C123_leader_is_read",
    "Verif.Cluster.C123_third_replica_refuted",
    "Verif.Cluster.C123_mid_stream_refuted"
   ],
   "note": "The two refutations are about availability, which the property does not claim: only two replicas are tried, and an error in a stream ends the query."
  },
  {
   "property": "C124",
   "status": "partial",
   "theorems": [
    "Verif.Plan.C124_statements_partial",
    "Verif.Plan.C124_requests_partial",
    "Verif.Plan.C124_tokens_partial",
    "Verif.Plan.C124_http_partial",
    "Verif.Plan.C124_member",
    "Verif.Plan.C124_member_metadata",
    "Verif.Plan.C124_admin",
    "Verif.Plan.C124_external_refuted",
    "Verif.Plan.C124_show_refuted",
    "Verif.Plan.C124_kill_refuted",
    "Verif.Plan.C124_file_refuted",
    "Verif.Plan.C124_traces_refuted",
    "Verif.Plan.C124_ddl_refuted"
   ],
   "note": "Proved for all statements except: external tables named with another tenant (created there without any right), subqueries in SHOW SERIES / SHOW TAG VALUES, KILL QUERY, files on the server, trace requests, dump of the definitions without login; each exception is refuted with a witness. Subqueries in DELETE and the rows of the system schemas are not modelled."
  },
  {
   "property": "C125",
   "status": "proved",
   "theorems": [
    "Verif.Plan.C125_rights",
    "Verif.Plan.C125_run",
    "Verif.Plan.C125_users",
    "Verif.Plan.C125_root"
   ],
   "note": "Requests with credentials, on the stored metadata. Tenant ids are assumed distinct (random 128-bit ids)."
  },
  {
   "property": "C126",
   "status": "partial",
   "theorems": [
    "Verif.Plan.C126_only_password",
    "Verif.Plan.C126_http",
    "Verif.Plan.C126_different_refuted"
   ],
   "note": "The first half is proved; that the password is a different one is refuted: hash_password with the old hash is accepted."
  },
  {
   "property": "C127",
   "status": "partial",
   "theorems": [
    "Verif.Plan.C127_role_partial",
    "Verif.Plan.C127_role_refuted"
   ],
   "note": "Proved when no role of the tenant is named like the id of the user; refuted otherwise: the role is looked up under the id of the user first."
  },
  {
   "property": "C128",
   "status": "partial",
   "theorems": [
    "Verif.Plan.C128_snapshot_partial",
    "Verif.Plan.C128_idle_partial",
    "Verif.Plan.C128_outlives_refuted",
    "Verif.Plan.C128_dropped_refuted"
   ],
   "note": "The rights of the login and the ten minutes are proved; that a token ends with the rights is refuted for every sequence of uses less than ten minutes apart."
  },
  {
   "property": "C129",
   "status": "partial",
   "theorems": [
    "Verif.Ingest.C129_tcp_partial",
    "Verif.Ingest.C129_cut_loses",
    "Verif.Ingest.C129_cut_refuted",
    "Verif.Ingest.C129_blank_refuted",
    "Verif.Ingest.C129_put",
    "Verif.Ingest.C129_time",
    "Verif.Ingest.C129_tags"
   ],
   "note": "Refuted as stated: a piece of a line that can be read as a line is written and the task panics (C129_cut_refuted; C129_cut_loses says this of every such cut), and empty lines are not counted (C129_blank_refuted). Proved if no read ends at such a place. Which lines are put lines, and what points they give, is proved in full."
  },
  {
   "property": "C130",
   "status": "proved",
   "theorems": [
    "Verif.Ingest.C130_bad_line_blocks"
   ],
   "note": "The property states the behaviour of the code, which is a defect."
  },
  {
   "property": "C131",
   "status": "partial",
   "theorems": [
    "Verif.Ingest.C131_where",
    "Verif.Ingest.C131_kept_partial",
    "Verif.Ingest.C131_instant_refuted",
    "Verif.Ingest.C131_order_refuted"
   ],
   "note": "Refuted: every time is made a number of 13 digits and given on as nanoseconds. Proved: where all points land (C131_where), and that 13-digit numbers are not changed."
  },
  {
   "property": "C132",
   "status": "partial",
   "theorems": [
    "Verif.Ingest.C132_line_partial",
    "Verif.Ingest.C132_fraction_refuted",
    "Verif.Ingest.C132_lines_refuted",
    "Verif.Ingest.C132_panic_refuted",
    "Verif.Ingest.C132_misread_refuted"
   ],
   "note": "Refuted: fractions, a second line, panic, misreading. Proved for a request of one point with an integer value and at least one tag. Tags may be separated by spaces or commas."
  },
  {
   "property": "C133",
   "status": "partial",
   "theorems": [
    "Verif.Ingest.C133_fields_partial",
    "Verif.Ingest.C133_scope_partial",
    "Verif.Ingest.C133_resource_partial",
    "Verif.Ingest.C133_span_partial",
    "Verif.Ingest.C133_exact_partial",
    "Verif.Ingest.C133_first_partial",
    "Verif.Ingest.C133_leak_refuted"
   ],
   "note": "Refuted: attributes, events and links of a span appear in the later spans of the resource that do not have them. Proved: every field, attribute, event, link and status of a span is in its record under its own key, as are the name, version and attributes of its scope and the attributes of its resource; exact for the first span and whenever the keys set before are set again."
  },
  {
   "property": "C134",
   "status": "proved",
   "theorems": [
    "Verif.Ingest.C134_loki",
    "Verif.Ingest.C134_time"
   ],
   "note": "The time for instants that fit into 64 bits of nanoseconds."
  },
  {
   "property": "C135",
   "status": "partial",
   "theorems": [
    "Verif.Ingest.C135_flatten_partial",
    "Verif.Ingest.C135_distinct_partial",
    "Verif.Ingest.C135_dots_refuted",
    "Verif.Ingest.C135_empty_key_refuted",
    "Verif.Ingest.C135_bulk",
    "Verif.Ingest.C135_lines"
   ],
   "note": "Refuted for keys with dots and empty keys; proved for all other documents."
  },
  {
   "property": "C136",
   "status": "proved",
   "theorems": [
    "Verif.Ingest.C136_line",
    "Verif.Ingest.C136_all_or_none"
   ],
   "note": "For all records. What a tag value becomes is C137."
  },
  {
   "property": "C137",
   "status": "partial",
   "theorems": [
    "Verif.Ingest.C137_tag_partial",
    "Verif.Ingest.C137_tag_refuted",
    "Verif.Ingest.C137_kind_refuted"
   ],
   "note": "Refuted for texts with quotes, backslashes or control characters, and for values of other kinds; proved for all other texts."
  },
  {
   "property": "C138",
   "status": "partial",
   "theorems": [
    "Verif.Ingest.Prom.C138_time_partial",
    "Verif.Ingest.Prom.C138_lines_partial",
    "Verif.Ingest.Prom.C138_table",
    "Verif.Ingest.Prom.C138_time_refuted",
    "Verif.Ingest.Prom.C138_answer_partial"
   ],
   "note": "Refuted for times whose nanoseconds do not fit into 64 bits; proved otherwise."
  },
  {
   "property": "C139",
   "status": "partial",
   "theorems": [
    "Verif.Ingest.Prom.C139_series_partial",
    "Verif.Ingest.Prom.C139_none_lost",
    "Verif.Ingest.Prom.C139_merged_refuted"
   ],
   "note": "Refuted for tags with the character 1; proved otherwise. No sample is ever lost (C139_none_lost)."
  },
  {
   "property": "C140",
   "status": "partial",
   "theorems": [
    "Verif.Ingest.Prom.C140_tables_partial",
    "Verif.Ingest.Prom.C140_no_name_refuted",
    "Verif.Ingest.Prom.C140_several_refuted",
    "Verif.Ingest.Prom.C140_anchored_refuted",
    "Verif.Ingest.Prom.C140_last_partial"
   ],
   "note": "Refuted: no matcher on the name reads nothing, the last of several wins, patterns need not match the whole name. Proved for one matcher."
  },
  {
   "property": "C141",
   "status": "partial",
   "theorems": [
    "Verif.Ingest.Prom.C141_condition_partial",
    "Verif.Ingest.Prom.C141_quote_refuted",
    "Verif.Ingest.Prom.C141_same_refuted",
    "Verif.Ingest.Prom.C141_operator"
   ],
   "note": "Refuted: quotes in values are not escaped, so values can be SQL. Proved for values without quotes."
  },
  {
   "property": "C142",
   "status": "partial",
   "theorems": [
    "Verif.Stream.C142_once_partial",
    "Verif.Stream.C142_order_refuted",
    "Verif.Stream.C142_unit_refuted",
    "Verif.Stream.C142_sources_refuted",
    "Verif.Stream.C142_range"
   ],
   "note": "Refuted: the watermark is that of the last batch of the last partition, so a later row in an earlier batch is read and counted again; event times in milliseconds are compared with nanoseconds, so rows are read in every run; with two sources one watermark is committed for both. Proved for one source in nanoseconds, rows in order of time and the latest row of a run in its last batch."
  },
  {
   "property": "C143",
   "status": "partial",
   "theorems": [
    "Verif.Stream.C143_in_time_partial",
    "Verif.Stream.C143_delay_refuted"
   ],
   "note": "Refuted: the delay is ignored; a row a nanosecond late is never read. Proved: a row that comes before the query is done with its time is read by the next run that ends well, over all failures, restarts and spreads of rows."
  },
  {
   "property": "C144",
   "status": "partial",
   "theorems": [
    "Verif.Stream.C144_sums_partial",
    "Verif.Stream.C144_table_partial",
    "Verif.Stream.C144_late_refuted"
   ],
   "note": "Refuted: with a timestamp among the group columns, a group that begins before the watermark is dropped although its interval is not over. Proved: a group that is never late has the values of all rows read; without timestamps in the states and with the conditions of C142 the result is that of the query over the table."
  },
  {
   "property": "C145",
   "status": "partial",
   "theorems": [
    "Verif.Stream.C143_in_time_partial",
    "Verif.Stream.C144_sums_partial",
    "Verif.Stream.C145_sink_refuted",
    "Verif.Stream.C145_states_refuted",
    "Verif.Stream.C145_mark_refuted"
   ],
   "note": "Refuted: behind a failure of the sink the rows are counted again in every run; states written before a failure stay in the store; the watermark of a failed run makes the rows late. Proved: failed runs lose no rows, and runs that fail while reading do not disturb groups that are not late."
  },
  {
   "property": "C146",
   "status": "partial",
   "theorems": [
    "Verif.Stream.C146_result_partial",
    "Verif.Stream.C146_mark_partial",
    "Verif.Stream.C146_again_refuted"
   ],
   "note": "Refuted: offsets are not kept, so all rows are read again. Proved: the watermark is kept if all runs end well; without timestamps in the states the first result behind a restart is that of the query over the table."
  },
  {
   "property": "C147",
   "status": "partial",
   "theorems": [
    "Verif.Stream.C147_left_partial",
    "Verif.Stream.C147_nothing_refuted"
   ],
   "note": "Refuted: what is returned is taken from what is left, so it is always empty. Proved: exactly what does not match is left."
  },
  {
   "property": "C148",
   "status": "partial",
   "theorems": [
    "Verif.Stream.C148_partial",
    "Verif.Stream.C148_same_refuted"
   ],
   "note": "Refuted for two queries created in the same nanosecond (they share a row). Proved for distinct times of creation."
  },
  {
   "property": "C149",
   "status": "partial",
   "theorems": [
    "Verif.Insert.C149_insert_partial",
    "Verif.Insert.C149_accepted",
    "Verif.Insert.C149_extra_refuted",
    "Verif.Insert.C149_twice_refuted",
    "Verif.Insert.C149_time_refuted",
    "Verif.Insert.C149_half_refuted",
    "Verif.Insert.C149_schema_refuted",
    "Verif.Insert.C149_refused",
    "Verif.Insert.C149_no_field",
    "Verif.Insert.C149_null_time_refuted",
    "Verif.Insert.C149_dropped_refuted"
   ],
   "note": "Proved: an accepted INSERT that names no column twice and gives every row a time stores exactly its rows, one for one and in order in the set each is located in, with every value cast to the type of its column, and reports their number; and every such INSERT with casts that succeed, at least one field per row and sets that answer is accepted. Refuted: a source with more columns than the INSERT names is accepted and the rest dropped; a column named twice keeps the first value; a row without a time is stored at time 0; a failing batch leaves the batches before it; an INSERT planned before DROP COLUMN makes the dropped column again, although it has no value for it."
  },
  {
   "property": "C150",
   "status": "partial",
   "theorems": [
    "Verif.Insert.C150_update_partial",
    "Verif.Insert.C150_rows",
    "Verif.Insert.C150_null_refuted",
    "Verif.Insert.C150_kinds",
    "Verif.Insert.C150_tags"
   ],
   "note": "Proved for all updates that set no null, on any history whose rows are rows of the schema (an invariant, C150_rows). Refuted: SET a = NULL reports its rows and changes nothing, as a null never replaces a value."
  },
  {
   "property": "C151",
   "status": "partial",
   "theorems": [
    "Verif.Insert.C151_beside_partial",
    "Verif.Insert.C151_others",
    "Verif.Insert.C151_lost_refuted"
   ],
   "note": "Proved if the other statements have not written to the rows the UPDATE changes, and for all other rows whatever has been written. Refuted: an UPDATE writes back all columns it has read, so a value another client has written to another column of the row in the meantime is lost."
  },
  {
   "property": "C152",
   "status": "partial",
   "theorems": [
    "Verif.Rules.C152_rows_partial",
    "Verif.Rules.C152_no_more",
    "Verif.Rules.C152_no_functions",
    "Verif.Rules.C152_lost_refuted",
    "Verif.Rules.C152_left"
   ],
   "note": "Proved: no query returns a row for which a filter does not hold; the filter sent has no user functions; and exactly the right rows are returned if AND and OR with user functions stand only below AND and OR. Refuted: of a conjunction with a user function the rest is kept everywhere in an expression, so (f(a) AND b = 1) IS NOT TRUE becomes (b = 1) IS NOT TRUE and rows are lost."
  },
  {
   "property": "C153",
   "status": "partial",
   "theorems": [
    "Verif.Rules.C153_count_partial",
    "Verif.Rules.C153_union_refuted",
    "Verif.Rules.C153_panic_refuted",
    "Verif.Rules.C153_refuted"
   ],
   "note": "Proved for plans in which every count of literals stands on a table or a join through nodes with one input. Refuted: of a union all but the first input are dropped; a relation without a table panics."
  },
  {
   "property": "C154",
   "status": "proved",
   "theorems": [
    "Verif.Rules.C154_select",
    "Verif.Rules.C154_k",
    "Verif.Rules.C154_k_unsigned"
   ],
   "note": "For the sort the rule makes, any values, nulls last."
  },
  {
   "property": "C155",
   "status": "partial",
   "theorems": [
    "Verif.Rules.C155_exact_partial",
    "Verif.Rules.C155_alias_refuted",
    "Verif.Rules.C155_group_refuted",
    "Verif.Rules.C155_beside_refuted",
    "Verif.Rules.C155_refuted"
   ],
   "note": "Proved for select lists of columns with names apart. Refuted: an alias keeps the rule from working, a group by a column whose name begins with exact_count is refused, and count and exact_count of the same column together are refused."
  },
  {
   "property": "C156",
   "status": "partial",
   "theorems": [
    "Verif.Repair.C156_kept",
    "Verif.Repair.C156_filled_partial",
    "Verif.Repair.C156_mean",
    "Verif.Repair.C156_previous",
    "Verif.Repair.C156_line",
    "Verif.Repair.C156_ends",
    "Verif.Repair.C156_linear_refuted",
    "Verif.Repair.C156_previous_refuted",
    "Verif.Repair.C156_ma_refuted",
    "Verif.Repair.C156_window_refuted",
    "Verif.Repair.C156_refuted",
    "Verif.Repair.C156_ar",
    "Verif.Repair.C156_ar_error",
    "Verif.Repair.C156_ar_unstable_refuted"
   ],
   "note": "Numbers are exact. Known values are always kept. Every row gets a number only under conditions: false for linear when the last row has none (memory never written is returned), for previous at the start, for ma with no number among the first four rows; the window of ma never loses a row. The test whether the model of method ar settles is made before its coefficient is computed, so models that do not settle are used."
  },
  {
   "property": "C157",
   "status": "partial",
   "theorems": [
    "Verif.Repair.C157_least_partial",
    "Verif.Repair.C157_grid_partial",
    "Verif.Repair.C157_regular",
    "Verif.Repair.C157_few_refuted",
    "Verif.Repair.C157_zero_refuted",
    "Verif.Repair.C157_same_refuted",
    "Verif.Repair.C157_front_refuted",
    "Verif.Repair.C157_refuted",
    "Verif.Repair.C157_few",
    "Verif.Repair.C157_empty_refuted"
   ],
   "note": "The cost found is the least, and the times are on the grid unless points are inserted in front. Two rows or fewer, an interval of 0 and equal times panic; points inserted in front get time 0 and value 0. A query without rows panics."
  },
  {
   "property": "C158",
   "status": "partial",
   "theorems": [
    "Verif.Repair.C158_completed",
    "Verif.Repair.C158_speeds",
    "Verif.Repair.C158_default",
    "Verif.Repair.C158_unchanged",
    "Verif.Repair.C158_total",
    "Verif.Repair.C158_one_refuted",
    "Verif.Repair.C158_none",
    "Verif.Repair.C158_two_refuted",
    "Verif.Repair.C158_order_refuted",
    "Verif.Repair.C158_refuted",
    "Verif.Repair.C158_values"
   ],
   "note": "Method screen with exact numbers. Speeds, unchanged series and missing values are proved for three rows or more. Exactly one number, or two rows, panic; a smallest speed above the largest is accepted."
  },
  {
   "property": "C159",
   "status": "partial",
   "theorems": [
    "Verif.Repair.C159_unit_partial",
    "Verif.Repair.C159_missing",
    "Verif.Repair.C159_regular",
    "Verif.Repair.C159_validity_partial",
    "Verif.Repair.C159_order",
    "Verif.Repair.C159_partitions",
    "Verif.Repair.C159_two_refuted",
    "Verif.Repair.C159_batches_refuted",
    "Verif.Repair.C159_batch_score_refuted",
    "Verif.Repair.C159_unsigned_refuted",
    "Verif.Repair.C159_refuted",
    "Verif.Repair.C159_constant"
   ],
   "note": "Scores are between 0 and 1 if there is an answer, and do not depend on the partitions. Only the last batch of a partition is counted; unsigned columns are an error; validity of two rows panics."
  },
  {
   "property": "C160",
   "status": "partial",
   "theorems": [
    "Verif.Repair.C160_kept_partial",
    "Verif.Repair.C160_big_refuted",
    "Verif.Repair.C160_refuted",
    "Verif.Repair.C160_unsigned_refuted",
    "Verif.Repair.C160_nan_refuted",
    "Verif.Repair.C160_nearest",
    "Verif.Repair.C160_even"
   ],
   "note": "For value_fill on signed columns: integers up to 2^53 are kept. Larger ones change, unsigned columns are refused, rows without a number become 0."
  },
  {
   "property": "C161",
   "status": "partial",
   "theorems": [
    "Verif.Dump.C161_objects_partial",
    "Verif.Dump.C161_again",
    "Verif.Dump.C161_others",
    "Verif.Dump.C161_name_refuted",
    "Verif.Dump.C161_refuted",
    "Verif.Dump.C161_limiter_refuted",
    "Verif.Dump.C161_geometry_refuted",
    "Verif.Dump.C161_codec_refuted",
    "Verif.Dump.C161_doubled_name",
    "Verif.Dump.C161_encodings"
   ],
   "note": "Proved for objects whose names have no double quote or line feed, without limiter, with field types and encodings that statements have; refuted for names with double quotes (a role gains the rights of an owner), limiters, geometries and encodings set by ALTER that do not fit the type. External and stream tables are not modelled."
  },
  {
   "property": "C162",
   "status": "proved",
   "theorems": [
    "Verif.Dump.C162_durations",
    "Verif.Dump.C162_injective"
   ],
   "note": "Fits is the range of std::time::Duration."
  },
  {
   "property": "C163",
   "status": "partial",
   "theorems": [
    "Verif.Dump.C163_restore_partial",
    "Verif.Dump.C163_injective",
    "Verif.Dump.C163_grant_refuted",
    "Verif.Dump.C163_member_refuted",
    "Verif.Dump.C163_tenant_case_refuted",
    "Verif.Dump.C163_user_case_refuted",
    "Verif.Dump.C163_db_case_refuted",
    "Verif.Dump.C163_public_refuted",
    "Verif.Dump.C163_root_refuted",
    "Verif.Dump.C163_order_refuted",
    "Verif.Dump.C163_refuted",
    "Verif.Dump.C163_exists",
    "Verif.Dump.C163_created",
    "Verif.Dump.C163_filter_absent",
    "Verif.Dump.C163_filter_alone",
    "Verif.Dump.C163_filter_users"
   ],
   "note": "Proved for clusters whose objects can be printed, whose grants and members refer to what exists, and whose first objects are unchanged; refuted for grants on dropped databases, members with dropped roles, names that differ from cnosdb, root, public in case only, changed options of first objects, tags added later."
  },
  {
   "property": "C164",
   "status": "partial",
   "theorems": [
    "Verif.Dump.C164_statements_partial",
    "Verif.Dump.C164_injection_refuted",
    "Verif.Dump.C164_dashes_refuted",
    "Verif.Dump.C164_spaces_refuted"
   ],
   "note": "Proved for files in which no line but the last of a statement ends with a semicolon and no line begins with -- or a command; refuted for strings with line feeds: a comment of a user can carry a statement that makes an administrator."
  },
  {
   "property": "C165",
   "status": "partial",
   "theorems": [
    "Verif.Limit.C165_limit",
    "Verif.Limit.C165_fresh",
    "Verif.Limit.C165_after_alter",
    "Verif.Limit.C165_other",
    "Verif.Limit.C165_kinds",
    "Verif.Limit.C165_strict_refuted",
    "Verif.Limit.C165_comment_refuted",
    "Verif.Limit.C165_in_turn",
    "Verif.Limit.C165_http_write",
    "Verif.Limit.C165_http_query",
    "Verif.Limit.C165_sizes",
    "Verif.Limit.C165_default_max",
    "Verif.Limit.C165_negative"
   ],
   "note": "Proved for any sequence of checks with fixed settings, with the overdraft of every node counted (without it: C165_strict_refuted). Changing any option of the tenant gives all tokens back (C165_comment_refuted). Settings and sizes up to 2^61, intervals above zero."
  },
  {
   "property": "C166",
   "status": "partial",
   "theorems": [
    "Verif.Limit.C166_local",
    "Verif.Limit.C166_remote_partial",
    "Verif.Limit.C166_large_refuted",
    "Verif.Limit.C166_equal_refuted",
    "Verif.Limit.C166_first_refuted",
    "Verif.Limit.C166_wrap_refuted",
    "Verif.Limit.C166_half_refuted",
    "Verif.Limit.C166_no_limiter"
   ],
   "note": "Proved: enough tokens on the node, or a request below the overdraft and a meta server that can give all. False: requests above the overdraft are refused forever by a node without tokens; requests that need exactly what they are given; without an overdraft the first request; overdrafts near 2^63; a refused write still uses up a token of the first of its two checks."
  },
  {
   "property": "C167",
   "status": "partial",
   "theorems": [
    "Verif.Limit.C167_alter",
    "Verif.Limit.C167_merge",
    "Verif.Limit.C167_set",
    "Verif.Limit.C167_kept",
    "Verif.Limit.C167_unset",
    "Verif.Limit.C167_unlimited",
    "Verif.Limit.C167_interval_refuted",
    "Verif.Limit.C167_negative_refuted",
    "Verif.Limit.C167_sync_refuted",
    "Verif.Limit.C167_drop_refuted",
    "Verif.Limit.C167_own_setting",
    "Verif.Limit.C167_create"
   ],
   "note": "Proved for the store, the node that runs the statement and nodes that hear of it by the watch log. False: intervals of zero are accepted and make the meta server panic, negative ones refill at once; a full synchronisation does not renew limits; removals are not heard."
  },
  {
   "property": "C168",
   "status": "partial",
   "theorems": [
    "Verif.Tasks.C168_kept",
    "Verif.Tasks.C168_names_partial",
    "Verif.Tasks.C168_recover_partial",
    "Verif.Tasks.C168_recover_refuted",
    "Verif.Tasks.C168_names_refuted",
    "Verif.Tasks.C168_no_table"
   ],
   "note": "Proved for executions without statements that drop or recover it (C168_kept), and with RECOVER if no name has a '-' (C168_recover_partial). False otherwise: names of tasks collide (C168_recover_refuted)."
  },
  {
   "property": "C169",
   "status": "partial",
   "theorems": [
    "Verif.Tasks.C169_not_before",
    "Verif.Tasks.C169_recover",
    "Verif.Tasks.C169_stays_partial",
    "Verif.Tasks.C169_race_refuted",
    "Verif.Tasks.C169_handover_refuted",
    "Verif.Tasks.C169_failed_refuted",
    "Verif.Tasks.C169_tenant_refuted",
    "Verif.Tasks.C169_resync_refuted"
   ],
   "note": "The database is there until its time, and RECOVER succeeds. It stays if the recovery is heard of by all nodes before the time and no node was reported unreachable or reads everything again; each of these is necessary (refutations)."
  },
  {
   "property": "C170",
   "status": "partial",
   "theorems": [
    "Verif.Tasks.C170_sleeps",
    "Verif.Tasks.C170_done_partial",
    "Verif.Tasks.C170_late_refuted",
    "Verif.Tasks.C170_restart_refuted",
    "Verif.Tasks.C170_second_refuted",
    "Verif.Tasks.C170_takeover_refuted",
    "Verif.Tasks.C170_tenant_refuted",
    "Verif.Tasks.C170_told",
    "Verif.Tasks.C170_holder",
    "Verif.Tasks.C170_pause"
   ],
   "note": "Done exactly from its time on if the node with the mark hears of it in time, does not stop, and hears of no other task of the name. Late events, restarts, second failures, take-overs and uncached tenants lose the drop (refutations)."
  },
  {
   "property": "C171",
   "status": "partial",
   "theorems": [
    "Verif.Tasks.C171_database_partial",
    "Verif.Tasks.C171_table_partial",
    "Verif.Tasks.C171_tenant_partial",
    "Verif.Tasks.C171_ghost_refuted",
    "Verif.Tasks.C171_silent_refuted",
    "Verif.Tasks.C171_crash_refuted",
    "Verif.Tasks.C171_collision_refuted",
    "Verif.Tasks.C171_drop_missing"
   ],
   "note": "Success is answered exactly if the object is gone, provided no task of the name has failed or is under way. False otherwise (refutations)."
  },
  {
   "property": "C172",
   "status": "partial",
   "theorems": [
    "Verif.Retag.C172_changed_partial",
    "Verif.Retag.C172_values",
    "Verif.Retag.mk_inj",
    "Verif.Retag.C172_rows_refuted",
    "Verif.Retag.C172_order_refuted",
    "Verif.Retag.C172_same_refuted",
    "Verif.Retag.C172_scan_once",
    "Verif.Retag.C172_route"
   ],
   "note": "Proved for tables whose tag columns are in the order of the decimal texts of their ids (all ids below 10), when all sets are reached and no earlier update has failed. False for other tables (C172_order_refuted), and not always possible."
  },
  {
   "property": "C173",
   "status": "partial",
   "theorems": [
    "Verif.Retag.C173_distinct_partial",
    "Verif.Retag.C173_one_set",
    "Verif.Retag.C173_sets_refuted",
    "Verif.Retag.C173_write_refuted"
   ],
   "note": "Proved for one replication set, and for several if the new tags do not occur anywhere. False otherwise, and for later writes."
  },
  {
   "property": "C174",
   "status": "partial",
   "theorems": [
    "Verif.Retag.C174_refused",
    "Verif.Retag.C174_accepted_partial",
    "Verif.Retag.C174_retry",
    "Verif.Retag.scan_nodup",
    "Verif.Retag.C174_unreachable_refuted",
    "Verif.Retag.C174_busy_refuted",
    "Verif.Retag.C174_race_refuted",
    "Verif.Retag.C174_too_many",
    "Verif.Retag.C174_not_too_many"
   ],
   "note": "Proved when all sets are reached and no write comes between; a retry completes a partial update. False otherwise."
  },
  {
   "property": "C175",
   "status": "partial",
   "theorems": [
    "Verif.Leader.C175_once_partial",
    "Verif.Leader.C175_answer_partial",
    "Verif.Leader.C175_success_partial",
    "Verif.Leader.C175_bucket",
    "Verif.Leader.C175_answer_refuted",
    "Verif.Leader.C175_vnode_refuted",
    "Verif.Leader.C175_tokens_refuted",
    "Verif.Leader.again"
   ],
   "note": "Proved for every command but the ones that draw an id, take tokens, add a vnode or drop a tenant; creation of buckets apart. Refuted for the answer after a lost answer, for added vnodes and for tokens."
  },
  {
   "property": "C176",
   "status": "partial",
   "theorems": [
    "Verif.Leader.C176_one_down",
    "Verif.Leader.C176_eventually_partial",
    "Verif.Leader.C176_stays",
    "Verif.Leader.C176_two_down_refuted",
    "Verif.Leader.C176_members"
   ],
   "note": "One server down: every command is answered. More: one of the next commands is. Refuted for each single command with two of five down."
  },
  {
   "property": "C177",
   "status": "partial",
   "theorems": [
    "Verif.Leader.C177_same_client_partial",
    "Verif.Leader.C177_prefix",
    "Verif.Leader.C177_other_client_refuted",
    "Verif.Leader.C177_failover_refuted"
   ],
   "note": "Holds for the client that wrote, as long as its first attempt to read is answered; what is read is always a beginning of the log. Refuted for other clients and after a failed attempt."
  },
  {
   "property": "C178",
   "status": "partial",
   "theorems": [
    "Verif.Track.C178_slots",
    "Verif.Track.C178_exact_partial",
    "Verif.Track.C178_killed_refuted",
    "Verif.Track.C178_abandoned_refuted",
    "Verif.Track.C178_unsaved_refuted",
    "Verif.Track.C178_failed_refuted"
   ],
   "note": "Proved: never more tracked queries than slots, for all histories; the tracked queries are exactly those at work in histories without the named events. Refuted: KILL of a query whose result is read frees the slot while the work goes on; a client that leaves during the start, a stream that cannot be stored and a stream whose start fails keep their slots for ever."
  },
  {
   "property": "C179",
   "status": "partial",
   "theorems": [
    "Verif.Track.C179_stops_partial",
    "Verif.Track.C179_unknown",
    "Verif.Track.C179_for_good",
    "Verif.Track.C179_reading_refuted",
    "Verif.Track.C179_full_refuted",
    "Verif.Track.C179_returns_refuted"
   ],
   "note": "Proved for queries inside of start and for running streams. Refuted: the result of a killed query goes on being computed; KILL itself needs a slot; when the removal from the meta service fails the killed stream runs again after a restart."
  },
  {
   "property": "C180",
   "status": "partial",
   "theorems": [
    "Verif.Track.C180_visible",
    "Verif.Track.C180_kill_refuted"
   ],
   "note": "Visibility proved. Refuted for KILL: it demands no privileges, every user may kill every query of every tenant."
  },
  {
   "property": "C181",
   "status": "partial",
   "theorems": [
    "Verif.Track.C181_restart_partial",
    "Verif.Track.C181_takeover_partial",
    "Verif.Track.C181_moved",
    "Verif.Track.C181_restart_refuted",
    "Verif.Track.C181_takeover_refuted",
    "Verif.Track.C181_once_refuted",
    "Verif.Track.C181_failed_refuted"
   ],
   "note": "Proved when the streams find slots and can be planned. Refuted: streams beyond the limit are stored and do not run; a node that is only taken for dead goes on; a stream whose start failed is started by a restart."
  },
  {
   "property": "C182",
   "status": "partial",
   "theorems": [
    "Verif.Jaeger.C182_only",
    "Verif.Jaeger.C182_ids",
    "Verif.Jaeger.C182_spans_partial",
    "Verif.Jaeger.C182_all_partial",
    "Verif.Jaeger.C182_shared_refuted",
    "Verif.Jaeger.C182_series"
   ],
   "note": "Holds for spans that differ in their tags. Refuted: only the first row of a record batch is read, so that of spans with the same tags all but the first are lost."
  },
  {
   "property": "C183",
   "status": "partial",
   "theorems": [
    "Verif.Jaeger.C183_read_partial",
    "Verif.Jaeger.C183_attributes_partial",
    "Verif.Jaeger.C183_events_partial",
    "Verif.Jaeger.C183_sent_partial",
    "Verif.Jaeger.C183_foreign_refuted",
    "Verif.Jaeger.C183_eleven_refuted",
    "Verif.Jaeger.C183_event_attrs_refuted",
    "Verif.Jaeger.C183_kinds"
   ],
   "note": "Ids, name, kind, flags, start, duration, attributes and the first events are those sent. Refuted: a span gets the events of other spans of the table, events after the tenth are lost, attributes of events are not in the logs."
  },
  {
   "property": "C184",
   "status": "partial",
   "theorems": [
    "Verif.Jaeger.C184_own_partial",
    "Verif.Jaeger.C184_first",
    "Verif.Jaeger.C184_spans",
    "Verif.Jaeger.C184_traces",
    "Verif.Jaeger.C184_meets",
    "Verif.Jaeger.C184_found_partial",
    "Verif.Jaeger.C184_first_refuted"
   ],
   "note": "Spans are found and grouped rightly if they differ in their tags. Refuted: the first two spans of a trace get the process id p1, so that the first is shown with the process of the second."
  },
  {
   "property": "C185",
   "status": "partial",
   "theorems": [
    "Verif.Jaeger.C185_duration_partial",
    "Verif.Jaeger.C185_tag_partial",
    "Verif.Jaeger.C185_tags_panics",
    "Verif.Jaeger.C185_filter_partial",
    "Verif.Jaeger.C185_all",
    "Verif.Jaeger.C185_wrap_refuted",
    "Verif.Jaeger.C185_minus_refuted",
    "Verif.Jaeger.C185_colon_refuted",
    "Verif.Jaeger.C185_two_tags_refuted",
    "Verif.Jaeger.C185_end_refuted",
    "Verif.Jaeger.C185_units",
    "Verif.Jaeger.C185_end_partial"
   ],
   "note": "Durations of whole numbers that fit and attributes without colons and commas are read exactly. Refuted: numbers wrap, a minus gives a huge duration, attributes with colons are dropped, two attributes in tags panic, the end is compared as a double. The end of what is found is at most 1024 ns late."
  },
  {
   "property": "C186",
   "status": "partial",
   "theorems": [
    "Verif.Group.C186_add_partial",
    "Verif.Group.C186_remove_partial",
    "Verif.Group.C186_promote_partial",
    "Verif.Group.Witness.C186_stale_refuted",
    "Verif.Group.Witness.C186_promote_refuted",
    "Verif.Group.C186_promote_keeps"
   ],
   "note": "ADD and REMOVE as commands with all their attempts, failures, lost answers and redirections, by nodes that know the listing; PROMOTE as carried out by a node. Refuted: two ADDs at a time both succeed and the first replica is listed without being a member; a PROMOTE whose second half fails is tried at the next replica, which answers that all is well, with one voter left. PROMOTE takes no member out of the group, with remembered listings too."
  },
  {
   "property": "C187",
   "status": "partial",
   "theorems": [
    "Verif.Group.C187_run_partial",
    "Verif.Group.C187_holder",
    "Verif.Group.Witness.C187_stale_refuted"
   ],
   "note": "Every sequence of writes, elections, ADD, REMOVE and PROMOTE with failures at any step, run one after the other by nodes that know the listing; openraft's guarantees about majorities are assumed as the model writes them out. Refuted for nodes whose copy of the listing lags: a node gets listed with two vnodes, and removing the one destroys the other, because dropping a raft node does not look at the vnode's number."
  },
  {
   "property": "C188",
   "status": "partial",
   "theorems": [
    "Verif.Group.C188_destroy_done",
    "Verif.Group.C188_destroy_again_partial",
    "Verif.Group.C188_add_stuck",
    "Verif.Group.C188_orphan",
    "Verif.Group.Witness.C188_add_refuted",
    "Verif.Group.Witness.C188_orphan_refuted",
    "Verif.Group.Witness.C188_promote_refuted"
   ],
   "note": "DESTORY can be repeated as long as the leader's own replica is there. Refuted: after an ADD that does not reach the listing, every further ADD of the node fails, REMOVE cannot name the vnode, and once that vnode is elected no write is taken; a PROMOTE that fails half way leaves one voter, and repeating it answers that all is well and changes nothing."
  },
  {
   "property": "C189",
   "status": "partial",
   "theorems": [
    "Verif.Group.C189_run_partial",
    "Verif.Group.Witness.C189_stale_refuted"
   ],
   "note": "As C187: for commands one after the other by nodes that know the listing; refuted for nodes whose copy lags."
  },
  {
   "property": "C190",
   "status": "proved",
   "theorems": [
    "Verif.Catalog.C190_databases_exact",
    "Verif.Catalog.C190_tables_exact",
    "Verif.Catalog.C190_columns_exact",
    "Verif.Catalog.C190_tskv_column",
    "Verif.Catalog.C190_other_column",
    "Verif.Catalog.C190_custom_role",
    "Verif.Catalog.C190_words",
    "Verif.Catalog.C190_words_differ",
    "Verif.Catalog.C190_names"
   ],
   "note": "Assumes that databases and tables are stored under their names, each once (World.Ok)."
  },
  {
   "property": "C191",
   "status": "partial",
   "theorems": [
    "Verif.Catalog.C191_show_databases_partial",
    "Verif.Catalog.C191_show_tables",
    "Verif.Catalog.C191_describe_table",
    "Verif.Catalog.C191_describe_database",
    "Verif.Catalog.C191_no_rows",
    "Verif.Catalog.C191_listings_hidden",
    "Verif.Catalog.Witness.C191_show_databases_refuted",
    "Verif.Catalog.Witness.C191_information_schema_refuted",
    "Verif.Catalog.Witness.C191_existence_refuted",
    "Verif.Catalog.C191_dropped"
   ],
   "note": "SHOW TABLES and DESCRIBE are exact for those who may read the database, SHOW DATABASES for those who may read all; rows are never shown otherwise. Refuted: who may read one database is refused by SHOW DATABASES and all of information_schema; DESCRIBE and queries tell whether an object exists that the user may not read."
  },
  {
   "property": "C192",
   "status": "proved",
   "theorems": [
    "Verif.Catalog.C192_system_tables_hidden",
    "Verif.Catalog.C192_databases_hidden",
    "Verif.Catalog.C192_tables_hidden",
    "Verif.Catalog.C192_columns_hidden",
    "Verif.Catalog.C192_own_privileges",
    "Verif.Catalog.C192_all_privileges",
    "Verif.Catalog.C192_roles",
    "Verif.Catalog.C192_no_password",
    "Verif.Catalog.C192_admins_only",
    "Verif.Catalog.C192_resources",
    "Verif.Catalog.C192_words",
    "Verif.Catalog.C192_enabled",
    "Verif.Catalog.C192_owner",
    "Verif.Catalog.C192_no_roles",
    "Verif.Catalog.C192_cluster"
   ],
   "note": "All system tables except QUERIES (area Track)."
  },
  {
   "property": "C193",
   "status": "partial",
   "theorems": [
    "Verif.Catalog.C193_usage_exact",
    "Verif.Catalog.C193_no_other_tenant",
    "Verif.Catalog.C193_information_schema_case",
    "Verif.Catalog.Witness.C193_usage_case_refuted",
    "Verif.Catalog.Witness.C193_system_tenant"
   ],
   "note": "Exact rows of the tenant; refuted: names of measures are found in lower case only."
  },
  {
   "property": "C194",
   "status": "proved",
   "theorems": [
    "Verif.Reply.C194_read_back",
    "Verif.Reply.C194_read_back_chunked",
    "Verif.Reply.C194_no_confusion",
    "Verif.Reply.C194_null_refuted"
   ],
   "note": "For the texts of values. NULL and the empty text are written alike (C194_null_refuted), so that no reader can tell them apart."
  },
  {
   "property": "C195",
   "status": "partial",
   "theorems": [
    "Verif.Reply.C195_same_body_partial",
    "Verif.Reply.C195_batches_whole",
    "Verif.Reply.C195_batches_chunked",
    "Verif.Reply.Witness.C195_same_body_refuted",
    "Verif.Reply.Witness.C195_nil_refuted"
   ],
   "note": "Proved for CSV, TSV and nd-JSON, and for answers that are not chunked in all formats. Refuted for chunked JSON and tables, and for statements without result."
  },
  {
   "property": "C196",
   "status": "partial",
   "theorems": [
    "Verif.Reply.C196_array_partial",
    "Verif.Reply.C196_lines",
    "Verif.Reply.Witness.C196_empty_refuted",
    "Verif.Reply.Witness.C196_chunked_refuted",
    "Verif.Reply.C196_commas"
   ],
   "note": "nd-JSON always; JSON if it is not chunked and has a row. Refuted: an empty result is an empty text, a chunked answer is an array per batch."
  },
  {
   "property": "C197",
   "status": "partial",
   "theorems": [
    "Verif.Reply.C197_all_or_nothing_partial",
    "Verif.Reply.C197_chunked_error",
    "Verif.Reply.C197_always_ok",
    "Verif.Reply.C197_limit_partial",
    "Verif.Reply.Witness.C197_message_partial",
    "Verif.Reply.Witness.C197_error_is_row_refuted",
    "Verif.Reply.Witness.C197_indistinguishable_refuted",
    "Verif.Reply.Witness.C197_error_not_encoded_refuted",
    "Verif.Reply.Witness.C197_limit_refuted",
    "Verif.Reply.Witness.C197_message_refuted"
   ],
   "note": "Answers that are not chunked are complete or an error; chunked answers keep the limit. Refuted: chunked answers have status OK and the error as another row, not compressed though marked so; the limit is not asked for other answers; a quote ends the message."
  },
  {
   "property": "C198",
   "status": "partial",
   "theorems": [
    "Verif.Reply.C198_content_type",
    "Verif.Reply.C198_content_type_inj",
    "Verif.Reply.C198_default",
    "Verif.Reply.C198_first_known",
    "Verif.Reply.C198_refused",
    "Verif.Reply.Witness.C198_lists_refuted",
    "Verif.Reply.C198_any_case",
    "Verif.Reply.C198_blanks"
   ],
   "note": "Proved for single content types and lists of encodings without weights. Refuted for lists, parameters and wildcards as HTTP clients send them."
  },
  {
   "property": "C199",
   "status": "partial",
   "theorems": [
    "Verif.Reply.C199_base64",
    "Verif.Reply.C199_base64_canonical",
    "Verif.Reply.C199_credentials_partial",
    "Verif.Reply.C199_only_sent",
    "Verif.Reply.C199_no_confusion",
    "Verif.Reply.C199_colon_refuted",
    "Verif.Reply.C199_alphabet"
   ],
   "note": "For user names without a colon. Refuted: a user whose name has a colon is taken for another one."
  },
  {
   "property": "C200",
   "status": "partial",
   "theorems": [
    "Verif.Order.C200_ordered_partial",
    "Verif.Order.C200_same_rows",
    "Verif.Order.C200_expand_rows",
    "Verif.Order.C200_ordered_refuted"
   ],
   "note": "Proved if nothing is promised below the ORDER BY or expansions have one projection that keeps the columns. Refuted for sliding windows over rows in order."
  },
  {
   "property": "C201",
   "status": "proved",
   "theorems": [
    "Verif.Order.C201_first_rows",
    "Verif.Order.C201_no_limit",
    "Verif.Order.C201_levels",
    "Verif.Order.C201_stops",
    "Verif.Order.C201_partitions"
   ],
   "note": ""
  },
  {
   "property": "C202",
   "status": "partial",
   "theorems": [
    "Verif.Home.C202_owner_round_trip",
    "Verif.Home.C202_owner_inj",
    "Verif.Home.C202_own_database_partial",
    "Verif.Home.C202_apart_partial",
    "Verif.Home.C202_own_table_partial",
    "Verif.Home.C202_apart_refuted",
    "Verif.Home.C202_split_refuted",
    "Verif.Home.C202_columns",
    "Verif.Home.C202_columns_once",
    "Verif.Home.C202_no_dot"
   ],
   "note": "Proved if no tenant has a dot in its name. Refuted for names with dots, which are accepted."
  },
  {
   "property": "C203",
   "status": "partial",
   "theorems": [
    "Verif.Home.C203_settings_partial",
    "Verif.Home.C203_strict_partial",
    "Verif.Home.C203_settings_refuted"
   ],
   "note": "Proved if no database was dropped since the node was started and no tenant has a dot in its name. Refuted for databases that are dropped and made again."
  },
  {
   "property": "C204",
   "status": "proved",
   "theorems": [
    "Verif.Home.C204_contents",
    "Verif.Home.C204_kept",
    "Verif.Home.C204_removed",
    "Verif.Home.C204_directories"
   ],
   "note": "Vnode ids are given once (C63), so that a vnode belongs to one database; durability of a write is that of C114."
  },
  {
   "property": "C205",
   "status": "partial",
   "theorems": [
    "Verif.Quota.C205_bound",
    "Verif.Quota.C205_one_node_partial",
    "Verif.Quota.C205_prompt_partial",
    "Verif.Quota.C205_decision",
    "Verif.Quota.C205_refuted"
   ],
   "note": "Proved for one node, and for any number if statements are given to nodes that have heard of all changes. With N nodes there are at most N-1 too many, and that many are possible."
  },
  {
   "property": "C206",
   "status": "partial",
   "theorems": [
    "Verif.Quota.C206_created_partial",
    "Verif.Quota.C206_allow",
    "Verif.Quota.C206_days",
    "Verif.Quota.C206_alter_refuted",
    "Verif.Quota.C206_days_refuted",
    "Verif.Quota.C206_longest",
    "Verif.Quota.C206_days_mono",
    "Verif.Quota.C206_alter_options"
   ],
   "note": "Proved without ALTER DATABASE, which does not ask for the limits."
  },
  {
   "property": "C207",
   "status": "partial",
   "theorems": [
    "Verif.Quota.C207_prompt_partial",
    "Verif.Quota.C207_refuted"
   ],
   "note": "Proved if statements are given to nodes that have heard of all changes; otherwise one node can add any number."
  },
  {
   "property": "C208",
   "status": "partial",
   "theorems": [
    "Verif.Quota.C208_altered",
    "Verif.Quota.C208_unset",
    "Verif.Quota.C208_never_heard_refuted",
    "Verif.Quota.C208_refuted"
   ],
   "note": "Proved for the node of the statement and nodes that start later; other nodes never hear of it."
  },
  {
   "property": "C209",
   "status": "partial",
   "theorems": [
    "Verif.Quota.C209_heard_partial",
    "Verif.Quota.C209_known",
    "Verif.Quota.C209_refuted",
    "Verif.Quota.C209_role_refuted"
   ],
   "note": "Proved if answers to questions arrive before anything else happens; an answer that comes late brings a removed member back. That the changes themselves arrive in order is C108."
  },
  {
   "property": "C210",
   "status": "partial",
   "theorems": [
    "Verif.Quota.C210_exists_partial",
    "Verif.Quota.C210_unchanged",
    "Verif.Quota.C210_refuted"
   ],
   "note": "Proved while the limits would allow a further database."
  },
  {
   "property": "C211",
   "status": "partial",
   "theorems": [
    "Verif.Files.C211_stored",
    "Verif.Files.C211_appended",
    "Verif.Files.C211_length",
    "Verif.Files.C211_beyond_refuted",
    "Verif.Files.C211_length_refuted",
    "Verif.Files.C211_seek"
   ],
   "note": "Proved for operations that do not seek behind the end; the length for appending only. False otherwise: a flush of an empty buffer behind the end makes the remembered size too large; after seeking back overwritten bytes are counted twice."
  },
  {
   "property": "C212",
   "status": "partial",
   "theorems": [
    "Verif.Files.C212_old_bytes",
    "Verif.Files.C212_flushed_partial",
    "Verif.Files.C212_retry_refuted",
    "Verif.Files.C212_earlier_refuted",
    "Verif.Files.C212_nothing_written_refuted"
   ],
   "note": "Proved: old bytes under all failures; a successful flush if no operation failed before. False after a failure: the buffer is taken before it is written, so a failed flush drops it and the next flush succeeds; a write of zero bytes by the system counts as done."
  },
  {
   "property": "C213",
   "status": "partial",
   "theorems": [
    "Verif.Files.C213_found_partial",
    "Verif.Files.C213_synced",
    "Verif.Files.C213_sync_refuted",
    "Verif.Files.C213_buffer_refuted",
    "Verif.Files.C213_truncate_refuted"
   ],
   "note": "Proved if no record was refused. False after one failed sync, one failed write of the buffer or one failed truncation: the size of the log and the position of the file part for good."
  },
  {
   "property": "C214",
   "status": "partial",
   "theorems": [
    "Verif.Files.C214_id_partial",
    "Verif.Files.C214_million_refuted",
    "Verif.Files.C214_tsm",
    "Verif.Files.C214_distinct",
    "Verif.Files.C214_summary",
    "Verif.Files.C214_foreign_refuted"
   ],
   "note": "Proved for logs with numbers below 1000000 and for data files and manifests with all numbers. False for all logs from 1000000 on (the pattern has six digits), and for foreign names."
  },
  {
   "property": "C215",
   "status": "partial",
   "theorems": [
    "Verif.Files.C215_newest_partial",
    "Verif.Files.C215_order_partial",
    "Verif.Files.C215_replay_partial",
    "Verif.Files.C215_million_refuted",
    "Verif.Files.C215_zero_refuted",
    "Verif.Files.C215_range"
   ],
   "note": "Proved for numbers below 1000000. From there on the newest log is neither continued nor read, and logs are out of order."
  },
  {
   "property": "C216",
   "status": "proved",
   "theorems": [
    "Verif.MetaLog.C216_range",
    "Verif.MetaLog.C216_append",
    "Verif.MetaLog.C216_remove",
    "Verif.MetaLog.C216_last",
    "Verif.MetaLog.C216_first",
    "Verif.MetaLog.C216_as_data_nodes"
   ],
   "note": "The agreement with data nodes is for indexes and ranges; their last entry can be wrong (C21)."
  },
  {
   "property": "C217",
   "status": "partial",
   "theorems": [
    "Verif.MetaLog.C217_sound_partial",
    "Verif.MetaLog.C217_sound_refuted"
   ],
   "note": "Proved unless the server stops in the middle of a purge beyond its last entry, as after the installation of a snapshot; then the last log id is before what is purged."
  },
  {
   "property": "C218",
   "status": "partial",
   "theorems": [
    "Verif.MetaLog.C218_once",
    "Verif.MetaLog.C218_applied_partial",
    "Verif.MetaLog.C218_applied_refuted"
   ],
   "note": "No command is seen twice, out of order or without being committed, in all histories; all are seen if the server never stops while it applies entries. False otherwise: an entry is noted as applied, in another environment, before its command is carried out."
  },
  {
   "property": "C219",
   "status": "partial",
   "theorems": [
    "Verif.Readers.C219_fresh_partial",
    "Verif.Readers.C219_changes",
    "Verif.Readers.C219_delete_refuted",
    "Verif.Readers.C219_update_refuted",
    "Verif.Readers.C219_calm_partial",
    "Verif.Readers.C219_heals"
   ],
   "note": "Proved when nothing comes between the parts of get_tsm_reader. False otherwise: a DELETE or an UPDATE of tags between opening a file and keeping its reader leaves a reader without the tombstone or with the old tags in the cache. Also proved for readers opened at the same time, as long as no file is changed while it is being opened."
  },
  {
   "property": "C220",
   "status": "partial",
   "theorems": [
    "Verif.Readers.C220_bound",
    "Verif.Readers.C220_recent",
    "Verif.Readers.C220_others",
    "Verif.Readers.C220_removed",
    "Verif.Readers.C220_capacity_refuted"
   ],
   "note": "Proved: fewer than 16 readers more than configured, none more if the capacity is a multiple of 16. False as configured: with a capacity of one, 16 readers are kept."
  }
 ]
}