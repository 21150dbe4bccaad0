{"id": "C01", "title": "Signed integer column compression is lossless", "statement": "Whatever BIGINT values a user stores in a column page, and whichever rows are NULL, decompressing the page written by the delta codec returns exactly those values at exactly those rows, in every build profile where arithmetic wraps.", "quantifier": "every list of 64-bit signed integers of any length and every null mask whose number of valid rows equals the list length", "why_tests_cant": "Three sub-encodings (run-length, packed, raw) are chosen from the data; the failing corner cases sit at 2^60 boundaries and overflow of deltas, which samples do not hit.", "anchors": ["tskv/src/tsm/codec/integer.rs: i64_zigzag_simple8b_encode, i64_zigzag_simple8b_decode_to_array, encode_rle, zig_zag_encode", "tskv/src/tsm/codec/simple8b.rs: encode, decode"]}
{"id": "C02", "title": "Unsigned integer column compression is lossless", "statement": "Whatever BIGINT UNSIGNED values are stored, and whichever rows are NULL, decompressing returns exactly those values at those rows.", "quantifier": "every list of 64-bit unsigned integers and every null mask with matching number of valid rows", "why_tests_cant": "The codec reinterprets u64 as i64, values above 2^63 exercise wrap-around; only a proof covers all value/delta combinations.", "anchors": ["tskv/src/tsm/codec/unsigned.rs: u64_zigzag_simple8b_encode, u64_zigzag_simple8b_decode_to_array"]}
{"id": "C03", "title": "Timestamp column compression is lossless", "statement": "Any sequence of timestamps (sorted or not, with any gaps) survives the timestamp delta codec unchanged when all rows are valid.", "quantifier": "every list of 64-bit signed timestamps of any length", "why_tests_cant": "The scaling by powers of ten, run-length detection and 60-bit packing interact; there are 13 scales times 3 encodings times unbounded inputs.", "anchors": ["tskv/src/tsm/codec/timestamp.rs: ts_zigzag_simple8b_encode, ts_zigzag_simple8b_decode_to_array, encode_rle, max_scale"]}
{"id": "C04", "title": "60-bit word packing is lossless and rejects what it cannot hold", "statement": "Packing a list of unsigned integers into 64-bit words and unpacking returns the same list if every value is below 2^60, and packing reports an error otherwise; no value is ever altered silently.", "quantifier": "every list of unsigned 64-bit integers of any length", "why_tests_cant": "16 selectors with look-ahead over up to 240 values: the number of selector sequences grows without bound.", "anchors": ["tskv/src/tsm/codec/simple8b.rs: encode, decode, decode_value, NUM_BITS"]}
{"id": "C05", "title": "Boolean column compression is lossless", "statement": "Any list of booleans survives bit packing, including lengths that are not a multiple of eight.", "quantifier": "every list of booleans of any length and every matching null mask", "why_tests_cant": "Padding bits of the last byte depend on the length modulo 8 and on the varint count prefix for every length.", "anchors": ["tskv/src/tsm/codec/boolean.rs: bool_bitpack_encode, bool_bitpack_decode_to_array"]}
{"id": "C06", "title": "String column framing is lossless", "statement": "Any list of byte strings (including empty ones) survives the length-prefixed framing used under every string compressor, provided the compressor itself is lossless.", "quantifier": "every list of byte strings of any length, every lossless byte compressor", "why_tests_cant": "Variable-length length prefixes make every split point data dependent.", "anchors": ["tskv/src/tsm/codec/string.rs: str_snappy_encode, str_snappy_decode_to_array and siblings"]}
{"id": "C07", "title": "Floating point column compression is lossless", "statement": "Any list of DOUBLE bit patterns either survives the XOR codec bit for bit or the encoder reports an error; it never returns different bits.", "quantifier": "every list of 64-bit patterns (all NaNs, infinities, signed zeros included)", "why_tests_cant": "The bit stream reuses the leading/trailing-zero window of earlier values; correctness depends on the whole history.", "anchors": ["tskv/src/tsm/codec/float.rs: f64_gorilla_encode, f64_gorilla_decode_to_array, encode, decode_with_sentinel, SENTINEL"]}
{"id": "C08", "title": "Variable-length integers are self-delimiting", "statement": "Reading a variable-length integer written in front of arbitrary other bytes yields the number written and leaves exactly the other bytes.", "quantifier": "every 64-bit unsigned number and every continuation of the byte stream", "why_tests_cant": "Needs all numbers and all continuations, including ones that look like further continuation bytes.", "anchors": ["tskv/src/tsm/codec/integer.rs (integer_encoding::VarInt use)", "tskv/src/tsm/codec/string.rs"]}
{"id": "C09", "title": "A data page read back is the page written, and damage to its values is noticed", "statement": "A page stored in a data file yields the same row count, null mask and values when read; if any byte of its value section differs from what was written, the checksum check reports the page as damaged unless the checksums of the two sections coincide.", "quantifier": "every null mask, every value section, every modification of the value section", "why_tests_cant": "Quantifies over all byte corruptions.", "anchors": ["tskv/src/tsm/page.rs: Page, null_bitset, data_buffer, crc_validation, col_to_page"]}
{"id": "C10", "title": "Time range algebra agrees with sets of timestamps", "statement": "Intersecting, merging, overlap, inclusion and containment tests on closed time ranges answer exactly as the sets of timestamps they denote.", "quantifier": "every pair of time ranges and every 64-bit timestamp", "why_tests_cant": "2^256 pairs of ranges; boundaries (empty ranges, touching ranges, i64 extremes) decide correctness.", "anchors": ["common/models/src/predicate/domain.rs: TimeRange, intersect, merge, overlaps, includes, contains"]}
{"id": "C11", "title": "Removing deleted time spans from a time span leaves exactly the rest", "statement": "Excluding a collection of time ranges from a range yields ranges that together contain exactly the timestamps of the range that lie in none of the excluded ones.", "quantifier": "every time range, every finite collection of time ranges, every timestamp", "why_tests_cant": "Endpoint arithmetic (plus one, minus one) at the 64-bit extremes and arbitrary overlap patterns.", "anchors": ["common/models/src/predicate/domain.rs: TimeRange::exclude, TimeRange::exclude_time_ranges"]}
{"id": "C12", "title": "A time-range collection remembers everything put into it", "statement": "After inserting any sequence of time ranges into a collection, a timestamp is reported as contained exactly when it lies in one of the inserted ranges.", "quantifier": "every sequence of insertions and every timestamp", "why_tests_cant": "Order dependent merging of intervals; holds or fails for insertion histories, not for single inputs.", "anchors": ["common/models/src/predicate/domain.rs: TimeRanges::new, push, extend_from_slice, add_time_range, contains"]}
{"id": "C13", "title": "Column value filters built from comparisons are sound", "statement": "The set of values described by combining single-comparison filters with AND (intersection) and OR (union) contains every value that satisfies the combined condition.", "quantifier": "every pair of value ranges with any inclusive/exclusive/unbounded ends and every value of the ordered domain", "why_tests_cant": "Bound kinds times relative positions of four endpoints.", "anchors": ["common/models/src/predicate/domain.rs: Marker, Range, RangeValueSet, ValueSet, Domain"]}
{"id": "C14", "title": "Filter push-down never loses rows", "statement": "The per-column filter extracted from a WHERE clause for pruning accepts every row that satisfies the WHERE clause.", "quantifier": "every WHERE clause built from AND, OR, NOT, comparisons and opaque functions, and every row", "why_tests_cant": "Expression trees are unbounded.", "anchors": ["common/models/src/predicate/transformation.rs: RowExpressionToDomainsVisitor, NormalizedSimpleComparison", "common/models/src/predicate/domain.rs: ColumnDomains"]}
{"id": "C15", "title": "Time bounds of a query cover every matching timestamp", "statement": "Converting inclusive/exclusive/unbounded time bounds of a query into a closed time range keeps exactly the timestamps that satisfy the bounds.", "quantifier": "every pair of bounds and every timestamp", "why_tests_cant": "Off-by-one at i64::MIN / i64::MAX with exclusive bounds.", "anchors": ["common/models/src/predicate/domain.rs: From<(Bound<i64>, Bound<i64>)> for TimeRange"]}
{"id": "C16", "title": "Deletions survive a restart", "statement": "The deletion records written for a data file, read back after restart, denote the same set of deleted (series, column, time) triples, for any sequence of deletions.", "quantifier": "every sequence of delete operations (any series, any columns, any ranges)", "why_tests_cant": "Histories of deletes and merges of overlapping ranges.", "anchors": ["tskv/src/tsm/tombstone.rs: TsmTombstone, TsmTombstoneCache, Tombstone encode/decode, load, add_range"]}
{"id": "C17", "title": "A delete removes exactly the rows it names", "statement": "Reading a data file after deletes returns exactly the stored rows whose timestamp lies in no deleted range of that series and column.", "quantifier": "every stored column of rows and every set of deletions", "why_tests_cant": "Any subset of rows and any overlap pattern.", "anchors": ["tskv/src/tsm/reader.rs: decode_pages, get_nullbitset", "tskv/src/tsm/tombstone.rs: overlaps_column_time_range, get_overlapped_time_ranges"]}
{"id": "C18", "title": "Records appended to a log file are read back in order", "statement": "Reading a log file returns exactly the records that were appended, in order, and then end-of-file.", "quantifier": "every sequence of records with any contents", "why_tests_cant": "Record contents may contain the record marker bytes; sizes are unbounded.", "anchors": ["tskv/src/record_file/writer.rs: write_record", "tskv/src/record_file/reader.rs: read_record, find_record_header"]}
{"id": "C19", "title": "A torn log file yields a prefix", "statement": "If a crash leaves only some first bytes of a log file, reading it returns a prefix of the appended records, each unaltered, and never invents a record.", "quantifier": "every record sequence and every truncation point", "why_tests_cant": "Every crash point of every log.", "anchors": ["tskv/src/record_file/reader.rs: read_record, find_record_header", "tskv/src/wal/reader.rs: next_wal_entry"]}
{"id": "C20", "title": "Only records with a matching checksum are ever returned", "statement": "Whatever bytes are in a log file, every record returned carries a checksum equal to the checksum of its version, type, length and data, so damage is only missed on a checksum collision.", "quantifier": "every byte string as file content", "why_tests_cant": "Arbitrary corruption.", "anchors": ["tskv/src/record_file/reader.rs: read_record"]}
{"id": "C21", "title": "The replicated log behaves as one sequence", "statement": "After any history of appends, prefix removals and suffix truncations, reading entries by index range from the write-ahead log returns exactly the most recently appended, not removed entries with those indexes, in index order.", "quantifier": "every operation history and every requested range", "why_tests_cant": "Interleavings of append/truncate/roll/cache eviction are unbounded.", "anchors": ["tskv/src/wal/wal_store.rs: RaftEntryStorage, RaftEntryStorageInner, WalFileMeta", "tskv/src/wal/mod.rs: VnodeWal"]}
{"id": "C22", "title": "The in-memory tail of the log agrees with the log", "statement": "The bounded cache of recent log entries returns, for each index, either the last value stored under that index and not deleted since, or nothing; it holds at most its capacity, keeps the newest indexes, and reports the newest one as last.", "quantifier": "every history of put/delete-before/delete-after with ascending indexes and every capacity", "why_tests_cant": "Ring buffer wrap-around positions times histories.", "anchors": ["common/cache/src/circular_kvcache.rs: CircularKVCache, CircularBuffer"]}
{"id": "C23", "title": "Crash recovery replays exactly the unflushed committed writes", "statement": "On restart the storage engine re-applies each logged write with index after the last flushed one and up to the last applied one exactly once and in order, and removes logged entries after the last applied one.", "quantifier": "every log content, every flushed index and every applied index", "why_tests_cant": "Every crash point.", "anchors": ["tskv/src/wal/wal_store.rs: recover, recover_record"]}
{"id": "C24", "title": "Log entry encoding is lossless", "statement": "The type, sequence number and payload of a logged entry are recovered exactly from its record.", "quantifier": "every type byte, 64-bit sequence number and payload", "why_tests_cant": "All payload contents.", "anchors": ["tskv/src/wal/writer.rs, tskv/src/wal/reader.rs: WalRecordData"]}
{"id": "C25", "title": "Newest write wins in memory", "statement": "Reading a series from the write buffer returns for each timestamp and column the value of the most recent write that supplied a value for it.", "quantifier": "every sequence of written batches and every series", "why_tests_cant": "Order of duplicates across batches, schema versions and merges of row groups.", "anchors": ["tskv/src/mem_cache/series_data.rs: SeriesData::write, SeriesDedupMergeSortIterator", "tskv/src/mem_cache/row_data.rs: OrderedRowsData"]}
{"id": "C26", "title": "Reads from memory are strictly increasing in time and invent nothing", "statement": "A series read from the write buffer has strictly increasing timestamps; each returned row's timestamp was written and lies in the requested time range, and no written timestamp in the range is missed.", "quantifier": "every write history and every set of requested time ranges", "why_tests_cant": "Histories and range sets are unbounded.", "anchors": ["tskv/src/mem_cache/series_data.rs: read_data, SeriesDedupMergeSortIterator"]}
{"id": "C27", "title": "Deleting a time span from the write buffer removes exactly that span", "statement": "After deleting time ranges from the write buffer, reads return what they returned before restricted to timestamps outside the ranges.", "quantifier": "every write history and every set of deleted ranges", "why_tests_cant": "Deletion rebuilds the ordered rows; duplicates' order must survive.", "anchors": ["tskv/src/mem_cache/series_data.rs: delete_by_time_ranges, delete_series"]}
{"id": "C28", "title": "Dropping a column leaves other columns unchanged", "statement": "After dropping a column, reads of the remaining columns from the write buffer are unchanged.", "quantifier": "every write history and every dropped column", "why_tests_cant": "Rebuilding rows can reorder duplicate timestamps.", "anchors": ["tskv/src/mem_cache/series_data.rs: drop_column"]}
{"id": "C29", "title": "The set of live data files survives a restart", "statement": "Replaying the manifest after a restart gives the same set of live files (id, level, time range, size) as the running system had after the same edits, including when the manifest was compacted in between.", "quantifier": "every history of flush/compaction edits with unique file ids and every point of manifest rewriting", "why_tests_cant": "Histories are unbounded.", "anchors": ["tskv/src/tsfamily/summary.rs: recover, apply_version_edit, build_version_edit", "tskv/src/tsfamily/version.rs: copy_apply_version_edits"]}
{"id": "C30", "title": "File numbers are never reused for live files", "statement": "After restart the next file number handed out is greater than the number of every live data file.", "quantifier": "every edit history", "why_tests_cant": "Depends on the maximum over the whole history and on manifest rewriting.", "anchors": ["tskv/src/tsfamily/summary.rs: recover", "tskv/src/tsfamily/version.rs: VersionEdit::add_file"]}
{"id": "C31", "title": "The flushed-up-to mark never moves backwards", "statement": "The sequence number up to which data is known to be on disk never decreases as edits are applied, and equals the maximum over all edits, before and after restart.", "quantifier": "every edit history", "why_tests_cant": "Histories are unbounded; log removal relies on it.", "anchors": ["tskv/src/tsfamily/version.rs: copy_apply_version_edits", "tskv/src/tsfamily/summary.rs: recover"]}
{"id": "C32", "title": "Manifest batches are self-delimiting", "statement": "A list of edits encoded in one batch decodes to the same list, and a truncated batch decodes to a prefix.", "quantifier": "every list of encoded edits and every truncation point", "why_tests_cant": "All lengths.", "anchors": ["tskv/src/tsfamily/version.rs: VersionEdit::encode_vec, decode_vec"]}
{"id": "C33", "title": "Merging sorted inputs keeps every row, sorted", "statement": "Merging any number of time-sorted inputs yields all their rows in time order, ties in input order.", "quantifier": "every number of inputs, every sorted input", "why_tests_cant": "The tournament tree has a shape depending on the number of inputs; correctness is an invariant over all steps.", "anchors": ["tskv/src/reader/sort_merge.rs: SortPreservingMergeStream, init_loser_tree, update_loser_tree, is_gt"]}
{"id": "C34", "title": "Duplicate timestamps merge column by column, newest non-null wins", "statement": "When several overlapping sources hold the same timestamp, the merged row has for each column the value of the newest source with a non-null value, and the result has strictly increasing timestamps.", "quantifier": "every family of sorted sources and every batch size", "why_tests_cant": "Number of duplicates and batch boundaries are unbounded.", "anchors": ["tskv/src/reader/batch_builder.rs: BatchMergeBuilder::push_row, take_last_and_merge", "tskv/src/reader/sort_merge.rs"]}
{"id": "C35", "title": "Sources grouped for merging never split a timestamp", "statement": "Grouping sources by overlapping time ranges puts each source in exactly one group, and no timestamp is covered by sources of two different groups.", "quantifier": "every list of sources sorted by time range", "why_tests_cant": "All interval patterns.", "anchors": ["tskv/src/reader/utils.rs: group_overlapping_segments"]}
{"id": "C36", "title": "Filtering while reading does not change the answer", "statement": "Pushing a filter below the merge of overlapping sources gives the same rows as merging first and filtering afterwards.", "quantifier": "every family of sources and every row filter", "why_tests_cant": "Needs sources that disagree on the same timestamp.", "anchors": ["tskv/src/reader/iterator.rs: build_chunk_reader, build_series_reader", "tskv/src/reader/filter.rs: DataFilter"]}
{"id": "C37", "title": "The most recent write is visible whatever flushes and compactions happened", "statement": "For any interleaving of writes, memory switches, flushes and compactions, a query returns for each timestamp the most recently written value.", "quantifier": "every interleaving of write, switch, flush and compaction", "why_tests_cant": "Schedules.", "anchors": ["tskv/src/reader/mod.rs: DataReference::cmp", "tskv/src/tsfamily/tseries_family.rs: switch_to_immutable", "tskv/src/compaction/writer_wrapper.rs: next file id"]}
{"id": "C38", "title": "Compaction preserves the merged contents", "statement": "The file set produced by a compaction, read through the merging reader, returns the same rows as the input files, for every series.", "quantifier": "every list of input files with any overlap pattern, every block size", "why_tests_cant": "Block grouping, raw-block reuse and merging depend on all block boundaries.", "anchors": ["tskv/src/compaction/compact.rs: CompactState, fill_compacting_block_meta_groups, compact_files", "tskv/src/compaction/comapcting_block_meta_group.rs: merge_with_previous_block"]}
{"id": "C39", "title": "Compaction groups are complete and disjoint", "statement": "When compacting a series, every input block lands in exactly one merge group and different groups cover disjoint time spans.", "quantifier": "every list of blocks", "why_tests_cant": "All interval patterns and merge orders.", "anchors": ["tskv/src/compaction/compact.rs: fill_compacting_block_meta_groups"]}
{"id": "C40", "title": "Every series of every input file is compacted", "statement": "The compaction iterator visits each series present in any input file once and gathers the blocks of that series from all files that contain it.", "quantifier": "every list of files with series in ascending order", "why_tests_cant": "Interleaving of series across files.", "anchors": ["tskv/src/compaction/compact.rs: CompactState::next_series_id"]}
{"id": "C41", "title": "File pruning by series membership filter never hides data", "statement": "A membership filter built while writing a file answers 'maybe' for every series in that file, also after being stored and reloaded.", "quantifier": "every set of series ids, every filter size", "why_tests_cant": "Hash collisions cannot be enumerated.", "anchors": ["common/utils/src/bloom_filter.rs: BloomFilter::insert, maybe_contains, with_data"]}
{"id": "C42", "title": "Distinct series have distinct index keys", "statement": "Two different series (table name plus sorted tags) never share an index key as long as names and values are shorter than 65536 bytes.", "quantifier": "every pair of series", "why_tests_cant": "All pairs of strings.", "anchors": ["tskv/src/index/ts_index.rs: encode_series_key_with_prefix"]}
{"id": "C43", "title": "Series identity is stable", "statement": "Over any history of registering, deleting and renaming series, flushing and restarting after a flush, registering a known series returns the id it was given before, different live series have different ids, and looking up an id returns the series it belongs to.", "quantifier": "every history of index operations", "why_tests_cant": "Histories over three storage layers (write cache, read cache, on-disk store).", "anchors": ["tskv/src/index/ts_index.rs: add_series_if_not_exists, get_series_id, get_series_key, del_series_info, update_series_key, flush", "tskv/src/index/cache.rs"]}
{"id": "C44", "title": "Tag lookup returns exactly the matching series", "statement": "Looking up series by table and tag values returns exactly the live series of that table carrying all the given tags; with no tags it returns all series of the table.", "quantifier": "every index history and every tag list", "why_tests_cant": "Split between cache and disk, deletions, table names that are prefixes of others.", "anchors": ["tskv/src/index/cache.rs: get_inverted_by_tags", "tskv/src/index/engine2.rs: get_series_id_by_tags", "tskv/src/index/ts_index.rs: encode_inverted_index_key"]}
{"id": "C45", "title": "Tag range scans stay within their tag", "statement": "An unbounded scan of one tag of one table visits exactly the entries of that tag and table.", "quantifier": "every table name, tag and entry", "why_tests_cant": "All byte strings.", "anchors": ["tskv/src/index/ts_index.rs: filter_range_to_index_key_range, encode_inverted_min_index_key, encode_inverted_max_index_key"]}
{"id": "C46", "title": "Renaming tags never merges two series", "statement": "A tag update that is accepted maps different series to different new series and to none that already exists; otherwise it is rejected and nothing changes.", "quantifier": "every index state and every tag assignment", "why_tests_cant": "All combinations of series and updates.", "anchors": ["tskv/src/index/ts_index.rs: prepare_update_tags_value, update_series_key"]}
{"id": "C47", "title": "Every timestamp has one time bucket", "statement": "The time bucket computed for a timestamp contains it, and two timestamps with the same bucket duration get equal or disjoint buckets.", "quantifier": "every 64-bit timestamp and every bucket duration", "why_tests_cant": "Negative timestamps, truncating division and saturation at the extremes.", "anchors": ["common/models/src/meta_data.rs: get_time_range"]}
{"id": "C48", "title": "Queries reach every bucket that can hold matching data", "statement": "Selecting buckets for a time range returns every bucket containing a timestamp in the range.", "quantifier": "every list of buckets and every time range", "why_tests_cant": "All interval patterns.", "anchors": ["common/models/src/meta_data.rs: TenantMetaData::mapping_bucket, bucket_by_timestamp"]}
{"id": "C49", "title": "Replica placement uses distinct nodes and fresh ids", "statement": "When a bucket is created, each shard's replicas are on pairwise distinct nodes (as long as there are at least as many nodes as replicas), all replica and shard ids are distinct and come from the reserved id interval.", "quantifier": "every node list, shard count and replica count", "why_tests_cant": "All counts.", "anchors": ["common/models/src/meta_data.rs: allocation_replication_set"]}
{"id": "C50", "title": "Privilege checks are transitive and never widen", "statement": "If privilege A covers B and B covers C then A covers C; a tenant-scoped or database-scoped privilege never covers another tenant or database.", "quantifier": "every triple of privileges", "why_tests_cant": "All tenants/databases.", "anchors": ["common/models/src/auth/privilege.rs: check_privilege"]}
{"id": "C51", "title": "Rate limits hold in every window", "statement": "The number of tokens granted by a rate bucket between two instants is at most its maximum burst plus the refills due in between, under any sequence of requests.", "quantifier": "every request sequence and every clock reading sequence", "why_tests_cant": "Schedules.", "anchors": ["common/limiter_bucket/src/rate_bucket.rs: acquire, acquire_closed, update_critical, calculate_drain"]}
{"id": "C52", "title": "Memory reservations never exceed the pool", "statement": "Under any interleaving of reservations and releases made through the checked interface, the reserved total stays within the pool size and equals the sum of live reservations.", "quantifier": "every schedule of reserve/release", "why_tests_cant": "Schedules.", "anchors": ["common/memory_pool/src/lib.rs: GreedyMemoryPool::try_grow, shrink"]}
{"id": "C53", "title": "Time precision conversion is order preserving and reversible when refining", "statement": "Converting a timestamp to a finer precision and back gives the same timestamp or reports overflow; converting never reorders timestamps.", "quantifier": "every pair of precisions and every 64-bit timestamp", "why_tests_cant": "Overflow limits and truncation of negative values.", "anchors": ["common/utils/src/precision.rs: timestamp_convert"]}
{"id": "C54", "title": "Series hashing does not depend on chunking", "statement": "The series hash of table and tags equals the hash of their concatenated bytes, so equal series hash equally on every node.", "quantifier": "every split of every byte string", "why_tests_cant": "All splits.", "anchors": ["common/utils/src/bkdr_hash.rs: BkdrHasher"]}
{"id": "C55", "title": "Line protocol text round-trips", "statement": "Writing a point as line protocol text with the documented escaping and parsing it returns the same table, tags, fields and timestamp.", "quantifier": "every table, tag and string field text", "why_tests_cant": "All strings with any mixture of special characters.", "anchors": ["common/protocol_parser/src/line_protocol/parser.rs: Parser::parse, escape, escaped_field_value"]}
{"id": "C56", "title": "DELETE removes exactly the rows its WHERE clause selects", "statement": "A DELETE statement that is accepted removes a row exactly when the WHERE condition is true for that row.", "quantifier": "every accepted WHERE condition (AND of comparisons on tags and time) and every row", "why_tests_cant": "All conditions and all rows; the order and number of tag and time comparisons matters.", "anchors": ["common/models/src/predicate/transformation.rs: DeleteSelectionExpressionToDomainsVisitor", "query_server/query/src/execution/dml/delete_from_table.rs"]}
{"id": "C57", "title": "A series is always routed to the same shard", "statement": "Within one bucket, all rows of a series go to the same replication set, whichever write path they arrive by and in whatever order their tags are written.", "quantifier": "every table, tag set, tag order, write path and shard count", "why_tests_cant": "tests write through one protocol at a time; the hash differs only for particular tag orders and protocols", "anchors": ["common/protocol_parser/src/lib.rs: Line::init_hash_id, sort_dedup_and_hash", "common/protocol_parser/src/json_protocol/parser.rs: build_line", "coordinator/src/service.rs: write_record_batch", "common/models/src/meta_data.rs: BucketInfo::vnode_for"]}
{"id": "C58", "title": "At most one bucket per timestamp", "statement": "In the catalogue of a database, whatever meta commands are executed, no two buckets contain the same timestamp, and creating a bucket for a timestamp yields a bucket that contains it.", "quantifier": "every command history and every timestamp", "why_tests_cant": "Overlap appears only for particular sequences of create/alter commands and timestamps.", "anchors": ["meta/src/store/storage.rs: process_create_bucket", "common/models/src/meta_data.rs: get_time_range"]}
{"id": "C59", "title": "Retention removes exactly expired data", "statement": "A bucket is removed by the retention job only if every timestamp in it is older than the TTL, all such buckets are removed, and a database with TTL INF never loses a bucket.", "quantifier": "every bucket list, current time and TTL", "why_tests_cant": "Saturation and the infinite case only show at extreme times.", "anchors": ["common/models/src/meta_data.rs: time_to_expired, expired_bucket", "common/models/src/schema/database_schema.rs"]}
{"id": "C60", "title": "Role privileges are exact", "statement": "A user with a custom role may perform an operation on a database exactly when the system part of the role or a privilege granted on that database in that tenant allows it; GRANT gives the privilege and takes none away; a successful REVOKE leaves nothing on that database.", "quantifier": "every role, grant and revoke history, tenant, database", "why_tests_cant": "All combinations of roles, tenants and histories.", "anchors": ["common/models/src/auth/role.rs: to_privileges, grant_privilege, revoke_privilege", "common/models/src/auth/user.rs: check_privilege"]}
{"id": "C61", "title": "The login cache accepts only checked credentials", "statement": "A login is accepted only if the same credentials passed the real access check now or within the cache life time, and after a user is invalidated only logins that pass the check now are accepted as that user.", "quantifier": "every sequence of logins, evictions and invalidations", "why_tests_cant": "Needs particular interleavings of correct and incorrect logins.", "anchors": ["common/models/src/auth/auth_cache.rs", "query_server/query/src/instance.rs: authenticate", "common/models/src/auth/user.rs: UserInfo::to_authorization"]}
{"id": "C62", "title": "Every write finds a replica set whose leader is a member", "statement": "In every reachable catalogue each replication set's leader is one of its replicas and routing a row to a bucket always finds a replication set.", "quantifier": "every command history", "why_tests_cant": "All histories of creation, removal and leadership changes.", "anchors": ["meta/src/store/storage.rs", "common/models/src/meta_data.rs: BucketInfo::vnode_for"]}
{"id": "C63", "title": "Bucket, shard and replica ids are unique", "statement": "In every reachable catalogue all bucket, replication set and vnode ids are distinct, and an id is never given out twice.", "quantifier": "every command history", "why_tests_cant": "Uniqueness over all histories.", "anchors": ["meta/src/store/storage.rs: process_create_bucket", "common/models/src/meta_data.rs: allocation_replication_set"]}
{"id": "C64", "title": "Tag filters never crash the index scan", "statement": "Looking up the series for any tag filter built from a WHERE clause returns a result; it never panics.", "quantifier": "all index states, all tables, all filters built from WHERE clauses over string tags", "why_tests_cant": "The failing filter is contradictory and only reaches the in-memory map when the table has unflushed series; random queries do not produce it.", "anchors": ["tskv/src/index/ts_index.rs:397-508", "tskv/src/index/cache.rs", "common/models/src/predicate/domain.rs:511-529"]}
{"id": "C65", "title": "A WHERE clause reads every matching series", "statement": "The series read for a query are exactly the live series of the table whose tags pass the pushed-down tag filter; in particular every series with a row satisfying the WHERE clause is read.", "quantifier": "all histories of the index, all tables without dots, all WHERE clauses, all rows", "why_tests_cant": "Depends on the interplay of filter translation, range scan in write cache and store, deletion bitmap and renames; tests fix a handful of tag values.", "anchors": ["tskv/src/index/ts_index.rs:397-508", "common/models/src/predicate/mod.rs:27-46", "common/models/src/predicate/domain.rs:1760-1785"]}
{"id": "C66", "title": "Opening a log never crashes", "statement": "Whatever bytes a crash or disk damage leaves in a log file, opening and reading it returns records or an error and never panics.", "quantifier": "every file content", "why_tests_cant": "Crash tests sample a few truncation points; a panic hides at particular byte positions in the last record.", "anchors": ["tskv/src/wal/reader.rs: next_wal_entry", "tskv/src/wal/wal_store.rs: recover", "tskv/src/record_file/reader.rs: read_record"]}
{"id": "C67", "title": "Damage to one record costs only that record", "statement": "If the bytes of one record in a log file are overwritten by other bytes, reading still returns every record before it and every record after it, unaltered and in order, unless the checksum collides or the damage looks like a record.", "quantifier": "every record sequence, every damaged record and every replacement bytes", "why_tests_cant": "Needs all replacement contents; a test flips a few bits.", "anchors": ["tskv/src/record_file/reader.rs: read_record, find_record_header"]}
{"id": "C68", "title": "Records appended after a torn record are read", "statement": "When a crash leaves only part of a record at the end of a write-ahead log file and further entries are appended behind it, recovery still returns every complete record before and behind the torn one.", "quantifier": "every torn record, every cut position, every records before and after", "why_tests_cant": "A test needs a crash in the middle of a write, a restart, further writes and a second restart, for each cut position.", "anchors": ["tskv/src/record_file/reader.rs: read_record, find_record_header", "tskv/src/record_file/writer.rs: Writer::open", "tskv/src/wal/reader.rs: next_wal_entry", "tskv/src/wal/wal_store.rs: recover"]}
{"id": "C69", "title": "A crash while a delete is being recorded leaves the data file readable", "statement": "If the process stops while a delete is being written to the deletion file, so that the file ends in the middle of a record, the data file can be opened again and the earlier deletes hold.", "quantifier": "every history of deletes and every length at which the last record is cut", "why_tests_cant": "a crash at an exact byte of a deletion file is not produced by tests", "anchors": ["tskv/src/tsm/tombstone.rs: open, load_from", "tskv/src/record_file/reader.rs: read_record"]}
{"id": "C70", "title": "A flush writes what reads return", "statement": "The pages a flush builds for a series hold exactly the timestamps a read of the write buffer returns and, for each column of the newest schema, exactly the values a read returns.", "quantifier": "every history of writes, deletes and dropped columns", "why_tests_cant": "Tests flush a handful of batches; the claim is about every mixture of overwritten rows, schema versions, deletes and dropped columns.", "anchors": ["tskv/src/mem_cache/series_data.rs: convert_to_page, read_data, SeriesDedupMergeSortIterator"]}
{"id": "C71", "title": "A recorded change of the file list is read back as it was written", "statement": "Encoding one manifest edit (added and deleted files with all their attributes, sequence number, vnode, rename marks) and decoding it gives the same edit.", "quantifier": "every edit whose numbers fit their machine types", "why_tests_cant": "the number of files, name lengths and number values are unbounded", "anchors": ["tskv/src/tsfamily/version.rs: VersionEdit::encode, decode, CompactMeta::encode, decode"]}
{"id": "C72", "title": "A crash while the manifest is written leaves a vnode that opens", "statement": "If the process dies while an edit is appended to the manifest, the vnode opens afterwards with the files it had before or after that edit, and later flushes are recoverable.", "quantifier": "every edit history, every cut of the last record, every later history", "why_tests_cant": "the cut can be at any byte and what follows it depends on later writes", "anchors": ["tskv/src/tsfamily/summary.rs: recover, apply_version_edit", "tskv/src/record_file/reader.rs: Reader::read_record"]}
{"id": "C74", "title": "The flushed-up-to mark never covers a write that is in no file", "statement": "Writes, buffer switches and any number of flushes of one vnode run concurrently, finish in any order and may fail. At every moment each accepted write whose number is not above the flushed-up-to mark is in a recorded file, so that replaying the log above the mark after a crash loses nothing.", "quantifier": "every interleaving of writes, switches, flush starts, ends and failures", "why_tests_cant": "the loss needs flushes that finish out of order and a crash right then", "anchors": ["tskv/src/compaction/job.rs: FlushJob::run, process_summary_tasks", "tskv/src/compaction/flush.rs: flush_memtable", "tskv/src/tsfamily/tseries_family.rs: switch_to_immutable"]}
{"id": "C76", "title": "Malformed line protocol text is refused, never crashes", "statement": "Whatever bytes a client sends as line protocol, parsing them ends with lines or with an error; it does not panic.", "quantifier": "every byte string", "why_tests_cant": "the text is client input of any length and form; a crash needs one particular pair of neighbouring bytes in the right place", "anchors": ["common/protocol_parser/src/line_protocol/parser.rs: Parser::parse, parse_field_value, escape, escaped_field_value"]}
{"id": "C75", "title": "A filter pushed down to a file that lacks columns loses no row", "statement": "Before a filter is applied to the rows of a file it is rewritten for the columns the file has. Every row of the file for which the original filter is true (missing columns being NULL) passes the rewritten filter, which only mentions columns of the file.", "quantifier": "every filter, every set of columns of the file, every row", "why_tests_cant": "the filters are arbitrary nested expressions and tables whose columns changed over time are rare in tests", "anchors": ["tskv/src/reader/utils.rs: reassign_predicate_columns, PredicateColumnsReassigner, ColumnVistor", "tskv/src/reader/filter.rs: DataFilter"]}
{"id": "C77", "title": "Skipping column groups by statistics hides no matching row", "statement": "When a query has a filter, column groups are skipped whose smallest and greatest values show that no row can match. A column group that holds a row for which the filter is true is never skipped.", "quantifier": "every filter, every content of the pages, whether written by a flush or by a compaction", "why_tests_cant": "it depends on the values of all rows of a column group together; special float values are not in the tests", "anchors": ["tskv/src/reader/chunk.rs: filter_column_groups", "tskv/src/reader/column_group/statistics.rs: min_values, max_values", "tskv/src/tsm/page.rs: arrow_array_to_page, colref_to_page", "common/models/src/column_data_ref.rs: push, push_ts"]}
{"id": "C78", "title": "Reading neighbouring pages at once gives each page its own bytes", "statement": "The pages of the projected columns are sorted by position and neighbours are read with one request. Every projected page comes back once, with exactly the bytes that reading it by itself gives, and the request fails exactly if one of them is damaged.", "quantifier": "every layout of the pages in the file, every projection", "why_tests_cant": "the batches depend on which columns a query names and on the sizes of all pages", "anchors": ["tskv/src/reader/column_group/mod.rs: ColumnGroupReader::try_new, read, merge_adjacent_pages", "tskv/src/tsm/reader.rs: read_adjacent_pages, read_page"]}
{"id": "C79", "title": "time_window gives each row the windows with its time in them", "statement": "time_window(time, length, slide, start) copies each row once for every window of that length, starting a whole number of slides from the start time (the epoch by default), that has the time of the row in it. A row in a gap between windows is dropped; every row is in exactly one tumbling window.", "quantifier": "every length, slide and start time, every table", "why_tests_cant": "the arithmetic with remainders goes wrong only for certain relations of length, slide, start and time, e.g. times before 1970", "anchors": ["query_server/query/src/extension/analyse/transform_time_window.rs: analyze_internal, make_time_window, make_window_expr, build_tumbling_window_plan, build_sliding_window_plan", "query_server/query/src/extension/expr/window/time_window.rs: sliding_window"]}
{"id": "C80", "title": "first and last give the value of the first and last row", "statement": "first(time, value) and last(time, value) give the value of a row with the smallest (greatest) time among the rows with a value, however the rows are cut into batches and partitions.", "quantifier": "every table, every execution plan", "why_tests_cant": "the result depends on the borders of batches and partitions, which differ between runs", "anchors": ["query_server/query/src/extension/expr/aggregate_function/first.rs: update_inner, update_batch, merge_batch", "query_server/query/src/extension/expr/aggregate_function/last.rs: update_inner, update_batch, merge_batch"]}
{"id": "C81", "title": "gauge_agg keeps the ends of a series", "statement": "gauge_agg(time, value) has the first two and the last two rows with a value, by time, and their number, however the rows are cut into batches and partitions.", "quantifier": "every table, every execution plan", "why_tests_cant": "rows are thrown away in each batch and in each merge; whether a needed row is lost depends on the borders", "anchors": ["query_server/query/src/extension/expr/aggregate_function/gauge/gauge_agg.rs: update_batch, merge_batch, evaluate", "query_server/query/src/extension/expr/aggregate_function/gauge/gauge_agg.rs: GaugeDataBuilder"]}
{"id": "C82", "title": "state_at and duration_in agree with the rows", "statement": "For state_agg(time, state), state_at(agg, t) is the state of the latest row until t, if there is also a later row. duration_in(agg, state, start, interval) is the number of time units in the range at which that state holds, and duration_in(agg, state) the number in the whole; compact_state_agg gives the same whole durations. The result does not depend on batches and partitions.", "quantifier": "every table, every execution plan, every time and range", "why_tests_cant": "a handful of test rows does not show how periods, clipping and the order of a hash map play together", "anchors": ["query_server/query/src/extension/expr/aggregate_function/state_agg/state_agg_data.rs: handle_record, finalize, duration_in, state_at, try_from", "query_server/query/src/extension/expr/aggregate_function/state_agg/state_agg_accumulator.rs: update_batch, merge_batch, evaluate", "query_server/query/src/extension/expr/scalar_function/state_at.rs: state_at_implement", "query_server/query/src/extension/expr/scalar_function/duration_in.rs: duration_in_implement"]}
{"id": "C83", "title": "sample returns the asked number of rows", "statement": "sample(value, n) returns n values of different rows, or all values if there are fewer than n, however the rows are cut into batches and partitions.", "quantifier": "every table, every n, every execution plan, every random choice", "why_tests_cant": "the result is random, and the number of values depends on the sizes of the batches", "anchors": ["query_server/query/src/extension/expr/aggregate_function/sample.rs: sample_data, sample_state, try_compact_state, update_batch_inner, generate_unique_random_numbers"]}
{"id": "C84", "title": "mode gives a most frequent value", "statement": "mode(value) gives a value such that no other value occurs in more rows, and NULL if there is none, however the rows are cut into batches and partitions.", "quantifier": "every table with fewer than 2^32 rows, every execution plan, every order of the hash maps", "why_tests_cant": "counts are merged over partitions and read from hash maps in random order", "anchors": ["query_server/query/src/extension/expr/aggregate_function/mode.rs: update_batch, merge_batch, evaluate"]}
{"id": "C85", "title": "increase is the growth of a counter", "statement": "increase(time, value order by time) is the sum of the growth between neighbouring rows, where a smaller value counts as a reset to zero, however the rows are cut into batches and partitions; rows out of order are an error.", "quantifier": "every table, every execution plan", "why_tests_cant": "growth at the borders of batches and partitions is lost only for certain plans", "anchors": ["query_server/query/src/extension/expr/aggregate_function/increase.rs: update_inner, merge_inner, update_batch, merge_batch"]}
{"id": "C86", "title": "Data files give back what was written", "statement": "A data file (.tsm, .delta) that was written with any sequence of accepted calls of the writer, with any compression of the metadata, can be opened, and the reader returns for each series and each write exactly its pages, its table, series key and time range, the newest schema of each table, nothing else; the filter in the footer hides no series. Writes that come in the order of time in each series are accepted.", "quantifier": "every sequence of writes (batches, pages, raw column groups), every metadata compression, every number of tables and series, every lossless compressor", "why_tests_cant": "the file is a web of offsets: a wrong one shows up only for particular combinations of tables, series, page counts and compression", "anchors": ["tskv/src/tsm/writer.rs: TsmWriter::{new, write_pages, write_record_batch, write_raw, finish}", "tskv/src/tsm/reader.rs: TsmReader::{open, read_series_pages, read_adjacent_pages, read_datablock_raw}", "tskv/src/tsm/chunk.rs", "tskv/src/tsm/chunk_group.rs", "tskv/src/tsm/column_group.rs", "tskv/src/tsm/footer.rs"]}
{"id": "C87", "title": "Column groups that are copied as raw bytes stay the same", "statement": "When compaction copies column groups as raw bytes from data files into a new file, the new file returns for each of them the same pages and the same time range as the source.", "quantifier": "every set of opened files, every choice and order of column groups", "why_tests_cant": "page offsets are recomputed without looking at the bytes; a mistake is seen only when a later page of a later group is read", "anchors": ["tskv/src/tsm/writer.rs: write_raw, write_compacting_block", "tskv/src/tsm/reader.rs: read_datablock_raw, decode_buf_to_pages", "tskv/src/compaction/compacting_block_meta.rs: get_raw_data"]}
{"id": "C88", "title": "Changing tag values keeps the data", "statement": "After UPDATE of tag values a data file can be opened, returns the same pages, schemas and time ranges as before, and the new series keys.", "quantifier": "every data file, every sequence of updates, every metadata compression", "why_tests_cant": "the file is rewritten in place; whether it can still be read depends on its own compression, on the configured compression and on the size of the metadata", "anchors": ["tskv/src/tsfamily/column_file.rs: update_tag_value", "tskv/src/tsm/writer.rs: update_file_meta_data", "tskv/src/tsm/reader.rs: update_tag_value, open"]}
{"id": "C89", "title": "Time ranges of data files are exact", "statement": "The time ranges in the footer, in the table of chunk groups, in the chunks and column groups, and the range that the writer reports for the manifest, are the smallest ones that contain all the times of the writes they stand for.", "quantifier": "every sequence of writes", "why_tests_cant": "files are skipped by their time range; a range that is too small hides rows of some queries only", "anchors": ["tskv/src/tsm/writer.rs: write_chunk, write_chunk_group, write_chunk_group_specs", "tskv/src/tsm/chunk.rs: push", "tskv/src/tsm/chunk_group.rs: time_range"]}
{"id": "C92", "title": "Write requests only add columns to a table", "statement": "Whatever write requests at whatever nodes add columns to a table at the same time, and however late the nodes hear of it: a stored table is extended at its end only, the version grows with each change, names and ids of columns stay distinct, and when a request has got its schema the stored table has all its columns with suitable types (without DROP TABLE).", "quantifier": "every number of nodes and requests, every interleaving of their steps and of the notifications", "why_tests_cant": "depends on interleavings of several nodes with the meta service", "anchors": ["coordinator/src/tskv_executor.rs", "tskv/src/schema/schemas.rs: check_field_type_or_else_add, check_field_type_from_cache, build_fields_map", "meta/src/store/storage.rs: process_create_table, process_update_table", "meta/src/model/meta_tenant.rs"]}
{"id": "C93", "title": "Columns are found by name", "statement": "Whatever columns are added, dropped or changed, the map from names to positions has positions of columns only, and each column of the table is found by its name.", "quantifier": "every sequence of add_column, drop_column, change_column", "why_tests_cant": "the map is repaired by hand at each change; a wrong position shows only with certain sequences, one of the readers reads without a bounds check", "anchors": ["common/models/src/schema/tskv_table_schema.rs: new, add_column, drop_column, change_column, column, column_index"]}
{"id": "C94", "title": "A write request gets the schema that is stored", "statement": "The schema a write request gets, which decides under which column ids its values are written, has only columns that the stored table has with the same ids.", "quantifier": "every number of nodes and requests, every interleaving of their steps and of the notifications", "why_tests_cant": "needs a command refused by the meta service, thus two changes of the table at nearly the same time", "anchors": ["tskv/src/schema/schemas.rs:100-190"]}
{"id": "C95", "title": "ALTER TABLE never uses a column id twice", "statement": "After any sequence of ALTER TABLE ADD, DROP, RENAME the columns of a table have distinct ids, and an id that was used once, also by a column since dropped, is not used again for a new column.", "quantifier": "every table, every sequence of changes", "why_tests_cant": "a reused id shows only when old data of the dropped column is read as the new one", "anchors": ["query_server/query/src/sql/planner.rs:1100-1150", "query_server/query/src/execution/ddl/alter_table.rs", "common/models/src/schema/tskv_table_schema.rs"]}
{"id": "C96", "title": "A change of a table starts from the stored table", "statement": "When the meta service accepts a changed schema of a table, no column of the stored table is lost, and a table that was dropped does not come back by a change that was computed before.", "quantifier": "every interleaving of write requests, notifications and DROP TABLE", "why_tests_cant": "needs a DROP TABLE between two steps of another request", "anchors": ["meta/src/store/storage.rs: process_update_table, process_create_table, process_drop_table"]}
{"id": "C90", "title": "count without a condition is the number of values", "statement": "SELECT count(c) FROM t without condition and grouping, which the storage answers from metadata, is the number of rows of t that have a value of c; count(*) and count(time) are the number of rows. A row written twice counts once, a deleted row not at all. What is pushed down is the count of the column the query means.", "quantifier": "every set of files and buffers, every table schema reached by CREATE, ALTER and writes", "why_tests_cant": "The count is right for fresh data with every field set; it goes wrong after overwrites, deletes, NULLs, renamed columns, added tags.", "anchors": ["tskv/src/reader/pushdown_agg_reader.rs:39-97", "query_server/query/src/extension/logical/optimizer_rule/push_down_aggregation.rs:48-150", "query_server/query/src/data_source/batch/tskv.rs:143-195, 373-425"]}
{"id": "C91", "title": "A flush does not change a count", "statement": "The count of the rows or of a column that is answered from a write buffer is the same after the buffer was flushed to a file.", "quantifier": "every history of writes and deletes of a series", "why_tests_cant": "Flushes happen in the background, tests count either before or after.", "anchors": ["tskv/src/reader/pushdown_agg_reader.rs:39-74", "tskv/src/mem_cache/series_data.rs:219-265"]}
{"id": "C97", "title": "CREATE TABLE and ALTER TABLE make the table described", "statement": "CREATE TABLE makes a table with a time column and the given columns with the given types, and is refused for a duplicate or reserved name; ALTER TABLE ADD, DROP and RENAME change exactly the named column and keep the others with ids and types; a table always has exactly one time column.", "quantifier": "every list of column definitions, every table, every change", "why_tests_cant": "combinations of definitions and changes are unbounded", "anchors": ["query_server/query/src/sql/planner.rs:900-960, 1100-1150, 1640-1680", "query_server/query/src/execution/ddl/alter_table.rs", "common/models/src/schema/tskv_table_schema.rs"]}
{"id": "C98", "title": "A compaction keeps the values of every column", "statement": "A compaction of files that were written with different versions of a table's schema keeps, for every series, exactly the rows and for every row the value in every column of the table, as a reader that merges the input files would see them.", "quantifier": "every set of input files, every history of columns added, every size limit, every output range", "why_tests_cant": "which column groups are merged depends on times, versions and sizes of arbitrarily many files", "anchors": ["tskv/src/compaction/comapcting_block_meta_group.rs:52-292", "tskv/src/compaction/compact.rs:37-125, 608-694", "tskv/src/tsm/writer.rs:262-407", "tskv/src/compaction/flush.rs:54-133"]}
{"id": "C99", "title": "A query gets the values of each column by its id, whatever versions of the table wrote the files", "statement": "After any history of columns being added, dropped and renamed, a query for the columns of the table gets every row of every file and buffer of the series, with the value stored under the id of each column, NULL where the column was not there when the row was written, and the tags of the series; this also holds for files that were compacted.", "quantifier": "every history of schema changes, every list of files and buffers written at any points of it, all rows, all tags", "why_tests_cant": "The failing cases need a compaction whose inputs were written before and after an ALTER TABLE and whose blocks are full, so that column groups are copied; tests use few rows and query right after the change.", "anchors": ["tskv/src/reader/iterator.rs:340-395, 463-560, 588-611", "tskv/src/reader/column_group/mod.rs:33-90, 186-212", "tskv/src/reader/utils.rs:109-147", "tskv/src/reader/schema_alignmenter.rs:43-215", "tskv/src/reader/series.rs:49-150", "tskv/src/reader/memcache_reader.rs:50-170"]}
{"id": "C100", "title": "A pushed-down filter keeps the matching rows of files that were written before the table was changed", "statement": "When a filter is evaluated on each file and buffer before the columns are aligned to the table, the rows that are kept contain, in order, all rows that match the filter with the columns of the table, and nothing but rows of the series.", "quantifier": "every history of schema changes, every filter, every list of files and buffers written at any points of it", "why_tests_cant": "It takes a rename of two columns, files from before it and a filter on the renamed column; the lost rows look like rows that do not match.", "anchors": ["tskv/src/reader/filter.rs:41-118", "tskv/src/reader/utils.rs:197-300", "tskv/src/reader/iterator.rs:340-395"]}
{"id": "C101", "title": "An accepted write stores every line: its tags, its values and its time", "statement": "When a request of lines is accepted, every line of a table becomes one row, in the order of the lines: the series key has the line's tags under the columns of their names, each field of the line is a value in the column of its name, the other columns are null, the time is the line's converted to the precision of the table. Two lines are in one series exactly if they have the same tags, and the rows of a series are grouped in order.", "quantifier": "every list of lines of any tables, every schema before the request, in strict mode or not", "why_tests_cant": "The lines are turned into columns, padded, sorted by name, sent as a message and turned back into rows with another schema; mistakes need particular mixtures of missing values, new columns and names used twice.", "anchors": ["common/protocol_parser/src/lines_convert.rs:20-280", "common/models/src/mutable_batch.rs:22-110", "common/models/src/series_info.rs:83-130", "tskv/src/database.rs:199-345", "tskv/src/mem_cache/row_data.rs:29-190"]}
{"id": "C102", "title": "Every value in the write buffer has the type of its column", "statement": "The values of the rows an accepted write request puts into the write buffer have the types the table gives to their columns (strings for geometries), and a request never panics the writer.", "quantifier": "every list of lines, every schema, in strict mode or not", "why_tests_cant": "A wrong type is accepted when it is written; it shows as an error of the flush or of later queries.", "anchors": ["tskv/src/database.rs:217-232", "tskv/src/mem_cache/row_data.rs:40-165", "tskv/src/schema/schemas.rs:84-188"]}
{"id": "C103", "title": "A write replayed from the log after a restart stores the same rows", "statement": "If the table was changed between an accepted write and the restart, replaying the write from the log gives the rows it gave before: the same series keys and times, and in every column that still exists the same values.", "quantifier": "every request, every list of schema changes after it", "why_tests_cant": "It takes ALTER TABLE on a table with unflushed writes and a restart before the next flush; errors of the replay are only logged.", "anchors": ["tskv/src/vnode_store.rs:80-110", "tskv/src/vnode_store.rs:262-320", "tskv/src/database.rs:199-247", "query_server/query/src/execution/ddl/alter_table.rs:95-145"]}
{"id": "C104", "title": "A compaction replaces its files without losing rows", "statement": "When the result of a compaction job that a picker asked for is installed, every series has the same times as before, each with values of the same columns, also if other files were flushed or compacted in the meantime; and a query answers the same as before.", "quantifier": "every version of well-formed files, every request of the delta and the level picker, every block size", "why_tests_cant": "Any number of files, ranges already taken out of delta files, and any overlap of the range to compact with the files.", "anchors": ["tskv/src/compaction/picker.rs:46-499", "tskv/src/compaction/compact.rs:507-606", "tskv/src/tsm/tombstone.rs:275-294", "tskv/src/tsfamily/summary.rs:134-195", "tskv/src/tsfamily/version.rs:60-125"]}
{"id": "C105", "title": "No file is compacted by two jobs", "statement": "The pickers choose files of the version that are not being compacted, each once, and mark them, so that a later request has none of them; the range to compact includes the file of another level.", "quantifier": "every version, every request of the delta and the level picker, every trigger and size limit", "why_tests_cant": "Depends on which files are busy, on gaps between files and on ranges already taken out.", "anchors": ["tskv/src/compaction/picker.rs:46-499", "tskv/src/tsfamily/column_file.rs:24-120"]}
{"id": "C106", "title": "Deleted values do not come back through a compaction", "statement": "A value deleted before, while or after a compaction runs is not in the files after the compaction is installed.", "quantifier": "every version, every request, every delete of series in a time range, at any moment", "why_tests_cant": "The delete must fall between the start of a job and its installation.", "anchors": ["tskv/src/vnode_store.rs:573-608", "tskv/src/tsfamily/super_version.rs:92-132", "tskv/src/compaction/compact.rs:544-606", "tskv/src/tsm/tombstone.rs:275-294"]}
{"id": "C107", "title": "A data node that asks for changes of the metadata misses none", "statement": "A request for the changes after a version is answered either with an order to read everything again, or with exactly the later changes that concern the tenants watched, in order; the version that the node takes from the answer covers no change that it was not given.", "quantifier": "every history of writes and restarts of the meta server, every capacity of the log, every cluster, set of tenants and version, every schedule of the writes while a request waits", "why_tests_cant": "The log is a ring of 8192 entries; wrapping, waiting with the filter, and restarts have to be combined.", "anchors": ["meta/src/store/command.rs:20-220", "meta/src/store/storage.rs:361-387", "meta/src/service/http.rs"]}
{"id": "C108", "title": "A cache of a tenant that is given the changes shows what is stored", "statement": "A copy of the metadata of a tenant (members, roles, databases, tables, buckets) read at some moment, to which the later changes are applied, shows the same as the store.", "quantifier": "every sequence of commands of the meta server, every moment of reading, every base version up to it, every set of watched tenants with this one", "why_tests_cant": "Changes are given again and in an order relative to the reading that depends on timing; the effect of each kind of key in each state of the cache matters.", "anchors": ["meta/src/model/meta_tenant.rs:856-950", "meta/src/store/storage.rs:388-460", "meta/src/store/storage.rs:669-813"]}
{"id": "C109", "title": "A data node that has the version of the store shows what is stored", "statement": "When a node has processed the changes up to the version of the meta store, every tenant open on it shows the members, roles, databases, tables and buckets that are stored.", "quantifier": "every interleaving of writes, polls, openings of tenants and changes of the set of watched tenants", "why_tests_cant": "The bug needs a poll between the reading of a tenant and the moment at which it is watched.", "anchors": ["meta/src/model/meta_admin.rs:217-431", "meta/src/model/meta_admin.rs:631-659", "meta/src/model/meta_admin.rs:837-847"]}
{"id": "C110", "title": "Changing or dropping a tenant is seen by every data node", "statement": "After ALTER TENANT or DROP TENANT a node that has the version of the store uses the new options of the tenant, or no longer has the tenant.", "quantifier": "every state of a node, every state of the store", "why_tests_cant": "A single node in a test changes its own copy.", "anchors": ["meta/src/model/meta_admin.rs:331-386", "meta/src/store/command.rs", "meta/src/model/meta_admin.rs:815-828"]}
{"id": "C111", "title": "Dropping an object drops what belongs to it", "statement": "After DROP DATABASE, DROP USER, DROP ROLE and DROP TENANT nothing of the object is stored: no tables or buckets of the database, no memberships of the user, no member with the role, no databases of the tenant; and nothing else is removed.", "quantifier": "every store, every cluster, tenant and name without slashes", "why_tests_cant": "What is left behind shows only when the name is used again, and depends on what else is stored.", "anchors": ["meta/src/store/storage.rs:1004-1019", "meta/src/store/storage.rs:1307-1323", "meta/src/store/storage.rs:1425-1450", "meta/src/store/storage.rs:1544-1570"]}
{"id": "C112", "title": "Meta servers that apply the same commands hold the same metadata", "statement": "The state after a sequence of commands depends on the commands and the state before only, not on the server that applies them.", "quantifier": "every sequence of commands, every state, every clock, random source, reachability of data nodes and order of hash maps of the servers", "why_tests_cant": "A test has one server, or servers on one machine.", "anchors": ["meta/src/store/storage.rs:669-813", "meta/src/store/storage.rs:1155-1244", "meta/src/store/storage.rs:1477-1494"]}
{"id": "C113", "title": "Different objects of the metadata have different keys", "statement": "Two objects (tenants, limiters, users, data nodes, metrics, members, roles, databases, tables, buckets, …) of any clusters and tenants are stored under different keys, and what is stored is found when the tenant is read.", "quantifier": "every cluster, tenant, database, table, user and role name", "why_tests_cant": "A clash needs names chosen for it.", "anchors": ["meta/src/store/key_path.rs:1-140", "meta/src/store/storage.rs:388-460"]}
{"id": "C114", "title": "A replica shows what the commands of its log say, through flushes and restarts", "statement": "After any sequence of writes, deletes and changes of tags, mixed with flushes and restarts of the process, a query of a vnode sees under each series key and time the value that the commands, carried out one after the other, leave there.", "quantifier": "every sequence of commands, every placing of switches, index writes, starts and ends of flushes and crashes between them, every series key, time and value", "why_tests_cant": "A test would have to stop the process between two background steps; the index, the caches, the files and the log each know a different part of the past.", "anchors": ["tskv/src/vnode_store.rs:78-212", "tskv/src/vnode_store.rs:567-608", "tskv/src/database.rs:119-179", "tskv/src/database.rs:287-350", "tskv/src/index/ts_index.rs:130-396", "tskv/src/tsfamily/tseries_family.rs:158-348", "tskv/src/compaction/job.rs:295-410", "tskv/src/wal/wal_store.rs:429-520"]}
{"id": "C115", "title": "A replica made from a snapshot shows what the other one shows", "statement": "A replica that has restored the snapshot of another one and then applied the entries of the log after it gives the same answers to queries.", "quantifier": "every sequence of commands and background steps before the snapshot, every series key, time and value", "why_tests_cant": "What a snapshot leaves out shows only if the vnode had deletes, compactions or series without rows before.", "anchors": ["tskv/src/vnode_store.rs:78-212", "tskv/src/tsfamily/tseries_family.rs:249-348", "coordinator/src/raft/mod.rs:92-131", "tskv/src/index/ts_index.rs:130-396"]}
{"id": "C116", "title": "A refused command has no effect, also after a restart", "statement": "A command for which the client got an error changes nothing of what queries see, neither at once nor after the process was restarted.", "quantifier": "every sequence of commands and background steps, every refused change of tags", "why_tests_cant": "The error and the restart are in different tests, if the second is tested at all.", "anchors": ["tskv/src/vnode_store.rs:567-608", "tskv/src/index/ts_index.rs:310-396", "tskv/src/wal/wal_store.rs:429-520"]}
{"id": "C117", "title": "Acknowledged writes survive and replicas apply the same commands", "statement": "A write that was acknowledged to the client is in the log of all later leaders and, where so many entries were applied, was applied at its place by every replica, whatever messages are lost, delayed, repeated and whichever replicas are restarted; any two replicas have applied the same commands at the same places, so that queries on them see the same.", "quantifier": "every number of replicas, every sequence of votes, messages, commits, applications and restarts", "why_tests_cant": "The bad case needs a restart between acknowledging and applying, followed by an election won by the restarted replica.", "anchors": ["tskv/src/wal/wal_store.rs:38-71,494-533", "coordinator/src/raft/manager.rs:618-660", "replication/src/node_store.rs:350-520"]}
{"id": "C118", "title": "Raft groups of one process do not disturb each other", "statement": "What is stored of a raft group (vote, memberships, last applied entry, purged entry, summary, ...) depends only on what the group itself wrote; after its removal nothing of it is left; the groups opened at the start are those with a summary.", "quantifier": "every sequence of writes of any number of groups", "why_tests_cant": "All groups share one key space with decimal numbers in the keys; a clash needs particular numbers of groups and indexes.", "anchors": ["replication/src/state_store.rs:15-60,149-420"]}
{"id": "C119", "title": "A snapshot says rightly what it contains", "statement": "The meta data of a snapshot made at the index of an applied entry carry the id of that entry and the membership that was in force there, also after earlier snapshots have removed old memberships and parts of the log were purged.", "quantifier": "every sequence of applied entries, snapshots made and restored, and purges", "why_tests_cant": "Needs membership changes between snapshots and purges in a certain order.", "anchors": ["replication/src/node_store.rs:73-184,423-446", "replication/src/state_store.rs:173-227"]}
{"id": "C120", "title": "A database spread over replication sets behaves like one table", "statement": "Whatever buckets, sets, replicas and leaders a database has had, a query over a time span returns every row of the span exactly once with the newest acknowledged value of each column, and no row that was deleted or expired; a write request or DELETE, once acknowledged, has its effect on exactly the rows it names, in whichever buckets and sets they lie.", "quantifier": "all histories of a database: any sequence of write requests (any lines, precisions, nodes), deletes, commits of their commands (late, never, several times, by any replica), catch-up of replicas, creation and removal of buckets, changes of replicas and recorded leaders; all cells and query spans", "why_tests_cant": "Tests run a few requests on one or two nodes; the property is about every interleaving of routing, commits, leader changes and bucket changes, and about cells that fall on bucket boundaries or sets that only some routes reach.", "anchors": ["coordinator/src/service.rs:307-326", "coordinator/src/service.rs:500-760", "coordinator/src/service.rs:845-886", "meta/src/model/meta_tenant.rs:716-729", "common/models/src/meta_data.rs:81-85", "common/models/src/meta_data.rs:276-324"]}
{"id": "C121", "title": "A write request is applied completely or not at all", "statement": "If a write request is refused or fails, none of its rows is in the table; if it succeeds, all are.", "quantifier": "all requests, catalogues and failures of the sets its rows go to", "why_tests_cant": "It takes a failure of one replication set between the commands of one request; tests with one set never split a request.", "anchors": ["coordinator/src/service.rs:580-640", "coordinator/src/service.rs:660-760"]}
{"id": "C122", "title": "A request to a replication set is executed once", "statement": "A command sent to a replication set is executed exactly once if the request succeeds and not at all if it fails; it succeeds while the leader is reachable.", "quantifier": "all sets, recorded leaders, roles and answers of the nodes, including lost answers", "why_tests_cant": "The answers that matter are timeouts after execution and errors of redirected requests; tests do not lose answers.", "anchors": ["coordinator/src/tskv_executor.rs:71-150", "coordinator/src/errors.rs:326-340", "coordinator/src/raft/writer.rs:83-150"]}
{"id": "C123", "title": "A scan of a set returns all of one replica or an error", "statement": "A scan of a replication set that ends without an error has delivered all batches of exactly one replica that is not marked broken; batches of two replicas are never mixed; the leader is the one read if it can be opened.", "quantifier": "all sets, statuses, results of opening replicas, streams with errors at any place, limits", "why_tests_cant": "Failover in the middle of a scan needs a replica that fails after it was opened; the mixing of two replicas would only show with diverging replicas.", "anchors": ["coordinator/src/reader/mod.rs:71-176", "coordinator/src/service.rs:520-560"]}
{"id": "C124", "title": "An accepted request acts only where its user has the right", "statement": "Every statement that is accepted reads, writes and changes only databases, tables, members, roles, tenants, users and settings for which the user of the session has the right in the tenant concerned; the same holds for requests with tokens, writes of points and Prometheus reads. A user with the system role member only reads in their own tenant and changes their own options. An administrator is never refused for want of a right.", "quantifier": "all metadata, users, roles, tenants, sessions, statements with all names and subqueries, tokens", "why_tests_cant": "Which right a statement needs is decided separately in forty functions of the planner; tests run nearly always as the root user, who has every right.", "anchors": ["query_server/query/src/sql/planner.rs:136-2405", "query_server/query/src/sql/planner.rs:2909-2966", "query_server/query/src/metadata/mod.rs:242-275", "query_server/query/src/execution/ddl/create_external_table.rs:40-130", "main/src/http/http_service.rs:2629-2757"]}
{"id": "C125", "title": "Nobody but administrators and owners changes rights", "statement": "A request that changes the rights of anybody in a tenant is made by an administrator or by an owner of that tenant; any number of requests of others leave everybody's rights in that tenant as they are. The record of a user (password, keys, being an administrator) is changed only by administrators and by the user, who cannot change being an administrator; that of the root user only by a root user.", "quantifier": "all metadata with distinct tenant ids, all runs of requests of all users in all tenants", "why_tests_cant": "Escalation needs a combination of statements by different users with the right roles; tests cover single statements.", "anchors": ["query_server/query/src/sql/planner.rs:1767-2090", "meta/src/store/storage.rs:1257-1615", "meta/src/model/meta_admin.rs:588-622", "common/models/src/auth/role.rs:20-211"]}
{"id": "C126", "title": "A user who must change the password can do nothing else, and then has a new one", "statement": "While the option must_change_password is set and authentication is on, the only request of the user that succeeds sets their own password; afterwards the option is off and the password is a different one.", "quantifier": "all metadata, users, statements, requests", "why_tests_cant": "The option is asked for in each kind of request; the comparison with the old password only happens for one of the two ways to set it.", "anchors": ["query_server/query/src/sql/planner.rs:167-186", "query_server/query/src/sql/planner.rs:1959-2035", "main/src/http/http_service.rs:2629-2757", "common/models/src/auth/user.rs:186-190"]}
{"id": "C127", "title": "A member has the rights of the role they were given", "statement": "The rights of a member of a tenant who is not an administrator are those of the role the member was given.", "quantifier": "all metadata, tenants, users, roles", "why_tests_cant": "The lookup under the wrong key only hits if a role has the id of a user as its name.", "anchors": ["meta/src/model/meta_tenant.rs:192-226", "meta/src/model/meta_admin.rs:588-622"]}
{"id": "C128", "title": "A token ends with the rights it stands for", "statement": "A token of a Flight SQL connection carries the user and rights of the login, is refused when it was not used for ten minutes, and is refused when the user is dropped, removed or loses the rights.", "quantifier": "all sequences of requests with a token at all times, all metadata at those times", "why_tests_cant": "Tests use a token once, shortly after the login.", "anchors": ["main/src/flight_sql/auth_middleware/generated_bearer_token_authenticator.rs:20-115", "main/src/flight_sql/flight_sql_server.rs:80-210"]}
{"id": "C129", "title": "The OpenTSDB service writes the lines it is sent, however they arrive", "statement": "Whatever pieces the network cuts a stream of valid put lines into, the OpenTSDB service writes exactly the points of the lines, in order, and keeps the connection.", "quantifier": "all streams of put lines, all ways of cutting them into reads", "why_tests_cant": "The bug shows only if a read ends within a value or between the value and the tags; tests send short messages that arrive in one read.", "anchors": ["main/src/tcp/tcp_service.rs:36-107", "common/protocol_parser/src/open_tsdb/parser.rs:110-186"]}
{"id": "C130", "title": "A line that is refused stops the OpenTSDB connection", "statement": "After a complete line that is not a put command, nothing that arrives on the connection is written, and the buffer keeps growing.", "quantifier": "all connections, all bad lines, all later input", "why_tests_cant": "A test with one bad line sees that it is not written, and does not go on.", "anchors": ["main/src/tcp/tcp_service.rs:51-107", "common/protocol_parser/src/open_tsdb/parser.rs:116-124"]}
{"id": "C131", "title": "The OpenTSDB service keeps the time of a point", "statement": "The time under which a point of the OpenTSDB service is stored is the instant that the line names.", "quantifier": "all numbers of 64 bits", "why_tests_cant": "The stored number looks right; it is only taken in another unit. Tests check the number.", "anchors": ["main/src/tcp/tcp_service.rs:15-16", "main/src/tcp/tcp_service.rs:60-95"]}
{"id": "C132", "title": "The OpenTSDB text of an HTTP request is read as it was written", "statement": "A request of points, each a metric, a time, a number and tags, gives these points, and no request makes the parser panic.", "quantifier": "all texts", "why_tests_cant": "Tests use one line with an integer value.", "anchors": ["common/protocol_parser/src/open_tsdb/parser.rs:20-108", "common/protocol_parser/src/lib.rs:128-280"]}
{"id": "C133", "title": "A span of an OpenTelemetry trace is stored as it was sent", "statement": "The record of a span has what its resource, its scope and the span itself say, and nothing else.", "quantifier": "all traces: resources, scopes, spans, attributes, events, links", "why_tests_cant": "Tests compare requests with one span, or look only for the attributes that are there.", "anchors": ["common/protocol_parser/src/json_protocol/parser.rs:200-495"]}
{"id": "C134", "title": "A Loki entry is stored with its labels and time", "statement": "The record of an entry has the labels of its stream, its time in nanoseconds and its text, and nothing else.", "quantifier": "all pushes: streams, entries, times", "why_tests_cant": "The state that is carried from one entry to the next only shows in longer pushes.", "anchors": ["common/protocol_parser/src/json_protocol/parser.rs:138-200"]}
{"id": "C135", "title": "A JSON document becomes a record with all its values", "statement": "Every value of a document that is neither an array nor an object is in the record under its path, and nothing else is.", "quantifier": "all documents", "why_tests_cant": "Collisions need keys with dots or empty keys.", "anchors": ["common/protocol_parser/src/json_protocol/parser.rs:60-136"]}
{"id": "C136", "title": "A record becomes a line with all its columns", "statement": "Columns asked for as tags are tags, the time column is the time, all others are fields; a request is written in full or not at all.", "quantifier": "all records, tag columns, time columns", "why_tests_cant": "Nulls, times of the wrong kind and a time column that is also a tag are rarely combined.", "anchors": ["common/protocol_parser/src/json_protocol/parser.rs:497-561", "main/src/http/http_service.rs:2859-2864"]}
{"id": "C137", "title": "The value of a tag is the text that was sent", "statement": "A tag column with a text is stored with that text, and different values are different tags.", "quantifier": "all values", "why_tests_cant": "Tests use plain words as tag values.", "anchors": ["common/protocol_parser/src/json_protocol/parser.rs:505-512"]}
{"id": "C138", "title": "Prometheus remote write stores every sample at its time", "statement": "Every sample of a write request becomes a row of the table of its metric with all labels as tags, and its time reads back as it was sent.", "quantifier": "all requests, all times", "why_tests_cant": "Times that overflow are not used in tests.", "anchors": ["query_server/query/src/prom/remote_server.rs:77-111", "query_server/query/src/prom/time_series/writer.rs:80-122"]}
{"id": "C139", "title": "Prometheus remote read answers each series once, with its samples", "statement": "The answer has one series for each combination of labels among the rows, with the samples of exactly these rows in order.", "quantifier": "all results of the query", "why_tests_cant": "A merge of two series needs the separator within a value.", "anchors": ["query_server/query/src/prom/time_series/writer.rs:30-150", "query_server/query/src/prom/time_series/writer.rs:223-232"]}
{"id": "C140", "title": "Prometheus remote read asks the tables that the matchers select", "statement": "The tables read are those whose name satisfies every matcher on __name__.", "quantifier": "all databases, all lists of matchers", "why_tests_cant": "Tests use one matcher that is an equality.", "anchors": ["query_server/query/src/prom/remote_server.rs:265-332"]}
{"id": "C141", "title": "The condition of a Prometheus remote read is what the matchers say", "statement": "The SQL condition made from the matchers on labels is the conjunction of these matchers, whatever their values.", "quantifier": "all lists of matchers", "why_tests_cant": "Tests use values without quotes.", "anchors": ["query_server/query/src/prom/remote_server.rs:334-367"]}
{"id": "C142", "title": "A stream query reads every row once", "statement": "Over every history of writes to the source and runs of a stream query that end well, every row of the source is handed to the query exactly once.", "quantifier": "all histories, spreads of rows over partitions and batches, sources, units of the event time", "why_tests_cant": "Which rows are read twice or never depends on the order of batches and partitions and on the arrival of rows between runs.", "anchors": ["query_server/query/src/stream/offset_tracker/mod.rs:29-73", "query_server/query/src/extension/physical/plan_node/watermark.rs:187-238", "query_server/query/src/data_source/stream/tskv/provider.rs:36-80", "query_server/query/src/execution/stream/mod.rs:280-373"]}
{"id": "C143", "title": "A stream query takes rows that are late by less than the delay", "statement": "A row that is written before the event time has advanced by more than the delay of the stream table behind its time is read by the query, whatever runs fail and however often the server restarts.", "quantifier": "all histories of writes, runs with every way to fail, restarts", "why_tests_cant": "Needs the interplay of commits, failures and arrival times.", "anchors": ["query_server/query/src/stream/watermark_tracker.rs:158-169", "query_server/query/src/stream/offset_tracker/mod.rs:43-73"]}
{"id": "C144", "title": "The result of a stream query is that of the query over its source", "statement": "The result that a stream query with aggregates gives behind a run has every group with the values of all rows read so far; if the rows came in order it is the result of the query over the table.", "quantifier": "all histories, all groups and aggregates", "why_tests_cant": "States of groups are merged, filtered and expired over many runs.", "anchors": ["query_server/query/src/extension/physical/plan_node/state_save.rs:56-365", "query_server/query/src/extension/physical/plan_node/state_restore.rs:128-150", "query_server/query/src/extension/physical/optimizer_rule/add_state_store.rs:42-90", "query_server/query/src/stream/state_store/memory.rs:50-104"]}
{"id": "C145", "title": "A failed run of a stream query has no effect on the results of later runs", "statement": "If a run of a stream query fails, the results of the runs behind it are as if it had not been started.", "quantifier": "all histories, every point at which a run can fail", "why_tests_cant": "Failures in the middle of a run leave states, offsets and watermark in combinations that tests do not reach.", "anchors": ["query_server/query/src/execution/stream/mod.rs:295-373", "query_server/query/src/stream/state_store/memory.rs:50-104", "query_server/query/src/stream/watermark_tracker.rs:163-169"]}
{"id": "C146", "title": "A stream query goes on where it was when the server restarts", "statement": "Behind a restart a stream query has the watermark of before, does not read rows again, and its result is as without the restart.", "quantifier": "all histories with restarts", "why_tests_cant": "Needs restarts at every point of a history.", "anchors": ["query_server/query/src/stream/watermark_tracker.rs:41-154", "query_server/query/src/execution/stream/mod.rs:100-130"]}
{"id": "C147", "title": "Expiring states removes what matches and returns it", "statement": "MemoryStateStore::expire removes the states that match a predicate, keeps the others, and returns what it removed.", "quantifier": "all contents of the store and predicates", "why_tests_cant": "The return value is not looked at by the only caller.", "anchors": ["query_server/query/src/stream/state_store/memory.rs:60-86"]}
{"id": "C148", "title": "The table of watermarks keeps the watermark of every stream query", "statement": "A stream query that is created again behind a restart gets the watermark of its last commit, however the commits of other queries were mixed in.", "quantifier": "all sequences of commits of any number of queries", "why_tests_cant": "The rows of all queries share one series.", "anchors": ["query_server/query/src/stream/watermark_tracker.rs:48-154", "query_server/query/src/stream/watermark_tracker.rs:171-222"]}
{"id": "C149", "title": "An INSERT stores the rows it is given", "statement": "An INSERT that names a column twice, has more or fewer values than columns, or has a row without a time is refused. If an INSERT is accepted, every row of its source is stored exactly once, in order, in the set it belongs to: its tags are the key of its series, its fields the values, its time the one given, nothing else; and the number of rows is reported. If it fails, nothing has been stored, and it never changes the schema of the table.", "quantifier": "every table, list of columns, source (any batches, values, nulls, types), precision and distribution over sets", "why_tests_cant": "the checks of the plan and the projection depend on the order and number of columns; nulls and missing columns are filled in silently far from where they are read; tests check the rows they expect, not that a malformed statement is refused", "anchors": ["query_server/query/src/extension/logical/logical_plan_builder.rs: write, semantic_check, add_projection_between_source_and_insert_node_if_necessary", "coordinator/src/service.rs: write_record_batch", "common/protocol_parser/src/lines_convert.rs: arrow_array_to_points", "query_server/query/src/data_source/sink/tskv.rs"]}
{"id": "C150", "title": "An UPDATE of fields changes exactly the rows it names", "statement": "After an accepted UPDATE of fields, every row for which the condition holds has the values it sets, nulls included, in the columns it sets; all other columns and rows are as before, no row has appeared or gone, and the number of rows it changed is reported.", "quantifier": "every table, history of writes, assignment and condition", "why_tests_cant": "an UPDATE is a scan whose rows are written again; the effect of a null depends on how stored versions are merged", "anchors": ["query_server/query/src/extension/analyse/transform_update.rs: update_field", "query_server/query/src/sql/planner.rs: update_to_plan", "query_server/query/src/extension/logical/logical_plan_builder.rs"]}
{"id": "C151", "title": "An UPDATE does not undo other writes", "statement": "An UPDATE leaves the columns it does not set as other statements have made them, also if those were executed between its scan and its writes.", "quantifier": "every table, UPDATE and set of writes between its scan and its writes", "why_tests_cant": "it takes a write to a row in the moment between reading and writing it", "anchors": ["query_server/query/src/extension/analyse/transform_update.rs: update_field"]}
{"id": "C152", "title": "A query returns exactly the rows for which its filters hold", "statement": "Whatever filters a query has, with user functions or not, it returns exactly the rows of the table for which all of them hold; the filter that is sent to the nodes with the data lets all these rows pass, and filters that are left to the scan alone are applied there.", "quantifier": "all filters over any user functions, casts and operators, all rows", "why_tests_cant": "it takes a filter in which a condition with a user function stands below something that turns it around; rows are missing then, which no one notices", "anchors": ["query_server/query/src/data_source/batch/filter_expr_rewriter.rs: rewrite_filters, FilterExprRewriter::mutate", "query_server/query/src/data_source/batch/tskv.rs: scan, supports_filter_pushdown", "query_server/query/src/extension/expr/expr_utils.rs: can_exact_filter"]}
{"id": "C153", "title": "Counting rows of a query counts all its rows", "statement": "SELECT count(*) FROM a query is the number of rows of that query, whatever it is made of: tables, joins, unions, values.", "quantifier": "all plans and contents of tables", "why_tests_cant": "plans are trees of any shape; the tests count tables and subqueries of one table", "anchors": ["query_server/query/src/extension/analyse/transform_count_gen_time_col.rs: analyze_internal"]}
{"id": "C154", "title": "topk and bottom return the best rows", "statement": "SELECT topk(f, k) returns k rows, or all if there are less, with the greatest values of f, bottom(f, k) with the least; no row that is left out is better than one returned; k is a number from 1 to 255.", "quantifier": "all tables, values (nulls too) and k", "why_tests_cant": "ties, nulls and counts of rows below k", "anchors": ["query_server/query/src/extension/analyse/transform_topk_func_to_topk_node.rs: do_transform, extract_args_k", "query_server/query/src/extension/analyse/transform_bottom_func_to_topk_node.rs: do_transform"]}
{"id": "C155", "title": "exact_count counts, whatever else is selected", "statement": "Every query that uses exact_count counts the values of its argument without using statistics, and the rule for it changes no other query.", "quantifier": "all select lists with any names, groups and aggregates", "why_tests_cant": "the rule works on the texts of names of columns; it takes names or lists no one has tried", "anchors": ["query_server/query/src/extension/analyse/transform_exact_count_to_count.rs: analyze_internal, transform_expressions, transform_aggregation", "query_server/query/src/extension/expr/aggregate_function/exact_count_agg.rs"]}
{"id": "C156", "title": "value_fill fills the gaps and keeps the values", "statement": "value_fill with any method keeps the known values of a series, gives one row for every row, and puts a number into every row without one: the mean; the value before; the value on the line between the neighbours; what a model of the series gives; the mean of the five rows around.", "quantifier": "all series with at least one number and all methods", "why_tests_cant": "gaps at the ends and series shorter than the windows are rare in tests", "anchors": ["query_server/query/src/extension/expr/ts_gen_func/data_repair/value_fill.rs: value_fill, fill_mean, fill_previous, fill_linear, fill_ar, fill_ma"]}
{"id": "C157", "title": "timestamp_repair gives the regular times nearest to those stored", "statement": "timestamp_repair returns times at equal distances, the points assigned to them in their order such that the cost (distances, insertions, deletions) is the least; regular times are returned as they are; no series makes it fail.", "quantifier": "all ascending times, intervals and starts", "why_tests_cant": "the assignment is found by dynamic programming over all prefixes; tests have one or two series", "anchors": ["query_server/query/src/extension/expr/ts_gen_func/data_repair/timestamp_repair.rs: timestamp_repair, dp_repair, interval_mode, interval_median, start_mode, start_linear"]}
{"id": "C158", "title": "value_repair keeps the change of values within the speeds", "statement": "value_repair with method screen gives a value for every row such that neighbours change by no less than the smallest and no more than the largest speed; a series that obeys is returned unchanged; missing values are put on the lines between known ones; no series makes it fail.", "quantifier": "all series with ascending times, given or found speeds", "why_tests_cant": "the result of a row depends on all rows in its window and all results before", "anchors": ["query_server/query/src/extension/expr/ts_gen_func/data_repair/value_repair.rs: value_repair, process_nan, screen, get_median, get_repaired_value, f64_median, mad"]}
{"id": "C159", "title": "Scores of data quality are between 0 and 1 and depend on the rows alone", "statement": "completeness, consistency, timeliness and validity of a series of two numbers or more are numbers between 0 and 1; they depend neither on the batches or partitions the rows come in nor on the numeric type; a regular series without gaps scores 1.", "quantifier": "all series, batches, partitions and numeric types", "why_tests_cant": "batches have thousands of rows and tests have a few", "anchors": ["query_server/query/src/extension/expr/aggregate_function/data_quality/accumulator.rs: update_batch, merge_batch, evaluate, scalar_to_f64", "query_server/query/src/extension/expr/aggregate_function/data_quality/common.rs: nan_process, time_detect, value_detect, completeness, consistency, timeliness, validity"]}
{"id": "C160", "title": "Repair functions keep the integers of a column", "statement": "The repair functions take signed and unsigned columns and return the known values of the column unchanged.", "quantifier": "all columns of integers", "why_tests_cant": "integers above 2^53 and unsigned columns", "anchors": ["query_server/query/src/extension/utils.rs: numeric_arr_as_f64_iter, f64_vec_to_numeric_arr", "query_server/query/src/extension/physical/plan_node/ts_gen_func/stream.rs"]}
{"id": "C161", "title": "Dumped statements make the objects they were printed from", "statement": "Every tenant, user, database, role with its grants, member and table, printed by dump-ddl as statements and given to a server where what the object needs is there, makes exactly that object and changes nothing else; with if-not-exists a present object stays.", "quantifier": "all objects, names, options, columns, all stores of the meta service", "why_tests_cant": "Names are arbitrary texts put between quotes, options are optional in all combinations and columns have all types and encodings: a test tries a few objects with plain names.", "anchors": ["common/models/src/sql/mod.rs:23-318", "query_server/query/src/sql/parser.rs:1043-1376", "query_server/query/src/sql/planner.rs:918-952", "meta/src/store/storage.rs:1038-1587"]}
{"id": "C162", "title": "Durations are read as they are printed", "statement": "For every duration a setting can have, the text printed for it (TTL, vnode duration, drop-after) is parsed to the same duration; different durations have different texts.", "quantifier": "all durations up to 2^64 seconds with nanoseconds, and the infinite one", "why_tests_cant": "The text is made of years, months, days down to nanoseconds with plurals and is parsed by other code with other units; only a proof covers all 2^94 values.", "anchors": ["common/utils/src/duration.rs", "common/models/src/sql/mod.rs:155-184"]}
{"id": "C163", "title": "A dump restores the cluster", "statement": "The dump of a cluster, given to a new cluster with restore-dump-ddl, is executed without an error and makes a cluster with the same tenants, users, databases, roles, grants, members and tables.", "quantifier": "all clusters", "why_tests_cant": "Whether every statement finds what it needs depends on the order of all sections, on what a new cluster has already and on objects dropped earlier: tests restore one small cluster.", "anchors": ["meta/src/store/dump.rs:16-161", "client/src/exec.rs:21-89", "meta/src/service/init.rs:37-84", "meta/src/store/storage.rs:1004-1587"]}
{"id": "C164", "title": "The client sends the statements of a file", "statement": "A file of statements given to the client is sent statement by statement with the text of the file; nothing in a string of a statement is taken for the end of it, for a comment or for a command.", "quantifier": "all files of statements", "why_tests_cant": "What matters are line feeds, semicolons at ends of lines, dashes and spaces inside of strings, which tests do not combine.", "anchors": ["client/src/exec.rs:21-89"]}
{"id": "C165", "title": "Limits of a tenant hold over the whole cluster", "statement": "Whatever is requested on whatever data nodes, the requests (or bytes) of a limited tenant that pass are at most what the settings allow: the initial tokens of the meta server, a refill for every interval that has passed, and for every node its initial tokens and its overdraft. Requests of one tenant or kind do not use up tokens of another.", "quantifier": "every cluster, every setting that is far from the ends of i64, every sequence of requests on any nodes, lost requests and answers, every clock reading", "why_tests_cant": "a limit over all nodes is a statement about all interleavings of requests on all nodes and all times", "anchors": ["meta/src/limiter/local_request_limiter.rs:87-193", "common/limiter_bucket/src/rate_bucket.rs:231-258", "meta/src/store/storage.rs:1617-1650"]}
{"id": "C166", "title": "Requests of a limited tenant pass while there are tokens", "statement": "A request is refused only if the tokens that it needs are available neither on the node nor on the meta server.", "quantifier": "every state of the local and the remote bucket, every size of a request", "why_tests_cant": "depends on the combination of counters, sizes, settings and the clock", "anchors": ["meta/src/limiter/local_request_limiter.rs:87-160"]}
{"id": "C167", "title": "Changed limits are the limits that are used", "statement": "After ALTER TENANT the limits are those of the statement, for kinds that it does not name those from before; every node uses them once it has heard of the change; other tenants keep theirs.", "quantifier": "every tenant, every setting, every statement, every node", "why_tests_cant": "tests change one limit on one node; here all kinds, all nodes and all ways to hear of a change are covered", "anchors": ["meta/src/model/meta_admin.rs:699-801", "meta/src/store/storage.rs:1323-1448", "meta/src/limiter/limiter_manager.rs:85-118"]}
{"id": "C168", "title": "Only DROP removes databases", "statement": "A database and its tables are still there after any execution in which no statement drops the database, its tenant or a table of it; in particular RECOVER never removes anything.", "quantifier": "every execution of statements, deliveries of events, tasks, failures, restarts and take-overs on every number of nodes", "why_tests_cant": "tests drop one object at a time; here objects with related names, failures and take-overs interleave", "anchors": ["coordinator/src/resource_manager.rs:22-186", "query_server/query/src/dispatcher/manager.rs:242-475", "query_server/query/src/execution/ddl/recover_database.rs:25-69"]}
{"id": "C169", "title": "A scheduled drop can be recovered", "statement": "A database dropped with AFTER is there, with all its tables, until its time has come; RECOVER DATABASE before that succeeds, shows it again, and it stays.", "quantifier": "every execution before, between and after the statements, every interval, every node", "why_tests_cant": "tests recover at once on one node; the time between, other nodes, restarts and lost events are not exercised", "anchors": ["query_server/query/src/execution/ddl/drop_tenant_object.rs:73-110", "query_server/query/src/execution/ddl/recover_database.rs:25-69", "query_server/query/src/dispatcher/manager.rs:271-329"]}
{"id": "C170", "title": "A scheduled drop is done at its time", "statement": "A drop with AFTER is done when its time has come, whatever happens to the nodes, and not before; failed drops are tried until they succeed.", "quantifier": "every task, every execution of the other nodes and statements", "why_tests_cant": "needs restarts, take-overs and repeated failures at particular moments", "anchors": ["query_server/query/src/dispatcher/manager.rs:242-475", "coordinator/src/resource_manager.rs:315-391"]}
{"id": "C171", "title": "The answer of a DROP is what has happened", "statement": "DROP without AFTER answers success exactly if the object is gone, and nothing else is touched; what is created afterwards is not removed by it.", "quantifier": "every state of the cluster, every object, every outcome of the operator", "why_tests_cant": "tests run on clusters in which no drop has failed before", "anchors": ["coordinator/src/resource_manager.rs:22-77", "coordinator/src/resource_manager.rs:315-356", "query_server/query/src/execution/ddl/drop_global_object.rs:67-125"]}
{"id": "C172", "title": "An UPDATE of tags changes exactly the rows it names", "statement": "After an UPDATE of tags that reports success, the rows that the condition names have the new tags, with their times and values; all other rows are as they were; an UPDATE without conflict is possible.", "quantifier": "every history of writes and updates, every number of replication sets, every condition, every assignment", "why_tests_cant": "tests update series with one row in tables with few tags", "anchors": ["query_server/query/src/extension/analyse/transform_update.rs:118-187", "coordinator/src/service.rs:1042-1176", "tskv/src/index/ts_index.rs:327-391"]}
{"id": "C173", "title": "An UPDATE of tags does not make two rows of one", "statement": "No two rows of a table have the same tags and the same time, also after an UPDATE of tags and after later writes.", "quantifier": "every history of writes and updates, every number of replication sets", "why_tests_cant": "needs series in different replication sets", "anchors": ["tskv/src/index/ts_index.rs:372-388", "coordinator/src/service.rs:1124-1153"]}
{"id": "C174", "title": "An UPDATE of tags is done or refused", "statement": "An UPDATE of tags that reports an error has changed nothing, one that reports success is done, and one without conflict is accepted.", "quantifier": "every state, every condition, every assignment, sets that cannot be reached, writes between check and update", "why_tests_cant": "needs failures between the check and the update", "anchors": ["coordinator/src/service.rs:1129-1176", "coordinator/src/resource_manager.rs:272-356"]}
{"id": "C175", "title": "A command to the meta service is carried out once", "statement": "A command that a node sends to the meta service changes the metadata as if it was carried out once, and the answer tells whether it was.", "quantifier": "every command, every state, every sequence of attempts whose requests or answers may be lost, every redirect", "why_tests_cant": "needs an answer that is lost after the command was carried out", "anchors": ["meta/src/client.rs:183-239", "meta/src/store/storage.rs:669-813"]}
{"id": "C176", "title": "A node finds the leader of the meta service", "statement": "As long as the meta service has a leader, a command of a node is answered by it, whatever other servers are down.", "quantifier": "every list of servers, every set of servers that are down, every server that the node asked last", "why_tests_cant": "needs several servers down at once in every combination", "anchors": ["meta/src/client.rs:166-239", "meta/src/service/http.rs:77-114"]}
{"id": "C177", "title": "Who reads the metadata sees the commands that were answered", "statement": "A read of the metadata sees every command that was answered before.", "quantifier": "every history of commands and of servers applying them, every reader", "why_tests_cant": "needs a server that is behind, and a reader that asks it", "anchors": ["meta/src/service/http.rs:57-74", "meta/src/client.rs:83-101"]}
{"id": "C178", "title": "The limit on concurrent queries is exact", "statement": "A node never works on more queries than its configured limit, and as long as it works on fewer it accepts another one; a query that ended in whatever way does not occupy a slot.", "quantifier": "for every history of queries on a node: accepted or refused, stored or not, started with data, nothing or an error, read to the end or dropped, abandoned, killed, with restarts and takeovers", "why_tests_cant": "Slots leak and are freed early only in interleavings of starts, failures, disconnects and KILL that no test arranges", "anchors": ["query_server/query/src/dispatcher/query_tracker.rs:61-97", "query_server/query/src/dispatcher/query_tracker.rs:122-220", "query_server/query/src/dispatcher/query_tracker.rs:270-340", "query_server/query/src/dispatcher/manager.rs:495-511"]}
{"id": "C179", "title": "KILL stops a query", "statement": "After KILL QUERY reported success, the query is not worked on any more, on this node and after a restart; KILL of any running query is possible; other queries are not affected.", "quantifier": "for every history, every query in every phase, every outcome of the removal from the meta service", "why_tests_cant": "Tests kill a stream that runs; the phases of a query, a full node and a failing meta service are not exercised", "anchors": ["query_server/query/src/execution/sys/kill_query.rs:27-39", "query_server/query/src/execution/query.rs:66-102", "query_server/query/src/execution/stream/mod.rs:225-246", "query_server/query/src/dispatcher/query_tracker.rs:122-220"]}
{"id": "C180", "title": "Only those who may see a query may kill it", "statement": "A user sees a running query if and only if they are an administrator, or it belongs to the tenant of the session and they may read its system tables or it is their own; and only such a query may they kill.", "quantifier": "for all users, tenants, lists of queries and histories", "why_tests_cant": "A test of permissions tries a few pairs of users; the statement is about all users and queries", "anchors": ["query_server/query/src/metadata/information_schema_provider/factory/queries.rs:139-165", "query_server/query/src/sql/planner.rs:310-317"]}
{"id": "C181", "title": "Stored streams run after a restart and after a takeover, on one node", "statement": "After a restart of a node all streams stored for it run again, after a takeover all streams of the dead node run on the node that took them over, each stream on one node only; a stream whose start was reported as failed does not run.", "quantifier": "for every history of a node, every set of stored streams, every limit, every dead node", "why_tests_cant": "It needs restarts and failing nodes with many stored streams", "anchors": ["query_server/query/src/dispatcher/manager.rs:204-241", "query_server/query/src/dispatcher/manager.rs:380-455", "query_server/query/src/dispatcher/persister.rs:1-80", "meta/src/store/storage.rs:479-491", "meta/src/store/storage.rs:814-847"]}
{"id": "C182", "title": "A trace that is read has all its spans", "statement": "Reading a trace by its id through the Jaeger API gives every span of the trace that was written, each once, and no span of another trace.", "quantifier": "for every table, every columns, every trace id", "why_tests_cant": "Tests read traces with a handful of spans that all have ids of their own; spans with equal tags do not occur.", "anchors": ["main/src/http/http_service.rs:1985-2058", "main/src/http/http_service.rs:1735-1760", "main/src/opentelemetry/otlp_to_jaeger.rs:264-298"]}
{"id": "C183", "title": "A span that is read through the Jaeger API is the span that was sent", "statement": "A span that was sent with OTLP and is read through the Jaeger API has the ids, name, kind, flags, start, duration, attributes, events and links that were sent, and nothing else.", "quantifier": "for every request, every span in it and every set of columns of the table", "why_tests_cant": "Tests use few spans with the same events; columns of other spans and more than ten events do not occur.", "anchors": ["main/src/opentelemetry/otlp_to_jaeger.rs:334-701", "common/protocol_parser/src/json_protocol/parser.rs:216-500", "common/protocol_parser/src/lines_convert.rs:197-207"]}
{"id": "C184", "title": "A search gives the spans that meet it, each in its trace and with its process", "statement": "A search for traces gives the spans of all rows that meet its conditions and no others, grouped by trace id, and the process id of each span leads to the process of that span.", "quantifier": "for every table and every search", "why_tests_cant": "Tests look at traces of one service, where all processes are equal.", "anchors": ["main/src/http/http_service.rs:1877-1950", "main/src/opentelemetry/jaeger_model.rs:31-130"]}
{"id": "C185", "title": "The conditions of a search for traces are those that are written", "statement": "Durations, attributes and times of a search for traces mean what is written, or the search is refused; they never stand for other conditions.", "quantifier": "for every text of a duration, every list of attributes, every time", "why_tests_cant": "Tests use small durations and attributes without colons or commas.", "anchors": ["main/src/opentelemetry/otlp_to_jaeger.rs:146-262", "main/src/opentelemetry/otlp_to_jaeger.rs:703-875"]}
{"id": "C186", "title": "A replica command that succeeds leaves a group whose voters are the listed replicas", "statement": "After REPLICA ADD, REMOVE or PROMOTE answers that it succeeded, the voters of the raft group are exactly the replicas that the meta service lists for the set; the added node has one of them, the removed vnode is none of them and does not run any more.", "quantifier": "for every group, node and vnode, every way in which the attempts of the command can fail, lose answers or be redirected, and every set of nodes that answer", "why_tests_cant": "A test runs one command on a healthy cluster. That the voters differ from the listing shows only when two commands read the listing at the same time, or when the second half of PROMOTE fails and the request is tried at another replica.", "anchors": ["coordinator/src/raft/manager.rs:323-565", "coordinator/src/service.rs:451-475", "coordinator/src/service.rs:888-971", "coordinator/src/tskv_executor.rs:72-150", "meta/src/store/storage.rs:885-931"]}
{"id": "C187", "title": "Replica commands never cost acknowledged writes", "statement": "Whatever replica commands a group sees, and wherever they fail, every write that was acknowledged is held by a majority of the group's voters.", "quantifier": "for every sequence of writes, elections and REPLICA ADD, REMOVE and PROMOTE commands, every failure or lost answer at every step, and every choice of who takes part", "why_tests_cant": "The loss needs a certain order of failures: a removal that does not reach the listing, an addition by a node that does not know of it, and another removal. No test arranges them.", "anchors": ["coordinator/src/raft/manager.rs:168-213", "coordinator/src/raft/manager.rs:323-565", "replication/src/multi_raft.rs:58-69", "replication/src/raft_node.rs:160-171"]}
{"id": "C188", "title": "A replica command that failed can be repeated", "statement": "When a replica command fails, giving it again once everything works has the effect that the first one should have had, and until then the group takes writes as before.", "quantifier": "for every group, every step at which a command can fail, and every later command", "why_tests_cant": "A test that lets a command fail at one chosen step and then repeats it exists for no step; the steps are at different nodes and in the meta service.", "anchors": ["coordinator/src/raft/manager.rs:168-195", "coordinator/src/raft/manager.rs:323-518", "coordinator/src/tskv_executor.rs:72-150", "meta/src/model/meta_tenant.rs:821-850"]}
{"id": "C189", "title": "A node has one replica of a set, and a set has a leader among its replicas", "statement": "The listing of a replication set never has two replicas on one node or with one number, it is never empty, and the recorded leader is one of the listed replicas, on its node.", "quantifier": "for every sequence of commands, writes and elections, and every failure at every step", "why_tests_cant": "The listing is changed by different nodes in several steps; a test sees the listing after commands that all succeeded.", "anchors": ["meta/src/store/storage.rs:885-955", "coordinator/src/service.rs:893-936", "coordinator/src/raft/manager.rs:459-565"]}
{"id": "C190", "title": "The catalogue shows a user exactly the databases, tables and columns they may read", "statement": "The tables DATABASES, TABLES and COLUMNS of information_schema have a row for exactly those databases that the user may read and that are not dropped, for the tables of these, and for their columns, each at its position.", "quantifier": "for every user with any set of privileges, every tenant with any databases, tables and columns", "why_tests_cant": "Tests look at the catalogue as root, who may read everything, of two or three tables.", "anchors": ["query_server/query/src/metadata/information_schema_provider/factory/databases.rs:70-123", "query_server/query/src/metadata/information_schema_provider/factory/tables.rs:69-123", "query_server/query/src/metadata/information_schema_provider/factory/columns.rs:74-201", "common/models/src/auth/user.rs:50-73"]}
{"id": "C191", "title": "SHOW and DESCRIBE answer what the user may see and nothing else", "statement": "SHOW DATABASES, SHOW TABLES, DESCRIBE DATABASE and DESCRIBE TABLE answer a user with exactly the objects that they may read, and their answers do not depend on objects that the user may not read.", "quantifier": "for every user, every state of the metadata and every statement", "why_tests_cant": "That an answer does not depend on something compares two runs in different states; a test makes one.", "anchors": ["query_server/query/src/sql/planner.rs:993-1088", "query_server/query/src/sql/planner.rs:1242-1312", "query_server/query/src/sql/planner.rs:136-156", "query_server/query/src/metadata/mod.rs:176-305"]}
{"id": "C192", "title": "System tables show nothing that a user may not see", "statement": "The answer to a query of any system table is the same in any two states of the metadata that differ only in what the user may not see: databases they may not read, roles of others if they do not administer roles, users and tenants if they are no administrator, and the passwords of all users.", "quantifier": "for every user, every pair of states of the metadata that look the same to the user, and every system table", "why_tests_cant": "It compares two states, for every user and every table; tests look at single answers, mostly of root.", "anchors": ["query_server/query/src/metadata/information_schema_provider/factory/database_privileges.rs:78-149", "query_server/query/src/metadata/information_schema_provider/factory/roles.rs:73-110", "query_server/query/src/metadata/information_schema_provider/factory/resource_status.rs:72-124", "query_server/query/src/metadata/cluster_schema_provider/factory/users.rs:58-91", "query_server/query/src/metadata/cluster_schema_provider/factory/tenants.rs:59-91", "common/models/src/auth/user.rs:181-183"]}
{"id": "C193", "title": "A tenant sees the usage of its own only, under the names of the measures", "statement": "A query of a measure of usage_schema in a tenant other than the system tenant answers exactly the rows recorded for this tenant, and the names of system tables can be written in upper or lower case.", "quantifier": "for every tenant, user, measure and recorded usage", "why_tests_cant": "A test records the usage of one tenant and writes the names as they are registered.", "anchors": ["query_server/query/src/metadata/usage_schema_provider/mod.rs:22-132", "query_server/query/src/metadata/mod.rs:126-174"]}
{"id": "C194", "title": "A CSV or TSV answer can be read back, whatever the texts are", "statement": "A reader of a CSV or TSV answer finds the names of the columns and then all rows of the result in their order, each with all its fields and the texts of its values, even if names and values have separators, quotes or line ends in them; chunked or not.", "quantifier": "for every list of column names, every result in any batches, with any texts as values", "why_tests_cant": "Quoting goes wrong for a few texts among all, and the answer is then still a plausible table.", "anchors": ["main/src/http/result_format.rs:38-94", "main/src/http/response.rs:156-300", "query_server/spi/src/query/execution.rs:84-126"]}
{"id": "C195", "title": "An answer is the same whether it is chunked or not and however the result is spread over batches", "statement": "The body that a client puts together from a chunked answer is the body of the answer that is not chunked, and neither depends on how the rows of the result are spread over batches.", "quantifier": "for every format, every result, every way to spread it over batches", "why_tests_cant": "Results of tests fit into one batch; the number of batches depends on sizes, threads and vnodes.", "anchors": ["main/src/http/http_service.rs:2900-2962", "main/src/http/response.rs:156-300", "main/src/http/result_format.rs:77-122"]}
{"id": "C196", "title": "A JSON answer is one JSON text with the rows of the result", "statement": "The body of an answer in format JSON is the array of the objects of all rows, and in format nd-JSON it is the object of one row on each line.", "quantifier": "for every result in any batches, chunked or not", "why_tests_cant": "The empty result and a result in several chunks look like the others until a client reads them.", "anchors": ["main/src/http/result_format.rs:20-36", "main/src/http/result_format.rs:77-94", "main/src/http/response.rs:175-255"]}
{"id": "C197", "title": "A client can tell a failed or limited answer from a complete one", "statement": "If a query fails while its result is read, the client is told so and does not take the answer for a complete one, the message of the error is read back, and no answer sends more data than the limit of the tenant leaves.", "quantifier": "for every result with an error at any place, every limit, chunked or not", "why_tests_cant": "The error has to come after the first batch, which takes a broken file or a node that dies during the query.", "anchors": ["main/src/http/response.rs:156-300", "main/src/http/result_format.rs:96-122", "common/http_protocol/src/response.rs:30-38", "main/src/http/http_service.rs:2923-2962", "meta/src/limiter/local_request_limiter.rs:231-240"]}
{"id": "C198", "title": "A client gets the format and the encoding that it asks for", "statement": "The format of an answer is the one that the client asks for by its content type, and its encoding is the first one of the client's list that the server knows; a request is refused for its encodings only if the server knows none of them.", "quantifier": "for every value of the headers Accept and Accept-Encoding", "why_tests_cant": "The values of these headers are texts that clients make up in many ways; tests use the plain names.", "anchors": ["main/src/http/result_format.rs:66-75", "main/src/http/result_format.rs:124-166", "main/src/http/encoding.rs:9-37", "common/http_protocol/src/encoding.rs:19-48", "common/http_protocol/src/header.rs:1-40"]}
{"id": "C199", "title": "The credentials that a user sends are those that the server checks", "statement": "The server takes from the header of a request exactly the user name, the password and the private key that the client was given, no other header stands for them, and different credentials make different headers.", "quantifier": "for every user name, password and private key as bytes, and every header", "why_tests_cant": "A round trip over all byte strings and its converse; tests log in with short names.", "anchors": ["main/src/http/header.rs:85-132", "common/models/src/auth/user.rs:285-299", "client/src/ctx.rs:300-325"]}
{"id": "C200", "title": "The rows of an answer with ORDER BY are in this order", "statement": "What a plan node promises about the order of its rows holds, so that a sort that the planner leaves out is not missed: the rows of an answer with ORDER BY are in this order, none is lost and none is added.", "quantifier": "for every plan of scans, sorts, filters, limits, expansions, assertions and watermarks, with any rows in any batches", "why_tests_cant": "The promise of a node is used only if a sort stands above and below it, and a small result may be in order by chance.", "anchors": ["query_server/query/src/extension/physical/plan_node/expand.rs:40-175", "query_server/query/src/extension/physical/plan_node/expand.rs:303-355", "query_server/query/src/extension/physical/plan_node/tskv_exec.rs:86-88", "query_server/query/src/extension/physical/plan_node/assert/mod.rs:76-83", "query_server/query/src/extension/physical/plan_node/watermark.rs:109-116", "query_server/query/src/extension/physical/plan_node/traced_proxy.rs:60-62", "query_server/query/src/extension/analyse/transform_time_window.rs:327-386"]}
{"id": "C201", "title": "A scan with LIMIT gives the first rows it reads, as many as asked for if there are so many", "statement": "A scan with a limit gives a prefix of its rows: exactly as many as the limit says, or all if there are fewer; asking at several levels is asking once; over several partitions no row is missing that the limit leaves room for; and what is behind the limit does not matter.", "quantifier": "for every limit, every list of batches, any number of partitions", "why_tests_cant": "The limit falls on, before or behind the end of a batch, and batches may be empty.", "anchors": ["common/models/src/datafusion/limit_record_batch.rs:3-19", "query_server/query/src/extension/physical/plan_node/tskv_exec.rs:320-346", "tskv/src/reader/series.rs:160", "tskv/src/reader/paralle_merge.rs:88"]}
{"id": "C73", "title": "A data node that is upgraded keeps the files of its vnodes", "statement": "When the manifest that older versions shared among all vnodes is split into one manifest per vnode, each vnode opens with the version that its edits in the shared manifest make (same files, levels, flushed-up-to mark, no file number given twice); removed vnodes do not come back; a crash during the split does no harm.", "quantifier": "for every shared manifest, every vnode in it, every crash between writes of the split and the removal of the shared manifest", "why_tests_cant": "The upgrade is done once per node, with a manifest that old versions have written over years.", "anchors": ["tskv/src/version_set.rs:75-138", "tskv/src/kvcore.rs:58-64", "tskv/src/tsfamily/summary.rs:54-130"]}
{"id": "C202", "title": "A data node keeps databases of different tenants apart", "statement": "A vnode works with the schemas of the tenant and database for which it was opened: a write makes or changes tables of this database and of no other, and the owner of a vnode names its tenant and database.", "quantifier": "for every history of opening, writing, removing, dropping and restarting, for any accepted names", "why_tests_cant": "It goes wrong only for two names that the owner text cannot tell apart.", "anchors": ["tskv/src/kvcore.rs:141-232", "tskv/src/version_set.rs:31-54", "tskv/src/database.rs:56-78", "tskv/src/database.rs:198-247", "tskv/src/schema/schemas.rs:17-64", "common/models/src/schema/database_schema.rs:92-106", "query_server/query/src/sql/parser.rs:2180-2202", "coordinator/src/raft/manager.rs:617-667"]}
{"id": "C203", "title": "A database has the settings that it was created with", "statement": "The settings by which a data node treats writes to a database (strict_write, size of write buffers) are those that the metadata has for it: with strict_write points for unknown tables are refused, without it they are taken.", "quantifier": "for every history of creating, dropping, opening, writing and restarting", "why_tests_cant": "The settings differ only after a database was dropped and made again while a data node kept running.", "anchors": ["tskv/src/kvcore.rs:141-170", "tskv/src/version_set.rs:31-54", "tskv/src/database.rs:56-78", "tskv/src/database.rs:198-233"]}
{"id": "C204", "title": "What is stored for a vnode is what was written to it, until it is removed", "statement": "Opening, restarting, dropping databases and removing other vnodes change nothing of what is stored for a vnode; a vnode that is removed leaves nothing behind; directories of vnodes are different and none is inside another.", "quantifier": "for every history on a node, any number of vnodes, any accepted names", "why_tests_cant": "Histories of several vnodes that are opened and removed around restarts.", "anchors": ["tskv/src/kvcore.rs:175-232", "tskv/src/database.rs:188-197", "tskv/src/kv_option.rs:69-87", "coordinator/src/raft/mod.rs:264-275"]}
{"id": "C205", "title": "A tenant has no more databases than its limit", "statement": "With max_databases set, a tenant never has more databases than that, and CREATE DATABASE of a new name is refused for a limit exactly if the limit is reached or an option is above its limit.", "quantifier": "for every limit, any number of nodes, every order of statements and of messages to nodes", "why_tests_cant": "It needs statements on several nodes between the change and its arrival.", "anchors": ["meta/src/model/meta_tenant.rs:84-144", "meta/src/model/meta_tenant.rs:371-396", "meta/src/store/storage.rs:1038-1055", "query_server/query/src/execution/ddl/create_database.rs:22-67"]}
{"id": "C206", "title": "Databases keep within the limits of their tenant", "statement": "Each database of a tenant has no more replicas and shards and no longer retention than the limits of the tenant allow.", "quantifier": "for every limit, every history of CREATE, ALTER and DROP DATABASE", "why_tests_cant": "Each statement has to be tried with each limit, after each other statement.", "anchors": ["meta/src/model/meta_tenant.rs:104-144", "meta/src/model/meta_tenant.rs:398-408", "common/utils/src/duration.rs:29-81", "query_server/query/src/execution/ddl/alter_database.rs:22-53"]}
{"id": "C207", "title": "A tenant has no more members than its limit", "statement": "With max_users_number set, a tenant never has more members than that.", "quantifier": "for every limit, every number of nodes, every order of statements and messages", "why_tests_cant": "It needs statements that come faster than the changes arrive.", "anchors": ["meta/src/model/meta_tenant.rs:146-190", "meta/src/store/storage.rs:1450-1515"]}
{"id": "C208", "title": "Changed limits on objects are the limits that are used", "statement": "After ALTER TENANT the limits on objects are those of the statement, for kinds that it does not name those from before; every node uses them once it has heard of the change.", "quantifier": "for every statement, every node, every later history", "why_tests_cant": "The node that gets the statement does it right, others have to be asked.", "anchors": ["meta/src/model/meta_admin.rs:624-760", "meta/src/model/meta_tenant.rs:44-82", "meta/src/model/meta_tenant.rs:856-950"]}
{"id": "C209", "title": "A node that has heard of a change of a member acts on it", "statement": "Once a node has heard of all changes of a member, it takes the member for what is stored: with the role that was last given, and for no member if they were removed.", "quantifier": "for every history, every interleaving of changes with questions to the meta store and their answers", "why_tests_cant": "The answer to a question must be under way when the change arrives.", "anchors": ["meta/src/model/meta_tenant.rs:192-251", "meta/src/model/meta_tenant.rs:856-950"]}
{"id": "C210", "title": "CREATE DATABASE IF NOT EXISTS succeeds if the database is there", "statement": "The statement answers success and changes nothing if there is a database of the name.", "quantifier": "for all metadata, limits, options", "why_tests_cant": "It has to be tried when the limit is reached.", "anchors": ["query_server/query/src/execution/ddl/create_database.rs:22-67", "meta/src/model/meta_tenant.rs:84-100", "meta/src/store/storage.rs:1038-1055"]}
{"id": "C211", "title": "A file has what was written to it", "statement": "Writing to a file through the buffered writer (write, write of several pieces, flush, seek, truncate) and flushing leaves in the file what the same operations leave in a plain file, for every size of the buffer and however the operating system cuts or interrupts writes; the length that the writer tells is that of the file.", "quantifier": "all contents, sizes of the buffer, sequences of operations and outcomes of system calls without an error", "why_tests_cant": "short and interrupted writes do not happen on test machines; whether bytes are mixed up depends on how operations meet the edge of the buffer", "anchors": ["tskv/src/file_system/file/stream_writer.rs:53-134", "tskv/src/file_system/file/async_file.rs:16-46", "tskv/src/file_system/file/raw_file.rs:50-77"]}
{"id": "C212", "title": "A flush that succeeds has stored everything", "statement": "If a flush answers success, every byte that was accepted before is in the file, also if system calls failed in between; what was in the file before is not changed by appending.", "quantifier": "all files, sequences of appends and failures of system calls", "why_tests_cant": "tests do not make single system calls fail", "anchors": ["tskv/src/file_system/file/stream_writer.rs:67-102", "tskv/src/file_system/file/raw_file.rs:50-77", "tskv/src/file_system/file/async_file.rs:18-22"]}
{"id": "C213", "title": "The log finds its records where it wrote them", "statement": "The position that the write-ahead log remembers for an entry of raft is that at which its record lies in the file, also after an append, a synchronisation or a truncation failed.", "quantifier": "all sequences of records and outcomes of system calls, with and without wal_sync", "why_tests_cant": "positions go wrong only after a failed system call, and show only when the entry is read again", "anchors": ["tskv/src/wal/writer.rs:22-95", "tskv/src/wal/mod.rs:178-191", "tskv/src/file_system/file/stream_writer.rs:67-130"]}
{"id": "C214", "title": "A file is found by its number", "statement": "The number that is read from the name of a log, data file or manifest is the one that the name was made of; different numbers and kinds give different names; other names are not taken for such files.", "quantifier": "all numbers of 64 bits, all names", "why_tests_cant": "numbers of a million and more are not reached in tests", "anchors": ["tskv/src/file_utils.rs:10-163"]}
{"id": "C215", "title": "After a start the newest log is continued and all logs are read in order", "statement": "After a start, writing continues in the log with the greatest number in the directory, and recovery reads every log of the directory once, older ones first.", "quantifier": "all directories", "why_tests_cant": "depends on the names of files and on how many logs there have been", "anchors": ["tskv/src/file_utils.rs:178-281", "tskv/src/wal/mod.rs:120-134", "tskv/src/wal/wal_store.rs:429-446", "tskv/src/file_system/async_filesystem.rs:100-124"]}
{"id": "C216", "title": "The log of a meta server keeps the entries it was given", "statement": "An entry of the Raft log of a meta server is read under its index until it is replaced, truncated or purged; a range gives exactly the entries with these indexes in order; the last entry is that with the greatest index; and the log answers as that of a data node, which is kept in another way.", "quantifier": "all histories of appends, truncations, purges and stops, all ranges and indexes", "why_tests_cant": "the store of the log is tested with single calls, not with histories, and never against the other implementation of the same interface", "anchors": ["replication/src/entry_store.rs:57-152", "replication/src/node_store.rs:384-445", "replication/src/node_store.rs:186-216"]}
{"id": "C217", "title": "The log of a meta server has no holes", "statement": "After every start of a meta server, nothing is missing between what is purged and the last log id, nothing lies behind the last log id, and what is purged does not go beyond it.", "quantifier": "all histories that the Raft library may ask for, with stops between any two transactions", "why_tests_cant": "the states between two transactions are seen only if a server stops there", "anchors": ["replication/src/node_store.rs:330-356", "replication/src/node_store.rs:384-445", "replication/src/entry_store.rs:57-136"]}
{"id": "C218", "title": "A meta server carries out every committed command once", "statement": "The data of a meta server has seen exactly the commands of the committed entries up to the one that it has noted as applied last, each once and in order, also if the server has stopped in between.", "quantifier": "all sequences of committed entries and all histories with stops between any two transactions", "why_tests_cant": "the moment between noting an entry and carrying it out is too short for tests to hit", "anchors": ["replication/src/node_store.rs:472-525", "meta/src/store/storage.rs:62-74", "meta/src/service/server.rs:43-45", "replication/src/state_store.rs:245-255"]}
{"id": "C219", "title": "A cached reader says what its file says", "statement": "The reader that a query, DELETE or compaction is given for a data file knows all tombstones of the file and its series as last updated, whatever was read, deleted, updated, removed or evicted from the cache of readers before.", "quantifier": "all histories of reads, deletes, updates of tags, removals, new files and changes of capacity, all hashes and capacities", "why_tests_cant": "a reader is stale only if a change falls between opening the file and keeping the reader", "anchors": ["tskv/src/tsfamily/version.rs:158-173, 206-209", "tskv/src/tsfamily/super_version.rs:114-130", "tskv/src/tsfamily/tseries_family.rs:249-267", "common/cache/src/sharded_async_cache.rs:50-110"]}
{"id": "C220", "title": "The cache of readers keeps to its capacity and keeps the readers used last", "statement": "A vnode keeps at most as many readers of data files as configured, and a reader leaves the cache only after as many uses of other files as its shard has room for.", "quantifier": "all histories, capacities, hashes and sequences of uses", "why_tests_cant": "tests of the cache fill it once and do not look at the shards", "anchors": ["common/cache/src/lib.rs:24-41", "common/cache/src/lru_cache/mod.rs:35-69", "common/cache/src/sharded_async_cache.rs:26-110", "tskv/src/database.rs:101-103"]}
