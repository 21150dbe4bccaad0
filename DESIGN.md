# Formal model of CnosDB storage semantics — design

## What is here

* `properties.jsonl` — the properties, in English, one per line.
* `lean/Verif/<Area>/` — model, specification and proofs of one area of the code. Definitions that model code carry the file and the
  lines they were taken from; specifications are small and do not use the model's helpers.
* Theorems named `Cxx_...` belong to property `Cxx`. An `example` beside them shows a concrete case that meets their hypotheses.
* `MANIFEST.json` — property → theorem names and status.
* `seeded/LOG.jsonl` — edits made to scratch copies of the model, to see that the theorems notice bugs. `caught` means that, after the edit, the proof of a theorem of a property (or of a lemma it needs) no longer compiled. That is evidence that the theorem depends on the edited place; it is not a proof that its statement became false, and most lines were judged by the failing build alone. Edits in parentheses were expected to break no claim (`expected_harmless`); they are not counted as caught, even where a proof script stopped compiling. `theorems_tightened` names theorems that notice the edit in a later run after it had first gone unnoticed; most of them were added for it. Lines with `caught: false` that are not harmless are known gaps.

## Conventions

* Machine words are `BitVec`/wrapping where wrapping matters, and `Int`/`Nat` with an explicit range hypothesis where it does not.
  Release builds of the code wrap (`overflow-checks = false`), so arithmetic wraps unless said otherwise.
* Panics and `Err` are explicit values (`Option`/`Except`); `&mut self` becomes a returned new state.
* A property that is *false of the code* is not weakened silently: the negation is proved for a concrete witness
  (`Cxx_..._refuted`), and the largest part found to be true is proved as `Cxx_..._partial`.
* A property is `proved` in the manifest when its statement holds as written (possibly with the condition named in its statement),
  `partial` when a case is missing or refuted.
* Asynchronous code is modelled as an interleaving of atomic steps, at the granularity of the locks the code holds.

## Which code is modelled

| area (`lean/Verif/…`) | code | left out |
|---|---|---|
| `Codec` | `tskv/src/tsm/codec/{integer,unsigned,timestamp,simple8b,boolean,string,float}.rs`: encoders and decoders, with and without the null bitset | buffer sizing; the compressors themselves (parameters with a round-trip law); zigzag and varint crates are written out |
| `Page`, `Common/Crc32` | `tskv/src/tsm/page.rs`, `tsm/reader.rs` (pages), `tsm/codec/mod.rs`, `instance.rs`: page layout, null bitmaps, checksum check, choice of the codec when writing and reading | memory layout of arrow arrays; crate `crc32fast` computes CRC-32, `pco` is lossless |
| `Stats` | `tskv/src/reader/{chunk,utils,filter}.rs`, `reader/column_group/{mod,statistics}.rs`, statistics in `page.rs` and `column_data_ref.rs`: skipping of column groups, rewriting of filters for files without some columns, pages read in batches | casts and negations inside pruned comparisons (kept as unknown); type coercion by the planner |
| `Time` | `common/models/src/predicate/domain.rs`: `TimeRange`, `TimeRanges`, `QueriedTimeBounds`-style conversions | — |
| `Predicate` | `domain.rs`: `Marker`, `Range`, `RangeValueSet`, `Domain`; `transformation.rs`: the visitor with its stack; `delete_from_table.rs`: the conditions of DELETE | values are integers, booleans or strings; other expression kinds are "unsupported" |
| `Tomb` | `tskv/src/tsm/tombstone.rs`: file format V1/V2, cache, compaction of the file; `tsm/reader.rs`: what deletion does to the rows of a column group | locks, I/O errors |
| `Wal` | `tskv/src/record_file/*`, `tskv/src/wal/{mod,writer,reader,wal_store}.rs`, `common/cache/src/circular_kvcache.rs` | I/O errors other than a torn file; openraft; the bincode format of requests (parameter with a round-trip law) |
| `Mem` | `tskv/src/mem_cache/{memcache,series_data,row_data}.rs`, deletes in `tskv/src/database.rs` | memory accounting, sequence numbers (see `Flush`), locks |
| `Flush` | `tskv/src/compaction/{job,flush}.rs`, `tseries_family.rs`: switching buffers, flush jobs, manifest appends, the flushed-up-to mark | contents of the files (see `Mem`, C70) |
| `Version` | `tskv/src/{summary,tsfamily/version,tsfamily/level_info,tsfamily/column_file}.rs`: version edits, their byte format, recovery, rewriting, `version_set.rs:75-138` (split of a shared manifest) | bloom filters, reader caches |
| `Reader` | `tskv/src/reader/{sort_merge,batch_builder,partitioned_stream,iterator,utils,filter}.rs`: loser tree merge, grouping of sources, filters; file ids from flush and compaction (`Latest`) | limits, aggregation push-down (tags and columns: see `Align`) |
| `Align` | `tskv/src/reader/{column_group/mod,schema_alignmenter,series,memcache_reader,filter,utils,iterator}.rs`: projection of column groups by id, combining of streams, filters by name, alignment, tags; with the changes of `Schema` and the compaction of `Compact` | merging of overlapping sources (see `Reader`), limits, tombstones, casts of types |
| `Write` | `common/protocol_parser/src/lines_convert.rs`, `common/models/src/{mutable_batch,series_info,tag}.rs`, `tskv/src/database.rs` (write groups), `tskv/src/mem_cache/row_data.rs`, `tskv/src/vnode_store.rs` (write, replay): lines to columns to rows, with the schemas of `Schema` | flatbuffer encoding, INSERT of record batches, series ids (see `Index`), memory limits |
| `Pick` | `tskv/src/compaction/picker.rs`, `compaction/mod.rs` (requests), `compact.rs:507-606` (delta and level jobs), `writer_wrapper.rs:51-84`, `tsfamily/summary.rs:134-195` and `version.rs` (installing), on the files of `Compact` | file errors, scores as floats (tenths instead), splitting of the output into several files, locks of the pickers |
| `Compact` | `tskv/src/compaction/compact.rs`, `compaction/metrics`-free parts of `comapcting_block_meta_group.rs`, `compacting_block_meta.rs`, `tsm/chunk.rs` push; `Columns*`: the columns of the batches merged, the version of the output file | choosing the files (pickers), footers, names and types of columns |
| `Index` | `tskv/src/index/{ts_index,cache,engine2}.rs`, `series_info.rs` keys | LMDB's key size limit and failures; roaring bitmaps are sets |
| `Meta` | `common/models/src/meta_data.rs`, `meta/src/store/storage.rs` (buckets, replica sets), `common/models/src/auth/*`, `auth_cache.rs` | raft; HTTP |
| `Watch` | `meta/src/store/{key_path,command,storage}.rs` (keys, the log of changes, reading a tenant, 28 commands), `meta/src/service/http.rs` `process_watch`, `meta/src/model/{meta_admin,meta_tenant}.rs` (watching, caches of tenants and users) | values are typed instead of JSON text; query and resource infos; global caches other than users; the changes that a node makes to its own cache when it issues a command; hash maps are listed in the order of the model's map, the order of data nodes is a parameter |
| `Replica` | `tskv/src/vnode_store.rs` (apply, snapshots), `database.rs` (deletes, changes of tags), `index/ts_index.rs` (disk and memory), `tsfamily/tseries_family.rs` (caches, reopening), `compaction/{job,flush}.rs`, `wal/wal_store.rs` `recover`, `coordinator/src/raft/mod.rs`: one replica of a vnode with index, caches, files, tombstones and log, through crashes | a row is one value; series keys are numbers; bytes of files (see `Tsm`, `Wal`, `Version`); the log itself does not lose entries; compaction merges all files of level 0 |
| `Raft` | `replication/src/{state_store,node_store}.rs` (keys, memberships, snapshots' data about themselves, votes, appending, applying), `wal_store.rs` `recover` and `manager.rs` `open_vnode_storage` seen from the group: the replicas of one set | openraft itself is written out from its documentation as an asynchronous message-passing system (terms, votes, quorums, log matching, committing); fixed set of replicas, no snapshots in the message model; disks keep what was written; JSON |
| `Cluster` | `coordinator/src/service.rs` (`write_lines`, `write_record_batch`, `delete_from_table`, `prune_shards`, `table_vnodes`), `meta/src/model/meta_tenant.rs` `locate_replication_set_for_write`, `coordinator/src/tskv_executor.rs`, `coordinator/src/reader/mod.rs`: a database as one table over buckets, sets and replicas | a set is its log of commands (`Raft`, `Replica` say why); routing of one request is one step; one database; limiters; the condition of a DELETE is a function of the series (C56); the catalogue is read as stored (C109) |
| `Plan` | `query_server/query/src/sql/planner.rs` (which rights each statement needs; names of tables), `metadata/mod.rs`, `spi/src/query/logical_planner.rs` (options), `execution/ddl/*.rs` and `meta/src/store/storage.rs` (users, tenants, members, roles, databases), `main/src/http/http_service.rs` and `main/src/flight_sql/auth_middleware` (which requests ask for which rights) | everything of a statement that decides neither about rights nor about what is touched; columns and expressions; subqueries of DELETE; the rows of `information_schema`, `cluster_schema` and `usage_schema`; the tasks that drop databases and tenants later; metadata are read from the store (C107-C110 say how copies lag behind) |
| `Utils` | `common/{utils/src/bloom_filter.rs, utils/src/precision.rs, limiter/src/rate_bucket.rs, memory_pool}`, series hash and routing | hash functions are parameters |
| `Line` | `common/protocol_parser/src/line_protocol/parser.rs` | conversion to flatbuffers |
| `Window` | `query_server/query/src/extension/analyse/transform_time_window.rs`, `extension/expr/window/time_window.rs`: the windows that `time_window` gives each row | the plan nodes of DataFusion that carry this out |
| `Agg` | `query_server/query/src/extension/expr/aggregate_function/{first,last,mode,sample,increase}.rs`, `gauge/`, `state_agg/`, `scalar_function/{state_at,duration_in}.rs`: accumulators over every cut of the rows into batches and partitions | overflow and float rounding of sums; data quality functions |
| `Tsm` | `tskv/src/tsm/{writer,reader,chunk,chunk_group,column_group,footer,page}.rs`: the whole data file (format in bincode, writer, raw copies, `finish`, `open`, reading pages, changing tag values in place), `column_file.rs` `update_tag_value` | I/O errors, `statistics` (unused), decoding of pages into record batches (`Page`), tombstones (`Tomb`) |
| `Schema` | `common/models/src/schema/tskv_table_schema.rs` (columns, name map, add/drop/change), `tskv/src/schema/schemas.rs` (schemaless writes: check and extend), `meta/src/store/storage.rs` create/update/drop table, watch notifications to the caches, `planner.rs`/`alter_table.rs` CREATE TABLE, ADD, DROP, RENAME with the checks of the planner | encodings of columns, external tables, errors of the meta connection; ALTER COLUMN (encoding) |
| `Count` | `tskv/src/reader/pushdown_agg_reader.rs`, the rule `push_down_aggregation.rs` and `supports_aggregate_pushdown` with its argument (`tskv.rs:143-195, 373-425`) | overflow of the sum; grouping and filters (never pushed down); plans other than scan, or projection over scan |
| `Ingest` | `main/src/tcp/tcp_service.rs` (OpenTSDB over TCP), `common/protocol_parser/src/open_tsdb/parser.rs`, `common/protocol_parser/src/lib.rs` (metric, value, tag set), `common/protocol_parser/src/json_protocol/parser.rs` (JSON lines, ES bulk, Loki, OpenTelemetry; records to lines), `query_server/query/src/prom/` (remote write and read: lines, tables, the SQL text, series of the answer) | OpenTSDB JSON (serde), protobuf and snappy, floating point numbers (a parameter), regular expressions (a parameter), JSON parsing by serde, non-ASCII text in the OpenTSDB parsers |
| `Stream` | `query_server/query/src/execution/stream/mod.rs`, `stream/{offset_tracker/mod,watermark_tracker,state_store/memory}.rs`, `data_source/stream/tskv/provider.rs`, `extension/physical/plan_node/{watermark,state_save,state_restore}.rs`, `optimizer_rule/add_state_store.rs`: runs of stream queries, offsets, watermark, states, restarts | plans and their execution by DataFusion (an aggregate is a function of the values of a group); timing of the trigger; one state store for all partitions |
| `Insert` | `query_server/query/src/extension/logical/logical_plan_builder.rs`, `data_source/{mod,sink/tskv}.rs`, `extension/physical/plan_node/table_writer.rs`, `coordinator/src/service.rs` (`write_record_batch`), `common/protocol_parser/src/lines_convert.rs` (`arrow_array_to_points`), `sql/planner.rs` and `extension/analyse/transform_update.rs` (UPDATE of fields): from the rows of the source to the rows in the buffer | plans of DataFusion and its casts (a parameter); sources of several partitions; UPDATE of tags |
| `Rules` | `query_server/query/src/data_source/batch/filter_expr_rewriter.rs`, `data_source/batch/tskv.rs` (`scan`, `supports_filter_pushdown`), `extension/expr/expr_utils.rs`, `extension/analyse/transform_{count_gen_time_col,exact_count_to_count,topk_func_to_topk_node,bottom_func_to_topk_node}.rs`: filters given to the scan, rules for `count`, `exact_count`, `topk`, `bottom` | DataFusion: its simplifier is a parameter, `rewrite` goes from the leaves up, `with_new_inputs` takes the inputs it is given, columns of a scan are chosen again; which select lists `topk` accepts |
| `Repair` | `query_server/query/src/extension/expr/ts_gen_func/data_repair/{value_fill,timestamp_repair,value_repair}.rs`, `extension/physical/plan_node/ts_gen_func/stream.rs` (columns), `extension/utils.rs` (numbers), `extension/expr/aggregate_function/data_quality/{accumulator,common}.rs`: `value_fill`, `timestamp_repair`, `value_repair` with `screen`, scores of data quality | numbers are exact rationals, not doubles, except where integers become doubles; times do not wrap; parsing of arguments; methods `cluster` and `lsgreedy`; rows come sorted |
| `Dump` | `meta/src/store/dump.rs`, `common/models/src/sql/mod.rs`, `common/utils/src/duration.rs`, `client/src/exec.rs` (`exec_from_lines`), the parts of `sql/parser.rs`, `sql/planner.rs`, `logical_planner.rs` and `meta/src/store/storage.rs` that dumped statements reach: printing, lexing, parsing and executing the statements of a dump | external and stream tables; letters and white space are ASCII; sizes are printed and read by functions of the environment; ids are left out; members are kept by user name |
| `Limit` | `meta/src/limiter/*.rs`, `common/limiter_bucket/src/{count_bucket,rate_bucket}.rs`, `meta/src/store/storage.rs:543-554, 1323-1448, 1617-1650`, `meta/src/model/meta_admin.rs:367-411, 627-645, 699-830`, `logical_planner.rs:377-460`: buckets of nodes and of the meta server, changes of their settings | `object_config`; a check is one step (the code holds the lock of the bucket); one cluster; hiding of tenants |
| `Tasks` | DROP and RECOVER of tenants and databases, DROP TABLE: statements, records of tasks, the mark, the watch, sleeping, failed and taken-over tasks (`coordinator/src/resource_manager.rs`, `dispatcher/manager.rs`, `meta/src/store/storage.rs`, `meta_admin.rs`) | data of vnodes, tasks of columns and tags, staleness of cached meta data, steps inside of one event |
| `Retag` | UPDATE of tags over all replication sets: what it reads, the dry run, the task, the change of keys in each set, retries (`transform_update.rs`, `plan_node/update_tag.rs`, `coordinator/src/service.rs:1042-1176`, `tskv/src/index/ts_index.rs:327-391`) | inside of the index (see `Index`) and of the files (see `Tsm`), changes of the table, the planner of DataFusion (rows or series: both covered) |
| `Leader` | how a node sends commands to the meta service: attempts, redirects, the search in the list of addresses, reads from any server (`meta/src/client.rs`, `meta/src/service/http.rs:52-172`, `meta/src/model/meta_admin.rs:275-299`); the commands are those of `Watch` | a request that is carried out after the client gave up on it and sent the next; elections; the limits of the HTTP client |
| `Track` | the queries that a node runs: slots, start, reading, KILL, stored streams, restart, takeover (`query_server/query/src/dispatcher/query_tracker.rs`, `dispatcher/manager.rs:204-241,328-511`, `dispatcher/persister.rs`, `execution/{query.rs,stream/mod.rs,sys/kill_query.rs}`, `metadata/information_schema_provider/factory/queries.rs:139-165`) | what queries compute; slow-query records; that the handle for cancelling exists as soon as a start begins is assumed; KILL during the start of a stream |
| `Jaeger` | traces read through the Jaeger API: spans made of rows, traces made of batches, conditions of a search (`main/src/opentelemetry/otlp_to_jaeger.rs`, `main/src/http/http_service.rs:1735-1760,1877-2058`) | how a scan applies a filter (areas on reading); the lists of services and operations; `limit`; the sum of a fraction of a duration is a parameter; JSON of `tags` is a parameter; a text of a tag is taken as it is sent (quotes at its ends are cut) |
| `Group` | the replicas of a group: REPLICA ADD, REMOVE, PROMOTE, DESTORY, with failures, lost answers and redirections (`coordinator/src/raft/manager.rs:142-213,297-565`, `service.rs:417-475,888-971`, `tskv_executor.rs`, `meta/src/store/storage.rs:885-955`, `replication/src/multi_raft.rs`) | openraft is written out from its documentation: majorities, who holds what after a change of the membership, leader completeness; building a group, status of vnodes, shut down nodes being forgotten |
| `Catalog` | `query_server/query/src/metadata/mod.rs`, `metadata/information_schema_provider/**`, `metadata/cluster_schema_provider/**`, `metadata/usage_schema_provider/mod.rs`, SHOW DATABASES / TABLES and DESCRIBE in `sql/planner.rs`, `auth/user.rs` | errors of the meta service, `QUERIES` (see `Track`), filters and projections of the executor; displayed values are texts |
| `Reply` | `main/src/http/response.rs`, `result_format.rs`, `encoding.rs`, `header.rs`, `common/http_protocol/src/{encoding,header,response}.rs`, `spi/src/query/execution.rs` (`chunk_result`), `http_service.rs:2900-2962`, `models/src/auth/user.rs:285-299`: the text of an answer, chunked or not, its errors and limits, format and encoding, credentials of a request | the JSON object of a row, printed tables and compressors are parameters; how crates `csv`, `arrow-csv`, `arrow-json` and `base64` put texts together is written down from their sources; second run on a broken file |
| `Order` | `query_server/query/src/extension/physical/plan_node/{expand,tskv_exec,assert/mod,watermark,traced_proxy}.rs`, `extension/analyse/transform_time_window.rs:327-386`, `common/models/src/datafusion/limit_record_batch.rs`: order that plan nodes promise, sorts left out because of it, limits of scans | other DataFusion nodes and rules (sort, filter, limit and the leaving out of promised sorts are modelled), descending and multi-column orders, several partitions of a plan |
| `Home` | `tskv/src/kvcore.rs` (open, remove, get or create), `version_set.rs`, `database.rs:56-78,188-247`, `schema/schemas.rs:17-64`, `kv_option.rs` (directories), `models/src/schema/database_schema.rs:92-106`, `parser.rs:2180-2202`: which database object a vnode uses, its settings, what is on the disk for a vnode | types of columns, the index directory and the write-ahead log of a vnode, columns of strict writes; a write is durable at once (see `Replica`) |
| `Quota` | `meta/src/model/meta_tenant.rs:60-251,371-408,856-950`, `meta_admin.rs:624-760`, `meta/src/store/storage.rs:1004-1107,1450-1515`, `utils/src/duration.rs:28-81`, `limiter_config.rs:9-18`, `execution/ddl/{create_database,alter_database,alter_tenant}.rs`: limits on the objects of a tenant as each data node checks them, members as a data node remembers them | contents of databases, roles that are not of the system, other tenants; a command to the meta store and its answer are one step, a question for a role and its answer are two |
| `Files` | `tskv/src/file_system/file/{stream_writer,async_file,raw_file}.rs`, `tskv/src/file_utils.rs`, `wal/writer.rs`, `wal/mod.rs:120-134,178-191`, `wal/wal_store.rs:429-447`, `async_filesystem.rs:100-124`: the buffered writer over an operating system that writes less, is interrupted or fails; positions of records of the log; names of files and numbers in them | bytes lost when the machine stops, io_uring, memory maps, names that are not ASCII; a system call that fails changes nothing |
| `MetaLog` | `replication/src/entry_store.rs`, `replication/src/node_store.rs:186-216,330-525`, `meta/src/store/storage.rs:62-74`: the Raft log of a meta server in LMDB, its log state, and entries that are applied, transaction by transaction, with stops in between | errors of LMDB and full maps, losses of power, snapshots (area `Raft`), the transactions within one command |
| `Readers` | `common/cache/src/{lib,sharded_async_cache,lru_cache/mod}.rs`, `tskv/src/tsfamily/version.rs:158-173,206-209`, `column_file.rs:150-184,211-226`, `tseries_family.rs:249-267`, `super_version.rs:114-130`: the cache of readers of data files, with reads, deletes, updates of tags and removals | the crate `lru` is written out from its documentation; what a reader remembers of its file is one value; pages; the removal of an entry with its file is one step |
| `Common` | lists, stable sort, association lists used by the other areas | |

Not modelled at all: networking and replication transport, the code of openraft (its protocol is part of the model `Raft`), SQL parsing, planning and execution apart from `Window`, `Agg` and `Plan`,
the meta server's HTTP interface, file-system behaviour beyond "a crash keeps a
prefix of the bytes written to a file", `unsafe` memory safety.

## Assumptions about code outside of the repository

* `crc32fast` — some function of the bytes. Theorems that need the absence of a collision say so.
* compressors (snappy, gzip, bzip, zlib, zstd) — `decompress (compress x) = x`.
* `bincode` — for WAL requests and tombstones a parameter with a round-trip law; for manifest edits its documented format is written out.
* `skiplist::OrderedSkipList` (0.5.1) — an ordered list; `insert` puts a value in front of the values equal to it.
* `heed`/LMDB — an ordered map; `roaring` — sets of numbers; hash maps — maps, with an arbitrary order of iteration.
* `integer-encoding` — LEB128 with zigzag for signed numbers.
* DataFusion `PruningPredicate` — the rewriting of a filter into a condition on smallest and greatest values, written out from its documentation (C77);
  comparisons of floats by IEEE 754 or by total order (both covered).
* DataFusion's aggregation — feeds batches to accumulators and merges the states of partitions in groups of any size (`Agg/Plan.lean`).
* arrow's `sort_to_indices` — some order by time; the choice among equal times is arbitrary.
* sorting functions of the standard library — stable sort (or any sort where the result does not depend on it).

## What is false in the code

Each line is a theorem `..._refuted` with a concrete witness about the model (which is a transcription of the code).

* **Codecs.** A timestamp column whose first row is NULL is not read back (C03).  A float column that consists of the reserved NaN
  pattern is written but cannot be read (C07).
* **Pages.** A BIGINT column with codec DELTATS loses a value when its first row is NULL; the checksum does not cover the null bitmap and the
  header of a page, a wrong bitmap length crashes the check; the offset of a sliced null buffer is ignored (C09).
* **Time ranges.** Overlap with an empty range (C10); removing spans that end at `i64::MAX` (C11); a collection that covers both ends of
  time takes in everything (C12); bounds `> i64::MAX` (C15).
* **Predicates.** `x < 5 OR x <= 5` loses 5, ordered comparison of booleans (C13); casts, arithmetic, nested comparisons are pushed down
  wrongly (C14). DELETE with two time comparisons after a tag comparison, NULL literals, `WHERE false`, strict bounds in a coarser
  precision (C56).
* **Deletes.** A row deleted in all its columns is still returned, with nulls (C17). A column deleted from the beginning of time in one range
  and to the end of time in another counts as deleted everywhere; a delete during the compaction of the deletion file is lost; the leftover
  of a failed compaction is installed later (C16). A torn deletion file makes the data file unreadable (C69).
* **Log.** An empty last record and files that look as if they had a footer (C18); WAL recovery goes on searching in torn bytes, can invent
  records (C19) and panic (C66); a record torn in its header costs the next appended record (C68); a reader kept open across a truncation
  returns cut-off entries (C21); an apply error ends recovery and is reported as success, purging part of a file is not durable (C23);
  the type of blank entries, a changed compression setting (C24).
* **Write buffer.** Duplicates of a time in one batch, writes with an older schema (C25); `i64::MAX` is never returned (C26); dropping a
  column brings overwritten values back, a late write with the old schema shifts values (C28).
* **Manifest.** A torn last record makes the vnode unopenable; torn in its header it opens, but not after the next flush (C72).
  If one append fails and a later one succeeds, the mark passes data that is in no file (C74).
* **Reads.** Filters below the merge bring back overwritten values and lose rows (C36). A compacted file takes a file id larger than the active
  buffer, so newer writes are hidden (C37).  Batch size 0 ends the stream (C34).
* **Compaction.** The files are not sorted in the first round, so a request not in the order of the first series ends with an error, and an
  empty first file ends it without output (C38, C40).  A delta compaction reads the level file first even if its id is larger (C38).
* **Index.** `DROP TABLE a` takes series of `a.b` (C44, C45); replaying a rename skips the conflict check (C46); `t < 'a' AND t > 'a'`
  panics (C64).
* **Catalogue.** The bucket of `i64::MAX` is empty (C47); changing the bucket duration makes overlapping buckets (C58); infinite retention
  drops buckets far before 1970 (C59); granting a weaker privilege takes the stronger one away (C60); the login cache ignores the private
  key and the colon in names (C61).
* **Line protocol.** A field without a value panics (C76).  A table name or first field name that begins with an escaped byte, a table name
  with an equals sign and a space, a backslash in a name, `#` at the begin of a table name, an empty field name at the end of the text and a
  space at the end of a line are refused or read as something else (C55).
* **Filters.** NaN does not enter the statistics of a page, so `a != 1.0` skips rows with NaN (C77); a filter is also rewritten inside functions,
  so `(c IS NOT NULL AND a > 5) IS NOT TRUE` loses rows of files without column `c` (C75).
* **Queries.** `time_window` puts times before 1970 into the wrong window, gives a window too many if the length is not a multiple of the slide,
  and misplaces windows for start times beyond the window (C79); `first`/`last` depend on batches if there are NULLs (C80); `state_at` fails for a
  single row (C82); `sample(x, 3)` may return 4 values, `sample(x, 4)` 2 of 3 (C83); `increase` loses growth between partitions if aggregated in
  two phases (C85).
* **Data files.** With `tsm_meta_compress` set, changing tag values makes the data file unreadable, because the new footer says that the metadata is
  not compressed; interrupted after the truncation the file has no footer (C88).  The check of that setting reports every value as an error
  (`storage_config.rs:235-246`, `!= || !=`).  `Footer::maybe_series_exist` asks with the bytes of the series id in another order than they
  were inserted with; it is not called in queries.
* **Table schemas.** After a refused schema update a write uses a schema that was never stored, so its values are stored under the id of
  another column (C94; `schemas.rs:165-184` drops the result of the repeated call).  Two `ALTER TABLE ADD` at the same time give two columns one
  id (C95).  A dropped table comes back, or a recreated one loses its columns, by an update that was under way (C96).
  `ALTER TABLE ADD FIELD x TIMESTAMP` makes a second time column that can be neither dropped nor renamed (C97).
* **Counts.** A count that is pushed down counts NULLs of files, deleted rows and overwritten rows; after a write added a tag it counts another
  field in buffers; files written before a rename are looked up by the new name; `SELECT count(b) FROM (SELECT a AS b FROM t)` counts column `b` of
  `t` (C90).  A flush changes a count (C91).
* **Other.** A filter of at most 32 bits (C41); a wrapping reservation (C52); JSON lines and INSERT route a series differently (C57).
* **Compaction and new columns.** Of two batches with the same version a compaction takes the columns of the later one in the list, which can be
  the older one; values of columns that were added in between are lost.  A flush labels all its column groups with one version, and so does a
  compaction, so versions in files do not tell which columns a group has (C98, also for files that were each written with one version).
* **Queries after changes of a table.** A compaction may copy column groups that were written before and after `ALTER TABLE` (or a write with a new
  field) into one chunk; then every query that asks for a column that is not the same in all of them fails with `MismatchedSchema` (C99).
  Filters look for columns of a file by name: after `RENAME a TO x; RENAME b TO a` the filter `a > 5` reads the old `a` of old files and
  loses rows (C100).
* **Writes.** A name that is a tag in one line and a string field in another line of one request: the field becomes a tag, so the line goes to
  another series and its value is in no field (C101).  In strict mode unknown fields are dropped without an error (C101), types are not
  checked, and a field with the name of a tag panics (C102).
* **Replaying the log.** Commands are replayed with the schema of the restart and names of before: after `RENAME COLUMN` unflushed values of the
  column are lost (or end up in another column, also of another type), after `DROP` a request with a line that only had that field is
  lost with all its other lines; the errors are only logged (C103).
* **Compaction jobs.** A delta file that falls into a gap between the files of a level (or overlaps only files that are being compacted) is
  picked without being marked, so a second job compacts it again and its values hide newer ones (C105).  A delete while a compaction
  runs is undone when the output is installed (C106).  The delta picker puts the file of the level first even if it has the larger id (C104).
  Not modelled: a failed job never unmarks its files, so they are not compacted until a restart; `return` for a vnode that is being moved
  (`compaction/job.rs`) ends the compaction task of all vnodes; the manifest is written before the tombstones of parts are installed.
* **Metadata on the meta server.** `UpdateTable` is accepted for a database that was dropped; the table comes back with the database (C108).
  `DROP USER` builds the key of the membership from the name of the tenant twice, so memberships stay; `DROP TENANT` leaves databases and tables,
  which a new tenant with the name has; `DROP ROLE` leaves members with the role (C111).  Creating a role draws an id, and creating a bucket asks
  data nodes, while the command is applied, so the replicas of the meta server differ (C112).  A snapshot leaves a gap in the log of changes (C107).
* **Metadata on the data nodes.** A tenant that is opened while a poll is under way can miss changes for good, because `watch_task_manager` stores the
  result of `fetch_min`, which is the version from before (C109).  Options of a tenant are read once; `ALTER TENANT` and `DROP TENANT` do not reach
  other nodes (C110).  A write may create a table with a slash in its name, which no node finds again (C113).
  After a restart of the meta server, while nothing is written, every poll ends in a full reading.
* **Changing tags and restarts.** `UPDATE` of tags takes the old key off the disk at once and puts the new one there at the next flush: a crash in between
  makes the series invisible.  If the index was written, a replayed write for the old key goes to the series with the new key, and a replayed `DELETE`
  takes rows of a series that got the key later.  The end of a flush forgets all old keys, also those of changes made during the flush (C114).
* **Flush.** A `DELETE` while a flush writes its files is undone.  The index is written before the caches are taken, in separate steps: a series that is
  new in between is in a file and not in the index on disk, and after a crash its id is given to another series (C114).
* **Refused commands.** A refused `UPDATE` is in the raft log.  The replay does not check for conflicts, so it merges two series; if two series would get
  the same key, the replay ends with an error, the vnode is marked broken and the rest of the log is not replayed (C116).
* **Snapshots.** They have no tombstone files, so deleted rows come back; files get new numbers by level, so old values win; series without rows are not in
  the rebuilt index, so a later `UPDATE` has another result on the new replica (C115).  Not modelled: `apply_snapshot` stores `last_applied` before
  the files are restored, so after a crash in between the entries are never applied.
* **Acknowledged writes can be lost by restarts.** When a vnode is opened, `RaftEntryStorage::recover` removes all entries of the raft log after the last
  *applied* one (wal_store.rs:64-68, 519-528).  Raft needs them: the replica has told the leader that it has them.  With three replicas, one follower
  restarted between acknowledging an entry and applying it is enough: the client has the success, the entry is gone with the leader, two replicas
  apply different commands at the same index (C117).
* With `raft_logs_to_keep = 0` the id of the last entry of a snapshot cannot be found when the snapshot is read again; the meta data then say "no entries" (C119).
* **One point in two sets.** The routing hash depends on the interface (C57), and `hash % number of sets` changes when a set of a bucket is removed
  (`REPLICA DESTORY`): a point written again then lies in two sets, and every query shows two rows for it, for good (C120).
* **Stale reads.** If the leader of a set cannot be opened, a query reads the next replica and does not notice what it has not executed yet (C120).
  If the change of the recorded leader fails after a write succeeded at another node, the error is dropped and reads go to the old one.
* **Partly applied requests.** A request over several sets can stay applied in part (C121).  Every status of gRPC but "internal" is taken for "not
  executed", so a request that timed out is executed again by the next replica; a redirected request that failed is repeated, too (C122).
* A query tries two replicas of a set at most; an error in the middle of a stream ends it (C123).
* **Rights of statements.** `CREATE EXTERNAL TABLE other.db.t` keeps the tenant in front of the name, asks for the right in the tenant of the session
  and creates the table in the other tenant.  SHOW SERIES and SHOW TAG VALUES ask only for the database of their table, not for those of subqueries.
  KILL QUERY asks for nothing, and ends the queries of anybody.  COPY INTO a location asks only for the databases read, so `COPY INTO 'file:…' FROM (SELECT 1)`
  writes files on the server with no right at all; COPY INTO a table and external tables read files of the server.  The requests for traces check the
  login only; `/api/v1/dump/sql/ddl`, `/api/v1/meta` and the debug requests not even that (C124).
* ALTER USER … SET hash_password takes the old hash as a change of password; a user whose password is empty cannot set any other option, as the empty text
  is compared with the password (C126).  UPDATE t … FROM u changes u.
* The role of a member is looked up under the id of the user first: a role that is named like an id is that user's role (C127).
* Tokens of Flight SQL connections keep the user and rights of the login as long as they are used every ten minutes; dropping the user, removing them from
  the tenant, or changing their role or password does not end them (C128).
* **OpenTSDB over TCP.** If a read ends within a line and what is there can be read as a line (a value cut short, tags missing), a wrong point is
  written and the task of the connection panics (C129).  Empty lines are skipped but not counted, so the buffer is cut at the wrong place.  One line
  that is refused blocks the connection for ever (C130).  Every time is scaled to 13 digits and then taken as nanoseconds, so all points land in
  the first three hours of 1970; the time 0 is an endless loop in an asynchronous task (C131).
* **OpenTSDB over HTTP (text).** Values with a fraction and requests of more than one line are refused; `m 1 15 a=b,c` panics; `m 5 a=b1 c=d` is read as value 1 (C132).
* **OpenTelemetry.** One map is used for all spans of a resource, so attributes, events and links of a span appear in later spans (C133).
* **JSON.** Keys with dots collide with nested keys (C135).  Tag values are the JSON text without the quotes at the ends: escapes stay in, a quote at the
  end is lost, null and "null" are the same (C137).
* **Prometheus.** Values of matchers are put into the SQL text without escaping (C141).  Patterns on the name are not anchored, the last of several
  matchers on the name wins, none reads nothing (C140).  The separator 0x01 can stand in a value, then two series are answered as one (C139).
  Times overflow silently, also the end of the range of a read (C138).
* **Stream queries.** The watermark behind a run is the greatest time of the last batch of the partition that ends last, not of the run; rows behind it
  are read and counted again (C142).  It is kept in the unit of the column and compared with nanoseconds (C142), and one for all sources (C142).  The
  delay is ignored (C143).  Groups by an interval of time are dropped as soon as the interval has begun before the watermark (C144); the branch
  for windows (structs) in `create_watermark_predicate` is never reached, so states of windows are never dropped.  A failed run leaves its watermark,
  and its states if it had got that far: rows are counted again in every run, or never (C145).  A restart reads all rows again (C146).
  `MemoryStateStore::expire` returns nothing (C147).
* **INSERT and UPDATE.** Columns of the source behind the last named one are dropped without an error, a column named twice keeps its first value, a row
  without a time is stored at time 0, a failing batch leaves the batches before it stored, and an INSERT planned before `DROP COLUMN` makes the column again
  (C149).  `UPDATE … SET f = NULL` reports rows and changes nothing (C150).  An UPDATE writes back all columns of the rows it has read, so writes to other
  columns in the meantime are lost (C151).
* **Rules for queries.** Where a conjunction has a user function, the rest of it is kept as the filter of the scan, also below `IS NOT TRUE`, `= false`
  or in an argument, where that loses rows (C152).  `count(*)` of a union counts its first part only, and of `VALUES` panics (C153).
  `exact_count(a) AS n` is not rewritten, a column named `exact_count…` cannot be grouped by, `count(a), exact_count(a)` is refused (C155).
* **Repair and quality.** `value_fill` with `linear` returns memory never written when the last row has no value (C156).  `timestamp_repair` of two
  rows panics, and points it inserts in front get time 0 and value 0 (C157).  `value_repair` panics with exactly one number and with two rows (C158).
  The quality functions keep the last batch only, and never work on unsigned columns (C159).  Integers above 2^53 are changed by repairs (C160).
* **Dumps.** `dump-ddl` prints names as they are between double quotes: a role named `x" inherit "owner` is restored as an owner (C161).  Limiters,
  geometries, and fields whose codec was changed by ALTER to one that does not fit (it is not checked) are printed as statements that fail (C161).  Grants on
  dropped databases and members of dropped roles stay in the store and fail; tenants, users and databases named like `CnosDB`, `Root`, `PUBLIC`
  are skipped; changed options of `public` and `root` are lost (C163).  A line feed in a comment lets `restore-dump-ddl` run the rest of the comment as a
  statement (C164).  Seen, not modelled: a stream table with a watermark delay is printed with a `)` too many, `compression type gzip` of an external table
  is not followed by a space.
* **Limits of tenants.**  Nodes overdraw, so that more passes than there are tokens; changing any option of a tenant (a comment) gives all tokens back
  (C165).  A node without tokens refuses requests that are larger than its overdraft forever; requests that need exactly what the meta server gives are
  refused and keep the tokens; without an overdraft the first request is refused (C166).  A limiter with an interval of 0 is accepted and makes the meta
  server panic while it applies a command of its log; a full synchronisation does not renew limits; a node never hears of a dropped tenant (C167).
* **Repairs (continued).**  The test of `ar` for an unstable model is made before the model is estimated; a query without rows makes `timestamp_repair` panic.
* **Tasks.**  Names of tasks are joined with `-`, so that tasks of different objects have the same name: `RECOVER DATABASE "b-c"` can remove that database, and a
  DROP is ignored because one of another object has failed (C168, C171).  RECOVER does not stop a task that has failed before, that was handed over to
  another node, or whose node reads the meta data again before it hears of the recovery; it races with the sleeping task; a hidden tenant is not found by nodes
  that have not cached it, so that RECOVER TENANT and the drop itself fail (C169, C170).  A task that is heard of after its time sleeps for about 584 years
  (`as u64` of a negative interval); tasks are lost when their node starts again; the second failure of a task is never tried again; a take-over ends
  at the first name that is known (C170).  A DROP is answered with success and does nothing while an earlier one has failed or has died; a scheduled drop
  survives an immediate one and removes a database that is created later (C171).
* **UPDATE of tags.**  The statement builds series keys in the order of the table, the index has them sorted by the decimal text of column ids: in a table with tag
  columns 2 and 10 (any table with ten tags) success is reported and nothing changes; if the scan reads rows, series with more than one row cannot be
  changed; setting the value that is already there is refused (C172).  Conflicts are looked for in each replication set alone, and later writes of the
  new tags go to another set: two rows of the same tags and time (C173).  A set that cannot be reached, or a write between the dry run and the update, leaves
  half of the rows changed; then further updates of the table report success and do nothing (C174).
* **Talking to the meta service.**  A command whose answer is lost is sent again: CREATE, ALTER and DROP then report failure though they were done; a vnode that is
  added to a replication set is listed twice; tokens are taken twice (C175).  Three attempts are not enough with two of five servers down (C176).  Reads are
  answered by any server from what it has applied, so a reader may miss commands that were answered (C177).
* **Running queries.**  KILL of a query whose result is being read frees its slot and does not stop it; a client that leaves while its query starts, a stream that cannot
  be stored and one whose start fails keep their slots for ever (C178, C179).  KILL needs a slot itself, and needs no privileges: every user may kill every query of
  every tenant (C179, C180).  Streams beyond the limit are taken over and do not run; a node that is only taken for dead goes on with its streams; a stream
  whose start failed is started by a restart (C181).
* **Traces.**  Only the first row of each record batch is read: of spans with the same tags all but the first are lost (C182).  Null cells are read as empty texts and zeros, so a span gets
  the events of every other span of its table; `Event_10` sorts before `Event_2`, so events after the tenth are lost; attributes of events go to the process (C183).  The first
  two spans of a trace share the process id `p1`, so the first is shown with the service of the second (C184).  In a search, numbers of durations wrap, `-1s` is a huge
  duration, attributes with a colon are dropped silently, two attributes in `tags` panic (C185).
* **Replicas.**  Two REPLICA ADDs at a time both succeed, and the first replica is listed without being a member of the group (C186).  PROMOTE makes the new leader the only voter and
  the others followers again in a second step: when that fails the group has one voter, and repeating PROMOTE – or the same command's next attempt – answers that all is well
  (C186, C188).  An ADD that fails before the listing is changed leaves a voter that is not listed: the node can never be added again, REMOVE cannot name the vnode, and when it is elected
  no write is taken any more (C188).  Dropping a raft node does not look at the vnode's number (C187).
* **Catalogue.**  A user whose role may read one database is refused by SHOW DATABASES and by every query of `information_schema`, which would show them only what they may see (C191).
  DESCRIBE and queries look for the database and table before they check the right, so "not found" against "denied" tells whether an object exists that the user may not read (C191).
  Measures of `usage_schema` are found in lower case only, unlike other system tables (C193).
* **Answers over HTTP.**  A query that fails after its first batch is answered in chunks with status 200, the rows so far and the text of the error, which a CSV reader takes for another row; the text is
  not compressed though the answer is marked so, and a quote in the message ends it for a JSON reader (C197).  The limit on outgoing data is asked for chunked answers only (C197).  An empty JSON
  answer is the empty text, and a chunked one is an array per batch (C195, C196).  `Accept: text/csv, */*` and `Accept-Encoding: *` are refused (C198).  NULL and the empty text are the same in CSV
  (C194).  A user with a colon in the name logs in as another one (C199).
* **ORDER BY behind sliding windows.**  `ExpandExec` promises the order of its input although each of its batches has the rows of one window after those of another, so the planner leaves out the sort and
  `SELECT time_window(time,'20s','10s'), time FROM (SELECT … ORDER BY time LIMIT n) ORDER BY time` is answered unsorted (C200).
* **Tenants with dots in their names share databases.**  A data node keeps databases under `tenant.database`; `"a"`.`"b.c"` and `"a.b"`.`"c"` are the same text, so a write of one tenant makes tables in the
  catalogue of the other (C202).  A database that is dropped and made again keeps its old settings (`strict_write`) on nodes that run on, as `delete_db` is never called (C203).
* **Limits on objects of a tenant.**  They are checked by the data nodes on their own copies: ALTER DATABASE does not ask for them (C206); ALTER TENANT changes them on the node of the statement only, others keep
  those from the time they opened the tenant (C208); ADD USER does not count members that were just added, so any number can be added (C207); with N nodes there can be N-1 databases too many, and never more (C205);
  CREATE DATABASE IF NOT EXISTS of a database that is there is refused when the limit is reached (C210).
* **A removed member that comes back.**  `member_role` enters the answer of the meta store into the copy without a look at versions; if the removal is heard while the answer is under way, the node keeps the member (C209).
* Buffered writes (C212, C213): the buffer is taken before it is written; if the write fails, bytes that were accepted are dropped, and the next flush answers success without them. A `pwrite` of zero bytes counts as done. After one failed write, sync or truncation of the log its size and the position in the file differ for good, and later entries are read at wrong places.
* Logs from number 1000000 on (C214, C215): the pattern of names has exactly six digits, so such logs are not read on recovery, and the log that was full before is written to again (number 1 if there is none). A copy `_000007.wal.bak` counts as log 7.
* A meta server that stops (C217, C218): an entry is noted as applied before its command is carried out, in another LMDB environment, so a server that stops in between never carries it out, and its data differs from that of the others for good. A server that stops between the two transactions of a purge beyond its last entry (after a snapshot was installed) starts with a last log id before what is purged.
* Cached readers of data files (C219, C220): `get_tsm_reader` looks into the cache, opens the file and keeps the reader in three steps without a lock. If a DELETE comes between opening and keeping, the reader that is kept does not know its tombstone, and later queries see the deleted rows again until the reader is evicted; the same for UPDATE of tags. The capacity is rounded up to a multiple of 16, so a capacity of one keeps 16 readers. (Found by reading the code; the program was not run.)

## Properties

| id | property | status | what is proved, what is missing |
|---|---|---|---|
| C01 | Signed integer column compression is lossless | proved | All lists and masks; release-mode (wrapping) arithmetic. |
| C02 | Unsigned integer column compression is lossless | proved | Reduction to C01; u64/i64 reinterpretation is the identity on bit patterns. |
| C03 | Timestamp column compression is lossless | proved | Holds for columns whose first row is valid; refuted with a NULL in the first row (C03_null_first_refuted), which the property excludes. |
| C04 | 60-bit word packing is lossless and rejects what it cannot hold | proved | Accepts exactly the lists of values below 2^60. |
| C05 | Boolean column compression is lossless | proved | Lists below 2^56 values (larger ones would not fit in memory; the code would index out of bounds). |
| C06 | String column framing is lossless | proved | Compressors are parameters with decompress(compress x)=x; strings valid UTF-8. |
| C07 | Floating point column compression is lossless | partial | Bit for bit round trip of the XOR codec for all columns but one: the reserved NaN pattern alone is written and cannot be read (refuted). Never different bits, for all columns. The reserved pattern elsewhere is refused. The codec without compression has no exception; the PCO compressor is an external crate and not modelled. |
| C08 | Variable-length integers are self-delimiting | proved | Crate integer-encoding modelled as LEB128. |
| C09 | A data page read back is the page written, and damage to its values is noticed | partial | Proved for every kind of column, every codec and every null mask: a page written by a flush or by compaction is read back with the same row count, mask and values, the codec being chosen by the first byte of the data; a changed value section fails the check unless the checksums coincide, and they never coincide when all changed bits lie within 32 consecutive bits (CRC-32 itself is modelled). Partial because the round trip fails, with proofs, for BIGINT columns with codec DELTATS that begin with a NULL and for the single reserved NaN (C07), and for sliced arrays. Beyond the property: damage to the null bitmap or header is not noticed, or crashes the check. |
| C10 | Time range algebra agrees with sets of timestamps | proved | Exact for proper ranges (min ≤ max); the overlap test on an empty range is not exact, refuted separately. |
| C100 | A pushed-down filter keeps the matching rows of files that were written before the table was changed | partial | Proved for histories without renames and filters that are not rewritten inside functions (C75); refuted with two renames. |
| C101 | An accepted write stores every line: its tags, its values and its time | partial | Proved for requests that extend the schema and in which no name is used for a tag and for a field. Refuted: a name that is a tag in one line and a string field in another makes the field a tag; in strict mode fields unknown to the table are dropped silently. |
| C102 | Every value in the write buffer has the type of its column | partial | Proved for all requests that extend the schema. Refuted in strict mode (also used for replaying the log): values of any type are stored; a field with the name of a tag panics. |
| C103 | A write replayed from the log after a restart stores the same rows | partial | Proved if no column of the request was dropped or renamed, and for one dropped column if each line has another field. Refuted: after a rename the write is lost or its values come back in another column, after a drop a whole request can be lost. |
| C104 | A compaction replaces its files without losing rows | partial | Rows: proved for every request of the pickers if the inputs are in the order of their first series (the other orders fail, C38_unsorted_refuted). Answers: proved if the ids tell which value is newer; refuted by a delta file with a smaller id than the file of the level. |
| C105 | No file is compacted by two jobs | partial | Files are live, free and distinct for both pickers. A request whose files are marked shares no file with a later one; refuted for the request for a gap of a level, which marks nothing, and a second job of it hides a newer value. |
| C106 | Deleted values do not come back through a compaction | partial | Deletes before a compaction stay, and deletes while it runs that touch no value of its files. Refuted for a delete of a value in a file that is being compacted. |
| C107 | A data node that asks for changes of the metadata misses none | partial | Proved for every history of writes and restarts, also for requests that wait; a node is not sent to a full reading while its version is among the last writes since the start. Refuted for a server that installs a snapshot: its log keeps the old entries with a gap. |
| C108 | A cache of a tenant that is given the changes shows what is stored | partial | Proved for histories in which tables and buckets are only written in databases that are stored, and names are plain; every sequence of commands that updates tables of existing databases only gives such a history. Refuted without this: updating a table of a dropped database leaves a table that comes back with the database, but not in caches. |
| C109 | A data node that has the version of the store shows what is stored | partial | Proved for schedules without a poll between the opening of a tenant and the moment at which it is watched. Refuted otherwise: fetch_min returns the old version, which is stored back, so changes in between are lost. |
| C11 | Removing deleted time spans from a time span leaves exactly the rest | partial | Full statement C11Full is false for ranges ending at i64::MAX (refuted); exact for all others. Single exclusion and collection exclusion are exact at every timestamp. |
| C110 | Changing or dropping a tenant is seen by every data node | partial | Opening a tenant gives its stored record. Refuted afterwards: no change ever touches the record of an open tenant, because the server does not send changes of that key to nodes that watch tenants. |
| C111 | Dropping an object drops what belongs to it | partial | Proved for databases (everything of it and nothing else); for tenants: record, limiter, roles, and members who are users. Refuted for users (the key of the membership is built from the wrong names), tenants (databases stay and show up in a new tenant with that name) and roles (members keep the role). |
| C112 | Meta servers that apply the same commands hold the same metadata | partial | Proved for all commands except creating buckets and roles, asking a limiter, dropping users and tenants. Refuted: the id of a role is drawn when the command is applied, and a bucket is created with the nodes that answer the server that applies the command. |
| C113 | Different objects of the metadata have different keys | partial | Proved for names without slashes. Refuted with slashes, which writes may put into names of tables. |
| C114 | A replica shows what the commands of its log say, through flushes and restarts | partial | False in the code, six witnesses. Proved for all runs in which deletes do not fall into a running flush, the crash has no change of tags after the flushed mark, no old keys are remembered, and a flush writes the index and takes the caches in one step. |
| C115 | A replica made from a snapshot shows what the other one shows | partial | False in the code, three witnesses. Proved if the files are in level 0, have no tombstones and carry the keys of the index, and the log after the flushed mark has only writes. |
| C116 | A refused command has no effect, also after a restart | partial | False in the code after a restart, two witnesses. Proved without restart for every state, and with restarts if the refused command is not after the flushed mark. |
| C117 | Acknowledged writes survive and replicas apply the same commands | partial | False in general: a restart removes entries of the log that were acknowledged to the leader (C117_refuted: one restart, acknowledged write lost, replicas diverge). Proved: the property for all runs in which a replica is only restarted when it has applied its whole log or nothing; together with C114_partial two replicas with equally many applied entries show the same; with one replica restarts at any time. |
| C118 | Raft groups of one process do not disturb each other | proved | The view of each group is the fold of its own writes from the empty view; del_group leaves nothing; all_nodes_summary is exact. JSON encoding of values is not modelled. |
| C119 | A snapshot says rightly what it contains | proved | Under the stated order of events (openraft keeps at least one entry before the last snapshot, raft_logs_to_keep > 0, default 5000). For raft_logs_to_keep = 0 the log id is lost: C119_keep_none_refuted. |
| C12 | A time-range collection remembers everything put into it | partial | Bulk construction exact. Incremental insertion is false once both ends of time are covered (refuted); exact otherwise. |
| C120 | A database spread over replication sets behaves like one table | partial | Proved for every history in which rows are routed by a hash of their series, times are below the greatest i64, the bucket duration is not changed and no set loses all replicas, for reads of replicas that executed what was acknowledged (the recorded leader does). Refuted: a point written by two interfaces, or again after a set was removed, is shown twice; a follower read misses acknowledged rows. Missing: histories with an altered bucket duration; routing of one request is one step. |
| C121 | A write request is applied completely or not at all | partial | A request refused in routing has no effect; once its commands are sent to the sets it can be applied in part, which is the refutation. |
| C122 | A request to a replication set is executed once | partial | Exactly once if an answer other than success means not executed; at most twice per replica otherwise. Refuted: deadline exceeded is taken for not executed, and a redirected request that failed is sent again. |
| C123 | A scan of a set returns all of one replica or an error | proved | The two refutations are about availability, which the property does not claim: only two replicas are tried, and an error in a stream ends the query. |
| C124 | An accepted request acts only where its user has the right | partial | Proved for all statements except: external tables named with another tenant (created there without any right), subqueries in SHOW SERIES / SHOW TAG VALUES, KILL QUERY, files on the server, trace requests, dump of the definitions without login; each exception is refuted with a witness. Subqueries in DELETE and the rows of the system schemas are not modelled. |
| C125 | Nobody but administrators and owners changes rights | proved | Requests with credentials, on the stored metadata. Tenant ids are assumed distinct (random 128-bit ids). |
| C126 | A user who must change the password can do nothing else, and then has a new one | partial | The first half is proved; that the password is a different one is refuted: hash_password with the old hash is accepted. |
| C127 | A member has the rights of the role they were given | partial | Proved when no role of the tenant is named like the id of the user; refuted otherwise: the role is looked up under the id of the user first. |
| C128 | A token ends with the rights it stands for | partial | The rights of the login and the ten minutes are proved; that a token ends with the rights is refuted for every sequence of uses less than ten minutes apart. |
| C129 | The OpenTSDB service writes the lines it is sent, however they arrive | partial | Refuted as stated: a piece of a line that can be read as a line is written and the task panics (C129_cut_refuted; C129_cut_loses says this of every such cut), and empty lines are not counted (C129_blank_refuted). Proved if no read ends at such a place. Which lines are put lines, and what points they give, is proved in full. |
| C13 | Column value filters built from comparisons are sound | partial | False as stated: x < 5 OR x <= 5 loses 5, and ordered comparisons of booleans lose values. Proved: AND-only conditions are sound; AND/OR conditions are exact when no value is compared both strictly and inclusively. |
| C130 | A line that is refused stops the OpenTSDB connection | proved | The property states the behaviour of the code, which is a defect. |
| C131 | The OpenTSDB service keeps the time of a point | partial | Refuted: every time is made a number of 13 digits and given on as nanoseconds. Proved: where all points land (C131_where), and that 13-digit numbers are not changed. |
| C132 | The OpenTSDB text of an HTTP request is read as it was written | partial | Refuted: fractions, a second line, panic, misreading. Proved for a request of one point with an integer value and at least one tag. Tags may be separated by spaces or commas. |
| C133 | A span of an OpenTelemetry trace is stored as it was sent | partial | Refuted: attributes, events and links of a span appear in the later spans of the resource that do not have them. Proved: every field, attribute, event, link and status of a span is in its record under its own key, as are the name, version and attributes of its scope and the attributes of its resource; exact for the first span and whenever the keys set before are set again. |
| C134 | A Loki entry is stored with its labels and time | proved | The time for instants that fit into 64 bits of nanoseconds. |
| C135 | A JSON document becomes a record with all its values | partial | Refuted for keys with dots and empty keys; proved for all other documents. |
| C136 | A record becomes a line with all its columns | proved | For all records. What a tag value becomes is C137. |
| C137 | The value of a tag is the text that was sent | partial | Refuted for texts with quotes, backslashes or control characters, and for values of other kinds; proved for all other texts. |
| C138 | Prometheus remote write stores every sample at its time | partial | Refuted for times whose nanoseconds do not fit into 64 bits; proved otherwise. |
| C139 | Prometheus remote read answers each series once, with its samples | partial | Refuted for tags with the character 1; proved otherwise. No sample is ever lost (C139_none_lost). |
| C14 | Filter push-down never loses rows | partial | False as stated in four ways (proved witnesses). Proved sound when comparison operands push nothing, literal types match and strict/inclusive comparisons are not mixed under OR. |
| C140 | Prometheus remote read asks the tables that the matchers select | partial | Refuted: no matcher on the name reads nothing, the last of several wins, patterns need not match the whole name. Proved for one matcher. |
| C141 | The condition of a Prometheus remote read is what the matchers say | partial | Refuted: quotes in values are not escaped, so values can be SQL. Proved for values without quotes. |
| C142 | A stream query reads every row once | partial | Refuted: the watermark is that of the last batch of the last partition, so a later row in an earlier batch is read and counted again; event times in milliseconds are compared with nanoseconds, so rows are read in every run; with two sources one watermark is committed for both. Proved for one source in nanoseconds, rows in order of time and the latest row of a run in its last batch. |
| C143 | A stream query takes rows that are late by less than the delay | partial | Refuted: the delay is ignored; a row a nanosecond late is never read. Proved: a row that comes before the query is done with its time is read by the next run that ends well, over all failures, restarts and spreads of rows. |
| C144 | The result of a stream query is that of the query over its source | partial | Refuted: with a timestamp among the group columns, a group that begins before the watermark is dropped although its interval is not over. Proved: a group that is never late has the values of all rows read; without timestamps in the states and with the conditions of C142 the result is that of the query over the table. |
| C145 | A failed run of a stream query has no effect on the results of later runs | partial | Refuted: behind a failure of the sink the rows are counted again in every run; states written before a failure stay in the store; the watermark of a failed run makes the rows late. Proved: failed runs lose no rows, and runs that fail while reading do not disturb groups that are not late. |
| C146 | A stream query goes on where it was when the server restarts | partial | Refuted: offsets are not kept, so all rows are read again. Proved: the watermark is kept if all runs end well; without timestamps in the states the first result behind a restart is that of the query over the table. |
| C147 | Expiring states removes what matches and returns it | partial | Refuted: what is returned is taken from what is left, so it is always empty. Proved: exactly what does not match is left. |
| C148 | The table of watermarks keeps the watermark of every stream query | partial | Refuted for two queries created in the same nanosecond (they share a row). Proved for distinct times of creation. |
| C149 | An INSERT stores the rows it is given | partial | Proved: an accepted INSERT that names no column twice and gives every row a time stores exactly its rows, one for one and in order in the set each is located in, with every value cast to the type of its column, and reports their number; and every such INSERT with casts that succeed, at least one field per row and sets that answer is accepted. Refuted: a source with more columns than the INSERT names is accepted and the rest dropped; a column named twice keeps the first value; a row without a time is stored at time 0; a failing batch leaves the batches before it; an INSERT planned before DROP COLUMN makes the dropped column again, although it has no value for it. |
| C15 | Time bounds of a query cover every matching timestamp | partial | False for > i64::MAX and < i64::MIN (refuted); exact otherwise. |
| C150 | An UPDATE of fields changes exactly the rows it names | partial | Proved for all updates that set no null, on any history whose rows are rows of the schema (an invariant, C150_rows). Refuted: SET a = NULL reports its rows and changes nothing, as a null never replaces a value. |
| C151 | An UPDATE does not undo other writes | partial | Proved if the other statements have not written to the rows the UPDATE changes, and for all other rows whatever has been written. Refuted: an UPDATE writes back all columns it has read, so a value another client has written to another column of the row in the meantime is lost. |
| C152 | A query returns exactly the rows for which its filters hold | partial | Proved: no query returns a row for which a filter does not hold; the filter sent has no user functions; and exactly the right rows are returned if AND and OR with user functions stand only below AND and OR. Refuted: of a conjunction with a user function the rest is kept everywhere in an expression, so (f(a) AND b = 1) IS NOT TRUE becomes (b = 1) IS NOT TRUE and rows are lost. |
| C153 | Counting rows of a query counts all its rows | partial | Proved for plans in which every count of literals stands on a table or a join through nodes with one input. Refuted: of a union all but the first input are dropped; a relation without a table panics. |
| C154 | topk and bottom return the best rows | proved | For the sort the rule makes, any values, nulls last. |
| C155 | exact_count counts, whatever else is selected | partial | Proved for select lists of columns with names apart. Refuted: an alias keeps the rule from working, a group by a column whose name begins with exact_count is refused, and count and exact_count of the same column together are refused. |
| C156 | value_fill fills the gaps and keeps the values | partial | Numbers are exact. Known values are always kept. Every row gets a number only under conditions: false for linear when the last row has none (memory never written is returned), for previous at the start, for ma with no number among the first four rows; the window of ma never loses a row. The test whether the model of method ar settles is made before its coefficient is computed, so models that do not settle are used. |
| C157 | timestamp_repair gives the regular times nearest to those stored | partial | The cost found is the least, and the times are on the grid unless points are inserted in front. Two rows or fewer, an interval of 0 and equal times panic; points inserted in front get time 0 and value 0. A query without rows panics. |
| C158 | value_repair keeps the change of values within the speeds | partial | Method screen with exact numbers. Speeds, unchanged series and missing values are proved for three rows or more. Exactly one number, or two rows, panic; a smallest speed above the largest is accepted. |
| C159 | Scores of data quality are between 0 and 1 and depend on the rows alone | partial | Scores are between 0 and 1 if there is an answer, and do not depend on the partitions. Only the last batch of a partition is counted; unsigned columns are an error; validity of two rows panics. |
| C16 | Deletions survive a restart | partial | Opening the deletion file again gives the deleted triples that were in memory, after every history of deletes, compactions of the deletion file and restarts, provided no file looks like one with a footer. After a history exactly the named points count as deleted, for columns not deleted from the beginning of time in one range and to the end of time in another (refuted for those). A delete between writing and installing a compacted deletion file is lost; the leftover of a failed compaction is installed by a later one. |
| C160 | Repair functions keep the integers of a column | partial | For value_fill on signed columns: integers up to 2^53 are kept. Larger ones change, unsigned columns are refused, rows without a number become 0. |
| C161 | Dumped statements make the objects they were printed from | partial | Proved for objects whose names have no double quote or line feed, without limiter, with field types and encodings that statements have; refuted for names with double quotes (a role gains the rights of an owner), limiters, geometries and encodings set by ALTER that do not fit the type. External and stream tables are not modelled. |
| C162 | Durations are read as they are printed | proved | Fits is the range of std::time::Duration. |
| C163 | A dump restores the cluster | partial | Proved for clusters whose objects can be printed, whose grants and members refer to what exists, and whose first objects are unchanged; refuted for grants on dropped databases, members with dropped roles, names that differ from cnosdb, root, public in case only, changed options of first objects, tags added later. |
| C164 | The client sends the statements of a file | partial | Proved for files in which no line but the last of a statement ends with a semicolon and no line begins with -- or a command; refuted for strings with line feeds: a comment of a user can carry a statement that makes an administrator. |
| C165 | Limits of a tenant hold over the whole cluster | partial | Proved for any sequence of checks with fixed settings, with the overdraft of every node counted (without it: C165_strict_refuted). Changing any option of the tenant gives all tokens back (C165_comment_refuted). Settings and sizes up to 2^61, intervals above zero. |
| C166 | Requests of a limited tenant pass while there are tokens | partial | Proved: enough tokens on the node, or a request below the overdraft and a meta server that can give all. False: requests above the overdraft are refused forever by a node without tokens; requests that need exactly what they are given; without an overdraft the first request; overdrafts near 2^63; a refused write still uses up a token of the first of its two checks. |
| C167 | Changed limits are the limits that are used | partial | Proved for the store, the node that runs the statement and nodes that hear of it by the watch log. False: intervals of zero are accepted and make the meta server panic, negative ones refill at once; a full synchronisation does not renew limits; removals are not heard. |
| C168 | Only DROP removes databases | partial | Proved for executions without statements that drop or recover it (C168_kept), and with RECOVER if no name has a '-' (C168_recover_partial). False otherwise: names of tasks collide (C168_recover_refuted). |
| C169 | A scheduled drop can be recovered | partial | The database is there until its time, and RECOVER succeeds. It stays if the recovery is heard of by all nodes before the time and no node was reported unreachable or reads everything again; each of these is necessary (refutations). |
| C17 | A delete removes exactly the rows it names | partial | In every column exactly the stored points that are not deleted are returned, in order. A row deleted in all its columns (what DELETE records) is still returned with null values: refuted for rows. |
| C170 | A scheduled drop is done at its time | partial | Done exactly from its time on if the node with the mark hears of it in time, does not stop, and hears of no other task of the name. Late events, restarts, second failures, take-overs and uncached tenants lose the drop (refutations). |
| C171 | The answer of a DROP is what has happened | partial | Success is answered exactly if the object is gone, provided no task of the name has failed or is under way. False otherwise (refutations). |
| C172 | An UPDATE of tags changes exactly the rows it names | partial | Proved for tables whose tag columns are in the order of the decimal texts of their ids (all ids below 10), when all sets are reached and no earlier update has failed. False for other tables (C172_order_refuted), and not always possible. |
| C173 | An UPDATE of tags does not make two rows of one | partial | Proved for one replication set, and for several if the new tags do not occur anywhere. False otherwise, and for later writes. |
| C174 | An UPDATE of tags is done or refused | partial | Proved when all sets are reached and no write comes between; a retry completes a partial update. False otherwise. |
| C175 | A command to the meta service is carried out once | partial | Proved for every command but the ones that draw an id, take tokens, add a vnode or drop a tenant; creation of buckets apart. Refuted for the answer after a lost answer, for added vnodes and for tokens. |
| C176 | A node finds the leader of the meta service | partial | One server down: every command is answered. More: one of the next commands is. Refuted for each single command with two of five down. |
| C177 | Who reads the metadata sees the commands that were answered | partial | Holds for the client that wrote, as long as its first attempt to read is answered; what is read is always a beginning of the log. Refuted for other clients and after a failed attempt. |
| C178 | The limit on concurrent queries is exact | partial | Proved: never more tracked queries than slots, for all histories; the tracked queries are exactly those at work in histories without the named events. Refuted: KILL of a query whose result is read frees the slot while the work goes on; a client that leaves during the start, a stream that cannot be stored and a stream whose start fails keep their slots for ever. |
| C179 | KILL stops a query | partial | Proved for queries inside of start and for running streams. Refuted: the result of a killed query goes on being computed; KILL itself needs a slot; when the removal from the meta service fails the killed stream runs again after a restart. |
| C18 | Records appended to a log file are read back in order | partial | Proved for every record sequence whose last record is non-empty and whose file does not look like carrying a footer; both conditions are necessary, as the two refutations show. |
| C180 | Only those who may see a query may kill it | partial | Visibility proved. Refuted for KILL: it demands no privileges, every user may kill every query of every tenant. |
| C181 | Stored streams run after a restart and after a takeover, on one node | partial | Proved when the streams find slots and can be planned. Refuted: streams beyond the limit are stored and do not run; a node that is only taken for dead goes on; a stream whose start failed is started by a restart. |
| C182 | A trace that is read has all its spans | partial | Holds for spans that differ in their tags. Refuted: only the first row of a record batch is read, so that of spans with the same tags all but the first are lost. |
| C183 | A span that is read through the Jaeger API is the span that was sent | partial | Ids, name, kind, flags, start, duration, attributes and the first events are those sent. Refuted: a span gets the events of other spans of the table, events after the tenth are lost, attributes of events are not in the logs. |
| C184 | A search gives the spans that meet it, each in its trace and with its process | partial | Spans are found and grouped rightly if they differ in their tags. Refuted: the first two spans of a trace get the process id p1, so that the first is shown with the process of the second. |
| C185 | The conditions of a search for traces are those that are written | partial | Durations of whole numbers that fit and attributes without colons and commas are read exactly. Refuted: numbers wrap, a minus gives a huge duration, attributes with colons are dropped, two attributes in tags panic, the end is compared as a double. The end of what is found is at most 1024 ns late. |
| C186 | A replica command that succeeds leaves a group whose voters are the listed replicas | partial | ADD and REMOVE as commands with all their attempts, failures, lost answers and redirections, by nodes that know the listing; PROMOTE as carried out by a node. Refuted: two ADDs at a time both succeed and the first replica is listed without being a member; a PROMOTE whose second half fails is tried at the next replica, which answers that all is well, with one voter left. PROMOTE takes no member out of the group, with remembered listings too. |
| C187 | Replica commands never cost acknowledged writes | partial | Every sequence of writes, elections, ADD, REMOVE and PROMOTE with failures at any step, run one after the other by nodes that know the listing; openraft's guarantees about majorities are assumed as the model writes them out. Refuted for nodes whose copy of the listing lags: a node gets listed with two vnodes, and removing the one destroys the other, because dropping a raft node does not look at the vnode's number. |
| C188 | A replica command that failed can be repeated | partial | DESTORY can be repeated as long as the leader's own replica is there. Refuted: after an ADD that does not reach the listing, every further ADD of the node fails, REMOVE cannot name the vnode, and once that vnode is elected no write is taken; a PROMOTE that fails half way leaves one voter, and repeating it answers that all is well and changes nothing. |
| C189 | A node has one replica of a set, and a set has a leader among its replicas | partial | As C187: for commands one after the other by nodes that know the listing; refuted for nodes whose copy lags. |
| C19 | A torn log file yields a prefix | partial | Readers that stop at the first error return exactly the records that are wholly present. WAL recovery goes on searching after a torn record: proved when no record magic occurs in the torn bytes, refuted otherwise. |
| C190 | The catalogue shows a user exactly the databases, tables and columns they may read | proved | Assumes that databases and tables are stored under their names, each once (World.Ok). |
| C191 | SHOW and DESCRIBE answer what the user may see and nothing else | partial | SHOW TABLES and DESCRIBE are exact for those who may read the database, SHOW DATABASES for those who may read all; rows are never shown otherwise. Refuted: who may read one database is refused by SHOW DATABASES and all of information_schema; DESCRIBE and queries tell whether an object exists that the user may not read. |
| C192 | System tables show nothing that a user may not see | proved | All system tables except QUERIES (area Track). |
| C193 | A tenant sees the usage of its own only, under the names of the measures | partial | Exact rows of the tenant; refuted: names of measures are found in lower case only. |
| C194 | A CSV or TSV answer can be read back, whatever the texts are | proved | For the texts of values. NULL and the empty text are written alike (C194_null_refuted), so that no reader can tell them apart. |
| C195 | An answer is the same whether it is chunked or not and however the result is spread over batches | partial | Proved for CSV, TSV and nd-JSON, and for answers that are not chunked in all formats. Refuted for chunked JSON and tables, and for statements without result. |
| C196 | A JSON answer is one JSON text with the rows of the result | partial | nd-JSON always; JSON if it is not chunked and has a row. Refuted: an empty result is an empty text, a chunked answer is an array per batch. |
| C197 | A client can tell a failed or limited answer from a complete one | partial | Answers that are not chunked are complete or an error; chunked answers keep the limit. Refuted: chunked answers have status OK and the error as another row, not compressed though marked so; the limit is not asked for other answers; a quote ends the message. |
| C198 | A client gets the format and the encoding that it asks for | partial | Proved for single content types and lists of encodings without weights. Refuted for lists, parameters and wildcards as HTTP clients send them. |
| C199 | The credentials that a user sends are those that the server checks | partial | For user names without a colon. Refuted: a user whose name has a colon is taken for another one. |
| C20 | Only records with a matching checksum are ever returned | proved | For every byte string, every reader policy and every checksum function; records returned never overlap. |
| C200 | The rows of an answer with ORDER BY are in this order | partial | Proved if nothing is promised below the ORDER BY or expansions have one projection that keeps the columns. Refuted for sliding windows over rows in order. |
| C201 | A scan with LIMIT gives the first rows it reads, as many as asked for if there are so many | proved |  |
| C202 | A data node keeps databases of different tenants apart | partial | Proved if no tenant has a dot in its name. Refuted for names with dots, which are accepted. |
| C203 | A database has the settings that it was created with | partial | Proved if no database was dropped since the node was started and no tenant has a dot in its name. Refuted for databases that are dropped and made again. |
| C204 | What is stored for a vnode is what was written to it, until it is removed | proved | Vnode ids are given once (C63), so that a vnode belongs to one database; durability of a write is that of C114. |
| C205 | A tenant has no more databases than its limit | partial | Proved for one node, and for any number if statements are given to nodes that have heard of all changes. With N nodes there are at most N-1 too many, and that many are possible. |
| C206 | Databases keep within the limits of their tenant | partial | Proved without ALTER DATABASE, which does not ask for the limits. |
| C207 | A tenant has no more members than its limit | partial | Proved if statements are given to nodes that have heard of all changes; otherwise one node can add any number. |
| C208 | Changed limits on objects are the limits that are used | partial | Proved for the node of the statement and nodes that start later; other nodes never hear of it. |
| C209 | A node that has heard of a change of a member acts on it | partial | Proved if answers to questions arrive before anything else happens; an answer that comes late brings a removed member back. That the changes themselves arrive in order is C108. |
| C21 | The replicated log behaves as one sequence | partial | Every history of appends, prefix removals and suffix truncations and every range, at the level of file entries and positions; reading bytes at a position while the file only grows. Refuted: a reader kept open across a truncation returns the cut-off entry; last_entry reads the cache only and can report nothing while entries exist. I/O errors not modelled. |
| C210 | CREATE DATABASE IF NOT EXISTS succeeds if the database is there | partial | Proved while the limits would allow a further database. |
| C211 | A file has what was written to it | partial | Proved for operations that do not seek behind the end; the length for appending only. False otherwise: a flush of an empty buffer behind the end makes the remembered size too large; after seeking back overwritten bytes are counted twice. |
| C212 | A flush that succeeds has stored everything | partial | Proved: old bytes under all failures; a successful flush if no operation failed before. False after a failure: the buffer is taken before it is written, so a failed flush drops it and the next flush succeeds; a write of zero bytes by the system counts as done. |
| C213 | The log finds its records where it wrote them | partial | Proved if no record was refused. False after one failed sync, one failed write of the buffer or one failed truncation: the size of the log and the position of the file part for good. |
| C214 | A file is found by its number | partial | Proved for logs with numbers below 1000000 and for data files and manifests with all numbers. False for all logs from 1000000 on (the pattern has six digits), and for foreign names. |
| C215 | After a start the newest log is continued and all logs are read in order | partial | Proved for numbers below 1000000. From there on the newest log is neither continued nor read, and logs are out of order. |
| C216 | The log of a meta server keeps the entries it was given | proved | The agreement with data nodes is for indexes and ranges; their last entry can be wrong (C21). |
| C217 | The log of a meta server has no holes | partial | Proved unless the server stops in the middle of a purge beyond its last entry, as after the installation of a snapshot; then the last log id is before what is purged. |
| C218 | A meta server carries out every committed command once | partial | No command is seen twice, out of order or without being committed, in all histories; all are seen if the server never stops while it applies entries. False otherwise: an entry is noted as applied, in another environment, before its command is carried out. |
| C219 | A cached reader says what its file says | partial | Proved when nothing comes between the parts of get_tsm_reader. False otherwise: a DELETE or an UPDATE of tags between opening a file and keeping its reader leaves a reader without the tombstone or with the old tags in the cache. Also proved for readers opened at the same time, as long as no file is changed while it is being opened. |
| C22 | The in-memory tail of the log agrees with the log | proved | Ring buffer with wrapping positions modelled; histories with ascending puts. |
| C220 | The cache of readers keeps to its capacity and keeps the readers used last | partial | Proved: fewer than 16 readers more than configured, none more if the capacity is a multiple of 16. False as configured: with a capacity of one, 16 readers are kept. |
| C23 | Crash recovery replays exactly the unflushed committed writes | partial | Exact replay and truncation for every log, flushed and applied index when every apply succeeds. Refuted in general: an apply error ends recovery early and still reports success; a removed prefix of a file comes back after restart. |
| C24 | Log entry encoding is lossless | partial | Type, index and contents recovered exactly for every entry and codec, alone and from a whole file; bincode and the compressors are parameters assumed lossless. Refuted: blank entries are recorded with the type of normal ones; entries written with snappy are unreadable once the configured codec is Null. |
| C25 | Newest write wins in memory | partial | For every history of writes and deletes whose schema versions never go down, the value returned for a time and column is that of the most recent write supplying one, for times no single batch holds twice. The full statement is false: a batch holding a time twice that is merged into an earlier batch returns the first of the two values; a write with an older schema after a newer one loses, and can hide the newer columns. Also proved: the buffer of a vnode keeps series apart. |
| C26 | Reads from memory are strictly increasing in time and invent nothing | partial | For every history of writes, deletes and dropped columns: strictly increasing, exactly the written and not deleted times in the ranges, except i64::MAX, which is never returned (refutation). |
| C27 | Deleting a time span from the write buffer removes exactly that span | proved | For every history: reads after a deletion are the reads before it restricted to the times outside of the ranges, values unchanged. |
| C28 | Dropping a column leaves other columns unchanged | partial | Times never change; the row of a time is unchanged if no group holds the time twice. The full statement is false: dropping a column reverses the rows of equal time, so overwritten values come back; a late write with the old schema shifts values into other columns. |
| C29 | The set of live data files survives a restart | proved | For every history of edits, rewritings of the manifest and restarts; file attributes include level, id, time range, size. |
| C30 | File numbers are never reused for live files | proved |  |
| C31 | The flushed-up-to mark never moves backwards | proved |  |
| C32 | Manifest batches are self-delimiting | proved |  |
| C33 | Merging sorted inputs keeps every row, sorted | proved | Model of SortPreservingMergeStream with its tree of losers, builder, cursors and inputs that may be pending; inputs are sorted lists of rows cut into batches. |
| C34 | Duplicate timestamps merge column by column, newest non-null wins | proved | Needs a positive batch size and at least one input; with batch size 0 the stream ends at once (refuted witness). |
| C35 | Sources grouped for merging never split a timestamp | proved | C35_groups states the property for the grouping; C35_series_read says the whole read path (sort, group, merge, concatenate) gives the right answer for all sources. C35_unsorted_refuted shows that the order by time range is needed. |
| C36 | Filtering while reading does not change the answer | partial | False as stated: each source is filtered before the merge, so overwritten values that pass the filter come back (C36_stale_refuted) and rows whose cells come from several sources can be lost (C36_lost_refuted). Proved for predicates that decide alike for a merged row and its parts, in particular predicates on time only, and for any predicate if no time is in two sources. |
| C37 | The most recent write is visible whatever flushes and compactions happened | partial | False as stated: a compacted file takes a larger file id than the active write buffer, so older compacted values hide newer writes. Proved for all interleavings of write, switch and flush, and for histories in which every compaction and write is safe in the sense of Db.Safe. |
| C38 | Compaction preserves the merged contents | partial | Proved for requests in the order of their first series: the output has exactly the merged rows of the input, the last file of the request wins; reading before and after gives the same rows if the request is also in the order of file ids. Refuted otherwise: a request in another order of series ends with an error; a delta compaction puts the level file first although its id may be larger, so the value read changes. |
| C39 | Compaction groups are complete and disjoint | proved | For all blocks of a series with lo <= hi: the groups hold each block exactly once, none is empty, and the blocks of an earlier group end before those of a later group begin. |
| C40 | Every series of every input file is compacted | partial | Proved when the files of the request are in the order of their first series: each series is visited once, ascending, with all its blocks. For any order, each block of each file is visited exactly once if the first file is not empty. Refuted otherwise: the first round does not sort the files, so a series can be visited twice; an empty first file ends the compaction at once. |
| C41 | File pruning by series membership filter never hides data | partial | Proved for every filter size in memory and, after reload, for every requested size above 32 bits (the code uses 1048576); a filter of at most 32 bits changes its mask on reload, shown by a witness. Hash functions are arbitrary parameters. |
| C42 | Distinct series have distinct index keys | proved | For names shorter than 64 KiB; C42_long_names_collide shows that the bound is needed (u16 length field). |
| C43 | Series identity is stable | proved | For all histories of registrations, lookups, deletes, renames, flushes and clean restarts. A crash that loses unflushed index entries is not in the histories; there the WAL replays the registrations. |
| C44 | Tag lookup returns exactly the matching series | partial | Exact for table names without dots; the refutations show a lookup with several tags or a dotted table returning wrong series. |
| C45 | Tag range scans stay within their tag | partial | Exact for table names without dots and numeric tag keys (the form the code writes); refuted for dotted tables. |
| C46 | Renaming tags never merges two series | partial | Holds for client-issued updates; C46_replay_refuted shows that replaying an update from the WAL skips the conflict check. |
| C47 | Every timestamp has one time bucket | partial | Containment holds exactly for timestamps other than i64::MAX, whose bucket is empty because the end saturates (refuted there). |
| C48 | Queries reach every bucket that can hold matching data | proved | Every bucket containing a timestamp of the range is selected, and nothing else is. |
| C49 | Replica placement uses distinct nodes and fresh ids | proved | The word size of the index arithmetic is a parameter. |
| C50 | Privilege checks are transitive and never widen | proved | Reflexivity, transitivity and scope for all privileges. |
| C51 | Rate limits hold in every window | proved | For every request sequence and every clock, not necessarily monotone; interval must be positive. Times in nanoseconds, elapsed time truncated to milliseconds as in the code. |
| C52 | Memory reservations never exceed the pool | partial | Proved under the condition that pool size plus request does not overflow the machine word; a wrapping request is granted, shown by a witness. |
| C53 | Time precision conversion is order preserving and reversible when refining | proved | All pairs of precisions and all 64-bit timestamps. |
| C54 | Series hashing does not depend on chunking | proved | All byte strings and splits. |
| C55 | Line protocol text round-trips | partial | Every list of points with plain names is read back, with or without a final line end, whatever bytes text values have; comments are skipped. Refuted for: table names that begin with an escaped byte or #, or have an equals sign and a space; first field names that begin with an escaped byte; backslashes in names; an empty field name at the end of the text; a space at the end of a line without time. Decimal numbers are modelled, floating point text is a parameter. |
| C56 | DELETE removes exactly the rows its WHERE clause selects | partial | All matching rows are removed and unsupported conditions are refused; exact for chains with at most one comparison of the other kind; refuted: two time comparisons after a tag comparison, NULL literal, WHERE false, strict bounds in coarser precision. |
| C57 | A series is always routed to the same shard | partial | Holds for line protocol and for INSERT with sorted, non-null tags; false for JSON lines (hash never computed), for INSERT with another column order and with null tags. |
| C58 | At most one bucket per timestamp | partial | Holds for histories without a change of bucket duration; ALTER DATABASE of the duration produces overlapping buckets (refuted). |
| C59 | Retention removes exactly expired data | partial | Exact for finite TTL; with INF buckets from 1970 on are never removed, a bucket far before 1970 is (refuted). |
| C60 | Role privileges are exact | partial | Exactness and REVOKE proved; GRANT of a weaker privilege takes the stronger one away (refuted), monotone when the new privilege is at least as strong. |
| C61 | The login cache accepts only checked credentials | partial | Same user name, password and tenant were checked, for names without colon; the private key is not part of the cache key (refuted). |
| C62 | Every write finds a replica set whose leader is a member | proved | Over all command histories from an empty catalogue. |
| C63 | Bucket, shard and replica ids are unique | proved | Over all command histories below the id bound stated in the theorem. |
| C64 | Tag filters never crash the index scan | partial | Panics only for ranges excluding one value at both ends; those do occur (x < 'a' AND x > 'a'). |
| C65 | A WHERE clause reads every matching series | partial | For tables without dots, unless the scan panics (C64), and for WHERE clauses in the scope of C14. |
| C66 | Opening a log never crashes | partial | No panic for torn files when the reader stops at the first error; WAL recovery panics for a file torn right after bytes that look like a record magic. |
| C67 | Damage to one record costs only that record | proved | Stated for readers that continue after a checksum error (WAL recovery), damage confined to the data of one record. |
| C68 | Records appended after a torn record are read | partial | Proved when the cut is before the end of the record magic or behind the record header (no other record magic in the torn bytes, no checksum collision). Refuted for a cut within the header: the next appended record is lost. |
| C69 | A crash while a delete is being recorded leaves the data file readable | partial | Refuted: a file cut inside the data of its last record cannot be opened. Proved: whatever the cut, opening fails or gives exactly the deletes of a prefix of the records. |
| C70 | A flush writes what reads return | proved | For every history; encoding of the pages is the subject of other properties. |
| C71 | A recorded change of the file list is read back as it was written | proved |  |
| C72 | A crash while the manifest is written leaves a vnode that opens | partial | False in the code: a torn last record makes the manifest unreadable (refuted with a witness). Proved: what a torn manifest yields for every cut. |
| C73 | A data node that is upgraded keeps the files of its vnodes | proved | For shared manifests in which edits of a vnode come after the one that adds it, with levels below 5. |
| C74 | The flushed-up-to mark never covers a write that is in no file | partial | Proved for every interleaving when each manifest append succeeds; refuted when one append fails and a later one succeeds. |
| C75 | A filter pushed down to a file that lacks columns loses no row | partial | False in general: a filter such as (c IS NOT NULL AND a > 5) IS NOT TRUE is rewritten inside the function and loses rows of files without column c. Proved for filters in which nothing is rewritten inside a function other than AND and OR, and for files that have all the columns. That the planner leaves such an expression in this form is not modelled. |
| C76 | Malformed line protocol text is refused, never crashes | partial | The parser panics on a field without value followed by a comma, space or line end (refuted). Every other text is read or refused, all slices of the code are shown to be in bounds. |
| C77 | Skipping column groups by statistics hides no matching row | partial | False for float columns with NaN: NaN does not change the statistics, and a != 1.0 skips a group that holds 1.0 and NaN. Proved for all filters and all column types if float pages have no NaN (and no negative zero, if the query engine compares floats by their total order). The pruning condition of DataFusion is modelled from its documentation. |
| C78 | Reading neighbouring pages at once gives each page its own bytes | proved | Bytes behind the end of the file read as zeros, as in the code. |
| C79 | time_window gives each row the windows with its time in them | partial | Holds exactly if the length is a multiple of the slide or shorter than it; otherwise no window is missed but one too many may be given (refuted). Refuted for times more than a slide before the start (e.g. before 1970), for a start time not smaller than the window, and for lengths beyond 2^64 ns. |
| C80 | first and last give the value of the first and last row | partial | Proved for rows without NULL values; with them the first row of a batch may be NULL and hides the others, so the result depends on the batches (refuted). |
| C81 | gauge_agg keeps the ends of a series | proved | For every plan and every choice among equal times; with different times the result is unique. |
| C82 | state_at and duration_in agree with the rows | partial | Proved for tables with at least two rows with a time. Refuted for a single row: the result is taken for a compact one and state_at is an error. |
| C83 | sample returns the asked number of rows | partial | The values are those of different rows, and there is one if there are rows; the number is right for a single batch. With several batches there may be more than n values, or fewer although there are enough rows (both refuted, for every random choice). |
| C84 | mode gives a most frequent value | proved | For fewer than 2^32 rows. Among values equally frequent the choice is that of the hash map. |
| C85 | increase is the growth of a counter | partial | Proved for plans with one phase, whatever the batches. With two phases the growth between partitions is lost (refuted); whether the planner chooses two phases is decided outside of the repository. |
| C86 | Data files give back what was written | proved | Hypotheses: numbers fit into their types (file and metadata below 2^64 bytes), pages carry their checksum, a series belongs to one table. bincode is modelled from its documentation, compressors are any lossless functions. The contents of pages are C09. |
| C87 | Column groups that are copied as raw bytes stay the same | proved | Same hypotheses as C86. The series key is the one in the chunk of the source. |
| C88 | Changing tag values keeps the data | partial | Holds when tsm_meta_compress is null (the default), for any sequence of updates and whatever the compression of the file was. False with compression: the rewritten footer says version 1, so the compressed metadata is taken for uncompressed and the file cannot be opened any more. An update that is interrupted after the truncation leaves a file without footer. |
| C89 | Time ranges of data files are exact | proved | Same hypotheses as C86. |
| C90 | count without a condition is the number of values | partial | False in general: NULLs, deleted rows and overwritten rows are counted, an added tag shifts the positions of fields in buffers, renamed columns are looked up by the old name, a projection with an alias is ignored. Proved: never too small while names and order are kept, and right without those cases. |
| C91 | A flush does not change a count | partial | After a flush the count of rows is right and the count of a field is the number of rows. False in general: NULLs are counted only after the flush, rows written twice only before. |
| C92 | Write requests only add columns to a table | proved | Interleaved steps of any number of requests at any number of nodes with caches that are notified at any later time; no DROP TABLE (C96) and no ALTER TABLE (C95) in between. |
| C93 | Columns are found by name | partial | Positions are in bounds after any sequence. Lookup by name holds if each change_column keeps the name or uses a free one; refuted otherwise: changing the name of a column to that of another makes the other one unreachable (the planner checks this, the method does not). |
| C94 | A write request gets the schema that is stored | partial | Holds for requests none of whose commands is refused. Refuted: when the meta service refuses the update (UpdateTableConflict) or the creation, the code calls itself again but drops the result and returns the schema it computed first, which was never stored; values are then written under the id of another column. One node and one client are enough, since the cache is refreshed by notification only. |
| C95 | ALTER TABLE never uses a column id twice | partial | Holds for changes one after another. Refuted for two ALTER TABLE ADD at the same time: the id is computed at planning and put into the table that is read again at execution. |
| C96 | A change of a table starts from the stored table | partial | Holds without DROP TABLE. Refuted: versions start again at 0, so an update computed from the old table is accepted for the new one and replaces its columns; process_update_table inserts a table that does not exist. |
| C97 | CREATE TABLE and ALTER TABLE make the table described | partial | ALTER TABLE ADD FIELD x TIMESTAMP makes a second time column; all else is proved. |
| C98 | A compaction keeps the values of every column | partial | Proved: rows and times are always kept; a column is kept when newer column groups of a series have it whenever older ones do, and for flushed files in which all series have one version. The full statement is false in the code: values of a new column are lost when a flushed file has series of different versions, and by a second compaction. |
| C99 | A query gets the values of each column by its id, whatever versions of the table wrote the files | partial | Proved for sources whose column groups have the same columns in the projection, and for all files as flushed and buffers at any points of any history of changes.  A chunk can be read iff all its column groups have the same projected columns (C99_fails); a compaction writes chunks where this fails after ADD or RENAME (refuted). |

## Trusted base

* The Lean 4.33 kernel.
* The axioms listed below; no others, no `sorry`, no compiled evaluation.
* The hand translation from Rust to Lean; each definition cites its source lines so that it can be compared.
* The assumptions about other crates above.

### Axioms of each theorem

**propext, Classical.choice, Quot.sound**

`Codec.C01_integer_roundtrip`, `Codec.C01_integer_plain_roundtrip`, `Codec.C02_unsigned_roundtrip`, `Codec.C03_timestamp_roundtrip`, `Codec.C03_timestamp_roundtrip_first_valid`, `Codec.C03_timestamp_plain_roundtrip`, `Codec.C04_simple8b_roundtrip`, `Codec.C05_boolean_roundtrip`, `Codec.C06_string_snappy_roundtrip`, `Codec.C06_string_roundtrip`, `Codec.C06_string_plain_roundtrip`, `Codec.C07_float_roundtrip_partial`, `Codec.C07_never_different`, `Codec.C07_float_plain_roundtrip`, `Codec.C08_varint_self_delimiting`, `Page.C09_page_roundtrip_partial`, `Page.C09_page_roundtrip_compaction_partial`, `Page.C09_damage_noticed`, `Page.C09_burst_noticed`, `Page.C09_four_bytes_noticed`, `Page.C09_bigint_deltats_refuted`, `Page.C09_sliced_nulls_refuted`, `Page.C09_bitmap_damage_refuted`, `Time.C10_overlaps_exact`, `Time.C10_includes_exact`, `Time.C10_intersect_exact`, `Time.C10_merge_hull`, `Time.C10_merge_union`, `Time.C10_boundless_exact`, `Time.C10_total_time`, `Time.C11_exclude_exact`, `Time.C11_collection_exclude_exact`, `Time.C11_exclude_time_ranges_partial`, `Time.C12_new_exact`, `Time.C12_insertions_partial`, `Time.C12_overlaps_exact`, `Time.C12_intersect_exact`, `Predicate.C13_and_sound_partial`, `Predicate.C13_filter_exact_partial`, `Predicate.C14_pushdown_sound_partial`, `Time.C15_bounds_partial`, `Tomb.C16_format_roundtrip`, `Tomb.C16_restart_partial`, `Tomb.C16_history_partial`, `Tomb.C16_save_load`, `Tomb.C16_compact_keeps`, `Tomb.C17_points`, `Tomb.C17_rows_partial`, `Tomb.C17_after_history_partial`, `Tomb.C17_empty_row_refuted`, `Wal.C18_read_back_partial`, `Wal.C18_footer_lookalike_refuted`, `Wal.C19_torn_file_partial`, `Wal.C19_torn_wal_partial`, `Wal.C19_wal_recovery_invents_refuted`, `Wal.C20_checksum`, `Wal.C20_one_call`, `Wal.C20_damage_detected`, `Wal.Log.C21_log_is_one_sequence`, `Wal.Log.C21_append_visible`, `Wal.Log.C21_last_entry_refuted`, `Wal.C21_read_at`, `Wal.C21_stale_reader_refuted`, `Wal.Ring.C22_cache_agrees`, `Wal.Ring.C22_keeps`, `Wal.Log.C23_recovery_partial`, `Wal.Log.C23_nothing_applied`, `Wal.Log.C23_log_after_recovery`, `Wal.Entry.C24_entry_roundtrip`, `Wal.Entry.C24_log_roundtrip`, `Wal.Entry.C24_blank_type_refuted`, `Mem.C25_latest_partial`, `Mem.C25_same_schema_partial`, `Mem.C25_series_separate`, `Mem.C25_hidden_column_refuted`, `Mem.C26_times_partial`, `Mem.C26_timestamps`, `Mem.C27_delete_ranges`, `Mem.C27_delete_series`, `Mem.C27_timestamps`, `Mem.C28_times`, `Mem.C28_rows_partial`, `Mem.C28_distinct_partial`, `Version.C29_live`, `Version.C29_restart`, `Version.C29_no_failure`, `Version.C29_snapshot`, `Version.C29_restart_from_bytes`, `Version.C30_after_restart`, `Version.C30_running`, `Version.C31_mark_is_maximum`, `Version.C31_monotone`, `Version.C32_batch`, `Reader.C33_merge_sorted`, `Reader.C34_newest_value`, `Reader.C35_series_read`, `Reader.C36_respecting_partial`, `Reader.C36_time_only_partial`, `Reader.C36_no_shared_time_partial`, `Reader.Latest.C37_safe_partial`, `Reader.Latest.C37_no_compaction_partial`, `Compact.C38_compact_partial`, `Compact.C38_read_same_partial`, `Compact.C38_order_refuted`, `Compact.C39_groups`, `Compact.C40_visits_partial`, `Compact.C40_each_block_once_partial`, `Utils.C41_filter_never_hides`, `Utils.C41_reloaded_filter_never_hides_partial`, `Index.C42_index_keys_injective`, `Index.C43_lookups_inverse`, `Index.C43_distinct`, `Index.C43_register`, `Index.C43_stable`, `Index.C43_no_reuse`, `Index.C43_delete`, `Index.C43_restart`, `Index.C44_table_exact_partial`, `Index.C44_one_tag_exact_partial`, `Index.C44_tags_complete`, `Index.C44_flushed_exact_partial`, `Index.C45_range_lookup_exact_partial`, `Index.C46_accepted`, `Index.C46_rejected`, `Meta.C47_bucket_contains_partial`, `Meta.C47_equal_or_disjoint`, `Meta.C47_bucket_length`, `Meta.C48_mapping_tight`, `Meta.C49_placement`, `Utils.C53_refine_round_trip`, `Utils.C53_monotone`, `LineProto.C55_round_trip_partial`, `LineProto.C55_comment_ignored`, `LineProto.C55_table_first_refuted`, `LineProto.C55_field_first_refuted`, `LineProto.C55_table_equals_refuted`, `LineProto.C55_backslash_refuted`, `LineProto.C55_comment_refuted`, `LineProto.C55_empty_field_name_refuted`, `LineProto.C55_trailing_space_refuted`, `Predicate.C56_delete_removes_matching`, `Predicate.C56_delete_chain`, `Predicate.C56_delete_exact_partial`, `Predicate.C56_delete_exact_refuted`, `Predicate.DeleteTime.C56_delete_time_complete`, `Predicate.DeleteTime.C56_delete_time_exact_partial`, `Meta.C58_one_bucket_per_timestamp_partial`, `Meta.C58_create_makes_bucket`, `Auth.C61_invalidation_effective`, `Meta.C63_ids_unique`, `Index.C65_filter_exact_partial`, `Index.C65_where_keeps_series_partial`, `Wal.C66_torn_file_no_panic_partial`, `Wal.C66_wal_recovery_panics_refuted`, `Wal.C67_damage_costs_one_record`, `Wal.C68_append_behind_torn_partial`, `Wal.C68_torn_header_loses_next_refuted`, `Tomb.C69_torn_delete_partial`, `Mem.C70_flush_is_read`, `Version.C71_edit_round_trip`, `Version.C72_torn_manifest_partial`, `Version.C73_split`, `Version.C73_again`, `Flush.C74_mark_covers_files_partial`, `Flush.C74_no_write_lost_partial`, `LineProto.C76_no_panic_partial`, `LineProto.C76_missing_value_refuted`, `Stats.C77_kept_partial`, `Stats.C77_no_row_skipped_partial`, `Window.C79_windows_partial`, `Window.C79_gaps_partial`, `Window.C79_none_missed_partial`, `Window.C79_tumbling_once`, `Agg.Gauge.C81_gauge`, `Agg.Gauge.C81_gauge_unique`, `Agg.StateAgg.C82_state_at_partial`, `Agg.StateAgg.C82_duration_in_partial`, `Agg.StateAgg.C82_duration_from_partial`, `Agg.StateAgg.C82_duration_partial`, `Agg.Sample.C83_values_partial`, `Agg.Mode.C84_mode`, `Tsm.C86_file_round_trip`, `Tsm.C86_in_order_accepted`, `Tsm.C87_raw_copy`, `Tsm.C88_update_tags_partial`, `Tsm.C88_compressed_unreadable`, `Tsm.C88_update_compressed_refuted`, `Tsm.C88_interrupted_unreadable`, `Tsm.C89_time_ranges`, `Count.C90_upper_partial`, `Count.C90_count_partial`, `Count.C90_rule_partial`, `Count.C91_rows`, `Count.C91_field`, `Count.C91_same_partial`, `Schema.C95_ids_partial`, `Schema.C97_drop`, `Schema.C97_time_partial`, `Compact.Cols.C98_keeps_partial`, `Compact.Cols.C98_times`, `Compact.Cols.C98_common`, `Compact.Cols.C98_flush_partial`, `Compact.Cols.C98_again_refuted`, `Align.C99_partial`, `Align.C99_history_partial`, `Align.C99_refuted`, `Align.C99_rename_refuted`, `Align.C100_partial`, `Align.C100_history_partial`, `Align.C100_refuted`, `Write.C101_write_partial`, `Write.C101_series_partial`, `Write.C101_group`, `Write.C101_mixed_refuted`, `Write.C101_strict_refuted`, `Write.C102_types_partial`, `Write.C102_strict_refuted`, `Write.C102_strict_panic`, `Write.C103_replay_partial`, `Write.C103_drop_partial`, `Write.C103_rename_refuted`, `Write.C103_moved`, `Write.C103_drop_refuted`, `Write.C103_type_refuted`, `Pick.C104_rows_partial`, `Pick.C104_picked_partial`, `Pick.C104_read_partial`, `Pick.C105_delta`, `Pick.C105_marked_partial`, `Pick.C105_again_partial`, `Pick.C106_before_partial`, `Pick.C106_running_partial`, `Watch.C107_changes_partial`, `Watch.C107_recent`, `Watch.C107_watch_partial`, `Watch.C107_refuted`, `Watch.C108_follows_partial`, `Watch.C108_commands_legal`, `Watch.C108_refuted`, `Watch.C109_partial`, `Watch.C109_refuted`, `Watch.C110_record_fixed`, `Watch.C110_open_partial`, `Watch.C110_refuted`, `Watch.C111_drop_db`, `Watch.C111_drop_tenant_partial`, `Watch.C111_refuted`, `Watch.C112_partial`, `Watch.C112_refuted`, `Watch.C113_partial`, `Watch.C113_refuted`, `Replica.C114_partial`, `Replica.C114_restart_partial`, `Replica.C115_partial`, `Replica.C116_flushed_partial`, `Raft.C117_partial`, `Raft.C117_queries_partial`, `Raft.C117_single_partial`, `Raft.C118_groups_are_independent`, `Raft.C119_snapshot_meta`, `Raft.C119_keep_none_refuted`, `Cluster.C120_one_table_partial`, `Cluster.C120_write_is_one_request`, `Cluster.C120_delete_is_one_request`, `Cluster.C120_acknowledged_is_visible_partial`, `Cluster.C121_refused_request_no_effect_partial`, `Plan.C124_statements_partial`, `Plan.C124_requests_partial`, `Plan.C124_tokens_partial`, `Plan.C124_http_partial`, `Plan.C124_member`, `Plan.C124_member_metadata`, `Plan.C124_admin`, `Plan.C124_external_refuted`, `Plan.C124_show_refuted`, `Plan.C124_kill_refuted`, `Plan.C124_file_refuted`, `Plan.C124_traces_refuted`, `Plan.C124_ddl_refuted`, `Plan.C125_rights`, `Plan.C125_run`, `Plan.C125_users`, `Plan.C125_root`, `Plan.C126_only_password`, `Plan.C126_http`, `Plan.C126_different_refuted`, `Plan.C127_role_partial`, `Plan.C127_role_refuted`, `Plan.C128_dropped_refuted`, `Ingest.C129_tcp_partial`, `Ingest.C129_cut_refuted`, `Ingest.C129_blank_refuted`, `Ingest.C129_time`, `Ingest.C131_where`, `Ingest.C131_kept_partial`, `Ingest.C132_line_partial`, `Ingest.C132_fraction_refuted`, `Ingest.C132_lines_refuted`, `Ingest.C132_panic_refuted`, `Ingest.C132_misread_refuted`, `Ingest.C133_fields_partial`, `Ingest.C133_scope_partial`, `Ingest.C133_resource_partial`, `Ingest.C133_span_partial`, `Ingest.C133_exact_partial`, `Ingest.C133_first_partial`, `Ingest.C133_leak_refuted`, `Ingest.C134_loki`, `Ingest.C135_flatten_partial`, `Ingest.C135_distinct_partial`, `Ingest.C135_dots_refuted`, `Ingest.C135_empty_key_refuted`, `Ingest.C136_line`, `Ingest.C137_tag_partial`, `Ingest.C137_tag_refuted`, `Ingest.C137_kind_refuted`, `Ingest.Prom.C138_time_partial`, `Ingest.Prom.C138_lines_partial`, `Ingest.Prom.C138_table`, `Ingest.Prom.C138_answer_partial`, `Ingest.Prom.C139_series_partial`, `Ingest.Prom.C139_merged_refuted`, `Ingest.Prom.C140_tables_partial`, `Ingest.Prom.C140_no_name_refuted`, `Ingest.Prom.C140_several_refuted`, `Ingest.Prom.C140_anchored_refuted`, `Ingest.Prom.C140_last_partial`, `Ingest.Prom.C141_condition_partial`, `Ingest.Prom.C141_quote_refuted`, `Ingest.Prom.C141_same_refuted`, `Ingest.Prom.C141_operator`, `Stream.C142_once_partial`, `Stream.C142_order_refuted`, `Stream.C142_unit_refuted`, `Stream.C142_sources_refuted`, `Stream.C143_in_time_partial`, `Stream.C143_delay_refuted`, `Stream.C144_table_partial`, `Stream.C144_late_refuted`, `Stream.C145_sink_refuted`, `Stream.C145_states_refuted`, `Stream.C145_mark_refuted`, `Stream.C146_again_refuted`, `Stream.C147_nothing_refuted`, `Insert.C149_insert_partial`, `Insert.C149_accepted`, `Insert.C149_extra_refuted`, `Insert.C149_twice_refuted`, `Insert.C149_time_refuted`, `Insert.C149_half_refuted`, `Insert.C149_schema_refuted`, `Insert.C149_refused`, `Insert.C150_update_partial`, `Insert.C150_null_refuted`, `Insert.C151_beside_partial`, `Insert.C151_others`, `Insert.C151_lost_refuted`, `Rules.C154_k`, `Rules.C154_k_unsigned`, `Rules.C155_exact_partial`, `Rules.C155_alias_refuted`, `Rules.C155_group_refuted`, `Rules.C155_beside_refuted`, `Rules.C155_refuted`, `Repair.C156_kept`, `Repair.C156_filled_partial`, `Repair.C156_mean`, `Repair.C156_previous`, `Repair.C156_line`, `Repair.C156_ends`, `Repair.C156_linear_refuted`, `Repair.C156_previous_refuted`, `Repair.C156_ma_refuted`, `Repair.C156_window_refuted`, `Repair.C156_refuted`, `Repair.C156_ar`, `Repair.C156_ar_error`, `Repair.C156_ar_unstable_refuted`, `Repair.C157_least_partial`, `Repair.C157_grid_partial`, `Repair.C157_regular`, `Repair.C158_completed`, `Repair.C158_speeds`, `Repair.C158_default`, `Repair.C158_unchanged`, `Repair.C158_total`, `Repair.C158_one_refuted`, `Repair.C158_none`, `Repair.C158_two_refuted`, `Repair.C158_order_refuted`, `Repair.C158_refuted`, `Repair.C158_values`, `Repair.C159_unit_partial`, `Repair.C159_missing`, `Repair.C159_regular`, `Repair.C159_validity_partial`, `Repair.C159_order`, `Repair.C159_partitions`, `Repair.C159_two_refuted`, `Repair.C159_batch_score_refuted`, `Repair.C159_unsigned_refuted`, `Repair.C159_refuted`, `Repair.C159_constant`, `Repair.C160_kept_partial`, `Repair.C160_big_refuted`, `Repair.C160_refuted`, `Repair.C160_nan_refuted`, `Dump.C161_objects_partial`, `Dump.C161_again`, `Dump.C161_others`, `Dump.C161_name_refuted`, `Dump.C161_refuted`, `Dump.C161_limiter_refuted`, `Dump.C161_geometry_refuted`, `Dump.C161_codec_refuted`, `Dump.C162_durations`, `Dump.C162_injective`, `Dump.C163_restore_partial`, `Dump.C163_injective`, `Dump.C163_grant_refuted`, `Dump.C163_member_refuted`, `Dump.C163_tenant_case_refuted`, `Dump.C163_user_case_refuted`, `Dump.C163_db_case_refuted`, `Dump.C163_public_refuted`, `Dump.C163_root_refuted`, `Dump.C163_order_refuted`, `Dump.C163_refuted`, `Dump.C163_filter_absent`, `Dump.C163_filter_alone`, `Dump.C163_filter_users`, `Dump.C164_statements_partial`, `Dump.C164_injection_refuted`, `Dump.C164_dashes_refuted`, `Dump.C164_spaces_refuted`, `Tasks.C169_stays_partial`, `Retag.C172_changed_partial`, `Retag.C172_values`, `Retag.mk_inj`, `Retag.C172_scan_once`, `Retag.C172_route`, `Retag.C173_distinct_partial`, `Retag.C173_one_set`, `Retag.C174_refused`, `Retag.C174_accepted_partial`, `Retag.C174_retry`, `Retag.scan_nodup`, `Leader.C175_once_partial`, `Leader.C175_answer_partial`, `Leader.C175_success_partial`, `Leader.C175_bucket`, `Leader.C175_answer_refuted`, `Leader.C175_vnode_refuted`, `Leader.C175_tokens_refuted`, `Leader.again`, `Leader.C176_eventually_partial`, `Leader.C177_same_client_partial`, `Track.C178_exact_partial`, `Jaeger.C182_only`, `Jaeger.C182_ids`, `Jaeger.C182_spans_partial`, `Jaeger.C182_all_partial`, `Jaeger.C182_shared_refuted`, `Jaeger.C182_series`, `Jaeger.C183_read_partial`, `Jaeger.C183_attributes_partial`, `Jaeger.C183_events_partial`, `Jaeger.C183_sent_partial`, `Jaeger.C183_foreign_refuted`, `Jaeger.C183_eleven_refuted`, `Jaeger.C183_event_attrs_refuted`, `Jaeger.C183_kinds`, `Jaeger.C184_own_partial`, `Jaeger.C184_first`, `Jaeger.C184_spans`, `Jaeger.C184_meets`, `Jaeger.C184_found_partial`, `Jaeger.C184_first_refuted`, `Jaeger.C185_duration_partial`, `Jaeger.C185_filter_partial`, `Jaeger.C185_all`, `Jaeger.C185_wrap_refuted`, `Jaeger.C185_minus_refuted`, `Jaeger.C185_colon_refuted`, `Jaeger.C185_two_tags_refuted`, `Jaeger.C185_end_refuted`, `Jaeger.C185_units`, `Jaeger.C185_end_partial`, `Group.C186_remove_partial`, `Group.Witness.C186_stale_refuted`, `Group.Witness.C186_promote_refuted`, `Group.Witness.C187_stale_refuted`, `Group.C188_destroy_done`, `Group.C188_destroy_again_partial`, `Group.Witness.C188_add_refuted`, `Group.Witness.C189_stale_refuted`, `Catalog.C190_tables_exact`, `Catalog.C190_columns_exact`, `Catalog.C190_tskv_column`, `Catalog.C190_other_column`, `Catalog.C190_words`, `Catalog.C190_words_differ`, `Catalog.C190_names`, `Catalog.C191_show_databases_partial`, `Catalog.C191_show_tables`, `Catalog.C191_describe_table`, `Catalog.C191_describe_database`, `Catalog.C191_no_rows`, `Catalog.C191_listings_hidden`, `Catalog.Witness.C191_show_databases_refuted`, `Catalog.Witness.C191_information_schema_refuted`, `Catalog.Witness.C191_existence_refuted`, `Catalog.C191_dropped`, `Catalog.C192_system_tables_hidden`, `Catalog.C192_databases_hidden`, `Catalog.C192_tables_hidden`, `Catalog.C192_columns_hidden`, `Catalog.C192_own_privileges`, `Catalog.C192_all_privileges`, `Catalog.C192_roles`, `Catalog.C192_no_password`, `Catalog.C192_admins_only`, `Catalog.C192_words`, `Catalog.C192_enabled`, `Catalog.C192_cluster`, `Catalog.C193_usage_exact`, `Catalog.C193_no_other_tenant`, `Catalog.C193_information_schema_case`, `Catalog.Witness.C193_usage_case_refuted`, `Catalog.Witness.C193_system_tenant`, `Reply.C194_read_back`, `Reply.C194_read_back_chunked`, `Reply.C194_no_confusion`, `Reply.C194_null_refuted`, `Reply.Witness.C195_same_body_refuted`, `Reply.Witness.C195_nil_refuted`, `Reply.Witness.C196_empty_refuted`, `Reply.Witness.C196_chunked_refuted`, `Reply.Witness.C197_message_partial`, `Reply.Witness.C197_error_is_row_refuted`, `Reply.Witness.C197_indistinguishable_refuted`, `Reply.Witness.C197_error_not_encoded_refuted`, `Reply.Witness.C197_limit_refuted`, `Reply.Witness.C197_message_refuted`, `Reply.C198_content_type`, `Reply.C198_content_type_inj`, `Reply.C198_default`, `Reply.C198_first_known`, `Reply.C198_refused`, `Reply.Witness.C198_lists_refuted`, `Reply.C198_any_case`, `Reply.C198_blanks`, `Reply.C199_base64`, `Reply.C199_base64_canonical`, `Reply.C199_credentials_partial`, `Reply.C199_only_sent`, `Reply.C199_no_confusion`, `Reply.C199_colon_refuted`, `Reply.C199_alphabet`, `Order.C200_ordered_refuted`, `Home.C202_apart_refuted`, `Home.C202_split_refuted`, `Home.C203_settings_refuted`, `Home.C204_directories`, `Quota.C205_decision`, `Quota.C206_allow`, `Quota.C206_days`, `Files.C212_flushed_partial`, `Files.C214_id_partial`, `Files.C214_million_refuted`, `Files.C214_tsm`, `Files.C214_distinct`, `Files.C214_summary`, `Files.C214_foreign_refuted`, `Files.C215_newest_partial`, `Files.C215_order_partial`, `Files.C215_replay_partial`, `Files.C215_million_refuted`, `Files.C215_zero_refuted`, `Files.C215_range`, `MetaLog.C216_as_data_nodes`, `Readers.C220_bound`, `Readers.C220_recent`

**propext, Quot.sound**

`Codec.C03_null_first_refuted`, `Codec.C07_sentinel_refused`, `Codec.C07_sentinel_refuted`, `Page.C09_header_damage_refuted`, `Time.C10_overlaps_empty_refuted`, `Predicate.C13_filter_sound_refuted`, `Predicate.C14_mixed_bounds_refuted`, `Predicate.C14_arithmetic_refuted`, `Predicate.C14_nested_comparison_refuted`, `Predicate.C14_cast_refuted`, `Tomb.C16_both_ends_refuted`, `Tomb.C16_delete_during_compaction_refuted`, `Tomb.C16_leftover_compaction_refuted`, `Wal.C18_empty_last_record_refuted`, `Wal.Ring.C22_full_ring`, `Wal.Log.C23_error_stops_refuted`, `Wal.Log.C23_purge_not_durable_refuted`, `Wal.Entry.C24_encodes`, `Wal.Entry.C24_changed_compression_refuted`, `Mem.C25_same_batch_refuted`, `Mem.C25_older_schema_refuted`, `Mem.C26_last_timestamp_refuted`, `Mem.C28_overwritten_refuted`, `Mem.C28_stale_write_refuted`, `Reader.C34_zero_batch_size_refuted`, `Reader.C35_groups`, `Reader.C36_stale_refuted`, `Reader.C36_lost_refuted`, `Reader.Latest.C37_compaction_refuted`, `Reader.Latest.C37_write_after_compaction_refuted`, `Compact.C38_unsorted_refuted`, `Utils.C41_small_filter_refuted`, `Index.C42_families_disjoint`, `Index.C42_long_names_collide`, `Index.C44_restart_when_empty_refuted`, `Index.C44_deleted_bitmap_refuted`, `Index.C44_dotted_table_refuted`, `Index.C45_scan_exact_partial`, `Index.C45_bounded_scan_exact_partial`, `Index.C46_new_key`, `Index.C46_replay_refuted`, `Meta.C48_mapping_complete`, `Meta.C48_written_bucket_is_queried`, `Utils.C51_rate_limit`, `Utils.C52_pool_bound_partial`, `Utils.C52_fitting_request_granted`, `Utils.C53_coarsen`, `Utils.C54_write_append`, `Utils.C54_write_flatten`, `Utils.C54_series_hash_eq_concat`, `Predicate.C56_unsupported_refused`, `Utils.C57_same_series_same_shard_partial`, `Meta.C59_retention_removes_only_expired`, `Meta.C59_infinite_retention_partial`, `Auth.C60_custom_role_exact`, `Auth.C60_member_never_admin`, `Auth.C60_grant_effective`, `Auth.C60_revoke_effective`, `Auth.C60_grant_monotone_partial`, `Auth.C60_grant_statement`, `Auth.C60_grant_statement_refused`, `Auth.C60_revoke_statement`, `Auth.C61_login_was_checked_partial`, `Auth.C61_password_users_exact_partial`, `Meta.C62_leader_is_replica`, `Meta.C62_routing_total`, `Meta.C63_initial`, `Index.C64_no_other_panic_partial`, `Index.C64_contradictory_range_refuted`, `Tomb.C69_torn_delete_refuted`, `Version.C72_torn_manifest_refuted`, `Version.C72_flush_after_torn_header_refuted`, `Version.C73_removed`, `Version.C73_owner`, `Flush.C74_failed_edit_refuted`, `Stats.C75_columns`, `Stats.C75_no_row_lost_partial`, `Stats.C75_all_columns`, `Stats.C75_function_refuted`, `Stats.C77_nan_refuted`, `Stats.C77_zero_refuted`, `Stats.C78_batches`, `Stats.C78_batched_read`, `Stats.C78_content`, `Stats.C78_projection`, `Window.C79_length_partial`, `Window.C79_before_epoch_refuted`, `Window.C79_extra_window_refuted`, `Agg.C80_first_last_partial`, `Agg.C80_sound_partial`, `Agg.StateAgg.C82_single_refuted`, `Agg.Sample.C83_one_batch_partial`, `Agg.Sample.C83_too_many_refuted`, `Agg.Sample.C83_too_few_refuted`, `Agg.Increase.C85_increase_partial`, `Count.C90_added_tag_refuted`, `Count.C90_renamed_refuted`, `Count.C91_refuted`, `Schema.C92_writes_extend`, `Schema.C92_distinct`, `Schema.C92_covered`, `Schema.C93_index`, `Schema.C93_lookup_partial`, `Schema.C93_taken_name_refuted`, `Schema.C94_accepted_partial`, `Schema.C94_refuted`, `Schema.C94_late_cache_refuted`, `Schema.C94_two_nodes_refuted`, `Schema.C95_raced_refuted`, `Schema.C96_no_drop_partial`, `Schema.C96_recreated_refuted`, `Schema.C96_dropped_comes_back_refuted`, `Schema.C97_create`, `Schema.C97_add`, `Schema.C97_rename`, `Schema.C97_second_time_refuted`, `Compact.Cols.C98_refuted`, `Compact.Cols.C98_version_refuted`, `Align.C99_fails`, `Pick.C104_order_refuted`, `Pick.C105_level`, `Pick.C105_again_refuted`, `Pick.C105_twice_refuted`, `Pick.C106_delete`, `Pick.C106_running_refuted`, `Replica.C114_refuted_rename`, `Replica.C114_refuted_rewrite`, `Replica.C114_refuted_delete_replayed`, `Replica.C114_refuted_flush`, `Replica.C114_refuted_tombstones`, `Replica.C114_refuted_new_series`, `Replica.C115_refuted_tombstones`, `Replica.C115_refuted_order`, `Replica.C115_refuted_series`, `Replica.C116_partial`, `Replica.C116_refuted_conflict`, `Replica.C116_refuted_stop`, `Raft.C117_refuted`, `Cluster.C120_follower_read_refuted`, `Cluster.C121_all_or_nothing_refuted`, `Cluster.C122_bounded`, `Cluster.C122_leader_first`, `Cluster.C123_one_replica_or_error`, `Cluster.C123_leader_is_read`, `Plan.C128_snapshot_partial`, `Plan.C128_idle_partial`, `Plan.C128_outlives_refuted`, `Ingest.C129_cut_loses`, `Ingest.C129_put`, `Ingest.C129_tags`, `Ingest.C130_bad_line_blocks`, `Ingest.C134_time`, `Ingest.C135_bulk`, `Ingest.C135_lines`, `Ingest.C136_all_or_none`, `Ingest.Prom.C139_none_lost`, `Stream.C142_range`, `Stream.C144_sums_partial`, `Stream.C146_result_partial`, `Stream.C146_mark_partial`, `Stream.C147_left_partial`, `Stream.C148_partial`, `Stream.C148_same_refuted`, `Insert.C149_no_field`, `Insert.C149_null_time_refuted`, `Insert.C149_dropped_refuted`, `Insert.C150_rows`, `Insert.C150_kinds`, `Insert.C150_tags`, `Rules.C152_rows_partial`, `Rules.C152_no_more`, `Rules.C154_select`, `Repair.C157_few_refuted`, `Repair.C157_zero_refuted`, `Repair.C157_same_refuted`, `Repair.C157_front_refuted`, `Repair.C157_refuted`, `Repair.C157_few`, `Repair.C157_empty_refuted`, `Repair.C159_batches_refuted`, `Repair.C160_unsigned_refuted`, `Repair.C160_nearest`, `Limit.C165_limit`, `Limit.C165_fresh`, `Limit.C165_after_alter`, `Limit.C165_other`, `Limit.C165_kinds`, `Limit.C165_in_turn`, `Limit.C165_http_write`, `Limit.C165_http_query`, `Limit.C165_default_max`, `Limit.C166_local`, `Limit.C166_remote_partial`, `Limit.C166_large_refuted`, `Limit.C167_unlimited`, `Tasks.C168_kept`, `Tasks.C168_recover_partial`, `Tasks.C168_no_table`, `Tasks.C169_not_before`, `Tasks.C169_recover`, `Tasks.C170_sleeps`, `Tasks.C170_done_partial`, `Tasks.C170_pause`, `Tasks.C171_database_partial`, `Tasks.C171_table_partial`, `Tasks.C171_tenant_partial`, `Retag.C172_rows_refuted`, `Retag.C172_order_refuted`, `Retag.C172_same_refuted`, `Retag.C173_sets_refuted`, `Retag.C173_write_refuted`, `Retag.C174_unreachable_refuted`, `Retag.C174_busy_refuted`, `Retag.C174_race_refuted`, `Retag.C174_too_many`, `Retag.C174_not_too_many`, `Leader.C176_one_down`, `Leader.C176_stays`, `Leader.C176_two_down_refuted`, `Leader.C176_members`, `Leader.C177_prefix`, `Leader.C177_other_client_refuted`, `Leader.C177_failover_refuted`, `Track.C178_slots`, `Track.C178_killed_refuted`, `Track.C178_abandoned_refuted`, `Track.C178_unsaved_refuted`, `Track.C178_failed_refuted`, `Track.C179_stops_partial`, `Track.C179_for_good`, `Track.C179_reading_refuted`, `Track.C179_full_refuted`, `Track.C179_returns_refuted`, `Track.C180_kill_refuted`, `Track.C181_restart_partial`, `Track.C181_takeover_partial`, `Track.C181_moved`, `Track.C181_restart_refuted`, `Track.C181_takeover_refuted`, `Track.C181_once_refuted`, `Track.C181_failed_refuted`, `Jaeger.C184_traces`, `Jaeger.C185_tag_partial`, `Jaeger.C185_tags_panics`, `Group.C186_add_partial`, `Group.C186_promote_partial`, `Group.C186_promote_keeps`, `Group.C187_run_partial`, `Group.C188_add_stuck`, `Group.C188_orphan`, `Group.Witness.C188_orphan_refuted`, `Group.Witness.C188_promote_refuted`, `Group.C189_run_partial`, `Catalog.C190_databases_exact`, `Catalog.C190_custom_role`, `Catalog.C192_resources`, `Catalog.C192_owner`, `Catalog.C192_no_roles`, `Reply.C195_same_body_partial`, `Reply.C195_batches_chunked`, `Reply.C196_lines`, `Reply.C197_chunked_error`, `Reply.C197_limit_partial`, `Order.C200_ordered_partial`, `Order.C200_expand_rows`, `Order.C201_first_rows`, `Order.C201_levels`, `Order.C201_stops`, `Order.C201_partitions`, `Home.C202_own_database_partial`, `Home.C202_apart_partial`, `Home.C202_own_table_partial`, `Home.C202_columns_once`, `Home.C203_settings_partial`, `Home.C203_strict_partial`, `Home.C204_contents`, `Home.C204_kept`, `Home.C204_removed`, `Quota.C205_bound`, `Quota.C205_one_node_partial`, `Quota.C205_prompt_partial`, `Quota.C205_refuted`, `Quota.C206_created_partial`, `Quota.C206_alter_refuted`, `Quota.C206_days_mono`, `Quota.C207_prompt_partial`, `Quota.C207_refuted`, `Quota.C208_altered`, `Quota.C208_unset`, `Quota.C208_never_heard_refuted`, `Quota.C208_refuted`, `Quota.C209_heard_partial`, `Quota.C209_known`, `Quota.C209_refuted`, `Quota.C209_role_refuted`, `Quota.C210_exists_partial`, `Quota.C210_unchanged`, `Quota.C210_refuted`, `Files.C211_stored`, `Files.C211_appended`, `Files.C211_length`, `Files.C211_seek`, `Files.C212_old_bytes`, `Files.C213_found_partial`, `Files.C213_synced`, `MetaLog.C216_range`, `MetaLog.C216_append`, `MetaLog.C216_remove`, `MetaLog.C216_last`, `MetaLog.C216_first`, `MetaLog.C217_sound_partial`, `MetaLog.C218_once`, `MetaLog.C218_applied_partial`, `Readers.C219_fresh_partial`, `Readers.C219_changes`, `Readers.C219_calm_partial`, `Readers.C219_heals`, `Readers.C220_removed`

**propext**

`Codec.C05_boolean_plain_roundtrip`, `Time.C10_contains_exact`, `Time.C11_max_timestamp_refuted`, `Time.C12_push_refuted`, `Time.C12_empty_range_refuted`, `Time.C12_with_bounds_exact`, `Predicate.C13_boolean_order_refuted`, `Wal.C18_append`, `Reader.C35_unsorted_refuted`, `Compact.C40_twice_refuted`, `Compact.C40_empty_first_refuted`, `Auth.C50_refl`, `Auth.C50_trans`, `Auth.C50_tenant_scope`, `Auth.C50_database_scope`, `Auth.C50_db_levels`, `Auth.C50_global_scope`, `Utils.C51_build`, `Utils.C51_acquire_all_or_nothing`, `Utils.C52_wrapping_request_refuted`, `Predicate.C56_delete_null_refuted`, `Predicate.C56_delete_false_refuted`, `Predicate.DeleteTime.C56_delete_strict_bound_refuted`, `Meta.C58_alter_duration_refuted`, `Meta.C58_max_timestamp_refuted`, `Meta.C59_retention_removes_all_expired`, `Meta.C59_infinite_retention_refuted`, `Auth.C60_grant_downgrades_refuted`, `Auth.C60_dba_allows_all`, `Window.C79_start_refuted`, `Agg.C80_null_refuted`, `Agg.Increase.C85_two_phases_partial`, `Agg.Increase.C85_two_phases_refuted`, `Count.C90_refuted`, `Count.C90_alias_refuted`, `Cluster.C120_two_interfaces_refuted`, `Cluster.C120_set_removed_refuted`, `Cluster.C122_executed_once_partial`, `Cluster.C122_leader_up_succeeds`, `Cluster.C122_failed_redirect_refuted`, `Cluster.C123_third_replica_refuted`, `Cluster.C123_mid_stream_refuted`, `Rules.C152_no_functions`, `Rules.C152_lost_refuted`, `Rules.C152_left`, `Rules.C153_count_partial`, `Rules.C153_union_refuted`, `Rules.C153_panic_refuted`, `Rules.C153_refuted`, `Dump.C161_doubled_name`, `Dump.C161_encodings`, `Limit.C166_half_refuted`, `Limit.C166_no_limiter`, `Limit.C167_alter`, `Limit.C167_set`, `Limit.C167_kept`, `Limit.C167_create`, `Tasks.C168_names_partial`, `Tasks.C168_recover_refuted`, `Tasks.C169_race_refuted`, `Tasks.C169_handover_refuted`, `Tasks.C169_failed_refuted`, `Tasks.C169_tenant_refuted`, `Tasks.C169_resync_refuted`, `Tasks.C170_late_refuted`, `Tasks.C170_restart_refuted`, `Tasks.C170_second_refuted`, `Tasks.C170_takeover_refuted`, `Tasks.C170_tenant_refuted`, `Tasks.C170_told`, `Tasks.C170_holder`, `Tasks.C171_ghost_refuted`, `Tasks.C171_silent_refuted`, `Tasks.C171_crash_refuted`, `Tasks.C171_collision_refuted`, `Tasks.C171_drop_missing`, `Track.C179_unknown`, `Track.C180_visible`, `Group.C187_holder`, `Reply.C195_batches_whole`, `Reply.C196_array_partial`, `Reply.C196_commas`, `Reply.C197_all_or_nothing_partial`, `Reply.C197_always_ok`, `Order.C200_same_rows`, `Order.C201_no_limit`, `Home.C202_owner_round_trip`, `Home.C202_owner_inj`, `Home.C202_columns`, `Home.C202_no_dot`, `Quota.C206_longest`, `Quota.C206_alter_options`, `Files.C211_beyond_refuted`, `Files.C211_length_refuted`, `Files.C212_retry_refuted`, `Files.C212_earlier_refuted`, `Files.C212_nothing_written_refuted`, `Files.C213_sync_refuted`, `Files.C213_buffer_refuted`, `Files.C213_truncate_refuted`, `MetaLog.C218_applied_refuted`

**none**

`Time.C15_extreme_bound_refuted`, `Wal.Entry.C24_type_byte`, `Index.C45_dotted_table_refuted`, `Meta.C47_max_timestamp_refuted`, `Utils.C57_json_route_refuted`, `Utils.C57_insert_column_order_refuted`, `Utils.C57_insert_null_tag_refuted`, `Auth.C61_private_key_ignored_refuted`, `Auth.C61_separator_refuted`, `Window.C79_length_refuted`, `Agg.Mode.C84_ties`, `Cluster.C122_executed_once_refuted`, `Ingest.C131_instant_refuted`, `Ingest.C131_order_refuted`, `Ingest.Prom.C138_time_refuted`, `Repair.C160_even`, `Dump.C163_exists`, `Dump.C163_created`, `Limit.C165_strict_refuted`, `Limit.C165_comment_refuted`, `Limit.C165_sizes`, `Limit.C165_negative`, `Limit.C166_equal_refuted`, `Limit.C166_first_refuted`, `Limit.C166_wrap_refuted`, `Limit.C167_merge`, `Limit.C167_unset`, `Limit.C167_interval_refuted`, `Limit.C167_negative_refuted`, `Limit.C167_sync_refuted`, `Limit.C167_drop_refuted`, `Limit.C167_own_setting`, `Tasks.C168_names_refuted`, `Quota.C206_days_refuted`, `MetaLog.C217_sound_refuted`, `Readers.C219_delete_refuted`, `Readers.C219_update_refuted`, `Readers.C220_others`, `Readers.C220_capacity_refuted`
