import Verif.Tsm.Format
/-!
# Model: writing and reading data files — `tskv/src/tsm/{writer,reader}.rs`

A data file is: magic number, pages one behind the other, metadata (chunks, chunk groups, table of the chunk groups; compressed or
not), footer of fixed size.  All offsets of pages count from the start of the file, all offsets within the metadata from the start
of the uncompressed metadata.

Simplifications:
* `FileStreamWriter` is the byte string of the file followed by its buffer: `writer.len()` is the length of that string.  Errors of
  the file system do not occur.
* `none` is an error or a panic.  A writer is not used again after an error.
* Arrow arrays are turned into pages before (`Page::arrow_array_to_page`, `Verif/Page`).
* The tombstones that `TsmReader::open` opens beside the file are in `Verif/Tomb`.
-/
namespace Verif.Tsm
open Verif.Time Verif.Wal
open Verif.Utils (Bloom)
open Verif.Page (Encoding)

/-- Constants of the code and functions of external crates. -/
structure Params where
  /-- `BLOOM_FILTER_BITS` (tsm/mod.rs:17). -/
  bits : Nat
  /-- `FOOTER_SIZE` (tsm/mod.rs:18). -/
  footerSize : Nat
  /-- `BloomFilter::hashers` (bloom_filter.rs:26-33). -/
  hashes : List (Bytes → Nat)
  /-- The compressors. -/
  lib : Page.Lib

/-- `TSM_MAGIC` (writer.rs:38). -/
def magic : Bytes := [0x01, 0x2c, 0xda, 0x16]

/-- `TimeRange::none` (domain.rs:73-78). -/
def noRange : TimeRange := ⟨i64Max, i64Min⟩

/-- A page: metadata and bytes (page.rs:31-39). -/
structure PageData where
  info : PageMeta
  bytes : Bytes
  deriving DecidableEq

/-- `ColumnType::is_time`. -/
def ColumnType.isTime : ColumnType → Bool
  | .time _ => true
  | _ => false

/-! ## Column groups and chunks -/

/-- `ColumnGroup::new` (column_group.rs:20-28). -/
def ColGroup.new (id : Nat) : ColGroup := ⟨id, 0, 0, noRange, []⟩

/-- `ColumnGroup::push` (column_group.rs:54-63); offset 0 stands for "no page yet". -/
def ColGroup.push (g : ColGroup) (p : PageSpec) : ColGroup :=
  { g with
    pagesOffset := if g.pagesOffset = 0 then p.offset else g.pagesOffset
    size := g.size + p.size
    pages := g.pages ++ [p] }

/-- `Chunk::new` (chunk.rs:26-35). -/
def Chunk.new (table : Bytes) (series : Nat) (key : SeriesKey) : Chunk := ⟨noRange, table, series, key, 0, []⟩

/-- `Chunk::push` (chunk.rs:93-121): column groups come in the order of time. -/
def Chunk.push (c : Chunk) (g : ColGroup) : Option Chunk :=
  if c.range.maxTs > g.range.minTs then none
  else if (BMap.get c.groups g.id).isSome then none
  else some { c with range := c.range.merge g.range, groups := BMap.insert BMap.natLt g.id g c.groups }

/-! ## The writer -/

/-- `State` (writer.rs:32-36). -/
inductive State | initialised | started | finished
  deriving DecidableEq

/-- `TsmWriter` (writer.rs:40-64). -/
structure Writer where
  file : Bytes
  minTs : Int
  maxTs : Int
  maxSize : Nat
  bloom : Bloom
  schemas : List (Bytes × Schema)
  specs : List (Bytes × List (Nat × Chunk))
  chunkSpecs : List (Bytes × List ChunkSpec)
  groupSpecs : List (Bytes × GroupSpec)
  footer : Footer
  state : State
  encoding : Encoding

/-- `Footer::empty` (footer.rs:54-61). -/
def Footer.empty (v : TsmVersion) : Option Footer :=
  (Bloom.new 512).map fun b => ⟨v, ⟨0, 0⟩, 0, 0, b, 0, 0⟩

/-- `TsmWriter::new` (writer.rs:87-117) on a file that holds `file` already. -/
def Writer.new (P : Params) (file : Bytes) (maxSize : Nat) (e : Encoding) : Option Writer :=
  (Bloom.new P.bits).bind fun b => (Footer.empty (if e = .null then .v1 else .v2)).map fun f =>
    ⟨file, i64Max, i64Min, maxSize, b, [], [], [], [], f, .initialised, e⟩

/-- `write_header` (writer.rs:155-163), called before the first page (writer.rs:331-333, 367-369). -/
def Writer.begin (w : Writer) : Writer :=
  if w.state = .initialised then { w with file := w.file ++ magic, state := .started } else w

/-- The chunk of a series, a new one if there is none (writer.rs:246-251, 349-353, 399-403). -/
def Writer.chunk (w : Writer) (table : Bytes) (series : Nat) (key : SeriesKey) : Chunk :=
  (BMap.get ((BMap.get w.specs table).getD []) series).getD (Chunk.new table series key)

/-- Storing a chunk in `page_specs`. -/
def Writer.setChunk (w : Writer) (table : Bytes) (series : Nat) (c : Chunk) : Writer :=
  { w with specs := BMap.insert BMap.bytesLt table (BMap.insert BMap.natLt series c ((BMap.get w.specs table).getD [])) w.specs }

/-- `insert_schema` (writer.rs:407-415): the newest version stays. -/
def Writer.insertSchema (w : Writer) (s : Schema) : Writer :=
  match BMap.get w.schemas s.name with
  | some t => if t.version < s.version then { w with schemas := BMap.insert BMap.bytesLt s.name s w.schemas } else w
  | none => { w with schemas := BMap.insert BMap.bytesLt s.name s w.schemas }

/-- The loop over the pages in `write_pages` (writer.rs:338-347). -/
def appendPages (pages : List PageData) (s : Bytes × ColGroup) : Bytes × ColGroup :=
  pages.foldl (fun (f, g) p => (f ++ p.bytes, g.push ⟨f.length, p.bytes.length, p.info⟩)) s

/-- The number of the next column group is taken (`create_column_group`, writer.rs:240-254). -/
def Writer.nextGroup (w : Writer) (table : Bytes) (series : Nat) (key : SeriesKey) : Writer × ColGroup :=
  let c := w.chunk table series key
  (w.setChunk table series { c with nextId := c.nextId + 1 }, .new c.nextId)

/-- The end of `write_pages` and `write_raw` (writer.rs:348-355, 395-404): schema, time range, chunk. -/
def Writer.addGroup (w : Writer) (schema : Schema) (series : Nat) (key : SeriesKey) (g : ColGroup) (range : TimeRange) : Option Writer :=
  let w := w.insertSchema schema
  let g := { g with range := g.range.merge range }
  ((w.chunk schema.name series key).push g).map fun c => w.setChunk schema.name series c

/-- `write_pages` (writer.rs:323-357). -/
def Writer.writePages (w : Writer) (schema : Schema) (series : Nat) (key : SeriesKey) (pages : List PageData) (range : TimeRange) :
    Option Writer :=
  let w := w.begin
  let (w, g) := w.nextGroup schema.name series key
  let (file, g) := appendPages pages (w.file, g)
  { w with file := file }.addGroup schema series key g range

/-- The time range of a record batch: the statistics of its time column (writer.rs:283-313). -/
def batchRange (pages : List PageData) : Option TimeRange :=
  match pages.find? fun p => p.info.column.ctype.isTime with
  | none => none
  | some p => match p.info.stat with
    | .i64 s => match s.min, s.max with
      | some a, some b => some ⟨a, b⟩
      | _, _ => none
    | _ => none

/-- `write_record_batch` (writer.rs:256-318). -/
def Writer.writeRecordBatch (w : Writer) (series : Nat) (key : SeriesKey) (schema : Schema) (pages : List PageData) : Option Writer :=
  if w.state = .finished then none
  else (batchRange pages).bind fun r => w.writePages schema series key pages r

/-- The loop of `write_raw` (writer.rs:385-393): the pages of a column group of another file at their new places. -/
def rebase (specs : List PageSpec) (s : Nat × ColGroup) : Nat × ColGroup :=
  specs.foldl (fun (off, g) p => (off + p.size, g.push ⟨off, p.size, p.info⟩)) s

/-- `write_raw` (writer.rs:359-405): copies the bytes of a column group. -/
def Writer.writeRaw (w : Writer) (schema : Schema) (c : Chunk) (gid : Nat) (raw : Bytes) : Option Writer :=
  let w := w.begin
  let (w, g) := w.nextGroup schema.name c.series c.key
  let off := w.file.length
  (BMap.get c.groups gid).bind fun old =>
    let (_, g) := rebase old.pages (off, g)
    { w with file := w.file ++ raw }.addGroup schema c.series c.key g old.range

/-! ## Finishing a file -/

/-- Everything that `write_chunk` iterates over. -/
def Writer.chunks (w : Writer) : List (Bytes × Nat × Chunk) := w.specs.flatMap fun (t, g) => g.map fun (s, c) => (t, s, c)

/-- The state of the loop of `write_chunk`. -/
structure ChunkLoop where
  buffer : Bytes
  minTs : Int
  maxTs : Int
  chunkSpecs : List (Bytes × List ChunkSpec)
  bloom : Bloom

/-- One round of `write_chunk` (writer.rs:211-229). -/
def chunkStep (P : Params) (l : ChunkLoop) (x : Bytes × Nat × Chunk) : Option ChunkLoop :=
  let (table, series, c) := x
  let b := cChunk.enc c
  let spec : ChunkSpec := ⟨series, l.buffer.length, b.length, c.range⟩
  (l.bloom.insert P.hashes (beEnc 4 series)).map fun bloom =>
    { buffer := l.buffer ++ b
      minTs := min l.minTs c.range.minTs
      maxTs := max l.maxTs c.range.maxTs
      chunkSpecs := BMap.insert BMap.bytesLt table ((BMap.get l.chunkSpecs table).getD [] ++ [spec]) l.chunkSpecs
      bloom := bloom }

/-- `ChunkGroup::time_range`, `ChunkGroupMeta::time_range` (chunk_group.rs:42-48, 137-143). -/
def mergeRanges (l : List TimeRange) : TimeRange := l.foldl TimeRange.merge noRange

/-- `write_chunk_group` (writer.rs:172-189); a table without schema panics. -/
def writeGroups (schemas : List (Bytes × Schema)) (groups : List (Bytes × List ChunkSpec)) (s : Bytes × List (Bytes × GroupSpec)) :
    Option (Bytes × List (Bytes × GroupSpec)) :=
  groups.foldlM (fun (buf, m) (table, g) => (BMap.get schemas table).map fun schema =>
    let b := cChunkGroup.enc g
    (buf ++ b, BMap.insert BMap.bytesLt schema.name ⟨schema, buf.length, b.length, mergeRanges (g.map (·.range)), 0⟩ m)) s

/-- The compression of the metadata (writer.rs:509-521). -/
def encodeMeta (P : Params) (e : Encoding) (buf : Bytes) : Option Bytes :=
  if e = .null then some buf else (Page.strCodec P.lib e).enc [buf]

/-- `finish` (writer.rs:503-527). -/
def Writer.finish (P : Params) (w : Writer) : Option Writer :=
  let start := w.file.length
  (w.chunks.foldlM (chunkStep P) ⟨[], w.minTs, w.maxTs, w.chunkSpecs, w.bloom⟩).bind fun l =>
  (Bloom.withData l.bloom.b).bind fun filter =>
  (writeGroups w.schemas l.chunkSpecs (l.buffer, w.groupSpecs)).bind fun (buf, gs) =>
    let b := cGroupMeta.enc gs
    let footer : Footer :=
      { w.footer with
        range := mergeRanges (gs.map (·.2.range))
        tableOffset := buf.length
        tableSize := b.length
        bloom := filter
        chunkOffset := start
        chunkSize := l.buffer.length }
  (encodeMeta P w.encoding (buf ++ b)).map fun tail =>
    { w with
      file := w.file ++ tail ++ cFooter.enc footer
      minTs := l.minTs
      maxTs := l.maxTs
      bloom := l.bloom
      chunkSpecs := l.chunkSpecs
      groupSpecs := gs
      footer := footer
      state := .finished }

/-! ## Sequences of writes -/

/-- A call of the writer. -/
inductive Op
  | putPages (schema : Schema) (series : Nat) (key : SeriesKey) (pages : List PageData) (range : TimeRange)
  | putBatch (schema : Schema) (series : Nat) (key : SeriesKey) (pages : List PageData)
  | putRaw (schema : Schema) (chunk : Chunk) (gid : Nat) (raw : Bytes)

def Writer.apply (w : Writer) : Op → Option Writer
  | .putPages schema series key pages range => w.writePages schema series key pages range
  | .putBatch schema series key pages => w.writeRecordBatch series key schema pages
  | .putRaw schema c gid raw => w.writeRaw schema c gid raw

/-- `write_compacting_block` (writer.rs:417-457): after each block the file is finished if it has become too large. -/
def Writer.compactBlock (P : Params) (w : Writer) (op : Op) : Option Writer :=
  (w.apply op).bind fun w => if w.maxSize ≠ 0 ∧ w.file.length > w.maxSize then w.finish P else some w

/-- All the calls for a file: `open`, the writes, `finish`. -/
def writeFile (P : Params) (pre : Bytes) (e : Encoding) (ops : List Op) : Option Writer :=
  (Writer.new P pre 0 e).bind fun w => (ops.foldlM Writer.apply w).bind fun w => w.finish P

/-! ## The reader -/

/-- `TsmMetaData` (reader.rs:40-46) and the bytes of the file. -/
structure Reader where
  file : Bytes
  footer : Footer
  groupMeta : List (Bytes × GroupSpec)
  groups : List (Bytes × List ChunkSpec)
  chunks : List (Nat × Chunk)

/-- `str_snappy_decode` behind the decompression (string.rs:200-221); each round takes a byte or more. -/
def splitVarAll : Nat → Bytes → Option (List Bytes)
  | 0, _ => some []
  | fuel + 1, src =>
    if src = [] then some []
    else match varDec src with
      | none => none
      | some (len, n) => if src.length < n + len then none
        else (splitVarAll fuel (src.drop (n + len))).map (((src.drop n).take len) :: ·)

/-- `split_stream` (string.rs:278-290). -/
def split64All : Nat → Bytes → Option (List Bytes)
  | 0, _ => some []
  | fuel + 1, src =>
    if src = [] then some []
    else if src.length < 8 then none
    else
      let len := beDec (src.take 8)
      if src.length < 8 + len then none
      else (split64All fuel (src.drop (8 + len))).map (((src.drop 8).take len) :: ·)

/-- `str_{zstd,gzip,bzip,zlib}_decode` (string.rs:314-325, 340-356, 376-392, 412-428). -/
def decodeAll64 (c : Codec.Str.Compressor) (src : Bytes) : Option (List Bytes) :=
  match src with
  | [] => some []
  | _ :: body => (c.decompress body).bind fun d => split64All (d.length + 1) d

/-- `get_str_codec(..).decode` (tsm/codec/mod.rs:104-114, string.rs:188-222, 448-459). -/
def decodeAll (L : Page.Lib) : Encoding → Bytes → Option (List Bytes)
  | .null, src => match src with
    | [] => some []
    | _ :: body => split64All (body.length + 1) body
  | .gzip, src => decodeAll64 L.gzip src
  | .bzip, src => decodeAll64 L.bzip src
  | .zstd, src => decodeAll64 L.zstd src
  | .zlib, src => decodeAll64 L.zlib src
  | _, src => match src with
    | [] => some []
    | [_] => none
    | _ :: _ :: body => (L.snappy.decompress body).bind fun d => splitVarAll (d.length + 1) d

/-- `read_footer` (reader.rs:398-415). -/
def readFooter (P : Params) (file : Bytes) : Option Footer :=
  if file.length < P.footerSize then none else cFooter.read (file.drop (file.length - P.footerSize))

/-- `read_tsm_meta_buffer` (reader.rs:417-432); a place behind the footer makes the size wrap around. -/
def readMetaBuffer (P : Params) (file : Bytes) (f : Footer) : Option Bytes :=
  if f.chunkOffset + P.footerSize ≤ file.length then some ((file.take (file.length - P.footerSize)).drop f.chunkOffset) else none

/-- The decompression in `open` (reader.rs:122-133). -/
def decodeMeta (P : Params) (f : Footer) (buf : Bytes) : Option Bytes :=
  match f.version with
  | .v1 => some buf
  | .v2 => (decodeAll P.lib (Page.getEncoding buf) buf).bind fun l => match l with
    | [b] => some b
    | _ => none

/-- `buffer[pos..pos + size]`. -/
def cut (b : Bytes) (pos size : Nat) : Option Bytes := if pos + size ≤ b.length then some ((b.drop pos).take size) else none

/-- `read_chunk_group_meta` (reader.rs:434-443). -/
def readGroupMeta (buf : Bytes) (f : Footer) : Option (List (Bytes × GroupSpec)) :=
  (cut buf f.tableOffset f.tableSize).bind cGroupMeta.read

/-- `read_chunk_groups` (reader.rs:445-458). -/
def readGroups (buf : Bytes) (m : List (Bytes × GroupSpec)) : Option (List (Bytes × List ChunkSpec)) :=
  m.foldlM (fun acc (_, s) => (cut buf s.offset s.size).bind fun b => (cChunkGroup.read b).map fun g =>
    BMap.insert BMap.bytesLt s.schema.name g acc) []

/-- `read_chunk` (reader.rs:460-476). -/
def readChunks (buf : Bytes) (groups : List (Bytes × List ChunkSpec)) : Option (List (Nat × Chunk)) :=
  (groups.flatMap Prod.snd).foldlM (fun acc s => (cut buf s.offset s.size).bind fun b => (cChunk.read b).map fun c =>
    BMap.insert BMap.natLt s.series c acc) []

/-- `TsmReader::open` (reader.rs:108-155). -/
def openFile (P : Params) (file : Bytes) : Option Reader :=
  (readFooter P file).bind fun footer => (readMetaBuffer P file footer).bind fun raw => (decodeMeta P footer raw).bind fun buf =>
  (readGroupMeta buf footer).bind fun gm => (readGroups buf gm).bind fun gs => (readChunks buf gs).map fun cs =>
    ⟨file, footer, gm, gs, cs⟩

/-- `read_page` (reader.rs:478-496): a read behind the end of the file is an error. -/
def Reader.readPage (r : Reader) (p : PageSpec) : Option PageData :=
  (cut r.file p.offset p.size).bind fun b => (Page.crcValidation b).bind fun ok => if ok then some ⟨p.info, b⟩ else none

/-- `read_series_pages` (reader.rs:268-288). -/
def Reader.seriesPages (r : Reader) (series gid : Nat) : Option (List PageData) :=
  match BMap.get r.chunks series with
  | none => some []
  | some c => match BMap.get c.groups gid with
    | none => some []
    | some g => g.pages.mapM r.readPage

/-- `read_adjacent_pages` (reader.rs:235-266): one read for pages that lie one behind the other; no page is a panic. -/
def Reader.adjacentPages (r : Reader) (specs : List PageSpec) : Option (List PageData) :=
  match specs with
  | [] => none
  | p :: _ => (cut r.file p.offset (specs.map (·.size)).sum).bind fun b =>
    (specs.foldlM (fun (off, acc) (p : PageSpec) => (cut b off p.size).bind fun x => (Page.crcValidation x).bind fun ok =>
      if ok then some (off + p.size, acc ++ [(⟨p.info, x⟩ : PageData)]) else none) (0, [])).map Prod.snd

/-- `read_datablock_raw` (reader.rs:290-316). -/
def Reader.datablockRaw (r : Reader) (series gid : Nat) : Option Bytes :=
  match BMap.get r.chunks series with
  | none => some []
  | some c => match BMap.get c.groups gid with
    | none => some []
    | some g => cut r.file g.pagesOffset g.size

/-- `decode_buf_to_pages` (reader.rs:355-386). -/
def bufToPages (c : Chunk) (gid : Nat) (buf : Bytes) : Option (List PageData) :=
  (BMap.get c.groups gid).bind fun g => g.pages.mapM fun p =>
    if g.pagesOffset ≤ p.offset then
      (cut buf (p.offset - g.pagesOffset) p.size).bind fun b => (Page.crcValidation b).bind fun ok =>
        if ok then some (⟨p.info, b⟩ : PageData) else none
    else none

/-- `TsmMetaData::table_schema` (reader.rs:78-80, chunk_group.rs:149-151). -/
def Reader.tableSchema (r : Reader) (table : Bytes) : Option Schema := (BMap.get r.groupMeta table).map (·.schema)

/-- `Footer::series().bloom_filter()` asked as in `ColumnFile::maybe_contains_series_id` (column_file.rs:92-96). -/
def Reader.maybeContains (P : Params) (r : Reader) (series : Nat) : Option Bool :=
  r.footer.bloom.maybeContains P.hashes (beEnc 4 series)

/-! ## Changing tag values -/

/-- `TsmMetaData::update_tag_value` (reader.rs:99-107), `Chunk::update_series` (chunk.rs:37-46). -/
def updateKeys (keys : List (Nat × SeriesKey)) (chunks : List (Nat × Chunk)) : List (Nat × Chunk) :=
  keys.foldl (fun m (s, k) => match BMap.get m s with
    | some c => BMap.insert BMap.natLt s { c with key := k } m
    | none => m) chunks

/-- The writer that `update_file_meta_data` builds (writer.rs:466-499) on a file cut off behind its pages. -/
def rewriter (P : Params) (r : Reader) (chunks : List (Nat × Chunk)) (e : Encoding) : Option Writer :=
  (Bloom.new P.bits).bind fun b => (Footer.empty .v1).map fun f =>
    let w : Writer := ⟨r.file.take r.footer.chunkOffset, i64Max, i64Min, 0, b, [], [], [], [], f, .initialised, e⟩
    let w := r.groupMeta.foldl (fun w (_, s) => w.insertSchema s.schema) w
    chunks.foldl (fun w (_, c) => w.setChunk c.table c.series c) w

/-- `ColumnFile::update_tag_value` for a file with one of the series (column_file.rs:150-184), and `update_file_meta_data`
(writer.rs:459-502): the file is opened, cut off where the metadata starts, and metadata with the new keys is appended. -/
def updateTags (P : Params) (file : Bytes) (keys : List (Nat × SeriesKey)) (e : Encoding) : Option Bytes :=
  (openFile P file).bind fun r => (rewriter P r (updateKeys keys r.chunks) e).bind fun w => (w.finish P).map (·.file)

end Verif.Tsm
