import Verif.Version.CodecProps
import Verif.Common.BMap
import Verif.Page.Model
import Verif.Utils.Bloom
/-!
# Model: the metadata of a data file as bytes

The structures of `tskv/src/tsm/{footer,chunk,chunk_group,column_group,page}.rs` and what they contain, and their serialisation
with `bincode` 1.x (see `Verif/Version/Codec.lean` for the format; it is taken from the documentation of the crate).

A codec carries the proof that it gives back what was written: `Cod.rt`.  `Cod.fits` says which values that is true for — numbers
within the width of their type, maps in the order of their keys.

Simplifications: names are lists of bytes, the UTF-8 check of a reader is left out.  `f64` values are their 64 bits.
-/
namespace Verif.Tsm
open Verif.Time Verif.Version Verif.Wal

/-! ## `bincode` -/

/-- A way to write values as bytes and to read them. -/
structure Cod (α : Type) where
  enc : α → Bytes
  dec : Dec α
  fits : α → Prop
  rt : ∀ a, fits a → ∀ r, dec (enc a ++ r) = some (a, r)

namespace Cod

/-- `bincode::deserialize`: bytes behind the value are ignored. -/
def read {α : Type} (c : Cod α) (b : Bytes) : Option α := (c.dec b).map Prod.fst

theorem read_enc {α : Type} (c : Cod α) {a : α} (h : c.fits a) : c.read (c.enc a) = some a := by
  have := c.rt a h []
  rw [List.append_nil] at this
  rw [read, this]
  rfl

/-- Unsigned integers of `n` bytes, lowest byte first. -/
def nat (n : Nat) : Cod Nat where
  enc := leEnc n
  dec := decNat n
  fits x := x < 256 ^ n
  rt _ h r := decNat_leEnc h r

/-- `i64`. -/
def i64 : Cod Int where
  enc := i64Enc
  dec := decI64
  fits := IsI64
  rt _ h r := decI64_i64Enc h r

/-- `bool`. -/
def bool : Cod Bool where
  enc d := leEnc 1 (if d then 1 else 0)
  dec := decBool
  fits _ := True
  rt d _ r := decBool_enc d r

/-- `String` and `Vec<u8>`: length and bytes. -/
def bytes : Cod Bytes where
  enc s := leEnc 8 s.length ++ s
  dec := decStr
  fits s := s.length < 2 ^ 64
  rt s h r := by rw [List.append_assoc]; exact decStr_enc s h r

/-- Nothing. -/
def unit : Cod Unit where
  enc _ := []
  dec b := some ((), b)
  fits _ := True
  rt _ _ _ := rfl

/-- One field behind the other. -/
def seq {α β : Type} (c : Cod α) (d : Cod β) : Cod (α × β) where
  enc p := c.enc p.1 ++ d.enc p.2
  dec b := (c.dec b).bind fun p => (d.dec p.2).map fun q => ((p.1, q.1), q.2)
  fits p := c.fits p.1 ∧ d.fits p.2
  rt p h r := by
    rw [List.append_assoc, c.rt _ h.1]
    simp only [Option.bind_some]
    rw [d.rt _ h.2]
    rfl

/-- Another view of the same bytes: structures as tuples, variants of enums as their contents. -/
def iso {α β : Type} (c : Cod α) (f : α → β) (g : β → α) : Cod β where
  enc b := c.enc (g b)
  dec s := (c.dec s).map fun p => (f p.1, p.2)
  fits b := c.fits (g b) ∧ f (g b) = b
  rt b h r := by rw [c.rt _ h.1, Option.map_some, h.2]

/-- `Vec<T>`. -/
def vec {α : Type} (c : Cod α) : Cod (List α) where
  enc := encVec c.enc
  dec := decVec c.dec
  fits l := l.length < 2 ^ 64 ∧ ∀ a ∈ l, c.fits a
  rt l h r := decVec_encVec l h.1 (fun a ha r => c.rt a (h.2 a ha) r) r

/-- `Option<T>`: a byte 0 or 1, then the value. -/
def opt {α : Type} (c : Cod α) : Cod (Option α) where
  enc
    | none => leEnc 1 0
    | some a => leEnc 1 1 ++ c.enc a
  dec b := (decNat 1 b).bind fun p =>
    if p.1 = 0 then some (none, p.2) else if p.1 = 1 then (c.dec p.2).map fun q => (some q.1, q.2) else none
  fits
    | none => True
    | some a => c.fits a
  rt o h r := by
    cases o with
    | none => rw [decNat_leEnc (by decide)]; rfl
    | some a =>
      simp only [List.append_assoc]
      rw [decNat_leEnc (by decide)]
      simp only [Option.bind_some, Nat.one_ne_zero, if_false, if_true]
      rw [c.rt a h]
      rfl

/-- An enum: the number of the variant in 4 bytes, then its contents. -/
def enum {α : Type} (tag : α → Nat) (c : Nat → Option (Cod α)) : Cod α where
  enc a := leEnc 4 (tag a) ++ match c (tag a) with
    | none => []
    | some d => d.enc a
  dec b := (decNat 4 b).bind fun p => match c p.1 with
    | none => none
    | some d => d.dec p.2
  fits a := tag a < 2 ^ 32 ∧ ∃ d, c (tag a) = some d ∧ d.fits a
  rt a h r := by
    obtain ⟨h1, d, h2, h3⟩ := h
    rw [List.append_assoc, decNat_leEnc (by omega)]
    simp only [Option.bind_some, h2]
    exact d.rt a h3 r

/-- An enum whose variants have no contents, in their order. -/
def plain {α : Type} [DecidableEq α] (l : List α) : Cod α :=
  enum (fun a => l.idxOf a) fun n => l[n]?.map fun a => iso unit (fun _ => a) (fun _ => ())

/-- `BTreeMap<K, V>`: number of entries, keys and values in the order of the keys; reading inserts one after the other. -/
def bmap {κ ν : Type} (lt : κ → κ → Bool) (hs : BMap.Strict lt) (ck : Cod κ) (cv : Cod ν) : Cod (List (κ × ν)) where
  enc := (vec (seq ck cv)).enc
  dec b := ((vec (seq ck cv)).dec b).map fun p => (BMap.ofList lt p.1, p.2)
  fits l := (vec (seq ck cv)).fits l ∧ BMap.Sorted lt l
  rt l h r := by rw [(vec (seq ck cv)).rt l h.1, Option.map_some, BMap.ofList_sorted hs h.2]

end Cod

/-! ## Columns and schemas -/

/-- `TimeUnit` (arrow-schema, variants in this order). -/
inductive TimeUnit | second | milli | micro | nano
  deriving DecidableEq, Repr

/-- `GeometryType` (common/models/src/gis/data_type.rs:26-34). -/
inductive GeoType | point | lineString | polygon | multiPoint | multiLineString | multiPolygon | collection
  deriving DecidableEq, Repr

/-- `ValueType` (common/models/src/value_type.rs:8-16); the `i16` of a geometry is its 16 bits. -/
inductive ValueType
  | unknown | float | integer | unsigned | boolean | string
  | geometry (sub : GeoType) (srid : Nat)
  deriving DecidableEq, Repr

/-- `ColumnType` (common/models/src/schema/tskv_table_schema.rs:761-765). -/
inductive ColumnType
  | tag
  | time (u : TimeUnit)
  | field (t : ValueType)
  deriving DecidableEq, Repr

/-- `TableColumn` (tskv_table_schema.rs:532-537). -/
structure TableColumn where
  id : Nat
  name : Bytes
  ctype : ColumnType
  encoding : Page.Encoding
  deriving DecidableEq

/-- `TskvTableSchema` (tskv_table_schema.rs:36-47) without the map that is computed from the columns; `index` is the hash map from
names to positions in the order in which it happens to be iterated. -/
structure Schema where
  tenant : Bytes
  db : Bytes
  name : Bytes
  version : Nat
  nextColumn : Nat
  columns : List TableColumn
  index : List (Bytes × Nat)
  deriving DecidableEq

/-- `Tag` (common/models/src/tag.rs:25-28). -/
structure Tag where
  key : Bytes
  value : Bytes
  deriving DecidableEq

/-- `SeriesKey` (common/models/src/series_info.rs:15-18). -/
structure SeriesKey where
  tags : List Tag
  table : Bytes
  deriving DecidableEq

def cTimeUnit : Cod TimeUnit := .plain [.second, .milli, .micro, .nano]

def cGeoType : Cod GeoType := .plain [.point, .lineString, .polygon, .multiPoint, .multiLineString, .multiPolygon, .collection]

def ValueType.tagNo : ValueType → Nat
  | .unknown => 0 | .float => 1 | .integer => 2 | .unsigned => 3 | .boolean => 4 | .string => 5 | .geometry .. => 6

/-- A variant without contents. -/
def bare {α : Type} (a : α) : Cod α := .iso .unit (fun _ => a) (fun _ => ())

def cValueType : Cod ValueType := .enum ValueType.tagNo fun
  | 0 => some (bare .unknown) | 1 => some (bare .float) | 2 => some (bare .integer) | 3 => some (bare .unsigned)
  | 4 => some (bare .boolean) | 5 => some (bare .string)
  | 6 => some (.iso (.seq cGeoType (.nat 2)) (fun p => .geometry p.1 p.2) fun
      | .geometry s n => (s, n)
      | _ => (.point, 0))
  | _ => none

def ColumnType.tagNo : ColumnType → Nat
  | .tag => 0 | .time _ => 1 | .field _ => 2

def cColumnType : Cod ColumnType := .enum ColumnType.tagNo fun
  | 0 => some (bare .tag)
  | 1 => some (.iso cTimeUnit .time fun
      | .time u => u
      | _ => .second)
  | 2 => some (.iso cValueType .field fun
      | .field t => t
      | _ => .unknown)
  | _ => none

/-- `Encoding`: the number written is the position of the variant. -/
def cEncoding : Cod Page.Encoding :=
  .plain [.default, .null, .delta, .quantile, .gzip, .bzip, .gorilla, .snappy, .zstd, .zlib, .bitPack, .deltaTs, .unknown]

def cColumn : Cod TableColumn :=
  .iso (.seq (.nat 4) (.seq .bytes (.seq cColumnType cEncoding))) (fun (a, b, c, d) => ⟨a, b, c, d⟩)
    fun c => (c.id, c.name, c.ctype, c.encoding)

/-- `Serialize`, `Deserialize::visit_seq` of `TskvTableSchema` (tskv_table_schema.rs:49-117). -/
def cSchema : Cod Schema :=
  .iso (.seq .bytes (.seq .bytes (.seq .bytes (.seq (.nat 8) (.seq (.nat 4) (.seq (.vec cColumn) (.vec (.seq .bytes (.nat 8)))))))))
    (fun (a, b, c, d, e, f, g) => ⟨a, b, c, d, e, f, g⟩)
    fun s => (s.tenant, s.db, s.name, s.version, s.nextColumn, s.columns, s.index)

def cTag : Cod Tag := .iso (.seq .bytes .bytes) (fun (a, b) => ⟨a, b⟩) fun t => (t.key, t.value)

def cKey : Cod SeriesKey := .iso (.seq (.vec cTag) .bytes) (fun (a, b) => ⟨a, b⟩) fun k => (k.tags, k.table)

def cRange : Cod TimeRange := .iso (.seq .i64 .i64) (fun (a, b) => ⟨a, b⟩) fun r => (r.minTs, r.maxTs)

/-! ## Pages, column groups, chunks -/

/-- `ValueStatistics<T>` (tsm/statistics/mod.rs:4-9). -/
structure ValueStat (α : Type) where
  min : Option α
  max : Option α
  distinct : Option Nat
  nulls : Nat
  deriving DecidableEq

/-- `PageStatistics` (page.rs:607-613). -/
inductive PageStat
  | bool (s : ValueStat Bool)
  | f64 (s : ValueStat Nat)
  | i64 (s : ValueStat Int)
  | u64 (s : ValueStat Nat)
  | bytes (s : ValueStat Bytes)
  deriving DecidableEq

/-- `PageMeta` (page.rs:600-604). -/
structure PageMeta where
  numValues : Nat
  column : TableColumn
  stat : PageStat
  deriving DecidableEq

/-- `PageWriteSpec` (page.rs:616-620). -/
structure PageSpec where
  offset : Nat
  size : Nat
  info : PageMeta
  deriving DecidableEq

/-- `ColumnGroup` (column_group.rs:9-17). -/
structure ColGroup where
  id : Nat
  pagesOffset : Nat
  size : Nat
  range : TimeRange
  pages : List PageSpec
  deriving DecidableEq

/-- `Chunk` (chunk.rs:14-23): the column groups by their number. -/
structure Chunk where
  range : TimeRange
  table : Bytes
  series : Nat
  key : SeriesKey
  nextId : Nat
  groups : List (Nat × ColGroup)
  deriving DecidableEq

/-- `ChunkWriteSpec`, `ChunkStatics` (chunk.rs:147-153, 184-187). -/
structure ChunkSpec where
  series : Nat
  offset : Nat
  size : Nat
  range : TimeRange
  deriving DecidableEq

/-- `ChunkGroupWriteSpec` (chunk_group.rs:53-60). -/
structure GroupSpec where
  schema : Schema
  offset : Nat
  size : Nat
  range : TimeRange
  count : Nat
  deriving DecidableEq

/-- `TsmVersion` (footer.rs:13-17). -/
inductive TsmVersion | v1 | v2
  deriving DecidableEq

/-- `Footer`, `TableMeta`, `SeriesMeta` (footer.rs:19-25, 105-110, 132-138). -/
structure Footer where
  version : TsmVersion
  range : TimeRange
  tableOffset : Nat
  tableSize : Nat
  bloom : Utils.Bloom
  chunkOffset : Nat
  chunkSize : Nat
  deriving DecidableEq

def cValueStat {α : Type} (c : Cod α) : Cod (ValueStat α) :=
  .iso (.seq (.opt c) (.seq (.opt c) (.seq (.opt (.nat 8)) (.nat 8)))) (fun (a, b, c, d) => ⟨a, b, c, d⟩)
    fun s => (s.min, s.max, s.distinct, s.nulls)

def PageStat.tagNo : PageStat → Nat
  | .bool _ => 0 | .f64 _ => 1 | .i64 _ => 2 | .u64 _ => 3 | .bytes _ => 4

def cPageStat : Cod PageStat := .enum PageStat.tagNo fun
  | 0 => some (.iso (cValueStat .bool) .bool fun | .bool s => s | _ => ⟨none, none, none, 0⟩)
  | 1 => some (.iso (cValueStat (.nat 8)) .f64 fun | .f64 s => s | _ => ⟨none, none, none, 0⟩)
  | 2 => some (.iso (cValueStat .i64) .i64 fun | .i64 s => s | _ => ⟨none, none, none, 0⟩)
  | 3 => some (.iso (cValueStat (.nat 8)) .u64 fun | .u64 s => s | _ => ⟨none, none, none, 0⟩)
  | 4 => some (.iso (cValueStat .bytes) .bytes fun | .bytes s => s | _ => ⟨none, none, none, 0⟩)
  | _ => none

def cPageMeta : Cod PageMeta :=
  .iso (.seq (.nat 4) (.seq cColumn cPageStat)) (fun (a, b, c) => ⟨a, b, c⟩) fun m => (m.numValues, m.column, m.stat)

def cPageSpec : Cod PageSpec :=
  .iso (.seq (.nat 8) (.seq (.nat 8) cPageMeta)) (fun (a, b, c) => ⟨a, b, c⟩) fun p => (p.offset, p.size, p.info)

def cColGroup : Cod ColGroup :=
  .iso (.seq (.nat 8) (.seq (.nat 8) (.seq (.nat 8) (.seq cRange (.vec cPageSpec))))) (fun (a, b, c, d, e) => ⟨a, b, c, d, e⟩)
    fun g => (g.id, g.pagesOffset, g.size, g.range, g.pages)

/-- `Chunk::serialize`, `deserialize` (chunk.rs:85-91). -/
def cChunk : Cod Chunk :=
  .iso (.seq cRange (.seq .bytes (.seq (.nat 4) (.seq cKey (.seq (.nat 8) (.bmap BMap.natLt BMap.natLt_strict (.nat 8) cColGroup))))))
    (fun (a, b, c, d, e, f) => ⟨a, b, c, d, e, f⟩) fun c => (c.range, c.table, c.series, c.key, c.nextId, c.groups)

def cChunkSpec : Cod ChunkSpec :=
  .iso (.seq (.nat 4) (.seq (.nat 8) (.seq (.nat 8) cRange))) (fun (a, b, c, d) => ⟨a, b, c, d⟩)
    fun s => (s.series, s.offset, s.size, s.range)

/-- `ChunkGroup::serialize`, `deserialize` (chunk_group.rs:22-28). -/
def cChunkGroup : Cod (List ChunkSpec) := .vec cChunkSpec

def cGroupSpec : Cod GroupSpec :=
  .iso (.seq cSchema (.seq (.nat 8) (.seq (.nat 8) (.seq cRange (.nat 8))))) (fun (a, b, c, d, e) => ⟨a, b, c, d, e⟩)
    fun s => (s.schema, s.offset, s.size, s.range, s.count)

/-- `ChunkGroupMeta::serialize`, `deserialize` (chunk_group.rs:117-123). -/
def cGroupMeta : Cod (List (Bytes × GroupSpec)) := .bmap BMap.bytesLt BMap.bytesLt_strict .bytes cGroupSpec

def cBloom : Cod Utils.Bloom := .iso (.seq .bytes (.nat 8)) (fun (a, b) => ⟨a, b⟩) fun f => (f.b, f.mask)

def cVersion : Cod TsmVersion := .plain [.v1, .v2]

/-- `Footer::serialize`, `deserialize` (footer.rs:79-85). -/
def cFooter : Cod Footer :=
  .iso (.seq cVersion (.seq cRange (.seq (.nat 8) (.seq (.nat 8) (.seq cBloom (.seq (.nat 8) (.nat 8)))))))
    (fun (a, b, c, d, e, f, g) => ⟨a, b, c, d, e, f, g⟩)
    fun f => (f.version, f.range, f.tableOffset, f.tableSize, f.bloom, f.chunkOffset, f.chunkSize)

theorem cVersion_length (v : TsmVersion) : (cVersion.enc v).length = 4 := by cases v <;> decide

/-- The size of a footer depends on the size of the filter only. -/
theorem cFooter_length (f : Footer) : (cFooter.enc f).length = f.bloom.b.length + 68 := by
  cases f with | mk v r a b bl c d =>
  simp [cFooter, Cod.iso, Cod.seq, cVersion_length, cRange, Cod.i64, i64Enc, Cod.nat, cBloom, Cod.bytes]
  omega

end Verif.Tsm
