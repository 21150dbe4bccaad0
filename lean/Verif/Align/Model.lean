import Verif.Common.Sort
import Verif.Stats.Model
/-!
# Model: reading sources with different columns

* `tskv/src/reader/iterator.rs:340-395, 463-560, 588-611` — `build_chunk_reader`, `build_series_reader`, `project_time_fields`
* `tskv/src/reader/column_group/mod.rs:33-70, 186-212` — `ColumnGroupReader`
* `tskv/src/reader/memcache_reader.rs:50-170` — `MemCacheReader`
* `tskv/src/reader/mod.rs:166-205`, `tskv/src/reader/utils.rs:109-147` — `CombinedBatchReader`, `CombinedRecordBatchStream`
* `tskv/src/reader/filter.rs:41-118` — `DataFilter`
* `tskv/src/reader/schema_alignmenter.rs:43-215` — `SchemaAlignmenter`
* `tskv/src/reader/series.rs:49-150` — `SeriesReader`

Simplifications: the sources of a series do not overlap, so that nothing is merged (merging is in `Verif.Reader`, and works on aligned
batches); no limit; column groups are not skipped by statistics (see C77); deleted rows are not there (see `Verif.Tomb`); a stream is one list
of rows instead of batches; a column group has its cells by rows.
-/
namespace Verif.Align

open Verif.Sort Verif.Stats

/-- A column, and the `Field` that is made of it (tskv_table_schema.rs:606-632): two fields are equal only if all of this is equal. -/
structure Col where
  id : Nat
  name : Name
  typ : Nat
  enc : Nat
  tag : Bool
deriving DecidableEq

/-- The cells of a row. -/
abbrev Cells := List (Option Val)

/-- `PageWriteSpec`: column and offset of a page. -/
structure Page where
  col : Col
  off : Nat
deriving DecidableEq

/-- A column group: its pages, and its rows with one cell for each page. -/
structure Group where
  pages : List Page
  rows : List Cells

/-- A record batch stream: `schema()`, and the rows of its batches. -/
structure Stream where
  schema : List Col
  rows : List Cells
deriving DecidableEq

/-- The pages of the projection with the positions of their cells (column_group/mod.rs:43-53). -/
def Group.pick (proj : List Nat) (g : Group) : List (Page × Nat) :=
  proj.filterMap fun id => g.pages.zipIdx.find? fun p => decide (p.1.col.id = id)

/-- `sort_by_key(|p| p.offset())` (column_group/mod.rs:193-194). -/
def leOff (a b : Page × Nat) : Bool := decide (a.1.off ≤ b.1.off)

/-- `ColumnGroupReader::process` (column_group/mod.rs:55-90, 186-212): the schema has the columns in the order of the projection, the batch
has them in the order of the file. -/
def Group.stream (proj : List Nat) (g : Group) : Stream :=
  ⟨(g.pick proj).map fun p => p.1.col, g.rows.map fun r => (sortBy leOff (g.pick proj)).map fun p => (r[p.2]?).join⟩

/-- `CombinedBatchReader::process` (reader/mod.rs:179-201) with `CombinedRecordBatchStream::try_new` (utils.rs:125-147): `none` is the error
`MismatchedSchema`. -/
def combined : List Stream → Option Stream
  | [] => some ⟨[], []⟩
  | s :: ss => if ss.all fun t => decide (t.schema = s.schema) then some ⟨s.schema, s.rows ++ ss.flatMap Stream.rows⟩ else none

/-- The position of a column in a schema. -/
def posOf (schema : List Col) (id : Nat) : Option Nat := schema.findIdx? fun c => decide (c.id = id)

/-- The cell of a column in a row. -/
def cellAt (schema : List Col) (r : Cells) (id : Nat) : Option Val := (posOf schema id).bind fun i => (r[i]?).join

/-- `SchemaAlignmenter` (schema_alignmenter.rs:43-57, 93-140, 189-215): columns are found by id, missing ones are NULL. -/
def align (out : List Col) (s : Stream) : Stream :=
  if out = s.schema then s else ⟨out, s.rows.map fun r => out.map fun c => cellAt s.schema r c.id⟩

/-- The row that a filter sees: columns are found by name (`file_schema.index_of`, utils.rs:250-268). -/
def rowOf (schema : List Col) (r : Cells) : Row := fun n => ((schema.findIdx? fun c => decide (c.name = n)).bind fun i => (r[i]?).join)

/-- `DataFilter::process` (filter.rs:41-58, 86-118); `none` is an error. -/
def filtered (q : FloatCmp) (full : List Name) (pred : Option Expr) (s : Stream) : Option Stream :=
  match pred with
  | none => some s
  | some e =>
    match reassign full (s.schema.map Col.name) (some e) with
    | none => none
    | some none => some s
    | some (some e') => some ⟨s.schema, s.rows.filter fun r => decide (eval q (rowOf s.schema r) e' = some true)⟩

/-- A source of rows of a series: the chunk of a file, or a write buffer with the columns of its newest schema. -/
inductive Src where
  | chunk (groups : List Group)
  | mem (cols : List Col) (rows : List Cells)

/-- `MemCacheReader` (memcache_reader.rs:50-170): `none` is a panic (no column, `column_ids[1..]`) or an error (the first column is not
the time, so that the arrays have different lengths). -/
def memStream (proj : List Nat) (cols : List Col) (rows : List Cells) : Option Stream :=
  let picked := proj.filterMap fun id => cols.zipIdx.find? fun c => decide (c.1.id = id) && !c.1.tag
  if (picked.head?.map fun c => c.1.id) = some 0 then
    some ⟨picked.map Prod.fst, rows.map fun r => picked.map fun c => (r[c.2]?).join⟩
  else none

/-- The rows of a source before filtering (iterator.rs:352-385). -/
def Src.stream (proj : List Nat) : Src → Option Stream
  | .chunk gs => combined (gs.map (Group.stream proj))
  | .mem cols rows => memStream proj cols rows

/-- `build_chunk_reader` (iterator.rs:340-395) and the alignment of fields (iterator.rs:512-521). -/
def Src.read (q : FloatCmp) (full : List Name) (pred : Option Expr) (proj : List Nat) (tf : List Col) (s : Src) : Option Stream :=
  ((s.stream proj).bind (filtered q full pred)).map (align tf)

/-- `SeriesReader` (series.rs:49-96, 121-142): the tags of the series that are in the query schema are appended. -/
def withTags (table : List Col) (tags : List (Nat × Val)) (s : Stream) : Stream :=
  let known := tags.filterMap fun t => (table.find? fun c => decide (c.id = t.1)).map fun c => (c, t.2)
  ⟨s.schema ++ known.map Prod.fst, s.rows.map fun r => r ++ known.map fun t => some t.2⟩

/-- `project_time_fields` (iterator.rs:588-611). -/
def timeFields (out : List Col) : List Col := out.filter fun c => !c.tag

/-- `build_series_reader` (iterator.rs:463-560) for sources that do not overlap.  `out` are the columns of the query, `table` those of the
query's table schema. -/
def readSeries (q : FloatCmp) (pred : Option Expr) (proj : List Nat) (table out : List Col) (tags : List (Nat × Val)) (srcs : List Src) :
    Option Stream :=
  ((srcs.mapM (Src.read q (table.map Col.name) pred proj (timeFields out))).bind combined).map fun s => align out (withTags table tags s)

/-! ## What a query asks for -/

/-- The cells of the columns `out` of a row of a source with the columns `cols`: tags from the series, other columns by their ids. -/
def want (out : List Col) (tags : List (Nat × Val)) (cols : List Col) (r : Cells) : Cells :=
  out.map fun c => if c.tag then (tags.find? fun t => decide (t.1 = c.id)).map Prod.snd else cellAt cols r c.id

/-- The rows of a source as they are asked for. -/
def Src.want (out : List Col) (tags : List (Nat × Val)) : Src → List Cells
  | .chunk gs => gs.flatMap fun g => g.rows.map (Align.want out tags (g.pages.map Page.col))
  | .mem cols rows => rows.map (Align.want out tags cols)

end Verif.Align
