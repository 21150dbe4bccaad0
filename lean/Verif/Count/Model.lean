import Verif.Schema.Model
import Verif.Mem.Model
/-!
# Model: counting without reading

`SELECT count(c) FROM t` without a condition is pushed down to the storage, which adds up numbers from the metadata
(`tskv/src/reader/pushdown_agg_reader.rs`, `query_server/query/src/extension/logical/optimizer_rule/push_down_aggregation.rs`,
`query_server/query/src/data_source/batch/tskv.rs`).

Simplifications: numbers do not overflow an i64.  The schema of a row group of the write buffer is the version and the
field ids of `Verif.Mem`; `cat` gives all the columns it has.  Tombstones are the function `dead` of a chunk: the deleted
times of the rows (`none`) or of a column.  Files whose chunk of the series cannot be in the time range have none here (the
condition is empty, so the range is everything).
-/
namespace Verif.Count
open Verif.Mem Verif.Schema

variable {V : Type}

/-- A column group of a chunk: the times and the columns with a value or NULL for each time. -/
structure ColGroup (V : Type) where
  times : List Int
  cols : List (Col × List (Option V))

/-- A chunk: its column groups, and what tombstones delete of it. -/
structure Chunk (V : Type) where
  groups : List (ColGroup V)
  dead : Option Nat → Int → Bool

/-- `enum DataReference` (tskv/src/reader/mod.rs): a chunk of a file or a series of a write buffer. -/
inductive Ref (V : Type) where
  | chunk (c : Chunk V)
  | mem (s : Series V)

/-- `TIME_FIELD_NAME`, the name of the time column. -/
def timeName : String := "time"

/-- The column name and `num_values` of each page of a column group.  `num_values` is the number of rows, with or without
a value (tskv/src/tsm/page.rs:348, 499, 596). -/
def pageMetas (g : ColGroup V) : List (String × Nat) :=
  (timeName, g.times.length) :: g.cols.map fun c => (c.1.name, c.2.length)

/-- `get_rows_number_by_column_name_chunk` (pushdown_agg_reader.rs:39-49). -/
def chunkCount (n : String) (c : Chunk V) : Nat :=
  (c.groups.map fun g => (((pageMetas g).filter fun p => p.1 == n).map Prod.snd).sum).sum

/-- One group of `get_rows_number_by_column_name_memcache` (pushdown_agg_reader.rs:57-71): `index - tag_num - 1` wraps below
zero in a release build and then is no position of a row. -/
def groupCount (cols : List Col) (n : String) (rows : List (Row V)) : Nat :=
  match cols.findIdx? (fun c => c.name == n) with
  | none => 0
  | some 0 => rows.length
  | some (i + 1) =>
    if i < tagNum cols then 0 else rows.countP fun r => ((r.fields[i - tagNum cols]?).join).isSome

/-- `get_rows_number_by_column_name_memcache` (pushdown_agg_reader.rs:51-74). -/
def memCount (cat : Mem.Schema → List Col) (n : String) (s : Series V) : Nat :=
  (s.groups.map fun g => groupCount (cat g.schema) n g.rows).sum

/-- `PushDownAggregateReader::process` (pushdown_agg_reader.rs:77-97). -/
def refCount (cat : Mem.Schema → List Col) (n : String) : Ref V → Nat
  | .chunk c => chunkCount n c
  | .mem s => memCount cat n s

/-- The pushed-down count: the sum over all series and all their chunks and buffers (iterator.rs:345-362, 541-560 and the
`Sum` put on top of it, push_down_aggregation.rs:138-147). -/
def count (cat : Mem.Schema → List Col) (n : String) (db : List (List (Ref V))) : Nat :=
  (db.map fun refs => (refs.map (refCount cat n)).sum).sum

/-- The chunk a flush writes for a series (`Series.toPages` with the columns of the newest schema,
tskv/src/mem_cache/series_data.rs:219-265). -/
def flushed (cat : Mem.Schema → List Col) (s : Series V) : Option (Chunk V) :=
  s.toPages.map fun x =>
    ⟨[⟨x.2.1, (x.1.ids.zip x.2.2).filterMap fun e => ((cat x.1).find? fun c => c.id == e.1).map fun c => (c, e.2)⟩],
      fun _ _ => false⟩

/-! ## The optimizer rule -/

/-- An argument of `count`. -/
inductive Arg where
  | col (n : String)
  | lit (isNull : Bool)
deriving DecidableEq

/-- What the aggregate stands on: a scan with filters, possibly under a projection that maps names to columns. -/
structure Input where
  proj : Option (String → String)
  filters : Nat

/-- An ungrouped or grouped aggregate with the arguments of its `count`s; `pushable` is false for `exact_count`. -/
structure Agg where
  groups : Nat
  args : List Arg
  distinct : Bool
  pushable : Bool

/-- The column whose count is pushed down, if any: `PushDownAggregation::try_optimize`
(push_down_aggregation.rs:48-95) with `supports_aggregate_pushdown` (tskv.rs:373-425) and the conversion of the argument
(tskv.rs:143-195).  The projection is stepped over. -/
def pushed (cols : List Col) (a : Agg) (i : Input) : Option String :=
  if a.distinct ∨ i.filters ≠ 0 ∨ a.groups ≠ 0 ∨ a.pushable = false then none else
  match a.args with
  | [.col n] =>
    match cols.find? fun c => c.name == n with
    | some c => if c.isTag then none else some n
    | none => none
  | [.lit isNull] => if isNull then none else some timeName
  | _ => none

end Verif.Count
