import Verif.Time.Model
import Verif.Common.AMap
/-!
# Model: the write buffer of a series

`tskv/src/mem_cache/series_data.rs`, `tskv/src/mem_cache/row_data.rs`, and the building of a row group in
`tskv/src/database.rs`.

Simplifications: columns are their ids (names are in bijection with them); time and tag columns are left out of schemas
because rows hold fields only; sizes (memory accounting) are left out.  A schema is its version and the ascending list of
its field ids, which is what `fields_id` and `fields_orderby_id` are built from.

Assumption on the crate `skiplist` (0.5.1): `OrderedSkipList::insert` puts a value in front of the values equal to it.
(Were it behind them, an overwritten value would win over its overwriting even in the simplest case.)
-/
namespace Verif.Mem
open Verif.Time

variable {V : Type}

/-- `struct RowData` (row_data.rs:17-21). -/
structure Row (V : Type) where
  ts : Int
  fields : List (Option V)
deriving DecidableEq

/-- `TskvTableSchema`, the part used here (models/src/schema/tskv_table_schema.rs). -/
structure Schema where
  ver : Nat
  ids : List Nat
deriving DecidableEq

/-- `fields_id().get(id)` (tskv_table_schema.rs:334-347, 505-507): the position of a field in a row. -/
def Schema.index (s : Schema) (id : Nat) : Option Nat := s.ids.findIdx? (· == id)

/-- `struct RowGroup` (series_data.rs:14-20). -/
structure Group (V : Type) where
  schema : Schema
  range : TimeRange
  rows : List (Row V)
deriving DecidableEq

/-- `struct SeriesData` (series_data.rs:22-28), oldest group first. -/
structure Series (V : Type) where
  range : TimeRange
  groups : List (Group V)
deriving DecidableEq

/-- `TimeRange::none` (domain.rs:73-78). -/
def noRange : TimeRange := ⟨i64Max, i64Min⟩

/-- `SeriesData::new` (series_data.rs:31-41). -/
def Series.new : Series V := ⟨noRange, []⟩

/-- `OrderedRowsData::insert` (row_data.rs:245-247). -/
def insertRow (r : Row V) : List (Row V) → List (Row V)
  | [] => [r]
  | x :: l => if x.ts < r.ts then x :: insertRow r l else r :: x :: l

/-- Inserting rows one after another. -/
def insertRows (rs : List (Row V)) (l : List (Row V)) : List (Row V) := rs.foldl (fun l r => insertRow r l) l

/-- The row group of one series of a write request (`build_row_data`, database.rs:265-279). -/
def mkGroup (s : Schema) (rs : List (Row V)) : Group V :=
  ⟨s, rs.foldl (fun tr r => tr.merge ⟨r.ts, r.ts⟩) noRange, insertRows rs []⟩

/-- A group goes into the first group (from the newest) with the same schema version (series_data.rs:46-55). -/
def writeRev (g : Group V) : List (Group V) → Option (List (Group V))
  | [] => none
  | item :: l =>
    if item.schema.ver = g.schema.ver then
      some (⟨g.schema, item.range.merge g.range, insertRows g.rows item.rows⟩ :: l)
    else (writeRev g l).map (item :: ·)

/-- `SeriesData::write` (series_data.rs:43-58). -/
def Series.write (s : Series V) (g : Group V) : Series V :=
  ⟨s.range.merge g.range,
    match writeRev g s.groups.reverse with
    | some l => l.reverse
    | none => s.groups ++ [g]⟩

/-- One group of `drop_column` (series_data.rs:61-82). -/
def Group.dropColumn (id : Nat) (g : Group V) : Group V :=
  match g.schema.index id with
  | none => g
  | some i =>
    ⟨{ g.schema with ids := g.schema.ids.eraseIdx i }, g.range,
      insertRows (g.rows.map fun r => { r with fields := if i < r.fields.length then r.fields.eraseIdx i else r.fields }) []⟩

/-- `SeriesData::drop_column` (series_data.rs:60-83). -/
def Series.dropColumn (id : Nat) (s : Series V) : Series V := { s with groups := s.groups.map (Group.dropColumn id) }

/-- `SeriesData::delete_series` (series_data.rs:103-112), used by DROP TABLE. -/
def Series.deleteSeries (r : TimeRange) (s : Series V) : Series V :=
  if r.maxTs < s.range.minTs ∨ r.minTs > s.range.maxTs then s
  else { s with groups := s.groups.map fun g =>
    { g with rows := g.rows.filter fun x => decide (x.ts < r.minTs) || decide (x.ts > r.maxTs) } }

/-- One range of `delete_by_time_ranges` (series_data.rs:160-176). -/
def Series.deleteRange (s : Series V) (r : TimeRange) : Series V :=
  if r.maxTs < s.range.minTs ∨ r.minTs > s.range.maxTs then s
  else { s with groups := s.groups.map fun g =>
    { g with rows := insertRows (g.rows.reverse.filter fun x => decide (x.ts < r.minTs) || decide (x.ts > r.maxTs)) [] } }

/-- `SeriesData::delete_by_time_ranges` (series_data.rs:159-177). -/
def Series.deleteRanges (trs : TimeRanges) (s : Series V) : Series V := trs.ranges.foldl Series.deleteRange s

/-! ## Reading -/

/-- The value of a column in a row: `row.fields.get(index)` (series_data.rs:326-329). -/
def value (s : Schema) (id : Nat) (r : Row V) : Option V := (s.index id).bind fun i => (r.fields[i]?).join

/-- One row goes into the result (series_data.rs:325-333). -/
def fill (align : List Nat) (s : Schema) (res : List (Option V)) (r : Row V) : List (Option V) :=
  List.zipWith (fun id cur => match cur with | some v => some v | none => value s id r) align res

/-- The smallest next timestamp (series_data.rs:303-310). -/
def minHead (pq : List (Schema × List (Row V))) : Int :=
  pq.foldl (fun m e => match e.2 with | [] => m | r :: _ => if m > r.ts then r.ts else m) i64Max

/-- `SeriesDedupMergeSortIterator::next` (series_data.rs:302-341). -/
def next (align : List Nat) (pq : List (Schema × List (Row V))) : Option (Row V × List (Schema × List (Row V))) :=
  let m := minHead pq
  if m = i64Max then none else
  some (⟨m, pq.reverse.foldl (fun res e => (e.2.takeWhile fun r => decide (r.ts = m)).foldl (fill align e.1) res)
      (align.map fun _ => none)⟩,
    pq.map fun e => (e.1, e.2.dropWhile fun r => decide (r.ts = m)))

/-- The rows of the iterator; `fuel` bounds their number. -/
def iterate (align : List Nat) : Nat → List (Schema × List (Row V)) → List (Row V)
  | 0, _ => []
  | fuel + 1, pq => match next align pq with
    | none => []
    | some (r, pq) => r :: iterate align fuel pq

/-- `flat_groups` (series_data.rs:198-209). -/
def Series.flat (s : Series V) : List (Schema × List (Row V)) := s.groups.map fun g => (g.schema, g.rows)

/-- The number of rows. -/
def size (pq : List (Schema × List (Row V))) : Nat := (pq.map fun e => e.2.length).sum

/-- `get_schema` (series_data.rs:210-216). -/
def Series.schema (s : Series V) : Option Schema := s.groups.getLast?.map Group.schema

/-- All rows in the newest schema. -/
def Series.all (s : Series V) (latest : Schema) : List (Row V) := iterate latest.ids (size s.flat + 1) s.flat

/-- `read_data` (series_data.rs:118-157): the rows handed to the caller. -/
def Series.readData (s : Series V) (cols : List Nat) (trs : TimeRanges) : List (Row V) :=
  match s.schema with
  | none => []
  | some latest =>
    ((s.all latest).filter fun r => trs.contains r.ts).map fun r => ⟨r.ts, cols.map fun id => value latest id r⟩

/-- `read_timestamps` (series_data.rs:179-197). -/
def Series.readTimestamps (s : Series V) (trs : TimeRanges) : List Int :=
  match s.schema with
  | none => []
  | some latest => ((s.all latest).filter fun r => trs.contains r.ts).map Row.ts

/-- `convert_to_page` (series_data.rs:219-265): the schema, the times and the values of each field in id order. -/
def Series.toPages (s : Series V) : Option (Schema × List Int × List (List (Option V))) :=
  s.schema.map fun latest =>
    let rows := s.all latest
    (latest, rows.map Row.ts, (List.range latest.ids.length).map fun i => rows.map fun r => (r.fields[i]?).join)

/-! ## The write buffer of a vnode

`tskv/src/mem_cache/memcache.rs`.  Left out: sequence numbers, flags, memory accounting (a write that finds the memory
exhausted returns an error before touching the buffer) and locks. -/

/-- `struct MemCache` (memcache.rs:29-45): the partitions. -/
structure Cache (V : Type) where
  parts : List (AMap Nat (Series V))

/-- `MemCache::new` (memcache.rs:84-111). -/
def Cache.new (n : Nat) : Cache V := ⟨List.replicate n AMap.empty⟩

/-- `read_series_data_by_id` (memcache.rs:255-258). -/
def Cache.get (c : Cache V) (sid : Nat) : Option (Series V) :=
  (c.parts[sid % c.parts.length]?).bind fun m => m.get sid

/-- Replace the series in its partition. -/
def Cache.put (c : Cache V) (sid : Nat) (s : Series V) : Cache V :=
  ⟨c.parts.modify (sid % c.parts.length) fun m => m.set sid s⟩

/-- `write_group` (memcache.rs:113-139). -/
def Cache.write (c : Cache V) (sid : Nat) (g : Group V) : Cache V :=
  match c.get sid with
  | some s => c.put sid (s.write g)
  | none => c.put sid (Series.new.write g)

/-- The series under its lock, if there is one. -/
def Cache.change (c : Cache V) (sid : Nat) (f : Series V → Series V) : Cache V :=
  match c.get sid with
  | some s => c.put sid (f s)
  | none => c

/-- `drop_columns` (memcache.rs:193-203). -/
def Cache.dropColumns (c : Cache V) (sids cols : List Nat) : Cache V :=
  sids.foldl (fun c sid => cols.foldl (fun c id => c.change sid (Series.dropColumn id)) c) c

/-- `delete_series` (memcache.rs:225-233). -/
def Cache.deleteSeries (c : Cache V) (sids : List Nat) (r : TimeRange) : Cache V :=
  sids.foldl (fun c sid => c.change sid (Series.deleteSeries r)) c

/-- `delete_series_by_time_ranges` (memcache.rs:235-243). -/
def Cache.deleteRanges (c : Cache V) (sids : List Nat) (trs : TimeRanges) : Cache V :=
  sids.foldl (fun c sid => c.change sid (Series.deleteRanges trs)) c

end Verif.Mem
