import Verif.Schema.Ddl
import Verif.Stats.Model
import Verif.Utils.Props
/-!
# Model: from the lines of a write request to the rows in the buffer

* `common/protocol_parser/src/lines_convert.rs:20-280` — lines to columns, columns to a flatbuffer message
* `common/models/src/mutable_batch.rs:10-110`, `common/models/src/column_data_ref.rs:35-60`
* `common/models/src/series_info.rs:83-130`, `common/models/src/tag.rs:9-40` — the key of a series
* `tskv/src/database.rs:199-345, 475-535` — the rows of a message, grouped by series
* `tskv/src/mem_cache/row_data.rs:29-190` — a row of a message
* `tskv/src/vnode_store.rs:80-110, 262-320` — a write command, also when it comes from the log

Simplifications: `HashMap`s are finite maps, the columns of a batch are a list of name and column.  The encoding of the
flatbuffer message is left out.  A message is taken table by table; the tables of one message do not meet, except that an
error in one is an error of all.  The key of a tag is the number of its column; the code writes it in decimal digits (`dec`).
Values are those of `Verif.Stats`: 64 bits of an integer, a float, …, or the bytes of a string.  The series index is a
function from keys to ids (`Verif.Index`).
-/
namespace Verif.Write
open Verif.Schema
open Verif.Stats (Val)
open Verif.Utils (Bytes bytesLe Precision timestampConvert)

/-- An error is reported; a panic kills the task. -/
inductive Err where
  | error
  | panic
deriving DecidableEq

/-- `ColumnType` of the message (`FbColumnType`) and of `PhysicalCType`, without the types. -/
inductive CT where
  | tag | field | time
deriving DecidableEq

/-- `FieldType` of a value. -/
def tyOf : Val → Ty
  | .int _ => .integer
  | .uint _ => .unsigned
  | .float _ => .float
  | .str _ => .string
  | .bool _ => .boolean

/-- The value `resize` fills up with (lines_convert.rs:38, 63, 84, 105, 126, 147). -/
def zero : Ty → Val
  | .integer => .int 0#64
  | .unsigned => .uint 0#64
  | .float => .float 0#64
  | .boolean => .bool false
  | .string => .str []
  | .geometry => .str []

/-- `struct Line` (protocol_parser/src/lib.rs:38-46), without its hash. -/
structure Line where
  table : String
  tags : List (String × Bytes)
  fields : List (String × Val)
  ts : BitVec 64
deriving DecidableEq

/-- `Column` (mutable_batch.rs:88-91): the type it was made with, the type of its data, the null bits, the data. -/
structure Column where
  ct : CT
  ty : Ty
  valid : List Bool
  data : List Val
deriving DecidableEq

/-- `MutableBatch` (mutable_batch.rs:10-19). -/
structure Batch where
  cols : List (String × Column)
  rows : Nat
deriving DecidableEq

/-- `MutableBatch::new` (mutable_batch.rs:22-28). -/
def Batch.empty : Batch := ⟨[], 0⟩

/-- `Column::new` (mutable_batch.rs:94-101, column_data_ref.rs:36-60): no null bits, `rows` default values. -/
def Column.new (rows : Nat) (ct : CT) (ty : Ty) : Column := ⟨ct, ty, [], List.replicate rows (zero ty)⟩

/-- One arm of `line_to_batches` (lines_convert.rs:36-46): the data must be of the type of the value.  The null bits are
filled up to the row and one is added.  If the row has its bit already, `row_count - valid.len()` wraps and `append_n`
takes the last bit away, so the value is replaced. -/
def Column.put (row : Nat) (v : Val) (c : Column) : Except Err Column :=
  if tyOf v = c.ty then
    .ok { c with
      data := ((c.data ++ List.replicate (row + 1 - c.data.length) (zero c.ty)).take (row + 1)).set row v
      valid := (c.valid ++ List.replicate (row - c.valid.length) false).take row ++ [true] }
  else .error .error

/-- `column_mut` (mutable_batch.rs:30-46), which looks for the name only, and the arm of `line_to_batches` for the value. -/
def Batch.put (b : Batch) (n : String) (ct : CT) (v : Val) : Except Err Batch :=
  match b.cols.find? fun e => decide (e.1 = n) with
  | none => ((Column.new b.rows ct (tyOf v)).put b.rows v).map fun c => { b with cols := b.cols ++ [(n, c)] }
  | some e => (e.2.put b.rows v).map fun c => { b with cols := b.cols.map fun x => if x.1 = n then (n, c) else x }

/-- What a line puts into the columns, in order (lines_convert.rs:30-170). -/
def Line.items (l : Line) : List (String × CT × Val) :=
  l.tags.map (fun x => (x.1, CT.tag, Val.str x.2)) ++ l.fields.map (fun x => (x.1, CT.field, x.2)) ++
    [("time", CT.time, Val.int l.ts)]

/-- The columns of a row. -/
def Batch.putAll : List (String × CT × Val) → Batch → Except Err Batch
  | [], b => .ok b
  | x :: l, b => (b.put x.1 x.2.1 x.2.2).bind (Batch.putAll l)

/-- The body of the loop over the lines (lines_convert.rs:22-181), for the batch of their table. -/
def Batch.addLine (b : Batch) (l : Line) : Except Err Batch := (Batch.putAll l.items b).map fun b => { b with rows := b.rows + 1 }

/-- `MutableBatch::finish` for a column (mutable_batch.rs:48-86). -/
def Column.finish (rows : Nat) (c : Column) : Column :=
  if c.valid.length < rows then
    { c with
      valid := c.valid ++ List.replicate (rows - c.valid.length) false
      data := if c.data = [] then [] else c.data ++ List.replicate (rows - c.data.length) (zero c.ty) }
  else c

/-- `MutableBatch::finish` (mutable_batch.rs:48-86). -/
def Batch.finish (b : Batch) : Batch := { b with cols := b.cols.map fun e => (e.1, e.2.finish b.rows) }

/-- The loop of `line_to_batches` (lines_convert.rs:21-182). -/
def addLines : List Line → AMap String Batch → Except Err (AMap String Batch)
  | [], m => .ok m
  | l :: ls, m => (((m.get l.table).getD .empty).addLine l).bind fun b => addLines ls (m.set l.table b)

/-- The columns of a message are sorted by their names (lines_convert.rs:202-207). -/
def nameLe (a b : String × Column) : Bool := decide (a.1.toList ≤ b.1.toList)

/-- A table of a message (`mutable_batches_to_point`, lines_convert.rs:197-270). -/
structure Msg where
  cols : List (String × Column)
  rows : Nat
deriving DecidableEq

/-- The table of a message for a batch (lines_convert.rs:185-189, 197-270). -/
def Batch.msg (b : Batch) : Msg := ⟨Sort.sortBy nameLe b.finish.cols, b.rows⟩

/-- `write_lines` for the lines of one replica set (coordinator/src/service.rs:565-645): the message by table. -/
def message (ls : List Line) : Except Err (AMap String Batch) := addLines ls .empty

/-! ## The vnode -/

/-- `FbSchema::from_fb_column` (database.rs:478-535). -/
def Msg.req (m : Msg) : Except Err Req :=
  if m.cols.any (fun e => decide (e.2.ct = .time)) && m.cols.any (fun e => decide (e.2.ct = .field)) then
    .ok ⟨(m.cols.filter fun e => decide (e.2.ct = .tag)).map (·.1), (m.cols.filter fun e => decide (e.2.ct = .field)).map fun e => (e.1, e.2.ty)⟩
  else .error .error

/-- The schema a request is written with (database.rs:217-232): in strict mode the one that is there, whatever the columns
of the request; else the one extended by them. -/
def Msg.schema (strict : Bool) (cur : Option Table) (r : Req) : Except Err Table :=
  if strict then match cur with | some t => .ok t | none => .error .error
  else match plan r cur with | some (t, _) => .ok t | none => .error .error

/-- The value of a column in a row: the null bits are cut to the number of values, and asking for one behind them panics
(`BooleanBuffer::value`, row_data.rs:48-58, series_info.rs:98-104). -/
def Column.read (c : Column) (i : Nat) : Except Err (Option Val) :=
  match c.data[i]? with
  | none => .error .panic
  | some v => .ok (if c.valid[i]? = some true then some v else none)

/-- A loop that stops at the first error. -/
def foldE {α β : Type} (f : β → α → Except Err β) : β → List α → Except Err β
  | s, [] => .ok s
  | s, a :: l => (f s a).bind fun s => foldE f s l

/-- Results collected up to the first error. -/
def collect {α : Type} : List (Except Err α) → Except Err (List α)
  | [] => .ok []
  | .error e :: _ => .error e
  | .ok a :: l => (collect l).map (a :: ·)

/-- The decimal digits of a column id (`format!("{key}")`, tag.rs:37). -/
def dec (n : Nat) : Bytes :=
  if n < 10 then [BitVec.ofNat 8 (48 + n)] else dec (n / 10) ++ [BitVec.ofNat 8 (48 + n % 10)]
termination_by n
decreasing_by omega

/-- `sort_tags` (tag.rs:9-11). -/
def sortTags (l : List (Nat × Bytes)) : List (Nat × Bytes) := Sort.sortBy (fun a b => bytesLe (dec a.1) (dec b.1)) l

/-- One turn of the loop of `build_series_key` (series_info.rs:91-121). -/
def keyStep (t : Table) (i : Nat) (s : List (Nat × Bytes)) (e : String × Column) : Except Err (List (Nat × Bytes)) :=
  (e.2.read i).bind fun
    | none => .ok s
    | some (.str v) => match t.column e.1 with
      | none => .error .error
      | some c => .ok (s ++ [(c.id, v)])
    | some _ => .error .error

/-- `build_series_key` (series_info.rs:83-130): the tags of the key, without the table. -/
def keyOf (t : Table) (cols : List (String × Column)) (i : Nat) : Except Err (List (Nat × Bytes)) :=
  (foldE (keyStep t i) [] (cols.filter fun e => decide (e.2.ct = .tag))).map sortTags

/-- `struct RowData` (row_data.rs:18-21): `fields` in the order of `fieldIds`. -/
structure Row where
  ts : Int
  fields : List (Option Val)
deriving DecidableEq

/-- One turn of the loop over the columns of `point_to_row_data` (row_data.rs:40-165): the values and whether there is one.
A column that is not in the schema is skipped; one that is not a field there panics (`unwrap`, row_data.rs:66). -/
def rowStep (t : Table) (i : Nat) (s : List (Option Val) × Bool) (e : String × Column) : Except Err (List (Option Val) × Bool) :=
  if e.2.ct = .field then
    (e.2.read i).bind fun
      | none => .ok s
      | some v => match t.column e.1 with
        | none => .ok s
        | some c => match (fieldIds t.cols).idxOf? c.id with
          | none => .error .panic
          | some k => .ok (s.1.set k (some v), true)
  else .ok s

/-- The time of a row (row_data.rs:171-186); `prec` converts it to the precision of the table. -/
def timeOf (conv : Int → Option Int) (cols : List (String × Column)) (i : Nat) : Except Err Int :=
  match (cols.filter fun e => decide (e.2.ct = .time)).getLast? with
  | none => .error .error
  | some e => match e.2.data[i]? with
    | some (.int v) => match conv v.toInt with
      | some x => .ok x
      | none => .error .error
    | some _ => .error .error
    | none => .error .panic

/-- `point_to_row_data` for a row (row_data.rs:37-190). -/
def rowOf (conv : Int → Option Int) (t : Table) (cols : List (String × Column)) (i : Nat) : Except Err Row :=
  (foldE (rowStep t i) (List.replicate (fieldIds t.cols).length none, false) cols).bind fun s =>
    if s.2 then (timeOf conv cols i).map fun ts => ⟨ts, s.1⟩ else .error .error

/-- The key and the row of every row of a message, in order (`build_index`, `build_row_data`, database.rs:250-345).  The code
makes the rows series by series; an error in one is an error of all. -/
def Msg.rowsWith (conv : Int → Option Int) (t : Table) (m : Msg) : Except Err (List (List (Nat × Bytes) × Row)) :=
  collect ((List.range m.rows).map fun i => (keyOf t m.cols i).bind fun k => (rowOf conv t m.cols i).map fun r => (k, r))

/-- `build_write_group` for one table (database.rs:199-247): the schema and the rows. -/
def Msg.write (conv : Int → Option Int) (strict : Bool) (cur : Option Table) (m : Msg) :
    Except Err (Table × List (List (Nat × Bytes) × Row)) :=
  m.req.bind fun r => (Msg.schema strict cur r).bind fun t => (m.rowsWith conv t).map fun out => (t, out)

/-- The rows by series (`build_row_data`, database.rs:258-266): `sid` gives the id of a key. -/
def group (sid : List (Nat × Bytes) → Nat) (out : List (List (Nat × Bytes) × Row)) : AMap Nat (List (Nat × Bytes) × List Row) :=
  out.foldl (fun m e => match m.get (sid e.1) with
    | none => m.set (sid e.1) (e.1, [e.2])
    | some g => m.set (sid e.1) (g.1, g.2 ++ [e.2])) .empty

end Verif.Write
