import Verif.Write.Props
/-!
# Model: INSERT and UPDATE of fields, from the rows of the source to the rows in the buffer

* `query_server/query/src/extension/logical/logical_plan_builder.rs:91-250` — the columns of an INSERT, its checks and the
  projection between the source and the table
* `query_server/query/src/data_source/mod.rs:46-60`, `data_source/sink/tskv.rs:27-97`,
  `extension/physical/plan_node/table_writer.rs:176-207` — the batches of the source, the number of rows reported
* `coordinator/src/service.rs:650-775, 1205-1270` (`write_record_batch`) — the rows of a batch by replication set
* `common/protocol_parser/src/lines_convert.rs:282-612` (`arrow_array_to_points`) — the message for a set
* `query_server/query/src/sql/planner.rs:339-417`, `extension/analyse/transform_update.rs` — UPDATE
* the vnode: `Verif.Write`

Simplifications: the source is a list of batches of rows of optional values of some type; its plan is left out.  A source of
more than one partition is left out.  Casts are a parameter, and a cast to the type a value has already changes nothing, so
that every column of the source is cast.  Encodings are left out.  Below a null there is a zero (arrow arrays are made so).
The set a row goes to is a parameter that takes the tags and the time as `write_record_batch` hashes and converts them;
which set that is, is in `Verif.Cluster`.  All sets see the same schema.  The command of a set is committed or not as a whole.
-/
namespace Verif.Insert
open Verif.Schema Verif.Write
open Verif.Stats (Val)
open Verif.Utils (Bytes)

/-! ## The plan of an INSERT -/

/-- `ColumnType::to_physical_type` (tskv_table_schema.rs:838-850): the type of the values of a column. -/
def tyOfKind : Kind → Ty
  | .time => .integer
  | .tag => .string
  | .field .geometry => .string
  | .field ty => ty

/-- `FbColumnType` of a column (lines_convert.rs:298-326). -/
def ctOf : Kind → CT
  | .time => .time
  | .tag => .tag
  | .field _ => .field

/-- `extract_column_names` (logical_plan_builder.rs:133-147): no columns are all columns of the table. -/
def columnNames (t : Table) (names : List String) : List String := if names = [] then t.cols.map Col.name else names

/-- `semantic_check` (logical_plan_builder.rs:149-187) for a source of `n` columns. -/
def check (t : Table) (names : List String) (n : Nat) : Bool :=
  decide (names.length ≤ n) && (!names.isEmpty || decide (n = t.cols.length)) &&
    names.all fun x => t.cols.any fun c => decide (c.name = x)

/-- What the source has for a column of the table: the first column of that name
(logical_plan_builder.rs:192-247; `zip` stops with the shorter list). -/
def assigned {S : Type} (names : List String) (row : List (Option S)) (c : Col) : Option S :=
  ((names.zip row).find? fun e => decide (e.1 = c.name)).bind (·.2)

/-- The projection (logical_plan_builder.rs:212-247) for a row: what the source has, cast to the type of the column, or null. -/
def projectRow {S : Type} (cast : Kind → S → Except Err Val) (t : Table) (names : List String) (row : List (Option S)) :
    Except Err (List (Option Val)) :=
  collect (t.cols.map fun c => match assigned names row c with
    | none => .ok none
    | some s => (cast c.kind s).map some)

/-! ## `write_record_batch` -/

/-- The cells of a row with their columns. -/
def cellsOf (t : Table) (r : List (Option Val)) : List (Col × Option Val) := t.cols.zip r

/-- The time of a row (service.rs:690-704, 1205-1270): `value(idx)` does not look at the null bits. -/
def timeCell (t : Table) (r : List (Option Val)) : Option (BitVec 64) :=
  ((cellsOf t r).find? fun e => decide (e.1.name = "time")).map fun e => match e.2 with
    | some (.int v) => v
    | _ => 0#64

/-- What is hashed (service.rs:705-718): names and values of the tags, an empty string for a null. -/
def hashTags (t : Table) (r : List (Option Val)) : List (String × Bytes) :=
  (cellsOf t r).filterMap fun e => if e.1.kind = .tag then some (e.1.name, match e.2 with | some (.str b) => b | _ => []) else none

/-- `has_fileds` (service.rs:720-724). -/
def hasField (t : Table) (r : List (Option Val)) : Bool := (cellsOf t r).any fun e => e.1.isField && e.2.isSome

/-- The set of a row (service.rs:677-748). -/
def locate (conv : Int → Option Int) (route : List (String × Bytes) → Int → Except Err Nat) (t : Table) (r : List (Option Val)) :
    Except Err Nat :=
  match timeCell t r with
  | none => .error .error
  | some v => match conv v.toInt with
    | none => .error .error
    | some ts => if hasField t r then route (hashTags t r) ts else .error .error

/-- A column of the message (`build_string_column`, …, lines_convert.rs:338-612): a null is a zero without its bit. -/
def colOf (c : Col) (cells : List (Option Val)) : Column :=
  ⟨ctOf c.kind, tyOfKind c.kind, cells.map Option.isSome, cells.map fun v => v.getD (zero (tyOfKind c.kind))⟩

/-- The cell of a row in a column. -/
def cellAt (r : List (Option Val)) (j : Nat) : Option Val := (r[j]?).join

/-- `arrow_array_to_points` (lines_convert.rs:282-336): all columns of the table, in its order. -/
def msgOf (t : Table) (rows : List (List (Option Val))) : Msg :=
  ⟨t.cols.zipIdx.map fun e => (e.1.name, colOf e.1 (rows.map fun r => cellAt r e.2)), rows.length⟩

/-- The rows of a set (service.rs:749: `entry(info).or_default().push(idx)`), with the sets in the order they come up; the
code goes through a hash map. -/
def setsOf (l : List Nat) : List Nat := l.foldl (fun s n => if n ∈ s then s else s ++ [n]) []

/-- The rows of a batch that go to a set, in order (service.rs:751-768: `take`). -/
def rowsOf (n : Nat) (l : List (Nat × List (Option Val))) : List (List (Option Val)) :=
  (l.filter fun e => decide (e.1 = n)).map (·.2)

/-- What has been stored in which set, and the number of rows reported. -/
structure Outcome where
  stored : List (Nat × List (List (Nat × Bytes) × Row))
  res : Except Err Nat

/-- The first error. -/
def firstErr {α : Type} : List (Except Err α) → Except Err Unit
  | [] => .ok ()
  | .error e :: _ => .error e
  | .ok _ :: l => firstErr l

/-- What a set has stored, if its command was applied. -/
def kept {α : Type} (a : Nat × Except Err α) : Option (Nat × α) := match a.2 with | .ok out => some (a.1, out) | .error _ => none

/-- `write_record_batch` (service.rs:650-775) and the vnodes (`cur` is the schema they have): every row is located before
anything is sent, then every set gets its message; all answers are waited for and the first error is reported.
`up n` is whether the command of a set is committed. -/
def writeBatch (conv : Int → Option Int) (route : List (String × Bytes) → Int → Except Err Nat) (strict : Bool)
    (up : Nat → Bool) (t : Table) (cur : Option Table) (rows : List (List (Option Val))) : Outcome :=
  match collect (rows.map fun r => (locate conv route t r).map fun n => (n, r)) with
  | .error e => ⟨[], .error e⟩
  | .ok l =>
    let answers := (setsOf (l.map (·.1))).map fun n =>
      (n, if up n then ((msgOf t (rowsOf n l)).write conv strict cur).map (·.2) else .error .error)
    ⟨answers.filterMap kept,
      (firstErr (answers.map (·.2))).map fun _ => rows.length⟩

/-- `stream_write` (data_source/mod.rs:49-59) with `DropEmptyRecordBatchStream`, and `aggregate_statistiction`: batch by
batch, up to the first error. -/
def writeAll (write : List (List (Option Val)) → Outcome) : List (Except Err (List (List (Option Val)))) → Outcome
  | [] => ⟨[], .ok 0⟩
  | .error e :: _ => ⟨[], .error e⟩
  | .ok rows :: l =>
    if rows = [] then writeAll write l
    else match (write rows).res with
      | .error e => ⟨(write rows).stored, .error e⟩
      | .ok n => ⟨(write rows).stored ++ (writeAll write l).stored, (writeAll write l).res.map (n + ·)⟩

/-- What an INSERT needs to know. -/
structure Env where
  conv : Int → Option Int
  route : List (String × Bytes) → Int → Except Err Nat
  strict : Bool
  up : Nat → Bool

/-- INSERT (logical_plan_builder.rs:91-130 and the above): `n` columns and the batches of the source. -/
def insert {S : Type} (cast : Kind → S → Except Err Val) (env : Env) (t : Table) (cur : Option Table) (names : List String) (n : Nat)
    (src : List (List (List (Option S)))) : Outcome :=
  if check t (columnNames t names) n then
    writeAll (writeBatch env.conv env.route env.strict env.up t cur)
      (src.map fun rows => collect (rows.map (projectRow cast t (columnNames t names))))
  else ⟨[], .error .error⟩

/-! ## UPDATE of fields -/

/-- What an UPDATE does (transform_update.rs:60-93). -/
inductive UpdateKind where
  | time | tag | field
deriving DecidableEq

/-- The kind of an UPDATE (transform_update.rs:60-93): all its columns must be of one kind; updating the time is not
implemented, and neither is a mix. -/
def updateKind (t : Table) (cols : List String) : Option UpdateKind :=
  match collect (cols.map fun n => match t.column n with | some c => .ok c | none => .error .error) with
  | .error _ => none
  | .ok cs =>
    if cs.all Col.isTime then some .time
    else if cs.all Col.isTag then some .tag
    else if cs.all Col.isField then some .field
    else none

/-- The row an UPDATE writes for a row it has read (`update_field`, transform_update.rs:199-215): the first value for every
column that is set, and the old values of all other columns. -/
def setRow (t : Table) (sets : List (String × (List (Option Val) → Option Val))) (r : List (Option Val)) : List (Option Val) :=
  (cellsOf t r).map fun e => match sets.find? fun s => decide (s.1 = e.1.name) with
    | some s => s.2 r
    | none => e.2

/-- UPDATE of fields (transform_update.rs:190-225): the rows the scan returns, filtered and projected, are inserted. -/
def update (cast : Kind → Val → Except Err Val) (env : Env) (t : Table) (cur : Option Table)
    (sets : List (String × (List (Option Val) → Option Val))) (p : List (Option Val) → Bool) (scan : List (List (List (Option Val)))) :
    Outcome :=
  if updateKind t (sets.map (·.1)) = some .field then
    insert cast env t cur (t.cols.map Col.name) t.cols.length (scan.map fun rows => (rows.filter p).map (setRow t sets))
  else ⟨[], .error .error⟩

end Verif.Insert
