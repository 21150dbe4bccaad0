import Verif.Common.AMap
import Verif.Common.Sort
/-!
# Model: table schemas and how writes extend them

`common/models/src/schema/tskv_table_schema.rs`, `tskv/src/schema/schemas.rs`, the two table commands of
`meta/src/store/storage.rs` and `query_server/query/src/execution/ddl/alter_table.rs`.

Simplifications: one table; its tenant, database and name are left out.  Encodings are left out.  Column ids and schema
versions are natural numbers (u32 and u64 in the code, they grow by one per change).  `HashMap`s are finite maps.
-/
namespace Verif.Schema

/-- `enum ValueType` (models/src/value_type.rs). -/
inductive Ty where
  | float | integer | unsigned | boolean | string | geometry
deriving DecidableEq

/-- `enum ColumnType` (tskv_table_schema.rs:761-765). -/
inductive Kind where
  | time
  | tag
  | field (ty : Ty)
deriving DecidableEq

/-- `struct TableColumn` (tskv_table_schema.rs:530-536). -/
structure Col where
  id : Nat
  name : String
  kind : Kind
deriving DecidableEq

/-- `ColumnType::is_tag` (tskv_table_schema.rs:877-879). -/
def Col.isTag (c : Col) : Bool := match c.kind with | .tag => true | _ => false
/-- `ColumnType::is_field` (tskv_table_schema.rs:897-899). -/
def Col.isField (c : Col) : Bool := match c.kind with | .field _ => true | _ => false

/-- `ColumnType::is_time` (tskv_table_schema.rs:881-883). -/
def Col.isTime (c : Col) : Bool := match c.kind with | .time => true | _ => false

/-- `ColumnType::matches_type` (tskv_table_schema.rs:901-905). -/
def Kind.matches (a b : Kind) : Bool := decide (a = b) || (decide (a = .field .geometry) && decide (b = .field .string))

/-- `struct TskvTableSchema` (tskv_table_schema.rs:35-47). -/
structure Table where
  ver : Nat
  nextId : Nat
  cols : List Col
  index : AMap String Nat

/-- Names with their positions, collected into a map (tskv_table_schema.rs:306-310, 376-382). -/
def indexOf (cols : List Col) : AMap String Nat :=
  cols.zipIdx.foldl (fun m e => m.set e.1.name e.2) AMap.empty

/-- `TskvTableSchema::new` (tskv_table_schema.rs:305-325). -/
def Table.new (cols : List Col) : Table := ⟨0, cols.length, cols, indexOf cols⟩

/-- `add_column` (tskv_table_schema.rs:359-370). -/
def Table.addColumn (t : Table) (c : Col) : Table :=
  match t.index.get c.name with
  | some _ => { t with nextId := t.nextId + 1 }
  | none => { t with cols := t.cols ++ [c], index := t.index.set c.name t.cols.length, nextId := t.nextId + 1 }

/-- `drop_column` (tskv_table_schema.rs:372-385).  `Vec::remove` panics out of bounds; see `C93_index`. -/
def Table.dropColumn (t : Table) (name : String) : Table :=
  let cols := match t.index.get name with
    | some i => t.cols.eraseIdx i
    | none => t.cols
  { t with cols := cols, index := indexOf cols }

/-- `change_column` (tskv_table_schema.rs:387-396). -/
def Table.changeColumn (t : Table) (name : String) (c : Col) : Table :=
  match t.index.get name with
  | none => t
  | some i => { t with cols := t.cols.set i c, index := (t.index.del name).set c.name i }

/-- `column` (tskv_table_schema.rs:399-403); the access is unchecked in the code, see `C93_index`. -/
def Table.column (t : Table) (name : String) : Option Col := (t.index.get name).bind fun i => t.cols[i]?

/-- `column_index` (tskv_table_schema.rs:417-420). -/
def Table.columnIndex (t : Table) (name : String) : Option Nat := t.index.get name

/-- `tag_num` (tskv_table_schema.rs:476-481). -/
def tagNum (cols : List Col) : Nat := cols.countP Col.isTag

/-- The ids of the fields in ascending order: the position of an id is `fields_id().get(id)`
(`build_fields_ids`, tskv_table_schema.rs:327-341). -/
def fieldIds (cols : List Col) : List Nat := Sort.sortBy (fun a b => decide (a ≤ b)) ((cols.filter Col.isField).map Col.id)

/-! ## The meta store -/

/-- `process_create_table` (meta/src/store/storage.rs:1108-1130). -/
def create (t : Table) : Option Table → Option Table
  | some _ => none
  | none => some t

/-- `process_update_table` (storage.rs:1132-1158): a table that is not there is inserted. -/
def update (t : Table) : Option Table → Option Table
  | some v => if v.ver + 1 ≠ t.ver then none else some t
  | none => some t

/-! ## Extending the schema for a write -/

/-- `struct FbSchema` (tskv/src/database.rs:465-473): the columns of a write request. -/
structure Req where
  tags : List String
  fields : List (String × Ty)
deriving DecidableEq

/-- The loop over the tags (schemas.rs:105-125); `none` is a type error. -/
def addTags : List String → Table × Bool → Option (Table × Bool)
  | [], r => some r
  | n :: l, (t, changed) =>
    match t.column n with
    | some c => if c.isTag then addTags l (t, changed) else none
    | none => addTags l (t.addColumn ⟨t.nextId, n, .tag⟩, true)

/-- The loop over the fields (schemas.rs:127-156). -/
def addFields : List (String × Ty) → Table × Bool → Option (Table × Bool)
  | [], r => some r
  | (n, ty) :: l, (t, changed) =>
    match t.column n with
    | some c => if c.kind.matches (.field ty) then addFields l (t, changed) else none
    | none => addFields l (t.addColumn ⟨t.nextId, n, .field ty⟩, true)

/-- What a request does to the meta store. -/
inductive Act where
  | create | update | keep
deriving DecidableEq

/-- An empty table with a time column (schemas.rs:87-100). -/
def fresh : Table := (Table.new []).addColumn ⟨0, "time", .time⟩

/-- The schema computed from the cached one, with its new version, and the command sent (schemas.rs:84-188). -/
def plan (r : Req) (cached : Option Table) : Option (Table × Act) :=
  match cached with
  | some t =>
    (addTags r.tags (t, false)).bind fun x => (addFields r.fields x).map fun x =>
      if x.2 then ({ x.1 with ver := x.1.ver + 1 }, .update) else (t, .keep)
  | none =>
    (addTags r.tags (fresh, false)).bind fun x => (addFields r.fields x).map fun x => ({ x.1 with ver := 0 }, .create)

/-! ## Executions

Several nodes, each with a cache of the table's schema (`TenantMeta::data`), and one meta store.  A request calls
`check_field_type_or_else_add_impl` (schemas.rs:70-190), which is cut where another request or a notification can come in
between: the fetch from the meta store, the reading of the cache with the local computation, the command to the meta
store.  A conflict starts a recursive call, whose result is thrown away (schemas.rs:165-171, 178-184): the outermost call
returns the schema it computed itself.  The reply to the creation of a table also refreshes the cache unless that has
become newer meanwhile (`write_with_data`, meta/src/model/meta_tenant.rs:372-381); here that is a notification. -/

/-- Where a request is.  `ret` is the schema the outermost call has computed. -/
inductive Pc where
  | fetch (ret : Table)
  | read (ret : Option Table)
  | send (t : Table) (act : Act) (ret : Table)
  | done (t : Table)
  | failed

/-- A write request at a node. -/
structure Proc where
  node : Nat
  req : Req
  pc : Pc

/-- `stored` is the table in the meta store, `hist` every value it had, `caches` those of the nodes. -/
structure St where
  stored : Option Table
  hist : List Table
  caches : Nat → Option Table
  procs : List Proc

/-- No table yet. -/
def St.init : St := ⟨none, [], fun _ => none, []⟩

/-- What can happen next. -/
inductive Ev where
  /-- A write request arrives at a node. -/
  | request (node : Nat) (r : Req)
  /-- The request goes on. -/
  | step (i : Nat)
  /-- A notification of the meta store puts an old or the newest value into the cache of a node. -/
  | notify (node k : Nat)
  /-- DROP TABLE (`process_drop_table`, storage.rs:1021-1034). -/
  | drop
deriving DecidableEq

/-- Put a value into the cache of a node. -/
def St.cache (s : St) (node : Nat) (t : Option Table) : St :=
  { s with caches := fun n => if n = node then t else s.caches n }

/-- Store a new value. -/
def St.put (s : St) (t : Table) : St := { s with stored := some t, hist := s.hist ++ [t] }

/-- One step of a request. -/
def Proc.step (p : Proc) (s : St) : St × Pc :=
  match p.pc with
  | .fetch ret => (match s.stored with | some t => s.cache p.node (some t) | none => s, .read (some ret))
  | .read ret =>
    match plan p.req (s.caches p.node) with
    | none => (s, .failed)
    | some (t, .keep) => (s, .done (ret.getD t))
    | some (t, a) => (s, .send t a (ret.getD t))
  | .send t .create ret =>
    match create t s.stored with
    | some t => (s.put t, .done ret)
    | none => (s, .fetch ret)
  | .send t .update ret =>
    match update t s.stored with
    | some t => (s.put t, .done ret)
    | none => (s, .fetch ret)
  | .send _ .keep ret => (s, .done ret)
  | .done t => (s, .done t)
  | .failed => (s, .failed)

/-- One event. -/
def St.step (s : St) : Ev → St
  | .request node r => { s with procs := s.procs ++ [⟨node, r, .read none⟩] }
  | .step i =>
    match s.procs[i]? with
    | none => s
    | some p => let r := p.step s; { r.1 with procs := s.procs.set i { p with pc := r.2 } }
  | .notify node k =>
    match s.hist[k]? with
    | none => s
    | some t => s.cache node (some t)
  | .drop => { s with stored := none }

/-- The state after a sequence of events. -/
def run (l : List Ev) : St := l.foldl St.step St.init

/-! ## CREATE TABLE -/

/-- `create_table_to_plan` (planner.rs:908-968) and `build_schema` (create_table.rs:61-70): the columns are numbered from 0 on, with
the time column in front. -/
def createTable (l : List (String × Kind)) : Option Table :=
  let cols := ((("time", Kind.time) :: l).zipIdx).map fun e => (⟨e.2, e.1.1, e.1.2⟩ : Col)
  if cols.countP Col.isTime > 1 then none
  else if (cols.map Col.name).Nodup then some (Table.new cols) else none

/-! ## ALTER TABLE

The planner looks up the next column id (`query_server/query/src/sql/planner.rs:1137`), the execution reads the schema
again (`alter_table.rs:43-51`) and sends the changed one; a conflict is an error. -/

/-- The column of ALTER TABLE … ADD, as planned (planner.rs:1124-1139); `none` if there is one of that name. -/
def planAdd (name : String) (kind : Kind) (cached : Table) : Option Col :=
  match cached.column name with
  | some _ => none
  | none => some ⟨cached.nextId, name, kind⟩

/-- `AlterTableAction::AddColumn` (alter_table.rs:53-62). -/
def execAdd (c : Col) (cached : Table) : Table := { cached.addColumn c with ver := cached.ver + 1 }

/-- The checks of ALTER TABLE … DROP (planner.rs:1140-1164). -/
def planDrop (name : String) (cached : Table) : Bool :=
  match cached.column name with
  | none => false
  | some c => if c.isTag then false else if c.isField && cached.cols.countP Col.isField == 1 then false else !c.isTime

/-- The checks of ALTER TABLE … RENAME COLUMN (planner.rs:1190-1214). -/
def planRename (old new : String) (cached : Table) : Bool :=
  match cached.column old with
  | none => false
  | some c => if (cached.column new).isSome then false else !c.isTime

/-- `AlterTableAction::DropColumn` (alter_table.rs:64-72). -/
def execDrop (name : String) (cached : Table) : Table := { cached.dropColumn name with ver := cached.ver + 1 }

/-- `AlterTableAction::RenameColumn` (alter_table.rs:98-125). -/
def execRename (old new : String) (cached : Table) : Option Table :=
  (cached.column old).map fun c => { cached.changeColumn old { c with name := new } with ver := cached.ver + 1 }

end Verif.Schema
