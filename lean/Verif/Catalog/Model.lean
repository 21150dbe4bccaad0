import Verif.Plan.Model
import Verif.Common.Sort

/-!
# Model: the catalogue of a tenant as a user sees it

* `query_server/query/src/metadata/mod.rs` (`process_system_table_source`, `build_table_handle`, `get_table_source`,
  `database_table_exist`)
* `query_server/query/src/metadata/information_schema_provider/mod.rs`, `factory/*.rs`, `builder/*.rs`
* `query_server/query/src/metadata/cluster_schema_provider/mod.rs`, `factory/*.rs`, `builder/*.rs`
* `query_server/query/src/metadata/usage_schema_provider/mod.rs`
* `query_server/query/src/metadata/base_table.rs` (lines 41-80)
* `query_server/query/src/sql/planner.rs` (`describe_databases_to_plan`, `describe_table_to_plan`,
  `show_databases_to_plan`, `show_tables_to_plan`, `databases_privileges`, `check_privilege`)
* `meta/src/model/meta_tenant.rs` (`list_databases`, `list_tables`, `get_table_schema`)

Maps are lists of entries in the arbitrary order of their iteration.  Values that a table only displays are texts;
the name that the schema of a database carries is that under which it is stored.
Errors of the connection to the meta service, the table `QUERIES` (area `Track`) and the filters, projections and
limits that the executor applies to the rows are left out.
-/
namespace Verif.Catalog
open Verif.Auth Verif.Plan

/-- `TableSchema` (table_schema.rs). -/
inductive Kind where
  | tskv | external | stream
deriving DecidableEq

/-- `TableSchema::engine_name` (table_schema.rs:34-40). -/
def Kind.engine : Kind → Name
  | .tskv => "TSKV".toList
  | .external => "EXTERNAL".toList
  | .stream => "STREAM".toList

/-- `ColumnType` (tskv_table_schema.rs); what is in it besides the kind is part of the text of the data type. -/
inductive ColKind where
  | tag | field | time
deriving DecidableEq

/-- `as_column_type_str` (tskv_table_schema.rs:787-793). -/
def ColKind.text : ColKind → Name
  | .tag => "TAG".toList
  | .field => "FIELD".toList
  | .time => "TIME".toList

/-- A column: `TableColumn` of a TSKV table, `Field` of an external or stream table, which have no kind and no codec of
their own. -/
structure Column where
  name : Name
  kind : ColKind
  nullable : Bool
  dataType : Name
  codec : Name
deriving DecidableEq

/-- `TableSchema`: what the catalogue shows of it. -/
structure Table where
  name : Name
  kind : Kind
  columns : List Column
deriving DecidableEq

/-- `DatabaseInfo` (meta_data.rs) with `is_hidden` and the eleven settings that are displayed. -/
structure Db where
  hidden : Bool
  settings : List Name
  tables : List (Name × Table)
deriving DecidableEq

/-- A role under its name. -/
abbrev Roles := List (Name × Role Name)

/-- `ResourceInfo` (resource_info.rs): the tenant and database it belongs to and what is displayed of it. -/
structure Resource where
  tenant : Oid
  db : Name
  shown : List Name
deriving DecidableEq

/-- A row of a table of `usage_schema` of the system tenant: the tag `tenant` and the rest. -/
structure Usage where
  tenant : Name
  rest : Name
deriving DecidableEq

/-- The metadata that a session of a tenant works on. -/
structure World where
  tenantId : Oid
  tenant : Name
  dbs : List (Name × Db)
  roles : Roles
  members : List (Oid × RoleId)
  users : List (Name × UserDesc)
  tenants : List (Name × Name)
  resources : List Resource
  usage : Name → List Usage
  /-- the rows of a table of this tenant -/
  content : Name → Name → List Name

/-- The user of a session (user.rs:19-24). -/
structure Viewer where
  id : Oid
  isAdmin : Bool
  privs : List Right

/-- `HashMap::get`. -/
def get {α β : Type} [DecidableEq α] (l : List (α × β)) (a : α) : Option β := (l.find? fun e => decide (e.1 = a)).map (·.2)

/-- `can_read_database` (user.rs:64-73). -/
def canRead (v : Viewer) (tid : Oid) (db : Name) : Bool :=
  userCheck v.privs (.tenantObject (.database .read (some db)) (some tid))

/-- `can_access_role` (user.rs:59-62). -/
def canRoles (v : Viewer) (tid : Oid) : Bool := userCheck v.privs (.tenantObject .roleFull (some tid))

/-- One row of the answer. -/
inductive Row where
  | db (tenant name : Name) (settings : List Name)
  | table (tenant db name type engine options : Name)
  | column (tenant db table name kind : Name) (position : Nat) (default : Name) (nullable : Bool) (dataType : Name)
      (codec : Option Name)
  | privilege (tenant db priv role : Name)
  | role (name type : Name) (inherits : Option Name)
  | enabled (role : Name)
  | member (user role : Name)
  | resource (shown : List Name)
  | user (name : Name) (admin : Bool) (opts : UserOpts)
  | tenant (name opts : Name)
  | usage (u : Usage)
  | data (r : Name)
  | name (n : Name)
  | settings (l : List Name)
  | described (name dataType kind : Name) (codec : Option Name)
deriving DecidableEq

/-! ## Tables of `information_schema` -/

/-- `InformationDatabasesTable::scan` (databases.rs:70-123). -/
def databasesRows (v : Viewer) (w : World) : List Row :=
  w.dbs.flatMap fun e =>
    if !canRead v w.tenantId e.1 then []
    else if e.2.hidden then []
    else [.db w.tenant e.1 e.2.settings]

/-- `list_tables` (meta_tenant.rs:540-549). -/
def listTables (w : World) (db : Name) : List Name :=
  match get w.dbs db with
  | some i => i.tables.map (·.1)
  | none => []

/-- `get_table_schema`, `TenantMetaData::table_schema` (meta_data.rs:258-266). -/
def tableSchema (w : World) (db table : Name) : Option Table :=
  match get w.dbs db with
  | some i => get i.tables table
  | none => none

/-- `InformationTable::scan` (tables.rs:69-123). -/
def tablesRows (v : Viewer) (w : World) : List Row :=
  w.dbs.flatMap fun e =>
    if !canRead v w.tenantId e.1 then []
    else if e.2.hidden then []
    else (listTables w e.1).flatMap fun n =>
      match tableSchema w e.1 n with
      | some t => [.table w.tenant e.1 t.name "TABLE".toList t.kind.engine "TODO".toList]
      | none => []

/-- `append_tskv_table`, `append_external_table`, `append_stream_table` (columns.rs:138-201). -/
def columnRow (tenant db : Name) (t : Table) (i : Nat) (c : Column) : Row :=
  match t.kind with
  | .tskv => .column tenant db t.name c.name c.kind.text i "NULL".toList (decide (c.kind ≠ .time)) c.dataType (some c.codec)
  | .external => .column tenant db t.name c.name ColKind.field.text i "NULL".toList c.nullable c.dataType none
  | .stream => .column tenant db t.name c.name ColKind.field.text i "UNKNOWN".toList c.nullable c.dataType none

/-- The rows of the columns of a table, numbered from `i`. -/
def appendColumns (tenant db : Name) (t : Table) : Nat → List Column → List Row
  | _, [] => []
  | i, c :: l => columnRow tenant db t i c :: appendColumns tenant db t (i + 1) l

/-- `InformationColumnsTable::scan` (columns.rs:74-131). -/
def columnsRows (v : Viewer) (w : World) : List Row :=
  w.dbs.flatMap fun e =>
    if !canRead v w.tenantId e.1 then []
    else if e.2.hidden then []
    else (listTables w e.1).flatMap fun n =>
      match tableSchema w e.1 n with
      | some t => appendColumns w.tenant e.1 t 0 t.columns
      | none => []

/-- `DatabasePrivilege::as_str` (privilege.rs:172-178). -/
def privText : DbPriv → Name
  | .read => "Read".toList
  | .write => "Write".toList
  | .full => "All".toList

/-- The rows of the privileges of a role. -/
def roleRows (tenant : Name) (n : Name) (r : Role Name) : List Row :=
  r.additional.map fun e => .privilege tenant e.1 (privText e.2) n

/-- `InformationDatabasePrivilegesTable::scan` (database_privileges.rs:78-149). -/
def privilegesRows (v : Viewer) (w : World) : List Row :=
  if canRoles v w.tenantId then w.roles.flatMap fun e => roleRows w.tenant e.1 e.2
  else match get w.members v.id with
    | some (.custom n) => match get w.roles n with
      | some r => roleRows w.tenant n r
      | none => []
    | some (.system _) => []
    | none => []

/-- `SystemTenantRole::name` (role.rs:111-118). -/
def sysRoleName : SysRole → Name
  | .owner => ownerName
  | .member => memberName

/-- `InformationRolesTable::scan` (roles.rs:73-110). -/
def rolesRows (v : Viewer) (w : World) : List Row :=
  if canRoles v w.tenantId then
    ([SysRole.owner, SysRole.member].map fun r => Row.role (sysRoleName r) "system".toList none) ++
      w.roles.map fun e => match e.2.sys with
        | some s => Row.role e.1 "custom".toList (some (sysRoleName s))
        | none => Row.role e.1 "custom".toList (some "NULL".toList)
  else []

/-- `InformationEnabledRolesTable::scan` (enabled_roles.rs:69-94). -/
def enabledRows (v : Viewer) (w : World) : List Row :=
  match get w.members v.id with
  | some r => [.enabled r.name]
  | none => []

/-- `InformationMembersTable::scan` (members.rs:69-93) over `process_read_members` (storage.rs:579-604). -/
def membersRows (w : World) : List Row :=
  w.members.flatMap fun e =>
    match w.users.find? fun u => decide (u.2.id = e.1) with
    | some u => [.member u.1 e.2.name]
    | none => []

/-- `InformationSchemaResourceStatusTable::scan` (resource_status.rs:72-124): the resources of all tenants. -/
def resourceRows (v : Viewer) (w : World) : List Row :=
  w.resources.flatMap fun r =>
    if (r.db.isEmpty && !v.isAdmin) || (!r.db.isEmpty && !canRead v r.tenant r.db) then []
    else [.resource r.shown]

/-! ## Tables of `cluster_schema` and `usage_schema` -/

/-- `hidden_password` (user.rs:181-183). -/
def hidePassword (o : UserOpts) : UserOpts := { o with hash := some "*****".toList }

/-- `ClusterSchemaUsersTable::scan` (users.rs:58-91). -/
def usersRows (v : Viewer) (w : World) : List Row :=
  if v.isAdmin then w.users.map fun u => .user u.1 u.2.isAdmin (hidePassword u.2.opts) else []

/-- `ClusterSchemaTenantsTable::scan` (tenants.rs:59-91). -/
def tenantsRows (v : Viewer) (w : World) : List Row :=
  if v.isAdmin then w.tenants.map fun t => .tenant t.1 t.2 else []

/-- `create_usage_schema_view_table` (usage_schema_provider/mod.rs:87-113). -/
def usageRows (v : Viewer) (w : World) (measure : Name) : List Row :=
  ((w.usage measure).filter fun u => (v.isAdmin && decide (w.tenant = cnosdb)) || decide (u.tenant = w.tenant)).map .usage

/-! ## Names of tables -/

/-- The tables of `information_schema` (information_schema_provider/mod.rs:56-64), without `QUERIES`. -/
inductive Info where
  | databases | tables | columns | enabledRoles | roles | databasePrivileges | members | resourceStatus
deriving DecidableEq

/-- The names under which they are registered, in lower case (`register_table_factory`, lines 69-73). -/
def infoNames : List (Name × Info) :=
  [("databases".toList, .databases), ("tables".toList, .tables), ("columns".toList, .columns),
    ("enabled_roles".toList, .enabledRoles), ("roles".toList, .roles),
    ("database_privileges".toList, .databasePrivileges), ("members".toList, .members),
    ("resource_status".toList, .resourceStatus)]

/-- The measures of `usage_schema` (usage_schema_provider/mod.rs:35-50). -/
def usageNames : List Name :=
  ["http_data_in".toList, "http_data_out".toList, "http_queries".toList, "http_writes".toList,
    "coord_data_in".toList, "coord_data_out".toList, "coord_queries".toList, "coord_writes".toList,
    "sql_data_in".toList, "sql_write_row".toList, "sql_points_data_in".toList, "vnode_cache_size".toList,
    "vnode_disk_storage".toList]

/-- What a name stands for. -/
inductive Source where
  | info (t : Info)
  | usage (measure : Name)
  | tenants
  | users
  | plain
deriving DecidableEq

/-- `process_system_table_source` (metadata/mod.rs:126-174); `none` is `TableNotFound`. -/
def route (tenant db table : Name) : Option Source :=
  if sameIgnoringCase db informationSchema then (get infoNames (table.map Char.toLower)).map .info
  else if decide (tenant ≠ cnosdb) && sameIgnoringCase db usageSchema then
    if table ∈ usageNames then some (.usage table) else none
  else if sameIgnoringCase tenant cnosdb && sameIgnoringCase db clusterSchema &&
      (sameIgnoringCase table "TENANTS".toList || sameIgnoringCase table "USERS".toList) then
    if sameIgnoringCase table "TENANTS".toList then some .tenants else some .users
  else some .plain

/-- The rows of a table of `information_schema`. -/
def infoRows (v : Viewer) (w : World) : Info → List Row
  | .databases => databasesRows v w
  | .tables => tablesRows v w
  | .columns => columnsRows v w
  | .enabledRoles => enabledRows v w
  | .roles => rolesRows v w
  | .databasePrivileges => privilegesRows v w
  | .members => membersRows w
  | .resourceStatus => resourceRows v w

/-- `build_table_handle` (metadata/mod.rs:176-189, base_table.rs:42-80), then a scan of the table; `none` is
`TableNotFound`. -/
def scan (v : Viewer) (w : World) (db table : Name) : Option (List Row) :=
  match route w.tenant db table with
  | none => none
  | some (.info t) => some (infoRows v w t)
  | some (.usage m) => some (usageRows v w m)
  | some .tenants => some (tenantsRows v w)
  | some .users => some (usersRows v w)
  | some .plain => match get w.dbs db with
    | none => none
    | some i => if i.hidden then none else match get i.tables table with
      | none => none
      | some _ => some ((w.content db table).map .data)

/-! ## Statements -/

inductive Stmt where
  /-- `SELECT * FROM db.table` -/
  | select (db table : Name)
  | showDatabases
  | showTables (db : Name)
  | describeDatabase (db : Name)
  | describeTable (db table : Name)
deriving DecidableEq

inductive Answer where
  | notFound
  | denied
  | rows (l : List Row)
deriving DecidableEq

/-- `database_table_exist` (metadata/mod.rs:277-305). -/
def dbExists (w : World) (db : Name) (table : Option Name) : Bool :=
  match get w.dbs db with
  | none => false
  | some i => if i.hidden then false else match table with
    | none => true
    | some t => (get i.tables t).isSome

/-- Order of texts (`ORDER BY` of a text column). -/
def nameLe (a b : Name) : Bool := decide (a ≤ b)

/-- `check_privilege` (planner.rs:2909-2925), which comes after planning (`create_logical_plan`, lines 136-156). -/
def checked (v : Viewer) (p : Right) (l : List Row) : Answer := if userCheck v.privs p then .rows l else .denied

/-- `Read` on a database of the tenant, or on all of them. -/
def readRight (w : World) (db : Option Name) : Right := .tenantObject (.database .read db) (some w.tenantId)

/-- The name of the database of a row of `DATABASES`. -/
def Row.dbName : Row → Option Name
  | .db _ n _ => some n
  | _ => none

/-- The settings in a row of `DATABASES`, if the row is about the database (planner.rs:1022-1025). -/
def Row.settingsOf (db : Name) : Row → Option (List Name)
  | .db _ n s => if n = db then some s else none
  | _ => none

/-- The name of the table in a row of `TABLES`, if the row is about the database (planner.rs:1290-1297). -/
def Row.tableIn (db : Name) : Row → Option Name
  | .table _ d n _ _ _ => if d = db then some n else none
  | _ => none

/-- The description in a row of `COLUMNS`, if the row is about the table (planner.rs:1066-1074). -/
def Row.columnOf (db table : Name) : Row → Option Row
  | .column _ d t n k _ _ _ ty c => if d = db ∧ t = table then some (.described n ty k c) else none
  | _ => none

/-- The statements, from planning to the answer. -/
def answer (v : Viewer) (w : World) : Stmt → Answer
  -- `databases_privileges` (planner.rs:2927-2943) with the databases of `get_table_source`
  | .select db table => match scan v w db table with
    | none => .notFound
    | some l => checked v (readRight w (some db)) l
  -- `show_databases_to_plan` (planner.rs:1242-1270)
  | .showDatabases => checked v (readRight w none) ((Sort.sortBy nameLe ((databasesRows v w).filterMap Row.dbName)).map .name)
  -- `show_tables_to_plan` (planner.rs:1272-1312)
  | .showTables db => checked v (readRight w (some db))
      ((Sort.sortBy nameLe ((tablesRows v w).filterMap (Row.tableIn db))).map .name)
  -- `describe_databases_to_plan` (planner.rs:993-1042)
  | .describeDatabase db =>
    if !dbExists w db none then .notFound
    else checked v (readRight w (some db)) (((databasesRows v w).filterMap (Row.settingsOf db)).map .settings)
  -- `describe_table_to_plan` (planner.rs:1044-1088)
  | .describeTable db table =>
    if !dbExists w db (some table) then .notFound
    else checked v (readRight w (some db)) ((columnsRows v w).filterMap (Row.columnOf db table))

end Verif.Catalog
