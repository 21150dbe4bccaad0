import Verif.Meta.Auth
/-!
# Model: which rights a request needs, and what it does with rights

* `query_server/query/src/sql/planner.rs` (`create_logical_plan`, `statement_to_plan` and the functions it calls)
* `query_server/query/src/metadata/mod.rs` (`get_table_source`, `reset_access_databases`, `is_system_database`)
* `query_server/spi/src/query/logical_planner.rs` (options of users and tenants)
* `common/models/src/object_reference.rs`, `common/models/src/auth/{role,user}.rs`
* `query_server/query/src/execution/ddl/*.rs`, `execution/sys/kill_query.rs` (what a plan does)
* `meta/src/model/meta_admin.rs` (`user_with_privileges`), `meta/src/model/meta_tenant.rs` (`user_privileges`)
* `meta/src/store/storage.rs` (users, tenants, members, roles)
* `main/src/http/http_service.rs` (which requests ask for which rights)

A statement is what the parser makes of it, with only those parts that decide about rights and effects: the
names of objects, the options of users, the tables of subqueries.  Column lists, expressions, formats and the
like are left out; where they are wrong the statement is refused, which the model covers by `Env.hasTable`
(a statement on a table that is not there is refused) and otherwise takes as right.

The metadata are read where they are stored: copies in data nodes that lag behind are the subject of C107-C110,
the login cache that of C61, tokens of connections that of `Verif.Plan.Token`.
-/
namespace Verif.Plan
open Verif.Auth

abbrev Name := List Char
/-- `Oid` (oid.rs). -/
abbrev Oid := Nat
abbrev Right := Priv Oid Name

/-- `DEFAULT_CATALOG`, `DEFAULT_DATABASE`, `USAGE_SCHEMA`, `CLUSTER_SCHEMA` (schema/mod.rs:21-24). -/
def cnosdb : Name := "cnosdb".toList
def publicDb : Name := "public".toList
def usageSchema : Name := "usage_schema".toList
def clusterSchema : Name := "cluster_schema".toList
/-- `INFORMATION_SCHEMA` (metadata/mod.rs:52). -/
def informationSchema : Name := "INFORMATION_SCHEMA".toList
/-- `ROOT` (user.rs:16). -/
def root : Name := "root".toList
def ownerName : Name := "owner".toList
def memberName : Name := "member".toList

/-- `eq_ignore_ascii_case`. -/
def sameIgnoringCase (a b : Name) : Bool := a.map Char.toLower == b.map Char.toLower

/-- `is_system_database` (metadata/mod.rs:393-401). -/
def isSystemDb (tenant db : Name) : Bool :=
  (sameIgnoringCase tenant cnosdb && (sameIgnoringCase db publicDb || sameIgnoringCase db clusterSchema)) ||
    sameIgnoringCase db informationSchema || sameIgnoringCase db usageSchema

/-- `SystemTenantRole::try_from` (role.rs:98-109). -/
def sysRoleOf (n : Name) : Option SysRole :=
  if n = ownerName then some .owner else if n = memberName then some .member else none

/-- `TenantRoleIdentifier` (role.rs:48-51). -/
inductive RoleId where
  | system (r : SysRole)
  | custom (n : Name)
deriving DecidableEq

/-- Planner, `AddUser` and `SetUser` (planner.rs:1831-1834, 1860-1863): a name that is no system role is a custom role. -/
def RoleId.ofName (n : Name) : RoleId :=
  match sysRoleOf n with
  | some r => .system r
  | none => .custom n

/-- `TenantRoleIdentifier::name` (role.rs:54-59). -/
def RoleId.name : RoleId → Name
  | .system .owner => ownerName
  | .system .member => memberName
  | .custom n => n

/-- `UserOptions` (user.rs:143-153). -/
structure UserOpts where
  hash : Option Name := none
  mustChange : Option Bool := none
  rsaKey : Option Name := none
  comment : Option Name := none
  grantedAdmin : Option Bool := none
deriving DecidableEq

/-- `UserOptions::merge` (user.rs:172-180). -/
def UserOpts.merge (a b : UserOpts) : UserOpts where
  hash := a.hash <|> b.hash
  mustChange := a.mustChange <|> b.mustChange
  rsaKey := a.rsaKey <|> b.rsaKey
  comment := a.comment <|> b.comment
  grantedAdmin := a.grantedAdmin <|> b.grantedAdmin

/-- `UserDesc` (user.rs:77-83); users are stored under their name. -/
structure UserDesc where
  id : Oid
  opts : UserOpts
  isRoot : Bool
deriving DecidableEq

/-- `is_admin` (user.rs:109-115). -/
def UserDesc.isAdmin (u : UserDesc) : Bool := u.isRoot || u.opts.grantedAdmin.getD false

/-- `Tenant` with the option `tenant_is_hidden`; the other options are left out. -/
structure Tenant where
  id : Oid
  hidden : Bool
deriving DecidableEq

/-- The metadata that decide about rights, under the keys of the store (`KeyPath`): users by name, tenants by name,
members by tenant and user id, roles by tenant and name, databases by tenant and name. -/
structure Sec where
  users : Name → Option UserDesc
  tenants : Name → Option Tenant
  members : Name → Oid → Option RoleId
  roles : Name → Name → Option (Role Name)
  dbs : Name → Name → Option Bool

/-- `HashMap::insert` / `remove` of a store of one or two keys. -/
def upd {α β : Type} [DecidableEq α] (f : α → β) (a : α) (b : β) : α → β := fun x => if x = a then b else f x
def upd2 {α β γ : Type} [DecidableEq α] [DecidableEq β] (f : α → β → γ) (a : α) (b : β) (c : γ) : α → β → γ :=
  fun x y => if x = a ∧ y = b then c else f x y

/-- What is not modelled: the tables of each tenant (tenant, database, table), the users of running queries
(`QueryTracker`) and the hash of passwords. -/
structure Env where
  runs : Nat → Option Oid
  hasTable : Name → Name → Name → Bool
  hash : Name → Name
  verify : Name → Name → Bool

/-! ## Users and their rights -/

/-- Text of an id, the key of members in the cache of a tenant. -/
def idName (i : Oid) : Name := (toString i).toList

/-- `user_privileges` (meta_tenant.rs:192-226).  The custom role is first looked up in the cached roles under the id
of the *user*; the roles are stored under their names. -/
def memberRights (s : Sec) (tenant : Name) (tid : Oid) (uid : Oid) : Option (List Right) :=
  match s.members tenant uid with
  | none => none
  | some (.system r) => some (r.privs tid)
  | some (.custom n) =>
    match s.roles tenant (idName uid) with
    | some r => some (r.privs tid)
    | none => some (match s.roles tenant n with | some r => r.privs tid | none => [])

/-- `user_with_privileges` (meta_admin.rs:588-622) with `User::new` (user.rs:27-40). -/
def rightsOf (s : Sec) (tenant : Name) (tid : Oid) (u : UserDesc) : Option (List Right) :=
  if u.isAdmin then some (userPrivs u.id dbaPrivs)
  else (memberRights s tenant tid u.id).map (userPrivs u.id)

/-- `SessionCtx`: the user with their rights, the tenant and the database of the request. -/
structure Session where
  user : UserDesc
  rights : List Right
  tenant : Name
  tenantId : Oid
  db : Name

/-- `authenticate` (instance.rs:66-80; the credentials are checked by then) and `get_tenant_id`
(auth_control.rs:82-95): the session of a request of a user, none if the user, the tenant or the membership is missing
or the tenant is hidden. -/
def session (s : Sec) (user tenant db : Name) : Option Session :=
  match s.users user, s.tenants tenant with
  | some u, some t =>
    match rightsOf s tenant t.id u with
    | some rs => if t.hidden then none else some ⟨u, rs, tenant, t.id, db⟩
    | none => none
  | _, _ => none

/-- `User::check_privilege` (user.rs:50-52). -/
def Session.holds (x : Session) (r : Right) : Bool := userCheck x.rights r

/-! ## Names of tables -/

/-- `resolve_object` (object_reference.rs:12-40) after `normalize_sql_object_name`: database and table; a name of
three parts (or more) is refused. -/
def resolve (x : Session) : List Name → Option (Name × Name)
  | [t] => some (x.db, t)
  | [d, t] => some (d, t)
  | _ => none

/-- `extract_database_table_name` (planner.rs:2945-2956): tenant, database and table; a name of three parts is taken. -/
def resolveExternal (x : Session) : List Name → Option (Name × Name × Name)
  | [t] => some (x.tenant, x.db, t)
  | [d, t] => some (x.tenant, d, t)
  | [c, d, t] => some (c, d, t)
  | _ => none

/-- `get_table_source` (metadata/mod.rs:242-275): the database that is noted as accessed. -/
def source (e : Env) (x : Session) (n : List Name) : Option Name :=
  match resolve x n with
  | some (d, t) => if e.hasTable x.tenant d t then some d else none
  | none => none

/-- The tables of a query; all must be there. -/
def sources (e : Env) (x : Session) : List (List Name) → Option (List Name)
  | [] => some []
  | n :: ns =>
    match source e x n, sources e x ns with
    | some d, some ds => some (d :: ds)
    | _, _ => none

/-! ## Statements -/

/-- Options of `CREATE USER` and `ALTER USER … SET` (logical_planner.rs:506-549). -/
inductive UserOpt where
  | password (p : Name)
  | hashPassword (h : Name)
  | mustChange (b : Bool)
  | rsaKey (k : Name)
  | comment (c : Name)
  | grantedAdmin (b : Bool)
deriving DecidableEq

/-- `sql_options_to_user_options` (logical_planner.rs:506-549) for one option on top of others. -/
def UserOpt.apply (e : Env) : UserOpt → UserOpts → UserOpts
  | .password p, o => { o with hash := some (e.hash p) }
  | .hashPassword h, o => { o with hash := some h }
  | .mustChange b, o => { o with mustChange := some b }
  | .rsaKey k, o => { o with rsaKey := some k }
  | .comment c, o => { o with comment := some c }
  | .grantedAdmin b, o => { o with grantedAdmin := some b }

/-- The password text that the function returns beside the options; empty without the option `password`. -/
def UserOpt.text : UserOpt → Name
  | .password p => p
  | _ => []

/-- `AlterUserOperation`. -/
inductive UserOp where
  | renameTo (n : Name)
  | set (o : UserOpt)
deriving DecidableEq

/-- `AlterTenantOperation`. -/
inductive TenantOp where
  | addUser (u role : Name)
  | setUser (u role : Name)
  | removeUser (u : Name)
  | setComment | setLimiter | setDropAfter
  | unsetComment | unsetLimiter | unsetDropAfter
deriving DecidableEq

/-- Statements of the operator of the cluster, planner.rs:2120-2267. -/
inductive ClusterOp where
  | dropVnode | copyVnode | moveVnode | compactVnode | compactDatabase | checksumGroup | showReplicas
  | replicaDestroy | replicaAdd | replicaRemove | replicaPromote
deriving DecidableEq

/-- `ExtStatement` (ast.rs) as far as it matters here.  `subs` are the tables of subqueries in conditions. -/
inductive Stmt where
  | query (tables : List (List Name))
  | insert (target : List Name) (tables : List (List Name))
  | update (table : List Name) (from_ : Option (List Name)) (subs : List (List Name))
  | delete (table : List Name)
  | kill (id : Nat)
  | explain (inner : Stmt)
  | createExternal (name : List Name)
  | createTable (name : List Name)
  | createStreamTable (name : List Name)
  | dropTable (name : List Name)
  | alterTable (name : List Name)
  | describeTable (name : List Name)
  | createDatabase (db : Name) (ifNotExists : Bool)
  | alterDatabase (db : Name)
  | dropDatabase (db : Name)
  | recoverDatabase (db : Name)
  | describeDatabase (db : Name)
  | showDatabases
  | showTables (db : Option Name)
  | showSeries (table : List Name) (subs : List (List Name))
  | showTagValues (table : List Name) (subs : List (List Name))
  | showQueries
  | createTenant (n : Name) (id : Oid)
  | alterTenant (n : Name) (op : TenantOp)
  | dropTenant (n : Name)
  | recoverTenant (n : Name)
  | createUser (n : Name) (id : Oid) (opts : List UserOpt)
  | alterUser (n : Name) (op : UserOp)
  | dropUser (n : Name)
  | createRole (n : Name) (inherit : Option Name)
  | dropRole (n : Name)
  | grantRevoke (grant : Bool) (ps : List (DbPriv × Name)) (role : Name)
  | copyIntoTable (table : List Name)
  | copyIntoLocation (tables : List (List Name))
  | cluster (op : ClusterOp)
  /-- `CREATE STREAM`, `DROP STREAM`, `SHOW STREAMS`, other statements of the SQL parser: refused -/
  | other

/-- What the execution of a plan touches. -/
inductive Effect where
  /-- rows or the description of tables of a database are returned -/
  | read (tenant db : Name)
  /-- rows are written, changed or deleted -/
  | write (tenant db : Name)
  /-- tables are created, changed, dropped -/
  | tables (tenant db : Name)
  /-- the databases of the tenant are listed; the running queries are listed -/
  | list (tenant : Name)
  | createDb (tenant db : Name)
  /-- a database is changed, dropped, recovered -/
  | database (tenant db : Name)
  | members (tenant : Name)
  | roles (tenant : Name)
  /-- comment and drop time of a tenant -/
  | tenant (t : Name)
  /-- the limiter of a tenant -/
  | limiter (t : Name)
  /-- tenants are created, dropped, recovered -/
  | tenants
  /-- users are created, dropped -/
  | users
  /-- options of a user; `admin` if the option is `granted_admin` or `must_change_password` -/
  | user (id : Oid) (admin : Bool)
  | cluster
  /-- a running query is ended -/
  | kill (id : Nat)
  /-- files of the server or of an object store are read, written -/
  | readFile | writeFile
deriving DecidableEq

/-- A right on the database of the session's tenant. -/
def dbRight (x : Session) (p : DbPriv) (d : Option Name) : Right := .tenantObject (.database p d) (some x.tenantId)

/-- `databases_privileges` (planner.rs:2927-2943). -/
def dbRights (x : Session) (p : DbPriv) (ds : List Name) : List Right := ds.map fun d => dbRight x p (some d)

/-- `PlanWithPrivileges`: whether the plan is a `Plan::Query`, its rights, and what it does. -/
structure Planned where
  isQuery : Bool
  rights : List Right
  effects : List Effect

/-- `construct_alter_tenant_action_with_privilege` (planner.rs:1810-1908), `sql_option_to_alter_tenant_action` and
`unset_option_to_alter_tenant_action` (logical_planner.rs:377-460), `check_alter_tenant` (planner.rs:1918-1934). -/
def planTenant (s : Sec) (n : Name) (op : TenantOp) : Option Planned :=
  match s.tenants n with
  | none => none
  | some t =>
    let member : Option Planned := some ⟨false, [.tenantObject .memberFull (some t.id)], [.members n]⟩
    let option : Option Planned := some ⟨false, [.global (.tenant (some t.id))], [.tenant n]⟩
    let limit : Option Planned := some ⟨false, [.global .system], [.limiter n]⟩
    match op with
    | .addUser u _ => if (s.users u).isSome then member else none
    | .setUser u _ => if (s.users u).isSome then member else none
    | .removeUser u => if (s.users u).isSome then member else none
    | .setComment => option
    | .setDropAfter => option
    | .setLimiter => if sameIgnoringCase n cnosdb then none else limit
    | .unsetComment => option
    | .unsetDropAfter => option
    | .unsetLimiter => limit

/-- `bcrypt_verify` of the password text of the option against the present hash (planner.rs:2003-2010). -/
def samePassword (e : Env) (o : UserOpt) (u : UserDesc) : Bool :=
  match u.opts.hash with
  | some h => e.verify o.text h
  | none => false

/-- `alter_user_to_plan` (planner.rs:1959-2035). -/
def planUser (e : Env) (s : Sec) (x : Session) (mustChange : Bool) (n : Name) (op : UserOp) : Option Planned :=
  match s.users n with
  | none => none
  | some u =>
    match op with
    | .renameTo _ => some ⟨false, [.global (.user (some u.id))], [.user u.id false]⟩
    | .set o =>
      let new := o.apply e {}
      if mustChange && !(decide (x.user.id = u.id) && new.hash.isSome) then none
      else if samePassword e o u then none
      else if u.isRoot && !x.user.isRoot then none
      else if new.grantedAdmin.isSome && u.isRoot then none
      else
        let admin := new.mustChange.isSome || new.grantedAdmin.isSome
        some ⟨false, [if admin then .global .system else .global (.user (some u.id))], [.user u.id admin]⟩

/-- A role inherits from a system role or from none (planner.rs:1785-1793). -/
def inheritOk : Option Name → Bool
  | some i => (sysRoleOf i).isSome
  | none => true

/-- `statement_to_plan` (planner.rs:167-247) without the question whether the password must be changed, which only
the outermost statement is asked (`explain_statement_to_plan` is called with `auth_enable = false`). -/
def planInner (e : Env) (s : Sec) (x : Session) : Stmt → Option Planned
  -- `df_sql_to_plan` 251-275
  | .query ts => (sources e x ts).map fun ds => ⟨true, dbRights x .read ds, ds.map (.read x.tenant)⟩
  -- `insert_to_plan` 470-525
  | .insert tg ts =>
    match sources e x ts, source e x tg with
    | some ds, some d =>
      some ⟨true, dbRights x .write [d] ++ dbRights x .read ds, .write x.tenant d :: ds.map (.read x.tenant)⟩
    | _, _ => none
  -- `update_to_plan` 339-418: the table after FROM is the one that is changed
  | .update t fr subs =>
    match source e x (fr.getD t), sources e x subs with
    | some d, some ds =>
      some ⟨true, dbRights x .write (d :: ds), .write x.tenant d :: (d :: ds).map (.read x.tenant)⟩
    | _, _ => none
  -- `delete_to_plan` 527-607; conditions with subqueries are left out
  | .delete t => (source e x t).map fun d => ⟨false, [dbRight x .write (some d)], [.write x.tenant d]⟩
  -- 309-317
  | .kill id => some ⟨false, [], [.kill id]⟩
  -- `explain_statement_to_plan` 421-461
  | .explain st =>
    match planInner e s x st with
    | some p => if p.isQuery then some p else none
    | none => none
  -- `external_table_to_plan` 885-906, `create_external_table.rs` 38-100
  | .createExternal n =>
    match resolveExternal x n with
    | some (c, d, _) =>
      if (s.tenants c).isSome then some ⟨false, [dbRight x .full (some d)], [.tables c d, .readFile]⟩ else none
    | none => none
  -- `create_table_to_plan` 908-970; `get_db_precision` refuses hidden and missing databases
  | .createTable n =>
    match resolve x n with
    | some (d, _) =>
      if s.dbs x.tenant d = some false then some ⟨false, [dbRight x .full (some d)], [.tables x.tenant d]⟩ else none
    | none => none
  -- `create_stream_table_to_plan` 2269-2325
  | .createStreamTable n =>
    (resolve x n).map fun dt => ⟨false, [dbRight x .full (some dt.1)], [.tables x.tenant dt.1]⟩
  -- `drop_database_object_to_plan` 609-647
  | .dropTable n => (resolve x n).map fun dt => ⟨false, [dbRight x .full (some dt.1)], [.tables x.tenant dt.1]⟩
  -- `alter_table_to_plan` 1090-1240
  | .alterTable n => (source e x n).map fun d => ⟨false, [dbRight x .full (some d)], [.tables x.tenant d]⟩
  -- `describe_table_to_plan` 1044-1088
  | .describeTable n => (source e x n).map fun d => ⟨true, [dbRight x .read (some d)], [.read x.tenant d]⟩
  -- `database_to_plan` 1423-1460
  | .createDatabase d ine =>
    if isSystemDb x.tenant d && !ine then none
    else some ⟨false, [dbRight x .write none], [.createDb x.tenant d]⟩
  -- `database_to_alter` 1550-1574
  | .alterDatabase d => some ⟨false, [dbRight x .full (some d)], [.database x.tenant d]⟩
  -- `drop_tenant_object_to_plan` 649-714
  | .dropDatabase d =>
    if isSystemDb x.tenant d then none else some ⟨false, [dbRight x .full (some d)], [.database x.tenant d]⟩
  -- `recoverdatabase_to_plan` 765-796
  | .recoverDatabase d => some ⟨false, [dbRight x .full (some d)], [.database x.tenant d]⟩
  -- `describe_databases_to_plan` 993-1042
  | .describeDatabase d =>
    if s.dbs x.tenant d = some false then some ⟨true, [dbRight x .read (some d)], [.read x.tenant d]⟩ else none
  -- `show_databases_to_plan` 1242-1270
  | .showDatabases => some ⟨true, [dbRight x .read none], [.list x.tenant]⟩
  -- `show_tables_to_plan` 1272-1312
  | .showTables d => let d := d.getD x.db; some ⟨true, [dbRight x .read (some d)], [.read x.tenant d]⟩
  -- `show_tag_body` 1314-1398
  | .showSeries t subs =>
    match source e x t, sources e x subs with
    | some d, some ds => some ⟨true, [dbRight x .read (some d)], (d :: ds).map (.read x.tenant)⟩
    | _, _ => none
  | .showTagValues t subs =>
    match source e x t, sources e x subs with
    | some d, some ds => some ⟨true, [dbRight x .read (some d)], (d :: ds).map (.read x.tenant)⟩
    | _, _ => none
  -- `show_queries_to_plan` 2092-2118
  | .showQueries => some ⟨true, [dbRight x .read none], [.list x.tenant]⟩
  -- `create_tenant_to_plan` 1725-1744
  | .createTenant _ _ => some ⟨false, [.global (.tenant none)], [.tenants]⟩
  | .alterTenant n op => planTenant s n op
  -- `drop_global_object_to_plan` 716-763
  | .dropTenant n => if n = cnosdb then none else some ⟨false, [.global (.tenant none)], [.tenants]⟩
  -- `recovertenant_to_plan` 798-820
  | .recoverTenant _ => some ⟨false, [.global (.tenant none)], [.tenants]⟩
  -- `create_user_to_plan` 1746-1765
  | .createUser _ _ _ => some ⟨false, [.global (.user none)], [.users]⟩
  | .alterUser n op => planUser e s x false n op
  | .dropUser _ => some ⟨false, [.global (.user none)], [.users]⟩
  -- `create_role_to_plan` 1767-1807
  | .createRole n inh =>
    if (sysRoleOf n).isSome then none
    else if inheritOk inh then
      some ⟨false, [.tenantObject .roleFull (some x.tenantId)], [.roles x.tenant]⟩
    else none
  | .dropRole n =>
    if (sysRoleOf n).isSome then none
    else some ⟨false, [.tenantObject .roleFull (some x.tenantId)], [.roles x.tenant]⟩
  -- `grant_revoke_to_plan` 2038-2090
  | .grantRevoke _ _ r =>
    if (sysRoleOf r).isSome then none
    else some ⟨false, [.tenantObject .roleFull (some x.tenantId)], [.roles x.tenant]⟩
  -- `copy_to_plan` 2346-2404; a location on the disk of the server
  | .copyIntoTable t =>
    (source e x t).map fun d => ⟨true, [dbRight x .write (some d)], [.write x.tenant d, .readFile]⟩
  | .copyIntoLocation ts =>
    (sources e x ts).map fun ds => ⟨true, dbRights x .read ds, .writeFile :: ds.map (.read x.tenant)⟩
  -- 2120-2267
  | .cluster _ => some ⟨false, [.global .system], [.cluster]⟩
  | .other => none

/-- `statement_to_plan` (planner.rs:167-186): a user who must change the password can only change it. -/
def plan (e : Env) (s : Sec) (authEnabled : Bool) (x : Session) (st : Stmt) : Option Planned :=
  if authEnabled && x.user.opts.mustChange.getD false then
    match st with
    | .alterUser n op => planUser e s x true n op
    | _ => none
  else planInner e s x st

/-- `create_logical_plan` (planner.rs:136-156) with `check_privilege` (2909-2925): the plan, if the user has all
rights it needs. -/
def accept (e : Env) (s : Sec) (authEnabled : Bool) (x : Session) (st : Stmt) : Option Planned :=
  match plan e s authEnabled x st with
  | some p => if p.rights.all x.holds then some p else none
  | none => none

/-! ## What statements do with users, tenants, members and roles -/

/-- The options that `alter_user_to_plan` hands on (1996-1999: `change_password`). -/
def userOptsOf (e : Env) (authEnabled : Bool) (x : Session) (o : UserOpt) : UserOpts :=
  let new := o.apply e {}
  if authEnabled && x.user.opts.mustChange.getD false then { new with mustChange := some false } else new

/-- `process_add_member_to_tenant`, `process_reasign_member_role`, `process_remove_member_to_tenant`
(storage.rs:1450-1515): the member after it, `none` is an error. -/
def roleThere (s : Sec) (t : Name) (r : RoleId) : Bool := (s.roles t r.name).isSome || (sysRoleOf r.name).isSome

def addMember (s : Sec) (t : Name) (u : Oid) (r : RoleId) : Option Sec :=
  if (s.members t u).isNone && roleThere s t r then some { s with members := upd2 s.members t u (some r) } else none

def setMember (s : Sec) (t : Name) (u : Oid) (r : RoleId) : Option Sec :=
  if (s.members t u).isSome && roleThere s t r then some { s with members := upd2 s.members t u (some r) } else none

def removeMember (s : Sec) (t : Name) (u : Oid) : Option Sec :=
  if (s.members t u).isSome then some { s with members := upd2 s.members t u none } else none

/-- The execution of an accepted statement (`execution/ddl/*.rs` and `storage.rs`); `none` is an error.  Statements
that change none of these metadata leave them as they are, whatever else they do. -/
def exec (e : Env) (s : Sec) (authEnabled : Bool) (x : Session) : Stmt → Option Sec
  -- `create_database.rs`, `process_create_db`
  | .createDatabase d ine =>
    if (s.dbs x.tenant d).isSome then (if ine then some s else none)
    else some { s with dbs := upd2 s.dbs x.tenant d (some false) }
  -- `drop_tenant_object.rs` 72-118: the database is hidden; it is dropped by a task later
  | .dropDatabase d =>
    if (s.dbs x.tenant d).isSome then some { s with dbs := upd2 s.dbs x.tenant d (some true) } else none
  | .recoverDatabase d =>
    if (s.dbs x.tenant d).isSome then some { s with dbs := upd2 s.dbs x.tenant d (some false) } else none
  -- `create_tenant.rs`, `process_create_tenant` (storage.rs:1341-1360)
  | .createTenant n id => if (s.tenants n).isSome then none else some { s with tenants := upd s.tenants n (some ⟨id, false⟩) }
  -- `drop_global_object.rs` 68-110: the tenant is hidden; it is dropped by a task later
  | .dropTenant n =>
    match s.tenants n with
    | some t => some { s with tenants := upd s.tenants n (some { t with hidden := true }) }
    | none => none
  | .recoverTenant n =>
    match s.tenants n with
    | some t => some { s with tenants := upd s.tenants n (some { t with hidden := false }) }
    | none => none
  -- `alter_tenant.rs` 26-100
  | .alterTenant n op =>
    match op with
    | .addUser u r => match s.users u with | some d => addMember s n d.id (.ofName r) | none => none
    | .setUser u r => match s.users u with | some d => setMember s n d.id (.ofName r) | none => none
    | .removeUser u => match s.users u with | some d => removeMember s n d.id | none => none
    | _ => match s.tenants n with | some t => if t.hidden then none else some s | none => none
  -- `create_user.rs`, `process_create_user` (storage.rs:1257-1268)
  | .createUser n id opts =>
    if (s.users n).isSome then none
    else some { s with users := upd s.users n (some ⟨id, opts.foldl (fun o p => p.apply e o) {}, false⟩) }
  -- `alter_user.rs`, `process_alter_user`, `process_rename_user` (storage.rs:1270-1305)
  | .alterUser n op =>
    match op with
    | .renameTo _ => none
    | .set o =>
      match s.users n with
      | some u =>
        some { s with users := upd s.users n (some { u with opts := (userOptsOf e authEnabled x o).merge u.opts }) }
      | none => none
  -- `drop_global_object.rs` 44-66, `process_drop_user` (storage.rs:1307-1321): the keys of the memberships that it
  -- removes start with the name of the tenant and not of the cluster, so there are none
  | .dropUser n =>
    if n = root then none
    else match s.users n with
    | some _ => some { s with users := upd s.users n none }
    | none => none
  -- `create_role.rs`, `process_create_role` (storage.rs:1517-1542)
  | .createRole n inh =>
    if (s.roles x.tenant n).isSome then none
    else some { s with roles := upd2 s.roles x.tenant n (some ⟨inh.bind sysRoleOf, []⟩) }
  | .dropRole n =>
    if (s.roles x.tenant n).isSome then some { s with roles := upd2 s.roles x.tenant n none } else none
  -- `grant_revoke.rs`, `process_grant_privileges`, `process_revoke_privileges` (storage.rs:1562-1615)
  | .grantRevoke g ps n =>
    match s.roles x.tenant n with
    | none => none
    | some r =>
      match (if g then r.grantAll (fun d => (s.dbs x.tenant d).isSome) ps else r.revokeAll ps) with
      | some r' => some { s with roles := upd2 s.roles x.tenant n (some r') }
      | none => none
  | _ => some s

/-- A request: who, in which tenant, with which default database, what. -/
structure Req where
  user : Name
  tenant : Name
  db : Name
  stmt : Stmt

/-- A request from the connection on: `none` if it is refused or fails. -/
def step (e : Env) (authEnabled : Bool) (s : Sec) (r : Req) : Option (List Effect × Sec) :=
  match session s r.user r.tenant r.db with
  | none => none
  | some x =>
    match accept e s authEnabled x r.stmt with
    | none => none
    | some p => (exec e s authEnabled x r.stmt).map fun s' => (p.effects, s')

/-- A run of requests; those that are refused or fail change nothing. -/
def run (e : Env) (authEnabled : Bool) (s : Sec) : List Req → Sec
  | [] => s
  | r :: rs => run e authEnabled (match step e authEnabled s r with | some (_, s') => s' | none => s) rs

/-! ## Other requests (`main/src/http/http_service.rs`) -/

/-- Requests other than SQL. -/
inductive HttpReq where
  /-- `/api/v1/write`, `/write`, `/api/v1/opentsdb/{write,put}`, `/api/v1/prom/write`, `/api/v1/es/_bulk`,
  `/api/v1/traces`: `construct_write_context_and_check_privilege` (2710-2757) -/
  | write (tenant db : Name)
  /-- `/api/v1/prom/read` (1146-1254): a query of tables of the database of the request -/
  | promRead (tenant db : Name) (tables : List Name)
  /-- `/api/traces`, `/api/traces/{id}`, `/api/services`, `/api/operations`, `/api/services/{s}/operations`
  (1815-2612): `construct_read_context`, then the rows of the table are read from the storage -/
  | traces (tenant db : Name)
  /-- `/api/v1/dump/sql/ddl` (1371-1433) -/
  | dumpDdl
  /-- `/api/v1/meta` (965-1002) -/
  | printMeta

/-- A request that has named a user whose credentials are right (`some`), or none. -/
def http (e : Env) (s : Sec) (authEnabled : Bool) (user : Option Name) : HttpReq → Option (List Effect)
  | .write t d =>
    match user.bind fun u => session s u t d with
    | some x =>
      if authEnabled && x.user.opts.mustChange.getD false then none
      else if x.holds (dbRight x .write (some d)) then some [.write t d] else none
    | none => none
  | .promRead t d ts =>
    match user.bind fun u => session s u t d with
    | some x =>
      if authEnabled && x.user.opts.mustChange.getD false then none
      else (accept e s authEnabled x (.query (ts.map fun n => [d, n]))).map (·.effects)
    | none => none
  | .traces t d =>
    match user.bind fun u => session s u t d with
    | some x => if authEnabled && x.user.opts.mustChange.getD false then none else some [.read t d]
    | none => none
  | .dumpDdl => some [.list cnosdb]
  | .printMeta => some [.list cnosdb]

/-! ## Tokens of connections (`main/src/flight_sql/auth_middleware/generated_bearer_token_authenticator.rs`) -/

/-- An entry of `bearer_to_identifier`: the user as they were at login, and the time (seconds) of the last use. -/
structure Token where
  user : UserDesc
  rights : List Right
  last : Nat

/-- `time_to_idle` (32-36). -/
def idle : Nat := 600

/-- A login with the credentials of the user (75-98): a new token. -/
def login (s : Sec) (ts : Nat → Option Token) (now k : Nat) (user tenant db : Name) : Option (Nat → Option Token) :=
  (session s user tenant db).map fun x => upd ts k (some ⟨x.user, x.rights, now⟩)

/-- A request with a token (54-71) and `construct_context` (flight_sql_server.rs:181-210): the user comes from the
token, tenant and database from the request; the id of the tenant is looked up.  The use renews the token. -/
def tokenSession (s : Sec) (ts : Nat → Option Token) (now k : Nat) (tenant db : Name) :
    Option (Session × (Nat → Option Token)) :=
  match ts k, s.tenants tenant with
  | some t, some T =>
    if t.last + idle ≤ now ∨ T.hidden then none
    else some (⟨t.user, t.rights, tenant, T.id, db⟩, upd ts k (some { t with last := now }))
  | _, _ => none

/-- A request with a token: effects, metadata and tokens after it. -/
def tokenStep (e : Env) (authEnabled : Bool) (s : Sec) (ts : Nat → Option Token) (now k : Nat) (tenant db : Name)
    (st : Stmt) : Option (List Effect × Sec × (Nat → Option Token)) :=
  match tokenSession s ts now k tenant db with
  | none => none
  | some (x, ts') =>
    match accept e s authEnabled x st with
    | none => none
    | some p => (exec e s authEnabled x st).map fun s' => (p.effects, s', ts')

end Verif.Plan
