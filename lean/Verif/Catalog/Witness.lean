import Verif.Catalog.Listing

/-!
# Concrete catalogues
-/
namespace Verif.Catalog.Witness
open Verif.Auth Verif.Plan Verif.Catalog

def n (s : String) : Name := s.toList

def colTime : Column := ⟨n "time", .time, false, n "TIMESTAMP(NANOSECOND)", n "DEFAULT"⟩
def colTag : Column := ⟨n "station", .tag, true, n "STRING", n "DEFAULT"⟩
def colField : Column := ⟨n "temp", .field, true, n "DOUBLE", n "GORILLA"⟩

def air : Table := ⟨n "air", .tskv, [colTime, colTag, colField]⟩
def feed : Table := ⟨n "feed", .external, [⟨n "a", .tag, false, n "Utf8", n ""⟩]⟩
def salaries : Table := ⟨n "salaries", .tskv, [colTime, colField]⟩

def open_ : Db := ⟨false, [n "INF", n "1"], [(n "feed", feed), (n "air", air)]⟩
def secret : Db := ⟨false, [n "INF", n "1"], [(n "salaries", salaries)]⟩
def dropped : Db := ⟨true, [n "INF", n "1"], [(n "air", air)]⟩

/-- A role that may read one database. -/
def reader : Role Name := ⟨none, [(n "weather", .read)]⟩

def use (m : Name) : List Usage :=
  if m = n "http_queries" then [⟨n "acme", n "12"⟩, ⟨n "other", n "99"⟩] else []

def world : World where
  tenantId := 7
  tenant := n "acme"
  dbs := [(n "weather", open_), (n "payroll", secret), (n "old", dropped)]
  roles := [(n "reader", reader), (n "boss", ⟨some .owner, []⟩)]
  members := [(1, .custom (n "reader")), (2, .system .owner), (3, .system .member)]
  users := [(n "ann", ⟨1, { hash := some (n "$2b$x") }, false⟩), (n "bob", ⟨2, {}, false⟩), (n "cid", ⟨3, {}, false⟩)]
  tenants := [(n "acme", n "{}"), (n "cnosdb", n "{}")]
  resources := [⟨7, n "weather", [n "acme-weather"]⟩, ⟨7, n "payroll", [n "acme-payroll"]⟩, ⟨9, [], [n "other"]⟩]
  usage := use
  content := fun _ _ => []

/-- The same without the database `payroll`. -/
def worldWithout : World := { world with dbs := [(n "weather", open_), (n "old", dropped)], resources := [⟨7, n "weather", [n "acme-weather"]⟩] }

def ann : Viewer := ⟨1, false, userPrivs 1 (reader.privs 7)⟩
def bob : Viewer := ⟨2, false, userPrivs 2 (SysRole.owner.privs 7)⟩
def cid : Viewer := ⟨3, false, userPrivs 3 (SysRole.member.privs 7)⟩

theorem world_ok : world.Ok := by
  refine ⟨by decide +kernel, ?_, ?_⟩
  · intro e he
    simp only [world, List.mem_cons, List.not_mem_nil, or_false] at he
    rcases he with rfl | rfl | rfl <;> decide +kernel
  · intro e he t ht
    simp only [world, List.mem_cons, List.not_mem_nil, or_false] at he
    rcases he with rfl | rfl | rfl <;>
      simp only [open_, secret, dropped, List.mem_cons, List.not_mem_nil, or_false] at ht
    · rcases ht with rfl | rfl <;> rfl
    · subst ht; rfl
    · subst ht; rfl

theorem worldWithout_ok : worldWithout.Ok := by
  refine ⟨by decide +kernel, ?_, ?_⟩
  · intro e he
    simp only [worldWithout, List.mem_cons, List.not_mem_nil, or_false] at he
    rcases he with rfl | rfl <;> decide +kernel
  · intro e he t ht
    simp only [worldWithout, List.mem_cons, List.not_mem_nil, or_false] at he
    rcases he with rfl | rfl <;>
      simp only [open_, dropped, List.mem_cons, List.not_mem_nil, or_false] at ht
    · rcases ht with rfl | rfl <;> rfl
    · subst ht; rfl

/-- What happens in the database `payroll` is nothing that Ann may see. -/
theorem same_for_ann : SameFor ann world worldWithout where
  tenantId := rfl
  tenant := rfl
  dbs := by decide +kernel
  members := rfl
  names := fun _ _ => rfl
  roles := fun _ => rfl
  role := fun _ _ => rfl
  users := fun _ => rfl
  tenants := fun _ => rfl
  resources := by decide +kernel
  usage := fun _ _ => rfl

/-- Ann sees one database, its tables and their columns. -/
example : databasesRows ann world = [.db (n "acme") (n "weather") [n "INF", n "1"]] := by decide +kernel
example : (tablesRows ann world).filterMap (Row.tableIn (n "weather")) = [n "feed", n "air"] := by decide +kernel
example : (columnsRows ann world).length = 4 := by decide +kernel
example : answer ann world (.showTables (n "weather")) = .rows [.name (n "air"), .name (n "feed")] := by decide +kernel
example : answer ann world (.describeTable (n "weather") (n "air")) =
    .rows [.described (n "time") (n "TIMESTAMP(NANOSECOND)") (n "TIME") (some (n "DEFAULT")),
      .described (n "station") (n "STRING") (n "TAG") (some (n "DEFAULT")),
      .described (n "temp") (n "DOUBLE") (n "FIELD") (some (n "GORILLA"))] := by decide +kernel
example : answer ann world (.describeDatabase (n "weather")) = .rows [.settings [n "INF", n "1"]] := by decide +kernel
example : userCheck cid.privs (readRight world none) = true := by decide +kernel
example : answer cid world .showDatabases = .rows [.name (n "payroll"), .name (n "weather")] := by decide +kernel
example : canRoles bob world.tenantId = true ∧ canRoles ann world.tenantId = false := by decide +kernel
example : privilegesRows ann world = [.privilege (n "acme") (n "weather") (n "Read") (n "reader")] := by decide +kernel
example : rolesRows bob world = [.role (n "owner") (n "system") none, .role (n "member") (n "system") none,
    .role (n "reader") (n "custom") (some (n "NULL")), .role (n "boss") (n "custom") (some (n "owner"))] := by decide +kernel
example : resourceRows ann world = [.resource [n "acme-weather"]] := by decide +kernel
example : membersRows world = [.member (n "ann") (n "reader"), .member (n "bob") (n "owner"), .member (n "cid") (n "member")] := by
  decide +kernel
example : answer cid world (.select (n "usage_schema") (n "http_queries")) = .rows [.usage ⟨n "acme", n "12"⟩] := by
  decide +kernel
example : usersRows ⟨0, true, []⟩ world =
    [.user (n "ann") false { hash := some (n "*****") }, .user (n "bob") false { hash := some (n "*****") },
      .user (n "cid") false { hash := some (n "*****") }] := by decide +kernel
example : route (n "acme") (n "information_schema") (n "tables") ≠ some .plain := by decide +kernel

/-- C191, refuted: a user who may read one database is refused by `SHOW DATABASES`, although the list that the statement
would show is made for them and `SHOW TABLES` of the database works. -/
theorem C191_show_databases_refuted :
    ∃ (v : Viewer) (w : World), w.Ok ∧ (∃ i, (n "weather", i) ∈ w.dbs ∧ i.hidden = false) ∧
      canRead v w.tenantId (n "weather") = true ∧ answer v w .showDatabases = .denied ∧
      ∃ l, answer v w (.showTables (n "weather")) = .rows l ∧ l ≠ [] :=
  ⟨ann, world, world_ok, ⟨open_, by decide +kernel, rfl⟩, by decide +kernel, by decide +kernel,
    [.name (n "air"), .name (n "feed")], by decide +kernel, by decide +kernel⟩

/-- C191, refuted: the same user is refused by every query of `information_schema`, although its tables would show them
only what they may see; no `GRANT` helps, as it is no database on which something can be granted. -/
theorem C191_information_schema_refuted :
    ∃ (v : Viewer) (w : World), w.Ok ∧ databasesRows v w ≠ [] ∧ get w.dbs (n "information_schema") = none ∧
      answer v w (.select (n "information_schema") (n "databases")) = .denied ∧
      answer v w (.select (n "information_schema") (n "enabled_roles")) = .denied :=
  ⟨ann, world, world_ok, by decide +kernel, by decide +kernel, by decide +kernel, by decide +kernel⟩

/-- C191, refuted: a user learns from `DESCRIBE` and from queries whether a database and a table exist that they may not
read: the answer is "not found" or "denied". -/
theorem C191_existence_refuted :
    ∃ (v : Viewer) (w w' : World), w.Ok ∧ w'.Ok ∧ SameFor v w w' ∧ canRead v w.tenantId (n "payroll") = false ∧
      answer v w (.describeDatabase (n "payroll")) ≠ answer v w' (.describeDatabase (n "payroll")) ∧
      answer v w (.describeTable (n "payroll") (n "salaries")) ≠ answer v w' (.describeTable (n "payroll") (n "salaries")) ∧
      answer v w (.describeTable (n "payroll") (n "salaries")) ≠ answer v w (.describeTable (n "payroll") (n "bonus")) ∧
      answer v w (.select (n "payroll") (n "salaries")) ≠ answer v w' (.select (n "payroll") (n "salaries")) :=
  ⟨ann, world, worldWithout, world_ok, worldWithout_ok, same_for_ann, by decide +kernel, by decide +kernel,
    by decide +kernel, by decide +kernel, by decide +kernel⟩

/-- C193, refuted: the names of measures of `usage_schema` are not found in upper case, unlike the names of all other
system tables. -/
theorem C193_usage_case_refuted :
    route (n "acme") (n "usage_schema") (n "http_queries") = some (.usage (n "http_queries")) ∧
      route (n "acme") (n "USAGE_SCHEMA") (n "http_queries") = some (.usage (n "http_queries")) ∧
      route (n "acme") (n "usage_schema") (n "HTTP_QUERIES") = none ∧
      route (n "acme") (n "information_schema") (n "TABLES") = route (n "acme") (n "information_schema") (n "tables") := by
  decide +kernel

/-- C193: in the system tenant `usage_schema` is an ordinary database with the rows of all tenants. -/
theorem C193_system_tenant : route cnosdb (n "usage_schema") (n "http_queries") = some .plain := by decide +kernel

end Verif.Catalog.Witness
