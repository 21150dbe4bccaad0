import Verif.Catalog.Model
import Verif.Meta.AuthProps

/-!
# Theorems about the catalogue of a tenant as a user sees it
-/
namespace Verif.Catalog
open Verif.Auth Verif.Plan

/-! ## Lookups -/

section
variable {α β : Type} [DecidableEq α]

theorem get_mem {l : List (α × β)} {a : α} {b : β} (h : get l a = some b) : (a, b) ∈ l := by
  unfold get at h
  cases hf : l.find? (fun e => decide (e.1 = a)) with
  | none => rw [hf] at h; simp at h
  | some e =>
    rw [hf] at h
    simp only [Option.map_some, Option.some.injEq] at h
    have h1 := List.find?_some hf
    have h2 := List.mem_of_find?_eq_some hf
    simp only [decide_eq_true_eq] at h1
    obtain ⟨x, y⟩ := e
    simp only at h h1
    subst h h1
    exact h2

theorem get_of_mem {l : List (α × β)} (hl : (l.map (·.1)).Nodup) {a : α} {b : β} (h : (a, b) ∈ l) :
    get l a = some b := by
  induction l with
  | nil => cases h
  | cons e l ih =>
    simp only [List.map_cons, List.nodup_cons] at hl
    rcases List.mem_cons.1 h with rfl | h
    · simp [get]
    · have hne : e.1 ≠ a := fun he => hl.1 (List.mem_map.2 ⟨(a, b), h, he.symm⟩)
      have := ih hl.2 h
      unfold get at this ⊢
      rw [List.find?_cons_of_neg (by simpa using hne)]
      exact this

theorem get_filter {l : List (α × β)} (hl : (l.map (·.1)).Nodup) (p : α × β → Bool) {a : α} {b : β}
    (h : (a, b) ∈ l.filter p) : get l a = some b := get_of_mem hl (List.mem_filter.1 h).1

end

/-- Databases and tables are stored under their names, each name once: maps of the meta store. -/
structure World.Ok (w : World) : Prop where
  dbs : (w.dbs.map (·.1)).Nodup
  tables : ∀ e ∈ w.dbs, (e.2.tables.map (·.1)).Nodup
  named : ∀ e ∈ w.dbs, ∀ t ∈ e.2.tables, t.2.name = t.1

/-- A user may see a database: they may read it and it has not been dropped (dropped databases that can still be
recovered are hidden). -/
def visible (v : Viewer) (tid : Oid) (e : Name × Db) : Bool := canRead v tid e.1 && !e.2.hidden

theorem flatMap_visible {α : Type} (v : Viewer) (w : World) (f : Name × Db → List α) :
    (w.dbs.flatMap fun e => if !canRead v w.tenantId e.1 then [] else if e.2.hidden then [] else f e) =
      (w.dbs.filter (visible v w.tenantId)).flatMap f := by
  generalize w.dbs = l
  induction l with
  | nil => rfl
  | cons e l ih =>
    rw [List.flatMap_cons, ih, List.filter_cons]
    unfold visible
    cases canRead v w.tenantId e.1 <;> cases e.2.hidden <;> rfl

/-! ## C190: databases, tables and columns -/

/-- C190: `DATABASES` shows a user exactly the databases that they may read and that are not dropped, with their
settings. -/
theorem C190_databases_exact (v : Viewer) (w : World) (r : Row) :
    r ∈ databasesRows v w ↔
      ∃ n i, (n, i) ∈ w.dbs ∧ canRead v w.tenantId n = true ∧ i.hidden = false ∧ r = .db w.tenant n i.settings := by
  unfold databasesRows
  rw [flatMap_visible]
  simp only [List.mem_flatMap, List.mem_filter, visible, Bool.and_eq_true, Bool.not_eq_true', List.mem_singleton]
  constructor
  · rintro ⟨e, ⟨h1, h2, h3⟩, h4⟩
    exact ⟨e.1, e.2, h1, h2, h3, h4⟩
  · rintro ⟨n, i, h1, h2, h3, h4⟩
    exact ⟨(n, i), ⟨h1, h2, h3⟩, h4⟩

/-- C190: `TABLES` shows exactly the tables of these databases, each with its engine. -/
theorem C190_tables_exact (v : Viewer) (w : World) (hw : w.Ok) (r : Row) :
    r ∈ tablesRows v w ↔
      ∃ n i t, (n, i) ∈ w.dbs ∧ canRead v w.tenantId n = true ∧ i.hidden = false ∧ (t.name, t) ∈ i.tables ∧
        r = .table w.tenant n t.name "TABLE".toList t.kind.engine "TODO".toList := by
  unfold tablesRows
  rw [flatMap_visible]
  simp only [List.mem_flatMap, List.mem_filter, visible, Bool.and_eq_true, Bool.not_eq_true']
  constructor
  · rintro ⟨e, ⟨h1, h2, h3⟩, n, h4, h5⟩
    have hg : get w.dbs e.1 = some e.2 := get_of_mem hw.dbs h1
    simp only [tableSchema, hg] at h5
    cases ht : get e.2.tables n with
    | none => rw [ht] at h5; cases h5
    | some t =>
      rw [ht] at h5
      have hm := get_mem ht
      have hn : t.name = n := hw.named e h1 _ hm
      exact ⟨e.1, e.2, t, h1, h2, h3, by rw [hn]; exact hm, by simpa using h5⟩
  · rintro ⟨n, i, t, h1, h2, h3, h4, h5⟩
    have hg : get w.dbs n = some i := get_of_mem hw.dbs h1
    refine ⟨(n, i), ⟨h1, h2, h3⟩, t.name, ?_, ?_⟩
    · simp only [listTables, hg]
      exact List.mem_map.2 ⟨_, h4, rfl⟩
    · simp only [tableSchema, hg, get_of_mem (hw.tables _ h1) h4]
      simpa using h5

theorem mem_appendColumns {tenant db : Name} {t : Table} {k : Nat} {l : List Column} {r : Row} :
    r ∈ appendColumns tenant db t k l ↔ ∃ i c, l[i]? = some c ∧ r = columnRow tenant db t (k + i) c := by
  induction l generalizing k with
  | nil => simp [appendColumns]
  | cons c l ih =>
    simp only [appendColumns, List.mem_cons, ih]
    constructor
    · rintro (h | ⟨i, c', h1, h2⟩)
      · exact ⟨0, c, rfl, h⟩
      · refine ⟨i + 1, c', by simpa using h1, ?_⟩
        rw [h2]; congr 1; omega
    · rintro ⟨i, c', h1, h2⟩
      cases i with
      | zero =>
        simp only [List.getElem?_cons_zero, Option.some.injEq] at h1
        subst h1
        exact .inl h2
      | succ i =>
        refine .inr ⟨i, c', by simpa using h1, ?_⟩
        rw [h2]; congr 1; omega

/-- C190: `COLUMNS` shows exactly the columns of these tables, each at its position. -/
theorem C190_columns_exact (v : Viewer) (w : World) (hw : w.Ok) (r : Row) :
    r ∈ columnsRows v w ↔
      ∃ n i t k c, (n, i) ∈ w.dbs ∧ canRead v w.tenantId n = true ∧ i.hidden = false ∧ (t.name, t) ∈ i.tables ∧
        t.columns[k]? = some c ∧ r = columnRow w.tenant n t k c := by
  unfold columnsRows
  rw [flatMap_visible]
  simp only [List.mem_flatMap, List.mem_filter, visible, Bool.and_eq_true, Bool.not_eq_true']
  constructor
  · rintro ⟨e, ⟨h1, h2, h3⟩, n, h4, h5⟩
    have hg : get w.dbs e.1 = some e.2 := get_of_mem hw.dbs h1
    simp only [tableSchema, hg] at h5
    cases ht : get e.2.tables n with
    | none => rw [ht] at h5; cases h5
    | some t =>
      rw [ht] at h5
      have hm := get_mem ht
      have hn : t.name = n := hw.named e h1 _ hm
      obtain ⟨i, c, h6, h7⟩ := mem_appendColumns.1 h5
      exact ⟨e.1, e.2, t, i, c, h1, h2, h3, by rw [hn]; exact hm, h6, by rw [h7]; congr 1; omega⟩
  · rintro ⟨n, i, t, k, c, h1, h2, h3, h4, h5, h6⟩
    have hg : get w.dbs n = some i := get_of_mem hw.dbs h1
    refine ⟨(n, i), ⟨h1, h2, h3⟩, t.name, ?_, ?_⟩
    · simp only [listTables, hg]
      exact List.mem_map.2 ⟨_, h4, rfl⟩
    · simp only [tableSchema, hg, get_of_mem (hw.tables _ h1) h4]
      exact mem_appendColumns.2 ⟨k, c, h5, by rw [h6]; congr 1; omega⟩

/-- C190: what a row of `COLUMNS` says about a column of a TSKV table: the time is the only column that is never
empty. -/
theorem C190_tskv_column (tenant db : Name) (t : Table) (ht : t.kind = .tskv) (k : Nat) (c : Column) :
    columnRow tenant db t k c =
      .column tenant db t.name c.name c.kind.text k "NULL".toList (decide (c.kind ≠ .time)) c.dataType (some c.codec) := by
  simp only [columnRow, ht]

/-- C190: columns of external tables and streams are fields without a codec. -/
theorem C190_other_column (tenant db : Name) (t : Table) (ht : t.kind ≠ .tskv) (k : Nat) (c : Column) :
    ∃ d, columnRow tenant db t k c =
      .column tenant db t.name c.name "FIELD".toList k d c.nullable c.dataType none := by
  cases hk : t.kind with
  | tskv => exact absurd hk ht
  | external => exact ⟨_, by simp only [columnRow, hk]; rfl⟩
  | stream => exact ⟨_, by simp only [columnRow, hk]; rfl⟩

/-- A user with a custom role reads a database exactly if the role inherits a system role or was granted something on
the database (every level of `GRANT` includes reading). -/
theorem canRead_custom (id tid : Oid) (adm : Bool) (r : Role Name) (n : Name) :
    canRead ⟨id, adm, userPrivs id (r.privs tid)⟩ tid n = true ↔ r.sys.isSome = true ∨ ∃ p, (n, p) ∈ r.additional := by
  have hdb : ∀ p : DbPriv, p.check .read = true := fun p => by cases p <;> rfl
  unfold canRead userCheck userPrivs
  rw [List.any_cons]
  have h0 : (Priv.global (GlobPriv.user (some id)) : Right).check (.tenantObject (.database .read (some n)) (some tid)) = false := rfl
  rw [h0, Bool.false_or, List.any_eq_true]
  unfold Role.privs
  constructor
  · rintro ⟨p, hp, hc⟩
    rcases List.mem_append.1 hp with hp | hp
    · cases hs : r.sys with
      | some s => exact .inl rfl
      | none => rw [hs] at hp; cases hp
    · obtain ⟨e, he, rfl⟩ := List.mem_map.1 hp
      simp only [Priv.check, TenPriv.check, Bool.and_eq_true, decide_eq_true_eq] at hc
      refine .inr ⟨e.2, ?_⟩
      rw [← hc.2.1]
      exact he
  · rintro (hs | ⟨p, hp⟩)
    · cases h : r.sys with
      | none => rw [h] at hs; cases hs
      | some s =>
        cases s with
        | owner =>
          refine ⟨.tenantObject (.database .full none) (some tid), List.mem_append_left _ ?_, ?_⟩
          · simp [SysRole.privs]
          · simp [Priv.check, TenPriv.check, DbPriv.check]
        | member =>
          refine ⟨.tenantObject (.database .read none) (some tid), List.mem_append_left _ ?_, ?_⟩
          · simp [SysRole.privs]
          · simp [Priv.check, TenPriv.check, DbPriv.check]
    · refine ⟨.tenantObject (.database p (some n)) (some tid), List.mem_append_right _ (List.mem_map.2 ⟨(n, p), hp, rfl⟩), ?_⟩
      simp [Priv.check, TenPriv.check, hdb]

/-- C190: a user with a custom role that inherits nothing sees exactly the databases on which the role was granted
something. -/
theorem C190_custom_role (id : Oid) (adm : Bool) (r : Role Name) (hs : r.sys = none) (w : World) (row : Row) :
    row ∈ databasesRows ⟨id, adm, userPrivs id (r.privs w.tenantId)⟩ w ↔
      ∃ n i p, (n, i) ∈ w.dbs ∧ (n, p) ∈ r.additional ∧ i.hidden = false ∧ row = .db w.tenant n i.settings := by
  rw [C190_databases_exact]
  constructor
  · rintro ⟨n, i, h1, h2, h3, h4⟩
    rcases (canRead_custom id w.tenantId adm r n).1 h2 with h | ⟨p, hp⟩
    · rw [hs] at h; cases h
    · exact ⟨n, i, p, h1, hp, h3, h4⟩
  · rintro ⟨n, i, p, h1, h2, h3, h4⟩
    exact ⟨n, i, h1, (canRead_custom id w.tenantId adm r n).2 (.inr ⟨p, h2⟩), h3, h4⟩

/-! ## C192: nothing that a user may not see shows in a system table -/

/-- Two states of the metadata that look the same to a user: they agree on the databases that the user may see, on the
members, on the roles if the user may administer roles and else on the user's own one, on users (except for their
passwords) and tenants if the user is an administrator, on the tasks of databases that the user may read, and on the
usage of the tenant. -/
structure SameFor (v : Viewer) (w w' : World) : Prop where
  tenantId : w'.tenantId = w.tenantId
  tenant : w'.tenant = w.tenant
  dbs : w'.dbs.filter (visible v w.tenantId) = w.dbs.filter (visible v w.tenantId)
  members : w'.members = w.members
  names : ∀ m ∈ w.members, (w'.users.find? fun u => decide (u.2.id = m.1)).map (·.1) =
    (w.users.find? fun u => decide (u.2.id = m.1)).map (·.1)
  roles : canRoles v w.tenantId = true → w'.roles = w.roles
  role : ∀ n, get w.members v.id = some (.custom n) → get w'.roles n = get w.roles n
  users : v.isAdmin = true → w'.users.map (fun u => (u.1, u.2.isAdmin, hidePassword u.2.opts)) =
    w.users.map (fun u => (u.1, u.2.isAdmin, hidePassword u.2.opts))
  tenants : v.isAdmin = true → w'.tenants = w.tenants
  resources : (w'.resources.filter fun r => if r.db.isEmpty then v.isAdmin else canRead v r.tenant r.db) =
    w.resources.filter fun r => if r.db.isEmpty then v.isAdmin else canRead v r.tenant r.db
  usage : w.tenant ≠ cnosdb → ∀ m, (w'.usage m).filter (fun u => decide (u.tenant = w.tenant)) =
    (w.usage m).filter fun u => decide (u.tenant = w.tenant)

theorem get_same {v : Viewer} {w w' : World} (hw : w.Ok) (hw' : w'.Ok) (h : SameFor v w w') {e : Name × Db}
    (he : e ∈ w.dbs.filter (visible v w.tenantId)) : get w'.dbs e.1 = get w.dbs e.1 := by
  rw [get_filter hw.dbs _ he]
  rw [← h.dbs] at he
  rw [get_filter hw'.dbs _ he]

theorem flatMap_congr_mem {α β : Type} {l : List α} {f g : α → List β} (h : ∀ a ∈ l, f a = g a) :
    l.flatMap f = l.flatMap g := by
  induction l with
  | nil => rfl
  | cons a l ih =>
    rw [List.flatMap_cons, List.flatMap_cons, h a (List.mem_cons_self ..),
      ih fun b hb => h b (List.mem_cons_of_mem _ hb)]

/-- C192: the tables about databases, tables and columns do not depend on databases that the user may not see. -/
theorem C192_databases_hidden (v : Viewer) (w w' : World) (h : SameFor v w w') :
    databasesRows v w' = databasesRows v w := by
  unfold databasesRows
  rw [flatMap_visible, flatMap_visible, h.tenantId, h.dbs, h.tenant]

theorem C192_tables_hidden (v : Viewer) (w w' : World) (hw : w.Ok) (hw' : w'.Ok) (h : SameFor v w w') :
    tablesRows v w' = tablesRows v w := by
  unfold tablesRows
  rw [flatMap_visible, flatMap_visible, h.tenantId, h.dbs, h.tenant]
  refine flatMap_congr_mem fun e he => ?_
  simp only [listTables, tableSchema, get_same hw hw' h he]

theorem C192_columns_hidden (v : Viewer) (w w' : World) (hw : w.Ok) (hw' : w'.Ok) (h : SameFor v w w') :
    columnsRows v w' = columnsRows v w := by
  unfold columnsRows
  rw [flatMap_visible, flatMap_visible, h.tenantId, h.dbs, h.tenant]
  refine flatMap_congr_mem fun e he => ?_
  simp only [listTables, tableSchema, get_same hw hw' h he]

theorem privileges_same (v : Viewer) (w w' : World) (h : SameFor v w w') : privilegesRows v w' = privilegesRows v w := by
  unfold privilegesRows
  rw [h.tenantId, h.tenant, h.members]
  cases hc : canRoles v w.tenantId with
  | true => simp only [if_true, h.roles hc]
  | false =>
    simp only [Bool.false_eq_true, if_false]
    cases hm : get w.members v.id with
    | none => rfl
    | some r =>
      cases r with
      | system s => rfl
      | custom n => simp only [h.role n hm]

theorem roles_same (v : Viewer) (w w' : World) (h : SameFor v w w') : rolesRows v w' = rolesRows v w := by
  unfold rolesRows
  rw [h.tenantId]
  cases hc : canRoles v w.tenantId with
  | true => rw [h.roles hc]
  | false => rfl

theorem members_same (v : Viewer) (w w' : World) (h : SameFor v w w') : membersRows w' = membersRows w := by
  unfold membersRows
  rw [h.members]
  refine flatMap_congr_mem fun m hm => ?_
  have hn := h.names m hm
  cases h1 : w'.users.find? (fun u => decide (u.2.id = m.1)) <;>
    cases h2 : w.users.find? (fun u => decide (u.2.id = m.1)) <;> simp_all

theorem resourceRows_eq (v : Viewer) (w : World) : resourceRows v w =
    (w.resources.filter fun r => if r.db.isEmpty then v.isAdmin else canRead v r.tenant r.db).map fun r => .resource r.shown := by
  unfold resourceRows
  generalize w.resources = l
  induction l with
  | nil => rfl
  | cons r l ih =>
    rw [List.flatMap_cons, ih, List.filter_cons]
    cases hb : r.db.isEmpty <;> cases ha : v.isAdmin <;> cases hr : canRead v r.tenant r.db <;> simp [hb, ha, hr]

/-- The view of a table of `usage_schema` has the rows of the tenant only. -/
theorem usageRows_eq (v : Viewer) (w : World) (m : Name) (ht : w.tenant ≠ cnosdb) :
    usageRows v w m = ((w.usage m).filter fun u => decide (u.tenant = w.tenant)).map .usage := by
  unfold usageRows
  simp [ht]

theorem route_usage {tenant db table m : Name} (h : route tenant db table = some (.usage m)) :
    tenant ≠ cnosdb ∧ m = table ∧ table ∈ usageNames := by
  unfold route at h
  by_cases h1 : sameIgnoringCase db informationSchema = true
  · rw [if_pos h1] at h
    cases hg : get infoNames (table.map Char.toLower) <;> rw [hg] at h <;> simp at h
  · rw [if_neg h1] at h
    by_cases h2 : (decide (tenant ≠ cnosdb) && sameIgnoringCase db usageSchema) = true
    · rw [if_pos h2] at h
      simp only [Bool.and_eq_true, decide_eq_true_eq] at h2
      by_cases h3 : table ∈ usageNames
      · rw [if_pos h3] at h
        simp only [Option.some.injEq, Source.usage.injEq] at h
        exact ⟨h2.1, h.symm, h3⟩
      · rw [if_neg h3] at h; cases h
    · rw [if_neg h2] at h
      split at h
      · split at h <;> simp at h
      · simp at h

/-- C192: the answer to a query of any system table does not depend on anything that the user may not see: it is the
same in all states of the metadata that look the same to the user. -/
theorem C192_system_tables_hidden (v : Viewer) (w w' : World) (hw : w.Ok) (hw' : w'.Ok) (h : SameFor v w w')
    (db table : Name) (hs : route w.tenant db table ≠ some .plain) :
    answer v w' (.select db table) = answer v w (.select db table) := by
  unfold answer
  have hr : readRight w' (some db) = readRight w (some db) := by unfold readRight; rw [h.tenantId]
  have hscan : scan v w' db table = scan v w db table := by
    unfold scan
    rw [h.tenant]
    cases hx : route w.tenant db table with
    | none => rfl
    | some s =>
      cases s with
      | plain => exact absurd hx hs
      | usage m =>
        have ht := (route_usage hx).1
        dsimp only
        rw [usageRows_eq v w m ht, usageRows_eq v w' m (by rw [h.tenant]; exact ht), h.tenant, h.usage ht m]
      | tenants =>
        dsimp only
        unfold tenantsRows
        cases ha : v.isAdmin with
        | true => rw [h.tenants ha]
        | false => rfl
      | users =>
        dsimp only
        unfold usersRows
        cases ha : v.isAdmin with
        | true =>
          have hu := h.users ha
          have key : ∀ l : List (Name × UserDesc), (l.map fun u => Row.user u.1 u.2.isAdmin (hidePassword u.2.opts)) =
              (l.map (fun u => (u.1, u.2.isAdmin, hidePassword u.2.opts))).map fun x => Row.user x.1 x.2.1 x.2.2 := by
            intro l; rw [List.map_map]; rfl
          rw [key, key, hu]
        | false => rfl
      | info t =>
        dsimp only
        congr 1
        cases t with
        | databases => exact C192_databases_hidden v w w' h
        | tables => exact C192_tables_hidden v w w' hw hw' h
        | columns => exact C192_columns_hidden v w w' hw hw' h
        | enabledRoles => simp only [infoRows, enabledRows, h.members]
        | roles => exact roles_same v w w' h
        | databasePrivileges => exact privileges_same v w w' h
        | members => exact members_same v w w' h
        | resourceStatus =>
          simp only [infoRows]
          rw [resourceRows_eq, resourceRows_eq, h.resources]
  dsimp only
  rw [hscan, hr]

/-- C192: `DATABASE_PRIVILEGES` of a user who may not administer roles shows the privileges of their own role. -/
theorem C192_own_privileges (v : Viewer) (w : World) (hr : canRoles v w.tenantId = false) (row : Row) :
    row ∈ privilegesRows v w ↔ ∃ n r d p, get w.members v.id = some (.custom n) ∧ get w.roles n = some r ∧
      (d, p) ∈ r.additional ∧ row = .privilege w.tenant d (privText p) n := by
  unfold privilegesRows
  rw [hr]
  simp only [Bool.false_eq_true, if_false]
  cases hm : get w.members v.id with
  | none => simp
  | some m =>
    cases m with
    | system s => simp
    | custom n =>
      dsimp only
      cases hg : get w.roles n with
      | none =>
        dsimp only
        constructor
        · intro h; cases h
        · rintro ⟨n', r, d, p, h1, h2, _⟩
          simp only [Option.some.injEq, RoleId.custom.injEq] at h1
          subst h1
          rw [hg] at h2; cases h2
      | some r =>
        dsimp only
        unfold roleRows
        simp only [List.mem_map]
        constructor
        · rintro ⟨e, h1, h2⟩
          exact ⟨n, r, e.1, e.2, rfl, hg, h1, h2.symm⟩
        · rintro ⟨n', r', d, p, h1, h2, h3, h4⟩
          simp only [Option.some.injEq, RoleId.custom.injEq] at h1
          subst h1
          rw [hg] at h2
          cases h2
          exact ⟨(d, p), h3, h4.symm⟩

/-- C192: users who may administer roles see the privileges of all roles. -/
theorem C192_all_privileges (v : Viewer) (w : World) (hr : canRoles v w.tenantId = true) (row : Row) :
    row ∈ privilegesRows v w ↔ ∃ n r d p, (n, r) ∈ w.roles ∧ (d, p) ∈ r.additional ∧
      row = .privilege w.tenant d (privText p) n := by
  unfold privilegesRows
  rw [hr]
  simp only [if_true, List.mem_flatMap, roleRows, List.mem_map]
  constructor
  · rintro ⟨e, h1, x, h2, h3⟩
    exact ⟨e.1, e.2, x.1, x.2, h1, h2, h3.symm⟩
  · rintro ⟨n, r, d, p, h1, h2, h3⟩
    exact ⟨(n, r), h1, (d, p), h2, h3.symm⟩

/-- C192: `ROLES` shows users who may administer roles the two system roles and all roles of the tenant, and others
nothing. -/
theorem C192_roles (v : Viewer) (w : World) (row : Row) :
    row ∈ rolesRows v w ↔ canRoles v w.tenantId = true ∧
      (row = .role ownerName "system".toList none ∨ row = .role memberName "system".toList none ∨
        ∃ n r, (n, r) ∈ w.roles ∧
          row = .role n "custom".toList (some (match r.sys with | some s => sysRoleName s | none => "NULL".toList))) := by
  unfold rolesRows
  cases hc : canRoles v w.tenantId with
  | false => simp
  | true =>
    simp only [if_true, List.mem_append, List.map_cons, List.map_nil, List.mem_cons, List.not_mem_nil, or_false, sysRoleName,
      List.mem_map, true_and]
    rw [or_assoc]
    refine or_congr Iff.rfl (or_congr Iff.rfl ?_)
    constructor
    · rintro ⟨e, h1, h2⟩
      refine ⟨e.1, e.2, h1, ?_⟩
      cases hs : e.2.sys <;> rw [hs] at h2 <;> exact h2.symm
    · rintro ⟨n, r, h1, h2⟩
      refine ⟨(n, r), h1, ?_⟩
      cases hs : r.sys <;> rw [hs] at h2 <;> exact h2.symm

/-- C192: no row of any system table carries the hash of a password. -/
theorem C192_no_password (v : Viewer) (w : World) (db table : Name) (l : List Row) (n : Name) (a : Bool) (o : UserOpts)
    (h : scan v w db table = some l) (hr : .user n a o ∈ l) : o.hash = some "*****".toList ∧ v.isAdmin = true := by
  unfold scan at h
  have key : ∀ {α : Type} {l : List α} {f : α → List Row}, Row.user n a o ∈ l.flatMap f → ∃ x ∈ l, Row.user n a o ∈ f x :=
    fun h => List.mem_flatMap.1 h
  cases hx : route w.tenant db table with
  | none => rw [hx] at h; cases h
  | some s =>
    rw [hx] at h
    cases s with
    | plain =>
      dsimp only at h
      repeat' split at h
      all_goals first | cases h | skip
      simp at hr
    | usage m =>
      simp only [Option.some.injEq] at h
      subst h
      simp [usageRows] at hr
    | tenants =>
      simp only [Option.some.injEq] at h
      subst h
      unfold tenantsRows at hr
      split at hr <;> simp at hr
    | users =>
      simp only [Option.some.injEq] at h
      subst h
      unfold usersRows at hr
      cases ha : v.isAdmin with
      | false => rw [ha] at hr; simp at hr
      | true =>
        rw [ha] at hr
        simp only [if_true, List.mem_map] at hr
        obtain ⟨u, _, hu⟩ := hr
        injection hu with _ _ h3
        rw [← h3]
        exact ⟨rfl, rfl⟩
    | info t =>
      simp only [Option.some.injEq] at h
      subst h
      exfalso
      cases t with
      | databases =>
        obtain ⟨_, _, _, _, _, h⟩ := (C190_databases_exact v w _).1 hr
        cases h
      | tables =>
        unfold infoRows tablesRows at hr
        rw [flatMap_visible] at hr
        obtain ⟨e, _, hr⟩ := key hr
        obtain ⟨x, _, hr⟩ := key hr
        split at hr <;> simp at hr
      | columns =>
        unfold infoRows columnsRows at hr
        rw [flatMap_visible] at hr
        obtain ⟨e, _, hr⟩ := key hr
        obtain ⟨x, _, hr⟩ := key hr
        split at hr
        · obtain ⟨i, c, _, hc⟩ := mem_appendColumns.1 hr
          unfold columnRow at hc
          split at hc <;> cases hc
        · simp at hr
      | enabledRoles =>
        simp only [infoRows, enabledRows] at hr
        cases hm : get w.members v.id <;> rw [hm] at hr <;> simp at hr
      | roles =>
        rcases ((C192_roles v w _).1 hr).2 with h | h | ⟨_, _, _, h⟩ <;> cases h
      | databasePrivileges =>
        cases hc : canRoles v w.tenantId with
        | true => obtain ⟨_, _, _, _, _, _, h⟩ := (C192_all_privileges v w hc _).1 hr; cases h
        | false => obtain ⟨_, _, _, _, _, _, _, h⟩ := (C192_own_privileges v w hc _).1 hr; cases h
      | members =>
        unfold infoRows membersRows at hr
        obtain ⟨x, _, hr⟩ := key hr
        split at hr <;> simp at hr
      | resourceStatus =>
        unfold infoRows at hr
        rw [resourceRows_eq] at hr
        simp at hr

/-- C192: `USERS` and `TENANTS` show an administrator everybody, and others nobody. -/
theorem C192_admins_only (v : Viewer) (w : World) :
    (v.isAdmin = false → usersRows v w = [] ∧ tenantsRows v w = []) ∧
      (v.isAdmin = true → (∀ u ∈ w.users, .user u.1 u.2.isAdmin (hidePassword u.2.opts) ∈ usersRows v w) ∧
        ∀ t ∈ w.tenants, .tenant t.1 t.2 ∈ tenantsRows v w) := by
  refine ⟨fun h => by simp [usersRows, tenantsRows, h], fun h => ?_⟩
  simp only [usersRows, tenantsRows, h, if_true]
  exact ⟨fun u hu => List.mem_map.2 ⟨u, hu, rfl⟩, fun t ht => List.mem_map.2 ⟨t, ht, rfl⟩⟩

/-- C192: `RESOURCE_STATUS` shows the tasks of databases that the user may read, of whatever tenant, and those of
tenants to administrators. -/
theorem C192_resources (v : Viewer) (w : World) (row : Row) :
    row ∈ resourceRows v w ↔ ∃ r ∈ w.resources,
      (if r.db = [] then v.isAdmin = true else canRead v r.tenant r.db = true) ∧ row = .resource r.shown := by
  rw [resourceRows_eq]
  simp only [List.mem_map, List.mem_filter]
  constructor
  · rintro ⟨r, ⟨h1, h2⟩, h3⟩
    refine ⟨r, h1, ?_, h3.symm⟩
    cases hd : r.db with
    | nil => rw [hd] at h2; simpa using h2
    | cons a l => rw [hd] at h2; simpa using h2
  · rintro ⟨r, h1, h2, h3⟩
    refine ⟨r, ⟨h1, ?_⟩, h3.symm⟩
    cases hd : r.db with
    | nil => rw [hd] at h2; simpa using h2
    | cons a l => rw [hd] at h2; simpa using h2

end Verif.Catalog
