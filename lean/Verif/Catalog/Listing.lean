import Verif.Catalog.Props

/-!
# Statements that list and describe databases and tables
-/
namespace Verif.Catalog
open Verif.Auth Verif.Plan

theorem nameLe_trans (a b c : Name) (h1 : nameLe a b = true) (h2 : nameLe b c = true) : nameLe a c = true := by
  simp only [nameLe, decide_eq_true_eq] at *
  exact Std.le_trans h1 h2

theorem nameLe_total (a b : Name) : nameLe a b = true ∨ nameLe b a = true := by
  simp only [nameLe, decide_eq_true_eq]
  exact Std.le_total

/-- Only one entry of a map is under a key. -/
theorem flatMap_single {α β γ : Type} [DecidableEq α] {l : List (α × β)} (hl : (l.map (·.1)).Nodup) {a : α}
    {f : α × β → List γ} (hf : ∀ e ∈ l, e.1 ≠ a → f e = []) :
    l.flatMap f = match get l a with | some i => f (a, i) | none => [] := by
  induction l with
  | nil => rfl
  | cons e l ih =>
    simp only [List.map_cons, List.nodup_cons] at hl
    have ih' := ih hl.2 fun x hx => hf x (List.mem_cons_of_mem _ hx)
    rw [List.flatMap_cons, ih']
    by_cases he : e.1 = a
    · have hn : get l a = none := by
        cases hg : get l a with
        | none => rfl
        | some b => exact absurd (List.mem_map.2 ⟨_, get_mem hg, he.symm⟩) hl.1
      have hg : get (e :: l) a = some e.2 := by
        unfold get; rw [List.find?_cons_of_pos (by simpa using he)]; rfl
      rw [hn, hg]
      simp only [List.append_nil]
      rw [← he]
    · have hg : get (e :: l) a = get l a := by
        unfold get; rw [List.find?_cons_of_neg (by simpa using he)]
      rw [hf e (List.mem_cons_self ..) he, hg, List.nil_append]

/-- `Read` on all databases includes every single one. -/
theorem canRead_of_all {v : Viewer} {w : World} (h : userCheck v.privs (readRight w none) = true) (n : Name) :
    canRead v w.tenantId n = true := by
  unfold canRead userCheck readRight at *
  rw [List.any_eq_true] at *
  obtain ⟨p, hp, hc⟩ := h
  exact ⟨p, hp, C50_trans _ _ _ hc (by simp [Priv.check, TenPriv.check, DbPriv.check])⟩

theorem filterMap_flatMap' {α β γ : Type} (l : List α) (g : α → List β) (f : β → Option γ) :
    (l.flatMap g).filterMap f = l.flatMap fun a => (g a).filterMap f := by
  induction l with
  | nil => rfl
  | cons a l ih => rw [List.flatMap_cons, List.filterMap_append, ih, List.flatMap_cons]

theorem databases_names (v : Viewer) (w : World) :
    (databasesRows v w).filterMap Row.dbName = (w.dbs.filter (visible v w.tenantId)).map (·.1) := by
  unfold databasesRows
  rw [flatMap_visible]
  generalize w.dbs.filter (visible v w.tenantId) = l
  induction l with
  | nil => rfl
  | cons e l ih =>
    rw [List.flatMap_cons, List.filterMap_append, ih]
    rfl

/-- C191: `SHOW DATABASES` lists to those who may read all databases every database of the tenant that is not dropped,
once each and in order.  (For others see the refutation.) -/
theorem C191_show_databases_partial (v : Viewer) (w : World) (hw : w.Ok)
    (hv : userCheck v.privs (readRight w none) = true) :
    ∃ l : List Name, answer v w .showDatabases = .rows (l.map .name) ∧ l.Nodup ∧ l.Pairwise (fun a b => nameLe a b = true) ∧
      ∀ n, n ∈ l ↔ ∃ i, (n, i) ∈ w.dbs ∧ i.hidden = false := by
  refine ⟨Sort.sortBy nameLe ((databasesRows v w).filterMap Row.dbName), ?_, ?_, Sort.sortBy_sorted nameLe_trans nameLe_total _, ?_⟩
  · simp only [answer, checked, hv, if_true]
  · rw [(Sort.sortBy_perm nameLe _).nodup_iff, databases_names]
    exact hw.dbs.sublist (List.filter_sublist.map _)
  · intro n
    rw [Sort.mem_sortBy, databases_names]
    simp only [List.mem_map, List.mem_filter, visible, Bool.and_eq_true, Bool.not_eq_true']
    constructor
    · rintro ⟨e, ⟨h1, _, h3⟩, rfl⟩
      exact ⟨e.2, h1, h3⟩
    · rintro ⟨i, h1, h2⟩
      exact ⟨(n, i), ⟨h1, canRead_of_all hv n, h2⟩, rfl⟩

theorem filterMap_none {α β : Type} {l : List α} {f : α → Option β} (h : ∀ a ∈ l, f a = none) : l.filterMap f = [] := by
  induction l with
  | nil => rfl
  | cons a l ih => rw [List.filterMap_cons, h a (List.mem_cons_self ..)]; exact ih fun b hb => h b (List.mem_cons_of_mem _ hb)

/-- What `TABLES` shows of one database. -/
theorem tables_of_db (v : Viewer) (w : World) (hw : w.Ok) (db : Name) :
    (tablesRows v w).filterMap (Row.tableIn db) =
      match get w.dbs db with
      | some i => if canRead v w.tenantId db = true ∧ i.hidden = false then i.tables.map (·.1) else []
      | none => [] := by
  unfold tablesRows
  rw [filterMap_flatMap', flatMap_single (a := db) hw.dbs]
  · cases hg : get w.dbs db with
    | none => rfl
    | some i =>
      have hm := get_mem hg
      dsimp only
      cases hc : canRead v w.tenantId db with
      | false => simp
      | true =>
        cases hh : i.hidden with
        | true => simp
        | false =>
          simp only [Bool.not_true, Bool.false_eq_true, if_false, and_self, if_true, listTables, tableSchema, hg]
          rw [filterMap_flatMap']
          have key : ∀ l : List (Name × Table), (∀ e ∈ l, e ∈ i.tables) →
              ((l.map (·.1)).flatMap fun n => List.filterMap (Row.tableIn db) (match get i.tables n with
                | some t => [Row.table w.tenant db t.name "TABLE".toList t.kind.engine "TODO".toList]
                | none => [])) = l.map (·.1) := by
            intro l hl
            induction l with
            | nil => rfl
            | cons e l ih =>
              have he := hl e (List.mem_cons_self ..)
              rw [List.map_cons, List.flatMap_cons, ih fun x hx => hl x (List.mem_cons_of_mem _ hx)]
              rw [show get i.tables e.1 = some e.2 from get_of_mem (hw.tables _ hm) he]
              have hn := hw.named _ hm e he
              simp [Row.tableIn, hn]
          exact key i.tables fun _ h => h
  · intro e _ he
    split
    · rfl
    · split
      · rfl
      · refine filterMap_none fun r hr => ?_
        obtain ⟨n, _, hr⟩ := List.mem_flatMap.1 hr
        split at hr
        · rw [List.mem_singleton.1 hr]
          simp [Row.tableIn, he]
        · cases hr

/-- C191: `SHOW TABLES` lists to those who may read the database exactly its tables, once each and in order, and
nothing of a dropped or missing database. -/
theorem C191_show_tables (v : Viewer) (w : World) (hw : w.Ok) (db : Name) (hv : canRead v w.tenantId db = true) :
    ∃ l : List Name, answer v w (.showTables db) = .rows (l.map .name) ∧ l.Nodup ∧ l.Pairwise (fun a b => nameLe a b = true) ∧
      ∀ n, n ∈ l ↔ ∃ i t, (db, i) ∈ w.dbs ∧ i.hidden = false ∧ (n, t) ∈ i.tables := by
  refine ⟨Sort.sortBy nameLe ((tablesRows v w).filterMap (Row.tableIn db)), ?_, ?_, Sort.sortBy_sorted nameLe_trans nameLe_total _, ?_⟩
  · have : userCheck v.privs (readRight w (some db)) = true := hv
    simp only [answer, checked, this, if_true]
  · rw [(Sort.sortBy_perm nameLe _).nodup_iff, tables_of_db v w hw]
    cases hg : get w.dbs db with
    | none => exact List.nodup_nil
    | some i =>
      dsimp only
      split
      · exact hw.tables _ (get_mem hg)
      · exact List.nodup_nil
  · intro n
    rw [Sort.mem_sortBy, tables_of_db v w hw]
    constructor
    · intro h
      cases hg : get w.dbs db with
      | none => rw [hg] at h; cases h
      | some i =>
        rw [hg] at h
        dsimp only at h
        split at h
        · rename_i hh
          obtain ⟨e, he, rfl⟩ := List.mem_map.1 h
          exact ⟨i, e.2, get_mem hg, hh.2, he⟩
        · cases h
    · rintro ⟨i, t, h1, h2, h3⟩
      rw [get_of_mem hw.dbs h1]
      dsimp only
      rw [if_pos ⟨hv, h2⟩]
      exact List.mem_map.2 ⟨_, h3, rfl⟩

/-- The description of a column. -/
def describe (t : Table) (c : Column) : Row :=
  match t.kind with
  | .tskv => .described c.name c.dataType c.kind.text (some c.codec)
  | _ => .described c.name c.dataType "FIELD".toList none

theorem appendColumns_of (tenant db : Name) (t : Table) (k : Nat) (l : List Column) :
    (appendColumns tenant db t k l).filterMap (Row.columnOf db t.name) = l.map (describe t) := by
  induction l generalizing k with
  | nil => rfl
  | cons c l ih =>
    rw [appendColumns, List.filterMap_cons, List.map_cons, ih]
    have : (columnRow tenant db t k c).columnOf db t.name = some (describe t c) := by
      unfold columnRow describe
      cases t.kind <;> simp [Row.columnOf, ColKind.text]
    rw [this]

theorem appendColumns_other {tenant db db' n : Name} {t : Table} (h : db' ≠ db ∨ t.name ≠ n) (k : Nat) (l : List Column) :
    (appendColumns tenant db' t k l).filterMap (Row.columnOf db n) = [] := by
  refine filterMap_none fun r hr => ?_
  obtain ⟨i, c, _, rfl⟩ := mem_appendColumns.1 hr
  unfold columnRow
  rcases h with h | h <;> cases t.kind <;> simp [Row.columnOf, h]

/-- C191: `DESCRIBE TABLE` shows those who may read the database exactly the columns of the table, in their order. -/
theorem C191_describe_table (v : Viewer) (w : World) (hw : w.Ok) (db n : Name) (hv : canRead v w.tenantId db = true)
    (i : Db) (t : Table) (hi : (db, i) ∈ w.dbs) (hh : i.hidden = false) (ht : (n, t) ∈ i.tables) :
    answer v w (.describeTable db n) = .rows (t.columns.map (describe t)) := by
  have hg := get_of_mem hw.dbs hi
  have hgt := get_of_mem (hw.tables _ hi) ht
  have hx : dbExists w db (some n) = true := by simp [dbExists, hg, hh, hgt]
  have hc : userCheck v.privs (readRight w (some db)) = true := hv
  have hname : t.name = n := hw.named _ hi _ ht
  have key : (columnsRows v w).filterMap (Row.columnOf db n) = t.columns.map (describe t) := by
    unfold columnsRows
    rw [filterMap_flatMap', flatMap_single (a := db) hw.dbs]
    · rw [hg]
      simp only [hv, hh, Bool.not_true, Bool.false_eq_true, if_false, listTables, tableSchema, hg]
      rw [filterMap_flatMap', List.flatMap_map, flatMap_single (a := n) (hw.tables _ hi)]
      · rw [hgt]
        simp only [hgt]
        rw [← hname]
        exact appendColumns_of ..
      · intro e he hne
        rw [show get i.tables e.1 = some e.2 from get_of_mem (hw.tables _ hi) he]
        have h1 : e.2.name = e.1 := hw.named _ hi e he
        exact appendColumns_other (.inr (by rw [h1]; exact hne)) _ _
    · intro e _ he
      split
      · rfl
      · split
        · rfl
        · refine filterMap_none fun r hr => ?_
          obtain ⟨m, _, hr⟩ := List.mem_flatMap.1 hr
          split at hr
          · obtain ⟨k, c, _, rfl⟩ := mem_appendColumns.1 hr
            unfold columnRow
            split <;> simp [Row.columnOf, he]
          · cases hr
  simp only [answer, hx, checked, hc, key, Bool.not_true, Bool.false_eq_true, if_false, if_true]

/-- C191: `DESCRIBE DATABASE` shows the settings of the database. -/
theorem C191_describe_database (v : Viewer) (w : World) (hw : w.Ok) (db : Name) (hv : canRead v w.tenantId db = true)
    (i : Db) (hi : (db, i) ∈ w.dbs) (hh : i.hidden = false) :
    answer v w (.describeDatabase db) = .rows [.settings i.settings] := by
  have hg := get_of_mem hw.dbs hi
  have hx : dbExists w db none = true := by simp [dbExists, hg, hh]
  have hc : userCheck v.privs (readRight w (some db)) = true := hv
  have key : (databasesRows v w).filterMap (Row.settingsOf db) = [i.settings] := by
    unfold databasesRows
    rw [filterMap_flatMap', flatMap_single (a := db) hw.dbs]
    · rw [hg]
      simp [hv, hh, Row.settingsOf]
    · intro e _ he
      split
      · rfl
      · split
        · rfl
        · simp [Row.settingsOf, he]
  simp only [answer, hx, checked, hc, key, Bool.not_true, Bool.false_eq_true, if_false, if_true, List.map_cons, List.map_nil]

/-- The database a statement is about. -/
def Stmt.db : Stmt → Option Name
  | .select db _ => some db
  | .showDatabases => none
  | .showTables db => some db
  | .describeDatabase db => some db
  | .describeTable db _ => some db

/-- C191: a statement about a database that the user may not read never answers with rows. -/
theorem C191_no_rows (v : Viewer) (w : World) (st : Stmt) (db : Name) (hs : st.db = some db)
    (hv : canRead v w.tenantId db = false) : answer v w st = .denied ∨ answer v w st = .notFound := by
  have hc : ∀ l, checked v (readRight w (some db)) l = .denied := fun l => by
    have : userCheck v.privs (readRight w (some db)) = false := hv
    simp only [checked, this, Bool.false_eq_true, if_false]
  cases st with
  | select d t =>
    cases hs
    simp only [answer]
    cases scan v w db t with
    | none => exact .inr rfl
    | some l => exact .inl (hc l)
  | showDatabases => cases hs
  | showTables d => cases hs; exact .inl (hc _)
  | describeDatabase d =>
    cases hs
    simp only [answer]
    split
    · exact .inr rfl
    · exact .inl (hc _)
  | describeTable d t =>
    cases hs
    simp only [answer]
    split
    · exact .inr rfl
    · exact .inl (hc _)

/-- C191: `SHOW DATABASES` and `SHOW TABLES` do not depend on anything that the user may not see. -/
theorem C191_listings_hidden (v : Viewer) (w w' : World) (hw : w.Ok) (hw' : w'.Ok) (h : SameFor v w w') :
    answer v w' .showDatabases = answer v w .showDatabases ∧
      ∀ db, answer v w' (.showTables db) = answer v w (.showTables db) := by
  have hr : ∀ db, readRight w' db = readRight w db := fun db => by unfold readRight; rw [h.tenantId]
  exact ⟨by simp only [answer, hr, C192_databases_hidden v w w' h],
    fun db => by simp only [answer, hr, C192_tables_hidden v w w' hw hw' h]⟩

/-! ## C193: names of system tables and the usage of a tenant -/

/-- C193: names of tables of `information_schema` and `cluster_schema` and of these databases are the same in upper and
lower case. -/
theorem C193_information_schema_case (tenant db db' table table' : Name) (hd : sameIgnoringCase db db' = true)
    (hi : sameIgnoringCase db informationSchema = true) (ht : sameIgnoringCase table table' = true) :
    route tenant db table = route tenant db' table' := by
  have e1 : db.map Char.toLower = db'.map Char.toLower := by simpa [sameIgnoringCase] using hd
  have e2 : table.map Char.toLower = table'.map Char.toLower := by simpa [sameIgnoringCase] using ht
  have hi' : sameIgnoringCase db' informationSchema = true := by
    unfold sameIgnoringCase at hi ⊢; rw [← e1]; exact hi
  unfold route
  rw [if_pos hi, if_pos hi', e2]

/-- C193: a query of a measure of `usage_schema` in a tenant answers to those who may read `usage_schema` exactly the rows
of the tenant, whatever else is recorded. -/
theorem C193_usage_exact (v : Viewer) (w : World) (db m : Name) (ht : w.tenant ≠ cnosdb)
    (hd : sameIgnoringCase db usageSchema = true) (hm : m ∈ usageNames) (hv : canRead v w.tenantId db = true) :
    answer v w (.select db m) =
      .rows (((w.usage m).filter fun u => decide (u.tenant = w.tenant)).map .usage) := by
  have hi : sameIgnoringCase db informationSchema = false := by
    have e1 : db.map Char.toLower = usageSchema.map Char.toLower := by simpa [sameIgnoringCase] using hd
    unfold sameIgnoringCase
    rw [e1]
    decide +kernel
  have hr : route w.tenant db m = some (.usage m) := by
    unfold route
    rw [if_neg (by simp [hi]), if_pos (by simp [ht, hd]), if_pos hm]
  have hc : userCheck v.privs (readRight w (some db)) = true := hv
  simp only [answer, scan, hr, checked, hc, if_true, usageRows_eq v w m ht]

/-- C193: nothing recorded for another tenant shows in any system table of a tenant. -/
theorem C193_no_other_tenant (v : Viewer) (w : World) (db table : Name) (l : List Row) (u : Usage)
    (h : scan v w db table = some l) (hu : .usage u ∈ l) : u.tenant = w.tenant := by
  unfold scan at h
  cases hx : route w.tenant db table with
  | none => rw [hx] at h; cases h
  | some s =>
    rw [hx] at h
    cases s with
    | plain =>
      dsimp only at h
      repeat' split at h
      all_goals first | cases h | skip
      simp at hu
    | usage m =>
      have ht := (route_usage hx).1
      simp only [Option.some.injEq] at h
      subst h
      rw [usageRows_eq v w m ht] at hu
      obtain ⟨x, hx, he⟩ := List.mem_map.1 hu
      cases he
      simpa using (List.mem_filter.1 hx).2
    | tenants =>
      simp only [Option.some.injEq] at h
      subst h
      unfold tenantsRows at hu
      split at hu <;> simp at hu
    | users =>
      simp only [Option.some.injEq] at h
      subst h
      unfold usersRows at hu
      split at hu <;> simp at hu
    | info t =>
      simp only [Option.some.injEq] at h
      subst h
      exfalso
      have key : ∀ {α : Type} {l : List α} {f : α → List Row}, Row.usage u ∈ l.flatMap f → ∃ x ∈ l, Row.usage u ∈ f x :=
        fun h => List.mem_flatMap.1 h
      cases t with
      | databases =>
        obtain ⟨_, _, _, _, _, h⟩ := (C190_databases_exact v w _).1 hu
        cases h
      | tables =>
        unfold infoRows tablesRows at hu
        rw [flatMap_visible] at hu
        obtain ⟨e, _, hu⟩ := key hu
        obtain ⟨x, _, hu⟩ := key hu
        split at hu <;> simp at hu
      | columns =>
        unfold infoRows columnsRows at hu
        rw [flatMap_visible] at hu
        obtain ⟨e, _, hu⟩ := key hu
        obtain ⟨x, _, hu⟩ := key hu
        split at hu
        · obtain ⟨i, c, _, hc⟩ := mem_appendColumns.1 hu
          unfold columnRow at hc
          split at hc <;> cases hc
        · simp at hu
      | enabledRoles =>
        simp only [infoRows, enabledRows] at hu
        cases hm : get w.members v.id <;> rw [hm] at hu <;> simp at hu
      | roles =>
        rcases ((C192_roles v w _).1 hu).2 with h | h | ⟨_, _, _, h⟩ <;> cases h
      | databasePrivileges =>
        cases hc : canRoles v w.tenantId with
        | true => obtain ⟨_, _, _, _, _, _, h⟩ := (C192_all_privileges v w hc _).1 hu; cases h
        | false => obtain ⟨_, _, _, _, _, _, _, h⟩ := (C192_own_privileges v w hc _).1 hu; cases h
      | members =>
        unfold infoRows membersRows at hu
        obtain ⟨x, _, hu⟩ := key hu
        split at hu <;> simp at hu
      | resourceStatus =>
        unfold infoRows at hu
        rw [resourceRows_eq] at hu
        simp at hu

end Verif.Catalog
