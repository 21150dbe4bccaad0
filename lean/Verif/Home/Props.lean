import Verif.Home.Model

/-!
# Properties: the databases and vnodes that a data node has open
-/
namespace Verif.Home

/-! ## Owners -/

theorem cut_dot (t d : Name) (h : '.' ∉ t) : cut (t ++ '.' :: d) = some (t, d) := by
  induction t with
  | nil => simp [cut]
  | cons c t ih =>
    simp only [List.mem_cons, not_or] at h
    have hc : c ≠ '.' := fun e => h.1 e.symm
    simp only [List.cons_append, cut, if_neg hc, ih h.2, Option.map_some]

theorem cut_no_dot {o t d : Name} (h : cut o = some (t, d)) : '.' ∉ t ∧ o = t ++ '.' :: d := by
  induction o generalizing t d with
  | nil => cases h
  | cons c o ih =>
    unfold cut at h
    by_cases hc : c = '.'
    · rw [if_pos hc] at h
      simp only [Option.some.injEq, Prod.mk.injEq] at h
      obtain ⟨rfl, rfl⟩ := h
      exact ⟨by simp, by simp [hc]⟩
    · rw [if_neg hc] at h
      cases hq : cut o with
      | none => rw [hq] at h; cases h
      | some p =>
        rw [hq] at h
        simp only [Option.map_some, Option.some.injEq, Prod.mk.injEq] at h
        obtain ⟨rfl, rfl⟩ := h
        obtain ⟨h1, h2⟩ := ih hq
        refine ⟨?_, by simp [h2]⟩
        simp only [List.mem_cons, not_or]
        exact ⟨fun e => hc e.symm, h1⟩

theorem cut_some (t d : Name) : ∃ p, cut (t ++ '.' :: d) = some p := by
  induction t with
  | nil => exact ⟨([], d), by simp [cut]⟩
  | cons c t ih =>
    obtain ⟨p, hp⟩ := ih
    by_cases hc : c = '.'
    · exact ⟨([], t ++ '.' :: d), by simp only [List.cons_append, cut, if_pos hc]⟩
    · exact ⟨(c :: p.1, p.2), by simp only [List.cons_append, cut, if_neg hc, hp, Option.map_some]⟩

/-- C202: an owner is taken apart rightly if and only if the name of the tenant has no dot in it. -/
theorem C202_owner_round_trip (t d : Name) : splitOwner (makeOwner t d) = (t, d) ↔ '.' ∉ t := by
  constructor
  · intro h
    obtain ⟨p, hp⟩ := cut_some t d
    unfold splitOwner makeOwner at h
    rw [hp, Option.getD_some] at h
    subst h
    exact (cut_no_dot hp).1
  · intro h
    unfold splitOwner makeOwner
    rw [cut_dot t d h]
    rfl

/-- C202: databases of tenants without dots in their names have different owners. -/
theorem C202_owner_inj {t d t' d' : Name} (h : '.' ∉ t) (h' : '.' ∉ t') (e : makeOwner t d = makeOwner t' d') : t = t' ∧ d = d' := by
  have h1 := (C202_owner_round_trip t d).2 h
  rw [e, (C202_owner_round_trip t' d').2 h'] at h1
  simp only [Prod.mk.injEq] at h1
  exact ⟨h1.1.symm, h1.2.symm⟩

/-! ## Databases are kept apart -/

/-- No tenant has a dot in its name. -/
def Op.Plain : Op → Prop
  | .openVnode t _ _ => '.' ∉ t
  | _ => True

structure Apart (n : Node) : Prop where
  dbs : ∀ o db, n.dbs.get o = some db → o = makeOwner db.tenant db.name ∧ '.' ∉ db.tenant
  vnodes : ∀ id v, n.vnodes.get id = some v → v.owner = makeOwner v.tenant v.db ∧ '.' ∉ v.tenant ∧ (n.dbs.get v.owner).isSome

theorem apart_start (cat : AMap (Name × Name) Entry) (disk : AMap (Name × Nat) (List Point)) : Apart (start cat disk) :=
  ⟨by intro o db h; simp [start] at h, by intro id v h; simp [start] at h⟩

theorem getDb_dbs {n m : Node} {t d : Name} (h : n.getDb t d = some m) :
    m.vnodes = n.vnodes ∧ m.disk = n.disk ∧ m.cat = n.cat ∧ (m.dbs.get (makeOwner t d)).isSome ∧
    (∀ o, (n.dbs.get o).isSome → m.dbs.get o = n.dbs.get o) ∧
    ∀ o db, m.dbs.get o = some db → n.dbs.get o = some db ∨
      (o = makeOwner t d ∧ db.tenant = t ∧ db.name = d ∧ ∃ e, n.cat.get (t, d) = some e ∧ e.config = db.config) := by
  unfold Node.getDb at h
  cases hg : n.dbs.get (makeOwner t d) with
  | some db =>
    rw [hg] at h
    simp only [Option.some.injEq] at h
    subst h
    exact ⟨rfl, rfl, rfl, by rw [hg]; rfl, fun _ _ => rfl, fun o db h => .inl h⟩
  | none =>
    rw [hg] at h
    dsimp only at h
    cases hc : n.cat.get (t, d) with
    | none => rw [hc] at h; cases h
    | some e =>
      rw [hc] at h
      simp only [Option.some.injEq] at h
      subst h
      refine ⟨rfl, rfl, rfl, by simp [AMap.get_set], ?_, ?_⟩
      · intro o ho
        simp only [AMap.get_set]
        by_cases hk : o = makeOwner t d
        · subst hk; rw [hg] at ho; cases ho
        · rw [if_neg hk]
      · intro o db ho
        simp only [AMap.get_set] at ho
        by_cases hk : o = makeOwner t d
        · rw [if_pos hk] at ho
          simp only [Option.some.injEq] at ho
          subst ho
          exact .inr ⟨hk, rfl, rfl, e, rfl, rfl⟩
        · rw [if_neg hk] at ho
          exact .inl ho

/-- How a vnode is opened. -/
theorem open_eq {n m : Node} {t d : Name} {id : Nat} (h : n.open' t d id = some m) :
    m = n ∧ (n.vnodes.get id).isSome ∨
    ∃ k, n.vnodes.get id = none ∧ n.getDb t d = some k ∧ m.dbs = k.dbs ∧ m.cat = k.cat ∧ m.vnodes = k.vnodes.set id ⟨t, d, makeOwner t d⟩ ∧
      m.disk = (match k.disk.get (makeOwner t d, id) with | some _ => k.disk | none => k.disk.set (makeOwner t d, id) []) := by
  unfold Node.open' at h
  cases hv : n.vnodes.get id with
  | some v =>
    rw [hv] at h
    simp only [Option.some.injEq] at h
    exact .inl ⟨h.symm, rfl⟩
  | none =>
    rw [hv] at h
    dsimp only at h
    cases hg : n.getDb t d with
    | none => rw [hg] at h; cases h
    | some k =>
      rw [hg] at h
      simp only [Option.map_some, Option.some.injEq] at h
      subst h
      exact .inr ⟨k, rfl, rfl, rfl, rfl, rfl, rfl⟩

/-- How a point is written. -/
theorem write_eq {n m : Node} {id : Nat} {p : Point} (h : n.write id p = some m) :
    ∃ v db cat, n.vnodes.get id = some v ∧ n.dbs.get v.owner = some db ∧ n.schemas db p = some cat ∧
      m = { n with cat := cat, disk := n.disk.set (v.owner, id) ((n.disk.get (v.owner, id)).getD [] ++ [p]) } := by
  unfold Node.write at h
  cases hv : n.vnodes.get id with
  | none => rw [hv] at h; cases h
  | some v =>
    rw [hv] at h
    dsimp only at h
    cases hd : n.dbs.get v.owner with
    | none => rw [hd] at h; cases h
    | some db =>
      rw [hd] at h
      dsimp only at h
      cases hs : n.schemas db p with
      | none => rw [hs] at h; cases h
      | some cat =>
        rw [hs] at h
        simp only [Option.map_some, Option.some.injEq] at h
        exact ⟨v, db, cat, rfl, rfl.trans hd, hs, h.symm⟩

theorem Apart.step {n : Node} (h : Apart n) (op : Op) (hp : op.Plain) : Apart (n.step op) := by
  cases op with
  | createDb t d c =>
    unfold Node.step
    dsimp only
    split
    · exact h
    · exact ⟨h.dbs, h.vnodes⟩
  | dropDb t d => exact ⟨h.dbs, h.vnodes⟩
  | openVnode t d id =>
    unfold Node.step
    dsimp only
    cases ho : n.open' t d id with
    | none => exact h
    | some m =>
      rw [Option.getD_some]
      rcases open_eq ho with ⟨rfl, _⟩ | ⟨k, _, hk, h1, _, h3, _⟩
      · exact h
      · obtain ⟨g1, _, _, g4, g5, g6⟩ := getDb_dbs hk
        refine ⟨?_, ?_⟩
        · intro o db hd
          rw [h1] at hd
          rcases g6 o db hd with hd | ⟨rfl, rfl, rfl, _⟩
          · exact h.dbs o db hd
          · exact ⟨rfl, hp⟩
        · intro i v hv
          rw [h3, AMap.get_set, g1] at hv
          rw [h1]
          by_cases hi : i = id
          · rw [if_pos hi] at hv
            simp only [Option.some.injEq] at hv
            subst hv
            exact ⟨rfl, hp, g4⟩
          · rw [if_neg hi] at hv
            obtain ⟨a, b, c⟩ := h.vnodes i v hv
            exact ⟨a, b, by rw [g5 _ c]; exact c⟩
  | write id p =>
    unfold Node.step
    dsimp only
    cases ho : n.write id p with
    | none => exact h
    | some m =>
      obtain ⟨v, db, cat, _, _, _, rfl⟩ := write_eq ho
      exact ⟨h.dbs, h.vnodes⟩
  | remove id =>
    unfold Node.step Node.remove
    dsimp only
    split
    · exact h
    · refine ⟨h.dbs, ?_⟩
      intro i v hv
      simp only [AMap.get_del] at hv
      split at hv
      · cases hv
      · exact h.vnodes i v hv
  | restart => exact ⟨by intro o db hd; simp [Node.step] at hd, by intro i v hv; simp [Node.step] at hv⟩

theorem Apart.run {n : Node} (h : Apart n) (ops : List Op) (hp : ∀ op ∈ ops, op.Plain) : Apart (n.run ops) := by
  unfold Node.run
  induction ops generalizing n with
  | nil => exact h
  | cons op ops ih =>
    exact ih (h.step op (hp op (by simp))) fun o ho => hp o (by simp [ho])

/-- C202: a vnode uses the schemas of the database for which it was opened, if no tenant has a dot in its name. -/
theorem C202_own_database_partial (cat : AMap (Name × Name) Entry) (disk : AMap (Name × Nat) (List Point)) (ops : List Op)
    (hp : ∀ op ∈ ops, op.Plain) (id : Nat) (v : Vnode) (hv : ((start cat disk).run ops).vnodes.get id = some v) :
    ∃ db, ((start cat disk).run ops).dbs.get v.owner = some db ∧ db.tenant = v.tenant ∧ db.name = v.db := by
  have ha := (apart_start cat disk).run ops hp
  obtain ⟨h1, h2, h3⟩ := ha.vnodes id v hv
  obtain ⟨db, hd⟩ := Option.isSome_iff_exists.1 h3
  obtain ⟨g1, g2⟩ := ha.dbs _ _ hd
  rw [h1] at g1
  obtain ⟨a, b⟩ := C202_owner_inj h2 g2 g1
  exact ⟨db, hd, a.symm, b.symm⟩

theorem schemas_other {n : Node} {db : Db} {p : Point} {cat : AMap (Name × Name) Entry} (h : n.schemas db p = some cat)
    (k : Name × Name) (hk : k ≠ (db.tenant, db.name)) : cat.get k = n.cat.get k := by
  unfold Node.schemas at h
  cases hg : n.cat.get (db.tenant, db.name) with
  | none => rw [hg] at h; cases h
  | some e =>
    rw [hg] at h
    dsimp only at h
    split at h
    · split at h
      · cases h
      · cases h; rfl
    · cases h
      rw [AMap.get_set, if_neg hk]

/-- C202: a write changes no table of another database, whatever was opened, removed and dropped before, if no tenant has a dot in
its name. -/
theorem C202_apart_partial (cat : AMap (Name × Name) Entry) (disk : AMap (Name × Nat) (List Point)) (ops : List Op)
    (hp : ∀ op ∈ ops, op.Plain) (id : Nat) (p : Point) (v : Vnode) (m : Node)
    (hv : ((start cat disk).run ops).vnodes.get id = some v) (hw : ((start cat disk).run ops).write id p = some m)
    (k : Name × Name) (hk : k ≠ (v.tenant, v.db)) : m.cat.get k = ((start cat disk).run ops).cat.get k := by
  obtain ⟨db, hd, ht, hn⟩ := C202_own_database_partial cat disk ops hp id v hv
  obtain ⟨v', db', cat', h1, h2, h3, rfl⟩ := write_eq hw
  rw [hv] at h1
  cases h1
  rw [hd] at h2
  cases h2
  exact schemas_other h3 k (by rw [ht, hn]; exact hk)

/-- C202: and if it is accepted, its table is one of the database for which the vnode was opened. -/
theorem C202_own_table_partial (cat : AMap (Name × Name) Entry) (disk : AMap (Name × Nat) (List Point)) (ops : List Op)
    (hp : ∀ op ∈ ops, op.Plain) (id : Nat) (p : Point) (v : Vnode) (m : Node)
    (hv : ((start cat disk).run ops).vnodes.get id = some v) (hw : ((start cat disk).run ops).write id p = some m) :
    ∃ e, m.cat.get (v.tenant, v.db) = some e ∧ ∃ cols, e.tables.get p.table = some cols := by
  obtain ⟨db, hd, ht, hn⟩ := C202_own_database_partial cat disk ops hp id v hv
  obtain ⟨v', db', cat', h1, h2, h3, rfl⟩ := write_eq hw
  rw [hv] at h1
  cases h1
  rw [hd] at h2
  cases h2
  rw [← ht, ← hn]
  dsimp only
  unfold Node.schemas at h3
  cases hg : ((start cat disk).run ops).cat.get (db.tenant, db.name) with
  | none => rw [hg] at h3; cases h3
  | some e =>
    rw [hg] at h3
    dsimp only at h3
    split at h3
    · cases ht : e.tables.get p.table with
      | none => rw [ht] at h3; cases h3
      | some cols =>
        rw [ht] at h3
        cases h3
        exact ⟨e, hg, cols, ht⟩
    · cases h3
      exact ⟨_, by rw [AMap.get_set, if_pos rfl], _, by simp only [AMap.get_set, if_true]; rfl⟩

/-! ## Settings -/

/-- Databases are not dropped. -/
def Op.Keeps : Op → Prop
  | .dropDb _ _ => False
  | _ => True

/-- Open databases have the settings of the metadata. -/
def Current (n : Node) : Prop := ∀ o db, n.dbs.get o = some db → ∃ e, n.cat.get (db.tenant, db.name) = some e ∧ e.config = db.config

theorem schemas_config {n : Node} {db : Db} {p : Point} {cat : AMap (Name × Name) Entry} (h : n.schemas db p = some cat)
    (k : Name × Name) (e : Entry) (he : n.cat.get k = some e) : ∃ e', cat.get k = some e' ∧ e'.config = e.config := by
  by_cases hk : k = (db.tenant, db.name)
  · unfold Node.schemas at h
    rw [← hk, he] at h
    dsimp only at h
    split at h
    · split at h
      · cases h
      · cases h; exact ⟨e, he, rfl⟩
    · cases h
      refine ⟨{ e with tables := e.tables.set p.table (addCols ((e.tables.get p.table).getD []) p.cols) }, ?_, rfl⟩
      rw [AMap.get_set, if_pos rfl]
  · exact ⟨e, by rw [schemas_other h k hk, he], rfl⟩

theorem Current.step {n : Node} (h : Current n) (op : Op) (hp : op.Keeps) : Current (n.step op) := by
  cases op with
  | createDb t d c =>
    unfold Node.step
    dsimp only
    cases hg : n.cat.get (t, d) with
    | some _ => exact h
    | none =>
      intro o db hd
      obtain ⟨e, he, hc⟩ := h o db hd
      refine ⟨e, ?_, hc⟩
      simp only [AMap.get_set]
      by_cases hk : (db.tenant, db.name) = (t, d)
      · rw [hk, hg] at he; cases he
      · rw [if_neg hk]; exact he
  | dropDb t d => exact absurd hp (by simp [Op.Keeps])
  | openVnode t d id =>
    unfold Node.step
    dsimp only
    cases ho : n.open' t d id with
    | none => exact h
    | some m =>
      rw [Option.getD_some]
      rcases open_eq ho with ⟨rfl, _⟩ | ⟨k, _, hk, h1, h2, _, _⟩
      · exact h
      · obtain ⟨_, _, g3, _, _, g6⟩ := getDb_dbs hk
        intro o db hd
        rw [h1] at hd
        rw [h2, g3]
        rcases g6 o db hd with hd | ⟨_, rfl, rfl, e, he, hc⟩
        · exact h o db hd
        · exact ⟨e, he, hc⟩
  | write id p =>
    unfold Node.step
    dsimp only
    cases ho : n.write id p with
    | none => exact h
    | some m =>
      obtain ⟨v, db, cat, _, _, h3, rfl⟩ := write_eq ho
      intro o db' hd
      obtain ⟨e, he, hc⟩ := h o db' hd
      obtain ⟨e', he', hc'⟩ := schemas_config h3 _ e he
      exact ⟨e', he', hc'.trans hc⟩
  | remove id =>
    unfold Node.step Node.remove
    dsimp only
    split
    · exact h
    · exact h
  | restart => intro o db hd; simp [Node.step] at hd

/-- C203: the settings that a vnode uses are those of its database in the metadata, if no tenant has a dot in its name and no
database was dropped since the start. -/
theorem C203_settings_partial (cat : AMap (Name × Name) Entry) (disk : AMap (Name × Nat) (List Point)) (ops : List Op)
    (hp : ∀ op ∈ ops, op.Plain) (hk : ∀ op ∈ ops, op.Keeps) (id : Nat) (v : Vnode)
    (hv : ((start cat disk).run ops).vnodes.get id = some v) :
    ∃ db e, ((start cat disk).run ops).dbs.get v.owner = some db ∧ ((start cat disk).run ops).cat.get (v.tenant, v.db) = some e ∧
      db.config = e.config := by
  have hc : Current ((start cat disk).run ops) := by
    have h0 : Current (start cat disk) := by intro o db hd; simp [start] at hd
    revert h0
    generalize start cat disk = n
    clear hv hp
    unfold Node.run
    induction ops generalizing n with
    | nil => exact fun h => h
    | cons op ops ih => exact fun h => ih (fun o ho => hk o (by simp [ho])) _ (h.step op (hk op (by simp)))
  obtain ⟨db, hd, ht, hn⟩ := C202_own_database_partial cat disk ops hp id v hv
  obtain ⟨e, he, hce⟩ := hc _ _ hd
  exact ⟨db, e, hd, by rw [← ht, ← hn]; exact he, hce.symm⟩

/-- C203: under the same conditions a database with `strict_write` refuses points for tables that it does not have, and another
one takes them. -/
theorem C203_strict_partial (cat : AMap (Name × Name) Entry) (disk : AMap (Name × Nat) (List Point)) (ops : List Op)
    (hp : ∀ op ∈ ops, op.Plain) (hk : ∀ op ∈ ops, op.Keeps) (id : Nat) (v : Vnode) (e : Entry) (p : Point)
    (hv : ((start cat disk).run ops).vnodes.get id = some v) (he : ((start cat disk).run ops).cat.get (v.tenant, v.db) = some e) :
    (((start cat disk).run ops).write id p).isSome = (!e.config.strict || (e.tables.get p.table).isSome) := by
  obtain ⟨db, e', hd, he', hc⟩ := C203_settings_partial cat disk ops hp hk id v hv
  obtain ⟨db', hd', ht, hn⟩ := C202_own_database_partial cat disk ops hp id v hv
  rw [hd] at hd'
  cases hd'
  rw [he] at he'
  cases he'
  unfold Node.write
  rw [hv]
  dsimp only
  rw [hd]
  dsimp only
  unfold Node.schemas
  rw [ht, hn, he]
  dsimp only
  rw [hc]
  cases hs : e.config.strict with
  | false => simp
  | true =>
    rw [if_pos rfl]
    cases e.tables.get p.table <;> rfl

/-! ## The contents of vnodes -/

/-- A vnode belongs to one database (vnode ids are given once, C63). -/
def Op.At (home : Nat → Name × Name) : Op → Prop
  | .openVnode t d id => home id = (t, d)
  | _ => True

/-- What is stored for a vnode. -/
def Node.stored (n : Node) (home : Nat → Name × Name) (id : Nat) : Option (List Point) :=
  n.disk.get (makeOwner (home id).1 (home id).2, id)

/-- Vnodes are open where they belong, and have a directory. -/
structure Homed (home : Nat → Name × Name) (n : Node) : Prop where
  owner : ∀ id v, n.vnodes.get id = some v → v.owner = makeOwner (home id).1 (home id).2
  db : ∀ id v, n.vnodes.get id = some v → (n.dbs.get v.owner).isSome
  dir : ∀ id v, n.vnodes.get id = some v → (n.disk.get (v.owner, id)).isSome

theorem homed_start (home : Nat → Name × Name) (cat : AMap (Name × Name) Entry) (disk : AMap (Name × Nat) (List Point)) :
    Homed home (start cat disk) :=
  ⟨by intro i v h; simp [start] at h, by intro i v h; simp [start] at h, by intro i v h; simp [start] at h⟩

/-- What an operation does to what is stored for a vnode. -/
def effect (n : Node) (id : Nat) (old : Option (List Point)) : Op → Option (List Point)
  | .write i p => if i = id ∧ (n.write i p).isSome then old.map (· ++ [p]) else old
  | .remove i => if i = id ∧ (n.vnodes.get i).isSome then none else old
  | .openVnode t d i => if i = id ∧ (n.open' t d i).isSome then some (old.getD []) else old
  | _ => old

theorem stored_step {home : Nat → Name × Name} {n : Node} (h : Homed home n) (op : Op) (ha : op.At home) :
    Homed home (n.step op) ∧ ∀ id, (n.step op).stored home id = effect n id (n.stored home id) op := by
  cases op with
  | createDb t d c =>
    unfold Node.step effect
    dsimp only
    split
    · exact ⟨h, fun _ => rfl⟩
    · exact ⟨⟨h.owner, h.db, h.dir⟩, fun _ => rfl⟩
  | dropDb t d => exact ⟨⟨h.owner, h.db, h.dir⟩, fun _ => rfl⟩
  | restart =>
    exact ⟨⟨by intro i v h; simp [Node.step] at h, by intro i v h; simp [Node.step] at h, by intro i v h; simp [Node.step] at h⟩, fun _ => rfl⟩
  | openVnode t d i =>
    have hh : home i = (t, d) := ha
    unfold Node.step effect
    dsimp only
    cases ho : n.open' t d i with
    | none => exact ⟨h, fun _ => by simp⟩
    | some m =>
      rw [Option.getD_some]
      rcases open_eq ho with ⟨rfl, hs⟩ | ⟨k, hn, hk, h1, h2, h3, h4⟩
      · refine ⟨h, fun id => ?_⟩
        by_cases hi : i = id
        · subst hi
          obtain ⟨v, hv⟩ := Option.isSome_iff_exists.1 hs
          have hd := h.dir i v hv
          rw [h.owner i v hv] at hd
          obtain ⟨x, hx⟩ := Option.isSome_iff_exists.1 hd
          unfold Node.stored
          rw [hx]
          simp
        · rw [if_neg (by simp [hi])]
      · obtain ⟨g1, g2, _, g4, g5, _⟩ := getDb_dbs hk
        rw [g2] at h4
        have hkey : ∀ j, m.disk.get (makeOwner (home j).1 (home j).2, j) =
            if i = j then some ((n.disk.get (makeOwner (home j).1 (home j).2, j)).getD []) else n.disk.get (makeOwner (home j).1 (home j).2, j) := by
          intro j
          rw [h4]
          by_cases hi : i = j
          · subst hi
            rw [hh]
            dsimp only
            rw [if_pos rfl]
            cases hd : n.disk.get (makeOwner t d, i) with
            | some x => dsimp only; rw [hd]; rfl
            | none => dsimp only; rw [AMap.get_set, if_pos rfl]; rfl
          · rw [if_neg hi]
            cases hd : n.disk.get (makeOwner t d, i) with
            | some x => rfl
            | none =>
              dsimp only
              rw [AMap.get_set, if_neg]
              simp only [Prod.mk.injEq, not_and]
              exact fun _ e => hi e.symm
        refine ⟨⟨?_, ?_, ?_⟩, ?_⟩
        · intro j v hv
          rw [h3, AMap.get_set, g1] at hv
          by_cases hj : j = i
          · rw [if_pos hj] at hv
            cases hv
            rw [hj, hh]
          · rw [if_neg hj] at hv
            exact h.owner j v hv
        · intro j v hv
          rw [h3, AMap.get_set, g1] at hv
          rw [h1]
          by_cases hj : j = i
          · rw [if_pos hj] at hv
            cases hv
            exact g4
          · rw [if_neg hj] at hv
            have := h.db j v hv
            rw [g5 _ this]
            exact this
        · intro j v hv
          rw [h3, AMap.get_set, g1] at hv
          by_cases hj : j = i
          · rw [if_pos hj] at hv
            cases hv
            subst hj
            have := hkey j
            rw [hh, if_pos rfl] at this
            dsimp only at this ⊢
            rw [this]
            rfl
          · rw [if_neg hj] at hv
            have hd := h.dir j v hv
            rw [h.owner j v hv] at hd ⊢
            rw [hkey j, if_neg (fun e => hj e.symm)]
            exact hd
        · intro id
          unfold Node.stored
          rw [hkey id]
          by_cases hi : i = id <;> simp [hi]
  | write i p =>
    unfold Node.step effect
    dsimp only
    cases ho : n.write i p with
    | none => exact ⟨h, fun _ => by simp⟩
    | some m =>
      obtain ⟨v, db, cat, h1, h2, h3, rfl⟩ := write_eq ho
      rw [Option.getD_some]
      have hkey : ∀ (o : Name) (j : Nat), (n.disk.get (o, j)).isSome →
          ((n.disk.set (v.owner, i) ((n.disk.get (v.owner, i)).getD [] ++ [p])).get (o, j)).isSome := by
        intro o j hj
        rw [AMap.get_set]
        split
        · rfl
        · exact hj
      refine ⟨⟨h.owner, h.db, fun j w hw => hkey _ _ (h.dir j w hw)⟩, fun id => ?_⟩
      unfold Node.stored
      dsimp only
      have hown := h.owner i v h1
      by_cases hi : i = id
      · subst hi
        obtain ⟨x, hx⟩ := Option.isSome_iff_exists.1 (h.dir i v h1)
        rw [AMap.get_set, ← hown, if_pos rfl, hx]
        simp
      · rw [AMap.get_set, if_neg (by simp only [Prod.mk.injEq, not_and]; exact fun _ e => hi e.symm), if_neg (by simp [hi])]
  | remove i =>
    unfold Node.step effect Node.remove
    dsimp only
    cases hv : n.vnodes.get i with
    | none => exact ⟨h, fun _ => by simp⟩
    | some v =>
      dsimp only
      obtain ⟨db, hd⟩ := Option.isSome_iff_exists.1 (h.db i v hv)
      rw [hd]
      dsimp only
      have hsub : ∀ j w, (n.vnodes.del i).get j = some w → j ≠ i ∧ n.vnodes.get j = some w := by
        intro j w hw
        rw [AMap.get_del] at hw
        by_cases hj : j = i
        · rw [if_pos hj] at hw; cases hw
        · rw [if_neg hj] at hw; exact ⟨hj, hw⟩
      refine ⟨⟨fun j w hw => h.owner j w (hsub j w hw).2, fun j w hw => h.db j w (hsub j w hw).2, ?_⟩, ?_⟩
      · intro j w hw
        obtain ⟨hj, hw⟩ := hsub j w hw
        dsimp only
        rw [AMap.get_del, if_neg (by simp only [Prod.mk.injEq, not_and]; exact fun _ e => hj e)]
        exact h.dir j w hw
      · intro id
        unfold Node.stored
        dsimp only
        have hown := h.owner i v hv
        by_cases hi : i = id
        · subst hi
          rw [AMap.get_del, ← hown, if_pos rfl]
          simp
        · rw [AMap.get_del, if_neg (by simp only [Prod.mk.injEq, not_and]; exact fun _ e => hi e.symm), if_neg (by simp [hi])]

/-- What is stored for a vnode after operations. -/
def effects (n : Node) (id : Nat) (old : Option (List Point)) : List Op → Option (List Point)
  | [] => old
  | op :: ops => effects (n.step op) id (effect n id old op) ops

theorem homed_run {home : Nat → Name × Name} {n : Node} (h : Homed home n) (ops : List Op) (ha : ∀ op ∈ ops, op.At home) :
    Homed home (n.run ops) ∧ ∀ id, (n.run ops).stored home id = effects n id (n.stored home id) ops := by
  induction ops generalizing n with
  | nil => exact ⟨h, fun _ => rfl⟩
  | cons op ops ih =>
    obtain ⟨h1, h2⟩ := stored_step h op (ha op (by simp))
    obtain ⟨h3, h4⟩ := ih h1 fun o ho => ha o (by simp [ho])
    exact ⟨h3, fun id => by rw [effects, ← h2]; exact h4 id⟩

/-- C204: what is stored for a vnode is what was written to it since it was opened first or removed, through restarts, through
dropped databases and whatever happens to other vnodes; and who reads it when it is open gets that. -/
theorem C204_contents (home : Nat → Name × Name) (cat : AMap (Name × Name) Entry) (disk : AMap (Name × Nat) (List Point))
    (ops : List Op) (ha : ∀ op ∈ ops, op.At home) (id : Nat) :
    ((start cat disk).run ops).stored home id = effects (start cat disk) id ((start cat disk).stored home id) ops ∧
    ((((start cat disk).run ops).vnodes.get id).isSome →
      ((start cat disk).run ops).read id = ((start cat disk).run ops).stored home id) := by
  obtain ⟨h1, h2⟩ := homed_run (homed_start home cat disk) ops ha
  refine ⟨h2 id, ?_⟩
  intro hs
  obtain ⟨v, hv⟩ := Option.isSome_iff_exists.1 hs
  unfold Node.read Node.stored
  rw [hv]
  dsimp only [Option.bind_some]
  rw [h1.owner id v hv]

/-- C204: nothing that is stored for a vnode is lost while it is not removed. -/
theorem C204_kept (home : Nat → Name × Name) {n : Node} (h : Homed home n) (ops : List Op) (ha : ∀ op ∈ ops, op.At home) (id : Nat)
    (hr : ∀ op ∈ ops, ∀ i, op = .remove i → i ≠ id) (x : List Point) (hx : n.stored home id = some x) :
    ∃ y, (n.run ops).stored home id = some (x ++ y) := by
  rw [(homed_run h ops ha).2 id, hx]
  clear hx h ha
  induction ops generalizing n x with
  | nil => exact ⟨[], by simp [effects]⟩
  | cons op ops ih =>
    have hstep : ∃ y, effect n id (some x) op = some (x ++ y) := by
      cases op with
      | createDb t d c => exact ⟨[], by simp [effect]⟩
      | dropDb t d => exact ⟨[], by simp [effect]⟩
      | restart => exact ⟨[], by simp [effect]⟩
      | openVnode t d i => exact ⟨[], by simp [effect]⟩
      | write i p =>
        unfold effect
        dsimp only
        split
        · exact ⟨[p], by simp⟩
        · exact ⟨[], by simp⟩
      | remove i =>
        have := hr (.remove i) (by simp) i rfl
        exact ⟨[], by simp [effect, this]⟩
    obtain ⟨y, hy⟩ := hstep
    obtain ⟨z, hz⟩ := ih (n := n.step op) (fun o ho => hr o (by simp [ho])) (x ++ y)
    exact ⟨y ++ z, by rw [effects, hy, hz, List.append_assoc]⟩

/-- C204: nothing is left of a vnode that is removed, and other vnodes keep all. -/
theorem C204_removed (home : Nat → Name × Name) {n : Node} (h : Homed home n) (i : Nat) (hi : (n.vnodes.get i).isSome) :
    (n.remove i).stored home i = none ∧ (n.remove i).read i = none ∧ ∀ id, id ≠ i → (n.remove i).stored home id = n.stored home id := by
  obtain ⟨_, h2⟩ := stored_step h (.remove i) trivial
  refine ⟨?_, ?_, ?_⟩
  · have := h2 i
    simpa [effect, hi, Node.step] using this
  · obtain ⟨v, hv⟩ := Option.isSome_iff_exists.1 hi
    unfold Node.read Node.remove
    rw [hv]
    dsimp only
    rw [AMap.get_del, if_pos rfl]
    rfl
  · intro id hne
    have := h2 id
    have hne' : i ≠ id := fun e => hne e.symm
    simpa [effect, hne', Node.step] using this

/-! ## Directories -/

theorem split_slash {a b x y : Name} (ha : '/' ∉ a) (hb : '/' ∉ b) (h : a ++ '/' :: x = b ++ '/' :: y) : a = b ∧ x = y := by
  induction a generalizing b with
  | nil =>
    cases b with
    | nil => simpa using h
    | cons c b =>
      simp only [List.nil_append, List.cons_append, List.cons.injEq] at h
      simp [← h.1] at hb
  | cons c a ih =>
    cases b with
    | nil =>
      simp only [List.nil_append, List.cons_append, List.cons.injEq] at h
      simp [h.1] at ha
    | cons c' b =>
      simp only [List.cons_append, List.cons.injEq] at h
      simp only [List.mem_cons, not_or] at ha hb
      obtain ⟨h1, h2⟩ := ih ha.2 hb.2 h.2
      exact ⟨by rw [h.1, h1], h2⟩

theorem owner_slash {t d : Name} (ht : nameOk t) (hd : nameOk d) : '/' ∉ makeOwner t d := by
  simp only [nameOk, Bool.and_eq_true, Bool.not_eq_true', List.contains_iff_mem, ← Bool.not_eq_true] at ht hd
  unfold makeOwner
  simp only [List.mem_append, List.mem_cons, not_or]
  exact ⟨ht.1, by decide, hd.1⟩

/-- C204: different vnodes have different directories, and no file of one is in the directory of another. -/
theorem C204_directories (root : Name) {t d t' d' : Name} {i j : Nat} (ht : nameOk t) (hd : nameOk d) (ht' : nameOk t') (hd' : nameOk d')
    (f g : Name) (h : vnodeDir root (makeOwner t d) i ++ '/' :: f = vnodeDir root (makeOwner t' d') j ++ '/' :: g) :
    makeOwner t d = makeOwner t' d' ∧ i = j ∧ f = g := by
  unfold vnodeDir ownerDir at h
  simp only [List.append_assoc, List.append_cancel_left_eq, List.cons_append] at h
  obtain ⟨h1, h2⟩ := split_slash (owner_slash ht hd) (owner_slash ht' hd') h
  have hdig : ∀ k, '/' ∉ Raft.dec k := by
    intro k hk
    have := Raft.dec_digits k '/' hk
    exact absurd this.1 (by decide)
  obtain ⟨h3, h4⟩ := split_slash (hdig i) (hdig j) h2
  exact ⟨h1, Raft.dec_inj h3, h4⟩

/-! ## Examples -/

def ab : Name := "a.b".toList
def bc : Name := "b.c".toList
def loose : Config := ⟨false, 1⟩
def strict : Config := ⟨true, 1⟩
def cpu (v : Nat) : Point := ⟨"cpu".toList, ["usage".toList], v⟩

def exOps : List Op :=
  [.createDb "t".toList "d".toList loose, .openVnode "t".toList "d".toList 1, .openVnode "t".toList "d".toList 2, .write 1 (cpu 5),
   .write 2 (cpu 6), .restart, .openVnode "t".toList "d".toList 1, .write 1 (cpu 7), .openVnode "t".toList "d".toList 2, .remove 2]

example : ((start .empty .empty).run exOps).read 1 = some [cpu 5, cpu 7] := by decide +kernel
example : ((start .empty .empty).run exOps).stored (fun _ => ("t".toList, "d".toList)) 2 = none := by decide +kernel
example : effects (start .empty .empty) 1 none exOps = some [cpu 5, cpu 7] := by decide +kernel
example : ∀ op ∈ exOps, op.Plain := by
  intro op h
  simp only [exOps, List.mem_cons, List.not_mem_nil, or_false] at h
  rcases h with rfl | rfl | rfl | rfl | rfl | rfl | rfl | rfl | rfl | rfl <;> simp [Op.Plain]
example : splitOwner (makeOwner "t".toList bc) = ("t".toList, bc) := by decide +kernel
example : nameOk ab = true ∧ nameOk bc = true := by decide +kernel
example : vnodeDir "/var".toList "t.d".toList 12 = "/var/data/t.d/12".toList := by decide +kernel

/-- Two tenants with a database each: a table is written to the database of the second one. -/
def mixOps : List Op :=
  [.createDb "a".toList bc loose, .createDb ab "c".toList loose, .openVnode "a".toList bc 1, .openVnode ab "c".toList 2, .write 2 (cpu 5)]

/-- C202, refuted: names with dots are accepted, and then a write of one tenant makes a table in the database of another tenant, and
none in its own. -/
theorem C202_apart_refuted :
    nameOk "a".toList ∧ nameOk ab ∧ nameOk bc ∧ nameOk "c".toList ∧
    makeOwner "a".toList bc = makeOwner ab "c".toList ∧
    ((((start .empty .empty).run mixOps).cat.get ("a".toList, bc)).bind fun e => e.tables.get "cpu".toList) = some ["usage".toList] ∧
    ((((start .empty .empty).run mixOps).cat.get (ab, "c".toList)).bind fun e => e.tables.get "cpu".toList) = none ∧
    ((start .empty .empty).run mixOps).read 2 = some [cpu 5] := by
  decide +kernel

/-- C202, refuted: the owner of a tenant with a dot in its name is taken apart wrongly. -/
theorem C202_split_refuted : splitOwner (makeOwner ab "c".toList) = ("a".toList, bc) := by decide +kernel

/-- A database that is dropped and made again with `strict_write`. -/
def againOps (first second : Config) : List Op :=
  [.createDb "t".toList "d".toList first, .openVnode "t".toList "d".toList 1, .dropDb "t".toList "d".toList, .remove 1,
   .createDb "t".toList "d".toList second, .openVnode "t".toList "d".toList 2]

/-- C203, refuted: a database that is made again after it was dropped has the settings of the old one until the node is started
again: a table is made in spite of `strict_write`, or a write is refused without it. -/
theorem C203_settings_refuted :
    (((start .empty .empty).run (againOps loose strict)).cat.get ("t".toList, "d".toList)).map (·.config) = some strict ∧
    (((start .empty .empty).run (againOps loose strict)).write 2 (cpu 1)).isSome = true ∧
    (((start .empty .empty).run (againOps strict loose)).cat.get ("t".toList, "d".toList)).map (·.config) = some loose ∧
    (((start .empty .empty).run (againOps strict loose)).write 2 (cpu 1)).isSome = false ∧
    (((start .empty .empty).run (againOps strict loose ++ [.restart, .openVnode "t".toList "d".toList 2])).write 2 (cpu 1)).isSome = true := by
  decide +kernel

end Verif.Home
