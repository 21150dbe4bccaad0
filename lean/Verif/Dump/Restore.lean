import Verif.Dump.Steps

/-!
# Restoring a dump in a new cluster
-/

namespace Verif.Dump

/-! ### Sections of a dump -/

/-- Everything in the first store is in the second. -/
def Within (m m' : Meta) : Prop := ∀ k v, m k = some v → m' k = some v

theorem Within.isSome {m m' : Meta} (h : Within m m') {k : Key} (hk : (m k).isSome = true) : (m' k).isSome = true := by
  cases hm : m k with
  | none => rw [hm] at hk; cases hk
  | some v => rw [h k v hm]; rfl

theorem Within.deps {m m' : Meta} (h : Within m m') {o : Obj} {s : Text} (hd : o.Deps s m) : o.Deps s m' := by
  cases o with
  | tenant _ _ => trivial
  | user _ _ _ => trivial
  | db t n d => exact ⟨hd.1, h.isSome hd.2⟩
  | role t n i ps => exact ⟨hd.1, h.isSome hd.2.1, fun p hp => h.isSome (hd.2.2 p hp)⟩
  | member t u r => exact ⟨h.isSome hd.1, h.isSome hd.2.1, hd.2.2.imp (fun x => h.isSome x) id⟩
  | table e t d n cols =>
    obtain ⟨h1, c, hc, hr⟩ := hd
    exact ⟨h1, c, h _ _ hc, hr⟩

theorem within_put {o : Obj} {m : Meta} (h : o.Fresh m) : Within m (put o.key o.val m) := by
  intro k v hk
  by_cases e : k = o.key
  · subst e
    rcases h with h | h
    · rw [h] at hk; cases hk
    · rw [put_get, ← h.2, hk]
  · rw [put_ne e, hk]

theorem fresh_put {o x : Obj} {m : Meta} (h : o.Fresh m) (hn : o.key ≠ x.key) : o.Fresh (put x.key x.val m) := by
  rw [Obj.Fresh, put_ne hn]
  exact h

/-- Objects of one section: none needs another. -/
theorem good_section {env : Env} {s : Text} : ∀ (l : List Obj) {m : Meta}, (∀ o ∈ l, o.Static env) → (∀ o ∈ l, o.Deps s m) →
    (∀ o ∈ l, o.Fresh m) → (l.map Obj.key).Nodup → Good env (l.map .obj) s m := by
  intro l
  induction l with
  | nil => exact fun _ _ _ _ => trivial
  | cons o l ih =>
    intro m h1 h2 h3 h4
    rw [List.map_cons, List.nodup_cons] at h4
    have hw := within_put (h3 o List.mem_cons_self)
    refine ⟨h1 o List.mem_cons_self, h2 o List.mem_cons_self, h3 o List.mem_cons_self, ih (fun x hx => h1 x (List.mem_cons_of_mem _ hx))
      (fun x hx => hw.deps (h2 x (List.mem_cons_of_mem _ hx))) (fun x hx => fresh_put (h3 x (List.mem_cons_of_mem _ hx)) ?_) h4.2⟩
    intro e
    exact h4.1 (List.mem_map.2 ⟨x, hx, e⟩)

theorem within_puts : ∀ (l : List Obj) {m : Meta}, (∀ o ∈ l, o.Fresh m) → (l.map Obj.key).Nodup → Within m (puts l m) := by
  intro l
  induction l with
  | nil => exact fun _ _ _ _ h => h
  | cons o l ih =>
    intro m h3 h4 k v hk
    rw [List.map_cons, List.nodup_cons] at h4
    rw [puts, List.foldl_cons]
    refine ih (fun x hx => fresh_put (h3 x (List.mem_cons_of_mem _ hx)) ?_) h4.2 k v (within_put (h3 o List.mem_cons_self) k v hk)
    intro e
    exact h4.1 (List.mem_map.2 ⟨x, hx, e⟩)

theorem puts_append (a b : List Obj) (m : Meta) : puts (a ++ b) m = puts b (puts a m) := by
  rw [puts, List.foldl_append]; rfl

theorem obj_nl {env : Env} {o : Obj} (h : o.Static env) : ∀ i ∈ o.items env, '\n' ∉ i.text := by
  cases o with
  | tenant n o =>
    intro i hi
    rw [List.mem_singleton.1 hi]
    exact (printed_tenant h.1 true h.2).nl
  | user e n o =>
    intro i hi
    rw [List.mem_singleton.1 hi]
    exact (printed_user h.1 e h.2).nl
  | db t n d =>
    intro i hi
    rw [List.mem_singleton.1 hi]
    exact (printed_db h.1 env true h.2.1 h.2.2.1 h.2.2.2.1).nl
  | role t n i ps =>
    intro x hx
    rcases List.mem_cons.1 hx with rfl | hx
    · exact (printed_role h.1 i).nl
    · obtain ⟨p, hp, rfl⟩ := List.mem_map.1 hx
      exact (printed_grant h.1 (h.2.2.2 p hp)).nl
  | member t u r =>
    intro i hi
    rw [List.mem_singleton.1 hi]
    exact (printed_member h.1 h.2.1 h.2.2).nl
  | table e t d n cols =>
    obtain ⟨h1, h2, h3, _, p, fs, tags, h5, h6⟩ := h
    intro i hi
    rw [List.mem_singleton.1 hi]
    exact (printed_table h1 h2 h3 e h5 h6).nl

/-! ### Clusters -/

/-- What a new cluster has (`MetaInit`, meta/src/service/init.rs:37-84, service/single.rs:32-60): the system tenant with some databases
and the administrator. -/
structure Init where
  tenant : TenantOpts
  root : UserOpts
  dbs : List (Text × Db)

/-- The entry of a name in a list. -/
def lookup {α : Type} (l : List (Text × α)) (n : Text) : Option α := (l.find? fun x => decide (x.1 = n)).map (·.2)

/-- The store of a new cluster. -/
def Init.store (i : Init) : Meta
  | .tenant n => if n = cnosdb then some (.tenant i.tenant) else none
  | .user n => if n = rootName then some (.user i.root) else none
  | .db t n => if t = cnosdb then (lookup i.dbs n).map .db else none
  | _ => none

/-- The tenant of a name. -/
def Source.tenant (s : Source) (n : Text) : Option Tenant := s.tenants.find? fun t => decide (t.name = n)

/-- The store of a cluster. -/
def Source.store (s : Source) : Meta
  | .tenant n => (s.tenant n).map fun t => .tenant t.opts
  | .user n => (lookup s.users n).map .user
  | .db t n => (s.tenant t).bind fun t => (lookup t.dbs n).map fun d => .db d.1
  | .role t n => (s.tenant t).bind fun t => (lookup t.roles n).map fun r => .role r.1 (privOf r.2)
  | .member t u => (s.tenant t).bind fun t => (lookup t.members u).map .member
  | .table t d n => (s.tenant t).bind fun t => (lookup t.dbs d).bind fun x => (lookup x.2 n).map .table

/-- A table that can be printed and made again in a database of precision `p`. -/
structure TableFine (p : Prec) (d : Text) (x : Table) : Prop where
  name : nameOk (d ++ '.' :: x.1) = true
  quote : '"' ∉ x.1
  nl : '\n' ∉ x.1
  distinct : distinct (x.2.map Col.name) = true
  cols : ∃ fs tags, TableOk x.2 p fs tags ∧ ColsFine fs tags

/-- A tenant whose objects can be printed and made again: what its roles and members refer to is there. -/
structure TenantFine (env : Env) (us : List (Text × UserOpts)) (t : Tenant) : Prop where
  name : NameFine t.name
  trimmed : Trimmed t.name
  opts : t.name ≠ cnosdb → t.opts.Fine
  dbNames : (t.dbs.map (·.1)).Nodup
  db : ∀ d ∈ t.dbs, NameFine d.1 ∧ d.2.1.Fits ∧ SizeOk env d.2.1.maxMem ∧ SizeOk env d.2.1.walMax ∧ d.2.1.replica ≤ env.nodes
  tableNames : ∀ d ∈ t.dbs, (d.2.2.map (·.1)).Nodup
  table : ∀ d ∈ t.dbs, ∀ x ∈ d.2.2, TableFine d.2.1.prec d.1 x
  roleNames : (t.roles.map (·.1)).Nodup
  role : ∀ r ∈ t.roles, NameFine r.1 ∧ Sys.parse r.1 = none ∧ (r.2.2.map (·.1)).Nodup
  privs : ∀ r ∈ t.roles, ∀ p ∈ r.2.2, p.1 ∈ t.dbs.map (·.1)
  memberNames : (t.members.map (·.1)).Nodup
  member : ∀ m ∈ t.members, NameFine m.1 ∧ NameFine m.2 ∧ m.1 ∈ us.map (·.1) ∧ (m.2 ∈ t.roles.map (·.1) ∨ (Sys.parse m.2).isSome = true)
  noRoot : ∀ m ∈ t.members, ¬(same m.1 rootName = true ∧ same t.name cnosdb = true)

/-- A cluster that can be printed and made again. -/
structure Source.Fine (env : Env) (i : Init) (s : Source) : Prop where
  tenantNames : (s.tenants.map Tenant.name).Nodup
  userNames : (s.users.map (·.1)).Nodup
  user : ∀ u ∈ s.users, NameFine u.1 ∧ (u.1 ≠ rootName → u.2.Fine)
  tenant : ∀ t ∈ s.tenants, TenantFine env s.users t
  /-- The objects of a new cluster are there and unchanged. -/
  root : (rootName, i.root) ∈ s.users
  system : ∃ t ∈ s.tenants, t.name = cnosdb ∧ t.opts = i.tenant ∧ ∀ n d, lookup i.dbs n = some d → ∃ ts, (n, d, ts) ∈ t.dbs
  initPublic : publicDb ∈ i.dbs.map (·.1)
  /-- No other name is theirs in other letters. -/
  cases : ∀ t ∈ s.tenants, same t.name cnosdb = true → t.name = cnosdb
  userCases : ∀ u ∈ s.users, same u.1 rootName = true → u.1 = rootName
  dbCases : ∀ t ∈ s.tenants, t.name = cnosdb → ∀ d ∈ t.dbs, same d.1 publicDb = true → d.1 = publicDb

/-! ### The objects of a dump -/

def tenantObjs (s : Source) : List Obj := (s.tenants.filter fun t => !same t.name cnosdb).map fun t => .tenant t.name t.opts
def userObjs (s : Source) : List Obj := (s.users.filter fun u => !same u.1 rootName).map fun u => .user false u.1 u.2
def dbObjs (t : Tenant) : List Obj := (t.dbs.filter fun d => !(same t.name cnosdb && same d.1 publicDb)).map fun d => .db t.name d.1 d.2.1
def roleObjs (t : Tenant) : List Obj := t.roles.map fun r => .role t.name r.1 r.2.1 r.2.2
def memberObjs (us : List (Text × UserOpts)) (t : Tenant) : List Obj :=
  ((t.members.filter fun m => us.any fun u => u.1 = m.1).filter fun m => !(same m.1 rootName && same t.name cnosdb)).map fun m =>
    .member t.name m.1 m.2
def tableObjs (t : Tenant) : List Obj := t.dbs.flatMap fun d => d.2.2.map fun x => .table (same d.1 usage) t.name d.1 x.1 x.2

/-- The objects in the part of a tenant. -/
def partObjs (us : List (Text × UserOpts)) (t : Tenant) : List Obj := dbObjs t ++ roleObjs t ++ memberObjs us t ++ tableObjs t

def part (us : List (Text × UserOpts)) (t : Tenant) : List Step :=
  [.note ("Dump Tenant ".toList ++ t.name ++ " Object".toList), .change t.name] ++ (partObjs us t).map .obj

def steps (s : Source) : List Step :=
  .note "Dump Global Object".toList :: ((tenantObjs s ++ userObjs s).map .obj ++ s.tenants.flatMap (part s.users))

theorem items_map (env : Env) {α : Type} (l : List α) (f : α → Obj) (g : α → List Item) (h : ∀ a, (f a).items env = g a) :
    ((l.map f).map Step.obj).flatMap (Step.items env) = l.flatMap g := by
  induction l with
  | nil => rfl
  | cons a l ih => rw [List.map_cons, List.map_cons, List.flatMap_cons, List.flatMap_cons, ih, Step.items, h]

theorem flatMap_single {α β : Type} (l : List α) (f : α → β) : (l.flatMap fun a => [f a]) = l.map f := by
  induction l with
  | nil => rfl
  | cons a l ih => rw [List.flatMap_cons, List.map_cons, ih]; rfl

theorem tableObjs_items (env : Env) (n : Text) : ∀ dbs : List (Text × Db × List Table),
    ((dbs.flatMap fun d => d.2.2.map fun x => Obj.table (same d.1 usage) n d.1 x.1 x.2).map Step.obj).flatMap (Step.items env) =
      dbs.flatMap dumpTables
  | [] => rfl
  | d :: r => by
    rw [List.flatMap_cons, List.map_append, List.flatMap_append, tableObjs_items env n r, List.flatMap_cons,
      items_map env d.2.2 _ (fun x => [.stmt (tableSql (same d.1 usage) d.1 x.1 x.2)]) (fun _ => rfl), flatMap_single]
    rfl

theorem part_items (env : Env) (us : List (Text × UserOpts)) (t : Tenant) : (part us t).flatMap (Step.items env) = dumpTenant env us t := by
  rw [part, partObjs, List.flatMap_append, List.map_append, List.map_append, List.map_append, List.flatMap_append, List.flatMap_append,
    List.flatMap_append, dbObjs, roleObjs, memberObjs, tableObjs, tableObjs_items,
    items_map env _ _ (fun d => [.stmt (dbSql env true d.1 d.2.1)]) (fun _ => rfl),
    items_map env _ _ dumpRole (fun _ => rfl), items_map env _ _ (fun m => [.stmt (memberSql t.name m.1 m.2)]) (fun _ => rfl),
    flatMap_single, flatMap_single, dumpTenant, dumpDbs, dumpMembers]
  simp only [List.append_assoc]
  rfl

theorem parts_items (env : Env) (us : List (Text × UserOpts)) : ∀ ts : List Tenant,
    (ts.flatMap (part us)).flatMap (Step.items env) = ts.flatMap (dumpTenant env us)
  | [] => rfl
  | t :: ts => by rw [List.flatMap_cons, List.flatMap_append, part_items, parts_items env us ts, List.flatMap_cons]

theorem filter_true {α : Type} (l : List α) : (l.filter fun _ => true) = l := by
  induction l with
  | nil => rfl
  | cons a l ih => rw [List.filter_cons, if_pos rfl, ih]

theorem dump_steps (env : Env) (s : Source) : dump env none s = (steps s).flatMap (Step.items env) := by
  rw [steps, List.flatMap_cons, List.flatMap_append, parts_items, List.map_append, List.flatMap_append, tenantObjs, userObjs,
    items_map env _ _ (fun t => [.stmt (tenantSql true t.name t.opts)]) (fun _ => rfl),
    items_map env _ _ (fun u => [.stmt (userSql false u.1 u.2)]) (fun _ => rfl), flatMap_single, flatMap_single, dump]
  simp only [filter_true, List.cons_append, List.append_assoc]
  rfl

/-! ### Every step meets what it needs -/

theorem same_ne {n : Text} : (!same n n) = false := by simp [same]

theorem same_iff {a b : Text} (h : same a b = true → a = b) : (!same a b) = true ↔ a ≠ b := by
  constructor
  · intro h1 e
    rw [e, same_ne] at h1
    cases h1
  · intro h1
    cases hs : same a b with
    | false => rfl
    | true => exact absurd (h hs) h1

theorem nodup_map {α β : Type} {f : α → β} : ∀ {l : List α}, (∀ x ∈ l, ∀ y ∈ l, f x = f y → x = y) → l.Nodup → (l.map f).Nodup
  | [], _, _ => List.nodup_nil
  | a :: l, hf, h => by
    rw [List.nodup_cons] at h
    rw [List.map_cons, List.nodup_cons]
    refine ⟨?_, nodup_map (fun x hx y hy => hf x (List.mem_cons_of_mem _ hx) y (List.mem_cons_of_mem _ hy)) h.2⟩
    intro hm
    obtain ⟨x, hx, e⟩ := List.mem_map.1 hm
    exact h.1 (hf x (List.mem_cons_of_mem _ hx) a List.mem_cons_self e ▸ hx)

/-- Keys are different if names are. -/
theorem nodup_keys {α : Type} {f : α → Key} {g : α → Text} (hf : ∀ x y, f x = f y → g x = g y) : ∀ {l : List α}, (l.map g).Nodup →
    (l.map f).Nodup
  | [], _ => List.nodup_nil
  | a :: l, h => by
    rw [List.map_cons, List.nodup_cons] at h ⊢
    refine ⟨?_, nodup_keys hf h.2⟩
    intro hm
    obtain ⟨x, hx, e⟩ := List.mem_map.1 hm
    exact h.1 (List.mem_map.2 ⟨x, hx, hf x a e⟩)

theorem nodup_filter {α β : Type} {g : α → β} (p : α → Bool) : ∀ {l : List α}, (l.map g).Nodup → ((l.filter p).map g).Nodup
  | [], _ => List.nodup_nil
  | a :: l, h => by
    rw [List.map_cons, List.nodup_cons] at h
    rw [List.filter_cons]
    split
    · rw [List.map_cons, List.nodup_cons]
      refine ⟨?_, nodup_filter p h.2⟩
      intro hm
      obtain ⟨x, hx, e⟩ := List.mem_map.1 hm
      exact h.1 (List.mem_map.2 ⟨x, (List.mem_filter.1 hx).1, e⟩)
    · exact nodup_filter p h.2

theorem nodup_append {α : Type} : ∀ {a b : List α}, a.Nodup → b.Nodup → (∀ x ∈ a, x ∉ b) → (a ++ b).Nodup
  | [], _, _, hb, _ => hb
  | x :: a, b, ha, hb, h => by
    rw [List.nodup_cons] at ha
    rw [List.cons_append, List.nodup_cons]
    refine ⟨?_, nodup_append ha.2 hb fun y hy => h y (List.mem_cons_of_mem _ hy)⟩
    intro hm
    rcases List.mem_append.1 hm with hm | hm
    · exact ha.1 hm
    · exact h x List.mem_cons_self hm

theorem eq_of_name {α : Type} {g : α → Text} : ∀ {l : List α}, (l.map g).Nodup → ∀ {x y : α}, x ∈ l → y ∈ l → g x = g y → x = y
  | [], _, _, _, hx, _, _ => by cases hx
  | a :: l, h, x, y, hx, hy, e => by
    rw [List.map_cons, List.nodup_cons] at h
    rcases List.mem_cons.1 hx with h1 | h1
    · rcases List.mem_cons.1 hy with h2 | h2
      · rw [h1, h2]
      · rw [h1] at e
        exact absurd (List.mem_map.2 ⟨y, h2, e.symm⟩) h.1
    · rcases List.mem_cons.1 hy with h2 | h2
      · rw [h2] at e
        exact absurd (List.mem_map.2 ⟨x, h1, e⟩) h.1
      · exact eq_of_name h.2 h1 h2 e

theorem find_name {α : Type} {g : α → Text} {l : List α} (h : (l.map g).Nodup) {x : α} (hx : x ∈ l) :
    (l.find? fun y => decide (g y = g x)) = some x := by
  cases hf : l.find? fun y => decide (g y = g x) with
  | none =>
    have := List.find?_eq_none.1 hf x hx
    simp at this
  | some y =>
    have h1 := List.mem_of_find?_eq_some hf
    have h2 := List.find?_some hf
    rw [eq_of_name h h1 hx (by simpa using h2)]

theorem lookup_mem {α : Type} {l : List (Text × α)} (h : (l.map (·.1)).Nodup) {x : Text × α} (hx : x ∈ l) : lookup l x.1 = some x.2 := by
  rw [lookup, find_name (g := (·.1)) h hx]; rfl

theorem mem_lookup {α : Type} {l : List (Text × α)} {n : Text} {a : α} (h : lookup l n = some a) : (n, a) ∈ l := by
  rw [lookup, Option.map_eq_some_iff] at h
  obtain ⟨x, hx, rfl⟩ := h
  have h1 := List.mem_of_find?_eq_some hx
  have h2 : x.1 = n := by simpa using List.find?_some hx
  rw [← h2]
  exact h1

/-- The tenant a key belongs to. -/
def Key.owner : Key → Option Text
  | .tenant _ => none
  | .user _ => none
  | .db t _ => some t
  | .role t _ => some t
  | .member t _ => some t
  | .table t _ _ => some t

theorem mem_partObjs {us : List (Text × UserOpts)} {t : Tenant} {o : Obj} (h : o ∈ partObjs us t) :
    o ∈ dbObjs t ∨ o ∈ roleObjs t ∨ o ∈ memberObjs us t ∨ o ∈ tableObjs t := by
  simp only [partObjs, List.mem_append] at h
  rcases h with ((h | h) | h) | h
  · exact .inl h
  · exact .inr (.inl h)
  · exact .inr (.inr (.inl h))
  · exact .inr (.inr (.inr h))

theorem mem_dbObjs {t : Tenant} {o : Obj} (h : o ∈ dbObjs t) : ∃ d ∈ t.dbs, ¬(same t.name cnosdb = true ∧ same d.1 publicDb = true) ∧
    o = .db t.name d.1 d.2.1 := by
  obtain ⟨d, hd, rfl⟩ := List.mem_map.1 h
  rw [List.mem_filter] at hd
  refine ⟨d, hd.1, ?_, rfl⟩
  rintro ⟨h1, h2⟩
  rw [h1, h2] at hd
  exact absurd hd.2 (by decide)

theorem mem_roleObjs {t : Tenant} {o : Obj} (h : o ∈ roleObjs t) : ∃ r ∈ t.roles, o = .role t.name r.1 r.2.1 r.2.2 := by
  obtain ⟨d, hd, rfl⟩ := List.mem_map.1 h
  exact ⟨d, hd, rfl⟩

theorem mem_memberObjs {us : List (Text × UserOpts)} {t : Tenant} {o : Obj} (h : o ∈ memberObjs us t) :
    ∃ m ∈ t.members, o = .member t.name m.1 m.2 := by
  obtain ⟨d, hd, rfl⟩ := List.mem_map.1 h
  exact ⟨d, (List.mem_filter.1 (List.mem_filter.1 hd).1).1, rfl⟩

theorem mem_tableObjs {t : Tenant} {o : Obj} (h : o ∈ tableObjs t) :
    ∃ d ∈ t.dbs, ∃ x ∈ d.2.2, o = .table (same d.1 usage) t.name d.1 x.1 x.2 := by
  obtain ⟨d, hd, h⟩ := List.mem_flatMap.1 h
  obtain ⟨x, hx, rfl⟩ := List.mem_map.1 h
  exact ⟨d, hd, x, hx, rfl⟩

theorem part_owner {us : List (Text × UserOpts)} {t : Tenant} {o : Obj} (h : o ∈ partObjs us t) : o.key.owner = some t.name := by
  rcases mem_partObjs h with h | h | h | h
  · obtain ⟨_, _, _, rfl⟩ := mem_dbObjs h; rfl
  · obtain ⟨_, _, rfl⟩ := mem_roleObjs h; rfl
  · obtain ⟨_, _, rfl⟩ := mem_memberObjs h; rfl
  · obtain ⟨_, _, _, _, rfl⟩ := mem_tableObjs h; rfl

section
variable {env : Env} {i : Init} {s : Source}

theorem Source.Fine.part_static (h : s.Fine env i) {t : Tenant} (ht : t ∈ s.tenants) : ∀ o ∈ partObjs s.users t, o.Static env := by
  have hf := h.tenant t ht
  intro o ho
  rcases mem_partObjs ho with ho | ho | ho | ho
  · obtain ⟨d, hd, _, rfl⟩ := mem_dbObjs ho
    exact hf.db d hd
  · obtain ⟨r, hr, rfl⟩ := mem_roleObjs ho
    obtain ⟨h1, h2, h3⟩ := hf.role r hr
    refine ⟨h1, h2, h3, fun p hp => ?_⟩
    obtain ⟨d, hd, e⟩ := List.mem_map.1 (hf.privs r hr p hp)
    rw [← e]
    exact (hf.db d hd).1
  · obtain ⟨m, hm, rfl⟩ := mem_memberObjs ho
    exact ⟨hf.name, (hf.member m hm).1, (hf.member m hm).2.1⟩
  · obtain ⟨d, hd, x, hx, rfl⟩ := mem_tableObjs ho
    have hx := hf.table d hd x hx
    obtain ⟨fs, tags, h1, h2⟩ := hx.cols
    exact ⟨hx.name, (hf.db d hd).1.piece, fine_ident hx.quote hx.nl, hx.distinct, _, fs, tags, h1, h2⟩

/-- An object of the system tenant that is not printed is there from the start. -/
theorem Source.Fine.public (h : s.Fine env i) {t : Tenant} (ht : t ∈ s.tenants) {d : Text × Db × List Table} (hd : d ∈ t.dbs)
    (hp : same t.name cnosdb = true ∧ same d.1 publicDb = true) : i.store (.db t.name d.1) = some (.db d.2.1) := by
  have h1 := h.cases t ht hp.1
  have h2 := h.dbCases t ht h1 d hd hp.2
  obtain ⟨t', ht', hn, _, hdb⟩ := h.system
  have e : t' = t := eq_of_name h.tenantNames ht' ht (hn.trans h1.symm)
  subst e
  obtain ⟨x, hx, hx2⟩ := List.mem_map.1 h.initPublic
  cases hl : lookup i.dbs publicDb with
  | none =>
    rw [lookup, Option.map_eq_none_iff] at hl
    exact absurd (List.find?_eq_none.1 hl x hx) (by simp [hx2])
  | some y =>
    obtain ⟨ts, hm⟩ := hdb _ _ hl
    have := eq_of_name (h.tenant t' ht').dbNames hm hd h2.symm
    rw [← this]
    simp only [Init.store]
    rw [if_pos h1, hl]
    rfl

theorem Source.Fine.init_db (h : s.Fine env i) {t : Tenant} (ht : t ∈ s.tenants) {d : Text × Db × List Table} (hd : d ∈ t.dbs) :
    i.store (.db t.name d.1) = none ∨ i.store (.db t.name d.1) = some (.db d.2.1) := by
  simp only [Init.store]
  by_cases h1 : t.name = cnosdb
  · rw [if_pos h1]
    cases hl : lookup i.dbs d.1 with
    | none => exact .inl rfl
    | some y =>
      obtain ⟨t', ht', hn, _, hdb⟩ := h.system
      have e : t' = t := eq_of_name h.tenantNames ht' ht (hn.trans h1.symm)
      subst e
      obtain ⟨ts, hm⟩ := hdb _ _ hl
      have := eq_of_name (h.tenant t' ht').dbNames hm hd rfl
      rw [← this]
      exact .inr rfl
  · rw [if_neg h1]; exact .inl rfl

/-- What holds when the part of a tenant begins. -/
structure Before (i : Init) (s : Source) (t : Tenant) (m : Meta) : Prop where
  tenant : (m (.tenant t.name)).isSome = true
  user : ∀ u ∈ s.users, (m (.user u.1)).isSome = true
  own : ∀ k : Key, k.owner = some t.name → m k = i.store k

theorem good_part (h : s.Fine env i) {t : Tenant} (ht : t ∈ s.tenants) {m : Meta} (hb : Before i s t m) (x : Text) :
    Good env (part s.users t) x m := by
  have hf := h.tenant t ht
  have hst := h.part_static ht
  have hall : ∀ {o : Obj}, o ∈ dbObjs t ∨ o ∈ roleObjs t ∨ o ∈ memberObjs s.users t ∨ o ∈ tableObjs t → o.Static env := by
    intro o ho
    apply hst
    simp only [partObjs, List.mem_append]
    rcases ho with ho | ho | ho | ho
    · exact .inl (.inl (.inl ho))
    · exact .inl (.inl (.inr ho))
    · exact .inl (.inr ho)
    · exact .inr ho
  -- databases
  have dn : ((dbObjs t).map Obj.key).Nodup := by
    rw [dbObjs, List.map_map]
    exact nodup_keys (g := fun d : Text × Db × List Table => d.1) (fun x y e => by simpa [Obj.key] using e) (nodup_filter _ hf.dbNames)
  have df : ∀ o ∈ dbObjs t, o.Fresh m := by
    intro o ho
    obtain ⟨d, hd, _, rfl⟩ := mem_dbObjs ho
    rw [Obj.Fresh, hb.own _ rfl]
    rcases h.init_db ht hd with h1 | h1
    · exact .inl h1
    · exact .inr ⟨rfl, h1⟩
  have dd : ∀ o ∈ dbObjs t, o.Deps t.name m := by
    intro o ho
    obtain ⟨d, hd, _, rfl⟩ := mem_dbObjs ho
    exact ⟨rfl, hb.tenant⟩
  have g1 := good_section (dbObjs t) (fun o ho => hall (.inl ho)) dd df dn
  have w1 := within_puts (dbObjs t) df dn
  have hdbs : ∀ d ∈ t.dbs, puts (dbObjs t) m (.db t.name d.1) = some (.db d.2.1) := by
    intro d hd
    by_cases hp : same t.name cnosdb = true ∧ same d.1 publicDb = true
    · exact w1 _ _ ((hb.own _ rfl).trans (h.public ht hd hp))
    · have hm : Obj.db t.name d.1 d.2.1 ∈ dbObjs t := by
        refine List.mem_map.2 ⟨d, List.mem_filter.2 ⟨hd, ?_⟩, rfl⟩
        cases h1 : same t.name cnosdb with
        | false => rfl
        | true => cases h2 : same d.1 publicDb with
          | false => rfl
          | true => exact absurd ⟨h1, h2⟩ hp
      refine puts_mem hm (fun x hx e => ?_) m
      obtain ⟨d', hd', _, rfl⟩ := mem_dbObjs hx
      have : d' = d := eq_of_name hf.dbNames hd' hd (by simpa [Obj.key] using e)
      rw [this]
  -- roles
  have n1 : ∀ {k : Key}, k.owner = some t.name → (∀ n, k ≠ .db t.name n) → puts (dbObjs t) m k = i.store k := by
    intro k hk hne
    rw [puts_not _ m, hb.own k hk]
    intro o ho e
    obtain ⟨d, hd, _, rfl⟩ := mem_dbObjs ho
    exact hne _ e.symm
  have rn : ((roleObjs t).map Obj.key).Nodup := by
    rw [roleObjs, List.map_map]
    exact nodup_keys (g := fun d : Text × Option Sys × List (Text × Priv) => d.1) (fun x y e => by simpa [Obj.key] using e) hf.roleNames
  have rf : ∀ o ∈ roleObjs t, o.Fresh (puts (dbObjs t) m) := by
    intro o ho
    obtain ⟨r, hr, rfl⟩ := mem_roleObjs ho
    exact .inl (n1 rfl (by simp [Obj.key]))
  have rd : ∀ o ∈ roleObjs t, o.Deps t.name (puts (dbObjs t) m) := by
    intro o ho
    obtain ⟨r, hr, rfl⟩ := mem_roleObjs ho
    refine ⟨rfl, w1.isSome hb.tenant, fun p hp => ?_⟩
    obtain ⟨d, hd, e⟩ := List.mem_map.1 (hf.privs r hr p hp)
    rw [← e, hdbs d hd]
    rfl
  have g2 := good_section (roleObjs t) (fun o ho => hall (.inr (.inl ho))) rd rf rn
  have w2 := within_puts (roleObjs t) rf rn
  -- members
  have mn : ((memberObjs s.users t).map Obj.key).Nodup := by
    rw [memberObjs, List.map_map]
    exact nodup_keys (g := fun d : Text × Text => d.1) (fun x y e => by simpa [Obj.key] using e)
      (nodup_filter _ (nodup_filter _ hf.memberNames))
  have n2 : ∀ {k : Key}, k.owner = some t.name → (∀ n, k ≠ .db t.name n) → (∀ n, k ≠ .role t.name n) →
      puts (roleObjs t) (puts (dbObjs t) m) k = i.store k := by
    intro k hk hne hne2
    rw [puts_not _ _, n1 hk hne]
    intro o ho e
    obtain ⟨d, hd, rfl⟩ := mem_roleObjs ho
    exact hne2 _ e.symm
  have mf : ∀ o ∈ memberObjs s.users t, o.Fresh (puts (roleObjs t) (puts (dbObjs t) m)) := by
    intro o ho
    obtain ⟨r, hr, rfl⟩ := mem_memberObjs ho
    exact .inl (n2 rfl (by simp [Obj.key]) (by simp [Obj.key]))
  have md : ∀ o ∈ memberObjs s.users t, o.Deps t.name (puts (roleObjs t) (puts (dbObjs t) m)) := by
    intro o ho
    obtain ⟨x, hx, rfl⟩ := mem_memberObjs ho
    obtain ⟨_, _, h3, h4⟩ := hf.member x hx
    refine ⟨w2.isSome (w1.isSome hb.tenant), w2.isSome (w1.isSome ?_), h4.imp_left ?_⟩
    · obtain ⟨u, hu, e⟩ := List.mem_map.1 h3
      rw [← e]
      exact hb.user u hu
    · intro hr
      obtain ⟨r, hr, e⟩ := List.mem_map.1 hr
      have hm : Obj.role t.name r.1 r.2.1 r.2.2 ∈ roleObjs t := List.mem_map.2 ⟨r, hr, rfl⟩
      have := puts_mem hm (fun y hy e => by
        obtain ⟨r', hr', rfl⟩ := mem_roleObjs hy
        have : r' = r := eq_of_name hf.roleNames hr' hr (by simpa [Obj.key] using e)
        rw [this]) (puts (dbObjs t) m)
      rw [← e]
      simp only [Obj.key] at this
      rw [this]
      rfl
  have g3 := good_section (memberObjs s.users t) (fun o ho => hall (.inr (.inr (.inl ho)))) md mf mn
  have w3 := within_puts (memberObjs s.users t) mf mn
  -- tables
  have tn : ((tableObjs t).map Obj.key).Nodup := by
    have h1 := hf.tableNames
    have h2 := hf.dbNames
    rw [tableObjs]
    generalize t.dbs = l at h1 h2
    induction l with
    | nil => exact List.nodup_nil
    | cons d l ih =>
      rw [List.map_cons, List.nodup_cons] at h2
      rw [List.flatMap_cons, List.map_append]
      refine nodup_append ?_ (ih (fun x hx => h1 x (List.mem_cons_of_mem _ hx)) h2.2) ?_
      · rw [List.map_map]
        exact nodup_keys (g := fun d : Text × List Col => d.1) (fun x y e => by simpa [Obj.key] using e) (h1 d List.mem_cons_self)
      · intro k hk hm
        obtain ⟨o, ho, rfl⟩ := List.mem_map.1 hk
        obtain ⟨x, _, rfl⟩ := List.mem_map.1 ho
        obtain ⟨o', ho', e⟩ := List.mem_map.1 hm
        obtain ⟨d', hd', ho'⟩ := List.mem_flatMap.1 ho'
        obtain ⟨x', _, rfl⟩ := List.mem_map.1 ho'
        have e2 : d'.1 = d.1 := by simp only [Obj.key, Key.table.injEq] at e; exact e.2.1
        exact h2.1 (List.mem_map.2 ⟨d', hd', e2⟩)
  have tf : ∀ o ∈ tableObjs t, o.Fresh (puts (memberObjs s.users t) (puts (roleObjs t) (puts (dbObjs t) m))) := by
    intro o ho
    obtain ⟨d, hd, x, hx, rfl⟩ := mem_tableObjs ho
    refine .inl ?_
    rw [puts_not _ _, n2 rfl (by simp [Obj.key]) (by simp [Obj.key])]
    · rfl
    · intro o ho e
      obtain ⟨_, _, rfl⟩ := mem_memberObjs ho
      cases e
  have td : ∀ o ∈ tableObjs t, o.Deps t.name (puts (memberObjs s.users t) (puts (roleObjs t) (puts (dbObjs t) m))) := by
    intro o ho
    obtain ⟨d, hd, x, hx, rfl⟩ := mem_tableObjs ho
    refine ⟨rfl, d.2.1, w3 _ _ (w2 _ _ (hdbs d hd)), ?_⟩
    obtain ⟨fs, tags, h1, _⟩ := (hf.table d hd x hx).cols
    rw [h1.cols, planCols, List.cons_append]
    exact ⟨_, rfl⟩
  have g4 := good_section (tableObjs t) (fun o ho => hall (.inr (.inr (.inr ho)))) td tf tn
  refine ⟨hf.trimmed, ?_⟩
  show Good env ((partObjs s.users t).map .obj) t.name m
  rw [partObjs, List.map_append, List.map_append, List.map_append]
  refine good_append _ (good_append _ (good_append _ g1 ?_) ?_) ?_
  · rw [after_objs]; exact g2
  · rw [after_append, after_objs, after_objs]; exact g3
  · rw [after_append, after_append, after_objs, after_objs, after_objs]; exact g4

theorem after_part (us : List (Text × UserOpts)) (t : Tenant) (x : Text) (m : Meta) :
    after (part us t) x m = (t.name, puts (partObjs us t) m) := after_objs (partObjs us t) t.name m

theorem good_parts (h : s.Fine env i) : ∀ (ts : List Tenant), (∀ t ∈ ts, t ∈ s.tenants) → (ts.map Tenant.name).Nodup → ∀ (m : Meta) (x : Text),
    (∀ t ∈ ts, Before i s t m) → Good env (ts.flatMap (part s.users)) x m
  | [], _, _, _, _, _ => trivial
  | t :: ts, hs, hn, m, x, hb => by
    rw [List.map_cons, List.nodup_cons] at hn
    rw [List.flatMap_cons]
    refine good_append _ (good_part h (hs t List.mem_cons_self) (hb t List.mem_cons_self) x) ?_
    rw [after_part]
    show Good env _ t.name (puts (partObjs s.users t) m)
    refine good_parts h ts (fun y hy => hs y (List.mem_cons_of_mem _ hy)) hn.2 _ _ fun y hy => ?_
    have hy' := hb y (List.mem_cons_of_mem _ hy)
    have hne : ∀ k : Key, k.owner ≠ some t.name → puts (partObjs s.users t) m k = m k := by
      intro k hk
      refine puts_not (fun o ho e => ?_) m
      rw [← e] at hk
      exact hk (part_owner ho)
    refine ⟨?_, ?_, ?_⟩
    · rw [hne _ (by simp [Key.owner])]; exact hy'.tenant
    · intro u hu
      rw [hne _ (by simp [Key.owner])]; exact hy'.user u hu
    · intro k hk
      rw [hne _ ?_]
      · exact hy'.own k hk
      · rw [hk]
        intro e
        exact hn.1 (List.mem_map.2 ⟨y, hy, Option.some.inj e⟩)

theorem mem_tenantObjs {s : Source} {o : Obj} (h : o ∈ tenantObjs s) : ∃ t ∈ s.tenants, t.name ≠ cnosdb ∧ o = .tenant t.name t.opts := by
  obtain ⟨t, ht, rfl⟩ := List.mem_map.1 h
  rw [List.mem_filter] at ht
  refine ⟨t, ht.1, ?_, rfl⟩
  intro e
  rw [e, same_ne] at ht
  exact absurd ht.2 (by decide)

theorem mem_userObjs {s : Source} {o : Obj} (h : o ∈ userObjs s) : ∃ u ∈ s.users, u.1 ≠ rootName ∧ o = .user false u.1 u.2 := by
  obtain ⟨t, ht, rfl⟩ := List.mem_map.1 h
  rw [List.mem_filter] at ht
  refine ⟨t, ht.1, ?_, rfl⟩
  intro e
  rw [e, same_ne] at ht
  exact absurd ht.2 (by decide)

theorem Source.Fine.mem_tenant (h : s.Fine env i) {t : Tenant} (ht : t ∈ s.tenants) (hn : t.name ≠ cnosdb) :
    Obj.tenant t.name t.opts ∈ tenantObjs s :=
  List.mem_map.2 ⟨t, List.mem_filter.2 ⟨ht, (same_iff (h.cases t ht)).2 hn⟩, rfl⟩

theorem Source.Fine.mem_user (h : s.Fine env i) {u : Text × UserOpts} (hu : u ∈ s.users) (hn : u.1 ≠ rootName) :
    Obj.user false u.1 u.2 ∈ userObjs s :=
  List.mem_map.2 ⟨u, List.mem_filter.2 ⟨hu, (same_iff (h.userCases u hu)).2 hn⟩, rfl⟩

theorem global_static (h : s.Fine env i) : ∀ o ∈ tenantObjs s ++ userObjs s, o.Static env := by
  intro o ho
  rcases List.mem_append.1 ho with ho | ho
  · obtain ⟨t, ht, hn, rfl⟩ := mem_tenantObjs ho
    exact ⟨(h.tenant t ht).name, (h.tenant t ht).opts hn⟩
  · obtain ⟨u, hu, hn, rfl⟩ := mem_userObjs ho
    exact ⟨(h.user u hu).1, (h.user u hu).2 hn⟩

theorem global_fresh : ∀ o ∈ tenantObjs s ++ userObjs s, o.Fresh i.store := by
  intro o ho
  rcases List.mem_append.1 ho with ho | ho
  · obtain ⟨t, ht, hn, rfl⟩ := mem_tenantObjs ho
    exact .inl (if_neg hn)
  · obtain ⟨u, hu, hn, rfl⟩ := mem_userObjs ho
    exact .inl (if_neg hn)

theorem global_nodup (h : s.Fine env i) : ((tenantObjs s ++ userObjs s).map Obj.key).Nodup := by
  rw [List.map_append]
  refine nodup_append ?_ ?_ ?_
  · rw [tenantObjs, List.map_map]
    exact nodup_keys (g := Tenant.name) (fun x y e => by simpa [Obj.key] using e) (nodup_filter _ h.tenantNames)
  · rw [userObjs, List.map_map]
    exact nodup_keys (g := fun u : Text × UserOpts => u.1) (fun x y e => by simpa [Obj.key] using e) (nodup_filter _ h.userNames)
  · intro k hk hk'
    obtain ⟨o, ho, rfl⟩ := List.mem_map.1 hk
    obtain ⟨_, _, _, rfl⟩ := mem_tenantObjs ho
    obtain ⟨o', ho', e⟩ := List.mem_map.1 hk'
    obtain ⟨_, _, _, rfl⟩ := mem_userObjs ho'
    cases e

theorem good_steps (h : s.Fine env i) (x : Text) : Good env (steps s) x i.store := by
  rw [steps]
  show Good env (_ ++ _) x i.store
  refine good_append _ (good_section _ (global_static h) ?_ global_fresh (global_nodup h)) ?_
  · intro o ho
    rcases List.mem_append.1 ho with ho | ho
    · obtain ⟨_, _, _, rfl⟩ := mem_tenantObjs ho; trivial
    · obtain ⟨_, _, _, rfl⟩ := mem_userObjs ho; trivial
  rw [after_objs]
  show Good env _ x (puts (tenantObjs s ++ userObjs s) i.store)
  have hw := within_puts _ (global_fresh (i := i) (s := s)) (global_nodup h)
  refine good_parts h _ (fun _ ht => ht) h.tenantNames _ _ fun t ht => ⟨?_, ?_, ?_⟩
  · by_cases e : t.name = cnosdb
    · refine hw.isSome ?_
      simp [Init.store, e]
    · have := puts_mem (List.mem_append_left (userObjs s) (h.mem_tenant ht e)) (fun y hy e => by
        rcases List.mem_append.1 hy with hy | hy
        · obtain ⟨t', ht', _, rfl⟩ := mem_tenantObjs hy
          have : t' = t := eq_of_name h.tenantNames ht' ht (by simpa [Obj.key] using e)
          rw [this]
        · obtain ⟨_, _, _, rfl⟩ := mem_userObjs hy
          cases e) i.store
      simp only [Obj.key] at this
      rw [this]; rfl
  · intro u hu
    by_cases e : u.1 = rootName
    · refine hw.isSome ?_
      simp [Init.store, e]
    · have := puts_mem (List.mem_append_right (tenantObjs s) (h.mem_user hu e)) (fun y hy e => by
        rcases List.mem_append.1 hy with hy | hy
        · obtain ⟨_, _, _, rfl⟩ := mem_tenantObjs hy
          cases e
        · obtain ⟨t', ht', _, rfl⟩ := mem_userObjs hy
          have : t' = u := eq_of_name h.userNames ht' hu (by simpa [Obj.key] using e)
          rw [this]) i.store
      simp only [Obj.key] at this
      rw [this]; rfl
  · intro k hk
    refine puts_not (fun o ho e => ?_) _
    rw [← e] at hk
    rcases List.mem_append.1 ho with ho | ho
    · obtain ⟨_, _, _, rfl⟩ := mem_tenantObjs ho; cases hk
    · obtain ⟨_, _, _, rfl⟩ := mem_userObjs ho; cases hk

/-! ### What is there in the end -/

/-- All objects of a dump. -/
def allObjs (s : Source) : List Obj := tenantObjs s ++ userObjs s ++ s.tenants.flatMap (partObjs s.users)

theorem after_parts (us : List (Text × UserOpts)) : ∀ (ts : List Tenant) (x : Text) (m : Meta),
    (after (ts.flatMap (part us)) x m).2 = puts (ts.flatMap (partObjs us)) m
  | [], _, _ => rfl
  | t :: ts, x, m => by
    rw [List.flatMap_cons, after_append, after_part, after_parts us ts, List.flatMap_cons, puts_append]

theorem after_steps (s : Source) (x : Text) (m : Meta) : (after (steps s) x m).2 = puts (allObjs s) m := by
  rw [steps]
  show (after (_ ++ _) x m).2 = _
  rw [after_append, after_objs, after_parts, allObjs, puts_append _ (s.tenants.flatMap _)]

theorem Source.Fine.find (h : s.Fine env i) {t : Tenant} (ht : t ∈ s.tenants) : s.tenant t.name = some t := find_name h.tenantNames ht

/-- What a dump says of an object is what is stored. -/
theorem obj_store (h : s.Fine env i) : ∀ o ∈ allObjs s, s.store o.key = some o.val := by
  intro o ho
  rcases List.mem_append.1 ho with ho | ho
  · rcases List.mem_append.1 ho with ho | ho
    · obtain ⟨t, ht, _, rfl⟩ := mem_tenantObjs ho
      simp only [Obj.key, Source.store, h.find ht]; rfl
    · obtain ⟨u, hu, _, rfl⟩ := mem_userObjs ho
      simp only [Obj.key, Source.store, lookup_mem h.userNames hu]; rfl
  · obtain ⟨t, ht, ho⟩ := List.mem_flatMap.1 ho
    have hf := h.tenant t ht
    rcases mem_partObjs ho with ho | ho | ho | ho
    · obtain ⟨d, hd, _, rfl⟩ := mem_dbObjs ho
      simp only [Obj.key, Source.store, h.find ht, Option.bind_some, lookup_mem hf.dbNames hd]; rfl
    · obtain ⟨d, hd, rfl⟩ := mem_roleObjs ho
      simp only [Obj.key, Source.store, h.find ht, Option.bind_some, lookup_mem hf.roleNames hd]; rfl
    · obtain ⟨d, hd, rfl⟩ := mem_memberObjs ho
      simp only [Obj.key, Source.store, h.find ht, Option.bind_some, lookup_mem hf.memberNames hd]; rfl
    · obtain ⟨d, hd, x, hx, rfl⟩ := mem_tableObjs ho
      simp only [Obj.key, Source.store, h.find ht, Option.bind_some, lookup_mem hf.dbNames hd, lookup_mem (hf.tableNames d hd) hx]; rfl

/-- What a new cluster has is stored. -/
theorem init_store (h : s.Fine env i) : Within i.store s.store := by
  obtain ⟨t, ht, hn, ho, hd⟩ := h.system
  have hft := h.find ht
  rw [hn] at hft
  intro k v hk
  cases k with
  | tenant n =>
    simp only [Init.store] at hk
    split at hk
    · rename_i e
      simp only [Source.store, e, hft, Option.map_some, ho]; exact hk
    · cases hk
  | user n =>
    simp only [Init.store] at hk
    split at hk
    · rename_i e
      have := lookup_mem h.userNames h.root
      simp only at this
      simp only [Source.store, e, this, Option.map_some]; exact hk
    · cases hk
  | db t' n =>
    simp only [Init.store] at hk
    split at hk
    · rename_i e
      obtain ⟨d, hl, rfl⟩ := Option.map_eq_some_iff.1 hk
      obtain ⟨ts, hm⟩ := hd n d hl
      have := lookup_mem (h.tenant t ht).dbNames hm
      simp only at this
      simp only [Source.store, e, hft, Option.bind_some, this, Option.map_some]
    · cases hk
  | role _ _ => cases hk
  | member _ _ => cases hk
  | table _ _ _ => cases hk

/-- What is stored is in the dump or in a new cluster. -/
theorem store_obj (h : s.Fine env i) {k : Key} {v : Entry} (hk : s.store k = some v) : (∃ o ∈ allObjs s, o.key = k) ∨ i.store k = some v := by
  have tmem : ∀ {n : Text} {t : Tenant}, s.tenant n = some t → t ∈ s.tenants ∧ t.name = n := by
    intro n t ht
    exact ⟨List.mem_of_find?_eq_some ht, by simpa using List.find?_some ht⟩
  have part : ∀ {t : Tenant} {o : Obj}, t ∈ s.tenants → o ∈ dbObjs t ∨ o ∈ roleObjs t ∨ o ∈ memberObjs s.users t ∨ o ∈ tableObjs t →
      o ∈ allObjs s := by
    intro t o ht ho
    refine List.mem_append_right _ (List.mem_flatMap.2 ⟨t, ht, ?_⟩)
    simp only [partObjs, List.mem_append]
    rcases ho with ho | ho | ho | ho
    · exact .inl (.inl (.inl ho))
    · exact .inl (.inl (.inr ho))
    · exact .inl (.inr ho)
    · exact .inr ho
  cases k with
  | tenant n =>
    obtain ⟨t, ht, rfl⟩ := Option.map_eq_some_iff.1 hk
    obtain ⟨h1, h2⟩ := tmem ht
    by_cases e : t.name = cnosdb
    · obtain ⟨t', ht', hn, ho, _⟩ := h.system
      have : t' = t := eq_of_name h.tenantNames ht' h1 (hn.trans e.symm)
      subst this
      right
      simp only [Init.store, ← h2, e, if_true, ho]
    · exact .inl ⟨_, List.mem_append_left _ (List.mem_append_left _ (h.mem_tenant h1 e)), by rw [Obj.key, h2]⟩
  | user n =>
    obtain ⟨u, hu, rfl⟩ := Option.map_eq_some_iff.1 hk
    have hm := mem_lookup hu
    by_cases e : n = rootName
    · have := eq_of_name h.userNames hm h.root e
      right
      cases this
      rfl
    · exact .inl ⟨_, List.mem_append_left _ (List.mem_append_right _ (h.mem_user hm e)), rfl⟩
  | db n d =>
    obtain ⟨t, ht, hk⟩ := Option.bind_eq_some_iff.1 hk
    obtain ⟨x, hx, rfl⟩ := Option.map_eq_some_iff.1 hk
    obtain ⟨h1, h2⟩ := tmem ht
    have hm := mem_lookup hx
    by_cases hp : same t.name cnosdb = true ∧ same d publicDb = true
    · right
      rw [← h2]
      exact h.public h1 hm hp
    · refine .inl ⟨.db t.name d x.1, part h1 (.inl (List.mem_map.2 ⟨_, List.mem_filter.2 ⟨hm, ?_⟩, rfl⟩)), by rw [Obj.key, h2]⟩
      cases h1 : same t.name cnosdb with
      | false => rfl
      | true => cases h2 : same d publicDb with
        | false => rfl
        | true => exact absurd ⟨h1, h2⟩ hp
  | role n r =>
    obtain ⟨t, ht, hk⟩ := Option.bind_eq_some_iff.1 hk
    obtain ⟨x, hx, rfl⟩ := Option.map_eq_some_iff.1 hk
    obtain ⟨h1, h2⟩ := tmem ht
    exact .inl ⟨_, part h1 (.inr (.inl (List.mem_map.2 ⟨_, mem_lookup hx, rfl⟩))), by rw [Obj.key, h2]⟩
  | member n u =>
    obtain ⟨t, ht, hk⟩ := Option.bind_eq_some_iff.1 hk
    obtain ⟨x, hx, rfl⟩ := Option.map_eq_some_iff.1 hk
    obtain ⟨h1, h2⟩ := tmem ht
    have hm := mem_lookup hx
    have hu := ((h.tenant t h1).member _ hm).2.2.1
    have hr := (h.tenant t h1).noRoot _ hm
    refine .inl ⟨_, part h1 (.inr (.inr (.inl (List.mem_map.2 ⟨_, List.mem_filter.2 ⟨List.mem_filter.2 ⟨hm, ?_⟩, ?_⟩, rfl⟩)))), by rw [Obj.key, h2]⟩
    · obtain ⟨y, hy, e⟩ := List.mem_map.1 hu
      exact List.any_eq_true.2 ⟨y, hy, by simpa using e⟩
    · cases h1 : same u rootName with
      | false => rfl
      | true => cases h2 : same t.name cnosdb with
        | false => rfl
        | true => exact absurd ⟨h1, h2⟩ hr
  | table n d x =>
    obtain ⟨t, ht, hk⟩ := Option.bind_eq_some_iff.1 hk
    obtain ⟨y, hy, hk⟩ := Option.bind_eq_some_iff.1 hk
    obtain ⟨z, hz, rfl⟩ := Option.map_eq_some_iff.1 hk
    obtain ⟨h1, h2⟩ := tmem ht
    refine .inl ⟨.table (same d usage) t.name d x z, part h1 (.inr (.inr (.inr (List.mem_flatMap.2 ⟨_, mem_lookup hy, List.mem_map.2 ⟨_, mem_lookup hz, rfl⟩⟩)))), ?_⟩
    rw [Obj.key, h2]

theorem puts_all (h : s.Fine env i) : puts (allObjs s) i.store = s.store := by
  have ho := obj_store h
  funext k
  by_cases hk : ∃ o ∈ allObjs s, o.key = k
  · obtain ⟨o, hm, rfl⟩ := hk
    rw [ho o hm]
    refine puts_mem hm (fun x hx e => ?_) _
    have := ho x hx
    rw [e, ho o hm] at this
    exact (Option.some.inj this).symm
  · rw [puts_not (fun o hm e => hk ⟨o, hm, e⟩)]
    cases hs : s.store k with
    | some v => exact (store_obj h hs).resolve_left hk
    | none => cases hi : i.store k with
      | none => rfl
      | some v =>
        have := init_store h k v hi
        rw [hs] at this; cases this

theorem nl_append {a b : Text} (ha : '\n' ∉ a) (hb : '\n' ∉ b) : '\n' ∉ a ++ b := by
  rw [List.mem_append]
  exact fun e => e.elim ha hb

theorem note_nl {t : Text} (h : '\n' ∉ t) : ∀ x ∈ (Step.note t).items env, '\n' ∉ x.text := by
  intro x hx
  have hx : x = .note t := List.mem_singleton.1 hx
  subst hx
  exact nl_append (a := "-- ".toList) (by decide) h

theorem change_nl {t : Text} (h : '\n' ∉ t) : ∀ x ∈ (Step.change t).items env, '\n' ∉ x.text := by
  intro x hx
  have hx : x = .change t := List.mem_singleton.1 hx
  subst hx
  exact nl_append (a := "\\change_tenant ".toList) (by decide) h

theorem dump_nl (h : s.Fine env i) : ∀ x ∈ dump env none s, '\n' ∉ x.text := by
  intro x hx
  rw [dump_steps] at hx
  obtain ⟨st, hst, hx⟩ := List.mem_flatMap.1 hx
  rw [steps] at hst
  rcases List.mem_cons.1 hst with rfl | hst
  · exact note_nl (by decide) x hx
  rcases List.mem_append.1 hst with hst | hst
  · obtain ⟨o, ho, rfl⟩ := List.mem_map.1 hst
    exact obj_nl (global_static h o ho) x hx
  · obtain ⟨t, ht, hst⟩ := List.mem_flatMap.1 hst
    have hn := (h.tenant t ht).name.nl
    rcases List.mem_append.1 hst with hst | hst
    · rcases List.mem_cons.1 hst with rfl | hst
      · exact note_nl (nl_append (nl_append (by decide) hn) (by decide)) x hx
      · rw [List.mem_singleton] at hst
        rw [hst] at hx
        exact change_nl hn x hx
    · obtain ⟨o, ho, rfl⟩ := List.mem_map.1 hst
      exact obj_nl (h.part_static ht o ho) x hx

/-- A dump restored in a new cluster: every statement succeeds and the store is the same. -/
theorem restore_dump (h : s.Fine env i) : ∃ x, restore env ⟨[], cnosdb, i.store, []⟩ (dumpText (dump env none s)) = ⟨[], x, s.store, []⟩ := by
  have hg := run_good (fl := []) (steps s) (good_steps h cnosdb)
  rw [after_steps, puts_all h, ← dump_steps] at hg
  refine ⟨(after (steps s) cnosdb i.store).1, ?_⟩
  have hr : (lines (dumpText (dump env none s))).foldl (Client.line env) ⟨[], cnosdb, i.store, []⟩ =
      runItems env ⟨[], cnosdb, i.store, []⟩ (dump env none s) := by
    rw [lines_dump (dump_nl h), runItems, List.foldl_map]
  have he : restore env ⟨[], cnosdb, i.store, []⟩ (dumpText (dump env none s)) =
      if (runItems env ⟨[], cnosdb, i.store, []⟩ (dump env none s)).query = [] then runItems env ⟨[], cnosdb, i.store, []⟩ (dump env none s)
      else (runItems env ⟨[], cnosdb, i.store, []⟩ (dump env none s)).send env (runItems env ⟨[], cnosdb, i.store, []⟩ (dump env none s)).query := by
    rw [← hr, restore]
  rw [he, hg, if_pos rfl]

end

end Verif.Dump
