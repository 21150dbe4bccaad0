import Verif.Watch.Client
/-!
# The cache of a tenant follows the store (C108)
-/
namespace Verif.Watch

/-! ## Keys and objects -/

theorem splitSlash_ne_nil (k : Key) : splitSlash k ≠ [] := by
  cases k with
  | nil => simp [splitSlash]
  | cons c cs =>
    rw [splitSlash]
    split
    · simp
    · cases splitSlash cs <;> simp

theorem mem_splitSlash_plain {k : Key} {n : Name} (h : n ∈ splitSlash k) : Plain n := by
  induction k generalizing n with
  | nil => simp [splitSlash] at h; subst h; simp [Plain]
  | cons c cs ih =>
    rw [splitSlash] at h
    by_cases hc : c = '/'
    · rw [if_pos hc, List.mem_cons] at h
      rcases h with rfl | h
      · simp [Plain]
      · exact ih h
    · rw [if_neg hc] at h
      cases hs : splitSlash cs with
      | nil => exact absurd hs (splitSlash_ne_nil cs)
      | cons s ss =>
        rw [hs] at h ih
        simp only [List.mem_cons] at h
        rcases h with rfl | h
        · have := ih List.mem_cons_self
          simp only [Plain, List.mem_cons, not_or] at this ⊢
          exact ⟨fun hx => hc hx.symm, this⟩
        · exact ih (List.mem_cons_of_mem _ h)

theorem eq_path_of_split {k : Key} {segs : List Name} (h : splitSlash k = [] :: segs) : k = path segs := by
  have := path_splitSlash k
  rw [h] at this
  simpa [path] using this.symm

/-- The object of a tenant that a key belongs to. -/
def itemOf (c t : Name) (k : Key) : Option Item :=
  match splitSlash k with
  | [[], c', s2, t', s4, x] =>
    if c' = c ∧ t' = t ∧ s2 = sTenants then
      if s4 = sDbs then some (.db x) else if s4 = sMembers then some (.member x)
      else if s4 = sRoles then some (.role x) else none
    else none
  | [[], c', s2, t', s4, d, s6, x] =>
    if c' = c ∧ t' = t ∧ s2 = sTenants ∧ s4 = sDbs then
      if s6 = sSchemas then some (.table d x) else if s6 = sBuckets then some (.bucket d x) else none
    else none
  | _ => none

/-- The names in an object have no slash. -/
def Item.Plain : Item → Prop
  | .member u => Watch.Plain u
  | .role r => Watch.Plain r
  | .db d => Watch.Plain d
  | .table d n => Watch.Plain d ∧ Watch.Plain n
  | .bucket d id => Watch.Plain d ∧ Watch.Plain id

theorem Item.Good.plain {i : Item} (h : i.Good) : i.Plain := by
  cases i <;> simp only [Item.Good, GoodName, Item.Plain] at h ⊢ <;> simp [h]

theorem itemOf_eq_some {c t : Name} (hc : Plain c) (ht : Plain t) {k : Key} {i : Item} :
    itemOf c t k = some i ↔ k = i.key c t ∧ i.Plain := by
  obtain ⟨p1, p2, p3, p4, p5, p6, p7, p8, p9, p10, p11, p12, p13⟩ := plain_consts
  constructor
  · intro h
    rw [itemOf] at h
    have hp : ∀ n ∈ splitSlash k, Plain n := fun n hn => mem_splitSlash_plain hn
    cases hs : splitSlash k with
    | nil => exact absurd hs (splitSlash_ne_nil k)
    | cons s0 segs =>
      rw [hs] at h hp
      rcases segs with _ | ⟨c', _ | ⟨s2, _ | ⟨t', _ | ⟨s4, _ | ⟨x, _ | ⟨s6, _ | ⟨y, _ | ⟨z, r⟩⟩⟩⟩⟩⟩⟩⟩ <;>
        rcases s0 with _ | ⟨a, s0⟩ <;> simp only [reduceCtorEq] at h
      · by_cases h1 : c' = c ∧ t' = t ∧ s2 = sTenants
        · rw [if_pos h1] at h
          obtain ⟨rfl, rfl, rfl⟩ := h1
          have hk := eq_path_of_split hs
          have hx : Plain x := hp x (by simp)
          by_cases h4 : s4 = sDbs
          · rw [if_pos h4] at h; injection h with h; subst h h4; exact ⟨hk, hx⟩
          rw [if_neg h4] at h
          by_cases h4 : s4 = sMembers
          · rw [if_pos h4] at h; injection h with h; subst h h4; exact ⟨hk, hx⟩
          rw [if_neg h4] at h
          by_cases h4 : s4 = sRoles
          · rw [if_pos h4] at h; injection h with h; subst h h4; exact ⟨hk, hx⟩
          rw [if_neg h4] at h; cases h
        · rw [if_neg h1] at h; cases h
      · by_cases h1 : c' = c ∧ t' = t ∧ s2 = sTenants ∧ s4 = sDbs
        · rw [if_pos h1] at h
          obtain ⟨rfl, rfl, rfl, rfl⟩ := h1
          have hk := eq_path_of_split hs
          have hx : Plain x := hp x (by simp)
          have hy : Plain y := hp y (by simp)
          by_cases h6 : s6 = sSchemas
          · rw [if_pos h6] at h; injection h with h; subst h h6; exact ⟨hk, hx, hy⟩
          rw [if_neg h6] at h
          by_cases h6 : s6 = sBuckets
          · rw [if_pos h6] at h; injection h with h; subst h h6; exact ⟨hk, hx, hy⟩
          rw [if_neg h6] at h; cases h
        · rw [if_neg h1] at h; cases h
  · rintro ⟨rfl, hi⟩
    cases i with
    | member u =>
      rw [itemOf, Item.key, KeyPath.member, splitSlash_path (by simp [hc, ht, p6, p7, show Plain u from hi])]
      simp only [and_self, if_true, if_neg (show ¬ sMembers = sDbs by decide)]
    | role r =>
      rw [itemOf, Item.key, KeyPath.role, splitSlash_path (by simp [hc, ht, p6, p3, show Plain r from hi])]
      simp only [and_self, if_true, if_neg (show ¬ sRoles = sDbs by decide), if_neg (show ¬ sRoles = sMembers by decide)]
    | db d =>
      rw [itemOf, Item.key, KeyPath.db, splitSlash_path (by simp [hc, ht, p6, p1, show Plain d from hi])]
      simp only [and_self, if_true]
    | table d n =>
      rw [itemOf, Item.key, KeyPath.table, splitSlash_path (by simp [hc, ht, p6, p1, p5, hi.1, hi.2])]
      simp only [and_self, if_true]
    | bucket d n =>
      rw [itemOf, Item.key, KeyPath.bucket, splitSlash_path (by simp [hc, ht, p6, p1, p4, hi.1, hi.2])]
      simp only [and_self, if_true, if_neg (show ¬ sBuckets = sSchemas by decide)]

/-- Different objects have different keys. -/
theorem Item.key_inj {c t : Name} (hc : Watch.Plain c) (ht : Watch.Plain t) {i j : Item} (hi : i.Plain) (hj : j.Plain)
    (h : i.key c t = j.key c t) : i = j := by
  have h1 := (itemOf_eq_some hc ht).2 ⟨rfl, hi⟩
  have h3 := (itemOf_eq_some hc ht).2 ⟨rfl, hj⟩
  rw [h] at h1
  rw [h1] at h3
  exact Option.some.inj h3

/-! ## One change of the store -/

/-- The database of a table or bucket. -/
def Item.inDb (x : Name) : Item → Bool
  | .table d _ => decide (d = x)
  | .bucket d _ => decide (d = x)
  | _ => false

/-- A write that the cache can follow: the value has the type that its key says, names are not empty, and a database that is
created has no tables or buckets yet. -/
def OpOk (c t : Name) (s : Store) : Op → Prop
  | .insert k v => ∀ i, itemOf c t k = some i → i.kind v = true ∧ i.Good ∧
      ∀ d, i = .db d → s.db.get k = none → ∀ j : Item, j.inDb d → j.Good → s.db.get (j.key c t) = none
  | .remove _ => True

/-- The change a node makes to the cache of tenant `t` for an entry (meta_admin.rs:374-386 for this tenant). -/
def deliver (c t : Name) (d : TenantData) (e : Entry) : TenantData :=
  match splitSlash e.key with
  | _ :: c' :: s2 :: t' :: _ => if c' = c ∧ s2 = sTenants ∧ t' = t then d.processLog e else d
  | _ => d

/-- The cache shows what is stored. -/
def Follows (c t : Name) (d : TenantData) (s : Store) : Prop := ∀ i, d.obs i = s.obs c t i

theorem version_not_item (c t : Name) : itemOf c t KeyPath.version = none := by
  rw [itemOf]
  have : splitSlash KeyPath.version = [[], "data_version".toList] := by decide
  rw [this]

theorem Item.key_ne_version {c t : Name} (hc : Watch.Plain c) (ht : Watch.Plain t) {i : Item} (hi : i.Plain) :
    i.key c t ≠ KeyPath.version := by
  intro h
  have := (itemOf_eq_some hc ht).2 ⟨h.symm, hi⟩
  rw [version_not_item c t] at this
  cases this

/-- The value of an object after a write. -/
theorem get_apply {c t : Name} (hc : Plain c) (ht : Plain t) (s : Store) (o : Op) {i : Item} (hi : i.Plain) :
    (s.apply o).db.get (i.key c t) =
      if itemOf c t (o.entry 0).key = some i then (if (o.entry 0).set then some (o.entry 0).val else none)
      else s.db.get (i.key c t) := by
  have key : ∀ k, (i.key c t = k ↔ itemOf c t k = some i) := fun k =>
    ⟨fun h => (itemOf_eq_some hc ht).2 ⟨h.symm, hi⟩, fun h => ((itemOf_eq_some hc ht).1 h).1.symm⟩
  cases o with
  | insert k v =>
    simp only [Store.apply, Store.insert, Op.entry]
    by_cases hv : k = KeyPath.version
    · rw [if_pos hv]; subst hv; simp [version_not_item c t]
    · rw [if_neg hv, AMap.get_set]
      simp only [key k, if_true]
  | remove k =>
    simp only [Store.apply, Store.remove, Op.entry]
    by_cases hv : k = KeyPath.version
    · rw [if_pos hv]; subst hv; simp [version_not_item c t]
    · rw [if_neg hv, AMap.get_del]
      simp only [key k, Bool.false_eq_true, if_false]

theorem putOrDel_get (m : AMap Name Val) (kind : Val → Bool) (x y : Name) (e : Entry) (h : e.set = true → kind e.val = true) :
    (putOrDel m kind x e).get y = if y = x then (if e.set then some e.val else none) else m.get y := by
  rw [putOrDel]
  cases hs : e.set with
  | false => simp only [Bool.false_eq_true, if_false, AMap.get_del]
  | true => rw [if_pos rfl, if_pos (h hs), AMap.get_set]; simp

/-- The parts of a key. -/
def Item.segs (c t : Name) : Item → List Name
  | .member u => [c, sTenants, t, sMembers, u]
  | .role r => [c, sTenants, t, sRoles, r]
  | .db d => [c, sTenants, t, sDbs, d]
  | .table d n => [c, sTenants, t, sDbs, d, sSchemas, n]
  | .bucket d id => [c, sTenants, t, sDbs, d, sBuckets, id]

theorem Item.split_key {c t : Name} (hc : Watch.Plain c) (ht : Watch.Plain t) {i : Item} (hi : i.Plain) :
    splitSlash (i.key c t) = [] :: i.segs c t := by
  obtain ⟨p1, p2, p3, p4, p5, p6, p7, p8, p9, p10, p11, p12, p13⟩ := plain_consts
  have : i.key c t = path (i.segs c t) := by cases i <;> rfl
  rw [this, splitSlash_path]
  cases i <;> simp only [Item.Plain] at hi <;> simp [Item.segs, hc, ht, p1, p3, p4, p5, p6, p7, hi]

/-- What `change` does to what is seen. -/
theorem obs_change {c t : Name} (hc : Plain c) (ht : Plain t) (d : TenantData) (e : Entry) (i : Item)
    (hi : itemOf c t e.key = some i) (hk : e.set = true → i.kind e.val = true) (j : Item) :
    (d.change e).obs j =
      match i with
      | .db x => if j = i then (if e.set then some e.val else none)
                 else if e.set = false ∧ j.inDb x = true then none else d.obs j
      | .table x _ => if j = i then (if (d.obs (.db x)).isSome then (if e.set then some e.val else none) else none) else d.obs j
      | .bucket x _ => if j = i then (if (d.obs (.db x)).isSome then (if e.set then some e.val else none) else none) else d.obs j
      | _ => if j = i then (if e.set then some e.val else none) else d.obs j := by
  obtain ⟨hkey, hp⟩ := (itemOf_eq_some hc ht).1 hi
  have hs := Item.split_key hc ht hp
  rw [← hkey] at hs
  have hput : ∀ m x y, (putOrDel m i.kind x e).get y = if y = x then (if e.set then some e.val else none) else m.get y :=
    fun m x y => putOrDel_get m _ x y e hk
  rw [TenantData.change, hs]
  cases i with
  | member u =>
    simp only [Item.segs, show ¬ sMembers = sDbs from by decide, false_and, and_self, if_true, if_false]
    cases j <;> simp only [TenantData.obs, reduceCtorEq, if_false, Item.member.injEq]
    exact hput _ _ _
  | role r =>
    simp only [Item.segs, show ¬ sRoles = sDbs from by decide, show ¬ sRoles = sMembers from by decide, false_and, and_self, if_true, if_false]
    cases j <;> simp only [TenantData.obs, reduceCtorEq, if_false, Item.role.injEq]
    exact hput _ _ _
  | db x =>
    simp only [Item.segs, and_self, if_true]
    cases hset : e.set with
    | true =>
      simp only [if_true, show e.val.isDb = true from hk hset, Bool.true_eq_false, false_and, if_false]
      cases j <;> simp only [TenantData.obs, reduceCtorEq, if_false, Item.db.injEq, AMap.get_set]
      · split <;> simp
      · split
        · rename_i h; subst h; cases hd : d.dbs.get _ <;> simp [DbInfo.default]
        · rfl
      · split
        · rename_i h; subst h; cases hd : d.dbs.get _ <;> simp [DbInfo.default]
        · rfl
    | false =>
      simp only [Bool.false_eq_true, if_false, true_and]
      cases j <;> simp only [TenantData.obs, reduceCtorEq, if_false, Item.db.injEq, AMap.get_del, Item.inDb, decide_eq_true_eq, Bool.false_eq_true]
      · split <;> simp
      · split <;> simp
      · split <;> simp
  | table x n =>
    simp only [Item.segs, and_self, if_true]
    cases hd : d.dbs.get x with
    | none =>
      by_cases hj : j = .table x n
      · subst hj; simp [TenantData.obs, hd]
      · simp only [if_neg hj]
    | some info =>
      simp only [TenantData.obs, hd, Option.map_some, Option.isSome_some, if_true]
      cases j <;> simp only [reduceCtorEq, if_false, Item.table.injEq, AMap.get_set]
      · split
        · rename_i h; subst h; simp [hd]
        · rfl
      · rename_i y m
        by_cases h : y = x
        · subst h
          simp only [if_true, Option.bind_some, true_and, hd]
          exact hput _ _ _
        · simp [h]
      · split
        · rename_i h; subst h; simp [hd]
        · rfl
  | bucket x n =>
    simp only [Item.segs, and_self, if_true, show ¬ sBuckets = sSchemas from by decide, false_and, if_false]
    cases hd : d.dbs.get x with
    | none =>
      by_cases hj : j = .bucket x n
      · subst hj; simp [TenantData.obs, hd]
      · simp only [if_neg hj]
    | some info =>
      simp only [TenantData.obs, hd, Option.map_some, Option.isSome_some, if_true]
      cases j <;> simp only [reduceCtorEq, if_false, Item.bucket.injEq, AMap.get_set]
      · split
        · rename_i h; subst h; simp [hd]
        · rfl
      · split
        · rename_i h; subst h; simp [hd]
        · rfl
      · rename_i y m
        by_cases h : y = x
        · subst h
          simp only [if_true, Option.bind_some, true_and, hd]
          exact hput _ _ _
        · simp [h]

/-- An entry that is delivered but belongs to no object changes nothing. -/
theorem change_none {c t : Name} (d : TenantData) (e : Entry) (x y : List Name)
    (hs : splitSlash e.key = x ++ [c, sTenants, t] ++ y) (hx : x = [[]]) (h : itemOf c t e.key = none) : d.change e = d := by
  subst hx
  rw [itemOf, hs] at h
  rw [TenantData.change, hs]
  rcases y with _ | ⟨s4, _ | ⟨a, _ | ⟨s6, _ | ⟨b, _ | ⟨r, rs⟩⟩⟩⟩⟩ <;> try rfl
  · simp only [List.cons_append, List.nil_append, and_self, if_true] at h ⊢
    by_cases h1 : s4 = sDbs
    · rw [if_pos h1] at h; cases h
    rw [if_neg h1] at h
    by_cases h2 : s4 = sMembers
    · rw [if_pos h2] at h; cases h
    rw [if_neg h2] at h
    by_cases h3 : s4 = sRoles
    · rw [if_pos h3] at h; cases h
    simp [h1, h2, h3]
  · simp only [List.cons_append, List.nil_append, and_true, true_and] at h ⊢
    by_cases h1 : s4 = sDbs
    · rw [if_pos h1] at h
      by_cases h2 : s6 = sSchemas
      · rw [if_pos h2] at h; cases h
      rw [if_neg h2] at h
      by_cases h3 : s6 = sBuckets
      · rw [if_pos h3] at h; cases h
      simp [h1, h2, h3]
    · simp [h1]

/-- An entry for an object of the tenant is delivered. -/
theorem deliver_item {c t : Name} (hc : Plain c) (ht : Plain t) (d : TenantData) (e : Entry) (i : Item)
    (hi : itemOf c t e.key = some i) : deliver c t d e = d.processLog e := by
  obtain ⟨hkey, hp⟩ := (itemOf_eq_some hc ht).1 hi
  have hs := Item.split_key hc ht hp
  rw [← hkey] at hs
  rw [deliver, hs]
  cases i <;> simp [Item.segs]

theorem change_version (d : TenantData) (e : Entry) : (d.change e).version = d.version := by
  rw [TenantData.change]
  split
  · split
    · split <;> rfl
    · split
      · split <;> rfl
      · rfl
  · split
    · split
      · split <;> rfl
      · rfl
    · split
      · rfl
      · split <;> rfl
  · rfl

theorem obs_version (d : TenantData) (v : Nat) (i : Item) : ({ d with version := v } : TenantData).obs i = d.obs i := by
  cases i <;> rfl

/-- The key of an entry begins with an empty part in front of the first slash: it starts with a slash. -/
def Rooted (k : Key) : Prop := k.head? = some '/'

theorem Rooted.split {k : Key} (h : Rooted k) : ∃ r, splitSlash k = [] :: r := by
  cases k with
  | nil => cases h
  | cons a k =>
    have : a = '/' := by simpa [Rooted] using h
    subst this
    exact ⟨splitSlash k, by rw [splitSlash, if_pos rfl]⟩

/-- Delivering an entry that is newer than the cache. -/
theorem deliver_cases {c t : Name} (hc : Plain c) (ht : Plain t) (d : TenantData) (e : Entry) (hv : d.version < e.ver)
    (hr : Rooted e.key) :
    (itemOf c t e.key = none ∧ ∀ j, (deliver c t d e).obs j = d.obs j) ∨
    (∃ i, itemOf c t e.key = some i ∧ (deliver c t d e).version = e.ver ∧
      deliver c t d e = ({ d with version := e.ver } : TenantData).change e) := by
  have hpl : d.processLog e = ({ d with version := e.ver } : TenantData).change e := by
    rw [TenantData.processLog, if_neg (by omega)]
  cases hi : itemOf c t e.key with
  | some i =>
    refine .inr ⟨i, rfl, ?_, ?_⟩
    · rw [deliver_item hc ht d e i hi, hpl, change_version]
    · rw [deliver_item hc ht d e i hi, hpl]
  | none =>
    refine .inl ⟨rfl, fun j => ?_⟩
    obtain ⟨r, hs⟩ := hr.split
    rw [deliver, hs]
    rcases r with _ | ⟨c', _ | ⟨s2, _ | ⟨t', y⟩⟩⟩ <;> try rfl
    simp only
    split
    · rename_i h
      obtain ⟨rfl, rfl, rfl⟩ := h
      rw [hpl, change_none _ e [[]] y (by simpa using hs) rfl hi, obs_version]
    · rfl

theorem entry_key (o : Op) (v : Nat) : (o.entry v).key = (o.entry 0).key := by cases o <;> rfl
theorem entry_set (o : Op) (v : Nat) : (o.entry v).set = (o.entry 0).set := by cases o <;> rfl
theorem entry_val (o : Op) (v : Nat) : (o.entry v).val = (o.entry 0).val := by cases o <;> rfl
theorem entry_ver (o : Op) (v : Nat) : (o.entry v).ver = v := by cases o <;> rfl

/-- A cache that shows what is stored, and follows a write, shows what is then stored. -/
theorem follows_step {c t : Name} (hc : Plain c) (ht : Plain t) {d : TenantData} {s : Store} (hF : Follows c t d s) (o : Op)
    (hok : OpOk c t s o) (v : Nat) (hv : d.version < v) (hr : Rooted (o.entry 0).key) :
    Follows c t (deliver c t d (o.entry v)) (s.apply o) := by
  intro j
  have hFj := hF j
  by_cases hg : ¬ j.Good
  · -- objects with names that cannot be found
    have hnone : d.obs j = none := by rw [hFj, Store.obs, if_neg hg]
    rw [Store.obs, if_neg hg]
    rcases deliver_cases hc ht d (o.entry v) (by rw [entry_ver]; exact hv) (by rw [entry_key]; exact hr) with ⟨_, h⟩ | ⟨i, hi, _, h⟩
    · rw [h, hnone]
    · rw [h]
      rw [entry_key] at hi
      have hkind : (o.entry v).set = true → i.kind (o.entry v).val = true := by
        cases o with
        | insert k x => exact fun _ => (hok i hi).1
        | remove k => intro h; cases h
      have hgi : (o.entry v).set = true → i.Good := by
        cases o with
        | insert k x => exact fun _ => (hok i hi).2.1
        | remove k => intro h; cases h
      have := obs_change hc ht { d with version := (o.entry v).ver } (o.entry v) i (by rw [entry_key]; exact hi) hkind j
      rw [this]
      have hval : j = i → (if (o.entry v).set = true then some (o.entry v).val else none) = none := by
        intro he; subst he
        cases hs : (o.entry v).set with
        | false => rfl
        | true => exact absurd (hgi hs) hg
      cases i <;> simp only [obs_version]
      · by_cases he : j = .member ‹_›
        · rw [if_pos he, hval he]
        · rw [if_neg he, hnone]
      · by_cases he : j = .role ‹_›
        · rw [if_pos he, hval he]
        · rw [if_neg he, hnone]
      · by_cases he : j = .db ‹_›
        · rw [if_pos he, hval he]
        · rw [if_neg he, hnone]; simp
      · rename_i x n
        by_cases he : j = .table x n
        · rw [if_pos he, hval he]; simp
        · rw [if_neg he, hnone]
      · rename_i x n
        by_cases he : j = .bucket x n
        · rw [if_pos he, hval he]; simp
        · rw [if_neg he, hnone]
  · have hg : j.Good := Decidable.of_not_not hg
    rw [Store.obs, if_pos hg] at hFj ⊢
    have hdb : ∀ x, (Item.db x).Good → d.obs (.db x) = s.db.get (KeyPath.db c t x) := by
      intro x hx
      rw [hF, Store.obs, if_pos hx]; rfl
    have hkey := itemOf_eq_some (k := (o.entry 0).key) (i := j) hc ht
    have hget := fun (i : Item) (hi : i.Plain) => get_apply hc ht s o hi
    rcases deliver_cases hc ht d (o.entry v) (by rw [entry_ver]; exact hv) (by rw [entry_key]; exact hr) with ⟨hi, h⟩ | ⟨i, hi, _, h⟩
    · -- nothing of the tenant
      rw [entry_key] at hi
      have hsame : ∀ i : Item, i.Plain → (s.apply o).db.get (i.key c t) = s.db.get (i.key c t) := by
        intro i hp
        rw [hget i hp, hi]; rfl
      rw [h, hFj]
      cases j with
      | member u => exact (hsame (.member u) hg.plain).symm
      | role r => exact (hsame (.role r) hg.plain).symm
      | db x => exact (hsame (.db x) hg.plain).symm
      | table x n =>
        have h1 := hsame (.db x) hg.plain.1
        have h2 := hsame (.table x n) hg.plain
        simp only [Item.key] at h1 h2
        simp only [Store.raw, h1, h2]
      | bucket x n =>
        have h1 := hsame (.db x) hg.plain.1
        have h2 := hsame (.bucket x n) hg.plain
        simp only [Item.key] at h1 h2
        simp only [Store.raw, h1, h2]
    · rw [entry_key] at hi
      have hkind : (o.entry v).set = true → i.kind (o.entry v).val = true := by
        cases o with
        | insert k x => exact fun _ => (hok i hi).1
        | remove k => intro h; cases h
      rw [h, obs_change hc ht _ (o.entry v) i (by rw [entry_key]; exact hi) hkind j]
      simp only [obs_version, entry_set o v, entry_val o v]
      have hg2 : ∀ k : Item, k.Plain → (s.apply o).db.get (k.key c t) =
          if k = i then (if (o.entry 0).set then some (o.entry 0).val else none) else s.db.get (k.key c t) := by
        intro k hp
        rw [hget k hp, hi]
        by_cases he : k = i
        · subst he; simp
        · rw [if_neg he, if_neg (fun h => he (Option.some.inj h).symm)]
      cases i with
      | member u =>
        cases j with
        | member u' =>
          have := hg2 (.member u') hg.plain
          simp only [Item.key] at this
          simp only [Store.raw, this, hFj]
        | role r => have := hg2 (.role r) hg.plain; simp only [Item.key, reduceCtorEq, if_false] at this; simp only [Store.raw, this, hFj, reduceCtorEq, if_false]
        | db x => have := hg2 (.db x) hg.plain; simp only [Item.key, reduceCtorEq, if_false] at this; simp only [Store.raw, this, hFj, reduceCtorEq, if_false]
        | table x n =>
          have h1 := hg2 (.db x) hg.plain.1; have h2 := hg2 (.table x n) hg.plain
          simp only [Item.key, reduceCtorEq, if_false] at h1 h2
          simp only [Store.raw, h1, h2, hFj, reduceCtorEq, if_false]
        | bucket x n =>
          have h1 := hg2 (.db x) hg.plain.1; have h2 := hg2 (.bucket x n) hg.plain
          simp only [Item.key, reduceCtorEq, if_false] at h1 h2
          simp only [Store.raw, h1, h2, hFj, reduceCtorEq, if_false]
      | role u =>
        cases j with
        | role u' =>
          have := hg2 (.role u') hg.plain
          simp only [Item.key] at this
          simp only [Store.raw, this, hFj]
        | member r => have := hg2 (.member r) hg.plain; simp only [Item.key, reduceCtorEq, if_false] at this; simp only [Store.raw, this, hFj, reduceCtorEq, if_false]
        | db x => have := hg2 (.db x) hg.plain; simp only [Item.key, reduceCtorEq, if_false] at this; simp only [Store.raw, this, hFj, reduceCtorEq, if_false]
        | table x n =>
          have h1 := hg2 (.db x) hg.plain.1; have h2 := hg2 (.table x n) hg.plain
          simp only [Item.key, reduceCtorEq, if_false] at h1 h2
          simp only [Store.raw, h1, h2, hFj, reduceCtorEq, if_false]
        | bucket x n =>
          have h1 := hg2 (.db x) hg.plain.1; have h2 := hg2 (.bucket x n) hg.plain
          simp only [Item.key, reduceCtorEq, if_false] at h1 h2
          simp only [Store.raw, h1, h2, hFj, reduceCtorEq, if_false]
      | db y =>
        have horphan : (o.entry 0).set = true → s.db.get (KeyPath.db c t y) = none → ∀ k : Item, k.inDb y = true → k.Good →
            s.db.get (k.key c t) = none := by
          cases o with
          | insert k v =>
            intro _ hn
            have hk := ((itemOf_eq_some hc ht).1 hi).1
            simp only [Op.entry] at hk
            subst hk
            exact (hok _ hi).2.2 y rfl hn
          | remove k => intro h; cases h
        cases j with
        | member u => have := hg2 (.member u) hg.plain; simp only [Item.key, reduceCtorEq, if_false] at this; simp [Store.raw, this, hFj, Item.inDb]
        | role u => have := hg2 (.role u) hg.plain; simp only [Item.key, reduceCtorEq, if_false] at this; simp [Store.raw, this, hFj, Item.inDb]
        | db x =>
          have := hg2 (.db x) hg.plain
          simp only [Item.key] at this
          simp only [Store.raw, this, hFj, Item.inDb, Bool.false_eq_true, and_false, if_false]
        | table x n =>
          have h1 := hg2 (.db x) hg.plain.1; have h2 := hg2 (.table x n) hg.plain
          simp only [Item.key, reduceCtorEq, if_false] at h1 h2
          simp only [Store.raw] at hFj ⊢
          rw [h1, h2, if_neg (by simp), hFj]
          by_cases hxy : x = y
          · subst hxy
            simp only [Item.inDb, decide_true, and_true, if_true]
            cases hs : (o.entry 0).set with
            | false => simp
            | true =>
              simp only [if_true, Option.isSome_some, Bool.true_eq_false, if_false]
              cases hdx : s.db.get (KeyPath.db c t x) with
              | some _ => simp
              | none =>
                have := horphan hs hdx (.table x n) (by simp [Item.inDb]) hg
                simp only [Item.key] at this
                rw [this]; simp
          · simp [Item.inDb, hxy]
        | bucket x n =>
          have h1 := hg2 (.db x) hg.plain.1; have h2 := hg2 (.bucket x n) hg.plain
          simp only [Item.key, reduceCtorEq, if_false] at h1 h2
          simp only [Store.raw] at hFj ⊢
          rw [h1, h2, if_neg (by simp), hFj]
          by_cases hxy : x = y
          · subst hxy
            simp only [Item.inDb, decide_true, and_true, if_true]
            cases hs : (o.entry 0).set with
            | false => simp
            | true =>
              simp only [if_true, Option.isSome_some, Bool.true_eq_false, if_false]
              cases hdx : s.db.get (KeyPath.db c t x) with
              | some _ => simp
              | none =>
                have := horphan hs hdx (.bucket x n) (by simp [Item.inDb]) hg
                simp only [Item.key] at this
                rw [this]; simp
          · simp [Item.inDb, hxy]
      | table y m =>
        cases j with
        | member u => have := hg2 (.member u) hg.plain; simp only [Item.key, reduceCtorEq, if_false] at this; simp only [Store.raw, this, hFj, reduceCtorEq, if_false]
        | role u => have := hg2 (.role u) hg.plain; simp only [Item.key, reduceCtorEq, if_false] at this; simp only [Store.raw, this, hFj, reduceCtorEq, if_false]
        | db u => have := hg2 (.db u) hg.plain; simp only [Item.key, reduceCtorEq, if_false] at this; simp only [Store.raw, this, hFj, reduceCtorEq, if_false]
        | table x n =>
          have h1 := hg2 (.db x) hg.plain.1; have h2 := hg2 (.table x n) hg.plain
          simp only [Item.key, reduceCtorEq, if_false] at h1 h2
          simp only [Store.raw] at hFj ⊢
          rw [h1, h2, hFj]
          by_cases he : Item.table x n = Item.table y m
          · injection he with e1 e2; subst e1 e2
            simp only [if_true]
            rw [hdb x hg.1]
          · rw [if_neg he, if_neg he]
        | bucket x n =>
          have h1 := hg2 (.db x) hg.plain.1; have h2 := hg2 (.bucket x n) hg.plain
          simp only [Item.key, reduceCtorEq, if_false] at h1 h2
          simp only [Store.raw, h1, h2, hFj, reduceCtorEq, if_false]
      | bucket y m =>
        cases j with
        | member u => have := hg2 (.member u) hg.plain; simp only [Item.key, reduceCtorEq, if_false] at this; simp only [Store.raw, this, hFj, reduceCtorEq, if_false]
        | role u => have := hg2 (.role u) hg.plain; simp only [Item.key, reduceCtorEq, if_false] at this; simp only [Store.raw, this, hFj, reduceCtorEq, if_false]
        | db u => have := hg2 (.db u) hg.plain; simp only [Item.key, reduceCtorEq, if_false] at this; simp only [Store.raw, this, hFj, reduceCtorEq, if_false]
        | table x n =>
          have h1 := hg2 (.db x) hg.plain.1; have h2 := hg2 (.table x n) hg.plain
          simp only [Item.key, reduceCtorEq, if_false] at h1 h2
          simp only [Store.raw, h1, h2, hFj, reduceCtorEq, if_false]
        | bucket x n =>
          have h1 := hg2 (.db x) hg.plain.1; have h2 := hg2 (.bucket x n) hg.plain
          simp only [Item.key, reduceCtorEq, if_false] at h1 h2
          simp only [Store.raw] at hFj ⊢
          rw [h1, h2, hFj]
          by_cases he : Item.bucket x n = Item.bucket y m
          · injection he with e1 e2; subst e1 e2
            simp only [if_true]
            rw [hdb x hg.1]
          · rw [if_neg he, if_neg he]

end Verif.Watch
