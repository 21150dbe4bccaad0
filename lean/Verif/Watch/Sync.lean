import Verif.Watch.Cache
/-!
# Reading everything about a tenant shows what is stored
-/
namespace Verif.Watch

theorem getLast_path (a : List Name) (x : Name) (hx : x ≠ []) (hp : Plain x) : (path (a ++ [x])).getLast? ≠ some '/' := by
  rw [path_append]
  have : path [x] = '/' :: x := by simp [path]
  rw [this, List.getLast?_append, List.getLast?_cons]
  have h2 : x.getLast? = some (x.getLast hx) := List.getLast?_eq_some_getLast hx
  rw [h2]
  simp only [Option.getD_some, Option.some_or, ne_eq, Option.some.injEq]
  intro h
  exact hp (h ▸ List.getLast_mem hx)

theorem childName_iff {p : Key} (hp : p.getLast? ≠ some '/') {k : Key} {n : Name} :
    childName p k = some n ↔ k = p ++ '/' :: n ∧ GoodName n := by
  simp only [childName, if_neg hp]
  cases hs : stripPrefix (p ++ ['/']) k with
  | none =>
    simp only [reduceCtorEq, false_iff, not_and]
    intro hk
    have : stripPrefix (p ++ ['/']) k = some n := stripPrefix_eq.2 (by rw [hk, List.append_assoc]; rfl)
    rw [hs] at this
    cases this
  | some sub =>
    have hk := stripPrefix_eq.1 hs
    simp only
    have e1 : k = p ++ '/' :: sub := by rw [hk, List.append_assoc]; rfl
    by_cases hb : sub.contains '/' || sub.isEmpty
    · rw [if_pos hb]
      simp only [reduceCtorEq, false_iff, not_and]
      intro h h2
      rw [e1] at h
      have h3 := List.append_cancel_left h
      injection h3 with _ h3
      subst h3
      simp only [Bool.or_eq_true, List.isEmpty_iff] at hb
      rcases hb with hb | hb
      · exact h2.2 (by simpa using hb)
      · exact h2.1 hb
    · rw [if_neg hb]
      simp only [Option.some.injEq]
      constructor
      · rintro rfl
        simp only [Bool.or_eq_true, List.isEmpty_iff, not_or] at hb
        exact ⟨e1, hb.2, by simpa [Plain] using hb.1⟩
      · rintro ⟨h, _⟩
        rw [e1] at h
        have h3 := List.append_cancel_left h
        injection h3

theorem mem_childrenList {s : Store} {p : Key} (hp : p.getLast? ≠ some '/') {n : Name} {v : Val} :
    (n, v) ∈ s.childrenList p ↔ GoodName n ∧ s.db.get (p ++ '/' :: n) = some v := by
  rw [Store.childrenList, List.mem_filterMap]
  constructor
  · rintro ⟨⟨k, w⟩, hm, h⟩
    simp only [Option.map_eq_some_iff, Prod.mk.injEq] at h
    obtain ⟨n', hn, rfl, rfl⟩ := h
    obtain ⟨rfl, hg⟩ := (childName_iff hp).1 hn
    exact ⟨hg, AMap.mem_entries.1 hm⟩
  · rintro ⟨hg, h⟩
    refine ⟨(p ++ '/' :: n, v), AMap.mem_entries.2 h, ?_⟩
    rw [(childName_iff hp).2 ⟨rfl, hg⟩]
    rfl

theorem childrenList_nodup (s : Store) {p : Key} (hp : p.getLast? ≠ some '/') : ((s.childrenList p).map Prod.fst).Nodup := by
  rw [Store.childrenList]
  have hd := s.db.nodup
  generalize s.db.entries = l at hd
  induction l with
  | nil => simp
  | cons e l ih =>
    simp only [List.map_cons, List.nodup_cons] at hd
    rw [List.filterMap_cons]
    cases hc : childName p e.1 with
    | none => simpa only [hc, Option.map_none] using ih hd.2
    | some n =>
      simp only [Option.map_some, List.map_cons, List.nodup_cons]
      refine ⟨?_, ih hd.2⟩
      intro hm
      obtain ⟨⟨n', w⟩, hm, hn⟩ := List.mem_map.1 hm
      obtain ⟨⟨k, w'⟩, hm2, h⟩ := List.mem_filterMap.1 hm
      simp only [Option.map_eq_some_iff, Prod.mk.injEq] at h hn
      obtain ⟨n'', hn2, rfl, rfl⟩ := h
      subst hn
      have h1 := ((childName_iff hp).1 hn2).1
      have h2 := ((childName_iff hp).1 hc).1
      exact hd.1 (List.mem_map.2 ⟨(k, w'), hm2, by rw [h1, h2]⟩)

/-- The children of a path are the values of the keys one level below with a good name. -/
theorem childrenData_get {s : Store} {kind : Val → Bool} {p : Key} (hp : p.getLast? ≠ some '/') {m : AMap Name Val}
    (h : s.childrenData kind p = some m) (n : Name) :
    m.get n = if GoodName n then s.db.get (p ++ '/' :: n) else none := by
  simp only [Store.childrenData] at h
  split at h
  · have hd := childrenList_nodup s hp
    have key : ∀ v, m.get n = some v ↔ (n, v) ∈ s.childrenList p := by
      intro v
      rw [← Option.some.inj h, AMap.get_foldl_set_iff Prod.fst Prod.snd _ _ _ _ hd]
      simp only [AMap.get_empty, reduceCtorEq, and_false, or_false]
      constructor
      · rintro ⟨⟨a, b⟩, hm, rfl, rfl⟩; exact hm
      · intro hm; exact ⟨_, hm, rfl, rfl⟩
    apply Option.ext
    intro v
    rw [key, mem_childrenList hp]
    by_cases hg : GoodName n
    · simp [hg]
    · simp [hg]
  · cases h

/-- Whether the children can be read depends on their values only. -/
theorem childrenData_isSome {s : Store} {kind : Val → Bool} {p : Key} (hp : p.getLast? ≠ some '/') :
    (s.childrenData kind p).isSome = true ↔ ∀ n v, GoodName n → s.db.get (p ++ '/' :: n) = some v → kind v = true := by
  simp only [Store.childrenData]
  constructor
  · intro h n v hg hv
    split at h
    · rename_i hall
      exact List.all_eq_true.1 hall (n, v) ((mem_childrenList hp).2 ⟨hg, hv⟩)
    · cases h
  · intro h
    rw [if_pos]
    · rfl
    · rw [List.all_eq_true]
      rintro ⟨n, v⟩ hm
      obtain ⟨hg, hv⟩ := (mem_childrenList hp).1 hm
      exact h n v hg hv

theorem dbInfos_spec {s : Store} {c t : Name} {l : List (Name × Val)} {r : List (Name × DbInfo)} (h : s.dbInfos c t l = some r) :
    r.map (fun e => (e.1, e.2.schema)) = l ∧ ∀ e ∈ r, s.childrenData Val.isBucket (KeyPath.buckets c t e.1) = some e.2.buckets ∧
      s.childrenData Val.isTable (KeyPath.schemas c t e.1) = some e.2.tables := by
  induction l generalizing r with
  | nil =>
    rw [Store.dbInfos] at h
    obtain rfl := Option.some.inj h
    exact ⟨rfl, by simp⟩
  | cons a l ih =>
    obtain ⟨d, v⟩ := a
    rw [Store.dbInfos] at h
    cases h1 : s.childrenData Val.isBucket (KeyPath.buckets c t d) with
    | none => simp [h1] at h
    | some bs =>
      cases h2 : s.childrenData Val.isTable (KeyPath.schemas c t d) with
      | none => simp [h1, h2] at h
      | some ts =>
        cases h3 : s.dbInfos c t l with
        | none => simp [h1, h2, h3] at h
        | some r' =>
          simp only [h1, h2, h3, Option.some.injEq] at h
          subst h
          obtain ⟨e1, e2⟩ := ih h3
          refine ⟨by rw [List.map_cons, e1], ?_⟩
          intro e he
          rcases List.mem_cons.1 he with rfl | he
          · exact ⟨h1, h2⟩
          · exact e2 e he

theorem last_dbs (c t : Name) : (KeyPath.dbs c t).getLast? ≠ some '/' := getLast_path [c, sTenants, t] sDbs (by decide) (by decide)
theorem last_roles (c t : Name) : (KeyPath.roles c t).getLast? ≠ some '/' := getLast_path [c, sTenants, t] sRoles (by decide) (by decide)
theorem last_members (c t : Name) : (KeyPath.members c t).getLast? ≠ some '/' :=
  getLast_path [c, sTenants, t] sMembers (by decide) (by decide)
theorem last_buckets (c t d : Name) : (KeyPath.buckets c t d).getLast? ≠ some '/' :=
  getLast_path [c, sTenants, t, sDbs, d] sBuckets (by decide) (by decide)
theorem last_schemas (c t d : Name) : (KeyPath.schemas c t d).getLast? ≠ some '/' :=
  getLast_path [c, sTenants, t, sDbs, d] sSchemas (by decide) (by decide)

theorem child_path (a : List Name) (n : Name) : path a ++ '/' :: n = path (a ++ [n]) := by
  rw [path_append]; simp [path]

/-- Reading everything about a tenant: the cache shows what is stored. -/
theorem toTenantData_follows {s : Store} {c t : Name} {d : TenantData} (h : s.toTenantData c t = some d) :
    Follows c t d s ∧ d.version = s.ver := by
  rw [Store.toTenantData] at h
  cases h1 : s.childrenData Val.isRole (KeyPath.roles c t) with
  | none => simp [h1] at h
  | some roles =>
  cases h2 : s.childrenData Val.isMember (KeyPath.members c t) with
  | none => simp [h1, h2] at h
  | some members =>
  cases h3 : s.childrenData Val.isDb (KeyPath.dbs c t) with
  | none => simp [h1, h2, h3] at h
  | some schemas =>
  cases h4 : s.dbInfos c t schemas.entries with
  | none => simp [h1, h2, h3, h4] at h
  | some infos =>
  simp only [h1, h2, h3, h4, Option.some.injEq] at h
  subst h
  refine ⟨?_, rfl⟩
  obtain ⟨e1, e2⟩ := dbInfos_spec h4
  have hnd : (infos.map Prod.fst).Nodup := by
    have := schemas.nodup
    rw [← e1, List.map_map] at this
    exact this
  have gdb : ∀ x, (infos.foldl (fun m e => m.set e.1 e.2) (AMap.empty : AMap Name DbInfo)).get x = none ∧ schemas.get x = none ∨
      ∃ i, (infos.foldl (fun m e => m.set e.1 e.2) (AMap.empty : AMap Name DbInfo)).get x = some i ∧ schemas.get x = some i.schema ∧
        s.childrenData Val.isBucket (KeyPath.buckets c t x) = some i.buckets ∧
        s.childrenData Val.isTable (KeyPath.schemas c t x) = some i.tables := by
    intro x
    cases hx : (infos.foldl (fun m e => m.set e.1 e.2) (AMap.empty : AMap Name DbInfo)).get x with
    | none =>
      left
      refine ⟨rfl, ?_⟩
      rw [AMap.get_eq_none]
      intro v hv
      rw [← e1] at hv
      obtain ⟨e, he, hev⟩ := List.mem_map.1 hv
      obtain ⟨rfl, rfl⟩ := Prod.mk.inj hev
      rw [AMap.get_foldl_set_of_mem Prod.fst Prod.snd infos .empty e he hnd] at hx
      cases hx
    | some i =>
      right
      refine ⟨i, rfl, ?_⟩
      rw [AMap.get_foldl_set_iff Prod.fst Prod.snd infos .empty x i hnd] at hx
      simp only [AMap.get_empty, reduceCtorEq, and_false, or_false] at hx
      obtain ⟨e, he, rfl, rfl⟩ := hx
      refine ⟨?_, e2 e he⟩
      rw [← AMap.mem_entries, ← e1]
      exact List.mem_map.2 ⟨e, he, rfl⟩
  intro j
  cases j with
  | member u =>
    simp only [TenantData.obs, Store.obs, Item.Good, Store.raw]
    rw [childrenData_get (last_members c t) h2, KeyPath.members, child_path]; rfl
  | role u =>
    simp only [TenantData.obs, Store.obs, Item.Good, Store.raw]
    rw [childrenData_get (last_roles c t) h1, KeyPath.roles, child_path]; rfl
  | db x =>
    have hs := childrenData_get (last_dbs c t) h3 x
    rw [KeyPath.dbs, child_path] at hs
    simp only [TenantData.obs, Store.obs, Item.Good, Store.raw]
    rcases gdb x with ⟨g1, g2⟩ | ⟨i, g1, g2, -⟩
    · rw [g1]; rw [g2] at hs; exact hs
    · rw [g1]; rw [g2] at hs; exact hs
  | table x n =>
    have hs := childrenData_get (last_dbs c t) h3 x
    rw [KeyPath.dbs, child_path] at hs
    simp only [TenantData.obs, Store.obs, Item.Good, Store.raw]
    rcases gdb x with ⟨g1, g2⟩ | ⟨i, g1, g2, g3, g4⟩
    · rw [g1]
      rw [g2] at hs
      by_cases hg : GoodName x
      · rw [if_pos hg] at hs
        have : s.db.get (KeyPath.db c t x) = none := hs.symm
        simp [this]
      · simp [hg]
    · rw [g1]
      rw [g2] at hs
      by_cases hg : GoodName x
      · rw [if_pos hg] at hs
        have : s.db.get (KeyPath.db c t x) = some i.schema := hs.symm
        have ht := childrenData_get (last_schemas c t x) g4 n
        rw [KeyPath.schemas, child_path] at ht
        simp only [this, Option.isSome_some, if_true, hg, true_and, Option.bind_some, ht]
        rfl
      · rw [if_neg hg] at hs; cases hs
  | bucket x n =>
    have hs := childrenData_get (last_dbs c t) h3 x
    rw [KeyPath.dbs, child_path] at hs
    simp only [TenantData.obs, Store.obs, Item.Good, Store.raw]
    rcases gdb x with ⟨g1, g2⟩ | ⟨i, g1, g2, g3, g4⟩
    · rw [g1]
      rw [g2] at hs
      by_cases hg : GoodName x
      · rw [if_pos hg] at hs
        have : s.db.get (KeyPath.db c t x) = none := hs.symm
        simp [this]
      · simp [hg]
    · rw [g1]
      rw [g2] at hs
      by_cases hg : GoodName x
      · rw [if_pos hg] at hs
        have : s.db.get (KeyPath.db c t x) = some i.schema := hs.symm
        have ht := childrenData_get (last_buckets c t x) g3 n
        rw [KeyPath.buckets, child_path] at ht
        simp only [this, Option.isSome_some, if_true, hg, true_and, Option.bind_some, ht]
        rfl
      · rw [if_neg hg] at hs; cases hs

end Verif.Watch
