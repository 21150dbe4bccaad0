import Verif.Watch.CmdProps
/-!
# Histories of commands are legal
-/
namespace Verif.Watch

section
variable {c t c' t' d n : Name}

theorem itemOf_db (hc : Plain c') (ht : Plain t') (hd : Plain d) :
    itemOf c t (KeyPath.db c' t' d) = if c' = c ∧ t' = t then some (.db d) else none := by
  obtain ⟨p1, p2, p3, p4, p5, p6, p7, p8, p9, p10, p11, p12, p13⟩ := plain_consts
  rw [itemOf, KeyPath.db, splitSlash_path (by simp [*])]
  simp

theorem itemOf_member (hc : Plain c') (ht : Plain t') (hd : Plain d) :
    itemOf c t (KeyPath.member c' t' d) = if c' = c ∧ t' = t then some (.member d) else none := by
  obtain ⟨p1, p2, p3, p4, p5, p6, p7, p8, p9, p10, p11, p12, p13⟩ := plain_consts
  rw [itemOf, KeyPath.member, splitSlash_path (by simp [*])]
  simp [show ¬ sMembers = sDbs by decide]

theorem itemOf_role (hc : Plain c') (ht : Plain t') (hd : Plain d) :
    itemOf c t (KeyPath.role c' t' d) = if c' = c ∧ t' = t then some (.role d) else none := by
  obtain ⟨p1, p2, p3, p4, p5, p6, p7, p8, p9, p10, p11, p12, p13⟩ := plain_consts
  rw [itemOf, KeyPath.role, splitSlash_path (by simp [*])]
  simp [show ¬ sRoles = sDbs by decide, show ¬ sRoles = sMembers by decide]

theorem itemOf_table (hc : Plain c') (ht : Plain t') (hd : Plain d) (hn : Plain n) :
    itemOf c t (KeyPath.table c' t' d n) = if c' = c ∧ t' = t then some (.table d n) else none := by
  obtain ⟨p1, p2, p3, p4, p5, p6, p7, p8, p9, p10, p11, p12, p13⟩ := plain_consts
  rw [itemOf, KeyPath.table, splitSlash_path (by simp [*])]
  simp

theorem itemOf_bucket (hc : Plain c') (ht : Plain t') (hd : Plain d) (hn : Plain n) :
    itemOf c t (KeyPath.bucket c' t' d n) = if c' = c ∧ t' = t then some (.bucket d n) else none := by
  obtain ⟨p1, p2, p3, p4, p5, p6, p7, p8, p9, p10, p11, p12, p13⟩ := plain_consts
  rw [itemOf, KeyPath.bucket, splitSlash_path (by simp [*])]
  simp [show ¬ sBuckets = sSchemas by decide]

theorem itemOf_user (hc : Plain c') (hn : Plain n) : itemOf c t (KeyPath.user c' n) = none := by
  obtain ⟨p1, p2, p3, p4, p5, p6, p7, p8, p9, p10, p11, p12, p13⟩ := plain_consts
  rw [itemOf, KeyPath.user, splitSlash_path (by simp [*])]

theorem itemOf_tenant (hc : Plain c') (hn : Plain n) : itemOf c t (KeyPath.tenant c' n) = none := by
  obtain ⟨p1, p2, p3, p4, p5, p6, p7, p8, p9, p10, p11, p12, p13⟩ := plain_consts
  rw [itemOf, KeyPath.tenant, splitSlash_path (by simp [*])]

theorem itemOf_limiter (hc : Plain c') (hn : Plain n) : itemOf c t (KeyPath.limiter c' n) = none := by
  obtain ⟨p1, p2, p3, p4, p5, p6, p7, p8, p9, p10, p11, p12, p13⟩ := plain_consts
  rw [itemOf, KeyPath.limiter, splitSlash_path (by simp [*])]

theorem itemOf_node (hc : Plain c') (hn : Plain n) : itemOf c t (KeyPath.node c' n) = none := by
  obtain ⟨p1, p2, p3, p4, p5, p6, p7, p8, p9, p10, p11, p12, p13⟩ := plain_consts
  rw [itemOf, KeyPath.node, splitSlash_path (by simp [*])]

theorem itemOf_metrics (hc : Plain c') (hn : Plain n) : itemOf c t (KeyPath.nodeMetrics c' n) = none := by
  obtain ⟨p1, p2, p3, p4, p5, p6, p7, p8, p9, p10, p11, p12, p13⟩ := plain_consts
  rw [itemOf, KeyPath.nodeMetrics, splitSlash_path (by simp [*])]

theorem itemOf_mark (hc : Plain c') : itemOf c t (KeyPath.mark c') = none := by
  rw [itemOf, KeyPath.mark, splitSlash_path (by simp [hc]; decide)]
end

/-- Commands with good names; a table is only updated when its database exists. -/
def Cmd.Fine (c t : Name) (s : Store) : Cmd → Prop
  | .set k _ => Rooted k ∧ itemOf c t k = none
  | .addNode c _ _ | .metrics c _ _ _ | .retainId c _ => GoodName c
  | .createDb c t d _ | .alterDb c t d _ | .dbHidden c t d _ | .dropDb c t d | .createBucket c t d _ | .deleteBucket c t d _
  | .updateReplSet c t d _ _ _ _ => GoodName c ∧ GoodName t ∧ GoodName d
  | .createTable c t d n _ _ _ | .dropTable c t d n => GoodName c ∧ GoodName t ∧ GoodName d ∧ GoodName n
  | .updateTable c t d n _ _ _ => (GoodName c ∧ GoodName t ∧ GoodName d ∧ GoodName n) ∧ s.contains (KeyPath.db c t d) = true
  | .createUser c u id _ => GoodName c ∧ GoodName u ∧ GoodName id
  | .alterUser c u _ | .dropUser c u => GoodName c ∧ GoodName u
  | .createTenant c t _ _ _ | .alterTenant c t _ _ _ | .tenantHidden c t _ | .dropTenant c t | .limiterRequest c t => GoodName c ∧ GoodName t
  | .addMember c t u r | .reassign c t u r => GoodName c ∧ GoodName t ∧ GoodName u ∧ GoodName r
  | .removeMember c t u => GoodName c ∧ GoodName t ∧ GoodName u
  | .createRole c t r _ | .dropRole c t r | .grant c t r _ _ => GoodName c ∧ GoodName t ∧ GoodName r

theorem rooted_path (a : Name) (l : List Name) : Rooted (path (a :: l)) := rfl

theorem ok_none {c t : Name} (s : Store) {k : Key} {v : Val} (hv : v.Named) (hr : Rooted k) (hi : itemOf c t k = none) :
    EvOk c t s (.op (.insert k v)) := ⟨hv, hr, fun i h => by rw [hi] at h; cases h⟩

theorem ok_item {c t : Name} (s : Store) {k : Key} {v : Val} {c' t' : Name} {i : Item} (hv : v.Named) (hr : Rooted k)
    (hi : itemOf c t k = if c' = c ∧ t' = t then some i else none) (hk : i.kind v = true) (hg : i.Good)
    (hd : ∀ d, i.inDb d = true → (s.db.get (KeyPath.db c' t' d)).isSome) : EvOk c t s (.op (.insert k v)) := by
  refine ⟨hv, hr, ?_⟩
  intro j hj
  rw [hi] at hj
  split at hj
  · rename_i h
    obtain ⟨rfl, rfl⟩ := h
    obtain rfl := Option.some.inj hj
    exact ⟨hk, hg, hd⟩
  · cases hj

theorem ok_remove {c t : Name} (s : Store) {k : Key} {o : Option Item} (hr : Rooted k) (hi : itemOf c t k = o) (hd : ∀ d, o ≠ some (.db d)) :
    EvOk c t s (.op (.remove k)) := ⟨hr, fun d => by rw [hi]; exact hd d⟩

theorem evsOk_removes {c t : Name} (ks : List Key) (s : Store) (h : ∀ k ∈ ks, Rooted k ∧ ∀ d, itemOf c t k ≠ some (.db d)) :
    EvsOk c t s (ks.map fun k => Event.op (.remove k)) := by
  induction ks generalizing s with
  | nil => exact True.intro
  | cons k ks ih => exact ⟨h k List.mem_cons_self, ih _ (fun k hk => h k (List.mem_cons_of_mem _ hk))⟩

theorem evsOk_append {c t : Name} (a b : List Event) (s : Store) (ha : EvsOk c t s a) (hb : EvsOk c t (a.foldl Store.event s) b) :
    EvsOk c t s (a ++ b) := by
  induction a generalizing s with
  | nil => exact hb
  | cons e a ih => exact ⟨ha.1, ih _ ha.2 hb⟩

theorem removeAll_events (s : Store) (ks : List Key) : ∃ l : List Key, (∀ k ∈ l, k ∈ ks) ∧ (s.removeAll ks).1 = l.map fun k => Event.op (.remove k) := by
  induction ks with
  | nil => exact ⟨[], by simp, rfl⟩
  | cons k ks ih =>
    rw [Store.removeAll]
    split
    · obtain ⟨l, h1, h2⟩ := ih
      refine ⟨k :: l, ?_, by simp only [h2, List.map_cons]⟩
      intro x hx
      rcases List.mem_cons.1 hx with rfl | hx
      · exact List.mem_cons_self
      · exact List.mem_cons_of_mem _ (h1 x hx)
    · exact ⟨[], by simp, rfl⟩

theorem childrenData_mem {s : Store} {kind : Val → Bool} {p : Key} {m : AMap Name Val} (h : s.childrenData kind p = some m) {v : Val}
    (hv : v ∈ m.entries.map Prod.snd) : ∃ k, s.db.get k = some v := by
  obtain ⟨⟨x, w⟩, hm, rfl⟩ := List.mem_map.1 hv
  simp only [Store.childrenData] at h
  split at h
  · rw [AMap.mem_entries, ← Option.some.inj h] at hm
    have key : ∀ (l : List (Name × Val)) (m : AMap Name Val), (l.foldl (fun m e => m.set e.1 e.2) m).get x = some w →
        (x, w) ∈ l ∨ m.get x = some w := by
      intro l
      induction l with
      | nil => exact fun m h => .inr h
      | cons e l ih =>
        intro m h
        rw [List.foldl_cons] at h
        rcases ih _ h with h | h
        · exact .inl (List.mem_cons_of_mem _ h)
        · rw [AMap.get_set] at h
          split at h
          · rename_i hx
            left
            rw [← Option.some.inj h, hx]
            exact List.mem_cons_self
          · exact .inr h
    rcases key _ _ hm with h | h
    · rw [Store.childrenList, List.mem_filterMap] at h
      obtain ⟨⟨k, w'⟩, hk, h⟩ := h
      simp only [Option.map_eq_some_iff, Prod.mk.injEq] at h
      obtain ⟨_, _, _, rfl⟩ := h
      exact ⟨k, AMap.mem_entries.1 hk⟩
    · simp at h
  · cases h

theorem values_mem {s : Store} {kind : Val → Bool} {p : Key} {l : List Val} (h : s.values kind p = some l) {v : Val} (hv : v ∈ l) :
    ∃ k, s.db.get k = some v := by
  rw [Store.values, Option.map_eq_some_iff] at h
  obtain ⟨m, hm, rfl⟩ := h
  exact childrenData_mem hm hv

theorem readUsers_named {c t c' : Name} {s : Store} (hs : Tidy c t s) {us : List (Name × Name)} (h : s.readUsers c' = some us) :
    ∀ u ∈ us, GoodName u.1 ∧ GoodName u.2 := by
  intro u hu
  rw [Store.readUsers, Option.map_eq_some_iff] at h
  obtain ⟨l, hl, rfl⟩ := h
  obtain ⟨v, hv, hu⟩ := List.mem_filterMap.1 hu
  obtain ⟨k, hk⟩ := values_mem hl hv
  have := hs.named k v hk
  cases v <;> simp only [reduceCtorEq] at hu
  rw [← Option.some.inj hu]
  exact this

theorem readRoles_named {c t c' t' : Name} {s : Store} (hs : Tidy c t s) {us : List Name} (h : s.readRoles c' t' = some us) :
    ∀ u ∈ us, GoodName u := by
  intro u hu
  rw [Store.readRoles, Option.map_eq_some_iff] at h
  obtain ⟨l, hl, rfl⟩ := h
  obtain ⟨v, hv, hu⟩ := List.mem_filterMap.1 hu
  obtain ⟨k, hk⟩ := values_mem hl hv
  have := hs.named k v hk
  cases v <;> simp only [reduceCtorEq] at hu
  rw [← Option.some.inj hu]
  exact this

/-- Every command but the dropping of a database makes only writes that keep the store tidy. -/
theorem exec_ok {c t : Name} (env : Env) {s : Store} (hs : Tidy c t s) (cmd : Cmd)
    (hf : cmd.Fine c t s) (hnd : ∀ c t d, cmd ≠ .dropDb c t d) : EvsOk c t s (s.exec env cmd).1 := by
  cases cmd with
  | set k v => exact ⟨ok_none s True.intro hf.1 hf.2, True.intro⟩
  | addNode c' id addr =>
    simp only [Store.exec]
    split
    · exact True.intro
    · split
      · exact True.intro
      · refine ⟨ok_none s True.intro (rooted_path _ _) (itemOf_node hf.2 (decName_good id).2), ?_⟩
        split
        · exact True.intro
        · exact ⟨ok_none _ True.intro (rooted_path _ _) (itemOf_mark hf.2), True.intro⟩
  | metrics c' id h f => exact ⟨ok_none s True.intro (rooted_path _ _) (itemOf_metrics hf.2 (decName_good id).2), True.intro⟩
  | createDb c' t' d o =>
    obtain ⟨h1, h2, h3⟩ := hf
    simp only [Store.exec]
    split
    · exact True.intro
    · split
      · exact ⟨ok_item s h3 (rooted_path _ _) (itemOf_db h1.2 h2.2 h3.2) rfl h3 (by intro d h; simp [Item.inDb] at h), True.intro⟩
      · exact True.intro
  | alterDb c' t' d o =>
    obtain ⟨h1, h2, h3⟩ := hf
    simp only [Store.exec]
    split
    · split
      · exact ⟨ok_item s h3 (rooted_path _ _) (itemOf_db h1.2 h2.2 h3.2) rfl h3 (by intro d h; simp [Item.inDb] at h), True.intro⟩
      · exact True.intro
    · exact True.intro
  | dbHidden c' t' d h =>
    obtain ⟨h1, h2, h3⟩ := hf
    simp only [Store.exec]
    split
    · rename_i nm o hg
      exact ⟨ok_item s (show GoodName nm from hs.named _ _ hg) (rooted_path _ _) (itemOf_db h1.2 h2.2 h3.2) rfl h3 (by intro d h; simp [Item.inDb] at h), True.intro⟩
    · exact True.intro
  | dropDb c' t' d => exact absurd rfl (hnd c' t' d)
  | createTable c' t' d n e v cols =>
    obtain ⟨h1, h2, h3, h4⟩ := hf
    simp only [Store.exec]
    split
    · exact True.intro
    · rename_i hdb
      split
      · exact True.intro
      · refine ⟨ok_item s True.intro (rooted_path _ _) (itemOf_table h1.2 h2.2 h3.2 h4.2) rfl ⟨h3, h4⟩ ?_, True.intro⟩
        intro d' hd'
        simp only [Item.inDb, decide_eq_true_eq] at hd'
        subst hd'
        simpa [Store.contains, Option.isSome_iff_ne_none] using hdb
  | updateTable c' t' d n e v cols =>
    obtain ⟨⟨h1, h2, h3, h4⟩, h5⟩ := hf
    have hgo : EvOk c t s (.op (.insert (KeyPath.table c' t' d n) (.table d n e v cols))) := by
      refine ok_item s True.intro (rooted_path _ _) (itemOf_table h1.2 h2.2 h3.2 h4.2) rfl ⟨h3, h4⟩ ?_
      intro d' hd'
      simp only [Item.inDb, decide_eq_true_eq] at hd'
      subst hd'
      exact h5
    simp only [Store.exec]
    split
    · split
      · exact True.intro
      · split
        · exact True.intro
        · exact ⟨hgo, True.intro⟩
    · exact True.intro
    · exact ⟨hgo, True.intro⟩
  | dropTable c' t' d n =>
    obtain ⟨h1, h2, h3, h4⟩ := hf
    simp only [Store.exec]
    split
    · exact ⟨ok_remove s (rooted_path _ _) (itemOf_table h1.2 h2.2 h3.2 h4.2) (by intro d'; split <;> simp), True.intro⟩
    · exact True.intro
  | createBucket c' t' d ts =>
    obtain ⟨h1, h2, h3⟩ := hf
    simp only [Store.exec, Store.createBucket]
    split
    · exact True.intro
    split
    · exact True.intro
    split
    · rename_i nm o nodes hdb hnodes
      split
      · exact True.intro
      split
      · exact True.intro
      split
      · exact True.intro
      split
      · exact ⟨h1.2, True.intro⟩
      · refine ⟨h1.2, h1.2, ?_, True.intro⟩
        refine ok_item _ True.intro (rooted_path _ _) (itemOf_bucket h1.2 h2.2 h3.2 (decName_good _).2) rfl ⟨h3, decName_good _⟩ ?_
        intro d' hd'
        simp only [Item.inDb, decide_eq_true_eq] at hd'
        subst hd'
        simp only [Store.event, AMap.get_set]
        split
        · rfl
        · rw [hdb]; rfl
    · exact True.intro
  | deleteBucket c' t' d id =>
    obtain ⟨h1, h2, h3⟩ := hf
    exact ⟨ok_remove s (rooted_path _ _) (itemOf_bucket h1.2 h2.2 h3.2 (decName_good id).2) (by intro d'; split <;> simp), True.intro⟩
  | updateReplSet c' t' d id repl del add =>
    obtain ⟨h1, h2, h3⟩ := hf
    simp only [Store.exec]
    split
    · rename_i b hb
      split
      · refine ⟨?_, True.intro⟩
        refine ⟨True.intro, rooted_path _ _, ?_⟩
        intro i hi
        rw [itemOf_bucket h1.2 h2.2 h3.2 (decName_good id).2] at hi
        split at hi
        · rename_i hct
          obtain ⟨rfl, rfl⟩ := hct
          obtain rfl := Option.some.inj hi
          refine ⟨rfl, ⟨h3, decName_good id⟩, ?_⟩
          intro d' hd'
          have hd2 := hd'
          simp only [Item.inDb, decide_eq_true_eq] at hd2
          subst hd2
          cases hn : s.db.get (KeyPath.db c' t' d) with
          | some _ => rfl
          | none =>
            have := hs.db d hn (.bucket d (decName id)) hd' ⟨h3, decName_good id⟩
            simp only [Item.key] at this
            rw [this] at hb
            cases hb
        · cases hi
      · exact ⟨ok_remove s (rooted_path _ _) (itemOf_bucket h1.2 h2.2 h3.2 (decName_good id).2) (by intro d'; split <;> simp), True.intro⟩
    · exact True.intro
  | createUser c' u id o =>
    obtain ⟨h1, h2, h3⟩ := hf
    simp only [Store.exec]
    split
    · exact True.intro
    · exact ⟨ok_none s ⟨h3, h2⟩ (rooted_path _ _) (itemOf_user h1.2 h2.2), True.intro⟩
  | alterUser c' u o =>
    obtain ⟨h1, h2⟩ := hf
    simp only [Store.exec]
    split
    · rename_i hg
      exact ⟨ok_none s ⟨(hs.named _ _ hg).1, h2⟩ (rooted_path _ _) (itemOf_user h1.2 h2.2), True.intro⟩
    · exact True.intro
  | dropUser c' u =>
    obtain ⟨h1, h2⟩ := hf
    simp only [Store.exec]
    split
    · rename_i id x y hu
      split
      · exact True.intro
      · rename_i ts hts
        have hid := (hs.named _ _ hu).1
        have hn : ∀ n ∈ ts.flatMap tenantName, GoodName n := by
          intro n hn
          obtain ⟨v, hv, hn⟩ := List.mem_flatMap.1 hn
          obtain ⟨k, hk⟩ := values_mem hts hv
          have := hs.named k v hk
          cases v <;> simp only [tenantName, List.not_mem_nil, List.mem_singleton] at hn
          subst hn
          exact this
        have he : (ts.flatMap tenantName).map (fun n => Event.op (.remove (KeyPath.member n n id))) =
            ((ts.flatMap tenantName).map (fun n => KeyPath.member n n id)).map (fun k => Event.op (.remove k)) := by
          rw [List.map_map]; rfl
        simp only [he]
        refine evsOk_append _ _ _ (evsOk_removes _ s ?_) ?_
        · intro k hk
          obtain ⟨n, hm, rfl⟩ := List.mem_map.1 hk
          refine ⟨rooted_path _ _, fun d => ?_⟩
          rw [itemOf_member (hn n hm).2 (hn n hm).2 hid.2]
          split <;> simp
        exact ⟨ok_remove _ (rooted_path _ _) (itemOf_user h1.2 h2.2) (by simp), True.intro⟩
    · exact True.intro
    · exact True.intro
  | createTenant c' t' h o l =>
    obtain ⟨h1, h2⟩ := hf
    simp only [Store.exec]
    split
    · exact True.intro
    · refine ⟨?_, ok_none _ h2 (rooted_path _ _) (itemOf_tenant h1.2 h2.2), True.intro⟩
      cases l with
      | none => exact ok_remove s (rooted_path _ _) (itemOf_limiter h1.2 h2.2) (by simp)
      | some n => exact ok_none s True.intro (rooted_path _ _) (itemOf_limiter h1.2 h2.2)
  | alterTenant c' t' h o l =>
    obtain ⟨h1, h2⟩ := hf
    simp only [Store.exec]
    split
    · refine ⟨ok_none _ h2 (rooted_path _ _) (itemOf_tenant h1.2 h2.2), ?_, True.intro⟩
      cases l with
      | none => exact ok_remove _ (rooted_path _ _) (itemOf_limiter h1.2 h2.2) (by simp)
      | some n => exact ok_none _ True.intro (rooted_path _ _) (itemOf_limiter h1.2 h2.2)
    · exact True.intro
  | tenantHidden c' t' h =>
    obtain ⟨h1, h2⟩ := hf
    simp only [Store.exec]
    split
    · rename_i l _
      refine ⟨ok_none _ h2 (rooted_path _ _) (itemOf_tenant h1.2 h2.2), ?_, True.intro⟩
      cases l with
      | none => exact ok_remove _ (rooted_path _ _) (itemOf_limiter h1.2 h2.2) (by simp)
      | some n => exact ok_none _ True.intro (rooted_path _ _) (itemOf_limiter h1.2 h2.2)
    · exact True.intro
  | dropTenant c' t' =>
    obtain ⟨h1, h2⟩ := hf
    simp only [Store.exec]
    split
    · rename_i ms us hms hus
      have hun := readUsers_named hs hus
      obtain ⟨l1, hl1, he1⟩ := removeAll_events s ((us.filter fun u => ms.contains u.2).map fun u => KeyPath.member c' t' u.1)
      have hok1 : ∀ k ∈ l1, Rooted k ∧ ∀ d, itemOf c t k ≠ some (.db d) := by
        intro k hk
        obtain ⟨u, hu, rfl⟩ := List.mem_map.1 (hl1 k hk)
        refine ⟨rooted_path _ _, fun d => ?_⟩
        rw [itemOf_member h1.2 h2.2 (hun u (List.mem_filter.1 hu).1).1.2]
        split <;> simp
      have hev1 : EvsOk c t s (s.removeAll ((us.filter fun u => ms.contains u.2).map fun u => KeyPath.member c' t' u.1)).1 := by
        rw [he1]; exact evsOk_removes _ _ hok1
      split
      · split
        · rename_i roles hroles
          have hrn := readRoles_named hs hroles
          obtain ⟨l2, hl2, he2⟩ := removeAll_events s (roles.map fun n => KeyPath.role c' t' n)
          have hok2 : ∀ k ∈ l2, Rooted k ∧ ∀ d, itemOf c t k ≠ some (.db d) := by
            intro k hk
            obtain ⟨u, hu, rfl⟩ := List.mem_map.1 (hl2 k hk)
            refine ⟨rooted_path _ _, fun d => ?_⟩
            rw [itemOf_role h1.2 h2.2 (hrn u hu).2]
            split <;> simp
          have hev2 : ∀ s', EvsOk c t s' (s.removeAll (roles.map fun n => KeyPath.role c' t' n)).1 := by
            intro s'; rw [he2]; exact evsOk_removes _ _ hok2
          split
          · refine evsOk_append _ _ _ (evsOk_append _ _ _ hev1 (hev2 _)) ?_
            exact ⟨ok_remove _ (rooted_path _ _) (itemOf_tenant h1.2 h2.2) (by simp),
              ok_remove _ (rooted_path _ _) (itemOf_limiter h1.2 h2.2) (by simp), True.intro⟩
          · exact evsOk_append _ _ _ hev1 (hev2 _)
        · exact hev1
      · exact hev1
    · exact True.intro
  | addMember c' t' u r =>
    obtain ⟨h1, h2, h3, h4⟩ := hf
    simp only [Store.exec]
    split
    · exact True.intro
    · split
      · exact ⟨ok_item s True.intro (rooted_path _ _) (itemOf_member h1.2 h2.2 h3.2) rfl h3 (by intro d h; simp [Item.inDb] at h), True.intro⟩
      · exact True.intro
  | removeMember c' t' u =>
    obtain ⟨h1, h2, h3⟩ := hf
    simp only [Store.exec]
    split
    · exact ⟨ok_remove s (rooted_path _ _) (itemOf_member h1.2 h2.2 h3.2) (by intro d'; split <;> simp), True.intro⟩
    · exact True.intro
  | reassign c' t' u r =>
    obtain ⟨h1, h2, h3, h4⟩ := hf
    simp only [Store.exec]
    split
    · exact True.intro
    · split
      · exact ⟨ok_item s True.intro (rooted_path _ _) (itemOf_member h1.2 h2.2 h3.2) rfl h3 (by intro d h; simp [Item.inDb] at h), True.intro⟩
      · exact True.intro
  | createRole c' t' r p =>
    obtain ⟨h1, h2, h3⟩ := hf
    simp only [Store.exec]
    split
    · exact True.intro
    · exact ⟨ok_item s h3 (rooted_path _ _) (itemOf_role h1.2 h2.2 h3.2) rfl h3 (by intro d h; simp [Item.inDb] at h), True.intro⟩
  | dropRole c' t' r =>
    obtain ⟨h1, h2, h3⟩ := hf
    simp only [Store.exec]
    split
    · exact ⟨ok_remove s (rooted_path _ _) (itemOf_role h1.2 h2.2 h3.2) (by intro d'; split <;> simp), True.intro⟩
    · exact True.intro
  | grant c' t' r dbs p =>
    obtain ⟨h1, h2, h3⟩ := hf
    simp only [Store.exec]
    split
    · rename_i oid nm _ hg
      split
      · exact ⟨ok_item s (show GoodName nm from hs.named _ _ hg) (rooted_path _ _) (itemOf_role h1.2 h2.2 h3.2) rfl h3 (by intro d h; simp [Item.inDb] at h), True.intro⟩
      · exact True.intro
    · exact True.intro
  | retainId c' n => exact ⟨hf.2, True.intro⟩
  | limiterRequest c' t' =>
    obtain ⟨h1, h2⟩ := hf
    simp only [Store.exec]
    split
    · exact ⟨ok_none s True.intro (rooted_path _ _) (itemOf_limiter h1.2 h2.2), True.intro⟩
    · exact True.intro
    · exact True.intro

theorem evOk_rooted {c t : Name} {s : Store} {k : Key} (h : EvOk c t s (.op (.remove k))) : Rooted k := h.1

/-- Dropping a database keeps the store tidy. -/
theorem tidy_dropDb {c t c' t' d : Name} (hc : Plain c) (ht : Plain t) (env : Env) {s : Store} (hs : Tidy c t s)
    (h1 : GoodName c') (h2 : GoodName t') (h3 : GoodName d) : Tidy c t (s.command env (.dropDb c' t' d)) := by
  obtain ⟨g1, g2, g3⟩ := C111_drop_db env s h1.2 h2.2 h3
  have hnv : ∀ i : Item, i.Plain → i.key c t ≠ KeyPath.version := fun i hi => Item.key_ne_version hc ht hi
  have hmono : ∀ k v, (s.command env (.dropDb c' t' d)).db.get k = some v → s.db.get k = some v := by
    intro k v hk
    have hev : (s.exec env (.dropDb c' t' d)).1 = (KeyPath.db c' t' d :: (s.childrenFullpath (KeyPath.buckets c' t' d) ++
        s.childrenFullpath (KeyPath.schemas c' t' d))).map fun k => Event.op (.remove k) := by
      simp [Store.exec]
    rw [Store.command, hev] at hk
    generalize (KeyPath.db c' t' d :: (s.childrenFullpath (KeyPath.buckets c' t' d) ++
        s.childrenFullpath (KeyPath.schemas c' t' d))) = l at hk
    clear hs g1 g2 g3 hev
    induction l generalizing s with
    | nil => exact hk
    | cons x l ih =>
      have := ih hk
      simp only [Store.event, Store.apply, Store.remove] at this
      split at this
      · exact this
      · rw [AMap.get_del] at this
        split at this
        · cases this
        · exact this
  refine ⟨?_, fun k v hk => hs.named k v (hmono k v hk)⟩
  intro x hx j hj hg
  have hxg := inDb_good hj hg
  cases hn : (s.command env (.dropDb c' t' d)).db.get (j.key c t) with
  | none => rfl
  | some v =>
    exfalso
    have hold := hmono _ _ hn
    have hdb : s.db.get (KeyPath.db c t x) ≠ none := by
      intro h
      rw [hs.db x h j hj hg] at hold
      cases hold
    by_cases hsame : KeyPath.db c t x = KeyPath.db c' t' d
    · have hi := itemOf_db (c := c) (t := t) h1.2 h2.2 h3.2
      have hi2 := itemOf_db (c := c) (t := t) hc ht hxg.2
      rw [hsame, hi] at hi2
      simp only [and_self, if_true] at hi2
      split at hi2
      · rename_i hh
        obtain ⟨rfl, rfl⟩ := hh
        injection hi2 with hi2
        injection hi2 with hi2
        subst hi2
        rw [g2 j hj hg] at hn
        cases hn
      · cases hi2
    · have := g3 (KeyPath.db c t x) (hnv (.db x) hxg.2) hsame ?_
      · rw [this] at hx
        exact hdb hx
      · intro i hi hgi hh
        have h5 := itemOf_db (c := c) (t := t) hc ht hxg.2
        rw [hh] at h5
        cases i with
        | table y n =>
          simp only [Item.key] at h5
          rw [itemOf_table h1.2 h2.2 hgi.1.2 hgi.2.2] at h5
          simp only [and_self, if_true] at h5
          split at h5
          · injection h5 with h5; cases h5
          · cases h5
        | bucket y n =>
          simp only [Item.key] at h5
          rw [itemOf_bucket h1.2 h2.2 hgi.1.2 hgi.2.2] at h5
          simp only [and_self, if_true] at h5
          split at h5
          · injection h5 with h5; cases h5
          · cases h5
        | member u => simp [Item.inDb] at hi
        | role u => simp [Item.inDb] at hi
        | db u => simp [Item.inDb] at hi

/-- A command keeps the store tidy. -/
theorem tidy_command {c t : Name} (hc : Plain c) (ht : Plain t) (env : Env) {s : Store} (hs : Tidy c t s) (cmd : Cmd)
    (hf : cmd.Fine c t s) : Tidy c t (s.command env cmd) := by
  by_cases hd : ∃ c' t' d, cmd = .dropDb c' t' d
  · obtain ⟨c', t', d, rfl⟩ := hd
    exact tidy_dropDb hc ht env hs hf.1 hf.2.1 hf.2.2
  · exact tidy_events hc ht _ hs (exec_ok env hs cmd hf (fun c' t' d h => hd ⟨c', t', d, h⟩))

/-- The writes of commands one after the other, from a state on. -/
def history : Store → List (Env × Cmd) → List Event
  | _, [] => []
  | s, e :: l => (s.exec e.1 e.2).1 ++ history (s.command e.1 e.2) l

/-- Every command is fine where it is applied. -/
def AllFine (c t : Name) : Store → List (Env × Cmd) → Prop
  | _, [] => True
  | s, e :: l => e.2.Fine c t s ∧ AllFine c t (s.command e.1 e.2) l

theorem history_run (cap : Nat) (es : List Event) (l : List (Env × Cmd)) :
    Store.run cap (es ++ history (Store.run cap es) l) = (Store.run cap es).commands l := by
  induction l generalizing es with
  | nil => simp [history, Store.commands]
  | cons e l ih =>
    have h1 : (Store.run cap es).command e.1 e.2 = Store.run cap (es ++ ((Store.run cap es).exec e.1 e.2).1) := by
      rw [run_events]; rfl
    rw [history, ← List.append_assoc, h1, ih, ← h1]
    rfl

theorem tidy_init (c t : Name) (cap : Nat) : Tidy c t (Store.init cap) :=
  ⟨fun d _ j _ _ => by simp [Store.init], fun k v h => by simp [Store.init] at h⟩

theorem legal_history {c t : Name} (hc : Plain c) (ht : Plain t) (cap : Nat) (l : List (Env × Cmd)) (es : List Event)
    (h : Legal c t es) (hs : Tidy c t (Store.run cap es)) (hf : AllFine c t (Store.run cap es) l) :
    Legal c t (es ++ history (Store.run cap es) l) ∧ Tidy c t ((Store.run cap es).commands l) := by
  induction l generalizing es with
  | nil => rw [history, List.append_nil]; exact ⟨h, hs⟩
  | cons e l ih =>
    have h1 : (Store.run cap es).command e.1 e.2 = Store.run cap (es ++ ((Store.run cap es).exec e.1 e.2).1) := by
      rw [run_events]; rfl
    have ht1 := tidy_command hc ht e.1 hs e.2 hf.1
    have hl1 : Legal c t (es ++ ((Store.run cap es).exec e.1 e.2).1) := by
      by_cases hd : ∃ c' t' d, e.2 = .dropDb c' t' d
      · obtain ⟨c', t', d, he⟩ := hd
        have hf1 := hf.1
        rw [he] at hf1 ⊢
        have hev : ((Store.run cap es).exec e.1 (.dropDb c' t' d)).1 = (KeyPath.db c' t' d ::
            ((Store.run cap es).childrenFullpath (KeyPath.buckets c' t' d) ++
            (Store.run cap es).childrenFullpath (KeyPath.schemas c' t' d))).map fun k => Event.op (.remove k) := by
          simp [Store.exec]
        rw [hev]
        refine legal_removes hc ht cap _ h ?_
        intro k hk
        rw [List.mem_cons, List.mem_append] at hk
        rcases hk with rfl | hk | hk
        · exact rooted_path _ _
        · obtain ⟨n, _, rfl, _⟩ := (mem_childrenFullpath (last_buckets c' t' d)).1 hk
          rfl
        · obtain ⟨n, _, rfl, _⟩ := (mem_childrenFullpath (last_schemas c' t' d)).1 hk
          rfl
      · exact legal_events hc ht cap _ h hs (exec_ok e.1 hs e.2 hf.1 (fun c' t' d h => hd ⟨c', t', d, h⟩))
    have hf2 := hf.2
    rw [h1] at ht1 hf2
    have := ih _ hl1 ht1 hf2
    rw [history, ← List.append_assoc, h1]
    refine ⟨this.1, ?_⟩
    have h2 := this.2
    rw [← h1] at h2
    exact h2

/-- The histories of commands with good names that update no table of a missing database are those for which the caches of the
nodes follow the store (`C108_follows_partial`, `C109_partial`). -/
theorem C108_commands_legal {c t : Name} (hc : Plain c) (ht : Plain t) (cap : Nat) (l : List (Env × Cmd))
    (hf : AllFine c t (Store.init cap) l) :
    Legal c t (history (Store.init cap) l) ∧ Store.run cap (history (Store.init cap) l) = (Store.init cap).commands l ∧
      Tidy c t ((Store.init cap).commands l) := by
  have h0 : Legal c t [] := ⟨by intro c n h; simp at h, by intro k hk; simp [ops] at hk⟩
  have h1 := legal_history hc ht cap l [] h0 (tidy_init c t cap) hf
  have h2 := history_run cap [] l
  rw [List.nil_append] at h1 h2
  exact ⟨h1.1, h2, h1.2⟩

end Verif.Watch
