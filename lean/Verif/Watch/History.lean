import Verif.Watch.Sync
import Verif.Watch.LogProps
/-!
# The states a server goes through, and caches that follow them
-/
namespace Verif.Watch

/-- The writes among the events. -/
def ops : List Event → List Op
  | [] => []
  | .op o :: es => o :: ops es
  | _ :: es => ops es

/-- The state after writes. -/
def after (os : List Op) : Store := os.foldl Store.apply (Store.init 1)

theorem ops_append (a b : List Event) : ops (a ++ b) = ops a ++ ops b := by
  induction a with
  | nil => rfl
  | cons e a ih => cases e <;> simp only [List.cons_append, ops, ih]

theorem changes_length (v : Nat) (es : List Event) : (changes v es).length = (ops es).length := by
  induction es generalizing v with
  | nil => rfl
  | cons e a ih => cases e <;> simp only [changes, ops, ih, List.length_cons]

theorem changes_get (v : Nat) (es : List Event) (i : Nat) (hi : i < (ops es).length) :
    (changes v es)[i]'(by rw [changes_length]; exact hi) = ((ops es)[i]).entry (v + i + 1) := by
  induction es generalizing v i with
  | nil => cases hi
  | cons e a ih =>
    cases e with
    | op o =>
      cases i with
      | zero => rfl
      | succ i =>
        simp only [changes, ops, List.getElem_cons_succ]
        rw [ih (v + 1) i (by simpa [ops] using hi)]
        congr 1; omega
    | retain c n => exact ih v i hi
    | restart => exact ih v i hi

theorem after_snoc (os : List Op) (o : Op) : after (os ++ [o]) = (after os).apply o := by
  simp [after, List.foldl_append]

theorem apply_ver (s : Store) (o : Op) : (s.apply o).ver = s.ver + 1 := by cases o <;> rfl

theorem apply_db (s s' : Store) (o : Op) (k : Key) (h : s.db.get k = s'.db.get k) : (s.apply o).db.get k = (s'.apply o).db.get k := by
  cases o with
  | insert x v =>
    simp only [Store.apply, Store.insert]
    split
    · exact h
    · rw [AMap.get_set, AMap.get_set, h]
  | remove x =>
    simp only [Store.apply, Store.remove]
    split
    · exact h
    · rw [AMap.get_del, AMap.get_del, h]

theorem after_ver (os : List Op) : (after os).ver = os.length := by
  suffices H : ∀ (os : List Op) (s : Store), (os.foldl Store.apply s).ver = s.ver + os.length by
    have := H os (Store.init 1)
    rw [after, this]; simp [Store.init]
  intro os
  induction os with
  | nil => intro s; rfl
  | cons o os ih => intro s; rw [List.foldl_cons, ih, apply_ver, List.length_cons]; omega

theorem run_snoc (cap : Nat) (es : List Event) (e : Event) : Store.run cap (es ++ [e]) = (Store.run cap es).event e := by
  simp [Store.run, List.foldl_append]

/-- The ids are taken with a key of their own. -/
def RetainsOk (es : List Event) : Prop := ∀ c n, Event.retain c n ∈ es → Plain c

theorem incrId_not_item {c t c' : Name} (hc' : Plain c') : itemOf c t (KeyPath.incrId c') = none := by
  obtain ⟨p1, p2, p3, p4, p5, p6, p7, p8, p9, p10, p11, p12, p13⟩ := plain_consts
  have : splitSlash (KeyPath.incrId c') = [[], c', sIncr] := by
    have h := splitSlash_path (segs := [c', sIncr]) (by simp [hc', p10])
    exact h
  rw [itemOf, this]

/-- What is stored under the key of an object is what the writes left there. -/
theorem run_get {c t : Name} (hc : Plain c) (ht : Plain t) (cap : Nat) (es : List Event) (hr : RetainsOk es) {i : Item} (hi : i.Plain) :
    (Store.run cap es).db.get (i.key c t) = (after (ops es)).db.get (i.key c t) := by
  suffices H : ∀ (n : Nat) (es : List Event), es.length = n → RetainsOk es →
      (Store.run cap es).db.get (i.key c t) = (after (ops es)).db.get (i.key c t) from H _ es rfl hr
  intro n
  induction n with
  | zero =>
    intro es h _
    obtain rfl := List.eq_nil_of_length_eq_zero h
    rfl
  | succ n ih =>
    intro es h hr
    rcases List.eq_nil_or_concat es with rfl | ⟨es', e, rfl⟩
    · simp at h
    rw [List.concat_eq_append] at h hr ⊢
    have hI := ih es' (by simpa using h) (fun c n hm => hr c n (by simp [hm]))
    rw [run_snoc, ops_append]
    cases e with
    | op o =>
      simp only [ops, after_snoc, Store.event]
      exact apply_db _ _ _ _ hI
    | retain c' m =>
      simp only [ops, Store.event, List.append_nil, AMap.get_set]
      rw [if_neg, hI]
      intro hk
      have h1 := (itemOf_eq_some hc ht).2 ⟨rfl, hi⟩
      rw [hk, incrId_not_item (hr c' m (by simp))] at h1
      cases h1
    | restart => simpa only [ops, List.append_nil, Store.event, Store.reopen] using hI

theorem run_obs {c t : Name} (hc : Plain c) (ht : Plain t) (cap : Nat) (es : List Event) (hr : RetainsOk es) (i : Item) :
    (Store.run cap es).obs c t i = (after (ops es)).obs c t i := by
  rw [Store.obs, Store.obs]
  by_cases hg : i.Good
  · rw [if_pos hg, if_pos hg]
    have key := fun {i : Item} (hi : i.Plain) => run_get hc ht cap es hr hi
    cases i with
    | member u => exact key (i := .member u) hg.plain
    | role u => exact key (i := .role u) hg.plain
    | db u => exact key (i := .db u) hg.plain
    | table x n =>
      have h1 := key (i := .db x) hg.plain.1
      have h2 := key (i := .table x n) hg.plain
      simp only [Item.key] at h1 h2
      simp only [Store.raw, h1, h2]
    | bucket x n =>
      have h1 := key (i := .db x) hg.plain.1
      have h2 := key (i := .bucket x n) hg.plain
      simp only [Item.key] at h1 h2
      simp only [Store.raw, h1, h2]
  · rw [if_neg hg, if_neg hg]

theorem run_ver {cap : Nat} (hcap : 0 < cap) (es : List Event) : (Store.run cap es).ver = (ops es).length := by
  rw [(run_inv hcap es).1, changes_length]

/-- Every write to the tenant stores a value of the right type under a name that can be found, and a database is
created only when no tables and buckets are stored below its name. -/
def Legal (c t : Name) (es : List Event) : Prop :=
  RetainsOk es ∧ ∀ k (hk : k < (ops es).length), OpOk c t (after ((ops es).take k)) ((ops es)[k]) ∧ Rooted ((ops es)[k].entry 0).key

theorem Legal.prefix {c t : Name} {a b : List Event} (h : Legal c t (a ++ b)) : Legal c t a := by
  refine ⟨fun c n hm => h.1 c n (by simp [hm]), ?_⟩
  intro k hk
  have hk' : k < (ops (a ++ b)).length := by rw [ops_append, List.length_append]; omega
  have := h.2 k hk'
  simp only [ops_append] at this
  rw [List.take_append_of_le_length (by omega), List.getElem_append_left hk] at this
  exact this

/-- The cache shows what was stored at each version from its own up to `m`. -/
def Upto (c t : Name) (os : List Op) (d : TenantData) (m : Nat) : Prop :=
  ∀ v, d.version ≤ v → v ≤ m → v ≤ os.length → Follows c t d (after (os.take v))

theorem deliver_version (c t : Name) (d : TenantData) (e : Entry) :
    deliver c t d e = d ∨ (deliver c t d e).version = e.ver ∧ d.version < e.ver := by
  rw [deliver]
  split
  · split
    · rw [TenantData.processLog]
      split
      · exact .inl rfl
      · right
        rw [change_version]
        exact ⟨rfl, by omega⟩
    · exact .inl rfl
  · exact .inl rfl

/-- One change: a cache that is right up to a version is right up to the next one. -/
theorem upto_step {c t : Name} (hc : Plain c) (ht : Plain t) {es : List Event} (hl : Legal c t es) {d : TenantData} {m : Nat}
    (hm : m < (ops es).length) (hv : d.version ≤ m) (h : Upto c t (ops es) d m) :
    Upto c t (ops es) (deliver c t d ((ops es)[m].entry (m + 1))) (m + 1) ∧
      (deliver c t d ((ops es)[m].entry (m + 1))).version ≤ m + 1 := by
  obtain ⟨hok, hrt⟩ := hl.2 m hm
  have hstep := follows_step hc ht (h m hv (Nat.le_refl _) (by omega)) _ hok (m + 1) (by omega) hrt
  rw [← after_snoc, List.take_append_getElem hm] at hstep
  rcases deliver_version c t d ((ops es)[m].entry (m + 1)) with hd | ⟨hd, _⟩
  · refine ⟨?_, by rw [hd]; omega⟩
    intro v h1 h2 h3
    by_cases hv1 : v = m + 1
    · subst hv1; exact hstep
    · rw [hd] at h1 ⊢
      exact h v h1 (by omega) h3
  · rw [entry_ver] at hd
    refine ⟨?_, by omega⟩
    intro v h1 h2 h3
    have : v = m + 1 := by omega
    subst this
    exact hstep

/-- A change with a version that the cache already has is skipped. -/
theorem deliver_old (c t : Name) (d : TenantData) (e : Entry) (h : e.ver ≤ d.version) : deliver c t d e = d := by
  rcases deliver_version c t d e with h1 | ⟨_, h2⟩
  · exact h1
  · omega

theorem deliver_mono (c t : Name) (d : TenantData) (e : Entry) : d.version ≤ (deliver c t d e).version := by
  rcases deliver_version c t d e with h1 | ⟨h1, h2⟩
  · rw [h1]; exact Nat.le_refl _
  · omega

/-- One change that is not delivered, because it is not about an object of the tenant. -/
theorem upto_skip {c t : Name} (hc : Plain c) (ht : Plain t) {es : List Event} (hl : Legal c t es) {d : TenantData} {m : Nat}
    (hm : m < (ops es).length) (hv : d.version ≤ m) (h : Upto c t (ops es) d m)
    (hi : itemOf c t ((ops es)[m].entry (m + 1)).key = none) : Upto c t (ops es) d (m + 1) := by
  obtain ⟨hok, hrt⟩ := hl.2 m hm
  have hstep := follows_step hc ht (h m hv (Nat.le_refl _) (by omega)) _ hok (m + 1) (by omega) hrt
  rw [← after_snoc, List.take_append_getElem hm] at hstep
  intro v h1 h2 h3
  by_cases hv1 : v = m + 1
  · subst hv1
    intro j
    rcases deliver_cases hc ht d ((ops es)[m].entry (m + 1)) (by rw [entry_ver]; omega) (by rw [entry_key]; exact hrt) with
      ⟨_, hd⟩ | ⟨i, hi', _⟩
    · rw [← hd j]; exact hstep j
    · rw [hi] at hi'; cases hi'
  · exact h v h1 (by omega) h3

/-- All changes from a version on, at least those about objects of the tenant: a cache that is right up to the version
becomes right up to the end. -/
theorem upto_all {c t : Name} (hc : Plain c) (ht : Plain t) {es : List Event} (hl : Legal c t es) (f : Entry → Bool)
    (hf : ∀ e, (itemOf c t e.key).isSome → f e = true) :
    ∀ (n b : Nat) (d : TenantData), b + n = (ops es).length → d.version ≤ (ops es).length →
      Upto c t (ops es) d (max b d.version) →
      Upto c t (ops es) ((((changes 0 es).drop b).filter f).foldl (deliver c t) d) (ops es).length ∧
        ((((changes 0 es).drop b).filter f).foldl (deliver c t) d).version ≤ (ops es).length := by
  intro n
  induction n with
  | zero =>
    intro b d hb hv h
    have : (changes 0 es).drop b = [] := List.drop_eq_nil_of_le (by rw [changes_length]; omega)
    rw [this, List.filter_nil, List.foldl_nil]
    refine ⟨?_, hv⟩
    intro v h1 h2 h3
    exact h v h1 (by omega) h3
  | succ n ih =>
    intro b d hb hv h
    have hlt : b < (changes 0 es).length := by rw [changes_length]; omega
    have hlt' : b < (ops es).length := by omega
    rw [List.drop_eq_getElem_cons hlt, List.filter_cons, changes_get 0 es b hlt', Nat.zero_add]
    by_cases hold : b + 1 ≤ d.version
    · have hh : Upto c t (ops es) d (max (b + 1) d.version) := by
        have : max (b + 1) d.version = max b d.version := by omega
        rw [this]; exact h
      split
      · rw [List.foldl_cons, deliver_old c t d _ (by rw [entry_ver]; exact hold)]
        exact ih (b + 1) d (by omega) hv hh
      · exact ih (b + 1) d (by omega) hv hh
    · have hbm : max b d.version = b := by omega
      rw [hbm] at h
      split
      · obtain ⟨h1, h2⟩ := upto_step hc ht hl hlt' (by omega) h
        rw [List.foldl_cons]
        refine ih (b + 1) _ (by omega) (by omega) ?_
        rw [Nat.max_eq_left h2]
        exact h1
      · rename_i hnf
        refine ih (b + 1) d (by omega) hv ?_
        rw [Nat.max_eq_left (by omega)]
        refine upto_skip hc ht hl hlt' (by omega) h ?_
        cases hi : itemOf c t ((ops es)[b].entry (b + 1)).key with
        | none => rfl
        | some i => exact absurd (hf _ (by rw [hi]; rfl)) hnf

/-- A node that watches a tenant is interested in all changes of its objects. -/
theorem interested_item {c t : Name} (hc : Plain c) (ht : Plain t) (ts : List Name) (hts : t ∈ ts ∨ [] ∈ ts)
    (e : Entry) (h : (itemOf c t e.key).isSome) : interested c ts e = true := by
  obtain ⟨i, hi⟩ := Option.isSome_iff_exists.1 h
  obtain ⟨hk, hp⟩ := (itemOf_eq_some hc ht).1 hi
  have hsplit := Item.split_key hc ht hp
  rw [← hk] at hsplit
  have h1 : e.key ≠ KeyPath.version := by rw [hk]; exact Item.key_ne_version hc ht hp
  have h2 : e.key ≠ KeyPath.alreadyInit := by
    intro hh
    rw [hh] at hsplit
    have : splitSlash KeyPath.alreadyInit = [[], "already_init_key".toList] := by decide
    rw [this] at hsplit
    cases i <;> simp [Item.segs] at hsplit
  have h3 : e.key ≠ KeyPath.incrId c := by
    intro hh
    rw [hh, incrId_not_item hc] at hi
    cases hi
  obtain ⟨r, hr⟩ : ∃ r, e.key = KeyPath.tenants c ++ (t ++ '/' :: r) := by
    rw [hk]
    cases i with
    | member u => exact ⟨sMembers ++ '/' :: u, by simp [Item.key, KeyPath.member, KeyPath.tenants, path]⟩
    | role u => exact ⟨sRoles ++ '/' :: u, by simp [Item.key, KeyPath.role, KeyPath.tenants, path]⟩
    | db u => exact ⟨sDbs ++ '/' :: u, by simp [Item.key, KeyPath.db, KeyPath.tenants, path]⟩
    | table x n => exact ⟨sDbs ++ '/' :: (x ++ '/' :: (sSchemas ++ '/' :: n)), by simp [Item.key, KeyPath.table, KeyPath.tenants, path]⟩
    | bucket x n => exact ⟨sDbs ++ '/' :: (x ++ '/' :: (sBuckets ++ '/' :: n)), by simp [Item.key, KeyPath.bucket, KeyPath.tenants, path]⟩
  have h4 : startsWith (KeyPath.clusterPrefix c) e.key = true := by
    rw [startsWith_iff, hr]
    exact ⟨sTenants ++ '/' :: (t ++ '/' :: r), by simp [KeyPath.clusterPrefix, KeyPath.tenants, path]⟩
  have h5 : stripPrefix (KeyPath.tenants c) e.key = some (t ++ '/' :: r) := stripPrefix_eq.2 hr
  have h6 : startsWith (KeyPath.tenants c) e.key = true := by rw [startsWith, h5]; rfl
  have h7 : ts.isEmpty = false := by
    cases ts with
    | nil => simp at hts
    | cons a l => rfl
  rw [interested, if_neg (by simp [h1, h2, h3])]
  simp only [h4, h6, h7, h5, splitOnce_append ht, Bool.not_true, Bool.false_eq_true, if_false]
  split
  · rfl
  · rename_i hn
    rcases hts with h | h
    · simpa using h
    · exact absurd (by simpa using h) hn

theorem filter_since {es : List Event} {b : Nat} (f : Entry → Bool) :
    (changes 0 es).filter (fun e => decide (b < e.ver) && f e) = ((changes 0 es).drop b).filter f := by
  conv => lhs; rw [← List.take_append_drop b (changes 0 es)]
  rw [List.filter_append]
  have h1 : ((changes 0 es).take b).filter (fun e => decide (b < e.ver) && f e) = [] := by
    rw [List.filter_eq_nil_iff]
    intro e he
    obtain ⟨i, hi, rfl⟩ := List.mem_iff_getElem.1 he
    rw [List.length_take] at hi
    rw [List.getElem_take, changes_ver]
    rw [decide_eq_false (by omega : ¬ b < 0 + i + 1)]
    simp
  rw [h1, List.nil_append]
  apply List.filter_congr
  intro e he
  obtain ⟨i, hi, rfl⟩ := List.mem_iff_getElem.1 he
  rw [List.getElem_drop, changes_ver]
  rw [decide_eq_true (by omega : b < 0 + (b + i) + 1), Bool.true_and]

theorem upto_end {c t : Name} (hc : Plain c) (ht : Plain t) (cap : Nat) {es : List Event} (hl : Legal c t es) {d : TenantData} {m : Nat}
    (hv : d.version ≤ (ops es).length) (hm : (ops es).length ≤ m) (h : Upto c t (ops es) d m) : Follows c t d (Store.run cap es) := by
  intro j
  have := h (ops es).length hv hm (Nat.le_refl _) j
  rw [List.take_length] at this
  rw [this, run_obs hc ht cap es hl.1]

/-- A cache that was read at some moment is right up to that moment, whatever happens later. -/
theorem upto_read {c t : Name} (hc : Plain c) (ht : Plain t) {cap : Nat} (hcap : 0 < cap) {a : List Event} (b : List Event)
    (hl : RetainsOk a) {d : TenantData} (h : (Store.run cap a).toTenantData c t = some d) :
    d.version = (ops a).length ∧ Upto c t (ops (a ++ b)) d (ops a).length := by
  obtain ⟨hf, hv⟩ := toTenantData_follows h
  rw [run_ver hcap] at hv
  refine ⟨hv, ?_⟩
  intro v h1 h2 h3 j
  have : v = (ops a).length := by omega
  subst this
  rw [ops_append, List.take_left', ← run_obs hc ht cap a hl]
  · exact hf j
  · rfl

theorem upto_more {c t : Name} {os : List Op} {d : TenantData} {m : Nat} (o : List Op) (hm : m ≤ os.length) (h : Upto c t os d m) :
    Upto c t (os ++ o) d m := by
  intro v h1 h2 h3
  rw [List.take_append_of_le_length (by omega)]
  exact h v h1 h2 (by omega)

/-- **C108.**  A cache of a tenant that is read at some moment and then given the changes, from any version on that it had
then and at least those about the tenant's objects, shows what is stored: for every object that is written there, under a name
that can be found, with a value of its type, and where a database is created only when nothing is stored below its name. -/
theorem C108_follows_partial {c t : Name} (hc : Plain c) (ht : Plain t) {cap : Nat} (hcap : 0 < cap) (a b : List Event)
    (hl : Legal c t (a ++ b)) {d : TenantData} (h : (Store.run cap a).toTenantData c t = some d) (base : Nat)
    (hb : base ≤ (Store.run cap a).ver) (ts : List Name) (hts : t ∈ ts ∨ [] ∈ ts) :
    Follows c t (((changes 0 (a ++ b)).filter fun e => decide (base < e.ver) && interested c ts e).foldl (deliver c t) d)
      (Store.run cap (a ++ b)) := by
  obtain ⟨hv, hu⟩ := upto_read hc ht hcap b hl.prefix.1 h
  rw [run_ver hcap] at hb
  have hlen : (ops (a ++ b)).length = (ops a).length + (ops b).length := by rw [ops_append, List.length_append]
  rw [filter_since]
  obtain ⟨h1, h2⟩ := upto_all hc ht hl (interested c ts) (interested_item hc ht ts hts) ((ops (a ++ b)).length - base) base d
    (by omega) (by omega) (by rw [Nat.max_eq_right (by omega), hv]; exact hu)
  exact upto_end hc ht cap hl h2 (Nat.le_refl _) h1

end Verif.Watch
