import Verif.Watch.Cmd
import Verif.Watch.NodeProps
/-!
# What the commands keep

C111: dropping a database removes everything in it.  And the histories of commands are those for which the caches follow (C108, C109).
-/
namespace Verif.Watch

theorem digit_ne_slash (n : Nat) (h : n < 10) : Char.ofNat (48 + n) ≠ '/' := by
  have : n = 0 ∨ n = 1 ∨ n = 2 ∨ n = 3 ∨ n = 4 ∨ n = 5 ∨ n = 6 ∨ n = 7 ∨ n = 8 ∨ n = 9 := by omega
  rcases this with rfl | rfl | rfl | rfl | rfl | rfl | rfl | rfl | rfl | rfl <;> decide

/-- The decimal digits of a number are a good name. -/
theorem decName_good (n : Nat) : GoodName (decName n) := by
  induction n using Nat.strongRecOn with
  | ind n ih =>
    rw [decName]
    by_cases h : n < 10
    · rw [if_pos h]
      refine ⟨by simp, ?_⟩
      simp only [Plain, List.mem_singleton]
      exact fun hh => digit_ne_slash n h hh.symm
    · rw [if_neg h]
      have := ih (n / 10) (by omega)
      refine ⟨by simp, ?_⟩
      simp only [Plain, List.mem_append, List.mem_singleton, not_or]
      exact ⟨this.2, fun hh => digit_ne_slash (n % 10) (by omega) hh.symm⟩

theorem removes_get (ks : List Key) (s : Store) (k : Key) (hk : k ≠ KeyPath.version) :
    ((ks.map fun k => Event.op (.remove k)).foldl Store.event s).db.get k = if k ∈ ks then none else s.db.get k := by
  induction ks generalizing s with
  | nil => simp
  | cons x ks ih =>
    rw [List.map_cons, List.foldl_cons, ih]
    by_cases hm : k ∈ ks
    · simp [hm]
    · rw [if_neg hm]
      simp only [Store.event, Store.apply, Store.remove, List.mem_cons, hm, or_false]
      by_cases hx : x = KeyPath.version
      · subst hx
        rw [if_pos rfl, if_neg hk]
      · rw [if_neg hx, AMap.get_del]

theorem mem_childrenFullpath {s : Store} {p : Key} (hp : p.getLast? ≠ some '/') {k : Key} :
    k ∈ s.childrenFullpath p ↔ ∃ n, GoodName n ∧ k = p ++ '/' :: n ∧ (s.db.get k).isSome := by
  rw [Store.childrenFullpath, List.mem_map]
  constructor
  · rintro ⟨⟨k', v⟩, hm, rfl⟩
    rw [List.mem_filter] at hm
    obtain ⟨hm, hn⟩ := hm
    obtain ⟨n, hn⟩ := Option.isSome_iff_exists.1 hn
    obtain ⟨h1, h2⟩ := (childName_iff hp).1 hn
    exact ⟨n, h2, h1, by rw [AMap.mem_entries.1 hm]; rfl⟩
  · rintro ⟨n, hg, hk, hs⟩
    obtain ⟨v, hv⟩ := Option.isSome_iff_exists.1 hs
    refine ⟨(k, v), ?_, rfl⟩
    rw [List.mem_filter]
    exact ⟨AMap.mem_entries.2 hv, by rw [(childName_iff hp).2 ⟨hk, hg⟩]; rfl⟩

/-- **C111, databases.**  After a database is dropped nothing of it is stored: not the database, and none of its tables and
buckets with a name that can be found.  All other keys keep their values. -/
theorem C111_drop_db (env : Env) (s : Store) {c t d : Name} (hc : Plain c) (ht : Plain t) (hd : GoodName d) :
    (s.command env (.dropDb c t d)).db.get (KeyPath.db c t d) = none ∧
    (∀ j : Item, j.inDb d → j.Good → (s.command env (.dropDb c t d)).db.get (j.key c t) = none) ∧
    ∀ k, k ≠ KeyPath.version → k ≠ KeyPath.db c t d → (∀ j : Item, j.inDb d → j.Good → k ≠ j.key c t) →
      (s.command env (.dropDb c t d)).db.get k = s.db.get k := by
  have hev : (s.exec env (.dropDb c t d)).1 = (KeyPath.db c t d :: (s.childrenFullpath (KeyPath.buckets c t d) ++
      s.childrenFullpath (KeyPath.schemas c t d))).map fun k => Event.op (.remove k) := by
    simp [Store.exec]
  have hget : ∀ k, k ≠ KeyPath.version → (s.command env (.dropDb c t d)).db.get k =
      if k ∈ KeyPath.db c t d :: (s.childrenFullpath (KeyPath.buckets c t d) ++
      s.childrenFullpath (KeyPath.schemas c t d)) then none else s.db.get k := by
    intro k hk
    rw [Store.command, hev, removes_get _ _ _ hk]
  refine ⟨?_, ?_, ?_⟩
  · rw [hget (KeyPath.db c t d) (Item.key_ne_version hc ht (i := .db d) hd.2), if_pos (List.mem_cons_self)]
  · intro j hj hg
    rw [hget _ (Item.key_ne_version hc ht hg.plain)]
    split
    · rfl
    · rename_i hn
      cases hv : s.db.get (j.key c t) with
      | none => rfl
      | some v =>
        exfalso
        apply hn
        rw [List.mem_cons, List.mem_append]
        cases j with
        | table x n =>
          simp only [Item.inDb, decide_eq_true_eq] at hj
          subst hj
          refine .inr (.inr ((mem_childrenFullpath (last_schemas c t x)).2 ⟨n, hg.2, ?_, by rw [hv]; rfl⟩))
          rw [KeyPath.schemas, child_path]; rfl
        | bucket x n =>
          simp only [Item.inDb, decide_eq_true_eq] at hj
          subst hj
          refine .inr (.inl ((mem_childrenFullpath (last_buckets c t x)).2 ⟨n, hg.2, ?_, by rw [hv]; rfl⟩))
          rw [KeyPath.buckets, child_path]; rfl
        | member u => simp [Item.inDb] at hj
        | role u => simp [Item.inDb] at hj
        | db u => simp [Item.inDb] at hj
  · intro k hk hkd hkj
    rw [hget k hk, if_neg]
    rw [List.mem_cons, List.mem_append]
    rintro (h | h | h)
    · exact hkd h
    · obtain ⟨n, hg, hk', _⟩ := (mem_childrenFullpath (last_buckets c t d)).1 h
      exact hkj (.bucket d n) (by simp [Item.inDb]) ⟨hd, hg⟩ (by rw [hk', KeyPath.buckets, child_path]; rfl)
    · obtain ⟨n, hg, hk', _⟩ := (mem_childrenFullpath (last_schemas c t d)).1 h
      exact hkj (.table d n) (by simp [Item.inDb]) ⟨hd, hg⟩ (by rw [hk', KeyPath.schemas, child_path]; rfl)

/-! ## Histories of commands -/

/-- The names in a value. -/
def Val.Named : Val → Prop
  | .tenant n _ _ _ => GoodName n
  | .user id n _ => GoodName id ∧ GoodName n
  | .role _ n _ => GoodName n
  | .db n _ => GoodName n
  | _ => True

/-- What the commands keep: a database exists when something is stored below its name, and values have good names. -/
structure Tidy (c t : Name) (s : Store) : Prop where
  db : ∀ d, s.db.get (KeyPath.db c t d) = none → ∀ j : Item, j.inDb d → j.Good → s.db.get (j.key c t) = none
  named : ∀ k v, s.db.get k = some v → v.Named

/-- Writes that keep this. -/
def EvOk (c t : Name) (s : Store) : Event → Prop
  | .op (.insert k v) => v.Named ∧ Rooted k ∧ ∀ i, itemOf c t k = some i → i.kind v = true ∧ i.Good ∧
      ∀ d, i.inDb d = true → (s.db.get (KeyPath.db c t d)).isSome
  | .op (.remove k) => Rooted k ∧ ∀ d, itemOf c t k ≠ some (.db d)
  | .retain c _ => Plain c
  | .restart => True

theorem inDb_eq {j : Item} {d d' : Name} (h : j.inDb d = true) (h' : j.inDb d' = true) : d = d' := by
  cases j <;> simp [Item.inDb] at h h' <;> rw [← h, ← h']

theorem inDb_good {j : Item} {d : Name} (h : j.inDb d = true) (hg : j.Good) : GoodName d := by
  cases j <;> simp [Item.inDb] at h <;> subst h <;> exact hg.1

theorem event_get_insert (s : Store) (k k' : Key) (v : Val) (hk : k' ≠ KeyPath.version) :
    (s.apply (.insert k v)).db.get k' = if k' = k then some v else s.db.get k' := by
  simp only [Store.apply, Store.insert]
  by_cases h : k = KeyPath.version
  · subst h
    rw [if_pos rfl, if_neg hk]
  · rw [if_neg h, AMap.get_set]

theorem tidy_event {c t : Name} (hc : Plain c) (ht : Plain t) {s : Store} (h : Tidy c t s) (e : Event) (he : EvOk c t s e) :
    Tidy c t (s.event e) := by
  cases e with
  | op o =>
    have hg := fun (i : Item) (hi : i.Plain) => get_apply hc ht s o hi
    refine ⟨?_, ?_⟩
    · intro d hd j hj hgd
      have hdg := inDb_good hj hgd
      have h1 := hg (.db d) hdg.2
      have h2 := hg j hgd.plain
      simp only [Store.event] at hd ⊢
      rw [h2]
      simp only [Item.key] at h1
      rw [h1] at hd
      by_cases hi : itemOf c t (o.entry 0).key = some j
      · rw [if_pos hi]
        cases o with
        | remove k => rfl
        | insert k v =>
          exfalso
          have hne : ¬ itemOf c t ((Op.insert k v).entry 0).key = some (.db d) := by
            rw [hi]; intro hh; injection hh with hh; subst hh; simp [Item.inDb] at hj
          rw [if_neg hne] at hd
          have := (he.2.2 j hi).2.2 d hj
          rw [hd] at this
          cases this
      · rw [if_neg hi]
        by_cases hdb : itemOf c t (o.entry 0).key = some (.db d)
        · cases o with
          | insert k v => rw [if_pos hdb] at hd; simp [Op.entry] at hd
          | remove k => exact absurd hdb (he.2 d)
        · rw [if_neg hdb] at hd
          exact h.db d hd j hj hgd
    · intro k v hv
      cases o with
      | insert k' v' =>
        simp only [Store.event, Store.apply, Store.insert] at hv
        split at hv
        · exact h.named k v hv
        · rw [AMap.get_set] at hv
          split at hv
          · rw [← Option.some.inj hv]; exact he.1
          · exact h.named k v hv
      | remove k' =>
        simp only [Store.event, Store.apply, Store.remove] at hv
        split at hv
        · exact h.named k v hv
        · rw [AMap.get_del] at hv
          split at hv
          · cases hv
          · exact h.named k v hv
  | retain c' n =>
    have hsame : ∀ i : Item, i.Plain → (s.event (.retain c' n)).db.get (i.key c t) = s.db.get (i.key c t) := by
      intro i hi
      simp only [Store.event, AMap.get_set]
      rw [if_neg]
      intro hk
      have h1 := (itemOf_eq_some hc ht).2 ⟨rfl, hi⟩
      rw [hk, incrId_not_item he] at h1
      cases h1
    refine ⟨?_, ?_⟩
    · intro d hd j hj hgd
      rw [hsame j hgd.plain]
      have := hsame (.db d) (inDb_good hj hgd).2
      simp only [Item.key] at this
      rw [this] at hd
      exact h.db d hd j hj hgd
    · intro k v hv
      simp only [Store.event, AMap.get_set] at hv
      split at hv
      · rw [← Option.some.inj hv]; exact True.intro
      · exact h.named k v hv
  | restart => exact ⟨h.db, h.named⟩

/-- Writes one after the other. -/
def EvsOk (c t : Name) : Store → List Event → Prop
  | _, [] => True
  | s, e :: es => EvOk c t s e ∧ EvsOk c t (s.event e) es

theorem tidy_events {c t : Name} (hc : Plain c) (ht : Plain t) (es : List Event) {s : Store} (h : Tidy c t s) (he : EvsOk c t s es) :
    Tidy c t (es.foldl Store.event s) := by
  induction es generalizing s with
  | nil => exact h
  | cons e es ih => exact ih (tidy_event hc ht h e he.1) he.2

theorem opOk_congr {c t : Name} (hc : Plain c) (ht : Plain t) {s s' : Store} {o : Op}
    (hs : ∀ i : Item, i.Plain → s.db.get (i.key c t) = s'.db.get (i.key c t)) (h : OpOk c t s o) : OpOk c t s' o := by
  cases o with
  | remove k => exact True.intro
  | insert k v =>
    intro i hi
    obtain ⟨h1, h2, h3⟩ := h i hi
    refine ⟨h1, h2, ?_⟩
    intro d hd hn j hj hg
    obtain ⟨hk, hp⟩ := (itemOf_eq_some hc ht).1 hi
    rw [← hs j hg.plain]
    refine h3 d hd ?_ j hj hg
    rw [hk, hs i hp, ← hk]
    exact hn

theorem legal_snoc {c t : Name} (hc : Plain c) (ht : Plain t) (cap : Nat) {es : List Event} (h : Legal c t es) (e : Event)
    (ho : ∀ o, e = .op o → OpOk c t (Store.run cap es) o ∧ Rooted (o.entry 0).key) (hr : ∀ c' n, e = .retain c' n → Plain c') :
    Legal c t (es ++ [e]) := by
  refine ⟨?_, ?_⟩
  · intro c' n hm
    rcases List.mem_append.1 hm with hm | hm
    · exact h.1 c' n hm
    · exact hr c' n (List.mem_singleton.1 hm).symm
  · intro k hk
    simp only [ops_append] at hk ⊢
    cases e with
    | op o =>
      simp only [ops, List.length_append, List.length_singleton] at hk ⊢
      by_cases hlt : k < (ops es).length
      · rw [List.take_append_of_le_length (by omega), List.getElem_append_left hlt]
        exact h.2 k hlt
      · have : k = (ops es).length := by omega
        subst this
        obtain ⟨h1, h2⟩ := ho o rfl
        rw [List.take_left', List.getElem_append_right (by omega)]
        · simp only [Nat.sub_self, List.getElem_singleton]
          exact ⟨opOk_congr hc ht (fun i hi => run_get hc ht cap es h.1 hi) h1, h2⟩
        · rfl
    | retain c' n =>
      simp only [ops, List.append_nil] at hk ⊢
      exact h.2 k hk
    | restart =>
      simp only [ops, List.append_nil] at hk ⊢
      exact h.2 k hk

theorem run_events (cap : Nat) (es b : List Event) : Store.run cap (es ++ b) = b.foldl Store.event (Store.run cap es) := by
  simp [Store.run, List.foldl_append]

theorem legal_events {c t : Name} (hc : Plain c) (ht : Plain t) (cap : Nat) (b : List Event) {es : List Event} (h : Legal c t es)
    (hs : Tidy c t (Store.run cap es)) (he : EvsOk c t (Store.run cap es) b) : Legal c t (es ++ b) := by
  induction b generalizing es with
  | nil => rw [List.append_nil]; exact h
  | cons e b ih =>
    have : es ++ e :: b = es ++ [e] ++ b := by simp
    rw [this]
    refine ih ?_ ?_ ?_
    · refine legal_snoc hc ht cap h e ?_ ?_
      · rintro o rfl
        cases o with
        | remove k => exact ⟨True.intro, he.1.1⟩
        | insert k v =>
          obtain ⟨h1, h2, h3⟩ := he.1
          refine ⟨fun i hi => ⟨(h3 i hi).1, (h3 i hi).2.1, ?_⟩, h2⟩
          rintro d rfl hn j hj hg
          obtain ⟨hk, -⟩ := (itemOf_eq_some hc ht).1 hi
          rw [hk] at hn
          exact hs.db d hn j hj hg
      · rintro c' n rfl
        exact he.1
    · rw [run_snoc]; exact tidy_event hc ht hs e he.1
    · rw [run_snoc]; exact he.2

/-- Removing keys is always legal. -/
theorem legal_removes {c t : Name} (hc : Plain c) (ht : Plain t) (cap : Nat) (ks : List Key) {es : List Event} (h : Legal c t es)
    (hr : ∀ k ∈ ks, Rooted k) : Legal c t (es ++ ks.map fun k => Event.op (.remove k)) := by
  induction ks generalizing es with
  | nil => rw [List.map_nil, List.append_nil]; exact h
  | cons k ks ih =>
    have : es ++ (k :: ks).map (fun k => Event.op (.remove k)) = es ++ [.op (.remove k)] ++ ks.map fun k => Event.op (.remove k) := by simp
    rw [this]
    refine ih ?_ (fun k hk => hr k (List.mem_cons_of_mem _ hk))
    refine legal_snoc hc ht cap h _ ?_ ?_
    · intro o ho
      injection ho with ho
      subst ho
      exact ⟨True.intro, hr k List.mem_cons_self⟩
    · intro c' n hh; cases hh

end Verif.Watch
