import Verif.Index.Histories
/-!
# Properties of the series index (C42 – C46)
-/
namespace Verif.Index
open Verif.Utils (Bytes bytesLe bytesLe_antisymm bytesLe_trans bytesLe_total)

/-! ## C42 — index keys -/

/-- Different series have different index keys, and different renamed-series (tombstone) keys, when every
name and value is shorter than 65536 bytes. -/
theorem C42_index_keys_injective (a b : SKey) (ha : Short a) (hb : Short b) (hne : a ≠ b) :
    encKey a ≠ encKey b ∧ encTomb a ≠ encTomb b :=
  ⟨fun h => hne (encWith_inj ha hb h), fun h => hne (encWith_inj ha hb h)⟩

/-- Two series of table `cpu` whose tags differ only in where a name ends. -/
example : Short ⟨[0x63#8], [([0x31#8], [0x32#8, 0x33#8])]⟩ ∧ Short ⟨[0x63#8], [([0x31#8, 0x32#8], [0x33#8])]⟩ ∧
    (⟨[0x63#8], [([0x31#8], [0x32#8, 0x33#8])]⟩ : SKey) ≠ ⟨[0x63#8], [([0x31#8, 0x32#8], [0x33#8])]⟩ := by
  unfold Short; decide

/-- The length restriction is needed: lengths are cut to 16 bits, so a series with a table name of 65536
bytes can have the key of another series. -/
theorem C42_long_names_collide : ∃ a b : SKey, a ≠ b ∧ encKey a = encKey b := by
  have gen : ∀ v : Bytes, v.length = 65532 →
      (⟨[], [([], v)]⟩ : SKey) ≠ ⟨encTags [([], v)], []⟩ ∧ encKey ⟨[], [([], v)]⟩ = encKey ⟨encTags [([], v)], []⟩ := by
    intro v hv
    refine ⟨fun h => ?_, ?_⟩
    · have := congrArg SKey.tags h
      simp at this
    · have hl : (encTags [([], v)]).length = 65536 := by
        simp [encTags, lp, hv]
      have h0 : beEnc 2 65536 = beEnc 2 0 := by decide
      unfold encKey encWith
      simp only [lp, hl, h0]
      simp [encTags, lp]
  exact ⟨_, _, gen (List.replicate 65532 0#8) List.length_replicate⟩

theorem append_prefix_dotless : ∀ {p t r x : Bytes}, 0x2e#8 ∉ p → t ++ 0x2e#8 :: r = p ++ x → p <+: t
  | [], _, _, _, _, _ => List.nil_prefix
  | a :: p, [], r, x, hp, h => by
    simp only [List.nil_append, List.cons_append, List.cons.injEq] at h
    exact absurd (h.1 ▸ List.mem_cons_self) hp
  | a :: p, b :: t, r, x, hp, h => by
    simp only [List.cons_append, List.cons.injEq] at h
    rw [List.cons_prefix_cons]
    exact ⟨h.1.symm, append_prefix_dotless (fun h' => hp (List.mem_cons_of_mem _ h')) h.2⟩

/-- The key families of the storage do not mix: series keys, id keys, tombstone keys and the counter are
pairwise different, and an inverted key is none of them unless the table name starts with one of the reserved
prefixes. -/
theorem C42_families_disjoint (a b : SKey) (id : Nat) (t k v : Bytes)
    (hi : ¬ idPrefix <+: t) (hk : ¬ keyPrefix <+: t) (ht : ¬ tombPrefix <+: t) :
    encKey a ≠ encId id ∧ encKey a ≠ encTomb b ∧ encKey a ≠ autoKey ∧ encId id ≠ encTomb b ∧ encId id ≠ autoKey ∧
    encTomb b ≠ autoKey ∧
    invKey t k v ≠ encId id ∧ invKey t k v ≠ encKey a ∧ invKey t k v ≠ encTomb b ∧ invKey t k v ≠ autoKey := by
  refine ⟨?_, ?_, ?_, ?_, ?_, ?_, ?_, ?_, ?_, ?_⟩
  · intro h; simp [encKey, encWith, encId, keyPrefix, idPrefix] at h
  · intro h; simp [encKey, encWith, encTomb, keyPrefix, tombPrefix] at h
  · intro h; simp [encKey, encWith, keyPrefix, autoKey] at h
  · intro h; simp [encWith, encTomb, encId, idPrefix, tombPrefix] at h
  · intro h; simp [encId, idPrefix, autoKey] at h
  · intro h; simp [encWith, encTomb, tombPrefix, autoKey] at h
  · exact fun h => hi (append_prefix_dotless (by decide) h)
  · intro h
    unfold encKey encWith at h
    rw [List.append_assoc] at h
    exact hk (append_prefix_dotless (by decide) h)
  · intro h
    unfold encTomb encWith at h
    rw [List.append_assoc] at h
    exact ht (append_prefix_dotless (by decide) h)
  · intro h
    have h1 : 0x2e#8 ∈ invKey t k v := by simp [invKey]
    rw [h] at h1
    revert h1; decide

example : ¬ idPrefix <+: [0x63#8] ∧ ¬ keyPrefix <+: [0x63#8] ∧ ¬ tombPrefix <+: [0x63#8] := by decide

/-! ## C43 — series identity -/

/-- A state reached from an empty index by operations on short names that register fewer series than there
are ids. -/
def Reach (c : Cfg) (s : Idx) : Prop :=
  ∃ ops : List Op, (∀ o ∈ ops, o.Ok) ∧ adds ops < c.idLimit ∧ s = run c .fresh ops

variable {c : Cfg} {s : Idx}

theorem Reach.inv (h : Reach c s) : Inv c s := by
  obtain ⟨ops, h1, h2, rfl⟩ := h
  exact (run_spec (Inv.fresh c) h1 (by simpa [Idx.fresh, openOn, Store.empty] using h2)).1

/-- In every reachable index a series has an id exactly if that id has the series: the two lookups are
inverse to each other.  So live series have different ids and each has one. -/
theorem C43_lookups_inverse (hs : Reach c s) (k : SKey) (hk : Short k) (i : Nat) :
    (s.getId c k).2 = some i ↔ (s.getKey c i).2 = some k := by
  rw [(hs.inv.getId hk).2.1, (hs.inv.getKey i).2.1]

/-- Different live series have different ids. -/
theorem C43_distinct (hs : Reach c s) (k k' : SKey) (hk : Short k) (hk' : Short k') (i : Nat)
    (h : (s.getId c k).2 = some i) (h' : (s.getId c k').2 = some i) : k = k' := by
  rw [C43_lookups_inverse hs k hk] at h
  rw [C43_lookups_inverse hs k' hk', h] at h'
  exact Option.some.inj h'

/-- Registering a series: known series keep their id, the id then belongs to the series, and no other series
is affected. -/
theorem C43_register (hs : Reach c s) (k : SKey) (hk : Short k) (hn : s.incr + 1 < c.idLimit) :
    (∀ i, (s.getId c k).2 = some i → (s.add c k).2 = i) ∧
    ((s.add c k).1.getId c k).2 = some (s.add c k).2 ∧
    ((s.add c k).1.getKey c (s.add c k).2).2 = some k ∧
    ∀ i k', k' ≠ k → ((s.getKey c i).2 = some k' ↔ ((s.add c k).1.getKey c i).2 = some k') := by
  have hinv := hs.inv
  obtain ⟨h1, h2, h3, h4⟩ := hinv.add hk hn
  refine ⟨?_, ?_, ?_, ?_⟩
  · intro i hi
    have hi := ((hinv.getId hk).2.1 i).1 hi
    rcases h4 with h4 | h4
    · exact hinv.inj _ _ _ _ h4.1 hi rfl
    · exact absurd hi (h4.1 i)
  · exact ((h1.getId hk).2.1 _).2 h2
  · rw [(h1.getKey _).2.1]; exact h2
  · intro i k' hne
    rw [(hinv.getKey _).2.1, (h1.getKey _).2.1]
    by_cases hi : i = (s.add c k).2
    · subst hi
      rw [h2]
      constructor
      · intro hl
        rcases h4 with h4 | h4
        · rw [h4.1] at hl; exact hl
        · have := hinv.bound _ _ hl; omega
      · intro hl; exact absurd (Option.some.inj hl).symm hne
    · rw [h3 i hi]

/-- Stability: once a series has an id, registering it again after any history that neither deletes nor
renames it — other registrations, deletions, renames, flushes, restarts, cache evictions — returns the same
id, and the id still stands for the series. -/
theorem C43_stable (hs : Reach c s) (k : SKey) (hk : Short k) (ops : List Op) (hops : ∀ o ∈ ops, o.Ok)
    (hn : s.incr + adds ops + 2 < c.idLimit) (hsp : ∀ o ∈ ops, o.Spares (s.add c k).2 k) :
    ((run c (s.add c k).1 ops).add c k).2 = (s.add c k).2 ∧
    ((run c (s.add c k).1 ops).getKey c (s.add c k).2).2 = some k := by
  obtain ⟨h1, h2, _, h4⟩ := hs.inv.add hk (by omega)
  have hi : (s.add c k).1.incr ≤ s.incr + 1 := by rcases h4 with h | h <;> omega
  obtain ⟨r1, _, r3, r4, _⟩ := run_spec (ops := ops) h1 hops (by omega)
  have hl := r4 _ _ h2 hsp
  refine ⟨?_, ?_⟩
  · obtain ⟨_, _, _, a4⟩ := r1.add hk (by omega)
    rcases a4 with a4 | a4
    · exact r1.inj _ _ _ _ a4.1 hl rfl
    · exact absurd hl (a4.1 _)
  · rw [(r1.getKey _).2.1]; exact hl

/-- Ids are never given out twice: once the series of an id is gone, no later registration returns that id. -/
theorem C43_no_reuse (hs : Reach c s) (k : SKey) (hk : Short k) (ops ops' : List Op) (hops : ∀ o ∈ ops, o.Ok)
    (hops' : ∀ o ∈ ops', o.Ok) (hn : s.incr + adds ops + adds ops' + 2 < c.idLimit)
    (hgone : ((run c (s.add c k).1 ops).getKey c (s.add c k).2).2 = none) (k' : SKey) (hk' : Short k') :
    ((run c (run c (s.add c k).1 ops) ops').add c k').2 ≠ (s.add c k).2 := by
  obtain ⟨h1, h2, _, h4⟩ := hs.inv.add hk (by omega)
  have hi : (s.add c k).1.incr ≤ s.incr + 1 := by rcases h4 with h | h <;> omega
  have hb := h1.bound _ _ h2
  obtain ⟨r1, r2, r3, _, _⟩ := run_spec (ops := ops) h1 hops (by omega)
  rw [(r1.getKey _).2.1] at hgone
  obtain ⟨q1, q2, q3, _, q5⟩ := run_spec (ops := ops') r1 hops' (by omega)
  have hdead := q5 _ (by omega) hgone
  obtain ⟨_, a2, _, a4⟩ := q1.add hk' (by omega)
  intro he
  rcases a4 with a4 | a4
  · rw [he, hdead] at a4; cases a4.1
  · rw [he] at a4; omega

/-- Deleting a series removes it and nothing else. -/
theorem C43_delete (hs : Reach c s) (i : Nat) :
    ((s.del c i).getKey c i).2 = none ∧ ∀ j, j ≠ i → ((s.del c i).getKey c j).2 = (s.getKey c j).2 := by
  obtain ⟨h1, h2, _⟩ := hs.inv.del i
  refine ⟨?_, fun j hj => ?_⟩
  · rw [(h1.getKey _).2.1, h2, if_pos rfl]
  · rw [(h1.getKey _).2.1, (hs.inv.getKey _).2.1, h2, if_neg hj]

/-- Flushing, and restarting after a flush, changes no lookup. -/
theorem C43_restart (hs : Reach c s) (k : SKey) (hk : Short k) (i : Nat) :
    (s.flush.getId c k).2 = (s.getId c k).2 ∧ (s.flush.getKey c i).2 = (s.getKey c i).2 ∧
    ((openOn s.flush.st).getId c k).2 = (s.getId c k).2 ∧
    ((openOn s.flush.st).getKey c i).2 = (s.getKey c i).2 := by
  have h1 := hs.inv.flush
  have h2 : Inv c (openOn s.flush.st) := by
    rw [restart_eq]
    exact h1.shrink _ (by simp [RCache.empty]) (by simp [RCache.empty])
  have e : ∀ i, live (openOn s.flush.st) i = live s i := by
    intro i; rw [restart_eq, ← live_flush s]; rfl
  have same : ∀ {a b : Option Nat}, (∀ i, a = some i ↔ b = some i) → a = b := by
    intro a b h
    cases a with
    | none =>
      cases b with
      | none => rfl
      | some j => exact (h j).2 rfl
    | some j => exact ((h j).1 rfl).symm
  refine ⟨same fun j => ?_, ?_, same fun j => ?_, ?_⟩
  · rw [(h1.getId hk).2.1, (hs.inv.getId hk).2.1, live_flush]
  · rw [(h1.getKey _).2.1, (hs.inv.getKey _).2.1, live_flush]
  · rw [(h2.getId hk).2.1, (hs.inv.getId hk).2.1, e]
  · rw [(h2.getKey _).2.1, (hs.inv.getKey _).2.1, e]

/-! A concrete history: all series hash to 0, three series are registered, one deleted, one renamed, with a
restart in between. -/

def cfg0 : Cfg := ⟨fun _ => 0, 1000⟩
def sk (t : Bytes) (l : List (Bytes × Bytes)) : SKey := ⟨t, l⟩
def kA : SKey := sk [0x61#8] [([0x31#8], [0x78#8])]
def kB : SKey := sk [0x61#8] [([0x31#8], [0x79#8])]
def kC : SKey := sk [0x61#8] [([0x31#8], [0x79#8]), ([0x32#8], [0x7a#8])]
def hist0 : List Op :=
  [.add kA, .add kB, .flush, .lookup kA, .add kC, .del 2, .restart, .update [([0x32#8], some [0x7a#8])] [kA], .add kB]

example : (∀ o ∈ hist0, o.Ok) ∧ adds hist0 < cfg0.idLimit ∧
    ((run cfg0 .fresh hist0).getId cfg0 kA).2 = none ∧
    ((run cfg0 .fresh hist0).getId cfg0 kB).2 = some 4 ∧
    ((run cfg0 .fresh hist0).getKey cfg0 1).2 = some (sk [0x61#8] [([0x31#8], [0x78#8]), ([0x32#8], [0x7a#8])]) ∧
    ((run cfg0 .fresh hist0).getKey cfg0 2).2 = none ∧
    ((run cfg0 .fresh hist0).getKey cfg0 3).2 = some kC := by
  refine ⟨?_, by decide, by decide +kernel, by decide +kernel, by decide +kernel, by decide +kernel,
    by decide +kernel⟩
  intro o ho
  simp only [hist0, List.mem_cons, List.not_mem_nil, or_false] at ho
  rcases ho with rfl | rfl | rfl | rfl | rfl | rfl | rfl | rfl | rfl <;>
    simp [Op.Ok, Short, ShortSets, kA, kB, kC, sk]

/-! ## C44 — lookup by tags -/

/-- A series as the index stores it: the table name has no dot and tag keys are decimal column ids. -/
def Plain (k : SKey) : Prop := Dotless k.table ∧ ∀ p ∈ k.tags, Digits p.1 ∧ p.1 ≠ []

/-- Every series in the index is plain. -/
def AllPlain (c : Cfg) (s : Idx) : Prop := ∀ i k, (s.getKey c i).2 = some k → Plain k

theorem plain_pairs {k : SKey} (h : Plain k) : ∀ p ∈ invPairs k, Digits p.1 := by
  intro p hp
  unfold invPairs at hp
  split at hp
  · simp at hp; subst hp; intro c hc; cases hc
  · exact (h.2 p hp).1

theorem mem_invPairs_of_ne {k : SKey} {a v : Bytes} (ha : a ≠ []) : (a, v) ∈ invPairs k ↔ (a, v) ∈ k.tags := by
  unfold invPairs
  split
  · rename_i h
    simp [h, ha]
  · rfl

theorem invPairs_ne_nil (k : SKey) : invPairs k ≠ [] := by
  unfold invPairs
  split
  · simp
  · assumption

theorem Inv.mem_wbm (h : Inv c s) (i : Nat) (t a v : Bytes) :
    i ∈ bm s.w.inv (t, a, v) ↔ ∃ k, s.w.idMap.get i = some k ∧ k.table = t ∧ (a, v) ∈ invPairs k := by
  rw [h.winv]
  constructor
  · rintro ⟨k, h1, h2, h3⟩; exact ⟨k, h1, h2.symm, h3⟩
  · rintro ⟨k, h1, h2, h3⟩; exact ⟨k, h1, h2.symm, h3⟩

theorem Inv.mem_sbm (h : Inv c s) (hp : AllPlain c s) {t a : Bytes} (ht : Dotless t) (ha : Digits a) (i : Nat) (v : Bytes) :
    i ∈ bm s.st.inv (invKey t a v) ↔ ∃ k, s.st.idKey.get i = some k ∧ k.table = t ∧ (a, v) ∈ invPairs k := by
  rw [h.sinv]
  constructor
  · rintro ⟨k, h1, p, hm, he⟩
    have hpl : Plain k := hp i k (by rw [(h.getKey i).2.1]; exact h.live_s h1)
    obtain ⟨e1, e2, e3⟩ := invKey_inj hpl.1 ht (plain_pairs hpl p hm) ha he
    refine ⟨k, h1, e1, ?_⟩
    rw [← e2, ← e3]; exact hm
  · rintro ⟨k, h1, h2, h3⟩
    exact ⟨k, h1, _, h3, by rw [h2]⟩

theorem mem_wTagLoop (w : WCache) (t : Bytes) (i : Nat) : ∀ (ps : List (Bytes × Bytes)) (b : List Nat),
    (b = [] ∨ i ∈ b) → ps ≠ [] → (∀ p ∈ ps, i ∈ bm w.inv (t, p.1, p.2)) → i ∈ wTagLoop w t b ps
  | [], _, _, hne, _ => absurd rfl hne
  | p :: ps, b, hb, _, hp => by
    have h1 := hp p List.mem_cons_self
    unfold wTagLoop
    unfold bm at h1
    split
    · rename_i rb hrb
      rw [hrb] at h1
      simp only [Option.getD_some] at h1
      have : i ∈ (if b = [] then rb else b.filter (· ∈ rb)) := by
        split
        · exact h1
        · rename_i hne
          rcases hb with hb | hb
          · exact absurd hb hne
          · exact List.mem_filter.2 ⟨hb, by simpa using h1⟩
      by_cases hps : ps = []
      · subst hps; exact this
      · exact mem_wTagLoop w t i ps _ (.inr this) hps fun p hp' => hp p (List.mem_cons_of_mem _ hp')
    · rename_i hn; rw [hn] at h1; cases h1

theorem mem_sTagLoop (st : Store) (t : Bytes) (i : Nat) : ∀ (ps : List (Bytes × Bytes)) (b : List Nat),
    i ∈ sTagLoop st t b ps ↔ i ∈ b ∧ ∀ p ∈ ps, i ∈ bm st.inv (invKey t p.1 p.2)
  | [], b => by simp [sTagLoop]
  | p :: ps, b => by
    unfold sTagLoop
    split
    · rename_i rb hrb
      rw [mem_sTagLoop st t i ps]
      simp only [List.mem_filter, decide_eq_true_eq, List.mem_cons, forall_eq_or_imp]
      have : bm st.inv (invKey t p.1 p.2) = rb := by unfold bm; rw [hrb]; rfl
      rw [this, and_assoc]
    · rename_i hn
      simp only [List.not_mem_nil, List.mem_cons, forall_eq_or_imp, false_iff]
      rintro ⟨_, h, _⟩
      unfold bm at h; rw [hn] at h; cases h

theorem prefix_invKey {t t' a v : Bytes} (ht : Dotless t) (ht' : Dotless t') :
    (t ++ [0x2e#8]).isPrefixOf (invKey t' a v) = true ↔ t' = t := by
  rw [List.isPrefixOf_iff_prefix]
  constructor
  · rintro ⟨r, h⟩
    unfold invKey at h
    rw [List.append_assoc, List.singleton_append] at h
    exact ((split_inj (P := (· = 0x2e#8)) (fun c hc e => ht (e ▸ hc)) (fun c hc e => ht' (e ▸ hc)) rfl rfl h).1).symm
  · rintro rfl
    exact ⟨a ++ 0x3d#8 :: v, by simp [invKey]⟩

/-- Without tags the lookup returns exactly the series of the table — this is what `DROP TABLE` and unfiltered
scans use. -/
theorem C44_table_exact_partial (hs : Reach c s) (hp : AllPlain c s) (t : Bytes) (ht : Dotless t) (i : Nat) :
    i ∈ s.byTags t [] ↔ ∃ k, (s.getKey c i).2 = some k ∧ k.table = t := by
  have h := hs.inv
  simp only [Idx.byTags, WCache.byTags, Store.byTags, List.mem_append, List.mem_flatten, List.mem_map]
  rw [(h.getKey i).2.1]
  constructor
  · rintro (⟨l, ⟨⟨⟨t', a, v⟩, b⟩, he, rfl⟩, hi⟩ | ⟨l, ⟨⟨b, l'⟩, he, rfl⟩, hi⟩)
    · simp only at hi
      split at hi
      · rename_i e; subst e
        obtain ⟨k, h1, h2, _⟩ := (h.mem_wbm i t' a v).1 (mem_bm.2 ⟨b, he, hi⟩)
        exact ⟨k, h.live_w h1, h2⟩
      · cases hi
    · simp only at hi
      split at hi
      · rename_i e
        obtain ⟨k, h1, p, hm, rfl⟩ := (h.sinv i b).1 (mem_bm.2 ⟨l', he, hi⟩)
        have hpl : Plain k := hp i k (by rw [(h.getKey i).2.1]; exact h.live_s h1)
        exact ⟨k, h.live_s h1, (prefix_invKey ht hpl.1).1 e⟩
      · cases hi
  · rintro ⟨k, hl, rfl⟩
    obtain ⟨p, hpm⟩ := List.exists_mem_of_ne_nil _ (invPairs_ne_nil k)
    rcases live_cases hl with hw | ⟨_, hst⟩
    · obtain ⟨l, hl, hi⟩ := mem_bm.1 ((h.mem_wbm i k.table p.1 p.2).2 ⟨k, hw, rfl, hpm⟩)
      exact .inl ⟨l, ⟨_, hl, by simp⟩, hi⟩
    · obtain ⟨l, hl', hi⟩ := mem_bm.1 ((h.sinv i _).2 ⟨k, hst, p, hpm, rfl⟩)
      refine .inr ⟨l, ⟨_, hl', ?_⟩, hi⟩
      simp only
      rw [if_pos]
      rw [List.isPrefixOf_iff_prefix]
      exact ⟨p.1 ++ 0x3d#8 :: p.2, by simp [invKey]⟩

/-- Looking up one tag value returns exactly the live series of the table carrying it. -/
theorem C44_one_tag_exact_partial (hs : Reach c s) (hp : AllPlain c s) (t a v : Bytes) (ht : Dotless t)
    (ha : Digits a) (hne : a ≠ []) (i : Nat) :
    i ∈ s.byTags t [(a, v)] ↔ ∃ k, (s.getKey c i).2 = some k ∧ k.table = t ∧ (a, v) ∈ k.tags := by
  have h := hs.inv
  have hw : ∀ l, s.w.inv.get (t, a, v) = l → wTagLoop s.w t [] [(a, v)] = l.getD [] := by
    intro l hl; subst hl
    unfold wTagLoop
    simp only
    split
    · rename_i rb hrb; simp [wTagLoop, hrb]
    · rename_i hrb; simp [hrb]
  simp only [Idx.byTags, WCache.byTags, Store.byTags, sTagLoop, List.mem_append]
  rw [hw _ rfl]
  have e1 := h.mem_wbm i t a v
  have e2 := h.mem_sbm hp ht ha i v
  unfold bm at e1
  rw [e1, e2, (h.getKey i).2.1]
  simp only [mem_invPairs_of_ne hne]
  constructor
  · rintro (⟨k, h1, h2⟩ | ⟨k, h1, h2⟩)
    · exact ⟨k, h.live_w h1, h2⟩
    · exact ⟨k, h.live_s h1, h2⟩
  · rintro ⟨k, h1, h2⟩
    rcases live_cases h1 with h1 | ⟨_, h1⟩
    · exact .inl ⟨k, h1, h2⟩
    · exact .inr ⟨k, h1, h2⟩

/-- Looking up several tags never misses a series. -/
theorem C44_tags_complete (hs : Reach c s) (t : Bytes) (ps : List (Bytes × Bytes)) (hne : ps ≠ []) (i : Nat)
    (k : SKey) (hk : (s.getKey c i).2 = some k) (ht : k.table = t) (hps : ∀ p ∈ ps, p ∈ k.tags) :
    i ∈ s.byTags t ps := by
  have h := hs.inv
  rw [(h.getKey i).2.1] at hk
  have hsub : ∀ p ∈ ps, p ∈ invPairs k := by
    intro p hp
    unfold invPairs
    split
    · rename_i hn; have := hps p hp; rw [hn] at this; cases this
    · exact hps p hp
  simp only [Idx.byTags, List.mem_append]
  cases ps with
  | nil => exact absurd rfl hne
  | cons p ps =>
    simp only [WCache.byTags, Store.byTags]
    rcases live_cases hk with hw | ⟨_, hst⟩
    · left
      exact mem_wTagLoop s.w t i _ _ (.inl rfl) hne fun p hp => (h.mem_wbm i t p.1 p.2).2 ⟨k, hw, ht, hsub p hp⟩
    · right
      rw [mem_sTagLoop]
      have all : ∀ q ∈ p :: ps, i ∈ bm s.st.inv (invKey t q.1 q.2) := fun q hq =>
        (h.sinv i _).2 ⟨k, hst, q, hsub q hq, by rw [ht]⟩
      exact ⟨all p List.mem_cons_self, fun q hq => all q (List.mem_cons_of_mem _ hq)⟩

/-- After a flush, looking up any number of tags is exact. -/
theorem C44_flushed_exact_partial (hs : Reach c s) (hp : AllPlain c s) (t : Bytes) (ht : Dotless t)
    (ps : List (Bytes × Bytes)) (hne : ps ≠ []) (hd : ∀ p ∈ ps, Digits p.1 ∧ p.1 ≠ []) (i : Nat) :
    i ∈ s.flush.byTags t ps ↔
      ∃ k, (s.flush.getKey c i).2 = some k ∧ k.table = t ∧ ∀ p ∈ ps, p ∈ k.tags := by
  have h := hs.inv.flush
  have hp' : AllPlain c s.flush := by
    intro i k hk
    refine hp i k ?_
    rw [(hs.inv.getKey i).2.1]
    rwa [(h.getKey i).2.1, live_flush] at hk
  cases ps with
  | nil => exact absurd rfl hne
  | cons p ps =>
    have hw : s.flush.w.byTags t (p :: ps) = [] := by
      simp [WCache.byTags, wTagLoop, Idx.flush, WCache.empty]
    simp only [Idx.byTags, hw, List.nil_append, Store.byTags]
    rw [mem_sTagLoop, (h.getKey i).2.1]
    have e : ∀ q ∈ p :: ps, (i ∈ bm s.flush.st.inv (invKey t q.1 q.2) ↔
        ∃ k, live s.flush i = some k ∧ k.table = t ∧ q ∈ k.tags) := by
      intro q hq
      rw [h.mem_sbm hp' ht (hd q hq).1]
      simp only [mem_invPairs_of_ne (hd q hq).2]
      have : live s.flush i = s.flush.st.idKey.get i := by simp [live, Idx.flush, WCache.empty]
      rw [this]
    rw [e p List.mem_cons_self]
    constructor
    · rintro ⟨⟨k, h1, h2, h3⟩, h4⟩
      refine ⟨k, h1, h2, fun q hq => ?_⟩
      rcases List.mem_cons.1 hq with rfl | hq'
      · exact h3
      · obtain ⟨k', h1', _, h3'⟩ := (e q hq).1 (h4 q hq')
        rw [h1] at h1'; cases h1'; exact h3'
    · rintro ⟨k, h1, h2, h3⟩
      exact ⟨⟨k, h1, h2, h3 p List.mem_cons_self⟩,
        fun q hq => (e q (List.mem_cons_of_mem _ hq)).2 ⟨k, h1, h2, h3 q (List.mem_cons_of_mem _ hq)⟩⟩

/-- The hypotheses hold for the concrete history, and the lookups find what they should. -/
example : (run cfg0 .fresh hist0).byTags [0x61#8] [([0x31#8], [0x79#8])] = [4, 3] ∧
    (run cfg0 .fresh hist0).flush.byTags [0x61#8] [([0x31#8], [0x79#8]), ([0x32#8], [0x7a#8])] = [3] ∧
    Plain kA ∧ Plain kB ∧ Plain kC := by
  refine ⟨by decide +kernel, by decide +kernel, ?_⟩
  simp [Plain, Dotless, Digits, kA, kB, kC, sk]

/-- **Refuted in the write cache**: the running intersection starts over when it becomes empty, so a lookup
with three tags returns a series that carries only the third. -/
theorem C44_restart_when_empty_refuted :
    let s := run cfg0 .fresh [.add (sk [0x61#8] [([0x31#8], [0x78#8])]), .add (sk [0x61#8] [([0x32#8], [0x78#8])]),
      .add (sk [0x61#8] [([0x33#8], [0x78#8])])]
    s.byTags [0x61#8] [([0x31#8], [0x78#8]), ([0x32#8], [0x78#8]), ([0x33#8], [0x78#8])] = [3] := by
  decide +kernel

/-- The same after a deletion, with two tags: the emptied bitmap of the deleted series counts as "not started". -/
theorem C44_deleted_bitmap_refuted :
    let s := run cfg0 .fresh [.add (sk [0x61#8] [([0x31#8], [0x78#8])]), .add (sk [0x61#8] [([0x32#8], [0x78#8])]), .del 1]
    s.byTags [0x61#8] [([0x31#8], [0x78#8]), ([0x32#8], [0x78#8])] = [2] := by
  decide +kernel

/-- **Refuted for table names with dots**: after a flush, all series of table `a` include the series of table
`a.b`.  `DROP TABLE a` deletes them too. -/
theorem C44_dotted_table_refuted :
    let s := run cfg0 .fresh [.add (sk [0x61#8, 0x2e#8, 0x62#8] [([0x31#8], [0x78#8])]), .flush]
    s.byTags [0x61#8] [] = [1] ∧ (s.getKey cfg0 1).2 = some (sk [0x61#8, 0x2e#8, 0x62#8] [([0x31#8], [0x78#8])]) := by
  decide +kernel

/-! ## C45 — range scans of one tag -/

theorem bytesLe_refl (a : Bytes) : bytesLe a a = true := by
  rcases bytesLe_total a a with h | h <;> exact h

theorem invMin_eq (t k : Bytes) : invMin t k = (t ++ 0x2e#8 :: k) ++ [0x3c#8] := by simp [invMin]
theorem invMax_eq (t k : Bytes) : invMax t k = (t ++ 0x2e#8 :: k) ++ [0x3e#8] := by simp [invMax]
theorem invKey_eq (t k v : Bytes) : invKey t k v = (t ++ 0x2e#8 :: k) ++ 0x3d#8 :: v := by simp [invKey]

/-- An unbounded scan of tag `k` of table `t` visits exactly the entries of that table and tag, for table names
without dots. -/
theorem C45_scan_exact_partial (t t' k k' v : Bytes) (ht : Dotless t) (ht' : Dotless t') (hk : Digits k)
    (hk' : Digits k') :
    inRange (keyLo t k .unb) (keyHi t k .unb) (invKey t' k' v) = true ↔ t' = t ∧ k' = k := by
  simp only [inRange, keyLo, keyHi, Bool.and_eq_true]
  constructor
  · rintro ⟨h1, h2⟩
    rw [invMin_eq] at h1
    rw [invMax_eq] at h2
    obtain ⟨x, r, e, hx⟩ := between h1 h2
    rw [List.append_assoc, List.cons_append] at e
    unfold invKey at e
    obtain ⟨e1, _, e2⟩ := split_inj (P := (· = 0x2e#8)) (fun c hc e => ht' (e ▸ hc))
      (fun c hc e => ht (e ▸ hc)) rfl rfl e
    obtain ⟨e3, _, _⟩ := split_inj (P := fun c => c = 0x3c#8 ∨ c = 0x3d#8 ∨ c = 0x3e#8)
      (fun c hc e => by
        have := hk' c hc
        rcases e with rfl | rfl | rfl <;> simp at this)
      (fun c hc e => by
        have := hk c hc
        rcases e with rfl | rfl | rfl <;> simp at this) (.inr (.inl rfl)) hx e2
    exact ⟨e1, e3⟩
  · rintro ⟨rfl, rfl⟩
    rw [invMin_eq, invMax_eq, invKey_eq, bytesLe_append, bytesLe_append]
    simp [bytesLe]

example : Dotless [0x61#8] ∧ Dotless [0x61#8, 0x62#8] ∧ Digits [0x31#8] ∧ Digits [0x31#8, 0x32#8] := by
  simp [Dotless, Digits]

/-- **Refuted with dots**: the scan of tag `1` of table `a` also visits the entries of a table named `a.1=b`. -/
theorem C45_dotted_table_refuted :
    inRange (keyLo [0x61#8] [0x31#8] .unb) (keyHi [0x61#8] [0x31#8] .unb)
      (invKey [0x61#8, 0x2e#8, 0x31#8, 0x3d#8, 0x62#8] [0x32#8] [0x78#8]) = true := by decide

/-- A scan between two values visits exactly the entries of that table and tag whose value lies between them. -/
theorem C45_bounded_scan_exact_partial (t t' k k' v : Bytes) (ht : Dotless t) (ht' : Dotless t') (hk : Digits k)
    (hk' : Digits k') (lo hi : Bnd) :
    inRange (keyLo t k lo) (keyHi t k hi) (invKey t' k' v) = true ↔
      t' = t ∧ k' = k ∧ inRange lo hi v = true := by
  have same : ∀ x y, bytesLe (invKey t k x) (invKey t k y) = bytesLe x y := by
    intro x y; rw [invKey_eq, invKey_eq, bytesLe_append]; simp [bytesLe]
  have eqv : ∀ x y, (invKey t k x = invKey t k y) ↔ x = y := by
    intro x y; rw [invKey_eq, invKey_eq]; simp
  have lo_le : ∀ s, (match keyLo t k lo with
      | .incl v => bytesLe v s
      | .excl v => bytesLe v s && decide (v ≠ s)
      | .unb => true) = true → bytesLe (invMin t k) s = true := by
    intro s h
    have hm : ∀ x, bytesLe (invMin t k) (invKey t k x) = true := by
      intro x; rw [invMin_eq, invKey_eq, bytesLe_append]; simp [bytesLe]
    cases lo with
    | incl x => exact bytesLe_trans _ _ _ (hm x) h
    | excl x =>
      simp only [keyLo, Bool.and_eq_true] at h
      exact bytesLe_trans _ _ _ (hm x) h.1
    | unb => exact h
  have le_hi : ∀ s, (match keyHi t k hi with
      | .incl v => bytesLe s v
      | .excl v => bytesLe s v && decide (v ≠ s)
      | .unb => true) = true → bytesLe s (invMax t k) = true := by
    intro s h
    have hm : ∀ x, bytesLe (invKey t k x) (invMax t k) = true := by
      intro x; rw [invMax_eq, invKey_eq, bytesLe_append]; simp [bytesLe]
    cases hi with
    | incl x => exact bytesLe_trans _ _ _ h (hm x)
    | excl x =>
      simp only [keyHi, Bool.and_eq_true] at h
      exact bytesLe_trans _ _ _ h.1 (hm x)
    | unb => exact h
  constructor
  · intro h
    have h' := h
    simp only [inRange, Bool.and_eq_true] at h'
    have hu : inRange (keyLo t k .unb) (keyHi t k .unb) (invKey t' k' v) = true := by
      simp only [inRange, Bool.and_eq_true]
      exact ⟨lo_le _ h'.1, le_hi _ h'.2⟩
    obtain ⟨rfl, rfl⟩ := (C45_scan_exact_partial t t' k k' v ht ht' hk hk').1 hu
    refine ⟨rfl, rfl, ?_⟩
    simp only [inRange, Bool.and_eq_true]
    refine ⟨?_, ?_⟩
    · cases lo with
      | incl x => simpa [keyLo, same] using h'.1
      | excl x => simpa [keyLo, same, eqv] using h'.1
      | unb => rfl
    · cases hi with
      | incl x => simpa [keyHi, same] using h'.2
      | excl x => simpa [keyHi, same, eqv] using h'.2
      | unb => rfl
  · rintro ⟨rfl, rfl, h⟩
    have hu := (C45_scan_exact_partial t' t' k' k' v ht' ht' hk' hk').2 ⟨rfl, rfl⟩
    simp only [inRange, Bool.and_eq_true, keyLo, keyHi] at hu h ⊢
    refine ⟨?_, ?_⟩
    · cases lo with
      | incl x => simpa [keyLo, same] using h.1
      | excl x => simpa [keyLo, same, eqv] using h.1
      | unb => exact hu.1
    · cases hi with
      | incl x => simpa [keyHi, same] using h.2
      | excl x => simpa [keyHi, same, eqv] using h.2
      | unb => exact hu.2

/-- The range filter of a query on one tag: unless the bounds make `BTreeMap::range` panic, the scan of the
index returns exactly the live series of the table whose tag value lies in the range. -/
theorem C45_range_lookup_exact_partial (hs : Reach c s) (hp : AllPlain c s) (t a : Bytes) (ht : Dotless t)
    (ha : Digits a) (hne : a ≠ []) (lo hi : Bnd) (l : List Nat) (hl : s.byRange t a lo hi = some l) (i : Nat) :
    i ∈ l ↔ ∃ k, (s.getKey c i).2 = some k ∧ k.table = t ∧ ∃ v, (a, v) ∈ k.tags ∧ inRange lo hi v = true := by
  have h := hs.inv
  rw [(h.getKey i).2.1]
  have wpart : ∀ lw, s.w.byRange t a lo hi = some lw →
      (i ∈ lw ↔ ∃ k, s.w.idMap.get i = some k ∧ k.table = t ∧ ∃ v, (a, v) ∈ k.tags ∧ inRange lo hi v = true) := by
    intro lw hw
    have key : (∃ e ∈ s.w.inv.entries.filter (fun e => decide (e.1.1 = t ∧ e.1.2.1 = a)),
          inRange lo hi e.1.2.2 = true ∧ i ∈ e.2) ↔
        ∃ k, s.w.idMap.get i = some k ∧ k.table = t ∧ ∃ v, (a, v) ∈ k.tags ∧ inRange lo hi v = true := by
      constructor
      · rintro ⟨⟨⟨t', a', v⟩, b⟩, he, hr, hi⟩
        simp only [List.mem_filter, decide_eq_true_eq] at he
        obtain ⟨he, rfl, rfl⟩ := he
        obtain ⟨k, h1, h2, h3⟩ := (h.mem_wbm i t' a' v).1 (mem_bm.2 ⟨b, he, hi⟩)
        exact ⟨k, h1, h2, v, (mem_invPairs_of_ne hne).1 h3, hr⟩
      · rintro ⟨k, h1, h2, v, h3, hr⟩
        obtain ⟨b, hb, hi⟩ := mem_bm.1 ((h.mem_wbm i t a v).2 ⟨k, h1, h2, (mem_invPairs_of_ne hne).2 h3⟩)
        exact ⟨_, List.mem_filter.2 ⟨hb, by simp⟩, hr, hi⟩
    rw [← key]
    unfold WCache.byRange at hw
    simp only at hw
    split at hw
    · rename_i hn
      cases hw
      rw [hn]; simp
    · split at hw
      · cases hw
      · cases hw
        simp only [List.mem_flatten, List.mem_map]
        constructor
        · rintro ⟨l, ⟨e, he, rfl⟩, hi⟩
          split at hi
          · rename_i hr; exact ⟨e, he, hr, hi⟩
          · cases hi
        · rintro ⟨e, he, hr, hi⟩
          exact ⟨_, ⟨e, he, rfl⟩, by rw [if_pos hr]; exact hi⟩
  have spart : i ∈ s.st.byRange (keyLo t a lo) (keyHi t a hi) ↔
      ∃ k, s.st.idKey.get i = some k ∧ k.table = t ∧ ∃ v, (a, v) ∈ k.tags ∧ inRange lo hi v = true := by
    have key : (∃ e ∈ s.st.inv.entries, inRange (keyLo t a lo) (keyHi t a hi) e.1 = true ∧ i ∈ e.2) ↔
        ∃ k, s.st.idKey.get i = some k ∧ k.table = t ∧ ∃ v, (a, v) ∈ k.tags ∧ inRange lo hi v = true := by
      constructor
      · rintro ⟨⟨b, l'⟩, he, hr, hm'⟩
        obtain ⟨k, h1, p, hm, rfl⟩ := (h.sinv i b).1 (mem_bm.2 ⟨l', he, hm'⟩)
        have hpl : Plain k := hp i k (by rw [(h.getKey i).2.1]; exact h.live_s h1)
        obtain ⟨e1, e2, e3⟩ := (C45_bounded_scan_exact_partial t k.table a p.1 p.2 ht hpl.1 ha
          (plain_pairs hpl p hm) lo hi).1 hr
        refine ⟨k, h1, e1, p.2, ?_, e3⟩
        rw [← e2, ← mem_invPairs_of_ne (by rw [e2]; exact hne)]
        exact hm
      · rintro ⟨k, h1, h2, v, h3, hr⟩
        obtain ⟨l', hl', hm⟩ := mem_bm.1 ((h.mem_sbm hp ht ha i v).2 ⟨k, h1, h2, (mem_invPairs_of_ne hne).2 h3⟩)
        exact ⟨_, hl', (C45_bounded_scan_exact_partial t t a a v ht ht ha ha lo hi).2 ⟨rfl, rfl, hr⟩, hm⟩
    rw [← key]
    have scan : ∀ lo hi : Bnd, (i ∈ ((s.st.inv.entries.map fun e => if inRange lo hi e.1 then e.2 else []).flatten) ↔
        ∃ e ∈ s.st.inv.entries, inRange lo hi e.1 = true ∧ i ∈ e.2) := by
      intro lo hi
      simp only [List.mem_flatten, List.mem_map]
      constructor
      · rintro ⟨l, ⟨e, he, rfl⟩, hi⟩
        split at hi
        · rename_i hr; exact ⟨e, he, hr, hi⟩
        · cases hi
      · rintro ⟨e, he, hr, hi⟩
        exact ⟨_, ⟨e, he, rfl⟩, by rw [if_pos hr]; exact hi⟩
    unfold Store.byRange
    split
    · rename_i x y hx hy
      split
      · rename_i e
        subst e
        rw [mem_bm]
        constructor
        · rintro ⟨l, hl, hi⟩
          exact ⟨_, hl, by simp [inRange, hx, hy, bytesLe_refl], hi⟩
        · rintro ⟨⟨b, l⟩, he, hr, hi⟩
          simp only [inRange, Bool.and_eq_true, hx, hy] at hr
          rw [bytesLe_antisymm _ _ hr.1 hr.2]
          exact ⟨l, he, hi⟩
      · exact scan _ _
    · exact scan _ _
  unfold Idx.byRange at hl
  cases hw : s.w.byRange t a lo hi with
  | none => rw [hw] at hl; cases hl
  | some lw =>
    rw [hw] at hl
    simp only [Option.map_some, Option.some.injEq] at hl
    subst hl
    rw [List.mem_append, wpart lw hw, spart]
    constructor
    · rintro (⟨k, h1, h2⟩ | ⟨k, h1, h2⟩)
      · exact ⟨k, h.live_w h1, h2⟩
      · exact ⟨k, h.live_s h1, h2⟩
    · rintro ⟨k, h1, h2⟩
      rcases live_cases h1 with h1 | ⟨_, h1⟩
      · exact .inl ⟨k, h1, h2⟩
      · exact .inr ⟨k, h1, h2⟩

example : (run cfg0 .fresh hist0).byRange [0x61#8] [0x31#8] (.excl [0x78#8]) .unb = some [4, 3] := by decide +kernel

/-! ## C46 — renaming tags -/

/-- An accepted tag update gives every matched live series its new key, changes no other series, and the new
keys are different from each other and from every key that existed. -/
theorem C46_accepted (hs : Reach c s) (sets : List (Bytes × Option Bytes)) (m : List SKey) (hsets : ShortSets sets)
    (hm : ∀ k ∈ m, Short k) (hok : (s.update c sets m true).2 = true) :
    (∀ i k, (s.getKey c i).2 = some k → k ∈ m → ((s.update c sets m true).1.getKey c i).2 = some (newKey sets k)) ∧
    (∀ i k, (s.getKey c i).2 = some k → k ∉ m → ((s.update c sets m true).1.getKey c i).2 = some k) ∧
    (∀ i, (s.getKey c i).2 = none → ((s.update c sets m true).1.getKey c i).2 = none) ∧
    (∀ k ∈ m, (s.getId c k).2 ≠ none → (s.getId c (newKey sets k)).2 = none) ∧
    (∀ k ∈ m, ∀ k' ∈ m, (s.getId c k).2 ≠ none → (s.getId c k').2 ≠ none → newKey sets k = newKey sets k' → k = k') := by
  have h := hs.inv
  obtain ⟨h1, _, _, h4⟩ := update_spec (c := c) h hsets hm
  obtain ⟨q1, q2⟩ := h4 hok
  have spared : ∀ i, (∀ k ∈ m, live s i ≠ some k) →
      ((s.update c sets m true).1.getKey c i).2 = (s.getKey c i).2 := by
    intro i hi
    rw [(h1.getKey i).2.1, (h.getKey i).2.1, q2 i hi]
  refine ⟨?_, ?_, ?_, ?_, ?_⟩
  · intro i k hk hkm
    rw [(h.getKey i).2.1] at hk
    rw [(h1.getKey i).2.1]; exact (q1 i k hk hkm).1
  · intro i k hk hkm
    rw [spared i, hk]
    rw [(h.getKey i).2.1] at hk
    intro k' hk' e
    rw [hk] at e; cases e; exact hkm hk'
  · intro i hk
    rw [spared i, hk]
    rw [(h.getKey i).2.1] at hk
    intro k' _ e
    rw [hk] at e; cases e
  · intro k hk hne
    cases hg : (s.getId c k).2 with
    | none => exact absurd hg hne
    | some i =>
      have hl := ((h.getId (hm k hk)).2.1 i).1 hg
      cases hn : (s.getId c (newKey sets k)).2 with
      | none => rfl
      | some j =>
        exact absurd (((h.getId (short_newKey hsets (hm k hk))).2.1 j).1 hn) ((q1 i k hl hk).2 j)
  · intro k hk k' hk' hne hne' he
    cases hg : (s.getId c k).2 with
    | none => exact absurd hg hne
    | some i =>
      cases hg' : (s.getId c k').2 with
      | none => exact absurd hg' hne'
      | some j =>
        have hl := ((h.getId (hm k hk)).2.1 i).1 hg
        have hl' := ((h.getId (hm k' hk')).2.1 j).1 hg'
        have e1 := (q1 i k hl hk).1
        have e2 := (q1 j k' hl' hk').1
        have := h1.inj i j _ _ e1 e2 (by rw [he])
        subst this
        rw [hl] at hl'; exact Option.some.inj hl'

/-- A rejected update changes no lookup. -/
theorem C46_rejected (hs : Reach c s) (sets : List (Bytes × Option Bytes)) (m : List SKey) (hsets : ShortSets sets)
    (hm : ∀ k ∈ m, Short k) (hno : (s.update c sets m true).2 = false) (i : Nat) (k : SKey) (hk : Short k) :
    ((s.update c sets m true).1.getKey c i).2 = (s.getKey c i).2 ∧
    ((s.update c sets m true).1.getId c k).2 = (s.getId c k).2 := by
  have h := hs.inv
  obtain ⟨h1, _, h3, _⟩ := update_spec (c := c) h hsets hm
  refine ⟨?_, ?_⟩
  · rw [(h1.getKey i).2.1, (h.getKey i).2.1, h3 hno]
  · have e1 := (h1.getId hk).2.1
    have e2 := (h.getId hk).2.1
    cases hg : (s.getId c k).2 with
    | some j =>
      rw [e1, h3 hno, ← e2]; exact hg
    | none =>
      cases hg' : ((s.update c sets m true).1.getId c k).2 with
      | none => rfl
      | some j => rw [e1, h3 hno, ← e2, hg] at hg'; cases hg'

/-- The new key: assigned tags get their (last) assigned value or disappear if assigned null; all others keep
their value; the table stays. -/
theorem C46_new_key (sets : List (Bytes × Option Bytes)) (k : SKey) (a v : Bytes) :
    (newKey sets k).table = k.table ∧
    ((a, v) ∈ (newKey sets k).tags ↔
      lastOf sets a = some (some v) ∨ (lastOf sets a = none ∧ lastOf k.tags a = some v)) := by
  refine ⟨rfl, ?_⟩
  rw [mem_newKey]
  cases h : lastOf sets a with
  | some o => simp
  | none => simp

/-- The update of the concrete history is accepted; setting tag 1 of both series to the same value is
rejected. -/
example : ((run cfg0 .fresh [.add kA, .add kB]).update cfg0 [([0x32#8], some [0x7a#8])] [kA, kB] true).2 = true ∧
    ((run cfg0 .fresh [.add kA, .add kB]).update cfg0 [([0x31#8], some [0x7a#8])] [kA, kB] true).2 = false := by
  decide +kernel

/-- **Refuted during log replay**: while recovering, the conflict check is skipped
(vnode_store.rs:465-468).  If the index already contains the outcome of "write A; rename A to B; write A", replaying
that log renames the *new* A to B as well: two ids then stand for the same series and A is gone. -/
theorem C46_replay_refuted :
    let toB : List (Bytes × Option Bytes) := [([0x31#8], some [0x79#8])]
    let s := run cfg0 .fresh [.add kA, .update toB [kA], .add kA, .restart]
    let s' := ((s.add cfg0 kA).1.update cfg0 toB [kA] false).1
    (s.getKey cfg0 1).2 = some kB ∧ (s.getKey cfg0 2).2 = some kA ∧
    (s.add cfg0 kA).2 = 2 ∧ (s'.getKey cfg0 1).2 = some kB ∧ (s'.getKey cfg0 2).2 = some kB ∧
    (s'.getId cfg0 kA).2 = none := by
  decide +kernel

end Verif.Index
