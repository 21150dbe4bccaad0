import Verif.Meta.Bucket
import Mathlib.Data.List.Range
import Mathlib.Data.List.Nodup
import Mathlib.Tactic.Linarith
/-!
# C47, C48, C49, C58, C59, C62: buckets, placement, retention
-/
namespace Verif.Meta

/-! ## C47 -/

/-- The bucket of a timestamp is the aligned interval clipped to the 64-bit range. -/
theorem getTimeRange_eq (ts d : Int) (hd : 0 < d) (hd2 : d ≤ i64Max) (hts : IsI64 ts) :
    (getTimeRange ts d).1 = max i64Min (ts / d * d) ∧
    (getTimeRange ts d).2 = min i64Max (ts / d * d + d) := by
  unfold IsI64 at hts
  have hm := Int.mul_ediv_add_emod ts d
  have h0 := Int.emod_nonneg ts (by omega : d ≠ 0)
  have h1 := Int.emod_lt_of_pos ts hd
  have hc : d * (ts / d) = ts / d * d := Int.mul_comm _ _
  simp only [i64Min, i64Max] at *
  unfold getTimeRange
  rw [if_neg (by omega)]
  by_cases hs : ts ≥ 0
  · rw [if_pos hs]
    have e : ts.tdiv d = ts / d := Int.tdiv_eq_ediv_of_nonneg hs
    have hq : 0 ≤ ts / d := Int.ediv_nonneg hs (by omega)
    have hq2 : 0 ≤ ts / d * d := Int.mul_nonneg hq (by omega)
    simp only [e, satAdd, i64Min, i64Max]
    refine ⟨by omega, ?_⟩
    split <;> [skip; split] <;> omega
  · rw [if_neg hs]
    have e : (ts + 1).tdiv d = ts / d + 1 := by
      have hn : (ts + 1).tdiv d = -((-(ts + 1)) / d) := by
        rw [← Int.tdiv_eq_ediv_of_nonneg (by omega : 0 ≤ -(ts + 1)), Int.neg_tdiv, Int.neg_neg]
      rw [hn]
      have : (-(ts + 1)) / d = -(ts / d) - 1 := by
        rw [Int.ediv_eq_iff_of_pos hd]
        have e1 : (-(ts / d) - 1) * d = -(ts / d * d) - d := by rw [Int.sub_mul, Int.neg_mul, Int.one_mul]
        rw [e1]
        constructor <;> omega
      omega
    have e2 : (ts / d + 1) * d = ts / d * d + d := by rw [Int.add_mul, Int.one_mul]
    have hneg : ts / d + 1 ≤ 0 := by
      have : ts / d < 0 := Int.ediv_neg_of_neg_of_pos (by omega) hd
      omega
    have hneg2 : ts / d * d + d ≤ 0 := by
      rw [← e2]; exact Int.mul_nonpos_of_nonpos_of_nonneg hneg (by omega)
    simp only [e, e2, satSub, i64Min, i64Max]
    constructor
    · split <;> [skip; split] <;> omega
    · omega

/-- C47: the bucket computed for a timestamp contains it exactly when the timestamp is not the maximal
64-bit value. -/
theorem C47_bucket_contains_partial (ts d : Int) (hd2 : d ≤ i64Max) (hts : IsI64 ts) :
    ((getTimeRange ts d).1 ≤ ts ∧ ts < (getTimeRange ts d).2) ↔ ts ≠ i64Max := by
  by_cases hd : 0 < d
  · obtain ⟨e1, e2⟩ := getTimeRange_eq ts d hd hd2 hts
    rw [e1, e2]
    have hm := Int.mul_ediv_add_emod ts d
    have h0 := Int.emod_nonneg ts (by omega : d ≠ 0)
    have h1 := Int.emod_lt_of_pos ts hd
    have hc : d * (ts / d) = ts / d * d := Int.mul_comm _ _
    unfold IsI64 at hts
    simp only [i64Min, i64Max] at *
    omega
  · unfold getTimeRange IsI64 at *
    rw [if_pos (by omega)]
    simp only [i64Min, i64Max]
    omega

/-- C47: with the same duration, two timestamps get equal or disjoint buckets, and equal ones when one
lies in the bucket of the other. -/
theorem C47_equal_or_disjoint (t₁ t₂ d : Int) (hd2 : d ≤ i64Max) (h₁ : IsI64 t₁) (h₂ : IsI64 t₂) :
    getTimeRange t₁ d = getTimeRange t₂ d ∨
    (getTimeRange t₁ d).2 ≤ (getTimeRange t₂ d).1 ∨ (getTimeRange t₂ d).2 ≤ (getTimeRange t₁ d).1 := by
  by_cases hd : 0 < d
  · obtain ⟨a1, a2⟩ := getTimeRange_eq t₁ d hd hd2 h₁
    obtain ⟨b1, b2⟩ := getTimeRange_eq t₂ d hd hd2 h₂
    rcases Int.lt_trichotomy (t₁ / d) (t₂ / d) with h | h | h
    · right; left
      have : (t₁ / d + 1) * d ≤ t₂ / d * d := Int.mul_le_mul_of_nonneg_right h (by omega)
      rw [Int.add_mul, Int.one_mul] at this
      rw [a2, b1]; omega
    · left; exact Prod.ext (by rw [a1, b1, h]) (by rw [a2, b2, h])
    · right; right
      have : (t₂ / d + 1) * d ≤ t₁ / d * d := Int.mul_le_mul_of_nonneg_right h (by omega)
      rw [Int.add_mul, Int.one_mul] at this
      rw [b2, a1]; omega
  · left; unfold getTimeRange; rw [if_pos (by omega), if_pos (by omega)]

/-- C47: the length of a bucket is the duration unless clipped. -/
theorem C47_bucket_length (ts d : Int) (hd : 0 < d) (hd2 : d ≤ i64Max) (hts : IsI64 ts) :
    (getTimeRange ts d).2 - (getTimeRange ts d).1 ≤ d ∧
    (i64Min < (getTimeRange ts d).1 → (getTimeRange ts d).2 < i64Max →
      (getTimeRange ts d).2 - (getTimeRange ts d).1 = d) := by
  obtain ⟨a1, a2⟩ := getTimeRange_eq ts d hd hd2 hts
  rw [a1, a2]; omega

example : getTimeRange (-1) 100 = (-100, 0) ∧ getTimeRange (-100) 100 = (-100, 0) ∧
    getTimeRange (-101) 100 = (-200, -100) ∧ getTimeRange 250 100 = (200, 300) := by decide

/-- C47 is false for the maximal timestamp: its bucket ends before it. -/
theorem C47_max_timestamp_refuted :
    ∃ ts d, IsI64 ts ∧ 0 < d ∧ ¬ ts < (getTimeRange ts d).2 :=
  ⟨i64Max, 100, by unfold IsI64; decide, by decide, by decide⟩

/-! ## C48 -/

/-- C48: every bucket that can hold a timestamp of the queried range is selected. -/
theorem C48_mapping_complete (bs : List Bucket) (b : Bucket) (hb : b ∈ bs) (s e ts : Int)
    (hc : b.contains ts = true) (h1 : s ≤ ts) (h2 : ts ≤ e) : b ∈ mappingBucket bs s e := by
  simp only [Bucket.contains, Bool.and_eq_true, decide_eq_true_eq] at hc
  simp only [mappingBucket, List.mem_filter]
  refine ⟨hb, ?_⟩
  have a1 : ¬ e < b.start := by omega
  have a2 : ¬ s > b.stop := by omega
  simp [a1, a2]

/-- C48: only buckets meeting the range are selected, except one that ends exactly where the range
starts. -/
theorem C48_mapping_tight (bs : List Bucket) (b : Bucket) (s e : Int) (hse : s ≤ e)
    (hb : b ∈ mappingBucket bs s e) (hne : b.start < b.stop) :
    b ∈ bs ∧ (b.stop = s ∨ ∃ ts, b.contains ts = true ∧ s ≤ ts ∧ ts ≤ e) := by
  simp only [mappingBucket, List.mem_filter, Bool.not_eq_true', Bool.or_eq_false_iff,
    decide_eq_false_iff_not] at hb
  refine ⟨hb.1, ?_⟩
  by_cases h : b.stop = s
  · exact Or.inl h
  · right
    refine ⟨max b.start s, ?_, by omega, by omega⟩
    simp only [Bucket.contains, Bool.and_eq_true, decide_eq_true_eq]
    omega

/-- C48: the bucket a write goes to contains its timestamp and is reached by every query range with
that timestamp. -/
theorem C48_written_bucket_is_queried (bs : List Bucket) (ts s e : Int) (b : Bucket)
    (h : bucketByTimestamp bs ts = some b) (h1 : s ≤ ts) (h2 : ts ≤ e) : b ∈ mappingBucket bs s e :=
  C48_mapping_complete bs b (List.mem_of_find?_eq_some h) s e ts
    (by simpa using List.find?_some h) h1 h2

example : mappingBucket [⟨1, 0, 10, []⟩, ⟨2, 10, 20, []⟩, ⟨3, 20, 30, []⟩] 12 20 =
    [⟨2, 10, 20, []⟩, ⟨3, 20, 30, []⟩] := by decide

/-! ## C49 -/

theorem allocVnodes_spec (word : Nat) (nodes : List Nat) (hn : 0 < nodes.length) (k incr index : Nat)
    (hi : incr + k < word) (hx : index + k < word) :
    allocVnodes word nodes k incr index = some
      ((List.range k).map (fun j => ⟨incr + j, nodes[(index + j) % nodes.length]'(Nat.mod_lt _ hn)⟩),
        incr + k, index + k) := by
  induction k generalizing incr index with
  | zero => rfl
  | succ k ih =>
    have hlt : index % nodes.length < nodes.length := Nat.mod_lt _ hn
    simp only [allocVnodes, if_neg (by omega : ¬ nodes.length = 0), List.getElem?_eq_getElem hlt]
    rw [Nat.mod_eq_of_lt (by omega : incr + 1 < word), Nat.mod_eq_of_lt (by omega : index + 1 < word),
      ih (incr + 1) (index + 1) (by omega) (by omega)]
    simp only [List.range_succ_eq_map, List.map_cons, List.map_map]
    refine congrArg some (Prod.ext ?_ (Prod.ext (by show incr + 1 + k = incr + (k + 1); omega)
      (by show index + 1 + k = index + (k + 1); omega)))
    refine congrArg₂ List.cons (by simp) ?_
    apply List.map_congr_left
    intro j _
    simp only [Function.comp]
    have e1 : incr + 1 + j = incr + (j + 1) := by omega
    have e2 : index + 1 + j = index + (j + 1) := by omega
    simp only [e1, e2]

/-- All ids of a replication set: its own and those of its replicas. -/
def ReplSet.ids (r : ReplSet) : List Nat := r.id :: r.vnodes.map Vnode.id

/-- What a created replication set looks like. -/
structure SetOk (nodes : List Nat) (replica : Nat) (r : ReplSet) : Prop where
  count : r.vnodes.length = replica
  fromNodes : ∀ v ∈ r.vnodes, v.node ∈ nodes
  distinct : (r.vnodes.map Vnode.node).Nodup
  leader : ⟨r.leaderVnode, r.leaderNode⟩ ∈ r.vnodes

theorem vnodes_distinct (nodes : List Nat) (hnd : nodes.Nodup) (hn : 0 < nodes.length) (k index : Nat)
    (hk : k ≤ nodes.length) :
    ((List.range k).map (fun j => nodes[(index + j) % nodes.length]'(Nat.mod_lt _ hn))).Nodup := by
  rw [List.nodup_map_iff_inj_on List.nodup_range]
  intro a ha b hb hab
  rw [List.mem_range] at ha hb
  have := (List.Nodup.getElem_inj_iff hnd).1 hab
  have h1 := Nat.div_add_mod (index + a) nodes.length
  have h2 := Nat.div_add_mod (index + b) nodes.length
  generalize (index + a) / nodes.length = q1 at *
  generalize (index + b) / nodes.length = q2 at *
  rcases Nat.lt_trichotomy q1 q2 with h | h | h
  · have : nodes.length * (q1 + 1) ≤ nodes.length * q2 := Nat.mul_le_mul_left _ h
    rw [Nat.mul_add] at this; omega
  · subst h; omega
  · have : nodes.length * (q2 + 1) ≤ nodes.length * q1 := Nat.mul_le_mul_left _ h
    rw [Nat.mul_add] at this; omega

theorem allocSets_spec (word : Nat) (nodes : List Nat) (hnd : nodes.Nodup) (r : Nat) (hr : 0 < r)
    (hrn : r ≤ nodes.length) (k incr index : Nat) (hi : incr + k * (r + 1) < word)
    (hx : index + k * r < word) :
    ∃ sets, allocSets word nodes r k incr index = some (sets, incr + k * (r + 1)) ∧
      sets.length = k ∧ (∀ s ∈ sets, SetOk nodes r s) ∧
      (sets.map ReplSet.ids).flatten = List.range' incr (k * (r + 1)) := by
  induction k generalizing incr index with
  | zero => exact ⟨[], by simp [allocSets], rfl, by simp, by simp⟩
  | succ k ih =>
    have e : (k + 1) * (r + 1) = k * (r + 1) + (r + 1) := by rw [Nat.add_mul, Nat.one_mul]
    have e' : (k + 1) * r = k * r + r := by rw [Nat.add_mul, Nat.one_mul]
    have hn : 0 < nodes.length := by omega
    rw [e] at hi ⊢; rw [e'] at hx
    simp only [allocSets]
    rw [Nat.mod_eq_of_lt (by omega : incr + 1 < word),
      allocVnodes_spec word nodes hn r (incr + 1) index (by omega) (by omega)]
    obtain ⟨sets, h1, h2, h3, h4⟩ := ih (incr + 1 + r) (index + r) (by omega) (by omega)
    obtain ⟨r', rfl⟩ : ∃ r', r = r' + 1 := ⟨r - 1, by omega⟩
    have hvs := vnodes_distinct nodes hnd hn (r' + 1) index hrn
    have hids : ((List.range (r' + 1)).map (fun j => (⟨incr + 1 + j, nodes[(index + j) % nodes.length]'(Nat.mod_lt _ hn)⟩ : Vnode))).map Vnode.id
        = List.range' (incr + 1) (r' + 1) := by
      rw [List.map_map, List.range'_eq_map_range]; rfl
    have hnodes : ((List.range (r' + 1)).map (fun j => (⟨incr + 1 + j, nodes[(index + j) % nodes.length]'(Nat.mod_lt _ hn)⟩ : Vnode))).map Vnode.node
        = (List.range (r' + 1)).map (fun j => nodes[(index + j) % nodes.length]'(Nat.mod_lt _ hn)) := by
      rw [List.map_map]; rfl
    generalize hV : (List.range (r' + 1)).map (fun j => (⟨incr + 1 + j, nodes[(index + j) % nodes.length]'(Nat.mod_lt _ hn)⟩ : Vnode)) = V at *
    have hVlen : V.length = r' + 1 := by rw [← hV]; simp
    have hVmem : ∀ v ∈ V, v.node ∈ nodes := by
      intro v hv
      rw [← hV, List.mem_map] at hv
      obtain ⟨j, _, rfl⟩ := hv
      exact List.getElem_mem _
    cases V with
    | nil => simp at hVlen
    | cons v vs =>
      simp only [h1]
      refine ⟨⟨incr, v.node, v.id, v :: vs⟩ :: sets, ?_, by simp [h2], ?_, ?_⟩
      · refine congrArg some (Prod.ext rfl ?_)
        show incr + 1 + (r' + 1) + k * (r' + 1 + 1) = _
        omega
      · intro s hs
        rcases List.mem_cons.1 hs with rfl | hs
        · exact ⟨hVlen, hVmem, by rw [hnodes]; exact hvs, by simp⟩
        · exact h3 s hs
      · rw [List.map_cons, List.flatten_cons, h4, ReplSet.ids, hids]
        show incr :: List.range' (incr + 1) (r' + 1) ++ _ = _
        rw [← List.range'_succ, Nat.add_comm (k * (r' + 1 + 1))]
        have := List.range'_append (s := incr) (m := r' + 1 + 1) (n := k * (r' + 1 + 1)) (step := 1)
        rw [← this]
        congr 2
        omega

/-- C49: for distinct nodes and as long as the ids fit the counter, placement succeeds; every shard has
the requested number of replicas (at least one, at most the number of nodes) on pairwise distinct
nodes, its leader is one of them, and all shard and replica ids together are exactly the reserved
interval, each once. -/
theorem C49_placement (word : Nat) (nodes : List Nat) (hnd : nodes.Nodup) (hn : 0 < nodes.length)
    (shards replica beginSeq : Nat)
    (hfit : beginSeq + shards * (effReplica nodes replica + 1) < word) :
    ∃ sets used, allocationReplicationSet word nodes shards replica beginSeq = some (sets, used) ∧
      sets.length = shards ∧ used = shards * (effReplica nodes replica + 1) ∧
      (∀ s ∈ sets, SetOk nodes (effReplica nodes replica) s) ∧
      (sets.map ReplSet.ids).flatten = List.range' beginSeq used ∧
      (sets.map ReplSet.ids).flatten.Nodup ∧
      (0 < replica → replica ≤ nodes.length → effReplica nodes replica = replica) := by
  have hr : 0 < effReplica nodes replica := by
    unfold effReplica; split <;> [omega; split] <;> omega
  have hrn : effReplica nodes replica ≤ nodes.length := by
    unfold effReplica; split <;> [omega; split] <;> omega
  have hx : 0 + shards * effReplica nodes replica < word := by
    have : shards * effReplica nodes replica ≤ shards * (effReplica nodes replica + 1) :=
      Nat.mul_le_mul_left _ (by omega)
    omega
  obtain ⟨sets, h1, h2, h3, h4⟩ := allocSets_spec word nodes hnd _ hr hrn shards beginSeq 0 hfit hx
  refine ⟨sets, shards * (effReplica nodes replica + 1), ?_, h2, rfl, h3, h4, ?_, ?_⟩
  · rw [allocationReplicationSet, h1]
    simp only [Option.map_some]
    have : beginSeq + shards * (effReplica nodes replica + 1) + word - beginSeq =
      shards * (effReplica nodes replica + 1) + word := by omega
    rw [this, Nat.add_mod_right, Nat.mod_eq_of_lt (by omega)]
  · rw [h4]; exact List.nodup_range'
  · intro h5 h6; unfold effReplica; rw [if_neg (by omega), if_neg (by omega)]

example : allocationReplicationSet 1000 [7, 8, 9] 2 2 10 = some
    ([⟨10, 7, 11, [⟨11, 7⟩, ⟨12, 8⟩]⟩, ⟨13, 9, 14, [⟨14, 9⟩, ⟨15, 7⟩]⟩], 6) := by decide

/-! ## Invariants of the bucket catalogue -/

/-- Ids of everything in a bucket. -/
def Bucket.ids (b : Bucket) : List Nat := b.id :: (b.shards.map ReplSet.ids).flatten

/-- C58, invariant: all buckets are buckets of the one duration and pairwise disjoint. -/
structure Aligned (s : Db) : Prop where
  range : ∀ b ∈ s.buckets, ∃ t, IsI64 t ∧ t ≠ i64Max ∧ (b.start, b.stop) = getTimeRange t s.duration
  disjoint : s.buckets.Pairwise fun a b => a.stop ≤ b.start ∨ b.stop ≤ a.start

/-- Commands that keep the duration and write no maximal timestamp. -/
def Cmd.Regular : Cmd → Prop
  | .create ts _ _ => IsI64 ts ∧ ts ≠ i64Max
  | .alter _ _ _ => False
  | _ => True

theorem contains_iff (b : Bucket) (ts : Int) : b.contains ts = true ↔ b.start ≤ ts ∧ ts < b.stop := by
  simp [Bucket.contains]

theorem Bucket.update_range {b b' : Bucket} {r : Nat} {d a : List Vnode} (h : b.update r d a = some b') :
    b'.start = b.start ∧ b'.stop = b.stop ∧ b'.id = b.id ∧ b'.shards ≠ [] := by
  unfold Bucket.update at h
  simp only at h
  split at h
  · cases h
  · rename_i hne
    cases h
    refine ⟨rfl, rfl, rfl, ?_⟩
    intro hc
    simp only at hc
    rw [hc] at hne
    simp at hne

theorem Db.create_cases (word : Nat) (s : Db) (ts : Int) (nodes : List Nat) (expired : Int) :
    s.create word ts nodes expired = s ∨
    (∃ group used, (∀ b ∈ s.buckets, b.contains ts = false) ∧ ¬ s.replica > nodes.length ∧
      s.shardNum ≠ 0 ∧ expired ≤ ts ∧
      allocationReplicationSet word nodes s.shardNum s.replica (s.incr + 1) = some (group, used) ∧
      s.create word ts nodes expired =
      { s with
        incr := ((s.incr + 1) % word + used) % word
        buckets := s.buckets ++
          [⟨s.incr, (getTimeRange ts s.duration).1, (getTimeRange ts s.duration).2, group⟩] }) := by
  unfold Db.create
  split
  · exact Or.inl rfl
  split
  · exact Or.inl rfl
  split
  · exact Or.inl rfl
  split
  · exact Or.inl rfl
  rename_i h1 h2 h3 h4
  simp only
  split
  · exact Or.inl rfl
  · rename_i group used hg
    right
    refine ⟨group, used, ?_, h2, h3, by omega, hg, rfl⟩
    intro b hb
    cases hc : b.contains ts with
    | false => rfl
    | true => exact absurd (List.any_eq_true.2 ⟨b, hb, hc⟩) h1

theorem Aligned.step {word : Nat} {s : Db} (hd : s.duration ≤ i64Max) (h : Aligned s) (c : Cmd)
    (hc : c.Regular) :
    Aligned (s.step word c) ∧ (s.step word c).duration = s.duration := by
  cases c with
  | create ts nodes expired =>
    simp only [Db.step]
    rcases Db.create_cases word s ts nodes expired with e | ⟨group, used, hn, _, _, _, _, e⟩
    · rw [e]; exact ⟨h, rfl⟩
    · rw [e]
      refine ⟨⟨?_, ?_⟩, rfl⟩
      · intro b hb
        simp only [List.mem_append, List.mem_singleton] at hb
        rcases hb with hb | rfl
        · exact h.range b hb
        · exact ⟨ts, hc.1, hc.2, rfl⟩
      · simp only
        rw [List.pairwise_append]
        refine ⟨h.disjoint, List.pairwise_singleton _ _, ?_⟩
        intro a ha b hb
        rw [List.mem_singleton] at hb
        subst hb
        obtain ⟨t, ht, htm, hr⟩ := h.range a ha
        have hna := hn a ha
        have h47 := (C47_bucket_contains_partial ts s.duration hd hc.1).2 hc.2
        simp only
        rcases C47_equal_or_disjoint t ts s.duration hd ht hc.1 with he | he | he
        · rw [he] at hr
          have : a.contains ts = true := by
            rw [contains_iff, show a.start = _ from congrArg Prod.fst hr, show a.stop = _ from congrArg Prod.snd hr]
            exact h47
          rw [this] at hna; cases hna
        · rw [← hr] at he; exact Or.inl he
        · rw [← hr] at he; exact Or.inr he
  | delete id =>
    refine ⟨⟨fun b hb => h.range b (List.mem_of_mem_filter hb), ?_⟩, rfl⟩
    exact h.disjoint.sublist List.filter_sublist
  | retainId n => exact ⟨⟨h.range, h.disjoint⟩, rfl⟩
  | alter d sh r => exact absurd hc id
  | updateReplSet bid repl del add =>
    refine ⟨⟨?_, ?_⟩, rfl⟩
    · intro b hb
      simp only [Db.step, List.mem_filterMap] at hb
      obtain ⟨a, ha, hab⟩ := hb
      split at hab
      · obtain ⟨e1, e2, _⟩ := Bucket.update_range hab
        rw [e1, e2]; exact h.range a ha
      · cases hab; exact h.range _ ha
    · simp only [Db.step]
      rw [List.pairwise_filterMap]
      refine h.disjoint.imp ?_
      intro a b hab a' ha' b' hb'
      have ea : a'.start = a.start ∧ a'.stop = a.stop := by
        split at ha'
        · exact ⟨(Bucket.update_range ha').1, (Bucket.update_range ha').2.1⟩
        · cases ha'; exact ⟨rfl, rfl⟩
      have eb : b'.start = b.start ∧ b'.stop = b.stop := by
        split at hb'
        · exact ⟨(Bucket.update_range hb').1, (Bucket.update_range hb').2.1⟩
        · cases hb'; exact ⟨rfl, rfl⟩
      rw [ea.1, ea.2, eb.1, eb.2]; exact hab

theorem Aligned.run {word : Nat} {s : Db} (hd : s.duration ≤ i64Max) (h : Aligned s) (cs : List Cmd)
    (hc : ∀ c ∈ cs, c.Regular) :
    Aligned (s.run word cs) ∧ (s.run word cs).duration = s.duration := by
  induction cs generalizing s with
  | nil => exact ⟨h, rfl⟩
  | cons c cs ih =>
    obtain ⟨h1, h2⟩ := h.step (word := word) hd c (hc c (by simp))
    have := ih (by rw [h2]; exact hd) h1 (fun x hx => hc x (by simp [hx]))
    rw [h2] at this
    exact this

/-- C58: starting without buckets and keeping the duration, at any later point every timestamp lies in
at most one bucket. -/
theorem C58_one_bucket_per_timestamp_partial (word : Nat) (s : Db) (h0 : s.buckets = [])
    (hd : s.duration ≤ i64Max) (cs : List Cmd) (hc : ∀ c ∈ cs, c.Regular) :
    (s.run word cs).buckets.Pairwise (fun a b => ∀ ts, ¬ (a.contains ts = true ∧ b.contains ts = true)) := by
  have hA : Aligned s := ⟨by simp [h0], by simp [h0]⟩
  obtain ⟨h1, _⟩ := hA.run (word := word) hd cs hc
  refine h1.disjoint.imp ?_
  intro a b hab ts
  rw [contains_iff, contains_iff]
  omega

/-- C58: a create command for a timestamp that passes the checks leaves a bucket containing it. -/
theorem C58_create_makes_bucket (word : Nat) (s : Db) (hd : s.duration ≤ i64Max) (ts : Int)
    (hts : IsI64 ts) (hmax : ts ≠ i64Max) (nodes : List Nat) (hnd : nodes.Nodup) (hn : 0 < nodes.length)
    (hrep : s.replica ≤ nodes.length) (hsh : s.shardNum ≠ 0) (expired : Int) (hexp : expired ≤ ts)
    (hfit : s.incr + 1 + s.shardNum * (effReplica nodes s.replica + 1) < word) :
    ∃ b, bucketByTimestamp (s.create word ts nodes expired).buckets ts = some b ∧ b.contains ts = true := by
  have key : ∃ b ∈ (s.create word ts nodes expired).buckets, b.contains ts = true := by
    unfold Db.create
    by_cases h1 : s.buckets.any (·.contains ts) = true
    · rw [if_pos h1]
      obtain ⟨b, hb, hc⟩ := List.any_eq_true.1 h1
      exact ⟨b, hb, hc⟩
    · rw [if_neg h1, if_neg (by omega), if_neg hsh, if_neg (by omega)]
      obtain ⟨sets, used, ha, _⟩ := C49_placement word nodes hnd hn s.shardNum s.replica (s.incr + 1) hfit
      simp only [ha]
      refine ⟨_, List.mem_append_right _ (List.mem_singleton.2 rfl), ?_⟩
      rw [contains_iff]
      exact (C47_bucket_contains_partial ts s.duration hd hts).2 hmax
  obtain ⟨b, hb, hc⟩ := key
  cases h : bucketByTimestamp (s.create word ts nodes expired).buckets ts with
  | none =>
    unfold bucketByTimestamp at h
    rw [List.find?_eq_none] at h
    exact absurd hc (h b hb)
  | some b' => exact ⟨b', rfl, by simpa using List.find?_some h⟩

example : ((⟨1, 100, 1, 1, []⟩ : Db).run 1000 [.create 5 [3] 0, .create 250 [3] 0, .create 7 [3] 0]).buckets.map
    (fun b => (b.id, b.start, b.stop)) = [(1, 0, 100), (4, 200, 300)] := by decide

/-- C58 is false when the bucket duration is altered: two buckets contain the same timestamp. -/
theorem C58_alter_duration_refuted :
    ∃ (s : Db) (cs : List Cmd) (ts : Int) (a b : Bucket), s.buckets = [] ∧
      a ∈ (s.run 1000 cs).buckets ∧ b ∈ (s.run 1000 cs).buckets ∧ a ≠ b ∧
      a.contains ts = true ∧ b.contains ts = true :=
  ⟨⟨1, 100, 1, 1, []⟩, [.create 150 [3] 0, .alter 1000 1 1, .create 50 [3] 0], 150,
    ⟨1, 100, 200, [⟨2, 3, 3, [⟨3, 3⟩]⟩]⟩, ⟨4, 0, 1000, [⟨5, 3, 6, [⟨6, 3⟩]⟩]⟩, rfl,
    by decide, by decide, by decide, by decide, by decide⟩

/-- C58 is false for the maximal timestamp: every write attempt adds one more bucket with the same
range, and none contains the timestamp. -/
theorem C58_max_timestamp_refuted :
    ∃ (s : Db) (cs : List Cmd), s.buckets = [] ∧
      ((s.run 1000 cs).buckets.map fun b => (b.start, b.stop)) =
        [(9223372036854775800, 9223372036854775807), (9223372036854775800, 9223372036854775807)] ∧
      bucketByTimestamp (s.run 1000 cs).buckets i64Max = none :=
  ⟨⟨1, 100, 1, 1, []⟩, [.create i64Max [3] 0, .create i64Max [3] 0], rfl, by decide +kernel, by decide +kernel⟩

/-! ## C63: ids are never reused -/

/-- Every id in the catalogue is below the counter, and no id occurs twice. -/
structure IdsOk (s : Db) : Prop where
  below : ∀ i ∈ (s.buckets.map Bucket.ids).flatten, i < s.incr
  nodup : (s.buckets.map Bucket.ids).flatten.Nodup

/-- Commands considered for ids: create with distinct nodes, delete, reserve, alter. -/
def Cmd.IdRegular : Cmd → Prop
  | .create _ nodes _ => nodes.Nodup ∧ 0 < nodes.length
  | .updateReplSet _ _ _ _ => False
  | _ => True

/-- The ids a command takes from the counter. -/
def Cmd.cost (s : Db) : Cmd → Nat
  | .create _ nodes _ => 1 + s.shardNum * (effReplica nodes s.replica + 1)
  | .retainId n => n
  | _ => 0

theorem sublist_flatten {l₁ l₂ : List (List Nat)} (h : l₁.Sublist l₂) : l₁.flatten.Sublist l₂.flatten := by
  induction h with
  | slnil => exact List.Sublist.refl _
  | cons a _ ih => exact ih.trans (List.sublist_append_right _ _)
  | cons_cons a _ ih => exact (List.Sublist.refl a).append ih

theorem IdsOk.step {word : Nat} {s : Db} (h : IdsOk s) (c : Cmd) (hc : c.IdRegular)
    (hfit : s.incr + c.cost s < word) :
    IdsOk (s.step word c) ∧ s.incr ≤ (s.step word c).incr ∧
      ∀ i ∈ ((s.step word c).buckets.map Bucket.ids).flatten,
        i ∈ (s.buckets.map Bucket.ids).flatten ∨ s.incr ≤ i := by
  cases c with
  | create ts nodes expired =>
    simp only [Db.step]
    simp only [Cmd.cost] at hfit
    rcases Db.create_cases word s ts nodes expired with e | ⟨group, used, hn, _, _, _, hg, e⟩
    · rw [e]; exact ⟨h, Nat.le_refl _, fun i hi => Or.inl hi⟩
    · rw [e]
      obtain ⟨sets, used', ha, hl, hu, hok, hids, hnd, _⟩ :=
        C49_placement word nodes hc.1 hc.2 s.shardNum s.replica (s.incr + 1) (by omega)
      rw [ha] at hg
      obtain ⟨rfl, rfl⟩ := Prod.mk.inj (Option.some.inj hg)
      have hmod : ((s.incr + 1) % word + used') % word = s.incr + 1 + used' := by
        rw [Nat.mod_eq_of_lt (by omega : s.incr + 1 < word), Nat.mod_eq_of_lt (by omega)]
      have hb : Bucket.ids ⟨s.incr, (getTimeRange ts s.duration).1, (getTimeRange ts s.duration).2, sets⟩ =
          List.range' s.incr (used' + 1) := by
        rw [Bucket.ids, hids, List.range'_succ]
      refine ⟨⟨?_, ?_⟩, ?_, ?_⟩
      · intro i hi
        simp only [List.map_append, List.map_cons, List.map_nil, List.flatten_append, List.flatten_cons,
          List.flatten_nil, List.append_nil, List.mem_append, hb, List.mem_range'_1] at hi
        simp only [hmod]
        rcases hi with hi | hi
        · have := h.below i hi; omega
        · omega
      · simp only [List.map_append, List.map_cons, List.map_nil, List.flatten_append, List.flatten_cons,
          List.flatten_nil, List.append_nil, hb]
        rw [List.nodup_append]
        refine ⟨h.nodup, List.nodup_range', ?_⟩
        intro a ha' b hb' hab
        have := h.below a ha'
        rw [List.mem_range'_1] at hb'
        omega
      · simp only [hmod]; omega
      · intro i hi
        simp only [List.map_append, List.map_cons, List.map_nil, List.flatten_append, List.flatten_cons,
          List.flatten_nil, List.append_nil, List.mem_append, hb, List.mem_range'_1] at hi
        rcases hi with hi | hi
        · exact Or.inl hi
        · exact Or.inr hi.1
  | delete id =>
    have hsub : ((s.buckets.filter fun b => decide (b.id ≠ id)).map Bucket.ids).flatten.Sublist
        (s.buckets.map Bucket.ids).flatten := by
      exact sublist_flatten (List.filter_sublist.map _)
    exact ⟨⟨fun i hi => h.below i (hsub.subset hi), h.nodup.sublist hsub⟩, Nat.le_refl _,
      fun i hi => Or.inl (hsub.subset hi)⟩
  | retainId n =>
    simp only [Cmd.cost] at hfit
    have hmod : (s.incr + n) % word = s.incr + n := Nat.mod_eq_of_lt hfit
    simp only [Db.step, hmod, Cmd.cost]
    exact ⟨⟨fun i hi => by have := h.below i hi; simp only; omega, h.nodup⟩, by omega,
      fun i hi => Or.inl hi⟩
  | alter d sh r => exact ⟨⟨h.below, h.nodup⟩, Nat.le_refl _, fun i hi => Or.inl hi⟩
  | updateReplSet bid repl del add => exact absurd hc id

/-- The counter never overflows along a history. -/
def Fits (word : Nat) : Db → List Cmd → Prop
  | _, [] => True
  | s, c :: cs => s.incr + c.cost s < word ∧ Fits word (s.step word c) cs

/-- C63: over any history of creations, deletions, id reservations and alterations in which the counter
does not overflow, all bucket, shard and replica ids in the catalogue stay distinct, and every id given
out after a moment is at or above the counter of that moment, so no earlier id, deleted or reserved, is
given out again. -/
theorem C63_ids_unique (word : Nat) (s : Db) (h0 : IdsOk s) (cs : List Cmd)
    (hc : ∀ c ∈ cs, c.IdRegular) (hf : Fits word s cs) :
    IdsOk (s.run word cs) ∧ s.incr ≤ (s.run word cs).incr ∧
    ∀ i ∈ ((s.run word cs).buckets.map Bucket.ids).flatten,
      i ∈ (s.buckets.map Bucket.ids).flatten ∨ s.incr ≤ i := by
  induction cs generalizing s with
  | nil => exact ⟨h0, Nat.le_refl _, fun i hi => Or.inl hi⟩
  | cons c cs ih =>
    obtain ⟨h1, h2, h3⟩ := h0.step c (hc c (by simp)) hf.1
    obtain ⟨i1, i2, i3⟩ := ih (s.step word c) h1 (fun x hx => hc x (by simp [hx])) hf.2
    refine ⟨i1, Nat.le_trans h2 i2, ?_⟩
    intro i hi
    rcases i3 i hi with hi | hi
    · exact h3 i hi
    · exact Or.inr (Nat.le_trans h2 hi)

/-- An empty catalogue satisfies the invariant. -/
theorem C63_initial (s : Db) (h : s.buckets = []) : IdsOk s := ⟨by simp [h], by simp [h]⟩

example : (⟨1, 100, 2, 1, []⟩ : Db).incr = 1 ∧
    Fits 1000 ⟨1, 100, 2, 1, []⟩ [.create 5 [3, 4] 0, .retainId 3, .create 250 [3, 4] 0] := by
  refine ⟨rfl, ?_⟩
  unfold Fits Fits Fits Fits
  decide

/-! ## C59: retention -/

/-- C59: a bucket removed by retention holds only timestamps older than the retention period. -/
theorem C59_retention_removes_only_expired (bs : List Bucket) (now ttl : Int) (b : Bucket)
    (hb : b ∈ expiredBuckets bs now ttl) (ts : Int) (hc : b.contains ts = true) : ts < now - ttl := by
  simp only [expiredBuckets, List.mem_filter, timeToExpired] at hb
  have := of_decide_eq_true hb.2
  rw [contains_iff] at hc
  omega

/-- C59: conversely a bucket all of whose range is older than the period is removed. -/
theorem C59_retention_removes_all_expired (bs : List Bucket) (now ttl : Int) (b : Bucket) (hb : b ∈ bs)
    (h : b.stop < now - ttl) : b ∈ expiredBuckets bs now ttl := by
  simp only [expiredBuckets, List.mem_filter, timeToExpired]
  exact ⟨hb, decide_eq_true h⟩

/-- C59 for infinite retention (`ttl = i64::MAX`): nothing from 1970 on is ever removed. -/
theorem C59_infinite_retention_partial (bs : List Bucket) (now : Int) (hnow : now ≤ i64Max) (b : Bucket)
    (hb : b ∈ expiredBuckets bs now i64Max) (ts : Int) (hc : b.contains ts = true) : ts < 0 := by
  have := C59_retention_removes_only_expired bs now i64Max b hb ts hc
  omega

/-- C59 is false for infinite retention and timestamps far before 1970: a bucket accepted at
`now = 100` is removed at `now = 1000`. -/
theorem C59_infinite_retention_refuted :
    ∃ (s : Db) (b : Bucket), s.buckets = [] ∧
      (s.create 1000 (-9223372036854775700) [3] (timeToExpired 100 i64Max)).buckets = [b] ∧
      b ∈ expiredBuckets [b] 1000 i64Max :=
  ⟨⟨1, 50, 1, 1, []⟩, ⟨1, -9223372036854775700, -9223372036854775650, [⟨2, 3, 3, [⟨3, 3⟩]⟩]⟩, rfl,
    by decide +kernel, by decide +kernel⟩

example : expiredBuckets [⟨1, 0, 100, []⟩, ⟨2, 100, 200, []⟩] 250 100 = [⟨1, 0, 100, []⟩] := by decide

/-! ## C62: leaders -/

/-- Every replication set has a replica that is its leader; every bucket has a replication set. -/
def LeadersOk (s : Db) : Prop :=
  ∀ b ∈ s.buckets, b.shards ≠ [] ∧ ∀ r ∈ b.shards, ∃ v ∈ r.vnodes, v.id = r.leaderVnode

theorem ReplSet.update_leader (r : ReplSet) (del add : List Vnode) (h : (r.update del add).vnodes ≠ []) :
    ∃ v ∈ (r.update del add).vnodes, v.id = (r.update del add).leaderVnode := by
  unfold ReplSet.update at *
  simp only at *
  split
  · rename_i hany
    obtain ⟨v, hv, he⟩ := List.any_eq_true.1 hany
    exact ⟨v, hv, of_decide_eq_true he⟩
  · rename_i hany
    rw [if_neg hany] at h
    split
    · rename_i he
      rw [he] at h
      exact absurd rfl h
    · rename_i v vs he
      exact ⟨v, by rw [he]; simp, rfl⟩

theorem allocSets_mem {word : Nat} {nodes : List Nat} {r k incr index : Nat} {sets : List ReplSet} {i : Nat}
    (h : allocSets word nodes r k incr index = some (sets, i)) :
    sets.length = k ∧ ∀ s ∈ sets, ∃ v ∈ s.vnodes, v.id = s.leaderVnode := by
  induction k generalizing incr index sets i with
  | zero => simp only [allocSets, Option.some.injEq, Prod.mk.injEq] at h; simp [← h.1]
  | succ k ih =>
    simp only [allocSets] at h
    split at h
    · rename_i v vs i1 x1 hv
      split at h
      · rename_i sets' i' hs
        simp only [Option.some.injEq, Prod.mk.injEq] at h
        obtain ⟨rfl, rfl⟩ := h
        obtain ⟨h1, h2⟩ := ih hs
        refine ⟨by simp [h1], ?_⟩
        intro s hs'
        rcases List.mem_cons.1 hs' with rfl | hs'
        · exact ⟨v, by simp, rfl⟩
        · exact h2 s hs'
      · cases h
    · cases h

/-- C62: along every history, every bucket has at least one replication set, and every replication set
a leader that is one of its replicas; so routing a write never fails. -/
theorem C62_leader_is_replica (word : Nat) (s : Db) (h0 : s.buckets = []) (cs : List Cmd) :
    LeadersOk (s.run word cs) := by
  have hA : LeadersOk s := by intro b hb; simp [h0] at hb
  clear h0
  induction cs generalizing s with
  | nil => exact hA
  | cons c cs ih =>
    apply ih (s.step word c)
    cases c with
    | create ts nodes expired =>
      simp only [Db.step]
      rcases Db.create_cases word s ts nodes expired with e | ⟨group, used, hn, _, hsh, _, hg, e⟩
      · rw [e]; exact hA
      · rw [e]
        intro b hb
        simp only [List.mem_append, List.mem_singleton] at hb
        rcases hb with hb | rfl
        · exact hA b hb
        · simp only [allocationReplicationSet, Option.map_eq_some_iff] at hg
          obtain ⟨⟨sets, i⟩, hs, he⟩ := hg
          obtain ⟨rfl, _⟩ := Prod.mk.inj he
          obtain ⟨h1, h2⟩ := allocSets_mem hs
          refine ⟨?_, h2⟩
          intro hc
          simp only at hc
          rw [hc] at h1
          exact hsh h1.symm
    | delete id => exact fun b hb => hA b (List.mem_of_mem_filter hb)
    | retainId n => exact hA
    | alter d sh r => exact hA
    | updateReplSet bid repl del add =>
      intro b hb
      simp only [Db.step, List.mem_filterMap] at hb
      obtain ⟨a, ha, hab⟩ := hb
      split at hab
      · refine ⟨(Bucket.update_range hab).2.2.2, ?_⟩
        unfold Bucket.update at hab
        simp only at hab
        split at hab
        · cases hab
        · cases hab
          intro r hr
          simp only [List.mem_filter, List.mem_map] at hr
          obtain ⟨⟨r0, hr0, rfl⟩, hne⟩ := hr
          split
          · exact (hA a ha).2 r0 hr0
          · rename_i hrep
            rw [if_neg hrep] at hne
            apply ReplSet.update_leader
            intro hc
            rw [hc] at hne
            simp at hne
      · cases hab; exact hA _ ha

/-- C62: routing in any bucket of the catalogue finds a replication set. -/
theorem C62_routing_total (word : Nat) (s : Db) (h0 : s.buckets = []) (cs : List Cmd) (b : Bucket)
    (hb : b ∈ (s.run word cs).buckets) (hash : Nat) : ∃ r ∈ b.shards, b.vnodeFor hash = some r := by
  have := (C62_leader_is_replica word s h0 cs b hb).1
  have hpos : 0 < b.shards.length := List.length_pos_iff.2 this
  have hlt : hash % b.shards.length < b.shards.length := Nat.mod_lt _ hpos
  refine ⟨b.shards[hash % b.shards.length], List.getElem_mem _, ?_⟩
  rw [Bucket.vnodeFor, if_neg (by omega), List.getElem?_eq_getElem hlt]

example : ((⟨1, 100, 1, 2, []⟩ : Db).run 1000 [.create 5 [3, 4] 0,
    .updateReplSet 1 2 [⟨3, 3⟩] [⟨9, 5⟩]]).buckets = [⟨1, 0, 100, [⟨2, 4, 4, [⟨4, 4⟩, ⟨9, 5⟩]⟩]⟩] := by decide

end Verif.Meta
