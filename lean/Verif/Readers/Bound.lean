import Verif.Readers.Props

/-!
C220: how many readers are kept, and which.
-/

namespace Verif.Readers

variable {K V C : Type} [DecidableEq K]

/-- No shard holds more than its share. -/
def Fits (m : Nat) (c : Cache K V) : Prop := ∀ i, (c i).cap = perShard m ∧ (c i).items.length ≤ perShard m

theorem perShard_pos (m : Nat) : 0 < perShard m := by
  unfold perShard shards
  dsimp only
  split <;> omega

theorem others_lt {c : Lru K V} {k : K} {v : V} (h : c.find k = some v) : (c.others k).length < c.items.length := by
  have hm := find_some h
  unfold Lru.others
  rw [List.length_filter_lt_length_iff_exists]
  exact ⟨(k, v), hm, by simp⟩

theorem put_fits {c : Lru K V} (k : K) (v : V) (h0 : 0 < c.cap) (h : c.items.length ≤ c.cap) :
    (c.put k v).cap = c.cap ∧ (c.put k v).items.length ≤ c.cap := by
  unfold Lru.put
  cases hf : c.find k with
  | some w =>
    have := others_lt hf
    refine ⟨rfl, ?_⟩
    simp only [List.length_cons]
    omega
  | none =>
    refine ⟨rfl, ?_⟩
    simp only [List.length_cons]
    split
    · rw [List.length_dropLast]; omega
    · omega

theorem touch_fits {c : Lru K V} (k : K) : (c.touch k).cap = c.cap ∧ (c.touch k).items.length ≤ c.items.length := by
  unfold Lru.touch
  cases hf : c.find k with
  | some w =>
    have := others_lt hf
    refine ⟨rfl, ?_⟩
    simp only [List.length_cons]
    omega
  | none => exact ⟨rfl, Nat.le_refl _⟩

theorem fits_touch {hash : K → Nat} {m : Nat} {c : Cache K V} (h : Fits m c) (k : K) : Fits m (c.touch hash k) := by
  intro i
  unfold Cache.touch Cache.at
  have hi := h i
  split
  · have := touch_fits (c := c i) k
    dsimp only
    exact ⟨by rw [this.1]; exact hi.1, by omega⟩
  · exact hi

theorem fits_insert {hash : K → Nat} {m : Nat} {c : Cache K V} (h : Fits m c) (k : K) (v : V) :
    Fits m (c.insert hash k v) := by
  intro i
  unfold Cache.insert Cache.at
  have hi := h i
  have hp := perShard_pos m
  split
  · have := put_fits (c := c i) k v (by omega) (by omega)
    dsimp only
    exact ⟨by rw [this.1]; exact hi.1, by omega⟩
  · exact hi

theorem fits_remove {hash : K → Nat} {m : Nat} {c : Cache K V} (h : Fits m c) (k : K) : Fits m (c.remove hash k) := by
  intro i
  unfold Cache.remove Cache.at
  have hi := h i
  split
  · refine ⟨hi.1, Nat.le_trans ?_ hi.2⟩
    exact List.length_filter_le _ _
  · exact hi

theorem fits_get {hash : K → Nat} {m : Nat} {s : Sys K C} (h : Fits m s.cache) (p : K) : Fits m (s.get hash p).2.cache := by
  have ht := fits_touch (hash := hash) h p
  unfold Sys.get Sys.look
  cases s.cache.find hash p with
  | some x => exact ht
  | none =>
    unfold Sys.openFile
    cases hd : s.disk p with
    | none => simp only [hd]; exact ht
    | some c => simp only [hd]; exact fits_insert ht p _

/-- The capacity that was set last. -/
def capacityOf (n : Nat) : List (Op K C) → Nat
  | [] => n
  | .resize m :: ops => capacityOf m ops
  | _ :: ops => capacityOf n ops

theorem fits_run {hash : K → Nat} {m : Nat} {s : Sys K C} (h : Fits m s.cache) (ops : List (Op K C)) :
    Fits (capacityOf m ops) (s.run hash ops).cache := by
  induction ops generalizing s m with
  | nil => exact h
  | cons o ops ih =>
    cases o with
    | get p => exact ih (s := s.step hash (.get p)) (fits_get h p)
    | delete p f =>
      refine ih (s := s.step hash (.delete p f)) ?_
      have hg := fits_get (hash := hash) h p
      show Fits m (s.delete hash p f).cache
      unfold Sys.delete
      generalize s.get hash p = r at hg
      obtain ⟨r1, s'⟩ := r
      cases r1 with
      | none => exact hg
      | some x => exact hg
    | retag p f => exact ih (s := s.step hash (.retag p f)) (fits_remove h p)
    | drop p => exact ih (s := s.step hash (.drop p)) (fits_remove h p)
    | create p c =>
      refine ih (s := s.step hash (.create p c)) ?_
      show Fits m (s.create p c).cache
      unfold Sys.create
      split
      · exact h
      · exact h
    | resize n =>
      refine ih (s := s.step hash (.resize n)) ?_
      intro i
      refine ⟨rfl, ?_⟩
      show ((s.cache i).items.take (perShard n)).length ≤ _
      rw [List.length_take]
      omega

theorem sum_le (f : Nat → Nat) (b : Nat) (l : List Nat) (h : ∀ i, f i ≤ b) : (l.map f).sum ≤ l.length * b := by
  induction l with
  | nil => simp
  | cons a l ih =>
    have := h a
    simp only [List.map_cons, List.sum_cons, List.length_cons, Nat.add_mul, Nat.one_mul]
    omega

/-- C220: whatever happens, fewer than 16 readers more are kept than the capacity that was set last (above zero), and none
more when the capacity is a multiple of 16. -/
theorem C220_bound (hash : K → Nat) (n : Nat) (ops : List (Op K C)) (m : Nat) (hm : m = capacityOf n ops) (h0 : 0 < m) :
    ((Sys.init n : Sys K C).run hash ops).cache.usage < m + 16 ∧
    (m % 16 = 0 → ((Sys.init n : Sys K C).run hash ops).cache.usage ≤ m) := by
  have h : Fits (capacityOf n ops) ((Sys.init n : Sys K C).run hash ops).cache :=
    fits_run (fun i => ⟨rfl, Nat.zero_le _⟩) ops
  rw [← hm] at h
  have hs := sum_le (fun i => (((Sys.init n : Sys K C).run hash ops).cache i).items.length) (perShard m) (List.range shards)
    (fun i => (h i).2)
  rw [List.length_range] at hs
  have hp : shards * perShard m ≤ m + 15 ∧ (m % 16 = 0 → shards * perShard m ≤ m) := by
    unfold perShard shards
    dsimp only
    split <;> omega
  unfold Cache.usage
  constructor
  · omega
  · intro hz
    have := hp.2 hz
    omega

/-- C220, as configured, is false: with a capacity of one, sixteen readers are kept. -/
theorem C220_capacity_refuted :
    ((Sys.init 1 : Sys Nat Unit).run id (((List.range 16).map (Op.create · ())) ++ (List.range 16).map Op.get)).cache.usage = 16 := by
  decide +kernel

/-- Uses of a shard. -/
inductive Use (K V : Type) where
  | put (k : K) (v : V)
  | get (k : K)

/-- The key that is used. -/
def Use.key : Use K V → K
  | .put k _ => k
  | .get k => k

/-- A use of a shard. -/
def Lru.use (c : Lru K V) : Use K V → Lru K V
  | .put k v => c.put k v
  | .get k => c.touch k

/-- The entry of the key is among the first `n`. -/
def Near (c : Lru K V) (k : K) (v : V) (n : Nat) : Prop := (c.items.take n).find? (fun x => decide (x.1 = k)) = some (k, v)

theorem find_filter_take (l : List (K × V)) (k k' : K) (v : V) (n : Nat) (hk : k' ≠ k)
    (h : (l.take n).find? (fun x => decide (x.1 = k)) = some (k, v)) :
    ((l.filter (fun x => decide (x.1 ≠ k'))).take n).find? (fun x => decide (x.1 = k)) = some (k, v) := by
  induction l generalizing n with
  | nil => simp at h
  | cons a l ih =>
    cases n with
    | zero => simp at h
    | succ n =>
      rw [List.take_succ_cons, List.find?_cons] at h
      by_cases ha : a.1 = k
      · simp only [ha, decide_true, Option.some.injEq] at h
        have hne : decide (a.1 ≠ k') = true := by
          rw [ha]; simpa using fun he : k = k' => hk he.symm
        rw [List.filter_cons, if_pos hne, List.take_succ_cons, List.find?_cons]
        simp [ha, h]
      · simp only [ha, decide_false] at h
        by_cases hb : a.1 = k'
        · have hne : ¬ decide (a.1 ≠ k') = true := by simp [hb]
          rw [List.filter_cons, if_neg hne]
          have := ih n h
          have hs : ((l.filter (fun x => decide (x.1 ≠ k'))).take n) <+: ((l.filter (fun x => decide (x.1 ≠ k'))).take (n + 1)) :=
            List.take_prefix_take_left (by omega)
          obtain ⟨t, ht⟩ := hs
          rw [← ht, List.find?_append, this]
          rfl
        · have hne : decide (a.1 ≠ k') = true := by simp [hb]
          rw [List.filter_cons, if_pos hne, List.take_succ_cons, List.find?_cons]
          simp only [ha, decide_false]
          exact ih n h

theorem near_cons (l : List (K × V)) (k k' : K) (v w : V) (n cap : Nat) (hk : k' ≠ k)
    (h : (l.take n).find? (fun x => decide (x.1 = k)) = some (k, v)) : Near (⟨cap, (k', w) :: l⟩ : Lru K V) k v (n + 1) := by
  unfold Near
  rw [List.take_succ_cons, List.find?_cons]
  simp only [hk, decide_false]
  exact h

theorem near_mono {c : Lru K V} {k : K} {v : V} {n m : Nat} (h : Near c k v n) (hm : n ≤ m) : Near c k v m := by
  unfold Near at *
  obtain ⟨t, ht⟩ := List.take_prefix_take_left (l := c.items) hm
  rw [← ht, List.find?_append, h]
  rfl

theorem near_use {c : Lru K V} {k : K} {v : V} {n : Nat} (u : Use K V) (hk : u.key ≠ k) (hn : n < c.cap) (h : Near c k v n) :
    Near (c.use u) k v (n + 1) ∧ (c.use u).cap = c.cap := by
  cases u with
  | put k' w =>
    show Near (c.put k' w) k v (n + 1) ∧ (c.put k' w).cap = c.cap
    unfold Lru.put
    cases hf : c.find k' with
    | some x => exact ⟨near_cons _ k k' v w n _ hk (find_filter_take _ k k' v n hk h), rfl⟩
    | none =>
      refine ⟨near_cons _ k k' v w n _ hk ?_, rfl⟩
      split
      · rename_i hl
        rw [List.dropLast_eq_take, List.take_take, Nat.min_eq_left (by omega)]
        exact h
      · exact h
  | get k' =>
    show Near (c.touch k') k v (n + 1) ∧ (c.touch k').cap = c.cap
    unfold Lru.touch
    cases hf : c.find k' with
    | some x => exact ⟨near_cons _ k k' v x n _ hk (find_filter_take _ k k' v n hk h), rfl⟩
    | none => exact ⟨near_mono h (by omega), rfl⟩

theorem near_uses {k : K} {v : V} (us : List (Use K V)) {c : Lru K V} {n : Nat} (hk : ∀ u ∈ us, u.key ≠ k)
    (hn : n + us.length ≤ c.cap) (h : Near c k v n) : Near (us.foldl Lru.use c) k v (n + us.length) := by
  induction us generalizing c n with
  | nil => exact h
  | cons u us ih =>
    simp only [List.length_cons] at hn
    obtain ⟨h1, h2⟩ := near_use u (hk u (List.mem_cons_self ..)) (by omega) h
    have := ih (c := c.use u) (n := n + 1) (fun x hx => hk x (List.mem_cons_of_mem _ hx)) (by omega) h1
    simp only [List.foldl_cons, List.length_cons]
    rw [show n + (us.length + 1) = n + 1 + us.length by omega]
    exact this

/-- C220: a shard forgets an entry only after as many uses of other keys as it has room for. -/
theorem C220_recent (c : Lru K V) (k : K) (v : V) (us : List (Use K V)) (hk : ∀ u ∈ us, u.key ≠ k) (hl : us.length < c.cap) :
    (us.foldl Lru.use (c.put k v)).find k = some v := by
  have h0 : Near (c.put k v) k v 1 ∧ (c.put k v).cap = c.cap := by
    unfold Lru.put Near
    cases c.find k <;> simp
  have h := near_uses us hk (by omega) h0.1
  unfold Near at h
  unfold Lru.find
  obtain ⟨t, ht⟩ := List.take_prefix (1 + us.length) (us.foldl Lru.use (c.put k v)).items
  rw [← ht, List.find?_append, h]
  rfl

/-- C220: the bound is exact: with room for two, the third key takes the place of the one used longest ago. -/
example : (([Use.get 1, .put 3 'c'] : List (Use Nat Char)).foldl Lru.use (((⟨2, []⟩ : Lru Nat Char).put 1 'a').put 2 'b')).items =
    [(3, 'c'), (1, 'a')] := by decide +kernel

/-- C220: keys of other shards are not touched by an insertion. -/
theorem C220_others (hash : K → Nat) (c : Cache K V) (k k' : K) (v : V) (h : hash k % 16 ≠ hash k' % 16) :
    (c.insert hash k v).find hash k' = c.find hash k' := by
  unfold Cache.find Cache.insert Cache.at place shards
  rw [if_neg (fun he => h he.symm)]

/-- C220: a key that was removed is not found. -/
theorem C220_removed (hash : K → Nat) (c : Cache K V) (k : K) : (c.remove hash k).find hash k = none := by
  unfold Cache.find Cache.remove Cache.at
  rw [if_pos rfl]
  unfold Lru.find Lru.remove
  rw [Option.map_eq_none_iff, List.find?_eq_none]
  intro x hx
  simpa using (mem_others.1 hx).2

end Verif.Readers
