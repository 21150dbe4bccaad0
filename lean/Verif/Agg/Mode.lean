import Verif.Agg.Plan
/-!
# C84: `mode`

`query_server/query/src/extension/expr/aggregate_function/mode.rs`. A hash map is a list of pairs with different keys; where the code
iterates over it, the order is a parameter (`ord`).
-/
namespace Verif.Agg.Mode

variable {V : Type} [DecidableEq V]

/-- `map.entry(v).and_modify(|e| *e += n).or_insert(n)` on `HashMap<ScalarValue, u32>` (`mode.rs:87`, `:143-146`). -/
def bump (v : V) (n : Nat) : List (V × Nat) → List (V × Nat)
  | [] => [(v, n)]
  | (w, c) :: m => if w = v then (w, (c + n) % 4294967296) :: m else (w, c) :: bump v n m

/-- `update_batch` (`mode.rs:65-91`): NULL is skipped. -/
def update (m : List (V × Nat)) (batch : List (Option V)) : List (V × Nat) :=
  batch.foldl (fun m x => match x with | none => m | some v => bump v 1 m) m

/-- `merge_batch` (`mode.rs:125-150`). -/
def merge (m : List (V × Nat)) (states : List (List (V × Nat))) : List (V × Nat) :=
  states.foldl (fun m s => s.foldl (fun m p => bump p.1 p.2 m) m) m

/-- `max_by_key` (`mode.rs:96`): the last one with the greatest count. -/
def maxByCount : List (V × Nat) → Option (V × Nat)
  | [] => none
  | p :: m =>
    match maxByCount m with
    | none => some p
    | some q => if q.2 < p.2 then some p else some q

/-- `mode(value)` over a plan: `state` (`mode.rs:112-123`) and `evaluate` (`mode.rs:93-100`) iterate over the map. -/
def mode (ord : List (V × Nat) → List (V × Nat)) (p : Plan (List (Option V))) : Option V :=
  (maxByCount (ord (p.run [] update ord merge))).map (·.1)

/-! ## Specification -/

/-- How often a value occurs. -/
def occ (v : V) (rows : List (Option V)) : Nat := rows.count (some v)

/-- The answer: a value that occurs, and none occurs more often; NULL if all are NULL. -/
def IsMode (rows : List (Option V)) : Option V → Prop
  | none => ∀ v, occ v rows = 0
  | some v => 0 < occ v rows ∧ ∀ w, occ w rows ≤ occ v rows

/-! ## Proofs -/

omit [DecidableEq V] in
theorem perm_mem {ord : List (V × Nat) → List (V × Nat)} (ho : ∀ m, (ord m).Perm m) {m : List (V × Nat)} {x : V × Nat} :
    x ∈ ord m ↔ x ∈ m := (ho m).mem_iff

/-- The map has each value once, with the number of its occurrences. -/
def Counts (m : List (V × Nat)) (f : V → Nat) : Prop :=
  (m.map (·.1)).Nodup ∧ (∀ p ∈ m, p.2 = f p.1 ∧ 0 < p.2) ∧ ∀ v, 0 < f v → v ∈ m.map (·.1)

theorem keys_bump (v : V) (n : Nat) (m : List (V × Nat)) :
    (bump v n m).map (·.1) = if v ∈ m.map (·.1) then m.map (·.1) else m.map (·.1) ++ [v] := by
  induction m with
  | nil => rfl
  | cons p m ih =>
    obtain ⟨w, c⟩ := p
    by_cases h : w = v
    · simp [bump, h]
    · rw [bump, if_neg h, List.map_cons, ih]
      have h' : v ≠ w := fun e => h e.symm
      by_cases hm : v ∈ m.map (·.1)
      · rw [if_pos hm, if_pos (by simp at hm ⊢; exact Or.inr hm)]; rfl
      · rw [if_neg hm, if_neg (by simp at hm ⊢; exact ⟨h', hm⟩)]; rfl

theorem mem_bump {v : V} {n : Nat} {m : List (V × Nat)} (hn : (m.map (·.1)).Nodup) {p : V × Nat} (hp : p ∈ bump v n m) :
    (p ∈ m ∧ p.1 ≠ v) ∨ (p.1 = v ∧ ∃ c, (v, c) ∈ m ∧ p.2 = (c + n) % 4294967296) ∨ (p = (v, n) ∧ v ∉ m.map (·.1)) := by
  induction m with
  | nil => exact Or.inr (Or.inr ⟨List.mem_singleton.1 hp, by simp⟩)
  | cons q m ih =>
    obtain ⟨w, c⟩ := q
    rw [List.map_cons, List.nodup_cons] at hn
    by_cases h : w = v
    · subst h
      rw [bump, if_pos rfl] at hp
      rcases List.mem_cons.1 hp with rfl | hp
      · exact Or.inr (Or.inl ⟨rfl, c, List.mem_cons_self .., rfl⟩)
      · exact Or.inl ⟨List.mem_cons_of_mem _ hp, fun e => hn.1 (e ▸ List.mem_map.2 ⟨p, hp, rfl⟩)⟩
    · rw [bump, if_neg h] at hp
      rcases List.mem_cons.1 hp with rfl | hp
      · exact Or.inl ⟨List.mem_cons_self .., h⟩
      · rcases ih hn.2 hp with h1 | ⟨h1, c', h2, h3⟩ | ⟨h1, h2⟩
        · exact Or.inl ⟨List.mem_cons_of_mem _ h1.1, h1.2⟩
        · exact Or.inr (Or.inl ⟨h1, c', List.mem_cons_of_mem _ h2, h3⟩)
        · refine Or.inr (Or.inr ⟨h1, ?_⟩)
          rw [List.map_cons, List.mem_cons]
          rintro (e | e)
          · exact h e.symm
          · exact h2 e

theorem bump_counts {v : V} {n : Nat} {m : List (V × Nat)} {f : V → Nat} (h : Counts m f) (hn : 0 < n)
    (hb : f v + n < 4294967296) : Counts (bump v n m) (fun w => f w + if w = v then n else 0) := by
  obtain ⟨h1, h2, h3⟩ := h
  refine ⟨?_, ?_, ?_⟩
  · rw [keys_bump]
    split
    · exact h1
    · rename_i hv
      rw [List.nodup_append]
      refine ⟨h1, by simp, fun a ha b hb' => ?_⟩
      rw [List.mem_singleton.1 hb']
      exact fun e => hv (e ▸ ha)
  · intro p hp
    show p.2 = (f p.1 + if p.1 = v then n else 0) ∧ 0 < p.2
    rcases mem_bump h1 hp with ⟨g1, g2⟩ | ⟨g1, c, g2, g3⟩ | ⟨g1, g2⟩
    · rw [if_neg g2]; have := h2 p g1; omega
    · rw [if_pos g1, g3, g1]
      have h4 := h2 _ g2
      dsimp only at h4
      rw [Nat.mod_eq_of_lt (by omega)]; omega
    · subst g1
      have h4 : f v = 0 := Nat.eq_zero_of_not_pos fun hp => g2 (h3 v hp)
      simp; omega
  · intro w (hw : 0 < f w + if w = v then n else 0)
    rw [keys_bump]
    split
    · rename_i hv
      by_cases e : w = v
      · rw [e]; exact hv
      · rw [if_neg e] at hw; exact h3 w hw
    · by_cases e : w = v
      · rw [e]; simp
      · rw [if_neg e] at hw
        exact List.mem_append.2 (Or.inl (h3 w hw))

omit [DecidableEq V] in
theorem Counts.congr {m : List (V × Nat)} {f g : V → Nat} (h : Counts m f) (e : ∀ v, f v = g v) : Counts m g := by
  have : f = g := funext e
  rw [← this]; exact h

omit [DecidableEq V] in
theorem Counts.perm {m m' : List (V × Nat)} {f : V → Nat} (h : Counts m f) (hp : m'.Perm m) : Counts m' f :=
  ⟨(hp.map _).nodup_iff.2 h.1, fun p hm => h.2.1 p (hp.mem_iff.1 hm), fun v hv => (hp.map _).mem_iff.2 (h.2.2 v hv)⟩

theorem occ_append (v : V) (a b : List (Option V)) : occ v (a ++ b) = occ v a + occ v b := List.count_append

theorem occ_le (v : V) (a : List (Option V)) : occ v a ≤ a.length := List.count_le_length

theorem update_counts {b : List (Option V)} {m : List (V × Nat)} {rs : List (Option V)} (h : Counts m (occ · rs))
    (hl : (rs ++ b).length < 4294967296) : Counts (update m b) (occ · (rs ++ b)) := by
  induction b generalizing m rs with
  | nil => simpa [update] using h
  | cons x b ih =>
    have e : rs ++ x :: b = (rs ++ [x]) ++ b := by simp
    rw [e] at hl ⊢
    unfold update
    rw [List.foldl_cons]
    refine ih ?_ hl
    cases x with
    | none => exact h.congr fun v => by rw [occ_append]; simp [occ]
    | some v =>
      have hv := occ_le v rs
      refine (bump_counts h (n := 1) (by omega) (by simp at hl; omega)).congr fun w => ?_
      rw [occ_append]
      congr 1
      unfold occ
      rw [List.count_singleton]
      by_cases hw : w = v
      · simp [hw]
      · have hw' : v ≠ w := fun e => hw e.symm
        simp [hw, hw']

/-- Sums of a state. -/
theorem mergeOne_counts {s m : List (V × Nat)} {f g : V → Nat} (hm : Counts m f) (hs : Counts s g)
    (hb : ∀ v, f v + g v < 4294967296) : Counts (s.foldl (fun m p => bump p.1 p.2 m) m) (fun v => f v + g v) := by
  induction s generalizing m f g with
  | nil =>
    refine hm.congr fun v => ?_
    have : g v = 0 := Nat.eq_zero_of_not_pos fun hp => by have := hs.2.2 v hp; simp at this
    omega
  | cons p s ih =>
    obtain ⟨v, n⟩ := p
    rw [List.foldl_cons]
    obtain ⟨h1, h2, h3⟩ := hs
    rw [List.map_cons, List.nodup_cons] at h1
    have hv := h2 (v, n) (List.mem_cons_self ..)
    dsimp only at hv
    have hbump := bump_counts hm (v := v) (n := n) hv.2 (by rw [hv.1]; exact hb v)
    have hs' : Counts s (fun w => if w = v then 0 else g w) := by
      refine ⟨h1.2, fun q hq => ?_, fun w (hw : 0 < if w = v then 0 else g w) => ?_⟩
      · have hne : q.1 ≠ v := fun e => h1.1 (e ▸ List.mem_map.2 ⟨q, hq, rfl⟩)
        show q.2 = (if q.1 = v then 0 else g q.1) ∧ 0 < q.2
        rw [if_neg hne]; exact h2 q (List.mem_cons_of_mem _ hq)
      · by_cases e : w = v
        · rw [if_pos e] at hw; omega
        · rw [if_neg e] at hw
          have := h3 w hw
          rw [List.map_cons, List.mem_cons] at this
          exact this.resolve_left e
    refine (ih hbump hs' ?_).congr fun w => ?_
    · intro w
      have := hb w
      by_cases e : w = v
      · subst e; simp; omega
      · simp [e]; omega
    · by_cases e : w = v
      · subst e; simp; omega
      · simp [e]

theorem merge_counts {ps : List (List (V × Nat) × List (Option V))} {m : List (V × Nat)} {rs : List (Option V)}
    (h : Counts m (occ · rs)) (hps : ∀ p ∈ ps, Counts p.1 (occ · p.2)) (hl : (rs ++ (ps.map (·.2)).flatten).length < 4294967296) :
    Counts (merge m (ps.map (·.1))) (occ · (rs ++ (ps.map (·.2)).flatten)) := by
  induction ps generalizing m rs with
  | nil => simpa [merge] using h
  | cons p ps ih =>
    have e : rs ++ ((p :: ps).map (·.2)).flatten = (rs ++ p.2) ++ (ps.map (·.2)).flatten := by simp
    rw [e] at hl ⊢
    unfold merge
    rw [List.map_cons, List.foldl_cons]
    refine ih ?_ (fun q hq => hps q (List.mem_cons_of_mem _ hq)) hl
    refine (mergeOne_counts h (hps p (List.mem_cons_self ..)) fun v => ?_).congr fun v => (occ_append ..).symm
    have h1 := occ_le v rs
    have h2 := occ_le v p.2
    simp at hl; omega

omit [DecidableEq V] in
theorem maxByCount_spec (m : List (V × Nat)) :
    match maxByCount m with
    | none => m = []
    | some p => p ∈ m ∧ ∀ q ∈ m, q.2 ≤ p.2 := by
  induction m with
  | nil => rfl
  | cons p m ih =>
    rw [maxByCount]
    cases h : maxByCount m with
    | none =>
      rw [h] at ih
      dsimp only at ih
      subst ih
      simp
    | some q =>
      rw [h] at ih
      dsimp only at ih ⊢
      split <;> rename_i hs <;> split at hs <;> cases hs
      · rename_i hlt
        refine ⟨List.mem_cons_self .., fun x hx => ?_⟩
        rcases List.mem_cons.1 hx with rfl | hx
        · exact Nat.le_refl _
        · have := ih.2 x hx; omega
      · rename_i hlt
        refine ⟨List.mem_cons_of_mem _ ih.1, fun x hx => ?_⟩
        rcases List.mem_cons.1 hx with rfl | hx
        · omega
        · exact ih.2 x hx

/-- C84: however the rows (fewer than 2^32) are cut into batches and partitions, and in whatever order hash maps are visited, `mode` gives a
value that occurs most often. -/
theorem C84_mode {ord : List (V × Nat) → List (V × Nat)} (ho : ∀ m, (ord m).Perm m) (p : Plan (List (Option V)))
    (hl : p.rows.length < 4294967296) : IsMode p.rows (mode ord p) := by
  have h := Plan.run_inv (init := ([] : List (V × Nat))) (update := update) (state := ord) (merge := merge)
    (fun m rs => rs.length < 4294967296 → Counts m (occ · rs)) (fun m rs => rs.length < 4294967296 → Counts m (occ · rs))
    (fun _ => ⟨List.nodup_nil, (fun q hq => absurd hq List.not_mem_nil), (fun v hv => by simp [occ] at hv)⟩)
    (fun m rs b hm hlen => update_counts (hm (by simp at hlen; omega)) hlen)
    (fun m rs hm hlen => (hm hlen).perm (ho m))
    (fun m rs ps hm hps hlen => merge_counts (hm (by simp at hlen; omega)) (fun q hq => hps q hq (by
      have : q.2.length ≤ ((ps.map (·.2)).flatten).length := by
        obtain ⟨a, b, e⟩ := List.append_of_mem hq
        rw [e]; simp; omega
      rw [List.length_append] at hlen; omega)) hlen)
    p hl
  unfold mode
  generalize Plan.run [] update ord merge p = m at *
  have h' := h.perm (ho m)
  have hmax := maxByCount_spec (ord m)
  cases hm : maxByCount (ord m) with
  | none =>
    rw [hm] at hmax
    dsimp only at hmax
    rw [hmax] at h'
    intro v
    exact Nat.eq_zero_of_not_pos fun hp => by have := h'.2.2 v hp; simp at this
  | some q =>
    rw [hm] at hmax
    dsimp only at hmax
    have hq : q.2 = occ q.1 p.rows ∧ 0 < q.2 := h'.2.1 q hmax.1
    show 0 < occ q.1 p.rows ∧ ∀ w, occ w p.rows ≤ occ q.1 p.rows
    refine ⟨by rw [← hq.1]; exact hq.2, fun w => ?_⟩
    rcases Nat.eq_zero_or_pos (occ w p.rows) with e | hw
    · omega
    · obtain ⟨x, hx, e⟩ := List.mem_map.1 (h'.2.2 w hw)
      have h4 : x.2 = occ x.1 p.rows := (h'.2.1 x hx).1
      have h5 := hmax.2 x hx
      subst e
      omega

/-- Five rows in two partitions. -/
example : mode (V := Nat) id (.twoPhase [[[[some 1, none, some 2]], [[some 2], [some 3]]]]) = some 2 := by decide

/-- Values that occur equally often: the result depends on the order in which the hash map is visited. -/
theorem C84_ties : mode (V := Nat) id (.single [[some 1, some 2]]) = some 2 ∧
    mode (V := Nat) List.reverse (.single [[some 1, some 2]]) = some 1 := by decide

end Verif.Agg.Mode
