import Verif.Index.Model
/-!
# Lemmas: the invariant of the series index
-/
namespace Verif.Index
open Verif.Utils (Bytes bytesLe)

section
variable {κ : Type} [DecidableEq κ]

theorem bm_set (m : AMap κ (List Nat)) (k k' : κ) (l : List Nat) :
    bm (m.set k l) k' = if k' = k then l else bm m k' := by
  unfold bm; rw [AMap.get_set]; split <;> rfl

@[simp] theorem bm_empty (k : κ) : bm (AMap.empty : AMap κ (List Nat)) k = [] := rfl

theorem mem_bm {m : AMap κ (List Nat)} {k : κ} {i : Nat} :
    i ∈ bm m k ↔ ∃ l, (k, l) ∈ m.entries ∧ i ∈ l := by
  unfold bm
  cases h : m.get k with
  | none =>
    simp only [Option.getD_none, List.not_mem_nil, false_iff]
    rintro ⟨l, hl, _⟩
    exact AMap.get_eq_none.1 h l hl
  | some l =>
    simp only [Option.getD_some]
    constructor
    · exact fun hi => ⟨l, AMap.mem_entries.2 h, hi⟩
    · rintro ⟨l', hl', hi⟩
      rw [AMap.mem_entries, h] at hl'
      cases hl'; exact hi
end

theorem addInv_fold (t : Bytes) (id : Nat) (ps : List (Bytes × Bytes)) (w : WCache) :
    let w' := ps.foldl (fun w p => w.addInv t p id) w
    w'.idMap = w.idMap ∧ w'.keyMap = w.keyMap ∧
    ∀ i x, i ∈ bm w'.inv x ↔ i ∈ bm w.inv x ∨ (i = id ∧ x.1 = t ∧ x.2 ∈ ps) := by
  induction ps generalizing w with
  | nil => simp
  | cons p ps ih =>
    obtain ⟨h1, h2, h3⟩ := ih (w.addInv t p id)
    refine ⟨h1, h2, fun i x => ?_⟩
    rw [List.foldl_cons, h3]
    simp only [WCache.addInv, bm_set]
    obtain ⟨t', a, v⟩ := x
    by_cases hx : (t', a, v) = (t, p.1, p.2)
    · rw [if_pos hx, hx]
      simp only [List.mem_cons]
      constructor
      · rintro ((h | h) | h)
        · exact .inr ⟨h, trivial, .inl trivial⟩
        · exact .inl h
        · exact .inr ⟨h.1, h.2.1, .inr h.2.2⟩
      · rintro (h | h)
        · exact .inl (.inr h)
        · exact .inl (.inl h.1)
    · rw [if_neg hx]
      simp only [List.mem_cons]
      constructor
      · rintro (h | h)
        · exact .inl h
        · exact .inr ⟨h.1, h.2.1, .inr h.2.2⟩
      · rintro (h | ⟨h1, h2, h4 | h4⟩)
        · exact .inl h
        · subst h2; exact absurd (by rw [← h4]) hx
        · exact .inr ⟨h1, h2, h4⟩

theorem bm_delInv (w : WCache) (t : Bytes) (p : Bytes × Bytes) (id : Nat) (x : Bytes × Bytes × Bytes) :
    bm (w.delInv t p id).inv x = if x = (t, p.1, p.2) then (bm w.inv x).filter (· ≠ id) else bm w.inv x := by
  unfold WCache.delInv
  split
  · rename_i b hb
    simp only [bm_set]
    split
    · rename_i hx; subst hx
      simp [bm, hb]
    · rfl
  · rename_i hb
    split
    · rename_i hx; subst hx
      simp [bm, hb]
    · rfl

theorem delInv_fold (t : Bytes) (id : Nat) (ps : List (Bytes × Bytes)) (w : WCache) :
    let w' := ps.foldl (fun w p => w.delInv t p id) w
    w'.idMap = w.idMap ∧ w'.keyMap = w.keyMap ∧
    ∀ i x, i ∈ bm w'.inv x ↔ i ∈ bm w.inv x ∧ ¬ (i = id ∧ x.1 = t ∧ x.2 ∈ ps) := by
  induction ps generalizing w with
  | nil => simp
  | cons p ps ih =>
    obtain ⟨h1, h2, h3⟩ := ih (w.delInv t p id)
    have e : (w.delInv t p id).idMap = w.idMap ∧ (w.delInv t p id).keyMap = w.keyMap := by
      unfold WCache.delInv; split <;> exact ⟨rfl, rfl⟩
    refine ⟨h1.trans e.1, h2.trans e.2, fun i x => ?_⟩
    rw [List.foldl_cons, h3, bm_delInv]
    obtain ⟨t', a, v⟩ := x
    simp only [List.mem_cons]
    by_cases hx : (t', a, v) = (t, p.1, p.2)
    · rw [if_pos hx]
      obtain ⟨a', v'⟩ := p
      simp only [Prod.mk.injEq] at hx
      obtain ⟨rfl, rfl, rfl⟩ := hx
      simp only [List.mem_filter, decide_eq_true_eq, true_and, true_or, and_true]
      constructor
      · exact fun h => h.1
      · exact fun h => ⟨h, fun h1 => h.2 h1.1⟩
    · rw [if_neg hx]
      constructor
      · rintro ⟨h, h'⟩
        refine ⟨h, fun ⟨h1, h2, h4⟩ => ?_⟩
        rcases h4 with h4 | h4
        · subst h2; exact hx (by rw [← h4])
        · exact h' ⟨h1, h2, h4⟩
      · rintro ⟨h, h'⟩
        exact ⟨h, fun ⟨h1, h2, h3⟩ => h' ⟨h1, h2, .inr h3⟩⟩

theorem invRemove_fold (t : Bytes) (id : Nat) (ps : List (Bytes × Bytes)) (m : AMap Bytes (List Nat)) (i : Nat)
    (b : Bytes) :
    i ∈ bm (ps.foldl (fun m p => invRemove m (invKey t p.1 p.2) id) m) b ↔
      i ∈ bm m b ∧ ¬ (i = id ∧ ∃ p ∈ ps, invKey t p.1 p.2 = b) := by
  induction ps generalizing m with
  | nil => simp
  | cons p ps ih =>
    rw [List.foldl_cons, ih]
    unfold invRemove
    rw [bm_set]
    simp only [List.mem_cons, exists_eq_or_imp]
    by_cases hb : b = invKey t p.1 p.2
    · rw [if_pos hb]; subst hb
      simp only [List.mem_filter, decide_eq_true_eq, true_or, and_true]
      constructor
      · exact fun h => h.1
      · exact fun h => ⟨h, fun h1 => h.2 h1.1⟩
    · rw [if_neg hb]
      constructor
      · rintro ⟨h, h'⟩
        refine ⟨h, fun ⟨h1, h2⟩ => ?_⟩
        rcases h2 with h2 | h2
        · exact hb h2.symm
        · exact h' ⟨h1, h2⟩
      · rintro ⟨h, h'⟩
        exact ⟨h, fun ⟨h1, h2⟩ => h' ⟨h1, .inr h2⟩⟩

theorem merge_fold {ε : Type} (f : ε → Bytes) (g : ε → List Nat) (es : List ε) (m : AMap Bytes (List Nat)) (i : Nat)
    (b : Bytes) :
    i ∈ bm (es.foldl (fun m e => m.set (f e) (bm m (f e) ++ g e)) m) b ↔
      i ∈ bm m b ∨ ∃ e ∈ es, f e = b ∧ i ∈ g e := by
  induction es generalizing m with
  | nil => simp
  | cons e es ih =>
    rw [List.foldl_cons, ih, bm_set]
    simp only [List.mem_cons, exists_eq_or_imp]
    by_cases hb : b = f e
    · rw [if_pos hb]; subst hb
      simp only [List.mem_append, true_and, or_assoc]
    · rw [if_neg hb]
      constructor
      · rintro (h | h)
        · exact .inl h
        · exact .inr (.inr h)
      · rintro (h | h | h)
        · exact .inl h
        · exact absurd h.1.symm hb
        · exact .inr h

/-- The series an id stands for. -/
def live (s : Idx) (i : Nat) : Option SKey := (s.w.idMap.get i).or (s.st.idKey.get i)

/-- The index invariant. -/
structure Inv (c : Cfg) (s : Idx) : Prop where
  wkey : ∀ b i, s.w.keyMap.get b = some i ↔ ∃ k, s.w.idMap.get i = some k ∧ encKey k = b
  skey : ∀ b i, s.st.keyId.get b = some i ↔ ∃ k, s.st.idKey.get i = some k ∧ encKey k = b
  disj : ∀ i k, s.w.idMap.get i = some k → s.st.idKey.get i = none
  inj : ∀ i j k k', live s i = some k → live s j = some k' → encKey k = encKey k' → i = j
  bound : ∀ i k, live s i = some k → i ≤ s.incr
  short : ∀ i k, live s i = some k → Short k
  rid : ∀ i k, s.r.idMap.get i = some k → s.st.idKey.get i = some k
  rhash : ∀ h k i, s.r.hashMap.get h = some (k, i) → h = c.hash k ∧ s.st.idKey.get i = some k
  winv : ∀ i x, i ∈ bm s.w.inv x ↔ ∃ k, s.w.idMap.get i = some k ∧ x.1 = k.table ∧ x.2 ∈ invPairs k
  sinv : ∀ i b, i ∈ bm s.st.inv b ↔
    ∃ k, s.st.idKey.get i = some k ∧ ∃ p ∈ invPairs k, invKey k.table p.1 p.2 = b
  auto : s.st.auto ≤ s.incr

variable {c : Cfg} {s : Idx}

theorem Inv.live_w (_ : Inv c s) {i : Nat} {k : SKey} (hi : s.w.idMap.get i = some k) : live s i = some k := by
  simp [live, hi]

theorem Inv.live_s (h : Inv c s) {i : Nat} {k : SKey} (hi : s.st.idKey.get i = some k) : live s i = some k := by
  unfold live
  cases hw : s.w.idMap.get i with
  | none => simpa using hi
  | some k' => rw [h.disj i k' hw] at hi; cases hi

theorem live_cases {i : Nat} {k : SKey} (h : live s i = some k) :
    s.w.idMap.get i = some k ∨ (s.w.idMap.get i = none ∧ s.st.idKey.get i = some k) := by
  unfold live at h
  cases hw : s.w.idMap.get i with
  | none => rw [hw] at h; exact .inr ⟨rfl, by simpa using h⟩
  | some k' => rw [hw] at h; left; simpa using h

theorem Inv.fresh (c : Cfg) : Inv c Idx.fresh := by
  constructor <;> simp [Idx.fresh, openOn, WCache.empty, RCache.empty, Store.empty, live]

theorem Inv.cacheAdd (h : Inv c s) {i : Nat} {k : SKey} (hi : s.st.idKey.get i = some k) :
    Inv c { s with r := s.r.add c i k } where
  wkey := h.wkey
  skey := h.skey
  disj := h.disj
  inj := h.inj
  bound := h.bound
  short := h.short
  winv := h.winv
  sinv := h.sinv
  auto := h.auto
  rid := by
    intro j k' hj
    simp only [RCache.add, AMap.get_set] at hj
    split at hj
    · rename_i e; subst e; cases hj; exact hi
    · exact h.rid j k' hj
  rhash := by
    intro hh k' j hj
    simp only [RCache.add, AMap.get_set] at hj
    split at hj
    · rename_i e; subst e; cases hj; exact ⟨rfl, hi⟩
    · exact h.rhash hh k' j hj

/-- Changing only the read cache to a smaller one. -/
theorem Inv.shrink (h : Inv c s) (r : RCache) (h1 : ∀ i k, r.idMap.get i = some k → s.r.idMap.get i = some k)
    (h2 : ∀ x y, r.hashMap.get x = some y → s.r.hashMap.get x = some y) : Inv c { s with r := r } where
  wkey := h.wkey
  skey := h.skey
  disj := h.disj
  inj := h.inj
  bound := h.bound
  short := h.short
  winv := h.winv
  sinv := h.sinv
  auto := h.auto
  rid := fun i k hi => h.rid i k (h1 i k hi)
  rhash := fun x k i hx => h.rhash x k i (h2 x (k, i) hx)

theorem Inv.w_nodup (h : Inv c s) : (s.w.idMap.entries.map fun e => encKey e.2).Nodup := by
  have h1 := s.w.idMap.nodup
  rw [List.nodup_iff_pairwise_ne, List.pairwise_map] at h1 ⊢
  refine List.Pairwise.imp_of_mem ?_ h1
  rintro ⟨i, k⟩ ⟨j, k'⟩ hi hj hne he
  exact hne (h.inj i j k k' (h.live_w (AMap.mem_entries.1 hi)) (h.live_w (AMap.mem_entries.1 hj)) he)

theorem flush_idKey (s : Idx) (i : Nat) (k : SKey) :
    s.flush.st.idKey.get i = some k ↔ live s i = some k := by
  simp only [Idx.flush, flushTo]
  rw [AMap.get_foldl_set_iff (f := Prod.fst) (g := Prod.snd) _ _ _ _ s.w.idMap.nodup]
  unfold live
  cases hw : s.w.idMap.get i with
  | none =>
    rw [AMap.get_eq_none] at hw
    simp only [Option.none_or]
    constructor
    · rintro (⟨⟨j, k'⟩, he, rfl, rfl⟩ | h)
      · exact absurd he (hw _)
      · exact h.2
    · intro h
      refine .inr ⟨fun ⟨j, k'⟩ he hj => ?_, h⟩
      subst hj; exact hw _ he
  | some k' =>
    simp only [Option.some_or, Option.some.injEq]
    rw [← AMap.mem_entries] at hw
    constructor
    · rintro (⟨⟨j, k''⟩, he, rfl, rfl⟩ | h)
      · have a := AMap.mem_entries.1 he; have b := AMap.mem_entries.1 hw
        rw [a] at b; cases b; rfl
      · exact absurd rfl (h.1 _ hw)
    · rintro rfl
      exact .inl ⟨_, hw, rfl, rfl⟩

theorem live_flush (s : Idx) (i : Nat) : live s.flush i = live s i := by
  have h1 : live s.flush i = s.flush.st.idKey.get i := by
    simp [live, Idx.flush, WCache.empty]
  rw [h1]
  cases hl : live s i with
  | some k => exact (flush_idKey s i k).2 hl
  | none =>
    cases hg : s.flush.st.idKey.get i with
    | none => rfl
    | some k => rw [flush_idKey, hl] at hg; cases hg

theorem Inv.flush (h : Inv c s) : Inv c s.flush where
  wkey := by simp [Idx.flush, WCache.empty]
  disj := by simp [Idx.flush, WCache.empty]
  winv := by simp [Idx.flush, WCache.empty]
  inj := by
    intro i j k k' hi hj
    rw [live_flush] at hi hj
    exact h.inj i j k k' hi hj
  bound := by intro i k hi; rw [live_flush] at hi; exact h.bound i k hi
  short := by intro i k hi; rw [live_flush] at hi; exact h.short i k hi
  rid := by
    intro i k hi
    rw [flush_idKey]
    exact h.live_s (h.rid i k hi)
  rhash := by
    intro x k i hi
    rw [flush_idKey]
    have := h.rhash x k i hi
    exact ⟨this.1, h.live_s this.2⟩
  auto := Nat.le_refl _
  skey := by
    intro b i
    simp only [flush_idKey]
    simp only [Idx.flush, flushTo]
    rw [AMap.get_foldl_set_iff (f := fun e : Nat × SKey => encKey e.2) (g := Prod.fst) _ _ _ _ h.w_nodup]
    constructor
    · rintro (⟨⟨j, k⟩, he, rfl, rfl⟩ | ⟨_, hb⟩)
      · exact ⟨k, h.live_w (AMap.mem_entries.1 he), rfl⟩
      · obtain ⟨k, hk, hb⟩ := (h.skey b i).1 hb
        exact ⟨k, h.live_s hk, hb⟩
    · rintro ⟨k, hk, rfl⟩
      rcases live_cases hk with hw | ⟨hw, hs⟩
      · exact .inl ⟨(i, k), AMap.mem_entries.2 hw, rfl, rfl⟩
      · refine .inr ⟨fun ⟨j, k'⟩ he hb => ?_, (h.skey _ i).2 ⟨k, hs, rfl⟩⟩
        have hj := AMap.mem_entries.1 he
        have := h.inj j i k' k (h.live_w hj) hk hb
        subst this
        rw [hw] at hj; cases hj
  sinv := by
    intro i b
    simp only [flush_idKey]
    simp only [Idx.flush, flushTo]
    rw [merge_fold (f := fun e : (Bytes × Bytes × Bytes) × List Nat => invKey e.1.1 e.1.2.1 e.1.2.2) (g := Prod.snd),
      h.sinv]
    constructor
    · rintro (⟨k, hk, hp⟩ | ⟨⟨⟨t, a, v⟩, l⟩, he, hb, hi⟩)
      · exact ⟨k, h.live_s hk, hp⟩
      · have : i ∈ bm s.w.inv (t, a, v) := mem_bm.2 ⟨l, he, hi⟩
        obtain ⟨k, hk, h1, h2⟩ := (h.winv i _).1 this
        simp only at h1 hb; subst h1
        exact ⟨k, h.live_w hk, (a, v), h2, hb⟩
    · rintro ⟨k, hk, p, hp, rfl⟩
      rcases live_cases hk with hw | ⟨_, hs⟩
      · have : i ∈ bm s.w.inv (k.table, p.1, p.2) := (h.winv i _).2 ⟨k, hw, rfl, hp⟩
        obtain ⟨l, hl, hi⟩ := mem_bm.1 this
        exact .inr ⟨_, hl, rfl, hi⟩
      · exact .inl ⟨k, hs, p, hp, rfl⟩

theorem Inv.check (h : Inv c s) : Inv c s.check := by
  unfold Idx.check
  split
  · exact ⟨h.wkey, h.skey, h.disj, h.inj, h.bound, h.short, h.rid, h.rhash, h.winv, h.sinv, h.auto⟩
  · exact h.flush

theorem live_check (s : Idx) (i : Nat) : live s.check i = live s i := by
  unfold Idx.check
  split
  · rfl
  · exact live_flush s i

theorem incr_check (s : Idx) : s.check.incr = s.incr := by
  unfold Idx.check
  split <;> rfl

/-- Writing a new series to the write cache. -/
theorem Inv.write (h : Inv c s) {id n : Nat} {k : SKey} (hid : live s id = none)
    (hk : ∀ j k', live s j = some k' → encKey k' ≠ encKey k) (hs : Short k) (hn : s.incr ≤ n) (hi : id ≤ n) :
    Inv c { s with incr := n, w := s.w.add id k } ∧
    ∀ j, live { s with incr := n, w := s.w.add id k } j = if j = id then some k else live s j := by
  obtain ⟨e1, e2, e3⟩ := addInv_fold k.table id (invPairs k) s.w
  have hw : s.w.idMap.get id = none := by
    unfold live at hid
    cases hg : s.w.idMap.get id with
    | none => rfl
    | some k' => rw [hg] at hid; cases hid
  have hst : s.st.idKey.get id = none := by
    unfold live at hid
    rw [hw] at hid; simpa using hid
  have hl : ∀ j, live { s with incr := n, w := s.w.add id k } j = if j = id then some k else live s j := by
    intro j
    simp only [live, WCache.add, e1, AMap.get_set]
    split <;> rfl
  refine ⟨?_, hl⟩
  constructor
  case skey => exact h.skey
  case rid => exact h.rid
  case rhash => exact h.rhash
  case sinv => exact h.sinv
  case auto => exact Nat.le_trans h.auto hn
  case wkey =>
    intro b i
    simp only [WCache.add, e1, e2, AMap.get_set]
    by_cases hi : i = id
    · subst hi
      simp only [if_true]
      constructor
      · intro hb
        split at hb
        · rename_i e; exact ⟨k, rfl, e.symm⟩
        · obtain ⟨k', hk', _⟩ := (h.wkey b i).1 hb
          rw [hw] at hk'; cases hk'
      · rintro ⟨k', he, rfl⟩
        cases he; simp
    · simp only [if_neg hi]
      constructor
      · intro hb
        split at hb
        · cases hb; exact absurd rfl hi
        · exact (h.wkey b i).1 hb
      · rintro ⟨k', hk', rfl⟩
        rw [if_neg (hk i k' (h.live_w hk'))]
        exact (h.wkey _ i).2 ⟨k', hk', rfl⟩
  case disj =>
    intro i k'
    simp only [WCache.add, e1, AMap.get_set]
    split
    · rename_i e; subst e; exact fun _ => hst
    · exact h.disj i k'
  case inj =>
    intro i j k1 k2 h1 h2 he
    rw [hl] at h1 h2
    split at h1
    · rename_i ei
      cases h1
      split at h2
      · rename_i ej; rw [ei, ej]
      · exact absurd he.symm (hk j k2 h2)
    · split at h2
      · cases h2; exact absurd he (hk i k1 h1)
      · exact h.inj i j k1 k2 h1 h2 he
  case bound =>
    intro i k' h'
    rw [hl] at h'
    split at h'
    · rename_i e; subst e; exact hi
    · exact Nat.le_trans (h.bound i k' h') hn
  case short =>
    intro i k' h'
    rw [hl] at h'
    split at h'
    · cases h'; exact hs
    · exact h.short i k' h'
  case winv =>
    intro i x
    simp only [WCache.add, e1, AMap.get_set]
    rw [e3, h.winv]
    by_cases hi : i = id
    · subst hi
      simp only [if_true]
      constructor
      · rintro (⟨k', hk', _⟩ | ⟨_, h1, h2⟩)
        · rw [hw] at hk'; cases hk'
        · exact ⟨k, rfl, h1, h2⟩
      · rintro ⟨k', he, h1, h2⟩
        cases he; exact .inr ⟨trivial, h1, h2⟩
    · simp only [if_neg hi]
      constructor
      · rintro (h | h)
        · exact h
        · exact absurd h.1 hi
      · exact .inl

/-- What `get_series_key` does. -/
theorem Inv.getKey (h : Inv c s) (i : Nat) :
    Inv c (s.getKey c i).1 ∧ (s.getKey c i).2 = live s i ∧ (s.getKey c i).1.w = s.w ∧
      (s.getKey c i).1.st = s.st ∧ (s.getKey c i).1.incr = s.incr ∧ (s.getKey c i).1.count = s.count := by
  unfold Idx.getKey
  split
  · rename_i k hk; exact ⟨h, (h.live_w hk).symm, rfl, rfl, rfl, rfl⟩
  · rename_i hk
    split
    · rename_i k hr; exact ⟨h, (h.live_s (h.rid i k hr)).symm, rfl, rfl, rfl, rfl⟩
    · split
      · rename_i k hs; exact ⟨h.cacheAdd hs, (h.live_s hs).symm, rfl, rfl, rfl, rfl⟩
      · rename_i hs
        refine ⟨h, ?_, rfl, rfl, rfl, rfl⟩
        simp [live, hk, hs]

/-- What `get_series_id` does. -/
theorem Inv.getId (h : Inv c s) {k : SKey} (hk : Short k) :
    Inv c (s.getId c k).1 ∧ (∀ i, (s.getId c k).2 = some i ↔ live s i = some k) ∧ (s.getId c k).1.w = s.w ∧
      (s.getId c k).1.st = s.st ∧ (s.getId c k).1.incr = s.incr ∧ (s.getId c k).1.count = s.count := by
  have uniq : ∀ i, live s i = some k → ∀ j, (some i = some j ↔ live s j = some k) := by
    intro i hi j
    constructor
    · rintro ⟨⟩; exact hi
    · intro hj; rw [h.inj i j k k hi hj rfl]
  unfold Idx.getId
  split
  · rename_i i hi
    obtain ⟨k', hk', he⟩ := (h.wkey _ i).1 hi
    have := encWith_inj (h.short i k' (h.live_w hk')) hk he
    subst this
    exact ⟨h, uniq i (h.live_w hk'), rfl, rfl, rfl, rfl⟩
  · rename_i hw
    split
    · rename_i i hi
      unfold RCache.getId at hi
      split at hi
      · rename_i k' i' hm
        split at hi
        · rename_i e
          subst e; cases hi
          exact ⟨h, uniq _ (h.live_s (h.rhash _ _ _ hm).2), rfl, rfl, rfl, rfl⟩
        · cases hi
      · cases hi
    · split
      · rename_i i hi
        obtain ⟨k', hk', he⟩ := (h.skey _ i).1 hi
        have := encWith_inj (h.short i k' (h.live_s hk')) hk he
        subst this
        exact ⟨h.cacheAdd hk', uniq i (h.live_s hk'), rfl, rfl, rfl, rfl⟩
      · rename_i hs
        refine ⟨h, fun j => ⟨fun hj => (by cases hj), fun hj => ?_⟩, rfl, rfl, rfl, rfl⟩
        rcases live_cases hj with hj | ⟨_, hj⟩
        · rw [(h.wkey _ j).2 ⟨k, hj, rfl⟩] at hw; cases hw
        · rw [(h.skey _ j).2 ⟨k, hj, rfl⟩] at hs; cases hs

theorem live_congr {s s' : Idx} (hw : s'.w = s.w) (hs : s'.st = s.st) (i : Nat) : live s' i = live s i := by
  simp [live, hw, hs]

/-- What `del_series_info` does. -/
theorem Inv.del (h : Inv c s) (i : Nat) :
    Inv c (s.del c i) ∧ (∀ j, live (s.del c i) j = if j = i then none else live s j) ∧
      (s.del c i).incr = s.incr := by
  unfold Idx.del
  obtain ⟨h', hv, hw, hs, hc, _⟩ := h.getKey i
  generalize hg : s.getKey c i = g at *
  obtain ⟨s', o⟩ := g
  simp only at h' hv hw hs hc
  cases o with
  | none =>
    simp only
    have hnone : live s i = none := hv.symm
    have hget : s'.st.idKey.get i = none := by
      rw [hs]
      cases hx : s.st.idKey.get i with
      | none => rfl
      | some k => rw [h.live_s hx] at hnone; cases hnone
    have hl : ∀ j, (s'.st.idKey.del i).get j = s'.st.idKey.get j := by
      intro j
      rw [AMap.get_del]; split
      · rename_i e; rw [e, hget]
      · rfl
    have hlive : ∀ j, live { s' with st := { s'.st with idKey := s'.st.idKey.del i } } j = live s' j := by
      intro j; simp only [live, hl]
    have inv : Inv c { s' with st := { s'.st with idKey := s'.st.idKey.del i } } := by
      constructor
      case wkey => exact h'.wkey
      case winv => exact h'.winv
      case auto => exact h'.auto
      case skey => intro b j; simp only [hl]; exact h'.skey b j
      case disj => intro j k; simp only [hl]; exact h'.disj j k
      case inj => intro a b k k'; rw [hlive, hlive]; exact h'.inj a b k k'
      case bound => intro a k; rw [hlive]; exact h'.bound a k
      case short => intro a k; rw [hlive]; exact h'.short a k
      case rid => intro a k; simp only [hl]; exact h'.rid a k
      case rhash => intro x k a; simp only [hl]; exact h'.rhash x k a
      case sinv => intro a b; simp only [hl]; exact h'.sinv a b
    refine ⟨inv.check, fun j => ?_, ?_⟩
    · rw [live_check, hlive, live_congr hw hs]
      split
      · rename_i e; rw [e]; exact hnone
      · rfl
    · rw [incr_check]; exact hc
  | some k =>
    simp only
    obtain ⟨e1, e2, e3⟩ := delInv_fold k.table i (invPairs k) s'.w
    have hi : live s' i = some k := by rw [live_congr hw hs]; exact hv.symm
    generalize hs2 : ({ s' with
      w := s'.w.del i k
      r := s'.r.del c i k
      st := { s'.st with
        idKey := s'.st.idKey.del i
        keyId := s'.st.keyId.del (encKey k)
        inv := (invPairs k).foldl (fun m p => invRemove m (invKey k.table p.1 p.2) i) s'.st.inv } } : Idx) = s2
    have w1 : ∀ j, s2.w.idMap.get j = if j = i then none else s'.w.idMap.get j := by
      intro j; subst hs2; simp only [WCache.del, e1, AMap.get_del]
    have w2 : ∀ b, s2.w.keyMap.get b = if b = encKey k then none else s'.w.keyMap.get b := by
      intro b; subst hs2; simp only [WCache.del, e2, AMap.get_del]
    have t1 : ∀ j, s2.st.idKey.get j = if j = i then none else s'.st.idKey.get j := by
      intro j; subst hs2; simp only [AMap.get_del]
    have t2 : ∀ b, s2.st.keyId.get b = if b = encKey k then none else s'.st.keyId.get b := by
      intro b; subst hs2; simp only [AMap.get_del]
    have hlive : ∀ j, live s2 j = if j = i then none else live s' j := by
      intro j
      simp only [live, w1, t1]
      split <;> rfl
    have inv : Inv c s2 := by
      constructor
      case auto => subst hs2; exact h'.auto
      case wkey =>
        intro b j
        rw [w2]
        simp only [w1]
        by_cases hj : j = i
        · subst hj
          simp only [if_true, reduceCtorEq, false_and, exists_false, iff_false]
          split
          · simp
          · rename_i hb
            intro hx
            obtain ⟨k', hk', he⟩ := (h'.wkey b j).1 hx
            rw [h'.live_w hk'] at hi
            cases hi; exact hb he.symm
        · simp only [if_neg hj]
          rw [← h'.wkey]
          split
          · rename_i hb
            simp only [reduceCtorEq, false_iff]
            intro hx
            obtain ⟨k', hk', he⟩ := (h'.wkey b j).1 hx
            exact hj (h'.inj j i k' k (h'.live_w hk') hi (he.trans hb))
          · exact Iff.rfl
      case skey =>
        intro b j
        rw [t2]
        simp only [t1]
        by_cases hj : j = i
        · subst hj
          simp only [if_true, reduceCtorEq, false_and, exists_false, iff_false]
          split
          · simp
          · rename_i hb
            intro hx
            obtain ⟨k', hk', he⟩ := (h'.skey b j).1 hx
            rw [h'.live_s hk'] at hi
            cases hi; exact hb he.symm
        · simp only [if_neg hj]
          rw [← h'.skey]
          split
          · rename_i hb
            simp only [reduceCtorEq, false_iff]
            intro hx
            obtain ⟨k', hk', he⟩ := (h'.skey b j).1 hx
            exact hj (h'.inj j i k' k (h'.live_s hk') hi (he.trans hb))
          · exact Iff.rfl
      case disj =>
        intro j k'
        rw [w1, t1]
        split
        · intro _; rfl
        · exact h'.disj j k'
      case inj =>
        intro a b ka kb ha hb he
        rw [hlive] at ha hb
        split at ha
        · cases ha
        · split at hb
          · cases hb
          · exact h'.inj a b ka kb ha hb he
      case bound =>
        intro a ka ha
        rw [hlive] at ha
        split at ha
        · cases ha
        · subst hs2; exact h'.bound a ka ha
      case short =>
        intro a ka ha
        rw [hlive] at ha
        split at ha
        · cases ha
        · exact h'.short a ka ha
      case rid =>
        intro a ka ha
        rw [t1]
        have : (s'.r.idMap.del i).get a = some ka := by subst hs2; exact ha
        rw [AMap.get_del] at this
        split at this
        · cases this
        · rename_i hne; rw [if_neg hne]; exact h'.rid a ka this
      case rhash =>
        intro x ka a ha
        rw [t1]
        have : (s'.r.hashMap.del (c.hash k)).get x = some (ka, a) := by subst hs2; exact ha
        rw [AMap.get_del] at this
        split at this
        · cases this
        · rename_i hne
          have hr := h'.rhash x ka a this
          refine ⟨hr.1, ?_⟩
          split
          · rename_i e
            subst e
            rw [h'.live_s hr.2] at hi
            cases hi
            exact absurd hr.1 hne
          · exact hr.2
      case winv =>
        intro a x
        simp only [w1]
        have : a ∈ bm s2.w.inv x ↔ a ∈ bm s'.w.inv x ∧ ¬ (a = i ∧ x.1 = k.table ∧ x.2 ∈ invPairs k) := by
          subst hs2; exact e3 a x
        rw [this, h'.winv]
        by_cases ha : a = i
        · subst ha
          simp only [if_true, reduceCtorEq, false_and, exists_false, iff_false]
          rintro ⟨⟨k', hk', h1, h2⟩, hn⟩
          rw [h'.live_w hk'] at hi
          cases hi
          exact hn ⟨trivial, h1, h2⟩
        · simp only [if_neg ha]
          exact ⟨fun h => h.1, fun h => ⟨h, fun e => ha e.1⟩⟩
      case sinv =>
        intro a b
        simp only [t1]
        have : a ∈ bm s2.st.inv b ↔ a ∈ bm s'.st.inv b ∧
            ¬ (a = i ∧ ∃ p ∈ invPairs k, invKey k.table p.1 p.2 = b) := by
          subst hs2; exact invRemove_fold k.table i (invPairs k) s'.st.inv a b
        rw [this, h'.sinv]
        by_cases ha : a = i
        · subst ha
          simp only [if_true, reduceCtorEq, false_and, exists_false, iff_false]
          rintro ⟨⟨k', hk', h1⟩, hn⟩
          rw [h'.live_s hk'] at hi
          cases hi
          exact hn ⟨trivial, h1⟩
        · simp only [if_neg ha]
          exact ⟨fun h => h.1, fun h => ⟨h, fun e => ha e.1⟩⟩
    refine ⟨inv.check, fun j => ?_, ?_⟩
    · rw [live_check, hlive, live_congr hw hs]
    · rw [incr_check]; subst hs2; exact hc

/-- What one round of `update_series_key` does. -/
theorem Inv.rename (h : Inv c s) {old new : SKey} {i : Nat} (hi : ∃ k, live s i = some k)
    (hk : ∀ j k', live s j = some k' → j ≠ i → encKey k' ≠ encKey new) (hs : Short new) :
    Inv c (s.rename c (old, new, i)) ∧
      (∀ j, live (s.rename c (old, new, i)) j = if j = i then some new else live s j) ∧
      (s.rename c (old, new, i)).incr = s.incr := by
  obtain ⟨h1, l1, c1⟩ := h.del i
  unfold Idx.rename
  simp only
  generalize s.del c i = s1 at *
  have h2 : Inv c { s1 with st := { s1.st with tomb := s1.st.tomb.set (encTomb old) i } } :=
    ⟨h1.wkey, h1.skey, h1.disj, h1.inj, h1.bound, h1.short, h1.rid, h1.rhash, h1.winv, h1.sinv, h1.auto⟩
  have hw := Inv.write (id := i) (n := s1.incr) (k := new) h2
    (by have := l1 i; rw [if_pos rfl] at this; exact this)
    (by
      intro j k' hj
      have : live s1 j = some k' := hj
      rw [l1] at this
      split at this
      · cases this
      · rename_i hne; exact hk j k' this hne) hs (Nat.le_refl _)
    (by obtain ⟨k, hk⟩ := hi; rw [c1]; exact h.bound i k hk)
  refine ⟨hw.1.check, fun j => ?_, ?_⟩
  · rw [live_check, hw.2]
    split
    · rfl
    · rename_i hne
      have := l1 j
      rw [if_neg hne] at this
      exact this
  · rw [incr_check]; exact c1

/-- What registering a series does. -/
theorem Inv.add (h : Inv c s) {k : SKey} (hk : Short k) (hn : s.incr + 1 < c.idLimit) :
    Inv c (s.add c k).1 ∧ live (s.add c k).1 (s.add c k).2 = some k ∧
      (∀ j, j ≠ (s.add c k).2 → live (s.add c k).1 j = live s j) ∧
      ((live s (s.add c k).2 = some k ∧ (s.add c k).1.incr = s.incr) ∨
        ((∀ j, live s j ≠ some k) ∧ (s.add c k).2 = s.incr + 1 ∧ (s.add c k).1.incr = s.incr + 1)) := by
  have e : s.add c k = match s.getId c k with
      | (s', some id) => (s', id)
      | (s', none) => let id := (s'.incr + 1) % c.idLimit
                      (Idx.check { s' with incr := id, w := s'.w.add id k }, id) := by
    unfold Idx.add Idx.getId
    cases h1 : s.w.keyMap.get (encKey k) with
    | some _ => rfl
    | none =>
      cases h2 : s.r.getId c k with
      | some _ => rfl
      | none => cases h3 : s.st.keyId.get (encKey k) <;> rfl
  obtain ⟨h1, h2, hw, hs, hc, _⟩ := h.getId hk
  rw [e]
  generalize s.getId c k = g at *
  obtain ⟨s', o⟩ := g
  simp only at h1 h2 hw hs hc
  cases o with
  | some id =>
    have hl : live s id = some k := (h2 id).1 rfl
    simp only
    exact ⟨h1, by rw [live_congr hw hs]; exact hl, fun j _ => live_congr hw hs j, .inl ⟨hl, hc⟩⟩
  | none =>
    simp only
    have hno : ∀ j, live s j ≠ some k := fun j hj => by have := (h2 j).2 hj; cases this
    have hmod : (s'.incr + 1) % c.idLimit = s.incr + 1 := by rw [hc]; exact Nat.mod_eq_of_lt hn
    rw [hmod]
    have hw' := Inv.write (id := s.incr + 1) (n := s.incr + 1) (k := k) h1
      (by
        cases hl : live s' (s.incr + 1) with
        | none => rfl
        | some k' => have := h1.bound _ _ hl; omega)
      (by
        intro j k' hj he
        have := encWith_inj (h1.short j k' hj) hk he
        subst this
        rw [live_congr hw hs] at hj
        exact hno j hj) hk (by omega) (Nat.le_refl _)
    refine ⟨hw'.1.check, ?_, fun j hj => ?_, .inr ⟨hno, rfl, ?_⟩⟩
    · rw [live_check, hw'.2, if_pos rfl]
    · rw [live_check, hw'.2, if_neg hj, live_congr hw hs]
    · rw [incr_check]

end Verif.Index
