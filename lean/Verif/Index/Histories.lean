import Verif.Index.Lemmas
/-!
# Lemmas: renaming and histories of the series index
-/
namespace Verif.Index
open Verif.Utils (Bytes bytesLe)

section
variable {κ ν : Type} [DecidableEq κ]

/-- The last assignment to `a` in a list of assignments. -/
def lastOf : List (κ × ν) → κ → Option ν
  | [], _ => none
  | e :: es, a => (lastOf es a).or (if e.1 = a then some e.2 else none)

theorem lastOf_mem {es : List (κ × ν)} {a : κ} {v : ν} (h : lastOf es a = some v) : (a, v) ∈ es := by
  induction es with
  | nil => cases h
  | cons e es ih =>
    simp only [lastOf] at h
    cases hl : lastOf es a with
    | none =>
      rw [hl] at h
      simp only [Option.none_or] at h
      split at h
      · rename_i ha; cases h; subst ha; exact List.mem_cons_self
      · cases h
    | some w =>
      rw [hl] at h
      simp only [Option.some_or, Option.some.injEq] at h
      subst h
      exact List.mem_cons_of_mem _ (ih hl)

theorem get_foldl_set {ε ν' : Type} (f : ε → κ) (g : ε → ν') (es : List ε) (m : AMap κ ν') (a : κ) :
    (es.foldl (fun m e => m.set (f e) (g e)) m).get a = (lastOf (es.map fun e => (f e, g e)) a).or (m.get a) := by
  induction es generalizing m with
  | nil => simp [lastOf]
  | cons e es ih =>
    rw [List.foldl_cons, ih, AMap.get_set, List.map_cons, lastOf, Option.or_assoc]
    by_cases h : a = f e
    · rw [if_pos h, if_pos h.symm]; rfl
    · rw [if_neg h, if_neg fun h' => h h'.symm]; rfl
end

theorem lastOf_map_some (l : List (Bytes × Bytes)) (a : Bytes) :
    lastOf (l.map fun e => (e.1, some e.2)) a = (lastOf l a).map some := by
  induction l with
  | nil => rfl
  | cons e l ih =>
    simp only [List.map_cons, lastOf, ih]
    cases lastOf l a <;> simp

theorem mem_newKey (sets : List (Bytes × Option Bytes)) (k : SKey) (a v : Bytes) :
    (a, v) ∈ (newKey sets k).tags ↔
      match lastOf sets a with
      | some o => o = some v
      | none => lastOf k.tags a = some v := by
  unfold newKey
  simp only [Sort.mem_sortBy, List.mem_filterMap, Option.map_eq_some_iff, Prod.mk.injEq]
  have e : (tagMap sets k.tags).get a = (lastOf sets a).or ((lastOf k.tags a).map some) := by
    unfold tagMap
    rw [get_foldl_set, get_foldl_set, lastOf_map_some]
    simp
  constructor
  · rintro ⟨⟨b, o⟩, hb, v', rfl, rfl, rfl⟩
    rw [AMap.mem_entries, e] at hb
    cases h : lastOf sets b with
    | some o => rw [h] at hb; simpa using hb
    | none => rw [h] at hb; simpa using hb
  · intro h
    refine ⟨(a, some v), AMap.mem_entries.2 ?_, v, rfl, rfl, rfl⟩
    rw [e]
    cases h' : lastOf sets a with
    | some o => rw [h'] at h; simp only at h; rw [h]; rfl
    | none => rw [h'] at h; simp only at h; rw [h]; rfl

/-- Assignments of short values. -/
def ShortSets (sets : List (Bytes × Option Bytes)) : Prop :=
  ∀ e ∈ sets, e.1.length < 65536 ∧ ∀ v, e.2 = some v → v.length < 65536

theorem short_newKey {sets : List (Bytes × Option Bytes)} {k : SKey} (hs : ShortSets sets) (hk : Short k) :
    Short (newKey sets k) := by
  refine ⟨hk.1, ?_⟩
  rintro ⟨a, v⟩ hm
  rw [mem_newKey] at hm
  cases h : lastOf sets a with
  | some o =>
    rw [h] at hm
    have := hs _ (lastOf_mem h)
    exact ⟨this.1, this.2 v hm⟩
  | none =>
    rw [h] at hm
    exact hk.2 _ (lastOf_mem hm)

variable {c : Cfg} {s : Idx}

/-- Same logical content. -/
structure Same (s s' : Idx) : Prop where
  w : s'.w = s.w
  st : s'.st = s.st
  incr : s'.incr = s.incr

theorem Same.live {s s' : Idx} (h : Same s s') (i : Nat) : live s' i = live s i := live_congr h.w h.st i

theorem Same.trans {a b d : Idx} (h : Same a b) (h' : Same b d) : Same a d :=
  ⟨h'.w.trans h.w, h'.st.trans h.st, h'.incr.trans h.incr⟩

theorem Same.refl (a : Idx) : Same a a := ⟨rfl, rfl, rfl⟩

theorem Inv.getId' (h : Inv c s) {k : SKey} (hk : Short k) :
    Inv c (s.getId c k).1 ∧ (∀ i, (s.getId c k).2 = some i ↔ live s i = some k) ∧ Same s (s.getId c k).1 := by
  obtain ⟨h1, h2, h3, h4, h5, _⟩ := h.getId hk
  exact ⟨h1, h2, h3, h4, h5⟩

theorem matchIds_spec : ∀ (ks : List SKey) (s : Idx), Inv c s → (∀ k ∈ ks, Short k) →
    Inv c (matchIds c s ks).1 ∧ Same s (matchIds c s ks).1 ∧
    (∀ e ∈ (matchIds c s ks).2, e.1 ∈ ks ∧ live s e.2 = some e.1) ∧
    (∀ k ∈ ks, ∀ i, live s i = some k → (k, i) ∈ (matchIds c s ks).2)
  | [], s, h, _ => ⟨h, .refl _, fun _ h => absurd h List.not_mem_nil, fun _ h => absurd h List.not_mem_nil⟩
  | k :: ks, s, h, hk => by
    obtain ⟨h1, h2, h3⟩ := h.getId' (hk k List.mem_cons_self)
    unfold matchIds
    generalize s.getId c k = g at *
    obtain ⟨s', o⟩ := g
    obtain ⟨r1, r2, r3, r4⟩ := matchIds_spec ks s' h1 fun k hk' => hk k (List.mem_cons_of_mem _ hk')
    have hl : ∀ i, live s' i = live s i := h3.live
    cases o with
    | some id =>
      simp only
      refine ⟨r1, h3.trans r2, ?_, ?_⟩
      · intro e he
        rcases List.mem_cons.1 he with rfl | he
        · exact ⟨List.mem_cons_self, (h2 id).1 rfl⟩
        · have := r3 e he
          rw [hl] at this
          exact ⟨List.mem_cons_of_mem _ this.1, this.2⟩
      · intro k' hk' i hi
        rcases List.mem_cons.1 hk' with rfl | hk'
        · have := (h2 i).2 hi
          cases this; exact List.mem_cons_self
        · exact List.mem_cons_of_mem _ (r4 k' hk' i (by rw [hl]; exact hi))
    | none =>
      simp only
      refine ⟨r1, h3.trans r2, ?_, ?_⟩
      · intro e he
        have := r3 e he
        rw [hl] at this
        exact ⟨List.mem_cons_of_mem _ this.1, this.2⟩
      · intro k' hk' i hi
        rcases List.mem_cons.1 hk' with rfl | hk'
        · have := (h2 i).2 hi; cases this
        · exact r4 k' hk' i (by rw [hl]; exact hi)

theorem newKeys_spec {sets : List (Bytes × Option Bytes)} (hs : ShortSets sets) :
    ∀ (l : List (SKey × Nat)) (s : Idx), Inv c s → (∀ e ∈ l, Short e.1) →
    Inv c (newKeys c sets true s l).1 ∧ Same s (newKeys c sets true s l).1 ∧
    (∀ es, (newKeys c sets true s l).2 = some es →
      es = l.map (fun e => (e.1, newKey sets e.1, e.2)) ∧ ∀ e ∈ es, ∀ i, live s i ≠ some e.2.1) ∧
    ((newKeys c sets true s l).2 = none → ∃ e ∈ l, ∃ i, live s i = some (newKey sets e.1))
  | [], s, h, _ => ⟨h, .refl _, by intro es he; cases he; simp, by intro h; cases h⟩
  | (k, id) :: l, s, h, hk => by
    obtain ⟨h1, h2, h3⟩ := h.getId' (short_newKey hs (hk _ List.mem_cons_self))
    unfold newKeys
    simp only [if_true]
    generalize s.getId c (newKey sets k) = g at *
    obtain ⟨s', o⟩ := g
    have hl : ∀ i, live s' i = live s i := h3.live
    cases o with
    | some j =>
      simp only
      exact ⟨h1, h3, (by intro es h; cases h), fun _ => ⟨_, List.mem_cons_self, j, (h2 j).1 rfl⟩⟩
    | none =>
      simp only
      obtain ⟨r1, r2, r3, r4⟩ := newKeys_spec hs l s' h1 fun e he => hk e (List.mem_cons_of_mem _ he)
      generalize newKeys c sets true s' l = g2 at *
      obtain ⟨s2, o2⟩ := g2
      cases o2 with
      | none =>
        simp only
        refine ⟨r1, h3.trans r2, (by intro es h; cases h), fun _ => ?_⟩
        obtain ⟨e, he, i, hi⟩ := r4 rfl
        exact ⟨e, List.mem_cons_of_mem _ he, i, by rw [← hl]; exact hi⟩
      | some es =>
        simp only
        refine ⟨r1, h3.trans r2, ?_, by intro h; cases h⟩
        intro es' he
        cases he
        obtain ⟨q1, q2⟩ := r3 es rfl
        refine ⟨by rw [q1]; rfl, ?_⟩
        intro e he i hi
        rcases List.mem_cons.1 he with rfl | he
        · have := (h2 i).2 hi; cases this
        · exact q2 e he i (by rw [hl]; exact hi)

theorem prepare_spec {sets : List (Bytes × Option Bytes)} {m : List SKey} (h : Inv c s) (hs : ShortSets sets)
    (hm : ∀ k ∈ m, Short k) :
    Inv c (s.prepare c sets m true).1 ∧ Same s (s.prepare c sets m true).1 ∧
    (∀ es, (s.prepare c sets m true).2 = some es →
      (es.map fun e => e.2.1).Nodup ∧
      (∀ e ∈ es, e.1 ∈ m ∧ live s e.2.2 = some e.1 ∧ e.2.1 = newKey sets e.1 ∧ ∀ i, live s i ≠ some e.2.1) ∧
      (∀ k ∈ m, ∀ i, live s i = some k → (k, newKey sets k, i) ∈ es)) := by
  obtain ⟨a1, a2, a3, a4⟩ := matchIds_spec (c := c) m s h hm
  unfold Idx.prepare
  generalize matchIds c s m = g at *
  obtain ⟨s1, ids⟩ := g
  simp only at a1 a2 a3 a4 ⊢
  obtain ⟨b1, b2, b3, _⟩ := newKeys_spec (c := c) hs ids s1 a1 fun e he => hm _ (a3 e he).1
  have hl : ∀ i, live s1 i = live s i := a2.live
  generalize newKeys c sets true s1 ids = g2 at *
  obtain ⟨s2, o⟩ := g2
  simp only at b1 b2 b3
  cases o with
  | none => exact ⟨b1, a2.trans b2, by intro es h; cases h⟩
  | some es =>
    simp only
    split
    · rename_i hd
      refine ⟨b1, a2.trans b2, ?_⟩
      intro es' he
      cases he
      obtain ⟨q1, q2⟩ := b3 es rfl
      refine ⟨hd, ?_, ?_⟩
      · intro e he
        have hn := q2 e he
        rw [q1] at he
        obtain ⟨x, hx, rfl⟩ := List.mem_map.1 he
        exact ⟨(a3 x hx).1, (a3 x hx).2, rfl, fun i hi => hn i (by rw [hl]; exact hi)⟩
      · intro k hk i hi
        rw [q1]
        exact List.mem_map.2 ⟨_, a4 k hk i hi, rfl⟩
    · exact ⟨b1, a2.trans b2, by intro es h; cases h⟩

theorem renames_spec : ∀ (es : List (SKey × SKey × Nat)) (s : Idx), Inv c s →
    (es.map fun e => e.2.1).Nodup → (es.map fun e => e.2.2).Nodup →
    (∀ e ∈ es, (∃ k, live s e.2.2 = some k) ∧ Short e.2.1 ∧ ∀ i, live s i ≠ some e.2.1) →
    Inv c (es.foldl (fun s e => s.rename c e) s) ∧
    (∀ e ∈ es, live (es.foldl (fun s e => s.rename c e) s) e.2.2 = some e.2.1) ∧
    (∀ j, (∀ e ∈ es, e.2.2 ≠ j) → live (es.foldl (fun s e => s.rename c e) s) j = live s j) ∧
    (es.foldl (fun s e => s.rename c e) s).incr = s.incr
  | [], s, h, _, _, _ => ⟨h, by simp, by simp, rfl⟩
  | e :: es, s, h, hn, hi, ha => by
    simp only [List.map_cons, List.nodup_cons] at hn hi
    obtain ⟨x1, x2, x3⟩ := ha e List.mem_cons_self
    obtain ⟨o, n, i⟩ := e
    simp only at x1 x2 x3 hn hi
    obtain ⟨r1, r2, r3⟩ := Inv.rename (old := o) h x1 (new := n) (fun j k' hj _ he => by
      have := encWith_inj (h.short j k' hj) x2 he
      subst this
      exact x3 j hj) x2
    rw [List.foldl_cons]
    obtain ⟨q1, q2, q3, q4⟩ := renames_spec es (s.rename c (o, n, i)) r1 hn.2 hi.2 (by
      intro e he
      obtain ⟨⟨k, hk⟩, y2, y3⟩ := ha e (List.mem_cons_of_mem _ he)
      refine ⟨⟨?_, ?_⟩, y2, ?_⟩
      · exact k
      · rw [r2, if_neg, hk]
        intro hh; exact hi.1 (hh ▸ List.mem_map.2 ⟨e, he, rfl⟩)
      · intro j hj
        rw [r2] at hj
        split at hj
        · cases hj; exact hn.1 (List.mem_map.2 ⟨e, he, rfl⟩)
        · exact y3 j hj)
    refine ⟨q1, ?_, ?_, q4.trans r3⟩
    · intro e he
      rcases List.mem_cons.1 he with rfl | he
      · simp only
        rw [q3, r2, if_pos rfl]
        intro e' he' hh
        exact hi.1 (List.mem_map.2 ⟨e', he', hh⟩)
      · exact q2 e he
    · intro j hj
      rw [q3 j fun e he => hj e (List.mem_cons_of_mem _ he), r2, if_neg]
      exact fun hh => hj _ List.mem_cons_self hh.symm

theorem update_spec {sets : List (Bytes × Option Bytes)} {m : List SKey} (h : Inv c s) (hs : ShortSets sets)
    (hm : ∀ k ∈ m, Short k) :
    Inv c (s.update c sets m true).1 ∧ (s.update c sets m true).1.incr = s.incr ∧
    ((s.update c sets m true).2 = false → ∀ i, live (s.update c sets m true).1 i = live s i) ∧
    ((s.update c sets m true).2 = true →
      (∀ i k, live s i = some k → k ∈ m → live (s.update c sets m true).1 i = some (newKey sets k) ∧
        ∀ j, live s j ≠ some (newKey sets k)) ∧
      (∀ i, (∀ k ∈ m, live s i ≠ some k) → live (s.update c sets m true).1 i = live s i)) := by
  obtain ⟨p1, p2, p3⟩ := prepare_spec (c := c) h hs hm
  unfold Idx.update
  generalize s.prepare c sets m true = g at *
  obtain ⟨s1, o⟩ := g
  simp only at p1 p2 p3
  cases o with
  | none => exact ⟨p1, p2.incr, fun _ i => p2.live i, by intro h; cases h⟩
  | some es =>
    obtain ⟨q1, q2, q3⟩ := p3 es rfl
    have hi : (es.map fun e => e.2.2).Nodup := by
      rw [List.nodup_iff_pairwise_ne, List.pairwise_map] at q1 ⊢
      refine List.Pairwise.imp_of_mem ?_ q1
      intro a b ha hb hne he
      have h1 := (q2 a ha).2.1
      have h2 := (q2 b hb).2.1
      rw [he, h2] at h1
      apply hne
      rw [(q2 a ha).2.2.1, (q2 b hb).2.2.1, Option.some.inj h1]
    obtain ⟨r1, r2, r3, r4⟩ := renames_spec (c := c) es s1 p1 q1 hi (by
      intro e he
      obtain ⟨y1, y2, y3, y4⟩ := q2 e he
      refine ⟨⟨e.1, by rw [p2.live]; exact y2⟩, ?_, fun i => by rw [p2.live]; exact y4 i⟩
      rw [y3]; exact short_newKey hs (hm _ y1))
    simp only
    refine ⟨r1, r4.trans p2.incr, by intro h; simp at h, fun _ => ⟨?_, ?_⟩⟩
    · intro i k hk hkm
      have he := q3 k hkm i hk
      exact ⟨r2 _ he, (q2 _ he).2.2.2⟩
    · intro i hi'
      rw [r3, p2.live]
      intro e he hh
      exact hi' e.1 (q2 e he).1 (hh ▸ (q2 e he).2.1)

/-- The inputs of an operation are shorter than 65536 bytes. -/
def Op.Ok : Op → Prop
  | .add k | .lookup k => Short k
  | .update sets m => ShortSets sets ∧ ∀ k ∈ m, Short k
  | _ => True

/-- How many ids an operation may hand out. -/
def Op.adds : Op → Nat
  | .add _ => 1
  | _ => 0

/-- Total number of registrations. -/
def adds (ops : List Op) : Nat := (ops.map Op.adds).sum

/-- The operation leaves the series `k` with id `i` alone. -/
def Op.Spares (i : Nat) (k : SKey) : Op → Prop
  | .del j => j ≠ i
  | .update _ m => k ∉ m
  | _ => True

theorem evict_get {κ ν : Type} [DecidableEq κ] (ks : List κ) (m : AMap κ ν) (k : κ) (v : ν)
    (h : (ks.foldl AMap.del m).get k = some v) : m.get k = some v := by
  induction ks generalizing m with
  | nil => exact h
  | cons x ks ih =>
    have := ih _ h
    rw [AMap.get_del] at this
    split at this
    · cases this
    · exact this

theorem restart_eq (s : Idx) : openOn s.flush.st = { s.flush with r := .empty } := rfl

/-- Everything the properties need to know about one step. -/
theorem step_spec {o : Op} (h : Inv c s) (ho : o.Ok) (hn : s.incr + o.adds < c.idLimit) :
    Inv c (step c s o) ∧ s.incr ≤ (step c s o).incr ∧ (step c s o).incr ≤ s.incr + o.adds ∧
    (∀ i k, live s i = some k → o.Spares i k → live (step c s o) i = some k) ∧
    (∀ i, i ≤ s.incr → live s i = none → live (step c s o) i = none) := by
  cases o with
  | add k =>
    obtain ⟨h1, h2, h3, h4⟩ := h.add (k := k) ho hn
    refine ⟨h1, ?_, ?_, ?_, ?_⟩
    · rcases h4 with h4 | h4 <;> simp only [step] <;> omega
    · rcases h4 with h4 | h4 <;> simp only [step, Op.adds] <;> omega
    · intro i k' hi _
      simp only [step]
      by_cases hne : i = (s.add c k).2
      · subst hne
        rcases h4 with h4 | h4
        · rw [h4.1] at hi; cases hi; exact h2
        · have := h.bound _ _ hi; omega
      · rw [h3 i hne]; exact hi
    · intro i hi hl
      simp only [step]
      rw [h3 i, hl]
      rintro rfl
      rcases h4 with h4 | h4
      · rw [h4.1] at hl; cases hl
      · omega
  | lookup k =>
    obtain ⟨h1, _, h3⟩ := h.getId' (k := k) ho
    simp only [step]
    refine ⟨h1, ?_, ?_, fun i k hi _ => ?_, fun i _ hi => ?_⟩
    · rw [h3.incr]
    · rw [h3.incr]; omega
    · rw [h3.live]; exact hi
    · rw [h3.live]; exact hi
  | lookupId i =>
    obtain ⟨h1, _, h3, h4, h5, _⟩ := h.getKey i
    simp only [step]
    refine ⟨h1, ?_, ?_, fun i k hi _ => ?_, fun i _ hi => ?_⟩
    · omega
    · omega
    · rw [live_congr h3 h4]; exact hi
    · rw [live_congr h3 h4]; exact hi
  | del j =>
    obtain ⟨h1, h2, h3⟩ := h.del j
    simp only [step]
    refine ⟨h1, ?_, ?_, fun i k hi hs => ?_, fun i _ hi => ?_⟩
    · omega
    · omega
    · rw [h2, if_neg fun e => hs e.symm]; exact hi
    · rw [h2]; split
      · rfl
      · exact hi
  | update sets m =>
    obtain ⟨h1, h2, h3, h4⟩ := update_spec (c := c) h ho.1 ho.2
    simp only [step]
    refine ⟨h1, by omega, by omega, fun i k hi hs => ?_, fun i _ hi => ?_⟩
    · cases hb : (s.update c sets m true).2 with
      | false => rw [h3 hb]; exact hi
      | true =>
        rw [(h4 hb).2, hi]
        intro k' hk' e
        rw [hi] at e; cases e; exact hs hk'
    · cases hb : (s.update c sets m true).2 with
      | false => rw [h3 hb]; exact hi
      | true =>
        rw [(h4 hb).2, hi]
        intro k' _ e
        rw [hi] at e; cases e
  | flush =>
    simp only [step]
    exact ⟨h.flush, Nat.le_refl _, by simp [Idx.flush], fun i k hi _ => by rw [live_flush]; exact hi,
      fun i _ hi => by rw [live_flush]; exact hi⟩
  | restart =>
    simp only [step]
    have e : ∀ i, live (openOn s.flush.st) i = live s i := by
      intro i; rw [restart_eq, ← live_flush s]; rfl
    refine ⟨?_, Nat.le_refl _, by simp [openOn, Idx.flush, flushTo], fun i k hi _ => by rw [e]; exact hi,
      fun i _ hi => by rw [e]; exact hi⟩
    rw [restart_eq]
    exact h.flush.shrink _ (by simp [RCache.empty]) (by simp [RCache.empty])
  | clearTomb =>
    simp only [step]
    exact ⟨⟨h.wkey, h.skey, h.disj, h.inj, h.bound, h.short, h.rid, h.rhash, h.winv, h.sinv, h.auto⟩,
      Nat.le_refl _, Nat.le_add_right _ _, fun i k hi _ => hi, fun i _ hi => hi⟩
  | evict ids hs =>
    simp only [step]
    exact ⟨h.shrink _ (fun i k hi => evict_get _ _ _ _ hi) (fun x y hx => evict_get _ _ _ _ hx),
      Nat.le_refl _, Nat.le_add_right _ _, fun i k hi _ => hi, fun i _ hi => hi⟩

theorem run_spec : ∀ {ops : List Op} {s : Idx}, Inv c s → (∀ o ∈ ops, o.Ok) → s.incr + adds ops < c.idLimit →
    Inv c (run c s ops) ∧ s.incr ≤ (run c s ops).incr ∧ (run c s ops).incr ≤ s.incr + adds ops ∧
    (∀ i k, live s i = some k → (∀ o ∈ ops, o.Spares i k) → live (run c s ops) i = some k) ∧
    (∀ i, i ≤ s.incr → live s i = none → live (run c s ops) i = none)
  | [], s, h, _, _ => ⟨h, Nat.le_refl _, Nat.le_add_right _ _, fun _ _ h _ => h, fun _ _ h => h⟩
  | o :: ops, s, h, ho, hn => by
    have ha : adds (o :: ops) = o.adds + adds ops := by simp [adds]
    rw [ha] at hn
    obtain ⟨h1, h2, h3, h4, h5⟩ := step_spec (c := c) h (ho o List.mem_cons_self) (by omega)
    obtain ⟨r1, r2, r3, r4, r5⟩ := run_spec (ops := ops) h1 (fun o ho' => ho o (List.mem_cons_of_mem _ ho')) (by omega)
    refine ⟨r1, Nat.le_trans h2 r2, ?_, fun i k hi hs => ?_, fun i hi hl => ?_⟩
    · rw [ha]
      have : run c s (o :: ops) = run c (step c s o) ops := rfl
      rw [this]; omega
    · exact r4 i k (h4 i k hi (hs o List.mem_cons_self)) fun o ho' => hs o (List.mem_cons_of_mem _ ho')
    · exact r5 i (Nat.le_trans hi h2) (h5 i hi hl)

end Verif.Index
