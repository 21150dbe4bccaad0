import Verif.Tomb.Ranges
/-! The deletion cache: what loading, adding, compacting and saving do to the deleted points. -/
namespace Verif.Tomb
open Verif.Time Verif.Wal

/-- Keys are 32-bit and all collections are well formed. -/
structure CacheOk (c : Cache) : Prop where
  cols : ∀ k rs, c.cols.get k = some rs → (k.1 < 2 ^ 32 ∧ k.2 < 2 ^ 32) ∧ Good rs
  all : Good c.all

theorem cacheOk_empty : CacheOk Cache.empty := ⟨by simp [Cache.empty], good_empty⟩

theorem CacheOk.col {c : Cache} (h : CacheOk c) (k : Nat × Nat) : Good (c.col k) := by
  unfold Cache.col
  cases hk : c.cols.get k with
  | none => exact good_empty
  | some rs => exact (h.cols k rs hk).2

theorem col_extendCol (c : Cache) (k k' : Nat × Nat) (rs : List TimeRange) :
    (c.extendCol k rs).col k' = if k' = k then (c.col k).extend rs else c.col k' := by
  unfold Cache.extendCol Cache.col
  simp only [AMap.get_set]
  split <;> rfl

theorem CacheOk.extendCol {c : Cache} (h : CacheOk c) {k : Nat × Nat} (hk : k.1 < 2 ^ 32 ∧ k.2 < 2 ^ 32)
    {rs : List TimeRange} (hr : ∀ r ∈ rs, Proper r) : CacheOk (c.extendCol k rs) := by
  refine ⟨?_, h.all⟩
  intro k' rs' he
  simp only [Cache.extendCol, AMap.get_set] at he
  split at he
  · rename_i e
    subst e
    simp only [Option.some.injEq] at he
    subst he
    exact ⟨hk, good_extend (h.col _) hr⟩
  · exact h.cols k' rs' he

/-- Same deletions, hulls included. -/
def Same (c c' : Cache) : Prop := (∀ k, abs (c.col k) = abs (c'.col k)) ∧ abs c.all = abs c'.all

theorem Same.refl (c : Cache) : Same c c := ⟨fun _ => rfl, rfl⟩

/-- A decodable field with proper ranges. -/
def Stone.Fine (t : Stone) : Prop := t.Ok ∧ ∀ r ∈ t.ranges, Proper r

theorem CacheOk.load1 {c : Cache} (h : CacheOk c) {t : Stone} (ht : t.Fine) : CacheOk (c.load1 t) := by
  obtain ⟨f, rs⟩ := t
  cases f with
  | one s k => exact h.extendCol ht.1.2.2 ht.2
  | all => exact ⟨h.cols, good_extend h.all ht.2⟩

theorem CacheOk.loads : ∀ (ts : List Stone) {c : Cache}, CacheOk c → (∀ t ∈ ts, t.Fine) →
    CacheOk (ts.foldl Cache.load1 c)
  | [], _, h, _ => h
  | t :: ts, _, h, ht => CacheOk.loads ts (h.load1 (ht t (List.mem_cons_self ..)))
      (fun x hx => ht x (List.mem_cons_of_mem _ hx))

theorem load1_col (c : Cache) (t : Stone) (k : Nat × Nat) :
    (c.load1 t).col k = if t.field = .one k.1 k.2 then (c.col k).extend t.ranges else c.col k := by
  obtain ⟨f, rs⟩ := t
  cases f with
  | one s i =>
    simp only [Cache.load1, col_extendCol]
    by_cases hk : k = (s, i)
    · subst hk; simp
    · rw [if_neg hk, if_neg]
      intro h
      simp only [Field.one.injEq] at h
      exact hk (Prod.ext h.1.symm h.2.symm)
  | all => simp [Cache.load1, Cache.col]

theorem load1_all (c : Cache) (t : Stone) :
    (c.load1 t).all = if t.field = .all then c.all.extend t.ranges else c.all := by
  obtain ⟨f, rs⟩ := t
  cases f <;> simp [Cache.load1, Cache.extendCol]

/-- A column after loading depends on the fields for that column only. -/
theorem loads_col (k : Nat × Nat) : ∀ (ts : List Stone) (c : Cache),
    (ts.foldl Cache.load1 c).col k = loadPieces (c.col k) (ts.filter fun t => t.field = .one k.1 k.2)
  | [], _ => rfl
  | t :: ts, c => by
    rw [List.foldl_cons, loads_col k ts, load1_col, List.filter_cons]
    by_cases h : t.field = .one k.1 k.2
    · simp only [h, if_true, decide_true]; rfl
    · simp only [h, if_false, decide_false]; rfl

theorem loads_all : ∀ (ts : List Stone) (c : Cache),
    (ts.foldl Cache.load1 c).all = loadPieces c.all (ts.filter fun t => t.field = .all)
  | [], _ => rfl
  | t :: ts, c => by
    rw [List.foldl_cons, loads_all ts, load1_all, List.filter_cons]
    by_cases h : t.field = .all
    · simp only [h, if_true, decide_true]; rfl
    · simp only [h, if_false, decide_false]; rfl

theorem load1_same {c c' : Cache} (h : Same c c') (hc : CacheOk c) (hc' : CacheOk c') {t : Stone} (ht : t.Fine) :
    Same (c.load1 t) (c'.load1 t) := by
  refine ⟨fun k => ?_, ?_⟩
  · rw [load1_col, load1_col]
    split
    · rw [abs_extend (hc.col k) ht.2, abs_extend (hc'.col k) ht.2, h.1]
    · exact h.1 k
  · rw [load1_all, load1_all]
    split
    · rw [abs_extend hc.all ht.2, abs_extend hc'.all ht.2, h.2]
    · exact h.2

theorem loads_same : ∀ (ts : List Stone) {c c' : Cache}, Same c c' → CacheOk c → CacheOk c' → (∀ t ∈ ts, t.Fine) →
    Same (ts.foldl Cache.load1 c) (ts.foldl Cache.load1 c')
  | [], _, _, h, _, _, _ => h
  | t :: ts, _, _, h, hc, hc', ht => by
    have hf := ht t (List.mem_cons_self ..)
    exact loads_same ts (load1_same h hc hc' hf) (hc.load1 hf) (hc'.load1 hf)
      (fun x hx => ht x (List.mem_cons_of_mem _ hx))

/-! ## Adding -/

theorem insertBatch_not_mem (k : Nat × Nat) : ∀ (b : List ((Nat × Nat) × List TimeRange)) (c : Cache),
    (∀ e ∈ b, e.1 ≠ k) → (c.insertBatch b).col k = c.col k
  | [], _, _ => rfl
  | e :: b, c, h => by
    have := insertBatch_not_mem k b (c.extendCol e.1 e.2) (fun x hx => h x (List.mem_cons_of_mem _ hx))
    simp only [Cache.insertBatch, List.foldl_cons] at this ⊢
    rw [this, col_extendCol, if_neg (fun hk => h e (List.mem_cons_self ..) hk.symm)]

theorem insertBatch_mem (k : Nat × Nat) (rs : List TimeRange) : ∀ (b : List ((Nat × Nat) × List TimeRange)) (c : Cache),
    (b.map Prod.fst).Nodup → (k, rs) ∈ b → (c.insertBatch b).col k = (c.col k).extend rs
  | [], _, _, h => by cases h
  | e :: b, c, hn, h => by
    simp only [List.map_cons, List.nodup_cons] at hn
    rcases List.mem_cons.1 h with h | h
    · subst h
      have := insertBatch_not_mem k b (c.extendCol k rs) (fun x hx hk =>
        hn.1 (List.mem_map.2 ⟨x, hx, hk⟩))
      simp only [Cache.insertBatch, List.foldl_cons] at this ⊢
      rw [this, col_extendCol, if_pos rfl]
    · have := insertBatch_mem k rs b (c.extendCol e.1 e.2) hn.2 h
      have hne : k ≠ e.1 := fun hk => hn.1 (List.mem_map.2 ⟨(k, rs), h, hk⟩)
      simp only [Cache.insertBatch, List.foldl_cons] at this ⊢
      rw [this, col_extendCol, if_neg hne]

theorem insertBatch_all : ∀ (b : List ((Nat × Nat) × List TimeRange)) (c : Cache), (c.insertBatch b).all = c.all
  | [], _ => rfl
  | e :: b, c => by
    have := insertBatch_all b (c.extendCol e.1 e.2)
    simp only [Cache.insertBatch, List.foldl_cons] at this ⊢
    rw [this]; rfl

theorem insertBatch_ok : ∀ (b : List ((Nat × Nat) × List TimeRange)) {c : Cache}, CacheOk c →
    (∀ e ∈ b, (e.1.1 < 2 ^ 32 ∧ e.1.2 < 2 ^ 32) ∧ ∀ r ∈ e.2, Proper r) → CacheOk (c.insertBatch b)
  | [], _, h, _ => h
  | e :: b, _, h, hb => by
    have he := hb e (List.mem_cons_self ..)
    exact insertBatch_ok b (h.extendCol he.1 he.2) (fun x hx => hb x (List.mem_cons_of_mem _ hx))

theorem batch_col (cols : List (Nat × Nat)) (r : TimeRange) (c : Cache) (k : Nat × Nat) :
    (c.insertBatch (batchOf cols r)).col k =
      if k ∈ cols then (c.col k).extend (List.replicate (cols.count k) r) else c.col k := by
  split
  · rename_i h
    refine insertBatch_mem k _ _ c ?_ ?_
    · simp only [batchOf, List.map_map, Function.comp_def, List.map_id']
      exact List.nodup_dedup _
    · exact List.mem_map.2 ⟨k, List.mem_dedup.2 h, rfl⟩
  · rename_i h
    refine insertBatch_not_mem k _ c ?_
    intro e he hk
    obtain ⟨k', hk', rfl⟩ := List.mem_map.1 he
    simp only at hk
    subst hk
    exact h (List.mem_dedup.1 hk')

theorem abs_loadPieces_replicate {s : TimeRanges} (hs : Good s) {f : Field} {r : TimeRange} (hr : Proper r) : ∀ n : Nat,
    abs (loadPieces s (List.replicate (n + 1) ⟨f, [r]⟩)) = (abs s).ext [r] := by
  have hr' : ∀ x ∈ [r], Proper x := by simpa using hr
  intro n
  induction n generalizing s with
  | zero => exact abs_extend hs hr'
  | succ n ih =>
    rw [List.replicate_succ]
    show abs (loadPieces (s.extend [r]) _) = _
    rw [ih (good_extend hs hr'), abs_extend hs hr', ext_twice]

theorem filter_addStones (cols : List (Nat × Nat)) (r : TimeRange) (k : Nat × Nat) :
    (addStones cols r).filter (fun t => t.field = .one k.1 k.2) = List.replicate (cols.count k) ⟨.one k.1 k.2, [r]⟩ := by
  induction cols with
  | nil => rfl
  | cons x xs ih =>
    simp only [addStones, List.map_cons, List.filter_cons] at ih ⊢
    by_cases h : x = k
    · subst h
      simp only [decide_true, if_true, List.count_cons_self, List.replicate_succ]
      rw [ih]
    · have h2 : ¬ (Field.one x.1 x.2 = .one k.1 k.2) := by
        intro hx
        simp only [Field.one.injEq] at hx
        exact h (Prod.ext hx.1 hx.2)
      simp only [h2, decide_false, Bool.false_eq_true, if_false]
      rw [ih, List.count_cons_of_ne h]

theorem filter_addStones_all (cols : List (Nat × Nat)) (r : TimeRange) :
    (addStones cols r).filter (fun t => t.field = .all) = [] := by
  rw [List.filter_eq_nil_iff]
  intro t ht
  obtain ⟨k, _, rfl⟩ := List.mem_map.1 ht
  simp

/-- Adding in memory and adding by loading the new records agree. -/
theorem add_same {c c' : Cache} (h : Same c c') (hc : CacheOk c) (hc' : CacheOk c') (cols : List (Nat × Nat))
    {r : TimeRange} (hr : Proper r) :
    Same (c.insertBatch (batchOf cols r)) ((addStones cols r).foldl Cache.load1 c') := by
  refine ⟨fun k => ?_, ?_⟩
  · rw [batch_col, loads_col, filter_addStones]
    by_cases hk : k ∈ cols
    · obtain ⟨n, hn⟩ : ∃ n, cols.count k = n + 1 := ⟨cols.count k - 1, by
        have := List.count_pos_iff.2 hk; omega⟩
      rw [if_pos hk, hn, abs_loadPieces_replicate (hc'.col k) hr, abs_extend (hc.col k), ext_replicate, h.1]
      intro x hx
      rw [List.eq_of_mem_replicate hx]; exact hr
    · rw [if_neg hk, List.count_eq_zero_of_not_mem hk]
      exact h.1 k
  · rw [insertBatch_all, loads_all, filter_addStones_all]
    exact h.2

/-! ## Compacting, saving and loading -/

theorem CacheOk.insertAll {c : Cache} (h : CacheOk c) {r : TimeRange} (hr : Proper r) : CacheOk (c.insertAll r) := by
  unfold Cache.insertAll
  split
  · exact h
  · exact ⟨h.cols, by rw [push_eq_extend]; exact good_extend h.all (by simpa using hr)⟩

/-- Extending every column by the ranges of the whole file. -/
theorem compact_get (c : Cache) (k : Nat × Nat) :
    (c.compact.cols.get k = none ∧ ∀ k rs, c.cols.get k = some rs → (rs.extend c.all.ranges).ranges.all c.all.includes = true) ∨
    c.compact.cols.get k = (c.cols.get k).map fun rs => rs.extend c.all.ranges := by
  unfold Cache.compact
  simp only
  split
  · rename_i h
    refine .inl ⟨rfl, ?_⟩
    intro k rs hk
    rw [List.all_eq_true] at h
    exact h (k, rs.extend c.all.ranges) (List.mem_map.2 ⟨(k, rs), AMap.mem_entries.2 hk, rfl⟩)
  · refine .inr ?_
    simp only [AMap.get, List.find?_map, Function.comp_def]
    cases List.find? (fun e => decide (e.1 = k)) c.cols.entries <;> rfl

theorem compact_all (c : Cache) : c.compact.all = c.all := by
  unfold Cache.compact
  simp only
  split <;> rfl

theorem CacheOk.compact {c : Cache} (h : CacheOk c) : CacheOk c.compact := by
  refine ⟨?_, by rw [compact_all]; exact h.all⟩
  intro k rs hk
  rcases compact_get c k with ⟨e, _⟩ | e
  · rw [e] at hk; cases hk
  · rw [e] at hk
    obtain ⟨rs0, h0, rfl⟩ := Option.map_eq_some_iff.1 hk
    exact ⟨(h.cols k rs0 h0).1, good_extend (h.cols k rs0 h0).2 (ranges_proper h.all)⟩

/-- Point-wise deletion through `Covers`. -/
theorem deleted_iff {c : Cache} (h : CacheOk c) (sid cid : Nat) (t : Int) :
    c.Deleted sid cid t ↔ Covers (c.col (sid, cid)).inner t ∨ Covers c.all.inner t := by
  unfold Cache.Deleted
  rw [contains_iff_covers (h.col _).wf.sep, contains_iff_covers h.all.wf.sep]

theorem deleted_same {c c' : Cache} (h : Same c c') (hc : CacheOk c) (hc' : CacheOk c') (sid cid : Nat) (t : Int) :
    c.Deleted sid cid t ↔ c'.Deleted sid cid t := by
  rw [deleted_iff hc, deleted_iff hc']
  have h1 := congrFun (congrArg Abs.cov (h.1 (sid, cid))) t
  have h2 := congrFun (congrArg Abs.cov h.2) t
  simp only [abs, eq_iff_iff] at h1 h2
  rw [h1, h2]

theorem covers_extend {s : TimeRanges} (hs : Good s) {rs : List TimeRange} (h : ∀ r ∈ rs, Proper r) (t : Int) :
    Covers (s.extend rs).inner t ↔ Covers s.inner t ∨ (¬ (abs s).done ∧ ∃ r ∈ rs, Has r t) := by
  have := congrFun (congrArg Abs.cov (abs_extend hs h)) t
  simp only [abs, eq_iff_iff] at this
  rw [this]
  unfold Abs.ext
  split
  · rename_i hd; simp [abs, hd]
  · rename_i hd; simp [abs, hd]

/-- **C16.** Compacting the deletion cache does not change what is deleted. -/
theorem C16_compact_keeps {c : Cache} (h : CacheOk c) (sid cid : Nat) (t : Int) :
    c.compact.Deleted sid cid t ↔ c.Deleted sid cid t := by
  rw [deleted_iff h, deleted_iff h.compact, compact_all]
  rcases compact_get c (sid, cid) with ⟨e, hall⟩ | e
  · have e1 : c.compact.col (sid, cid) = TimeRanges.empty := by unfold Cache.col; rw [e]; rfl
    rw [e1]
    constructor
    · rintro (⟨x, hx, _⟩ | h2)
      · simp [TimeRanges.empty] at hx
      · exact .inr h2
    · rintro (h2 | h2)
      · right
        cases hk : c.cols.get (sid, cid) with
        | none =>
          obtain ⟨x, hx, _⟩ := h2
          simp [Cache.col, hk, TimeRanges.empty] at hx
        | some rs =>
          have h3 : Covers rs.inner t := by simpa [Cache.col, hk] using h2
          have h4 := (covers_extend (h.cols _ rs hk).2 (ranges_proper h.all) t).2 (.inl h3)
          rw [← ranges_covers] at h4
          obtain ⟨r, hr, ht⟩ := h4
          exact includes_covers (List.all_eq_true.1 (hall _ rs hk) r hr) ht
      · exact .inr h2
  · cases hk : c.cols.get (sid, cid) with
    | none =>
      have e1 : c.compact.col (sid, cid) = c.col (sid, cid) := by unfold Cache.col; rw [e, hk]; rfl
      rw [e1]
    | some rs =>
      have e1 : c.compact.col (sid, cid) = rs.extend c.all.ranges := by unfold Cache.col; rw [e, hk]; rfl
      have e2 : c.col (sid, cid) = rs := by unfold Cache.col; rw [hk]; rfl
      rw [e1, e2, covers_extend (h.cols _ rs hk).2 (ranges_proper h.all), ranges_covers]
      constructor
      · rintro ((h2 | ⟨_, h2⟩) | h2)
        · exact .inl h2
        · exact .inr h2
        · exact .inr h2
      · rintro (h2 | h2)
        · exact .inl (.inl h2)
        · exact .inr h2

theorem pieces_field (f : Field) : ∀ (n : Nat) (rs : List TimeRange), ∀ t ∈ pieces f n rs, t.field = f
  | 0, _, t, h => by cases h
  | n + 1, rs, t, h => by
    simp only [pieces] at h
    split at h
    · cases h
    · rcases List.mem_cons.1 h with rfl | h
      · rfl
      · exact pieces_field f n _ t h

theorem pieces_sub (f : Field) : ∀ (n : Nat) (rs : List TimeRange), ∀ t ∈ pieces f n rs,
    t.ranges.length ≤ maxRanges ∧ ∀ r ∈ t.ranges, r ∈ rs
  | 0, _, t, h => by cases h
  | n + 1, rs, t, h => by
    simp only [pieces] at h
    split at h
    · cases h
    · rcases List.mem_cons.1 h with rfl | h
      · exact ⟨by simp only [List.length_take]; omega, fun r h => List.mem_of_mem_take h⟩
      · have := pieces_sub f n _ t h
        exact ⟨this.1, fun r hr => List.mem_of_mem_drop (this.2 r hr)⟩

theorem filter_pieces (f g : Field) (n : Nat) (rs : List TimeRange) :
    (pieces f n rs).filter (fun t => t.field = g) = if f = g then pieces f n rs else [] := by
  split
  · rename_i h
    subst h
    rw [List.filter_eq_self]
    intro t ht; simp [pieces_field f n rs t ht]
  · rename_i h
    rw [List.filter_eq_nil_iff]
    intro t ht; simp [pieces_field f n rs t ht, h]

theorem one_eq_iff (a k : Nat × Nat) : (Field.one a.1 a.2 = .one k.1 k.2) ↔ a = k := by
  constructor
  · intro h
    simp only [Field.one.injEq] at h
    exact Prod.ext h.1 h.2
  · rintro rfl; rfl

theorem filter_saved (k : Nat × Nat) : ∀ (es : List ((Nat × Nat) × TimeRanges)), (es.map Prod.fst).Nodup →
    (es.flatMap (fun e => pieces (.one e.1.1 e.1.2) e.2.ranges.length e.2.ranges)).filter
      (fun t => t.field = .one k.1 k.2) =
    match es.find? (fun e => decide (e.1 = k)) with
    | some e => pieces (.one k.1 k.2) e.2.ranges.length e.2.ranges
    | none => []
  | [], _ => rfl
  | e :: es, hn => by
    simp only [List.map_cons, List.nodup_cons] at hn
    rw [List.flatMap_cons, List.filter_append, filter_pieces, filter_saved k es hn.2, List.find?_cons]
    by_cases hk : e.1 = k
    · subst hk
      have : es.find? (fun x => decide (x.1 = e.1)) = none := by
        rw [List.find?_eq_none]
        intro x hx
        simp only [decide_eq_true_eq]
        exact fun h => hn.1 (List.mem_map.2 ⟨x, hx, h⟩)
      simp [this]
    · rw [if_neg (fun h => hk ((one_eq_iff _ _).1 h)), decide_eq_false hk]
      rfl

theorem filter_saved_all (es : List ((Nat × Nat) × TimeRanges)) :
    (es.flatMap (fun e => pieces (.one e.1.1 e.1.2) e.2.ranges.length e.2.ranges)).filter
      (fun t => t.field = .all) = [] := by
  rw [List.filter_eq_nil_iff]
  intro t ht
  obtain ⟨e, _, ht⟩ := List.mem_flatMap.1 ht
  simp [pieces_field _ _ _ t ht]

/-- The map with its entries in another order. -/
theorem find_perm {m : AMap (Nat × Nat) TimeRanges} {es : List ((Nat × Nat) × TimeRanges)} (h : es.Perm m.entries)
    (k : Nat × Nat) : (es.find? (fun e => decide (e.1 = k))).map Prod.snd = m.get k := by
  have hn : (es.map Prod.fst).Nodup := (h.map Prod.fst).nodup_iff.2 m.nodup
  have e : (es.find? (fun e => decide (e.1 = k))).map Prod.snd = (AMap.mk es hn).get k := rfl
  rw [e]
  cases hg : m.get k with
  | none =>
    rw [AMap.get_eq_none] at hg ⊢
    intro v hv
    exact hg v (h.mem_iff.1 hv)
  | some v =>
    rw [← AMap.mem_entries] at hg ⊢
    exact h.mem_iff.2 hg

/-- What loading a saved cache gives for a column and for the whole file. -/
theorem loaded_saved {c : Cache} {es : List ((Nat × Nat) × TimeRanges)} (hp : es.Perm c.cols.entries) (k : Nat × Nat) :
    ((saveStones es c.all).foldl Cache.load1 Cache.empty).col k =
      loadPieces TimeRanges.empty (pieces (.one k.1 k.2) (c.col k).ranges.length (c.col k).ranges) ∧
    ((saveStones es c.all).foldl Cache.load1 Cache.empty).all =
      loadPieces TimeRanges.empty (pieces .all c.all.ranges.length c.all.ranges) := by
  have hn : (es.map Prod.fst).Nodup := (hp.map Prod.fst).nodup_iff.2 c.cols.nodup
  constructor
  · rw [loads_col]
    have e1 : (saveStones es c.all).filter (fun t => t.field = .one k.1 k.2) =
        pieces (.one k.1 k.2) (c.col k).ranges.length (c.col k).ranges := by
      unfold saveStones
      rw [List.filter_append, filter_saved k es hn, filter_pieces, if_neg (by simp), List.append_nil]
      have := find_perm hp k
      unfold Cache.col
      rw [← this]
      cases es.find? (fun e => decide (e.1 = k)) with
      | none => rfl
      | some e => rfl
    rw [e1]
    rfl
  · rw [loads_all]
    have e1 : (saveStones es c.all).filter (fun t => t.field = .all) = pieces .all c.all.ranges.length c.all.ranges := by
      unfold saveStones
      rw [List.filter_append, filter_saved_all, filter_pieces, if_pos rfl, List.nil_append]
    rw [e1]
    rfl

theorem saveStones_fine {c : Cache} (h : CacheOk c) {es : List ((Nat × Nat) × TimeRanges)}
    (hp : es.Perm c.cols.entries) : ∀ t ∈ saveStones es c.all, t.Fine := by
  intro t ht
  unfold saveStones at ht
  rcases List.mem_append.1 ht with ht | ht
  · obtain ⟨e, he, ht⟩ := List.mem_flatMap.1 ht
    obtain ⟨hk, hg⟩ := h.cols e.1 e.2 (AMap.mem_entries.1 (hp.mem_iff.1 he))
    have hs := pieces_sub _ _ _ t ht
    have hpr : ∀ r ∈ t.ranges, Proper r := fun r hr => ranges_proper hg r (hs.2 r hr)
    refine ⟨⟨hs.1, fun r hr => (hpr r hr).2, ?_⟩, hpr⟩
    rw [pieces_field _ _ _ t ht]
    exact hk
  · have hs := pieces_sub _ _ _ t ht
    have hpr : ∀ r ∈ t.ranges, Proper r := fun r hr => ranges_proper h.all r (hs.2 r hr)
    refine ⟨⟨hs.1, fun r hr => (hpr r hr).2, ?_⟩, hpr⟩
    rw [pieces_field _ _ _ t ht]
    trivial

/-- **C16.** A cache saved to a file and loaded from it denotes the same deleted points, whatever order the hash map
yields its columns in and however the ranges are cut into records. -/
theorem C16_save_load {c : Cache} (h : CacheOk c) {es : List ((Nat × Nat) × TimeRanges)}
    (hp : es.Perm c.cols.entries) (sid cid : Nat) (t : Int) :
    ((saveStones es c.all).foldl Cache.load1 Cache.empty).Deleted sid cid t ↔ c.Deleted sid cid t := by
  have hok := CacheOk.loads _ cacheOk_empty (saveStones_fine h hp)
  rw [deleted_iff hok, deleted_iff h]
  obtain ⟨e1, e2⟩ := loaded_saved hp (sid, cid)
  rw [e1, e2, (saved_loaded _ (h.col _)).2.2.2, (saved_loaded _ h.all).2.2.2]

end Verif.Tomb
