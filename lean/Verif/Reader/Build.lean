import Verif.Reader.Spec
/-!
# The builder of merged batches
-/
namespace Verif.Reader

variable {α : Type}

/-- The lists of positions fit together: one for each column, of the same length, all positions exist. -/
structure Idx (cols : Nat) (b : Builder α) : Prop where
  width : b.indices.length = cols + 1
  len : ∀ l ∈ b.indices, l.length = b.len
  valid : ∀ l ∈ b.indices, ∀ p ∈ l, (b.row p).isSome

/-- The rows of the current time. -/
def Builder.pend (b : Builder α) : List (Row α) := b.same.filterMap b.row

theorem row_append {b : Builder α} {rows : List (Row α)} {p : Nat × Nat} (h : (b.row p).isSome) :
    ({ b with batches := b.batches ++ [rows] } : Builder α).row p = b.row p := by
  unfold Builder.row at *
  simp only
  cases hb : b.batches[p.1]? with
  | none => rw [hb] at h; cases h
  | some x =>
    obtain ⟨h1, _⟩ := List.getElem?_eq_some_iff.1 hb
    rw [List.getElem?_append_left h1, hb]

theorem row_pushBatch {b : Builder α} {rows : List (Row α)} {i : Nat} {p : Nat × Nat} (h : (b.row p).isSome) :
    (b.pushBatch i rows).row p = b.row p := row_append h

theorem Idx.pushBatch {cols : Nat} {b : Builder α} (h : Idx cols b) (i : Nat) (rows : List (Row α)) : Idx cols (b.pushBatch i rows) :=
  ⟨h.width, h.len, fun l hl p hp => by rw [row_pushBatch (h.valid l hl p hp)]; exact h.valid l hl p hp⟩

theorem Idx.head_mem {cols : Nat} {b : Builder α} (h : Idx cols b) : b.indices.headD [] ∈ b.indices := by
  have := h.width
  cases hi : b.indices with
  | nil => rw [hi] at this; simp at this
  | cons a l => simp

theorem getElem?_headD {b : Builder α} {cols : Nat} (h : Idx cols b) : b.indices[0]? = some (b.indices.headD []) := by
  have := h.width
  cases hi : b.indices with
  | nil => rw [hi] at this; simp at this
  | cons a l => simp

theorem rows_congr {cols : Nat} {b b' : Builder α} (h : Idx cols b) (hi : b'.indices = b.indices)
    (hr : ∀ p, (b.row p).isSome → b'.row p = b.row p) : b'.rows = b.rows := by
  unfold Builder.rows
  have hl : b'.len = b.len := by unfold Builder.len; rw [hi]
  rw [hl]
  apply List.map_congr_left
  intro j hj
  rw [hi]
  congr 1
  · cases hx : (b.indices.headD [])[j]? with
    | none => rfl
    | some p =>
      have := h.valid _ h.head_mem p (List.mem_of_getElem? hx)
      simp only [Option.bind_some]
      rw [hr p this]
  · apply List.ext_getElem?
    intro c
    simp only [List.getElem?_mapIdx]
    cases hc : b.indices.tail[c]? with
    | none => rfl
    | some l =>
      simp only [Option.map_some, Option.some.injEq]
      cases hx : l[j]? with
      | none => rfl
      | some p =>
        have hm : l ∈ b.indices := List.mem_of_mem_tail (List.mem_of_getElem? hc)
        have := h.valid l hm p (List.mem_of_getElem? hx)
        simp only [Option.bind_some, Builder.cell]
        rw [hr p this]

theorem pend_congr {b b' : Builder α} (hs : b'.same = b.same) (hv : ∀ p ∈ b.same, b'.row p = b.row p) : b'.pend = b.pend := by
  unfold Builder.pend
  rw [hs]
  generalize b.same = l at hv
  induction l with
  | nil => rfl
  | cons p l ih =>
    rw [List.filterMap_cons, List.filterMap_cons, hv p List.mem_cons_self, ih (fun q hq => hv q (List.mem_cons_of_mem _ hq))]

/-- One more position in each column. -/
theorem rows_snoc {cols : Nat} {b b' : Builder α} (h : Idx cols b) (f : Nat → Nat × Nat)
    (hi : b'.indices = b.indices.mapIdx fun c l => l ++ [f c]) (hb : b'.batches = b.batches)
    (hf : ∀ c, c ≤ cols → (b.row (f c)).isSome) :
    Idx cols b' ∧ b'.len = b.len + 1 ∧
      b'.rows = b.rows ++ [⟨(b.row (f 0)).elim 0 Row.ts, (List.range cols).map fun c => b.cell c (f (c + 1))⟩] := by
  have hrow : b'.row = b.row := by funext p; unfold Builder.row; rw [hb]
  have hcell : b'.cell = b.cell := by funext c p; unfold Builder.cell; rw [hrow]
  have hlen : b'.len = b.len + 1 := by
    have h0 := getElem?_headD h
    unfold Builder.len
    rw [hi]
    cases he : b.indices with
    | nil => rw [he] at h0; simp at h0
    | cons a l => simp
  have hidx : Idx cols b' := by
    refine ⟨by rw [hi]; simp [h.width], ?_, ?_⟩
    · intro l hl
      rw [hi] at hl
      obtain ⟨c, hc, rfl⟩ := List.mem_mapIdx.1 hl
      rw [hlen, List.length_append, h.len _ (List.getElem_mem hc)]
      rfl
    · intro l hl p hp
      rw [hi] at hl
      obtain ⟨c, hc, rfl⟩ := List.mem_mapIdx.1 hl
      rw [hrow]
      rcases List.mem_append.1 hp with hp | hp
      · exact h.valid _ (List.getElem_mem hc) p hp
      · simp only [List.mem_singleton] at hp
        subst hp
        exact hf c (by have := h.width; omega)
  refine ⟨hidx, hlen, ?_⟩
  have h0 : b'.indices.headD [] = b.indices.headD [] ++ [f 0] := by
    rw [hi]
    have := getElem?_headD h
    cases he : b.indices with
    | nil => rw [he] at this; simp at this
    | cons a l => simp
  have ht : ∀ c, b'.indices.tail[c]? = (b.indices.tail[c]?).map (· ++ [f (c + 1)]) := by
    intro c
    rw [hi]
    cases he : b.indices with
    | nil => simp
    | cons a l => simp
  unfold Builder.rows
  rw [hlen, List.range_succ, List.map_append, h0, hrow, hcell]
  have hhl : (b.indices.headD []).length = b.len := rfl
  congr 1
  · apply List.map_congr_left
    intro j hj
    have hj := List.mem_range.1 hj
    congr 1
    · rw [List.getElem?_append_left (by omega)]
    · apply List.ext_getElem?
      intro c
      simp only [List.getElem?_mapIdx, ht]
      cases hc : b.indices.tail[c]? with
      | none => rfl
      | some l =>
        have hm : l ∈ b.indices := List.mem_of_mem_tail (List.mem_of_getElem? hc)
        have hll := h.len l hm
        simp only [Option.map_some]
        rw [List.getElem?_append_left (by omega)]
  · simp only [List.map_cons, List.map_nil, List.cons.injEq, and_true]
    congr 1
    · rw [List.getElem?_append_right (by omega), hhl]; simp
    · apply List.ext_getElem?
      intro c
      simp only [List.getElem?_mapIdx, ht, List.getElem?_map]
      have hw : b.indices.tail.length = cols := by rw [List.length_tail, h.width]; rfl
      by_cases hc : c < cols
      · rw [List.getElem?_eq_getElem (by omega : c < b.indices.tail.length), List.getElem?_range hc]
        simp only [Option.map_some, Option.some.injEq]
        have hm : b.indices.tail[c] ∈ b.indices := List.mem_of_mem_tail (List.getElem_mem _)
        have hll := h.len _ hm
        rw [List.getElem?_append_right (by omega), hll]
        simp
      · rw [List.getElem?_eq_none (by omega), List.getElem?_eq_none (by simpa using hc)]
        rfl

/-- The choice for a column: a position whose cell is the first that is not null. -/
theorem pick_spec (b : Builder α) (c : Nat) (ps : List (Nat × Nat)) (hne : ps ≠ []) (hv : ∀ p ∈ ps, (b.row p).isSome) :
    ∃ q ∈ ps, b.pick c ps = [q] ∧ (c = 0 → ps.head? = some q) ∧
      ∀ d, c = d + 1 → b.cell d q = (ps.filterMap b.row).findSome? fun r => (r.cells[d]?).join := by
  induction ps with
  | nil => exact absurd rfl hne
  | cons p ps ih =>
    obtain ⟨r, hr⟩ := Option.isSome_iff_exists.1 (hv p List.mem_cons_self)
    have hval : ∀ d, c = d + 1 → b.valid c p = ((r.cells[d]?).join).isSome := by
      intro d hd; subst hd; simp [Builder.valid, hr]
    have hcell : ∀ d, b.cell d p = (r.cells[d]?).join := by intro d; simp [Builder.cell, hr]
    unfold Builder.pick
    by_cases hc : (b.valid c p || ps.isEmpty) = true
    · rw [if_pos hc]
      refine ⟨p, List.mem_cons_self, rfl, fun _ => rfl, ?_⟩
      intro d hd
      rw [List.filterMap_cons, hr]
      simp only [List.findSome?_cons, hcell]
      rw [hval d hd] at hc
      cases hj : (r.cells[d]?).join with
      | some v => rfl
      | none =>
        rw [hj] at hc
        have : ps = [] := by simpa using hc
        subst this
        rfl
    · rw [if_neg hc]
      simp only [Bool.or_eq_true, not_or] at hc
      have hne' : ps ≠ [] := by simpa using hc.2
      obtain ⟨q, h1, h2, h3, h4⟩ := ih hne' (fun x hx => hv x (List.mem_cons_of_mem _ hx))
      refine ⟨q, List.mem_cons_of_mem _ h1, h2, ?_, ?_⟩
      · intro h0; subst h0; exact absurd rfl hc.1
      · intro d hd
        rw [h4 d hd, List.filterMap_cons, hr]
        simp only [List.findSome?_cons]
        rw [hval d hd] at hc
        have : (r.cells[d]?).join = none := by simpa using hc.1
        rw [this]

theorem filterMap_reverse_row (b : Builder α) (ps : List (Nat × Nat)) : ps.reverse.filterMap b.row = (ps.filterMap b.row).reverse := by
  rw [List.filterMap_reverse]

theorem getLast?_filterMap_row {b : Builder α} {ps : List (Nat × Nat)} (hv : ∀ p ∈ ps, (b.row p).isSome) :
    (ps.filterMap b.row).getLast? = ps.getLast?.bind b.row := by
  cases h : ps.getLast? with
  | none =>
    have : ps = [] := by simpa using h
    subst this; rfl
  | some p =>
    obtain ⟨qs, rfl⟩ := List.getLast?_eq_some_iff.1 h
    obtain ⟨r, hr⟩ := Option.isSome_iff_exists.1 (hv p (by simp))
    simp [List.filterMap_append, hr]

/-- `take_last_and_merge` adds the merged row of the current time. -/
theorem takeLast_spec {cols : Nat} {b : Builder α} (h : Idx cols b) (hv : ∀ p ∈ b.same, (b.row p).isSome) (hne : b.same ≠ []) :
    Idx cols b.takeLast ∧ b.takeLast.same = [] ∧ b.takeLast.batches = b.batches ∧ b.takeLast.cursors = b.cursors ∧
      b.takeLast.last = b.last ∧ b.takeLast.len = b.len + 1 ∧ b.takeLast.rows = b.rows ++ [mergeGroup cols b.pend] := by
  -- all cases add one position to each column
  have main : ∀ f : Nat → Nat × Nat, (∀ c ≤ cols, f c ∈ b.same) → b.same.getLast? = some (f 0) →
      (∀ d, d < cols → b.cell d (f (d + 1)) = lastCell d b.pend) →
      b.takeLast = { b with indices := b.indices.mapIdx fun c l => l ++ [f c], same := [] } →
      Idx cols b.takeLast ∧ b.takeLast.same = [] ∧ b.takeLast.batches = b.batches ∧ b.takeLast.cursors = b.cursors ∧
      b.takeLast.last = b.last ∧ b.takeLast.len = b.len + 1 ∧ b.takeLast.rows = b.rows ++ [mergeGroup cols b.pend] := by
    intro f h1 h2 h3 h4
    obtain ⟨h5, h6, h7⟩ := rows_snoc (b' := b.takeLast) h f (by rw [h4]) (by rw [h4]) (fun c hc => hv _ (h1 c hc))
    refine ⟨h5, by rw [h4], by rw [h4], by rw [h4], by rw [h4], h6, ?_⟩
    rw [h7]
    congr 2
    unfold mergeGroup
    congr 1
    · unfold Builder.pend
      rw [getLast?_filterMap_row hv, h2]
      rfl
    · apply List.map_congr_left
      intro d hd
      exact h3 d (List.mem_range.1 hd)
  cases hs : b.same with
  | nil => exact absurd hs hne
  | cons p ps =>
    cases ps with
    | nil =>
      obtain ⟨r, hr⟩ := Option.isSome_iff_exists.1 (hv p (by rw [hs]; exact List.mem_cons_self))
      refine main (fun _ => p) (fun _ _ => by rw [hs]; exact List.mem_cons_self) (by rw [hs]; rfl) ?_ ?_
      · intro d _
        simp [lastCell, Builder.pend, hs, hr, Builder.cell]
      · unfold Builder.takeLast
        rw [hs]
        simp only
        congr 1
        rw [List.mapIdx_eq_zipIdx_map]
        apply List.ext_getElem?
        intro i
        simp only [List.getElem?_map, List.getElem?_zipIdx]
        cases b.indices[i]? <;> rfl
    | cons p' ps =>
      have hpick := fun c => pick_spec b c b.same.reverse (by simpa using hne) (fun x hx => hv x (List.mem_reverse.1 hx))
      obtain ⟨f, hf⟩ := Classical.axiomOfChoice hpick
      refine main f (fun c _ => List.mem_reverse.1 (hf c).1) ?_ ?_ ?_
      · rw [← List.head?_reverse]
        exact (hf 0).2.2.1 rfl
      · intro d _
        rw [(hf (d + 1)).2.2.2 d rfl, lastCell, Builder.pend, filterMap_reverse_row]
      · unfold Builder.takeLast
        split
        · rename_i h0; exact absurd h0 hne
        · rename_i q h0; rw [hs] at h0; simp at h0
        · have e : (fun c (l : List (Nat × Nat)) => l ++ b.pick c b.same.reverse) = fun c l => l ++ [f c] := by
            funext c l; rw [(hf c).2.1]
          rw [e]

/-- `push_row` of a row that is not before the last one. -/
theorem pushRow_spec {cols : Nat} {b : Builder α} {i : Nat} {x : Row α} (h : Idx cols b) (hv : ∀ p ∈ b.same, (b.row p).isSome)
    (hx : b.row (b.cursors.getD i (0, 0)) = some x)
    (hl : (b.last = none ∧ b.same = []) ∨ ∃ p, b.last = some p ∧ b.same.getLast? = some p)
    (hle : ∀ y ∈ b.pend, y.ts ≤ x.ts) :
    ∃ b', b.pushRow i = some b' ∧ Idx cols b' ∧ (∀ p ∈ b'.same, (b'.row p).isSome) ∧ b'.batches = b.batches ∧
      b'.cursors = b.cursors.set i ((b.cursors.getD i (0, 0)).1, (b.cursors.getD i (0, 0)).2 + 1) ∧
      (∃ p, b'.last = some p ∧ b'.same.getLast? = some p) ∧
      (∃ g, b'.rows = b.rows ++ g ∧ (b'.rows, b'.pend) = push cols (b.rows, b.pend) x) ∧ b'.len ≤ b.len + 1 := by
  let p := b.cursors.getD i (0, 0)
  let b1 : Builder α := { b with cursors := b.cursors.set i (p.1, p.2 + 1) }
  have hrow : b1.row = b.row := rfl
  have hp : b.row p = some x := hx
  -- the case where the row joins the current time
  have join : ∀ b', b' = { b1 with last := some p, same := b.same ++ [p] } → push cols (b.rows, b.pend) x = (b.rows, b.pend ++ [x]) →
      Idx cols b' ∧ (∀ p ∈ b'.same, (b'.row p).isSome) ∧ b'.batches = b.batches ∧
      b'.cursors = b.cursors.set i (p.1, p.2 + 1) ∧
      (∃ p, b'.last = some p ∧ b'.same.getLast? = some p) ∧
      (∃ g, b'.rows = b.rows ++ g ∧ (b'.rows, b'.pend) = push cols (b.rows, b.pend) x) ∧ b'.len ≤ b.len + 1 := by
    rintro b' rfl hpush
    refine ⟨⟨h.width, h.len, h.valid⟩, ?_, rfl, rfl, ⟨p, rfl, by simp⟩, ⟨[], ?_, ?_⟩, Nat.le_succ _⟩
    · intro q hq
      rcases List.mem_append.1 hq with hq | hq
      · exact hv q hq
      · simp only [List.mem_singleton] at hq
        subst hq
        show (b.row p).isSome
        rw [hp]; rfl
    · rw [List.append_nil]; rfl
    · rw [hpush]
      have : ({ b1 with last := some p, same := b.same ++ [p] } : Builder α).pend = b.pend ++ [x] := by
        show (b.same ++ [p]).filterMap b.row = b.same.filterMap b.row ++ [x]
        simp [List.filterMap_append, hp]
      rw [this]
      rfl
  rcases hl with ⟨h1, h2⟩ | ⟨q, h1, h2⟩
  · have hpend : b.pend = [] := by unfold Builder.pend; rw [h2]; rfl
    refine ⟨_, ?_, join _ rfl ?_⟩
    · unfold Builder.pushRow
      simp only [h1]
      rfl
    · simp [push, hpend]
  · have hq : q ∈ b.same := List.mem_of_getLast? h2
    obtain ⟨y, hy⟩ := Option.isSome_iff_exists.1 (hv q hq)
    have hlast : b.pend.getLast? = some y := by
      unfold Builder.pend
      rw [getLast?_filterMap_row hv, h2]; exact hy
    have hyx := hle y (List.mem_of_getLast? hlast)
    by_cases heq : y.ts = x.ts
    · refine ⟨_, ?_, join _ rfl ?_⟩
      · unfold Builder.pushRow
        simp only [h1]
        show (match b.row q, b.row p with | some x, some y => _ | _, _ => none) = _
        rw [hy, hp]
        simp only [if_pos heq]
        rfl
      · simp [push, hlast, heq]
    · let b2 : Builder α := { b1 with last := some p }
      obtain ⟨t1, t2, t3, t4, t5, t6, t7⟩ := takeLast_spec (b := b2) ⟨h.width, h.len, h.valid⟩ hv (List.ne_nil_of_mem hq)
      let b' : Builder α := { b2.takeLast with same := b2.takeLast.same ++ [p] }
      have hr' : b'.row = b.row := by
        funext z
        show ((b2.takeLast.batches)[z.1]?).bind _ = _
        rw [t3]; rfl
      refine ⟨b', ?_, ⟨t1.width, t1.len, t1.valid⟩, ?_, t3, t4, ⟨p, t5, ?_⟩, ⟨[mergeGroup cols b.pend], t7, ?_⟩, ?_⟩
      · unfold Builder.pushRow
        simp only [h1]
        show (match b.row q, b.row p with | some x, some y => _ | _, _ => none) = _
        rw [hy, hp]
        simp only [if_neg heq]
        rw [if_pos (show y.ts < x.ts by omega)]
      · intro z hz
        rw [hr']
        have : b'.same = [p] := by show b2.takeLast.same ++ [p] = [p]; rw [t2]; rfl
        rw [this] at hz
        simp only [List.mem_singleton] at hz
        rw [hz, hp]; rfl
      · show (b2.takeLast.same ++ [p]).getLast? = some p
        simp
      · have e1 : b'.rows = b.rows ++ [mergeGroup cols b.pend] := t7
        have e2 : b'.pend = [x] := by
          unfold Builder.pend
          have : b'.same = [p] := by show b2.takeLast.same ++ [p] = [p]; rw [t2]; rfl
          rw [this, hr']
          simp [hp]
        rw [e1, e2]
        simp [push, hlast, heq]
      · show b2.takeLast.len ≤ b.len + 1
        rw [t6]; exact Nat.le_refl _

end Verif.Reader
