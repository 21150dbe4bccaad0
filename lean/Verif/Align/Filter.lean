import Verif.Align.Props
import Verif.Stats.Props
/-!
# Reading sources with different columns: filters

C100: a filter that is pushed down to the sources keeps every row that matches it.
-/
namespace Verif.Align

open Verif.Sort Verif.Stats

/-- The columns of a source that are read have the names they have in the table. -/
def Src.Named (proj : List Nat) (table : List Col) : Src → Prop
  | .chunk gs => ∀ g ∈ gs, ∀ p ∈ g.pages, p.col.id ∈ proj → ∃ c ∈ table, c.id = p.col.id ∧ c.name = p.col.name ∧ c.tag = false
  | .mem cols _ => ∀ d ∈ cols, d.id ∈ proj → d.tag = false → ∃ c ∈ table, c.id = d.id ∧ c.name = d.name ∧ c.tag = false

/-- A row of a stream and the row of the source it is made of. -/
structure Made (proj : List Nat) (table out schema : List Col) (x : Cells) (p : List Col × Cells) : Prop where
  len : x.length = schema.length
  cell : ∀ c ∈ out, cellAt schema x c.id = cellAt p.1 p.2 c.id
  name : ∀ n ∈ schema.map Col.name, ∃ c ∈ table, c.name = n ∧ c.tag = false ∧ rowOf schema x n = cellAt p.1 p.2 c.id

theorem rowOf_map {β : Type} (col : β → Col) (f : β → Option Val) (l : List β) (n : Name) :
    rowOf (l.map col) (l.map f) n = (l.find? fun b => decide ((col b).name = n)).bind f := by
  unfold rowOf
  rw [findIdx?_map', findIdx_bind]

theorem mem_zipIdx_fst {β : Type} {l : List β} {x : β × Nat} (h : x ∈ l.zipIdx) : x.1 ∈ l := by
  rw [List.mem_zipIdx_iff_getElem?] at h
  exact List.mem_of_getElem? h

theorem find_name {β : Type} {col : β → Col} {l : List β} {n : Name} (h : n ∈ (l.map col).map Col.name) :
    ∃ b ∈ l, (l.find? fun b => decide ((col b).name = n)) = some b ∧ (col b).name = n := by
  cases hf : l.find? fun b => decide ((col b).name = n) with
  | none =>
    exfalso
    obtain ⟨c, hc, hn⟩ := List.mem_map.1 h
    obtain ⟨b, hb, rfl⟩ := List.mem_map.1 hc
    have := List.find?_eq_none.1 hf b hb
    simp [hn] at this
  | some b => exact ⟨b, List.mem_of_find?_eq_some hf, rfl, by simpa using List.find?_some hf⟩

theorem made_group {proj : List Nat} {table out : List Col} {g : Group} (hn : ∀ p ∈ g.pages, p.col.id ∈ proj → ∃ c ∈ table, c.id = p.col.id ∧ c.name = p.col.name ∧ c.tag = false)
    (hf : ∀ c ∈ out, c.id ∈ proj) (r : Cells) :
    Made proj table out ((g.pick proj).map fun p => p.1.col) (g.rowIn proj r) (g.pages.map Page.col, r) := by
  refine ⟨by simp [Group.rowIn], fun c hc => cellAt_stream g proj r (hf c hc), ?_⟩
  intro n h
  obtain ⟨p, hp, hfind, rfl⟩ := find_name (col := fun p : Page × Nat => p.1.col) h
  obtain ⟨hid, hz⟩ := mem_pick hp
  obtain ⟨c, hc, h1, h2, h3⟩ := hn p.1 (mem_zipIdx_fst (List.mem_of_find?_eq_some hz)) hid
  refine ⟨c, hc, h2, h3, ?_⟩
  unfold Group.rowIn
  rw [rowOf_map, hfind, ← findIdx_col, h1, hz]

theorem made_mem {proj : List Nat} {table out cols : List Col} (hn : ∀ d ∈ cols, d.id ∈ proj → d.tag = false → ∃ c ∈ table, c.id = d.id ∧ c.name = d.name ∧ c.tag = false)
    (hf : ∀ c ∈ out, c.tag = false ∧ c.id ∈ proj) (ht : ∀ c ∈ table, c.tag = false → ∀ d ∈ cols, d.id = c.id → d.tag = false)
    (hsub : ∀ c ∈ out, c ∈ table) (r : Cells) :
    Made proj table out ((proj.filterMap fun id => cols.zipIdx.find? fun c => decide (c.1.id = id) && !c.1.tag).map Prod.fst)
      ((proj.filterMap fun id => cols.zipIdx.find? fun c => decide (c.1.id = id) && !c.1.tag).map fun c => (r[c.2]?).join) (cols, r) := by
  refine ⟨by simp, fun c hc => mem_cell proj cols r (hf c hc).2 (ht c (hsub c hc) (hf c hc).1), ?_⟩
  intro n h
  obtain ⟨p, hp, hfind, rfl⟩ := find_name (col := fun p : Col × Nat => p.1) h
  obtain ⟨id, hid, hz⟩ := List.mem_filterMap.1 hp
  have hz' := List.find?_some hz
  simp only [Bool.and_eq_true, decide_eq_true_eq, Bool.not_eq_true'] at hz'
  obtain ⟨c, hc, h1, h2, h3⟩ := hn p.1 (mem_zipIdx_fst (List.mem_of_find?_eq_some hz)) (by rw [hz'.1]; exact hid) hz'.2
  refine ⟨c, hc, h2, h3, ?_⟩
  rw [rowOf_map, hfind]
  have e := mem_cell proj cols r (id := id) hid (fun d hd he => ht c hc h3 d hd (by rw [he, h1, hz'.1]))
  rw [h1, hz'.1]
  show (r[p.2]?).join = cellAt cols r id
  rw [← e]
  unfold cellAt posOf
  rw [findIdx?_map', findIdx_bind, find_filterMap (fun c : Col × Nat => c.1.id) (fun c => !c.1.tag), if_pos hid, hz]
  rfl

/-- The rows of a stream are made of those of the source. -/
theorem stream_made {proj : List Nat} {table out : List Col} {s : Src} (h : s.Ok proj table) (hn : s.Named proj table)
    (hf : ∀ c ∈ out, c.tag = false ∧ c.id ∈ proj) (hsub : ∀ c ∈ out, c ∈ table) :
    ∃ t, s.stream proj = some t ∧ ∃ ps : List (Cells × (List Col × Cells)),
      t.rows = ps.map Prod.fst ∧ s.pairs = ps.map Prod.snd ∧ ∀ p ∈ ps, Made proj table out t.schema p.1 p.2 := by
  cases s with
  | chunk gs =>
    refine ⟨_, chunk_stream h, gs.flatMap fun g => g.rows.map fun r => (g.rowIn proj r, (g.pages.map Page.col, r)), ?_, ?_, ?_⟩
    · simp [List.map_flatMap, List.map_map, Function.comp_def]
    · simp [Src.pairs, List.map_flatMap, List.map_map, Function.comp_def]
    · intro p hp
      obtain ⟨g, hg, hp⟩ := List.mem_flatMap.1 hp
      obtain ⟨r, _, rfl⟩ := List.mem_map.1 hp
      have e : ((gs.head?.map fun g => (g.pick proj).map fun p => p.1.col).getD []) = (g.pick proj).map fun p => p.1.col := by
        cases gs with
        | nil => cases hg
        | cons g0 gs => exact h.2 g0 (by simp) g hg
      simp only [e]
      exact made_group (hn g hg) (fun c hc => (hf c hc).2) r
  | mem cols rows =>
    obtain ⟨h0, ht, hk⟩ := h
    refine ⟨_, by unfold Src.stream memStream; exact if_pos (picked_head h0 ht), rows.map fun r =>
      ((proj.filterMap fun id => cols.zipIdx.find? fun c => decide (c.1.id = id) && !c.1.tag).map fun c => (r[c.2]?).join, (cols, r)), ?_, ?_, ?_⟩
    · simp [List.map_map, Function.comp_def]
    · simp [Src.pairs, List.map_map, Function.comp_def]
    · intro p hp
      obtain ⟨r, _, rfl⟩ := List.mem_map.1 hp
      exact made_mem hn hf hk hsub r

/-- The row of the answer as the filter above the scan sees it. -/
theorem rowOf_want {table out : List Col} (hnm : (table.map Col.name).Nodup) (hsub : ∀ c ∈ out, c ∈ table) (tags : List (Nat × Val)) (cols : List Col) (r : Cells)
    {c : Col} (hc : c ∈ table) (ht : c.tag = false) (hout : c.name ∈ out.map Col.name) : rowOf out (want out tags cols r) c.name = cellAt cols r c.id := by
  have hout' : c.name ∈ ((out.map id).map Col.name) := by simpa using hout
  obtain ⟨o, ho, hfind, hname⟩ := find_name (col := id) hout'
  have hoc : o = c := by
    obtain ⟨i, hi, rfl⟩ := List.mem_iff_getElem.1 (hsub o ho)
    obtain ⟨j, hj, rfl⟩ := List.mem_iff_getElem.1 hc
    have := (List.getElem_inj (xs := table.map Col.name) (h₀ := by simpa using hi) (h₁ := by simpa using hj) hnm).1 (by simpa using hname)
    simp [this]
  subst hoc
  have e := rowOf_map (β := Col) id (fun c => if c.tag then (tags.find? fun t => decide (t.1 = c.id)).map Prod.snd else cellAt cols r c.id) out o.name
  rw [List.map_id] at e
  unfold want
  rw [e]
  simp only [id] at hfind ⊢
  rw [hfind]
  simp [ht]

theorem filter_sublist_filter {β : Type} {A B : β → Bool} {l : List β} (h : ∀ b ∈ l, A b = true → B b = true) : (l.filter A).Sublist (l.filter B) := by
  induction l with
  | nil => exact List.Sublist.refl _
  | cons b l ih =>
    have ih := ih fun b hb => h b (by simp [hb])
    rw [List.filter_cons, List.filter_cons]
    by_cases ha : A b = true
    · rw [if_pos ha, if_pos (h b (by simp) ha)]
      exact ih.cons_cons b
    · rw [if_neg ha]
      split
      · exact ih.cons b
      · exact ih

/-- A row of the answer matches the filter. -/
def matchesRow (q : FloatCmp) (e : Expr) (out : List Col) (w : Cells) : Bool := decide (eval q (rowOf out w) e = some true)

/-- What is kept of a source: every row that matches. -/
theorem read_some {q : FloatCmp} {proj : List Nat} {table out : List Col} {e : Expr} {s : Src} (tags : List (Nat × Val)) (hq : Query proj table out)
    (h : s.Ok proj table) (hn : s.Named proj table) (he : ∀ n ∈ e.cols, n ∈ out.map Col.name) (ht : ∀ file, Tame file e) :
    ∃ kept : List (List Col × Cells), s.read q (table.map Col.name) (some e) proj (timeFields out) =
        some ⟨timeFields out, kept.map fun p => (timeFields out).map fun c => cellAt p.1 p.2 c.id⟩ ∧
      kept.Sublist s.pairs ∧ (s.pairs.filter fun p => matchesRow q e out (want out tags p.1 p.2)).Sublist kept := by
  obtain ⟨hf, hnd⟩ := timeFields_ok hq
  obtain ⟨t, h1, ps, h2, h3, h4⟩ := stream_made h hn hf fun c hc => hq.sub c (List.mem_filter.1 hc).1
  have lack : lacks (t.schema.map Col.name ++ table.map Col.name) e = false := by
    rw [lacks_false]
    intro n hn
    obtain ⟨c, hc, rfl⟩ := List.mem_map.1 (he n hn)
    exact List.mem_append_right _ (List.mem_map_of_mem (hq.sub c hc))
  -- the aligned rows of a part of the stream
  have fin : ∀ ks : List (Cells × (List Col × Cells)), (∀ p ∈ ks, p ∈ ps) →
      align (timeFields out) ⟨t.schema, ks.map Prod.fst⟩ =
        ⟨timeFields out, (ks.map Prod.snd).map fun p => (timeFields out).map fun c => cellAt p.1 p.2 c.id⟩ := by
    intro ks hks
    rw [align_eq hnd]
    · congr 1
      simp only [List.map_map]
      apply List.map_congr_left
      intro p hp
      apply List.map_congr_left
      intro c hc
      exact (h4 p (hks p hp)).cell c hc
    · intro r hr
      obtain ⟨p, hp, rfl⟩ := List.mem_map.1 hr
      exact (h4 p (hks p hp)).len
  unfold Src.read
  rw [h1]
  simp only [Option.bind_some, filtered, reassign, lack, Bool.false_eq_true, if_false]
  by_cases hl : lacks (t.schema.map Col.name) (rewrite (t.schema.map Col.name) e) = true
  · rw [if_pos hl]
    refine ⟨s.pairs, ?_, List.Sublist.refl _, List.filter_sublist⟩
    have := fin ps fun p hp => hp
    rw [← h2, ← h3] at this
    simpa using this
  · rw [if_neg hl]
    refine ⟨(ps.filter fun p => decide (eval q (rowOf t.schema p.1) (rewrite (t.schema.map Col.name) e) = some true)).map Prod.snd, ?_, ?_, ?_⟩
    · have e1 : (t.rows.filter fun r => decide (eval q (rowOf t.schema r) (rewrite (t.schema.map Col.name) e) = some true)) =
          (ps.filter fun p => decide (eval q (rowOf t.schema p.1) (rewrite (t.schema.map Col.name) e) = some true)).map Prod.fst := by
        rw [h2, List.filter_map]
        rfl
      simp only [Option.map_some, Option.some.injEq]
      rw [e1]
      exact fin _ fun p hp => (List.mem_filter.1 hp).1
    · rw [h3]
      exact List.filter_sublist.map _
    · rw [h3, List.filter_map]
      apply List.Sublist.map
      apply filter_sublist_filter
      intro p hp hm
      simp only [Function.comp, matchesRow, decide_eq_true_eq] at hm ⊢
      have h5 := rewrite_weaker (file := t.schema.map Col.name) e (ht _) hm
      rw [← h5]
      apply eval_congr
      intro n hn'
      have hfile : n ∈ t.schema.map Col.name := lacks_false.1 (by simpa using hl) n hn'
      obtain ⟨c, hc, rfl, hct, hrow⟩ := (h4 p hp).name n hfile
      rw [hrow, rowOf_want hq.names hq.sub tags p.2.1 p.2.2 hc hct (he _ (rewrite_cols _ e _ hn'))]

/-- Part of **C100**: a filter that is pushed down keeps, in their order, all rows that match it, and the rows that it keeps are rows of the
sources with their cells.  What is missing are sources in which a column has another name than in the table (`C100_refuted`), filters with `AND` or
`OR` inside of other functions (`Stats.C75_function_refuted`), and sources that are merged (C36). -/
theorem C100_partial (q : FloatCmp) (e : Expr) (proj : List Nat) (table out : List Col) (tags : List (Nat × Val)) (srcs : List Src) (hq : Query proj table out)
    (hs : ∀ s ∈ srcs, s.Ok proj table ∧ s.Named proj table) (he : ∀ n ∈ e.cols, n ∈ out.map Col.name) (ht : ∀ file, Tame file e) :
    ∃ rows, readSeries q (some e) proj table out tags srcs = some ⟨out, rows⟩ ∧ rows.Sublist (srcs.flatMap (Src.want out tags)) ∧
      ((srcs.flatMap (Src.want out tags)).filter (matchesRow q e out)).Sublist rows := by
  have key : ∃ kept : List (List Col × Cells), (∃ ss, srcs.mapM (Src.read q (table.map Col.name) (some e) proj (timeFields out)) = some ss ∧
        (∀ s ∈ ss, s.schema = timeFields out) ∧ ss.flatMap Stream.rows = kept.map fun p => (timeFields out).map fun c => cellAt p.1 p.2 c.id) ∧
      kept.Sublist (srcs.flatMap Src.pairs) ∧ ((srcs.flatMap Src.pairs).filter fun p => matchesRow q e out (want out tags p.1 p.2)).Sublist kept := by
    induction srcs with
    | nil => exact ⟨[], ⟨[], rfl, by simp, rfl⟩, List.Sublist.refl _, List.Sublist.refl _⟩
    | cons s srcs ih =>
      obtain ⟨kept, ⟨ss, i1, i2, i3⟩, i4, i5⟩ := ih fun s hs' => hs s (by simp [hs'])
      obtain ⟨k, j1, j2, j3⟩ := read_some (q := q) tags hq (hs s (by simp)).1 (hs s (by simp)).2 he ht
      refine ⟨k ++ kept, ⟨_ :: ss, by rw [List.mapM_cons, j1, i1]; rfl, ?_, ?_⟩, ?_, ?_⟩
      · intro x hx
        rcases List.mem_cons.1 hx with rfl | hx
        · rfl
        · exact i2 x hx
      · rw [List.flatMap_cons, i3, List.map_append]
      · rw [List.flatMap_cons]
        exact j2.append i4
      · rw [List.flatMap_cons, List.filter_append]
        exact j3.append i5
  obtain ⟨kept, ⟨ss, k1, k2, k3⟩, k4, k5⟩ := key
  have hw : srcs.flatMap (Src.want out tags) = (srcs.flatMap Src.pairs).map fun p => want out tags p.1 p.2 := by
    rw [List.map_flatMap]
    exact flatMap_congr' fun s _ => want_pairs out tags s
  refine ⟨kept.map fun p => want out tags p.1 p.2, ?_, ?_, ?_⟩
  · unfold readSeries
    rw [k1]
    simp only [Option.bind_some]
    rw [combined_eq k2]
    simp only [Option.map_some, Option.some.injEq]
    refine finish hq.ids hq.sub hq.nodup tags ?_ kept k3
    cases ss with
    | nil => exact .inr rfl
    | cons s l => exact .inl (by simp)
  · rw [hw]
    exact k4.map _
  · rw [hw, List.filter_map]
    exact k5.map _

end Verif.Align
