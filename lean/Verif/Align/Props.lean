import Verif.Align.Lemmas
/-!
# Reading sources with different columns: properties

C99: a query gets, for every row of a series, the cell of each column by the id of the column.
-/
namespace Verif.Align

open Verif.Sort Verif.Stats

/-- What a query is made of: the ids of the projection, the table, the columns asked for (`QueryOption`). -/
structure Query (proj : List Nat) (table out : List Col) : Prop where
  ids : (table.map Col.id).Nodup
  names : (table.map Col.name).Nodup
  sub : ∀ c ∈ out, c ∈ table
  nodup : (out.map Col.id).Nodup
  fields : ∀ c ∈ out, c.tag = false → c.id ∈ proj

/-- A source that can be read: the column groups of a chunk have the same projected columns, with the pages in this order; a buffer has the
time column. -/
def Src.Ok (proj : List Nat) (out : List Col) : Src → Prop
  | .chunk gs => (∀ g ∈ gs, g.InOrder proj) ∧ ∀ g ∈ gs, ∀ g' ∈ gs, (g.pick proj).map (fun p => p.1.col) = (g'.pick proj).map fun p => p.1.col
  | .mem cols _ => proj.head? = some 0 ∧ (∃ c ∈ cols, c.id = 0 ∧ c.tag = false) ∧ ∀ c ∈ out, c.tag = false → ∀ d ∈ cols, d.id = c.id → d.tag = false

/-- The stream has the columns `out` with the cells `want` (up to tags). -/
def Has (out : List Col) (s : Stream) (w : List Cells) : Prop :=
  (∀ r ∈ s.rows, r.length = s.schema.length) ∧ (s.rows.map fun r => out.map fun c => cellAt s.schema r c.id) = w

/-- The fields of the rows of a source. -/
def Src.fields (out : List Col) : Src → List Cells
  | .chunk gs => gs.flatMap fun g => g.rows.map fun r => out.map fun c => cellAt (g.pages.map Page.col) r c.id
  | .mem cols rows => rows.map fun r => out.map fun c => cellAt cols r c.id

theorem chunk_stream {proj : List Nat} {out : List Col} {gs : List Group} (h : (Src.chunk gs).Ok proj out) :
    combined (gs.map (Group.stream proj)) =
      some ⟨((gs.head?.map fun g => (g.pick proj).map fun p => p.1.col).getD []), gs.flatMap fun g => g.rows.map (g.rowIn proj)⟩ := by
  cases gs with
  | nil => rfl
  | cons g gs =>
    have hs : ∀ s ∈ (g :: gs).map (Group.stream proj), s.schema = (g.pick proj).map fun p => p.1.col := by
      intro s hs
      obtain ⟨g', hg', rfl⟩ := List.mem_map.1 hs
      exact h.2 g' hg' g (by simp)
    rw [combined_eq hs]
    have e : ∀ l : List Group, (∀ g ∈ l, g.InOrder proj) → (l.map (Group.stream proj)).flatMap Stream.rows = l.flatMap fun g => g.rows.map (g.rowIn proj) := by
      intro l hl
      induction l with
      | nil => rfl
      | cons g' l ih =>
        rw [List.map_cons, List.flatMap_cons, List.flatMap_cons, ih fun g hg => hl g (by simp [hg]), Group.stream_eq (hl g' (by simp))]
    rw [e _ h.1]
    simp

theorem picked_head {proj : List Nat} {cols : List Col} (h0 : proj.head? = some 0) (ht : ∃ c ∈ cols, c.id = 0 ∧ c.tag = false) :
    ((proj.filterMap fun id => cols.zipIdx.find? fun c => decide (c.1.id = id) && !c.1.tag).head?.map fun c => c.1.id) = some 0 := by
  cases proj with
  | nil => cases h0
  | cons i proj =>
    cases h0
    rw [List.filterMap_cons]
    cases hf : cols.zipIdx.find? fun c => decide (c.1.id = 0) && !c.1.tag with
    | none =>
      exfalso
      obtain ⟨c, hc, h1, h2⟩ := ht
      obtain ⟨i, hi, hci⟩ := List.mem_iff_getElem.1 hc
      have := List.find?_eq_none.1 hf (c, i) (by
        rw [List.mem_zipIdx_iff_getElem?]
        rw [List.getElem?_eq_getElem hi, hci])
      simp [h1, h2] at this
    | some c =>
      have := List.find?_some hf
      simp only [Bool.and_eq_true, decide_eq_true_eq] at this
      simp [this.1]

/-- Before filtering and aligning, a source has the cells of the columns by their ids. -/
theorem stream_has {proj : List Nat} {out : List Col} {s : Src} (h : s.Ok proj out) (hf : ∀ c ∈ out, c.tag = false ∧ c.id ∈ proj) :
    ∃ t, s.stream proj = some t ∧ Has out t (s.fields out) := by
  cases s with
  | chunk gs =>
    refine ⟨_, chunk_stream h, ?_, ?_⟩
    · intro r hr
      obtain ⟨g, hg, hr⟩ := List.mem_flatMap.1 hr
      obtain ⟨x, _, rfl⟩ := List.mem_map.1 hr
      cases gs with
      | nil => cases hg
      | cons g0 gs =>
        have := congrArg List.length (h.2 g hg g0 (by simp))
        simpa [Group.rowIn] using this
    · unfold Src.fields
      simp only [List.map_flatMap]
      have : ∀ g ∈ gs, ((g.rows.map (g.rowIn proj)).map fun r => out.map fun c =>
          cellAt ((gs.head?.map fun g => (g.pick proj).map fun p => p.1.col).getD []) r c.id) =
          g.rows.map fun r => out.map fun c => cellAt (g.pages.map Page.col) r c.id := by
        intro g hg
        rw [List.map_map]
        apply List.map_congr_left
        intro r _
        simp only [Function.comp]
        apply List.map_congr_left
        intro c hc
        have e : ((gs.head?.map fun g => (g.pick proj).map fun p => p.1.col).getD []) = (g.pick proj).map fun p => p.1.col := by
          cases gs with
          | nil => cases hg
          | cons g0 gs => exact h.2 g0 (by simp) g hg
        rw [e, cellAt_stream g proj r (hf c hc).2]
      exact flatMap_congr' this
  | mem cols rows =>
    obtain ⟨h0, ht, hn⟩ := h
    refine ⟨_, by unfold Src.stream memStream; exact if_pos (picked_head h0 ht), ?_, ?_⟩
    · intro r hr
      obtain ⟨x, _, rfl⟩ := List.mem_map.1 hr
      simp
    · unfold Src.fields
      rw [List.map_map]
      apply List.map_congr_left
      intro r _
      simp only [Function.comp]
      apply List.map_congr_left
      intro c hc
      exact mem_cell proj cols r (hf c hc).2 (hn c hc (hf c hc).1)

/-- The fields of a source, aligned. -/
theorem read_none {proj : List Nat} {out : List Col} {q : FloatCmp} {full : List Name} {s : Src} (h : s.Ok proj out)
    (hf : ∀ c ∈ out, c.tag = false ∧ c.id ∈ proj) (hn : (out.map Col.id).Nodup) :
    s.read q full none proj out = some ⟨out, s.fields out⟩ := by
  obtain ⟨t, h1, h2, h3⟩ := stream_has h hf
  unfold Src.read
  rw [h1]
  simp only [Option.bind_some, filtered, Option.map_some, Option.some.injEq]
  rw [align_eq hn h2, h3]

theorem mapM_some {β γ : Type} {f : β → Option γ} {g : β → γ} {l : List β} (h : ∀ b ∈ l, f b = some (g b)) : l.mapM f = some (l.map g) := by
  induction l with
  | nil => rfl
  | cons b l ih => rw [List.mapM_cons, h b (by simp), ih fun b hb => h b (by simp [hb])]; rfl

/-! ## Tags -/

/-- The tags of a series that the table has. -/
def known (table : List Col) (tags : List (Nat × Val)) : List (Col × Val) :=
  tags.filterMap fun t => (table.find? fun c => decide (c.id = t.1)).map fun c => (c, t.2)

theorem find_id {table : List Col} (hn : (table.map Col.id).Nodup) {c : Col} (hc : c ∈ table) : table.find? (fun d => decide (d.id = c.id)) = some c := by
  induction table with
  | nil => cases hc
  | cons d l ih =>
    rw [List.find?_cons]
    simp only [List.map_cons, List.nodup_cons] at hn
    rcases List.mem_cons.1 hc with rfl | hc
    · simp
    · have : ¬d.id = c.id := fun e => hn.1 (by rw [e]; exact List.mem_map_of_mem hc)
      simp [this, ih hn.2 hc]

theorem known_find {table : List Col} (hn : (table.map Col.id).Nodup) (tags : List (Nat × Val)) {c : Col} (hc : c ∈ table) :
    ((known table tags).find? fun t => decide (t.1.id = c.id)).map Prod.snd = (tags.find? fun t => decide (t.1 = c.id)).map Prod.snd := by
  induction tags with
  | nil => rfl
  | cons t tags ih =>
    unfold known at ih ⊢
    rw [List.filterMap_cons, List.find?_cons]
    by_cases e : t.1 = c.id
    · rw [e, find_id hn hc]
      simp
    · cases hf : table.find? fun d => decide (d.id = t.1) with
      | none => simp only [Option.map_none, e, decide_false, ih]
      | some d =>
        have hd := List.find?_some hf
        simp only [decide_eq_true_eq] at hd
        have : ¬d.id = c.id := fun h => e (by rw [← hd, h])
        simp only [Option.map_some, List.find?_cons, this, e, decide_false, ih]

/-- The cells of a row with tags. -/
theorem tags_cell {table : List Col} (hn : (table.map Col.id).Nodup) (tags : List (Nat × Val)) {tf : List Col} (hs : ∀ c ∈ tf, c ∈ table ∧ c.tag = false)
    {r : Cells} (hr : r.length = tf.length) {c : Col} (hc : c ∈ table) (hx : c.tag = true ∨ c ∈ tf) :
    cellAt (tf ++ (known table tags).map Prod.fst) (r ++ (known table tags).map fun t => some t.2) c.id =
      if c.tag then (tags.find? fun t => decide (t.1 = c.id)).map Prod.snd else cellAt tf r c.id := by
  have same : ∀ d ∈ table, d.id = c.id → d = c := by
    intro d hd e
    have h1 := find_id hn hd
    rw [e, find_id hn hc] at h1
    exact (Option.some.inj h1).symm
  by_cases ht : c.tag = true
  · rw [if_pos ht, ← known_find hn tags hc]
    unfold cellAt posOf
    rw [List.findIdx?_append]
    have h1 : tf.findIdx? (fun d => decide (d.id = c.id)) = none := by
      rw [List.findIdx?_eq_none_iff]
      intro d hd
      obtain ⟨h1, h2⟩ := hs d hd
      cases hd' : decide (d.id = c.id) with
      | false => rfl
      | true =>
        have := same d h1 (by simpa using hd')
        rw [this, ht] at h2
        cases h2
    rw [h1, findIdx?_map']
    simp only [Option.none_or]
    have h2 := findIdx_bind (fun t : Col × Val => decide (t.1.id = c.id)) (fun t => some t.2) (known table tags)
    rw [show ((known table tags).find? fun t => decide (t.1.id = c.id)).map Prod.snd =
      ((known table tags).find? fun t => decide (t.1.id = c.id)).bind fun t => some t.2 by
        cases (known table tags).find? fun t => decide (t.1.id = c.id) <;> rfl, ← h2]
    cases (known table tags).findIdx? fun t => decide (t.1.id = c.id) with
    | none => rfl
    | some i =>
      simp only [Option.map_some, Option.bind_some]
      rw [List.getElem?_append_right (by omega), show i + tf.length - r.length = i by omega]
  · rw [if_neg ht]
    rcases hx with hx | hx
    · exact absurd hx ht
    · unfold cellAt posOf
      rw [List.findIdx?_append]
      cases hf : tf.findIdx? fun d => decide (d.id = c.id) with
      | none =>
        have := List.findIdx?_eq_none_iff.1 hf c hx
        simp at this
      | some i =>
        obtain ⟨hi, _⟩ := List.findIdx?_eq_some_iff_getElem.1 hf
        simp only [Option.some_or, Option.bind_some]
        rw [List.getElem?_append_left (by omega)]

/-- The cells asked for, from the fields. -/
theorem want_of_fields {table out : List Col} (hn : (table.map Col.id).Nodup) (hsub : ∀ c ∈ out, c ∈ table) (hout : (out.map Col.id).Nodup)
    (tags : List (Nat × Val)) (cols : List Col) (r : Cells) :
    (out.map fun c => cellAt (timeFields out ++ (known table tags).map Prod.fst)
        (((timeFields out).map fun c => cellAt cols r c.id) ++ (known table tags).map fun t => some t.2) c.id) = want out tags cols r := by
  unfold want
  apply List.map_congr_left
  intro c hc
  rw [tags_cell hn tags (tf := timeFields out) ?_ (by simp) (hsub c hc) ?_]
  · by_cases ht : c.tag = true
    · simp [ht]
    · rw [if_neg ht, if_neg ht]
      have hc' : c ∈ timeFields out := List.mem_filter.2 ⟨hc, by simpa using ht⟩
      have hnd : ((timeFields out).map Col.id).Nodup := hout.sublist (List.filter_sublist.map _)
      have h1 := findIdx_bind (fun d : Col => decide (d.id = c.id)) (fun d => cellAt cols r d.id) (timeFields out)
      unfold cellAt at h1 ⊢
      unfold posOf at h1 ⊢
      rw [h1, find_id hnd hc']
      rfl
  · intro d hd
    obtain ⟨h1, h2⟩ := List.mem_filter.1 hd
    exact ⟨hsub d h1, by simpa using h2⟩
  · by_cases ht : c.tag = true
    · exact .inl ht
    · exact .inr (List.mem_filter.2 ⟨hc, by simpa using ht⟩)

/-- From the fields of the rows to the answer: tags and the last alignment. -/
theorem finish {table out : List Col} (hn : (table.map Col.id).Nodup) (hsub : ∀ c ∈ out, c ∈ table) (hout : (out.map Col.id).Nodup)
    (tags : List (Nat × Val)) {s : Stream} (hs : s.schema = timeFields out ∨ s.rows = []) (rows : List (List Col × Cells))
    (hr : s.rows = rows.map fun p => (timeFields out).map fun c => cellAt p.1 p.2 c.id) :
    align out (withTags table tags s) = ⟨out, rows.map fun p => want out tags p.1 p.2⟩ := by
  rw [align_eq hout]
  · congr 1
    unfold withTags
    simp only [List.map_map]
    rw [hr, List.map_map]
    apply List.map_congr_left
    intro p hp
    rcases hs with hs | hs
    · rw [← want_of_fields hn hsub hout, hs]
      rfl
    · rw [hr] at hs
      cases rows with
      | nil => cases hp
      | cons a l => cases hs
  · intro r h
    unfold withTags at h ⊢
    obtain ⟨x, hx, rfl⟩ := List.mem_map.1 h
    rcases hs with hs | hs
    · rw [hs]
      rw [hr] at hx
      obtain ⟨p, _, rfl⟩ := List.mem_map.1 hx
      simp
    · rw [hs] at hx
      cases hx

/-- The rows of a source with their columns. -/
def Src.pairs : Src → List (List Col × Cells)
  | .chunk gs => gs.flatMap fun g => g.rows.map fun r => (g.pages.map Page.col, r)
  | .mem cols rows => rows.map fun r => (cols, r)

theorem fields_pairs (out : List Col) (s : Src) : s.fields out = s.pairs.map fun p => out.map fun c => cellAt p.1 p.2 c.id := by
  cases s <;> simp [Src.fields, Src.pairs, List.map_flatMap, List.map_map, Function.comp_def]

theorem want_pairs (out : List Col) (tags : List (Nat × Val)) (s : Src) : s.want out tags = s.pairs.map fun p => want out tags p.1 p.2 := by
  cases s <;> simp [Src.want, Src.pairs, List.map_flatMap, List.map_map, Function.comp_def]

theorem timeFields_ok {proj : List Nat} {table out : List Col} (hq : Query proj table out) :
    (∀ c ∈ timeFields out, c.tag = false ∧ c.id ∈ proj) ∧ ((timeFields out).map Col.id).Nodup := by
  refine ⟨?_, hq.nodup.sublist (List.filter_sublist.map _)⟩
  intro c hc
  obtain ⟨h1, h2⟩ := List.mem_filter.1 hc
  have h2 : c.tag = false := by simpa using h2
  exact ⟨h2, hq.fields c h1 h2⟩

theorem Src.Ok.sub {proj : List Nat} {out : List Col} {s : Src} (h : s.Ok proj out) : s.Ok proj (timeFields out) := by
  cases s with
  | chunk gs => exact h
  | mem cols rows =>
    obtain ⟨h1, h2, h3⟩ := h
    exact ⟨h1, h2, fun c hc => h3 c (List.mem_filter.1 hc).1⟩

/-- Part of **C99**: the answer has every row of every source, in order, with the cell of each column by its id, NULL for a column that a source
has not, and the tags of the series.  What is missing are chunks whose column groups have different columns (`C99_refuted`). -/
theorem C99_partial (q : FloatCmp) (proj : List Nat) (table out : List Col) (tags : List (Nat × Val)) (srcs : List Src) (hq : Query proj table out)
    (hs : ∀ s ∈ srcs, s.Ok proj out) :
    readSeries q none proj table out tags srcs = some ⟨out, srcs.flatMap (Src.want out tags)⟩ := by
  obtain ⟨h1, h2⟩ := timeFields_ok hq
  unfold readSeries
  rw [mapM_some (g := fun s => (⟨timeFields out, s.fields (timeFields out)⟩ : Stream)) fun s hs' => read_none (hs s hs').sub h1 h2]
  simp only [Option.bind_some]
  rw [combined_eq (sch := timeFields out) (by intro s hs'; obtain ⟨x, _, rfl⟩ := List.mem_map.1 hs'; rfl)]
  simp only [Option.map_some, Option.some.injEq]
  rw [finish hq.ids hq.sub hq.nodup tags ?_ (srcs.flatMap Src.pairs) ?_]
  · congr 1
    rw [List.map_flatMap]
    exact flatMap_congr' fun s _ => (want_pairs out tags s).symm
  · cases srcs with
    | nil => exact .inr rfl
    | cons s l => exact .inl (by simp)
  · simp only [List.flatMap_map, List.map_flatMap]
    exact flatMap_congr' fun s _ => fields_pairs _ s

/-- **C99** (when a query fails): reading a chunk fails exactly when two of its column groups have different projected columns. -/
theorem C99_fails (q : FloatCmp) (proj : List Nat) (table out : List Col) (tags : List (Nat × Val)) (gs : List Group) :
    readSeries q none proj table out tags [.chunk gs] = none ↔
      ∃ g ∈ gs, ∃ g' ∈ gs, (g.pick proj).map (fun p => p.1.col) ≠ (g'.pick proj).map fun p => p.1.col := by
  have key : readSeries q none proj table out tags [.chunk gs] = none ↔ combined (gs.map (Group.stream proj)) = none := by
    unfold readSeries Src.read Src.stream
    simp only [List.mapM_cons, List.mapM_nil]
    cases hc : combined (gs.map (Group.stream proj)) with
    | none => simp
    | some s => simp [filtered, combined]
  rw [key, ← Option.not_isSome_iff_eq_none, combined_isSome]
  constructor
  · intro h
    apply Decidable.byContradiction
    intro hne
    refine h fun a ha b hb => ?_
    obtain ⟨g, hg, rfl⟩ := List.mem_map.1 ha
    obtain ⟨g', hg', rfl⟩ := List.mem_map.1 hb
    apply Decidable.byContradiction
    intro e
    exact hne ⟨g, hg, g', hg', e⟩
  · rintro ⟨g, hg, g', hg', e⟩ h
    exact e (h _ (List.mem_map_of_mem hg) _ (List.mem_map_of_mem hg'))

end Verif.Align
