import Verif.Align.Filter
import Verif.Schema.Ddl
/-!
# Reading after changes of the table

C99 and C100 for files and buffers that were written with earlier versions of the table.
-/
namespace Verif.Align

open Verif.Sort Verif.Stats Verif.Schema

/-! ## How a table changes -/

/-- From `t` to `t'` some columns went (as far as `f` tells), the others stayed in their order, and new ones with new ids came behind them. -/
structure Grow {β : Type} (f : Schema.Col → β) (t t' : Table) : Prop where
  next : t.nextId ≤ t'.nextId
  cols : ∃ old new, t'.cols = old ++ new ∧ (old.map f).Sublist (t.cols.map f) ∧ ∀ c ∈ new, t.nextId ≤ c.id

theorem Grow.refl {β : Type} (f : Schema.Col → β) (t : Table) : Grow f t t := ⟨Nat.le_refl _, t.cols, [], by simp, List.Sublist.refl _, by simp⟩

theorem Grow.trans {β : Type} {f : Schema.Col → β} {g : β → Nat} (hg : ∀ c, g (f c) = c.id) {a b c : Table} (h : Grow f a b) (h' : Grow f b c) : Grow f a c := by
  obtain ⟨n1, old, new, e1, s1, i1⟩ := h
  obtain ⟨n2, old2, new2, e2, s2, i2⟩ := h'
  rw [e1, List.map_append] at s2
  obtain ⟨x, y, exy, hx, hy⟩ := List.sublist_append_iff.1 s2
  obtain ⟨o1, o2, rfl, rfl, rfl⟩ := List.map_eq_append_iff.1 exy
  refine ⟨Nat.le_trans n1 n2, o1, o2 ++ new2, by rw [e2, List.append_assoc], hx.trans s1, ?_⟩
  intro c hc
  rcases List.mem_append.1 hc with hc | hc
  · obtain ⟨d, hd, e⟩ := List.mem_map.1 (hy.subset (List.mem_map_of_mem hc))
    have := i1 d hd
    rw [← hg c, ← e, hg d]
    exact this
  · exact Nat.le_trans n1 (i2 c hc)

/-- A change keeps the columns as `f` tells, if `f` does not tell names or the change is no renaming. -/
theorem grow_change {β : Type} {f : Schema.Col → β} {t : Table} (h : t.WF) (x : Change)
    (hf : (∀ a b, x ≠ .rename a b) ∨ ∀ (c : Schema.Col) (n : String), f { c with name := n } = f c) : Grow f t (x.run t) := by
  have hnext := (change_ok h x).2.next
  cases x with
  | write r =>
    simp only [Change.run] at hnext ⊢
    cases hp : plan r (some t) with
    | none => exact .refl _ _
    | some y =>
      obtain ⟨t', a⟩ := y
      rw [hp] at hnext
      obtain ⟨hw, _, ⟨new, hnew⟩, _⟩ := plan_some h hp
      refine ⟨hnext, t.cols, new, hnew.symm, List.Sublist.refl _, fun c hc => ?_⟩
      apply Decidable.byContradiction
      intro hlt
      have hc' : c ∈ t'.cols := by rw [← hnew]; exact List.mem_append_right _ hc
      obtain ⟨c0, h0, h1, _⟩ := (later_plan h hp).same c hc' (by omega)
      have hn := hw.ids
      rw [← hnew, List.map_append, List.nodup_append] at hn
      exact hn.2.2 c0.id (List.mem_map_of_mem h0) c.id (List.mem_map_of_mem hc) h1
  | add n k =>
    obtain ⟨h1, h2⟩ := C97_add t h n k
    by_cases hn : ∃ c ∈ t.cols, c.name = n
    · rw [h1 hn]; exact .refl _ _
    · obtain ⟨h3, _⟩ := h2 fun c hc e => hn ⟨c, hc, e⟩
      exact ⟨hnext, t.cols, _, h3, List.Sublist.refl _, by simp⟩
  | drop n =>
    obtain ⟨h1, h2⟩ := C97_drop t h n
    by_cases hc : (∃ c ∈ t.cols, c.name = n ∧ c.isField = true) ∧ 2 ≤ t.cols.countP Col.isField
    · exact ⟨hnext, _, [], by rw [h1 hc, List.append_nil], List.filter_sublist.map _, by simp⟩
    · rw [h2 hc]; exact .refl _ _
  | rename a b =>
    rcases hf with hf | hf
    · exact absurd rfl (hf a b)
    · obtain ⟨h1, h2⟩ := C97_rename t h a b
      by_cases hc : (∃ c ∈ t.cols, c.name = a ∧ c.kind ≠ .time) ∧ (∀ c ∈ t.cols, c.name ≠ b)
      · refine ⟨hnext, _, [], by rw [h1 hc, List.append_nil], ?_, by simp⟩
        have : ((t.cols.map fun c => if c.name = a then { c with name := b } else c).map f) = t.cols.map f := by
          rw [List.map_map]
          apply List.map_congr_left
          intro c _
          simp only [Function.comp]
          split
          · exact hf c b
          · rfl
        rw [this]
      · rw [h2 hc]; exact .refl _ _

theorem grow_changes {β : Type} {f : Schema.Col → β} {g : β → Nat} (hg : ∀ c, g (f c) = c.id) :
    ∀ (l : List Change) {t : Table}, t.WF → ((∀ a b, .rename a b ∉ l) ∨ ∀ (c : Schema.Col) (n : String), f { c with name := n } = f c) →
      Grow f t (l.foldl Change.run t)
  | [], t, _, _ => .refl f t
  | x :: l, t, h, hf => by
    refine Grow.trans hg (grow_change h x ?_) (grow_changes hg l (change_ok h x).1 ?_)
    · exact hf.imp_left fun hf a b e => hf a b (by simp [e])
    · exact hf.imp_left fun hf a b hm => hf a b (by simp [hm])

/-! ## Sources written with a version of the table -/

/-- A number for the type of a column. -/
def typeNo : Kind → Nat
  | .time => 0
  | .tag => 1
  | .field .float => 3
  | .field .integer => 4
  | .field .unsigned => 5
  | .field .boolean => 6
  | .field .string => 7
  | .field .geometry => 8

/-- A column of the table; `nm` gives the bytes of a name. -/
def toCol (nm : String → Name) (c : Schema.Col) : Col := ⟨c.id, nm c.name, typeNo c.kind, 0, c.isTag⟩

/-- The columns of a query for all columns. -/
def colsOf (nm : String → Name) (t : Table) : List Col := t.cols.map (toCol nm)

/-- The columns that are in files: the time and the fields. -/
def stored (t : Table) : List Schema.Col := t.cols.filter fun c => !c.isTag

/-- `Projection::fields` for all columns (`tskv/src/reader/mod.rs:92-120`). -/
def projOf (t : Table) : List Nat := (stored t).map Schema.Col.id

/-- A chunk with one column group that was written with a version of the table (`tskv/src/mem_cache/series_data.rs:217-265`). -/
def flushed (nm : String → Name) (t : Table) (rows : List Cells) : Src :=
  .chunk [⟨((stored t).map (toCol nm)).zipIdx.map fun c => ⟨c.1, c.2⟩, rows⟩]

/-- A buffer of which the newest rows were written with a version of the table. -/
def buffered (nm : String → Name) (t : Table) (rows : List Cells) : Src := .mem (colsOf nm t) rows

/-- The id and the kind of a column. -/
def idKind (c : Schema.Col) : Nat × Kind := (c.id, c.kind)

theorem grow_stored {t t' : Table} (h : Grow idKind t t') :
    ∃ old new, projOf t' = old ++ new ∧ old.Sublist (projOf t) ∧ ∀ i ∈ new, t.nextId ≤ i := by
  obtain ⟨_, old, new, e, s, i⟩ := h
  refine ⟨(old.filter fun c => !c.isTag).map Schema.Col.id, (new.filter fun c => !c.isTag).map Schema.Col.id, ?_, ?_, ?_⟩
  · unfold projOf stored
    rw [e, List.filter_append, List.map_append]
  · have h1 := s.filter fun p : Nat × Kind => match p.2 with | .tag => false | _ => true
    have key : ∀ l : List Schema.Col, (((l.map idKind).filter fun p : Nat × Kind => match p.2 with | .tag => false | _ => true).map Prod.fst) =
        (l.filter fun c => !c.isTag).map Schema.Col.id := by
      intro l
      rw [List.filter_map, List.map_map]
      have : (l.filter ((fun p : Nat × Kind => match p.2 with | .tag => false | _ => true) ∘ idKind)) = l.filter fun c => !c.isTag := by
        apply List.filter_congr
        intro c _
        cases hk : c.kind <;> simp [idKind, Schema.Col.isTag, hk]
      rw [this]
      rfl
    have h2 := h1.map Prod.fst
    rw [key, key] at h2
    exact h2
  · intro j hj
    obtain ⟨c, hc, rfl⟩ := List.mem_map.1 hj
    exact i c (List.mem_filter.1 hc).1

theorem flushed_order {nm : String → Name} {t t' : Table} (hw : t.WF) (h : Grow idKind t t') (rows : List Cells) :
    ∀ g ∈ ([⟨((stored t).map (toCol nm)).zipIdx.map fun c => (⟨c.1, c.2⟩ : Page), rows⟩] : List Group), g.InOrder (projOf t') := by
  intro g hg
  rw [List.mem_singleton] at hg
  subst hg
  obtain ⟨old, new, e, s, i⟩ := grow_stored h
  have hnd : (projOf t).Nodup := hw.ids.sublist (List.filter_sublist.map _)
  -- ids of the projection that are in the file are in the order of the file
  have hpw : (projOf t').Pairwise fun a b => ∀ i j : Nat, (projOf t)[i]? = some a → (projOf t)[j]? = some b → i ≤ j := by
    have h1 : (projOf t).Pairwise fun a b => ∀ i j : Nat, (projOf t)[i]? = some a → (projOf t)[j]? = some b → i ≤ j := by
      rw [List.pairwise_iff_getElem]
      intro a b ha hb hab x y hx hy
      have h2 : x = a := by
        obtain ⟨hx', hx⟩ := List.getElem?_eq_some_iff.1 hx
        exact (List.getElem_inj hnd).1 hx
      have h3 : y = b := by
        obtain ⟨hy', hy⟩ := List.getElem?_eq_some_iff.1 hy
        exact (List.getElem_inj hnd).1 hy
      omega
    have h4 : ∀ n ∈ new, ∀ j : Nat, (projOf t)[j]? ≠ some n := by
      intro n hn j hj
      have hm : n ∈ projOf t := List.mem_of_getElem? hj
      obtain ⟨c, hc, rfl⟩ := List.mem_map.1 hm
      have := hw.below c (List.mem_filter.1 hc).1
      have := i _ hn
      omega
    rw [e, List.pairwise_append]
    refine ⟨h1.sublist s, ?_, ?_⟩
    · rw [List.pairwise_iff_getElem]
      intro a b ha hb _ x y hx _
      exact absurd hx (h4 _ (List.getElem_mem ha) x)
    · intro a _ b hb x y _ hy
      exact absurd hy (h4 b hb y)
  have hpos : ∀ (id : Nat) (p : Page × Nat), ((((stored t).map (toCol nm)).zipIdx.map fun c => (⟨c.1, c.2⟩ : Page)).zipIdx.find? fun p => decide (p.1.col.id = id)) = some p →
      (projOf t)[p.1.off]? = some id := by
    intro id p hp
    have h1 := List.find?_some hp
    simp only [decide_eq_true_eq] at h1
    have h2 := mem_zipIdx_fst (List.mem_of_find?_eq_some hp)
    obtain ⟨c, hc, hcp⟩ := List.mem_map.1 h2
    rw [List.mem_zipIdx_iff_getElem?, List.getElem?_map] at hc
    rw [← h1, ← hcp]
    unfold projOf
    rw [List.getElem?_map]
    simp only
    cases hx : (stored t)[c.2]? with
    | none => rw [hx] at hc; cases hc
    | some y =>
      rw [hx] at hc
      simp only [Option.map_some, Option.some.injEq] at hc ⊢
      rw [← hc]
      rfl
  unfold Group.InOrder Group.pick
  rw [List.pairwise_filterMap]
  refine hpw.imp ?_
  intro a b hab p hp p' hp'
  exact hab _ _ (hpos a p hp) (hpos b p' hp')

theorem query_all {nm : String → Name} {t : Table} (hw : t.WF) (hnm : ((colsOf nm t).map Col.name).Nodup) : Query (projOf t) (colsOf nm t) (colsOf nm t) := by
  have hids : ((colsOf nm t).map Col.id).Nodup := by
    have : (colsOf nm t).map Col.id = t.cols.map Schema.Col.id := by
      unfold colsOf
      rw [List.map_map]
      rfl
    rw [this]
    exact hw.ids
  refine ⟨hids, hnm, fun c hc => hc, hids, ?_⟩
  intro c hc ht
  obtain ⟨d, hd, rfl⟩ := List.mem_map.1 hc
  exact List.mem_map.2 ⟨d, List.mem_filter.2 ⟨hd, by simpa [toCol] using ht⟩, rfl⟩

theorem grow_kind {t t' : Table} (hw : t.WF) (h : Grow idKind t t') {c : Schema.Col} (hc : c ∈ t'.cols) {d : Schema.Col} (hd : d ∈ t.cols) (e : d.id = c.id) :
    d.kind = c.kind := by
  obtain ⟨_, old, new, e1, s, i⟩ := h
  rw [e1] at hc
  rcases List.mem_append.1 hc with hc | hc
  · obtain ⟨x, hx, hxe⟩ := List.mem_map.1 (s.subset (List.mem_map_of_mem hc))
    simp only [idKind, Prod.mk.injEq] at hxe
    have := eq_of_id hw.ids hd hx (by omega)
    rw [this]
    exact hxe.2
  · have := i c hc
    have := hw.below d hd
    omega

theorem buffered_ok {nm : String → Name} {t t' : Table} (hw : t.WF) (h : Grow idKind t t') (h0 : t.cols.head? = some ⟨0, "time", .time⟩)
    (h0' : t'.cols.head? = some ⟨0, "time", .time⟩) (rows : List Cells) : (buffered nm t rows).Ok (projOf t') (colsOf nm t') := by
  refine ⟨?_, ⟨toCol nm ⟨0, "time", .time⟩, List.mem_map_of_mem (List.mem_of_head? h0), rfl, rfl⟩, ?_⟩
  · unfold projOf stored
    cases hc : t'.cols with
    | nil => rw [hc] at h0'; cases h0'
    | cons c l =>
      rw [hc] at h0'
      simp only [List.head?_cons, Option.some.injEq] at h0'
      subst h0'
      rfl
  · intro c hc ht d hd e
    obtain ⟨c', hc', rfl⟩ := List.mem_map.1 hc
    obtain ⟨d', hd', rfl⟩ := List.mem_map.1 hd
    have := grow_kind hw h hc' hd' e
    simp only [toCol, Schema.Col.isTag] at ht ⊢
    rw [this]
    exact ht

/-- What was written: after how many changes, to a file (or a buffer), which rows. -/
structure Wrote where
  after : Nat
  file : Bool
  rows : List Cells

/-- The table after all changes. -/
def tableAfter (t : Table) (l : List Change) : Table := l.foldl Change.run t

/-- The source. -/
def Wrote.src (nm : String → Name) (t : Table) (l : List Change) (w : Wrote) : Src :=
  if w.file then flushed nm (tableAfter t (l.take w.after)) w.rows else buffered nm (tableAfter t (l.take w.after)) w.rows

theorem wrote_ok {nm : String → Name} {t : Table} (hc : Created t) {l : List Change} (hl : ∀ n, Change.add n .time ∉ l) (w : Wrote) :
    (w.src nm t l).Ok (projOf (tableAfter t l)) (colsOf nm (tableAfter t l)) := by
  have hw := (changes_ok (l.take w.after) hc.wf).1
  have hg : Grow idKind (tableAfter t (l.take w.after)) (tableAfter t l) := by
    have := grow_changes (f := idKind) (g := Prod.fst) (fun _ => rfl) (l.drop w.after) hw (.inr fun _ _ => rfl)
    rw [← List.foldl_append, List.take_append_drop] at this
    exact this
  unfold Wrote.src
  split
  · refine ⟨flushed_order hw hg w.rows, ?_⟩
    intro g hg g' hg'
    rw [List.mem_singleton] at hg hg'
    rw [hg, hg']
  · exact buffered_ok hw hg (C97_time_partial t hc (l.take w.after) fun n hm => hl n (List.mem_of_mem_take hm)).1 (C97_time_partial t hc l hl).1 w.rows

/-- Part of **C99**: after any changes of the table (columns added by writes and by ALTER TABLE, dropped and renamed), a query for all columns of
the table gets all rows that files and buffers were given before, between and after these changes, each with the cells that were stored under the
ids of the columns, NULL for columns that were not there, and the tags of the series.  What is missing are chunks whose column groups have
different columns; a flush writes one column group, but compactions write such chunks (`C99_refuted`). -/
theorem C99_history_partial (q : FloatCmp) (nm : String → Name) (t : Table) (hc : Created t) (l : List Change) (hl : ∀ n, Change.add n .time ∉ l)
    (tags : List (Nat × Val)) (ws : List Wrote) (hnm : ((colsOf nm (tableAfter t l)).map Col.name).Nodup) :
    readSeries q none (projOf (tableAfter t l)) (colsOf nm (tableAfter t l)) (colsOf nm (tableAfter t l)) tags (ws.map (Wrote.src nm t l)) =
      some ⟨colsOf nm (tableAfter t l), ws.flatMap fun w => (w.src nm t l).want (colsOf nm (tableAfter t l)) tags⟩ := by
  rw [C99_partial q _ _ _ tags _ (query_all (t := tableAfter t l) (changes_ok l hc.wf).1 hnm) ?_, List.flatMap_map]
  intro s hs
  obtain ⟨w, _, rfl⟩ := List.mem_map.1 hs
  exact wrote_ok hc hl w

theorem wrote_named {nm : String → Name} {t : Table} (hc : Created t) {l : List Change} (hr : ∀ a b, Change.rename a b ∉ l) (w : Wrote) :
    (w.src nm t l).Named (projOf (tableAfter t l)) (colsOf nm (tableAfter t l)) := by
  have hw := (changes_ok (l.take w.after) hc.wf).1
  have hg : Grow id (tableAfter t (l.take w.after)) (tableAfter t l) := by
    have := grow_changes (f := id) (g := Schema.Col.id) (fun _ => rfl) (l.drop w.after) hw (.inl fun a b hm => hr a b (List.mem_of_mem_drop hm))
    rw [← List.foldl_append, List.take_append_drop] at this
    exact this
  have key : ∀ c ∈ (tableAfter t (l.take w.after)).cols, c.id ∈ projOf (tableAfter t l) →
      ∃ d ∈ colsOf nm (tableAfter t l), d.id = (toCol nm c).id ∧ d.name = (toCol nm c).name ∧ d.tag = false := by
    intro c hcm hid
    obtain ⟨d, hd, hde⟩ := List.mem_map.1 hid
    obtain ⟨hd1, hd2⟩ := List.mem_filter.1 hd
    refine ⟨toCol nm d, List.mem_map_of_mem hd1, hde, ?_, by simpa [toCol] using hd2⟩
    obtain ⟨_, old, new, e1, s, i⟩ := hg
    rw [List.map_id, List.map_id] at s
    rw [e1] at hd1
    rcases List.mem_append.1 hd1 with h1 | h1
    · have := eq_of_id hw.ids hcm (s.subset h1) hde.symm
      rw [this]
    · have h2 := i d h1
      have h3 : c.id < (tableAfter t (l.take w.after)).nextId := hw.below c hcm
      omega
  unfold Wrote.src
  split
  · intro g hg' p hp hid
    rw [List.mem_singleton] at hg'
    subst hg'
    obtain ⟨x, hx, rfl⟩ := List.mem_map.1 hp
    obtain ⟨c, hc', hce⟩ := List.mem_map.1 (mem_zipIdx_fst hx)
    simp only at hid ⊢
    rw [← hce] at hid ⊢
    exact key c (List.mem_filter.1 hc').1 hid
  · intro d hd hid _
    obtain ⟨c, hc', rfl⟩ := List.mem_map.1 hd
    exact key c hc' hid

/-- Part of **C100**: when no column was renamed, a filter that is pushed down keeps all rows that match it, whatever columns were added and dropped.
What is missing are renamed columns (`C100_refuted`) and what is missing in `C100_partial`. -/
theorem C100_history_partial (q : FloatCmp) (nm : String → Name) (t : Table) (hc : Created t) (l : List Change) (hl : ∀ n, Change.add n .time ∉ l)
    (hr : ∀ a b, Change.rename a b ∉ l) (tags : List (Nat × Val)) (ws : List Wrote) (hnm : ((colsOf nm (tableAfter t l)).map Col.name).Nodup)
    (e : Expr) (he : ∀ n ∈ e.cols, n ∈ (colsOf nm (tableAfter t l)).map Col.name) (ht : ∀ file, Tame file e) :
    ∃ rows, readSeries q (some e) (projOf (tableAfter t l)) (colsOf nm (tableAfter t l)) (colsOf nm (tableAfter t l)) tags (ws.map (Wrote.src nm t l)) =
        some ⟨colsOf nm (tableAfter t l), rows⟩ ∧
      rows.Sublist (ws.flatMap fun w => (w.src nm t l).want (colsOf nm (tableAfter t l)) tags) ∧
      ((ws.flatMap fun w => (w.src nm t l).want (colsOf nm (tableAfter t l)) tags).filter (matchesRow q e (colsOf nm (tableAfter t l)))).Sublist rows := by
  obtain ⟨rows, h1, h2, h3⟩ := C100_partial q e _ _ _ tags (ws.map (Wrote.src nm t l)) (query_all (t := tableAfter t l) (changes_ok l hc.wf).1 hnm) (by
    intro s hs
    obtain ⟨w, _, rfl⟩ := List.mem_map.1 hs
    exact ⟨wrote_ok hc hl w, wrote_named hc hr w⟩) he ht
  rw [List.flatMap_map] at h2 h3
  exact ⟨rows, h1, h2, h3⟩

end Verif.Align
