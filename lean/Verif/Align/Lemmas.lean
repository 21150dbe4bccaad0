import Verif.Align.Model
/-! # Lemmas about finding columns -/
namespace Verif.Align

open Verif.Sort Verif.Stats

/-- Cells in the order of their columns: looking up the position and then the cell. -/
theorem findIdx_bind {β : Type} (P : β → Bool) (f : β → Option Val) (l : List β) :
    ((l.findIdx? P).bind fun i => ((l.map f)[i]?).join) = (l.find? P).bind f := by
  induction l with
  | nil => rfl
  | cons a l ih =>
    rw [List.findIdx?_cons, List.find?_cons]
    cases hP : P a with
    | true => rfl
    | false =>
      simp only [Bool.false_eq_true, if_false]
      rw [← ih]
      cases l.findIdx? P <;> rfl

theorem zipIdx_find {β : Type} (P : β → Bool) (l : List β) (k : Nat) :
    (l.zipIdx k).find? (fun p => P p.1) = (l.findIdx? P).bind fun i => (l[i]?).map fun b => (b, i + k) := by
  induction l generalizing k with
  | nil => rfl
  | cons a l ih =>
    rw [List.zipIdx_cons, List.find?_cons, List.findIdx?_cons]
    cases hP : P a with
    | true => simp
    | false =>
      simp only [Bool.false_eq_true, if_false]
      rw [ih]
      cases l.findIdx? P with
      | none => rfl
      | some i =>
        simp only [Option.bind_some, Option.map_some, List.getElem?_cons_succ]
        congr 1
        funext b
        rw [show i + 1 + k = i + (k + 1) by omega]

/-- The cell of the first element with a property, by its position. -/
theorem zipIdx_cell {β : Type} (P : β → Bool) (l : List β) (r : Cells) :
    ((l.zipIdx.find? fun p => P p.1).bind fun p => (r[p.2]?).join) = (l.findIdx? P).bind fun i => (r[i]?).join := by
  rw [zipIdx_find]
  cases h : l.findIdx? P with
  | none => rfl
  | some i =>
    obtain ⟨hi, _⟩ := List.findIdx?_eq_some_iff_getElem.1 h
    simp [List.getElem?_eq_getElem hi]

/-- Choosing by keys and then looking for a key. -/
theorem find_filterMap {β : Type} (k : β → Nat) (P : β → Bool) (l : List β) (proj : List Nat) (id : Nat) :
    (proj.filterMap fun i => l.find? fun b => decide (k b = i) && P b).find? (fun b => decide (k b = id)) =
      if id ∈ proj then l.find? fun b => decide (k b = id) && P b else none := by
  induction proj with
  | nil => rfl
  | cons i proj ih =>
    rw [List.filterMap_cons]
    cases hf : l.find? fun b => decide (k b = i) && P b with
    | none =>
      simp only [ih, List.mem_cons]
      by_cases e : id = i
      · subst e
        rw [hf]
        simp
      · simp [e]
    | some b =>
      have hb := List.find?_some hf
      simp only [Bool.and_eq_true, decide_eq_true_eq] at hb
      rw [List.find?_cons]
      by_cases e : id = i
      · subst e
        simp [hb.1, hf]
      · have : ¬k b = id := fun h => e (by rw [← h, hb.1])
        simp only [this, decide_false, ih, List.mem_cons, e, false_or]

theorem mem_pick {g : Group} {proj : List Nat} {p : Page × Nat} (h : p ∈ g.pick proj) :
    p.1.col.id ∈ proj ∧ g.pages.zipIdx.find? (fun q => decide (q.1.col.id = p.1.col.id)) = some p := by
  obtain ⟨id, hid, hf⟩ := List.mem_filterMap.1 h
  have hp := List.find?_some hf
  simp only [decide_eq_true_eq] at hp
  rw [hp]
  exact ⟨hid, hf⟩

theorem pick_find (g : Group) (proj : List Nat) (id : Nat) :
    (g.pick proj).find? (fun p => decide (p.1.col.id = id)) =
      if id ∈ proj then g.pages.zipIdx.find? fun p => decide (p.1.col.id = id) else none := by
  have h := find_filterMap (fun p : Page × Nat => p.1.col.id) (fun _ => true) g.pages.zipIdx proj id
  simpa [Group.pick] using h

/-- The pages are in the file in the order of the projection. -/
def Group.InOrder (proj : List Nat) (g : Group) : Prop := (g.pick proj).Pairwise fun a b => a.1.off ≤ b.1.off

theorem Group.InOrder.sorted {proj : List Nat} {g : Group} (h : g.InOrder proj) : sortBy leOff (g.pick proj) = g.pick proj :=
  sortBy_of_sorted (h.imp fun h => by simpa [leOff] using h)

/-- The row of the stream that is made of a row of a column group. -/
def Group.rowIn (proj : List Nat) (g : Group) (r : Cells) : Cells := (g.pick proj).map fun p => (r[p.2]?).join

theorem Group.stream_eq {proj : List Nat} {g : Group} (h : g.InOrder proj) :
    g.stream proj = ⟨(g.pick proj).map fun p => p.1.col, g.rows.map (g.rowIn proj)⟩ := by
  unfold Group.stream
  rw [h.sorted]
  rfl

theorem findIdx_col (g : Group) (r : Cells) (id : Nat) :
    ((g.pages.zipIdx.find? fun p => decide (p.1.col.id = id)).bind fun p => (r[p.2]?).join) = cellAt (g.pages.map Page.col) r id := by
  rw [zipIdx_cell (fun p : Page => decide (p.col.id = id)) g.pages r]
  unfold cellAt posOf
  rw [List.findIdx?_map]
  rfl

theorem findIdx?_map' {β γ : Type} (f : β → γ) (P : γ → Bool) (l : List β) : (l.map f).findIdx? P = l.findIdx? fun b => P (f b) := by
  rw [List.findIdx?_map]; rfl

/-- A column of the projection has the same cell in the stream and in the column group. -/
theorem cellAt_stream (g : Group) (proj : List Nat) (r : Cells) {id : Nat} (hid : id ∈ proj) :
    cellAt ((g.pick proj).map fun p => p.1.col) (g.rowIn proj r) id = cellAt (g.pages.map Page.col) r id := by
  rw [← findIdx_col]
  unfold cellAt posOf Group.rowIn
  rw [findIdx?_map', findIdx_bind, pick_find, if_pos hid]

/-- The row of a stream is that of a buffer. -/
theorem mem_cell (proj : List Nat) (cols : List Col) (r : Cells) {id : Nat} (hid : id ∈ proj) (ht : ∀ c ∈ cols, c.id = id → c.tag = false) :
    cellAt ((proj.filterMap fun id => cols.zipIdx.find? fun c => decide (c.1.id = id) && !c.1.tag).map Prod.fst)
        ((proj.filterMap fun id => cols.zipIdx.find? fun c => decide (c.1.id = id) && !c.1.tag).map fun c => (r[c.2]?).join) id =
      cellAt cols r id := by
  unfold cellAt posOf
  rw [findIdx?_map', findIdx_bind, find_filterMap (fun c : Col × Nat => c.1.id) (fun c => !c.1.tag), if_pos hid,
    zipIdx_cell (fun c : Col => decide (c.id = id) && !c.tag) cols r]
  congr 1
  induction cols with
  | nil => rfl
  | cons c cols ih =>
    rw [List.findIdx?_cons, List.findIdx?_cons, ih fun c hc => ht c (by simp [hc])]
    by_cases e : c.id = id
    · simp [e, ht c (by simp) e]
    · simp [e]

theorem flatMap_congr' {β γ : Type} {l : List β} {f g : β → List γ} (h : ∀ b ∈ l, f b = g b) : l.flatMap f = l.flatMap g := by
  induction l with
  | nil => rfl
  | cons b l ih => rw [List.flatMap_cons, List.flatMap_cons, h b (by simp), ih fun b hb => h b (by simp [hb])]

/-! ## Aligning -/

theorem align_schema (out : List Col) (s : Stream) : (align out s).schema = out := by
  unfold align
  split
  · rename_i h; exact h.symm
  · rfl

theorem cells_self {cols : List Col} (hn : (cols.map Col.id).Nodup) {r : Cells} (hr : r.length = cols.length) :
    (cols.map fun c => cellAt cols r c.id) = r := by
  apply List.ext_getElem?
  intro i
  rw [List.getElem?_map]
  by_cases hi : i < cols.length
  · rw [List.getElem?_eq_getElem hi, List.getElem?_eq_getElem (by omega)]
    simp only [Option.map_some, Option.some.injEq]
    unfold cellAt posOf
    have : cols.findIdx? (fun c => decide (c.id = cols[i].id)) = some i := by
      rw [List.findIdx?_eq_some_iff_getElem]
      refine ⟨hi, by simp, fun j hj => ?_⟩
      have := List.pairwise_iff_getElem.1 hn j i (by simp; omega) (by simpa using hi) hj
      simpa using this
    rw [this]
    simp only [Option.bind_some]
    rw [List.getElem?_eq_getElem (by omega)]
    rfl
  · rw [List.getElem?_eq_none (by omega), List.getElem?_eq_none (by omega)]
    rfl

theorem align_eq {out : List Col} {s : Stream} (hn : (out.map Col.id).Nodup) (hw : ∀ r ∈ s.rows, r.length = s.schema.length) :
    align out s = ⟨out, s.rows.map fun r => out.map fun c => cellAt s.schema r c.id⟩ := by
  unfold align
  split
  · rename_i h
    subst h
    have : (s.rows.map fun r => s.schema.map fun c => cellAt s.schema r c.id) = s.rows := by
      have := List.map_congr_left (f := fun r => s.schema.map fun c => cellAt s.schema r c.id) (g := fun r => r) fun r hr => cells_self hn (hw r hr)
      rw [this, List.map_id']
    rw [this]
  · rfl

theorem combined_eq {ss : List Stream} {sch : List Col} (h : ∀ s ∈ ss, s.schema = sch) :
    combined ss = some ⟨if ss = [] then [] else sch, ss.flatMap Stream.rows⟩ := by
  cases ss with
  | nil => rfl
  | cons s ss =>
    have : (ss.all fun t => decide (t.schema = s.schema)) = true := by
      rw [List.all_eq_true]
      intro t ht
      simp [h t (by simp [ht]), h s (by simp)]
    simp only [combined, this, if_true]
    rw [h s (by simp)]
    simp

/-- Streams are combined exactly when they have the same schema. -/
theorem combined_isSome {ss : List Stream} : (combined ss).isSome = true ↔ ∀ s ∈ ss, ∀ t ∈ ss, s.schema = t.schema := by
  cases ss with
  | nil => simp [combined]
  | cons s ss =>
    constructor
    · intro h
      have hall : (ss.all fun t => decide (t.schema = s.schema)) = true := by
        cases hb : (ss.all fun t => decide (t.schema = s.schema)) with
        | true => rfl
        | false => simp [combined, hb] at h
      rw [List.all_eq_true] at hall
      have key : ∀ t ∈ s :: ss, t.schema = s.schema := by
        intro t ht
        rcases List.mem_cons.1 ht with rfl | ht
        · rfl
        · simpa using hall t ht
      intro a ha b hb
      rw [key a ha, key b hb]
    · intro h
      rw [combined_eq (sch := s.schema) fun t ht => h t ht s (by simp)]
      rfl

end Verif.Align
