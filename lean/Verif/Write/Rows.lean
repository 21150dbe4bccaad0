import Verif.Write.Lines
/-!
# What the rows of a message are, given the table
-/
namespace Verif.Write
open Verif.Schema
open Verif.Stats (Val)
open Verif.Utils (Bytes bytesLe)

/-! ## What a line should become -/

/-- The key of a line's series: its tags by their columns' ids, in the order of the keys. -/
def Line.key (t : Table) (l : Line) : List (Nat × Bytes) := sortTags (l.tags.filterMap fun x => (t.column x.1).map fun c => (c.id, x.2))

/-- The value of a line for a column of the table. -/
def Line.cell (t : Table) (l : Line) (id : Nat) : Option Val :=
  (l.fields.find? fun f => decide ((t.column f.1).map Col.id = some id)).map (·.2)

/-- The row of a line. -/
def Line.row (conv : Int → Option Int) (t : Table) (l : Line) : Row := ⟨(conv l.ts.toInt).getD 0, (fieldIds t.cols).map (l.cell t)⟩

/-- The table takes a line: it has the tags, none of the fields is something else there, one of them is there, and the time
can be converted. -/
structure Fits (conv : Int → Option Int) (t : Table) (l : Line) : Prop where
  tags : ∀ x ∈ l.tags, t.column x.1 ≠ none
  fields : ∀ f ∈ l.fields, ∀ c, t.column f.1 = some c → c.isField = true
  some : ∃ f ∈ l.fields, t.column f.1 ≠ none
  time : conv l.ts.toInt ≠ none

/-! ## Loops -/

theorem collect_ok {α : Type} : ∀ (l : List (Except Err α)) (out : List α), collect l = .ok out ↔ l = out.map .ok
  | [], out => by
    cases out with
    | nil => simp [collect]
    | cons a out => simp [collect]
  | .error e :: l, out => by
    cases out with
    | nil => simp [collect]
    | cons a out => simp [collect]
  | .ok a :: l, out => by
    unfold collect
    cases hl : collect l with
    | error e =>
      cases out with
      | nil => simp [Except.map]
      | cons b out =>
        have := collect_ok l out
        simp only [Except.map, List.map_cons, List.cons.injEq, Except.ok.injEq, reduceCtorEq, false_iff, not_and]
        intro _ h2
        rw [← this, hl] at h2
        cases h2
    | ok r =>
      cases out with
      | nil => simp [Except.map]
      | cons b out =>
        have := collect_ok l out
        rw [hl] at this
        simp only [Except.map, List.map_cons, List.cons.injEq, Except.ok.injEq]
        rw [← this]
        simp

theorem foldE_cons {α β : Type} (f : β → α → Except Err β) (s : β) (a : α) (l : List α) :
    foldE f s (a :: l) = (f s a).bind fun s => foldE f s l := rfl

theorem bind_ok {α β : Type} (a : α) (f : α → Except Err β) : (Except.ok a : Except Err α).bind f = f a := rfl

theorem bind_error {α β : Type} (e : Err) (f : α → Except Err β) : (Except.error e : Except Err α).bind f = .error e := rfl

theorem Column.read_ok {c : Column} {i : Nat} (h : i < c.data.length) : c.read i = .ok (c.at i) := by
  unfold Column.read Column.at
  rw [List.getElem?_eq_getElem h]

/-! ## Keys -/

/-- The tag of a cell, by its column's id. -/
def tagOf (t : Table) (x : Item) : Option (Nat × Bytes) :=
  if x.2.1 = .tag then match x.2.2 with | .str v => (t.column x.1).map fun c => (c.id, v) | _ => none else none

theorem foldE_key {t : Table} {i : Nat} : ∀ (es : List (String × Column)) (s s' : List (Nat × Bytes)),
    (∀ e ∈ es, i < e.2.data.length ∧ e.2.ct = .tag ∧ ∀ v, e.2.at i = some v → ∃ w, v = .str w) →
    (foldE (keyStep t i) s es = .ok s' ↔ (∀ x ∈ cells es i, t.column x.1 ≠ none) ∧ s' = s ++ (cells es i).filterMap (tagOf t))
  | [], s, s', _ => by
    simp [foldE, cells, eq_comm]
  | e :: es, s, s', h => by
    obtain ⟨h1, h2, h3⟩ := h e (by simp)
    have ih := fun s => foldE_key (t := t) es s s' (fun e he => h e (by simp [he]))
    rw [foldE_cons, show keyStep t i s e = (e.2.read i).bind _ from rfl, Column.read_ok h1, bind_ok]
    cases hv : e.2.at i with
    | none =>
      have hc : cells (e :: es) i = cells es i := by simp [cells, hv]
      rw [hc]
      simp only [bind_ok]
      exact ih s
    | some v =>
      obtain ⟨w, rfl⟩ := h3 v hv
      have hc : cells (e :: es) i = (e.1, e.2.ct, .str w) :: cells es i := by simp [cells, hv]
      rw [hc]
      simp only
      cases ht : t.column e.1 with
      | none => simp [ht, bind_error]
      | some c =>
        have htag : tagOf t (e.1, e.2.ct, .str w) = some (c.id, w) := by simp [tagOf, h2, ht]
        simp only [bind_ok]
        rw [ih, List.filterMap_cons, htag]
        simp [ht]

/-! ## Fields -/

/-- The field of a cell, by its column's id. -/
def fieldOf (t : Table) (x : Item) : Option (Nat × Val) :=
  if x.2.1 = .field then (t.column x.1).map fun c => (c.id, x.2.2) else none

/-- A value put into a row. -/
theorem set_map {ids : List Nat} (hn : ids.Nodup) {id k : Nat} (hk : ids.idxOf? id = some k) (g : Nat → Option Val) (v : Option Val) :
    (ids.map g).set k v = ids.map fun x => if x = id then v else g x := by
  obtain ⟨hlt, hget, _⟩ := List.idxOf?_eq_some_iff.1 hk
  apply List.ext_getElem?
  intro j
  by_cases hj : j = k
  · subst hj
    rw [List.getElem?_set_self (by simpa using hlt), List.getElem?_map, List.getElem?_eq_getElem hlt]
    simp [hget]
  · rw [List.getElem?_set_ne (Ne.symm hj), List.getElem?_map, List.getElem?_map]
    cases hx : ids[j]? with
    | none => rfl
    | some x =>
      have hne : x ≠ id := by
        rintro rfl
        obtain ⟨hjl, hjx⟩ := List.getElem?_eq_some_iff.1 hx
        exact hj ((List.nodup_iff_injective_getElem.1 hn (a₁ := ⟨j, hjl⟩) (a₂ := ⟨k, hlt⟩) (by simp [hjx, hget])) |> fun h => by simpa using h)
      simp [hne]

/-- The values found in a list of ids and values, on top of others. -/
def over (l : List (Nat × Val)) (g : Nat → Option Val) (id : Nat) : Option Val :=
  match l.find? fun p => decide (p.1 = id) with
  | some p => some p.2
  | none => g id

theorem mem_fieldIds {t : Table} {id : Nat} : id ∈ fieldIds t.cols ↔ ∃ c ∈ t.cols, c.isField = true ∧ c.id = id := by
  unfold fieldIds
  rw [Sort.mem_sortBy, List.mem_map]
  constructor
  · rintro ⟨c, hc, rfl⟩
    obtain ⟨h1, h2⟩ := List.mem_filter.1 hc
    exact ⟨c, h1, h2, rfl⟩
  · rintro ⟨c, h1, h2, rfl⟩
    exact ⟨c, List.mem_filter.2 ⟨h1, h2⟩, rfl⟩

theorem fieldIds_nodup {t : Table} (h : t.WF) : (fieldIds t.cols).Nodup := by
  have hp : (fieldIds t.cols).Perm ((t.cols.filter Col.isField).map Col.id) := Sort.sortBy_perm _ _
  rw [hp.nodup_iff]
  exact h.ids.sublist (List.filter_sublist.map _)

/-- The columns of a table with one id. -/
theorem isField_of_id {t : Table} (h : t.WF) {c : Col} (hc : c ∈ t.cols) (hi : c.id ∈ fieldIds t.cols) : c.isField = true := by
  obtain ⟨c', h1, h2, h3⟩ := mem_fieldIds.1 hi
  rw [eq_of_id h.ids hc h1 h3.symm]
  exact h2

theorem foldE_row {t : Table} (ht : t.WF) {i : Nat} : ∀ (es : List (String × Column)) (g : Nat → Option Val) (b : Bool)
    (s' : List (Option Val) × Bool), (∀ e ∈ es, i < e.2.data.length) → (((cells es i).filterMap (fieldOf t)).map (·.1)).Nodup →
    (foldE (rowStep t i) ((fieldIds t.cols).map g, b) es = .ok s' ↔
      (∀ x ∈ cells es i, x.2.1 = .field → ∀ c, t.column x.1 = some c → c.isField = true) ∧
      s' = ((fieldIds t.cols).map (over ((cells es i).filterMap (fieldOf t)) g), b || !((cells es i).filterMap (fieldOf t)).isEmpty))
  | [], g, b, s', _, _ => by
    have : over ((cells [] i).filterMap (fieldOf t)) g = g := rfl
    rw [this]
    constructor
    · intro h
      cases h
      exact ⟨by simp [cells], by simp [cells]⟩
    · rintro ⟨_, rfl⟩
      simp [foldE, cells]
  | e :: es, g, b, s', h, hn => by
    have h1 := h e (by simp)
    rw [foldE_cons]
    by_cases hf : e.2.ct = .field
    · rw [show rowStep t i ((fieldIds t.cols).map g, b) e = if e.2.ct = .field then (e.2.read i).bind _ else _ from rfl, if_pos hf,
        Column.read_ok h1, bind_ok]
      cases hv : e.2.at i with
      | none =>
        have hc : cells (e :: es) i = cells es i := by simp [cells, hv]
        rw [hc] at hn ⊢
        simp only [bind_ok]
        exact foldE_row ht es g b s' (fun e he => h e (by simp [he])) hn
      | some v =>
        have hc : cells (e :: es) i = (e.1, e.2.ct, v) :: cells es i := by simp [cells, hv]
        rw [hc] at hn ⊢
        simp only
        cases hcol : t.column e.1 with
        | none =>
          have hfo : fieldOf t (e.1, e.2.ct, v) = none := by simp [fieldOf, hcol]
          simp only [List.filterMap_cons, hfo, bind_ok] at hn ⊢
          rw [foldE_row ht es g b s' (fun e he => h e (by simp [he])) hn]
          simp [hcol]
        | some c =>
          have hfo : fieldOf t (e.1, e.2.ct, v) = some (c.id, v) := by simp [fieldOf, hcol, hf]
          have hcm := ((column_some ht).1 hcol).1
          simp only [List.filterMap_cons, hfo] at hn ⊢
          cases hk : (fieldIds t.cols).idxOf? c.id with
          | none =>
            simp only [bind_error, reduceCtorEq, false_iff, not_and]
            intro hall
            have hisf := hall (e.1, e.2.ct, v) (by simp) hf c hcol
            exact absurd (mem_fieldIds.2 ⟨c, hcm, hisf, rfl⟩) (List.idxOf?_eq_none_iff.1 hk)
          | some k =>
            simp only [bind_ok]
            obtain ⟨hlt, hget, _⟩ := List.idxOf?_eq_some_iff.1 hk
            have hisf := isField_of_id ht hcm (hget ▸ List.getElem_mem hlt)
            rw [set_map (fieldIds_nodup ht) hk]
            rw [List.map_cons, List.nodup_cons] at hn
            rw [foldE_row ht es _ true s' (fun e he => h e (by simp [he])) hn.2]
            have hover : over ((cells es i).filterMap (fieldOf t)) (fun x => if x = c.id then some v else g x) =
                over ((c.id, v) :: (cells es i).filterMap (fieldOf t)) g := by
              funext id
              unfold over
              by_cases hid : c.id = id
              · subst hid
                have : ((cells es i).filterMap (fieldOf t)).find? (fun p => decide (p.1 = c.id)) = none := by
                  rw [List.find?_eq_none]
                  intro p hp
                  have : p.1 ≠ c.id := fun h' => hn.1 (List.mem_map.2 ⟨p, hp, h'⟩)
                  simp [this]
                simp [this]
              · rw [List.find?_cons_of_neg (by simpa using hid)]
                simp [Ne.symm hid]
            rw [hover]
            simp only [List.mem_cons, forall_eq_or_imp, hf, hcol, Option.some.injEq, forall_eq', true_implies, hisf, true_and,
              List.isEmpty_cons, Bool.not_false, Bool.or_true, Bool.true_or]
    · rw [show rowStep t i ((fieldIds t.cols).map g, b) e = if e.2.ct = .field then _ else .ok _ from rfl, if_neg hf]
      have hfo : ∀ v, fieldOf t (e.1, e.2.ct, v) = none := by intro v; simp [fieldOf, hf]
      have hc : (cells (e :: es) i).filterMap (fieldOf t) = (cells es i).filterMap (fieldOf t) := by
        cases hv : e.2.at i with
        | none => simp [cells, hv]
        | some v =>
          have hc : cells (e :: es) i = (e.1, e.2.ct, v) :: cells es i := by simp [cells, hv]
          rw [hc, List.filterMap_cons, hfo]
      rw [hc] at hn ⊢
      rw [bind_ok, foldE_row ht es g b s' (fun e he => h e (by simp [he])) hn]
      have hx : (∀ x ∈ cells (e :: es) i, x.2.1 = .field → ∀ c, t.column x.1 = some c → c.isField = true) ↔
          (∀ x ∈ cells es i, x.2.1 = .field → ∀ c, t.column x.1 = some c → c.isField = true) := by
        cases hv : e.2.at i with
        | none => simp [cells, hv]
        | some v =>
          have hc : cells (e :: es) i = (e.1, e.2.ct, v) :: cells es i := by simp [cells, hv]
          rw [hc]
          simp [hf]
      rw [hx]

end Verif.Write
