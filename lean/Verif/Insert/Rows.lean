import Verif.Insert.Model
/-!
# The message of a batch of an INSERT and the rows the vnode makes of it
-/
namespace Verif.Insert
open Verif.Schema Verif.Write
open Verif.Stats (Val)
open Verif.Utils (Bytes)

/-- A table has one column of times, of the name `time`. -/
structure TableOk (t : Table) : Prop where
  wf : t.WF
  hasTime : ∃ c ∈ t.cols, c.kind = .time
  time : ∀ c ∈ t.cols, c.kind = .time ↔ c.name = "time"

/-- A row of a batch: a cell for every column, of its type, and a time. -/
structure RowOk (t : Table) (r : List (Option Val)) : Prop where
  width : r.length = t.cols.length
  typed : ∀ j c v, t.cols[j]? = some c → cellAt r j = some v → tyOf v = tyOfKind c.kind
  time : ∀ j c, t.cols[j]? = some c → c.kind = .time → cellAt r j ≠ none

/-- The line a row is. -/
def lineOf (t : Table) (r : List (Option Val)) : Line where
  table := ""
  tags := (cellsOf t r).filterMap fun e => match e.1.kind, e.2 with
    | .tag, some (.str b) => some (e.1.name, b)
    | _, _ => none
  fields := (cellsOf t r).filterMap fun e => match e.1.kind, e.2 with
    | .field _, some v => some (e.1.name, v)
    | _, _ => none
  ts := (timeCell t r).getD 0#64

theorem mem_cellsOf {t : Table} {r : List (Option Val)} (hw : r.length = t.cols.length) {c : Col} {v : Option Val} :
    (c, v) ∈ cellsOf t r ↔ ∃ j, t.cols[j]? = some c ∧ cellAt r j = v := by
  unfold cellsOf cellAt
  rw [List.mem_iff_getElem?]
  constructor
  · rintro ⟨j, hj⟩
    rw [List.getElem?_zip_eq_some] at hj
    exact ⟨j, hj.1, by simp [hj.2]⟩
  · rintro ⟨j, hj, hv⟩
    refine ⟨j, ?_⟩
    rw [List.getElem?_zip_eq_some]
    obtain ⟨hlt, _⟩ := List.getElem?_eq_some_iff.1 hj
    have : j < r.length := by omega
    rw [List.getElem?_eq_getElem this] at hv ⊢
    refine ⟨hj, ?_⟩
    simpa using hv

theorem sublist_names {α β : Type} {f : α → Option β} {g : β → String} {h : α → String} (hf : ∀ a b, f a = some b → g b = h a) :
    ∀ l : List α, ((l.filterMap f).map g).Sublist (l.map h)
  | [] => by simp
  | a :: l => by
    rw [List.filterMap_cons]
    cases ha : f a with
    | none => simp only [List.map_cons]; exact (sublist_names hf l).cons _
    | some b => simp only [List.map_cons, hf a b ha]; exact (sublist_names hf l).cons_cons _

theorem cellsOf_names {t : Table} {r : List (Option Val)} (hw : r.length = t.cols.length) :
    (cellsOf t r).map (fun e => e.1.name) = t.cols.map Col.name := by
  unfold cellsOf
  rw [show (fun e : Col × Option Val => e.1.name) = Col.name ∘ Prod.fst from rfl, ← List.map_map, List.map_fst_zip (by omega)]

theorem eq_of_name {t : Table} (h : t.WF) {c c' : Col} (hc : c ∈ t.cols) (hc' : c' ∈ t.cols) (he : c.name = c'.name) : c = c' := by
  have h1 := (column_some h).2 ⟨hc, rfl⟩
  have h2 := (column_some h).2 ⟨hc', rfl⟩
  rw [he, h2] at h1
  exact (Option.some.inj h1).symm

theorem timeCell_eq {t : Table} (ht : TableOk t) {r : List (Option Val)} (hr : RowOk t r) {c : Col} {v : BitVec 64}
    (hm : (c, some (.int v)) ∈ cellsOf t r) (hk : c.kind = .time) : timeCell t r = some v := by
  unfold timeCell
  cases hf : (cellsOf t r).find? (fun e => decide (e.1.name = "time")) with
  | none =>
    have := List.find?_eq_none.1 hf _ hm
    obtain ⟨j, hj, _⟩ := (mem_cellsOf hr.width).1 hm
    simp [(ht.time c (List.mem_of_getElem? hj)).1 hk] at this
  | some e =>
    obtain ⟨c', v'⟩ := e
    have h1 := List.find?_some hf
    have h2 := List.mem_of_find?_eq_some hf
    obtain ⟨j, hj, hv⟩ := (mem_cellsOf hr.width).1 hm
    obtain ⟨j', hj', hv'⟩ := (mem_cellsOf hr.width).1 h2
    have hn : c.name = c'.name := by rw [(ht.time c (List.mem_of_getElem? hj)).1 hk]; simpa using (of_decide_eq_true h1).symm
    have hjj : j = j' := by
      have hnd := ht.wf.names
      obtain ⟨l1, e1⟩ := List.getElem?_eq_some_iff.1 hj
      obtain ⟨l2, e2⟩ := List.getElem?_eq_some_iff.1 hj'
      have := (List.Nodup.getElem_inj_iff hnd (i := j) (j := j') (hi := by simpa using l1) (hj := by simpa using l2)).1
        (by simp [e1, e2, hn])
      exact this
    subst hjj
    rw [hv] at hv'
    subst hv'
    rfl

/-- The items of the line of a row are its cells. -/
theorem mem_items {t : Table} (ht : TableOk t) {r : List (Option Val)} (hr : RowOk t r) {x : Item} :
    x ∈ (lineOf t r).items ↔ ∃ c v, (c, some v) ∈ cellsOf t r ∧ x = (c.name, ctOf c.kind, v) := by
  have hty : ∀ {c v}, (c, some v) ∈ cellsOf t r → tyOf v = tyOfKind c.kind := by
    intro c v hm
    obtain ⟨j, hj, hv⟩ := (mem_cellsOf hr.width).1 hm
    exact hr.typed j c v hj hv
  constructor
  · intro hx
    unfold Line.items at hx
    rw [List.mem_append, List.mem_append] at hx
    rcases hx with (hx | hx) | hx
    · obtain ⟨y, hy, rfl⟩ := List.mem_map.1 hx
      obtain ⟨⟨c, v⟩, hm, he⟩ := List.mem_filterMap.1 hy
      dsimp only at he
      split at he
      · rename_i _ hk
        cases he
        exact ⟨c, _, hm, by simp [hk, ctOf]⟩
      · cases he
    · obtain ⟨y, hy, rfl⟩ := List.mem_map.1 hx
      obtain ⟨⟨c, v⟩, hm, he⟩ := List.mem_filterMap.1 hy
      dsimp only at he
      split at he
      · rename_i _ hk
        cases he
        exact ⟨c, _, hm, by simp [hk, ctOf]⟩
      · cases he
    · rw [List.mem_singleton] at hx
      subst hx
      obtain ⟨c, hc, hk⟩ := ht.hasTime
      obtain ⟨j, hj⟩ := List.getElem?_of_mem hc
      have hne := hr.time j c hj hk
      cases hv : cellAt r j with
      | none => exact absurd hv hne
      | some v =>
        have hm : (c, some v) ∈ cellsOf t r := (mem_cellsOf hr.width).2 ⟨j, hj, hv⟩
        have h1 := hty hm
        rw [hk] at h1
        cases v with
        | int v =>
          refine ⟨c, .int v, hm, ?_⟩
          rw [(ht.time c hc).1 hk, hk]
          simp only [lineOf, timeCell_eq ht hr hm hk, ctOf, Option.getD_some]
        | _ => simp [tyOf, tyOfKind] at h1
  · rintro ⟨c, v, hm, rfl⟩
    have h1 := hty hm
    unfold Line.items
    rw [List.mem_append, List.mem_append]
    cases hk : c.kind with
    | tag =>
      rw [hk] at h1
      left; left
      cases v with
      | str b =>
        refine List.mem_map.2 ⟨(c.name, b), List.mem_filterMap.2 ⟨_, hm, ?_⟩, rfl⟩
        simp only [hk]
      | _ => simp [tyOf, tyOfKind] at h1
    | field ty =>
      left; right
      refine List.mem_map.2 ⟨(c.name, v), List.mem_filterMap.2 ⟨_, hm, ?_⟩, rfl⟩
      simp only [hk]
    | time =>
      rw [hk] at h1
      right
      cases v with
      | int v =>
        rw [List.mem_singleton]
        obtain ⟨j, hj, hv⟩ := (mem_cellsOf hr.width).1 hm
        rw [(ht.time c (List.mem_of_getElem? hj)).1 hk]
        simp only [lineOf, timeCell_eq ht hr hm hk, ctOf, Option.getD_some]
      | _ => simp [tyOf, tyOfKind] at h1

/-- Where a name of a tag or field of the line comes from. -/
theorem tag_col {t : Table} {r : List (Option Val)} (hw : r.length = t.cols.length) {x : String × Bytes} (hx : x ∈ (lineOf t r).tags) :
    ∃ c ∈ t.cols, c.kind = .tag ∧ c.name = x.1 ∧ (c, some (.str x.2)) ∈ cellsOf t r := by
  obtain ⟨⟨c, v⟩, hm, he⟩ := List.mem_filterMap.1 hx
  dsimp only at he
  split at he
  · rename_i _ hk
    cases he
    obtain ⟨j, hj, _⟩ := (mem_cellsOf hw).1 hm
    exact ⟨c, List.mem_of_getElem? hj, hk, rfl, hm⟩
  · cases he

theorem field_col {t : Table} {r : List (Option Val)} (hw : r.length = t.cols.length) {x : String × Val} (hx : x ∈ (lineOf t r).fields) :
    ∃ c ∈ t.cols, c.isField = true ∧ c.name = x.1 ∧ (c, some x.2) ∈ cellsOf t r := by
  obtain ⟨⟨c, v⟩, hm, he⟩ := List.mem_filterMap.1 hx
  dsimp only at he
  split at he
  · rename_i _ hk
    cases he
    obtain ⟨j, hj, _⟩ := (mem_cellsOf hw).1 hm
    exact ⟨c, List.mem_of_getElem? hj, by simp [Col.isField, hk], rfl, hm⟩
  · cases he

theorem items_nodup {t : Table} (ht : TableOk t) {r : List (Option Val)} (hw : r.length = t.cols.length) :
    ((lineOf t r).items.map (·.1)).Nodup := by
  have hn := ht.wf.names
  rw [← cellsOf_names hw] at hn
  unfold Line.items
  rw [List.map_append, List.map_append, List.map_map, List.map_map, List.nodup_append, List.nodup_append]
  refine ⟨⟨?_, ?_, ?_⟩, by simp, ?_⟩
  · refine List.Sublist.nodup (sublist_names (g := fun x : String × Bytes => x.1) (h := fun e : Col × Option Val => e.1.name) ?_ _) hn
    rintro ⟨c, v⟩ b he
    dsimp only at he
    split at he <;> cases he
    rfl
  · refine List.Sublist.nodup (sublist_names (g := fun x : String × Val => x.1) (h := fun e : Col × Option Val => e.1.name) ?_ _) hn
    rintro ⟨c, v⟩ b he
    dsimp only at he
    split at he <;> cases he
    rfl
  · intro a ha b hb he
    obtain ⟨x, hx, rfl⟩ := List.mem_map.1 ha
    obtain ⟨y, hy, rfl⟩ := List.mem_map.1 hb
    obtain ⟨c, hc, hk, hcn, _⟩ := tag_col hw hx
    obtain ⟨c', hc', hk', hcn', _⟩ := field_col hw hy
    have := eq_of_name ht.wf hc hc' (by rw [hcn, hcn']; exact he)
    subst this
    simp [Col.isField, hk] at hk'
  · intro a ha b hb he
    rw [List.map_singleton, List.mem_singleton] at hb
    subst hb
    rw [List.mem_append] at ha
    rcases ha with ha | ha
    · obtain ⟨x, hx, rfl⟩ := List.mem_map.1 ha
      obtain ⟨c, hc, hk, hcn, _⟩ := tag_col hw hx
      have := (ht.time c hc).2 (by rw [hcn]; exact he)
      rw [hk] at this
      cases this
    · obtain ⟨x, hx, rfl⟩ := List.mem_map.1 ha
      obtain ⟨c, hc, hk, hcn, _⟩ := field_col hw hx
      have := (ht.time c hc).2 (by rw [hcn]; exact he)
      simp [Col.isField, this] at hk

theorem clean_lines {t : Table} (ht : TableOk t) {rows : List (List (Option Val))} (hr : ∀ r ∈ rows, RowOk t r) :
    Clean (rows.map (lineOf t)) := by
  constructor
  · intro l hl
    obtain ⟨r, hm, rfl⟩ := List.mem_map.1 hl
    exact items_nodup ht (hr r hm).width
  · intro l hl l' hl' x hx y hy he
    obtain ⟨r, hm, rfl⟩ := List.mem_map.1 hl
    obtain ⟨r', hm', rfl⟩ := List.mem_map.1 hl'
    obtain ⟨c, v, hc, rfl⟩ := (mem_items ht (hr r hm)).1 hx
    obtain ⟨c', v', hc', rfl⟩ := (mem_items ht (hr r' hm')).1 hy
    obtain ⟨j, hj, _⟩ := (mem_cellsOf (hr r hm).width).1 hc
    obtain ⟨j', hj', _⟩ := (mem_cellsOf (hr r' hm').width).1 hc'
    rw [eq_of_name ht.wf (List.mem_of_getElem? hj) (List.mem_of_getElem? hj') he]

/-! ## Columns of nulls -/

/-- A column that has a value. -/
def Live (e : String × Column) : Bool := e.2.valid.any id

theorem foldE_filter {α β : Type} {f : β → α → Except Err β} {p : α → Bool} : ∀ (l : List α) (s : β),
    (∀ a ∈ l, p a = false → ∀ s, f s a = .ok s) → foldE f s (l.filter p) = foldE f s l
  | [], _, _ => rfl
  | a :: l, s, h => by
    have hl : ∀ a ∈ l, p a = false → ∀ s, f s a = .ok s := fun b hb => h b (by simp [hb])
    cases hp : p a with
    | true =>
      rw [List.filter_cons_of_pos hp, foldE_cons, foldE_cons]
      cases f s a with
      | error e => rfl
      | ok s' => exact foldE_filter l s' hl
    | false =>
      rw [List.filter_cons_of_neg (by simp [hp]), foldE_cons, h a (by simp) hp s]
      exact foldE_filter l s hl

theorem read_dead {e : String × Column} (h : Live e = false) {i : Nat} (hi : i < e.2.data.length) : e.2.read i = .ok none := by
  rw [Column.read_ok hi]
  unfold Column.at
  rw [if_neg]
  intro hv
  unfold Live at h
  rw [List.any_eq_false] at h
  exact h true (List.mem_of_getElem? hv) rfl

/-- Columns of nulls other than the time change nothing. -/
theorem rowsWith_live (conv : Int → Option Int) {t : Table} {m : Msg} (hl : ∀ e ∈ m.cols, e.2.data.length = m.rows)
    (ht : ∀ e ∈ m.cols, e.2.ct = .time → Live e = true) :
    Msg.rowsWith conv t ⟨m.cols.filter Live, m.rows⟩ = m.rowsWith conv t := by
  unfold Msg.rowsWith
  congr 1
  apply List.map_congr_left
  intro i hi
  rw [List.mem_range] at hi
  have hlen : ∀ e ∈ m.cols, i < e.2.data.length := fun e he => by rw [hl e he]; exact hi
  have hk : keyOf t (m.cols.filter Live) i = keyOf t m.cols i := by
    unfold keyOf
    congr 1
    rw [List.filter_filter, show (fun a : String × Column => decide (a.2.ct = CT.tag) && Live a) = fun a => Live a && decide (a.2.ct = CT.tag) from
      funext fun a => Bool.and_comm _ _, ← List.filter_filter]
    apply foldE_filter
    intro e he hd s
    unfold keyStep
    rw [read_dead hd (hlen e (List.mem_filter.1 he).1)]
    rfl
  have htm : timeOf conv (m.cols.filter Live) i = timeOf conv m.cols i := by
    unfold timeOf
    rw [List.filter_filter, show (fun a : String × Column => decide (a.2.ct = CT.time) && Live a) = fun a => Live a && decide (a.2.ct = CT.time) from
      funext fun a => Bool.and_comm _ _, ← List.filter_filter, List.filter_eq_self.2]
    intro e he
    obtain ⟨h1, h2⟩ := List.mem_filter.1 he
    exact ht e h1 (by simpa using h2)
  have hrw : rowOf conv t (m.cols.filter Live) i = rowOf conv t m.cols i := by
    unfold rowOf
    rw [htm, foldE_filter]
    intro e he hd s
    unfold rowStep
    split
    · rw [read_dead hd (hlen e he)]; rfl
    · rfl
  rw [hk, hrw]

/-! ## The message -/

theorem mem_msgOf {t : Table} {rows : List (List (Option Val))} {e : String × Column} (he : e ∈ (msgOf t rows).cols) :
    ∃ c j, t.cols[j]? = some c ∧ e = (c.name, colOf c (rows.map fun r => cellAt r j)) := by
  obtain ⟨⟨c, j⟩, hm, rfl⟩ := List.mem_map.1 he
  exact ⟨c, j, List.mem_zipIdx_iff_getElem?.1 hm, rfl⟩

theorem msgOf_mem {t : Table} {rows : List (List (Option Val))} {c : Col} {j : Nat} (hj : t.cols[j]? = some c) :
    (c.name, colOf c (rows.map fun r => cellAt r j)) ∈ (msgOf t rows).cols :=
  List.mem_map.2 ⟨(c, j), List.mem_zipIdx_iff_getElem?.2 hj, rfl⟩

theorem colOf_at (c : Col) (cells : List (Option Val)) (i : Nat) : (colOf c cells).at i = (cells[i]?).join := by
  unfold Column.at colOf
  simp only [List.getElem?_map]
  cases cells[i]? with
  | none => simp
  | some v => cases v <;> simp

theorem msgOf_names (t : Table) (rows : List (List (Option Val))) : (msgOf t rows).cols.map (·.1) = t.cols.map Col.name := by
  unfold msgOf
  simp only [List.map_map]
  rw [show ((fun x : String × Column => x.1) ∘ fun e : Col × Nat => (e.1.name, colOf e.1 (rows.map fun r => cellAt r e.2))) =
    Col.name ∘ Prod.fst from rfl, ← List.map_map, List.zipIdx_map_fst]

theorem holds_live {t : Table} (ht : TableOk t) {rows : List (List (Option Val))} (hr : ∀ r ∈ rows, RowOk t r) :
    Holds ⟨(msgOf t rows).cols.filter Live, rows.length⟩ ((rows.map (lineOf t)).map Line.items) := by
  constructor
  · simp
  · refine List.Sublist.nodup (List.Sublist.map _ List.filter_sublist) ?_
    rw [msgOf_names]
    exact ht.wf.names
  · intro e he
    obtain ⟨c, j, _, rfl⟩ := mem_msgOf (List.mem_filter.1 he).1
    simp [colOf]
  · intro e he i l hl
    obtain ⟨c, j, hj, rfl⟩ := mem_msgOf (List.mem_filter.1 he).1
    rw [colOf_at]
    simp only [List.getElem?_map] at hl ⊢
    cases hri : rows[i]? with
    | none => simp [hri] at hl
    | some r =>
      simp only [hri, Option.map_some, Option.some.injEq, Option.join_some] at hl ⊢
      subst hl
      have hro := hr r (List.mem_of_getElem? hri)
      cases hv : cellAt r j with
      | none =>
        symm
        apply look_none
        intro x hx hxn
        obtain ⟨c', v', hm', rfl⟩ := (mem_items ht hro).1 hx
        obtain ⟨j', hj', hv'⟩ := (mem_cellsOf hro.width).1 hm'
        obtain ⟨l1, e1⟩ := List.getElem?_eq_some_iff.1 hj
        obtain ⟨l2, e2⟩ := List.getElem?_eq_some_iff.1 hj'
        have := (List.Nodup.getElem_inj_iff ht.wf.names (i := j') (j := j) (hi := by simpa using l2) (hj := by simpa using l1)).1
          (by simp only [List.getElem_map, e1, e2]; exact hxn)
        subst this
        rw [hv] at hv'
        cases hv'
      | some v =>
        symm
        exact look_some (x := (c.name, ctOf c.kind, v)) (items_nodup ht hro.width)
          ((mem_items ht hro).2 ⟨c, v, (mem_cellsOf hro.width).2 ⟨j, hj, hv⟩, rfl⟩)
  · intro e he
    obtain ⟨h1, h2⟩ := List.mem_filter.1 he
    obtain ⟨c, j, hj, rfl⟩ := mem_msgOf h1
    obtain ⟨b, hb, hbt⟩ := List.any_eq_true.1 h2
    simp only [colOf, List.map_map] at hb
    obtain ⟨r, hrm, hrb⟩ := List.mem_map.1 hb
    have : ∃ v, cellAt r j = some v := by
      simp only [id] at hbt
      subst hbt
      simpa [Option.isSome_iff_exists] using hrb
    obtain ⟨v, hv⟩ := this
    refine ⟨_, List.mem_map.2 ⟨_, List.mem_map.2 ⟨r, hrm, rfl⟩, rfl⟩, (c.name, ctOf c.kind, v), ?_, rfl, rfl⟩
    exact (mem_items ht (hr r hrm)).2 ⟨c, v, (mem_cellsOf (hr r hrm).width).2 ⟨j, hj, hv⟩, rfl⟩
  · intro e he l hl x hx hxe
    obtain ⟨c, j, hj, rfl⟩ := mem_msgOf (List.mem_filter.1 he).1
    rw [List.map_map] at hl
    obtain ⟨r, hrm, rfl⟩ := List.mem_map.1 hl
    obtain ⟨c', v, hm, rfl⟩ := (mem_items ht (hr r hrm)).1 hx
    obtain ⟨j', hj', hv⟩ := (mem_cellsOf (hr r hrm).width).1 hm
    have := eq_of_name ht.wf (List.mem_of_getElem? hj') (List.mem_of_getElem? hj) hxe
    subst this
    exact (hr r hrm).typed j' _ v hj' hv
  · intro l hl x hx
    rw [List.map_map] at hl
    obtain ⟨r, hrm, rfl⟩ := List.mem_map.1 hl
    obtain ⟨c, v, hm, rfl⟩ := (mem_items ht (hr r hrm)).1 hx
    obtain ⟨j, hj, hv⟩ := (mem_cellsOf (hr r hrm).width).1 hm
    refine ⟨_, List.mem_filter.2 ⟨msgOf_mem hj, ?_⟩⟩
    refine List.any_eq_true.2 ⟨true, ?_, rfl⟩
    simp only [colOf, List.map_map]
    exact List.mem_map.2 ⟨r, hrm, by simp [hv]⟩

/-- The rows of the message of a batch are those of its rows as lines. -/
theorem rowsWith_msgOf (conv : Int → Option Int) {t : Table} (ht : TableOk t) {rows : List (List (Option Val))} (hr : ∀ r ∈ rows, RowOk t r)
    (out : List (List (Nat × Bytes) × Row)) : (msgOf t rows).rowsWith conv t = .ok out ↔
      (∀ r ∈ rows, Fits conv t (lineOf t r)) ∧ out = rows.map fun r => ((lineOf t r).key t, (lineOf t r).row conv t) := by
  by_cases hne : rows = []
  · subst hne
    simp only [Msg.rowsWith, msgOf, List.length_nil, List.range_zero, List.map_nil, collect]
    constructor
    · intro h; cases h; simp
    · rintro ⟨_, rfl⟩; rfl
  · rw [← rowsWith_live conv (m := msgOf t rows)]
    · have := rowsWith_iff conv (clean_lines ht hr) (holds_live ht hr) ht.wf out
      simp only [List.mem_map, forall_exists_index, and_imp, forall_apply_eq_imp_iff₂, List.map_map] at this
      exact this
    · intro e he
      obtain ⟨c, j, _, rfl⟩ := mem_msgOf he
      simp [colOf, msgOf]
    · intro e he hct
      obtain ⟨c, j, hj, rfl⟩ := mem_msgOf he
      cases rows with
      | nil => exact absurd rfl hne
      | cons r rows =>
        have hk : c.kind = .time := by
          simp only [colOf] at hct
          cases hck : c.kind <;> simp [ctOf, hck] at hct
          rfl
        have hne' := (hr r (by simp)).time j c hj hk
        refine List.any_eq_true.2 ⟨true, ?_, rfl⟩
        simp only [colOf, List.map_cons, List.mem_cons]
        left
        cases hv : cellAt r j with
        | none => exact absurd hv hne'
        | some v => rfl

/-! ## The schema -/

theorem addTags_same {t : Table} (ht : t.WF) {b : Bool} : ∀ (l : List String), (∀ n ∈ l, ∃ c ∈ t.cols, c.name = n ∧ c.kind = .tag) →
    addTags l (t, b) = some (t, b)
  | [], _ => rfl
  | n :: l, h => by
    obtain ⟨c, hc, hn, hk⟩ := h n (by simp)
    unfold addTags
    rw [(column_some ht).2 ⟨hc, hn⟩]
    simp only [Col.isTag, hk, if_true]
    exact addTags_same ht l fun m hm => h m (by simp [hm])

theorem addFields_same {t : Table} (ht : t.WF) {b : Bool} : ∀ (l : List (String × Ty)),
    (∀ e ∈ l, ∃ c ∈ t.cols, c.name = e.1 ∧ c.kind.matches (.field e.2) = true) → addFields l (t, b) = some (t, b)
  | [], _ => rfl
  | (n, ty) :: l, h => by
    obtain ⟨c, hc, hn, hk⟩ := h (n, ty) (by simp)
    unfold addFields
    dsimp only at hn hk
    simp only [(column_some ht).2 ⟨hc, hn⟩, hk, if_true]
    exact addFields_same ht l fun m hm => h m (by simp [hm])

/-- A batch of a table is written with the schema of the table. -/
theorem msgOf_schema {t : Table} (ht : t.WF) {rows : List (List (Option Val))} {r : Req} (h : (msgOf t rows).req = .ok r) (strict : Bool) :
    Msg.schema strict (some t) r = .ok t := by
  have hr := req_ok h
  unfold Msg.schema
  cases strict with
  | true => rfl
  | false =>
    have h1 : addTags r.tags (t, false) = some (t, false) := by
      apply addTags_same ht
      intro n hn
      rw [hr] at hn
      obtain ⟨e, he, rfl⟩ := List.mem_map.1 hn
      obtain ⟨he1, he2⟩ := List.mem_filter.1 he
      obtain ⟨c, j, hj, rfl⟩ := mem_msgOf he1
      refine ⟨c, List.mem_of_getElem? hj, rfl, ?_⟩
      simp only [colOf] at he2
      cases hck : c.kind <;> simp [ctOf, hck] at he2
      rfl
    have h2 : addFields r.fields (t, false) = some (t, false) := by
      apply addFields_same ht
      intro n hn
      rw [hr] at hn
      obtain ⟨e, he, rfl⟩ := List.mem_map.1 hn
      obtain ⟨he1, he2⟩ := List.mem_filter.1 he
      obtain ⟨c, j, hj, rfl⟩ := mem_msgOf he1
      refine ⟨c, List.mem_of_getElem? hj, rfl, ?_⟩
      simp only [colOf] at he2 ⊢
      cases hck : c.kind with
      | tag => simp [ctOf, hck] at he2
      | time => simp [ctOf, hck] at he2
      | field ty => cases ty <;> simp [tyOfKind, Kind.matches]
    simp only [plan, h1, h2, Option.bind_some, Option.map_some, Bool.false_eq_true, if_false]

/-- What the vnode makes of a message. -/
theorem write_msgOf (conv : Int → Option Int) {t : Table} (ht : TableOk t) {rows : List (List (Option Val))} (hr : ∀ r ∈ rows, RowOk t r)
    {strict : Bool} {t' : Table} {out : List (List (Nat × Bytes) × Row)} (h : (msgOf t rows).write conv strict (some t) = .ok (t', out)) :
    t' = t ∧ (∀ r ∈ rows, Fits conv t (lineOf t r)) ∧ out = rows.map fun r => ((lineOf t r).key t, (lineOf t r).row conv t) := by
  unfold Msg.write at h
  cases hq : (msgOf t rows).req with
  | error e => rw [hq] at h; cases h
  | ok q =>
    rw [hq, bind_ok, msgOf_schema ht.wf hq, bind_ok] at h
    cases hw : (msgOf t rows).rowsWith conv t with
    | error e => rw [hw] at h; cases h
    | ok o =>
      rw [hw] at h
      cases h
      exact ⟨rfl, (rowsWith_msgOf conv ht hr _).1 hw⟩

/-- A batch all of whose rows can be stored is stored. -/
theorem write_msgOf_ok (conv : Int → Option Int) {t : Table} (ht : TableOk t) {rows : List (List (Option Val))} (hr : ∀ r ∈ rows, RowOk t r)
    (hne : rows ≠ []) (hf : ∀ r ∈ rows, Fits conv t (lineOf t r)) (strict : Bool) :
    (msgOf t rows).write conv strict (some t) = .ok (t, rows.map fun r => ((lineOf t r).key t, (lineOf t r).row conv t)) := by
  have hq : ∃ q, (msgOf t rows).req = .ok q := by
    unfold Msg.req
    rw [if_pos]
    · exact ⟨_, rfl⟩
    · rw [Bool.and_eq_true, List.any_eq_true, List.any_eq_true]
      constructor
      · obtain ⟨c, hc, hk⟩ := ht.hasTime
        obtain ⟨j, hj⟩ := List.getElem?_of_mem hc
        exact ⟨_, msgOf_mem hj, by simp [colOf, ctOf, hk]⟩
      · cases rows with
        | nil => exact absurd rfl hne
        | cons r rows =>
          obtain ⟨f, hfm, _⟩ := (hf r (by simp)).some
          obtain ⟨c, hc, hk, _⟩ := field_col (hr r (by simp)).width hfm
          obtain ⟨j, hj⟩ := List.getElem?_of_mem hc
          refine ⟨_, msgOf_mem hj, ?_⟩
          unfold Col.isField at hk
          cases hck : c.kind <;> simp [hck] at hk
          simp [colOf, ctOf, hck]
  obtain ⟨q, hq⟩ := hq
  unfold Msg.write
  rw [hq, bind_ok, msgOf_schema ht.wf hq, bind_ok, (rowsWith_msgOf conv ht hr _).2 ⟨hf, rfl⟩]
  rfl

end Verif.Insert
