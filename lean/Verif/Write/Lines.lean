import Verif.Write.Model
/-!
# The columns of a batch hold the items of its lines
-/
namespace Verif.Write
open Verif.Schema
open Verif.Stats (Val)
open Verif.Utils (Bytes bytesLe)

/-- A cell of a row: name, type, value. -/
abbrev Item := String × CT × Val

/-- The cell of a name in a row. -/
def look (r : List Item) (n : String) : Option Val := (r.find? fun x => decide (x.1 = n)).map (·.2.2)

theorem look_none {r : List Item} {n : String} (h : ∀ x ∈ r, x.1 ≠ n) : look r n = none := by
  have : r.find? (fun x => decide (x.1 = n)) = none := by
    rw [List.find?_eq_none]
    intro x hx
    simp [h x hx]
  simp [look, this]

theorem look_some {r : List Item} (hn : (r.map (·.1)).Nodup) {x : Item} (hx : x ∈ r) : look r x.1 = some x.2.2 := by
  induction r with
  | nil => cases hx
  | cons y r ih =>
    rw [List.map_cons, List.nodup_cons] at hn
    rcases List.mem_cons.1 hx with rfl | hx
    · simp [look]
    · have hne : y.1 ≠ x.1 := fun h => hn.1 (h ▸ List.mem_map.2 ⟨x, hx, rfl⟩)
      have := ih hn.2 hx
      simp only [look] at this ⊢
      rw [List.find?_cons_of_neg (by simpa using hne)]
      exact this

theorem mem_of_look {r : List Item} {n : String} {v : Val} (h : look r n = some v) : ∃ x ∈ r, x.1 = n ∧ x.2.2 = v := by
  unfold look at h
  cases hf : r.find? (fun x => decide (x.1 = n)) with
  | none => simp [hf] at h
  | some x =>
    have h1 := List.find?_some hf
    exact ⟨x, List.mem_of_find?_eq_some hf, by simpa using h1, by simpa [hf] using h⟩

theorem look_append {r : List Item} {x : Item} (n : String) (hx : ∀ y ∈ r, y.1 ≠ x.1) :
    look (r ++ [x]) n = if n = x.1 then some x.2.2 else look r n := by
  by_cases hn : n = x.1
  · subst hn
    have : r.find? (fun y => decide (y.1 = x.1)) = none := by
      rw [List.find?_eq_none]; intro y hy; simp [hx y hy]
    simp [look, List.find?_append, this]
  · simp [look, List.find?_append, hn, Ne.symm hn]

/-- The value of a column in a row that is there. -/
def Column.at (c : Column) (i : Nat) : Option Val := if c.valid[i]? = some true then c.data[i]? else none

theorem Column.put_spec {c c' : Column} {row : Nat} {v : Val} (h : c.put row v = .ok c') (hl : c.valid.length ≤ c.data.length) :
    tyOf v = c.ty ∧ c'.ct = c.ct ∧ c'.ty = c.ty ∧ c'.data.length = row + 1 ∧ c'.valid.length = row + 1 ∧
      c'.at row = some v ∧ ∀ i, i < row → c'.at i = c.at i := by
  unfold Column.put at h
  split at h
  · rename_i ht
    cases h
    have e1 : ((c.valid ++ List.replicate (row - c.valid.length) false).take row).length = row := by simp; omega
    have e2 : ((c.data ++ List.replicate (row + 1 - c.data.length) (zero c.ty)).take (row + 1)).length = row + 1 := by simp; omega
    refine ⟨ht, rfl, rfl, by simp only [List.length_set]; exact e2, by simp only [List.length_append, e1]; rfl, ?_, ?_⟩
    · unfold Column.at
      simp only
      rw [List.getElem?_append_right (by omega), e1, List.getElem?_set_self (by omega)]
      simp
    · intro i hi
      unfold Column.at
      simp only
      rw [List.getElem?_append_left (by omega), List.getElem?_take_of_lt hi, List.getElem?_set_ne (by omega),
        List.getElem?_take_of_lt (by omega)]
      by_cases h1 : i < c.valid.length
      · rw [List.getElem?_append_left h1, List.getElem?_append_left (by omega)]
      · rw [List.getElem?_append_right (by omega), List.getElem?_replicate, List.getElem?_eq_none (l := c.valid) (by omega)]
        simp
  · cases h

/-- `done` are the rows before, `cur` is what the current row has so far. -/
structure Inv (b : Batch) (done : List (List Item)) (cur : List Item) : Prop where
  rows : b.rows = done.length
  names : (b.cols.map (·.1)).Nodup
  len : ∀ e ∈ b.cols, e.2.data.length = e.2.valid.length ∧ 0 < e.2.valid.length ∧
    (e.2.valid.length ≤ b.rows ∨ (e.2.valid.length ≤ b.rows + 1 ∧ ∃ x ∈ cur, x.1 = e.1))
  has : ∀ e ∈ b.cols, ∀ i r, (done ++ [cur])[i]? = some r → e.2.at i = look r e.1
  src : ∀ e ∈ b.cols, ∃ r ∈ done ++ [cur], ∃ x ∈ r, x.1 = e.1 ∧ x.2.1 = e.2.ct
  ty : ∀ e ∈ b.cols, ∀ r ∈ done ++ [cur], ∀ x ∈ r, x.1 = e.1 → tyOf x.2.2 = e.2.ty
  all : ∀ r ∈ done ++ [cur], ∀ x ∈ r, ∃ c, (x.1, c) ∈ b.cols

theorem inv_empty : Inv .empty [] [] := by
  refine ⟨rfl, by simp [Batch.empty], by simp [Batch.empty], by simp [Batch.empty], by simp [Batch.empty], by simp [Batch.empty],
    by simp⟩

theorem eq_of_fst {cols : List (String × Column)} (h : (cols.map (·.1)).Nodup) {a b : String × Column} (ha : a ∈ cols) (hb : b ∈ cols)
    (he : a.1 = b.1) : a = b := by
  induction cols with
  | nil => cases ha
  | cons x l ih =>
    rw [List.map_cons, List.nodup_cons] at h
    rcases List.mem_cons.1 ha with ha' | ha' <;> rcases List.mem_cons.1 hb with hb' | hb'
    · rw [ha', hb']
    · exact absurd (List.mem_map.2 ⟨b, hb', by rw [← he, ha']⟩) h.1
    · exact absurd (List.mem_map.2 ⟨a, ha', by rw [he, hb']⟩) h.1
    · exact ih h.2 ha' hb'

theorem inv_put {b b' : Batch} {done : List (List Item)} {cur : List Item} {x : Item} (h : Inv b done cur)
    (hx : ∀ y ∈ cur, y.1 ≠ x.1) (hp : b.put x.1 x.2.1 x.2.2 = .ok b') : Inv b' done (cur ++ [x]) := by
  have hget : ∀ (i : Nat) (r : List Item), (done ++ [cur ++ [x]])[i]? = some r →
      (i < done.length ∧ (done ++ [cur])[i]? = some r) ∨ (i = done.length ∧ r = cur ++ [x]) := by
    intro i r hr
    by_cases hi : i < done.length
    · rw [List.getElem?_append_left hi] at hr
      exact .inl ⟨hi, by rw [List.getElem?_append_left hi]; exact hr⟩
    · rw [List.getElem?_append_right (by omega)] at hr
      obtain ⟨hlt, he⟩ := List.getElem?_eq_some_iff.1 hr
      simp only [List.length_singleton] at hlt
      have h0 : i - done.length = 0 := by omega
      simp only [h0, List.getElem_cons_zero] at he
      exact .inr ⟨by omega, he.symm⟩
  have hmem : ∀ r, r ∈ done ++ [cur ++ [x]] → r ∈ done ∨ r = cur ++ [x] := by
    intro r hr; simpa using hr
  unfold Batch.put at hp
  cases hf : b.cols.find? (fun e => decide (e.1 = x.1)) with
  | none =>
    rw [hf] at hp
    simp only at hp
    cases hc : (Column.new b.rows x.2.1 (tyOf x.2.2)).put b.rows x.2.2 with
    | error e => rw [hc] at hp; cases hp
    | ok c =>
      rw [hc] at hp
      cases hp
      obtain ⟨p1, p2, p3, p4, p5, p6, p7⟩ := Column.put_spec hc (by simp [Column.new])
      have hnew : ∀ e ∈ b.cols, e.1 ≠ x.1 := by
        intro e he
        have := List.find?_eq_none.1 hf e he
        simpa using this
      have hnone : ∀ r ∈ done ++ [cur], ∀ y ∈ r, y.1 ≠ x.1 := by
        intro r hr y hy hyx
        obtain ⟨c', hc'⟩ := h.all r hr y hy
        exact hnew _ hc' hyx
      refine ⟨h.rows, ?_, ?_, ?_, ?_, ?_, ?_⟩
      · simp only [List.map_append, List.map_cons, List.map_nil]
        rw [List.nodup_append]
        refine ⟨h.names, by simp, ?_⟩
        intro a ha b' hb' hab
        obtain ⟨e, he, rfl⟩ := List.mem_map.1 ha
        simp only [List.mem_singleton] at hb'
        exact hnew e he (hab.trans hb')
      · intro e he
        rcases List.mem_append.1 he with he | he
        · obtain ⟨l1, l2, l3⟩ := h.len e he
          refine ⟨l1, l2, ?_⟩
          rcases l3 with l3 | ⟨l3, y, hy, hy'⟩
          · exact .inl l3
          · exact .inr ⟨l3, y, by simp [hy], hy'⟩
        · simp only [List.mem_singleton] at he
          subst he
          exact ⟨by rw [p4, p5], by simp only; omega, .inr ⟨by simp only; omega, x, by simp, rfl⟩⟩
      · intro e he i r hr
        rcases List.mem_append.1 he with he | he
        · rcases hget i r hr with ⟨_, hr⟩ | ⟨hi, rfl⟩
          · exact h.has e he i r hr
          · rw [look_append _ hx, if_neg (hnew e he)]
            exact h.has e he i cur (by rw [hi]; simp)
        · simp only [List.mem_singleton] at he
          subst he
          rcases hget i r hr with ⟨hi, hr⟩ | ⟨hi, rfl⟩
          · rw [look_none (hnone r (List.mem_of_getElem? hr)), p7 i (by rw [h.rows]; exact hi)]
            simp [Column.at, Column.new]
          · rw [look_append _ hx, if_pos rfl, hi, ← h.rows, p6]
      · intro e he
        rcases List.mem_append.1 he with he | he
        · obtain ⟨r, hr, y, hy, h1, h2⟩ := h.src e he
          rcases List.mem_append.1 hr with hr | hr
          · exact ⟨r, by simp [hr], y, hy, h1, h2⟩
          · simp only [List.mem_singleton] at hr
            subst hr
            exact ⟨r ++ [x], by simp, y, by simp [hy], h1, h2⟩
        · simp only [List.mem_singleton] at he
          subst he
          exact ⟨cur ++ [x], by simp, x, by simp, rfl, by rw [p2]; rfl⟩
      · intro e he r hr y hy hye
        rcases List.mem_append.1 he with he1 | he
        · rcases hmem r hr with hr | rfl
          · exact h.ty e he1 r (by simp [hr]) y hy hye
          · rcases List.mem_append.1 hy with hy | hy
            · exact h.ty e he1 cur (by simp) y hy hye
            · simp only [List.mem_singleton] at hy
              subst hy
              exact absurd hye.symm (hnew e he1)
        · simp only [List.mem_singleton] at he
          subst he
          rcases hmem r hr with hr | rfl
          · exact absurd hye (hnone r (by simp [hr]) y hy)
          · rcases List.mem_append.1 hy with hy | hy
            · exact absurd hye (hnone cur (by simp) y hy)
            · simp only [List.mem_singleton] at hy
              subst hy
              rw [p3]; rfl
      · intro r hr y hy
        rcases hmem r hr with hr | rfl
        · obtain ⟨c', hc'⟩ := h.all r (by simp [hr]) y hy
          exact ⟨c', by simp [hc']⟩
        · rcases List.mem_append.1 hy with hy | hy
          · obtain ⟨c', hc'⟩ := h.all cur (by simp) y hy
            exact ⟨c', by simp [hc']⟩
          · simp only [List.mem_singleton] at hy
            subst hy
            exact ⟨c, by simp⟩
  | some e0 =>
    rw [hf] at hp
    simp only at hp
    have he0 := List.mem_of_find?_eq_some hf
    have hn0 : e0.1 = x.1 := by simpa using List.find?_some hf
    cases hc : e0.2.put b.rows x.2.2 with
    | error e => rw [hc] at hp; cases hp
    | ok c =>
      rw [hc] at hp
      cases hp
      obtain ⟨p1, p2, p3, p4, p5, p6, p7⟩ := Column.put_spec hc (by rw [(h.len e0 he0).1])
      have hsplit : ∀ e, e ∈ b.cols.map (fun y => if y.1 = x.1 then (x.1, c) else y) →
          (e ∈ b.cols ∧ e.1 ≠ x.1) ∨ e = (x.1, c) := by
        intro e he
        obtain ⟨y, hy, rfl⟩ := List.mem_map.1 he
        by_cases hyx : y.1 = x.1
        · exact .inr (by simp [hyx])
        · exact .inl ⟨by simpa [hyx] using hy, by simp [hyx]⟩
      have hin : (x.1, c) ∈ b.cols.map (fun y => if y.1 = x.1 then (x.1, c) else y) := by
        rw [List.mem_map]; exact ⟨e0, he0, by simp [hn0]⟩
      have hkeep : ∀ y ∈ b.cols, y.1 ≠ x.1 → y ∈ b.cols.map (fun y => if y.1 = x.1 then (x.1, c) else y) := by
        intro y hy hyx
        rw [List.mem_map]; exact ⟨y, hy, by simp [hyx]⟩
      refine ⟨h.rows, ?_, ?_, ?_, ?_, ?_, ?_⟩
      · have : (b.cols.map (fun y => if y.1 = x.1 then (x.1, c) else y)).map (·.1) = b.cols.map (·.1) := by
          rw [List.map_map]
          apply List.map_congr_left
          intro y _
          by_cases hyx : y.1 = x.1 <;> simp [hyx]
        simp only
        rw [this]
        exact h.names
      · intro e he
        rcases hsplit e he with ⟨he, _⟩ | rfl
        · obtain ⟨l1, l2, l3⟩ := h.len e he
          refine ⟨l1, l2, ?_⟩
          rcases l3 with l3 | ⟨l3, y, hy, hy'⟩
          · exact .inl l3
          · exact .inr ⟨l3, y, by simp [hy], hy'⟩
        · exact ⟨by rw [p4, p5], by simp only; omega, .inr ⟨by simp only; omega, x, by simp, rfl⟩⟩
      · intro e he i r hr
        rcases hsplit e he with ⟨he, hne⟩ | rfl
        · rcases hget i r hr with ⟨_, hr⟩ | ⟨hi, rfl⟩
          · exact h.has e he i r hr
          · rw [look_append _ hx, if_neg hne]
            exact h.has e he i cur (by rw [hi]; simp)
        · rcases hget i r hr with ⟨hi, hr⟩ | ⟨hi, rfl⟩
          · rw [p7 i (by rw [h.rows]; exact hi), ← hn0]
            exact h.has e0 he0 i r hr
          · rw [look_append _ hx, if_pos rfl, hi, ← h.rows, p6]
      · intro e he
        have hlift : ∀ e1 : String × Column, e1 ∈ b.cols → ∃ r ∈ done ++ [cur ++ [x]], ∃ y ∈ r, y.1 = e1.1 ∧ y.2.1 = e1.2.ct := by
          intro e1 he1
          obtain ⟨r, hr, y, hy, h1, h2⟩ := h.src e1 he1
          rcases List.mem_append.1 hr with hr | hr
          · exact ⟨r, by simp [hr], y, hy, h1, h2⟩
          · simp only [List.mem_singleton] at hr
            subst hr
            exact ⟨r ++ [x], by simp, y, by simp [hy], h1, h2⟩
        rcases hsplit e he with ⟨he, _⟩ | rfl
        · exact hlift e he
        · obtain ⟨r, hr, y, hy, h1, h2⟩ := hlift e0 he0
          exact ⟨r, hr, y, hy, by rw [h1, hn0], by rw [h2, p2]⟩
      · intro e he r hr y hy hye
        have hold : ∀ e1 : String × Column, e1 ∈ b.cols → ∀ y, (∃ r ∈ done ++ [cur], y ∈ r) → y.1 = e1.1 → tyOf y.2.2 = e1.2.ty :=
          fun e1 he1 y ⟨r, hr, hy⟩ h1 => h.ty e1 he1 r hr y hy h1
        have hy' : (∃ r ∈ done ++ [cur], y ∈ r) ∨ y = x := by
          rcases hmem r hr with hr | rfl
          · exact .inl ⟨r, by simp [hr], hy⟩
          · rcases List.mem_append.1 hy with hy | hy
            · exact .inl ⟨cur, by simp, hy⟩
            · exact .inr (by simpa using hy)
        rcases hsplit e he with ⟨he, hne⟩ | rfl
        · rcases hy' with hy' | rfl
          · exact hold e he y hy' hye
          · exact absurd hye.symm hne
        · rcases hy' with hy' | rfl
          · rw [hold e0 he0 y hy' (by rw [hye, hn0]), p3]
          · rw [p1, p3]
      · intro r hr y hy
        have hold : ∀ y : Item, (∃ r ∈ done ++ [cur], y ∈ r) → ∃ c', (y.1, c') ∈ b.cols.map (fun y => if y.1 = x.1 then (x.1, c) else y) := by
          rintro y ⟨r, hr, hy⟩
          obtain ⟨c', hc'⟩ := h.all r hr y hy
          by_cases hyx : y.1 = x.1
          · exact ⟨c, by rw [hyx]; exact hin⟩
          · exact ⟨c', hkeep _ hc' hyx⟩
        rcases hmem r hr with hr | rfl
        · exact hold y ⟨r, by simp [hr], hy⟩
        · rcases List.mem_append.1 hy with hy | hy
          · exact hold y ⟨cur, by simp, hy⟩
          · simp only [List.mem_singleton] at hy
            subst hy
            exact ⟨c, hin⟩

theorem inv_putAll {done : List (List Item)} : ∀ (l : List Item) {b b' : Batch} {cur : List Item}, Inv b done cur →
    ((cur ++ l).map (·.1)).Nodup → Batch.putAll l b = .ok b' → Inv b' done (cur ++ l) ∧ b'.rows = b.rows
  | [], b, b', cur, h, _, hp => by
    cases hp
    exact ⟨by simpa using h, rfl⟩
  | x :: l, b, b', cur, h, hn, hp => by
    unfold Batch.putAll at hp
    cases hb : b.put x.1 x.2.1 x.2.2 with
    | error e => rw [hb] at hp; cases hp
    | ok b1 =>
      rw [hb] at hp
      have hx : ∀ y ∈ cur, y.1 ≠ x.1 := by
        intro y hy hyx
        rw [List.map_append, List.nodup_append] at hn
        exact hn.2.2 _ (List.mem_map.2 ⟨y, hy, rfl⟩) _ (List.mem_map.2 ⟨x, by simp, rfl⟩) hyx
      have h1 := inv_put h hx hb
      obtain ⟨h2, h3⟩ := inv_putAll l h1 (by simpa using hn) hp
      refine ⟨by simpa using h2, ?_⟩
      rw [h3]
      have e1 := h1.rows
      have e2 := h.rows
      omega

theorem inv_next {b : Batch} {done : List (List Item)} {cur : List Item} (h : Inv b done cur) :
    Inv { b with rows := b.rows + 1 } (done ++ [cur]) [] := by
  have hl : ∀ r, r ∈ done ++ [cur] ++ [[]] → r ∈ done ++ [cur] ∨ r = [] := by
    intro r hr
    rcases List.mem_append.1 hr with hr | hr
    · exact .inl hr
    · exact .inr (by simpa using hr)
  refine ⟨by simp [h.rows], h.names, ?_, ?_, ?_, ?_, ?_⟩
  · intro e he
    obtain ⟨l1, l2, l3⟩ := h.len e he
    refine ⟨l1, l2, .inl ?_⟩
    rcases l3 with l3 | ⟨l3, _⟩ <;> simp only <;> omega
  · intro e he i r hr
    by_cases hi : i < (done ++ [cur]).length
    · rw [List.getElem?_append_left hi] at hr
      exact h.has e he i r hr
    · rw [List.getElem?_append_right (by omega)] at hr
      obtain ⟨hlt, he'⟩ := List.getElem?_eq_some_iff.1 hr
      have hr0 : r = [] := by
        have : r ∈ [([] : List Item)] := List.mem_of_getElem? hr
        simpa using this
      subst hr0
      have hv : e.2.valid[i]? = none := by
        rw [List.getElem?_eq_none_iff]
        obtain ⟨_, _, l3⟩ := h.len e he
        have := h.rows
        simp only [List.length_append, List.length_singleton] at hi
        rcases l3 with l3 | ⟨l3, _⟩ <;> omega
      simp [Column.at, hv, look]
  · intro e he
    obtain ⟨r, hr, y, hy⟩ := h.src e he
    exact ⟨r, by simp only [List.mem_append] at hr ⊢; exact .inl hr, y, hy⟩
  · intro e he r hr y hy
    rcases hl r hr with hr | rfl
    · exact h.ty e he r hr y hy
    · cases hy
  · intro r hr y hy
    rcases hl r hr with hr | rfl
    · exact h.all r hr y hy
    · cases hy

theorem inv_addLine {b b' : Batch} {done : List (List Item)} {l : Line} (h : Inv b done []) (hn : (l.items.map (·.1)).Nodup)
    (hp : b.addLine l = .ok b') : Inv b' (done ++ [l.items]) [] := by
  unfold Batch.addLine at hp
  cases hb : Batch.putAll l.items b with
  | error e => rw [hb] at hp; cases hp
  | ok b1 =>
    rw [hb] at hp
    cases hp
    exact inv_next (inv_putAll l.items h (by simpa using hn) hb).1

/-- The lines of a table added to its batch, one after the other. -/
def Batch.addAll : List Line → Batch → Except Err Batch
  | [], b => .ok b
  | l :: ls, b => (b.addLine l).bind (Batch.addAll ls)

theorem inv_addAll : ∀ (ls : List Line) {b b' : Batch} {done : List (List Item)}, Inv b done [] →
    (∀ l ∈ ls, (l.items.map (·.1)).Nodup) → Batch.addAll ls b = .ok b' → Inv b' (done ++ ls.map Line.items) []
  | [], b, b', done, h, _, hp => by cases hp; simpa using h
  | l :: ls, b, b', done, h, hn, hp => by
    unfold Batch.addAll at hp
    cases hb : b.addLine l with
    | error e => rw [hb] at hp; cases hp
    | ok b1 =>
      rw [hb] at hp
      have := inv_addAll ls (inv_addLine h (hn l (by simp)) hb) (fun l' hl' => hn l' (by simp [hl'])) hp
      simpa using this

/-- What the batch of a table holds does not depend on the lines of other tables. -/
theorem addLines_get : ∀ (ls : List Line) {m m' : AMap String Batch}, addLines ls m = .ok m' → ∀ t,
    Batch.addAll (ls.filter fun l => decide (l.table = t)) ((m.get t).getD .empty) = .ok ((m'.get t).getD .empty)
  | [], m, m', h, t => by cases h; rfl
  | l :: ls, m, m', h, t => by
    unfold addLines at h
    cases hb : ((m.get l.table).getD .empty).addLine l with
    | error e => rw [hb] at h; cases h
    | ok b =>
      rw [hb] at h
      have ih := addLines_get ls h t
      rw [AMap.get_set] at ih
      by_cases ht : l.table = t
      · subst ht
        rw [if_pos rfl] at ih
        rw [List.filter_cons_of_pos (by simp)]
        unfold Batch.addAll
        rw [hb]
        exact ih
      · rw [if_neg (Ne.symm ht)] at ih
        rw [List.filter_cons_of_neg (by simpa using ht)]
        exact ih

/-! ## The message -/

/-- The columns of a message hold the rows `done`. -/
structure Holds (m : Msg) (done : List (List Item)) : Prop where
  rows : m.rows = done.length
  names : (m.cols.map (·.1)).Nodup
  len : ∀ e ∈ m.cols, e.2.data.length = m.rows
  has : ∀ e ∈ m.cols, ∀ i r, done[i]? = some r → e.2.at i = look r e.1
  src : ∀ e ∈ m.cols, ∃ r ∈ done, ∃ x ∈ r, x.1 = e.1 ∧ x.2.1 = e.2.ct
  ty : ∀ e ∈ m.cols, ∀ r ∈ done, ∀ x ∈ r, x.1 = e.1 → tyOf x.2.2 = e.2.ty
  all : ∀ r ∈ done, ∀ x ∈ r, ∃ c, (x.1, c) ∈ m.cols

theorem Column.finish_spec {c : Column} {rows : Nat} (h1 : c.data.length = c.valid.length) (h2 : 0 < c.valid.length)
    (h3 : c.valid.length ≤ rows) : (c.finish rows).ct = c.ct ∧ (c.finish rows).ty = c.ty ∧ (c.finish rows).data.length = rows ∧
      ∀ i, (c.finish rows).at i = c.at i := by
  unfold Column.finish
  split
  · rename_i hl
    have hne : c.data ≠ [] := by intro h; rw [h] at h1; simp at h1; omega
    refine ⟨rfl, rfl, by simp [hne]; omega, ?_⟩
    intro i
    unfold Column.at
    simp only [hne, if_false]
    by_cases hi : i < c.valid.length
    · rw [List.getElem?_append_left hi, List.getElem?_append_left (by omega)]
    · rw [List.getElem?_append_right (by omega), List.getElem?_replicate, List.getElem?_eq_none (l := c.valid) (by omega)]
      simp
  · exact ⟨rfl, rfl, by omega, fun _ => rfl⟩

theorem holds_msg {b : Batch} {done : List (List Item)} (h : Inv b done []) : Holds b.msg done := by
  have hmem : ∀ e, e ∈ b.msg.cols → ∃ c, (e.1, c) ∈ b.cols ∧ e.2 = c.finish b.rows := by
    intro e he
    have := Sort.mem_sortBy.1 he
    obtain ⟨y, hy, rfl⟩ := List.mem_map.1 this
    exact ⟨y.2, hy, rfl⟩
  have hback : ∀ n c, (n, c) ∈ b.cols → (n, c.finish b.rows) ∈ b.msg.cols := by
    intro n c hc
    exact Sort.mem_sortBy.2 (List.mem_map.2 ⟨(n, c), hc, rfl⟩)
  have hfin : ∀ n c, (n, c) ∈ b.cols → (c.finish b.rows).ct = c.ct ∧ (c.finish b.rows).ty = c.ty ∧
      (c.finish b.rows).data.length = b.rows ∧ ∀ i, (c.finish b.rows).at i = c.at i := by
    intro n c hc
    obtain ⟨l1, l2, l3⟩ := h.len _ hc
    refine Column.finish_spec l1 l2 ?_
    rcases l3 with l3 | ⟨_, x, hx, _⟩
    · exact l3
    · cases hx
  refine ⟨h.rows, ?_, ?_, ?_, ?_, ?_, ?_⟩
  · have hp : (b.msg.cols.map (·.1)).Perm (b.finish.cols.map (·.1)) := (Sort.sortBy_perm _ _).map _
    rw [hp.nodup_iff]
    have : b.finish.cols.map (·.1) = b.cols.map (·.1) := by
      unfold Batch.finish
      simp [List.map_map, Function.comp_def]
    rw [this]
    exact h.names
  · intro e he
    obtain ⟨c, hc, he2⟩ := hmem e he
    rw [he2, (hfin _ _ hc).2.2.1]
    rfl
  · intro e he i r hr
    obtain ⟨c, hc, he2⟩ := hmem e he
    rw [he2, (hfin _ _ hc).2.2.2]
    refine h.has _ hc i r ?_
    obtain ⟨hlt, _⟩ := List.getElem?_eq_some_iff.1 hr
    rw [List.getElem?_append_left hlt]
    exact hr
  · intro e he
    obtain ⟨c, hc, he2⟩ := hmem e he
    rw [he2, (hfin _ _ hc).1]
    obtain ⟨r, hr, x, hx, h1, h2⟩ := h.src _ hc
    rcases List.mem_append.1 hr with hr | hr
    · exact ⟨r, hr, x, hx, h1, h2⟩
    · simp only [List.mem_singleton] at hr
      subst hr
      cases hx
  · intro e he r hr x hx hxe
    obtain ⟨c, hc, he2⟩ := hmem e he
    rw [he2, (hfin _ _ hc).2.1]
    exact h.ty _ hc r (by simp [hr]) x hx hxe
  · intro r hr x hx
    obtain ⟨c, hc⟩ := h.all r (by simp [hr]) x hx
    exact ⟨_, hback _ _ hc⟩

/-! ## The cells of a row -/

/-- No name occurs twice in a line, and a name is always a tag, always a field or always the time. -/
structure Clean (ls : List Line) : Prop where
  names : ∀ l ∈ ls, (l.items.map (·.1)).Nodup
  kinds : ∀ l ∈ ls, ∀ l' ∈ ls, ∀ x ∈ l.items, ∀ y ∈ l'.items, x.1 = y.1 → x.2.1 = y.2.1

/-- The cells of a row of a message. -/
def cells (cols : List (String × Column)) (i : Nat) : List Item := cols.filterMap fun e => (e.2.at i).map fun v => (e.1, e.2.ct, v)

theorem nodup_of_map {α β : Type} (f : α → β) {l : List α} (h : (l.map f).Nodup) : l.Nodup := by
  induction l with
  | nil => simp
  | cons a l ih =>
    rw [List.map_cons, List.nodup_cons] at h
    rw [List.nodup_cons]
    exact ⟨fun ha => h.1 (List.mem_map.2 ⟨a, ha, rfl⟩), ih h.2⟩

/-- The message has, in every row, exactly the cells of the line of that row. -/
theorem cells_perm {m : Msg} {ls : List Line} (hc : Clean ls) (h : Holds m (ls.map Line.items)) {i : Nat} {l : Line}
    (hl : ls[i]? = some l) : (cells m.cols i).Perm l.items := by
  have hmem : l ∈ ls := List.mem_of_getElem? hl
  have hr : (ls.map Line.items)[i]? = some l.items := by simp [hl]
  have hnl := hc.names l hmem
  have hnc : (cells m.cols i).Nodup := by
    have hnodup := h.names
    rw [List.nodup_iff_pairwise_ne, List.pairwise_map] at hnodup
    rw [List.nodup_iff_pairwise_ne]
    unfold cells
    rw [List.pairwise_filterMap]
    refine hnodup.imp ?_
    intro a a' hne b hb b' hb' hbb
    cases ha : a.2.at i with
    | none => simp [ha] at hb
    | some v =>
      cases ha' : a'.2.at i with
      | none => simp [ha'] at hb'
      | some v' =>
        simp only [ha, ha', Option.map_some, Option.some.injEq] at hb hb'
        rw [← hb, ← hb'] at hbb
        exact hne (congrArg (·.1) hbb)
  rw [List.perm_ext_iff_of_nodup hnc (nodup_of_map _ hnl)]
  intro x
  unfold cells
  rw [List.mem_filterMap]
  constructor
  · rintro ⟨e, he, hx⟩
    rw [h.has e he i _ hr] at hx
    cases hlk : look l.items e.1 with
    | none => simp [hlk] at hx
    | some v =>
      simp only [hlk, Option.map_some, Option.some.injEq] at hx
      obtain ⟨y, hy, h1, h2⟩ := mem_of_look hlk
      obtain ⟨r, hr', z, hz, h3, h4⟩ := h.src e he
      obtain ⟨l', hl', rfl⟩ := List.mem_map.1 hr'
      have hk := hc.kinds l' hl' l hmem z hz y hy (h3.trans h1.symm)
      have : x = y := by
        rw [← hx, ← h1, ← h2, ← h4, hk]
      rw [this]
      exact hy
  · intro hx
    obtain ⟨c, hcm⟩ := h.all l.items (List.mem_of_getElem? hr) x hx
    refine ⟨(x.1, c), hcm, ?_⟩
    rw [h.has _ hcm i _ hr]
    simp only
    rw [look_some hnl hx]
    obtain ⟨r, hr', z, hz, h3, h4⟩ := h.src _ hcm
    obtain ⟨l', hl', rfl⟩ := List.mem_map.1 hr'
    have hk := hc.kinds l' hl' l hmem z hz x hx h3
    simp only at h4
    rw [Option.map_some, ← h4, hk]

end Verif.Write
