import Verif.Write.Spec
/-!
# C101: a write request stores its lines; C102: values have the type of their column
-/
namespace Verif.Write
open Verif.Schema
open Verif.Stats (Val)
open Verif.Utils (Bytes bytesLe)

/-- The lines of a request for a table. -/
def linesOf (ls : List Line) (tab : String) : List Line := ls.filter fun l => decide (l.table = tab)

/-- A write request of lines, as far as the table `tab` goes: the table's new schema, and for every row its series key and values. -/
def write (conv : Int → Option Int) (strict : Bool) (cur : Option Table) (ls : List Line) (tab : String) :
    Except Err (Table × List (List (Nat × Bytes) × Row)) :=
  (message ls).bind fun m => ((m.get tab).getD .empty).msg.write conv strict cur

theorem message_inv {ls : List Line} {m : AMap String Batch} (h : message ls = .ok m) {tab : String}
    (hc : ∀ l ∈ linesOf ls tab, (l.items.map (·.1)).Nodup) :
    Inv ((m.get tab).getD .empty) ((linesOf ls tab).map Line.items) [] := by
  have := inv_addAll (linesOf ls tab) inv_empty hc (addLines_get ls h tab)
  simpa using this

theorem write_ok {conv : Int → Option Int} {strict : Bool} {cur : Option Table} {ls : List Line} {tab : String} {t : Table}
    {out : List (List (Nat × Bytes) × Row)} (h : write conv strict cur ls tab = .ok (t, out)) :
    ∃ m r, message ls = .ok m ∧ ((m.get tab).getD .empty).msg.req = .ok r ∧ Msg.schema strict cur r = .ok t ∧
      ((m.get tab).getD .empty).msg.rowsWith conv t = .ok out := by
  unfold write at h
  cases hm : message ls with
  | error e => rw [hm] at h; cases h
  | ok m =>
    rw [hm, bind_ok] at h
    unfold Msg.write at h
    cases hr : ((m.get tab).getD .empty).msg.req with
    | error e => rw [hr] at h; cases h
    | ok r =>
      rw [hr, bind_ok] at h
      cases hs : Msg.schema strict cur r with
      | error e => rw [hs] at h; cases h
      | ok t' =>
        rw [hs, bind_ok] at h
        cases ho : ((m.get tab).getD .empty).msg.rowsWith conv t' with
        | error e => rw [ho] at h; cases h
        | ok out' =>
          rw [ho] at h
          cases h
          exact ⟨m, r, rfl, hr, hs, ho⟩

theorem schema_ok {cur : Option Table} {r : Req} {t : Table} (hw : ∀ t ∈ cur, t.WF) (h : Msg.schema false cur r = .ok t) :
    t.WF ∧ Covers t r := by
  unfold Msg.schema at h
  simp only [Bool.false_eq_true, if_false] at h
  cases hp : plan r cur with
  | none => rw [hp] at h; cases h
  | some y =>
    obtain ⟨t', a⟩ := y
    rw [hp] at h
    cases h
    cases cur with
    | none => exact ⟨(plan_none hp).1, (plan_none hp).2.1⟩
    | some t0 => exact ⟨(plan_some (hw t0 rfl) hp).1, (plan_some (hw t0 rfl) hp).2.1⟩

theorem req_ok {m : Msg} {r : Req} (h : m.req = .ok r) : r = ⟨(m.cols.filter fun e => decide (e.2.ct = .tag)).map (·.1),
    (m.cols.filter fun e => decide (e.2.ct = .field)).map fun e => (e.1, e.2.ty)⟩ := by
  unfold Msg.req at h
  split at h
  · cases h; rfl
  · cases h

/-- The columns of a request are those of its lines. -/
theorem covers_line {m : Msg} {ls : List Line} {t : Table} {r : Req} (hc : Clean ls) (h : Holds m (ls.map Line.items)) (ht : t.WF)
    (hr : m.req = .ok r) (hcov : Covers t r) {l : Line} (hl : l ∈ ls) :
    (∀ x ∈ l.tags, ∃ c, t.column x.1 = some c ∧ c.kind = .tag) ∧
    (∀ f ∈ l.fields, ∃ c, t.column f.1 = some c ∧ (c.kind = .field (tyOf f.2) ∨ (c.kind = .field .geometry ∧ tyOf f.2 = .string))) := by
  obtain ⟨i, hi⟩ := List.getElem?_of_mem hl
  have hp := cells_perm hc h hi
  have hre := req_ok hr
  refine ⟨fun x hx => ?_, fun f hf => ?_⟩
  · obtain ⟨e, he, h1, h2, _⟩ := mem_cells.1 (hp.mem_iff.2 (tag_item hx))
    obtain ⟨c, hcm, hcn, hck⟩ := hcov.1 x.1 (by
      rw [hre]
      exact List.mem_map.2 ⟨e, List.mem_filter.2 ⟨he, by simp [h2]⟩, h1⟩)
    exact ⟨c, (column_some ht).2 ⟨hcm, hcn⟩, hck⟩
  · obtain ⟨e, he, h1, h2, _⟩ := mem_cells.1 (hp.mem_iff.2 (field_item hf))
    have hty := h.ty e he l.items (List.mem_map.2 ⟨l, hl, rfl⟩) (f.1, .field, f.2) (field_item hf) h1.symm
    obtain ⟨c, hcm, hcn, hck⟩ := hcov.2 (f.1, e.2.ty) (by
      rw [hre]
      exact List.mem_map.2 ⟨e, List.mem_filter.2 ⟨he, by simp [h2]⟩, by rw [h1]⟩)
    exact ⟨c, (column_some ht).2 ⟨hcm, hcn⟩, by rw [hty]; exact hck⟩

/-! ## C101 -/

/-- What a line must have become: all its tags and fields, under the columns of their names, and nothing else. -/
structure Stored (conv : Int → Option Int) (t : Table) (l : Line) (p : List (Nat × Bytes) × Row) : Prop where
  /-- the tags of the key are those of the line -/
  tags : p.1.Perm (l.tags.filterMap fun x => (t.column x.1).map fun c => (c.id, x.2))
  allTags : ∀ x ∈ l.tags, ∃ c ∈ t.cols, c.name = x.1 ∧ c.kind = .tag ∧ (c.id, x.2) ∈ p.1
  /-- one value or null for every field of the table -/
  width : p.2.fields.length = (fieldIds t.cols).length
  /-- the values that are there are those of the line -/
  values : ∀ (i : Nat) (id : Nat) (v : Val), (fieldIds t.cols)[i]? = some id → (p.2.fields[i]? = some (some v) ↔
    ∃ c ∈ t.cols, c.id = id ∧ c.isField = true ∧ (c.name, v) ∈ l.fields)
  allFields : ∀ f ∈ l.fields, ∃ c ∈ t.cols, c.name = f.1 ∧ c.isField = true
  time : conv l.ts.toInt = some p.2.ts

/-- No name occurs twice among the tags or among the fields of a line; the parsers see to that (`sort_dedup_and_hash`). -/
def Distinct (ls : List Line) : Prop := ∀ l ∈ ls, (l.tags.map (·.1)).Nodup ∧ (l.fields.map (·.1)).Nodup

/-- An accepted write stores every line. -/
def C101Full : Prop := ∀ (conv : Int → Option Int) (strict : Bool) (cur : Option Table) (ls : List Line) (tab : String) (t : Table)
  (out : List (List (Nat × Bytes) × Row)), (∀ t ∈ cur, t.WF) → Distinct ls → write conv strict cur ls tab = .ok (t, out) →
  out.length = (linesOf ls tab).length ∧
    ∀ (i : Nat) l p, (linesOf ls tab)[i]? = some l → out[i]? = some p → Stored conv t l p

theorem cell_iff {t : Table} (ht : t.WF) {l : Line} (hn : (l.items.map (·.1)).Nodup) {c : Col} (hc : c ∈ t.cols) (v : Val) :
    l.cell t c.id = some v ↔ (c.name, v) ∈ l.fields := by
  have hcol := (column_some ht).2 ⟨hc, rfl⟩
  constructor
  · intro h
    unfold Line.cell at h
    cases hf : l.fields.find? (fun f => decide ((t.column f.1).map Col.id = some c.id)) with
    | none => rw [hf] at h; cases h
    | some f =>
      have h1 := List.find?_some hf
      have h2 := List.mem_of_find?_eq_some hf
      simp only [hf, Option.map_some, Option.some.injEq] at h
      cases hcf : t.column f.1 with
      | none => simp [hcf] at h1
      | some c' =>
        obtain ⟨m1, n1⟩ := (column_some ht).1 hcf
        have hid : c'.id = c.id := by simpa [hcf] using h1
        rw [← eq_of_id ht.ids m1 hc hid, n1, ← h]
        exact h2
  · intro h
    unfold Line.cell
    have hnf : (l.fields.map (·.1)).Nodup := by
      unfold Line.items at hn
      rw [List.map_append, List.map_append, List.nodup_append, List.nodup_append] at hn
      have := hn.1.2.1
      rwa [List.map_map] at this
    cases hf : l.fields.find? (fun f => decide ((t.column f.1).map Col.id = some c.id)) with
    | none =>
      have := List.find?_eq_none.1 hf _ h
      simp [hcol] at this
    | some f =>
      have h1 := List.find?_some hf
      have h2 := List.mem_of_find?_eq_some hf
      cases hcf : t.column f.1 with
      | none => simp [hcf] at h1
      | some c' =>
        obtain ⟨m1, n1⟩ := (column_some ht).1 hcf
        have hid : c'.id = c.id := by simpa [hcf] using h1
        have hce := eq_of_id ht.ids m1 hc hid
        have hfn : f.1 = c.name := by rw [← n1, hce]
        have : f = (c.name, v) := by
          generalize l.fields = fs at hnf h h2
          clear hf
          induction fs with
          | nil => cases h
          | cons x fs ih =>
            rw [List.map_cons, List.nodup_cons] at hnf
            rcases List.mem_cons.1 h with h' | h' <;> rcases List.mem_cons.1 h2 with h2' | h2'
            · rw [h2', h']
            · exact absurd (List.mem_map.2 ⟨f, h2', by rw [hfn, ← h']⟩) hnf.1
            · exact absurd (List.mem_map.2 ⟨_, h', by rw [← h2', hfn]⟩) hnf.1
            · exact ih hnf.2 h' h2'
        simp [this]

/-- It holds if the request extends the schema (not in strict mode) and no name is used for a tag and for a field.  Missing from
the full statement: strict mode, and names that are used for both. -/
theorem C101_write_partial {conv : Int → Option Int} {cur : Option Table} {ls : List Line} {tab : String} {t : Table}
    {out : List (List (Nat × Bytes) × Row)} (hw : ∀ t ∈ cur, t.WF) (hc : Clean (linesOf ls tab))
    (h : write conv false cur ls tab = .ok (t, out)) :
    out.length = (linesOf ls tab).length ∧
      ∀ (i : Nat) l p, (linesOf ls tab)[i]? = some l → out[i]? = some p → Stored conv t l p := by
  obtain ⟨m, r, h1, h2, h3, h4⟩ := write_ok h
  obtain ⟨ht, hcov⟩ := schema_ok hw h3
  have hh := holds_msg (message_inv h1 hc.names)
  obtain ⟨hfit, hout⟩ := (rowsWith_iff conv hc hh ht out).1 h4
  refine ⟨by rw [hout]; simp, ?_⟩
  intro i l p hl hp
  have hmem := List.mem_of_getElem? hl
  rw [hout, List.getElem?_map, hl] at hp
  cases hp
  obtain ⟨c1, c2⟩ := covers_line hc hh ht h2 hcov hmem
  have hkey : (l.key t).Perm (l.tags.filterMap fun x => (t.column x.1).map fun c => (c.id, x.2)) := Sort.sortBy_perm _ _
  refine ⟨hkey, ?_, by simp [Line.row], ?_, ?_, ?_⟩
  · intro x hx
    obtain ⟨c, hcol, hck⟩ := c1 x hx
    obtain ⟨hcm, hcn⟩ := (column_some ht).1 hcol
    refine ⟨c, hcm, hcn, hck, hkey.mem_iff.2 (List.mem_filterMap.2 ⟨x, hx, by simp [hcol]⟩)⟩
  · intro j id v hj
    simp only [Line.row]
    rw [List.getElem?_map, hj]
    obtain ⟨c, hcm, hcf, hcid⟩ := mem_fieldIds.1 (List.mem_of_getElem? hj)
    simp only [Option.map_some, Option.some.injEq]
    rw [← hcid, cell_iff ht (hc.names l hmem) hcm]
    constructor
    · intro hf; exact ⟨c, hcm, rfl, hcf, hf⟩
    · rintro ⟨c', hcm', hid', _, hf⟩
      rw [← eq_of_id ht.ids hcm' hcm hid']
      exact hf
  · intro f hf
    obtain ⟨c, hcol, hck⟩ := c2 f hf
    obtain ⟨hcm, hcn⟩ := (column_some ht).1 hcol
    refine ⟨c, hcm, hcn, ?_⟩
    rcases hck with hk | ⟨hk, _⟩ <;> simp [Col.isField, hk]
  · have := (hfit l hmem).time
    simp only [Line.row]
    cases hcv : conv l.ts.toInt with
    | none => exact absurd hcv this
    | some x => rfl

/-- Two lines of a request belong to one series iff they have the same tags. -/
theorem C101_series_partial {conv : Int → Option Int} {cur : Option Table} {ls : List Line} {tab : String} {t : Table}
    {out : List (List (Nat × Bytes) × Row)} (hw : ∀ t ∈ cur, t.WF) (hc : Clean (linesOf ls tab))
    (h : write conv false cur ls tab = .ok (t, out)) {i j : Nat} {l l' : Line} {p p' : List (Nat × Bytes) × Row}
    (hl : (linesOf ls tab)[i]? = some l) (hl' : (linesOf ls tab)[j]? = some l') (hp : out[i]? = some p) (hp' : out[j]? = some p') :
    p.1 = p'.1 ↔ l.tags.Perm l'.tags := by
  obtain ⟨m, r, h1, h2, h3, h4⟩ := write_ok h
  obtain ⟨ht, hcov⟩ := schema_ok hw h3
  have hh := holds_msg (message_inv h1 hc.names)
  obtain ⟨hfit, hout⟩ := (rowsWith_iff conv hc hh ht out).1 h4
  have hm := List.mem_of_getElem? hl
  have hm' := List.mem_of_getElem? hl'
  rw [hout, List.getElem?_map, hl] at hp
  cases hp
  rw [hout, List.getElem?_map, hl'] at hp'
  cases hp'
  have hdist : ∀ l ∈ linesOf ls tab, ((l.tags.filterMap fun x => (t.column x.1).map fun c => (c.id, x.2)).map (·.1)).Nodup := by
    intro l hl
    rw [← items_tags]
    exact tags_nodup ht (hc.names l hl)
  have hback : ∀ l ∈ linesOf ls tab, ∀ x : String × Bytes, x ∈ l.tags ↔ ∃ c, t.column x.1 = some c ∧ (c.id, x.2) ∈ l.key t := by
    intro l hl x
    have hkey : (l.key t).Perm (l.tags.filterMap fun x => (t.column x.1).map fun c => (c.id, x.2)) := Sort.sortBy_perm _ _
    constructor
    · intro hx
      obtain ⟨c, hcol, _⟩ := (covers_line hc hh ht h2 hcov hl).1 x hx
      exact ⟨c, hcol, hkey.mem_iff.2 (List.mem_filterMap.2 ⟨x, hx, by simp [hcol]⟩)⟩
    · rintro ⟨c, hcol, hk⟩
      obtain ⟨y, hy, hyk⟩ := List.mem_filterMap.1 (hkey.mem_iff.1 hk)
      cases hcy : t.column y.1 with
      | none => simp [hcy] at hyk
      | some c' =>
        simp only [hcy, Option.map_some, Option.some.injEq, Prod.mk.injEq] at hyk
        obtain ⟨m1, n1⟩ := (column_some ht).1 hcy
        obtain ⟨m2, n2⟩ := (column_some ht).1 hcol
        have : c' = c := eq_of_id ht.ids m1 m2 hyk.1
        have hxy : x = y := Prod.ext (by rw [← n2, ← this, n1]) hyk.2.symm
        rw [hxy]
        exact hy
  have htn : ∀ l ∈ linesOf ls tab, l.tags.Nodup := by
    intro l hl
    have := hc.names l hl
    unfold Line.items at this
    rw [List.map_append, List.map_append, List.nodup_append, List.nodup_append, List.map_map] at this
    exact nodup_of_map _ this.1.1
  constructor
  · intro he
    simp only at he
    rw [List.perm_ext_iff_of_nodup (htn l hm) (htn l' hm')]
    intro x
    rw [hback l hm, hback l' hm', he]
  · intro hp
    exact sortTags_perm (hp.filterMap _) (hdist l hm)

/-- The rows by series, if the index gives different ids to different keys: each series has its rows, in order. -/
theorem C101_group {sid : List (Nat × Bytes) → Nat} (hs : ∀ a b, sid a = sid b → a = b) (out : List (List (Nat × Bytes) × Row))
    (k : List (Nat × Bytes)) : (group sid out).get (sid k) =
      if (out.filter fun e => decide (e.1 = k)) = [] then none else some (k, (out.filter fun e => decide (e.1 = k)).map (·.2)) := by
  have hgen : ∀ (out : List (List (Nat × Bytes) × Row)) (pre : List (List (Nat × Bytes) × Row)) (m : AMap Nat (List (Nat × Bytes) × List Row)),
      (∀ k, m.get (sid k) = if (pre.filter fun e => decide (e.1 = k)) = [] then none else some (k, (pre.filter fun e => decide (e.1 = k)).map (·.2))) →
      ∀ k, (out.foldl (fun m e => match m.get (sid e.1) with
        | none => m.set (sid e.1) (e.1, [e.2])
        | some g => m.set (sid e.1) (g.1, g.2 ++ [e.2])) m).get (sid k) =
        if ((pre ++ out).filter fun e => decide (e.1 = k)) = [] then none
        else some (k, ((pre ++ out).filter fun e => decide (e.1 = k)).map (·.2)) := by
    intro out
    induction out with
    | nil => intro pre m hm k; rw [List.append_nil]; exact hm k
    | cons e out ih =>
      intro pre m hm k
      have := ih (pre ++ [e]) (match m.get (sid e.1) with
        | none => m.set (sid e.1) (e.1, [e.2])
        | some g => m.set (sid e.1) (g.1, g.2 ++ [e.2])) ?_ k
      · rw [List.append_assoc] at this; exact this
      · intro k'
        have hk := hm e.1
        by_cases hke : k' = e.1
        · subst hke
          by_cases he : (pre.filter fun x => decide (x.1 = e.1)) = []
          · rw [if_pos he] at hk
            rw [hk]
            simp only [AMap.get_set, if_true, List.filter_append, he, List.nil_append]
            simp
          · rw [if_neg he] at hk
            rw [hk]
            simp only [AMap.get_set, if_true, List.filter_append]
            simp
        · have hne : sid k' ≠ sid e.1 := fun h => hke (hs _ _ h)
          have hset : ∀ v, (m.set (sid e.1) v).get (sid k') = m.get (sid k') := by
            intro v; rw [AMap.get_set, if_neg hne]
          have : (match m.get (sid e.1) with
              | none => m.set (sid e.1) (e.1, [e.2])
              | some g => m.set (sid e.1) (g.1, g.2 ++ [e.2])).get (sid k') = m.get (sid k') := by
            cases m.get (sid e.1) with
            | none => exact hset _
            | some g => exact hset _
          rw [this, hm k', List.filter_append]
          have hn : List.filter (fun x : List (Nat × Bytes) × Row => decide (x.1 = k')) [e] = [] := by simp [Ne.symm hke]
          rw [hn, List.append_nil]
  exact hgen out [] .empty (by simp) k

/-! ## C102 -/

/-- Every value of a row has the type of its column; a geometry is given as a string. -/
def Typed (t : Table) (r : Row) : Prop := ∀ (i id : Nat) (v : Val), (fieldIds t.cols)[i]? = some id → r.fields[i]? = some (some v) →
  ∃ c ∈ t.cols, c.id = id ∧ (c.kind = .field (tyOf v) ∨ (c.kind = .field .geometry ∧ tyOf v = .string))

/-- The rows of an accepted write are of the types of the table. -/
def C102Full : Prop := ∀ (conv : Int → Option Int) (strict : Bool) (cur : Option Table) (ls : List Line) (tab : String) (t : Table)
  (out : List (List (Nat × Bytes) × Row)), (∀ t ∈ cur, t.WF) → write conv strict cur ls tab = .ok (t, out) → ∀ p ∈ out, Typed t p.2

theorem ne_geometry (v : Val) : tyOf v ≠ .geometry := by cases v <;> simp [tyOf]

/-- The data of a column are of its type. -/
def Column.Ok (c : Column) : Prop := c.ty ≠ .geometry ∧ ∀ v ∈ c.data, tyOf v = c.ty

theorem tyOf_zero {ty : Ty} (h : ty ≠ .geometry) : tyOf (zero ty) = ty := by
  cases ty <;> first | rfl | exact absurd rfl h

theorem Column.put_typed {c c' : Column} {row : Nat} {v : Val} (hc : c.Ok) (h : c.put row v = .ok c') : c'.Ok := by
  unfold Column.put at h
  split at h
  · rename_i ht
    cases h
    refine ⟨hc.1, fun w hw => ?_⟩
    simp only at hw
    rcases List.mem_or_eq_of_mem_set hw with hw | rfl
    · have := List.mem_of_mem_take hw
      rcases List.mem_append.1 this with hw | hw
      · exact hc.2 w hw
      · rw [(List.mem_replicate.1 hw).2]; exact tyOf_zero hc.1
    · exact ht
  · cases h

theorem put_typed {b b' : Batch} {n : String} {ct : CT} {v : Val} (hb : ∀ e ∈ b.cols, e.2.Ok) (h : b.put n ct v = .ok b') :
    ∀ e ∈ b'.cols, e.2.Ok := by
  unfold Batch.put at h
  cases hf : b.cols.find? (fun e => decide (e.1 = n)) with
  | none =>
    rw [hf] at h
    cases hc : (Column.new b.rows ct (tyOf v)).put b.rows v with
    | error e => rw [hc] at h; cases h
    | ok c =>
      rw [hc] at h
      cases h
      intro e he
      rcases List.mem_append.1 he with he | he
      · exact hb e he
      · simp only [List.mem_singleton] at he
        subst he
        refine Column.put_typed ⟨ne_geometry v, fun w hw => ?_⟩ hc
        simp only [Column.new] at hw ⊢
        rw [(List.mem_replicate.1 hw).2]
        exact tyOf_zero (ne_geometry v)
  | some e0 =>
    rw [hf] at h
    simp only at h
    cases hc : e0.2.put b.rows v with
    | error e => rw [hc] at h; cases h
    | ok c =>
      rw [hc] at h
      cases h
      intro e he
      obtain ⟨y, hy, rfl⟩ := List.mem_map.1 he
      split
      · exact Column.put_typed (hb e0 (List.mem_of_find?_eq_some hf)) hc
      · exact hb y hy

theorem putAll_typed : ∀ (l : List Item) {b b' : Batch}, (∀ e ∈ b.cols, e.2.Ok) → Batch.putAll l b = .ok b' → ∀ e ∈ b'.cols, e.2.Ok
  | [], b, b', hb, h => by cases h; exact hb
  | x :: l, b, b', hb, h => by
    unfold Batch.putAll at h
    cases hp : b.put x.1 x.2.1 x.2.2 with
    | error e => rw [hp] at h; cases h
    | ok b1 => rw [hp] at h; exact putAll_typed l (put_typed hb hp) h

theorem addLine_typed {b b' : Batch} {l : Line} (hb : ∀ e ∈ b.cols, e.2.Ok) (h : b.addLine l = .ok b') : ∀ e ∈ b'.cols, e.2.Ok := by
  unfold Batch.addLine at h
  cases hp : Batch.putAll l.items b with
  | error e => rw [hp] at h; cases h
  | ok b1 =>
    rw [hp] at h
    cases h
    have := putAll_typed _ hb hp
    exact this

theorem addLines_typed : ∀ (ls : List Line) {m m' : AMap String Batch}, (∀ n b, m.get n = some b → ∀ e ∈ b.cols, e.2.Ok) →
    addLines ls m = .ok m' → ∀ n b, m'.get n = some b → ∀ e ∈ b.cols, e.2.Ok
  | [], m, m', hm, h => by cases h; exact hm
  | l :: ls, m, m', hm, h => by
    unfold addLines at h
    cases hb : ((m.get l.table).getD .empty).addLine l with
    | error e => rw [hb] at h; cases h
    | ok b =>
      rw [hb] at h
      refine addLines_typed ls ?_ h
      intro n b' hn
      rw [AMap.get_set] at hn
      split at hn
      · cases hn
        refine addLine_typed ?_ hb
        cases hg : m.get l.table with
        | none => intro e he; cases he
        | some b0 => exact hm _ b0 hg
      · exact hm n b' hn

theorem finish_typed {c : Column} {rows : Nat} (h : c.Ok) : (c.finish rows).Ok := by
  unfold Column.finish
  split
  · refine ⟨h.1, fun v hv => ?_⟩
    simp only at hv
    split at hv
    · cases hv
    · rcases List.mem_append.1 hv with hv | hv
      · exact h.2 v hv
      · rw [(List.mem_replicate.1 hv).2]; exact tyOf_zero h.1
  · exact h

theorem msg_typed {b : Batch} (h : ∀ e ∈ b.cols, e.2.Ok) : ∀ e ∈ b.msg.cols, e.2.Ok := by
  intro e he
  obtain ⟨y, hy, rfl⟩ := List.mem_map.1 (Sort.mem_sortBy.1 he)
  exact finish_typed (h y hy)

theorem foldE_typed {t : Table} (ht : t.WF) {i : Nat} : ∀ (es : List (String × Column)) (s s' : List (Option Val) × Bool),
    (∀ e ∈ es, e.2.ct = .field → ∃ c ∈ t.cols, c.name = e.1 ∧ (c.kind = .field e.2.ty ∨ (c.kind = .field .geometry ∧ e.2.ty = .string))) →
    (∀ e ∈ es, e.2.Ok) → (∀ ts, Typed t ⟨ts, s.1⟩) → foldE (rowStep t i) s es = .ok s' → ∀ ts, Typed t ⟨ts, s'.1⟩
  | [], s, s', _, _, hs, h => by cases h; exact hs
  | e :: es, s, s', hcov, hok, hs, h => by
    rw [foldE_cons] at h
    cases hst : rowStep t i s e with
    | error x => rw [hst] at h; cases h
    | ok s1 =>
      rw [hst, bind_ok] at h
      refine foldE_typed ht es s1 s' (fun e he => hcov e (by simp [he])) (fun e he => hok e (by simp [he])) ?_ h
      unfold rowStep at hst
      split at hst
      · rename_i hct
        unfold Column.read at hst
        cases hd : e.2.data[i]? with
        | none => rw [hd] at hst; cases hst
        | some v =>
          rw [hd] at hst
          simp only [bind_ok] at hst
          split at hst
          · cases hst; exact hs
          · rename_i w hw
            have hwv : w = v := by
              split at hw
              · cases hw; rfl
              · cases hw
            subst hwv
            obtain ⟨c, hcm, hcn, hck⟩ := hcov e (by simp) hct
            rw [(column_some ht).2 ⟨hcm, hcn⟩] at hst
            simp only at hst
            cases hk : (fieldIds t.cols).idxOf? c.id with
            | none => rw [hk] at hst; cases hst
            | some k =>
              rw [hk] at hst
              cases hst
              intro ts j id v hj hv
              simp only at hv
              obtain ⟨hlt, hget, _⟩ := List.idxOf?_eq_some_iff.1 hk
              by_cases hjk : k = j
              · subst hjk
                by_cases hl : k < s.1.length
                · rw [List.getElem?_set_self hl] at hv
                  cases hv
                  rw [List.getElem?_eq_getElem hlt] at hj
                  cases hj
                  refine ⟨c, hcm, hget.symm, ?_⟩
                  rw [(hok e (by simp)).2 _ (List.mem_of_getElem? hd)]
                  exact hck
                · rw [List.getElem?_eq_none (by simp; omega)] at hv
                  cases hv
              · rw [List.getElem?_set_ne hjk] at hv
                exact hs ts j id v hj hv
      · cases hst; exact hs

/-- It holds, for all lines, if the request extends the schema.  Missing from the full statement: strict mode. -/
theorem C102_types_partial {conv : Int → Option Int} {cur : Option Table} {ls : List Line} {tab : String} {t : Table}
    {out : List (List (Nat × Bytes) × Row)} (hw : ∀ t ∈ cur, t.WF) (h : write conv false cur ls tab = .ok (t, out)) :
    ∀ p ∈ out, Typed t p.2 := by
  obtain ⟨m, r, h1, h2, h3, h4⟩ := write_ok h
  obtain ⟨ht, hcov⟩ := schema_ok hw h3
  have hb : ∀ e ∈ ((m.get tab).getD .empty).cols, e.2.Ok := by
    cases hg : m.get tab with
    | none => intro e he; cases he
    | some b => exact addLines_typed ls (by simp) h1 tab b hg
  have hm := msg_typed hb
  have hre := req_ok h2
  unfold Msg.rowsWith at h4
  rw [collect_ok] at h4
  intro p hp
  have : (Except.ok p : Except Err _) ∈ out.map .ok := List.mem_map.2 ⟨p, hp, rfl⟩
  rw [← h4] at this
  obtain ⟨i, _, hi⟩ := List.mem_map.1 this
  cases hk : keyOf t ((m.get tab).getD .empty).msg.cols i with
  | error e => rw [hk] at hi; cases hi
  | ok k =>
    rw [hk, bind_ok] at hi
    cases hrow : rowOf conv t ((m.get tab).getD .empty).msg.cols i with
    | error e => rw [hrow] at hi; cases hi
    | ok row =>
      rw [hrow] at hi
      cases hi
      unfold rowOf at hrow
      cases hf : foldE (rowStep t i) (List.replicate (fieldIds t.cols).length none, false) ((m.get tab).getD .empty).msg.cols with
      | error e => rw [hf] at hrow; cases hrow
      | ok s =>
        rw [hf, bind_ok] at hrow
        split at hrow
        · have hty := foldE_typed ht _ _ s (by
            intro e he hct
            exact hcov.2 (e.1, e.2.ty) (by rw [hre]; exact List.mem_map.2 ⟨e, List.mem_filter.2 ⟨he, by simp [hct]⟩, rfl⟩)) hm (by
            intro ts j id v _ hv
            simp only [List.getElem?_replicate] at hv
            split at hv <;> cases hv) hf
          cases htm : timeOf conv ((m.get tab).getD .empty).msg.cols i with
          | error e => rw [htm] at hrow; cases hrow
          | ok ts => rw [htm] at hrow; cases hrow; exact hty ts
        · cases hrow

end Verif.Write
