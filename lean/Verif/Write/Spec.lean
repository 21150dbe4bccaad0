import Verif.Write.Rows
/-!
# The rows of a message are those of its lines
-/
namespace Verif.Write
open Verif.Schema
open Verif.Stats (Val)
open Verif.Utils (Bytes bytesLe)

/-! ## The order of tag keys -/

/-- The number with given digits. -/
def undec (l : Bytes) : Nat := l.foldl (fun n d => 10 * n + (d.toNat - 48)) 0

theorem undec_dec (n : Nat) : undec (dec n) = n := by
  induction n using Nat.strongRecOn with
  | _ n ih =>
    unfold dec
    split
    · have : (48 + n) % 256 = 48 + n := by omega
      simp [undec, this]
    · have h1 : (48 + n % 10) % 256 = 48 + n % 10 := by omega
      have := ih (n / 10) (by omega)
      unfold undec at this ⊢
      rw [List.foldl_append, this]
      simp [h1]
      omega

theorem dec_inj {a b : Nat} (h : dec a = dec b) : a = b := by
  rw [← undec_dec a, h, undec_dec]

theorem eq_of_key {α : Type} {l : List (Nat × α)} (h : (l.map (·.1)).Nodup) {a b : Nat × α} (ha : a ∈ l) (hb : b ∈ l) (he : a.1 = b.1) :
    a = b := by
  induction l with
  | nil => cases ha
  | cons x l ih =>
    rw [List.map_cons, List.nodup_cons] at h
    rcases List.mem_cons.1 ha with ha' | ha' <;> rcases List.mem_cons.1 hb with hb' | hb'
    · rw [ha', hb']
    · exact absurd (List.mem_map.2 ⟨b, hb', by rw [← he, ha']⟩) h.1
    · exact absurd (List.mem_map.2 ⟨a, ha', by rw [he, hb']⟩) h.1
    · exact ih h.2 ha' hb'

/-- The order of the tags of a line does not matter. -/
theorem sortTags_perm {a b : List (Nat × Bytes)} (h : a.Perm b) (hn : (a.map (·.1)).Nodup) : sortTags a = sortTags b := by
  have hle : ∀ l : List (Nat × Bytes), (sortTags l).Pairwise (fun x y => bytesLe (dec x.1) (dec y.1) = true) := fun l =>
    Sort.sortBy_sorted (le := fun a b : Nat × Bytes => bytesLe (dec a.1) (dec b.1))
      (fun a b c => Utils.bytesLe_trans (dec a.1) (dec b.1) (dec c.1)) (fun a b => Utils.bytesLe_total (dec a.1) (dec b.1)) l
  have hp : (sortTags a).Perm (sortTags b) := ((Sort.sortBy_perm _ a).trans h).trans (Sort.sortBy_perm _ b).symm
  refine hp.eq_of_pairwise ?_ (hle a) (hle b)
  intro x y hx hy h1 h2
  have hx' : x ∈ a := Sort.mem_sortBy.1 hx
  have hy' : y ∈ a := h.mem_iff.2 (Sort.mem_sortBy.1 hy)
  exact eq_of_key hn hx' hy' (dec_inj (Utils.bytesLe_antisymm _ _ h1 h2))

/-! ## Items of lines -/

theorem items_tags (t : Table) (l : Line) : l.items.filterMap (tagOf t) = l.tags.filterMap fun x => (t.column x.1).map fun c => (c.id, x.2) := by
  unfold Line.items
  rw [List.filterMap_append, List.filterMap_append]
  have h2 : (l.fields.map fun x => ((x.1, CT.field, x.2) : Item)).filterMap (tagOf t) = [] := by
    rw [List.filterMap_eq_nil_iff]
    intro x hx
    obtain ⟨y, _, rfl⟩ := List.mem_map.1 hx
    simp [tagOf]
  have h1 : (l.tags.map fun x => ((x.1, CT.tag, Val.str x.2) : Item)).filterMap (tagOf t) =
      l.tags.filterMap fun x => (t.column x.1).map fun c => (c.id, x.2) := by
    rw [List.filterMap_map]
    rfl
  rw [h1, h2]
  simp [tagOf]

theorem items_fields (t : Table) (l : Line) : l.items.filterMap (fieldOf t) = l.fields.filterMap fun x => (t.column x.1).map fun c => (c.id, x.2) := by
  unfold Line.items
  rw [List.filterMap_append, List.filterMap_append]
  have h2 : (l.tags.map fun x => ((x.1, CT.tag, Val.str x.2) : Item)).filterMap (fieldOf t) = [] := by
    rw [List.filterMap_eq_nil_iff]
    intro x hx
    obtain ⟨y, _, rfl⟩ := List.mem_map.1 hx
    simp [fieldOf]
  have h1 : (l.fields.map fun x => ((x.1, CT.field, x.2) : Item)).filterMap (fieldOf t) =
      l.fields.filterMap fun x => (t.column x.1).map fun c => (c.id, x.2) := by
    rw [List.filterMap_map]
    rfl
  rw [h1, h2]
  simp [fieldOf]

/-- Different names are different columns. -/
theorem ids_nodup {t : Table} (ht : t.WF) {l : List (Nat × α)} {src : List β} {name : β → String} {f : β → Option (Nat × α)}
    (hn : (src.map name).Nodup) (hf : ∀ x p, f x = some p → ∃ c, t.column (name x) = some c ∧ c.id = p.1) (hl : l = src.filterMap f) :
    (l.map (·.1)).Nodup := by
  subst hl
  rw [List.nodup_iff_pairwise_ne, List.pairwise_map] at hn ⊢
  rw [List.pairwise_filterMap]
  refine hn.imp ?_
  intro a a' hne p hp p' hp' he
  obtain ⟨c, h1, h2⟩ := hf a p hp
  obtain ⟨c', h3, h4⟩ := hf a' p' hp'
  obtain ⟨m1, n1⟩ := (column_some ht).1 h1
  obtain ⟨m2, n2⟩ := (column_some ht).1 h3
  have := eq_of_id ht.ids m1 m2 (by rw [h2, h4, he])
  exact hne (by rw [← n1, ← n2, this])

theorem tags_nodup {t : Table} (ht : t.WF) {r : List Item} (hn : (r.map (·.1)).Nodup) : ((r.filterMap (tagOf t)).map (·.1)).Nodup := by
  refine ids_nodup ht hn (f := tagOf t) ?_ rfl
  intro x p hp
  unfold tagOf at hp
  split at hp
  · split at hp
    · cases hc : t.column x.1 with
      | none => simp [hc] at hp
      | some c => exact ⟨c, rfl, by rw [hc] at hp; cases hp; rfl⟩
    · cases hp
  · cases hp

theorem fields_nodup {t : Table} (ht : t.WF) {r : List Item} (hn : (r.map (·.1)).Nodup) : ((r.filterMap (fieldOf t)).map (·.1)).Nodup := by
  refine ids_nodup ht hn (f := fieldOf t) ?_ rfl
  intro x p hp
  unfold fieldOf at hp
  split at hp
  · cases hc : t.column x.1 with
    | none => simp [hc] at hp
    | some c => exact ⟨c, rfl, by rw [hc] at hp; cases hp; rfl⟩
  · cases hp

theorem over_perm {a b : List (Nat × Val)} (h : a.Perm b) (hn : (a.map (·.1)).Nodup) (g : Nat → Option Val) : over a g = over b g := by
  have hnb : (b.map (·.1)).Nodup := (h.map _).nodup_iff.1 hn
  funext id
  unfold over
  cases ha : a.find? (fun p => decide (p.1 = id)) with
  | none =>
    have : b.find? (fun p => decide (p.1 = id)) = none := by
      rw [List.find?_eq_none] at ha ⊢
      exact fun p hp => ha p (h.mem_iff.2 hp)
    rw [this]
  | some p =>
    have hpid : p.1 = id := by simpa using List.find?_some ha
    have hpb := h.mem_iff.1 (List.mem_of_find?_eq_some ha)
    cases hb : b.find? (fun p => decide (p.1 = id)) with
    | none =>
      have := List.find?_eq_none.1 hb p hpb
      simp [hpid] at this
    | some q =>
      have hqid : q.1 = id := by simpa using List.find?_some hb
      have := eq_of_key hnb hpb (List.mem_of_find?_eq_some hb) (hpid.trans hqid.symm)
      rw [this]

/-- The value of a line for a column, found by the id. -/
theorem over_cell (t : Table) (l : Line) (id : Nat) :
    over (l.fields.filterMap fun x => (t.column x.1).map fun c => (c.id, x.2)) (fun _ => none) id = l.cell t id := by
  unfold Line.cell
  generalize l.fields = fs
  induction fs with
  | nil => rfl
  | cons f fs ih =>
    cases hc : t.column f.1 with
    | none =>
      rw [List.filterMap_cons, hc, List.find?_cons_of_neg (by simp [hc])]
      simpa using ih
    | some c =>
      rw [List.filterMap_cons, hc]
      by_cases hid : c.id = id
      · rw [List.find?_cons_of_pos (by simp [hc, hid])]
        simp [over, hid]
      · rw [List.find?_cons_of_neg (by simp [hc, hid])]
        rw [← ih]
        simp [over, hid]

/-! ## Keys, values and times of rows -/

section
variable {m : Msg} {ls : List Line} {t : Table} {i : Nat} {l : Line}

theorem lt_data (h : Holds m (ls.map Line.items)) (hl : ls[i]? = some l) : ∀ e ∈ m.cols, i < e.2.data.length := by
  intro e he
  obtain ⟨hlt, _⟩ := List.getElem?_eq_some_iff.1 hl
  rw [h.len e he, h.rows]
  simpa using hlt

theorem mem_cells {cols : List (String × Column)} {x : Item} : x ∈ cells cols i ↔ ∃ e ∈ cols, e.1 = x.1 ∧ e.2.ct = x.2.1 ∧ e.2.at i = some x.2.2 := by
  unfold cells
  rw [List.mem_filterMap]
  constructor
  · rintro ⟨e, he, hx⟩
    cases hv : e.2.at i with
    | none => simp [hv] at hx
    | some v => simp only [hv, Option.map_some, Option.some.injEq] at hx; subst hx; exact ⟨e, he, rfl, rfl, hv⟩
  · rintro ⟨e, he, h1, h2, h3⟩
    exact ⟨e, he, by rw [h3, h1, h2]; rfl⟩

/-- The items of one type. -/
theorem item_tag {x : Item} (hx : x ∈ l.items) (ht : x.2.1 = .tag) : ∃ y ∈ l.tags, x = (y.1, .tag, .str y.2) := by
  unfold Line.items at hx
  rcases List.mem_append.1 hx with hx | hx
  · rcases List.mem_append.1 hx with hx | hx
    · obtain ⟨y, hy, rfl⟩ := List.mem_map.1 hx; exact ⟨y, hy, rfl⟩
    · obtain ⟨y, hy, rfl⟩ := List.mem_map.1 hx; cases ht
  · simp only [List.mem_singleton] at hx; subst hx; cases ht

theorem item_field {x : Item} (hx : x ∈ l.items) (ht : x.2.1 = .field) : ∃ y ∈ l.fields, x = (y.1, .field, y.2) := by
  unfold Line.items at hx
  rcases List.mem_append.1 hx with hx | hx
  · rcases List.mem_append.1 hx with hx | hx
    · obtain ⟨y, hy, rfl⟩ := List.mem_map.1 hx; cases ht
    · obtain ⟨y, hy, rfl⟩ := List.mem_map.1 hx; exact ⟨y, hy, rfl⟩
  · simp only [List.mem_singleton] at hx; subst hx; cases ht

theorem item_time {x : Item} (hx : x ∈ l.items) (ht : x.2.1 = .time) : x = ("time", .time, .int l.ts) := by
  unfold Line.items at hx
  rcases List.mem_append.1 hx with hx | hx
  · rcases List.mem_append.1 hx with hx | hx
    · obtain ⟨y, hy, rfl⟩ := List.mem_map.1 hx; cases ht
    · obtain ⟨y, hy, rfl⟩ := List.mem_map.1 hx; cases ht
  · simpa using hx

theorem tag_item {y : String × Bytes} (hy : y ∈ l.tags) : ((y.1, .tag, .str y.2) : Item) ∈ l.items := by
  unfold Line.items
  simp only [List.mem_append, List.mem_map]
  exact .inl (.inl ⟨y, hy, rfl⟩)

theorem field_item {y : String × Val} (hy : y ∈ l.fields) : ((y.1, .field, y.2) : Item) ∈ l.items := by
  unfold Line.items
  simp only [List.mem_append, List.mem_map]
  exact .inl (.inr ⟨y, hy, rfl⟩)

theorem time_item : (("time", .time, .int l.ts) : Item) ∈ l.items := by
  unfold Line.items
  simp

theorem keyOf_iff (hc : Clean ls) (h : Holds m (ls.map Line.items)) (ht : t.WF) (hl : ls[i]? = some l) (k : List (Nat × Bytes)) :
    keyOf t m.cols i = .ok k ↔ (∀ x ∈ l.tags, t.column x.1 ≠ none) ∧ k = l.key t := by
  have hmem := List.mem_of_getElem? hl
  have hp := cells_perm hc h hl
  have hcells : ∀ x, x ∈ cells (m.cols.filter fun e => decide (e.2.ct = .tag)) i ↔ x ∈ l.items ∧ x.2.1 = .tag := by
    intro x
    rw [← hp.mem_iff, mem_cells, mem_cells]
    constructor
    · rintro ⟨e, he, h1, h2, h3⟩
      obtain ⟨he1, he2⟩ := List.mem_filter.1 he
      exact ⟨⟨e, he1, h1, h2, h3⟩, by rw [← h2]; simpa using he2⟩
    · rintro ⟨⟨e, he, h1, h2, h3⟩, hx⟩
      exact ⟨e, List.mem_filter.2 ⟨he, by simp [h2, hx]⟩, h1, h2, h3⟩
  have hfm : (cells (m.cols.filter fun e => decide (e.2.ct = .tag)) i).filterMap (tagOf t) = (cells m.cols i).filterMap (tagOf t) := by
    generalize m.cols = cols
    induction cols with
    | nil => rfl
    | cons e es ih =>
      by_cases he : e.2.ct = .tag
      · rw [List.filter_cons_of_pos (by simpa using he)]
        cases hv : e.2.at i with
        | none => simpa [cells, hv] using ih
        | some v =>
          have e1 : ∀ es', cells (e :: es') i = (e.1, e.2.ct, v) :: cells es' i := by intro es'; simp [cells, hv]
          rw [e1, e1, List.filterMap_cons, List.filterMap_cons, ih]
      · rw [List.filter_cons_of_neg (by simpa using he), ih]
        cases hv : e.2.at i with
        | none => simp [cells, hv]
        | some v =>
          have e1 : ∀ es', cells (e :: es') i = (e.1, e.2.ct, v) :: cells es' i := by intro es'; simp [cells, hv]
          rw [e1, List.filterMap_cons]
          simp [tagOf, he]
  have hkey : sortTags ((cells (m.cols.filter fun e => decide (e.2.ct = .tag)) i).filterMap (tagOf t)) = l.key t := by
    rw [hfm]
    unfold Line.key
    rw [← items_tags]
    exact (sortTags_perm (hp.symm.filterMap _) (tags_nodup ht (hc.names l hmem))).symm
  have hcond : (∀ x ∈ cells (m.cols.filter fun e => decide (e.2.ct = .tag)) i, t.column x.1 ≠ none) ↔ ∀ x ∈ l.tags, t.column x.1 ≠ none := by
    constructor
    · intro hx y hy
      exact hx (y.1, .tag, .str y.2) ((hcells _).2 ⟨tag_item hy, rfl⟩)
    · intro hx x hxc
      obtain ⟨h1, h2⟩ := (hcells x).1 hxc
      obtain ⟨y, hy, rfl⟩ := item_tag h1 h2
      exact hx y hy
  have hfold := fun s' => foldE_key (t := t) (i := i) (m.cols.filter fun e => decide (e.2.ct = .tag)) [] s' (by
    intro e he
    obtain ⟨he1, he2⟩ := List.mem_filter.1 he
    have hct : e.2.ct = .tag := by simpa using he2
    refine ⟨lt_data h hl e he1, hct, ?_⟩
    intro v hv
    have := (hcells (e.1, e.2.ct, v)).1 (mem_cells.2 ⟨e, he, rfl, rfl, hv⟩)
    obtain ⟨y, _, hy⟩ := item_tag this.1 this.2
    exact ⟨y.2, congrArg (·.2.2) hy⟩)
  unfold keyOf
  cases hf : foldE (keyStep t i) [] (m.cols.filter fun e => decide (e.2.ct = .tag)) with
  | error e =>
    simp only [Except.map, reduceCtorEq, false_iff, not_and]
    intro hx
    have := (hfold _).2 ⟨hcond.2 hx, rfl⟩
    rw [hf] at this
    cases this
  | ok s =>
    obtain ⟨h1, h2⟩ := (hfold s).1 hf
    simp only [Except.map, Except.ok.injEq]
    rw [h2, List.nil_append, hkey]
    constructor
    · intro hk; exact ⟨hcond.1 h1, hk.symm⟩
    · rintro ⟨_, hk⟩; exact hk.symm

theorem timeOf_eq (conv : Int → Option Int) (hc : Clean ls) (h : Holds m (ls.map Line.items)) (hl : ls[i]? = some l) :
    timeOf conv m.cols i = match conv l.ts.toInt with | some x => .ok x | none => .error .error := by
  have hmem := List.mem_of_getElem? hl
  have hp := cells_perm hc h hl
  obtain ⟨e, he, h1, h2, h3⟩ := mem_cells.1 (hp.mem_iff.2 (time_item (l := l)))
  have hname : ∀ e' ∈ m.cols.filter (fun e => decide (e.2.ct = .time)), e' = e := by
    intro e' he'
    obtain ⟨he1, he2⟩ := List.mem_filter.1 he'
    obtain ⟨r, hr, x, hx, hxe, hxc⟩ := h.src e' he1
    obtain ⟨l', hl', rfl⟩ := List.mem_map.1 hr
    have hxt := item_time hx (by rw [hxc]; simpa using he2)
    exact eq_of_fst h.names he1 he (by rw [← hxe, hxt, h1])
  have hlast : (m.cols.filter (fun e => decide (e.2.ct = .time))).getLast? = some e := by
    cases hg : (m.cols.filter (fun e => decide (e.2.ct = .time))).getLast? with
    | none =>
      rw [List.getLast?_eq_none_iff] at hg
      have : e ∈ m.cols.filter (fun e => decide (e.2.ct = .time)) := List.mem_filter.2 ⟨he, by simp [h2]⟩
      rw [hg] at this
      cases this
    | some e' => rw [hname e' (List.mem_of_getLast? hg)]
  unfold timeOf
  rw [hlast]
  have hd : e.2.data[i]? = some (.int l.ts) := by
    unfold Column.at at h3
    split at h3
    · exact h3
    · cases h3
  simp only [hd]
  cases conv l.ts.toInt <;> rfl

theorem rowOf_iff (conv : Int → Option Int) (hc : Clean ls) (h : Holds m (ls.map Line.items)) (ht : t.WF) (hl : ls[i]? = some l) (r : Row) :
    rowOf conv t m.cols i = .ok r ↔ (∀ f ∈ l.fields, ∀ c, t.column f.1 = some c → c.isField = true) ∧
      (∃ f ∈ l.fields, t.column f.1 ≠ none) ∧ conv l.ts.toInt ≠ none ∧ r = l.row conv t := by
  have hmem := List.mem_of_getElem? hl
  have hp := cells_perm hc h hl
  have hpf := hp.filterMap (fieldOf t)
  have hnl := fields_nodup ht (hc.names l hmem)
  have hnc := (hpf.map (·.1)).nodup_iff.2 hnl
  have hrep : List.replicate (fieldIds t.cols).length (none : Option Val) = (fieldIds t.cols).map fun _ => none := by
    rw [List.map_const']
  have hfold := fun s' => foldE_row ht (i := i) m.cols (fun _ => none) false s' (lt_data h hl) hnc
  have hover : (fieldIds t.cols).map (over ((cells m.cols i).filterMap (fieldOf t)) fun _ => none) = (fieldIds t.cols).map (l.cell t) := by
    apply List.map_congr_left
    intro id _
    rw [over_perm hpf hnc, items_fields, over_cell]
  have hcond : (∀ x ∈ cells m.cols i, x.2.1 = .field → ∀ c, t.column x.1 = some c → c.isField = true) ↔
      ∀ f ∈ l.fields, ∀ c, t.column f.1 = some c → c.isField = true := by
    constructor
    · intro hx f hf
      exact hx (f.1, .field, f.2) (hp.mem_iff.2 (field_item hf)) rfl
    · intro hx x hxc hxf
      obtain ⟨y, hy, rfl⟩ := item_field (hp.mem_iff.1 hxc) hxf
      exact hx y hy
  have hemp : ((cells m.cols i).filterMap (fieldOf t)).isEmpty = false ↔ ∃ f ∈ l.fields, t.column f.1 ≠ none := by
    rw [hpf.isEmpty_eq, items_fields]
    constructor
    · intro he
      cases hfm : l.fields.filterMap (fun x => (t.column x.1).map fun c => (c.id, x.2)) with
      | nil => rw [hfm] at he; cases he
      | cons p q =>
        have : p ∈ l.fields.filterMap (fun x => (t.column x.1).map fun c => (c.id, x.2)) := by rw [hfm]; simp
        obtain ⟨f, hf, hfp⟩ := List.mem_filterMap.1 this
        refine ⟨f, hf, fun hn => ?_⟩
        simp [hn] at hfp
    · rintro ⟨f, hf, hn⟩
      cases hcol : t.column f.1 with
      | none => exact absurd hcol hn
      | some c =>
        have : (c.id, f.2) ∈ l.fields.filterMap (fun x => (t.column x.1).map fun c => (c.id, x.2)) :=
          List.mem_filterMap.2 ⟨f, hf, by simp [hcol]⟩
        cases hfm : l.fields.filterMap (fun x => (t.column x.1).map fun c => (c.id, x.2)) with
        | nil => rw [hfm] at this; cases this
        | cons p q => rfl
  unfold rowOf
  rw [hrep]
  cases hf : foldE (rowStep t i) ((fieldIds t.cols).map fun _ => none, false) m.cols with
  | error e =>
    simp only [bind_error, reduceCtorEq, false_iff, not_and]
    intro hx
    have := (hfold _).2 ⟨hcond.2 hx, rfl⟩
    rw [hf] at this
    cases this
  | ok s =>
    obtain ⟨h1, h2⟩ := (hfold s).1 hf
    rw [bind_ok]
    rw [h2, hover]
    simp only [Bool.false_or]
    cases he : ((cells m.cols i).filterMap (fieldOf t)).isEmpty with
    | true =>
      simp only [Bool.not_true, Bool.false_eq_true, if_false, reduceCtorEq, false_iff, not_and]
      intro _ hex
      rw [hemp.2 hex] at he
      cases he
    | false =>
      simp only [Bool.not_false, if_true]
      rw [timeOf_eq conv hc h hl]
      have hex := hemp.1 he
      cases hcv : conv l.ts.toInt with
      | none => simp [Except.map]
      | some x =>
        simp only [Except.map, Except.ok.injEq]
        constructor
        · intro hr
          exact ⟨hcond.1 h1, hex, by simp, by rw [← hr]; simp [Line.row, hcv]⟩
        · rintro ⟨_, _, _, hr⟩
          rw [hr]
          simp [Line.row, hcv]

end

/-- The rows of a message: there are rows iff every line fits the table, and then they are those of the lines. -/
theorem rowsWith_iff (conv : Int → Option Int) {m : Msg} {ls : List Line} {t : Table} (hc : Clean ls) (h : Holds m (ls.map Line.items))
    (ht : t.WF) (out : List (List (Nat × Bytes) × Row)) :
    m.rowsWith conv t = .ok out ↔ (∀ l ∈ ls, Fits conv t l) ∧ out = ls.map fun l => (l.key t, l.row conv t) := by
  have hone : ∀ (i : Nat) l, ls[i]? = some l → ∀ p, ((keyOf t m.cols i).bind fun k => (rowOf conv t m.cols i).map fun r => (k, r)) = .ok p ↔
      Fits conv t l ∧ p = (l.key t, l.row conv t) := by
    intro i l hl p
    have hk := keyOf_iff hc h ht hl
    have hr := rowOf_iff conv hc h ht hl
    constructor
    · intro hp
      cases h1 : keyOf t m.cols i with
      | error e => rw [h1] at hp; cases hp
      | ok k =>
        cases h2 : rowOf conv t m.cols i with
        | error e => rw [h1, h2] at hp; cases hp
        | ok r =>
          rw [h1, h2] at hp
          cases hp
          obtain ⟨a1, a2⟩ := (hk k).1 h1
          obtain ⟨b1, b2, b3, b4⟩ := (hr r).1 h2
          exact ⟨⟨a1, b1, b2, b3⟩, by rw [a2, b4]⟩
    · rintro ⟨hf, rfl⟩
      rw [(hk _).2 ⟨hf.tags, rfl⟩, (hr _).2 ⟨hf.fields, hf.some, hf.time, rfl⟩]
      rfl
  unfold Msg.rowsWith
  rw [collect_ok]
  have hrows : m.rows = ls.length := by rw [h.rows]; simp
  constructor
  · intro he
    have hlen : out.length = ls.length := by
      have := congrArg List.length he
      simp only [List.length_map, List.length_range] at this
      omega
    have hget : ∀ (i : Nat) l, ls[i]? = some l → Fits conv t l ∧ out[i]? = some (l.key t, l.row conv t) := by
      intro i l hl
      obtain ⟨hlt, _⟩ := List.getElem?_eq_some_iff.1 hl
      have h1 := congrArg (fun z => z[i]?) he
      simp only [List.getElem?_map] at h1
      rw [List.getElem?_range (by omega)] at h1
      have hlt' : i < out.length := by omega
      rw [List.getElem?_eq_getElem hlt'] at h1 ⊢
      simp only [Option.map_some, Option.some.injEq] at h1
      obtain ⟨h2, h3⟩ := (hone i l hl _).1 h1
      exact ⟨h2, by rw [h3]⟩
    refine ⟨fun l hl => ?_, ?_⟩
    · obtain ⟨i, hi⟩ := List.getElem?_of_mem hl
      exact (hget i l hi).1
    · apply List.ext_getElem?
      intro i
      by_cases hi : i < ls.length
      · rw [(hget i ls[i] (List.getElem?_eq_getElem hi)).2, List.getElem?_map, List.getElem?_eq_getElem hi]
        rfl
      · rw [List.getElem?_eq_none (by omega), List.getElem?_eq_none (by simp; omega)]
  · rintro ⟨hf, rfl⟩
    apply List.ext_getElem?
    intro i
    by_cases hi : i < ls.length
    · rw [List.getElem?_map, List.getElem?_range (by omega), List.getElem?_map, List.getElem?_map, List.getElem?_eq_getElem hi]
      simp only [Option.map_some, Option.some.injEq]
      exact (hone i ls[i] (List.getElem?_eq_getElem hi) _).2 ⟨hf _ (List.getElem_mem hi), rfl⟩
    · rw [List.getElem?_eq_none (by simp; omega), List.getElem?_eq_none (by simp; omega)]

end Verif.Write
