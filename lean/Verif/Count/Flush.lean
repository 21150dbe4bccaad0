import Verif.Count.Props
/-!
# Counting before and after a flush
-/
namespace Verif.Count
open Verif.Mem Verif.Schema

variable {V : Type}

theorem fieldIds_nodup {cols : List Col} (h : Ordered cols) : (fieldIds cols).Nodup := by
  obtain ⟨c, tags, fields, rfl, _, hk, ht, hf, hs, _⟩ := h
  rw [fieldIds_ordered hk ht hf hs]
  exact hs.imp (fun h => Nat.ne_of_lt h)

/-- The column found by the id of a field is that field. -/
theorem find_field {cols : List Col} (h : Ordered cols) {id : Nat} (hid : id ∈ fieldIds cols) :
    ∃ c ∈ cols, cols.find? (fun c => c.id == id) = some c ∧ c.id = id ∧ c.isField = true := by
  have h' := h
  obtain ⟨c, tags, fields, rfl, _, hk, ht, hf, hs, _, hn⟩ := h
  rw [fieldIds_ordered hk ht hf hs] at hid
  obtain ⟨x, hx, rfl⟩ := List.mem_map.1 hid
  have hm : x ∈ c :: (tags ++ fields) := by simp [hx]
  cases hfd : (c :: (tags ++ fields)).find? (fun c => c.id == x.id) with
  | none =>
    have := List.find?_eq_none.1 hfd x hm
    simp at this
  | some y =>
    have hy := List.mem_of_find?_eq_some hfd
    have he : y.id = x.id := by simpa using List.find?_some hfd
    have : y = x := List.inj_on_of_nodup_map hn hy hm he
    subst this
    exact ⟨y, hm, rfl, rfl, hf y hx⟩

/-- The pages of one column among the pages written. -/
theorem page_sum (cols : List Col) (k id : Nat) (l : List (Nat × List (Option V)))
    (hl : ∀ e ∈ l, e.2.length = k ∧ ∃ c, cols.find? (fun c => c.id == e.1) = some c ∧ c.id = e.1) (hn : (l.map Prod.fst).Nodup) :
    (((l.filterMap fun e => (cols.find? fun c => c.id == e.1).map fun c => (c, e.2)).filter fun x => x.1.id == id).map
      fun x => x.2.length).sum = if id ∈ l.map Prod.fst then k else 0 := by
  induction l with
  | nil => rfl
  | cons e l ih =>
    obtain ⟨h1, c, h2, h3⟩ := hl e List.mem_cons_self
    rw [List.map_cons, List.nodup_cons] at hn
    have := ih (fun x hx => hl x (List.mem_cons_of_mem _ hx)) hn.2
    rw [List.filterMap_cons, h2, Option.map_some]
    simp only [List.filter_cons, h3]
    by_cases he : e.1 = id
    · subst he
      rw [if_pos BEq.rfl, List.map_cons, List.sum_cons, this, if_neg hn.1, h1, List.map_cons, if_pos List.mem_cons_self]
      rfl
    · rw [if_neg (by simpa using he), this]
      have : id ∈ (e :: l).map Prod.fst ↔ id ∈ l.map Prod.fst := by
        rw [List.map_cons, List.mem_cons]
        exact ⟨fun h => h.resolve_left fun h => he h.symm, .inr⟩
      simp only [this]

/-- What a flush writes: the times once each, and each field of the newest schema with a value or NULL for each time. -/
theorem flushed_eq {cat : Mem.Schema → List Col} {s : Series V} (hg : Good s) {c : Chunk V} (hc : flushed cat s = some c) :
    ∃ latest, s.schema = some latest ∧ (∃ g ∈ s.groups, g.schema = latest) ∧ ∃ vals : List (List (Option V)), vals.length = latest.ids.length ∧
      (∀ v ∈ vals, v.length = (times s).length) ∧ c.groups = [⟨times s, (latest.ids.zip vals).filterMap fun e =>
        ((cat latest).find? fun c => c.id == e.1).map fun c => (c, e.2)⟩] := by
  unfold flushed Series.toPages at hc
  cases hl : s.schema with
  | none => rw [hl] at hc; cases hc
  | some latest =>
    rw [hl] at hc
    simp only [Option.map_some, Option.some.injEq] at hc
    have hgm : ∃ g ∈ s.groups, g.schema = latest := by
      unfold Series.schema at hl
      cases hlast : s.groups.getLast? with
      | none => rw [hlast] at hl; cases hl
      | some g =>
        rw [hlast] at hl
        exact ⟨g, List.mem_of_getLast? hlast, Option.some.inj hl⟩
    have he := all_eq hg latest
    have ht : (s.all latest).map Row.ts = times s := by rw [he]; simp [Function.comp_def]
    refine ⟨latest, rfl, hgm, (List.range latest.ids.length).map fun i => (s.all latest).map fun r => (r.fields[i]?).join, by simp, ?_, ?_⟩
    · intro v hv
      simp only [List.mem_map] at hv
      obtain ⟨i, _, rfl⟩ := hv
      rw [List.length_map, he, List.length_map]
    · rw [← hc, ht]

/-- The flushed pages have the names of the columns of the buffer. -/
theorem flushed_stands {cat : Mem.Schema → List Col} {s : Series V} (hg : Good s) {c : Chunk V} (hc : flushed cat s = some c)
    {n : String} {tgt : Target} (hf : Fits n tgt) (hs : Stands cat n tgt (.mem s)) : Stands cat n tgt (.chunk c) := by
  obtain ⟨latest, _, ⟨g, hgm, rfl⟩, vals, hvl, hv, hgr⟩ := flushed_eq hg hc
  obtain ⟨ho, hi, hn⟩ := hs g hgm
  intro g' hg' x hx
  rw [hgr, List.mem_singleton] at hg'
  subst hg'
  obtain ⟨e, he, hx⟩ := List.mem_filterMap.1 hx
  have hm := List.of_mem_zip he
  obtain ⟨y, hy, hfd, hid, hyf⟩ := find_field ho (hi ▸ hm.1)
  rw [hfd] at hx
  simp only [Option.map_some, Option.some.injEq] at hx
  subst hx
  refine ⟨hv _ hm.2, ?_⟩
  cases tgt with
  | rows =>
    simp only [Fits] at hf
    subst hf
    obtain ⟨c0, tags, fields, hcols, hcn, hck, _, _, _, hnames, _⟩ := ho
    simp only []
    intro he
    have : y = c0 := by
      refine List.inj_on_of_nodup_map hnames hy (by rw [hcols]; simp) ?_
      rw [he, hcn]
    subst this
    simp [Col.isField, hck] at hyf
  | field id => exact hn.1 y hy hyf

/-- After a flush the count is the number of different times, whether the column has a value or not. -/
theorem flushed_count {cat : Mem.Schema → List Col} {s : Series V} (hg : Good s) {c : Chunk V} (hc : flushed cat s = some c)
    {n : String} {tgt : Target} (hf : Fits n tgt) (hs : Stands cat n tgt (.mem s)) : chunkCount n c = match tgt with
      | .rows => (times s).length
      | .field id => if ∃ sc, s.schema = some sc ∧ id ∈ sc.ids then (times s).length else 0 := by
  have hst := flushed_stands hg hc hf hs
  obtain ⟨latest, hl, ⟨g, hgm, hgs⟩, vals, hvl, hv, hgr⟩ := flushed_eq hg hc
  subst hgs
  obtain ⟨ho, hi, hn⟩ := hs g hgm
  unfold chunkCount
  rw [hgr, List.map_singleton, List.sum_singleton, group_sum hf cat hst (by rw [hgr]; exact List.mem_singleton.2 rfl)]
  cases tgt with
  | rows => rfl
  | field id =>
    simp only []
    have hz : (g.schema.ids.zip vals).map Prod.fst = g.schema.ids := List.map_fst_zip (by omega)
    rw [page_sum (cat g.schema) (times s).length id _ _ (by rw [hz, ← hi]; exact fieldIds_nodup ho), hz]
    · congr 1
      apply propext
      rw [hl]
      constructor
      · exact fun h => ⟨_, rfl, h⟩
      · rintro ⟨sc, h, h'⟩
        cases h
        exact h'
    · intro e he
      have hm := List.of_mem_zip he
      obtain ⟨y, _, h1, h2, _⟩ := find_field ho (hi ▸ hm.1)
      exact ⟨hv _ hm.2, y, h1, h2⟩

/-- The times of a series are those of its rows, each once. -/
theorem times_length {s : Series V} (hg : Good s) (hm : i64Max ∉ live .rows (.mem s)) :
    (times s).length = (live .rows (.mem s)).dedup.length := by
  obtain ⟨h1, h2⟩ := times_spec hg
  apply List.Perm.length_eq
  rw [List.perm_ext_iff_of_nodup (h1.imp Int.ne_of_lt) (List.nodup_dedup _)]
  intro t
  rw [h2, List.mem_dedup, hasTime_flat]
  have : t ∈ live .rows (.mem s) ↔ ∃ g ∈ s.groups, ∃ r ∈ g.rows, r.ts = t := by simp [live]
  rw [← this]
  constructor
  · exact fun h => h.1
  · intro h
    refine ⟨h, ?_⟩
    rintro rfl
    exact hm h

/-! ## C91 -/

/-- A flush does not change the count. -/
def C91Full (V : Type) : Prop := ∀ (cat : Mem.Schema → List Col) (n : String) (tgt : Target) (h : List (Op V)) (c : Chunk V), TimesOk h →
  flushed cat (runAll h) = some c → Fits n tgt → Stands cat n tgt (.mem (runAll h)) →
    refCount cat n (.chunk c) = refCount cat n (.mem (runAll h))

/-- A flush makes the count of the rows of a buffer right.  The time `i64::MAX` is dropped by a flush and left out here. -/
theorem C91_rows (cat : Mem.Schema → List Col) (h : List (Op V)) (c : Chunk V) (ht : TimesOk h)
    (hc : flushed cat (runAll h) = some c) (hs : Stands cat timeName .rows (.mem (runAll h))) (hm : i64Max ∉ live .rows (.mem (runAll h))) :
    refCount cat timeName (.chunk c) = exact .rows [[Ref.mem (runAll h)]] := by
  have hg := good_runAll ht
  show chunkCount timeName c = _
  rw [flushed_count hg hc (tgt := .rows) rfl hs]
  simp only [exact, List.map_singleton, List.sum_singleton, List.flatMap_singleton]
  exact times_length hg hm

/-- A flush makes the count of a field the count of the rows, whatever values the field has. -/
theorem C91_field (cat : Mem.Schema → List Col) (n : String) (id : Nat) (h : List (Op V)) (c : Chunk V) (ht : TimesOk h)
    (hc : flushed cat (runAll h) = some c) (hn : n ≠ timeName) (hs : Stands cat n (.field id) (.mem (runAll h)))
    (hm : i64Max ∉ live .rows (.mem (runAll h))) :
    refCount cat n (.chunk c) =
      if ∃ sc, (runAll h).schema = some sc ∧ id ∈ sc.ids then exact .rows [[Ref.mem (runAll h)]] else 0 := by
  have hg := good_runAll ht
  show chunkCount n c = _
  rw [flushed_count hg hc (tgt := .field id) hn hs]
  simp only [exact, List.map_singleton, List.sum_singleton, List.flatMap_singleton, times_length hg hm]

theorem live_sublist (id : Nat) (s : Series V) (h : ∀ g ∈ s.groups, ∀ r ∈ g.rows, (value g.schema id r).isSome = true) :
    live (.field id) (.mem s) = live .rows (.mem s) := by
  unfold live
  simp only []
  rw [List.flatMap_def, List.flatMap_def]
  congr 1
  apply List.map_congr_left
  intro g hg
  rw [List.filter_eq_self.2 fun r hr => h g hg r hr]

/-- The count does not change if no time is there twice and, for a field, every row has a value.  Missing from the full statement:
rows written more than once, and NULLs; both are refuted below. -/
theorem C91_same_partial (cat : Mem.Schema → List Col) (n : String) (tgt : Target) (h : List (Op V)) (c : Chunk V) (ht : TimesOk h)
    (hc : flushed cat (runAll h) = some c) (hf : Fits n tgt) (hs : Stands cat n tgt (.mem (runAll h)))
    (hm : i64Max ∉ live .rows (.mem (runAll h))) (hd : (live .rows (.mem (runAll h))).Nodup)
    (hv : ∀ id, tgt = .field id → (∃ sc, (runAll h).schema = some sc ∧ id ∈ sc.ids) ∧
      ∀ g ∈ (runAll h).groups, ∀ r ∈ g.rows, (value g.schema id r).isSome = true) :
    refCount cat n (.chunk c) = refCount cat n (.mem (runAll h)) := by
  show _ = memCount cat n (runAll h)
  rw [memCount_live hf hs]
  cases tgt with
  | rows =>
    simp only [Fits] at hf
    subst hf
    rw [C91_rows cat h c ht hc hs hm]
    simp [exact, hd.dedup]
  | field id =>
    obtain ⟨h1, h2⟩ := hv id rfl
    rw [C91_field cat n id h c ht hc hf hs hm, if_pos h1, live_sublist id _ h2]
    simp [exact, hd.dedup]

/-! ### Witnesses -/

/-- Two rows, the second without a value of `a`. -/
def nullWrites : List (Op Nat) := [.write ⟨0, [2, 3]⟩ [⟨10, [some 1, some 7]⟩, ⟨20, [none, some 8]⟩]]

/-- One row written twice. -/
def twice : List (Op Nat) := [.write ⟨0, [2, 3]⟩ [⟨10, [some 1, some 7]⟩], .write ⟨0, [2, 3]⟩ [⟨10, [some 2, some 8]⟩]]

theorem stands_all {h : List (Op Nat)} (hs : ∀ g ∈ (runAll h).groups, g.schema.ids = [2, 3]) :
    Stands (fun _ => cols0) "a" (.field 2) (.mem (runAll h)) ∧ Stands (fun _ => cols0) "b" (.field 3) (.mem (runAll h)) ∧
      Stands (fun _ => cols0) "time" .rows (.mem (runAll h)) := by
  have hid : fieldIds cols0 = [2, 3] := by decide +kernel
  refine ⟨fun g hg => ?_, fun g hg => ?_, fun g hg => ?_⟩
  · exact ⟨cols0_ordered, hid.trans (hs g hg).symm, show ∀ x ∈ cols0, _ by decide, show ∀ x ∈ cols0, _ by decide⟩
  · exact ⟨cols0_ordered, hid.trans (hs g hg).symm, show ∀ x ∈ cols0, _ by decide, show ∀ x ∈ cols0, _ by decide⟩
  · exact ⟨cols0_ordered, hid.trans (hs g hg).symm, trivial⟩

/-- A flush raises the count of a column with a NULL from 1 to 2, and lowers the count of a row written twice from 2 to 1. -/
theorem C91_refuted : ¬ C91Full Nat ∧
    (∃ c, flushed (fun _ => cols0) (runAll nullWrites) = some c ∧ refCount (fun _ => cols0) "a" (.mem (runAll nullWrites)) = 1 ∧
      refCount (fun _ => cols0) "a" (.chunk c) = 2) ∧
    (∃ c, flushed (fun _ => cols0) (runAll twice) = some c ∧ refCount (fun _ => cols0) "time" (.mem (runAll twice)) = 2 ∧
      refCount (fun _ => cols0) "time" (.chunk c) = 1) := by
  have h1 : ∃ c, flushed (fun _ => cols0) (runAll nullWrites) = some c ∧ refCount (fun _ => cols0) "a" (.mem (runAll nullWrites)) = 1 ∧
      refCount (fun _ => cols0) "a" (.chunk c) = 2 := ⟨_, rfl, by decide +kernel, by decide +kernel⟩
  refine ⟨fun h => ?_, h1, ⟨_, rfl, by decide +kernel, by decide +kernel⟩⟩
  obtain ⟨c, hc, e1, e2⟩ := h1
  have := h _ "a" (.field 2) nullWrites c (timesOk_of (by decide +kernel)) hc (show "a" ≠ timeName by decide)
    (stands_all (by decide +kernel)).1
  rw [e1, e2] at this
  cases this

/-- The conditions are met: two rows with values of `b`. -/
example : TimesOk nullWrites ∧ Stands (fun _ => cols0) "b" (.field 3) (.mem (runAll nullWrites)) ∧
    i64Max ∉ live .rows (.mem (runAll nullWrites)) ∧ (live .rows (.mem (runAll nullWrites))).Nodup ∧
    (∃ sc, (runAll nullWrites).schema = some sc ∧ 3 ∈ sc.ids) ∧
    (∀ g ∈ (runAll nullWrites).groups, ∀ r ∈ g.rows, (value g.schema 3 r).isSome = true) ∧
    ∃ c, flushed (fun _ => cols0) (runAll nullWrites) = some c ∧ refCount (fun _ => cols0) "b" (.chunk c) = 2 :=
  ⟨timesOk_of (by decide +kernel), (stands_all (by decide +kernel)).2.1, by decide +kernel, by decide +kernel,
    ⟨⟨0, [2, 3]⟩, by decide +kernel, by decide⟩, by decide +kernel, ⟨_, rfl, by decide +kernel⟩⟩

end Verif.Count
