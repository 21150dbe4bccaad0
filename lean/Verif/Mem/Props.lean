import Verif.Mem.Lemmas
import Mathlib.Data.List.Induction
/-!
# Properties of the write buffer of a series
-/
namespace Verif.Mem
open Verif.Time

variable {V : Type}

/-! ## Histories -/

/-- What can happen to the buffer of a series. -/
inductive Op (V : Type) where
  | write (s : Schema) (rows : List (Row V))
  | deleteRanges (trs : TimeRanges)
  | deleteSeries (r : TimeRange)
  | dropColumn (id : Nat)

def Op.run (s : Series V) : Op V → Series V
  | .write sc rows => s.write (mkGroup sc rows)
  | .deleteRanges trs => s.deleteRanges trs
  | .deleteSeries r => s.deleteSeries r
  | .dropColumn id => s.dropColumn id

/-- The buffer after a history. -/
def runAll (h : List (Op V)) : Series V := h.foldl Op.run Series.new

/-- All written timestamps are 64-bit integers. -/
def TimesOk (h : List (Op V)) : Prop := ∀ sc rows, Op.write sc rows ∈ h → ∀ r ∈ rows, IsI64 r.ts

/-- A time lies in one of the ranges. -/
def inRanges (trs : TimeRanges) (t : Int) : Bool := trs.ranges.any fun r => r.contains t

/-- A time was written and not deleted since: the effect of one event. -/
def Op.present (t : Int) (b : Bool) : Op V → Bool
  | .write _ rows => b || rows.any fun r => decide (r.ts = t)
  | .deleteRanges trs => b && !inRanges trs t
  | .deleteSeries r => b && !r.contains t
  | .dropColumn _ => b

/-- A time was written and not deleted since. -/
def present (h : List (Op V)) (t : Int) : Bool := h.foldl (Op.present t) false

/-- The value of a column at a time by the history: the effect of one event. -/
def Op.latest (t : Int) (id : Nat) (cur : Option V) : Op V → Option V
  | .write s rows => rows.foldl (fun cur r => if r.ts = t then (value s id r).or cur else cur) cur
  | .deleteRanges trs => if inRanges trs t then none else cur
  | .deleteSeries r => if r.contains t then none else cur
  | .dropColumn id' => if id' = id then none else cur

/-- The value of the last write of a column at a time that supplied one, unless deleted since. -/
def latest (h : List (Op V)) (t : Int) (id : Nat) : Option V := h.foldl (Op.latest t id) none

/-! ## The invariant -/

/-- Rows ascending, times of 64 bits, the recorded range covers the rows. -/
structure Good (s : Series V) : Prop where
  asc : ∀ g ∈ s.groups, Asc g.rows
  i64 : ∀ g ∈ s.groups, ∀ r ∈ g.rows, IsI64 r.ts
  range : ∀ g ∈ s.groups, ∀ r ∈ g.rows, s.range.minTs ≤ r.ts ∧ r.ts ≤ s.range.maxTs

theorem good_new : Good (Series.new : Series V) := by
  constructor <;> simp [Series.new]

theorem mkGroup_range (sc : Schema) : ∀ (rows : List (Row V)) (tr : TimeRange),
    let x := rows.foldl (fun tr r => tr.merge ⟨r.ts, r.ts⟩) tr
    x.minTs ≤ tr.minTs ∧ tr.maxTs ≤ x.maxTs ∧ ∀ r ∈ rows, x.minTs ≤ r.ts ∧ r.ts ≤ x.maxTs
  | [], tr => by simp
  | r :: rows, tr => by
    simp only [List.foldl_cons]
    obtain ⟨h1, h2, h3⟩ := mkGroup_range sc rows (tr.merge ⟨r.ts, r.ts⟩)
    simp only [TimeRange.merge] at h1 h2 h3 ⊢
    refine ⟨by omega, by omega, ?_⟩
    intro x hx
    rcases List.mem_cons.1 hx with rfl | hx
    · omega
    · exact h3 x hx

theorem mkGroup_mem {sc : Schema} {rows : List (Row V)} {r : Row V} : r ∈ (mkGroup sc rows).rows ↔ r ∈ rows := by
  simp [mkGroup, mem_insertRows]

theorem mkGroup_at (sc : Schema) (rows : List (Row V)) (t : Int) : At t (mkGroup sc rows).rows = (At t rows).reverse := by
  simp only [mkGroup]
  rw [at_insertRows]
  simp [At]

/-- The group a write ends up in. -/
def merged (g item : Group V) : Group V := ⟨g.schema, item.range.merge g.range, insertRows g.rows item.rows⟩

theorem writeRev_split (g : Group V) : ∀ (l : List (Group V)),
    (writeRev g l = none ∧ ∀ x ∈ l, x.schema.ver ≠ g.schema.ver) ∨
    ∃ a item b, l = a ++ item :: b ∧ item.schema.ver = g.schema.ver ∧ (∀ x ∈ a, x.schema.ver ≠ g.schema.ver) ∧
      writeRev g l = some (a ++ merged g item :: b)
  | [] => .inl ⟨rfl, by simp⟩
  | y :: l => by
    by_cases hy : y.schema.ver = g.schema.ver
    · refine .inr ⟨[], y, l, rfl, hy, by simp, ?_⟩
      simp [writeRev, hy, merged]
    · rcases writeRev_split g l with ⟨h1, h2⟩ | ⟨a, item, b, h1, h2, h3, h4⟩
      · refine .inl ⟨by simp [writeRev, hy, h1], ?_⟩
        intro x hx
        rcases List.mem_cons.1 hx with rfl | hx
        · exact hy
        · exact h2 x hx
      · refine .inr ⟨y :: a, item, b, by rw [h1]; rfl, h2, ?_, ?_⟩
        · intro x hx
          rcases List.mem_cons.1 hx with rfl | hx
          · exact hy
          · exact h3 x hx
        · simp only [writeRev, if_neg hy, h4]; rfl

theorem write_split (s : Series V) (g : Group V) :
    ((s.write g).groups = s.groups ++ [g] ∧ ∀ x ∈ s.groups, x.schema.ver ≠ g.schema.ver) ∨
    ∃ a item b, s.groups = a ++ item :: b ∧ item.schema.ver = g.schema.ver ∧ (∀ x ∈ b, x.schema.ver ≠ g.schema.ver) ∧
      (s.write g).groups = a ++ merged g item :: b := by
  rcases writeRev_split g s.groups.reverse with ⟨h1, h2⟩ | ⟨a, item, b, h1, h2, h3, h4⟩
  · refine .inl ⟨by simp [Series.write, h1], ?_⟩
    intro x hx
    exact h2 x (List.mem_reverse.2 hx)
  · refine .inr ⟨b.reverse, item, a.reverse, ?_, h2, ?_, ?_⟩
    · have := congrArg List.reverse h1
      simpa using this
    · intro x hx; exact h3 x (List.mem_reverse.1 hx)
    · simp [Series.write, h4]

theorem write_mem {s : Series V} {g : Group V} {x : Row V} :
    (∃ e ∈ (s.write g).groups, x ∈ e.rows) ↔ (∃ e ∈ s.groups, x ∈ e.rows) ∨ x ∈ g.rows := by
  rcases write_split s g with ⟨h1, _⟩ | ⟨a, item, b, h1, _, _, h4⟩
  · rw [h1]; simp [or_and_right, exists_or]
  · rw [h4, h1]
    simp only [List.mem_append, List.mem_cons, or_and_right, exists_or, exists_eq_left, merged, mem_insertRows]
    generalize (∃ y, y ∈ a ∧ x ∈ y.rows) = A
    generalize (∃ y, y ∈ b ∧ x ∈ y.rows) = B
    tauto

theorem good_write {s : Series V} (h : Good s) (sc : Schema) {rows : List (Row V)} (hr : ∀ r ∈ rows, IsI64 r.ts) :
    Good (s.write (mkGroup sc rows)) := by
  have hm : ∀ e ∈ (s.write (mkGroup sc rows)).groups, ∀ x ∈ e.rows, (∃ e ∈ s.groups, x ∈ e.rows) ∨ x ∈ rows := by
    intro e he x hx
    rcases write_mem.1 ⟨e, he, hx⟩ with h1 | h1
    · exact .inl h1
    · exact .inr (mkGroup_mem.1 h1)
  have ag : Asc (mkGroup sc rows).rows := asc_insertRows _ (by simp [Asc])
  constructor
  · intro e he
    rcases write_split s (mkGroup sc rows) with ⟨h1, _⟩ | ⟨a, item, b, h1, _, _, h4⟩
    · rw [h1] at he
      rcases List.mem_append.1 he with he | he
      · exact h.asc e he
      · rw [List.mem_singleton.1 he]; exact ag
    · rw [h4] at he
      have hi : item ∈ s.groups := by rw [h1]; simp
      rcases List.mem_append.1 he with he | he
      · exact h.asc e (by rw [h1]; exact List.mem_append_left _ he)
      · rcases List.mem_cons.1 he with rfl | he
        · exact asc_insertRows _ (h.asc item hi)
        · exact h.asc e (by rw [h1]; exact List.mem_append_right _ (List.mem_cons_of_mem _ he))
  · intro e he x hx
    rcases hm e he x hx with ⟨e', he', hx'⟩ | h1
    · exact h.i64 e' he' x hx'
    · exact hr x h1
  · intro e he x hx
    obtain ⟨_, _, h3⟩ := mkGroup_range sc rows noRange
    change min s.range.minTs (mkGroup sc rows).range.minTs ≤ x.ts ∧ x.ts ≤ max s.range.maxTs (mkGroup sc rows).range.maxTs
    change ∀ r ∈ rows, (mkGroup sc rows).range.minTs ≤ r.ts ∧ r.ts ≤ (mkGroup sc rows).range.maxTs at h3
    rcases hm e he x hx with ⟨e', he', hx'⟩ | h1
    · have := h.range e' he' x hx'; omega
    · have := h3 x h1; omega

/-- Keep the rows whose time is accepted. -/
def keep (p : Int → Bool) (s : Series V) : Series V :=
  { s with groups := s.groups.map fun g => { g with rows := g.rows.filter fun r => p r.ts } }

theorem good_keep {s : Series V} (h : Good s) (p : Int → Bool) : Good (keep p s) := by
  constructor
  · intro g hg
    obtain ⟨g', hg', rfl⟩ := List.mem_map.1 hg
    exact asc_filter (h.asc g' hg')
  · intro g hg r hr
    obtain ⟨g', hg', rfl⟩ := List.mem_map.1 hg
    exact h.i64 g' hg' r (List.mem_filter.1 hr).1
  · intro g hg r hr
    obtain ⟨g', hg', rfl⟩ := List.mem_map.1 hg
    exact h.range g' hg' r (List.mem_filter.1 hr).1

theorem keep_all {s : Series V} {p : Int → Bool} (h : ∀ g ∈ s.groups, ∀ r ∈ g.rows, p r.ts = true) : keep p s = s := by
  have : (s.groups.map fun g => { g with rows := g.rows.filter fun r => p r.ts }) = s.groups := by
    conv_rhs => rw [← List.map_id s.groups]
    refine List.map_congr_left fun g hg => ?_
    rw [List.filter_eq_self.2 (h g hg)]
    rfl
  unfold keep
  rw [this]

theorem keep_keep (p q : Int → Bool) (s : Series V) : keep q (keep p s) = keep (fun t => p t && q t) s := by
  unfold keep
  simp only [List.map_map]
  congr 1
  refine List.map_congr_left fun g _ => ?_
  simp only [Function.comp, List.filter_filter]
  congr 1
  refine List.filter_congr fun r _ => ?_
  rw [Bool.and_comm]

theorem out_eq (r : TimeRange) (t : Int) :
    (decide (t < r.minTs) || decide (t > r.maxTs)) = !r.contains t := by
  unfold TimeRange.contains
  by_cases h1 : t < r.minTs <;> by_cases h2 : t > r.maxTs <;> simp [h1, h2] <;> omega

theorem out_all {s : Series V} (h : Good s) {r : TimeRange} (hr : r.maxTs < s.range.minTs ∨ r.minTs > s.range.maxTs) :
    ∀ g ∈ s.groups, ∀ x ∈ g.rows, (!r.contains x.ts) = true := by
  intro g hg x hx
  have := h.range g hg x hx
  rw [← out_eq]
  simp only [Bool.or_eq_true, decide_eq_true_eq]
  omega

theorem deleteSeries_eq {s : Series V} (h : Good s) (r : TimeRange) :
    s.deleteSeries r = keep (fun t => !r.contains t) s := by
  unfold Series.deleteSeries
  by_cases hr : r.maxTs < s.range.minTs ∨ r.minTs > s.range.maxTs
  · rw [if_pos hr, keep_all (out_all h hr)]
  · rw [if_neg hr]
    unfold keep
    simp only [out_eq]

theorem deleteRange_eq {s : Series V} (h : Good s) (r : TimeRange) :
    s.deleteRange r = keep (fun t => !r.contains t) s := by
  unfold Series.deleteRange
  by_cases hr : r.maxTs < s.range.minTs ∨ r.minTs > s.range.maxTs
  · rw [if_pos hr, keep_all (out_all h hr)]
  · rw [if_neg hr]
    unfold keep
    congr 1
    refine List.map_congr_left fun g hg => ?_
    rw [insertRows_reverse (h.asc g hg)]
    simp only [out_eq]

theorem deleteRanges_fold : ∀ (l : List TimeRange) {s : Series V}, Good s →
    l.foldl Series.deleteRange s = keep (fun t => !l.any fun r => r.contains t) s
  | [], s, _ => by
    rw [keep_all (by simp)]; rfl
  | r :: l, s, h => by
    rw [List.foldl_cons, deleteRange_eq h, deleteRanges_fold l (good_keep h _), keep_keep]
    simp [Bool.not_or]

theorem deleteRanges_eq {s : Series V} (h : Good s) (trs : TimeRanges) :
    s.deleteRanges trs = keep (fun t => !inRanges trs t) s := deleteRanges_fold trs.ranges h

theorem dropGroup_mem {id : Nat} {g : Group V} {x : Row V} (h : x ∈ (g.dropColumn id).rows) :
    ∃ y ∈ g.rows, y.ts = x.ts := by
  unfold Group.dropColumn at h
  cases hi : g.schema.index id with
  | none => rw [hi] at h; exact ⟨x, h, rfl⟩
  | some i =>
    rw [hi] at h
    simp only [mem_insertRows, List.mem_map, List.not_mem_nil, or_false] at h
    obtain ⟨y, hy, rfl⟩ := h
    exact ⟨y, hy, rfl⟩

theorem good_drop {s : Series V} (h : Good s) (id : Nat) : Good (s.dropColumn id) := by
  constructor
  · intro g hg
    obtain ⟨g', hg', rfl⟩ := List.mem_map.1 hg
    unfold Group.dropColumn
    cases g'.schema.index id with
    | none => exact h.asc g' hg'
    | some i => exact asc_insertRows _ (by simp [Asc])
  · intro g hg r hr
    obtain ⟨g', hg', rfl⟩ := List.mem_map.1 hg
    obtain ⟨y, hy, e⟩ := dropGroup_mem hr
    rw [← e]; exact h.i64 g' hg' y hy
  · intro g hg r hr
    obtain ⟨g', hg', rfl⟩ := List.mem_map.1 hg
    obtain ⟨y, hy, e⟩ := dropGroup_mem hr
    rw [← e]; exact h.range g' hg' y hy

theorem good_run {s : Series V} (h : Good s) : ∀ (op : Op V), (∀ sc rows, op = .write sc rows → ∀ r ∈ rows, IsI64 r.ts) →
    Good (op.run s)
  | .write sc rows, ho => good_write h sc (ho sc rows rfl)
  | .deleteRanges trs, _ => by simp only [Op.run]; rw [deleteRanges_eq h]; exact good_keep h _
  | .deleteSeries r, _ => by simp only [Op.run]; rw [deleteSeries_eq h]; exact good_keep h _
  | .dropColumn id, _ => good_drop h id

theorem runAll_concat (h : List (Op V)) (op : Op V) : runAll (h ++ [op]) = op.run (runAll h) := by
  simp [runAll]

theorem good_runAll {h : List (Op V)} (ht : TimesOk h) : Good (runAll h) := by
  induction h using List.reverseRecOn with
  | nil => exact good_new
  | append_singleton h op ih =>
    rw [runAll_concat]
    refine good_run (ih fun sc rows hm => ht sc rows (List.mem_append_left _ hm)) op ?_
    rintro sc rows rfl
    exact ht sc rows (by simp)

/-! ## Reading -/

theorem pq_ok {s : Series V} (h : Good s) : PqOk s.flat := by
  constructor
  · intro e he
    obtain ⟨g, hg, rfl⟩ := List.mem_map.1 he
    exact h.asc g hg
  · intro e he r hr
    obtain ⟨g, hg, rfl⟩ := List.mem_map.1 he
    exact (h.i64 g hg r hr).2

theorem hasTime_flat {s : Series V} {t : Int} : HasTime s.flat t ↔ ∃ g ∈ s.groups, ∃ r ∈ g.rows, r.ts = t := by
  constructor
  · rintro ⟨e, he, r, hr, ht⟩
    obtain ⟨g, hg, rfl⟩ := List.mem_map.1 he
    exact ⟨g, hg, r, hr, ht⟩
  · rintro ⟨g, hg, r, hr, ht⟩
    exact ⟨_, List.mem_map.2 ⟨g, hg, rfl⟩, r, hr, ht⟩

/-- All times of a series. -/
def times (s : Series V) : List Int := (iterate [] (size s.flat + 1) s.flat).map Row.ts

theorem times_spec {s : Series V} (h : Good s) :
    (times s).Pairwise (· < ·) ∧ ∀ t, t ∈ times s ↔ HasTime s.flat t ∧ t ≠ i64Max := by
  obtain ⟨h1, h2, _⟩ := iterate_spec [] (size s.flat + 1) s.flat (pq_ok h) (by omega)
  refine ⟨List.pairwise_map.2 h1, ?_⟩
  intro t
  rw [← h2 t]
  simp [times]

theorem all_eq {s : Series V} (h : Good s) (sc : Schema) :
    s.all sc = (times s).map fun t => ⟨t, sc.ids.map (valAt s.flat t)⟩ := by
  obtain ⟨h1, h2, h3⟩ := iterate_spec sc.ids (size s.flat + 1) s.flat (pq_ok h) (by omega)
  obtain ⟨t1, t2⟩ := times_spec h
  have e : (s.all sc).map Row.ts = times s := by
    refine strict_ext (List.pairwise_map.2 h1) t1 ?_
    intro t
    rw [t2, ← h2 t]
    simp [Series.all]
  rw [← e, List.map_map]
  conv_lhs => rw [← List.map_id (s.all sc)]
  refine List.map_congr_left fun r hr => ?_
  have := h3 r hr
  simp only [id, Function.comp]
  rw [← this]

theorem index_some {s : Schema} {id i : Nat} (h : s.index id = some i) : s.ids[i]? = some id := by
  unfold Schema.index at h
  obtain ⟨hi, h1, _⟩ := List.findIdx?_eq_some_iff_getElem.1 h
  rw [List.getElem?_eq_getElem hi]
  simpa using h1

theorem index_none {s : Schema} {id : Nat} : s.index id = none ↔ id ∉ s.ids := by
  unfold Schema.index
  rw [List.findIdx?_eq_none_iff]
  constructor
  · intro h hm; simpa using h id hm
  · intro h x hx; simp; rintro rfl; exact h hx

theorem value_map (s : Schema) (f : Nat → Option V) (t : Int) (id : Nat) :
    value s id ⟨t, s.ids.map f⟩ = if id ∈ s.ids then f id else none := by
  unfold value
  cases hi : s.index id with
  | none => rw [if_neg (index_none.1 hi)]; rfl
  | some i =>
    have h1 := index_some hi
    have h2 : id ∈ s.ids := List.mem_of_getElem? h1
    rw [if_pos h2]
    simp [h1]

theorem readTimestamps_eq {s : Series V} (h : Good s) {latest : Schema} (hl : s.schema = some latest) (trs : TimeRanges) :
    s.readTimestamps trs = (times s).filter trs.contains := by
  simp only [Series.readTimestamps, hl]
  rw [all_eq h, List.filter_map, List.map_map]
  simp [Function.comp_def]

theorem readData_eq {s : Series V} (h : Good s) {latest : Schema} (hl : s.schema = some latest) (cols : List Nat)
    (trs : TimeRanges) : s.readData cols trs = ((times s).filter trs.contains).map fun t =>
      ⟨t, cols.map fun id => if id ∈ latest.ids then valAt s.flat t id else none⟩ := by
  simp only [Series.readData, hl]
  rw [all_eq h, List.filter_map, List.map_map]
  simp only [Function.comp_def, value_map]

theorem schema_none {s : Series V} : s.schema = none ↔ s.groups = [] := by
  simp [Series.schema]

theorem times_nil {s : Series V} (h : Good s) (hs : s.schema = none) : times s = [] := by
  rw [List.eq_nil_iff_forall_not_mem]
  intro t ht
  obtain ⟨g, hg, _⟩ := hasTime_flat.1 ((times_spec h).2 t |>.1 ht).1
  rw [schema_none.1 hs] at hg
  cases hg

theorem readTimestamps_eq' {s : Series V} (h : Good s) (trs : TimeRanges) :
    s.readTimestamps trs = (times s).filter trs.contains := by
  cases hs : s.schema with
  | none => simp [Series.readTimestamps, hs, times_nil h hs]
  | some l => exact readTimestamps_eq h hs trs

theorem readData_ts {s : Series V} (h : Good s) (cols : List Nat) (trs : TimeRanges) :
    (s.readData cols trs).map Row.ts = s.readTimestamps trs := by
  rw [readTimestamps_eq' h]
  cases hs : s.schema with
  | none => simp [Series.readData, hs, times_nil h hs]
  | some l => rw [readData_eq h hs, List.map_map]; simp [Function.comp_def]

/-! ## C26: strictly increasing times, nothing invented, nothing missed -/

theorem hasTime_write {s : Series V} {sc : Schema} {rows : List (Row V)} {t : Int} :
    HasTime (s.write (mkGroup sc rows)).flat t ↔ HasTime s.flat t ∨ ∃ r ∈ rows, r.ts = t := by
  rw [hasTime_flat, hasTime_flat]
  constructor
  · rintro ⟨g, hg, r, hr, rfl⟩
    rcases write_mem.1 ⟨g, hg, hr⟩ with ⟨e, he, hr⟩ | hr
    · exact .inl ⟨e, he, r, hr, rfl⟩
    · exact .inr ⟨r, mkGroup_mem.1 hr, rfl⟩
  · rintro (⟨g, hg, r, hr, rfl⟩ | ⟨r, hr, rfl⟩)
    · obtain ⟨e, he, h⟩ := write_mem.2 (.inl ⟨g, hg, hr⟩); exact ⟨e, he, r, h, rfl⟩
    · obtain ⟨e, he, h⟩ := (write_mem (s := s)).2 (.inr ((mkGroup_mem (sc := sc)).2 hr)); exact ⟨e, he, r, h, rfl⟩

theorem hasTime_keep {s : Series V} {p : Int → Bool} {t : Int} :
    HasTime (keep p s).flat t ↔ HasTime s.flat t ∧ p t = true := by
  rw [hasTime_flat, hasTime_flat]
  constructor
  · rintro ⟨g, hg, r, hr, rfl⟩
    obtain ⟨g', hg', rfl⟩ := List.mem_map.1 hg
    obtain ⟨h1, h2⟩ := List.mem_filter.1 hr
    exact ⟨⟨g', hg', r, h1, rfl⟩, h2⟩
  · rintro ⟨⟨g, hg, r, hr, rfl⟩, hp⟩
    exact ⟨_, List.mem_map.2 ⟨g, hg, rfl⟩, r, List.mem_filter.2 ⟨hr, hp⟩, rfl⟩

theorem hasTime_drop {s : Series V} {id : Nat} {t : Int} : HasTime (s.dropColumn id).flat t ↔ HasTime s.flat t := by
  rw [hasTime_flat, hasTime_flat]
  constructor
  · rintro ⟨g, hg, r, hr, rfl⟩
    obtain ⟨g', hg', rfl⟩ := List.mem_map.1 hg
    obtain ⟨y, hy, e⟩ := dropGroup_mem hr
    exact ⟨g', hg', y, hy, e⟩
  · rintro ⟨g, hg, r, hr, rfl⟩
    refine ⟨_, List.mem_map.2 ⟨g, hg, rfl⟩, ?_⟩
    unfold Group.dropColumn
    cases hi : g.schema.index id with
    | none => exact ⟨r, hr, rfl⟩
    | some i =>
      simp only
      exact ⟨_, mem_insertRows.2 (.inl (List.mem_map.2 ⟨r, hr, rfl⟩)), rfl⟩

theorem hasTime_runAll {h : List (Op V)} (ht : TimesOk h) (t : Int) : HasTime (runAll h).flat t ↔ present h t = true := by
  induction h using List.reverseRecOn with
  | nil => simp [runAll, present, hasTime_flat, Series.new]
  | append_singleton h op ih =>
    have ht' : TimesOk h := fun sc rows hm => ht sc rows (List.mem_append_left _ hm)
    have hg := good_runAll ht'
    rw [runAll_concat]
    have e : present (h ++ [op]) t = op.present t (present h t) := by simp [present]
    rw [e]
    cases op with
    | write sc rows =>
      simp only [Op.run, Op.present, Bool.or_eq_true, List.any_eq_true, decide_eq_true_eq]
      rw [hasTime_write, ih ht']
    | deleteRanges trs =>
      simp only [Op.run, Op.present, Bool.and_eq_true]
      rw [deleteRanges_eq hg, hasTime_keep, ih ht']
    | deleteSeries r =>
      simp only [Op.run, Op.present, Bool.and_eq_true]
      rw [deleteSeries_eq hg, hasTime_keep, ih ht']
    | dropColumn id =>
      simp only [Op.run, Op.present]
      rw [hasTime_drop, ih ht']

/-- The property in full. -/
def C26Full : Prop := ∀ (V : Type) (h : List (Op V)) (cols : List Nat) (trs : TimeRanges), TimesOk h → WF trs →
  ((runAll h).readData cols trs).Pairwise (fun a b => a.ts < b.ts) ∧
  ∀ t, (∃ r ∈ (runAll h).readData cols trs, r.ts = t) ↔ present h t = true ∧ Covers trs.inner t

/-- A series read from the buffer after any history of writes, deletes and dropped columns has strictly increasing times.
A time is returned exactly if it was written, was not deleted since, and lies in the requested ranges; missing from the
full property: the time `i64::MAX`. -/
theorem C26_times_partial (h : List (Op V)) (cols : List Nat) (trs : TimeRanges) (ht : TimesOk h) (hw : WF trs) :
    ((runAll h).readData cols trs).Pairwise (fun a b => a.ts < b.ts) ∧
    ∀ t, (∃ r ∈ (runAll h).readData cols trs, r.ts = t) ↔ present h t = true ∧ Covers trs.inner t ∧ t ≠ i64Max := by
  have hg := good_runAll ht
  have e := readData_ts hg cols trs
  rw [readTimestamps_eq' hg] at e
  obtain ⟨h1, h2⟩ := times_spec hg
  refine ⟨List.pairwise_map.1 (e ▸ h1.filter _), ?_⟩
  intro t
  have : (∃ r ∈ (runAll h).readData cols trs, r.ts = t) ↔ t ∈ ((runAll h).readData cols trs).map Row.ts := by simp
  rw [this, e, List.mem_filter, h2, hasTime_runAll ht, contains_iff_covers hw.sep]
  tauto

/-- Reading the times alone returns the times of the rows. -/
theorem C26_timestamps (h : List (Op V)) (cols : List Nat) (trs : TimeRanges) (ht : TimesOk h) :
    (runAll h).readTimestamps trs = ((runAll h).readData cols trs).map Row.ts := (readData_ts (good_runAll ht) cols trs).symm

/-- A row written at the largest timestamp is never returned. -/
theorem C26_last_timestamp_refuted : ¬ C26Full := by
  intro h
  have := (h Nat [.write ⟨1, [2]⟩ [⟨i64Max, [some 7]⟩]] [2] TimeRanges.all
    (by intro sc rows hm r hr
        simp only [List.mem_singleton, Op.write.injEq] at hm
        rw [hm.2] at hr
        simp only [List.mem_singleton] at hr
        rw [hr]; unfold IsI64; decide)
    ⟨⟨by decide, by intro e he; simp only [TimeRanges.all, List.mem_singleton] at he; rw [he]; unfold IsI64; decide⟩,
     by decide⟩).2 i64Max
  have h2 := this.2 ⟨by decide, ⟨(i64Min, i64Max), by decide, by decide, by decide⟩⟩
  revert h2
  decide

/-! ## C27: deleting -/

theorem seen_keep (s : Series V) (p : Int → Bool) {t : Int} (h : p t = true) : seen (keep p s).flat t = seen s.flat t := by
  have e : (keep p s).flat = s.flat.map fun e => (e.1, e.2.filter fun r => p r.ts) := by
    simp [keep, Series.flat, Function.comp_def]
  rw [e]
  unfold seen
  rw [← List.map_reverse, List.flatMap_map]
  have : ∀ l : List (Row V), At t (l.filter fun r => p r.ts) = At t l := by
    intro l
    unfold At
    rw [List.filter_filter]
    refine List.filter_congr fun r _ => ?_
    by_cases hr : r.ts = t
    · simp [hr, h]
    · simp [hr]
  simp only [this]

theorem times_keep {s : Series V} (h : Good s) (p : Int → Bool) : times (keep p s) = (times s).filter p := by
  obtain ⟨h1, h2⟩ := times_spec (good_keep h p)
  obtain ⟨h3, h4⟩ := times_spec h
  refine strict_ext h1 (h3.filter _) ?_
  intro t
  rw [h2, List.mem_filter, h4, hasTime_keep]
  tauto

theorem schema_keep (s : Series V) (p : Int → Bool) : (keep p s).schema = s.schema := by
  simp [keep, Series.schema, Function.comp_def]

theorem read_keep {s : Series V} (h : Good s) (p : Int → Bool) (cols : List Nat) (trs : TimeRanges) :
    (keep p s).readData cols trs = (s.readData cols trs).filter fun r => p r.ts := by
  cases hs : s.schema with
  | none => simp [Series.readData, schema_keep, hs]
  | some latest =>
    rw [readData_eq (good_keep h p) (by rw [schema_keep, hs]), readData_eq h hs, times_keep h, List.filter_map,
      List.filter_filter, List.filter_filter]
    simp only [Function.comp_def]
    have e : (times s).filter (fun t => trs.contains t && p t) = (times s).filter (fun t => p t && trs.contains t) := by
      refine List.filter_congr fun t _ => Bool.and_comm _ _
    rw [e]
    refine List.map_congr_left fun t ht => ?_
    have hp : p t = true := by
      have := (List.mem_filter.1 ht).2
      simp only [Bool.and_eq_true] at this
      exact this.1
    unfold valAt
    rw [seen_keep s p hp]

theorem inRanges_iff (trs : TimeRanges) (t : Int) : inRanges trs t = true ↔ Covers trs.inner t := by
  unfold inRanges Covers
  simp only [TimeRanges.ranges, List.any_map, List.any_eq_true, Function.comp, TimeRange.contains, Bool.and_eq_true,
    decide_eq_true_eq, ge_iff_le]

/-- After any history, deleting time ranges leaves exactly the rows outside of the ranges, with unchanged values. -/
theorem C27_delete_ranges (h : List (Op V)) (ht : TimesOk h) (del : TimeRanges) (cols : List Nat) (trs : TimeRanges) :
    ((runAll h).deleteRanges del).readData cols trs =
      ((runAll h).readData cols trs).filter fun r => !(del.inner.any fun e => decide (e.1 ≤ r.ts) && decide (r.ts ≤ e.2)) := by
  rw [deleteRanges_eq (good_runAll ht), read_keep (good_runAll ht)]
  refine List.filter_congr fun r _ => ?_
  simp only [inRanges, TimeRanges.ranges, List.any_map, Function.comp_def, TimeRange.contains, ge_iff_le]

/-- The same for the deletion of one range, used by dropping a table. -/
theorem C27_delete_series (h : List (Op V)) (ht : TimesOk h) (del : TimeRange) (cols : List Nat) (trs : TimeRanges) :
    ((runAll h).deleteSeries del).readData cols trs =
      ((runAll h).readData cols trs).filter fun r => !(decide (del.minTs ≤ r.ts) && decide (r.ts ≤ del.maxTs)) := by
  rw [deleteSeries_eq (good_runAll ht), read_keep (good_runAll ht)]
  refine List.filter_congr fun r _ => ?_
  simp only [TimeRange.contains, ge_iff_le]

/-- Reading the times alone after a deletion. -/
theorem C27_timestamps (h : List (Op V)) (ht : TimesOk h) (del : TimeRanges) (trs : TimeRanges) :
    ((runAll h).deleteRanges del).readTimestamps trs =
      ((runAll h).readTimestamps trs).filter fun t => !(del.inner.any fun e => decide (e.1 ≤ t) && decide (t ≤ e.2)) := by
  have hg := good_runAll ht
  rw [deleteRanges_eq hg, readTimestamps_eq' (good_keep hg _), readTimestamps_eq' hg, times_keep hg, List.filter_filter,
    List.filter_filter]
  refine List.filter_congr fun t _ => ?_
  simp only [inRanges, TimeRanges.ranges, List.any_map, Function.comp_def, TimeRange.contains, ge_iff_le, Bool.and_comm]

/-! ## C28: dropping a column -/

theorem value_drop {s : Schema} {id i id' : Nat} (hi : s.index id = some i) (hne : id' ≠ id) (r : Row V) :
    value { s with ids := s.ids.eraseIdx i } id'
      { r with fields := if i < r.fields.length then r.fields.eraseIdx i else r.fields } = value s id' r := by
  obtain ⟨il, i1, i2⟩ := List.findIdx?_eq_some_iff_getElem.1 hi
  have ii : s.ids[i] = id := by simpa using i1
  unfold value
  have hf : ∀ k, ((if i < r.fields.length then r.fields.eraseIdx i else r.fields)[k]?) =
      if k < i then r.fields[k]? else r.fields[k + 1]? := by
    intro k
    by_cases hl : i < r.fields.length
    · rw [if_pos hl, List.getElem?_eraseIdx]
    · rw [if_neg hl]
      split
      · rfl
      · rw [List.getElem?_eq_none (by omega), List.getElem?_eq_none (by omega)]
  cases hj : s.index id' with
  | none =>
    have : Schema.index { s with ids := s.ids.eraseIdx i } id' = none := by
      rw [index_none] at hj ⊢
      exact fun h => hj (List.mem_of_mem_eraseIdx h)
    rw [this]; rfl
  | some j =>
    obtain ⟨jl, j1, j2⟩ := List.findIdx?_eq_some_iff_getElem.1 hj
    have jj : s.ids[j] = id' := by simpa using j1
    have hij : j ≠ i := by
      rintro rfl
      exact hne (jj.symm.trans ii)
    have hlen : (s.ids.eraseIdx i).length = s.ids.length - 1 := by rw [List.length_eraseIdx, if_pos il]
    have : Schema.index { s with ids := s.ids.eraseIdx i } id' = some (if j < i then j else j - 1) := by
      unfold Schema.index
      rw [List.findIdx?_eq_some_iff_getElem]
      have hb : (if j < i then j else j - 1) < (s.ids.eraseIdx i).length := by
        rw [hlen]; split <;> omega
      refine ⟨hb, ?_, ?_⟩
      · rw [List.getElem_eraseIdx]
        by_cases h : j < i
        · simp [h, jj]
        · have h2 : ¬ j - 1 < i := by omega
          have h3 : j - 1 + 1 = j := by omega
          simp [h, h2, h3, jj]
      · intro k hk
        rw [List.getElem_eraseIdx]
        by_cases h : k < i
        · simp only [h, dite_true]
          exact j2 k (by split at hk <;> omega)
        · simp only [h, dite_false]
          exact j2 (k + 1) (by split at hk <;> omega)
    rw [this]
    simp only [Option.bind_some, hf]
    by_cases h : j < i
    · simp [h]
    · have h2 : ¬ j - 1 < i := by omega
      have h3 : j - 1 + 1 = j := by omega
      simp [h, h2, h3]

/-- No group holds two rows of a time. -/
def Single (s : Series V) (t : Int) : Prop := ∀ g ∈ s.groups, (At t g.rows).length ≤ 1

theorem reverse_single {α : Type} {l : List α} (h : l.length ≤ 1) : l.reverse = l := by
  match l, h with
  | [], _ => rfl
  | [_], _ => rfl
  | _ :: _ :: _, h => simp at h

theorem findSome_flatMap {α β γ : Type} (f : α → List β) (q : β → Option γ) : ∀ l : List α,
    (l.flatMap f).findSome? q = l.findSome? fun a => (f a).findSome? q
  | [] => rfl
  | a :: l => by
    rw [List.flatMap_cons, List.findSome?_append, findSome_flatMap f q l, List.findSome?_cons]
    cases (f a).findSome? q <;> rfl

theorem valAt_eq (s : Series V) (t : Int) (id : Nat) :
    valAt s.flat t id = s.groups.reverse.findSome? fun g => (At t g.rows).findSome? (value g.schema id) := by
  unfold valAt seen Series.flat
  rw [findSome_flatMap, ← List.map_reverse, List.findSome?_map]
  congr 1
  funext g
  simp only [Function.comp, List.findSome?_map]
  rfl

theorem findSome_congr {α β : Type} {f g : α → Option β} : ∀ {l : List α}, (∀ a ∈ l, f a = g a) → l.findSome? f = l.findSome? g
  | [], _ => rfl
  | a :: l, h => by
    rw [List.findSome?_cons, List.findSome?_cons, h a (List.mem_cons_self ..),
      findSome_congr fun x hx => h x (List.mem_cons_of_mem _ hx)]

theorem valAt_drop {s : Series V} {t : Int} {id id' : Nat} (hs : Single s t) (hne : id' ≠ id) :
    valAt (s.dropColumn id).flat t id' = valAt s.flat t id' := by
  rw [valAt_eq, valAt_eq]
  simp only [Series.dropColumn]
  rw [← List.map_reverse, List.findSome?_map]
  refine findSome_congr fun g hg => ?_
  have hs := hs g (List.mem_reverse.1 hg)
  simp only [Function.comp, Group.dropColumn]
  cases hi : g.schema.index id with
  | none => rfl
  | some i =>
    simp only
    rw [at_insertRows]
    have e : ∀ l : List (Row V), At t (l.map fun r => { r with fields := if i < r.fields.length then r.fields.eraseIdx i else r.fields })
        = (At t l).map fun r => { r with fields := if i < r.fields.length then r.fields.eraseIdx i else r.fields } := by
      intro l; simp only [At, List.filter_map]; rfl
    rw [e, reverse_single (by rw [List.length_map]; exact hs)]
    simp only [At, List.filter_nil, List.append_nil, List.findSome?_map]
    refine findSome_congr fun r _ => ?_
    exact value_drop hi hne r

theorem schema_drop (s : Series V) (id : Nat) :
    (s.dropColumn id).schema = s.groups.getLast?.map fun g => (g.dropColumn id).schema := by
  simp [Series.schema, Series.dropColumn, Function.comp_def]

theorem mem_drop {g : Group V} {id id' : Nat} (hne : id' ≠ id) : id' ∈ (g.dropColumn id).schema.ids ↔ id' ∈ g.schema.ids := by
  unfold Group.dropColumn
  cases hi : g.schema.index id with
  | none => exact Iff.rfl
  | some i =>
    simp only
    constructor
    · exact List.mem_of_mem_eraseIdx
    · intro h
      rw [List.mem_eraseIdx_iff_getElem?]
      obtain ⟨j, hj⟩ := List.getElem?_of_mem h
      refine ⟨j, ?_, hj⟩
      rintro rfl
      rw [index_some hi] at hj
      exact hne (Option.some.inj hj).symm

theorem times_drop {s : Series V} (h : Good s) (id : Nat) : times (s.dropColumn id) = times s := by
  obtain ⟨h1, h2⟩ := times_spec (good_drop h id)
  obtain ⟨h3, h4⟩ := times_spec h
  refine strict_ext h1 h3 ?_
  intro t
  rw [h2, h4, hasTime_drop]

/-- The property in full. -/
def C28Full : Prop := ∀ (V : Type) (h : List (Op V)) (id : Nat) (cols : List Nat) (trs : TimeRanges), TimesOk h → id ∉ cols →
  ((runAll h).dropColumn id).readData cols trs = (runAll h).readData cols trs

/-- After dropping a column, the times read are unchanged. -/
theorem C28_times (h : List (Op V)) (ht : TimesOk h) (id : Nat) (trs : TimeRanges) :
    ((runAll h).dropColumn id).readTimestamps trs = (runAll h).readTimestamps trs := by
  have hg := good_runAll ht
  rw [readTimestamps_eq' hg, readTimestamps_eq' (good_drop hg id), times_drop hg]

/-- After dropping a column, the row of a time is unchanged in the other columns; missing from the full property: times
that the buffer holds twice in one group. -/
theorem C28_rows_partial (h : List (Op V)) (ht : TimesOk h) (id : Nat) (cols : List Nat) (hc : id ∉ cols) (trs : TimeRanges)
    (t : Int) (hs : Single (runAll h) t) :
    At t (((runAll h).dropColumn id).readData cols trs) = At t ((runAll h).readData cols trs) := by
  have hg := good_runAll ht
  generalize runAll h = s at *
  cases hl : s.groups.getLast? with
  | none =>
    have h1 : s.schema = none := by simp [Series.schema, hl]
    have h2 : (s.dropColumn id).schema = none := by simp [schema_drop, hl]
    simp [Series.readData, h1, h2]
  | some g =>
    have h1 : s.schema = some g.schema := by simp [Series.schema, hl]
    have h2 : (s.dropColumn id).schema = some (g.dropColumn id).schema := by simp [schema_drop, hl]
    rw [readData_eq hg h1, readData_eq (good_drop hg id) h2, times_drop hg]
    unfold At
    rw [List.filter_map, List.filter_map]
    refine List.map_congr_left fun t' ht' => ?_
    have e : t' = t := by simpa using (List.mem_filter.1 ht').2
    subst e
    congr 1
    refine List.map_congr_left fun id' hid' => ?_
    have hne : id' ≠ id := by rintro rfl; exact hc hid'
    simp only [mem_drop hne, valAt_drop hs hne]

/-- If the times of the written rows are pairwise different no group holds a time twice. -/
theorem C28_distinct_partial (h : List (Op V)) (ht : TimesOk h) (id : Nat) (cols : List Nat) (hc : id ∉ cols)
    (trs : TimeRanges) (hs : ∀ t, Single (runAll h) t) :
    ((runAll h).dropColumn id).readData cols trs = (runAll h).readData cols trs := by
  have hg := good_runAll ht
  have a1 : Asc (((runAll h).dropColumn id).readData cols trs) := by
    have e := readData_ts (good_drop hg id) cols trs
    rw [readTimestamps_eq' (good_drop hg id)] at e
    have := (times_spec (good_drop hg id)).1.filter (fun t => trs.contains t)
    have := List.pairwise_map.1 (e ▸ this)
    exact this.imp fun h => Int.le_of_lt h
  have a2 : Asc ((runAll h).readData cols trs) := by
    have e := readData_ts hg cols trs
    rw [readTimestamps_eq' hg] at e
    have := (times_spec hg).1.filter (fun t => trs.contains t)
    have := List.pairwise_map.1 (e ▸ this)
    exact this.imp fun h => Int.le_of_lt h
  exact asc_ext a1 a2 fun t => C28_rows_partial h ht id cols hc trs t (hs t)

end Verif.Mem
