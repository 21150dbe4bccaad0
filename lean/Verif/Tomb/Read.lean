import Verif.Tomb.Props
/-!
# C17: reading a data file after deletes

`decode_pages` (tskv/src/tsm/reader.rs:493-562) with the deletion records of the file.  A column group is the time column
and field columns of the same length; decoding of a page to a nullable array is the subject of the codec modules.
-/
namespace Verif.Tomb
open Verif.Time Verif.Wal

/-- The pages of a column group: times of the rows, and for each field page its column id and the values. -/
structure Group (V : Type) where
  times : List Int
  cols : List (Nat × List (Option V))
deriving DecidableEq

/-- Rows in time order without duplicates, all pages of the same length, timestamps of 64 bits. -/
structure Group.Ok {V : Type} (g : Group V) : Prop where
  sorted : g.times.Pairwise (· < ·)
  len : ∀ c ∈ g.cols, c.2.length = g.times.length
  i64 : ∀ t ∈ g.times, IsI64 t

/-- `slice::binary_search` on an increasing slice: the position and whether the value is there. (By its contract the
position is determined when there are no duplicates.) -/
def bsearch (xs : List Int) (x : Int) : Nat × Bool :=
  let i := (xs.takeWhile fun y => decide (y < x)).length
  (i, decide (xs[i]? = some x))

/-- `update_nullbits_by_time_range` (reader.rs:634-655). -/
def nullBits (times : List Int) (rs : List TimeRange) (bits : List Bool) : List Bool :=
  rs.foldl (fun bits r =>
    let s := (bsearch times r.minTs).1
    let e := match bsearch times r.maxTs with | (i, true) => i + 1 | (i, false) => i
    bits.mapIdx fun i b => if s ≤ i ∧ i < e then false else b) bits

/-- The time range in the statistics of the time page (page.rs:205-214, reader.rs:596-621). -/
def stats (times : List Int) : TimeRange :=
  ⟨times.foldl min i64Max, times.foldl max i64Min⟩

/-- `updated_nullbuffer` (reader.rs:763-812): the values with another null mask. -/
def withNulls {V : Type} (bits : List Bool) (vals : List (Option V)) : List (Option V) :=
  List.zipWith (fun b v => if b then v else none) bits vals

/-- `filter_record_batch` (arrow): the elements where the mask is set. -/
def keep {α : Type} (mask : List Bool) (xs : List α) : List α :=
  ((mask.zip xs).filter fun p => p.1).map Prod.snd

/-- `decode_pages` (reader.rs:493-562) with the deletion records of the file, for the pages of one series.  (The schema
is built in page order and the arrays with time first; the time page is the first page of a column group.) -/
def decode {V : Type} (c : Cache) (sid : Nat) (g : Group V) : Group V :=
  let tr := stats g.times
  let filters := c.allRanges tr
  let cols := g.cols.map fun col =>
    let fs := c.columnRanges sid col.1 tr
    if fs = [] then col
    else (col.1, withNulls (nullBits g.times fs (col.2.map Option.isSome)) col.2)
  if filters = [] then ⟨g.times, cols⟩
  else
    let mask := nullBits g.times filters (g.times.map fun _ => true)
    ⟨keep mask g.times, cols.map fun col => (col.1, keep mask col.2)⟩

/-! ## Specification -/

instance (c : Cache) (sid cid : Nat) (t : Int) : Decidable (c.Deleted sid cid t) := by
  unfold Cache.Deleted; infer_instance

/-- The points (time and value) of a column. -/
def points {V : Type} (times : List Int) (vals : List (Option V)) : List (Int × V) :=
  (times.zip vals).filterMap fun p => p.2.map fun v => (p.1, v)

/-! ## Proofs -/

theorem takeWhile_le {xs : List Int} (h : xs.Pairwise (· < ·)) (x : Int) (i : Nat) (hi : i < xs.length) :
    (xs.takeWhile fun y => decide (y < x)).length ≤ i ↔ x ≤ xs[i] := by
  induction xs generalizing i with
  | nil => exact absurd hi (by simp)
  | cons a l ih =>
    rw [List.pairwise_cons] at h
    by_cases ha : a < x
    · rw [List.takeWhile_cons_of_pos (by simpa using ha)]
      cases i with
      | zero => simp; omega
      | succ i =>
        simp only [List.length_cons, Nat.add_le_add_iff_right, List.getElem_cons_succ]
        exact ih h.2 i (by simpa using hi)
    · rw [List.takeWhile_cons_of_neg (by simpa using ha)]
      simp only [List.length_nil, Nat.zero_le, true_iff]
      cases i with
      | zero => simp; omega
      | succ i =>
        have := h.1 (l[i]'(by simpa using hi)) (List.getElem_mem _)
        simp only [List.getElem_cons_succ]
        omega

theorem bsearch_start {xs : List Int} (h : xs.Pairwise (· < ·)) (x : Int) (i : Nat) (hi : i < xs.length) :
    (bsearch xs x).1 ≤ i ↔ x ≤ xs[i] := takeWhile_le h x i hi

theorem bsearch_end {xs : List Int} (h : xs.Pairwise (· < ·)) (x : Int) (i : Nat) (hi : i < xs.length) :
    i < (match bsearch xs x with | (i, true) => i + 1 | (i, false) => i) ↔ xs[i] ≤ x := by
  have h1 := takeWhile_le h x i hi
  unfold bsearch
  simp only
  split
  · rename_i j e
    simp only [Prod.mk.injEq, decide_eq_true_eq] at e
    obtain ⟨rfl, e⟩ := e
    obtain ⟨hlt, hx⟩ := List.getElem?_eq_some_iff.1 e
    generalize (xs.takeWhile fun y => decide (y < x)).length = k at *
    refine Iff.trans (Nat.lt_succ_iff (m := i) (n := k)) ?_
    constructor
    · intro hk
      by_cases hik : i = k
      · subst hik; omega
      · have := List.pairwise_iff_getElem.1 h i k hi hlt (by omega); omega
    · intro hk
      by_contra hn
      have := List.pairwise_iff_getElem.1 h k i hlt hi (by omega)
      omega
  · rename_i j e
    simp only [Prod.mk.injEq, decide_eq_false_iff_not] at e
    obtain ⟨rfl, e⟩ := e
    constructor
    · intro hk
      have : ¬ x ≤ xs[i] := fun hx => absurd (h1.2 hx) (by omega)
      omega
    · intro hk
      by_contra hn
      have h2 : x ≤ xs[i] := h1.1 (by omega)
      have hxi : xs[i] = x := by omega
      apply e
      have hki : (xs.takeWhile fun y => decide (y < x)).length = i := by
        have h3 : (xs.takeWhile fun y => decide (y < x)).length ≤ i := by omega
        have hkl : (xs.takeWhile fun y => decide (y < x)).length < xs.length := by omega
        have h4 := (takeWhile_le h x _ hkl).1 (Nat.le_refl _)
        by_contra hne
        have := List.pairwise_iff_getElem.1 h _ i hkl hi (by omega)
        omega
      rw [hki, List.getElem?_eq_getElem hi, hxi]

/-- A range holds a time (executable). -/
def hasB (r : TimeRange) (t : Int) : Bool := decide (r.minTs ≤ t) && decide (t ≤ r.maxTs)

theorem hasB_iff (r : TimeRange) (t : Int) : hasB r t = true ↔ Has r t := by
  simp [hasB, Has]

theorem nullBits_eq {times : List Int} (h : times.Pairwise (· < ·)) : ∀ (rs : List TimeRange) (bits : List Bool),
    bits.length = times.length →
    nullBits times rs bits = List.zipWith (fun t b => b && !rs.any fun r => hasB r t) times bits
  | [], bits, hl => by
    simp only [nullBits, List.foldl_nil, List.any_nil, Bool.not_false, Bool.and_true]
    refine List.ext_getElem (by simp [hl]) ?_
    intro i h1 h2
    simp
  | r :: rs, bits, hl => by
    have ih := nullBits_eq h rs
    unfold nullBits at ih ⊢
    rw [List.foldl_cons, ih _ (by simpa using hl)]
    refine List.ext_getElem (by simp [hl]) ?_
    intro i h1 h2
    have hi : i < times.length := by simp at h1; omega
    simp only [List.getElem_zipWith, List.getElem_mapIdx, List.any_cons, bsearch_start h _ i hi, bsearch_end h _ i hi]
    by_cases hc : r.minTs ≤ times[i] ∧ times[i] ≤ r.maxTs
    · have : hasB r times[i] = true := (hasB_iff _ _).2 hc
      rw [if_pos hc, this]; simp
    · have : hasB r times[i] = false := by
        rw [← Bool.not_eq_true]; exact fun hh => hc ((hasB_iff _ _).1 hh)
      rw [if_neg hc, this]; simp

theorem foldl_min_le (l : List Int) (a : Int) : l.foldl min a ≤ a ∧ ∀ x ∈ l, l.foldl min a ≤ x := by
  induction l generalizing a with
  | nil => simp
  | cons b l ih =>
    simp only [List.foldl_cons, List.mem_cons, forall_eq_or_imp]
    have h1 := ih (min a b)
    have h2 := h1.1
    exact ⟨by omega, by omega, h1.2⟩

theorem foldl_le_max (l : List Int) (a : Int) : a ≤ l.foldl max a ∧ ∀ x ∈ l, x ≤ l.foldl max a := by
  induction l generalizing a with
  | nil => simp
  | cons b l ih =>
    simp only [List.foldl_cons, List.mem_cons, forall_eq_or_imp]
    have h1 := ih (max a b)
    have h2 := h1.1
    exact ⟨by omega, by omega, h1.2⟩

/-- Leaving out the ranges that do not meet the page changes nothing. -/
theorem any_filter {times : List Int} {t : Int} (ht : t ∈ times) (s : TimeRanges) :
    ((s.ranges.filter fun r => r.overlaps (stats times)).any fun r => hasB r t) = true ↔ Covers s.inner t := by
  rw [← ranges_covers, List.any_eq_true]
  have h1 := (foldl_min_le times i64Max).2 t ht
  have h2 := (foldl_le_max times i64Min).2 t ht
  constructor
  · rintro ⟨r, hr, hh⟩
    exact ⟨r, (List.mem_filter.1 hr).1, (hasB_iff _ _).1 hh⟩
  · rintro ⟨r, hr, hh⟩
    refine ⟨r, List.mem_filter.2 ⟨hr, ?_⟩, (hasB_iff _ _).2 hh⟩
    unfold TimeRange.overlaps stats
    unfold Has at hh
    simp
    omega

/-- The mask of the rows that are left. -/
theorem keep_eq {α : Type} (p : Int → Bool) (times : List Int) (xs : List α) :
    times.zip xs = times.zip xs → keep (times.map p) xs = ((times.zip xs).filter fun q => p q.1).map Prod.snd := by
  intro _
  unfold keep
  rw [List.zip_map_left, List.filter_map, List.map_map]
  rfl

theorem points_filter {V : Type} (p q : Int → Bool) (times : List Int) (vals : List (Option V)) (hl : vals.length = times.length) :
    points ((times.zip times).filter (fun x => p x.1) |>.map Prod.snd)
      ((times.zip (List.zipWith (fun t v => if q t then none else v) times vals)).filter (fun x => p x.1) |>.map Prod.snd) =
    (points times vals).filter fun x => p x.1 && !q x.1 := by
  induction times generalizing vals with
  | nil => simp [points]
  | cons t times ih =>
    cases vals with
    | nil => simp at hl
    | cons v vals =>
      have := ih vals (by simpa using hl)
      unfold points at this ⊢
      simp only [List.zip_cons_cons, List.zipWith_cons_cons, List.filter_cons]
      cases hp : p t <;> cases hq : q t <;> cases v <;>
        simp_all

theorem all_true_keep {α : Type} (times : List Int) (xs : List α) (hl : xs.length = times.length) :
    ((times.zip xs).filter (fun _ => true) |>.map Prod.snd) = xs := by
  rw [List.filter_true]
  exact List.map_snd_zip (by omega)

/-- One column after the deletes. -/
theorem col_eq {V : Type} {c : Cache} {sid : Nat} {g : Group V} (hg : g.Ok) {col : Nat × List (Option V)} (hm : col ∈ g.cols) :
    (if c.columnRanges sid col.1 (stats g.times) = [] then col
      else (col.1, withNulls (nullBits g.times (c.columnRanges sid col.1 (stats g.times)) (col.2.map Option.isSome)) col.2)) =
    (col.1, List.zipWith (fun t v => if (c.columnRanges sid col.1 (stats g.times)).any (fun r => hasB r t) then none else v)
      g.times col.2) := by
  have hl := hg.len col hm
  split
  · rename_i he
    rw [he]
    refine Prod.ext rfl ?_
    refine List.ext_getElem (by simp [hl]) ?_
    intro i h1 h2
    simp
  · refine Prod.ext rfl ?_
    simp only
    rw [nullBits_eq hg.sorted _ _ (by simpa using hl)]
    unfold withNulls
    refine List.ext_getElem (by simp [hl]) ?_
    intro i h1 h2
    simp only [List.getElem_zipWith, List.getElem_map]
    cases hv : col.2[i]'(by simp at h1; omega) <;>
      cases hb : (c.columnRanges sid col.1 (stats g.times)).any fun r => hasB r (g.times[i]'(by simp at h1; omega)) <;> simp

theorem columnRanges_eq (c : Cache) (sid cid : Nat) (tr : TimeRange) :
    c.columnRanges sid cid tr = (c.col (sid, cid)).ranges.filter fun t => t.overlaps tr := by
  unfold Cache.columnRanges Cache.col
  cases c.cols.get (sid, cid) <;> rfl

theorem decode_eq {V : Type} (c : Cache) (sid : Nat) {g : Group V} (hg : g.Ok) :
    decode c sid g =
      ⟨((g.times.zip g.times).filter fun x => !(c.allRanges (stats g.times)).any fun r => hasB r x.1).map Prod.snd,
       g.cols.map fun col => (col.1, ((g.times.zip (List.zipWith (fun t v =>
          if (c.columnRanges sid col.1 (stats g.times)).any (fun r => hasB r t) then none else v) g.times col.2)).filter
            fun x => !(c.allRanges (stats g.times)).any fun r => hasB r x.1).map Prod.snd)⟩ := by
  have hcols := List.map_congr_left (l := g.cols) (fun col hm => col_eq (c := c) (sid := sid) hg hm)
  unfold decode
  simp only
  rw [hcols]
  split
  · rename_i he
    rw [he]
    simp only [List.any_nil, Bool.not_false]
    rw [all_true_keep g.times g.times rfl]
    congr 1
    refine List.map_congr_left fun col hm => ?_
    rw [all_true_keep _ _ (by simp [hg.len col hm])]
  · rw [nullBits_eq hg.sorted _ _ (by simp)]
    have hmask : List.zipWith (fun t b => b && !(c.allRanges (stats g.times)).any fun r => hasB r t) g.times
        (g.times.map fun _ => true) = g.times.map fun t => !(c.allRanges (stats g.times)).any fun r => hasB r t := by
      refine List.ext_getElem (by simp) ?_
      intro i h1 h2
      simp
    rw [hmask, keep_eq _ _ _ rfl]
    congr 1
    rw [List.map_map]
    refine List.map_congr_left fun col hm => ?_
    simp only [Function.comp]
    rw [keep_eq _ _ _ rfl]

/-- **C17, columns.** Reading a column group after any deletes gives in every column exactly the stored points that are
not deleted, in order; the columns stay the same. -/
theorem C17_points {V : Type} {c : Cache} (hc : CacheOk c) (sid : Nat) {g : Group V} (hg : g.Ok) :
    (decode c sid g).cols.map (fun col => (col.1, points (decode c sid g).times col.2)) =
      g.cols.map fun col => (col.1, (points g.times col.2).filter fun p => !decide (c.Deleted sid col.1 p.1)) := by
  rw [decode_eq c sid hg]
  simp only [List.map_map]
  refine List.map_congr_left fun col hm => ?_
  refine Prod.ext rfl ?_
  simp only [Function.comp]
  have h := points_filter (fun t => !(c.allRanges (stats g.times)).any fun r => hasB r t)
    (fun t => (c.columnRanges sid col.1 (stats g.times)).any fun r => hasB r t) g.times col.2 (hg.len col hm)
  rw [h]
  refine List.filter_congr ?_
  intro p hp
  obtain ⟨q, hq, hqp⟩ := List.mem_filterMap.1 hp
  have ht : p.1 ∈ g.times := by
    have h1 := (List.of_mem_zip hq).1
    cases hv : q.2 with
    | none => simp [hv] at hqp
    | some v =>
      simp only [hv, Option.map_some, Option.some.injEq] at hqp
      rw [← hqp]; exact h1
  have e1 := any_filter ht c.all
  have e2 := any_filter ht (c.col (sid, col.1))
  have e3 := deleted_iff hc sid col.1 p.1
  rw [columnRanges_eq]
  unfold Cache.allRanges
  rw [← e1, ← e2] at e3
  rw [Bool.eq_iff_iff]
  simp only [Bool.and_eq_true, Bool.not_eq_true', ← Bool.not_eq_true, decide_eq_true_eq, e3]
  tauto

/-- **C17, rows.** The rows left are those not in a range taken out of the whole file. -/
theorem C17_rows_partial {V : Type} {c : Cache} (hc : CacheOk c) (sid : Nat) {g : Group V} (hg : g.Ok) :
    (decode c sid g).times = g.times.filter fun t => !c.all.contains t := by
  rw [decode_eq c sid hg]
  simp only
  have : ∀ (p : Int → Bool) (l : List Int), ((l.zip l).filter fun x => p x.1).map Prod.snd = l.filter p := by
    intro p l
    induction l with
    | nil => rfl
    | cons a l ih =>
      simp only [List.zip_cons_cons, List.filter_cons]
      cases hp : p a <;> simp [ih]
  rw [this fun t => !(c.allRanges (stats g.times)).any fun r => hasB r t]
  refine List.filter_congr ?_
  intro t ht
  rw [Bool.eq_iff_iff]
  simp only [Bool.not_eq_true', ← Bool.not_eq_true]
  rw [contains_iff_covers hc.all.wf.sep]
  unfold Cache.allRanges
  rw [any_filter ht]

/-- **C17 with C16.** After any history of deletes, compactions and restarts of the deletion file, reading gives in every
column exactly the stored points that no operation named.  (Same exception as `C16_history_partial`.) -/
theorem C17_after_history_partial {V : Type} {crc : Bytes → BitVec 32} (ops : List Op) (hok : ∀ op ∈ ops, op.Ok)
    (hcl : Clean crc St.fresh ops) (sid : Nat) {g : Group V} (hg : g.Ok)
    (hends : ∀ col ∈ g.cols,
      (∀ op ∈ ops, ∀ r ∈ op.ranges sid col.1, r.minTs = i64Min → r = ⟨i64Min, i64Max⟩) ∨
      (∀ op ∈ ops, ∀ r ∈ op.ranges sid col.1, r.maxTs = i64Max → r = ⟨i64Min, i64Max⟩)) :
    ∃ s, runAll crc St.fresh ops = some s ∧
      (decode s.cache sid g).cols.map (fun col => (col.1, points (decode s.cache sid g).times col.2)) =
        g.cols.map fun col => (col.1, (points g.times col.2).filter fun p =>
          !ops.any fun op => (op.ranges sid col.1).any fun r => hasB r p.1) := by
  obtain ⟨s, e, hd⟩ := C16_history_partial ops hok hcl
  obtain ⟨s', e', hi⟩ := runAll_inv ops _ inv_fresh hok hcl
  rw [e] at e'
  cases e'
  refine ⟨s, e, ?_⟩
  rw [C17_points hi.ok sid hg]
  refine List.map_congr_left fun col hm => Prod.ext rfl (List.filter_congr ?_)
  intro p hp
  obtain ⟨q, hq, hqp⟩ := List.mem_filterMap.1 hp
  have ht : p.1 ∈ g.times := by
    have h1 := (List.of_mem_zip hq).1
    cases hv : q.2 with
    | none => simp [hv] at hqp
    | some v =>
      simp only [hv, Option.map_some, Option.some.injEq] at hqp
      rw [← hqp]; exact h1
  have h1 := hd sid col.1 (hends col hm) p.1 (hg.i64 _ ht)
  rw [Bool.eq_iff_iff]
  simp only [Bool.not_eq_true', ← Bool.not_eq_true, decide_eq_true_eq, List.any_eq_true, hasB_iff, h1]

/-- C17, rows, full statement: a row of which every column is deleted is not returned. -/
def C17RowsFull : Prop := ∀ (V : Type) (c : Cache), CacheOk c → ∀ (sid : Nat) (g : Group V), g.Ok → g.cols ≠ [] →
  (decode c sid g).times = g.times.filter fun t => !g.cols.all fun col => decide (c.Deleted sid col.1 t)

/-- A file with rows at 1, 5 and 20 and a delete of all columns at 5. -/
def oneDeleted : Cache := Cache.empty.insertBatch [((7, 1), [⟨5, 9⟩]), ((7, 2), [⟨5, 9⟩])]

theorem oneDeleted_ok : CacheOk oneDeleted := by
  refine insertBatch_ok _ cacheOk_empty ?_
  intro e he
  simp only [List.mem_cons, List.not_mem_nil, or_false] at he
  rcases he with rfl | rfl <;>
    exact ⟨by decide, by intro x hx; rw [List.mem_singleton.1 hx]; unfold Proper IsI64; decide⟩

/-- **C17, rows refuted**: the row at 5 is deleted in every column (which is what DELETE records) but is still
returned, with null values. -/
theorem C17_empty_row_refuted : ¬ C17RowsFull := by
  intro h
  have := h Nat oneDeleted oneDeleted_ok 7 ⟨[1, 5, 20], [(1, [some 10, some 11, some 12]), (2, [none, some 21, some 22])]⟩
    ⟨by decide, by decide, by unfold IsI64; decide⟩ (by decide)
  exact absurd this (by decide +kernel)

example : decode oneDeleted 7 (⟨[1, 5, 20], [(1, [some 10, some 11, some 12]), (2, [none, some 21, some 22])]⟩ : Group Nat) =
    ⟨[1, 5, 20], [(1, [some 10, none, some 12]), (2, [none, none, some 22])]⟩ := by
  decide +kernel

example : decode (oneDeleted.insertAll ⟨15, 30⟩) 7
    (⟨[1, 5, 20], [(1, [some 10, some 11, some 12]), (2, [none, some 21, some 22])]⟩ : Group Nat) =
    ⟨[1, 5], [(1, [some 10, none]), (2, [none, none])]⟩ := by
  decide +kernel

end Verif.Tomb
