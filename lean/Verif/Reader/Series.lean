import Verif.Reader.Props
/-!
# Model: reading a series from its sources

* `tskv/src/reader/utils.rs:73-105` — `group_overlapping_segments`
* `tskv/src/reader/iterator.rs:299-412, 458-560` — `filter_rowgroups`, `build_chunk_reader`, `build_series_reader`
* `tskv/src/reader/mod.rs:160-200, 284-330` — `CombinedBatchReader`, `DataReference`
* `tskv/src/reader/filter.rs:74-140` — `DataFilterStream`

Simplifications: a source is its file id, the time range it is listed with, and the batches it yields, already aligned to the columns
of the query (`SchemaAlignmenter`); tags and limits are left out; no aggregates are pushed down.  `sort_unstable_by_key` and `sort`
are the stable sort: sources of equal time ranges always come into the same group and file ids differ, so the result is the same for
every sorting algorithm.
-/
namespace Verif.Reader

open Verif.Sort

variable {α : Type}

/-- A source of rows of a series (`enum DataReference`, mod.rs:272-276): a chunk of a file, or a write buffer. -/
structure Source (α : Type) where
  id : Nat
  lo : Int
  hi : Int
  input : Input α

/-- The rows of a source. -/
def Source.rows (s : Source α) : List (Row α) := rowsOf s.input

/-- `impl Ord for TimeRange` (common/models/src/predicate/domain.rs:212-219). -/
def leRange (a b : Source α) : Bool := decide (a.lo < b.lo) || decide (a.lo = b.lo) && decide (a.hi ≤ b.hi)

/-- `impl Ord for DataReference` (mod.rs:299-303). -/
def leId (a b : Source α) : Bool := decide (a.id ≤ b.id)

/-- One turn of the loop of `group_overlapping_segments` (utils.rs:80-102); the number is `global_min_ts`. -/
def groupStep (s : List (List (Source α)) × Int) (c : Source α) : List (List (Source α)) × Int :=
  let groups :=
    match s.1.getLast? with
    | some g => if c.lo ≤ s.2 then s.1.dropLast ++ [g ++ [c]] else s.1 ++ [[c]]
    | none => s.1 ++ [[c]]
  (groups, max c.hi s.2)

/-- `group_overlapping_segments` (utils.rs:73-105). -/
def group (l : List (Source α)) : List (List (Source α)) := (l.foldl groupStep ([], -2 ^ 63)).1

/-- The reader of a group (iterator.rs:519-545): the merge of its sources, or the only source. -/
def readGroup (cols bs fuel : Nat) (g : List (Source α)) : Option (List (Row α)) :=
  if g.length > 1 then ((Merge.new cols bs (g.map Source.input)).collect fuel).map List.flatten
  else some (g.flatMap Source.rows)

/-- `CombinedRecordBatchStream` (utils.rs:155-187) of the groups: one after the other. -/
def readGroups (cols bs fuel : Nat) : List (List (Source α)) → Option (List (Row α))
  | [] => some []
  | g :: gs =>
    match readGroup cols bs fuel g, readGroups cols bs fuel gs with
    | some a, some b => some (a ++ b)
    | _, _ => none

/-- The groups that `build_series_reader` makes (iterator.rs:482-484). -/
def seriesGroups (srcs : List (Source α)) : List (List (Source α)) := (group (sortBy leRange srcs)).map (sortBy leId)

/-- `build_series_reader` (iterator.rs:458-560). -/
def readSeries (cols bs fuel : Nat) (srcs : List (Source α)) : Option (List (Row α)) := readGroups cols bs fuel (seriesGroups srcs)

/-- `DataFilterStream` over a source (filter.rs:74-104): batches without rows left are skipped. -/
def Source.filter (p : Row α → Bool) (s : Source α) : Source α :=
  { s with input := s.input.filterMap fun
      | .pending => some .pending
      | .batch rows => if (rows.filter p).isEmpty then none else some (.batch (rows.filter p)) }

/-- Reading with a predicate: each source is filtered before the merge (iterator.rs:396-407). -/
def readSeriesFiltered (cols bs fuel : Nat) (p : Row α → Bool) (srcs : List (Source α)) : Option (List (Row α)) :=
  readSeries cols bs fuel (srcs.map (Source.filter p))

/-! ## Grouping -/

/-- What holds during the grouping of sources `done`. -/
structure Grouped (done : List (Source α)) (s : List (List (Source α)) × Int) : Prop where
  all : s.1.flatten = done
  ne : ∀ g ∈ s.1, g ≠ []
  top : ∀ c ∈ done, c.hi ≤ s.2
  sep : s.1.Pairwise fun g h => ∀ a ∈ g, ∀ b ∈ h, a.hi < b.lo

theorem Grouped.step {done : List (Source α)} {s : List (List (Source α)) × Int} (h : Grouped done s) {c : Source α}
    (hc : ∀ a ∈ done, a.lo ≤ c.lo) : Grouped (done ++ [c]) (groupStep s c) := by
  have htop : ∀ x ∈ done ++ [c], x.hi ≤ max c.hi s.2 := by
    intro x hx
    rcases List.mem_append.1 hx with hx | hx
    · have := h.top x hx; omega
    · simp only [List.mem_singleton] at hx; subst hx; omega
  have hmem : ∀ g ∈ s.1, ∀ a ∈ g, a ∈ done := fun g hg a ha => by rw [← h.all]; exact List.mem_flatten.2 ⟨g, hg, ha⟩
  have newgroup : (∀ a ∈ done, a.hi < c.lo) → Grouped (done ++ [c]) (s.1 ++ [[c]], max c.hi s.2) := by
    intro hlt
    refine ⟨by simp [h.all], ?_, htop, ?_⟩
    · intro g hg
      rcases List.mem_append.1 hg with hg | hg
      · exact h.ne g hg
      · simp only [List.mem_singleton] at hg; subst hg; simp
    · rw [List.pairwise_append]
      refine ⟨h.sep, by simp, ?_⟩
      intro g hg k hk a ha b hb
      simp only [List.mem_singleton] at hk
      subst hk
      simp only [List.mem_singleton] at hb
      subst hb
      exact hlt a (hmem g hg a ha)
  unfold groupStep
  cases hl : s.1.getLast? with
  | none =>
    have he : s.1 = [] := by simpa using hl
    simp only
    apply newgroup
    intro a ha
    rw [← h.all, he] at ha
    cases ha
  | some g =>
    simp only
    split
    · obtain ⟨pre, hpre⟩ := List.getLast?_eq_some_iff.1 hl
      have hsep := h.sep
      have hall := h.all
      rw [hpre] at hsep hall
      rw [hpre, List.dropLast_concat]
      rw [List.pairwise_append] at hsep
      refine ⟨?_, ?_, htop, ?_⟩
      · rw [← hall]; simp
      · intro k hk
        rcases List.mem_append.1 hk with hk | hk
        · exact h.ne k (by rw [hpre]; exact List.mem_append_left _ hk)
        · simp only [List.mem_singleton] at hk; subst hk; simp
      · rw [List.pairwise_append]
        refine ⟨hsep.1, by simp, ?_⟩
        intro k hk k' hk' a ha b hb
        simp only [List.mem_singleton] at hk'
        subst hk'
        have hg := hsep.2.2 k hk g (by simp) a ha
        rcases List.mem_append.1 hb with hb | hb
        · exact hg b hb
        · simp only [List.mem_singleton] at hb
          subst hb
          have hne := h.ne g (by rw [hpre]; simp)
          obtain ⟨x, hx⟩ := List.exists_mem_of_ne_nil g hne
          have h1 := hg x hx
          have h2 := hc x (hmem g (by rw [hpre]; simp) x hx)
          omega
    · rename_i hgt
      apply newgroup
      intro a ha
      have := h.top a ha
      omega

theorem grouped (l : List (Source α)) (h : l.Pairwise fun a b => a.lo ≤ b.lo) :
    Grouped l (l.foldl groupStep ([], -2 ^ 63)) := by
  have key : ∀ (r done : List (Source α)) (s), Grouped done s → (done ++ r).Pairwise (fun a b => a.lo ≤ b.lo) →
      Grouped (done ++ r) (r.foldl groupStep s) := by
    intro r
    induction r with
    | nil => intro done s hs _; simpa using hs
    | cons c r ih =>
      intro done s hs hp
      have hc : ∀ a ∈ done, a.lo ≤ c.lo := by
        rw [List.pairwise_append] at hp
        exact fun a ha => hp.2.2 a ha c List.mem_cons_self
      have := ih (done ++ [c]) _ (hs.step hc) (by simpa using hp)
      simpa using this
  have := key l [] ([], -2 ^ 63) ⟨rfl, by simp, by simp, by simp⟩ (by simpa using h)
  simpa using this

/-- **C35.** For sources in order of their time ranges, the groups contain each source once, in the same order, no group is empty, and
a time covered by sources of two groups does not exist: all ranges of an earlier group end before all ranges of a later group begin. -/
theorem C35_groups (srcs : List (Source α)) (h : srcs.Pairwise fun a b => leRange a b = true) :
    (group srcs).flatten = srcs ∧ (∀ g ∈ group srcs, g ≠ []) ∧
      ((group srcs).Pairwise fun g k => ∀ a ∈ g, ∀ b ∈ k, a.hi < b.lo) ∧
      (group srcs).Pairwise fun g k => ∀ a ∈ g, ∀ b ∈ k, ∀ t : Int, ¬ ((a.lo ≤ t ∧ t ≤ a.hi) ∧ (b.lo ≤ t ∧ t ≤ b.hi)) := by
  have hg := grouped srcs (h.imp (by
    intro a b hab
    simp only [leRange, Bool.or_eq_true, Bool.and_eq_true, decide_eq_true_eq] at hab
    omega))
  refine ⟨hg.all, hg.ne, hg.sep, hg.sep.imp ?_⟩
  intro g k hgk a ha b hb t
  have := hgk a ha b hb
  omega

/-- Sources for the examples. -/
def exSources : List (Source Nat) :=
  [⟨1, 1, 5, [.batch [⟨1, [some 10, none]⟩, ⟨5, [some 50, some 51]⟩]]⟩, ⟨3, 2, 9, [.batch [⟨2, [some 20, none]⟩, ⟨5, [some 55, none]⟩, ⟨9, [none, some 9]⟩]]⟩,
   ⟨2, 9, 9, [.batch [⟨9, [some 90, some 91]⟩]]⟩, ⟨4, 10, 12, [.batch [⟨10, [some 1, some 1]⟩, ⟨12, [some 2, none]⟩]]⟩]

example : exSources.Pairwise (fun a b => leRange a b = true) ∧
    (group exSources).map (List.map Source.id) = [[1, 3, 2], [4]] := by decide +kernel

/-- Without the order by time range the property fails: a source far back starts a new group although an earlier group has its times. -/
theorem C35_unsorted_refuted :
    ∃ srcs : List (Source Nat), ¬ (group srcs).Pairwise fun g k => ∀ a ∈ g, ∀ b ∈ k, ∀ t : Int, ¬ ((a.lo ≤ t ∧ t ≤ a.hi) ∧ (b.lo ≤ t ∧ t ≤ b.hi)) := by
  refine ⟨[⟨1, 0, 1, []⟩, ⟨2, 5, 6, []⟩, ⟨3, 1, 8, []⟩], ?_⟩
  intro h
  have e : group ([⟨1, 0, 1, []⟩, ⟨2, 5, 6, []⟩, ⟨3, 1, 8, []⟩] : List (Source Nat)) = [[⟨1, 0, 1, []⟩], [⟨2, 5, 6, []⟩, ⟨3, 1, 8, []⟩]] := rfl
  rw [e] at h
  rw [List.pairwise_cons] at h
  exact h.1 _ (List.mem_singleton.2 rfl) ⟨1, 0, 1, []⟩ (by simp) ⟨3, 1, 8, []⟩ (by simp) 1 (by decide)

/-! ## Reading a series -/

/-- What holds for the sources of a series: file ids differ, the times of a source increase strictly and lie in its range, all rows
have the columns of the query. -/
structure SourcesOk (cols : Nat) (srcs : List (Source α)) : Prop where
  ids : srcs.Pairwise fun a b => a.id ≠ b.id
  inc : ∀ s ∈ srcs, s.rows.Pairwise fun a b => a.ts < b.ts
  range : ∀ s ∈ srcs, ∀ r ∈ s.rows, s.lo ≤ r.ts ∧ r.ts ≤ s.hi
  width : ∀ s ∈ srcs, ∀ r ∈ s.rows, r.cells.length = cols

/-- The cell of a column. -/
def Row.cell (r : Row α) (c : Nat) : Option α := (r.cells[c]?).join

/-- The right answer, said without any algorithm: strictly increasing times, exactly the times of the sources, and each cell is the
value of the source with the largest id that has a value there. -/
structure Answer (cols : Nat) (srcs : List (Source α)) (out : List (Row α)) : Prop where
  inc : out.Pairwise fun a b => a.ts < b.ts
  times : ∀ t, t ∈ out.map Row.ts ↔ ∃ s ∈ srcs, ∃ x ∈ s.rows, x.ts = t
  width : ∀ r ∈ out, r.cells.length = cols
  null : ∀ r ∈ out, ∀ c, c < cols → r.cell c = none → ∀ s ∈ srcs, ∀ x ∈ s.rows, x.ts = r.ts → x.cell c = none
  value : ∀ r ∈ out, ∀ c, c < cols → ∀ v, r.cell c = some v → ∃ s ∈ srcs, (∃ x ∈ s.rows, x.ts = r.ts ∧ x.cell c = some v) ∧
    ∀ s' ∈ srcs, s.id < s'.id → ∀ x ∈ s'.rows, x.ts = r.ts → x.cell c = none

theorem newest_of_find {gs : List (Source α)} (h : gs.Pairwise fun a b => a.id < b.id) (t : Int) (c : Nat) :
    match ((gs.flatMap Source.rows).filter fun x => decide (x.ts = t)).reverse.findSome? fun x => (x.cells[c]?).join with
    | none => ∀ s ∈ gs, ∀ x ∈ s.rows, x.ts = t → x.cell c = none
    | some v => ∃ s ∈ gs, (∃ x ∈ s.rows, x.ts = t ∧ x.cell c = some v) ∧
        ∀ s' ∈ gs, s.id < s'.id → ∀ x ∈ s'.rows, x.ts = t → x.cell c = none := by
  induction gs with
  | nil => simp
  | cons g gs ih =>
    rw [List.pairwise_cons] at h
    have ih := ih h.2
    rw [List.flatMap_cons, List.filter_append, List.reverse_append, List.findSome?_append]
    generalize hr : (((gs.flatMap Source.rows).filter fun x => decide (x.ts = t)).reverse.findSome? fun x => (x.cells[c]?).join) = r at ih
    cases r with
    | some v =>
      simp only [Option.some_or] at ih ⊢
      obtain ⟨s, hs, h1, h2⟩ := ih
      refine ⟨s, List.mem_cons_of_mem _ hs, h1, ?_⟩
      intro s' hs' hlt
      rcases List.mem_cons.1 hs' with e | hs'
      · subst e
        have := h.1 s hs; omega
      · exact h2 s' hs' hlt
    | none =>
      simp only [Option.none_or] at ih ⊢
      cases hg : (((g.rows).filter fun x => decide (x.ts = t)).reverse.findSome? fun x => (x.cells[c]?).join) with
      | none =>
        simp only
        intro s hs x hx hxt
        rcases List.mem_cons.1 hs with e | hs
        · subst e
          rw [List.findSome?_eq_none_iff] at hg
          exact hg x (List.mem_reverse.2 (List.mem_filter.2 ⟨hx, by simpa using hxt⟩))
        · exact ih s hs x hx hxt
      | some v =>
        simp only
        obtain ⟨x, hx, hv⟩ := List.exists_of_findSome?_eq_some hg
        obtain ⟨hx1, hx2⟩ := List.mem_filter.1 (List.mem_reverse.1 hx)
        refine ⟨g, List.mem_cons_self, ⟨x, hx1, by simpa using hx2, hv⟩, ?_⟩
        intro s' hs' hlt
        rcases List.mem_cons.1 hs' with e | hs'
        · subst e; omega
        · exact ih s' hs'

theorem SourcesOk.sub {cols : Nat} {srcs g : List (Source α)} (h : SourcesOk cols srcs) (hids : g.Pairwise fun a b => a.id ≠ b.id)
    (hm : ∀ s ∈ g, s ∈ srcs) : SourcesOk cols g :=
  ⟨hids, fun s hs => h.inc s (hm s hs), fun s hs => h.range s (hm s hs), fun s hs => h.width s (hm s hs)⟩

theorem cell_range (cols : Nat) (f : Nat → Option α) (t : Int) (c : Nat) (hc : c < cols) :
    (Row.mk t ((List.range cols).map f)).cell c = f c := by
  simp [Row.cell, hc]

theorem inc_inj {l : List (Row α)} (h : l.Pairwise fun a b => a.ts < b.ts) {x y : Row α} (hx : x ∈ l) (hy : y ∈ l) (e : x.ts = y.ts) : x = y := by
  induction l with
  | nil => cases hx
  | cons a l ih =>
    rw [List.pairwise_cons] at h
    rcases List.mem_cons.1 hx with e1 | hx <;> rcases List.mem_cons.1 hy with e2 | hy
    · rw [e1, e2]
    · have := h.1 y hy; rw [← e1] at this; omega
    · have := h.1 x hx; rw [← e2] at this; omega
    · exact ih h.2 hx hy

/-- Reading a group gives the right answer for its sources. -/
theorem readGroup_answer {cols bs : Nat} (hbs : 1 ≤ bs) {g : List (Source α)} (hok : SourcesOk cols g) (hne : g ≠ [])
    (hid : g.Pairwise fun a b => a.id < b.id) :
    ∃ N out, (∀ fuel, N < fuel → readGroup cols bs fuel g = some out) ∧ Answer cols g out := by
  by_cases hl : g.length > 1
  · have hs : SortedInputs (g.map Source.input) := by
      intro i hi
      obtain ⟨s, hs, rfl⟩ := List.mem_map.1 hi
      exact (hok.inc s hs).imp (by intro a b h; omega)
    obtain ⟨N, out, h1, h2, h3, h4, h5⟩ := C34_newest_value cols bs (g.map Source.input) (by simpa using hne) hbs hs
    have hall : allRows (g.map Source.input) = g.flatMap Source.rows := by
      unfold allRows
      rw [List.map_map, List.flatMap_def]; rfl
    rw [hall] at h3 h4
    refine ⟨N, out.flatten, ?_, h2, ?_, ?_, ?_, ?_⟩
    · intro fuel hf
      unfold readGroup
      rw [if_pos hl, h1 fuel hf]; rfl
    · intro t
      rw [h3, List.mem_map]
      constructor
      · rintro ⟨x, hx, rfl⟩
        obtain ⟨s, hs, hxs⟩ := List.mem_flatMap.1 hx
        exact ⟨s, hs, x, hxs, rfl⟩
      · rintro ⟨s, hs, x, hxs, rfl⟩
        exact ⟨x, List.mem_flatMap.2 ⟨s, hs, hxs⟩, rfl⟩
    · intro r hr; rw [h4 r hr]; simp
    · intro r hr c hc hn
      have := newest_of_find hid r.ts c
      have he : r.cell c = (((g.flatMap Source.rows).filter fun x => decide (x.ts = r.ts)).reverse.findSome? fun x => (x.cells[c]?).join) := by
        conv => lhs; unfold Row.cell; rw [h4 r hr]
        simp [hc]
      rw [← he, hn] at this
      exact this
    · intro r hr c hc v hv
      have := newest_of_find hid r.ts c
      have he : r.cell c = (((g.flatMap Source.rows).filter fun x => decide (x.ts = r.ts)).reverse.findSome? fun x => (x.cells[c]?).join) := by
        conv => lhs; unfold Row.cell; rw [h4 r hr]
        simp [hc]
      rw [← he, hv] at this
      exact this
  · obtain ⟨s, rfl⟩ : ∃ s, g = [s] := by
      cases g with
      | nil => exact absurd rfl hne
      | cons s r =>
        cases r with
        | nil => exact ⟨s, rfl⟩
        | cons _ _ => simp at hl
    have hinc := hok.inc s (by simp)
    refine ⟨0, s.rows, ?_, hinc, ?_, ?_, ?_, ?_⟩
    · intro fuel _
      unfold readGroup
      rw [if_neg hl]; simp
    · intro t; simp
    · exact hok.width s (by simp)
    · intro r hr c hc hn s' hs' x hx hxt
      simp only [List.mem_singleton] at hs'
      subst hs'
      have : x = r := inc_inj hinc hx hr hxt
      rw [this]; exact hn
    · intro r hr c hc v hv
      refine ⟨s, by simp, ⟨r, hr, rfl, hv⟩, ?_⟩
      intro s' hs' hlt
      simp only [List.mem_singleton] at hs'
      subst hs'; omega

theorem Answer.append {cols : Nat} {a b : List (Source α)} {x y : List (Row α)} (ha : Answer cols a x) (hb : Answer cols b y)
    (oka : SourcesOk cols a) (okb : SourcesOk cols b) (hsep : ∀ s ∈ a, ∀ s' ∈ b, s.hi < s'.lo) : Answer cols (a ++ b) (x ++ y) := by
  have hx : ∀ r ∈ x, ∃ s ∈ a, ∃ z ∈ s.rows, z.ts = r.ts := fun r hr => (ha.times r.ts).1 (List.mem_map.2 ⟨r, hr, rfl⟩)
  have hy : ∀ r ∈ y, ∃ s ∈ b, ∃ z ∈ s.rows, z.ts = r.ts := fun r hr => (hb.times r.ts).1 (List.mem_map.2 ⟨r, hr, rfl⟩)
  have hab : ∀ s ∈ a, ∀ z ∈ s.rows, ∀ s' ∈ b, ∀ z' ∈ s'.rows, z.ts < z'.ts := by
    intro s hs z hz s' hs' z' hz'
    have h1 := (oka.range s hs z hz).2
    have h2 := (okb.range s' hs' z' hz').1
    have h3 := hsep s hs s' hs'
    omega
  refine ⟨?_, ?_, ?_, ?_, ?_⟩
  · rw [List.pairwise_append]
    refine ⟨ha.inc, hb.inc, ?_⟩
    intro r hr r' hr'
    obtain ⟨s, hs, z, hz, e⟩ := hx r hr
    obtain ⟨s', hs', z', hz', e'⟩ := hy r' hr'
    have := hab s hs z hz s' hs' z' hz'
    omega
  · intro t
    rw [List.map_append, List.mem_append, ha.times, hb.times]
    constructor
    · rintro (⟨s, hs, h⟩ | ⟨s, hs, h⟩)
      · exact ⟨s, List.mem_append_left _ hs, h⟩
      · exact ⟨s, List.mem_append_right _ hs, h⟩
    · rintro ⟨s, hs, h⟩
      rcases List.mem_append.1 hs with hs | hs
      · exact .inl ⟨s, hs, h⟩
      · exact .inr ⟨s, hs, h⟩
  · intro r hr
    rcases List.mem_append.1 hr with hr | hr
    · exact ha.width r hr
    · exact hb.width r hr
  · intro r hr c hc hn s hs z hz hzt
    rcases List.mem_append.1 hr with hr | hr <;> rcases List.mem_append.1 hs with hs | hs
    · exact ha.null r hr c hc hn s hs z hz hzt
    · obtain ⟨s0, hs0, z0, hz0, e0⟩ := hx r hr
      have := hab s0 hs0 z0 hz0 s hs z hz; omega
    · obtain ⟨s0, hs0, z0, hz0, e0⟩ := hy r hr
      have := hab s hs z hz s0 hs0 z0 hz0; omega
    · exact hb.null r hr c hc hn s hs z hz hzt
  · intro r hr c hc v hv
    rcases List.mem_append.1 hr with hr | hr
    · obtain ⟨s, hs, h1, h2⟩ := ha.value r hr c hc v hv
      refine ⟨s, List.mem_append_left _ hs, h1, ?_⟩
      intro s' hs' hlt z hz hzt
      rcases List.mem_append.1 hs' with hs' | hs'
      · exact h2 s' hs' hlt z hz hzt
      · obtain ⟨s0, hs0, z0, hz0, e0⟩ := hx r hr
        have := hab s0 hs0 z0 hz0 s' hs' z hz; omega
    · obtain ⟨s, hs, h1, h2⟩ := hb.value r hr c hc v hv
      refine ⟨s, List.mem_append_right _ hs, h1, ?_⟩
      intro s' hs' hlt z hz hzt
      rcases List.mem_append.1 hs' with hs' | hs'
      · obtain ⟨s0, hs0, z0, hz0, e0⟩ := hy r hr
        have := hab s' hs' z hz s0 hs0 z0 hz0; omega
      · exact h2 s' hs' hlt z hz hzt

theorem Answer.congr {cols : Nat} {a b : List (Source α)} {x : List (Row α)} (h : Answer cols a x) (hm : ∀ s, s ∈ a ↔ s ∈ b) : Answer cols b x := by
  refine ⟨h.inc, ?_, h.width, ?_, ?_⟩
  · intro t
    rw [h.times]
    exact ⟨fun ⟨s, hs, r⟩ => ⟨s, (hm s).1 hs, r⟩, fun ⟨s, hs, r⟩ => ⟨s, (hm s).2 hs, r⟩⟩
  · intro r hr c hc hn s hs
    exact h.null r hr c hc hn s ((hm s).2 hs)
  · intro r hr c hc v hv
    obtain ⟨s, hs, h1, h2⟩ := h.value r hr c hc v hv
    exact ⟨s, (hm s).1 hs, h1, fun s' hs' => h2 s' ((hm s').2 hs')⟩

theorem pairwise_perm_ne {l k : List (Source α)} (hp : l.Perm k) (h : l.Pairwise fun a b => a.id ≠ b.id) : k.Pairwise fun a b => a.id ≠ b.id :=
  (hp.pairwise_iff (fun hab => Ne.symm hab)).1 h

theorem readGroups_answer {cols bs : Nat} (hbs : 1 ≤ bs) (gs : List (List (Source α))) (hok : SourcesOk cols gs.flatten)
    (hne : ∀ g ∈ gs, g ≠ []) (hid : ∀ g ∈ gs, g.Pairwise fun a b => a.id < b.id)
    (hsep : gs.Pairwise fun g k => ∀ a ∈ g, ∀ b ∈ k, a.hi < b.lo) :
    ∃ N out, (∀ fuel, N < fuel → readGroups cols bs fuel gs = some out) ∧ Answer cols gs.flatten out := by
  induction gs with
  | nil => exact ⟨0, [], fun _ _ => rfl, by simp, by simp, by simp, by simp, by simp⟩
  | cons g gs ih =>
    rw [List.pairwise_cons] at hsep
    rw [List.flatten_cons] at hok ⊢
    have hids := hok.ids
    rw [List.pairwise_append] at hids
    have okg := hok.sub hids.1 (fun s hs => List.mem_append_left _ hs)
    have okr := hok.sub hids.2.1 (fun s hs => List.mem_append_right _ hs)
    obtain ⟨N1, o1, h1, a1⟩ := readGroup_answer hbs okg (hne g List.mem_cons_self) (hid g List.mem_cons_self)
    obtain ⟨N2, o2, h2, a2⟩ := ih okr (fun k hk => hne k (List.mem_cons_of_mem _ hk)) (fun k hk => hid k (List.mem_cons_of_mem _ hk)) hsep.2
    refine ⟨max N1 N2, o1 ++ o2, ?_, a1.append a2 okg okr ?_⟩
    · intro fuel hf
      rw [readGroups, h1 fuel (by omega), h2 fuel (by omega)]
    · intro s hs s' hs'
      obtain ⟨k, hk, hs'k⟩ := List.mem_flatten.1 hs'
      exact hsep.1 k hk s hs s' hs'k

/-- **C35**, for the whole read path: cutting the sources into groups, merging each group and putting the groups one after the other
gives the right answer of all sources together, with strictly increasing times. -/
theorem C35_series_read (cols bs : Nat) (hbs : 1 ≤ bs) (srcs : List (Source α)) (hok : SourcesOk cols srcs) :
    ∃ N out, (∀ fuel, N < fuel → readSeries cols bs fuel srcs = some out) ∧ Answer cols srcs out := by
  have hsorted : (sortBy leRange srcs).Pairwise fun a b => leRange a b = true := sortBy_sorted
    (by intro a b c h1 h2; simp only [leRange, Bool.or_eq_true, Bool.and_eq_true, decide_eq_true_eq] at *; omega)
    (by intro a b; simp only [leRange, Bool.or_eq_true, Bool.and_eq_true, decide_eq_true_eq]; omega) srcs
  obtain ⟨g1, g2, g3, _⟩ := C35_groups _ hsorted
  have hperm : (seriesGroups srcs).flatten.Perm srcs := by
    have e : (seriesGroups srcs).flatten.Perm (group (sortBy leRange srcs)).flatten := by
      unfold seriesGroups
      generalize group (sortBy leRange srcs) = l
      induction l with
      | nil => exact List.Perm.refl _
      | cons g l ih =>
        rw [List.map_cons, List.flatten_cons, List.flatten_cons]
        exact (sortBy_perm leId g).append ih
    rw [g1] at e
    exact e.trans (sortBy_perm leRange srcs)
  have hids := pairwise_perm_ne hperm.symm hok.ids
  have hok' : SourcesOk cols (seriesGroups srcs).flatten := hok.sub hids (fun s hs => hperm.mem_iff.1 hs)
  have q1 : ∀ g ∈ seriesGroups srcs, g ≠ [] := by
    intro g hg
    obtain ⟨g', hg', rfl⟩ := List.mem_map.1 hg
    intro e
    have := length_sortBy (le := leId) (l := g')
    rw [e] at this
    exact g2 g' hg' (List.length_eq_zero_iff.1 this.symm)
  have q2 : ∀ g ∈ seriesGroups srcs, g.Pairwise fun a b => a.id < b.id := by
    intro g hg
    have h3 : g.Pairwise fun a b => a.id ≠ b.id := hids.sublist (List.sublist_flatten_of_mem hg)
    obtain ⟨g', hg', rfl⟩ := List.mem_map.1 hg
    have h4 := sortBy_sorted (le := leId) (by intro a b c; simp only [leId, decide_eq_true_eq]; omega)
      (by intro a b; simp only [leId, decide_eq_true_eq]; omega) g'
    refine (h4.and h3).imp ?_
    intro a b ⟨h5, h6⟩
    simp only [leId, decide_eq_true_eq] at h5
    omega
  have q3 : (seriesGroups srcs).Pairwise fun g k => ∀ a ∈ g, ∀ b ∈ k, a.hi < b.lo := by
    unfold seriesGroups
    rw [List.pairwise_map]
    refine g3.imp ?_
    intro g k h a ha b hb
    exact h a (mem_sortBy.1 ha) b (mem_sortBy.1 hb)
  obtain ⟨N, out, h1, h2⟩ := readGroups_answer hbs (seriesGroups srcs) hok' q1 q2 q3
  exact ⟨N, out, h1, h2.congr (fun s => hperm.mem_iff)⟩

example : SourcesOk 2 exSources := by
  refine ⟨?_, ?_, ?_, ?_⟩ <;> decide

example : readSeries 2 2 50 exSources = some [⟨1, [some 10, none]⟩, ⟨2, [some 20, none]⟩, ⟨5, [some 55, some 51]⟩, ⟨9, [some 90, some 9]⟩,
    ⟨10, [some 1, some 1]⟩, ⟨12, [some 2, none]⟩] := by decide +kernel

/-! ## Filtering below the merge -/

theorem inc_ext {l k : List Int} (hl : l.Pairwise (· < ·)) (hk : k.Pairwise (· < ·)) (h : ∀ t, t ∈ l ↔ t ∈ k) : l = k := by
  induction l generalizing k with
  | nil =>
    cases k with
    | nil => rfl
    | cons b k => exact absurd ((h b).2 List.mem_cons_self) (by simp)
  | cons a l ih =>
    cases k with
    | nil => exact absurd ((h a).1 List.mem_cons_self) (by simp)
    | cons b k =>
      rw [List.pairwise_cons] at hl hk
      have e : a = b := by
        rcases List.mem_cons.1 ((h a).1 List.mem_cons_self) with h1 | h1
        · exact h1
        · rcases List.mem_cons.1 ((h b).2 List.mem_cons_self) with h2 | h2
          · exact h2.symm
          · have := hk.1 a h1
            have := hl.1 b h2
            omega
      subst e
      rw [ih hl.2 hk.2]
      intro t
      constructor
      · intro ht
        rcases List.mem_cons.1 ((h t).1 (List.mem_cons_of_mem _ ht)) with e | h1
        · have := hl.1 t ht; omega
        · exact h1
      · intro ht
        rcases List.mem_cons.1 ((h t).2 (List.mem_cons_of_mem _ ht)) with e | h1
        · have := hk.1 t ht; omega
        · exact h1

theorem row_ext {cols : Nat} {a b : Row α} (ha : a.cells.length = cols) (hb : b.cells.length = cols) (ht : a.ts = b.ts)
    (h : ∀ c, c < cols → a.cell c = b.cell c) : a = b := by
  obtain ⟨ta, ca⟩ := a
  obtain ⟨tb, cb⟩ := b
  simp only at ha hb ht
  subst ht
  congr 1
  apply List.ext_getElem (by omega)
  intro i h1 h2
  have := h i (by omega)
  simpa [Row.cell, h1, h2] using this

theorem pairwise_id_inj {l : List (Source α)} (h : l.Pairwise fun a b => a.id ≠ b.id) {x y : Source α} (hx : x ∈ l) (hy : y ∈ l) (e : x.id = y.id) : x = y := by
  induction l with
  | nil => cases hx
  | cons a l ih =>
    rw [List.pairwise_cons] at h
    rcases List.mem_cons.1 hx with e1 | hx <;> rcases List.mem_cons.1 hy with e2 | hy
    · rw [e1, e2]
    · exact absurd (by rw [← e1, e]) (h.1 y hy)
    · exact absurd (by rw [← e2, ← e]) (h.1 x hx)
    · exact ih h.2 hx hy

/-- There is only one right answer. -/
theorem Answer.unique {cols : Nat} {srcs : List (Source α)} (hok : SourcesOk cols srcs) {x y : List (Row α)} (hx : Answer cols srcs x)
    (hy : Answer cols srcs y) : x = y := by
  have hts : x.map Row.ts = y.map Row.ts :=
    inc_ext (List.pairwise_map.2 hx.inc) (List.pairwise_map.2 hy.inc) (fun t => by rw [hx.times, hy.times])
  have hlen : x.length = y.length := by simpa using congrArg List.length hts
  apply List.ext_getElem hlen
  intro i h1 h2
  have ht : x[i].ts = y[i].ts := by
    have := congrArg (fun l => l[i]?) hts
    simpa [h1, h2] using this
  have m1 : x[i] ∈ x := List.getElem_mem h1
  have m2 : y[i] ∈ y := List.getElem_mem h2
  apply row_ext (hx.width _ m1) (hy.width _ m2) ht
  intro c hc
  cases e1 : x[i].cell c with
  | none =>
    cases e2 : y[i].cell c with
    | none => rfl
    | some v =>
      obtain ⟨s, hs, ⟨z, hz, hzt, hzv⟩, _⟩ := hy.value _ m2 c hc v e2
      rw [hx.null _ m1 c hc e1 s hs z hz (by omega)] at hzv
      cases hzv
  | some v =>
    obtain ⟨s, hs, ⟨z, hz, hzt, hzv⟩, hmax⟩ := hx.value _ m1 c hc v e1
    cases e2 : y[i].cell c with
    | none =>
      rw [hy.null _ m2 c hc e2 s hs z hz (by omega)] at hzv
      cases hzv
    | some w =>
      obtain ⟨s', hs', ⟨z', hz', hzt', hzv'⟩, hmax'⟩ := hy.value _ m2 c hc w e2
      have e : s.id = s'.id := by
        rcases Nat.lt_trichotomy s.id s'.id with hlt | heq | hlt
        · rw [hmax s' hs' hlt z' hz' (by omega)] at hzv'; cases hzv'
        · exact heq
        · rw [hmax' s hs hlt z hz (by omega)] at hzv; cases hzv
      have e := pairwise_id_inj hok.ids hs hs' e
      subst e
      have := inc_inj (hok.inc s hs) hz hz' (by omega)
      subst this
      rw [← hzv, hzv']

theorem Source.filter_rows (p : Row α → Bool) (s : Source α) : (s.filter p).rows = s.rows.filter p := by
  unfold Source.filter Source.rows
  simp only
  generalize s.input = l
  induction l with
  | nil => rfl
  | cons i l ih =>
    cases i with
    | pending => rw [List.filterMap_cons]; simpa [rowsOf] using ih
    | batch rows =>
      rw [List.filterMap_cons]
      by_cases h : (rows.filter p).isEmpty
      · simp only [h, if_true]
        have h' : rows.filter p = [] := by simpa using h
        simpa [rowsOf, h'] using ih
      · simp only [h]
        simpa [rowsOf] using ih

theorem SourcesOk.filter {cols : Nat} {srcs : List (Source α)} (h : SourcesOk cols srcs) (p : Row α → Bool) :
    SourcesOk cols (srcs.map (Source.filter p)) := by
  refine ⟨?_, ?_, ?_, ?_⟩
  · rw [List.pairwise_map]; exact h.ids
  · intro s hs
    obtain ⟨s, hs', rfl⟩ := List.mem_map.1 hs
    rw [Source.filter_rows]
    exact (h.inc s hs').filter _
  · intro s hs r hr
    obtain ⟨s, hs', rfl⟩ := List.mem_map.1 hs
    rw [Source.filter_rows] at hr
    exact h.range s hs' r (List.mem_filter.1 hr).1
  · intro s hs r hr
    obtain ⟨s, hs', rfl⟩ := List.mem_map.1 hs
    rw [Source.filter_rows] at hr
    exact h.width s hs' r (List.mem_filter.1 hr).1

/-- The predicate decides alike for the merged row of a time and for the rows of that time in the sources. -/
def Respects (p : Row α → Bool) (srcs : List (Source α)) (out : List (Row α)) : Prop :=
  ∀ r ∈ out, ∀ s ∈ srcs, ∀ x ∈ s.rows, x.ts = r.ts → p x = p r

/-- **C36**, for predicates that decide alike for the merged row and the rows it is made of: filtering each source and then merging
gives the filtered result of the merge.  For other predicates this is false (`C36_stale_refuted`, `C36_lost_refuted`). -/
theorem C36_respecting_partial (cols bs : Nat) (hbs : 1 ≤ bs) (srcs : List (Source α)) (hok : SourcesOk cols srcs) (p : Row α → Bool)
    (hp : ∀ out, Answer cols srcs out → Respects p srcs out) :
    ∃ N out, ∀ fuel, N < fuel → readSeries cols bs fuel srcs = some out ∧ readSeriesFiltered cols bs fuel p srcs = some (out.filter p) := by
  obtain ⟨N, out, h1, h2⟩ := C35_series_read cols bs hbs srcs hok
  obtain ⟨M, out', h3, h4⟩ := C35_series_read cols bs hbs _ (hok.filter p)
  refine ⟨max N M, out, fun fuel hf => ⟨h1 fuel (by omega), ?_⟩⟩
  unfold readSeriesFiltered
  rw [h3 fuel (by omega)]
  congr 1
  apply h4.unique (hok.filter p)
  have hr := hp out h2
  have fwd : ∀ s' ∈ srcs.map (Source.filter p), ∃ s ∈ srcs, s'.id = s.id ∧ s'.rows = s.rows.filter p := by
    intro s' hs'
    obtain ⟨s, hs, rfl⟩ := List.mem_map.1 hs'
    exact ⟨s, hs, rfl, Source.filter_rows p s⟩
  refine ⟨h2.inc.filter _, ?_, ?_, ?_, ?_⟩
  · intro t
    constructor
    · intro ht
      obtain ⟨r, hrm, rfl⟩ := List.mem_map.1 ht
      obtain ⟨hro, hrp⟩ := List.mem_filter.1 hrm
      obtain ⟨s, hs, x, hx, e⟩ := (h2.times r.ts).1 (List.mem_map.2 ⟨r, hro, rfl⟩)
      refine ⟨s.filter p, List.mem_map.2 ⟨s, hs, rfl⟩, x, ?_, e⟩
      rw [Source.filter_rows]
      exact List.mem_filter.2 ⟨hx, by rw [hr r hro s hs x hx e]; exact hrp⟩
    · rintro ⟨s', hs', x, hx, rfl⟩
      obtain ⟨s, hs, -, e⟩ := fwd s' hs'
      rw [e] at hx
      obtain ⟨hx, hxp⟩ := List.mem_filter.1 hx
      obtain ⟨r, hro, hrt⟩ := List.mem_map.1 ((h2.times x.ts).2 ⟨s, hs, x, hx, rfl⟩)
      exact List.mem_map.2 ⟨r, List.mem_filter.2 ⟨hro, by rw [← hr r hro s hs x hx hrt.symm]; exact hxp⟩, hrt⟩
  · intro r hrm
    exact h2.width r (List.mem_filter.1 hrm).1
  · intro r hrm c hc hn s' hs' x hx hxt
    obtain ⟨s, hs, -, e⟩ := fwd s' hs'
    rw [e] at hx
    exact h2.null r (List.mem_filter.1 hrm).1 c hc hn s hs x (List.mem_filter.1 hx).1 hxt
  · intro r hrm c hc v hv
    obtain ⟨hro, hrp⟩ := List.mem_filter.1 hrm
    obtain ⟨s, hs, ⟨x, hx, hxt, hxv⟩, hmax⟩ := h2.value r hro c hc v hv
    refine ⟨s.filter p, List.mem_map.2 ⟨s, hs, rfl⟩, ⟨x, ?_, hxt, hxv⟩, ?_⟩
    · rw [Source.filter_rows]
      exact List.mem_filter.2 ⟨hx, by rw [hr r hro s hs x hx hxt]; exact hrp⟩
    · intro s' hs' hlt z hz hzt
      obtain ⟨s0, hs0, e1, e2⟩ := fwd s' hs'
      rw [e2] at hz
      exact hmax s0 hs0 (by rw [← e1]; exact hlt) z (List.mem_filter.1 hz).1 hzt

/-- **C36** for predicates on the time only. -/
theorem C36_time_only_partial (cols bs : Nat) (hbs : 1 ≤ bs) (srcs : List (Source α)) (hok : SourcesOk cols srcs) (q : Int → Bool) :
    ∃ N out, ∀ fuel, N < fuel → readSeries cols bs fuel srcs = some out ∧
      readSeriesFiltered cols bs fuel (fun r => q r.ts) srcs = some (out.filter fun r => q r.ts) :=
  C36_respecting_partial cols bs hbs srcs hok _ (fun _ _ r _ s _ x _ e => by simp only [e])

/-- **C36** for any predicate, if no time is in two sources. -/
theorem C36_no_shared_time_partial (cols bs : Nat) (hbs : 1 ≤ bs) (srcs : List (Source α)) (hok : SourcesOk cols srcs) (p : Row α → Bool)
    (hd : ∀ s ∈ srcs, ∀ s' ∈ srcs, ∀ x ∈ s.rows, ∀ y ∈ s'.rows, x.ts = y.ts → s.id = s'.id) :
    ∃ N out, ∀ fuel, N < fuel → readSeries cols bs fuel srcs = some out ∧ readSeriesFiltered cols bs fuel p srcs = some (out.filter p) := by
  apply C36_respecting_partial cols bs hbs srcs hok p
  intro out ho r hr s hs x hx e
  have : x = r := by
    apply row_ext (hok.width s hs x hx) (ho.width r hr) e
    intro c hc
    cases e1 : r.cell c with
    | none => exact ho.null r hr c hc e1 s hs x hx e
    | some v =>
      obtain ⟨s', hs', ⟨z, hz, hzt, hzv⟩, _⟩ := ho.value r hr c hc v e1
      have h1 := pairwise_id_inj hok.ids hs hs' (hd s hs s' hs' x hx z hz (by omega))
      subst h1
      rw [inc_inj (hok.inc s hs) hx hz (by omega), hzv]
  rw [this]

/-- Two sources with different values at time 1. -/
def exStale : List (Source Nat) := [⟨1, 1, 1, [.batch [⟨1, [some 5]⟩]]⟩, ⟨2, 1, 1, [.batch [⟨1, [some 1]⟩]]⟩]

/-- **C36 is false**: the newest value at time 1 is 1, but with the filter `v > 3` the overwritten value 5 comes back, and filtering
the result again does not remove it. -/
theorem C36_stale_refuted :
    let p : Row Nat → Bool := fun r => match r.cell 0 with | some v => decide (v > 3) | none => false
    SourcesOk 1 exStale ∧ readSeries 1 10 20 exStale = some [⟨1, [some 1]⟩] ∧
      (readSeriesFiltered 1 10 20 p exStale).map (List.filter p) = some [⟨1, [some 5]⟩] := by
  refine ⟨⟨?_, ?_, ?_, ?_⟩, ?_, ?_⟩ <;> decide +kernel

/-- Two sources with different columns at time 1. -/
def exLost : List (Source Nat) := [⟨1, 1, 1, [.batch [⟨1, [some 1, none]⟩]]⟩, ⟨2, 1, 1, [.batch [⟨1, [none, some 2]⟩]]⟩]

/-- **C36 is false** the other way too: the row of time 1 is `a = 1, b = 2`, but with the filter `a = 1 AND b = 2` it is not found. -/
theorem C36_lost_refuted :
    let p : Row Nat → Bool := fun r => decide (r.cell 0 = some 1) && decide (r.cell 1 = some 2)
    SourcesOk 2 exLost ∧ readSeries 2 10 20 exLost = some [⟨1, [some 1, some 2]⟩] ∧ readSeriesFiltered 2 10 20 p exLost = some [] := by
  refine ⟨⟨?_, ?_, ?_, ?_⟩, ?_, ?_⟩ <;> decide +kernel

end Verif.Reader
