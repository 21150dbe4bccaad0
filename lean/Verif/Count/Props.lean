import Verif.Count.Model
import Verif.Schema.Ddl
import Verif.Mem.Latest
import Mathlib.Data.List.Dedup
/-!
# Properties of counting without reading
-/
namespace Verif.Count
open Verif.Mem Verif.Schema

variable {V : Type}

/-! ## What should be counted -/

/-- The rows, or the values of a column. -/
inductive Target where
  | rows
  | field (id : Nat)
deriving DecidableEq

/-- The times at which a chunk or a buffer has something that is not deleted. -/
def live (tgt : Target) : Ref V → List Int
  | .chunk c => c.groups.flatMap fun g => match tgt with
    | .rows => g.times.filter fun t => !c.dead none t
    | .field id => (g.cols.filter fun x => x.1.id == id).flatMap fun x =>
        ((g.times.zip x.2).filter fun e => e.2.isSome && !c.dead (some id) e.1).map Prod.fst
  | .mem s => s.groups.flatMap fun g => match tgt with
    | .rows => g.rows.map Row.ts
    | .field id => (g.rows.filter fun r => (value g.schema id r).isSome).map Row.ts

/-- The number of rows, or of rows with a value in the column: each series has one row per time. -/
def exact (tgt : Target) (db : List (List (Ref V))) : Nat :=
  (db.map fun refs => ((refs.flatMap (live tgt)).dedup).length).sum

/-! ## Schemas as the count expects them -/

/-- The time column first, then the tags, then the fields by ascending id. -/
def Ordered (cols : List Col) : Prop := ∃ c tags fields, cols = c :: (tags ++ fields) ∧ c.name = timeName ∧ c.kind = .time ∧
  (∀ x ∈ tags, x.isTag = true) ∧ (∀ x ∈ fields, x.isField = true) ∧ (fields.map Col.id).Pairwise (· < ·) ∧
  (cols.map Col.name).Nodup ∧ (cols.map Col.id).Nodup

/-- The name stands for the target in a chunk or a buffer. -/
def Stands (cat : Mem.Schema → List Col) (n : String) (tgt : Target) : Ref V → Prop
  | .chunk c => ∀ g ∈ c.groups, ∀ x ∈ g.cols, x.2.length = g.times.length ∧ match tgt with
    | .rows => x.1.name ≠ n
    | .field id => x.1.name = n ↔ x.1.id = id
  | .mem s => ∀ g ∈ s.groups, Ordered (cat g.schema) ∧ fieldIds (cat g.schema) = g.schema.ids ∧ match tgt with
    | .rows => True
    | .field id => (∀ x ∈ cat g.schema, x.isField = true → (x.name = n ↔ x.id = id)) ∧
        ∀ x ∈ cat g.schema, x.isTag = true → x.name ≠ n

/-- The target is written as the name: rows are counted by the time column. -/
def Fits (n : String) : Target → Prop
  | .rows => n = timeName
  | .field _ => n ≠ timeName

/-! ## Counting in the write buffer -/

theorem sortBy_sorted {l : List Nat} (h : l.Pairwise (· < ·)) : Sort.sortBy (fun a b => decide (a ≤ b)) l = l := by
  induction l with
  | nil => rfl
  | cons a l ih =>
    rw [List.pairwise_cons] at h
    rw [Sort.sortBy, ih h.2]
    cases l with
    | nil => rfl
    | cons b l =>
      have := h.1 b List.mem_cons_self
      simp [Sort.insertBy, Nat.le_of_lt this]

theorem tagNum_ordered {c : Col} {tags fields : List Col} (hc : c.kind = .time) (ht : ∀ x ∈ tags, x.isTag = true)
    (hf : ∀ x ∈ fields, x.isField = true) : tagNum (c :: (tags ++ fields)) = tags.length := by
  unfold tagNum
  rw [List.countP_cons, List.countP_append]
  have h1 : tags.countP Col.isTag = tags.length := List.countP_eq_length.2 ht
  have h2 : fields.countP Col.isTag = 0 := by
    rw [List.countP_eq_zero]
    intro x hx hxt
    obtain ⟨ty, hty⟩ := isField_iff.1 (hf x hx)
    rw [isTag_iff, hty] at hxt
    cases hxt
  have h3 : c.isTag = false := by simp [Col.isTag, hc]
  simp [h1, h2, h3]

theorem fieldIds_ordered {c : Col} {tags fields : List Col} (hc : c.kind = .time) (ht : ∀ x ∈ tags, x.isTag = true)
    (hf : ∀ x ∈ fields, x.isField = true) (hs : (fields.map Col.id).Pairwise (· < ·)) :
    fieldIds (c :: (tags ++ fields)) = fields.map Col.id := by
  unfold fieldIds
  have h1 : (c :: (tags ++ fields)).filter Col.isField = fields := by
    rw [List.filter_cons, if_neg (by simp [Col.isField, hc]), List.filter_append]
    have h2 : tags.filter Col.isField = [] := by
      rw [List.filter_eq_nil_iff]
      intro x hx hxf
      obtain ⟨ty, hty⟩ := isField_iff.1 hxf
      rw [isTag_iff.1 (ht x hx)] at hty
      cases hty
    rw [h2, List.filter_eq_self.2 hf]; rfl
  rw [h1, sortBy_sorted hs]

theorem groupCount_rows {cols : List Col} (h : Ordered cols) (rows : List (Row V)) :
    groupCount cols timeName rows = rows.length := by
  obtain ⟨c, tags, fields, rfl, hn, _⟩ := h
  simp [groupCount, List.findIdx?_cons, hn]

theorem groupCount_field {cols : List Col} (h : Ordered cols) {n : String} (hn : n ≠ timeName) {id : Nat}
    (hf : ∀ x ∈ cols, x.isField = true → (x.name = n ↔ x.id = id)) (ht : ∀ x ∈ cols, x.isTag = true → x.name ≠ n)
    (sc : Mem.Schema) (hs : fieldIds cols = sc.ids) (rows : List (Row V)) :
    groupCount cols n rows = rows.countP fun r => (value sc id r).isSome := by
  obtain ⟨c, tags, fields, rfl, hcn, hck, htags, hfields, hsort, _⟩ := h
  rw [fieldIds_ordered hck htags hfields hsort] at hs
  have htn := tagNum_ordered hck htags hfields
  have e1 : (c.name == n) = false := by
    rw [hcn]; simpa using fun e : timeName = n => hn e.symm
  have e2 : tags.findIdx? (fun c => c.name == n) = none := by
    rw [List.findIdx?_eq_none_iff]
    intro x hx
    have := ht x (by simp [hx]) (htags x hx)
    simpa using this
  have e3 : fields.findIdx? (fun c => c.name == n) = sc.index id := by
    unfold Mem.Schema.index
    rw [← hs, List.findIdx?_map]
    have : ∀ x ∈ fields, (x.name == n) = (((fun x => x == id) ∘ Col.id) x) := by
      intro x hx
      have := hf x (by simp [hx]) (hfields x hx)
      rw [Bool.eq_iff_iff]
      simpa [Function.comp] using this
    rename_i hnodup
    clear hs hf hfields hsort htn ht hnodup
    induction fields with
    | nil => rfl
    | cons y l ih =>
      rw [List.findIdx?_cons, List.findIdx?_cons, this y List.mem_cons_self]
      rw [ih (fun x hx => this x (List.mem_cons_of_mem _ hx))]
  unfold groupCount value
  rw [List.findIdx?_cons, e1, List.findIdx?_append, e2, e3, htn]
  cases sc.index id with
  | none => simp
  | some k =>
    simp only [Bool.false_eq_true, if_false, Option.map_some, Option.none_or, Option.bind_some]
    rw [if_neg (by omega), Nat.add_sub_cancel]

theorem memCount_live {cat : Mem.Schema → List Col} {n : String} {tgt : Target} (hf : Fits n tgt) {s : Series V}
    (h : Stands cat n tgt (.mem s)) : memCount cat n s = (live tgt (.mem s)).length := by
  simp only [live, List.length_flatMap, memCount]
  congr 1
  apply List.map_congr_left
  intro g hg
  obtain ⟨h1, h2, h3⟩ := h g hg
  cases tgt with
  | rows =>
    simp only [Fits] at hf
    subst hf
    rw [groupCount_rows h1]
    simp
  | field id =>
    rw [groupCount_field h1 hf h3.1 h3.2 g.schema h2]
    simp [List.countP_eq_length_filter]

/-! ## Counting in a chunk -/

/-- The pages of a column group that are counted. -/
theorem group_sum {n : String} {tgt : Target} (hf : Fits n tgt) {c : Chunk V} (cat : Mem.Schema → List Col) (h : Stands cat n tgt (.chunk c))
    {g : ColGroup V} (hg : g ∈ c.groups) : (((pageMetas g).filter fun p => p.1 == n).map Prod.snd).sum = match tgt with
      | .rows => g.times.length
      | .field id => (((g.cols.filter fun x => x.1.id == id).map fun x => x.2.length)).sum := by
  have hh := h g hg
  cases tgt with
  | rows =>
    simp only [Fits] at hf
    subst hf
    have : (g.cols.map fun c => (c.1.name, c.2.length)).filter (fun p => p.1 == timeName) = [] := by
      rw [List.filter_eq_nil_iff]
      intro p hp
      obtain ⟨x, hx, rfl⟩ := List.mem_map.1 hp
      simpa using (hh x hx).2
    simp [pageMetas, this]
  | field id =>
    have hne : ¬ timeName = n := fun e => hf e.symm
    have : (g.cols.map fun c => (c.1.name, c.2.length)).filter (fun p => p.1 == n) =
        (g.cols.filter fun x => x.1.id == id).map fun c => (c.1.name, c.2.length) := by
      rw [List.filter_map]
      congr 1
      apply List.filter_congr
      intro x hx
      have := (hh x hx).2
      rw [Bool.eq_iff_iff]
      simpa using this
    simp [pageMetas, hne, this, Function.comp_def]

theorem sum_le {α : Type} {l : List α} {f g : α → Nat} (h : ∀ a ∈ l, f a ≤ g a) : (l.map f).sum ≤ (l.map g).sum := by
  induction l with
  | nil => simp
  | cons a l ih =>
    have h1 := h a List.mem_cons_self
    have h2 := ih fun x hx => h x (List.mem_cons_of_mem _ hx)
    simp only [List.map_cons, List.sum_cons]
    omega

theorem chunkCount_live {n : String} {tgt : Target} (hf : Fits n tgt) {c : Chunk V} (cat : Mem.Schema → List Col)
    (h : Stands cat n tgt (.chunk c)) : (live tgt (.chunk c)).length ≤ chunkCount n c := by
  simp only [live, List.length_flatMap, chunkCount]
  refine sum_le fun g hg => ?_
  rw [group_sum hf cat h hg]
  cases tgt with
  | rows => exact List.length_filter_le _ _
  | field id =>
    rw [List.length_flatMap]
    refine sum_le fun x hx => ?_
    rw [List.length_map]
    refine Nat.le_trans (List.length_filter_le _ _) ?_
    rw [List.length_zip]
    exact Nat.min_le_right _ _

/-! ## C90 -/

/-- The pushed-down count is the number of rows, or of values, whatever the files and buffers are. -/
def C90Full (V : Type) : Prop := ∀ (cat : Mem.Schema → List Col) (n : String) (tgt : Target) (db : List (List (Ref V))),
  Fits n tgt → (∀ refs ∈ db, ∀ r ∈ refs, Stands cat n tgt r) → count cat n db = exact tgt db

/-- The pushed-down count is never too small as long as the columns have kept their names and their order in the schema.
Missing from the full statement: the other direction. -/
theorem C90_upper_partial (cat : Mem.Schema → List Col) (n : String) (tgt : Target) (db : List (List (Ref V))) (hf : Fits n tgt)
    (h : ∀ refs ∈ db, ∀ r ∈ refs, Stands cat n tgt r) : exact tgt db ≤ count cat n db := by
  unfold exact count
  refine sum_le fun refs hr => ?_
  refine Nat.le_trans (List.dedup_sublist _).length_le ?_
  rw [List.length_flatMap]
  refine sum_le fun r hm => ?_
  cases r with
  | chunk c => exact chunkCount_live hf cat (h refs hr _ hm)
  | mem s => exact Nat.le_of_eq (memCount_live hf (h refs hr _ hm)).symm

/-- Nothing deleted and no NULL in what is counted. -/
def Full (tgt : Target) : Ref V → Prop
  | .chunk c => match tgt with
    | .rows => ∀ g ∈ c.groups, ∀ t ∈ g.times, c.dead none t = false
    | .field id => ∀ g ∈ c.groups, ∀ x ∈ g.cols, x.1.id = id → (∀ v ∈ x.2, v.isSome = true) ∧ ∀ t ∈ g.times, c.dead (some id) t = false
  | .mem _ => True

/-- It is right if in addition nothing is deleted, the column has no NULL in the files, and no time of a series is in two places.
Missing from the full statement: those cases, which are refuted below. -/
theorem C90_count_partial (cat : Mem.Schema → List Col) (n : String) (tgt : Target) (db : List (List (Ref V))) (hf : Fits n tgt)
    (h : ∀ refs ∈ db, ∀ r ∈ refs, Stands cat n tgt r) (hfull : ∀ refs ∈ db, ∀ r ∈ refs, Full tgt r)
    (hd : ∀ refs ∈ db, (refs.flatMap (live tgt)).Nodup) : count cat n db = exact tgt db := by
  unfold exact count
  congr 1
  apply List.map_congr_left
  intro refs hr
  rw [(hd refs hr).dedup, List.length_flatMap]
  congr 1
  apply List.map_congr_left
  intro r hm
  cases r with
  | mem s => exact memCount_live hf (h refs hr _ hm)
  | chunk c =>
    have hs := h refs hr _ hm
    have hfl := hfull refs hr _ hm
    simp only [refCount, live, List.length_flatMap, chunkCount]
    congr 1
    apply List.map_congr_left
    intro g hg
    rw [group_sum hf cat hs hg]
    cases tgt with
    | rows =>
      simp only []
      rw [List.filter_eq_self.2]
      intro t ht
      simp [hfl g hg t ht]
    | field id =>
      simp only [List.length_flatMap]
      congr 1
      apply List.map_congr_left
      intro x hx
      rw [List.mem_filter] at hx
      obtain ⟨h1, h2⟩ := hfl g hg x hx.1 (by simpa using hx.2)
      rw [List.length_map, List.filter_eq_self.2]
      · rw [List.length_zip, (hs g hg x hx.1).1, Nat.min_self]
      · intro e he
        have := List.of_mem_zip he
        simp [h1 _ this.2, h2 _ this.1]

/-! ### Witnesses -/

/-- Table with a time column, a tag and a field. -/
def cols0 : List Col := [⟨0, "time", .time⟩, ⟨1, "host", .tag⟩, ⟨2, "a", .field .integer⟩, ⟨3, "b", .field .integer⟩]

/-- A chunk with two rows, the second without a value of `a`. -/
def nullChunk : Chunk Nat := ⟨[⟨[10, 20], [(⟨2, "a", .field .integer⟩, [some 1, none]), (⟨3, "b", .field .integer⟩, [some 1, some 2])]⟩], fun _ _ => false⟩

/-- A chunk with two full rows, of which the first is deleted. -/
def deadChunk : Chunk Nat := ⟨[⟨[10, 20], [(⟨2, "a", .field .integer⟩, [some 1, some 1])]⟩], fun _ t => t == 10⟩

/-- A buffer with one row at time 20. -/
def buf : Series Nat := ⟨⟨20, 20⟩, [⟨⟨0, [2, 3]⟩, ⟨20, 20⟩, [⟨20, [some 5, some 6]⟩]⟩]⟩

theorem cols0_ordered : Ordered cols0 :=
  ⟨⟨0, "time", .time⟩, [⟨1, "host", .tag⟩], [⟨2, "a", .field .integer⟩, ⟨3, "b", .field .integer⟩], rfl, rfl, rfl, by decide, by decide,
    by decide, by decide, by decide⟩

theorem stands_null : Stands (fun _ => cols0) "a" (.field 2) (.chunk nullChunk) := by
  intro g hg x hx
  simp only [nullChunk, List.mem_singleton] at hg
  subst hg
  simp only [List.mem_cons, List.not_mem_nil, or_false] at hx
  rcases hx with rfl | rfl <;> decide

theorem stands_dead (tgt : Target) (ht : tgt = .rows ∨ tgt = .field 2) :
    Stands (fun _ => cols0) (if tgt = .rows then "time" else "a") tgt (.chunk deadChunk) := by
  intro g hg x hx
  simp only [deadChunk, List.mem_singleton] at hg
  subst hg
  simp only [List.mem_singleton] at hx
  subst hx
  rcases ht with rfl | rfl <;> decide

theorem stands_buf : Stands (fun _ => cols0) "a" (.field 2) (.mem buf) ∧ Stands (fun _ => cols0) "time" .rows (.mem buf) := by
  have hid : fieldIds cols0 = [2, 3] := by decide +kernel
  constructor
  · intro g hg
    simp only [buf, List.mem_singleton] at hg
    subst hg
    exact ⟨cols0_ordered, hid, by decide, by decide⟩
  · intro g hg
    simp only [buf, List.mem_singleton] at hg
    subst hg
    exact ⟨cols0_ordered, hid, trivial⟩

/-- The three ways in which the pushed-down count is too large: NULLs in a file are counted, deleted rows are counted, a row that was
written twice is counted twice.  (`exact_count` is documented for exact results; `count` is documented to leave out NULL.) -/
theorem C90_refuted : ¬ C90Full Nat ∧
    (count (fun _ => cols0) "a" [[.chunk nullChunk]] = 2 ∧ exact (.field 2) [[.chunk nullChunk]] = 1) ∧
    (count (fun _ => cols0) "time" [[.chunk deadChunk]] = 2 ∧ exact .rows [[Ref.chunk deadChunk]] = 1) ∧
    (count (fun _ => cols0) "b" [[.chunk nullChunk, .mem buf]] = 3 ∧ exact (.field 3) [[.chunk nullChunk, .mem buf]] = 2) := by
  refine ⟨fun h => ?_, by decide +kernel, by decide +kernel, by decide +kernel⟩
  have := h (fun _ => cols0) "a" (.field 2) [[.chunk nullChunk]] (show "a" ≠ timeName by decide) (by
    intro refs hr r hm
    simp only [List.mem_singleton] at hr
    subst hr
    simp only [List.mem_singleton] at hm
    subst hm
    exact stands_null)
  revert this
  decide +kernel

/-- The conditions of the positive theorem are met by a buffer and a file of two series, with 3 rows. -/
example : count (fun _ => cols0) "b" [[.chunk nullChunk], [.mem buf]] = 3 ∧ exact (.field 3) [[.chunk nullChunk], [.mem buf]] = 3 ∧
    Full (.field 3) (.chunk nullChunk) := by
  refine ⟨by decide +kernel, by decide +kernel, ?_⟩
  intro g hg x hx hid
  simp only [nullChunk, List.mem_singleton] at hg
  subst hg
  simp only [List.mem_cons, List.not_mem_nil, or_false] at hx
  rcases hx with rfl | rfl
  · cases hid
  · exact ⟨by decide, fun _ _ => rfl⟩

/-! ### Columns added and renamed -/

/-- A table to which a write has added a tag: the columns are time, host, a, b, dc. -/
theorem later_tag : ∃ t, Created t ∧ t.cols = cols0 ∧
    ((Change.write ⟨["host", "dc"], [("a", .integer)]⟩).run t).cols = cols0 ++ [⟨4, "dc", .tag⟩] := by
  have hc : createTable [("host", .tag), ("a", .field .integer), ("b", .field .integer)] = some (Table.new cols0) := by rfl
  exact ⟨_, .inr ⟨_, hc⟩, rfl, by decide +kernel⟩

/-- A buffer with one row, `a` has a value and `b` has none. -/
def tagged : Series Nat := ⟨⟨20, 20⟩, [⟨⟨1, [2, 3]⟩, ⟨20, 20⟩, [⟨20, [some 5, none]⟩]⟩]⟩

/-- After a write has added a tag to a table, rows in the buffer are counted wrongly: there is one value of `a` and none of `b`, the
pushed-down counts are 0 and 1. -/
theorem C90_added_tag_refuted : ∃ t t', Created t ∧ (Change.write ⟨["host", "dc"], [("a", .integer)]⟩).run t = t' ∧
    fieldIds t'.cols = [2, 3] ∧ t'.column "a" = some ⟨2, "a", .field .integer⟩ ∧ t'.column "b" = some ⟨3, "b", .field .integer⟩ ∧
    exact (.field 2) [[Ref.mem tagged]] = 1 ∧ count (fun _ => t'.cols) "a" [[.mem tagged]] = 0 ∧
    exact (.field 3) [[Ref.mem tagged]] = 0 ∧ count (fun _ => t'.cols) "b" [[.mem tagged]] = 1 := by
  have hc : createTable [("host", .tag), ("a", .field .integer), ("b", .field .integer)] = some (Table.new cols0) := by rfl
  exact ⟨_, _, .inr ⟨_, hc⟩, rfl, by decide +kernel⟩

/-- Two values of `b` in a file; the column is renamed to `c`, and a new column `b` is added.  The file has two values of column `c`
and none of the new `b`; the pushed-down counts are 0 and 2. -/
theorem C90_renamed_refuted : ∃ t t', Created t ∧ [Change.rename "b" "c", .add "b" (.field .float)].foldl Change.run t = t' ∧
    t'.column "c" = some ⟨3, "c", .field .integer⟩ ∧ t'.column "b" = some ⟨4, "b", .field .float⟩ ∧
    exact (.field 3) [[Ref.chunk nullChunk]] = 2 ∧ count (fun _ => t'.cols) "c" [[.chunk nullChunk]] = 0 ∧
    exact (.field 4) [[Ref.chunk nullChunk]] = 0 ∧ count (fun _ => t'.cols) "b" [[.chunk nullChunk]] = 2 := by
  have hc : createTable [("host", .tag), ("a", .field .integer), ("b", .field .integer)] = some (Table.new cols0) := by rfl
  exact ⟨_, _, .inr ⟨_, hc⟩, rfl, by decide +kernel⟩

/-! ### The optimizer rule -/

/-- The column that an argument means below the projection. -/
def meant (i : Input) : Arg → Option String
  | .col n => match i.proj with
    | none => some n
    | some p => some (p n)
  | .lit isNull => if isNull then none else some timeName

/-- What is pushed down is the count of the column that is meant, for an aggregate with no grouping and no filter. -/
def C90RuleFull : Prop := ∀ (cols : List Col) (a : Agg) (i : Input) (n : String), pushed cols a i = some n →
  ∃ arg, a.args = [arg] ∧ meant i arg = some n ∧ a.groups = 0 ∧ i.filters = 0 ∧ a.distinct = false

/-- It is, if the projection does not rename columns. Missing from the full statement: projections that do. -/
theorem C90_rule_partial (cols : List Col) (a : Agg) (i : Input) (n : String) (hp : ∀ p, i.proj = some p → ∀ m, p m = m)
    (h : pushed cols a i = some n) : ∃ arg, a.args = [arg] ∧ meant i arg = some n ∧ a.groups = 0 ∧ i.filters = 0 ∧ a.distinct = false := by
  unfold pushed at h
  split at h
  · cases h
  · rename_i hc
    simp only [not_or, not_not] at hc
    obtain ⟨h1, h2, h3, _⟩ := hc
    have hd : a.distinct = false := by simpa using h1
    split at h
    · rename_i m ha
      have hm : m = n := by
        split at h
        · split at h
          · cases h
          · exact Option.some.inj h
        · cases h
      subst hm
      refine ⟨.col m, ha, ?_, h3, h2, hd⟩
      unfold meant
      cases hi : i.proj with
      | none => rfl
      | some p => simp only [hp p hi]
    · rename_i b ha
      split at h
      · cases h
      · rename_i hb
        refine ⟨.lit b, ha, ?_, h3, h2, hd⟩
        simpa [meant, hb] using h
    · cases h

/-- `SELECT count(b) FROM (SELECT a AS b FROM t)` is answered with the count of column `b` of `t`. -/
theorem C90_alias_refuted : ¬ C90RuleFull := by
  intro h
  obtain ⟨arg, h1, h2, _⟩ := h cols0 ⟨0, [.col "b"], false, true⟩ ⟨some fun n => if n = "b" then "a" else n, 0⟩ "b" (by decide)
  simp only [List.cons.injEq, and_true] at h1
  subst h1
  revert h2
  decide

example : pushed cols0 ⟨0, [.col "b"], false, true⟩ ⟨none, 0⟩ = some "b" ∧ pushed cols0 ⟨0, [.lit false], false, true⟩ ⟨none, 0⟩ = some "time" ∧
    pushed cols0 ⟨0, [.col "host"], false, true⟩ ⟨none, 0⟩ = none ∧ pushed cols0 ⟨0, [.col "b"], false, true⟩ ⟨none, 1⟩ = none := by decide

end Verif.Count
