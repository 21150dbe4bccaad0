import Verif.Tsm.Finish
/-!
# Which values have a place in a data file

The conditions of the theorems on data files, stated with the types the values have in Rust and without the codecs: numbers are in
the range of their type, and no string or vector has 2^64 entries.
-/
namespace Verif.Tsm
open Verif.Time Verif.Wal Verif.Version

/-- A column of a table. -/
structure TableColumn.Sized (c : TableColumn) : Prop where
  id : c.id < 2 ^ 32
  name : c.name.length < 2 ^ 64
  srid : ∀ s n, c.ctype = .field (.geometry s n) → n < 2 ^ 16

/-- The schema of a table. -/
structure Schema.Sized (s : Schema) : Prop where
  tenant : s.tenant.length < 2 ^ 64
  db : s.db.length < 2 ^ 64
  name : s.name.length < 2 ^ 64
  version : s.version < 2 ^ 64
  nextColumn : s.nextColumn < 2 ^ 32
  columns : s.columns.length < 2 ^ 64 ∧ ∀ c ∈ s.columns, c.Sized
  index : s.index.length < 2 ^ 64 ∧ ∀ e ∈ s.index, e.1.length < 2 ^ 64 ∧ e.2 < 2 ^ 64

/-- A series key. -/
structure SeriesKey.Sized (k : SeriesKey) : Prop where
  tags : k.tags.length < 2 ^ 64 ∧ ∀ t ∈ k.tags, t.key.length < 2 ^ 64 ∧ t.value.length < 2 ^ 64
  table : k.table.length < 2 ^ 64

/-- Statistics whose bounds are as `p` says. -/
structure ValueStat.Sized {α : Type} (p : α → Prop) (s : ValueStat α) : Prop where
  min : ∀ a, s.min = some a → p a
  max : ∀ a, s.max = some a → p a
  distinct : ∀ n, s.distinct = some n → n < 2 ^ 64
  nulls : s.nulls < 2 ^ 64

/-- The statistics of a page; those of an f64 are its 64 bits. -/
def PageStat.Sized : PageStat → Prop
  | .bool s => s.Sized fun _ => True
  | .f64 s => s.Sized (· < 2 ^ 64)
  | .i64 s => s.Sized IsI64
  | .u64 s => s.Sized (· < 2 ^ 64)
  | .bytes s => s.Sized fun b => b.length < 2 ^ 64

/-- The metadata of a page. -/
structure PageMeta.Sized (m : PageMeta) : Prop where
  numValues : m.numValues < 2 ^ 32
  column : m.column.Sized
  stat : m.stat.Sized

/-- A write. -/
structure Written.Sized (x : Written) : Prop where
  schema : x.schema.Sized
  series : x.series < 2 ^ 32
  key : x.key.Sized
  pages : ∀ p ∈ x.pages, p.info.Sized
  range : IsI64 x.range.minTs ∧ IsI64 x.range.maxTs

/-! ## Such values are written and read back -/

theorem plain_all {α : Type} [DecidableEq α] (l : List α) (a : α) (h : a ∈ l) (hl : l.length < 2 ^ 32) : (Cod.plain l).fits a := by
  have hi := List.idxOf_lt_length_of_mem h
  refine ⟨Nat.lt_trans hi hl, Cod.iso .unit (fun _ => a) (fun _ => ()), ?_, trivial, rfl⟩
  show (l[l.idxOf a]?).map _ = _
  rw [List.getElem?_eq_getElem hi, List.getElem_idxOf]
  rfl

theorem cEncoding_all (e : Page.Encoding) : cEncoding.fits e := plain_all _ _ (by cases e <;> decide) (by decide)

theorem cTimeUnit_all (u : TimeUnit) : cTimeUnit.fits u := plain_all _ _ (by cases u <;> decide) (by decide)

theorem cGeoType_all (g : GeoType) : cGeoType.fits g := plain_all _ _ (by cases g <;> decide) (by decide)

theorem cValueType_fits {t : ValueType} (h : ∀ s n, t = .geometry s n → n < 2 ^ 16) : cValueType.fits t := by
  cases t with
  | geometry s n =>
    exact ⟨by show 6 < 2 ^ 32; decide, _, rfl, ⟨cGeoType_all s, show n < 256 ^ 2 from h s n rfl⟩, rfl⟩
  | unknown => exact ⟨by decide, _, rfl, trivial, rfl⟩
  | float => exact ⟨by decide, _, rfl, trivial, rfl⟩
  | integer => exact ⟨by decide, _, rfl, trivial, rfl⟩
  | unsigned => exact ⟨by decide, _, rfl, trivial, rfl⟩
  | boolean => exact ⟨by decide, _, rfl, trivial, rfl⟩
  | string => exact ⟨by decide, _, rfl, trivial, rfl⟩

theorem cColumnType_fits {t : ColumnType} (h : ∀ s n, t = .field (.geometry s n) → n < 2 ^ 16) : cColumnType.fits t := by
  cases t with
  | tag => exact ⟨by decide, _, rfl, trivial, rfl⟩
  | time u => exact ⟨by show 1 < 2 ^ 32; decide, _, rfl, cTimeUnit_all u, rfl⟩
  | field t => exact ⟨by show 2 < 2 ^ 32; decide, _, rfl, cValueType_fits fun s n e => h s n (congrArg ColumnType.field e), rfl⟩

theorem TableColumn.Sized.fits {c : TableColumn} (h : c.Sized) : cColumn.fits c :=
  ⟨⟨h.id, h.name, cColumnType_fits h.srid, cEncoding_all _⟩, rfl⟩

theorem Schema.Sized.fits {s : Schema} (h : s.Sized) : cSchema.fits s :=
  ⟨⟨h.tenant, h.db, h.name, h.version, h.nextColumn, ⟨h.columns.1, fun c hc => (h.columns.2 c hc).fits⟩,
    ⟨h.index.1, fun e he => h.index.2 e he⟩⟩, rfl⟩

theorem SeriesKey.Sized.fits {k : SeriesKey} (h : k.Sized) : cKey.fits k :=
  ⟨⟨⟨h.tags.1, fun t ht => ⟨h.tags.2 t ht, rfl⟩⟩, h.table⟩, rfl⟩

theorem ValueStat.Sized.fits {α : Type} {p : α → Prop} {s : ValueStat α} (h : s.Sized p) {c : Cod α} (hc : ∀ a, p a → c.fits a) :
    (cValueStat c).fits s := by
  refine ⟨⟨?_, ?_, ?_, h.nulls⟩, rfl⟩
  · show (Cod.opt c).fits s.min
    cases hm : s.min with
    | none => trivial
    | some a => exact hc a (h.min a hm)
  · show (Cod.opt c).fits s.max
    cases hm : s.max with
    | none => trivial
    | some a => exact hc a (h.max a hm)
  · show (Cod.opt (Cod.nat 8)).fits s.distinct
    cases hm : s.distinct with
    | none => trivial
    | some a => exact h.distinct a hm

theorem PageStat.Sized.fits {s : PageStat} (h : s.Sized) : cPageStat.fits s := by
  cases s with
  | bool s => exact ⟨by show 0 < 2 ^ 32; decide, _, rfl, ValueStat.Sized.fits h fun _ _ => trivial, rfl⟩
  | f64 s => exact ⟨by show 1 < 2 ^ 32; decide, _, rfl, ValueStat.Sized.fits h fun _ h => h, rfl⟩
  | i64 s => exact ⟨by show 2 < 2 ^ 32; decide, _, rfl, ValueStat.Sized.fits h fun _ h => h, rfl⟩
  | u64 s => exact ⟨by show 3 < 2 ^ 32; decide, _, rfl, ValueStat.Sized.fits h fun _ h => h, rfl⟩
  | bytes s => exact ⟨by show 4 < 2 ^ 32; decide, _, rfl, ValueStat.Sized.fits h fun _ h => h, rfl⟩

theorem PageMeta.Sized.fits {m : PageMeta} (h : m.Sized) : cPageMeta.fits m := ⟨⟨h.numValues, h.column.fits, h.stat.fits⟩, rfl⟩

theorem Written.Sized.fits {x : Written} (h : x.Sized) : x.Fits :=
  ⟨h.schema.fits, h.series, h.key.fits, fun p hp => (h.pages p hp).fits, h.range⟩

end Verif.Tsm
