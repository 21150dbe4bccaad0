import Verif.Tsm.Open
import Verif.Tsm.Sized
/-!
# C86, C87, C89: data files give back what was written
-/
namespace Verif.Tsm
open Verif.Time Verif.Wal Verif.Version
open Verif.Utils (Bloom)
open Verif.Page (Encoding)

/-! ## The specification -/

/-- The writes of a series in their order. -/
def bySeries (s : Nat) (ws : List Written) : List Written := ws.filter fun w => w.series = s

/-- The smallest range that contains all of `l`. -/
structure Hull (l : List TimeRange) (r : TimeRange) : Prop where
  covers : ∀ x ∈ l, r.minTs ≤ x.minTs ∧ x.maxTs ≤ r.maxTs
  tight : l ≠ [] → (∃ x ∈ l, r.minTs = x.minTs) ∧ ∃ x ∈ l, r.maxTs = x.maxTs

/-- The column group that stands for a write. -/
structure GroupShows (x : Written) (g : ColGroup) : Prop where
  range : g.range = x.range
  infos : g.pages.map (·.info) = x.pages.map (·.info)
  sizes : g.pages.map (·.size) = x.pages.map (·.bytes.length)

/-- The chunk of a series stands for its writes. -/
structure ChunkShows (xs : List Written) (c : Chunk) : Prop where
  written : xs ≠ []
  table : ∀ x ∈ xs, c.table = x.schema.name
  series : ∀ x ∈ xs, c.series = x.series
  key : ∀ x, xs.head? = some x → c.key = x.key
  groups : ∀ (i : Nat), match xs[i]? with
    | none => BMap.get c.groups i = none
    | some x => ∃ g, BMap.get c.groups i = some g ∧ GroupShows x g
  hull : Hull (xs.map (·.range)) c.range

/-- A reader shows the writes `ws` and nothing else. -/
structure Shows (P : Params) (ws : List Written) (r : Reader) : Prop where
  /-- Pages by series and number of the write. -/
  pages : ∀ s i, r.seriesPages s i = some (((bySeries s ws)[i]?.map (·.pages)).getD [])
  /-- The same in one read. -/
  adjacent : ∀ s i x c g, (bySeries s ws)[i]? = some x → BMap.get r.chunks s = some c → BMap.get c.groups i = some g → x.pages ≠ [] →
    r.adjacentPages g.pages = some x.pages
  /-- The bytes of all the pages of a write. -/
  raw : ∀ s i, r.datablockRaw s i = some (((bySeries s ws)[i]?.map fun x => concat x.pages).getD [])
  /-- The pages cut out of these bytes. -/
  cutOut : ∀ s i x c, (bySeries s ws)[i]? = some x → BMap.get r.chunks s = some c → bufToPages c i (concat x.pages) = some x.pages
  /-- Series that have not been written are not there. -/
  absent : ∀ s, bySeries s ws = [] → BMap.get r.chunks s = none
  /-- Table, key and time range of a series. -/
  chunk : ∀ s, bySeries s ws ≠ [] → ∃ c, BMap.get r.chunks s = some c ∧ ChunkShows (bySeries s ws) c
  /-- The newest schema of each table. -/
  schema : ∀ t s, r.tableSchema t = some s → Newest t ws s
  /-- Each table has a schema. -/
  hasSchema : ∀ x ∈ ws, ∃ s, r.tableSchema x.schema.name = some s
  /-- The filter in the footer does not hide a series. -/
  filter : ∀ x ∈ ws, r.maybeContains P x.series = some true

/-- All pages are well formed. -/
def PagesOK (ws : List Written) : Prop := ∀ x ∈ ws, ∀ p ∈ x.pages, Page.crcValidation p.bytes = some true

/-! ## Time ranges -/

theorem Hull.of_merge (l : List TimeRange) (h : ∀ r ∈ l, IsI64 r.minTs ∧ IsI64 r.maxTs) : Hull l (mergeRanges l) := by
  have key : ∀ (l : List TimeRange) (a : TimeRange),
      ((l.foldl TimeRange.merge a).minTs ≤ a.minTs ∧ a.maxTs ≤ (l.foldl TimeRange.merge a).maxTs) ∧
      (∀ x ∈ l, (l.foldl TimeRange.merge a).minTs ≤ x.minTs ∧ x.maxTs ≤ (l.foldl TimeRange.merge a).maxTs) ∧
      (((l.foldl TimeRange.merge a).minTs = a.minTs ∨ ∃ x ∈ l, (l.foldl TimeRange.merge a).minTs = x.minTs) ∧
        ((l.foldl TimeRange.merge a).maxTs = a.maxTs ∨ ∃ x ∈ l, (l.foldl TimeRange.merge a).maxTs = x.maxTs)) := by
    intro l
    induction l with
    | nil => intro a; exact ⟨⟨Int.le_refl _, Int.le_refl _⟩, fun x hx => absurd hx List.not_mem_nil, .inl rfl, .inl rfl⟩
    | cons r l ih =>
      intro a
      obtain ⟨⟨h1, h2⟩, h3, h4, h5⟩ := ih (a.merge r)
      simp only [List.foldl_cons]
      have m1 : (a.merge r).minTs = min a.minTs r.minTs := rfl
      have m2 : (a.merge r).maxTs = max a.maxTs r.maxTs := rfl
      refine ⟨⟨by omega, by omega⟩, ?_, ?_, ?_⟩
      · intro x hx
        rcases List.mem_cons.1 hx with rfl | hx
        · omega
        · exact h3 x hx
      · rcases h4 with h4 | ⟨x, hx, h4⟩
        · rcases Int.le_total a.minTs r.minTs with h | h
          · left; omega
          · right; exact ⟨r, by simp, by omega⟩
        · right; exact ⟨x, by simp [hx], h4⟩
      · rcases h5 with h5 | ⟨x, hx, h5⟩
        · rcases Int.le_total a.maxTs r.maxTs with h | h
          · right; exact ⟨r, by simp, by omega⟩
          · left; omega
        · right; exact ⟨x, by simp [hx], h5⟩
  obtain ⟨_, h2, h3, h4⟩ := key l noRange
  refine ⟨h2, fun hne => ?_⟩
  obtain ⟨x, hx⟩ := List.exists_mem_of_ne_nil l hne
  have hxI := h x hx
  have hxc := h2 x hx
  unfold mergeRanges
  unfold IsI64 at hxI
  have n1 : noRange.minTs = 9223372036854775807 := rfl
  have n2 : noRange.maxTs = -9223372036854775808 := rfl
  refine ⟨?_, ?_⟩
  · rcases h3 with h3 | h3
    · exact ⟨x, hx, by omega⟩
    · exact h3
  · rcases h4 with h4 | h4
    · exact ⟨x, hx, by omega⟩
    · exact h4

/-- The hull of hulls. -/
theorem Hull.join {l : List TimeRange} {parts : List (List TimeRange × TimeRange)} {r : TimeRange} (hr : Hull (parts.map (·.2)) r)
    (hp : ∀ p ∈ parts, Hull p.1 p.2 ∧ p.1 ≠ []) (h1 : ∀ x ∈ l, ∃ p ∈ parts, x ∈ p.1) (h2 : ∀ p ∈ parts, ∀ x ∈ p.1, x ∈ l) : Hull l r := by
  constructor
  · intro x hx
    obtain ⟨p, hp', hx'⟩ := h1 x hx
    have a := (hp p hp').1.covers x hx'
    have b := hr.covers p.2 (List.mem_map.2 ⟨p, hp', rfl⟩)
    omega
  · intro hne
    obtain ⟨x, hx⟩ := List.exists_mem_of_ne_nil l hne
    obtain ⟨p, hp', _⟩ := h1 x hx
    obtain ⟨⟨a, ha, ha'⟩, b, hb, hb'⟩ := hr.tight (by simp; rintro rfl; cases hp')
    obtain ⟨pa, hpa, rfl⟩ := List.mem_map.1 ha
    obtain ⟨pb, hpb, rfl⟩ := List.mem_map.1 hb
    obtain ⟨⟨y, hy, hy'⟩, _⟩ := (hp pa hpa).1.tight (hp pa hpa).2
    obtain ⟨_, z, hz, hz'⟩ := (hp pb hpb).1.tight (hp pb hpb).2
    exact ⟨⟨y, h2 pa hpa y hy, by omega⟩, z, h2 pb hpb z hz, by omega⟩

/-! ## Reading pages -/

theorem layout_map (ps : List PageData) : ∀ off, (layout off ps).map (·.info) = ps.map (·.info) ∧
    (layout off ps).map (·.size) = ps.map (·.bytes.length) := by
  induction ps with
  | nil => intro _; exact ⟨rfl, rfl⟩
  | cons p ps ih => intro off; simp [layout, ih]

theorem readPages_ok {r : Reader} (ps : List PageData) (hc : ∀ p ∈ ps, Page.crcValidation p.bytes = some true) : ∀ off,
    cut r.file off (concat ps).length = some (concat ps) → (layout off ps).mapM r.readPage = some ps := by
  induction ps with
  | nil => intro off _; rfl
  | cons p ps ih =>
    intro off h
    simp only [concat, List.flatMap_cons, List.length_append] at h
    have h1 : cut r.file off p.bytes.length = some p.bytes := by
      have := cut_cut h (p := 0) (n := p.bytes.length) (by omega)
      rw [Nat.add_zero] at this
      rw [this]
      have := cut_mid [] p.bytes (ps.flatMap fun x => x.bytes)
      simpa using this
    have h2 : cut r.file (off + p.bytes.length) (concat ps).length = some (concat ps) := by
      have := cut_cut h (p := p.bytes.length) (n := (concat ps).length) (by simp [concat])
      rw [this]
      exact cut_end p.bytes (concat ps)
    have h3 : r.readPage ⟨off, p.bytes.length, p.info⟩ = some p := by
      unfold Reader.readPage
      simp only [h1, Option.bind_some, hc p (by simp), if_true]
    simp only [layout, List.mapM_cons, h3, ih (fun q hq => hc q (by simp [hq])) _ h2]
    rfl

theorem bufPages_ok (ps : List PageData) (hc : ∀ p ∈ ps, Page.crcValidation p.bytes = some true) (base : Nat) (buf : Bytes) : ∀ off,
    base ≤ off → cut buf (off - base) (concat ps).length = some (concat ps) →
    ((layout off ps).mapM fun p => if base ≤ p.offset then
      (cut buf (p.offset - base) p.size).bind fun b => (Page.crcValidation b).bind fun ok =>
        if ok then some (⟨p.info, b⟩ : PageData) else none else none) = some ps := by
  induction ps with
  | nil => intro off _ _; rfl
  | cons p ps ih =>
    intro off hb h
    simp only [concat, List.flatMap_cons, List.length_append] at h
    have h1 : cut buf (off - base) p.bytes.length = some p.bytes := by
      have := cut_cut h (p := 0) (n := p.bytes.length) (by omega)
      rw [Nat.add_zero] at this
      rw [this]
      have := cut_mid [] p.bytes (ps.flatMap fun x => x.bytes)
      simpa using this
    have h2 : cut buf (off + p.bytes.length - base) (concat ps).length = some (concat ps) := by
      have := cut_cut h (p := p.bytes.length) (n := (concat ps).length) (by simp [concat])
      rw [show off + p.bytes.length - base = off - base + p.bytes.length by omega, this]
      exact cut_end p.bytes (concat ps)
    simp only [layout, List.mapM_cons, if_pos hb, h1, Option.bind_some, hc p (by simp), if_true]
    rw [ih (fun q hq => hc q (by simp [hq])) _ (by omega) h2]
    rfl

theorem adjacent_ok (ps : List PageData) (hc : ∀ p ∈ ps, Page.crcValidation p.bytes = some true) (b : Bytes) : ∀ (o off : Nat)
    (acc : List PageData), cut b o (concat ps).length = some (concat ps) →
    ((layout off ps).foldlM (fun (s : Nat × List PageData) (p : PageSpec) => (cut b s.1 p.size).bind fun x =>
      (Page.crcValidation x).bind fun ok => if ok then some (s.1 + p.size, s.2 ++ [(⟨p.info, x⟩ : PageData)]) else none) (o, acc)) =
      some (o + (concat ps).length, acc ++ ps) := by
  induction ps with
  | nil => intro o off acc _; simp [layout, concat]
  | cons p ps ih =>
    intro o off acc h
    simp only [concat, List.flatMap_cons, List.length_append] at h
    have h1 : cut b o p.bytes.length = some p.bytes := by
      have := cut_cut h (p := 0) (n := p.bytes.length) (by omega)
      rw [Nat.add_zero] at this
      rw [this]
      have := cut_mid [] p.bytes (ps.flatMap fun x => x.bytes)
      simpa using this
    have h2 : cut b (o + p.bytes.length) (concat ps).length = some (concat ps) := by
      have := cut_cut h (p := p.bytes.length) (n := (concat ps).length) (by simp [concat])
      rw [this]
      exact cut_end p.bytes (concat ps)
    simp only [layout, List.foldlM_cons, h1, Option.bind_some, hc p (by simp), if_true, bind]
    rw [ih (fun q hq => hc q (by simp [hq])) _ _ _ h2]
    simp [concat]
    omega

/-! ## Reading a finished file -/

/-- The writes of a series are those of the series of its table. -/
theorem bySeries_eq {ws : List Written} (hone : OneTable ws) {t : Bytes} {s : Nat} {x : Written} (hx : x ∈ ws) (hxs : x.series = s)
    (hxt : x.schema.name = t) : bySeries s ws = ofSeries t s ws := by
  unfold bySeries ofSeries
  refine List.filter_congr fun y hy => ?_
  by_cases hys : y.series = s
  · have := hone y hy x hx (by rw [hys, hxs])
    simp [hys, this, hxt]
  · simp [hys]

theorem ReaderOK.chunkOf {w w' : Writer} {r : Reader} (R : ReaderOK w w' r) {ws : List Written} (h : Inv ws w) (hone : OneTable ws) (s : Nat) :
    match BMap.get r.chunks s with
    | none => bySeries s ws = []
    | some c => ∃ t, ChunkOK w.file t s (bySeries s ws) c ∧ (∀ x ∈ bySeries s ws, x.schema.name = t) := by
  cases hg : BMap.get r.chunks s with
  | none =>
    simp only
    unfold bySeries
    rw [List.filter_eq_nil_iff]
    intro x hx hxs
    simp only [decide_eq_true_eq] at hxs
    have hsl := h.slots x.schema.name s
    cases hl : look w.specs x.schema.name s with
    | none =>
      rw [hl] at hsl
      have : x ∈ ofSeries x.schema.name s ws := by simp [ofSeries, hx, hxs]
      rw [hsl] at this
      cases this
    | some c =>
      have := (R.chunks s c).2 ⟨_, hl⟩
      rw [hg] at this
      cases this
  | some c =>
    simp only
    obtain ⟨t, ht⟩ := (R.chunks s c).1 hg
    have hsl := h.slots t s
    rw [ht] at hsl
    obtain ⟨x, hx, hxt, hxs⟩ := hsl.mem
    refine ⟨t, ?_, ?_⟩
    · rw [bySeries_eq hone hx hxs hxt]
      exact hsl
    · intro y hy
      simp only [bySeries, List.mem_filter, decide_eq_true_eq] at hy
      rw [hone y hy.1 x hx (by rw [hy.2, hxs]), hxt]

theorem bySeries_mem {s : Nat} {ws : List Written} {x : Written} (h : x ∈ bySeries s ws) : x ∈ ws ∧ x.series = s := by
  simpa [bySeries] using h

/-- The time ranges in the metadata and of the writer. -/
structure HullsOK (ws : List Written) (w' : Writer) : Prop where
  file : Hull (ws.map (·.range)) w'.footer.range
  tables : ∀ t e, BMap.get w'.groupSpecs t = some e → Hull ((ws.filter fun x => x.schema.name = t).map (·.range)) e.range
  writer : Hull (ws.map (·.range)) ⟨w'.minTs, w'.maxTs⟩

theorem mergeRanges_min (l : List TimeRange) : ∀ a : TimeRange, (l.foldl TimeRange.merge a).minTs = (l.map (·.minTs)).foldl min a.minTs ∧
    (l.foldl TimeRange.merge a).maxTs = (l.map (·.maxTs)).foldl max a.maxTs := by
  induction l with
  | nil => intro a; exact ⟨rfl, rfl⟩
  | cons r l ih => intro a; exact ih (a.merge r)

theorem hulls_ok {P : Params} {ws : List Written} {w w' : Writer} (h : Inv ws w) (hmin : w.minTs = i64Max) (hmax : w.maxTs = i64Min)
    (hfit : ∀ x ∈ ws, x.Fits) (h' : w.finish P = some w') : HullsOK ws w' := by
  obtain ⟨buf, tail, F⟩ := finish_ok h h'
  obtain ⟨l, hl, hcs, hbl, hwmin, hwmax, d, hbuf⟩ := F.loop
  have hrange : ∀ x ∈ ws, noRange.merge x.range = x.range := fun x hx => merge_none (hfit x hx).range
  -- tables
  have hG := F.groups
  rw [hcs] at hG
  have hslot : ∀ x ∈ ws, ∃ c, (x.schema.name, x.series, c) ∈ w.chunks := by
    intro x hx
    have hsl := h.slots x.schema.name x.series
    cases hlk : look w.specs x.schema.name x.series with
    | none =>
      rw [hlk] at hsl
      have : x ∈ ofSeries x.schema.name x.series ws := by simp [ofSeries, hx]
      rw [hsl] at this
      cases this
    | some c => exact ⟨c, (mem_chunks h).2 hlk⟩
  have hmemT : ∀ t x, x ∈ ofTable t w.chunks ↔ (t, x) ∈ w.chunks := by
    intro t x
    simp only [ofTable, List.mem_map, List.mem_filter, decide_eq_true_eq, Prod.exists]
    constructor
    · rintro ⟨t', s, c, ⟨h1, rfl⟩, rfl⟩; exact h1
    · intro h1; exact ⟨t, x.1, x.2, ⟨h1, rfl⟩, rfl⟩
  have htab : ∀ x ∈ ws, ∃ g, (x.schema.name, g) ∈ l.chunkSpecs := by
    intro x hx
    obtain ⟨c, hc⟩ := hslot x hx
    obtain ⟨sp, hsp, _⟩ := Forall₂.mem_left (hl.specs x.schema.name) ((hmemT _ _).2 hc)
    cases hg : BMap.get l.chunkSpecs x.schema.name with
    | none => rw [hg] at hsp; cases hsp
    | some g => exact ⟨g, BMap.get_mem hg⟩
  have hchHull : ∀ t s c, (t, s, c) ∈ w.chunks → Hull ((ofSeries t s ws).map (·.range)) c.range ∧ (ofSeries t s ws).map (·.range) ≠ [] ∧
      IsI64 c.range.minTs ∧ IsI64 c.range.maxTs := by
    intro t s c hc
    have hsl := h.slots t s
    rw [(mem_chunks h).1 hc] at hsl
    have hok : ChunkOK w.file t s (ofSeries t s ws) c := hsl
    have hmem : ∀ x ∈ ofSeries t s ws, x ∈ ws := fun x hx => (List.mem_filter.1 hx).1
    have hEq : ((ofSeries t s ws).map fun w => noRange.merge w.range) = (ofSeries t s ws).map (·.range) :=
      List.map_congr_left fun x hx => hrange x (hmem x hx)
    have hr := hok.range
    rw [hEq] at hr
    have hI : ∀ a ∈ (ofSeries t s ws).map (·.range), IsI64 a.minTs ∧ IsI64 a.maxTs := by
      intro a ha
      obtain ⟨x, hx, rfl⟩ := List.mem_map.1 ha
      exact (hfit x (hmem x hx)).range
    refine ⟨by rw [hr]; exact Hull.of_merge _ hI, ?_, by rw [hr]; exact mergeRanges_fits hI⟩
    obtain ⟨y, hy, _⟩ := hok.key
    intro hnil
    rw [List.map_eq_nil_iff] at hnil
    rw [hnil] at hy
    cases hy
  -- all the chunks with their writes
  have hspecRange : ∀ t g, (t, g) ∈ l.chunkSpecs → g.map (·.range) = (ofTable t w.chunks).map (·.2.range) := by
    intro t g hg
    have h1 := hl.specs t
    rw [BMap.get_of_mem BMap.bytesLt_strict hl.sorted hg] at h1
    simp only [Option.getD_some] at h1
    have : ∀ (a : List (Nat × Chunk)) (b : List ChunkSpec), List.Forall₂ (SpecFor l.buffer) a b →
        b.map (·.range) = a.map (·.2.range) := by
      intro a b hab
      induction hab with
      | nil => rfl
      | cons h1 _ ih => simp [h1.range, ih]
    exact this _ _ h1
  let inTable := fun (t : Bytes) => (ws.filter fun x => x.schema.name = t).map (·.range)
  have htabHull : ∀ t g, (t, g) ∈ l.chunkSpecs → Hull (inTable t) (mergeRanges (g.map (·.range))) ∧ inTable t ≠ [] ∧
      IsI64 (mergeRanges (g.map (·.range))).minTs ∧ IsI64 (mergeRanges (g.map (·.range))).maxTs := by
    intro t g hg
    rw [hspecRange t g hg]
    have hI : ∀ a ∈ (ofTable t w.chunks).map (·.2.range), IsI64 a.minTs ∧ IsI64 a.maxTs := by
      intro a ha
      obtain ⟨⟨s, c⟩, hx, rfl⟩ := List.mem_map.1 ha
      exact (hchHull t s c ((hmemT t _).1 hx)).2.2
    refine ⟨?_, ?_, mergeRanges_fits hI⟩
    · refine Hull.join (parts := (ofTable t w.chunks).map fun x => ((ofSeries t x.1 ws).map (·.range), x.2.range)) ?_ ?_ ?_ ?_
      · rw [List.map_map]
        exact Hull.of_merge _ hI
      · intro p hp
        obtain ⟨⟨s, c⟩, hx, rfl⟩ := List.mem_map.1 hp
        have := hchHull t s c ((hmemT t _).1 hx)
        exact ⟨this.1, this.2.1⟩
      · intro a ha
        obtain ⟨x, hx, rfl⟩ := List.mem_map.1 ha
        obtain ⟨hxw, hxt⟩ := List.mem_filter.1 hx
        simp only [decide_eq_true_eq] at hxt
        obtain ⟨c, hc⟩ := hslot x hxw
        rw [hxt] at hc
        refine ⟨_, List.mem_map.2 ⟨(x.series, c), (hmemT t _).2 hc, rfl⟩, ?_⟩
        exact List.mem_map.2 ⟨x, by simp [ofSeries, hxw, hxt], rfl⟩
      · intro p hp a ha
        obtain ⟨⟨s, c⟩, hx, rfl⟩ := List.mem_map.1 hp
        obtain ⟨x, hx, rfl⟩ := List.mem_map.1 ha
        have := List.mem_filter.1 hx
        simp only [decide_eq_true_eq] at this
        exact List.mem_map.2 ⟨x, by simp [this.1, this.2.1], rfl⟩
    · have := hl.listed t g (BMap.get_of_mem BMap.bytesLt_strict hl.sorted hg)
      obtain ⟨⟨s, c⟩, hx⟩ := List.exists_mem_of_ne_nil _ this
      have hsl := h.slots t s
      rw [(mem_chunks h).1 ((hmemT t _).1 hx)] at hsl
      obtain ⟨x, hxw, hxt, _⟩ := hsl.mem
      intro hnil
      simp only [inTable, List.map_eq_nil_iff, List.filter_eq_nil_iff] at hnil
      exact hnil x hxw (by simp [hxt])
  have hgr2 : ∀ (a : List (Bytes × List ChunkSpec)) (b : List (Bytes × GroupSpec)), List.Forall₂ (GroupFor w.schemas buf) a b →
      b.map (·.2.range) = a.map fun x => mergeRanges (x.2.map (·.range)) := by
    intro a b hab
    induction hab with
    | nil => rfl
    | cons h1 _ ih => simp [h1.range, ih]
  refine ⟨?_, ?_, ?_⟩
  · rw [F.range]
    rw [hgr2 _ _ hG]
    refine Hull.join (parts := l.chunkSpecs.map fun x => (inTable x.1, mergeRanges (x.2.map (·.range)))) ?_ ?_ ?_ ?_
    · have := Hull.of_merge (l.chunkSpecs.map fun x => mergeRanges (x.2.map (·.range))) (by
        intro a ha
        obtain ⟨⟨t, g⟩, hx, rfl⟩ := List.mem_map.1 ha
        exact (htabHull t g hx).2.2)
      rw [List.map_map]
      exact this
    · intro p hp
      obtain ⟨⟨t, g⟩, hx, rfl⟩ := List.mem_map.1 hp
      exact ⟨(htabHull t g hx).1, (htabHull t g hx).2.1⟩
    · intro a ha
      obtain ⟨x, hx, rfl⟩ := List.mem_map.1 ha
      obtain ⟨g, hg⟩ := htab x hx
      exact ⟨_, List.mem_map.2 ⟨_, hg, rfl⟩, List.mem_map.2 ⟨x, by simp [hx], rfl⟩⟩
    · intro p hp a ha
      obtain ⟨⟨t, g⟩, hx, rfl⟩ := List.mem_map.1 hp
      obtain ⟨x, hx, rfl⟩ := List.mem_map.1 ha
      exact List.mem_map.2 ⟨x, (List.mem_filter.1 hx).1, rfl⟩
  · intro t e he
    obtain ⟨⟨t', g⟩, hx, hgf⟩ := Forall₂.mem_right hG (BMap.get_mem he)
    have hk : t = t' := hgf.key
    subst hk
    rw [hgf.range]
    exact (htabHull t g hx).1
  · have hw : (⟨w'.minTs, w'.maxTs⟩ : TimeRange) = mergeRanges (w.chunks.map (·.2.2.range)) := by
      have := mergeRanges_min (w.chunks.map (·.2.2.range)) noRange
      unfold mergeRanges
      rw [hwmin, hwmax, hl.minTs, hl.maxTs, hmin, hmax]
      rw [List.map_map, List.map_map] at this
      exact (TimeRange.mk.injEq ..).mpr ⟨this.1.symm, this.2.symm⟩
    rw [hw]
    have hI : ∀ a ∈ w.chunks.map (·.2.2.range), IsI64 a.minTs ∧ IsI64 a.maxTs := by
      intro a ha
      obtain ⟨⟨t, s, c⟩, hx, rfl⟩ := List.mem_map.1 ha
      exact (hchHull t s c hx).2.2
    refine Hull.join (parts := w.chunks.map fun x => ((ofSeries x.1 x.2.1 ws).map (·.range), x.2.2.range)) ?_ ?_ ?_ ?_
    · rw [List.map_map]
      exact Hull.of_merge _ hI
    · intro p hp
      obtain ⟨⟨t, s, c⟩, hx, rfl⟩ := List.mem_map.1 hp
      have := hchHull t s c hx
      exact ⟨this.1, this.2.1⟩
    · intro a ha
      obtain ⟨x, hx, rfl⟩ := List.mem_map.1 ha
      obtain ⟨c, hc⟩ := hslot x hx
      exact ⟨_, List.mem_map.2 ⟨_, hc, rfl⟩, List.mem_map.2 ⟨x, by simp [ofSeries, hx], rfl⟩⟩
    · intro p hp a ha
      obtain ⟨⟨t, s, c⟩, hx, rfl⟩ := List.mem_map.1 hp
      obtain ⟨x, hx, rfl⟩ := List.mem_map.1 ha
      exact List.mem_map.2 ⟨x, (List.mem_filter.1 hx).1, rfl⟩

/-- Everything about a file that was finished and opened again. -/
theorem shows_ok {P : Params} (hP : P.Ok) {ws : List Written} {w w' : Writer} (h : Inv ws w) (hb : Bloom.new P.bits = some w.bloom)
    (hfit : ∀ x ∈ ws, x.Fits) (hone : OneTable ws) (hpg : PagesOK ws) (h' : w.finish P = some w') {r : Reader} (R : ReaderOK w w' r) :
    Shows P ws r := by
  obtain ⟨buf, tail, F⟩ := finish_ok h h'
  obtain ⟨l, hl, hcs, hbl, _, _, d, hbuf⟩ := F.loop
  obtain ⟨hlen, hwd, hmask, hblen, hmay⟩ := bloom_length hP hb _ hl.bloom
  have hfb : w'.footer.bloom = l.bloom := by
    have := F.bloom
    rw [hbl, hwd] at this
    exact (Option.some.inj this).symm
  have happ : ∃ e, r.file = w.file ++ e := ⟨tail ++ cFooter.enc w'.footer, by rw [R.file, F.file, List.append_assoc]⟩
  obtain ⟨ext, hext⟩ := happ
  have hch := R.chunkOf h hone
  have hrange : ∀ x ∈ ws, noRange.merge x.range = x.range := fun x hx => merge_none (hfit x hx).range
  -- a group of a series
  have hgr : ∀ s i, match (bySeries s ws)[i]? with
      | none => ∀ c, BMap.get r.chunks s = some c → BMap.get c.groups i = none
      | some x => x ∈ ws ∧ ∃ c g, BMap.get r.chunks s = some c ∧ BMap.get c.groups i = some g ∧ GroupOK r.file x g := by
    intro s i
    have hc := hch s
    cases hg : BMap.get r.chunks s with
    | none =>
      rw [hg] at hc
      simp only at hc
      simp [hc]
    | some c =>
      rw [hg] at hc
      simp only at hc
      obtain ⟨t, hok, _⟩ := hc
      have := hok.get i
      cases hx : (bySeries s ws)[i]? with
      | none =>
        rw [hx] at this
        simp only at this ⊢
        intro c' hc'
        cases hc'
        exact this
      | some x =>
        rw [hx] at this
        simp only at this ⊢
        obtain ⟨g, h1, _, h3⟩ := this
        refine ⟨(bySeries_mem (List.mem_of_getElem? hx)).1, c, g, rfl, h1, ?_⟩
        rw [hext]
        exact h3.append ext
  have hchunk : ∀ s, bySeries s ws ≠ [] → ∃ c, BMap.get r.chunks s = some c ∧ ChunkShows (bySeries s ws) c := by
    intro s hne
    have hc := hch s
    cases hg : BMap.get r.chunks s with
    | none => rw [hg] at hc; exact absurd hc hne
    | some c =>
      rw [hg] at hc
      simp only at hc
      obtain ⟨t, hok, ht⟩ := hc
      refine ⟨c, rfl, ⟨hne, fun x hx => by rw [hok.table, ht x hx], fun x hx => by rw [hok.series, (bySeries_mem hx).2], ?_, ?_, ?_⟩⟩
      · intro x hx
        obtain ⟨y, hy, hk⟩ := hok.key
        rw [hx] at hy
        cases hy
        exact hk
      · intro i
        have := hok.get i
        cases hx : (bySeries s ws)[i]? with
        | none => rw [hx] at this; exact this
        | some x =>
          rw [hx] at this
          simp only at this ⊢
          obtain ⟨g, h1, _, ⟨⟨off, _, h4, _, _⟩, _, h5⟩⟩ := this
          have hxw := (bySeries_mem (List.mem_of_getElem? hx)).1
          refine ⟨g, h1, by rw [h5, hrange x hxw], ?_, ?_⟩
          · rw [h4]; exact (layout_map _ off).1
          · rw [h4]; exact (layout_map _ off).2
      · rw [hok.range]
        have : ((bySeries s ws).map fun w => noRange.merge w.range) = (bySeries s ws).map (·.range) :=
          List.map_congr_left fun x hx => hrange x (bySeries_mem hx).1
        rw [this]
        refine Hull.of_merge _ fun a ha => ?_
        obtain ⟨x, hx, rfl⟩ := List.mem_map.1 ha
        exact (hfit x (bySeries_mem hx).1).range
  have hcrc : ∀ x ∈ ws, ∀ p ∈ x.pages, Page.crcValidation p.bytes = some true := hpg
  -- tables
  have hG := F.groups
  rw [hcs] at hG
  have hsch : ∀ t s, r.tableSchema t = some s → Newest t ws s := by
    intro t s hs
    simp only [Reader.tableSchema, R.groupMeta, Option.map_eq_some_iff] at hs
    obtain ⟨e, he, rfl⟩ := hs
    obtain ⟨⟨t', g⟩, _, hgf⟩ := Forall₂.mem_right hG (BMap.get_mem he)
    have hk : t = t' := hgf.key
    subst hk
    have := h.schemas t
    rw [hgf.schema] at this
    exact this
  have hslot : ∀ x ∈ ws, ∃ c, (x.schema.name, x.series, c) ∈ w.chunks := by
    intro x hx
    have hsl := h.slots x.schema.name x.series
    cases hlk : look w.specs x.schema.name x.series with
    | none =>
      rw [hlk] at hsl
      have : x ∈ ofSeries x.schema.name x.series ws := by simp [ofSeries, hx]
      rw [hsl] at this
      cases this
    | some c => exact ⟨c, (mem_chunks h).2 hlk⟩
  have hmemT : ∀ t x, x ∈ ofTable t w.chunks ↔ (t, x) ∈ w.chunks := by
    intro t x
    simp only [ofTable, List.mem_map, List.mem_filter, decide_eq_true_eq, Prod.exists]
    constructor
    · rintro ⟨t', s, c, ⟨h1, rfl⟩, rfl⟩; exact h1
    · intro h1; exact ⟨t, x.1, x.2, ⟨h1, rfl⟩, rfl⟩
  have htab : ∀ x ∈ ws, ∃ g, (x.schema.name, g) ∈ l.chunkSpecs := by
    intro x hx
    obtain ⟨c, hc⟩ := hslot x hx
    obtain ⟨sp, hsp, _⟩ := Forall₂.mem_left (hl.specs x.schema.name) ((hmemT _ _).2 hc)
    cases hg : BMap.get l.chunkSpecs x.schema.name with
    | none => rw [hg] at hsp; cases hsp
    | some g => exact ⟨g, BMap.get_mem hg⟩
  refine
    { pages := ?_, adjacent := ?_, raw := ?_, cutOut := ?_, absent := ?_, chunk := hchunk, schema := hsch, hasSchema := ?_, filter := ?_ }

  · intro s i
    have := hgr s i
    unfold Reader.seriesPages
    cases hx : (bySeries s ws)[i]? with
    | none =>
      rw [hx] at this
      simp only at this
      cases hg : BMap.get r.chunks s with
      | none => rfl
      | some c => simp [this c hg]
    | some x =>
      rw [hx] at this
      simp only at this
      obtain ⟨hxw, c, g, h1, h2, ⟨⟨off, _, h4, h5, _⟩, _, _⟩⟩ := this
      simp only [h1, h2, h4, Option.map_some, Option.getD_some]
      exact readPages_ok x.pages (hcrc x hxw) off h5
  · intro s i x c g hx hc hg hne
    have := hgr s i
    rw [hx] at this
    simp only at this
    obtain ⟨hxw, c', g', h1, h2, ⟨⟨off, _, h4, h5, _⟩, _, _⟩⟩ := this
    rw [hc] at h1
    cases h1
    rw [hg] at h2
    cases h2
    rw [h4]
    have hsz := layout_sizes x.pages off
    unfold Reader.adjacentPages
    cases hp : x.pages with
    | nil => exact absurd hp hne
    | cons p ps =>
      rw [hp] at hsz h5
      simp only [layout] at hsz ⊢
      rw [hsz, h5]
      simp only [Option.bind_some]
      have := adjacent_ok (p :: ps) (by rw [← hp]; exact hcrc x hxw) (concat (p :: ps)) 0 off [] (by
        have := cut_end [] (concat (p :: ps))
        simpa using this)
      simp only [layout] at this
      rw [this]
      simp
  · intro s i
    have := hgr s i
    unfold Reader.datablockRaw
    cases hx : (bySeries s ws)[i]? with
    | none =>
      rw [hx] at this
      simp only at this
      cases hg : BMap.get r.chunks s with
      | none => rfl
      | some c => simp [this c hg]
    | some x =>
      rw [hx] at this
      simp only at this
      obtain ⟨hxw, c, g, h1, h2, ⟨⟨off, _, h4, h5, h6⟩, h7, _⟩⟩ := this
      simp only [h1, h2, Option.map_some, Option.getD_some, h6, h7]
      by_cases hp : x.pages = []
      · simp [hp, concat, cut]
      · rw [if_neg hp]
        exact h5
  · intro s i x c hx hc
    have := hgr s i
    rw [hx] at this
    simp only at this
    obtain ⟨hxw, c', g, h1, h2, ⟨⟨off, _, h4, h5, h6⟩, _, _⟩⟩ := this
    rw [hc] at h1
    cases h1
    unfold bufToPages
    simp only [h2, Option.bind_some, h4, h6]
    by_cases hp : x.pages = []
    · simp [hp, layout]
    · rw [if_neg hp]
      refine bufPages_ok x.pages (hcrc x hxw) off _ off (Nat.le_refl _) ?_
      rw [Nat.sub_self]
      have := cut_end [] (concat x.pages)
      simpa using this
  · intro s hs
    have hc := hch s
    cases hg : BMap.get r.chunks s with
    | none => rfl
    | some c =>
      rw [hg] at hc
      simp only at hc
      obtain ⟨t, hok, _⟩ := hc
      obtain ⟨y, hy, _⟩ := hok.key
      rw [hs] at hy
      cases hy
  · intro x hx
    obtain ⟨g, hg⟩ := htab x hx
    obtain ⟨e, he, hgf⟩ := Forall₂.mem_left hG hg
    simp only [Reader.tableSchema, R.groupMeta]
    cases hget : BMap.get w'.groupSpecs x.schema.name with
    | some e => exact ⟨_, rfl⟩
    | none =>
      have hk : e.1 = x.schema.name := hgf.key
      exact absurd he (by
        have := BMap.get_eq_none.1 hget e.2
        rw [← hk] at this
        exact this)
  · intro x hx
    obtain ⟨c, hc⟩ := hslot x hx
    unfold Reader.maybeContains
    rw [R.footer, hfb]
    exact hmay _ (List.mem_map.2 ⟨_, hc, rfl⟩)
/-! ## C86 -/

/-- What must hold for the calls: everything fits into its type, pages are well formed, a series belongs to one table, and raw bytes
are as long as they are said to be. -/
structure OpsOK (ops : List Op) (ws : List Written) : Prop where
  written : ops.mapM Op.written = some ws
  long : ∀ op ∈ ops, op.Long
  sized : ∀ x ∈ ws, x.Sized
  one : OneTable ws
  pages : PagesOK ws

theorem OpsOK.fits {ops : List Op} {ws : List Written} (h : OpsOK ops ws) : ∀ x ∈ ws, x.Fits := fun x hx => (h.sized x hx).fits

/-- C86: a data file that was written with any sequence of accepted calls, with any compression of the metadata, on top of any
content, can be opened, and the reader shows exactly the writes. -/
theorem C86_file_round_trip {P : Params} (hP : P.Ok) {pre : Bytes} {e : Encoding} {ops : List Op} {ws : List Written} (ho : OpsOK ops ws)
    {w : Writer} (h : writeFile P pre e ops = some w) (hfile : w.file.length < 2 ^ 64)
    (hmeta : w.footer.tableOffset + w.footer.tableSize < 2 ^ 64) : ∃ r, openFile P w.file = some r ∧ Shows P ws r := by
  simp only [writeFile, Option.bind_eq_some_iff] at h
  obtain ⟨w0, h0, w1, h1, h2⟩ := h
  obtain ⟨i0, b0, hb0, he0, hv0, _, _, _⟩ := new_inv h0
  obtain ⟨xs, hxs, i1, _, s1, _⟩ := applyAll_inv ops i0 b0 ho.long h1
  rw [ho.written] at hxs
  cases hxs
  rw [List.nil_append] at i1
  have hb : Bloom.new P.bits = some w1.bloom := by rw [hb0, s1.bloom]
  have hv : w1.footer.version = if w1.encoding = .null then .v1 else .v2 := by rw [s1.footer, s1.encoding, hv0, he0]
  obtain ⟨r, hr, R⟩ := open_ok hP i1 hb hv ho.fits ho.one h2 hfile hmeta
  exact ⟨r, hr, shows_ok hP i1 hb ho.fits ho.one ho.pages h2 R⟩

/-! ## C89 -/

/-- C89: the time ranges of a finished file — in its footer, in the table of its chunk groups, in its chunks and column groups, and
the one the writer reports for the manifest — are exactly the times spanned by the writes they stand for. -/
theorem C89_time_ranges {P : Params} (hP : P.Ok) {pre : Bytes} {e : Encoding} {ops : List Op} {ws : List Written} (ho : OpsOK ops ws)
    {w : Writer} (h : writeFile P pre e ops = some w) (hfile : w.file.length < 2 ^ 64)
    (hmeta : w.footer.tableOffset + w.footer.tableSize < 2 ^ 64) : ∃ r, openFile P w.file = some r ∧
      Hull (ws.map (·.range)) r.footer.range ∧ Hull (ws.map (·.range)) ⟨w.minTs, w.maxTs⟩ ∧
      (∀ t e, BMap.get r.groupMeta t = some e → Hull ((ws.filter fun x => x.schema.name = t).map (·.range)) e.range) ∧
      (∀ s c, BMap.get r.chunks s = some c → Hull ((bySeries s ws).map (·.range)) c.range ∧
        ∀ i x, (bySeries s ws)[i]? = some x → ∃ g, BMap.get c.groups i = some g ∧ g.range = x.range) := by
  simp only [writeFile, Option.bind_eq_some_iff] at h
  obtain ⟨w0, h0, w1, h1, h2⟩ := h
  obtain ⟨i0, b0, hb0, he0, hv0, hmin, hmax, _⟩ := new_inv h0
  obtain ⟨xs, hxs, i1, _, s1, _⟩ := applyAll_inv ops i0 b0 ho.long h1
  rw [ho.written] at hxs
  cases hxs
  rw [List.nil_append] at i1
  have hb : Bloom.new P.bits = some w1.bloom := by rw [hb0, s1.bloom]
  have hv : w1.footer.version = if w1.encoding = .null then .v1 else .v2 := by rw [s1.footer, s1.encoding, hv0, he0]
  obtain ⟨r, hr, R⟩ := open_ok hP i1 hb hv ho.fits ho.one h2 hfile hmeta
  have S := shows_ok hP i1 hb ho.fits ho.one ho.pages h2 R
  have H := hulls_ok i1 (by rw [s1.minTs, hmin]) (by rw [s1.maxTs, hmax]) ho.fits h2
  refine ⟨r, hr, by rw [R.footer]; exact H.file, H.writer, by rw [R.groupMeta]; exact H.tables, fun s c hc => ?_⟩
  by_cases hs : bySeries s ws = []
  · rw [S.absent s hs] at hc
    cases hc
  · obtain ⟨c', hc', C⟩ := S.chunk s hs
    rw [hc] at hc'
    cases hc'
    refine ⟨C.hull, fun i x hx => ?_⟩
    have := C.groups i
    rw [hx] at this
    obtain ⟨g, h1, h2⟩ := this
    exact ⟨g, h1, h2.range⟩

/-! ## C87: copying column groups -/

theorem splitRaw_same (g : List PageSpec) : ∀ ps : List PageData, g.map (·.info) = ps.map (·.info) → g.map (·.size) = ps.map (·.bytes.length) →
    splitRaw g (concat ps) = ps := by
  induction g with
  | nil =>
    intro ps h _
    cases ps with
    | nil => rfl
    | cons p ps => cases h
  | cons a g ih =>
    intro ps h1 h2
    cases ps with
    | nil => cases h1
    | cons p ps =>
      simp only [List.map_cons, List.cons.injEq] at h1 h2
      have := ih ps h1.2 h2.2
      simp only [splitRaw, concat, List.flatMap_cons, h2.1, List.drop_left, List.take_left, h1.1] at this ⊢
      rw [this]

/-- A column group of an opened file that is to be copied: the file shows `ws`, the group is write `gid` of the series. -/
structure Copy where
  reader : Reader
  ws : List Written
  schema : Schema
  series : Nat
  gid : Nat
  chunk : Chunk
  source : Written

/-- The reader shows the writes, and the group is one of them. -/
structure Copy.OK (P : Params) (c : Copy) : Prop where
  shows : Shows P c.ws c.reader
  chunk : BMap.get c.reader.chunks c.series = some c.chunk
  source : (bySeries c.series c.ws)[c.gid]? = some c.source

/-- `CompactingBlockMeta::get_raw_data`, `CompactingBlock::Raw` (compacting_block_meta.rs:112-121, writer.rs:442-452): the bytes of the group go to the writer as they are. -/
def Copy.op (c : Copy) : Option Op := (c.reader.datablockRaw c.series c.gid).map fun raw => .putRaw c.schema c.chunk c.gid raw

/-- What the copy should be: the pages and the time range of the source; schema of the copy, key of the source file. -/
def Copy.target (c : Copy) : Written := ⟨c.schema, c.series, c.chunk.key, c.source.pages, c.source.range⟩

theorem Copy.op_ok {P : Params} {c : Copy} (h : c.OK P) : ∃ op, c.op = some op ∧ op.written = some c.target ∧ op.Long := by
  have hr := h.shows.raw c.series c.gid
  rw [h.source] at hr
  simp only [Option.map_some, Option.getD_some] at hr
  have hne : bySeries c.series c.ws ≠ [] := by
    intro hn
    have := h.source
    rw [hn] at this
    cases this
  obtain ⟨ch, hch, C⟩ := h.shows.chunk c.series hne
  rw [h.chunk] at hch
  cases hch
  have hg := C.groups c.gid
  rw [h.source] at hg
  obtain ⟨g, hg, G⟩ := hg
  have hser : c.chunk.series = c.series := by
    have hm := List.mem_of_getElem? h.source
    rw [C.series _ hm, (bySeries_mem hm).2]
  refine ⟨.putRaw c.schema c.chunk c.gid (concat c.source.pages), by simp [Copy.op, hr], ?_, ?_⟩
  · simp only [Op.written, hg, Option.map_some, Copy.target, splitRaw_same _ _ G.infos G.sizes, G.range, hser]
  · intro g' hg'
    rw [hg] at hg'
    cases hg'
    rw [G.sizes]
    simp [concat, List.length_flatMap]

/-- C87: column groups that are copied as raw bytes from any number of opened files into a new file are read from the new file with the
same pages and time ranges. -/
theorem C87_raw_copy {P : Params} (hP : P.Ok) {pre : Bytes} {e : Encoding} (cs : List Copy) (hcs : ∀ c ∈ cs, c.OK P)
    (hfit : ∀ c ∈ cs, c.target.Sized) (hone : OneTable (cs.map Copy.target)) (hpg : PagesOK (cs.map Copy.target)) :
    ∃ ops, cs.mapM Copy.op = some ops ∧ ∀ w, writeFile P pre e ops = some w → w.file.length < 2 ^ 64 →
      w.footer.tableOffset + w.footer.tableSize < 2 ^ 64 → ∃ r, openFile P w.file = some r ∧ Shows P (cs.map Copy.target) r := by
  have key : ∀ cs : List Copy, (∀ c ∈ cs, c.OK P) → ∃ ops, cs.mapM Copy.op = some ops ∧ ops.mapM Op.written = some (cs.map Copy.target) ∧
      ∀ op ∈ ops, op.Long := by
    intro cs
    induction cs with
    | nil => intro _; exact ⟨[], rfl, rfl, fun op h => absurd h List.not_mem_nil⟩
    | cons c cs ih =>
      intro h
      obtain ⟨ops, h1, h2, h3⟩ := ih fun x hx => h x (by simp [hx])
      obtain ⟨op, g1, g2, g3⟩ := Copy.op_ok (h c (by simp))
      refine ⟨op :: ops, by simp [List.mapM_cons, g1, h1], by simp [List.mapM_cons, g2, h2], ?_⟩
      intro o ho
      rcases List.mem_cons.1 ho with rfl | ho
      · exact g3
      · exact h3 o ho
  obtain ⟨ops, h1, h2, h3⟩ := key cs hcs
  refine ⟨ops, h1, fun w hw hf hm => C86_file_round_trip hP ⟨h2, h3, ?_, hone, hpg⟩ hw hf hm⟩
  intro x hx
  obtain ⟨c, hc, rfl⟩ := List.mem_map.1 hx
  exact hfit c hc

end Verif.Tsm
