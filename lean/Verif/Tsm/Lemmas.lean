import Verif.Tsm.Model
/-!
# What a writer of data files knows about the file it has written
-/
namespace Verif.Tsm
open Verif.Time Verif.Wal
open Verif.Utils (Bloom)
open Verif.Page (Encoding)

/-! ## The specification: what has been written -/

/-- One accepted write. -/
structure Written where
  schema : Schema
  series : Nat
  key : SeriesKey
  pages : List PageData
  range : TimeRange

/-- The bytes of a column group taken apart again. -/
def splitRaw : List PageSpec → Bytes → List PageData
  | [], _ => []
  | p :: ps, b => ⟨p.info, b.take p.size⟩ :: splitRaw ps (b.drop p.size)

/-- The smallest and largest time of a batch: those in the statistics of its first time column. -/
def batchTimes (pages : List PageData) : Option TimeRange :=
  (pages.find? fun p => match p.info.column.ctype with | .time _ => true | _ => false).bind fun p => match p.info.stat with
    | .i64 ⟨some lo, some hi, _, _⟩ => some { minTs := lo, maxTs := hi }
    | _ => none

theorem batchRange_eq (pages : List PageData) : batchRange pages = batchTimes pages := by
  unfold batchRange batchTimes
  have : (fun p : PageData => p.info.column.ctype.isTime) =
      fun p : PageData => match p.info.column.ctype with | .time _ => true | _ => false := by
    funext p
    cases p.info.column.ctype <;> rfl
  rw [this]
  cases pages.find? fun p : PageData => match p.info.column.ctype with | .time _ => true | _ => false with
  | none => rfl
  | some p =>
    simp only [Option.bind_some]
    cases p.info.stat with
    | i64 s =>
      obtain ⟨a, b, c, d⟩ := s
      cases a <;> cases b <;> rfl
    | _ => rfl

/-- What a call means. -/
def Op.written : Op → Option Written
  | .putPages schema series key pages range => some ⟨schema, series, key, pages, range⟩
  | .putBatch schema series key pages => (batchTimes pages).map fun r => ⟨schema, series, key, pages, r⟩
  | .putRaw schema c gid raw => (BMap.get c.groups gid).map fun g => ⟨schema, c.series, c.key, splitRaw g.pages raw, g.range⟩

/-- Raw bytes are at least as long as the pages they are said to consist of. -/
def Op.Long : Op → Prop
  | .putRaw _ c gid raw => ∀ g, BMap.get c.groups gid = some g → (g.pages.map (·.size)).sum ≤ raw.length
  | _ => True

/-- The writes of a series of a table. -/
def ofSeries (t : Bytes) (s : Nat) (ws : List Written) : List Written := ws.filter fun w => w.schema.name = t ∧ w.series = s

/-- A newest schema of a table among those that were written. -/
def Newest (t : Bytes) (ws : List Written) (s : Schema) : Prop :=
  (∃ w ∈ ws, w.schema = s ∧ s.name = t) ∧ ∀ w ∈ ws, w.schema.name = t → w.schema.version ≤ s.version

/-! ## Places in a file -/

theorem cut_append {b : Bytes} {pos size : Nat} {x : Bytes} (h : cut b pos size = some x) (c : Bytes) : cut (b ++ c) pos size = some x := by
  unfold cut at *
  split at h
  · rename_i hle
    cases h
    rw [if_pos (by simp; omega), List.drop_append_of_le_length (by omega), List.take_append_of_le_length (by simp; omega)]
  · cases h

theorem cut_mid (a x c : Bytes) : cut (a ++ x ++ c) a.length x.length = some x := by
  unfold cut
  rw [if_pos (by simp)]
  simp

theorem cut_end (a x : Bytes) : cut (a ++ x) a.length x.length = some x := by
  have := cut_mid a x []
  simpa using this

/-- A part of a part. -/
theorem cut_cut {b : Bytes} {pos size : Nat} {x : Bytes} (h : cut b pos size = some x) {p n : Nat} (hp : p + n ≤ size) :
    cut b (pos + p) n = cut x p n := by
  unfold cut at *
  split at h
  · rename_i hle
    cases h
    rw [if_pos (by omega), if_pos (by simp; omega), List.drop_take, List.take_take, List.drop_drop]
    congr 2
    omega
  · cases h

theorem cut_length {b : Bytes} {pos size : Nat} {x : Bytes} (h : cut b pos size = some x) : x.length = size ∧ pos + size ≤ b.length := by
  unfold cut at h
  split at h
  · cases h
    simp
    omega
  · cases h

/-- The bytes of pages one behind the other. -/
def concat (ps : List PageData) : Bytes := ps.flatMap (·.bytes)

/-- Pages one behind the other from `off` on. -/
def layout : Nat → List PageData → List PageSpec
  | _, [] => []
  | off, p :: ps => ⟨off, p.bytes.length, p.info⟩ :: layout (off + p.bytes.length) ps

theorem layout_length (ps : List PageData) : ∀ off, (layout off ps).length = ps.length := by
  induction ps with
  | nil => intro _; rfl
  | cons p ps ih => intro off; simp [layout, ih]

theorem layout_sizes (ps : List PageData) : ∀ off, ((layout off ps).map (·.size)).sum = (concat ps).length := by
  induction ps with
  | nil => intro _; rfl
  | cons p ps ih => intro off; simp [layout, ih, concat]

/-- The column group `g` describes the pages of a write. -/
structure GroupOK (file : Bytes) (w : Written) (g : ColGroup) : Prop where
  place : ∃ off, 0 < off ∧ g.pages = layout off w.pages ∧ cut file off (concat w.pages).length = some (concat w.pages) ∧
    g.pagesOffset = if w.pages = [] then 0 else off
  size : g.size = (concat w.pages).length
  range : g.range = noRange.merge w.range

theorem GroupOK.append {file : Bytes} {w : Written} {g : ColGroup} (h : GroupOK file w g) (x : Bytes) : GroupOK (file ++ x) w g := by
  obtain ⟨⟨off, h1, h2, h3, h4⟩, h5, h6⟩ := h
  exact ⟨⟨off, h1, h2, cut_append h3 x, h4⟩, h5, h6⟩

theorem appendPages_eq (ps : List PageData) : ∀ (f : Bytes) (g : ColGroup), 0 < f.length →
    appendPages ps (f, g) = (f ++ concat ps,
      ⟨g.id, if g.pagesOffset ≠ 0 then g.pagesOffset else if ps = [] then 0 else f.length, g.size + (concat ps).length, g.range,
        g.pages ++ layout f.length ps⟩) := by
  induction ps with
  | nil =>
    intro f g _
    simp only [appendPages, List.foldl_nil, concat, List.flatMap_nil, List.append_nil, List.length_nil, Nat.add_zero, layout, if_true]
    split
    · rfl
    · rename_i h
      have h' : g.pagesOffset = 0 := by omega
      rw [← h']
  | cons p ps ih =>
    intro f g hf
    have := ih (f ++ p.bytes) (g.push ⟨f.length, p.bytes.length, p.info⟩) (by simp; omega)
    simp only [appendPages, List.foldl_cons] at this ⊢
    rw [this]
    simp only [ColGroup.push, concat, List.flatMap_cons, List.append_assoc, List.length_append, layout, List.cons_append,
      List.nil_append, Prod.mk.injEq, true_and, ColGroup.mk.injEq, and_true]
    refine ⟨?_, by omega⟩
    by_cases h0 : g.pagesOffset = 0
    · have : f.length ≠ 0 := by omega
      simp [h0, this]
    · simp [h0]

theorem splitRaw_concat (ps : List PageSpec) : ∀ raw : Bytes, (ps.map (·.size)).sum ≤ raw.length →
    concat (splitRaw ps raw) = raw.take (ps.map (·.size)).sum := by
  induction ps with
  | nil => intro raw _; simp [splitRaw, concat]
  | cons p ps ih =>
    intro raw h
    simp only [List.map_cons, List.sum_cons] at h ⊢
    have := ih (raw.drop p.size) (by simp; omega)
    simp only [splitRaw, concat, List.flatMap_cons] at this ⊢
    rw [this, ← List.take_append_drop p.size raw]
    simp only [List.take_append_drop]
    rw [List.take_add]

theorem rebase_eq (ps : List PageSpec) : ∀ (raw : Bytes) (off : Nat) (g : ColGroup), 0 < off → (ps.map (·.size)).sum ≤ raw.length →
    rebase ps (off, g) = (off + (ps.map (·.size)).sum,
      ⟨g.id, if g.pagesOffset ≠ 0 then g.pagesOffset else if ps = [] then 0 else off, g.size + (concat (splitRaw ps raw)).length, g.range,
        g.pages ++ layout off (splitRaw ps raw)⟩) := by
  induction ps with
  | nil =>
    intro raw off g _ _
    simp only [rebase, List.foldl_nil, concat, splitRaw, List.flatMap_nil, List.append_nil, List.length_nil, Nat.add_zero, layout, if_true,
      List.map_nil, List.sum_nil]
    split
    · rfl
    · rename_i h
      have h' : g.pagesOffset = 0 := by omega
      rw [← h']
  | cons p ps ih =>
    intro raw off g hf h
    simp only [List.map_cons, List.sum_cons] at h ⊢
    have := ih (raw.drop p.size) (off + p.size) (g.push ⟨off, p.size, p.info⟩) (by omega) (by simp; omega)
    simp only [rebase, List.foldl_cons] at this ⊢
    rw [this]
    have hm : min p.size raw.length = p.size := by omega
    simp only [ColGroup.push, concat, List.flatMap_cons, splitRaw, List.append_assoc, List.length_append, layout, List.cons_append,
      List.nil_append, Prod.mk.injEq, ColGroup.mk.injEq, and_true, List.length_take, hm, true_and]
    refine ⟨by omega, ?_, by omega⟩
    by_cases h0 : g.pagesOffset = 0
    · have : off ≠ 0 := by omega
      simp [h0, this]
    · simp [h0]

/-! ## The invariant of the writer -/

/-- The chunk of a series of a table in `page_specs`. -/
def look (m : List (Bytes × List (Nat × Chunk))) (t : Bytes) (s : Nat) : Option Chunk := BMap.get ((BMap.get m t).getD []) s

/-- The chunk of a series describes its writes: column group `i` is write `i`. -/
structure ChunkOK (file : Bytes) (t : Bytes) (s : Nat) (ws : List Written) (c : Chunk) : Prop where
  table : c.table = t
  series : c.series = s
  key : ∃ w, ws.head? = some w ∧ c.key = w.key
  next : c.nextId = ws.length
  range : c.range = mergeRanges (ws.map fun w => noRange.merge w.range)
  count : c.groups.length = ws.length
  groups : ∀ (i : Nat) (w : Written), ws[i]? = some w → ∃ g, c.groups[i]? = some (i, g) ∧ g.id = i ∧ GroupOK file w g

/-- What is stored about the series with the writes `ws`. -/
def SlotOK (file : Bytes) (t : Bytes) (s : Nat) (ws : List Written) : Option Chunk → Prop
  | none => ws = []
  | some c => ChunkOK file t s ws c

/-- What is stored about the schema of a table. -/
def SchemaOK (t : Bytes) (ws : List Written) : Option Schema → Prop
  | none => ∀ w ∈ ws, w.schema.name ≠ t
  | some s => Newest t ws s

/-- The writer knows what has been written. -/
structure Inv (ws : List Written) (w : Writer) : Prop where
  outer : BMap.Sorted BMap.bytesLt w.specs
  inner : ∀ t m, (t, m) ∈ w.specs → BMap.Sorted BMap.natLt m
  slots : ∀ t s, SlotOK w.file t s (ofSeries t s ws) (look w.specs t s)
  schemas : ∀ t, SchemaOK t ws (BMap.get w.schemas t)
  freshChunks : w.chunkSpecs = []
  freshGroups : w.groupSpecs = []

theorem get_nil {κ ν : Type} [DecidableEq κ] (k : κ) : BMap.get ([] : List (κ × ν)) k = none := rfl

theorem look_insert (m : List (Bytes × List (Nat × Chunk))) (t : Bytes) (s : Nat) (c : Chunk) (t' : Bytes) (s' : Nat) :
    look (BMap.insert BMap.bytesLt t (BMap.insert BMap.natLt s c ((BMap.get m t).getD [])) m) t' s' =
      if t' = t ∧ s' = s then some c else look m t' s' := by
  unfold look
  rw [BMap.get_insert BMap.bytesLt_strict]
  by_cases ht : t' = t
  · subst ht
    simp only [if_true, Option.getD_some, true_and]
    rw [BMap.get_insert BMap.natLt_strict]
  · simp [ht]

theorem ofSeries_append (t : Bytes) (s : Nat) (ws : List Written) (x : Written) :
    ofSeries t s (ws ++ [x]) = ofSeries t s ws ++ if t = x.schema.name ∧ s = x.series then [x] else [] := by
  simp only [ofSeries, List.filter_append]
  congr 1
  by_cases h : t = x.schema.name ∧ s = x.series
  · obtain ⟨rfl, rfl⟩ := h
    simp
  · rw [if_neg h]
    simp only [List.filter_cons, List.filter_nil]
    rw [if_neg]
    simp only [decide_eq_true_eq]
    rintro ⟨rfl, rfl⟩
    exact h ⟨rfl, rfl⟩

theorem setChunk_sorted {w : Writer} {ws : List Written} (h : Inv ws w) (t : Bytes) (s : Nat) (c : Chunk) :
    BMap.Sorted BMap.bytesLt (w.setChunk t s c).specs ∧ ∀ t' m, (t', m) ∈ (w.setChunk t s c).specs → BMap.Sorted BMap.natLt m := by
  refine ⟨BMap.insert_sorted BMap.bytesLt_strict h.outer, fun t' m hm => ?_⟩
  rcases BMap.mem_insert hm with hm | hm
  · cases hm
    refine BMap.insert_sorted BMap.natLt_strict ?_
    cases hg : BMap.get w.specs t with
    | none => exact List.Pairwise.nil
    | some m => exact h.inner t m (BMap.get_mem hg)
  · exact h.inner t' m hm

theorem ChunkOK.append {file : Bytes} {t : Bytes} {s : Nat} {ws : List Written} {c : Chunk} (h : ChunkOK file t s ws c) (x : Bytes) :
    ChunkOK (file ++ x) t s ws c :=
  { h with
    groups := fun i w hw =>
      let ⟨g, h1, h2, h3⟩ := h.groups i w hw
      ⟨g, h1, h2, h3.append x⟩ }

theorem SlotOK.append {file : Bytes} {t : Bytes} {s : Nat} {ws : List Written} {c : Option Chunk} (h : SlotOK file t s ws c) (x : Bytes) :
    SlotOK (file ++ x) t s ws c := by
  cases c with
  | none => exact h
  | some c => exact ChunkOK.append h x

/-- The numbers of the column groups of a chunk are 0, 1, 2, … -/
theorem ChunkOK.keys {file : Bytes} {t : Bytes} {s : Nat} {ws : List Written} {c : Chunk} (h : ChunkOK file t s ws c) {i : Nat}
    {e : Nat × ColGroup} (he : c.groups[i]? = some e) : e.1 = i := by
  have hi : i < c.groups.length := by
    rcases Nat.lt_or_ge i c.groups.length with h | h
    · exact h
    · rw [List.getElem?_eq_none h] at he; cases he
  rw [h.count] at hi
  obtain ⟨g, h1, _, _⟩ := h.groups i ws[i] (List.getElem?_eq_getElem hi)
  rw [h1] at he
  cases he
  rfl

theorem ChunkOK.sorted {file : Bytes} {t : Bytes} {s : Nat} {ws : List Written} {c : Chunk} (h : ChunkOK file t s ws c) :
    BMap.Sorted BMap.natLt c.groups := by
  unfold BMap.Sorted
  rw [List.pairwise_iff_getElem]
  intro i j hi hj hij
  rw [h.keys (List.getElem?_eq_getElem hi), h.keys (List.getElem?_eq_getElem hj)]
  simpa [BMap.natLt] using hij

/-- All entries of a chunk are column groups of writes. -/
theorem ChunkOK.get {file : Bytes} {t : Bytes} {s : Nat} {ws : List Written} {c : Chunk} (h : ChunkOK file t s ws c) (i : Nat) :
    match ws[i]? with
    | none => BMap.get c.groups i = none
    | some w => ∃ g, BMap.get c.groups i = some g ∧ g.id = i ∧ GroupOK file w g := by
  cases hw : ws[i]? with
  | none =>
    simp only
    refine BMap.get_eq_none.2 fun g hg => ?_
    obtain ⟨j, hj⟩ := List.mem_iff_getElem?.1 hg
    have := h.keys hj
    simp only at this
    subst this
    have hj' : i < c.groups.length := by
      rcases Nat.lt_or_ge i c.groups.length with h | h
      · exact h
      · rw [List.getElem?_eq_none h] at hj; cases hj
    rw [h.count] at hj'
    rw [List.getElem?_eq_getElem hj'] at hw
    cases hw
  | some w =>
    simp only
    obtain ⟨g, h1, h2, h3⟩ := h.groups i w hw
    exact ⟨g, BMap.get_of_mem BMap.natLt_strict h.sorted (List.mem_iff_getElem?.2 ⟨i, h1⟩), h2, h3⟩

theorem mergeRanges_snoc (l : List TimeRange) (r : TimeRange) : mergeRanges (l ++ [r]) = (mergeRanges l).merge r := by
  simp [mergeRanges, List.foldl_append]

theorem newest_snoc {t : Bytes} {ws : List Written} {w : Writer} (h : SchemaOK t ws (BMap.get w.schemas t)) (x : Written) :
    SchemaOK t (ws ++ [x]) (BMap.get (w.insertSchema x.schema).schemas t) := by
  have key : BMap.get (w.insertSchema x.schema).schemas t =
      if t = x.schema.name then
        match BMap.get w.schemas t with
        | some s => if s.version < x.schema.version then some x.schema else some s
        | none => some x.schema
      else BMap.get w.schemas t := by
    unfold Writer.insertSchema
    by_cases ht : t = x.schema.name
    · subst ht
      cases hg : BMap.get w.schemas x.schema.name with
      | none => simp [BMap.get_insert BMap.bytesLt_strict]
      | some s =>
        simp only
        by_cases hv : s.version < x.schema.version
        · simp [hv, BMap.get_insert BMap.bytesLt_strict]
        · simp [hv, hg]
    · rw [if_neg ht]
      cases hg : BMap.get w.schemas x.schema.name with
      | none => simp [BMap.get_insert BMap.bytesLt_strict, ht]
      | some s =>
        simp only
        by_cases hv : s.version < x.schema.version
        · simp [hv, BMap.get_insert BMap.bytesLt_strict, ht]
        · simp [hv]
  rw [key]
  by_cases ht : t = x.schema.name
  · subst ht
    simp only [if_true]
    cases hg : BMap.get w.schemas x.schema.name with
    | none =>
      rw [hg] at h
      simp only [SchemaOK] at h ⊢
      refine ⟨⟨x, by simp, rfl, rfl⟩, fun y hy hn => ?_⟩
      rcases List.mem_append.1 hy with hy | hy
      · exact absurd hn (h y hy)
      · simp at hy; subst hy; exact Nat.le_refl _
    | some s =>
      rw [hg] at h
      simp only [SchemaOK] at h
      obtain ⟨⟨y, hy, hys, hn⟩, hmax⟩ := h
      by_cases hv : s.version < x.schema.version
      · simp only [hv, if_true, SchemaOK]
        refine ⟨⟨x, by simp, rfl, rfl⟩, fun z hz hzn => ?_⟩
        rcases List.mem_append.1 hz with hz | hz
        · have := hmax z hz hzn; omega
        · simp at hz; subst hz; exact Nat.le_refl _
      · simp only [hv, if_false, SchemaOK]
        refine ⟨⟨y, by simp [hy], hys, hn⟩, fun z hz hzn => ?_⟩
        rcases List.mem_append.1 hz with hz | hz
        · exact hmax z hz hzn
        · simp at hz; subst hz; omega
  · rw [if_neg ht]
    cases hg : BMap.get w.schemas t with
    | none =>
      rw [hg] at h
      simp only [SchemaOK] at h ⊢
      intro y hy
      rcases List.mem_append.1 hy with hy | hy
      · exact h y hy
      · simp at hy; subst hy; exact Ne.symm ht
    | some s =>
      rw [hg] at h
      simp only [SchemaOK] at h ⊢
      obtain ⟨⟨y, hy, hys, hn⟩, hmax⟩ := h
      refine ⟨⟨y, by simp [hy], hys, hn⟩, fun z hz hzn => ?_⟩
      rcases List.mem_append.1 hz with hz | hz
      · exact hmax z hz hzn
      · simp at hz; subst hz; exact absurd hzn.symm ht

/-- A chunk with one more column group. -/
theorem chunk_snoc {file : Bytes} {t : Bytes} {s : Nat} {ws : List Written} {o : Option Chunk} (h : SlotOK file t s ws o) {x : Written}
    {data : Bytes} {g : ColGroup} (hg : GroupOK (file ++ data) x g)
    (hid : g.id = (o.getD (Chunk.new t s x.key)).nextId) {c : Chunk}
    (hc : Chunk.push { o.getD (Chunk.new t s x.key) with nextId := (o.getD (Chunk.new t s x.key)).nextId + 1 } g = some c) :
    ChunkOK (file ++ data) t s (ws ++ [x]) c := by
  unfold Chunk.push at hc
  split at hc
  · cases hc
  · split at hc
    · cases hc
    · cases hc
      cases o with
      | none =>
        simp only [SlotOK] at h
        subst h
        simp only [Option.getD_none, Chunk.new] at hid ⊢
        refine ⟨rfl, rfl, ⟨x, rfl, rfl⟩, rfl, ?_, rfl, ?_⟩
        · simp [mergeRanges, hg.range]
        · intro i w hw
          cases i with
          | zero =>
            simp at hw
            subst hw
            exact ⟨g, by simp [BMap.insert, hid], hid, hg⟩
          | succ i => simp at hw
      | some c0 =>
        simp only [SlotOK] at h
        simp only [Option.getD_some] at hid ⊢
        have hgs : BMap.insert BMap.natLt g.id g c0.groups = c0.groups ++ [(g.id, g)] := by
          refine BMap.insert_last BMap.natLt_strict fun e he => ?_
          obtain ⟨i, hi⟩ := List.mem_iff_getElem?.1 he
          have hi' : i < c0.groups.length := by
            rcases Nat.lt_or_ge i c0.groups.length with h | h
            · exact h
            · rw [List.getElem?_eq_none h] at hi; cases hi
          rw [h.keys hi, hid, h.next, ← h.count]
          simpa [BMap.natLt] using hi'
        obtain ⟨w0, hw0, hk⟩ := h.key
        refine ⟨h.table, h.series, ⟨w0, ?_, hk⟩, by simp [h.next], ?_, by simp [hgs, h.count], ?_⟩
        · cases ws with
          | nil => cases hw0
          | cons a l => simpa using hw0
        · rw [List.map_append, List.map_singleton, mergeRanges_snoc, ← h.range, hg.range]
        · intro i w hw
          simp only [hgs]
          rcases Nat.lt_or_ge i ws.length with hi | hi
          · rw [List.getElem?_append_left hi] at hw
            obtain ⟨g', h1, h2, h3⟩ := h.groups i w hw
            refine ⟨g', ?_, h2, h3.append data⟩
            rw [List.getElem?_append_left (by rw [h.count]; exact hi)]
            exact h1
          · rw [List.getElem?_append_right hi] at hw
            have hi' : i = ws.length := by
              rcases Nat.lt_or_ge 0 (i - ws.length) with h | h
              · rw [List.getElem?_eq_none (by simp; omega)] at hw; cases hw
              · omega
            subst hi'
            simp at hw
            subst hw
            refine ⟨g, ?_, by rw [hid, h.next], hg⟩
            rw [← h.count, List.getElem?_append_right (Nat.le_refl _)]
            simp [hid, h.next, h.count]

@[simp] theorem setChunk_file (w : Writer) (t s c) : (w.setChunk t s c).file = w.file := rfl
@[simp] theorem insertSchema_file (w : Writer) (s) : (w.insertSchema s).file = w.file := by
  unfold Writer.insertSchema; split <;> (try split) <;> rfl
@[simp] theorem insertSchema_specs (w : Writer) (s) : (w.insertSchema s).specs = w.specs := by
  unfold Writer.insertSchema; split <;> (try split) <;> rfl
@[simp] theorem insertSchema_chunkSpecs (w : Writer) (s) : (w.insertSchema s).chunkSpecs = w.chunkSpecs := by
  unfold Writer.insertSchema; split <;> (try split) <;> rfl
@[simp] theorem insertSchema_groupSpecs (w : Writer) (s) : (w.insertSchema s).groupSpecs = w.groupSpecs := by
  unfold Writer.insertSchema; split <;> (try split) <;> rfl

/-- What every write does, whatever makes the column group. -/
theorem step_inv {ws : List Written} {w : Writer} (h : Inv ws w) (x : Written) (data : Bytes) (g : ColGroup) {w' : Writer}
    (hid : g.id = (w.chunk x.schema.name x.series x.key).nextId)
    (hg : GroupOK (w.file ++ data) x { g with range := g.range.merge x.range })
    (h' : Writer.addGroup { (w.nextGroup x.schema.name x.series x.key).1 with file := w.file ++ data } x.schema x.series x.key g x.range =
      some w') : Inv (ws ++ [x]) w' ∧ w'.file = w.file ++ data := by
  simp only [Writer.addGroup, Option.map_eq_some_iff] at h'
  obtain ⟨c, hc, rfl⟩ := h'
  -- the chunk that is pushed to
  have hch : (Writer.insertSchema { (w.nextGroup x.schema.name x.series x.key).1 with file := w.file ++ data } x.schema).chunk
      x.schema.name x.series x.key =
      { w.chunk x.schema.name x.series x.key with nextId := (w.chunk x.schema.name x.series x.key).nextId + 1 } := by
    have := look_insert w.specs x.schema.name x.series
      { w.chunk x.schema.name x.series x.key with nextId := (w.chunk x.schema.name x.series x.key).nextId + 1 } x.schema.name x.series
    simp only [and_self, if_true] at this
    unfold Writer.chunk
    simp only [insertSchema_specs]
    unfold look at this
    simp only [Writer.nextGroup, Writer.setChunk]
    rw [this]
    rfl
  rw [hch] at hc
  have hlook : ∀ t s, look ((Writer.insertSchema { (w.nextGroup x.schema.name x.series x.key).1 with file := w.file ++ data }
      x.schema).setChunk x.schema.name x.series c).specs t s =
      if t = x.schema.name ∧ s = x.series then some c else look w.specs t s := by
    intro t s
    simp only [Writer.setChunk, insertSchema_specs]
    rw [look_insert]
    simp only [Writer.nextGroup, Writer.setChunk]
    rw [look_insert]
    split <;> rfl
  have hs1 := setChunk_sorted h x.schema.name x.series
    { w.chunk x.schema.name x.series x.key with nextId := (w.chunk x.schema.name x.series x.key).nextId + 1 }
  refine ⟨?_, by simp⟩
  refine { outer := ?_, inner := ?_, slots := ?_, schemas := ?_, freshChunks := ?_, freshGroups := ?_ }
  · simp only [Writer.setChunk, insertSchema_specs]
    exact BMap.insert_sorted BMap.bytesLt_strict hs1.1
  · intro t m hm
    simp only [Writer.setChunk, insertSchema_specs] at hm
    rcases BMap.mem_insert hm with hm | hm
    · cases hm
      refine BMap.insert_sorted BMap.natLt_strict ?_
      cases hget : BMap.get (w.nextGroup x.schema.name x.series x.key).1.specs x.schema.name with
      | none => exact List.Pairwise.nil
      | some m => exact hs1.2 _ m (BMap.get_mem hget)
    · exact hs1.2 t m hm
  · intro t s
    rw [hlook, ofSeries_append]
    simp only [setChunk_file, insertSchema_file]
    by_cases hts : t = x.schema.name ∧ s = x.series
    · obtain ⟨rfl, rfl⟩ := hts
      simp only [and_self, if_true]
      exact chunk_snoc (h.slots _ _) hg hid hc
    · rw [if_neg hts, if_neg hts, List.append_nil]
      exact (h.slots t s).append data
  · intro t
    have := newest_snoc (w := { (w.nextGroup x.schema.name x.series x.key).1 with file := w.file ++ data }) (t := t) (ws := ws)
      (h.schemas t) x
    exact this
  · simp only [Writer.setChunk, insertSchema_chunkSpecs]; exact h.freshChunks
  · simp only [Writer.setChunk, insertSchema_groupSpecs]; exact h.freshGroups

theorem begin_file (w : Writer) : ∃ x, w.begin.file = w.file ++ x := by
  unfold Writer.begin
  split
  · exact ⟨magic, rfl⟩
  · exact ⟨[], by simp⟩

theorem begin_inv {ws : List Written} {w : Writer} (h : Inv ws w) : Inv ws w.begin := by
  unfold Writer.begin
  split
  · exact ⟨h.outer, h.inner, fun t s => (h.slots t s).append magic, h.schemas, h.freshChunks, h.freshGroups⟩
  · exact h

/-- A writer that has begun has written something. -/
def Begun (w : Writer) : Prop := w.state ≠ .initialised → 0 < w.file.length

theorem begin_pos {w : Writer} (h : Begun w) : 0 < w.begin.file.length := by
  unfold Writer.begin
  split
  · simp [magic]
  · rename_i h1; exact h h1

theorem begin_state (w : Writer) : w.begin.state ≠ .initialised := by
  unfold Writer.begin
  split
  · simp
  · assumption

theorem range_none (r : TimeRange) (g : ColGroup) (h : g.range = noRange) : g.range.merge r = noRange.merge r := by rw [h]

@[simp] theorem insertSchema_state (w : Writer) (s) : (w.insertSchema s).state = w.state := by
  unfold Writer.insertSchema; split <;> (try split) <;> rfl
@[simp] theorem insertSchema_bloom (w : Writer) (s) : (w.insertSchema s).bloom = w.bloom := by
  unfold Writer.insertSchema; split <;> (try split) <;> rfl
@[simp] theorem insertSchema_encoding (w : Writer) (s) : (w.insertSchema s).encoding = w.encoding := by
  unfold Writer.insertSchema; split <;> (try split) <;> rfl
@[simp] theorem insertSchema_footer (w : Writer) (s) : (w.insertSchema s).footer = w.footer := by
  unfold Writer.insertSchema; split <;> (try split) <;> rfl
@[simp] theorem insertSchema_minTs (w : Writer) (s) : (w.insertSchema s).minTs = w.minTs := by
  unfold Writer.insertSchema; split <;> (try split) <;> rfl
@[simp] theorem insertSchema_maxTs (w : Writer) (s) : (w.insertSchema s).maxTs = w.maxTs := by
  unfold Writer.insertSchema; split <;> (try split) <;> rfl

/-- The parts of the writer that only `finish` uses. -/
structure Same (w w' : Writer) : Prop where
  bloom : w'.bloom = w.bloom
  encoding : w'.encoding = w.encoding
  footer : w'.footer = w.footer
  minTs : w'.minTs = w.minTs
  maxTs : w'.maxTs = w.maxTs

theorem Same.trans {a b c : Writer} (h : Same a b) (g : Same b c) : Same a c :=
  ⟨g.bloom.trans h.bloom, g.encoding.trans h.encoding, g.footer.trans h.footer, g.minTs.trans h.minTs, g.maxTs.trans h.maxTs⟩

theorem begin_same (w : Writer) : Same w w.begin := by
  unfold Writer.begin
  split <;> exact ⟨rfl, rfl, rfl, rfl, rfl⟩

theorem addGroup_same {w w' : Writer} {f : Bytes} {sc : Schema} {s : Nat} {k : SeriesKey} {g : ColGroup} {r : TimeRange}
    (h : Writer.addGroup { (w.nextGroup sc.name s k).1 with file := f } sc s k g r = some w') : Same w w' ∧ w'.state = w.state := by
  simp only [Writer.addGroup, Option.map_eq_some_iff] at h
  obtain ⟨c, _, rfl⟩ := h
  exact ⟨⟨by simp [Writer.setChunk, Writer.nextGroup], by simp [Writer.setChunk, Writer.nextGroup],
    by simp [Writer.setChunk, Writer.nextGroup], by simp [Writer.setChunk, Writer.nextGroup], by simp [Writer.setChunk, Writer.nextGroup]⟩,
    by simp [Writer.setChunk, Writer.nextGroup]⟩

theorem writePages_inv {ws : List Written} {w w' : Writer} (h : Inv ws w) (hb : Begun w) (x : Written)
    (h' : w.writePages x.schema x.series x.key x.pages x.range = some w') :
    Inv (ws ++ [x]) w' ∧ Begun w' ∧ Same w w' ∧ ∃ d, w'.file = w.file ++ d := by
  unfold Writer.writePages at h'
  simp only at h'
  have hpos := begin_pos hb
  have hf : (w.begin.nextGroup x.schema.name x.series x.key).1.file = w.begin.file := rfl
  have hg0 : (w.begin.nextGroup x.schema.name x.series x.key).2 = ColGroup.new (w.begin.chunk x.schema.name x.series x.key).nextId := rfl
  rw [appendPages_eq _ _ _ (by rw [hf]; exact hpos)] at h'
  simp only [hf, hg0] at h'
  have := step_inv (begin_inv h) x (concat x.pages) _ (by simp [ColGroup.new]) ?_ h'
  · refine ⟨this.1, fun _ => ?_, (begin_same w).trans (addGroup_same h').1, ?_⟩
    · rw [this.2]; simp; omega
    · obtain ⟨d, hd⟩ := begin_file w
      exact ⟨d ++ concat x.pages, by rw [this.2, hd, List.append_assoc]⟩
  · refine ⟨⟨w.begin.file.length, hpos, ?_, cut_end _ _, ?_⟩, ?_, rfl⟩
    · simp [ColGroup.new]
    · simp [ColGroup.new]
    · simp [ColGroup.new]

theorem writeRaw_inv {ws : List Written} {w w' : Writer} (h : Inv ws w) (hb : Begun w) {schema : Schema} {c : Chunk} {gid : Nat} {raw : Bytes}
    {x : Written} (hx : (Op.putRaw schema c gid raw).written = some x) (hl : (Op.putRaw schema c gid raw).Long)
    (h' : w.writeRaw schema c gid raw = some w') : Inv (ws ++ [x]) w' ∧ Begun w' ∧ Same w w' ∧ ∃ d, w'.file = w.file ++ d := by
  unfold Writer.writeRaw at h'
  simp only [Option.bind_eq_some_iff] at h'
  obtain ⟨old, hold, h'⟩ := h'
  simp only [Op.written, hold, Option.map_some, Option.some.injEq] at hx
  subst hx
  have hl' := hl old hold
  have hpos := begin_pos hb
  have hf : (w.begin.nextGroup schema.name c.series c.key).1.file = w.begin.file := rfl
  have hg0 : (w.begin.nextGroup schema.name c.series c.key).2 = ColGroup.new (w.begin.chunk schema.name c.series c.key).nextId := rfl
  rw [rebase_eq _ raw _ _ (by rw [hf]; exact hpos) hl'] at h'
  simp only [hf, hg0] at h'
  have hcat := splitRaw_concat old.pages raw hl'
  have := step_inv (begin_inv h) ⟨schema, c.series, c.key, splitRaw old.pages raw, old.range⟩ raw _ (by simp [ColGroup.new]) ?_ h'
  · refine ⟨this.1, fun _ => ?_, (begin_same w).trans (addGroup_same h').1, ?_⟩
    · rw [this.2]; simp; omega
    · obtain ⟨d, hd⟩ := begin_file w
      exact ⟨d ++ raw, by rw [this.2, hd, List.append_assoc]⟩
  · refine ⟨⟨w.begin.file.length, hpos, ?_, ?_, ?_⟩, ?_, rfl⟩
    · simp [ColGroup.new]
    · simp only [hcat]
      rw [List.length_take, Nat.min_eq_left hl']
      unfold cut
      rw [if_pos (by simp; omega)]
      simp
    · cases hp : old.pages with
      | nil => simp [ColGroup.new, splitRaw]
      | cons a l => simp [ColGroup.new, splitRaw]
    · simp [ColGroup.new]

theorem apply_inv {ws : List Written} {w w' : Writer} (h : Inv ws w) (hb : Begun w) {op : Op} (hl : op.Long) (h' : w.apply op = some w') :
    ∃ x, op.written = some x ∧ Inv (ws ++ [x]) w' ∧ Begun w' ∧ Same w w' ∧ ∃ d, w'.file = w.file ++ d := by
  cases op with
  | putPages schema series key pages range =>
    exact ⟨_, rfl, writePages_inv h hb ⟨schema, series, key, pages, range⟩ h'⟩
  | putBatch schema series key pages =>
    simp only [Writer.apply, Writer.writeRecordBatch] at h'
    split at h'
    · cases h'
    · obtain ⟨r, hr, h'⟩ := Option.bind_eq_some_iff.1 h'
      exact ⟨⟨schema, series, key, pages, r⟩, by simp [Op.written, ← batchRange_eq, hr], writePages_inv h hb ⟨schema, series, key, pages, r⟩ h'⟩
  | putRaw schema c gid raw =>
    have : ∃ old, BMap.get c.groups gid = some old := by
      simp only [Writer.apply, Writer.writeRaw, Option.bind_eq_some_iff] at h'
      obtain ⟨old, hold, _⟩ := h'
      exact ⟨old, hold⟩
    obtain ⟨old, hold⟩ := this
    exact ⟨_, by simp [Op.written, hold]; rfl, writeRaw_inv h hb (by simp [Op.written, hold]) hl h'⟩

theorem applyAll_inv (ops : List Op) : ∀ {ws : List Written} {w w' : Writer}, Inv ws w → Begun w → (∀ op ∈ ops, op.Long) →
    ops.foldlM Writer.apply w = some w' →
    ∃ xs, ops.mapM Op.written = some xs ∧ Inv (ws ++ xs) w' ∧ Begun w' ∧ Same w w' ∧ ∃ d, w'.file = w.file ++ d := by
  induction ops with
  | nil =>
    intro ws w w' h hb _ h'
    simp only [List.foldlM_nil, pure, Option.some.injEq] at h'
    subst h'
    exact ⟨[], rfl, by simpa using h, hb, ⟨rfl, rfl, rfl, rfl, rfl⟩, [], by simp⟩
  | cons op ops ih =>
    intro ws w w' h hb hl h'
    simp only [List.foldlM_cons, bind, Option.bind_eq_some_iff] at h'
    obtain ⟨w1, h1, h2⟩ := h'
    obtain ⟨x, hx, hi, hb1, hs1, d1, hd1⟩ := apply_inv h hb (hl op (by simp)) h1
    obtain ⟨xs, hxs, hi', hb', hs', d, hd⟩ := ih hi hb1 (fun o ho => hl o (by simp [ho])) h2
    refine ⟨x :: xs, ?_, by simpa using hi', hb', hs1.trans hs', d1 ++ d, by rw [hd, hd1, List.append_assoc]⟩
    simp [List.mapM_cons, hx, hxs]

/-- A new writer has written nothing. -/
theorem new_inv {P : Params} {pre : Bytes} {n : Nat} {e : Encoding} {w : Writer} (h : Writer.new P pre n e = some w) :
    Inv [] w ∧ Begun w ∧ Bloom.new P.bits = some w.bloom ∧ w.encoding = e ∧ w.footer.version = (if e = .null then .v1 else .v2) ∧
      w.minTs = i64Max ∧ w.maxTs = i64Min ∧ w.file = pre := by
  simp only [Writer.new, Option.bind_eq_some_iff, Option.map_eq_some_iff, Footer.empty] at h
  obtain ⟨b, hb, f, ⟨b', _, rfl⟩, rfl⟩ := h
  refine ⟨⟨List.Pairwise.nil, fun t m hm => absurd hm List.not_mem_nil, fun t s => rfl, ?_, rfl, rfl⟩, ?_, hb, rfl, rfl, rfl, rfl, rfl⟩
  · intro t w hw
    cases hw
  · intro h; exact absurd rfl h

end Verif.Tsm
