import Verif.Tsm.Lemmas
import Mathlib.Data.List.Forall2
/-!
# What `finish` writes and what `open` reads
-/
namespace Verif.Tsm
open Verif.Time Verif.Wal Verif.Version
open Verif.Utils (Bloom)
open Verif.Page (Encoding)

/-! ## Sizes and ranges of serialised values -/

theorem flatMap_length_ge {α : Type} (e : α → Bytes) (h : ∀ a, 1 ≤ (e a).length) (l : List α) : l.length ≤ (l.flatMap e).length := by
  induction l with
  | nil => simp
  | cons a l ih =>
    have := h a
    simp only [List.flatMap_cons, List.length_append, List.length_cons]
    omega

theorem vec_length {α : Type} (c : Cod α) (h : ∀ a, 1 ≤ (c.enc a).length) (l : List α) : l.length ≤ ((Cod.vec c).enc l).length := by
  have := flatMap_length_ge c.enc h l
  simp only [Cod.vec, encVec, List.length_append, leEnc_length]
  rw [← List.flatMap_def]
  omega

theorem cPageSpec_length (p : PageSpec) : 1 ≤ (cPageSpec.enc p).length := by
  simp [cPageSpec, Cod.iso, Cod.seq, Cod.nat]; omega

theorem cChunkSpec_length (p : ChunkSpec) : 1 ≤ (cChunkSpec.enc p).length := by
  simp [cChunkSpec, Cod.iso, Cod.seq, Cod.nat]; omega

/-- What a write must fit into for the serialised metadata to be right: numbers into the types they have in Rust. -/
structure Written.Fits (x : Written) : Prop where
  schema : cSchema.fits x.schema
  series : x.series < 2 ^ 32
  key : cKey.fits x.key
  pages : ∀ p ∈ x.pages, cPageMeta.fits p.info
  range : IsI64 x.range.minTs ∧ IsI64 x.range.maxTs

theorem Written.Fits.name {x : Written} (h : x.Fits) : x.schema.name.length < 2 ^ 64 := h.schema.1.2.2.1

theorem noRange_fits : IsI64 noRange.minTs ∧ IsI64 noRange.maxTs := by
  unfold IsI64 noRange i64Max i64Min
  decide

theorem merge_fits {a b : TimeRange} (ha : IsI64 a.minTs ∧ IsI64 a.maxTs) (hb : IsI64 b.minTs ∧ IsI64 b.maxTs) :
    IsI64 (a.merge b).minTs ∧ IsI64 (a.merge b).maxTs := by
  unfold IsI64 TimeRange.merge at *
  simp only
  omega

theorem merge_none {r : TimeRange} (h : IsI64 r.minTs ∧ IsI64 r.maxTs) : noRange.merge r = r := by
  cases r with | mk a b =>
  unfold IsI64 at h
  simp only at h
  unfold TimeRange.merge noRange i64Max i64Min
  simp only [TimeRange.mk.injEq]
  omega

theorem foldl_merge_fits (l : List TimeRange) (h : ∀ r ∈ l, IsI64 r.minTs ∧ IsI64 r.maxTs) : ∀ a : TimeRange,
    IsI64 a.minTs ∧ IsI64 a.maxTs → IsI64 (l.foldl TimeRange.merge a).minTs ∧ IsI64 (l.foldl TimeRange.merge a).maxTs := by
  induction l with
  | nil => intro a ha; exact ha
  | cons r l ih => intro a ha; exact ih (fun x hx => h x (by simp [hx])) _ (merge_fits ha (h r (by simp)))

theorem mergeRanges_fits {l : List TimeRange} (h : ∀ r ∈ l, IsI64 r.minTs ∧ IsI64 r.maxTs) :
    IsI64 (mergeRanges l).minTs ∧ IsI64 (mergeRanges l).maxTs := foldl_merge_fits l h _ noRange_fits

theorem cRange_fits {r : TimeRange} (h : IsI64 r.minTs ∧ IsI64 r.maxTs) : cRange.fits r := ⟨h, rfl⟩

theorem layout_fits (ps : List PageData) (h : ∀ p ∈ ps, cPageMeta.fits p.info) : ∀ off, off + (concat ps).length < 2 ^ 64 →
    ∀ s ∈ layout off ps, cPageSpec.fits s := by
  induction ps with
  | nil => intro off _ s hs; cases hs
  | cons p ps ih =>
    intro off hoff s hs
    simp only [concat, List.flatMap_cons, List.length_append] at hoff
    rcases List.mem_cons.1 hs with rfl | hs
    · refine ⟨⟨?_, ?_, h p (by simp)⟩, rfl⟩
      · show off < 256 ^ 8
        omega
      · show p.bytes.length < 256 ^ 8
        omega
    · exact ih (fun q hq => h q (by simp [hq])) _ (by simp only [concat]; omega) s hs

/-- A chunk that describes writes is serialised without loss. -/
theorem ChunkOK.fits {file : Bytes} {t : Bytes} {s : Nat} {ws : List Written} {c : Chunk} (h : ChunkOK file t s ws c)
    (hw : ∀ w ∈ ws, w.Fits ∧ w.schema.name = t ∧ w.series = s) (hf : file.length < 2 ^ 64) (he : (cChunk.enc c).length < 2 ^ 64) :
    cChunk.fits c := by
  obtain ⟨w0, hw0, hk⟩ := h.key
  have hm0 : w0 ∈ ws := List.mem_of_mem_head? hw0
  obtain ⟨hfit, hn, hs⟩ := hw w0 hm0
  have hlen : c.groups.length ≤ (cChunk.enc c).length := by
    have := vec_length (Cod.seq (.nat 8) cColGroup) (fun a => by simp [Cod.seq, Cod.nat]; omega) c.groups
    have h2 : ((Cod.vec (Cod.seq (.nat 8) cColGroup)).enc c.groups).length ≤ (cChunk.enc c).length := by
      show _ ≤ (cRange.enc c.range ++ (Cod.bytes.enc c.table ++ ((Cod.nat 4).enc c.series ++ (cKey.enc c.key ++ ((Cod.nat 8).enc c.nextId ++
        (Cod.vec (Cod.seq (.nat 8) cColGroup)).enc c.groups))))).length
      simp only [List.length_append]
      omega
    omega
  have hgroups : ∀ e ∈ c.groups, (Cod.seq (.nat 8) cColGroup).fits e := by
    intro e he'
    obtain ⟨i, hi⟩ := List.mem_iff_getElem?.1 he'
    have hi' : i < c.groups.length := by
      rcases Nat.lt_or_ge i c.groups.length with h | h
      · exact h
      · rw [List.getElem?_eq_none h] at hi; cases hi
    have hi2 : i < ws.length := by rw [← h.count]; exact hi'
    obtain ⟨g, h1, h2, ⟨⟨off, h3, h4, h5, h6⟩, h7, h8⟩⟩ := h.groups i ws[i] (List.getElem?_eq_getElem hi2)
    rw [hi] at h1
    cases h1
    have hcl := (cut_length h5).2
    have hwi := (hw ws[i] (List.getElem_mem hi2)).1
    refine ⟨?_, ⟨⟨?_, ?_, ?_, ?_, ?_⟩, rfl⟩⟩
    · show i < 256 ^ 8
      omega
    · show g.id < 256 ^ 8
      omega
    · show g.pagesOffset < 256 ^ 8
      rw [h6]
      split <;> omega
    · show g.size < 256 ^ 8
      omega
    · show cRange.fits g.range
      rw [h8]
      exact cRange_fits (merge_fits noRange_fits hwi.range)
    · show (Cod.vec cPageSpec).fits g.pages
      refine ⟨?_, ?_⟩
      · have h9 := vec_length cPageSpec cPageSpec_length g.pages
        have h10 : ((Cod.vec cPageSpec).enc g.pages).length ≤ (cChunk.enc c).length := by
          have : ((Cod.seq (.nat 8) cColGroup).enc (i, g)).length ≤ ((Cod.vec (Cod.seq (.nat 8) cColGroup)).enc c.groups).length := by
            simp only [Cod.vec, encVec, List.length_append, leEnc_length]
            rw [← List.flatMap_def]
            have : ∀ l : List (Nat × ColGroup), (i, g) ∈ l →
                ((Cod.seq (.nat 8) cColGroup).enc (i, g)).length ≤ (l.flatMap (Cod.seq (.nat 8) cColGroup).enc).length := by
              intro l
              induction l with
              | nil => intro h; cases h
              | cons a l ih =>
                intro hm
                simp only [List.flatMap_cons, List.length_append]
                rcases List.mem_cons.1 hm with rfl | hm
                · omega
                · have := ih hm; omega
            have := this _ he'
            omega
          have h11 : ((Cod.vec cPageSpec).enc g.pages).length ≤ ((Cod.seq (.nat 8) cColGroup).enc (i, g)).length := by
            show _ ≤ ((Cod.nat 8).enc i ++ ((Cod.nat 8).enc g.id ++ ((Cod.nat 8).enc g.pagesOffset ++ ((Cod.nat 8).enc g.size ++
              (cRange.enc g.range ++ (Cod.vec cPageSpec).enc g.pages))))).length
            simp only [List.length_append]
            omega
          have h2 : ((Cod.vec (Cod.seq (.nat 8) cColGroup)).enc c.groups).length ≤ (cChunk.enc c).length := by
            show _ ≤ (cRange.enc c.range ++ (Cod.bytes.enc c.table ++ ((Cod.nat 4).enc c.series ++ (cKey.enc c.key ++
              ((Cod.nat 8).enc c.nextId ++ (Cod.vec (Cod.seq (.nat 8) cColGroup)).enc c.groups))))).length
            simp only [List.length_append]
            omega
          omega
        omega
      · rw [h4]
        exact layout_fits _ hwi.pages off (by omega)
  refine ⟨⟨?_, ?_, ?_, ?_, ?_, ⟨⟨?_, hgroups⟩, h.sorted⟩⟩, rfl⟩
  · show cRange.fits c.range
    rw [h.range]
    refine cRange_fits (mergeRanges_fits fun r hr => ?_)
    obtain ⟨w, hwm, rfl⟩ := List.mem_map.1 hr
    exact merge_fits noRange_fits (hw w hwm).1.range
  · show c.table.length < 2 ^ 64
    rw [h.table, ← hn]
    exact hfit.name
  · show c.series < 256 ^ 4
    rw [h.series, ← hs]
    have := hfit.series
    omega
  · show cKey.fits c.key
    rw [hk]
    exact hfit.key
  · show c.nextId < 256 ^ 8
    rw [h.next, ← h.count]
    omega
  · show c.groups.length < 2 ^ 64
    omega

/-! ## `write_chunk` -/

/-- The entry for a chunk in the metadata. -/
structure SpecFor (buf : Bytes) (x : Nat × Chunk) (s : ChunkSpec) : Prop where
  series : s.series = x.1
  range : s.range = x.2.range
  place : cut buf s.offset s.size = some (cChunk.enc x.2)

/-- The chunks of a table among those that were written. -/
def ofTable (t : Bytes) (l : List (Bytes × Nat × Chunk)) : List (Nat × Chunk) := (l.filter fun x => x.1 = t).map (·.2)

/-- After some rounds of the loop. -/
structure LoopOK (P : Params) (b0 : Bloom) (mn mx : Int) (done : List (Bytes × Nat × Chunk)) (l : ChunkLoop) : Prop where
  sorted : BMap.Sorted BMap.bytesLt l.chunkSpecs
  listed : ∀ t specs, BMap.get l.chunkSpecs t = some specs → ofTable t done ≠ []
  specs : ∀ t, List.Forall₂ (SpecFor l.buffer) (ofTable t done) ((BMap.get l.chunkSpecs t).getD [])
  bloom : (done.map fun x => beEnc 4 x.2.1).foldlM (Bloom.insert P.hashes) b0 = some l.bloom
  minTs : l.minTs = (done.map fun x => x.2.2.range.minTs).foldl min mn
  maxTs : l.maxTs = (done.map fun x => x.2.2.range.maxTs).foldl max mx

theorem SpecFor.append {buf : Bytes} {x : Nat × Chunk} {s : ChunkSpec} (h : SpecFor buf x s) (b : Bytes) : SpecFor (buf ++ b) x s :=
  ⟨h.series, h.range, cut_append h.place b⟩

theorem ofTable_append (t : Bytes) (l : List (Bytes × Nat × Chunk)) (x : Bytes × Nat × Chunk) :
    ofTable t (l ++ [x]) = ofTable t l ++ if t = x.1 then [x.2] else [] := by
  simp only [ofTable, List.filter_append, List.map_append]
  congr 1
  by_cases h : t = x.1
  · simp [h]
  · simp [h, Ne.symm h]

theorem chunkStep_ok {P : Params} {b0 : Bloom} {mn mx : Int} {done : List (Bytes × Nat × Chunk)} {l l' : ChunkLoop}
    (h : LoopOK P b0 mn mx done l) (x : Bytes × Nat × Chunk) (h' : chunkStep P l x = some l') :
    LoopOK P b0 mn mx (done ++ [x]) l' ∧ l'.buffer = l.buffer ++ cChunk.enc x.2.2 := by
  obtain ⟨t, s, c⟩ := x
  simp only [chunkStep, Option.map_eq_some_iff] at h'
  obtain ⟨b, hb, rfl⟩ := h'
  refine ⟨⟨BMap.insert_sorted BMap.bytesLt_strict h.sorted, ?_, ?_, ?_, ?_, ?_⟩, rfl⟩
  · intro t' specs hg
    simp only at hg
    rw [BMap.get_insert BMap.bytesLt_strict] at hg
    rw [ofTable_append]
    split at hg
    · rename_i ht
      simp [ht]
    · rename_i ht
      have := h.listed t' specs hg
      simp [ht, this]
  · intro t'
    simp only
    rw [BMap.get_insert BMap.bytesLt_strict, ofTable_append]
    have hold := h.specs t'
    by_cases ht : t' = t
    · subst ht
      simp only [if_true, Option.getD_some]
      refine List.rel_append (hold.imp fun a b hab => hab.append _) ?_
      exact .cons ⟨rfl, rfl, cut_end _ _⟩ .nil
    · simp only [ht, if_false, List.append_nil]
      exact hold.imp fun a b hab => hab.append _
  · rw [List.map_append, List.foldlM_append, h.bloom]
    simpa using hb
  · simp [List.foldl_append, h.minTs]
  · simp [List.foldl_append, h.maxTs]

theorem chunkLoop_ok {P : Params} {b0 : Bloom} {mn mx : Int} (todo : List (Bytes × Nat × Chunk)) :
    ∀ {done : List (Bytes × Nat × Chunk)} {l l' : ChunkLoop}, LoopOK P b0 mn mx done l → todo.foldlM (chunkStep P) l = some l' →
    LoopOK P b0 mn mx (done ++ todo) l' ∧ l'.buffer = l.buffer ++ todo.flatMap fun x => cChunk.enc x.2.2 := by
  induction todo with
  | nil =>
    intro done l l' h h'
    simp only [List.foldlM_nil, pure, Option.some.injEq] at h'
    subst h'
    exact ⟨by simpa using h, by simp⟩
  | cons x todo ih =>
    intro done l l' h h'
    simp only [List.foldlM_cons, bind, Option.bind_eq_some_iff] at h'
    obtain ⟨l1, h1, h2⟩ := h'
    obtain ⟨h3, h4⟩ := chunkStep_ok h x h1
    obtain ⟨h5, h6⟩ := ih h3 h2
    exact ⟨by simpa using h5, by simp [h6, h4]⟩

/-! ## `write_chunk_group` -/

/-- The entry for a table in the metadata. -/
structure GroupFor (schemas : List (Bytes × Schema)) (buf : Bytes) (x : Bytes × List ChunkSpec) (s : Bytes × GroupSpec) : Prop where
  key : s.1 = x.1
  name : s.2.schema.name = x.1
  schema : BMap.get schemas x.1 = some s.2.schema
  range : s.2.range = mergeRanges (x.2.map (·.range))
  count : s.2.count = 0
  place : cut buf s.2.offset s.2.size = some (cChunkGroup.enc x.2)

theorem GroupFor.append {schemas : List (Bytes × Schema)} {buf : Bytes} {x : Bytes × List ChunkSpec} {s : Bytes × GroupSpec}
    (h : GroupFor schemas buf x s) (b : Bytes) : GroupFor schemas (buf ++ b) x s := { h with place := cut_append h.place b }

theorem writeGroups_ok {schemas : List (Bytes × Schema)} (hn : ∀ t s, BMap.get schemas t = some s → s.name = t)
    (todo : List (Bytes × List ChunkSpec)) : ∀ {done : List (Bytes × List ChunkSpec)} {buf buf' : Bytes} {gs gs' : List (Bytes × GroupSpec)},
    BMap.Sorted BMap.bytesLt (done ++ todo) → List.Forall₂ (GroupFor schemas buf) done gs →
    writeGroups schemas todo (buf, gs) = some (buf', gs') →
    List.Forall₂ (GroupFor schemas buf') (done ++ todo) gs' ∧ ∃ d, buf' = buf ++ d := by
  induction todo with
  | nil =>
    intro done buf buf' gs gs' _ hd h
    simp only [writeGroups, List.foldlM_nil, pure, Option.some.injEq, Prod.mk.injEq] at h
    obtain ⟨rfl, rfl⟩ := h
    exact ⟨by simpa using hd, [], by simp⟩
  | cons x todo ih =>
    obtain ⟨t, g⟩ := x
    intro done buf buf' gs gs' hs hd h
    simp only [writeGroups, List.foldlM_cons, bind, Option.bind_eq_some_iff, Option.map_eq_some_iff] at h
    obtain ⟨p, ⟨sc, hsc, rfl⟩, h2⟩ := h
    have hname := hn t sc hsc
    have hlast : BMap.insert BMap.bytesLt sc.name
        (⟨sc, buf.length, (cChunkGroup.enc g).length, mergeRanges (g.map (·.range)), 0⟩ : GroupSpec) gs =
        gs ++ [(sc.name, ⟨sc, buf.length, (cChunkGroup.enc g).length, mergeRanges (g.map (·.range)), 0⟩)] := by
      refine BMap.insert_last BMap.bytesLt_strict fun e he => ?_
      obtain ⟨y, hy, hye⟩ : ∃ y ∈ done, GroupFor schemas buf y e := by
        clear h2 ih hs
        induction hd with
        | nil => cases he
        | cons h1 _ ih =>
          rcases List.mem_cons.1 he with rfl | he
          · exact ⟨_, by simp, h1⟩
          · obtain ⟨y, hy, h⟩ := ih he
            exact ⟨y, by simp [hy], h⟩
      rw [hye.key, hname]
      exact (List.pairwise_append.1 hs).2.2 y hy (t, g) (by simp)
    have := ih (done := done ++ [(t, g)]) (buf := buf ++ cChunkGroup.enc g) (by simpa using hs) ?_ h2
    · obtain ⟨h3, d, h4⟩ := this
      exact ⟨by simpa using h3, cChunkGroup.enc g ++ d, by rw [h4, List.append_assoc]⟩
    · rw [hlast]
      refine List.rel_append (hd.imp fun a b hab => hab.append _) (.cons ?_ .nil)
      exact ⟨hname, hname, hsc, rfl, rfl, cut_end _ _⟩

/-! ## `finish` -/

/-- The constants fit together. -/
def Params.Ok (P : Params) : Prop := 32 < P.bits ∧ ∃ b, Bloom.new P.bits = some b ∧ P.footerSize = b.b.length + 68

/-- What `finish` has written. -/
structure FinishOK (P : Params) (w w' : Writer) (buf tail : Bytes) : Prop where
  file : w'.file = w.file ++ tail ++ cFooter.enc w'.footer
  tail : encodeMeta P w.encoding buf = some tail
  loop : ∃ l : ChunkLoop, LoopOK P w.bloom w.minTs w.maxTs w.chunks l ∧ w'.chunkSpecs = l.chunkSpecs ∧ w'.bloom = l.bloom ∧
    w'.minTs = l.minTs ∧ w'.maxTs = l.maxTs ∧ ∃ d, buf = l.buffer ++ d
  groups : List.Forall₂ (GroupFor w.schemas buf) w'.chunkSpecs w'.groupSpecs
  table : cut buf w'.footer.tableOffset w'.footer.tableSize = some (cGroupMeta.enc w'.groupSpecs)
  size : w'.footer.tableOffset + w'.footer.tableSize = buf.length
  chunkOffset : w'.footer.chunkOffset = w.file.length
  chunkSize : w'.footer.chunkSize ≤ buf.length
  version : w'.footer.version = w.footer.version
  range : w'.footer.range = mergeRanges (w'.groupSpecs.map (·.2.range))
  bloom : Bloom.withData w'.bloom.b = some w'.footer.bloom

theorem finish_ok {P : Params} {ws : List Written} {w w' : Writer} (h : Inv ws w) (h' : w.finish P = some w') :
    ∃ buf tail, FinishOK P w w' buf tail := by
  have hn : ∀ t s, BMap.get w.schemas t = some s → s.name = t := by
    intro t s hs
    have := h.schemas t
    rw [hs] at this
    obtain ⟨⟨_, _, _, hn⟩, _⟩ := this
    exact hn
  simp only [Writer.finish, Option.bind_eq_some_iff, Option.map_eq_some_iff] at h'
  obtain ⟨l, hl, b, hb, ⟨buf, gs⟩, hg, tail, ht, rfl⟩ := h'
  rw [h.freshChunks] at hl
  rw [h.freshGroups] at hg
  have h0 : LoopOK P w.bloom w.minTs w.maxTs [] ⟨[], w.minTs, w.maxTs, [], w.bloom⟩ :=
    ⟨List.Pairwise.nil, (fun _ _ hs => nomatch hs), (fun _ => .nil), rfl, rfl, rfl⟩
  obtain ⟨h1, h2⟩ := chunkLoop_ok _ h0 hl
  rw [List.nil_append] at h1
  obtain ⟨h3, d, h4⟩ := writeGroups_ok hn l.chunkSpecs (done := []) (by simpa using h1.sorted) .nil hg
  rw [List.nil_append] at h3
  refine ⟨buf ++ cGroupMeta.enc gs, tail, ⟨rfl, ht, ⟨l, h1, rfl, rfl, rfl, rfl, d ++ cGroupMeta.enc gs, by rw [h4, List.append_assoc]⟩,
    h3.imp fun a b hab => hab.append _, cut_end _ _, by simp, rfl, ?_, rfl, rfl, hb⟩⟩
  simp only [List.length_append, h4]
  omega

end Verif.Tsm
