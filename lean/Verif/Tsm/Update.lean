import Verif.Tsm.Accept
/-!
# C88: changing tag values in a data file
-/
namespace Verif.Tsm
open Verif.Time Verif.Wal Verif.Version
open Verif.Utils (Bloom)
open Verif.Page (Encoding)

/-! ## The specification -/

/-- A write under its new series key. -/
def retag (keys : List (Nat × SeriesKey)) (x : Written) : Written :=
  match BMap.get keys x.series with
  | some k => { x with key := k }
  | none => x

/-- A file that holds the writes `ws`. -/
structure Holds (P : Params) (ws : List Written) (file : Bytes) : Prop where
  made : ∃ w w' : Writer, Inv ws w ∧ Bloom.new P.bits = some w.bloom ∧ (w.footer.version = if w.encoding = .null then .v1 else .v2) ∧
    w.minTs = i64Max ∧ w.maxTs = i64Min ∧ w.finish P = some w' ∧ w'.file = file ∧ w'.footer.tableOffset + w'.footer.tableSize < 2 ^ 64
  size : file.length < 2 ^ 64
  fits : ∀ x ∈ ws, x.Fits
  one : OneTable ws
  pages : PagesOK ws

theorem holds_written {P : Params} {pre : Bytes} {e : Encoding} {ops : List Op} {ws : List Written} (ho : OpsOK ops ws)
    {w : Writer} (h : writeFile P pre e ops = some w) (hfile : w.file.length < 2 ^ 64)
    (hmeta : w.footer.tableOffset + w.footer.tableSize < 2 ^ 64) : Holds P ws w.file := by
  simp only [writeFile, Option.bind_eq_some_iff] at h
  obtain ⟨w0, h0, w1, h1, h2⟩ := h
  obtain ⟨i0, b0, hb0, he0, hv0, hmin, hmax, _⟩ := new_inv h0
  obtain ⟨xs, hxs, i1, _, s1, _⟩ := applyAll_inv ops i0 b0 ho.long h1
  rw [ho.written] at hxs
  cases hxs
  rw [List.nil_append] at i1
  exact ⟨⟨w1, w, i1, by rw [hb0, s1.bloom], by rw [s1.footer, s1.encoding, hv0, he0], by rw [s1.minTs, hmin], by rw [s1.maxTs, hmax], h2, rfl,
    hmeta⟩, hfile, ho.fits, ho.one, ho.pages⟩

theorem holds_open {P : Params} (hP : P.Ok) {ws : List Written} {file : Bytes} (h : Holds P ws file) :
    ∃ r, openFile P file = some r ∧ Shows P ws r := by
  obtain ⟨w, w', i, hb, hv, _, _, hf, rfl, hm⟩ := h.made
  obtain ⟨r, hr, R⟩ := open_ok hP i hb hv h.fits h.one hf h.size hm
  exact ⟨r, hr, shows_ok hP i hb h.fits h.one h.pages hf R⟩

/-! ## The new metadata -/

theorem updateKeys_spec (keys : List (Nat × SeriesKey)) : ∀ chunks : List (Nat × Chunk), (keys.map Prod.fst).Nodup →
    BMap.Sorted BMap.natLt chunks → BMap.Sorted BMap.natLt (updateKeys keys chunks) ∧
    ∀ s, BMap.get (updateKeys keys chunks) s = (BMap.get chunks s).map fun c =>
      match BMap.get keys s with
      | some k => { c with key := k }
      | none => c := by
  induction keys with
  | nil =>
    intro chunks _ h
    refine ⟨h, fun s => ?_⟩
    show BMap.get chunks s = (BMap.get chunks s).map fun c => c
    simp
  | cons e keys ih =>
    obtain ⟨k, v⟩ := e
    intro chunks hn h
    simp only [List.map_cons, List.nodup_cons] at hn
    have hk : BMap.get keys k = none := by
      rw [BMap.get_eq_none]
      intro v' hv'
      exact hn.1 (List.mem_map.2 ⟨_, hv', rfl⟩)
    have hstep : updateKeys ((k, v) :: keys) chunks = updateKeys keys (match BMap.get chunks k with
        | some c => BMap.insert BMap.natLt k { c with key := v } chunks
        | none => chunks) := rfl
    rw [hstep]
    cases hg : BMap.get chunks k with
    | none =>
      simp only
      obtain ⟨h1, h2⟩ := ih chunks hn.2 h
      refine ⟨h1, fun s => ?_⟩
      rw [h2 s]
      by_cases hs : s = k
      · subst hs; rw [hg]; rfl
      · have : BMap.get ((k, v) :: keys) s = BMap.get keys s := by
          have : k ≠ s := fun h => hs h.symm
          simp [BMap.get, this]
        rw [this]
    | some c =>
      simp only
      obtain ⟨h1, h2⟩ := ih (BMap.insert BMap.natLt k { c with key := v } chunks) hn.2 (BMap.insert_sorted BMap.natLt_strict h)
      refine ⟨h1, fun s => ?_⟩
      rw [h2 s, BMap.get_insert BMap.natLt_strict]
      by_cases hs : s = k
      · subst hs
        rw [hg, if_pos rfl, hk]
        simp [BMap.get]
      · have : BMap.get ((k, v) :: keys) s = BMap.get keys s := by
          have : k ≠ s := fun h => hs h.symm
          simp [BMap.get, this]
        rw [this, if_neg hs]

theorem setChunks_look (cs : List (Nat × Chunk)) : ∀ w : Writer, BMap.Sorted BMap.bytesLt w.specs →
    (∀ t m, (t, m) ∈ w.specs → BMap.Sorted BMap.natLt m) → (cs.map Prod.fst).Nodup → (∀ e ∈ cs, e.2.series = e.1) →
    let w' := cs.foldl (fun w (e : Nat × Chunk) => w.setChunk e.2.table e.2.series e.2) w
    BMap.Sorted BMap.bytesLt w'.specs ∧ (∀ t m, (t, m) ∈ w'.specs → BMap.Sorted BMap.natLt m) ∧
    w' = { w with specs := w'.specs } ∧
    ∀ t s, look w'.specs t s = match BMap.get cs s with
      | some c => if c.table = t then some c else look w.specs t s
      | none => look w.specs t s := by
  induction cs with
  | nil => intro w h1 h2 _ _; exact ⟨h1, h2, rfl, fun _ _ => rfl⟩
  | cons e cs ih =>
    obtain ⟨k, c⟩ := e
    intro w h1 h2 hn hser
    simp only [List.map_cons, List.nodup_cons] at hn
    have hk : c.series = k := hser (k, c) (by simp)
    have hs1 : BMap.Sorted BMap.bytesLt (w.setChunk c.table c.series c).specs := BMap.insert_sorted BMap.bytesLt_strict h1
    have hs2 : ∀ t m, (t, m) ∈ (w.setChunk c.table c.series c).specs → BMap.Sorted BMap.natLt m := by
      intro t m hm
      rcases BMap.mem_insert hm with hm | hm
      · cases hm
        refine BMap.insert_sorted BMap.natLt_strict ?_
        cases hg : BMap.get w.specs c.table with
        | none => exact List.Pairwise.nil
        | some m => exact h2 _ m (BMap.get_mem hg)
      · exact h2 t m hm
    obtain ⟨a, b, d, l⟩ := ih (w.setChunk c.table c.series c) hs1 hs2 hn.2 (fun e he => hser e (by simp [he]))
    simp only [List.foldl_cons] at a b d l ⊢
    refine ⟨a, b, ?_, ?_⟩
    · rw [d]
      rfl
    · intro t s
      rw [l t s]
      have hlk : look (w.setChunk c.table c.series c).specs t s = if t = c.table ∧ s = c.series then some c else look w.specs t s :=
        look_insert w.specs c.table c.series c t s
      by_cases hs : s = k
      · subst hs
        have hnone : BMap.get cs s = none := by
          rw [BMap.get_eq_none]
          intro v' hv'
          exact hn.1 (List.mem_map.2 ⟨_, hv', rfl⟩)
        rw [hnone, hlk]
        simp only [BMap.get, if_true, hk, and_true]
        by_cases ht : c.table = t
        · simp [ht]
        · have : t ≠ c.table := fun h => ht h.symm
          simp [ht, this]
      · have hcons : BMap.get ((k, c) :: cs) s = BMap.get cs s := by
          have : k ≠ s := fun h => hs h.symm
          simp [BMap.get, this]
        rw [hcons, hlk]
        have : ¬ (t = c.table ∧ s = c.series) := by rw [hk]; exact fun h => hs h.2
        rw [if_neg this]

theorem insertSchemas_get (m : List (Bytes × GroupSpec)) : ∀ w : Writer, (m.map Prod.fst).Nodup → (∀ e ∈ m, e.2.schema.name = e.1) →
    (∀ e ∈ m, BMap.get w.schemas e.1 = none) →
    let w' := m.foldl (fun w (e : Bytes × GroupSpec) => w.insertSchema e.2.schema) w
    w' = { w with schemas := w'.schemas } ∧
    ∀ t, BMap.get w'.schemas t = match BMap.get m t with
      | some g => some g.schema
      | none => BMap.get w.schemas t := by
  induction m with
  | nil => intro w _ _ _; exact ⟨rfl, fun _ => rfl⟩
  | cons e m ih =>
    obtain ⟨k, g⟩ := e
    intro w hn hname hfree
    simp only [List.map_cons, List.nodup_cons] at hn
    have hg : g.schema.name = k := hname (k, g) (by simp)
    have hstep : w.insertSchema g.schema = { w with schemas := BMap.insert BMap.bytesLt k g.schema w.schemas } := by
      unfold Writer.insertSchema
      rw [hg, hfree (k, g) (by simp)]
    obtain ⟨a, b⟩ := ih { w with schemas := BMap.insert BMap.bytesLt k g.schema w.schemas } hn.2 (fun e he => hname e (by simp [he])) (by
      intro e he
      simp only
      rw [BMap.get_insert BMap.bytesLt_strict, if_neg]
      · exact hfree e (by simp [he])
      · intro h
        exact hn.1 (List.mem_map.2 ⟨e, he, h⟩))
    simp only [List.foldl_cons, hstep] at a b ⊢
    refine ⟨?_, ?_⟩
    · rw [a]
    · intro t
      rw [b t]
      by_cases ht : t = k
      · subst ht
        have hnone : BMap.get m t = none := by
          rw [BMap.get_eq_none]
          intro v' hv'
          exact hn.1 (List.mem_map.2 ⟨_, hv', rfl⟩)
        rw [hnone]
        simp only [BMap.get, if_true]
        rw [BMap.get_insert BMap.bytesLt_strict, if_pos rfl]
      · have hcons : BMap.get ((k, g) :: m) t = BMap.get m t := by
          have : k ≠ t := fun h => ht h.symm
          simp [BMap.get, this]
        rw [hcons]
        cases BMap.get m t with
        | some g => rfl
        | none =>
          simp only
          rw [BMap.get_insert BMap.bytesLt_strict, if_neg ht]

theorem retag_schema (keys : List (Nat × SeriesKey)) (x : Written) : (retag keys x).schema = x.schema := by
  unfold retag; split <;> rfl
theorem retag_series (keys : List (Nat × SeriesKey)) (x : Written) : (retag keys x).series = x.series := by
  unfold retag; split <;> rfl
theorem retag_pages (keys : List (Nat × SeriesKey)) (x : Written) : (retag keys x).pages = x.pages := by
  unfold retag; split <;> rfl
theorem retag_range (keys : List (Nat × SeriesKey)) (x : Written) : (retag keys x).range = x.range := by
  unfold retag; split <;> rfl

theorem ofSeries_retag (keys : List (Nat × SeriesKey)) (t : Bytes) (s : Nat) (ws : List Written) :
    ofSeries t s (ws.map (retag keys)) = (ofSeries t s ws).map (retag keys) := by
  unfold ofSeries
  rw [List.filter_map]
  congr 1
  refine List.filter_congr fun x _ => ?_
  simp [Function.comp, retag_schema, retag_series]

theorem GroupOK.retag {file : Bytes} {x : Written} {g : ColGroup} (h : GroupOK file x g) (keys : List (Nat × SeriesKey)) :
    GroupOK file (retag keys x) g := by
  obtain ⟨a, b, c⟩ := h
  exact ⟨by rw [retag_pages]; exact a, by rw [retag_pages]; exact b, by rw [retag_range]; exact c⟩

theorem ChunkOK.retag {file : Bytes} {t : Bytes} {s : Nat} {ws : List Written} {c : Chunk} (h : ChunkOK file t s ws c)
    (keys : List (Nat × SeriesKey)) (hs : ∀ x ∈ ws, x.series = s) :
    ChunkOK file t s (ws.map (retag keys)) (match BMap.get keys s with
      | some k => { c with key := k }
      | none => c) := by
  have hr : mergeRanges ((ws.map (Tsm.retag keys)).map fun w => noRange.merge w.range) = mergeRanges (ws.map fun w => noRange.merge w.range) := by
    rw [List.map_map]
    congr 1
    exact List.map_congr_left fun x _ => by simp [Function.comp, retag_range]
  have hgr : ∀ (i : Nat) (w : Written), (ws.map (Tsm.retag keys))[i]? = some w → ∃ g, c.groups[i]? = some (i, g) ∧ g.id = i ∧ GroupOK file w g := by
    intro i w hw
    rw [List.getElem?_map, Option.map_eq_some_iff] at hw
    obtain ⟨x, hx, rfl⟩ := hw
    obtain ⟨g, h1, h2, h3⟩ := h.groups i x hx
    exact ⟨g, h1, h2, h3.retag keys⟩
  obtain ⟨x, hx, hk⟩ := h.key
  have hxs := hs x (List.mem_of_mem_head? hx)
  have hhead : (ws.map (Tsm.retag keys)).head? = some (Tsm.retag keys x) := by rw [List.head?_map, hx]; rfl
  cases hg : BMap.get keys s with
  | some k =>
    exact ⟨h.table, h.series, ⟨_, hhead, by simp [Tsm.retag, hxs, hg]⟩, by simpa using h.next, by rw [hr]; exact h.range,
      by simpa using h.count, hgr⟩
  | none =>
    exact ⟨h.table, h.series, ⟨_, hhead, by simp [Tsm.retag, hxs, hg, hk]⟩, by simpa using h.next, by rw [hr]; exact h.range,
      by simpa using h.count, hgr⟩

/-- The new keys can be stored. -/
structure KeysOK (keys : List (Nat × SeriesKey)) : Prop where
  distinct : (keys.map Prod.fst).Nodup
  sized : ∀ e ∈ keys, e.2.Sized

theorem retag_fits {keys : List (Nat × SeriesKey)} (hk : KeysOK keys) {x : Written} (h : x.Fits) : (retag keys x).Fits := by
  refine ⟨by rw [retag_schema]; exact h.schema, by rw [retag_series]; exact h.series, ?_, by rw [retag_pages]; exact h.pages,
    by rw [retag_range]; exact h.range⟩
  unfold retag
  cases hg : BMap.get keys x.series with
  | none => exact h.key
  | some k => exact (hk.sized _ (BMap.get_mem hg)).fits

/-- The writer on the file that was cut off knows the writes under their new keys. -/
theorem rewriter_inv {P : Params} {ws : List Written} {w w' : Writer} (i : Inv ws w) (hf : w.finish P = some w') (hone : OneTable ws) {r : Reader}
    (R : ReaderOK w w' r) (S : Shows P ws r) {keys : List (Nat × SeriesKey)} (hk : (keys.map Prod.fst).Nodup) {e : Encoding} {w2 : Writer}
    (h2 : rewriter P r (updateKeys keys r.chunks) e = some w2) :
    Inv (ws.map (retag keys)) w2 ∧ Bloom.new P.bits = some w2.bloom ∧ w2.footer.version = .v1 ∧ w2.encoding = e ∧ w2.minTs = i64Max ∧
      w2.maxTs = i64Min ∧ w2.file = w.file := by
  obtain ⟨buf, tail, F⟩ := finish_ok i hf
  obtain ⟨l, hl, hcs, _⟩ := F.loop
  simp only [rewriter, Option.bind_eq_some_iff, Option.map_eq_some_iff] at h2
  obtain ⟨b, hb, f, hff, h2⟩ := h2
  have hfv : f.version = .v1 := by
    simp only [Footer.empty, Option.map_eq_some_iff] at hff
    obtain ⟨_, _, rfl⟩ := hff
    rfl
  have hfile : r.file.take r.footer.chunkOffset = w.file := by
    rw [R.file, R.footer, F.chunkOffset, F.file, List.append_assoc, List.take_left]
  -- the schemas
  have hG := F.groups
  rw [hcs] at hG
  have hkeys : ∀ (a : List (Bytes × List ChunkSpec)) (b : List (Bytes × GroupSpec)), List.Forall₂ (GroupFor w.schemas buf) a b →
      b.map Prod.fst = a.map Prod.fst := by
    intro a b hab
    induction hab with
    | nil => rfl
    | cons h1 _ ih => simp [h1.key, ih]
  have hnd : (r.groupMeta.map Prod.fst).Nodup := by
    rw [R.groupMeta, hkeys _ _ hG]
    exact BMap.nodup_of_sorted BMap.bytesLt_strict hl.sorted
  have hname : ∀ e ∈ r.groupMeta, e.2.schema.name = e.1 := by
    intro e he
    rw [R.groupMeta] at he
    obtain ⟨x, _, hx⟩ := Forall₂.mem_right hG he
    rw [hx.name, hx.key]
  obtain ⟨hw1, hsch⟩ := insertSchemas_get r.groupMeta
    ⟨r.file.take r.footer.chunkOffset, i64Max, i64Min, 0, b, [], [], [], [], f, .initialised, e⟩ hnd hname (fun _ _ => rfl)
  -- the chunks
  obtain ⟨hus, hug⟩ := updateKeys_spec keys r.chunks hk R.sorted
  have hch := R.chunkOf i hone
  have hchunk : ∀ s c, BMap.get r.chunks s = some c → c.series = s := by
    intro s c hc
    have := hch s
    rw [hc] at this
    obtain ⟨t, h, _⟩ := this
    exact h.series
  have hser : ∀ e ∈ updateKeys keys r.chunks, e.2.series = e.1 := by
    intro e he
    have h1 := BMap.get_of_mem BMap.natLt_strict hus (k := e.1) (v := e.2) he
    rw [hug, Option.map_eq_some_iff] at h1
    obtain ⟨c, hc, hce⟩ := h1
    have := hchunk _ _ hc
    rw [← hce]
    cases BMap.get keys e.1 <;> exact this
  generalize hgen : List.foldl (fun w (e : Bytes × GroupSpec) => w.insertSchema e.2.schema)
    (⟨r.file.take r.footer.chunkOffset, i64Max, i64Min, 0, b, [], [], [], [], f, .initialised, e⟩ : Writer) r.groupMeta = w1 at hw1 hsch
  have h2' : List.foldl (fun w (e : Nat × Chunk) => w.setChunk e.2.table e.2.series e.2) w1 (updateKeys keys r.chunks) = w2 := by
    rw [← hgen]
    exact h2
  simp only at hw1 hsch
  have hsp1 : w1.specs = [] := by rw [hw1]
  obtain ⟨o1, o2, o3, o4⟩ := setChunks_look (updateKeys keys r.chunks) w1 (by rw [hsp1]; exact List.Pairwise.nil)
    (by rw [hsp1]; intro t m h; cases h) (BMap.nodup_of_sorted BMap.natLt_strict hus) hser
  rw [h2'] at o1 o2 o3 o4
  have hfile2 : w2.file = w.file := by rw [o3, hw1]; exact hfile
  refine ⟨⟨o1, o2, ?_, ?_, by rw [o3, hw1], by rw [o3, hw1]⟩, by rw [o3, hw1]; exact hb, by rw [o3, hw1]; exact hfv, by rw [o3, hw1],
    by rw [o3, hw1], by rw [o3, hw1], hfile2⟩
  · intro t s
    rw [o4 t s, hsp1, hfile2, ofSeries_retag, hug s]
    have hc := hch s
    cases hg : BMap.get r.chunks s with
    | none =>
      rw [hg] at hc
      simp only at hc
      show (ofSeries t s ws).map (retag keys) = []
      have : ofSeries t s ws = [] := by
        unfold ofSeries
        unfold bySeries at hc
        rw [List.filter_eq_nil_iff] at hc ⊢
        intro x hx h
        simp only [decide_eq_true_eq] at h
        exact hc x hx (by simp [h.2])
      rw [this]
      rfl
    | some c =>
      rw [hg] at hc
      simp only at hc
      obtain ⟨t0, hok, hall⟩ := hc
      have htab : (match BMap.get keys s with | some k => { c with key := k } | none => c : Chunk).table = t0 := by
        cases BMap.get keys s <;> exact hok.table
      simp only [Option.map_some]
      by_cases ht : t0 = t
      · subst ht
        rw [if_pos htab]
        obtain ⟨y, hy, _⟩ := hok.key
        have hy' := List.mem_of_mem_head? hy
        have hb' := bySeries_eq hone (bySeries_mem hy').1 (bySeries_mem hy').2 (hall y hy')
        rw [← hb']
        exact hok.retag keys fun x hx => (bySeries_mem hx).2
      · rw [if_neg (by rw [htab]; exact ht)]
        show (ofSeries t s ws).map (retag keys) = []
        have : ofSeries t s ws = [] := by
          unfold ofSeries
          rw [List.filter_eq_nil_iff]
          intro x hx h
          simp only [decide_eq_true_eq] at h
          exact ht (by rw [← hall x (by simp [bySeries, hx, h.2]), h.1])
        rw [this]
        rfl
  · intro t
    have hs2 : w2.schemas = w1.schemas := by rw [o3]
    rw [hs2, hsch t]
    cases hg : BMap.get r.groupMeta t with
    | some g =>
      have h1 := S.schema t g.schema (by simp [Reader.tableSchema, hg])
      obtain ⟨⟨x, hx, hxs, hn⟩, hall⟩ := h1
      refine ⟨⟨retag keys x, List.mem_map.2 ⟨x, hx, rfl⟩, by rw [retag_schema]; exact hxs, hn⟩, ?_⟩
      intro y hy
      obtain ⟨z, hz, rfl⟩ := List.mem_map.1 hy
      rw [retag_schema]
      exact hall z hz
    | none =>
      show ∀ y ∈ ws.map (retag keys), y.schema.name ≠ t
      intro y hy
      obtain ⟨z, hz, rfl⟩ := List.mem_map.1 hy
      rw [retag_schema]
      rintro rfl
      obtain ⟨s, hs⟩ := S.hasSchema z hz
      simp [Reader.tableSchema, hg] at hs

/-- What an update of a file does. -/
theorem update_inv {P : Params} (hP : P.Ok) {ws : List Written} {file : Bytes} (h : Holds P ws file) {keys : List (Nat × SeriesKey)}
    (hk : (keys.map Prod.fst).Nodup) {e : Encoding} {f : Bytes} (hu : updateTags P file keys e = some f) :
    ∃ w2 w3 : Writer, Inv (ws.map (retag keys)) w2 ∧ Bloom.new P.bits = some w2.bloom ∧ w2.footer.version = .v1 ∧ w2.encoding = e ∧
      w2.minTs = i64Max ∧ w2.maxTs = i64Min ∧ w2.finish P = some w3 ∧ w3.file = f := by
  obtain ⟨w, w', i, hb, hv, _, _, hf, rfl, hm⟩ := h.made
  obtain ⟨r, hr, R⟩ := open_ok hP i hb hv h.fits h.one hf h.size hm
  have S := shows_ok hP i hb h.fits h.one h.pages hf R
  simp only [updateTags, hr, Option.bind_some, Option.bind_eq_some_iff, Option.map_eq_some_iff] at hu
  obtain ⟨w2, h2, w3, h3, rfl⟩ := hu
  obtain ⟨a1, a2, a3, a4, a5, a6, _⟩ := rewriter_inv i hf h.one R S hk h2
  exact ⟨w2, w3, a1, a2, a3, a4, a5, a6, h3, rfl⟩

theorem OneTable.retag {ws : List Written} (h : OneTable ws) (keys : List (Nat × SeriesKey)) : OneTable (ws.map (retag keys)) := by
  intro x hx y hy
  obtain ⟨a, ha, rfl⟩ := List.mem_map.1 hx
  obtain ⟨b, hb, rfl⟩ := List.mem_map.1 hy
  rw [retag_schema, retag_schema, retag_series, retag_series]
  exact h a ha b hb

/-- After an update without compression the file holds the writes under their new keys. -/
theorem holds_update {P : Params} (hP : P.Ok) {ws : List Written} {file : Bytes} (h : Holds P ws file) {keys : List (Nat × SeriesKey)}
    (hk : KeysOK keys) {f : Bytes} (hu : updateTags P file keys .null = some f) (hsize : f.length < 2 ^ 64) :
    Holds P (ws.map (retag keys)) f := by
  obtain ⟨w2, w3, a1, a2, a3, a4, a5, a6, a7, a8⟩ := update_inv hP h hk.distinct hu
  obtain ⟨buf, tail, F⟩ := finish_ok a1 a7
  refine ⟨⟨w2, w3, a1, a2, by rw [a3, a4]; rfl, a5, a6, a7, a8, ?_⟩, hsize, ?_, h.one.retag keys, ?_⟩
  · have ht := F.tail
    rw [a4] at ht
    simp only [encodeMeta, if_true, Option.some.injEq] at ht
    rw [F.size, ht]
    have : tail.length ≤ w3.file.length := by
      rw [F.file]
      simp only [List.length_append]
      omega
    rw [a8] at this
    omega
  · intro x hx
    obtain ⟨y, hy, rfl⟩ := List.mem_map.1 hx
    exact retag_fits hk (h.fits y hy)
  · intro x hx
    obtain ⟨y, hy, rfl⟩ := List.mem_map.1 hx
    rw [retag_pages]
    exact h.pages y hy

/-- An update is accepted. -/
theorem update_some {P : Params} (hP : P.Ok) {ws : List Written} {file : Bytes} (h : Holds P ws file) {keys : List (Nat × SeriesKey)}
    (hk : (keys.map Prod.fst).Nodup) {e : Encoding} (he : unlimited e = true) : ∃ f, updateTags P file keys e = some f := by
  obtain ⟨w, w', i, hb, hv, _, _, hf, rfl, hm⟩ := h.made
  obtain ⟨r, hr, R⟩ := open_ok hP i hb hv h.fits h.one hf h.size hm
  have S := shows_ok hP i hb h.fits h.one h.pages hf R
  have h512 : ∃ f, Footer.empty .v1 = some f := by
    refine ⟨⟨.v1, ⟨0, 0⟩, 0, 0, ⟨List.replicate (512 / 8) 0#8, 512 - 1⟩, 0, 0⟩, ?_⟩
    unfold Footer.empty Bloom.new
    have : Utils.pow2 512 = some 512 := by decide
    rw [this]
    rfl
  obtain ⟨f, hf0⟩ := h512
  have h2 : ∃ w2, rewriter P r (updateKeys keys r.chunks) e = some w2 := by
    unfold rewriter
    rw [hb, hf0]
    exact ⟨_, rfl⟩
  obtain ⟨w2, h2⟩ := h2
  obtain ⟨a1, a2, a3, a4, _⟩ := rewriter_inv i hf h.one R S hk h2
  obtain ⟨w3, h3⟩ := finish_some hP a1 a2 (by rw [a4]; exact he)
  exact ⟨w3.file, by simp [updateTags, hr, h2, h3]⟩

/-! ## C88 -/

/-- C88 (partial: metadata without compression, the default): after any number of updates of tag values, on a file that was written
with any compression, the file can be opened and shows the same pages under the newest keys; updates are not refused. Missing: with
compression the statement is false (`C88_compressed_unreadable`, `C88_update_compressed_refuted`). -/
theorem C88_update_tags_partial {P : Params} (hP : P.Ok) {pre : Bytes} {e : Encoding} {ops : List Op} {ws : List Written} (ho : OpsOK ops ws)
    {w : Writer} (h : writeFile P pre e ops = some w) (hfile : w.file.length < 2 ^ 64)
    (hmeta : w.footer.tableOffset + w.footer.tableSize < 2 ^ 64) {updates : List (List (Nat × SeriesKey))} (hk : ∀ keys ∈ updates, KeysOK keys)
    {files : List Bytes} (hlen : files.length = updates.length) (hsize : ∀ f ∈ files, f.length < 2 ^ 64)
    (hu : ∀ (i : Nat) keys f, updates[i]? = some keys → files[i]? = some f →
      updateTags P (((w.file :: files)[i]?).getD []) keys .null = some f) :
    ∃ r, openFile P ((w.file :: files).getLast (by simp)) = some r ∧ Shows P (ws.map fun x => updates.foldl (fun x keys => retag keys x) x) r ∧
      ∀ keys, KeysOK keys → ∃ f, updateTags P ((w.file :: files).getLast (by simp)) keys .null = some f := by
  have key : ∀ (updates : List (List (Nat × SeriesKey))) (files : List Bytes) (f0 : Bytes) (ws : List Written), Holds P ws f0 →
      (∀ keys ∈ updates, KeysOK keys) → files.length = updates.length → (∀ f ∈ files, f.length < 2 ^ 64) →
      (∀ (i : Nat) keys f, updates[i]? = some keys → files[i]? = some f → updateTags P (((f0 :: files)[i]?).getD []) keys .null = some f) →
      Holds P (ws.map fun x => updates.foldl (fun x keys => retag keys x) x) ((f0 :: files).getLast (by simp)) := by
    intro updates
    induction updates with
    | nil =>
      intro files f0 ws hh _ hlen _ _
      have : files = [] := List.eq_nil_of_length_eq_zero hlen
      subst this
      simpa using hh
    | cons k updates ih =>
      intro files f0 ws hh hk hlen hsize hu
      cases files with
      | nil => cases hlen
      | cons f files =>
        have h1 := holds_update hP hh (hk k (by simp)) (hu 0 k f rfl rfl) (hsize f (by simp))
        have := ih files f _ h1 (fun keys hkeys => hk keys (by simp [hkeys])) (by simpa using hlen) (fun g hg => hsize g (by simp [hg]))
          (fun i keys g hi hg => hu (i + 1) keys g hi hg)
        rw [List.map_map] at this
        rw [List.getLast_cons (by simp)]
        exact this
  have hh := key updates files w.file ws (holds_written ho h hfile hmeta) hk hlen hsize hu
  obtain ⟨r, hr, S⟩ := holds_open hP hh
  exact ⟨r, hr, S, fun keys hkeys => update_some hP hh hkeys.distinct rfl⟩

/-- With compression an update makes the file unreadable, whenever the compression made the metadata `buf` smaller: the footer says that
the metadata is not compressed. -/
theorem C88_compressed_unreadable {P : Params} (hP : P.Ok) {ws : List Written} {file : Bytes} (h : Holds P ws file) {keys : List (Nat × SeriesKey)}
    (hk : KeysOK keys) {e : Encoding} {f : Bytes} (hu : updateTags P file keys e = some f) (hsize : f.length < 2 ^ 64) :
    ∃ data buf tail foot, encodeMeta P e buf = some tail ∧ f = data ++ tail ++ foot ∧ foot.length = P.footerSize ∧
      (buf.length < 2 ^ 64 → tail.length < buf.length → openFile P f = none) := by
  obtain ⟨w2, w3, a1, a2, a3, a4, a5, a6, a7, rfl⟩ := update_inv hP h hk.distinct hu
  have hfit : ∀ x ∈ ws.map (retag keys), x.Fits := by
    intro x hx
    obtain ⟨y, hy, rfl⟩ := List.mem_map.1 hx
    exact retag_fits hk (h.fits y hy)
  obtain ⟨buf, tail, F⟩ := finish_ok a1 a7
  obtain ⟨l, hl, hcs, hbl, _⟩ := F.loop
  obtain ⟨hlen, hwd, _⟩ := bloom_length hP a2 _ hl.bloom
  have hfb : w3.footer.bloom = l.bloom := by
    have := F.bloom
    rw [hbl, hwd] at this
    exact (Option.some.inj this).symm
  have hflen : (cFooter.enc w3.footer).length = P.footerSize := by rw [cFooter_length, hfb, hlen]
  refine ⟨w2.file, buf, tail, cFooter.enc w3.footer, by rw [← a4]; exact F.tail, F.file, hflen, fun hb hlt => ?_⟩
  obtain ⟨buf', tail', F', h1, h2, _⟩ := open_parts hP a1 a2 hfit (h.one.retag keys) a7 hsize (by rw [F.size]; exact hb)
  have ht : tail' = tail := by
    have := F'.file
    rw [F.file] at this
    exact (List.append_cancel_left (List.append_cancel_right this)).symm
  subst ht
  have hv : w3.footer.version = .v1 := by rw [F.version, a3]
  have h3 : decodeMeta P w3.footer tail' = some tail' := by unfold decodeMeta; rw [hv]
  have h4 : readGroupMeta tail' w3.footer = none := by
    unfold readGroupMeta cut
    rw [if_neg (by rw [F.size]; omega)]
    rfl
  unfold openFile
  rw [h1, Option.bind_some, h2, Option.bind_some, h3, Option.bind_some, h4]
  rfl

/-- An update cuts the metadata off first (writer.rs:466-469): a file with few pages cannot be opened if the update is interrupted there. -/
theorem C88_interrupted_unreadable {P : Params} {file : Bytes} {foot : Footer} (h : foot.chunkOffset < P.footerSize) :
    openFile P (file.take foot.chunkOffset) = none := by
  unfold openFile readFooter
  rw [if_pos (by simp; omega)]
  rfl

end Verif.Tsm
