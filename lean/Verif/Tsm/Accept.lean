import Verif.Tsm.Props
/-!
# C86: which writes are accepted
-/
namespace Verif.Tsm
open Verif.Time Verif.Wal Verif.Version
open Verif.Utils (Bloom)
open Verif.Page (Encoding)

/-- The writes of each series come in the order of time. -/
def InOrder (ws : List Written) : Prop :=
  ws.Pairwise fun x y => x.schema.name = y.schema.name → x.series = y.series → x.range.maxTs ≤ y.range.minTs

theorem push_some {file : Bytes} {t : Bytes} {s : Nat} {ws : List Written} {o : Option Chunk} (h : SlotOK file t s ws o) {x : Written}
    (hx : x.Fits) (hws : ∀ y ∈ ws, y.Fits ∧ y.range.maxTs ≤ x.range.minTs) {g : ColGroup} (hr : g.range = noRange.merge x.range)
    (hid : g.id = (o.getD (Chunk.new t s x.key)).nextId) :
    (Chunk.push { o.getD (Chunk.new t s x.key) with nextId := (o.getD (Chunk.new t s x.key)).nextId + 1 } g).isSome = true := by
  unfold Chunk.push
  simp only
  rw [hr, merge_none hx.range]
  have hxI := hx.range.1
  have h1 : ¬ ((o.getD (Chunk.new t s x.key)).range.maxTs > x.range.minTs) := by
    cases o with
    | none =>
      simp only [Option.getD_none, Chunk.new, noRange, i64Min]
      unfold IsI64 at hxI
      omega
    | some c =>
      have hok : ChunkOK file t s ws c := h
      simp only [Option.getD_some]
      have hEq : (ws.map fun w => noRange.merge w.range) = ws.map (·.range) :=
        List.map_congr_left fun y hy => merge_none (hws y hy).1.range
      have hrng := hok.range
      rw [hEq] at hrng
      have hH := Hull.of_merge (ws.map (·.range)) (by
        intro a ha
        obtain ⟨y, hy, rfl⟩ := List.mem_map.1 ha
        exact (hws y hy).1.range)
      rw [← hrng] at hH
      obtain ⟨y, hy, _⟩ := hok.key
      obtain ⟨_, z, hz, hz'⟩ := hH.tight (by
        intro hn
        rw [List.map_eq_nil_iff] at hn
        rw [hn] at hy
        cases hy)
      obtain ⟨v, hv, rfl⟩ := List.mem_map.1 hz
      have := (hws v hv).2
      omega
  have h2 : ¬ (BMap.get (o.getD (Chunk.new t s x.key)).groups g.id).isSome = true := by
    cases o with
    | none => simp [Chunk.new, BMap.get]
    | some c =>
      have hok : ChunkOK file t s ws c := h
      simp only [Option.getD_some] at hid ⊢
      have := hok.get g.id
      rw [List.getElem?_eq_none (by rw [hid, hok.next]; exact Nat.le_refl _)] at this
      simp only at this
      rw [this]
      simp
  rw [if_neg h1, if_neg h2]
  rfl

theorem addGroup_some {ws : List Written} {w : Writer} (h : Inv ws w) (x : Written) (f : Bytes) (g : ColGroup)
    (hid : g.id = (w.chunk x.schema.name x.series x.key).nextId) (hr : g.range = noRange) (hx : x.Fits)
    (hws : ∀ y ∈ ofSeries x.schema.name x.series ws, y.Fits ∧ y.range.maxTs ≤ x.range.minTs) :
    (Writer.addGroup { (w.nextGroup x.schema.name x.series x.key).1 with file := f } x.schema x.series x.key g x.range).isSome = true := by
  unfold Writer.addGroup
  simp only [Option.isSome_map]
  have hch : (Writer.insertSchema { (w.nextGroup x.schema.name x.series x.key).1 with file := f } x.schema).chunk
      x.schema.name x.series x.key =
      { w.chunk x.schema.name x.series x.key with nextId := (w.chunk x.schema.name x.series x.key).nextId + 1 } := by
    have := look_insert w.specs x.schema.name x.series
      { w.chunk x.schema.name x.series x.key with nextId := (w.chunk x.schema.name x.series x.key).nextId + 1 } x.schema.name x.series
    simp only [and_self, if_true] at this
    unfold Writer.chunk
    simp only [insertSchema_specs]
    unfold look at this
    simp only [Writer.nextGroup, Writer.setChunk]
    rw [this]
    rfl
  rw [hch]
  exact push_some (h.slots x.schema.name x.series) hx hws (by rw [hr]) hid

theorem apply_some {ws : List Written} {w : Writer} (h : Inv ws w) (hb : Begun w) (hst : w.state ≠ .finished) {op : Op} (hl : op.Long)
    {x : Written} (hw : op.written = some x) (hx : x.Fits)
    (hws : ∀ y ∈ ofSeries x.schema.name x.series ws, y.Fits ∧ y.range.maxTs ≤ x.range.minTs) :
    ∃ w', w.apply op = some w' ∧ w'.state ≠ .finished := by
  have hst' : w.begin.state ≠ .finished := by
    unfold Writer.begin
    split
    · simp
    · exact hst
  have hpages : ∀ (x : Written), x.Fits → (∀ y ∈ ofSeries x.schema.name x.series ws, y.Fits ∧ y.range.maxTs ≤ x.range.minTs) →
      ∃ w', w.writePages x.schema x.series x.key x.pages x.range = some w' ∧ w'.state ≠ .finished := by
    intro x hx hws
    have hpos := begin_pos hb
    have hf : (w.begin.nextGroup x.schema.name x.series x.key).1.file = w.begin.file := rfl
    have hg0 : (w.begin.nextGroup x.schema.name x.series x.key).2 = ColGroup.new (w.begin.chunk x.schema.name x.series x.key).nextId := rfl
    have hs := addGroup_some (begin_inv h) x (appendPages x.pages (w.begin.file, ColGroup.new (w.begin.chunk x.schema.name x.series x.key).nextId)).1
      (appendPages x.pages (w.begin.file, ColGroup.new (w.begin.chunk x.schema.name x.series x.key).nextId)).2
      (by rw [appendPages_eq _ _ _ hpos]; rfl) (by rw [appendPages_eq _ _ _ hpos]; rfl) hx hws
    obtain ⟨w', hw'⟩ := Option.isSome_iff_exists.1 hs
    exact ⟨w', hw', by rw [(addGroup_same hw').2]; exact hst'⟩
  cases op with
  | putPages schema series key pages range =>
    cases hw
    exact hpages ⟨schema, series, key, pages, range⟩ hx hws
  | putBatch schema series key pages =>
    simp only [Op.written, Option.map_eq_some_iff] at hw
    obtain ⟨r, hr, rfl⟩ := hw
    obtain ⟨w', h1, h2⟩ := hpages ⟨schema, series, key, pages, r⟩ hx hws
    refine ⟨w', ?_, h2⟩
    simp only [Writer.apply, Writer.writeRecordBatch, if_neg hst, batchRange_eq, hr, Option.bind_some]
    exact h1
  | putRaw schema c gid raw =>
    simp only [Op.written, Option.map_eq_some_iff] at hw
    obtain ⟨old, hold, rfl⟩ := hw
    have hl' := hl old hold
    have hpos := begin_pos hb
    have hs := addGroup_some (begin_inv h) ⟨schema, c.series, c.key, splitRaw old.pages raw, old.range⟩ (w.begin.file ++ raw)
      (rebase old.pages (w.begin.file.length, ColGroup.new (w.begin.chunk schema.name c.series c.key).nextId)).2
      (by rw [rebase_eq _ raw _ _ hpos hl']; rfl) (by rw [rebase_eq _ raw _ _ hpos hl']; rfl) hx hws
    obtain ⟨w', hw'⟩ := Option.isSome_iff_exists.1 hs
    refine ⟨w', ?_, by rw [(addGroup_same hw').2]; exact hst'⟩
    simp only [Writer.apply, Writer.writeRaw, hold, Option.bind_some]
    exact hw'

theorem applyAll_some (ops : List Op) : ∀ {ws : List Written} {w : Writer} {xs : List Written}, Inv ws w → Begun w → w.state ≠ .finished →
    (∀ op ∈ ops, op.Long) → ops.mapM Op.written = some xs → (∀ x ∈ ws ++ xs, x.Fits) → InOrder (ws ++ xs) →
    ∃ w', ops.foldlM Writer.apply w = some w' := by
  induction ops with
  | nil => intro ws w xs _ _ _ _ _ _ _; exact ⟨w, rfl⟩
  | cons op ops ih =>
    intro ws w xs h hb hst hl hxs hfit hord
    simp only [List.mapM_cons, bind, Option.bind_eq_some_iff, pure, Option.some.injEq] at hxs
    obtain ⟨x, hx, xs, hxs', rfl⟩ := hxs
    have hord' := List.pairwise_append.1 hord
    obtain ⟨w1, h1, hst1⟩ := apply_some h hb hst (hl op (by simp)) hx (hfit x (by simp)) (by
      intro y hy
      simp only [ofSeries, List.mem_filter, decide_eq_true_eq] at hy
      exact ⟨hfit y (by simp [hy.1]), hord'.2.2 y hy.1 x (by simp) hy.2.1 hy.2.2⟩)
    obtain ⟨x', hx', hi, hb1, _, _⟩ := apply_inv h hb (hl op (by simp)) h1
    rw [hx] at hx'
    cases hx'
    obtain ⟨w', hw'⟩ := ih hi hb1 hst1 (fun o ho => hl o (by simp [ho])) hxs' (by simpa using hfit) (by simpa using hord)
    exact ⟨w', by simp [List.foldlM_cons, h1, hw']⟩

theorem chunkLoop_some {P : Params} (todo : List (Bytes × Nat × Chunk)) : ∀ l : ChunkLoop, l.bloom.Wf → ∃ l', todo.foldlM (chunkStep P) l = some l' ∧
    l'.bloom.Wf ∧ l'.bloom.b.length = l.bloom.b.length := by
  induction todo with
  | nil => intro l h; exact ⟨l, rfl, h, rfl⟩
  | cons x todo ih =>
    intro l h
    obtain ⟨b, hb, hm, hlen, _, _⟩ := Bloom.insert_spec P.hashes l.bloom h (beEnc 4 x.2.1)
    have hwf : b.Wf := by
      obtain ⟨k, a, b', c, e⟩ := h
      exact ⟨k, a, b', by rw [hm]; exact c, by rw [hlen]; exact e⟩
    obtain ⟨t, s, c⟩ := x
    obtain ⟨l', h1, h2, h3⟩ := ih _ (show (ChunkLoop.bloom ⟨l.buffer ++ cChunk.enc c, min l.minTs c.range.minTs, max l.maxTs c.range.maxTs,
      BMap.insert BMap.bytesLt t ((BMap.get l.chunkSpecs t).getD [] ++ [⟨s, l.buffer.length, (cChunk.enc c).length, c.range⟩]) l.chunkSpecs,
      b⟩).Wf from hwf)
    refine ⟨l', ?_, h2, by rw [h3]; exact hlen⟩
    simp only [List.foldlM_cons, chunkStep, hb, Option.map_some, bind, Option.bind_some]
    exact h1

theorem writeGroups_some {schemas : List (Bytes × Schema)} (todo : List (Bytes × List ChunkSpec))
    (h : ∀ x ∈ todo, ∃ s, BMap.get schemas x.1 = some s) : ∀ st, ∃ st', writeGroups schemas todo st = some st' := by
  induction todo with
  | nil => intro st; exact ⟨st, rfl⟩
  | cons x todo ih =>
    intro st
    obtain ⟨s, hs⟩ := h x (by simp)
    obtain ⟨st', h'⟩ := ih (fun y hy => h y (by simp [hy]))
      (st.1 ++ cChunkGroup.enc x.2,
        BMap.insert BMap.bytesLt s.name ⟨s, st.1.length, (cChunkGroup.enc x.2).length, mergeRanges (x.2.map (·.range)), 0⟩ st.2)
    refine ⟨st', ?_⟩
    simp only [writeGroups, List.foldlM_cons, hs, Option.map_some, bind, Option.bind_some]
    exact h'

/-- Compressions without a limit on the size (snappy stops at 2^31 - 1 bytes). -/
def unlimited (e : Encoding) : Bool := e = .null ∨ e = .gzip ∨ e = .bzip ∨ e = .zstd ∨ e = .zlib

theorem finish_some {P : Params} (hP : P.Ok) {ws : List Written} {w : Writer} (h : Inv ws w) (hb : Bloom.new P.bits = some w.bloom)
    (he : unlimited w.encoding = true) : ∃ w', w.finish P = some w' := by
  obtain ⟨hwf, hm⟩ := Bloom.new_wf hb
  obtain ⟨l, hl, hlwf, hlen⟩ := chunkLoop_some w.chunks ⟨[], w.minTs, w.maxTs, [], w.bloom⟩ hwf
  have h0 : LoopOK P w.bloom w.minTs w.maxTs [] ⟨[], w.minTs, w.maxTs, [], w.bloom⟩ :=
    ⟨List.Pairwise.nil, (fun _ _ hs => nomatch hs), (fun _ => .nil), rfl, rfl, rfl⟩
  obtain ⟨h1, _⟩ := chunkLoop_ok _ h0 hl
  rw [List.nil_append] at h1
  obtain ⟨_, hwd, _⟩ := bloom_length hP hb _ h1.bloom
  obtain ⟨⟨buf, gs⟩, hg⟩ := writeGroups_some (schemas := w.schemas) l.chunkSpecs (by
    intro x hx
    have hne := h1.listed x.1 x.2 (BMap.get_of_mem BMap.bytesLt_strict h1.sorted hx)
    obtain ⟨y, hy⟩ := List.exists_mem_of_ne_nil _ hne
    simp only [ofTable, List.mem_map, List.mem_filter, decide_eq_true_eq, Prod.exists] at hy
    obtain ⟨t, s, c, ⟨hc, rfl⟩, rfl⟩ := hy
    have hsl := h.slots x.1 s
    rw [(mem_chunks h).1 hc] at hsl
    obtain ⟨z, hz, hzn, _⟩ := hsl.mem
    have hsc := h.schemas x.1
    cases hget : BMap.get w.schemas x.1 with
    | none => rw [hget] at hsc; exact absurd hzn (hsc z hz)
    | some s => exact ⟨s, rfl⟩) (l.buffer, w.groupSpecs)
  have henc : ∀ b, ∃ tail, encodeMeta P w.encoding b = some tail := by
    intro b
    unfold unlimited at he
    simp only [decide_eq_true_eq] at he
    unfold encodeMeta
    rcases he with he | he | he | he | he <;> simp [he, Page.strCodec]
  obtain ⟨tail, ht⟩ := henc (buf ++ cGroupMeta.enc gs)
  unfold Writer.finish
  rw [h.freshChunks]
  simp only [hl, Option.bind_some, hwd, hg, ht, Option.map_some]
  exact ⟨_, rfl⟩

/-- C86: a sequence of writes that is in the order of time in each series is accepted. -/
theorem C86_in_order_accepted {P : Params} (hP : P.Ok) {pre : Bytes} {e : Encoding} (he : unlimited e = true) {ops : List Op} {ws : List Written}
    (ho : OpsOK ops ws) (hord : InOrder ws) : ∃ w, writeFile P pre e ops = some w := by
  obtain ⟨h32, b, hb, hfs⟩ := hP
  have h512 : ∃ b', Bloom.new 512 = some b' := by
    refine ⟨⟨List.replicate (512 / 8) 0#8, 512 - 1⟩, ?_⟩
    unfold Bloom.new
    have : Utils.pow2 512 = some 512 := by decide
    rw [this]
    rfl
  obtain ⟨b', hb'⟩ := h512
  have h0 : ∃ w0, Writer.new P pre 0 e = some w0 ∧ w0.state = .initialised :=
    ⟨⟨pre, i64Max, i64Min, 0, b, [], [], [], [], ⟨if e = .null then .v1 else .v2, ⟨0, 0⟩, 0, 0, b', 0, 0⟩, .initialised, e⟩, by
      simp [Writer.new, hb, Footer.empty, hb'], rfl⟩
  obtain ⟨w0, h0, hst⟩ := h0
  obtain ⟨i0, b0, hb0, he0, hv0, _, _, _⟩ := new_inv h0
  obtain ⟨w1, h1⟩ := applyAll_some ops i0 b0 (by rw [hst]; simp) ho.long ho.written (by simpa using ho.fits) (by simpa using hord)
  obtain ⟨xs, hxs, i1, _, s1, _⟩ := applyAll_inv ops i0 b0 ho.long h1
  obtain ⟨w2, h2⟩ := finish_some ⟨h32, b, hb, hfs⟩ i1 (by rw [hb0, s1.bloom]) (by rw [s1.encoding, he0]; exact he)
  exact ⟨w2, by simp [writeFile, h0, h1, h2]⟩

end Verif.Tsm
