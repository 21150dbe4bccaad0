import Verif.Tomb.Cache
import Verif.Wal.RecordProps
/-!
# C16: deletions survive a restart

For every history of deletes, compactions of the deletion file and restarts.
-/
namespace Verif.Tomb
open Verif.Time Verif.Wal

/-- Something that happens to the deletion records of a data file. -/
inductive Op where
  /-- a DELETE, DROP TABLE or DROP COLUMN; `maybe` is the bloom filter -/
  | delete (maybe : Nat → Bool) (cols : List (Nat × Nat)) (r : TimeRange)
  /-- a compaction that moved the range to another file, and its installation -/
  | compact (ord : List ((Nat × Nat) × TimeRanges) → List ((Nat × Nat) × TimeRanges)) (r : TimeRange)
  /-- the process ends and the file is opened again -/
  | restart

variable (crc : Bytes → BitVec 32)

/-- Running one operation. -/
def Op.run (s : St) : Op → Option St
  | .delete maybe cols r => s.add crc maybe cols r
  | .compact ord r => (s.compactTmp crc ord r).bind (St.replace crc)
  | .restart => s.reopen crc

/-- Running a history. -/
def runAll : St → List Op → Option St
  | s, [] => some s
  | s, op :: ops => (op.run crc s).bind fun s => runAll s ops

/-- 32-bit identifiers, proper ranges, the order is an order of the entries. -/
def Op.Ok : Op → Prop
  | .delete _ cols r => (∀ k ∈ cols, k.1 < 2 ^ 32 ∧ k.2 < 2 ^ 32) ∧ Proper r
  | .compact ord r => (∀ l, (ord l).Perm l) ∧ Proper r
  | .restart => True

/-- The file an operation writes. -/
def Op.written (s : St) : Op → Option Bytes
  | .delete maybe cols r => (s.add crc maybe cols r).bind St.file
  | .compact ord r => (s.compactTmp crc ord r).bind St.tmp
  | .restart => none

/-- No file written looks as if it ended with a footer (see `C18_footer_lookalike_refuted`). -/
def Clean : St → List Op → Prop
  | _, [] => True
  | s, op :: ops => (∀ f, op.written crc s = some f → footerAt crc f = none) ∧
    ∀ s', op.run crc s = some s' → Clean s' ops

/-- The ranges an operation takes out of a column of the file. -/
def Op.ranges (sid cid : Nat) : Op → List TimeRange
  | .delete maybe cols r => if (sid, cid) ∈ cols ∧ maybe sid = true then [r] else []
  | .compact _ r => [r]
  | .restart => []

variable {crc}

/-- Memory and file agree. -/
structure Inv (crc : Bytes → BitVec 32) (s : St) : Prop where
  ok : CacheOk s.cache
  tmp : s.tmp = none
  wr : s.writer = true → s.file ≠ none
  noFile : s.file = none → Same s.cache Cache.empty
  hasFile : ∀ f, s.file = some f → footerAt crc f = none ∧
    ∃ ts, FileHas crc f ts ∧ (∀ t ∈ ts, t.Fine) ∧ Same s.cache (ts.foldl Cache.load1 Cache.empty)

theorem inv_fresh : Inv crc St.fresh :=
  ⟨cacheOk_empty, rfl, by simp [St.fresh], fun _ => Same.refl _, by simp [St.fresh]⟩

theorem footer_magic : footerAt crc (openWriter crc []) = none := by
  simp [openWriter, footerAt, fileMagic]

theorem add_spec {s : St} (h : Inv crc s) (maybe : Nat → Bool) {cols : List (Nat × Nat)} {r : TimeRange}
    (hk : ∀ k ∈ cols, k.1 < 2 ^ 32 ∧ k.2 < 2 ^ 32) (hr : Proper r) :
    ∃ f, s.add crc maybe cols r = some ⟨s.cache.insertBatch (batchOf (cols.filter fun k => maybe k.1) r), some f, s.tmp, true⟩ ∧
      (footerAt crc f = none → Inv crc ⟨s.cache.insertBatch (batchOf (cols.filter fun k => maybe k.1) r), some f, s.tmp, true⟩) := by
  have hk' : ∀ k ∈ cols.filter (fun k => maybe k.1), k.1 < 2 ^ 32 ∧ k.2 < 2 ^ 32 :=
    fun k h => hk k (List.mem_filter.1 h).1
  generalize hcs : cols.filter (fun k => maybe k.1) = cs at hk'
  have hrec := addRecs_recorded cs r hk' hr.2
  have hfine : ∀ t ∈ addStones cs r, t.Fine := by
    intro t ht
    obtain ⟨k, hkc, rfl⟩ := List.mem_map.1 ht
    refine ⟨⟨by simp [maxRanges], by intro x hx; rw [List.mem_singleton.1 hx]; exact hr.2, hk' k hkc⟩, by simpa using hr⟩
  -- the file the writer appends to
  obtain ⟨f0, ts, hf0, hts, hfn, hsame⟩ : ∃ f0 ts, (if s.writer then s.file.getD [] else openWriter crc (s.file.getD [])) = f0 ∧
      FileHas crc f0 ts ∧ (∀ t ∈ ts, t.Fine) ∧ Same s.cache (ts.foldl Cache.load1 Cache.empty) := by
    cases hf : s.file with
    | none =>
      have hw : s.writer = false := by
        cases hw : s.writer with
        | false => rfl
        | true => exact absurd hf (h.wr hw)
      refine ⟨openWriter crc [], [], by simp [hw], fileHas_new, by simp, h.noFile hf⟩
    | some f =>
      obtain ⟨h1, ts, h2, h3, h4⟩ := h.hasFile f hf
      refine ⟨f, ts, ?_, h2, h3, h4⟩
      simp only [Option.getD_some, h2.open h1, ite_self]
  obtain ⟨f', hw, hhas⟩ := hts.write hrec
  refine ⟨f', ?_, ?_⟩
  · unfold St.add
    simp only [hf0, hcs, hw]
  · intro hft
    refine ⟨?_, h.tmp, by simp, by simp, ?_⟩
    · refine insertBatch_ok _ h.ok ?_
      intro e he
      obtain ⟨k, hkm, rfl⟩ := List.mem_map.1 he
      refine ⟨hk' k (List.mem_dedup.1 hkm), ?_⟩
      intro x hx
      rw [List.eq_of_mem_replicate hx]; exact hr
    · intro f hf
      simp only [Option.some.injEq] at hf
      subst hf
      refine ⟨hft, ts ++ addStones cs r, hhas, ?_, ?_⟩
      · intro t ht
        rcases List.mem_append.1 ht with ht | ht
        · exact hfn t ht
        · exact hfine t ht
      · rw [List.foldl_append]
        exact add_same hsame h.ok (CacheOk.loads ts cacheOk_empty hfn) cs hr

theorem compact_spec {s : St} (h : Inv crc s) {ord : List ((Nat × Nat) × TimeRanges) → List ((Nat × Nat) × TimeRanges)}
    (ho : ∀ l, (ord l).Perm l) {r : TimeRange} (hr : Proper r) :
    ∃ f, s.compactTmp crc ord r = some { s with tmp := some f } ∧
      FileHas crc f (saveStones (ord ((s.cache.insertAll r).compact).cols.entries) ((s.cache.insertAll r).compact).all) := by
  have hc := (h.ok.insertAll hr).compact
  have hp := ho ((s.cache.insertAll r).compact).cols.entries
  have hfine := saveStones_fine hc hp
  have hrec := saveRecs_recorded (ord ((s.cache.insertAll r).compact).cols.entries) ((s.cache.insertAll r).compact).all
    (fun e he => (hc.cols e.1 e.2 (AMap.mem_entries.1 (hp.mem_iff.1 he))).1)
    (fun e he x hx => (ranges_proper (hc.cols e.1 e.2 (AMap.mem_entries.1 (hp.mem_iff.1 he))).2 x hx).2)
    (fun x hx => (ranges_proper hc.all x hx).2)
  obtain ⟨f', hw, hhas⟩ := (fileHas_new (crc := crc)).write hrec
  refine ⟨f', ?_, by simpa using hhas⟩
  unfold St.compactTmp
  simp only [h.tmp, Option.getD_none, hw]

/-- The cache after a compaction was installed. -/
def compacted (c : Cache) (ord : List ((Nat × Nat) × TimeRanges) → List ((Nat × Nat) × TimeRanges)) (r : TimeRange) : Cache :=
  (saveStones (ord ((c.insertAll r).compact).cols.entries) ((c.insertAll r).compact).all).foldl Cache.load1 Cache.empty

theorem op_spec {s : St} (h : Inv crc s) {op : Op} (hok : op.Ok)
    (hcl : ∀ f, op.written crc s = some f → footerAt crc f = none) :
    ∃ s', op.run crc s = some s' ∧ Inv crc s' ∧
      match op with
      | .delete maybe cols r => s'.cache = s.cache.insertBatch (batchOf (cols.filter fun k => maybe k.1) r)
      | .compact ord r => s'.cache = compacted s.cache ord r
      | .restart => Same s.cache s'.cache := by
  cases op with
  | delete maybe cols r =>
    obtain ⟨f, e, hi⟩ := add_spec h maybe hok.1 hok.2
    refine ⟨_, e, hi (hcl f ?_), rfl⟩
    simp only [Op.written, e, Option.bind_some]
  | compact ord r =>
    obtain ⟨f, e, hh⟩ := compact_spec h hok.1 hok.2
    have hft := hcl f (by simp only [Op.written, e, Option.bind_some])
    have hl := hh.load hft
    have hc := (h.ok.insertAll hok.2).compact
    have hfine := saveStones_fine hc (hok.1 ((s.cache.insertAll r).compact).cols.entries)
    refine ⟨⟨compacted s.cache ord r, some f, none, false⟩, ?_, ?_, rfl⟩
    · simp only [Op.run, e, Option.bind_some, St.replace, hl]; rfl
    · refine ⟨CacheOk.loads _ cacheOk_empty hfine, rfl, by simp, by simp, ?_⟩
      intro g hg
      simp only [Option.some.injEq] at hg
      subst hg
      exact ⟨hft, _, hh, hfine, Same.refl _⟩
  | restart =>
    cases hf : s.file with
    | none =>
      refine ⟨{ s with cache := Cache.empty, writer := false }, by simp only [Op.run, St.reopen, hf], ?_, h.noFile hf⟩
      exact ⟨cacheOk_empty, h.tmp, by simp, fun _ => Same.refl _, by simp [hf]⟩
    | some f =>
      obtain ⟨h1, ts, h2, h3, h4⟩ := h.hasFile f hf
      refine ⟨{ s with cache := ts.foldl Cache.load1 Cache.empty, file := some f, writer := true }, ?_, ?_, h4⟩
      · simp only [Op.run, St.reopen, hf, h2.load h1, h2.open h1]
      · refine ⟨CacheOk.loads _ cacheOk_empty h3, h.tmp, by simp, by simp, ?_⟩
        intro g hg
        simp only [Option.some.injEq] at hg
        subst hg
        exact ⟨h1, ts, h2, h3, Same.refl _⟩

theorem runAll_inv : ∀ (ops : List Op) (s : St), Inv crc s → (∀ op ∈ ops, op.Ok) → Clean crc s ops →
    ∃ s', runAll crc s ops = some s' ∧ Inv crc s'
  | [], s, h, _, _ => ⟨s, rfl, h⟩
  | op :: ops, s, h, hok, hcl => by
    obtain ⟨s1, e1, h1, _⟩ := op_spec h (hok op (List.mem_cons_self ..)) hcl.1
    obtain ⟨s2, e2, h2⟩ := runAll_inv ops s1 h1 (fun x hx => hok x (List.mem_cons_of_mem _ hx)) (hcl.2 s1 e1)
    exact ⟨s2, by simp only [runAll, e1, Option.bind_some, e2], h2⟩

/-- **C16, restart.** After any history of deletes, compactions and restarts, opening the file again succeeds and gives
exactly the same deleted (series, column, time) triples as were in memory.  (`Clean`: no file happens to look like one
with a footer; without it the statement is false, see `C18_footer_lookalike_refuted`.) -/
theorem C16_restart_partial (ops : List Op) (hok : ∀ op ∈ ops, op.Ok) (hcl : Clean crc St.fresh ops) :
    ∃ s s', runAll crc St.fresh ops = some s ∧ s.reopen crc = some s' ∧
      ∀ sid cid t, s'.cache.Deleted sid cid t ↔ s.cache.Deleted sid cid t := by
  obtain ⟨s, e, h⟩ := runAll_inv ops _ inv_fresh hok hcl
  obtain ⟨s', e', h', hs⟩ := op_spec h (op := .restart) trivial (by simp [Op.written])
  exact ⟨s, s', e, e', fun sid cid t => (deleted_same hs h.ok h'.ok sid cid t).symm⟩

/-! ## What is deleted after a history -/

/-- All timestamps. -/
def Full (s : TimeRanges) : Prop := ∀ t, IsI64 t → Covers s.inner t

/-- If the hull reaches the end on the given side then everything is covered. -/
def Tame (low : Bool) (s : TimeRanges) : Prop :=
  if low then s.minTs = i64Min → Full s else s.maxTs = i64Max → Full s

/-- A range that reaches the end on the given side is everything. -/
def RTame (low : Bool) (r : TimeRange) : Prop :=
  if low then r.minTs = i64Min → r = ⟨i64Min, i64Max⟩ else r.maxTs = i64Max → r = ⟨i64Min, i64Max⟩

theorem Tame.done {low : Bool} {s : TimeRanges} (h : Tame low s) (hd : (abs s).done) : Full s := by
  cases low
  · exact h hd.2
  · exact h hd.1

theorem tame_empty (low : Bool) : Tame low TimeRanges.empty := by
  cases low
  · exact fun h => absurd h (by decide)
  · exact fun h => absurd h (by decide)

theorem tame_abs {low : Bool} {s s' : TimeRanges} (h : abs s = abs s') (ht : Tame low s) : Tame low s' := by
  have h1 : s.minTs = s'.minTs := congrArg Abs.lo h
  have h2 : s.maxTs = s'.maxTs := congrArg Abs.hi h
  have h3 : ∀ t, Covers s.inner t = Covers s'.inner t := fun t => congrFun (congrArg Abs.cov h) t
  unfold Tame Full at ht ⊢
  rw [← h1, ← h2]
  simp only [← h3]
  exact ht

theorem full_of_has {s : TimeRanges} {r : TimeRange} (h : ∀ t, Has r t → Covers s.inner t) (hr : r = ⟨i64Min, i64Max⟩) :
    Full s := by
  subst hr
  exact fun t ht => h t ⟨ht.1, ht.2⟩

theorem tame_extend {low : Bool} {s : TimeRanges} (hs : Good s) (ht : Tame low s) {rs : List TimeRange}
    (hp : ∀ r ∈ rs, Proper r) (hr : ∀ r ∈ rs, (if low then r.minTs = i64Min else r.maxTs = i64Max) →
      (∀ t, IsI64 t → ∃ x ∈ rs, Has x t)) : Tame low (s.extend rs) := by
  by_cases hd : (abs s).done
  · have : s.extend rs = s := by unfold TimeRanges.extend; rw [if_pos ((boundless_iff s).2 hd)]
    rw [this]; exact ht
  · have hc := covers_extend hs hp
    have hb : s.isBoundless = false := by
      cases hb : s.isBoundless with
      | false => rfl
      | true => exact absurd ((boundless_iff s).1 hb) hd
    have he : s.extend rs = rs.foldl TimeRanges.addTimeRange s := by
      unfold TimeRanges.extend; rw [hb]; rfl
    have hu := foldl_add_hull rs s
    cases low
    · intro hm t hti
      rw [hc]
      by_cases h1 : s.maxTs = i64Max
      · exact .inl (ht h1 t hti)
      · by_cases h2 : ∀ r ∈ rs, r.maxTs ≠ i64Max
        · rw [he] at hm; exact absurd hm (hu.2 ⟨h1, h2⟩)
        · simp only [not_forall, not_not] at h2
          obtain ⟨r, hrm, h2⟩ := h2
          exact .inr ⟨hd, hr r hrm (by simpa using h2) t hti⟩
    · intro hm t hti
      rw [hc]
      by_cases h1 : s.minTs = i64Min
      · exact .inl (ht h1 t hti)
      · by_cases h2 : ∀ r ∈ rs, r.minTs ≠ i64Min
        · rw [he] at hm; exact absurd hm (hu.1 ⟨h1, h2⟩)
        · simp only [not_forall, not_not] at h2
          obtain ⟨r, hrm, h2⟩ := h2
          exact .inr ⟨hd, hr r hrm (by simpa using h2) t hti⟩

theorem tame_extend_one {low : Bool} {s : TimeRanges} (hs : Good s) (ht : Tame low s) {r : TimeRange} (hp : Proper r)
    (hr : RTame low r) (n : Nat) : Tame low (s.extend (List.replicate n r)) := by
  refine tame_extend hs ht (fun x hx => by rw [List.eq_of_mem_replicate hx]; exact hp) ?_
  intro x hx hm t hti
  have e := List.eq_of_mem_replicate hx
  subst e
  refine ⟨x, hx, ?_⟩
  have : x = ⟨i64Min, i64Max⟩ := by
    cases low
    · exact hr hm
    · exact hr hm
  rw [this]
  exact ⟨hti.1, hti.2⟩

theorem full_extend {s : TimeRanges} (hs : Good s) {rs : List TimeRange} (hp : ∀ r ∈ rs, Proper r) {low : Bool}
    (ht : Tame low s) {t : Int} (hti : IsI64 t) :
    Covers (s.extend rs).inner t ↔ Covers s.inner t ∨ ∃ r ∈ rs, Has r t := by
  rw [covers_extend hs hp]
  constructor
  · rintro (h | ⟨_, h⟩)
    · exact .inl h
    · exact .inr h
  · rintro (h | h)
    · exact .inl h
    · by_cases hd : (abs s).done
      · exact .inl (ht.done hd t hti)
      · exact .inr ⟨hd, h⟩

theorem tame_ranges {low : Bool} {s : TimeRanges} (hs : Good s) (ht : Tame low s) :
    ∀ r ∈ s.ranges, (if low then r.minTs = i64Min else r.maxTs = i64Max) → ∀ t, IsI64 t → ∃ x ∈ s.ranges, Has x t := by
  intro r hr hm t hti
  rw [ranges_covers]
  obtain ⟨e, he, rfl⟩ := List.mem_map.1 hr
  obtain ⟨h1, h2⟩ := hs.wf.hull e he
  have h3 := hs.lo
  have h4 := hs.hi
  cases low
  · simp only [Bool.false_eq_true, if_false] at hm
    exact ht (by omega) t hti
  · simp only [if_true] at hm
    exact ht (by omega) t hti

theorem tame_saved {low : Bool} {s : TimeRanges} (hs : Good s) (ht : Tame low s) (f : Field) :
    Tame low (loadPieces TimeRanges.empty (pieces f s.ranges.length s.ranges)) := by
  obtain ⟨_, h2, h3, h4⟩ := saved_loaded f hs
  cases low
  · intro hm t hti
    rw [h4]; exact ht (h3 hm) t hti
  · intro hm t hti
    rw [h4]; exact ht (h2 hm) t hti

/-- Deleted so far, for one column of one series. -/
theorem step_deleted {s s' : St} (h : Inv crc s) {op : Op} (hok : op.Ok)
    (hcl : ∀ f, op.written crc s = some f → footerAt crc f = none) (hrun : op.run crc s = some s') (low : Bool)
    (sid cid : Nat) (hc : Tame low (s.cache.col (sid, cid))) (ha : Tame low s.cache.all)
    (hr : ∀ r ∈ op.ranges sid cid, RTame low r) :
    Inv crc s' ∧ Tame low (s'.cache.col (sid, cid)) ∧ Tame low s'.cache.all ∧
    ∀ t, IsI64 t → (s'.cache.Deleted sid cid t ↔ s.cache.Deleted sid cid t ∨ ∃ r ∈ op.ranges sid cid, Has r t) := by
  obtain ⟨s1, e1, h1, hsp⟩ := op_spec h hok hcl
  rw [hrun] at e1
  cases e1
  refine ⟨h1, ?_⟩
  cases op with
  | delete maybe cols r =>
    simp only at hsp
    have hal : s'.cache.all = s.cache.all := by rw [hsp, insertBatch_all]
    have hcol := batch_col (cols.filter fun k => maybe k.1) r s.cache (sid, cid)
    rw [← hsp] at hcol
    have hmem : (sid, cid) ∈ cols.filter (fun k => maybe k.1) ↔ ((sid, cid) ∈ cols ∧ maybe sid = true) := by
      simp [List.mem_filter]
    simp only [Op.ranges] at hr ⊢
    by_cases hk : (sid, cid) ∈ cols ∧ maybe sid = true
    · rw [if_pos (hmem.2 hk)] at hcol
      rw [if_pos hk] at hr ⊢
      have hr' := hr r (by simp)
      have hrep : ∀ x ∈ List.replicate ((cols.filter fun k => maybe k.1).count (sid, cid)) r, Proper x :=
        fun x hx => by rw [List.eq_of_mem_replicate hx]; exact hok.2
      have hpos : 0 < (cols.filter fun k => maybe k.1).count (sid, cid) := List.count_pos_iff.2 (hmem.2 hk)
      refine ⟨by rw [hcol]; exact tame_extend_one (h.ok.col _) hc hok.2 hr' _, by rw [hal]; exact ha, ?_⟩
      intro t hti
      rw [deleted_iff h1.ok, deleted_iff h.ok, hal, hcol, full_extend (h.ok.col _) hrep hc hti]
      have : (∃ x ∈ List.replicate ((cols.filter fun k => maybe k.1).count (sid, cid)) r, Has x t) ↔ ∃ x ∈ [r], Has x t := by
        simp only [List.mem_replicate, List.mem_singleton, exists_eq_left]
        constructor
        · rintro ⟨x, ⟨_, rfl⟩, h⟩; exact h
        · exact fun h => ⟨r, ⟨by omega, rfl⟩, h⟩
      rw [this]
      constructor
      · rintro ((h | h) | h)
        · exact .inl (.inl h)
        · exact .inr h
        · exact .inl (.inr h)
      · rintro ((h | h) | h)
        · exact .inl (.inl h)
        · exact .inr h
        · exact .inl (.inr h)
    · rw [if_neg (fun hx => hk (hmem.1 hx))] at hcol
      rw [if_neg hk]
      refine ⟨by rw [hcol]; exact hc, by rw [hal]; exact ha, ?_⟩
      intro t _
      rw [deleted_iff h1.ok, deleted_iff h.ok, hal, hcol]
      simp
  | compact ord r =>
    simp only at hsp
    have hr' := hr r (by simp [Op.ranges])
    have hp1 : ∀ x ∈ [r], Proper x := by simpa using hok.2
    have hnn : r.isNone = false := by
      unfold TimeRange.isNone
      have := hok.2.1
      simp only [decide_eq_false_iff_not]; omega
    have eall : (s.cache.insertAll r).all = s.cache.all.extend [r] := by
      unfold Cache.insertAll; rw [hnn]; simp only [Bool.false_eq_true, if_false]; exact push_eq_extend _ _
    have ecol : ∀ k, (s.cache.insertAll r).col k = s.cache.col k := by
      intro k; unfold Cache.insertAll; rw [hnn]; rfl
    have oki := h.ok.insertAll hok.2
    have hc2 := oki.compact
    have hp := hok.1 ((s.cache.insertAll r).compact).cols.entries
    have tall : Tame low (s.cache.insertAll r).all := by
      rw [eall]; exact tame_extend_one h.ok.all ha hok.2 hr' 1
    have tcol : Tame low ((s.cache.insertAll r).compact.col (sid, cid)) := by
      rcases compact_get (s.cache.insertAll r) (sid, cid) with ⟨e, _⟩ | e
      · have : (s.cache.insertAll r).compact.col (sid, cid) = TimeRanges.empty := by unfold Cache.col; rw [e]; rfl
        rw [this]; exact tame_empty low
      · cases hk : (s.cache.insertAll r).cols.get (sid, cid) with
        | none =>
          have : (s.cache.insertAll r).compact.col (sid, cid) = TimeRanges.empty := by
            unfold Cache.col; rw [e, hk]; rfl
          rw [this]; exact tame_empty low
        | some rs =>
          have e1 : (s.cache.insertAll r).compact.col (sid, cid) = rs.extend (s.cache.insertAll r).all.ranges := by
            unfold Cache.col; rw [e, hk]; rfl
          have e2 : rs = s.cache.col (sid, cid) := by
            rw [← ecol]; unfold Cache.col; rw [hk]; rfl
          rw [e1, e2]
          exact tame_extend (h.ok.col _) hc (ranges_proper oki.all) (tame_ranges oki.all tall)
    obtain ⟨l1, l2⟩ := loaded_saved hp (sid, cid)
    refine ⟨?_, ?_, ?_⟩
    · rw [hsp]; unfold compacted; rw [l1]; exact tame_saved (hc2.col _) tcol _
    · rw [hsp]; unfold compacted; rw [l2, compact_all]; exact tame_saved oki.all tall _
    · intro t hti
      rw [hsp]
      unfold compacted
      rw [C16_save_load hc2 hp, C16_compact_keeps oki, deleted_iff oki, deleted_iff h.ok, ecol, eall,
        full_extend h.ok.all hp1 ha hti]
      simp only [Op.ranges, or_assoc]
  | restart =>
    simp only at hsp
    refine ⟨tame_abs (hsp.1 _) hc, tame_abs hsp.2 ha, ?_⟩
    intro t _
    rw [deleted_same hsp h.ok h1.ok]
    simp [Op.ranges]

/-- C16, meaning (full statement): after any history of deletes, compactions and restarts a point counts as deleted
exactly if an operation named its column and its time. -/
def C16Full : Prop := ∀ (crc : Bytes → BitVec 32) (ops : List Op), (∀ op ∈ ops, op.Ok) → Clean crc St.fresh ops →
  ∃ s, runAll crc St.fresh ops = some s ∧ ∀ sid cid t, IsI64 t →
    (s.cache.Deleted sid cid t ↔ ∃ op ∈ ops, ∃ r ∈ op.ranges sid cid, Has r t)

/-- **C16, part proved**: the full statement for every column whose deletes do not reach both ends of time in separate
ranges; ranges covering all of time (DROP TABLE, DROP COLUMN, unconditional DELETE) are allowed.  Missing: columns
with one delete from the beginning of time and another one to the end of time (`C16_both_ends_refuted`). -/
theorem C16_history_partial (ops : List Op) (hok : ∀ op ∈ ops, op.Ok) (hcl : Clean crc St.fresh ops) :
    ∃ s, runAll crc St.fresh ops = some s ∧ ∀ sid cid,
      ((∀ op ∈ ops, ∀ r ∈ op.ranges sid cid, r.minTs = i64Min → r = ⟨i64Min, i64Max⟩) ∨
       (∀ op ∈ ops, ∀ r ∈ op.ranges sid cid, r.maxTs = i64Max → r = ⟨i64Min, i64Max⟩)) →
      ∀ t, IsI64 t → (s.cache.Deleted sid cid t ↔ ∃ op ∈ ops, ∃ r ∈ op.ranges sid cid, Has r t) := by
  have gen : ∀ (low : Bool) (sid cid : Nat) (ops : List Op) (s : St), Inv crc s → (∀ op ∈ ops, op.Ok) → Clean crc s ops →
      Tame low (s.cache.col (sid, cid)) → Tame low s.cache.all → (∀ op ∈ ops, ∀ r ∈ op.ranges sid cid, RTame low r) →
      ∀ s', runAll crc s ops = some s' → ∀ t, IsI64 t →
        (s'.cache.Deleted sid cid t ↔ s.cache.Deleted sid cid t ∨ ∃ op ∈ ops, ∃ r ∈ op.ranges sid cid, Has r t) := by
    intro low sid cid ops
    induction ops with
    | nil =>
      intro s _ _ _ _ _ _ s' e t _
      cases e
      simp
    | cons op ops ih =>
      intro s hi hok hcl hc ha hr s' e t hti
      obtain ⟨s1, e1, _⟩ := op_spec hi (hok op (List.mem_cons_self ..)) hcl.1
      obtain ⟨i1, c1, a1, d1⟩ := step_deleted hi (hok op (List.mem_cons_self ..)) hcl.1 e1 low sid cid hc ha
        (hr op (List.mem_cons_self ..))
      simp only [runAll, e1, Option.bind_some] at e
      rw [ih s1 i1 (fun x hx => hok x (List.mem_cons_of_mem _ hx)) (hcl.2 s1 e1) c1 a1
        (fun x hx => hr x (List.mem_cons_of_mem _ hx)) s' e t hti, d1 t hti]
      simp only [List.mem_cons, exists_eq_or_imp, or_assoc]
  obtain ⟨s, e, h⟩ := runAll_inv ops _ inv_fresh hok hcl
  refine ⟨s, e, ?_⟩
  intro sid cid hends t hti
  have fresh : ¬ St.fresh.cache.Deleted sid cid t := by
    rintro (h | h)
    · exact absurd h (by simp [St.fresh, Cache.empty, Cache.col, TimeRanges.contains, TimeRanges.includes, TimeRanges.empty])
    · exact absurd h (by simp [St.fresh, Cache.empty, TimeRanges.contains, TimeRanges.includes, TimeRanges.empty])
  rcases hends with he | he
  · rw [gen true sid cid ops _ inv_fresh hok hcl (tame_empty _) (tame_empty _) (fun op h r hr => he op h r hr) s e t hti]
    simp [fresh]
  · rw [gen false sid cid ops _ inv_fresh hok hcl (tame_empty _) (tame_empty _) (fun op h r hr => he op h r hr) s e t hti]
    simp [fresh]

/-! ## Where the full statement fails, and examples -/

/-- Three deletes of a column: everything up to 0, everything from 10, then 3 to 5. -/
def bothEnds : List Op :=
  [.delete (fun _ => true) [(1, 2)] ⟨i64Min, 0⟩, .delete (fun _ => true) [(1, 2)] ⟨10, i64Max⟩,
   .delete (fun _ => true) [(1, 2)] ⟨3, 5⟩]

/-- What is known about times of column (1, 2) after a history. -/
def probe (crc : Bytes → BitVec 32) (ops : List Op) (ts : List Int) : Option (List Bool) :=
  (runAll crc St.fresh ops).map fun s => ts.map fun t => (s.cache.col (1, 2)).contains t || s.cache.all.contains t

/-- No file written during a history looks like one with a footer (executable form of `Clean`). -/
def cleanB (crc : Bytes → BitVec 32) : St → List Op → Bool
  | _, [] => true
  | s, op :: ops =>
    (match op.written crc s with | none => true | some f => (footerAt crc f).isNone) &&
    (match op.run crc s with | none => true | some s' => cleanB crc s' ops)

theorem clean_of_B (crc : Bytes → BitVec 32) : ∀ (ops : List Op) (s : St), cleanB crc s ops = true → Clean crc s ops
  | [], _, _ => trivial
  | op :: ops, s, h => by
    simp only [cleanB, Bool.and_eq_true] at h
    refine ⟨?_, ?_⟩
    · intro f hf
      have := h.1
      rw [hf] at this
      simpa using this
    · intro s' hs
      have := h.2
      rw [hs] at this
      exact clean_of_B crc ops s' this

/-- **C16, full statement refuted**: once a column has lost everything up to some time and everything from a later time,
the ranges count as boundless, and the next delete of the gap between is acknowledged and recorded but has no effect. -/
theorem C16_both_ends_refuted : ¬ C16Full := by
  intro h
  have hok : ∀ op ∈ bothEnds, op.Ok := by
    intro op hop
    simp only [bothEnds, List.mem_cons, List.not_mem_nil, or_false] at hop
    rcases hop with rfl | rfl | rfl <;>
      exact ⟨by intro k hk; rw [List.mem_singleton.1 hk]; decide, by unfold Proper IsI64; decide⟩
  obtain ⟨s, e, hs⟩ := h sumCrc bothEnds hok (clean_of_B _ _ _ (by decide +kernel))
  have hp : probe sumCrc bothEnds [0, 4, 10] = some [true, false, true] := by decide +kernel
  unfold probe at hp
  rw [e] at hp
  simp only [Option.map_some, List.map_cons, List.map_nil, Option.some.injEq, List.cons.injEq, Bool.or_eq_false_iff,
    and_true] at hp
  have hd := (hs 1 2 4 (by unfold IsI64; decide)).2
    ⟨.delete (fun _ => true) [(1, 2)] ⟨3, 5⟩, by simp [bothEnds], ⟨3, 5⟩, by simp [Op.ranges], by unfold Has; decide⟩
  rcases hd with hd | hd
  · rw [hp.2.1.1] at hd; exact absurd hd (by decide)
  · rw [hp.2.1.2] at hd; exact absurd hd (by decide)

/-- The order of the entries used in the examples. -/
def sameOrd : List ((Nat × Nat) × TimeRanges) → List ((Nat × Nat) × TimeRanges) := id

/-- **C16, interleaving refuted**: a delete that comes between the writing of the compacted deletion file and its
installation is acknowledged and lost, in memory and on disk. -/
theorem C16_delete_during_compaction_refuted :
    let r : TimeRange := ⟨100, 200⟩
    (do let s ← St.fresh.compactTmp sumCrc sameOrd r
        let s ← s.add sumCrc (fun _ => true) [(1, 2)] ⟨3, 5⟩
        let before := (s.cache.col (1, 2)).contains 4
        let s ← s.replace sumCrc
        let after := (s.cache.col (1, 2)).contains 4 || s.cache.all.contains 4
        let s ← s.reopen sumCrc
        some (before, after, (s.cache.col (1, 2)).contains 4 || s.cache.all.contains 4)) = some (true, false, false) := by
  decide +kernel

/-- **C16, leftover of a failed compaction refuted**: a compaction of the range 100 to 200 writes its deletion file and is
never installed.  After a restart another compaction, of the range 300 to 400, appends to the same file; its installation
also takes out 100 to 200, which no installed compaction and no delete named. -/
theorem C16_leftover_compaction_refuted :
    (do let s ← St.fresh.compactTmp sumCrc sameOrd ⟨100, 200⟩
        let s ← s.reopen sumCrc
        let before := s.cache.all.contains 150
        let s ← s.compactTmp sumCrc sameOrd ⟨300, 400⟩
        let s ← s.replace sumCrc
        some (before, s.cache.all.contains 150, s.cache.all.contains 350)) = some (false, true, true) := by
  decide +kernel

/-- A history with deletes at both sides, a delete of everything, compactions and restarts. -/
def busy : List Op :=
  [.delete (fun _ => true) [(1, 2), (1, 3), (2, 2)] ⟨5, 9⟩, .restart, .delete (fun s => s == 1) [(1, 2), (2, 2)] ⟨20, i64Max⟩,
   .compact List.reverse ⟨100, 200⟩, .restart, .delete (fun _ => true) [(1, 2)] ⟨1, 2⟩, .restart]

example : (∀ op ∈ busy, op.Ok) ∧ Clean sumCrc St.fresh busy ∧
    (∀ op ∈ busy, ∀ r ∈ op.ranges 1 2, r.minTs = i64Min → r = ⟨i64Min, i64Max⟩) ∧
    probe sumCrc busy [0, 1, 2, 3, 5, 9, 10, 19, 20, 99] = some [false, true, true, false, true, true, false, false, true, true] := by
  refine ⟨?_, clean_of_B _ _ _ (by decide +kernel), ?_, by decide +kernel⟩
  · intro op hop
    simp only [busy, List.mem_cons, List.not_mem_nil, or_false] at hop
    rcases hop with rfl | rfl | rfl | rfl | rfl | rfl | rfl
    · exact ⟨by intro k hk; simp at hk; rcases hk with rfl | rfl | rfl <;> decide, by unfold Proper IsI64; decide⟩
    · trivial
    · exact ⟨by intro k hk; simp at hk; rcases hk with rfl | rfl <;> decide, by unfold Proper IsI64; decide⟩
    · exact ⟨fun l => List.reverse_perm l, by unfold Proper IsI64; decide⟩
    · trivial
    · exact ⟨by intro k hk; rw [List.mem_singleton.1 hk]; decide, by unfold Proper IsI64; decide⟩
    · trivial
  · intro op hop
    simp only [busy, List.mem_cons, List.not_mem_nil, or_false] at hop
    rcases hop with rfl | rfl | rfl | rfl | rfl | rfl | rfl <;> simp [Op.ranges, i64Min]

/-- **C69 refuted**: a crash that leaves a delete half recorded makes the deletion file unreadable, and with it the data
file cannot be opened (tombstone.rs:92-98 loads without skipping). -/
theorem C69_torn_delete_refuted :
    (do let s ← St.fresh.add sumCrc (fun _ => true) [(1, 2)] ⟨5, 9⟩
        let s1 ← s.add sumCrc (fun _ => true) [(1, 2)] ⟨20, 30⟩
        let f ← s.file
        let f1 ← s1.file
        some ((({ s with file := some (f1.take (f.length + 20)) } : St).reopen sumCrc).isSome,
          f1.take (f.length + 20) = f1, (s.reopen sumCrc).isSome, (s1.reopen sumCrc).isSome)) = some (false, false, true, true) := by
  decide +kernel

/-- **C69, part proved**: whatever the length at which the deletion file is cut, opening it either fails or gives exactly
the deletes of a prefix of the records, and the reader used when compactions are picked always gives them. -/
theorem C69_torn_delete_partial {crc : Bytes → BitVec 32} {f : Bytes} {ts : List Stone} (h : FileHas crc f ts) (n : Nat)
    (hft : footerAt crc (f.take n) = none) :
    ∃ ts', ts' <+: ts ∧ loadLenient crc (f.take n) = some (ts'.foldl Cache.load1 Cache.empty) ∧
      (loadFile crc (f.take n) = none ∨ loadFile crc (f.take n) = some (ts'.foldl Cache.load1 Cache.empty)) := by
  obtain ⟨ds, rfl, h0⟩ := h
  have hs := h0.small
  obtain ⟨gs, a1, a2, a3, a4⟩ := h0.ex
  obtain ⟨o, ho, e, hp⟩ := C19_torn_file_partial (crc := crc) Policy.tomb rfl (ds.map putOf)
    (by intro p hp; obtain ⟨d, hd, rfl⟩ := List.mem_map.1 hp; exact hs d hd) n hft
  obtain ⟨k, hk⟩ : ∃ k, whole (n - 4) (ds.map putOf) = (ds.map putOf).take k :=
    ⟨_, List.prefix_iff_eq_take.1 hp⟩
  rw [hk, a1, ← List.map_take, ← List.map_take] at e
  have hl := loadRecs_located (gs.take k) 4 Cache.empty (by
    intro g hg t ht
    exact a3 t (by rw [← a2]; exact List.mem_flatten.2 ⟨g, List.mem_of_mem_take hg, ht⟩))
  refine ⟨(gs.take k).flatten, ?_, ?_, ?_⟩
  · rw [← a2]
    conv => rhs; rw [← List.take_append_drop k gs, List.flatten_append]
    exact List.prefix_append ..
  · unfold loadLenient
    rw [a1, e]
    rcases ho with rfl | rfl <;> simp only [hl]
  · unfold loadFile
    rw [a1, e]
    rcases ho with rfl | rfl
    · exact .inr hl
    · exact .inl rfl

end Verif.Tomb
