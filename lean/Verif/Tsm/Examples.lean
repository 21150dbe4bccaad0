import Verif.Tsm.Update
import Verif.Page.Props
/-!
# C86–C89: a small data file
-/
namespace Verif.Tsm
open Verif.Time Verif.Wal Verif.Version Verif.Codec
open Verif.Utils (Bloom)
open Verif.Page (Encoding)

/-- The constants of the code (tsm/mod.rs:17-18). -/
theorem params_ok (hashes : List (Bytes → Nat)) (lib : Page.Lib) : Params.Ok ⟨1024 * 1024, 131140, hashes, lib⟩ := by
  refine ⟨by show 32 < 1024 * 1024; decide, ⟨List.replicate (2 ^ 20 / 8) 0#8, 2 ^ 20 - 1⟩, ?_, ?_⟩
  · unfold Bloom.new
    have : Utils.pow2 (1024 * 1024) = some (2 ^ 20) := by decide +kernel
    rw [this]
    rfl
  · show 131140 = (List.replicate (2 ^ 20 / 8) 0#8).length + 68
    rw [List.length_replicate]

/-- A compressor that has a short form for inputs that start with `p`. -/
def prefixCompressor (p : Bytes) : Str.Compressor where
  compress x := if x.take p.length = p then 1 :: x.drop p.length else 0 :: x
  decompress
    | [] => none
    | b :: x => some (if b = 1 then p ++ x else x)
  lossless x := by
    by_cases h : x.take p.length = p
    · simp only [h, if_true]
      congr 1
      rw [show p ++ x.drop p.length = x.take p.length ++ x.drop p.length by rw [h]]
      exact List.take_append_drop _ _
    · simp [h]

def small (p : Bytes) : Params :=
  ⟨64, 76, [fun b => (b.map (·.toNat)).sum, fun b => (b.map (·.toNat)).sum * 7], { Page.exLib with zstd := prefixCompressor p }⟩

def colTime : TableColumn := ⟨0, [0x74], .time .nano, .null⟩
def colF : TableColumn := ⟨1, [0x66], .field .integer, .null⟩
def exSchema : Schema := ⟨[0x63], [0x64], [0x6d], 0, 2, [colTime, colF], [([0x74], 0), ([0x66], 1)]⟩
def exKey (v : Byte) : SeriesKey := ⟨[⟨[0x68], [v]⟩], [0x6d]⟩

def exBytes (d : Bytes) : Bytes := Page.layout 1 [1] 1 (Crc32.crc32 d) d
def exPages (t v : Byte) : List PageData :=
  [⟨⟨1, colTime, .i64 ⟨some t.toNat, some t.toNat, none, 0⟩⟩, exBytes [1, 0, 0, 0, 0, 0, 0, 0, t]⟩,
   ⟨⟨1, colF, .i64 ⟨some v.toNat, some v.toNat, none, 0⟩⟩, exBytes [1, 0, 0, 0, 0, 0, 0, 0, v]⟩]

def exOps : List Op :=
  [.putBatch exSchema 7 (exKey 0x61) (exPages 10 1), .putPages exSchema 9 (exKey 0x62) (exPages 5 2) ⟨5, 5⟩, .putBatch exSchema 7 (exKey 0x61) (exPages 20 3)]

/-- The writes that `exOps` stand for. -/
def exWs : List Written :=
  [⟨exSchema, 7, exKey 0x61, exPages 10 1, ⟨10, 10⟩⟩, ⟨exSchema, 9, exKey 0x62, exPages 5 2, ⟨5, 5⟩⟩,
   ⟨exSchema, 7, exKey 0x61, exPages 20 3, ⟨20, 20⟩⟩]

theorem colTime_sized : colTime.Sized := ⟨by decide, by decide, by simp [colTime]⟩

theorem colF_sized : colF.Sized := ⟨by decide, by decide, by simp [colF]⟩

theorem exSchema_sized : exSchema.Sized := by
  refine ⟨by decide, by decide, by decide, by decide, by decide, ⟨by decide, ?_⟩, by decide, by decide⟩
  intro c hc
  simp only [exSchema, List.mem_cons, List.not_mem_nil, or_false] at hc
  rcases hc with rfl | rfl
  · exact colTime_sized
  · exact colF_sized

theorem exKey_sized (v : Byte) : (exKey v).Sized := by
  refine ⟨⟨by show 1 < 2 ^ 64; decide, ?_⟩, by show 1 < 2 ^ 64; decide⟩
  intro t ht
  simp only [exKey, List.mem_cons, List.not_mem_nil, or_false] at ht
  subst ht
  exact ⟨show 1 < 2 ^ 64 by decide, show 1 < 2 ^ 64 by decide⟩

theorem exPages_sized (t v : Byte) : ∀ p ∈ exPages t v, p.info.Sized := by
  have hst : ∀ b : Byte, PageStat.Sized (.i64 ⟨some b.toNat, some b.toNat, none, 0⟩) := by
    intro b
    have hb := b.isLt
    refine ⟨fun a ha => ?_, fun a ha => ?_, fun n hn => (by cases hn), show 0 < 2 ^ 64 by decide⟩
    · cases ha; unfold IsI64; omega
    · cases ha; unfold IsI64; omega
  intro p hp
  simp only [exPages, List.mem_cons, List.not_mem_nil, or_false] at hp
  rcases hp with rfl | rfl
  · exact ⟨by show 1 < 2 ^ 32; decide, colTime_sized, hst t⟩
  · exact ⟨by show 1 < 2 ^ 32; decide, colF_sized, hst v⟩

theorem exFits {s : Nat} (hs : s < 2 ^ 32) (k t v a : Byte) : Written.Sized ⟨exSchema, s, exKey k, exPages t v, ⟨a.toNat, a.toNat⟩⟩ :=
  ⟨exSchema_sized, hs, exKey_sized k, exPages_sized t v, by
    have := a.isLt
    show IsI64 (a.toNat : Int) ∧ IsI64 (a.toNat : Int)
    unfold IsI64
    omega⟩

theorem exOps_ok : OpsOK exOps exWs where
  written := by rfl
  long := by
    intro op h
    simp only [exOps, List.mem_cons, List.not_mem_nil, or_false] at h
    rcases h with rfl | rfl | rfl <;> trivial
  sized := by
    intro x hx
    simp only [exWs, List.mem_cons, List.not_mem_nil, or_false] at hx
    rcases hx with rfl | rfl | rfl
    · exact exFits (by decide) _ _ _ 10
    · exact exFits (by decide) _ _ _ 5
    · exact exFits (by decide) _ _ _ 20
  one := by
    intro x hx y hy _
    simp only [exWs, List.mem_cons, List.not_mem_nil, or_false] at hx hy
    rcases hx with rfl | rfl | rfl <;> rcases hy with rfl | rfl | rfl <;> rfl
  pages := by
    show ∀ x ∈ exWs, ∀ p ∈ x.pages, Page.crcValidation p.bytes = some true
    decide +kernel

theorem small_ok (p : Bytes) : (small p).Ok := ⟨by show 32 < 64; decide, ⟨List.replicate 8 0, 63⟩, rfl, rfl⟩

/-- The start of the metadata of the small file. -/
def exPrefix : Bytes := [0, 0, 0, 0, 0, 0, 4, 0x24, 10, 0, 0, 0, 0, 0, 0, 0, 20, 0, 0, 0, 0, 0, 0, 0, 1]

/-- C86, C89: the small file, with compressed metadata, on top of another file. -/
example : ∃ w r, writeFile (small exPrefix) [1, 2, 3] .zstd exOps = some w ∧ openFile (small exPrefix) w.file = some r ∧
    r.seriesPages 7 1 = some (exPages 20 3) ∧ r.footer.range = ⟨5, 20⟩ := by
  obtain ⟨w, hw⟩ := C86_in_order_accepted (small_ok exPrefix) (pre := [1, 2, 3]) (e := .zstd) (by decide) exOps_ok (by
    unfold InOrder exWs
    simp)
  have hlen : ((writeFile (small exPrefix) [1, 2, 3] .zstd exOps).map fun w =>
    (w.file.length, w.footer.tableOffset + w.footer.tableSize)) = some (1284, 1060) := by decide +kernel
  rw [hw] at hlen
  simp only [Option.map_some, Option.some.injEq, Prod.mk.injEq] at hlen
  obtain ⟨r, hr, h1, h2, _⟩ := C89_time_ranges (small_ok exPrefix) exOps_ok hw (by omega) (by omega)
  obtain ⟨r', hr', S⟩ := C86_file_round_trip (small_ok exPrefix) exOps_ok hw (by omega) (by omega)
  rw [hr] at hr'
  cases hr'
  refine ⟨w, r, hw, hr, S.pages 7 1, ?_⟩
  have := h1.covers ⟨10, 10⟩ (by simp [exWs])
  obtain ⟨⟨x, hx, hx'⟩, y, hy, hy'⟩ := h1.tight (by simp [exWs])
  have c1 := h1.covers ⟨5, 5⟩ (by simp [exWs])
  have c2 := h1.covers ⟨20, 20⟩ (by simp [exWs])
  simp only [exWs, List.map_cons, List.map_nil, List.mem_cons, List.not_mem_nil, or_false] at hx hy
  cases hf : r.footer.range with | mk a b =>
  rw [hf] at hx' hy' c1 c2
  simp only at hx' hy' c1 c2
  rcases hx with rfl | rfl | rfl <;> rcases hy with rfl | rfl | rfl <;> simp only at hx' hy' <;> simp only [TimeRange.mk.injEq] <;> omega

/-- C87: a column group of the small file goes to another file as it is. -/
example : ∃ (c : Copy) (op : Op) (w : Writer) (r : Reader), c.OK (small exPrefix) ∧ c.op = some op ∧
    writeFile (small exPrefix) [] .null [op] = some w ∧ openFile (small exPrefix) w.file = some r ∧ r.seriesPages 7 0 = some (exPages 20 3) := by
  have h : ((writeFile (small exPrefix) [] .zstd exOps).bind fun w => (openFile (small exPrefix) w.file).bind fun r =>
      (BMap.get r.chunks 7).bind fun ch => (r.datablockRaw 7 1).bind fun raw =>
        (writeFile (small exPrefix) [] .null [.putRaw exSchema ch 1 raw]).map fun w' =>
          (w.file.length, w.footer.tableOffset + w.footer.tableSize, ch.key, w'.file.length, w'.footer.tableOffset + w'.footer.tableSize)) =
      some (1281, 1060, exKey 0x61, 660, 528) := by
    decide +kernel
  simp only [Option.bind_eq_some_iff, Option.map_eq_some_iff, Prod.mk.injEq] at h
  obtain ⟨w, hw, r, hr, ch, hch, raw, hraw, w', hw', n1, n2, hkey, n3, n4⟩ := h
  obtain ⟨r0, hr0, S⟩ := C86_file_round_trip (small_ok exPrefix) exOps_ok hw (by omega) (by omega)
  rw [hr] at hr0
  cases hr0
  let c : Copy := ⟨r, exWs, exSchema, 7, 1, ch, ⟨exSchema, 7, exKey 0x61, exPages 20 3, ⟨20, 20⟩⟩⟩
  have hc : c.OK (small exPrefix) := ⟨S, hch, rfl⟩
  have hfit : c.target.Sized := by
    show Written.Sized ⟨exSchema, 7, ch.key, exPages 20 3, ⟨20, 20⟩⟩
    rw [hkey]
    exact exFits (by decide) _ _ _ 20
  obtain ⟨ops, h1, h2⟩ := C87_raw_copy (small_ok exPrefix) (pre := []) (e := .null) [c] (by simpa using hc) (by simpa using hfit)
    (by
      intro x hx y hy _
      simp only [List.map_cons, List.map_nil, List.mem_cons, List.not_mem_nil, or_false] at hx hy
      rw [hx, hy])
    (by
      intro x hx
      simp only [List.map_cons, List.map_nil, List.mem_cons, List.not_mem_nil, or_false] at hx
      subst hx
      show ∀ p ∈ exPages 20 3, Page.crcValidation p.bytes = some true
      decide +kernel)
  have hop : c.op = some (.putRaw exSchema ch 1 raw) := by simp [c, Copy.op, hraw]
  have hops : ops = [.putRaw exSchema ch 1 raw] := by
    rw [List.mapM_cons, hop] at h1
    simp at h1
    exact h1.symm
  subst hops
  obtain ⟨r', hr', S'⟩ := h2 w' hw' (by omega) (by omega)
  exact ⟨c, _, w', r', hc, hop, hw', hr', S'.pages 7 0⟩

/-- C88: two updates of the small file, which was written with compressed metadata. -/
example : ∃ w f1 f2 r, writeFile (small exPrefix) [] .zstd exOps = some w ∧
    updateTags (small exPrefix) w.file [(7, exKey 0x63), (9, exKey 0x64), (11, exKey 0x65)] .null = some f1 ∧
    updateTags (small exPrefix) f1 [(9, exKey 0x66)] .null = some f2 ∧ openFile (small exPrefix) f2 = some r ∧
    (BMap.get r.chunks 7).map (·.key) = some (exKey 0x63) ∧ (BMap.get r.chunks 9).map (·.key) = some (exKey 0x66) ∧
    r.seriesPages 7 1 = some (exPages 20 3) := by
  have h : ((writeFile (small exPrefix) [] .zstd exOps).bind fun w =>
      (updateTags (small exPrefix) w.file [(7, exKey 0x63), (9, exKey 0x64), (11, exKey 0x65)] .null).bind fun f1 =>
      (updateTags (small exPrefix) f1 [(9, exKey 0x66)] .null).map fun f2 =>
        (w.file.length, w.footer.tableOffset + w.footer.tableSize, f1.length, f2.length)) = some (1281, 1060, 1296, 1296) := by
    decide +kernel
  simp only [Option.bind_eq_some_iff, Option.map_eq_some_iff, Prod.mk.injEq] at h
  obtain ⟨w, hw, f1, hf1, f2, hf2, n1, n2, n3, n4⟩ := h
  obtain ⟨r, hr, S, _⟩ := C88_update_tags_partial (small_ok exPrefix) exOps_ok hw (by omega) (by omega)
    (updates := [[(7, exKey 0x63), (9, exKey 0x64), (11, exKey 0x65)], [(9, exKey 0x66)]]) (files := [f1, f2])
    (by
      intro keys hk
      refine ⟨?_, ?_⟩
      · simp only [List.mem_cons, List.not_mem_nil, or_false] at hk
        rcases hk with rfl | rfl <;> simp
      · intro e he
        simp only [List.mem_cons, List.not_mem_nil, or_false] at hk
        rcases hk with rfl | rfl
        · simp only [List.mem_cons, List.not_mem_nil, or_false] at he
          rcases he with rfl | rfl | rfl <;> exact exKey_sized _
        · simp only [List.mem_cons, List.not_mem_nil, or_false] at he
          subst he
          exact exKey_sized _)
    rfl
    (by
      intro f hf
      simp only [List.mem_cons, List.not_mem_nil, or_false] at hf
      rcases hf with rfl | rfl <;> omega)
    (by
      intro i keys f hi hf
      match i, hi, hf with
      | 0, hi, hf => cases hi; cases hf; exact hf1
      | 1, hi, hf => cases hi; cases hf; exact hf2
      | i + 2, hi, _ => simp at hi)
  refine ⟨w, f1, f2, r, hw, hf1, hf2, hr, ?_, ?_, S.pages 7 1⟩
  · obtain ⟨c, hc, C⟩ := S.chunk 7 (by decide)
    rw [hc]
    exact congrArg some (C.key ⟨exSchema, 7, exKey 0x63, exPages 10 1, ⟨10, 10⟩⟩ rfl)
  · obtain ⟨c, hc, C⟩ := S.chunk 9 (by decide)
    rw [hc]
    exact congrArg some (C.key ⟨exSchema, 9, exKey 0x66, exPages 5 2, ⟨5, 5⟩⟩ rfl)

/-- **C88 fails** with compressed metadata: the small file can be opened before the update, the update reports no error, and afterwards
the file cannot be opened. -/
theorem C88_update_compressed_refuted : ∃ (P : Params) (ops : List Op) (ws : List Written) (w : Writer) (keys : List (Nat × SeriesKey)) (f : Bytes),
    P.Ok ∧ OpsOK ops ws ∧ KeysOK keys ∧ writeFile P [] .zstd ops = some w ∧ (openFile P w.file).isSome = true ∧
    updateTags P w.file keys .zstd = some f ∧ openFile P f = none := by
  have h : ((writeFile (small exPrefix) [] .zstd exOps).bind fun w => (openFile (small exPrefix) w.file).bind fun _ =>
      (updateTags (small exPrefix) w.file [(7, exKey 0x63)] .zstd).map fun f => (openFile (small exPrefix) f).isNone) = some true := by
    decide +kernel
  simp only [Option.bind_eq_some_iff, Option.map_eq_some_iff] at h
  obtain ⟨w, hw, r, hr, f, hf, hn⟩ := h
  refine ⟨small exPrefix, exOps, exWs, w, [(7, exKey 0x63)], f, small_ok _, exOps_ok, ⟨by decide, ?_⟩, hw, by rw [hr]; rfl, hf, by
    simpa using hn⟩
  intro e he
  simp only [List.mem_cons, List.not_mem_nil, or_false] at he
  subst he
  exact exKey_sized _

end Verif.Tsm
