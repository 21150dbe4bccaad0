import Verif.Wal.RecordProps
/-!
# Model: reading one entry by position — `tskv/src/wal/reader.rs:54-69`, `record_file/reader.rs:296-299, 331-340`; C21

Each log file has one reader that stays open while the file is appended to and cut (`WalFileMeta::reader`,
wal_store.rs:147-153).  Its buffer is kept from one call to the next.
-/
namespace Verif.Wal

variable {crc : Bytes → BitVec 32} {f : Bytes} {r : Rd}

/-- `reload_metadata` (record_file/reader.rs:331-340), for files without footer. -/
def Rd.reload (f : Bytes) (r : Rd) : Rd := { r with fileLen := f.length, footerPos := f.length }

/-- `read_wal_record_data` up to decoding (wal/reader.rs:54-57), `read_record_at` (record_file/reader.rs:296-299). -/
def Rd.readAt (crc : Bytes → BitVec 32) (f : Bytes) (pos : Nat) (r : Rd) : Rd × Out :=
  match (r.reload f).setPos f pos with
  | (r, false) => (r, .eof)
  | (r, true) => r.next crc f

/-- The reader's buffer agrees with the file. -/
def Sync (f : Bytes) (r : Rd) : Prop := RdOk f (r.reload f)

theorem sync_open (crc : Bytes → BitVec 32) (f : Bytes) : Sync f (openReader crc f) := by
  obtain ⟨h1, h2, h3, h4, _⟩ := open_ok crc f
  exact ⟨h1, h2, h3, h4, rfl⟩

/-- Appending to the file does not disturb an open reader. -/
theorem Sync.grow (h : Sync f r) (g : Bytes) : Sync (f ++ g) r := by
  obtain ⟨h1, h2, h3, h4, h5⟩ := h
  refine ⟨h1, h2, h3, ?_, rfl⟩
  show r.buf.take r.len = slice (f ++ g) (r.pos - r.used) r.len
  change r.buf.take r.len = slice f (r.pos - r.used) r.len at h4
  by_cases h0 : r.len = 0
  · rw [h0]; simp [slice]
  · have : r.pos - r.used + r.len ≤ f.length :=
      RdOk.fits (f := f) (r := r.reload f) ⟨h1, h2, h3, h4, h5⟩ (Nat.pos_of_ne_zero h0)
    rw [slice_append f g this]
    exact h4

theorem Sync.readAt (h : Sync f r) (pos : Nat) : Sync f (r.readAt crc f pos).1 := by
  obtain ⟨s1, s2, s3, s4, s5⟩ := setPos_ok h pos
  unfold Rd.readAt
  generalize (r.reload f).setPos f pos = x at *
  obtain ⟨r', b⟩ := x
  have up : ∀ r'', RdOk f r'' → Sync f r'' := fun r'' ⟨h1, h2, h3, h4, _⟩ => ⟨h1, h2, h3, h4, rfl⟩
  cases b
  · exact up _ s1
  · exact up _ (next_spec s1).1

/-- **C21, bytes**: while a file is only appended to, reading at the position of a record returns that record, whatever
was read through the same reader before.  (Records of log entries are never empty.) -/
theorem C21_read_at (h : Sync f r) {a b : Bytes} {p : Put} (hl : p.data.length < 2 ^ 32) (hp : p.data ≠ [])
    (hf : f = a ++ (encRec crc p ++ b)) :
    (r.readAt crc f a.length).2 = .ok ⟨p.ver, p.typ, p.data, a.length⟩ := by
  have hlen : a.length + 14 < f.length := by
    have := List.length_pos_iff.2 hp
    rw [hf]; simp only [List.length_append, encRec_length]; omega
  obtain ⟨s1, s2, s3, s4, s5⟩ := setPos_ok h a.length
  unfold Rd.readAt
  generalize (r.reload f).setPos f a.length = x at *
  obtain ⟨r', b'⟩ := x
  have hb : b' = true := s4 (by omega)
  subst hb
  obtain ⟨n1, n2, n3⟩ := next_spec (crc := crc) s1
  have e3 : r'.pos = a.length := s3 rfl
  have e2 : r'.footerPos = f.length := s2
  rw [e2, e3] at n3
  simp only
  exact (reads_rec' hl hf (Nat.le_refl _) (by intro q h1 h2; omega) hlen n3).1

/-- What `read_record` returns when everything it needs is in the buffer: the file does not matter. -/
theorem next_window {n : Nat} (hb : r.len ≤ r.buf.length) (hm : (r.buf.drop r.used).take 4 = recMagic)
    (hn : n = beDec ((r.buf.drop (r.used + 6)).take 4)) (hn0 : 0 < n) (hw : r.used + 14 + n ≤ r.len)
    (hpu : r.used ≤ r.pos) (hfl : r.pos + 14 + n ≤ r.fileLen) (hft : r.pos + 14 < r.footerPos)
    (hf : r.pos ≤ f.length)
    (hc : crc ((r.buf.drop (r.used + 4)).take 6 ++ (r.buf.drop (r.used + 14)).take n) =
      BitVec.ofNat 32 (beDec ((r.buf.drop (r.used + 10)).take 4))) :
    (r.next crc f).2 = .ok ⟨r.buf.getD (r.used + 4) 0#8, r.buf.getD (r.used + 5) 0#8, (r.buf.drop (r.used + 14)).take n,
      r.pos⟩ ∧
    (r.used + 14 + n < r.len → (r.next crc f).1 = { r with pos := r.pos + 14 + n, used := r.used + 14 + n }) := by
  have rd : ∀ (s : Rd) (k : Nat), s.used + k ≤ s.len → s.len ≤ s.buf.length →
      s.read f k = (s, (s.buf.drop s.used).take k) := by
    intro s k h1 h2
    have h3 : ¬ s.buf.length < k := by omega
    have h4 : ¬ s.len - s.used < k := by omega
    simp only [Rd.read, h3, h4, if_false]
    rw [show min (s.used + k) s.len - s.used = k by omega]
  have sp : ∀ (s : Rd) (k : Nat), 0 < s.used + k → s.used ≤ s.pos → 0 < k → s.used + k < s.len → s.pos + k ≤ s.fileLen →
      s.setPos f (s.pos + k) = ({ s with pos := s.pos + k, used := s.used + k }, true) := by
    intro s k h0 h1 h2 h3 h4
    unfold Rd.setPos
    rw [if_neg (by omega), if_neg (by omega), if_neg (by omega), if_pos (by omega), if_pos (by omega)]
    rw [show s.pos + k - s.pos = k by omega]
  unfold Rd.next
  rw [if_neg (by omega)]
  obtain ⟨k, hk⟩ : ∃ k, f.length + 2 - r.pos = k + 1 := ⟨f.length + 1 - r.pos, by omega⟩
  rw [hk]
  unfold Rd.findHeader
  rw [rd r 4 (by omega) hb]
  simp only
  rw [if_pos hm, rd r 14 (by omega) hb]
  simp only
  unfold Rd.body
  rw [if_neg (by simp only [List.length_take, List.length_drop]; omega)]
  simp only
  rw [sp r 14 (by omega) hpu (by omega) (by omega) (by omega)]
  simp only
  have g : ∀ j m, j + m ≤ 14 → (((r.buf.drop r.used).take 14).drop j).take m = (r.buf.drop (r.used + j)).take m := by
    intro j m hj
    rw [List.drop_take, List.drop_drop, List.take_take, Nat.min_eq_left (by omega)]
  rw [g 6 4 (by omega), g 10 4 (by omega), g 4 6 (by omega), ← hn]
  have e4 := rd ⟨r.pos + 14, r.buf, r.len, r.used + 14, r.fileLen, r.footerPos⟩ n (by simp only; omega) hb
  rw [e4]
  simp only
  rw [if_neg (by simp only [List.length_take, List.length_drop]; omega)]
  have gd : ∀ j, j < 14 → ((r.buf.drop r.used).take 14).getD j 0#8 = r.buf.getD (r.used + j) 0#8 := by
    intro j hj
    simp only [List.getD_eq_getElem?_getD]
    rw [List.getElem?_take_of_lt hj, List.getElem?_drop]
  rw [gd 4 (by omega), gd 5 (by omega)]
  by_cases hlt : r.used + 14 + n < r.len
  · have := sp { r with pos := r.pos + 14, used := r.used + 14 } n (by simp only; omega) (by simp only; omega) hn0
      (by simp only; omega) (by simp only; omega)
    simp only at this
    rw [this]
    simp only
    rw [if_pos hc]
    exact ⟨rfl, fun _ => rfl⟩
  · unfold Rd.setPos
    simp only
    rw [if_neg (by omega), if_neg (by omega), if_neg (by omega), if_pos (by omega), if_neg (by omega)]
    simp only
    rw [if_pos hc]
    exact ⟨rfl, fun h => absurd h hlt⟩

theorem read_load (s : Rd) {k : Nat} (h1 : k ≤ s.buf.length) (h2 : s.len - s.used < k) :
    (s.read f k).1 = s.load f := by
  have h3 : ¬ s.buf.length < k := by omega
  simp only [Rd.read, h3, h2, if_false, if_true]

theorem read_in (s : Rd) {k : Nat} (h1 : k ≤ s.buf.length) (h2 : k ≤ s.len - s.used) : (s.read f k).1 = s := by
  have h3 : ¬ s.buf.length < k := by omega
  have h4 : ¬ s.len - s.used < k := by omega
  simp only [Rd.read, h3, h4, if_false]

/-- Opening a reader and reading from the first record is like reading with the whole file in the buffer. -/
theorem open_next (hft : footerAt crc f = none) (hl : 18 < f.length) (hs : f.length < 1024 * 1024 * 64) :
    (openReader crc f).readAt crc f 4 =
      Rd.next crc f ⟨4, f.drop 4, f.length - 4, 0, f.length, f.length⟩ := by
  have e : (openReader crc f).reload f = ⟨4, List.replicate (f.length - 4) 0#8, 0, 0, f.length, f.length⟩ := by
    simp only [Rd.reload, openReader, hft]
    have h64 : f.length - 4 ≤ 1024 * 1024 * 64 := by omega
    rw [Nat.min_eq_left h64]
  unfold Rd.readAt
  rw [e]
  have : (⟨4, List.replicate (f.length - 4) 0#8, 0, 0, f.length, f.length⟩ : Rd).setPos f 4 =
      (⟨4, List.replicate (f.length - 4) 0#8, 0, 0, f.length, f.length⟩, true) := by
    exact if_pos rfl
  rw [this]
  simp only
  unfold Rd.next
  simp only
  rw [if_neg (by omega), if_neg (by omega)]
  have h2 : f.length + 2 - 4 = (f.length - 3) + 1 := by omega
  rw [h2]
  have r4 : ((⟨4, List.replicate (f.length - 4) 0#8, 0, 0, f.length, f.length⟩ : Rd).read f 4).1 =
      ((⟨4, f.drop 4, f.length - 4, 0, f.length, f.length⟩ : Rd).read f 4).1 := by
    rw [read_load _ (by simp only [List.length_replicate]; omega) (by simp only; omega),
      read_in _ (by simp only [List.length_drop]; omega) (by simp only; omega)]
    simp only [Rd.load, List.length_replicate]
    have t1 : (f.drop 4).take (f.length - 4) = f.drop 4 := List.take_of_length_le (by simp)
    have t2 : (List.replicate (f.length - 4) 0#8).drop (f.drop 4).length = [] := List.drop_of_length_le (by simp)
    rw [t1, t2, List.append_nil, List.length_drop]
  unfold Rd.findHeader
  rw [r4]

/-- **C21 refuted** for files that were cut: an open reader returns an entry that was cut off, in place of the
one appended there afterwards.  The reader reads the first of two records (which loads the whole file), the file is
cut after the first record, another second record is appended, and the second record is read. -/
theorem C21_stale_reader_refuted (crc : Bytes → BitVec 32) : ∃ (x y z : Put), y ≠ z ∧ x.data ≠ [] ∧
    y.data ≠ [] ∧ z.data ≠ [] ∧
    let f1 := fileOf crc [x, y]
    let f2 := f1.take (fileOf crc [x]).length ++ encRec crc z
    let r := ((openReader crc f1).readAt crc f1 4).1
    f2 = fileOf crc [x, z] ∧
    (r.readAt crc f2 (fileOf crc [x]).length).2 = .ok ⟨y.ver, y.typ, y.data, (fileOf crc [x]).length⟩ := by
  let x : Put := ⟨1#8, 8#8, [1#8]⟩
  let y : Put := ⟨1#8, 8#8, [2#8]⟩
  let z : Put := ⟨1#8, 8#8, [3#8]⟩
  have hx : ∃ a b c d : Byte, beEnc 4 (crc (crcSrc x)).toNat = [a, b, c, d] :=
    ⟨_, _, _, _, by simp [beEnc]; exact ⟨rfl, rfl, rfl, rfl⟩⟩
  have hy : ∃ a b c d : Byte, beEnc 4 (crc (crcSrc y)).toNat = [a, b, c, d] :=
    ⟨_, _, _, _, by simp [beEnc]; exact ⟨rfl, rfl, rfl, rfl⟩⟩
  obtain ⟨a1, a2, a3, a4, hx⟩ := hx
  obtain ⟨b1, b2, b3, b4, hy⟩ := hy
  have cx : BitVec.ofNat 32 (beDec [a1, a2, a3, a4]) = crc (crcSrc x) := by
    rw [← hx, beDec_beEnc_of_lt (by have := (crc (crcSrc x)).isLt; omega)]; simp
  have cy : BitVec.ofNat 32 (beDec [b1, b2, b3, b4]) = crc (crcSrc y) := by
    rw [← hy, beDec_beEnc_of_lt (by have := (crc (crcSrc y)).isLt; omega)]; simp
  have sx : crcSrc x = [1#8, 8#8, 0#8, 0#8, 0#8, 1#8, 1#8] := by decide
  have sy : crcSrc y = [1#8, 8#8, 0#8, 0#8, 0#8, 1#8, 2#8] := by decide
  rw [sx] at cx
  rw [sy] at cy
  have n1 : beEnc 4 1 = [0#8, 0#8, 0#8, 1#8] := by decide
  have f1e : fileOf crc [x, y] = [0x52#8, 0x45#8, 0x43#8, 0x4f#8, 0x46#8, 0x6c#8, 0x4f#8, 0x67#8, 1#8, 8#8,
      0#8, 0#8, 0#8, 1#8, a1, a2, a3, a4, 1#8, 0x46#8, 0x6c#8, 0x4f#8, 0x67#8, 1#8, 8#8,
      0#8, 0#8, 0#8, 1#8, b1, b2, b3, b4, 2#8] := by
    simp only [fileOf, List.map_cons, List.map_nil, encRec, hx, hy]
    simp [x, y, n1, fileMagic, recMagic]
  have f0l : (fileOf crc [x]).length = 19 := by simp [fileOf, fileMagic, x]
  have f2e : (fileOf crc [x, y]).take 19 ++ encRec crc z = fileOf crc [x, z] := by
    have : fileOf crc [x, y] = fileOf crc [x] ++ encRec crc y := by simp [fileOf]
    rw [this, List.take_append_of_le_length (by omega), List.take_of_length_le (by omega)]
    simp [fileOf]
  have f2l : (fileOf crc [x, z]).length = 34 := by simp [fileOf, fileMagic, x, z]
  have f1l : (fileOf crc [x, y]).length = 34 := by rw [f1e]; rfl
  refine ⟨x, y, z, by decide, by decide, by decide, by decide, ?_⟩
  simp only
  rw [f0l, f2e]
  refine ⟨rfl, ?_⟩
  have hft : footerAt crc (fileOf crc [x, y]) = none := by
    unfold footerAt; rw [if_pos (by omega)]
  rw [open_next hft (by omega) (by omega)]
  obtain ⟨_, e2⟩ := next_window (crc := crc) (f := fileOf crc [x, y]) (n := 1)
    (r := ⟨4, (fileOf crc [x, y]).drop 4, (fileOf crc [x, y]).length - 4, 0, (fileOf crc [x, y]).length,
      (fileOf crc [x, y]).length⟩)
    (by simp) (by simp only; rw [f1e]; rfl) (by simp only; rw [f1e]; rfl) (by omega) (by simp only; omega)
    (by simp only; omega) (by simp only; omega) (by simp only; omega) (by simp only; omega)
    (by
      simp only [f1e]
      exact cx.symm)
  rw [e2 (by simp only; omega)]
  simp only
  unfold Rd.readAt Rd.reload
  simp only
  rw [f1l, f2l, f1e]
  have sp : (⟨4 + 14 + 1, [0x52#8, 0x45#8, 0x43#8, 0x4f#8, 0x46#8, 0x6c#8, 0x4f#8, 0x67#8, 1#8, 8#8,
      0#8, 0#8, 0#8, 1#8, a1, a2, a3, a4, 1#8, 0x46#8, 0x6c#8, 0x4f#8, 0x67#8, 1#8, 8#8,
      0#8, 0#8, 0#8, 1#8, b1, b2, b3, b4, 2#8].drop 4, 34 - 4, 0 + 14 + 1, 34, 34⟩ : Rd).setPos (fileOf crc [x, z]) 19 =
    (⟨19, [0x52#8, 0x45#8, 0x43#8, 0x4f#8, 0x46#8, 0x6c#8, 0x4f#8, 0x67#8, 1#8, 8#8,
      0#8, 0#8, 0#8, 1#8, a1, a2, a3, a4, 1#8, 0x46#8, 0x6c#8, 0x4f#8, 0x67#8, 1#8, 8#8,
      0#8, 0#8, 0#8, 1#8, b1, b2, b3, b4, 2#8].drop 4, 30, 15, 34, 34⟩, true) := by
    unfold Rd.setPos
    simp only
    rw [if_neg (by omega), if_neg (by omega), if_neg (by omega), if_neg (by omega)]
  rw [sp]
  simp only
  obtain ⟨e1, _⟩ := next_window (crc := crc) (f := fileOf crc [x, z]) (n := 1)
    (r := ⟨19, [0x52#8, 0x45#8, 0x43#8, 0x4f#8, 0x46#8, 0x6c#8, 0x4f#8, 0x67#8, 1#8, 8#8,
      0#8, 0#8, 0#8, 1#8, a1, a2, a3, a4, 1#8, 0x46#8, 0x6c#8, 0x4f#8, 0x67#8, 1#8, 8#8,
      0#8, 0#8, 0#8, 1#8, b1, b2, b3, b4, 2#8].drop 4, 30, 15, 34, 34⟩)
    (by simp) rfl (by simp only; rfl) (by omega) (by simp only; omega) (by simp only; omega) (by simp only; omega)
    (by simp only; omega) (by simp only; omega) (by exact cy.symm)
  rw [e1]
  rfl

/-! ## Example for `C21_read_at` -/

private def v1 : Put := ⟨1#8, 8#8, [1#8]⟩
private def v2 : Put := ⟨1#8, 8#8, [2#8, 9#8]⟩

/-- Open on one record, append another, read it, read the first one. -/
example :
    let r := openReader sumCrc (fileOf sumCrc [v1])
    let r1 := r.readAt sumCrc (fileOf sumCrc [v1, v2]) 19
    r1.2 = .ok ⟨1#8, 8#8, [2#8, 9#8], 19⟩ ∧
    (r1.1.readAt sumCrc (fileOf sumCrc [v1, v2]) 4).2 = .ok ⟨1#8, 8#8, [1#8], 4⟩ := by decide +kernel

end Verif.Wal
