import Verif.Wal.RecordLemmas
/-!
# Record files: C18, C19, C20, C66, C67
-/
namespace Verif.Wal

variable {crc : Bytes → BitVec 32} {f : Bytes} {r : Rd}

/-- The header of a record. -/
def hdr (crc : Bytes → BitVec 32) (p : Put) : Bytes :=
  recMagic ++ (p.ver :: p.typ :: (beEnc 4 p.data.length ++ beEnc 4 (crc (crcSrc p)).toNat))

theorem encRec_eq (p : Put) : encRec crc p = hdr crc p ++ p.data := by
  simp [encRec, hdr, List.append_assoc]

@[simp] theorem hdr_length (p : Put) : (hdr crc p).length = 14 := by
  simp [hdr, recMagic]

@[simp] theorem encRec_length (p : Put) : (encRec crc p).length = 14 + p.data.length := by
  rw [encRec_eq, List.length_append, hdr_length]

/-- Reading the fields of a header that is in the file. -/
theorem hdr_at {p : Put} {q : Nat} (h : slice f q 14 = hdr crc p) (hl : p.data.length < 2 ^ 32) :
    MagicAt f q ∧ verAt f q = p.ver ∧ typAt f q = p.typ ∧ sizeAt f q = p.data.length ∧
    crcAt f q = crc (crcSrc p) ∧ slice f (q + 4) 6 = p.ver :: p.typ :: beEnc 4 p.data.length := by
  have sub : ∀ k n, k + n ≤ 14 → slice f (q + k) n = (((hdr crc p).drop k).take n) := by
    intro k n hk
    rw [← h, slice_drop, slice_take, Nat.min_eq_left (by omega)]
  refine ⟨?_, ?_, ?_, ?_, ?_, ?_⟩
  · have := sub 0 4 (by omega)
    simp only [Nat.add_zero, List.drop_zero] at this
    unfold MagicAt
    rw [this]
    simp [hdr, recMagic]
  · unfold verAt; rw [h]; simp [hdr, recMagic]
  · unfold typAt; rw [h]; simp [hdr, recMagic]
  · unfold sizeAt
    rw [sub 6 4 (by omega)]
    have : ((hdr crc p).drop 6).take 4 = beEnc 4 p.data.length := by simp [hdr, recMagic]
    rw [this, beDec_beEnc_of_lt (by omega)]
  · unfold crcAt
    rw [sub 10 4 (by omega)]
    have e1 : hdr crc p = (recMagic ++ (p.ver :: p.typ :: beEnc 4 p.data.length)) ++ beEnc 4 (crc (crcSrc p)).toNat := by
      simp [hdr]
    have : ((hdr crc p).drop 10).take 4 = beEnc 4 (crc (crcSrc p)).toNat := by
      rw [e1, List.drop_append_of_le_length (by simp [recMagic]), List.drop_of_length_le (by simp [recMagic])]
      rw [List.nil_append, List.take_of_length_le (by simp)]
    rw [this, beDec_beEnc_of_lt (by have := (crc (crcSrc p)).isLt; omega)]
    simp
  · rw [sub 4 6 (by omega)]
    simp [hdr, recMagic]

theorem slice_mid (a x b : Bytes) {k n : Nat} (h : k + n ≤ x.length) :
    slice (a ++ (x ++ b)) (a.length + k) n = slice x k n := by
  unfold slice
  rw [List.drop_append, List.drop_of_length_le (by omega), List.nil_append,
    show a.length + k - a.length = k by omega, List.drop_append_of_le_length (by omega),
    List.take_append_of_le_length (by simp; omega)]

/-- A call at or before the start of a complete record, with no record magic in between, returns it. -/
theorem reads_rec' {a b : Bytes} {p : Put} {ft p0 p' : Nat} {o : Out} (hl : p.data.length < 2 ^ 32)
    (hf : f = a ++ (encRec crc p ++ b)) (hp0 : p0 ≤ a.length) (hno : ∀ q, p0 ≤ q → q < a.length → ¬ MagicAt f q)
    (hft : p0 + 14 < ft) (h : Reads crc f ft p0 o p') :
    o = .ok ⟨p.ver, p.typ, p.data, a.length⟩ ∧ p' = a.length + 14 + p.data.length := by
  have h14 : slice f a.length 14 = hdr crc p := by
    have := slice_mid a (encRec crc p) b (k := 0) (n := 14) (by simp)
    rw [Nat.add_zero] at this
    rw [hf, this, encRec_eq]
    simp [slice]
  obtain ⟨m1, m2, m3, m4, m5, m6⟩ := hdr_at h14 hl
  have hd : dataAt f a.length = p.data := by
    unfold dataAt
    rw [m4, hf, slice_mid a (encRec crc p) b (by simp), encRec_eq]
    unfold slice
    rw [List.drop_append_of_le_length (by simp), List.drop_of_length_le (by simp)]
    simp
  have hlen : a.length + 14 + p.data.length ≤ f.length := by
    rw [hf]; simp only [List.length_append, encRec_length]; omega
  have uniq : ∀ {q}, FirstMagic f p0 q → q = a.length := by
    intro q hq
    by_contra hne
    by_cases hlt : q < a.length
    · exact hno q hq.1 hlt hq.2.1
    · exact hq.2.2 a.length hp0 (by omega) m1
  cases h with
  | short h => omega
  | none _ hn => exact absurd m1 (hn _ hp0)
  | stale _ hn => exact absurd m1 (hn _ hp0)
  | cut _ hq hlt => cases uniq hq; omega
  | badSize _ hq _ hlt => cases uniq hq; rw [m4] at hlt; omega
  | badCrc _ hq _ hc =>
    cases uniq hq
    refine absurd ?_ hc
    rw [m6, hd, m5]
    rfl
  | ok _ hq _ _ =>
    cases uniq hq
    rw [m2, m3, hd, m4]
    exact ⟨rfl, rfl⟩

/-- The records with their positions. -/
def located : Nat → List Put → List Rec
  | _, [] => []
  | off, p :: ps => ⟨p.ver, p.typ, p.data, off⟩ :: located (off + 14 + p.data.length) ps

/-- What was written, without positions. -/
def Rec.put (x : Rec) : Put := ⟨x.ver, x.typ, x.data⟩

theorem located_put (off : Nat) (ps : List Put) : (located off ps).map Rec.put = ps := by
  induction ps generalizing off with
  | nil => rfl
  | cons p ps ih => simp only [located, List.map_cons, ih]; rfl

theorem reads_eof {ft p p' : Nat} {o : Out} (h : Reads crc f ft p o p') (hft : ft ≤ p + 14) : o = .eof := by
  cases h <;> first | rfl | omega

/-- One round of `readAll` at or before a complete record. -/
theorem readAll_rec' {P : Policy} {a b : Bytes} {p : Put} {fuel : Nat} (hr : RdOk f r) (hl : p.data.length < 2 ^ 32)
    (hf : f = a ++ (encRec crc p ++ b)) (hp : r.pos ≤ a.length)
    (hno : ∀ q, r.pos ≤ q → q < a.length → ¬ MagicAt f q) (hft : r.pos + 14 < r.footerPos) :
    ∃ r', RdOk f r' ∧ r'.footerPos = r.footerPos ∧ r'.pos = (a ++ encRec crc p).length ∧
      readAll crc P f (fuel + 1) r =
        (⟨p.ver, p.typ, p.data, a.length⟩ :: (readAll crc P f fuel r').1, (readAll crc P f fuel r').2) := by
  obtain ⟨h1, h2, h3⟩ := next_spec (crc := crc) hr
  obtain ⟨e1, e2⟩ := reads_rec' hl hf hp hno hft h3
  generalize hg : r.next crc f = g at h1 h2 e1 e2
  obtain ⟨r', o⟩ := g
  simp only at h1 h2 e1 e2
  subst e1
  refine ⟨r', h1, h2, by rw [e2]; simp only [List.length_append, encRec_length]; omega, ?_⟩
  rw [readAll, hg]

/-- One round of `readAll` at a complete record. -/
theorem readAll_rec {P : Policy} {a b : Bytes} {p : Put} {fuel : Nat} (hr : RdOk f r) (hl : p.data.length < 2 ^ 32)
    (hf : f = a ++ (encRec crc p ++ b)) (hp : r.pos = a.length) (hft : a.length + 14 < r.footerPos) :
    ∃ r', RdOk f r' ∧ r'.footerPos = r.footerPos ∧ r'.pos = (a ++ encRec crc p).length ∧
      readAll crc P f (fuel + 1) r =
        (⟨p.ver, p.typ, p.data, a.length⟩ :: (readAll crc P f fuel r').1, (readAll crc P f fuel r').2) :=
  readAll_rec' hr hl hf (by omega) (by intro q h1 h2; omega) (by omega)

/-- Records at the end of the file are read back. -/
theorem readAll_back {P : Policy} : ∀ (ps : List Put) (a : Bytes) (fuel : Nat) (r : Rd),
    (∀ p ∈ ps, p.data.length < 2 ^ 32) → (∀ p, ps.getLast? = some p → p.data ≠ []) →
    f = a ++ (ps.map (encRec crc)).flatten → RdOk f r → r.pos = a.length → r.footerPos = f.length →
    ps.length < fuel → readAll crc P f fuel r = (located a.length ps, some .eof)
  | [], a, fuel + 1, r, _, _, hf, hr, hp, hft, _ => by
    obtain ⟨_, _, h3⟩ := next_spec (crc := crc) hr
    have e := reads_eof h3 (by rw [hft, hp, hf]; simp)
    rw [readAll]
    generalize r.next crc f = g at e
    obtain ⟨r', o⟩ := g
    simp only at e
    subst e
    rfl
  | p :: ps, a, fuel + 1, r, hl, hlast, hf, hr, hp, hft, hfu => by
    have hf' : f = a ++ (encRec crc p ++ (ps.map (encRec crc)).flatten) := by rw [hf]; simp
    have hlt : a.length + 14 < r.footerPos := by
      rw [hft, hf']
      simp only [List.length_append, encRec_length]
      cases ps with
      | nil =>
        have : p.data ≠ [] := hlast p rfl
        have := List.length_pos_iff.2 this
        omega
      | cons p' ps => simp only [List.map_cons, List.flatten_cons, List.length_append, encRec_length]; omega
    obtain ⟨r', h1, h2, h3, h4⟩ := readAll_rec (P := P) (fuel := fuel) hr (hl p List.mem_cons_self) hf' hp hlt
    rw [h4]
    have := readAll_back (P := P) ps (a ++ encRec crc p) fuel r' (fun p hp => hl p (List.mem_cons_of_mem _ hp))
      (by
        intro p' hp'
        cases ps with
        | nil => cases hp'
        | cons q ps => exact hlast p' (by rw [List.getLast?_cons_cons]; exact hp'))
      (by rw [hf', List.append_assoc]) h1 h3 (by rw [h2, hft]) (by simpa using hfu)
    rw [this]
    simp only [located, List.length_append, encRec_length]
    rw [Nat.add_assoc]
  | _, _, 0, _, _, _, _, _, _, _, hfu => by omega

theorem length_le_flatten (ps : List Put) : ps.length ≤ ((ps.map (encRec crc)).flatten).length := by
  induction ps with
  | nil => exact Nat.le_refl _
  | cons p ps ih => simp only [List.map_cons, List.flatten_cons, List.length_append, encRec_length,
      List.length_cons]; omega

/-- **C18, part proved**: reading a file returns exactly the records appended to it, in order, and then end-of-file,
whatever the caller does after errors.  Missing, both refuted below: the last record has no data; the contents
happen to look like a footer. -/
theorem C18_read_back_partial (P : Policy) (ps : List Put) (hl : ∀ p ∈ ps, p.data.length < 2 ^ 32)
    (hlast : ∀ p, ps.getLast? = some p → p.data ≠ []) (hft : footerAt crc (fileOf crc ps) = none) :
    (readFile crc P (fileOf crc ps)).1.map Rec.put = ps ∧ (readFile crc P (fileOf crc ps)).2 = some .eof ∧
    (readFile crc P (fileOf crc ps)).1 = located 4 ps := by
  have h := readAll_back (crc := crc) (P := P) (f := fileOf crc ps) ps fileMagic ((fileOf crc ps).length + 2) (openReader crc (fileOf crc ps))
    hl hlast rfl (open_ok _ _) rfl (by simp only [openReader, hft]; rfl)
    (by have := length_le_flatten (crc := crc) ps; simp only [fileOf, List.length_append]; omega)
  unfold readFile
  rw [h]
  exact ⟨located_put _ _, rfl, rfl⟩

/-- Appending goes to the end of the file, and opening the file again changes nothing (if it does not look like
having a footer), so `fileOf` describes any history of openings and appends. -/
theorem C18_append (ps : List Put) (p : Put) (hl : p.data.length < 2 ^ 32) (hft : footerAt crc (fileOf crc ps) = none) :
    openWriter crc [] = fileOf crc [] ∧
    writeRec crc (openWriter crc (fileOf crc ps)) p = some (fileOf crc (ps ++ [p])) := by
  refine ⟨by simp [openWriter, fileOf], ?_⟩
  have hne : fileOf crc ps ≠ [] := by simp [fileOf, fileMagic]
  simp only [openWriter, if_neg hne, hft, writeRec, if_pos hl]
  simp [fileOf]

/-- **Refuted** for an empty last record: it is not returned. -/
theorem C18_empty_last_record_refuted (crc : Bytes → BitVec 32) (P : Policy) :
    ∃ ps : List Put, footerAt crc (fileOf crc ps) = none ∧ ps ≠ [] ∧ (readFile crc P (fileOf crc ps)).1 = [] := by
  refine ⟨[⟨1#8, 8#8, []⟩], ?_, by simp, ?_⟩
  · simp [footerAt, fileOf, fileMagic]
  · simp [readFile, readAll, openReader, footerAt, fileOf, fileMagic, Rd.next]

theorem footerAt_of_long (h : f.length > 4 + 1024 + 32) (hc : slice f (f.length - 32 + 4) 4 =
    beEnc 4 (crc (slice f 4 1024)).toNat) : footerAt crc f = some (f.length - 32) := by
  unfold footerAt
  rw [if_neg (by omega)]
  have e1 : crcSrcLen f.length = 1024 := by unfold crcSrcLen; rw [if_pos h]
  have e2 : BitVec.ofNat 32 (beDec ((f.drop (f.length - 32 + 4)).take 4)) = crc (slice f 4 1024) := by
    show BitVec.ofNat 32 (beDec (slice f (f.length - 32 + 4) 4)) = _
    rw [hc, beDec_beEnc_of_lt (by have := (crc (slice f 4 1024)).isLt; omega)]
    simp
  rw [e1, e2]
  exact if_pos rfl

/-- **Refuted** in general: whatever the checksum function is, there are two records such that the second one ends in
bytes that look like a footer.  It is not returned, and opening the file for writing cuts it off. -/
theorem C18_footer_lookalike_refuted (crc : Bytes → BitVec 32) (P : Policy) : ∃ ps : List Put, ps.length = 2 ∧
    (∀ p ∈ ps, p.data.length < 2 ^ 32 ∧ p.data ≠ []) ∧
    (readFile crc P (fileOf crc ps)).1.map Rec.put = ps.take 1 ∧
    (openWriter crc (fileOf crc ps)).length = (fileOf crc ps).length - 32 := by
  obtain ⟨d1, hd1⟩ : ∃ d : Bytes, d.length = 1100 := ⟨List.replicate 1100 0#8, List.length_replicate⟩
  obtain ⟨z, hz⟩ : ∃ d : Bytes, d.length = 24 := ⟨List.replicate 24 0#8, List.length_replicate⟩
  let p1 : Put := ⟨1#8, 8#8, d1⟩
  let c := (crc (slice (fileMagic ++ encRec crc p1) 4 1024)).toNat
  let p2 : Put := ⟨1#8, 8#8, beEnc 4 c ++ z⟩
  have l1 : (encRec crc p1).length = 1114 := by rw [encRec_length]; simp [p1, hd1]
  have l2 : (encRec crc p2).length = 42 := by rw [encRec_length]; simp [p2, hz]
  have ef : fileOf crc [p1, p2] = fileMagic ++ (encRec crc p1 ++ encRec crc p2) := by simp [fileOf]
  have lf : (fileOf crc [p1, p2]).length = 1160 := by
    rw [ef]; simp only [List.length_append, l1, l2]; rfl
  have hsl : slice (fileOf crc [p1, p2]) 4 1024 = slice (fileMagic ++ encRec crc p1) 4 1024 := by
    rw [ef, ← List.append_assoc, slice_append _ _ (by simp only [List.length_append, l1]; decide)]
  have hft : footerAt crc (fileOf crc [p1, p2]) = some ((fileOf crc [p1, p2]).length - 32) := by
    refine footerAt_of_long (by rw [lf]; omega) ?_
    rw [hsl, lf]
    have e : fileOf crc [p1, p2] = (fileMagic ++ encRec crc p1 ++ hdr crc p2) ++ (beEnc 4 c ++ z) := by
      rw [ef, encRec_eq p2]; simp [p2]
    rw [e]
    have := slice_mid (fileMagic ++ encRec crc p1 ++ hdr crc p2) (beEnc 4 c) z (k := 0) (n := 4) (by simp)
    have el : (fileMagic ++ encRec crc p1 ++ hdr crc p2).length = 1132 := by
      simp only [List.length_append, l1, hdr_length]; rfl
    rw [el] at this
    rw [this]
    show (beEnc 4 c).take 4 = beEnc 4 c
    rw [List.take_of_length_le (by simp)]
  refine ⟨[p1, p2], rfl, ?_, ?_, ?_⟩
  · intro p hp
    simp only [List.mem_cons, List.not_mem_nil, or_false] at hp
    rcases hp with rfl | rfl
    · refine ⟨by simp [p1, hd1], ?_⟩
      intro h
      have := congrArg List.length h
      simp [p1, hd1] at this
    · refine ⟨by simp [p2, hz], ?_⟩
      intro h
      have := congrArg List.length h
      simp [p2, hz] at this
  · have hro := open_ok crc (fileOf crc [p1, p2])
    have hfp : (openReader crc (fileOf crc [p1, p2])).footerPos = 1128 := by
      simp only [openReader, hft, lf]; rfl
    obtain ⟨r', g1, g2, g3, g4⟩ := readAll_rec (crc := crc) (P := P) (p := p1) (a := fileMagic) (b := encRec crc p2)
      (fuel := 1161) hro (by simp [p1, hd1]) ef rfl (by rw [hfp]; decide)
    have g3' : r'.pos = 1118 := by rw [g3, List.length_append, l1]; rfl
    unfold readFile
    rw [lf, show 1160 + 2 = 1161 + 1 from rfl, g4]
    obtain ⟨_, _, n3⟩ := next_spec (crc := crc) g1
    have e := reads_eof n3 (by rw [g2, hfp, g3']; decide)
    rw [show 1161 = 1160 + 1 from rfl, readAll]
    generalize r'.next crc (fileOf crc [p1, p2]) = g at e
    obtain ⟨r'', o⟩ := g
    simp only at e
    subst e
    rfl
  · have hne : fileOf crc [p1, p2] ≠ [] := by
      intro h; rw [h] at lf; cases lf
    simp only [openWriter, if_neg hne, hft, List.length_take]
    omega

/-! ## C19 — torn files -/

/-- The records that are completely within the first `m` bytes. -/
def whole : Nat → List Put → List Put
  | _, [] => []
  | m, p :: ps => if 14 + p.data.length ≤ m then p :: whole (m - (14 + p.data.length)) ps else []

theorem whole_prefix : ∀ (m : Nat) (ps : List Put), whole m ps <+: ps
  | _, [] => List.prefix_rfl
  | m, p :: ps => by
    unfold whole
    split
    · exact (List.prefix_cons_inj p).2 (whole_prefix _ ps)
    · exact List.nil_prefix

/-- A call at the start of a record whose data is cut short. -/
theorem reads_torn {a b : Bytes} {p : Put} {ft p' : Nat} {o : Out} (hl : p.data.length < 2 ^ 32)
    (hf : f = a ++ (hdr crc p ++ b)) (hb : b.length < p.data.length) (hft : a.length + 14 < ft)
    (h : Reads crc f ft a.length o p') : o = .badSize ∧ p' = a.length + 14 := by
  have h14 : slice f a.length 14 = hdr crc p := by
    have := slice_mid a (hdr crc p) b (k := 0) (n := 14) (by simp)
    rw [Nat.add_zero] at this
    rw [hf, this]
    simp [slice, List.take_of_length_le]
  obtain ⟨m1, m2, m3, m4, m5, m6⟩ := hdr_at h14 hl
  have hlen : f.length = a.length + 14 + b.length := by
    rw [hf]; simp only [List.length_append, hdr_length]; omega
  have uniq : ∀ {q}, FirstMagic f a.length q → q = a.length := by
    intro q hq
    by_contra hne
    exact hq.2.2 a.length (Nat.le_refl _) (by have := hq.1; omega) m1
  cases h with
  | short h => omega
  | none _ hn => exact absurd m1 (hn _ (Nat.le_refl _))
  | stale _ hn => exact absurd m1 (hn _ (Nat.le_refl _))
  | cut _ hq hlt => cases uniq hq; omega
  | badSize _ hq _ hlt => cases uniq hq; exact ⟨rfl, rfl⟩
  | badCrc _ hq hlt hc => cases uniq hq; rw [m4] at hlt; omega
  | ok _ hq hlt _ => cases uniq hq; rw [m4] at hlt; omega

/-- Reading a torn file: after the complete records the reader is either near the end or at a header whose data is
cut short. -/
theorem readAll_whole {P : Policy} : ∀ (ps : List Put) (a : Bytes) (m fuel : Nat) (r : Rd),
    (∀ p ∈ ps, p.data.length < 2 ^ 32 ∧ p.data ≠ []) →
    f = a ++ ((ps.map (encRec crc)).flatten).take m → RdOk f r → r.pos = a.length → r.footerPos = f.length →
    f.length < a.length + fuel → ∃ fuel' r', RdOk f r' ∧ r'.footerPos = f.length ∧
      r'.pos = a.length + (((whole m ps).map (encRec crc)).flatten).length ∧ f.length < r'.pos + (fuel' + 1) ∧
      readAll crc P f fuel r = (located a.length (whole m ps) ++ (readAll crc P f (fuel' + 1) r').1,
        (readAll crc P f (fuel' + 1) r').2) ∧
      (f.length ≤ r'.pos + 14 ∨ ∃ p a' b, r'.pos = a'.length ∧ f = a' ++ (hdr crc p ++ b) ∧ b.length < p.data.length ∧
        b ≠ [] ∧ p.data.length < 2 ^ 32)
  | [], a, m, fuel, r, _, hf, hr, hp, hft, hfu => by
    obtain ⟨n, rfl⟩ : ∃ n, fuel = n + 1 := ⟨fuel - 1, by
      have : a.length ≤ f.length := by rw [hf]; simp
      omega⟩
    exact ⟨n, r, hr, hft, by simpa [whole] using hp, by omega, rfl, .inl (by rw [hp, hf]; simp)⟩
  | p :: ps, a, m, fuel, r, hl, hf, hr, hp, hft, hfu => by
    obtain ⟨hlp, hne⟩ := hl p List.mem_cons_self
    have hpos := List.length_pos_iff.2 hne
    obtain ⟨n, rfl⟩ : ∃ n, fuel = n + 1 := ⟨fuel - 1, by
      have : a.length ≤ f.length := by rw [hf]; simp
      omega⟩
    unfold whole
    split
    · rename_i hm
      have hf' : f = a ++ (encRec crc p ++ ((ps.map (encRec crc)).flatten).take (m - (14 + p.data.length))) := by
        rw [hf, List.map_cons, List.flatten_cons, List.take_append, encRec_length,
          List.take_of_length_le (by simpa using hm)]
      have hlt : a.length + 14 < r.footerPos := by
        rw [hft, hf']
        simp only [List.length_append, encRec_length]
        omega
      obtain ⟨r', h1, h2, h3, h4⟩ := readAll_rec (P := P) (fuel := n) hr hlp hf' hp hlt
      obtain ⟨fuel', r'', g1, g2, g3, g4, g5, g6⟩ := readAll_whole (P := P) ps (a ++ encRec crc p)
        (m - (14 + p.data.length)) n r' (fun p hp => hl p (List.mem_cons_of_mem _ hp))
        (by rw [hf', List.append_assoc]) h1 h3 (by rw [h2, hft])
        (by simp only [List.length_append, encRec_length]; omega)
      refine ⟨fuel', r'', g1, g2, ?_, g4, ?_, g6⟩
      · rw [g3]
        simp only [List.map_cons, List.flatten_cons, List.length_append]
        omega
      · rw [h4, g5]
        simp only [located, List.length_append, encRec_length, List.cons_append]
        rw [Nat.add_assoc]
    · rename_i hm
      refine ⟨n, r, hr, hft, by simpa using hp, by omega, rfl, ?_⟩
      have hf' : f = a ++ ((encRec crc p).take m) := by
        rw [hf, List.map_cons, List.flatten_cons, List.take_append_of_le_length (by rw [encRec_length]; omega)]
      by_cases hs : m ≤ 14
      · refine .inl ?_
        rw [hp, hf']; simp only [List.length_append, List.length_take]; omega
      · refine .inr ⟨p, a, p.data.take (m - 14), hp, ?_, by simp only [List.length_take]; omega, ?_, hlp⟩
        · rw [hf', encRec_eq, List.take_append, hdr_length, List.take_of_length_le (by rw [hdr_length]; omega)]
        · refine List.ne_nil_of_length_pos ?_
          simp only [List.length_take]; omega

/-- One call that returns something other than a record or a skipped error. -/
theorem readAll_stop {P : Policy} {fuel : Nat} {o : Out} (h : (r.next crc f).2 = o)
    (ho : o = .eof ∨ o = .panic ∨ o = .badSize ∧ P.onSize = false) :
    readAll crc P f (fuel + 1) r = ([], some o) := by
  rw [readAll]
  generalize r.next crc f = g at h
  obtain ⟨r', o'⟩ := g
  simp only at h
  subst h
  rcases ho with rfl | rfl | ⟨rfl, h⟩
  · rfl
  · rfl
  · simp only [h]; rfl

theorem readAll_skip {P : Policy} {fuel : Nat} (h : (r.next crc f).2 = .badSize) (hP : P.onSize = true) :
    readAll crc P f (fuel + 1) r = readAll crc P f fuel (r.next crc f).1 := by
  rw [readAll]
  generalize r.next crc f = g at h
  obtain ⟨r', o'⟩ := g
  simp only at h
  subst h
  simp only [hP]
  rfl

theorem readAll_skipCrc {P : Policy} {fuel : Nat} (h : (r.next crc f).2 = .badCrc) (hP : P.onCrc = true) :
    readAll crc P f (fuel + 1) r = readAll crc P f fuel (r.next crc f).1 := by
  rw [readAll]
  generalize r.next crc f = g at h
  obtain ⟨r', o'⟩ := g
  simp only at h
  subst h
  simp only [hP]
  rfl

theorem whole_nil (ps : List Put) : whole 0 ps = [] := by
  cases ps with
  | nil => rfl
  | cons p ps => unfold whole; rw [if_neg (by omega)]

theorem open_footer (h : footerAt crc f = none) : (openReader crc f).footerPos = f.length := by
  simp only [openReader, h]; rfl

/-- A file of which only the first bytes survive, read up to the torn record. -/
theorem read_torn (P : Policy) (ps : List Put) (hl : ∀ p ∈ ps, p.data.length < 2 ^ 32 ∧ p.data ≠ []) (n : Nat)
    (hfd : f = (fileOf crc ps).take n) (hft : footerAt crc f = none) :
    ∃ fuel' r', RdOk f r' ∧ r'.footerPos = f.length ∧
      r'.pos = 4 + (((whole (n - 4) ps).map (encRec crc)).flatten).length ∧ f.length < r'.pos + (fuel' + 1) ∧
      readFile crc P f = (located 4 (whole (n - 4) ps) ++ (readAll crc P f (fuel' + 1) r').1,
        (readAll crc P f (fuel' + 1) r').2) ∧
      (f.length ≤ r'.pos + 14 ∨ ∃ p a' b, r'.pos = a'.length ∧ f = a' ++ (hdr crc p ++ b) ∧ b.length < p.data.length ∧
        b ≠ [] ∧ p.data.length < 2 ^ 32) := by
  by_cases hn : n < 4
  · have hw : whole (n - 4) ps = [] := by rw [show n - 4 = 0 by omega, whole_nil]
    rw [hw]
    have hlen : f.length ≤ 3 := by rw [hfd, List.length_take]; omega
    refine ⟨f.length + 1, openReader crc f, open_ok _ _, open_footer hft, rfl, by omega, rfl, .inl ?_⟩
    omega
  · have hf : f = fileMagic ++ ((ps.map (encRec crc)).flatten).take (n - 4) := by
      rw [hfd]
      unfold fileOf
      rw [List.take_append, List.take_of_length_le (by simp [fileMagic]; omega)]
      rfl
    exact readAll_whole (crc := crc) (P := P) ps fileMagic (n - 4) (f.length + 2) (openReader crc f) hl hf
      (open_ok _ _) rfl (open_footer hft) (by omega)

/-- **C19, part proved (1)**: if only the first `n` bytes of a file survive, a caller that stops at a wrong size (manifest,
tombstones) gets exactly the records that are completely there, unaltered and in order, and then end-of-file or the
error.  Missing: contents that look like a footer (C18). -/
theorem C19_torn_file_partial (P : Policy) (hP : P.onSize = false) (ps : List Put)
    (hl : ∀ p ∈ ps, p.data.length < 2 ^ 32 ∧ p.data ≠ []) (n : Nat)
    (hft : footerAt crc ((fileOf crc ps).take n) = none) :
    ∃ o, (o = .eof ∨ o = .badSize) ∧
      readFile crc P ((fileOf crc ps).take n) = (located 4 (whole (n - 4) ps), some o) ∧ whole (n - 4) ps <+: ps := by
  obtain ⟨fuel, r, h1, h2, _, _, h5, h6⟩ := read_torn P ps hl n rfl hft
  obtain ⟨_, _, h3⟩ := next_spec (crc := crc) h1
  rw [h2] at h3
  rcases h6 with h6 | ⟨p, a, b, e1, e2, e3, e4, e5⟩
  · refine ⟨.eof, .inl rfl, ?_, whole_prefix _ _⟩
    rw [h5, readAll_stop (reads_eof h3 h6) (.inl rfl), List.append_nil]
  · refine ⟨.badSize, .inr rfl, ?_, whole_prefix _ _⟩
    rw [e1] at h3
    obtain ⟨g1, g2⟩ := reads_torn e5 e2 e3 (by
      have := List.length_pos_iff.2 e4
      have := congrArg List.length e2
      simp only [List.length_append, hdr_length] at this
      omega) h3
    rw [h5, readAll_stop g1 (.inr (.inr ⟨rfl, hP⟩)), List.append_nil]

/-- **C19, part proved (2)**: the same for recovery of the write-ahead log, which goes on after a wrong size, if the
surviving part of the torn record contains no record magic.  Missing: the other case, see the refutation; and
that reading does not crash (C66). -/
theorem C19_torn_wal_partial (P : Policy) (ps : List Put)
    (hl : ∀ p ∈ ps, p.data.length < 2 ^ 32 ∧ p.data ≠ []) (n : Nat)
    (hft : footerAt crc ((fileOf crc ps).take n) = none)
    (hm : ∀ q, 4 + (((whole (n - 4) ps).map (encRec crc)).flatten).length < q → ¬ MagicAt ((fileOf crc ps).take n) q) :
    (readFile crc P ((fileOf crc ps).take n)).1 = located 4 (whole (n - 4) ps) ∧ whole (n - 4) ps <+: ps := by
  refine ⟨?_, whole_prefix _ _⟩
  obtain ⟨fuel, r, h1, h2, h4, hfu, h5, h6⟩ := read_torn P ps hl n rfl hft
  rw [h5]
  generalize (fileOf crc ps).take n = f at *
  obtain ⟨n1, n2, h3⟩ := next_spec (crc := crc) h1
  rw [h2] at h3 n2
  rcases h6 with h6 | ⟨p, a, b, e1, e2, e3, e4, e5⟩
  · rw [readAll_stop (reads_eof h3 h6) (.inl rfl), List.append_nil]
  · have h3' := h3
    rw [e1] at h3'
    have hlb := List.length_pos_iff.2 e4
    have hlf := congrArg List.length e2
    simp only [List.length_append, hdr_length] at hlf
    obtain ⟨g1, g2⟩ := reads_torn e5 e2 e3 (by omega) h3'
    by_cases hP : P.onSize = false
    · rw [readAll_stop g1 (.inr (.inr ⟨rfl, hP⟩)), List.append_nil]
    · rw [readAll_skip g1 (by simpa using hP)]
      obtain ⟨k, rfl⟩ : ∃ k, fuel = k + 1 := ⟨fuel - 1, by omega⟩
      obtain ⟨_, _, k3⟩ := next_spec (crc := crc) n1
      rw [n2] at k3
      generalize (r.next crc f).1 = r' at *
      have nm : ∀ q, FirstMagic f r'.pos q → False := fun q hq => hm q (by have := hq.1; omega) hq.2.1
      have hs : (r'.next crc f).2 = .eof ∨ (r'.next crc f).2 = .panic := by
        generalize (r'.next crc f).2 = o at k3
        generalize (r'.next crc f).1.pos = z at k3
        cases k3 with
        | short => exact .inl rfl
        | none => exact .inl rfl
        | stale => exact .inr rfl
        | cut => exact .inr rfl
        | badSize _ h => exact (nm _ h).elim
        | badCrc _ h => exact (nm _ h).elim
        | ok _ h => exact (nm _ h).elim
      rcases hs with hs | hs
      · rw [readAll_stop hs (.inl rfl), List.append_nil]
      · rw [readAll_stop hs (.inr (.inl rfl)), List.append_nil]

/-- A torn one-record file, and what the two first calls do. -/
theorem one_torn {P : Policy} (hP : P.onSize = true) (p : Put) (hl : p.data.length < 2 ^ 32) (b : Bytes)
    (hb : b.length < p.data.length) (hb0 : b ≠ []) (hb1 : b.length < 18) (hf : f = fileMagic ++ (hdr crc p ++ b)) :
    ∃ r, RdOk f r ∧ r.pos = 18 ∧ r.footerPos = f.length ∧
      readFile crc P f = readAll crc P f (f.length + 1) r := by
  have hlf := congrArg List.length hf
  simp only [List.length_append, hdr_length, show fileMagic.length = 4 from rfl] at hlf
  have hft : footerAt crc f = none := by unfold footerAt; rw [if_pos (by omega)]
  obtain ⟨n1, n2, h3⟩ := next_spec (crc := crc) (open_ok crc f)
  rw [open_footer hft] at h3 n2
  have hlb := List.length_pos_iff.2 hb0
  obtain ⟨g1, g2⟩ := reads_torn (a := fileMagic) hl hf hb (by
    rw [hlf, show fileMagic.length = 4 from rfl]; omega) h3
  refine ⟨_, n1, g2, n2, ?_⟩
  unfold readFile
  rw [readAll_skip g1 hP]

/-- **Refuted** for the write-ahead log: whatever the checksum function is, a record was appended, the file was cut in
the middle of it, and recovery returns a record that was never appended: the data of the torn record contained the
bytes of a record. -/
theorem C19_wal_recovery_invents_refuted (crc : Bytes → BitVec 32) : ∃ (p q : Put) (n : Nat),
    p.data.length < 2 ^ 32 ∧ q ≠ p ∧ n < (fileOf crc [p]).length ∧ whole (n - 4) [p] = [] ∧
    (readFile crc Policy.wal ((fileOf crc [p]).take n)).1 = [⟨q.ver, q.typ, q.data, 18⟩] := by
  let q : Put := ⟨1#8, 101#8, [7#8]⟩
  let p : Put := ⟨1#8, 101#8, encRec crc q ++ [0#8, 0#8]⟩
  have lq : (encRec crc q).length = 15 := by rw [encRec_length]; rfl
  have lp : p.data.length = 17 := by simp [p, lq]
  have lf : (fileOf crc [p]).length = 35 := by
    simp only [fileOf, List.map_cons, List.map_nil, List.flatten_cons, List.flatten_nil, List.append_nil,
      List.length_append, encRec_length, lp]; rfl
  have hf : (fileOf crc [p]).take 33 = fileMagic ++ (hdr crc p ++ encRec crc q) := by
    have : fileOf crc [p] = (fileMagic ++ (hdr crc p ++ encRec crc q)) ++ [0#8, 0#8] := by
      simp [fileOf, encRec_eq p, p]
    rw [this, List.take_append_of_le_length (by simp [fileMagic, q]), List.take_of_length_le (by simp [fileMagic, q])]
  refine ⟨p, q, 33, by omega, ?_, by omega, ?_, ?_⟩
  · intro h
    have := congrArg (fun x => x.data.length) h
    simp only [lp] at this
    cases this
  · unfold whole; rw [if_neg (by omega)]
  · rw [hf]
    obtain ⟨r, h1, h2, h3, h4⟩ := one_torn (crc := crc) (P := Policy.wal) rfl p (by omega) (encRec crc q) (by omega)
      (List.ne_nil_of_length_pos (by omega)) (by omega) rfl
    rw [h4]
    have hlen : (fileMagic ++ (hdr crc p ++ encRec crc q)).length = 33 := by
      simp only [List.length_append, hdr_length, lq]; rfl
    rw [hlen] at h3 ⊢
    obtain ⟨r', g1, g2, g3, g4⟩ := readAll_rec (crc := crc) (P := Policy.wal) (p := q) (a := fileMagic ++ hdr crc p)
      (b := []) (fuel := 33) h1 (by decide) (by simp) (by rw [h2]; simp [fileMagic]) (by
        rw [h3]; simp [fileMagic])
    rw [g4]
    obtain ⟨_, _, k3⟩ := next_spec (crc := crc) g1
    have e := reads_eof k3 (by rw [g2, h3, g3]; simp [fileMagic, q])
    rw [readAll_stop e (.inl rfl)]
    simp [fileMagic]

/-! ## C66 — no crash -/

/-- **C66, part proved**: a file written by the writer and cut anywhere is read without a crash by callers that stop
at a wrong size.  Missing: contents that look like a footer; callers that go on (refuted). -/
theorem C66_torn_file_no_panic_partial (P : Policy) (hP : P.onSize = false) (ps : List Put)
    (hl : ∀ p ∈ ps, p.data.length < 2 ^ 32 ∧ p.data ≠ []) (n : Nat)
    (hft : footerAt crc ((fileOf crc ps).take n) = none) :
    (readFile crc P ((fileOf crc ps).take n)).2 ≠ some .panic := by
  obtain ⟨o, ho, h, _⟩ := C19_torn_file_partial P hP ps hl n hft
  rw [h]
  rcases ho with rfl | rfl <;> simp

/-- **Refuted** for recovery of the write-ahead log: whatever the checksum function is, one record was appended, the
file was cut in the middle of its data, and opening the log crashes, because the surviving data ends in the four
bytes of the record magic. -/
theorem C66_wal_recovery_panics_refuted (crc : Bytes → BitVec 32) : ∃ (p : Put) (n : Nat),
    p.data.length < 2 ^ 32 ∧ n < (fileOf crc [p]).length ∧
    (readFile crc Policy.wal ((fileOf crc [p]).take n)).2 = some .panic := by
  let b : Bytes := List.replicate 13 0#8 ++ recMagic
  let p : Put := ⟨1#8, 101#8, b ++ [0#8]⟩
  have lp : p.data.length = 18 := rfl
  have lf : (fileOf crc [p]).length = 36 := by
    simp only [fileOf, List.map_cons, List.map_nil, List.flatten_cons, List.flatten_nil, List.append_nil,
      List.length_append, encRec_length, lp]; rfl
  have hf : (fileOf crc [p]).take 35 = fileMagic ++ (hdr crc p ++ b) := by
    have : fileOf crc [p] = (fileMagic ++ (hdr crc p ++ b)) ++ [0#8] := by
      simp only [fileOf, encRec_eq p, p, List.map_cons, List.map_nil, List.flatten_cons, List.flatten_nil,
        List.append_nil, List.append_assoc]
    have hl : (fileMagic ++ (hdr crc p ++ b)).length = 35 := by
      simp only [List.length_append, hdr_length]; rfl
    rw [this, List.take_append_of_le_length (by omega), List.take_of_length_le (by omega)]
  refine ⟨p, 35, by omega, by omega, ?_⟩
  rw [hf]
  obtain ⟨r, h1, h2, h3, h4⟩ := one_torn (crc := crc) (P := Policy.wal) rfl p (by omega) b (by decide) (by decide)
    (by decide) rfl
  rw [h4]
  have hlen : (fileMagic ++ (hdr crc p ++ b)).length = 35 := by
    simp only [List.length_append, hdr_length]; rfl
  rw [hlen] at h3 ⊢
  have sub : ∀ k, k + 4 ≤ 17 → slice (fileMagic ++ (hdr crc p ++ b)) (18 + k) 4 = slice b k 4 := by
    intro k hk
    have := slice_mid (fileMagic ++ hdr crc p) b [] (k := k) (n := 4) (by show k + 4 ≤ 17; exact hk)
    rw [List.append_nil, List.append_assoc, List.length_append, hdr_length] at this
    exact this
  have hm : MagicAt (fileMagic ++ (hdr crc p ++ b)) 31 := by
    unfold MagicAt
    rw [sub 13 (by omega)]; decide
  have hno : ∀ q, 18 ≤ q → q ≤ 21 → ¬ MagicAt (fileMagic ++ (hdr crc p ++ b)) q := by
    intro q hq1 hq2
    obtain ⟨k, rfl⟩ : ∃ k, q = 18 + k := ⟨q - 18, by omega⟩
    unfold MagicAt
    rw [sub k (by omega)]
    have : k = 0 ∨ k = 1 ∨ k = 2 ∨ k = 3 := by omega
    rcases this with rfl | rfl | rfl | rfl <;> decide
  obtain ⟨_, _, k3⟩ := next_spec (crc := crc) h1
  rw [h2, h3] at k3
  have hs : (r.next crc (fileMagic ++ (hdr crc p ++ b))).2 = .panic := by
    generalize (r.next crc (fileMagic ++ (hdr crc p ++ b))).2 = o at k3
    generalize (r.next crc (fileMagic ++ (hdr crc p ++ b))).1.pos = z at k3
    cases k3 with
    | short h => omega
    | none _ h => exact absurd hm (h _ (by omega))
    | stale => rfl
    | cut => rfl
    | badSize _ h h' => exact absurd h.2.1 (hno _ h.1 (by omega))
    | badCrc _ h h' => exact absurd h.2.1 (hno _ h.1 (by omega))
    | ok _ h h' => exact absurd h.2.1 (hno _ h.1 (by omega))
  rw [readAll_stop hs (.inr (.inl rfl))]

/-! ## C20 — what is returned has a matching checksum -/

theorem slice_split (f : Bytes) (p m n : Nat) : slice f p (m + n) = slice f p m ++ slice f (p + m) n := by
  unfold slice
  rw [List.take_add, List.drop_drop]

theorem slice_full {f : Bytes} {p n : Nat} (h : p + n ≤ f.length) : (slice f p n).length = n := by
  rw [slice_length]; omega

/-- A call that returns a record: the file contains at that place the bytes the writer would write for it. -/
theorem reads_ok {ft p p' : Nat} {x : Rec} (h : Reads crc f ft p (.ok x) p') :
    p ≤ x.pos ∧ p' = x.pos + 14 + x.data.length ∧ p' ≤ f.length ∧
    slice f x.pos (14 + x.data.length) = encRec crc x.put := by
  cases h with
  | @ok q h1 h2 h3 h4 =>
    have hd : (dataAt f q).length = sizeAt f q := slice_full h3
    simp only
    rw [hd]
    refine ⟨h2.1, rfl, h3, ?_⟩
    have s4 : (slice f (q + 6) 4).length = 4 := slice_full (by omega)
    have s10 : (slice f (q + 10) 4).length = 4 := slice_full (by omega)
    have s14 : (slice f q 14).length = 14 := slice_full (by omega)
    have s6 : (slice f (q + 4) 2).length = 2 := slice_full (by omega)
    have hvt : slice f (q + 4) 2 = [verAt f q, typAt f q] := by
      have e1 : slice f q 14 = recMagic ++ (slice f (q + 4) 2 ++ slice f (q + 6) 8) := by
        rw [show 14 = 4 + (2 + 8) from rfl, slice_split, slice_split, h2.2.1]
      unfold verAt typAt
      rw [e1]
      match hz : slice f (q + 4) 2, s6 with
      | [x, y], _ => simp [recMagic]
    have e2 : beEnc 4 (sizeAt f q) = slice f (q + 6) 4 := by
      unfold sizeAt
      have := beEnc_beDec (slice f (q + 6) 4); rwa [s4] at this
    have e3 : beEnc 4 (crcAt f q).toNat = slice f (q + 10) 4 := by
      unfold crcAt
      rw [BitVec.toNat_ofNat, Nat.mod_eq_of_lt (by have := beDec_lt (slice f (q + 10) 4); rw [s10] at this; omega)]
      have := beEnc_beDec (slice f (q + 10) 4); rwa [s10] at this
    have e4 : crcSrc ⟨verAt f q, typAt f q, dataAt f q⟩ = slice f (q + 4) 6 ++ dataAt f q := by
      unfold crcSrc
      simp only
      rw [hd, e2, show 6 = 2 + 4 from rfl, slice_split, hvt]
      simp
    rw [encRec_eq]
    unfold hdr Rec.put
    simp only
    rw [hd, e4, h4, e3, e2, slice_split, show dataAt f q = slice f (q + 14) (sizeAt f q) from rfl,
      show 14 = 4 + (2 + (4 + 4)) from rfl, slice_split, slice_split, slice_split, h2.2.1, hvt]
    simp

/-- Records that lie one after another without overlapping, from position `p` on. -/
def Apart : Nat → List Rec → Prop
  | _, [] => True
  | p, x :: xs => p ≤ x.pos ∧ Apart (x.pos + 14 + x.data.length) xs

theorem Apart.mono {p p' : Nat} (h : p' ≤ p) : ∀ {xs}, Apart p xs → Apart p' xs
  | [], _ => trivial
  | _ :: _, ⟨a, b⟩ => ⟨by omega, b⟩

theorem readAll_sound {P : Policy} : ∀ (fuel : Nat) (r : Rd), RdOk f r →
    Apart r.pos (readAll crc P f fuel r).1 ∧ (∀ x ∈ (readAll crc P f fuel r).1,
      x.pos + 14 + x.data.length ≤ f.length ∧ slice f x.pos (14 + x.data.length) = encRec crc x.put) ∧
    (f.length < r.pos + fuel → 0 < fuel → (readAll crc P f fuel r).2 ≠ none)
  | 0, r, _ => ⟨trivial, (by intro x hx; cases hx), by intro _ h; omega⟩
  | fuel + 1, r, hr => by
    obtain ⟨n1, n2, h3⟩ := next_spec (crc := crc) hr
    rw [readAll]
    generalize hg : r.next crc f = g at n1 n2 h3
    obtain ⟨r', o⟩ := g
    simp only at n1 n2 h3
    have hstep : ∀ q, FirstMagic f r.pos q → q < r'.pos → r'.pos ≤ f.length →
        f.length < r.pos + (fuel + 1) → f.length < r'.pos + fuel ∧ 0 < fuel := by
      intro q hq hlt hle hfu
      have := hq.1
      omega
    obtain ⟨i1, i2, i3⟩ := readAll_sound (P := P) fuel r' n1
    cases o with
    | ok x =>
      obtain ⟨a1, a2, a3, a4⟩ := reads_ok h3
      refine ⟨⟨a1, by rw [← a2]; exact i1⟩, ?_, ?_⟩
      · intro y hy
        rcases List.mem_cons.1 hy with rfl | hy
        · exact ⟨by omega, a4⟩
        · exact i2 y hy
      · intro hfu _
        exact i3 (by omega) (by omega)
    | eof => exact ⟨trivial, (by intro x hx; cases hx), by intro _ _ h; cases h⟩
    | panic => exact ⟨trivial, (by intro x hx; cases hx), by intro _ _ h; cases h⟩
    | badSize =>
      simp only
      split
      · generalize hz : r'.pos = z at h3
        cases h3 with
        | @badSize q h1 h2 h4 h5 =>
          have := h2.1
          exact ⟨i1.mono (by omega), i2, by
            intro hfu _
            exact i3 (by omega) (by omega)⟩
      · exact ⟨trivial, (by intro x hx; cases hx), by intro _ _ h; cases h⟩
    | badCrc =>
      simp only
      split
      · generalize hz : r'.pos = z at h3
        cases h3 with
        | @badCrc q h1 h2 h4 h5 =>
          have := h2.1
          exact ⟨i1.mono (by omega), i2, by
            intro hfu _
            exact i3 (by omega) (by omega)⟩
      · exact ⟨trivial, (by intro x hx; cases hx), by intro _ _ h; cases h⟩

/-- **C20**: whatever bytes a file contains, every record returned by reading it is at that place in the file byte for
byte as the writer would have written it, including a checksum that matches its version, type, length and data;
the records returned do not overlap and are in file order; and reading terminates. -/
theorem C20_checksum (P : Policy) (f : Bytes) :
    (∀ x ∈ (readFile crc P f).1, slice f x.pos (14 + x.data.length) = encRec crc x.put) ∧
    Apart 4 (readFile crc P f).1 ∧ (readFile crc P f).2 ≠ none := by
  obtain ⟨h1, h2, h3⟩ := readAll_sound (crc := crc) (P := P) (f.length + 2) (openReader crc f) (open_ok crc f)
  exact ⟨fun x hx => (h2 x hx).2, h1, h3 (by omega) (by omega)⟩

/-- The same for one call in any reader state that earlier calls can have produced, e.g. at a position chosen by the
caller. -/
theorem C20_one_call (hr : RdOk f r) (x : Rec) (h : (r.next crc f).2 = .ok x) :
    slice f x.pos (14 + x.data.length) = encRec crc x.put ∧ r.pos ≤ x.pos ∧ RdOk f (r.next crc f).1 := by
  obtain ⟨n1, n2, h3⟩ := next_spec (crc := crc) hr
  rw [h] at h3
  obtain ⟨a, _, _, b⟩ := reads_ok h3
  exact ⟨b, a, n1⟩

/-- Damage that the checksum function detects is never returned as a record: if the bytes at `x.pos` differ from
what was written there (`p`), then the record returned is not `p`. -/
theorem C20_damage_detected (P : Policy) (f : Bytes) (p : Put) (x : Rec) (hx : x ∈ (readFile crc P f).1)
    (hd : slice f x.pos (14 + p.data.length) ≠ encRec crc p) : x.put ≠ p := by
  intro h
  refine hd ?_
  have := (C20_checksum P f).1 x hx
  have e : x.data = p.data := congrArg Put.data h
  rw [← e, this, h]

/-! ## C67 — damage to one record -/

/-- The middle of a damaged file: the header is intact, the checksum does not match, and no record magic follows
before the next record. -/
structure Damaged (crc : Bytes → BitVec 32) (p : Put) (d : Bytes) (rest : Bytes) : Prop where
  len : d.length = p.data.length
  sum : crc (p.ver :: p.typ :: (beEnc 4 p.data.length ++ d)) ≠ crc (crcSrc p)
  clean : ∀ k, 0 < k → k < 14 + d.length → ¬ MagicAt (hdr crc p ++ (d ++ rest)) k

theorem magic_shift {a b : Bytes} (k : Nat) : MagicAt (a ++ b) (a.length + k) ↔ MagicAt b k := by
  unfold MagicAt slice
  rw [List.drop_append, List.drop_of_length_le (by omega), List.nil_append,
    show a.length + k - a.length = k by omega]

theorem readAll_prefix {P : Policy} : ∀ (ps : List Put) (a b : Bytes) (fuel : Nat) (r : Rd),
    (∀ p ∈ ps, p.data.length < 2 ^ 32) → f = a ++ ((ps.map (encRec crc)).flatten ++ b) → b ≠ [] →
    RdOk f r → r.pos = a.length → r.footerPos = f.length → ps.length < fuel →
    ∃ r', RdOk f r' ∧ r'.footerPos = f.length ∧ r'.pos = (a ++ (ps.map (encRec crc)).flatten).length ∧
      readAll crc P f fuel r = (located a.length ps ++ (readAll crc P f (fuel - ps.length) r').1,
        (readAll crc P f (fuel - ps.length) r').2)
  | [], a, b, fuel, r, _, _, _, hr, hp, hft, _ => ⟨r, hr, hft, by simpa using hp, rfl⟩
  | p :: ps, a, b, fuel + 1, r, hl, hf, hb, hr, hp, hft, hfu => by
    have hf' : f = a ++ (encRec crc p ++ ((ps.map (encRec crc)).flatten ++ b)) := by rw [hf]; simp
    have := List.length_pos_iff.2 hb
    obtain ⟨r', h1, h2, h3, h4⟩ := readAll_rec (P := P) (fuel := fuel) hr (hl p List.mem_cons_self) hf' hp (by
      rw [hft, hf']
      simp only [List.length_append, encRec_length]
      omega)
    obtain ⟨r'', g1, g2, g3, g4⟩ := readAll_prefix (P := P) ps (a ++ encRec crc p) b fuel r'
      (fun p hp => hl p (List.mem_cons_of_mem _ hp)) (by rw [hf', List.append_assoc]) hb h1 h3 (by rw [h2, hft])
      (by simpa using hfu)
    refine ⟨r'', g1, g2, by rw [g3]; simp, ?_⟩
    rw [h4, g4, List.length_cons, show fuel + 1 - (ps.length + 1) = fuel - ps.length by omega]
    simp only [located, List.length_append, encRec_length, List.cons_append]
    rw [Nat.add_assoc]
  | _, _, _, 0, _, _, _, _, _, _, _, hfu => by omega

/-- **C67**: if the data of one record is damaged so that its checksum no longer matches, and the damaged bytes contain no
record magic, then a caller that goes on after a wrong checksum (write-ahead log, manifest) still gets all other
records, at their places, and end-of-file. -/
theorem C67_damage_costs_one_record (P : Policy) (hP : P.onCrc = true) (xs ys : List Put) (p : Put) (d : Bytes)
    (hl : ∀ q ∈ xs ++ p :: ys, q.data.length < 2 ^ 32) (hne : ys ≠ [])
    (hlast : ∀ q, ys.getLast? = some q → q.data ≠ [])
    (hd : Damaged crc p d (ys.map (encRec crc)).flatten)
    (hf : f = fileMagic ++ ((xs.map (encRec crc)).flatten ++ (hdr crc p ++ (d ++ (ys.map (encRec crc)).flatten))))
    (hft : footerAt crc f = none) :
    readFile crc P f =
      (located 4 xs ++ located (fileOf crc (xs ++ [p])).length ys, some .eof) := by
  have lys : 14 ≤ ((ys.map (encRec crc)).flatten).length := by
    cases ys with
    | nil => exact absurd rfl hne
    | cons y ys => simp only [List.map_cons, List.flatten_cons, List.length_append, encRec_length]; omega
  have lxs := length_le_flatten (crc := crc) xs
  have lys' := length_le_flatten (crc := crc) ys
  have lf := congrArg List.length hf
  simp only [List.length_append, hdr_length, show fileMagic.length = 4 from rfl] at lf
  obtain ⟨r, h1, h2, h3, h4⟩ := readAll_prefix (crc := crc) (P := P) xs fileMagic
    (hdr crc p ++ (d ++ (ys.map (encRec crc)).flatten)) (f.length + 2) (openReader crc f)
    (fun q hq => hl q (List.mem_append_left _ hq)) hf
    (List.ne_nil_of_length_pos (by rw [List.length_append, hdr_length]; omega))
    (open_ok _ _) rfl (open_footer hft) (by omega)
  unfold readFile
  rw [h4]
  set a := fileMagic ++ (xs.map (encRec crc)).flatten with ha
  have hf' : f = a ++ (hdr crc p ++ (d ++ (ys.map (encRec crc)).flatten)) := by rw [hf, ha, List.append_assoc]
  have hpl : p.data.length < 2 ^ 32 := hl p (by simp)
  have h14 : slice f a.length 14 = hdr crc p := by
    have := slice_mid a (hdr crc p) (d ++ (ys.map (encRec crc)).flatten) (k := 0) (n := 14) (by simp)
    rw [Nat.add_zero] at this
    rw [hf', this]
    unfold slice
    rw [List.drop_zero, List.take_of_length_le (by simp)]
  obtain ⟨m1, m2, m3, m4, m5, m6⟩ := hdr_at h14 hpl
  have hdat : dataAt f a.length = d := by
    unfold dataAt
    have e : f = (a ++ hdr crc p) ++ (d ++ (ys.map (encRec crc)).flatten) :=
      hf'.trans (List.append_assoc _ _ _).symm
    have := slice_mid (a ++ hdr crc p) d (ys.map (encRec crc)).flatten (k := 0) (n := d.length) (by omega)
    rw [Nat.add_zero, List.length_append, hdr_length] at this
    rw [← e] at this
    rw [m4, ← hd.len, this]
    unfold slice
    simp
  have hlf : f.length = a.length + 14 + d.length + ((ys.map (encRec crc)).flatten).length := by
    rw [hf']; simp only [List.length_append, hdr_length]; omega
  obtain ⟨n1, n2, k3⟩ := next_spec (crc := crc) h1
  rw [h2] at k3 n2
  rw [h3] at k3
  have hno : ∀ q, a.length < q → q < a.length + 14 + d.length → ¬ MagicAt f q := by
    intro q hq1 hq2 hm
    obtain ⟨k, rfl⟩ : ∃ k, q = a.length + k := ⟨q - a.length, by omega⟩
    rw [hf', magic_shift] at hm
    exact hd.clean k (by omega) (by omega) hm
  have uniq : ∀ {q}, FirstMagic f a.length q → q = a.length := by
    intro q hq
    by_contra hne
    exact hq.2.2 a.length (Nat.le_refl _) (by have := hq.1; omega) m1
  have step : (r.next crc f).2 = .badCrc ∧ (r.next crc f).1.pos = a.length + 1 := by
    generalize (r.next crc f).2 = o at k3
    generalize (r.next crc f).1.pos = z at k3
    cases k3 with
    | short h => omega
    | none _ h => exact absurd m1 (h _ (Nat.le_refl _))
    | stale _ h => exact absurd m1 (h _ (Nat.le_refl _))
    | cut _ h h' => cases uniq h; omega
    | badSize _ h h' h'' => cases uniq h; rw [m4, ← hd.len] at h''; omega
    | badCrc _ h h' h'' => cases uniq h; exact ⟨rfl, rfl⟩
    | ok _ h h' h'' =>
      cases uniq h
      rw [m6, hdat, m5] at h''
      exact absurd h'' hd.sum
  obtain ⟨k, hk⟩ : ∃ k, f.length + 2 - xs.length = k + 1 := ⟨f.length + 1 - xs.length, by omega⟩
  rw [hk, readAll_skipCrc step.1 hP]
  obtain ⟨y, ys, rfl⟩ := List.exists_cons_of_ne_nil hne
  obtain ⟨k', rfl⟩ : ∃ k', k = k' + 1 := ⟨k - 1, by omega⟩
  have la : (a ++ (hdr crc p ++ d)).length = a.length + 14 + d.length := by
    simp only [List.length_append, hdr_length]; omega
  obtain ⟨r', g1, g2, g3, g4⟩ := readAll_rec' (crc := crc) (P := P) (f := f) (a := a ++ (hdr crc p ++ d)) (p := y)
    (b := (ys.map (encRec crc)).flatten) (fuel := k') n1 (hl y (by simp))
    (by rw [hf']; simp) (by rw [step.2, la]; omega)
    (by rw [step.2, la]; intro q h1 h2; exact hno q (by omega) h2)
    (by rw [n2, step.2]; omega)
  rw [g4]
  have hb := readAll_back (crc := crc) (P := P) (f := f) ys ((a ++ (hdr crc p ++ d)) ++ encRec crc y) k' r'
    (fun q hq => hl q (by simp [hq]))
    (by
      intro q hq
      refine hlast q ?_
      cases ys with
      | nil => cases hq
      | cons z ys => rw [List.getLast?_cons_cons]; exact hq)
    (by rw [hf']; simp) g1 g3 (by rw [g2, n2]) (by simp only [List.length_cons] at lys'; omega)
  rw [hb]
  have e1 : (fileOf crc (xs ++ [p])).length = (a ++ (hdr crc p ++ d)).length := by
    rw [la, hd.len]
    simp only [fileOf, List.map_append, List.map_cons, List.map_nil, List.flatten_append, List.flatten_cons,
      List.flatten_nil, List.append_nil, List.length_append, encRec_length, ha]
    omega
  rw [e1]
  have e2 : ((a ++ (hdr crc p ++ d)) ++ encRec crc y).length = (a ++ (hdr crc p ++ d)).length + 14 + y.data.length := by
    rw [List.length_append, encRec_length]; omega
  rw [e2]
  rfl

/-! Witnesses for the hypotheses, for a checksum that adds up the bytes. -/

/-- A toy checksum. -/
def sumCrc (b : Bytes) : BitVec 32 := b.foldl (fun s x => s + x.setWidth 32) 0#32

private def w1 : Put := ⟨1#8, 8#8, [1#8, 2#8, 3#8]⟩
private def w2 : Put := ⟨1#8, 9#8, [4#8]⟩

example : (∀ p ∈ [w1, w2], p.data.length < 2 ^ 32) ∧ (∀ p, [w1, w2].getLast? = some p → p.data ≠ []) ∧
    footerAt sumCrc (fileOf sumCrc [w1, w2]) = none := by
  refine ⟨by decide, ?_, by decide⟩
  rintro p ⟨⟩
  decide
example : (readFile sumCrc .wal (fileOf sumCrc [w1, w2])) =
    ([⟨1#8, 8#8, [1#8, 2#8, 3#8], 4⟩, ⟨1#8, 9#8, [4#8], 21⟩], some .eof) := by decide +kernel
/-- Cut one byte before the end: the first record is returned, then an error. -/
example : (∀ p ∈ [w1, w1], p.data.length < 2 ^ 32 ∧ p.data ≠ []) ∧
    footerAt sumCrc ((fileOf sumCrc [w1, w1]).take 37) = none ∧
    readFile sumCrc .tomb ((fileOf sumCrc [w1, w1]).take 37) = ([⟨1#8, 8#8, [1#8, 2#8, 3#8], 4⟩], some .badSize) := by
  decide +kernel
/-- One byte of the first record changed. -/
example : Damaged sumCrc w1 [1#8, 2#8, 4#8] (encRec sumCrc w2) := by
  refine ⟨rfl, by decide, ?_⟩
  have h : ∀ k, k < 17 → 0 < k →
      slice (hdr sumCrc w1 ++ ([1#8, 2#8, 4#8] ++ encRec sumCrc w2)) k 4 ≠ recMagic := by decide
  exact fun k h1 h2 => h k h2 h1

end Verif.Wal
