import Verif.Wal.RecordProps
/-!
# Appending after a torn record: C68

A crash can leave the first bytes of a record at the end of a log file.  Nothing removes them: the next start opens
the file for appending behind them (`openWriter`).
-/
namespace Verif.Wal

variable {crc : Bytes → BitVec 32} {f : Bytes} {r : Rd}

theorem readAll_skipSize {P : Policy} {fuel : Nat} (h : (r.next crc f).2 = .badSize) (hP : P.onSize = true) :
    readAll crc P f (fuel + 1) r = readAll crc P f fuel (r.next crc f).1 := by
  rw [readAll]
  generalize r.next crc f = g at h ⊢
  obtain ⟨r', o⟩ := g
  simp only at h
  subst h
  simp [hP]

/-- Reading records behind bytes without a record magic. -/
theorem readAll_behind {P : Policy} {a : Bytes} {ys : List Put} {fuel : Nat} (hr : RdOk f r)
    (hl : ∀ q ∈ ys, q.data.length < 2 ^ 32) (hne : ys ≠ []) (hlast : ∀ q, ys.getLast? = some q → q.data ≠ [])
    (hf : f = a ++ (ys.map (encRec crc)).flatten) (hp : r.pos ≤ a.length)
    (hno : ∀ q, r.pos ≤ q → q < a.length → ¬ MagicAt f q) (hft : r.footerPos = f.length) (hfu : ys.length < fuel) :
    readAll crc P f fuel r = (located a.length ys, some .eof) := by
  obtain ⟨y, ys, rfl⟩ := List.exists_cons_of_ne_nil hne
  obtain ⟨k, rfl⟩ : ∃ k, fuel = k + 1 := ⟨fuel - 1, by omega⟩
  have hf' : f = a ++ (encRec crc y ++ (ys.map (encRec crc)).flatten) := by rw [hf]; simp
  have hpos : r.pos + 14 < r.footerPos := by
    rw [hft, hf']
    simp only [List.length_append, encRec_length]
    cases ys with
    | nil =>
      have := List.length_pos_iff.2 (hlast y rfl)
      omega
    | cons p' ps => simp only [List.map_cons, List.flatten_cons, List.length_append, encRec_length]; omega
  obtain ⟨r', h1, h2, h3, h4⟩ := readAll_rec' (P := P) (fuel := k) hr (hl y List.mem_cons_self) hf' hp hno hpos
  rw [h4, readAll_back (P := P) ys (a ++ encRec crc y) k r' (fun p hp => hl p (List.mem_cons_of_mem _ hp))
      (by
        intro p' hp'
        cases ys with
        | nil => cases hp'
        | cons q ps => exact hlast p' (by rw [List.getLast?_cons_cons]; exact hp'))
      (by rw [hf', List.append_assoc]) h1 h3 (by rw [h2, hft]) (by simpa using hfu)]
  simp only [located, List.length_append, encRec_length]
  rw [Nat.add_assoc]

theorem magic_hdr (p : Put) : (hdr crc p).take 4 = recMagic := by simp [hdr, recMagic]

/-- **C68, part proved**: a file ends in the first `t` bytes of a record, and records are appended behind them.
Recovery of the write-ahead log returns the records before and behind the torn one, if the torn part is shorter than the
record magic or contains the whole record header, contains no other record magic (also not together with the bytes
behind it), and the bytes now standing where the torn record's data would be do not have its checksum.
Missing, refuted below: the record is torn within its header. -/
theorem C68_append_behind_torn_partial (P : Policy) (hP : P.onCrc = true ∧ P.onSize = true) (xs ys : List Put) (p : Put)
    (t : Nat) (T : Bytes) (hl : ∀ q ∈ xs ++ p :: ys, q.data.length < 2 ^ 32) (hne : ys ≠ [])
    (hlast : ∀ q, ys.getLast? = some q → q.data ≠ []) (hT : T = (encRec crc p).take t)
    (ht : t < (encRec crc p).length) (ht' : t < 4 ∨ 14 ≤ t)
    (hclean : ∀ k, t < 4 ∨ 0 < k → k < t → ¬ MagicAt (T ++ (ys.map (encRec crc)).flatten) k)
    (hsum : 14 ≤ t → ∀ d, d = slice (T ++ (ys.map (encRec crc)).flatten) 14 p.data.length →
      crc (p.ver :: p.typ :: (beEnc 4 p.data.length ++ d)) ≠ crc (crcSrc p))
    (hf : f = fileOf crc xs ++ (T ++ (ys.map (encRec crc)).flatten))
    (hft : footerAt crc f = none) :
    readFile crc P f = (located 4 xs ++ located ((fileOf crc xs).length + t) ys, some .eof) := by
  have lT : T.length = t := by rw [hT, List.length_take]; omega
  have lys : 14 ≤ ((ys.map (encRec crc)).flatten).length := by
    cases ys with
    | nil => exact absurd rfl hne
    | cons y ys => simp only [List.map_cons, List.flatten_cons, List.length_append, encRec_length]; omega
  have lxs := length_le_flatten (crc := crc) xs
  have lys' := length_le_flatten (crc := crc) ys
  have hf0 : f = fileMagic ++ ((xs.map (encRec crc)).flatten ++ (T ++ (ys.map (encRec crc)).flatten)) := by
    rw [hf, fileOf, List.append_assoc]
  have lf := congrArg List.length hf0
  simp only [List.length_append, show fileMagic.length = 4 from rfl] at lf
  obtain ⟨r, h1, h2, h3, h4⟩ := readAll_prefix (crc := crc) (P := P) xs fileMagic
    (T ++ (ys.map (encRec crc)).flatten) (f.length + 2) (openReader crc f)
    (fun q hq => hl q (List.mem_append_left _ hq)) hf0
    (List.ne_nil_of_length_pos (by rw [List.length_append]; omega))
    (open_ok _ _) rfl (open_footer hft) (by omega)
  unfold readFile
  rw [h4]
  change r.pos = (fileOf crc xs).length at h3
  generalize hrest : (ys.map (encRec crc)).flatten = rest at *
  generalize ha : fileOf crc xs = a at *
  have lf' : f.length = a.length + t + rest.length := by rw [hf]; simp only [List.length_append, lT]; omega
  have hfa : f = (a ++ T) ++ (ys.map (encRec crc)).flatten := by rw [hf, hrest, List.append_assoc]
  have hno : ∀ q, a.length ≤ q → (t < 4 ∨ a.length < q) → q < a.length + t → ¬ MagicAt f q := by
    intro q hq1 hq3 hq2 hm
    obtain ⟨k, rfl⟩ : ∃ k, q = a.length + k := ⟨q - a.length, by omega⟩
    rw [hf, magic_shift] at hm
    exact hclean k (by omega) (by omega) hm
  have fin : ∀ r' fuel, RdOk f r' → r'.footerPos = f.length → a.length ≤ r'.pos → (t < 4 ∨ a.length < r'.pos) →
      r'.pos ≤ a.length + t → ys.length < fuel → readAll crc P f fuel r' = (located (a.length + t) ys, some .eof) := by
    intro r' fuel k1 k2 k3 k4 k5 k6
    have := readAll_behind (P := P) (fuel := fuel) k1 (fun q hq => hl q (by simp [hq])) hne hlast hfa
      (by simp only [List.length_append, lT]; exact k5)
      (by
        intro q hq1 hq2
        simp only [List.length_append, lT] at hq2
        exact hno q (by omega) (by omega) hq2) k2 k6
    rw [this, List.length_append, lT]
  have hpre : (fileMagic ++ (xs.map (encRec crc)).flatten).length = a.length := by rw [← ha]; rfl
  rw [show fileMagic.length = 4 from rfl]
  suffices hs : readAll crc P f (f.length + 2 - xs.length) r = (located (a.length + t) ys, some .eof) by rw [hs]
  rcases ht' with ht4 | ht14
  · exact fin r _ h1 h2 (by omega) (.inl ht4) (by omega) (by omega)
  · have hpl : p.data.length < 2 ^ 32 := hl p (by simp)
    have hTe : T = hdr crc p ++ p.data.take (t - 14) := by
      rw [hT, encRec_eq, List.take_append, List.take_of_length_le (by simp; omega), hdr_length]
    have h14 : slice f a.length 14 = hdr crc p := by
      have := slice_mid a (hdr crc p) (p.data.take (t - 14) ++ rest) (k := 0) (n := 14) (by simp)
      rw [Nat.add_zero] at this
      rw [hf, hTe, List.append_assoc, this]
      unfold slice
      rw [List.drop_zero, List.take_of_length_le (by simp)]
    obtain ⟨m1, m2, m3, m4, m5, m6⟩ := hdr_at h14 hpl
    have hdat : dataAt f a.length = slice (T ++ rest) 14 p.data.length := by
      unfold dataAt slice
      rw [m4, hf, List.drop_append, List.drop_of_length_le (by omega), List.nil_append,
        show a.length + 14 - a.length = 14 by omega]
    have hsum' := hsum ht14 _ rfl
    obtain ⟨n1, n2, k3⟩ := next_spec (crc := crc) h1
    rw [h2] at k3 n2
    rw [h3] at k3
    have uniq : ∀ {q}, FirstMagic f a.length q → q = a.length := by
      intro q hq
      by_contra hne
      exact hq.2.2 a.length (Nat.le_refl _) (by have := hq.1; omega) m1
    obtain ⟨k, hk⟩ : ∃ k, f.length + 2 - xs.length = k + 1 := ⟨f.length + 1 - xs.length, by omega⟩
    have step : ((r.next crc f).2 = .badCrc ∧ (r.next crc f).1.pos = a.length + 1) ∨
        ((r.next crc f).2 = .badSize ∧ (r.next crc f).1.pos = a.length + 14) := by
      generalize (r.next crc f).2 = o at k3
      generalize (r.next crc f).1.pos = z at k3
      cases k3 with
      | short h => omega
      | none _ h => exact absurd m1 (h _ (Nat.le_refl _))
      | stale _ h => exact absurd m1 (h _ (Nat.le_refl _))
      | cut _ h h' => cases uniq h; omega
      | badSize _ h h' h'' => cases uniq h; exact .inr ⟨rfl, rfl⟩
      | badCrc _ h h' h'' => cases uniq h; exact .inl ⟨rfl, rfl⟩
      | ok _ h h' h'' =>
        cases uniq h
        rw [m6, hdat, m5] at h''
        exact absurd h'' hsum'
    rw [hk]
    rcases step with ⟨s1, s2⟩ | ⟨s1, s2⟩
    · rw [readAll_skipCrc s1 hP.1]
      exact fin _ _ n1 n2 (by omega) (by omega) (by omega) (by omega)
    · rw [readAll_skipSize s1 hP.2]
      exact fin _ _ n1 n2 (by omega) (by omega) (by omega) (by omega)

/-- **C68 refuted** in general: a crash leaves six bytes of a record; the record appended after the restart is complete
and acknowledged, but the next recovery does not return it.  The four size bytes of the torn header are taken from the
magic of the following record, the size is wrong, and reading goes on behind 14 bytes. -/
theorem C68_torn_header_loses_next_refuted (crc : Bytes → BitVec 32) : ∃ (p y : Put) (t : Nat),
    t < (encRec crc p).length ∧ p.data ≠ [] ∧ y.data ≠ [] ∧
    openWriter crc (fileOf crc [] ++ (encRec crc p).take t) = fileOf crc [] ++ (encRec crc p).take t ∧
    readFile crc Policy.wal (fileOf crc [] ++ (encRec crc p).take t) = ([], some .eof) ∧
    ∃ f, writeRec crc (fileOf crc [] ++ (encRec crc p).take t) y = some f ∧
    f = fileOf crc [] ++ (encRec crc p).take t ++ encRec crc y ∧
    readFile crc Policy.wal f = ([], some .eof) := by
  let p : Put := ⟨1#8, 8#8, [102#8]⟩
  have hT : (encRec crc p).take 6 = recMagic ++ [1#8, 8#8] := by
    simp [encRec, p, recMagic]
  have hm : fileOf crc [] = fileMagic := by simp [fileOf]
  refine ⟨p, p, 6, by simp [p], by simp [p], by simp [p], ?_, ?_, ?_⟩
  · rw [hT, hm]
    simp [openWriter, footerAt, fileMagic, recMagic]
  · rw [hT, hm]
    simp [readFile, readAll, openReader, footerAt, fileMagic, recMagic, Rd.next]
  · refine ⟨fileMagic ++ (recMagic ++ [1#8, 8#8]) ++ encRec crc p, by rw [hT, hm]; simp [writeRec, p],
      by rw [hT, hm], ?_⟩
    generalize hf : fileMagic ++ (recMagic ++ [1#8, 8#8]) ++ encRec crc p = f
    have lf : f.length = 25 := by rw [← hf]; simp [fileMagic, recMagic, p]
    have hft : footerAt crc f = none := by
      unfold footerAt
      rw [if_pos (by omega)]
    have e1 : f = fileMagic ++ (recMagic ++ ([1#8, 8#8] ++ encRec crc p)) := by rw [← hf]; simp
    have m1 : MagicAt f 4 := by
      have := slice_mid fileMagic recMagic ([1#8, 8#8] ++ encRec crc p) (k := 0) (n := 4) (by decide)
      unfold MagicAt
      rw [e1, show (4 : Nat) = fileMagic.length + 0 from rfl]
      rw [show fileMagic.length + 0 = 4 from rfl] at this ⊢
      rw [this]
      decide
    have m2 : 25 < sizeAt f 4 := by
      have e2 : f = (fileMagic ++ recMagic ++ [1#8, 8#8]) ++
          (recMagic ++ (p.ver :: p.typ :: (beEnc 4 p.data.length ++ (beEnc 4 (crc (crcSrc p)).toNat ++ p.data)))) := by
        rw [← hf]; simp [encRec]
      have := slice_mid (fileMagic ++ recMagic ++ [1#8, 8#8]) recMagic
        (p.ver :: p.typ :: (beEnc 4 p.data.length ++ (beEnc 4 (crc (crcSrc p)).toNat ++ p.data)))
        (k := 0) (n := 4) (by decide)
      rw [← e2] at this
      unfold sizeAt
      rw [show 4 + 6 = (fileMagic ++ recMagic ++ [1#8, 8#8]).length + 0 from rfl, this]
      decide
    have ho := open_ok crc f
    obtain ⟨n1, n2, k3⟩ := next_spec (crc := crc) ho
    rw [open_footer hft] at k3 n2
    have hp4 : (openReader crc f).pos = 4 := rfl
    rw [hp4] at k3
    have uniq : ∀ {q}, FirstMagic f 4 q → q = 4 := by
      intro q hq
      by_contra hne
      exact hq.2.2 4 (Nat.le_refl _) (by have := hq.1; omega) m1
    have step : ((openReader crc f).next crc f).2 = .badSize ∧ ((openReader crc f).next crc f).1.pos = 18 := by
      generalize ((openReader crc f).next crc f).2 = o at k3
      generalize ((openReader crc f).next crc f).1.pos = z at k3
      cases k3 with
      | short h => omega
      | none _ h => exact absurd m1 (h _ (Nat.le_refl _))
      | stale _ h => exact absurd m1 (h _ (Nat.le_refl _))
      | cut _ h h' => cases uniq h; omega
      | badSize _ h h' h'' => cases uniq h; exact ⟨rfl, rfl⟩
      | badCrc _ h h' h'' => cases uniq h; omega
      | ok _ h h' h'' => cases uniq h; omega
    unfold readFile
    rw [show f.length + 2 = (f.length + 1) + 1 from rfl, readAll_skipSize step.1 rfl]
    obtain ⟨_, _, j3⟩ := next_spec (crc := crc) n1
    have e := reads_eof j3 (by rw [n2, step.2, lf]; decide)
    rw [readAll_stop e (.inl rfl)]

/-! ## Example: the hypotheses of C68 hold -/

private def z1 : Put := ⟨1#8, 8#8, [1#8, 2#8, 3#8]⟩
private def z2 : Put := ⟨1#8, 8#8, [4#8, 5#8]⟩

/-- The second record torn after 15 of 17 bytes, another one appended. -/
example :
    let T := (encRec sumCrc z1).take 15
    let rest := ([z2].map (encRec sumCrc)).flatten
    (∀ k, k < 15 → 0 < k → slice (T ++ rest) k 4 ≠ recMagic) ∧
    sumCrc (z1.ver :: z1.typ :: (beEnc 4 z1.data.length ++ slice (T ++ rest) 14 z1.data.length)) ≠ sumCrc (crcSrc z1) ∧
    footerAt sumCrc (fileOf sumCrc [z1] ++ (T ++ rest)) = none ∧
    readFile sumCrc .wal (fileOf sumCrc [z1] ++ (T ++ rest)) =
      ([⟨1#8, 8#8, [1#8, 2#8, 3#8], 4⟩, ⟨1#8, 8#8, [4#8, 5#8], 36⟩], some .eof) := by
  decide +kernel

end Verif.Wal
