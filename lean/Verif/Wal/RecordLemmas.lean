import Verif.Wal.Record
import Mathlib.Tactic.Common
/-!
# Lemmas: the buffered reader reads the file
-/
namespace Verif.Wal

variable {crc : Bytes → BitVec 32} {f : Bytes} {r : Rd}

/-- `n` bytes at position `p`, fewer at the end of the file. -/
def slice (f : Bytes) (p n : Nat) : Bytes := (f.drop p).take n

theorem slice_length (f : Bytes) (p n : Nat) : (slice f p n).length = min n (f.length - p) := by
  simp [slice]

theorem slice_take (f : Bytes) (p n m : Nat) : (slice f p n).take m = slice f p (min m n) := by
  simp [slice, List.take_take]

theorem slice_drop (f : Bytes) (p n m : Nat) : (slice f p n).drop m = slice f (p + m) (n - m) := by
  simp [slice, List.drop_take, List.drop_drop]

theorem slice_min (f : Bytes) (p n : Nat) : slice f p (min n (f.length - p)) = slice f p n := by
  unfold slice
  rcases Nat.le_total n (f.length - p) with h | h
  · rw [Nat.min_eq_left h]
  · rw [Nat.min_eq_right h, List.take_of_length_le (by simp), List.take_of_length_le (by simp; omega)]

theorem slice_append (f g : Bytes) {p n : Nat} (h : p + n ≤ f.length) : slice (f ++ g) p n = slice f p n := by
  unfold slice
  rw [List.drop_append_of_le_length (by omega), List.take_append_of_le_length (by simp; omega)]

/-- The valid part of the buffer is a window of the file. -/
structure RdOk (f : Bytes) (r : Rd) : Prop where
  used : r.used ≤ r.len
  len : r.len ≤ r.buf.length
  pos : r.used ≤ r.pos
  win : r.buf.take r.len = slice f (r.pos - r.used) r.len
  file : r.fileLen = f.length

theorem RdOk.fits (h : RdOk f r) (hl : 0 < r.len) : r.pos - r.used + r.len ≤ f.length := by
  have := congrArg List.length h.win
  rw [slice_length, List.length_take] at this
  have := h.len
  omega

theorem RdOk.tail (h : RdOk f r) (n : Nat) (hn : r.used + n ≤ r.len) : (r.buf.drop r.used).take n = slice f r.pos n := by
  have h1 : (r.buf.drop r.used).take n = ((r.buf.take r.len).drop r.used).take n := by
    rw [List.drop_take, List.take_take, Nat.min_eq_left (by omega)]
  have := h.pos
  rw [h1, h.win, slice_drop, slice_take, Nat.min_eq_left (by omega)]
  congr 1
  omega

theorem load_ok (hf : r.fileLen = f.length) : RdOk f (r.load f) := by
  have hd : ((f.drop r.pos).take r.buf.length).length = min r.buf.length (f.length - r.pos) := by simp
  constructor
  · simp [Rd.load]
  · simp only [Rd.load, List.length_append, List.length_drop]; omega
  · simp [Rd.load]
  · simp only [Rd.load]
    rw [List.take_append_of_le_length (by simp), List.take_of_length_le (by simp), hd, Nat.sub_zero, slice_min]
    rfl
  · exact hf

/-- The state after `read`. -/
theorem read_ok (h : RdOk f r) (n : Nat) :
    RdOk f (r.read f n).1 ∧ (r.read f n).1.pos = r.pos ∧ (r.read f n).1.footerPos = r.footerPos ∧
    (r.read f n).2 = slice f r.pos n ∧ n ≤ (r.read f n).1.buf.length - (r.read f n).1.used ∧
    (r.pos + n ≤ f.length → ((r.read f n).1.buf.drop (r.read f n).1.used).take n = slice f r.pos n) := by
  unfold Rd.read
  simp only
  generalize hr1 : (if r.buf.length < n then { r with buf := r.buf ++ List.replicate (n - r.buf.length) 0#8 }
    else r : Rd) = r1
  have e1 : RdOk f r1 ∧ r1.pos = r.pos ∧ r1.footerPos = r.footerPos ∧ n ≤ r1.buf.length := by
    split at hr1
    · subst hr1
      have hl := h.len
      refine ⟨⟨h.used, ?_, h.pos, ?_, h.file⟩, rfl, rfl, ?_⟩
      · simp only [List.length_append, List.length_replicate]; omega
      · simp only; rw [List.take_append_of_le_length h.len]; exact h.win
      · simp only [List.length_append, List.length_replicate]; omega
    · subst hr1; exact ⟨h, rfl, rfl, by omega⟩
  obtain ⟨h1, hp, hfp, hn⟩ := e1
  split
  · rename_i hlt
    have h2 := load_ok (r := r1) h1.file
    have e0 : (r1.load f).used = 0 := rfl
    have el : (r1.load f).len = min r1.buf.length (f.length - r1.pos) := by simp [Rd.load]
    have ep : (r1.load f).pos = r1.pos := rfl
    have eb : (r1.load f).buf.length = r1.buf.length := by
      simp only [Rd.load, List.length_append, List.length_drop, List.length_take]; omega
    refine ⟨h2, hp, hfp, ?_, ?_, ?_⟩
    · rw [h2.tail _ (by rw [e0, el]; omega), e0, el, ep, hp]
      rw [← slice_min f r.pos n]
      congr 1
      rw [← hp]; omega
    · rw [e0, eb]; omega
    · intro hfit
      rw [h2.tail n (by rw [e0, el, hp]; omega), ep, hp]
  · rename_i hge
    have hu := h1.used
    refine ⟨h1, hp, hfp, ?_, ?_, ?_⟩
    · rw [h1.tail _ (by omega), hp]
      congr 1
      omega
    · have := h1.len; omega
    · intro _
      by_cases h0 : n = 0
      · subst h0; simp [slice]
      · rw [h1.tail n (by omega), hp]

theorem setPos_ok (h : RdOk f r) (p : Nat) :
    RdOk f (r.setPos f p).1 ∧ (r.setPos f p).1.footerPos = r.footerPos ∧
    ((r.setPos f p).2 = true → (r.setPos f p).1.pos = p) ∧
    (p ≤ f.length → (r.setPos f p).2 = true) ∧ (r.pos < p → f.length < p → (r.setPos f p).2 = false) := by
  unfold Rd.setPos
  have hf := h.file
  have hu := h.used
  have hp := h.pos
  split
  · rename_i he
    refine ⟨⟨Nat.zero_le _, h.len, Nat.zero_le _, ?_, hf⟩, rfl, fun _ => rfl, fun _ => rfl, by omega⟩
    have := h.win
    rw [he] at this
    simpa using this
  · split
    · rename_i hgt
      exact ⟨h, rfl, fun h => (by cases h), fun h => by omega, fun _ _ => rfl⟩
    · rename_i hle
      split
      · split
        · rename_i hgt hus
          refine ⟨⟨by simp only; omega, h.len, by simp only; omega, ?_, hf⟩, rfl, fun _ => rfl, fun _ => rfl, by omega⟩
          have := h.win
          simp only
          rw [this]
          congr 1
          omega
        · exact ⟨load_ok hf, rfl, fun _ => rfl, fun _ => rfl, by omega⟩
      · split
        · split
          · rename_i hlt hsz
            refine ⟨⟨by simp only; omega, h.len, by simp only; omega, ?_, hf⟩, rfl, fun _ => rfl, fun _ => rfl, by omega⟩
            have := h.win
            simp only
            rw [this]
            congr 1
            omega
          · exact ⟨load_ok hf, rfl, fun _ => rfl, fun _ => rfl, by omega⟩
        · exact ⟨h, rfl, fun _ => (by simp only; omega), fun _ => rfl, by omega⟩

/-- The record magic number is at position `q`. -/
def MagicAt (f : Bytes) (q : Nat) : Prop := slice f q 4 = recMagic

theorem MagicAt.le {q : Nat} (h : MagicAt f q) : q + 4 ≤ f.length := by
  have := congrArg List.length h
  rw [slice_length] at this
  simp only [recMagic, List.length_cons, List.length_nil] at this
  omega

theorem findHeader_spec : ∀ (fuel : Nat) (r : Rd), RdOk f r → f.length + 2 ≤ fuel + r.pos →
    RdOk f (r.findHeader f fuel).1 ∧ (r.findHeader f fuel).1.footerPos = r.footerPos ∧
    match (r.findHeader f fuel).2 with
    | some hd => hd = slice f (r.findHeader f fuel).1.pos 14 ∧ r.pos ≤ (r.findHeader f fuel).1.pos ∧
        (∀ q, r.pos ≤ q → q < (r.findHeader f fuel).1.pos → ¬ MagicAt f q) ∧
        (MagicAt f (r.findHeader f fuel).1.pos ∨ f.length < (r.findHeader f fuel).1.pos + 4)
    | none => ∀ q, r.pos ≤ q → ¬ MagicAt f q
  | 0, r, h, hf => by
    refine ⟨h, rfl, ?_⟩
    intro q hq hm
    have := hm.le
    omega
  | fuel + 1, r, h, hf => by
    obtain ⟨h1, h2, h3, h4, h5, h6⟩ := read_ok h 4
    unfold Rd.findHeader
    simp only
    split
    · rename_i hm
      obtain ⟨g1, g2, g3, g4, _, _⟩ := read_ok h1 14
      simp only
      refine ⟨g1, by rw [g3, h3], ?_, by omega, ?_, ?_⟩
      · rw [g4, g2]
      · intro q hq hlt; rw [g2, h2] at hlt; omega
      · rw [g2, h2]
        by_cases hfit : r.pos + 4 ≤ f.length
        · left; rw [h6 hfit] at hm; exact hm
        · right; omega
    · rename_i hm
      have hnm : ¬ MagicAt f r.pos := by
        intro h'
        exact hm (by rw [h6 h'.le]; exact h')
      obtain ⟨s1, s2, s3, s4, s5⟩ := setPos_ok h1 ((r.read f 4).1.pos + 1)
      split
      · rename_i r' he
        rw [he] at s1 s2 s3
        simp only at s1 s2 s3
        have hp : r'.pos = r.pos + 1 := by rw [s3 trivial, h2]
        obtain ⟨i1, i2, i3⟩ := findHeader_spec fuel r' s1 (by omega)
        refine ⟨i1, by rw [i2, s2, h3], ?_⟩
        revert i3
        split
        · rintro ⟨j1, j2, j3, j4⟩
          refine ⟨j1, by omega, ?_, j4⟩
          intro q hq hlt
          by_cases hqe : q = r.pos
          · rw [hqe]; exact hnm
          · exact j3 q (by omega) hlt
        · intro j q hq
          by_cases hqe : q = r.pos
          · rw [hqe]; exact hnm
          · exact j q (by omega)
      · rename_i r' he
        rw [he] at s1 s2 s4
        simp only at s1 s2 s4
        refine ⟨s1, by rw [s2, h3], ?_⟩
        intro q hq hmq
        by_cases hqe : q = r.pos
        · exact hnm (hqe ▸ hmq)
        · have := hmq.le
          have := s4 (by rw [h2]; omega)
          cases this

/-- The first magic number at or after `p` is at `q`. -/
def FirstMagic (f : Bytes) (p q : Nat) : Prop := p ≤ q ∧ MagicAt f q ∧ ∀ q', p ≤ q' → q' < q → ¬ MagicAt f q'

/-- Fields of the header at `q`. -/
def verAt (f : Bytes) (q : Nat) : Byte := (slice f q 14).getD 4 0#8
def typAt (f : Bytes) (q : Nat) : Byte := (slice f q 14).getD 5 0#8
def sizeAt (f : Bytes) (q : Nat) : Nat := beDec (slice f (q + 6) 4)
def crcAt (f : Bytes) (q : Nat) : BitVec 32 := BitVec.ofNat 32 (beDec (slice f (q + 10) 4))
def dataAt (f : Bytes) (q : Nat) : Bytes := slice f (q + 14) (sizeAt f q)

/-- What one call of `read_record` does, without the buffer. -/
inductive Reads (crc : Bytes → BitVec 32) (f : Bytes) (ft p : Nat) : Out → Nat → Prop
  | short : ft ≤ p + 14 → Reads crc f ft p .eof p
  | none {p'} : p + 14 < ft → (∀ q, p ≤ q → ¬ MagicAt f q) → Reads crc f ft p .eof p'
  | stale {p'} : p + 14 < ft → (∀ q, p ≤ q → ¬ MagicAt f q) → Reads crc f ft p .panic p'
  | cut {q p'} : p + 14 < ft → FirstMagic f p q → f.length < q + 14 → Reads crc f ft p .panic p'
  | badSize {q} : p + 14 < ft → FirstMagic f p q → q + 14 ≤ f.length → f.length < q + 14 + sizeAt f q →
      Reads crc f ft p .badSize (q + 14)
  | badCrc {q} : p + 14 < ft → FirstMagic f p q → q + 14 + sizeAt f q ≤ f.length →
      crc (slice f (q + 4) 6 ++ dataAt f q) ≠ crcAt f q → Reads crc f ft p .badCrc (q + 1)
  | ok {q} : p + 14 < ft → FirstMagic f p q → q + 14 + sizeAt f q ≤ f.length →
      crc (slice f (q + 4) 6 ++ dataAt f q) = crcAt f q →
      Reads crc f ft p (.ok ⟨verAt f q, typAt f q, dataAt f q, q⟩) (q + 14 + sizeAt f q)

theorem next_spec (h : RdOk f r) : RdOk f (r.next crc f).1 ∧ (r.next crc f).1.footerPos = r.footerPos ∧
    Reads crc f r.footerPos r.pos (r.next crc f).2 (r.next crc f).1.pos := by
  unfold Rd.next
  split
  · rename_i hs
    exact ⟨h, rfl, .short hs⟩
  · rename_i hs
    have hs : r.pos + 14 < r.footerPos := by omega
    obtain ⟨h1, h2, h3⟩ := findHeader_spec (f.length + 2 - r.pos) r h (by omega)
    split
    · rename_i r1 he
      rw [he] at h1 h2 h3
      exact ⟨h1, h2, .none hs h3⟩
    · rename_i r1 hd he
      rw [he] at h1 h2 h3
      obtain ⟨k1, k2, k3, k4⟩ := h3
      simp only at h1 h2 k1 k2 k3 k4
      unfold Rd.body
      split
      · rename_i hl
        rw [k1, slice_length] at hl
        refine ⟨h1, h2, ?_⟩
        rcases k4 with k4 | k4
        · exact .cut hs ⟨k2, k4, k3⟩ (by omega)
        · refine .stale hs ?_
          intro q hq hm
          by_cases hlt : q < r1.pos
          · exact k3 q hq hlt hm
          · have := hm.le; omega
      · rename_i hl
        rw [k1, slice_length] at hl
        have hfit : r1.pos + 14 ≤ f.length := by omega
        have hm : MagicAt f r1.pos := by
          rcases k4 with k4 | k4
          · exact k4
          · omega
        have hfm : FirstMagic f r.pos r1.pos := ⟨k2, hm, k3⟩
        simp only
        have esz : beDec ((hd.drop 6).take 4) = sizeAt f r1.pos := by
          rw [k1, slice_drop, slice_take]; rfl
        have ecr : BitVec.ofNat 32 (beDec ((hd.drop 10).take 4)) = crcAt f r1.pos := by
          rw [k1, slice_drop, slice_take]; rfl
        have esr : (hd.drop 4).take 6 = slice f (r1.pos + 4) 6 := by
          rw [k1, slice_drop, slice_take]; rfl
        rw [esz, ecr, esr]
        obtain ⟨s1, s2, s3, s4, _⟩ := setPos_ok h1 (r1.pos + 14)
        have s4 := s4 hfit
        generalize hg : r1.setPos f (r1.pos + 14) = g at s1 s2 s3 s4
        obtain ⟨r2, b⟩ := g
        simp only at s1 s2 s3 s4
        subst s4
        have s3 := s3 rfl
        simp only
        obtain ⟨t1, t2, t3, t4, _, _⟩ := read_ok s1 (sizeAt f r1.pos)
        have t2' : (r2.read f (sizeAt f r1.pos)).1.pos = r1.pos + 14 := by rw [t2, s3]
        have t4' : (r2.read f (sizeAt f r1.pos)).2 = dataAt f r1.pos := by rw [t4, s3]; rfl
        rw [t4']
        have edl : (dataAt f r1.pos).length = min (sizeAt f r1.pos) (f.length - (r1.pos + 14)) := slice_length ..
        split
        · rename_i hlt
          refine ⟨t1, by rw [t3, s2, h2], ?_⟩
          rw [t2']
          exact .badSize hs hfm hfit (by omega)
        · rename_i hlt
          have hfd : r1.pos + 14 + sizeAt f r1.pos ≤ f.length := by omega
          obtain ⟨u1, u2, u3, u4, _⟩ := setPos_ok t1 (r1.pos + 14 + sizeAt f r1.pos)
          have u4 := u4 hfd
          generalize hg2 : (r2.read f (sizeAt f r1.pos)).1.setPos f (r1.pos + 14 + sizeAt f r1.pos) = g at u1 u2 u3 u4
          obtain ⟨r3, b⟩ := g
          simp only at u1 u2 u3 u4
          subst u4
          have u3 := u3 rfl
          simp only
          split
          · rename_i hc
            refine ⟨u1, by rw [u2, t3, s2, h2], ?_⟩
            simp only
            rw [u3, k1]
            exact .ok hs hfm hfd hc
          · rename_i hc
            obtain ⟨v1, v2, v3, v4, _⟩ := setPos_ok u1 (r1.pos + 1)
            have v4 := v4 (by omega)
            generalize hg3 : r3.setPos f (r1.pos + 1) = g at v1 v2 v3 v4
            obtain ⟨r4, b⟩ := g
            simp only at v1 v2 v3 v4
            subst v4
            have v3 := v3 rfl
            simp only
            refine ⟨v1, by rw [v2, u2, t3, s2, h2], ?_⟩
            rw [v3]
            exact .badCrc hs hfm hfd hc

theorem open_ok (crc : Bytes → BitVec 32) (f : Bytes) : RdOk f (openReader crc f) := by
  constructor <;> simp [openReader, slice]

end Verif.Wal
