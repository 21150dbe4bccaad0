import Verif.Codec.FloatBits
import Verif.Codec.Column
/-!
# Round trip of the XOR codec of floating point columns
-/
namespace Verif.Codec.Float

/-! ## Zeros -/

theorem leadingZeros_false {x : U64} {j : Nat} (h : j < leadingZeros x) : x.getMsbD j = false := by
  have := List.not_of_lt_findIdx h
  simpa using this

theorem leadingZeros_le {x : U64} {j : Nat} (h : x.getMsbD j = true) : leadingZeros x ≤ j := by
  rcases Nat.lt_or_ge j (leadingZeros x) with hlt | hge
  · rw [leadingZeros_false hlt] at h; cases h
  · exact hge

theorem trailingZeros_false {x : U64} {j : Nat} (h : j < trailingZeros x) : x.getLsbD j = false := by
  have := List.not_of_lt_findIdx h
  simpa using this

theorem trailingZeros_le {x : U64} {j : Nat} (h : x.getLsbD j = true) : trailingZeros x ≤ j := by
  rcases Nat.lt_or_ge j (trailingZeros x) with hlt | hge
  · rw [trailingZeros_false hlt] at h; cases h
  · exact hge

theorem zeros_lt {x : U64} (h : x ≠ 0#64) : leadingZeros x + trailingZeros x < 64 := by
  have hx : ∃ j, j < 64 ∧ x.getLsbD j = true := by
    apply Classical.byContradiction
    intro hn
    apply h
    apply BitVec.eq_of_getLsbD_eq
    intro i hi
    cases hb : x.getLsbD i with
    | false => simp
    | true => exact absurd ⟨i, hi, hb⟩ hn
  obtain ⟨j, hj, hb⟩ := hx
  have h1 := trailingZeros_le hb
  have h2 : leadingZeros x ≤ 63 - j := by
    apply leadingZeros_le
    rw [BitVec.getMsbD_eq_getLsbD, show 64 - 1 - (63 - j) = j by omega, hb]
    have : 63 - j < 64 := by omega
    simp [this]
  omega

/-! ## The encoder writes code words -/

/-- The bits of one value. -/
def word (prev : U64) (pl pt : Nat) (cur : U64) : List Bool :=
  let d := cur ^^^ prev
  let leading := leadingZeros d % 32
  let trailing := trailingZeros d
  if d = 0#64 then [false]
  else if pl ≠ noLeading ∧ pl ≤ leading ∧ pt ≤ trailing then
    [true] ++ [false] ++ msbs (64 - pl - pt) ((d >>> pt) <<< (64 - (64 - pl - pt)))
  else [true] ++ [true] ++ msbs 5 (BitVec.ofNat 64 leading <<< 59) ++ msbs 6 (BitVec.ofNat 64 (64 - leading - trailing) <<< 58) ++
    msbs (64 - leading - trailing) ((d >>> trailing) <<< (64 - (64 - leading - trailing)))

/-- The widths after a value. -/
def widths (prev : U64) (pl pt : Nat) (cur : U64) : Nat × Nat :=
  let d := cur ^^^ prev
  let leading := leadingZeros d % 32
  let trailing := trailingZeros d
  if d = 0#64 then (pl, pt)
  else if pl ≠ noLeading ∧ pl ≤ leading ∧ pt ≤ trailing then (pl, pt)
  else (leading, trailing)

theorem Top.shiftLeft {l : Nat} (h : l ≤ 64) (v : U64) : Top l (v <<< (64 - l)) := by
  intro k hk
  rw [BitVec.getMsbD_shiftLeft, BitVec.getMsbD_of_ge]
  omega

theorem Holds.skip {dst : List Byte} {n : Nat} {B : List Bool} (h : Holds dst n B) : Holds dst (n + 1) (B ++ [false]) := by
  refine h.append rfl fun j => ?_
  have : ([false] : List Bool).getD (j - (n + 8)) false = false := by
    cases j - (n + 8) <;> rfl
  rw [this]
  simp

theorem encStep_spec {s : Enc} {B : List Bool} (cur : U64) (h : Holds s.dst s.n B) :
    ∃ s', encStep s cur = some s' ∧ Holds s'.dst s'.n (B ++ word s.prev s.prevLeading s.prevTrailing cur) ∧ s'.prev = cur ∧
      (s'.prevLeading, s'.prevTrailing) = widths s.prev s.prevLeading s.prevTrailing cur ∧
      (cur ≠ s.prev → s'.n + 8 ≤ 8 * s'.dst.length) := by
  unfold encStep word widths
  simp only []
  by_cases hd : cur ^^^ s.prev = 0#64
  · rw [if_pos hd, if_pos hd, if_pos hd]
    refine ⟨_, rfl, h.skip, rfl, rfl, fun hne => absurd ?_ hne⟩
    have : cur ^^^ s.prev ^^^ s.prev = 0#64 ^^^ s.prev := by rw [hd]
    rwa [BitVec.xor_assoc, BitVec.xor_self, BitVec.xor_zero, BitVec.zero_xor] at this
  · rw [if_neg hd, if_neg hd, if_neg hd]
    have hz := zeros_lt hd
    generalize hld : leadingZeros (cur ^^^ s.prev) % 32 = leading
    generalize htr : trailingZeros (cur ^^^ s.prev) = trailing
    generalize cur ^^^ s.prev = d at *
    have hle : leading < 32 := by rw [← hld]; exact Nat.mod_lt _ (by decide)
    have hlt : leading + trailing < 64 := by
      have := Nat.mod_le (leadingZeros d) 32
      omega
    obtain ⟨g1, -⟩ := grow_length s.dst (s.n / 8 + 1)
    obtain ⟨d1, e1, h1, l1⟩ := setBit_spec (h.grow (s.n / 8 + 1)) g1
    rw [e1]
    simp only [Option.bind_eq_bind, Option.bind_some]
    have g2 := growOne_length (dst := d1) (k := (s.n + 1 + 2) / 8 + 1) (by omega)
    have h2 := h1.growOne ((s.n + 1 + 2) / 8 + 1)
    generalize growOne d1 ((s.n + 1 + 2) / 8 + 1) = d2 at *
    by_cases hr : s.prevLeading ≠ noLeading ∧ s.prevLeading ≤ leading ∧ s.prevTrailing ≤ trailing
    · rw [if_pos hr, if_pos hr, if_pos hr]
      have g3 := grow_length d2 ((s.n + 1 + 1 + 1) / 8 + 1)
      have h3 := h2.skip.grow ((s.n + 1 + 1 + 1) / 8 + 1)
      obtain ⟨d4, e4, h4, l4⟩ := putLong_spec (l := 64 - s.prevLeading - s.prevTrailing) h3 (by omega) (by omega)
        (Top.shiftLeft (by omega) (d >>> s.prevTrailing))
      rw [e4]
      simp only [Option.bind_some]
      refine ⟨_, rfl, ?_, rfl, rfl, fun _ => l4⟩
      simpa [List.append_assoc] using h4
    · rw [if_neg hr, if_neg hr, if_neg hr]
      obtain ⟨d3, e3, h3, l3⟩ := setBit_spec h2 (by omega)
      rw [e3]
      simp only [Option.bind_some]
      have g4 := growOne_length (dst := d3) (k := (s.n + 1 + 1 + 5) / 8 + 1) (by omega)
      have h4 := h3.growOne ((s.n + 1 + 1 + 5) / 8 + 1)
      generalize growOne d3 ((s.n + 1 + 1 + 5) / 8 + 1) = d4 at *
      obtain ⟨d5, e5, h5, l5⟩ := putShort_spec (l := 5) h4 (by omega) (by omega) (Top.shiftLeft (by omega) (BitVec.ofNat 64 leading))
      rw [show 64 - 5 = 59 from rfl] at e5 h5
      rw [e5]
      simp only [Option.bind_some]
      have g6 := growOne_length (dst := d5) (k := (s.n + 1 + 1 + 5 + 6) / 8 + 1) (by omega)
      have h6 := h5.growOne ((s.n + 1 + 1 + 5 + 6) / 8 + 1)
      generalize growOne d5 ((s.n + 1 + 1 + 5 + 6) / 8 + 1) = d6 at *
      obtain ⟨d7, e7, h7, l7⟩ := putShort_spec (l := 6) h6 (by omega) (by omega)
        (Top.shiftLeft (by omega) (BitVec.ofNat 64 (64 - leading - trailing)))
      rw [show 64 - 6 = 58 from rfl] at e7 h7
      rw [e7]
      simp only [Option.bind_some]
      have g8 := grow_length d7 ((s.n + 1 + 1 + 5 + 6 + (64 - leading - trailing)) / 8 + 1)
      have h8 := h7.grow ((s.n + 1 + 1 + 5 + 6 + (64 - leading - trailing)) / 8 + 1)
      obtain ⟨d9, e9, h9, l9⟩ := putLong_spec (l := 64 - leading - trailing) h8 (by omega) (by omega)
        (Top.shiftLeft (by omega) (d >>> trailing))
      rw [e9]
      simp only [Option.bind_some]
      refine ⟨_, rfl, ?_, rfl, rfl, fun _ => l9⟩
      simpa [List.append_assoc] using h9

/-- The bits of all values and the sentinel. -/
def stream : U64 → Nat → Nat → List U64 → List Bool
  | prev, pl, pt, [] => word prev pl pt sentinel
  | prev, pl, pt, x :: xs => word prev pl pt x ++ stream x (widths prev pl pt x).1 (widths prev pl pt x).2 xs

theorem encLoop_spec {s : Enc} {B : List Bool} (xs : List U64) (h : Holds s.dst s.n B)
    (hx : ∀ x ∈ xs, x ≠ sentinel) (hp : xs = [] → s.prev ≠ sentinel) :
    ∃ s', encLoop s xs = some s' ∧ Holds s'.dst s'.n (B ++ stream s.prev s.prevLeading s.prevTrailing xs) ∧
      s'.n + 8 ≤ 8 * s'.dst.length := by
  induction xs generalizing s B with
  | nil =>
    obtain ⟨s', e, h1, -, -, h2⟩ := encStep_spec sentinel h
    exact ⟨s', e, h1, h2 (fun e => hp rfl e.symm)⟩
  | cons x xs ih =>
    obtain ⟨s1, e, h1, hp1, hw1, -⟩ := encStep_spec x h
    have hx0 := hx x (List.mem_cons_self ..)
    obtain ⟨s', e', h', l'⟩ := ih h1 (fun y hy => hx y (List.mem_cons_of_mem _ hy)) (fun _ => by rw [hp1]; exact hx0)
    refine ⟨s', ?_, ?_, l'⟩
    · rw [encLoop, if_neg hx0, e]
      exact e'
    · rw [stream, ← List.append_assoc, ← hw1, ← hp1]
      have := hp1
      subst this
      exact h'

/-! ## Reading bits -/

/-- The cache holds the bits of `src` from `p` on to the end of byte `c.i - 1`. -/
structure At (src : List Byte) (c : Cache) (p : Nat) : Prop where
  pos : p + c.valid = 8 * c.i
  le : c.valid ≤ 64
  inb : c.i ≤ src.length
  bits : ∀ k, k < c.valid → c.word.getMsbD k = bitAt src (p + k)

theorem fold_getLsbD (l : List Byte) (k : Nat) (hk : k < 64) (hl : l.length ≤ 8) :
    (l.foldl (fun (a : U64) v => (a <<< 8) ||| v.setWidth 64) 0#64).getLsbD k = (decide (k < 8 * l.length) && bitAt l (8 * l.length - 1 - k)) := by
  induction l using List.reverseRecOn generalizing k with
  | nil => simp
  | append_singleton l b ih =>
    rw [List.foldl_append, List.foldl_cons, List.foldl_nil, BitVec.getLsbD_or, BitVec.getLsbD_shiftLeft, BitVec.getLsbD_setWidth,
      List.length_append, List.length_singleton]
    rw [List.length_append, List.length_singleton] at hl
    by_cases h8 : k < 8
    · have e : bitAt (l ++ [b]) (8 * (l.length + 1) - 1 - k) = b.getLsbD k := by
        rw [bitAt_append, if_neg (by omega), show 8 * (l.length + 1) - 1 - k - 8 * l.length = 7 - k by omega]
        unfold bitAt
        rw [show (7 - k) / 8 = 0 by omega, show (7 - k) % 8 = 7 - k by omega, List.getD_cons_zero, BitVec.getMsbD_eq_getLsbD,
          show 8 - 1 - (7 - k) = k by omega]
        have : 7 - k < 8 := by omega
        simp [this]
      rw [e]
      have h1 : k < 8 * (l.length + 1) := by omega
      simp [h8, hk, h1]
    · rw [ih (k - 8) (by omega) (by omega)]
      have e : b.getLsbD k = false := BitVec.getLsbD_of_ge _ _ (by omega)
      rw [e, bitAt_append]
      by_cases h1 : k - 8 < 8 * l.length
      · rw [if_pos (by omega), show 8 * (l.length + 1) - 1 - k = 8 * l.length - 1 - (k - 8) by omega]
        have h2 : k < 8 * (l.length + 1) := by omega
        simp [hk, h8, h1, h2]
      · have h2 : ¬ k < 8 * (l.length + 1) := by omega
        simp [h1, h2]

theorem refill_spec {src : List Byte} {i : Nat} (h : i < src.length) :
    ∃ c, refill src i = some c ∧ At src c (8 * i) ∧ c.valid = min 64 (8 * (src.length - i)) := by
  unfold refill
  simp only []
  by_cases h8 : 8 ≤ src.length - i
  · rw [if_pos h8]
    refine ⟨_, rfl, ⟨?_, ?_, ?_, ?_⟩, ?_⟩
    · dsimp only; omega
    · exact Nat.le_refl _
    · dsimp only; omega
    · intro k hk
      dsimp only at hk ⊢
      rw [ofBe64_getMsbD (by simp; omega) hk, bitAt_take hk, bitAt_drop]
    · dsimp only; omega
  · rw [if_neg h8, if_pos (by omega)]
    have hl : (src.drop i).length = src.length - i := by simp
    refine ⟨_, rfl, ⟨?_, ?_, ?_, ?_⟩, ?_⟩
    · dsimp only; omega
    · dsimp only; omega
    · dsimp only; omega
    · intro k hk
      dsimp only at hk ⊢
      rw [BitVec.getMsbD_rotateRight, Nat.mod_eq_of_lt (by omega), if_pos (by omega), Nat.mod_eq_of_lt (by omega),
        BitVec.getMsbD_eq_getLsbD, fold_getLsbD _ _ (by omega) (by omega), bitAt_drop, hl]
      have h1 : k < 64 := by omega
      have h2 : 64 + k - (src.length - i) * 8 < 64 := by omega
      have h3 : 64 - 1 - (64 + k - (src.length - i) * 8) < 8 * (src.length - i) := by omega
      have h4 : 8 * (src.length - i) - 1 - (64 - 1 - (64 + k - (src.length - i) * 8)) = k := by omega
      rw [h4, decide_eq_true h1, decide_eq_true h2, decide_eq_true h3]
      simp
    · dsimp only; omega

theorem At.lt {src : List Byte} {c : Cache} {p : Nat} (h : At src c p) (hv : c.valid = 0) (hp : p < 8 * src.length) :
    c.i < src.length ∧ 8 * c.i = p := by
  have := h.pos
  omega

theorem readBit_spec {src : List Byte} {c : Cache} {p : Nat} (h : At src c p) (hp : p < 8 * src.length) :
    ∃ c', readBit src c = some (bitAt src p, c') ∧ At src c' (p + 1) := by
  have key : ∃ c1, (if c.valid = 0 then refill src c.i else some c) = some c1 ∧ At src c1 p ∧ 0 < c1.valid := by
    by_cases hv : c.valid = 0
    · rw [if_pos hv]
      obtain ⟨h1, h2⟩ := h.lt hv hp
      obtain ⟨c1, e, ha, hl⟩ := refill_spec h1
      exact ⟨c1, e, by rwa [h2] at ha, by omega⟩
    · rw [if_neg hv]
      exact ⟨c, rfl, h, by omega⟩
  obtain ⟨c1, e, h1, hv⟩ := key
  refine ⟨⟨c1.word.rotateLeft 1, c1.valid - 1, c1.i⟩, ?_, ⟨?_, ?_, h1.inb, ?_⟩⟩
  · unfold readBit
    rw [e]
    have hb : (c1.word.rotateLeft 1).getLsbD 0 = bitAt src p := by
      rw [BitVec.getLsbD_eq_getMsbD, BitVec.getMsbD_rotateLeft]
      have := h1.bits 0 hv
      simpa using this
    simp only [Option.bind_some]
    rw [hb]
  · have := h1.pos
    dsimp only; omega
  · have := h1.le
    dsimp only; omega
  · intro k hk
    dsimp only at hk ⊢
    have := h1.le
    rw [BitVec.getMsbD_rotateLeft, Nat.mod_eq_of_lt (by omega), h1.bits _ (by omega)]
    have h2 : k < 64 := by omega
    rw [decide_eq_true h2, Bool.true_and]
    congr 1
    omega

theorem maskOf_getLsbD : ∀ k, 1 ≤ k → k ≤ 64 → ∀ i, i < 64 → (maskOf k).getLsbD i = decide (i < k) := by
  have : ∀ k, k < 65 → 1 ≤ k → ∀ i, i < 64 → (maskOf k).getLsbD i = decide (i < k) := by decide +kernel
  intro k h1 h2 i hi
  exact this k (by omega) h1 i hi

/-- Rotating moves the first bits to the end. -/
theorem rotl_low {w : U64} {k j : Nat} (h1 : 1 ≤ k) (hk : k ≤ 64) (hj : j < k) : (w.rotateLeft k).getLsbD (k - 1 - j) = w.getMsbD j := by
  rw [BitVec.getLsbD_eq_getMsbD, BitVec.getMsbD_rotateLeft]
  have h2 : k - 1 - j < 64 := by omega
  have h3 : 64 - 1 - (k - 1 - j) < 64 := by omega
  have e : (k + (64 - 1 - (k - 1 - j))) % 64 = j := by
    rw [show k + (64 - 1 - (k - 1 - j)) = j + 64 by omega, Nat.add_mod_right, Nat.mod_eq_of_lt (by omega)]
  rw [e, decide_eq_true h2, decide_eq_true h3]
  simp

/-- Rotating moves the other bits to the front. -/
theorem rotl_high {w : U64} {k j : Nat} (hj : k + j < 64) : (w.rotateLeft k).getMsbD j = w.getMsbD (k + j) := by
  rw [BitVec.getMsbD_rotateLeft, Nat.mod_eq_of_lt hj]
  have : j < 64 := by omega
  simp [this]

theorem readBits_spec {src : List Byte} {c : Cache} {p k : Nat} (h : At src c p) (h1 : 1 ≤ k) (hk : k ≤ 64) (hp : p + k ≤ 8 * src.length) :
    ∃ r c', readBits src k c = some (r, c') ∧ At src c' (p + k) ∧ ∀ j, j < k → r.getLsbD (k - 1 - j) = bitAt src (p + j) := by
  unfold readBits
  have hle := h.le
  have hpos := h.pos
  by_cases hv : k ≤ c.valid
  · rw [if_pos hv]
    refine ⟨_, _, rfl, ⟨?_, ?_, h.inb, ?_⟩, ?_⟩
    · dsimp only; omega
    · dsimp only; omega
    · intro j hj
      dsimp only at hj ⊢
      rw [rotl_high (by omega), h.bits _ (by omega), Nat.add_assoc]
    · intro j hj
      rw [rotl_low h1 hk hj, h.bits _ (by omega)]
  · rw [if_neg hv]
    have em : (if 0 < c.valid then k - c.valid else k) = k - c.valid := by
      split <;> omega
    rw [em]
    obtain ⟨c1, e, hc1, hl1⟩ := refill_spec (src := src) (i := c.i) (by omega)
    rw [e]
    simp only [Option.bind_eq_bind, Option.bind_some]
    have hb := hc1.bits
    have hm : ∀ i, i < 64 → (maskOf (k - c.valid)).getLsbD i = decide (i < k - c.valid) := maskOf_getLsbD _ (by omega) (by omega)
    have hs : subU8 c1.valid (k - c.valid) = c1.valid - (k - c.valid) := by
      unfold subU8
      omega
    refine ⟨_, _, rfl, ⟨?_, ?_, hc1.inb, ?_⟩, ?_⟩
    · have := hc1.pos
      dsimp only
      rw [hs]
      omega
    · dsimp only
      rw [hs]
      omega
    · intro j hj
      dsimp only at hj ⊢
      rw [hs] at hj
      rw [rotl_high (by omega), hb _ (by omega)]
      congr 1
      omega
    · intro j hj
      rw [BitVec.getLsbD_or, BitVec.getLsbD_and, BitVec.getLsbD_and, BitVec.getLsbD_not, hm _ (by omega)]
      by_cases hj2 : j < c.valid
      · have h2 : ¬ k - 1 - j < k - c.valid := by omega
        have h3 : k - 1 - j < 64 := by omega
        rw [if_pos (by omega), rotl_low h1 hk hj, h.bits _ hj2]
        simp [h2, h3]
      · have h2 : k - 1 - j < k - c.valid := by omega
        have e3 : k - 1 - j = (k - c.valid) - 1 - (j - c.valid) := by omega
        rw [decide_eq_true h2]
        rw [e3, rotl_low (by omega) (by omega) (by omega), hb _ (by omega)]
        simp only [Bool.not_true, Bool.and_false, Bool.false_or, Bool.and_true]
        congr 1
        omega

/-! ## Decoding the stream -/

/-- The bits from `p` on. -/
def Reads (src : List Byte) (p : Nat) (C : List Bool) : Prop :=
  p + C.length ≤ 8 * src.length ∧ ∀ j, j < C.length → bitAt src (p + j) = C.getD j false

theorem Reads.append {src : List Byte} {p : Nat} {A B : List Bool} (h : Reads src p (A ++ B)) :
    Reads src p A ∧ Reads src (p + A.length) B := by
  obtain ⟨h1, h2⟩ := h
  rw [List.length_append] at h1 h2
  refine ⟨⟨by omega, fun j hj => ?_⟩, ⟨by omega, fun j hj => ?_⟩⟩
  · rw [h2 j (by omega), getD_append, if_pos hj]
  · rw [Nat.add_assoc, h2 _ (by omega), getD_append, if_neg (by omega), Nat.add_sub_cancel_left]

theorem Reads.bit {src : List Byte} {p : Nat} {b : Bool} (h : Reads src p [b]) : p < 8 * src.length ∧ bitAt src p = b := by
  obtain ⟨h1, h2⟩ := h
  exact ⟨by simp at h1; omega, by simpa using h2 0 (by simp)⟩

/-- A field of `k` bits. -/
theorem Reads.field {src : List Byte} {p k : Nat} {v : U64} (h : Reads src p (msbs k (v <<< (64 - k)))) (hk : k ≤ 64) {j : Nat} (hj : j < k) :
    bitAt src (p + j) = v.getLsbD (k - 1 - j) := by
  obtain ⟨-, h2⟩ := h
  rw [h2 j (by simpa using hj), msbs_getD, BitVec.getMsbD_shiftLeft, BitVec.getMsbD_eq_getLsbD,
    show 64 - 1 - (j + (64 - k)) = k - 1 - j by omega]
  have : j + (64 - k) < 64 := by omega
  simp [hj, this]

theorem readValue {src : List Byte} {c : Cache} {p k : Nat} {v : U64} (ha : At src c p) (h1 : 1 ≤ k) (hk : k ≤ 64)
    (h : Reads src p (msbs k (v <<< (64 - k)))) (hv : ∀ i, k ≤ i → v.getLsbD i = false) :
    ∃ r c', readBits src k c = some (r, c') ∧ At src c' (p + k) ∧ r &&& maskOf k = v := by
  obtain ⟨r, c', e, ha', hr⟩ := readBits_spec ha h1 hk (by have := h.1; simpa using this)
  refine ⟨r, c', e, ha', ?_⟩
  apply BitVec.eq_of_getLsbD_eq
  intro i hi
  rw [BitVec.getLsbD_and, maskOf_getLsbD k h1 hk i hi]
  by_cases hik : i < k
  · have := hr (k - 1 - i) (by omega)
    rw [h.field hk (by omega), show k - 1 - (k - 1 - i) = i by omega] at this
    rw [this, decide_eq_true hik, Bool.and_true]
  · rw [decide_eq_false hik, Bool.and_false, hv i (by omega)]

theorem readWidths_spec {src : List Byte} {s : Dec} {c : Cache} {p leading sig : Nat} (ha : At src c p) (hl : leading < 32)
    (h1 : 1 ≤ sig) (hs : leading + sig ≤ 64)
    (h : Reads src p (msbs 5 (BitVec.ofNat 64 leading <<< 59) ++ msbs 6 (BitVec.ofNat 64 sig <<< 58))) :
    ∃ c', readWidths src s true c = some (64 - leading - sig, sig, c') ∧ At src c' (p + 11) := by
  obtain ⟨ha5, ha6⟩ := h.append
  rw [msbs_length] at ha6
  obtain ⟨r, c', e, ha', hr⟩ := readBits_spec (k := 11) ha (by omega) (by omega) (by have := h.1; simpa using this)
  refine ⟨c', ?_, ha'⟩
  have hbit : ∀ i, i < 11 → r.getLsbD i = if i < 6 then sig.testBit i else leading.testBit (i - 6) := by
    intro i hi
    have := hr (10 - i) (by omega)
    rw [show 11 - 1 - (10 - i) = i by omega] at this
    rw [this]
    split
    · rename_i h6
      have h2 := Reads.field (k := 6) ha6 (by omega) (j := 5 - i) (by omega)
      rw [show p + 5 + (5 - i) = p + (10 - i) by omega, show 6 - 1 - (5 - i) = i by omega, BitVec.getLsbD_ofNat] at h2
      rw [h2]
      have : i < 64 := by omega
      simp [this]
    · rename_i h6
      have h2 := Reads.field (k := 5) ha5 (by omega) (j := 10 - i) (by omega)
      rw [show 5 - 1 - (10 - i) = i - 6 by omega, BitVec.getLsbD_ofNat] at h2
      rw [h2]
      have : i - 6 < 64 := by omega
      simp [this]
  have hm11 : ∀ i, i < 64 → (0x7ff#64).getLsbD i = decide (i < 11) := by decide
  have hm6 : ∀ i, i < 64 → (0x3f#64).getLsbD i = decide (i < 6) := by decide
  have e1 : (r &&& 0x7ff#64) >>> 6 = BitVec.ofNat 64 leading := by
    apply BitVec.eq_of_getLsbD_eq
    intro i hi
    rw [BitVec.getLsbD_ushiftRight, BitVec.getLsbD_and, BitVec.getLsbD_ofNat 64 leading]
    by_cases h5 : i < 5
    · rw [hm11 _ (by omega), hbit _ (by omega), if_neg (by omega), show 6 + i - 6 = i by omega]
      have : 6 + i < 11 := by omega
      simp [this, hi]
    · have ht : leading.testBit i = false := by
        apply Nat.testBit_lt_two_pow
        have : 2 ^ 5 ≤ 2 ^ i := Nat.pow_le_pow_right (by decide) (by omega)
        omega
      rw [ht]
      by_cases h6 : 6 + i < 64
      · rw [hm11 _ h6]
        have : ¬ 6 + i < 11 := by omega
        simp [this]
      · rw [BitVec.getLsbD_of_ge r _ (by omega)]
        simp
  have e2 : (r &&& 0x7ff#64) &&& 0x3f#64 = BitVec.ofNat 64 (sig % 64) := by
    apply BitVec.eq_of_getLsbD_eq
    intro i hi
    rw [BitVec.getLsbD_and, BitVec.getLsbD_and, BitVec.getLsbD_ofNat 64 (sig % 64), hm11 _ hi, hm6 _ hi]
    have e0 : (sig % 64).testBit i = (decide (i < 6) && sig.testBit i) := Nat.testBit_mod_two_pow sig 6 i
    rw [e0]
    by_cases h6 : i < 6
    · rw [hbit _ (by omega), if_pos h6]
      have h7 : i < 11 := by omega
      simp [h6, h7, hi]
    · simp [h6]
  unfold readWidths
  rw [if_pos rfl, e]
  simp only [Option.bind_eq_bind, Option.bind_some]
  rw [e1, e2, BitVec.toNat_ofNat, BitVec.toNat_ofNat]
  have e3 : leading % 2 ^ 64 % 256 % 32 = leading := by omega
  have e4 : sig % 64 % 2 ^ 64 = sig % 64 := by omega
  rw [e3, e4]
  unfold subU8
  by_cases h64 : sig = 64
  · subst h64
    have : leading = 0 := by omega
    subst this
    rfl
  · have : sig % 64 = sig := by omega
    rw [this, if_pos (by omega)]
    have e5 : ((64 + 256 - leading % 256) % 256 + 256 - sig % 256) % 256 = 64 - leading - sig := by omega
    rw [e5]
    rfl

/-- The decoder knows the widths in use. -/
def Knows (s : Dec) (pl pt : Nat) : Prop := pl ≠ noLeading → s.trailingN = pt ∧ s.meaningfulN = 64 - pl - pt

theorem xor_xor_self (a b : U64) : a ^^^ (b ^^^ a) = b := by
  rw [BitVec.xor_comm b a, ← BitVec.xor_assoc, BitVec.xor_self, BitVec.zero_xor]

/-- Shifting out zeros and back. -/
theorem shift_back {d : U64} {t : Nat} (h : ∀ j, j < t → d.getLsbD j = false) : (d >>> t) <<< t = d := by
  apply BitVec.eq_of_getLsbD_eq
  intro i hi
  rw [BitVec.getLsbD_shiftLeft, BitVec.getLsbD_ushiftRight]
  by_cases ht : i < t
  · rw [h i ht]; simp [ht]
  · rw [show t + (i - t) = i by omega]
    simp [hi, ht]

/-- Nothing is left above the significant bits. -/
theorem shift_high {d : U64} {l t : Nat} (h : l ≤ leadingZeros d) (hs : l + t < 64) {i : Nat} (hi : 64 - l - t ≤ i) : (d >>> t).getLsbD i = false := by
  rw [BitVec.getLsbD_ushiftRight]
  by_cases h64 : t + i < 64
  · have := leadingZeros_false (x := d) (j := 63 - (t + i)) (by omega)
    rw [BitVec.getMsbD_eq_getLsbD, show 64 - 1 - (63 - (t + i)) = t + i by omega] at this
    have h2 : 63 - (t + i) < 64 := by omega
    simpa [h2] using this
  · exact BitVec.getLsbD_of_ge _ _ (by omega)

theorem decStep_spec {src : List Byte} {s : Dec} {p pl pt : Nat} (cur : U64) (ha : At src s.c p) (hk : Knows s pl pt)
    (h : Reads src p (word s.val pl pt cur)) :
    ∃ s', decStep src s = some (s', decide (cur ≠ s.val ∧ cur = sentinel)) ∧ s'.val = cur ∧ At src s'.c (p + (word s.val pl pt cur).length) ∧
      Knows s' (widths s.val pl pt cur).1 (widths s.val pl pt cur).2 := by
  unfold word at h ⊢
  unfold widths decStep
  simp only [] at h ⊢
  by_cases hd : cur ^^^ s.val = 0#64
  · have hcur : cur = s.val := by
      have : cur ^^^ s.val ^^^ s.val = 0#64 ^^^ s.val := by rw [hd]
      rwa [BitVec.xor_assoc, BitVec.xor_self, BitVec.xor_zero, BitVec.zero_xor] at this
    rw [if_pos hd] at h ⊢
    rw [if_pos hd]
    obtain ⟨hp, hb⟩ := h.bit
    obtain ⟨c', e, ha'⟩ := readBit_spec ha hp
    rw [e, hb]
    refine ⟨{ s with c := c' }, ?_, hcur.symm, by simpa using ha', hk⟩
    simp [hcur]
  · have hne : cur ≠ s.val := fun e => hd (by rw [e, BitVec.xor_self])
    rw [if_neg hd] at h ⊢
    rw [if_neg hd]
    have hz := zeros_lt hd
    have hxor := xor_xor_self s.val cur
    generalize hdd : cur ^^^ s.val = d at *
    generalize hld : leadingZeros d % 32 = leading at *
    generalize htr : trailingZeros d = trailing at *
    have hle : leading < 32 := by rw [← hld]; exact Nat.mod_lt _ (by decide)
    have hll : leading ≤ leadingZeros d := by rw [← hld]; exact Nat.mod_le _ _
    by_cases hr : pl ≠ noLeading ∧ pl ≤ leading ∧ pt ≤ trailing
    · rw [if_pos hr] at h ⊢
      rw [if_pos hr]
      obtain ⟨h12, h3⟩ := h.append
      obtain ⟨h1, h2⟩ := h12.append
      obtain ⟨hp1, hb1⟩ := h1.bit
      obtain ⟨hp2, hb2⟩ := h2.bit
      obtain ⟨c1, e1, a1⟩ := readBit_spec ha hp1
      obtain ⟨c2, e2, a2⟩ := readBit_spec a1 hp2
      obtain ⟨kt, km⟩ := hk hr.1
      have hwd : pl + pt < 64 := by omega
      simp only [List.length_append, List.length_singleton] at h3
      obtain ⟨r, c3, e3, a3, hr3⟩ := readValue (v := d >>> pt) (k := 64 - pl - pt) a2 (by omega) (by omega) h3
        (fun i hi => shift_high (l := pl) (by omega) hwd hi)
      rw [e1, hb1]
      simp only []
      rw [e2]
      simp only [List.length_singleton] at hb2
      rw [hb2]
      simp only [readWidths]
      rw [kt, km, if_neg (by decide)]
      simp only []
      rw [e3]
      simp only []
      rw [hr3, Nat.mod_eq_of_lt (show pt < 64 by omega), shift_back (fun j hj => trailingZeros_false (by omega)), hxor]
      refine ⟨⟨c3, cur, pt, 64 - pl - pt⟩, ?_, rfl, ?_, fun _ => ⟨rfl, rfl⟩⟩
      · simp [hne]
      · simp only [List.length_append, List.length_singleton, msbs_length]
        have : p + (1 + 1 + (64 - pl - pt)) = p + 1 + 1 + (64 - pl - pt) := by omega
        rw [this]
        exact a3
    · rw [if_neg hr] at h ⊢
      rw [if_neg hr]
      rw [List.append_assoc ([true] ++ [true])] at h
      obtain ⟨h1234, h5⟩ := h.append
      obtain ⟨h12, h34⟩ := h1234.append
      obtain ⟨h1, h2⟩ := h12.append
      obtain ⟨hp1, hb1⟩ := h1.bit
      obtain ⟨hp2, hb2⟩ := h2.bit
      obtain ⟨c1, e1, a1⟩ := readBit_spec ha hp1
      obtain ⟨c2, e2, a2⟩ := readBit_spec a1 hp2
      simp only [List.length_append, List.length_singleton, msbs_length] at h34 h5
      obtain ⟨c3, e3, a3⟩ := readWidths_spec (s := s) (leading := leading) (sig := 64 - leading - trailing) a2 hle (by omega) (by omega) h34
      rw [show 64 - leading - (64 - leading - trailing) = trailing by omega] at e3
      have hp5 : p + (1 + 1 + (5 + 6)) = p + 1 + 1 + 11 := by omega
      rw [hp5] at h5
      obtain ⟨r, c4, e4, a4, hr4⟩ := readValue (v := d >>> trailing) (k := 64 - leading - trailing) a3 (by omega) (by omega) h5
        (fun i hi => shift_high (l := leading) hll (by omega) hi)
      rw [e1, hb1]
      simp only []
      rw [e2]
      simp only [List.length_singleton] at hb2
      rw [hb2]
      simp only []
      rw [e3]
      simp only []
      rw [e4]
      simp only []
      rw [hr4, Nat.mod_eq_of_lt (show trailing < 64 by omega), shift_back (fun j hj => trailingZeros_false (by omega)), hxor]
      refine ⟨⟨c4, cur, trailing, 64 - leading - trailing⟩, ?_, rfl, ?_, fun _ => ⟨rfl, rfl⟩⟩
      · simp [hne]
      · simp only [List.length_append, List.length_singleton, msbs_length]
        have : p + (1 + 1 + 5 + 6 + (64 - leading - trailing)) = p + 1 + 1 + 11 + (64 - leading - trailing) := by omega
        rw [this]
        exact a4

theorem word_pos (prev : U64) (pl pt : Nat) (cur : U64) : 0 < (word prev pl pt cur).length := by
  unfold word
  simp only []
  split
  · simp
  · split <;> simp

theorem stream_length (prev : U64) (pl pt : Nat) (xs : List U64) : xs.length < (stream prev pl pt xs).length := by
  induction xs generalizing prev pl pt with
  | nil => exact word_pos _ _ _ _
  | cons x xs ih =>
    rw [stream, List.length_append, List.length_cons]
    have := ih x (widths prev pl pt x).1 (widths prev pl pt x).2
    have := word_pos prev pl pt x
    omega

theorem decLoop_spec {src : List Byte} (xs : List U64) {s : Dec} {p pl pt fuel : Nat} (ha : At src s.c p)
    (hk : Knows s pl pt) (h : Reads src p (stream s.val pl pt xs)) (hx : ∀ x ∈ xs, x ≠ sentinel) (hp : xs = [] → s.val ≠ sentinel)
    (hf : xs.length < fuel) : decLoop src fuel s = some xs := by
  induction xs generalizing s p pl pt fuel with
  | nil =>
    obtain ⟨fuel, rfl⟩ : ∃ f, fuel = f + 1 := ⟨fuel - 1, by omega⟩
    obtain ⟨s', e, -, -, -⟩ := decStep_spec sentinel ha hk h
    have hne : sentinel ≠ s.val := fun e => hp rfl e.symm
    rw [decLoop, e]
    simp [hne]
  | cons x xs ih =>
    obtain ⟨fuel, rfl⟩ : ∃ f, fuel = f + 1 := ⟨fuel - 1, by simp at hf; omega⟩
    rw [stream] at h
    obtain ⟨h1, h2⟩ := h.append
    obtain ⟨s', e, hv, a', hk'⟩ := decStep_spec x ha hk h1
    have hx0 := hx x (List.mem_cons_self ..)
    have hd : decide (x ≠ s.val ∧ x = sentinel) = false := by simp [hx0]
    rw [decLoop, e, hd]
    simp only []
    rw [← hv] at h2
    rw [hv] at h2
    rw [ih (s := s') a' hk' (by rw [hv]; exact h2) (fun y hy => hx y (List.mem_cons_of_mem _ hy))
      (fun _ => by rw [hv]; exact hx0) (by simp at hf; omega), hv]
    rfl

theorem decodeValues_encode (first : U64) (rest : List U64) (hx : ∀ x ∈ rest, x ≠ sentinel) (hp : rest = [] → first ≠ sentinel) :
    ∃ b src, encode (first :: rest) = some (b :: src) ∧ 9 < src.length ∧ decodeValues src = some (first :: rest) ∧ b = tagGorilla := by
  generalize hini : tagGorilla :: (1#8 <<< 4) :: be64 first = ini
  have hil : ini.length = 10 := by rw [← hini]; simp
  let B0 : List Bool := (List.range 80).map (bitAt ini)
  have hB0 : ∀ j, B0.getD j false = bitAt ini j := by
    intro j
    rw [List.getD_eq_getElem?_getD, List.getElem?_map]
    by_cases h : j < 80
    · simp [h]
    · rw [List.getElem?_eq_none (by simpa using h), bitAt_of_ge (by omega)]
      rfl
  have hB0l : B0.length = 80 := by simp [B0]
  have h0 : Holds ini (8 + 64) B0 := ⟨by simp [B0], fun j => (hB0 j).symm⟩
  obtain ⟨s', e, hh, hl⟩ := encLoop_spec (s := ⟨ini, 8 + 64, first, noLeading, 0⟩) rest h0 hx hp
  generalize hS : stream first noLeading 0 rest = S at hh
  have hSl := stream_length first noLeading 0 rest
  rw [hS] at hSl
  have hn : s'.n = 72 + S.length := by
    have := hh.len
    rw [List.length_append, hB0l] at this
    omega
  generalize hL : (if 0 < s'.n % 8 then s'.n / 8 + 1 + 1 else s'.n / 8 + 1) = L
  have hL1 : s'.n + 8 ≤ 8 * L ∧ L ≤ s'.dst.length := by
    rw [← hL]
    split <;> omega
  have hlen : (s'.dst.take L).length = L := by simp; omega
  have henc : encode (first :: rest) = some (s'.dst.take L) := by
    rw [encode, hini, e, Option.map_some, hL]
  cases hout : s'.dst.take L with
  | nil => rw [hout] at hlen; simp at hlen; omega
  | cons b src =>
    rw [hout, List.length_cons] at hlen
    have hbits : ∀ j, j < 72 + S.length → bitAt src j = (B0 ++ S).getD (8 + j) false := by
      intro j hj
      have e1 : src = (s'.dst.take L).drop 1 := by rw [hout]; rfl
      rw [e1, bitAt_drop, bitAt_take (by omega), hh.bits]
    have hb : b = tagGorilla := by
      apply BitVec.eq_of_getMsbD_eq
      intro k hk
      have e1 : bitAt (s'.dst.take L) k = b.getMsbD k := by
        rw [hout, bitAt, Nat.div_eq_of_lt hk, Nat.mod_eq_of_lt hk]
        rfl
      have e2 : bitAt ini k = tagGorilla.getMsbD k := by
        rw [← hini, bitAt, Nat.div_eq_of_lt hk, Nat.mod_eq_of_lt hk]
        rfl
      rw [← e1, bitAt_take (by omega), hh.bits, getD_append, hB0l, if_pos (by omega), hB0, e2]
    refine ⟨b, src, by rw [henc, hout], by omega, ?_, hb⟩
    have hS2 : Reads src 72 S := by
      refine ⟨by omega, fun j hj => ?_⟩
      rw [hbits _ (by omega), getD_append, hB0l, if_neg (by omega), show 8 + (72 + j) - 80 = j by omega]
    have hval : ofBe64 ((src.drop 1).take 8) = first := by
      apply BitVec.eq_of_getMsbD_eq
      intro k hk
      rw [ofBe64_getMsbD (by simp; omega) hk, bitAt_take hk, bitAt_drop, hbits _ (by omega), getD_append, hB0l, if_pos (by omega), hB0,
        ← hini]
      have e2 : tagGorilla :: (1#8 <<< 4) :: be64 first = [tagGorilla, 1#8 <<< 4] ++ be64 first := rfl
      rw [e2, bitAt_append, if_neg (by simp; omega), ← bitAt_be64 _ hk]
      congr 1
      simp
      omega
    unfold decodeValues
    rw [if_neg (by omega), hval]
    obtain ⟨c, ec, ac, -⟩ := refill_spec (src := src) (i := 9) (by omega)
    rw [ec]
    simp only [Option.bind_some]
    rw [decLoop_spec rest (s := ⟨c, first, 0, 64⟩) ac (fun h => absurd rfl h) (by rw [hS]; exact hS2) hx hp (by omega)]
    rfl

/-! ## The bound on the turns of the decoder is never reached -/

/-- What the cache still has to give. -/
def Cache.left (src : List Byte) (c : Cache) : Nat := 256 * (src.length - c.i) + c.valid

theorem refill_left {src : List Byte} {i : Nat} {c : Cache} (h : refill src i = some c) : i < c.i ∧ c.i ≤ src.length ∧ c.valid ≤ 64 := by
  unfold refill at h
  simp only [] at h
  split at h
  · injection h with h; subst h; simp; omega
  · split at h
    · injection h with h; subst h; simp; omega
    · cases h

theorem readBit_left {src : List Byte} {c c' : Cache} {b : Bool} (h : readBit src c = some (b, c')) : c'.left src < c.left src := by
  unfold readBit at h
  split at h
  · rename_i hv
    cases hr : refill src c.i with
    | none => rw [hr] at h; cases h
    | some c1 =>
      rw [hr] at h
      obtain ⟨h1, h2, h3⟩ := refill_left hr
      injection h with h
      injection h with _ h
      subst h
      unfold Cache.left
      dsimp only
      omega
  · rename_i hv
    injection h with h
    injection h with _ h
    subst h
    unfold Cache.left
    dsimp only
    omega

theorem readBits_left {src : List Byte} {k : Nat} {c c' : Cache} {r : U64} (h : readBits src k c = some (r, c')) : c'.left src ≤ c.left src := by
  unfold readBits at h
  split at h
  · injection h with h
    injection h with _ h
    subst h
    unfold Cache.left
    dsimp only
    omega
  · cases hr : refill src c.i with
    | none => rw [hr] at h; cases h
    | some c1 =>
      rw [hr] at h
      obtain ⟨h1, h2, h3⟩ := refill_left hr
      injection h with h
      injection h with _ h
      subst h
      unfold Cache.left subU8
      dsimp only
      omega

theorem readWidths_left {src : List Byte} {s : Dec} {b : Bool} {c c' : Cache} {tn mn : Nat} (h : readWidths src s b c = some (tn, mn, c')) :
    c'.left src ≤ c.left src := by
  unfold readWidths at h
  split at h
  · cases hr : readBits src 11 c with
    | none => rw [hr] at h; cases h
    | some p =>
      obtain ⟨r, c1⟩ := p
      rw [hr] at h
      simp only [Option.bind_eq_bind, Option.bind_some] at h
      have := readBits_left hr
      split at h
      · injection h with h; injection h with _ h; injection h with _ h; subst h; exact this
      · injection h with h; injection h with _ h; injection h with _ h; subst h; exact this
  · injection h with h; injection h with _ h; injection h with _ h; subst h; exact Nat.le_refl _

/-- Every turn takes something. -/
theorem decStep_lt {src : List Byte} {s s' : Dec} {b : Bool} (h : decStep src s = some (s', b)) : s'.c.left src < s.c.left src := by
  unfold decStep at h
  split at h
  · cases h
  · rename_i h1
    injection h with h; injection h with h _; subst h
    exact readBit_left h1
  · rename_i h1
    split at h
    · cases h
    · rename_i h2
      split at h
      · cases h
      · rename_i h3
        split at h
        · cases h
        · rename_i h4
          injection h with h; injection h with h _; subst h
          have := readBit_left h1
          have := readBit_left h2
          have := readWidths_left h3
          have := readBits_left h4
          dsimp only
          omega

/-- Any larger bound gives the same. -/
theorem decLoop_fuel {src : List Byte} {s : Dec} {f g : Nat} (hf : s.c.left src < f) (hg : s.c.left src < g) :
    decLoop src f s = decLoop src g s := by
  induction f generalizing s g with
  | zero => omega
  | succ f ih =>
    obtain ⟨g, rfl⟩ : ∃ k, g = k + 1 := ⟨g - 1, by omega⟩
    rw [decLoop, decLoop]
    cases hs : decStep src s with
    | none => rfl
    | some p =>
      obtain ⟨s', b⟩ := p
      have := decStep_lt hs
      cases b with
      | true => rfl
      | false =>
        simp only []
        rw [ih (g := g) (by omega) (by omega)]

/-- The bound of `decodeValues` is large enough: any larger one gives the same. -/
theorem decodeValues_fuel {src : List Byte} {c : Cache} (h : refill src 9 = some c) (val : U64) (k : Nat) :
    decLoop src (256 * src.length + 256) ⟨c, val, 0, 64⟩ = decLoop src (256 * src.length + 256 + k) ⟨c, val, 0, 64⟩ := by
  obtain ⟨h1, h2, h3⟩ := refill_left h
  apply decLoop_fuel
  · unfold Cache.left; dsimp only; omega
  · unfold Cache.left; dsimp only; omega

/-! ## With nulls -/

theorem spread_eq {α : Type} (m : List Bool) (vs : List α) (h : m.count true = vs.length) : spread m vs = some (place m vs) := by
  induction m generalizing vs with
  | nil => rfl
  | cons b m ih =>
    cases b with
    | false => rw [spread, ih vs (by simpa using h)]; rfl
    | true =>
      cases vs with
      | nil => simp at h
      | cons v vs => rw [spread, ih vs (by simpa using h)]; rfl

theorem decode_encode (vs : List U64) (m : List Bool) (hc : m.count true = vs.length) (hx : ∀ x ∈ vs.tail, x ≠ sentinel)
    (hp : vs ≠ [sentinel]) : ∃ b, encode vs = some b ∧ decode b m = some (place m vs) := by
  cases vs with
  | nil => exact ⟨[], rfl, by rw [decode, place_no_true (by simpa using hc)]⟩
  | cons v vs =>
    obtain ⟨b, src, e, hl, hd, -⟩ := decodeValues_encode v vs hx (fun h1 h2 => hp (by rw [h1, h2]))
    refine ⟨b :: src, e, ?_⟩
    rw [decode, if_neg (by intro h; rw [h] at hl; simp at hl), hd, Option.bind_some, spread_eq _ _ hc]

theorem encLoop_sentinel {s : Enc} {xs : List U64} (h : sentinel ∈ xs) : encLoop s xs = none := by
  induction xs generalizing s with
  | nil => cases h
  | cons x xs ih =>
    rw [encLoop]
    by_cases hx : x = sentinel
    · rw [if_pos hx]
    · rw [if_neg hx]
      cases encStep s x with
      | none => rfl
      | some s' =>
        rcases List.mem_cons.1 h with h | h
        · exact absurd h.symm hx
        · exact ih h

theorem plainLoop_eq (m : List Bool) (vs : List U64) (h : m.count true = vs.length) : plainLoop m (vs.flatMap be64) = some (place m vs) := by
  induction m generalizing vs with
  | nil => rfl
  | cons b m ih =>
    cases b with
    | false => rw [plainLoop, ih vs (by simpa using h)]; rfl
    | true =>
      cases vs with
      | nil => simp at h
      | cons v vs =>
        rw [List.flatMap_cons, plainLoop, if_neg (by simp), List.drop_left' (be64_length v), List.take_left' (be64_length v), ofBe64_be64,
          ih vs (by simpa using h)]
        rfl

end Verif.Codec.Float
