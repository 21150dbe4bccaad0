import Verif.Codec.Float
/-!
# Bits of byte lists, and the encoder of floating point columns as a bit stream
-/
namespace Verif.Codec.Float

/-- Bit `j` of a byte list, the most significant bit of the first byte being bit 0; zero beyond the end. -/
def bitAt (l : List Byte) (j : Nat) : Bool := (l.getD (j / 8) 0#8).getMsbD (j % 8)

theorem bitAt_of_ge {l : List Byte} {j : Nat} (h : 8 * l.length ≤ j) : bitAt l j = false := by
  unfold bitAt
  rw [List.getD_eq_getElem?_getD, List.getElem?_eq_none (by omega)]
  simp

theorem bitAt_drop (l : List Byte) (k j : Nat) : bitAt (l.drop k) j = bitAt l (8 * k + j) := by
  unfold bitAt
  rw [List.getD_eq_getElem?_getD, List.getD_eq_getElem?_getD, List.getElem?_drop,
    show (8 * k + j) / 8 = k + j / 8 by omega, show (8 * k + j) % 8 = j % 8 by omega]

theorem bitAt_take {l : List Byte} {k j : Nat} (h : j < 8 * k) : bitAt (l.take k) j = bitAt l j := by
  unfold bitAt
  rw [List.getD_eq_getElem?_getD, List.getD_eq_getElem?_getD, List.getElem?_take, if_pos (by omega)]

theorem bitAt_append (a b : List Byte) (j : Nat) :
    bitAt (a ++ b) j = if j < 8 * a.length then bitAt a j else bitAt b (j - 8 * a.length) := by
  unfold bitAt
  simp only [List.getD_eq_getElem?_getD]
  split
  · rw [List.getElem?_append_left (by omega)]
  · rw [List.getElem?_append_right (by omega), show (j - 8 * a.length) / 8 = j / 8 - a.length by omega,
      show (j - 8 * a.length) % 8 = j % 8 by omega]

theorem bitAt_zeros (k j : Nat) : bitAt (List.replicate k 0#8) j = false := by
  unfold bitAt
  simp only [List.getD_eq_getElem?_getD, List.getElem?_replicate]
  split <;> simp

theorem bitAt_append_zeros (l : List Byte) (k j : Nat) : bitAt (l ++ List.replicate k 0#8) j = bitAt l j := by
  rw [bitAt_append, bitAt_zeros]
  split
  · rfl
  · rw [bitAt_of_ge (by omega)]

theorem bitAt_modify (l : List Byte) (i : Nat) (b : Byte) (h : i < l.length) (j : Nat) :
    bitAt (l.modify i (· ||| b)) j = (bitAt l j || (decide (j / 8 = i) && b.getMsbD (j % 8))) := by
  unfold bitAt
  simp only [List.getD_eq_getElem?_getD, List.getElem?_modify]
  by_cases hj : j / 8 = i
  · rw [hj, List.getElem?_eq_getElem h]
    simp
  · have : ¬ i = j / 8 := fun e => hj e.symm
    simp [hj, this]

theorem beEnc_getElem? (n : Nat) : ∀ (x i : Nat), i < n → (beEnc n x)[i]? = some (BitVec.ofNat 8 (x / 256 ^ (n - 1 - i))) := by
  induction n with
  | zero => intro x i h; omega
  | succ n ih =>
    intro x i h
    rw [beEnc]
    by_cases hi : i < n
    · rw [List.getElem?_append_left (by simpa using hi), ih _ _ hi, Nat.div_div_eq_div_mul,
        show n + 1 - 1 - i = (n - 1 - i) + 1 by omega, Nat.pow_succ, Nat.mul_comm (256 ^ _)]
    · have : i = n := by omega
      subst this
      rw [List.getElem?_append_right (by simp)]
      simp

theorem bitAt_be64 (v : U64) {j : Nat} (h : j < 64) : bitAt (be64 v) j = v.getMsbD j := by
  unfold bitAt be64
  rw [List.getD_eq_getElem?_getD, beEnc_getElem? 8 _ _ (by omega), Option.getD_some, BitVec.getMsbD_eq_getLsbD, BitVec.getMsbD_eq_getLsbD,
    BitVec.getLsbD_ofNat, show (256 : Nat) = 2 ^ 8 from rfl, ← Nat.pow_mul, Nat.testBit_div_two_pow, BitVec.getLsbD]
  have e : 8 - 1 - j % 8 + 8 * (8 - 1 - j / 8) = 64 - 1 - j := by omega
  rw [e]
  have h1 : j % 8 < 8 := by omega
  have h2 : 8 - 1 - j % 8 < 8 := by omega
  simp [h, h1, h2]

theorem be64_ofBe64 {l : List Byte} (h : l.length = 8) : be64 (ofBe64 l) = l := by
  have hlt := beDec_lt l
  rw [h] at hlt
  have e : (ofBe64 l).toNat = beDec l := by
    rw [ofBe64, BitVec.toNat_ofNat, Nat.mod_eq_of_lt (by omega)]
  have := beEnc_beDec l
  rw [h] at this
  rw [be64, e, this]

theorem ofBe64_getMsbD {l : List Byte} (h : l.length = 8) {j : Nat} (hj : j < 64) : (ofBe64 l).getMsbD j = bitAt l j := by
  rw [← bitAt_be64 _ hj, be64_ofBe64 h]

/-! ## Writing -/

/-- The `l` top bits of a word. -/
def msbs (l : Nat) (v : U64) : List Bool := (List.range l).map v.getMsbD

@[simp] theorem msbs_length (l : Nat) (v : U64) : (msbs l v).length = l := by simp [msbs]

theorem msbs_getD (l : Nat) (v : U64) (k : Nat) : (msbs l v).getD k false = (decide (k < l) && v.getMsbD k) := by
  unfold msbs
  rw [List.getD_eq_getElem?_getD, List.getElem?_map]
  by_cases h : k < l
  · simp [h]
  · rw [List.getElem?_eq_none (by simpa using h)]
    simp [h]

/-- `dst` holds the bits `B` and zeros behind them; the first byte (the tag) is not counted by `n`. -/
structure Holds (dst : List Byte) (n : Nat) (B : List Bool) : Prop where
  len : B.length = n + 8
  bits : ∀ j, bitAt dst j = B.getD j false

theorem Holds.zero {dst : List Byte} {n : Nat} {B : List Bool} (h : Holds dst n B) {j : Nat} (hj : n + 8 ≤ j) : B.getD j false = false := by
  rw [List.getD_eq_getElem?_getD, List.getElem?_eq_none (by have := h.len; omega)]
  rfl

theorem getD_append (a b : List Bool) (j : Nat) :
    (a ++ b).getD j false = if j < a.length then a.getD j false else b.getD (j - a.length) false := by
  simp only [List.getD_eq_getElem?_getD]
  split
  · rename_i h; rw [List.getElem?_append_left h]
  · rename_i h; rw [List.getElem?_append_right (by omega)]

theorem Holds.append {dst dst' : List Byte} {n l : Nat} {B C : List Bool} (h : Holds dst n B) (hC : C.length = l)
    (hb : ∀ j, bitAt dst' j = (bitAt dst j || (decide (n + 8 ≤ j) && C.getD (j - (n + 8)) false))) : Holds dst' (n + l) (B ++ C) := by
  refine ⟨by rw [List.length_append, h.len, hC]; omega, fun j => ?_⟩
  rw [hb, h.bits, getD_append, h.len]
  by_cases hj : j < n + 8
  · have : ¬ n + 8 ≤ j := by omega
    simp [hj, this]
  · rw [h.zero (by omega)]
    have : n + 8 ≤ j := by omega
    simp [hj, this]

theorem Holds.grow {dst : List Byte} {n : Nat} {B : List Bool} (h : Holds dst n B) (k : Nat) : Holds (grow dst k) n B :=
  ⟨h.len, fun j => by rw [Float.grow, bitAt_append_zeros, h.bits]⟩

theorem grow_length (dst : List Byte) (k : Nat) : k < (grow dst k).length ∧ dst.length ≤ (grow dst k).length := by
  simp [grow]; omega

theorem Holds.growOne {dst : List Byte} {n : Nat} {B : List Bool} (h : Holds dst n B) (k : Nat) : Holds (growOne dst k) n B := by
  refine ⟨h.len, fun j => ?_⟩
  unfold Float.growOne
  split
  · rw [show [0#8] = List.replicate 1 0#8 from rfl, bitAt_append_zeros, h.bits]
  · exact h.bits j

theorem growOne_length {dst : List Byte} {k : Nat} (h : k ≤ dst.length) : k < (growOne dst k).length ∧ dst.length ≤ (growOne dst k).length := by
  unfold growOne
  split
  · simp; omega
  · omega

/-- The byte written at bit `m` of a byte: the top bits of `v`. -/
theorem byteOf_getMsbD (v : U64) {m k : Nat} (hm : m < 8) (hk : k < 8) :
    (((v >>> 56) >>> m).setWidth 8).getMsbD k = (decide (m ≤ k) && v.getMsbD (k - m)) := by
  rw [BitVec.getMsbD_setWidth, BitVec.getMsbD_ushiftRight, BitVec.getMsbD_ushiftRight, show k + 64 - 8 = k + 56 by omega,
    show k + 56 - m - 56 = k - m by omega]
  by_cases h : m ≤ k
  · have h1 : ¬ k + 56 < m := by omega
    have h2 : ¬ k + 56 - m < 56 := by omega
    have h3 : k + 56 < 64 := by omega
    have h4 : k + 56 - m < 64 := by omega
    rw [decide_eq_true h, decide_eq_false h1, decide_eq_false h2, decide_eq_true h3, decide_eq_true h4]
    simp
  · have h1 : k + 56 - m < 56 := by omega
    rw [decide_eq_true h1, decide_eq_false h]
    simp

theorem setBit_spec {dst : List Byte} {n : Nat} {B : List Bool} (h : Holds dst n B) (hl : n / 8 + 1 < dst.length) :
    ∃ dst', setBit dst n = some dst' ∧ Holds dst' (n + 1) (B ++ [true]) ∧ dst'.length = dst.length := by
  refine ⟨dst.modify (n / 8 + 1) (· ||| (128#8 >>> (n % 8))), by rw [setBit, orAt, if_pos hl], ?_, by simp⟩
  refine h.append rfl fun j => ?_
  rw [bitAt_modify _ _ _ hl]
  congr 1
  have hb : ∀ m < 8, ∀ k < 8, (128#8 >>> m).getMsbD k = decide (k = m) := by decide
  rw [hb _ (by omega) _ (by omega)]
  by_cases hj : j = n + 8
  · subst hj
    have h1 : (n + 8) / 8 = n / 8 + 1 := by omega
    have h2 : (n + 8) % 8 = n % 8 := by omega
    simp [h1, h2]
  · have h1 : ¬ (j / 8 = n / 8 + 1 ∧ j % 8 = n % 8) := by omega
    by_cases hge : n + 8 ≤ j
    · have h2 : ([true] : List Bool).getD (j - (n + 8)) false = false := by
        rw [List.getD_eq_getElem?_getD, List.getElem?_eq_none (by simp; omega)]; rfl
      rw [h2]
      simpa using h1
    · simp only [hge]
      simpa using h1

/-- The top `l` bits are all there is. -/
def Top (l : Nat) (v : U64) : Prop := ∀ k, l ≤ k → v.getMsbD k = false

/-- One `|=` at the current byte. -/
theorem orAt_spec {dst : List Byte} {n l : Nat} {B : List Bool} {v : U64} (h : Holds dst n B) (hl : n / 8 + 1 < dst.length)
    (hfit : n % 8 + l ≤ 8) (hv : n % 8 + l < 8 → Top l v) :
    ∃ dst', orAt dst (n / 8 + 1) (((v >>> 56) >>> (n % 8)).setWidth 8) = some dst' ∧ Holds dst' (n + l) (B ++ msbs l v) ∧
      dst'.length = dst.length := by
  refine ⟨_, by rw [orAt, if_pos hl], ?_, by simp⟩
  refine h.append (msbs_length _ _) fun j => ?_
  rw [bitAt_modify _ _ _ hl, byteOf_getMsbD _ (by omega) (by omega), msbs_getD]
  congr 1
  by_cases hj : j / 8 = n / 8 + 1
  · by_cases hm : n % 8 ≤ j % 8
    · have e : j % 8 - n % 8 = j - (n + 8) := by omega
      have h1 : n + 8 ≤ j := by omega
      rw [e]
      by_cases h2 : j - (n + 8) < l
      · simp [hj, hm, h1, h2]
      · rw [hv (by omega) _ (by omega)]
        simp
    · have h1 : ¬ n + 8 ≤ j := by omega
      simp [hm, h1]
  · have h1 : ¬ (n + 8 ≤ j ∧ j - (n + 8) < l) := by omega
    simp only [hj, decide_false, Bool.false_and]
    by_cases h2 : n + 8 ≤ j
    · have h3 : ¬ j - (n + 8) < l := fun h3 => h1 ⟨h2, h3⟩
      simp [h3]
    · simp [h2]

theorem msbs_split (v : U64) (a b : Nat) : msbs (a + b) v = msbs a v ++ msbs b (v <<< a) := by
  unfold msbs
  rw [List.range_add, List.map_append, List.map_map]
  congr 1
  apply List.map_congr_left
  intro k _
  simp [BitVec.getMsbD_shiftLeft, Nat.add_comm]

theorem Top.shift {l : Nat} {v : U64} (h : Top l v) (a : Nat) : Top (l - a) (v <<< a) := by
  intro k hk
  rw [BitVec.getMsbD_shiftLeft]
  exact h _ (by omega)

theorem putShort_spec {dst : List Byte} {n l : Nat} {B : List Bool} {v : U64} (h : Holds dst n B) (hl : (n + l) / 8 + 1 < dst.length)
    (h8 : l ≤ 8) (hv : Top l v) :
    ∃ dst', putShort dst n l v = some (dst', n + l) ∧ Holds dst' (n + l) (B ++ msbs l v) ∧ dst'.length = dst.length := by
  unfold putShort
  simp only []
  by_cases hm : n % 8 ≤ 8 - l
  · rw [if_pos hm]
    obtain ⟨d, e, hd, hdl⟩ := orAt_spec (l := l) h (by omega) (by omega) (fun _ => hv)
    exact ⟨d, by rw [e]; rfl, hd, hdl⟩
  · rw [if_neg hm]
    obtain ⟨d, e, hd, hdl⟩ := orAt_spec (l := 8 - n % 8) (v := v) h (by omega) (by omega) (fun hlt => by omega)
    obtain ⟨d', e', hd', hdl'⟩ := orAt_spec (l := l - (8 - n % 8)) (v := v <<< (8 - n % 8)) hd (by omega) (by omega) (fun _ => hv.shift _)
    refine ⟨d', ?_, ?_, by omega⟩
    · rw [e]
      simp only [Option.bind_eq_bind, Option.bind_some]
      rw [e']
      simp only [Option.bind_some]
      rw [show n + (8 - n % 8) + (l - (8 - n % 8)) = n + l by omega]
      rfl
    · have := msbs_split v (8 - n % 8) (l - (8 - n % 8))
      rw [show 8 - n % 8 + (l - (8 - n % 8)) = l by omega] at this
      rw [this, ← List.append_assoc, show n + l = n + (8 - n % 8) + (l - (8 - n % 8)) by omega]
      exact hd'

theorem bitAt_writeWord {dst : List Byte} {k : Nat} (v : U64) (h : k + 8 ≤ dst.length) (j : Nat) :
    bitAt (dst.take k ++ be64 v ++ dst.drop (k + 8)) j = if 8 * k ≤ j ∧ j < 8 * k + 64 then v.getMsbD (j - 8 * k) else bitAt dst j := by
  have hk : (dst.take k).length = k := by simp; omega
  rw [List.append_assoc, bitAt_append, hk, bitAt_append, be64_length]
  split
  · rename_i h1
    rw [if_neg (by omega), bitAt_take h1]
  · split
    · rename_i h1 h2
      rw [if_pos (by omega), bitAt_be64 _ (by omega)]
    · rename_i h1 h2
      rw [if_neg (by omega), bitAt_drop]
      congr 1
      omega

theorem putRest_spec {dst : List Byte} {n l : Nat} {B : List Bool} {v : U64} (h : Holds dst n B) (hn : n % 8 = 0) (h64 : l ≤ 64) (hv : Top l v) :
    ∃ dst', putRest dst n l v = some (dst', n + l) ∧ Holds dst' (n + l) (B ++ msbs l v) ∧ n + l + 8 ≤ 8 * dst'.length := by
  have hg := h.grow (n / 8 + 8 + 1)
  obtain ⟨hl, -⟩ := grow_length dst (n / 8 + 8 + 1)
  refine ⟨_, by rw [putRest, writeWord, if_pos (by omega)]; rfl, ?_, ?_⟩
  · refine hg.append (msbs_length _ _) fun j => ?_
    rw [bitAt_writeWord _ (by omega), msbs_getD, show 8 * (n / 8 + 1) = n + 8 by omega]
    by_cases h1 : n + 8 ≤ j
    · rw [hg.bits, hg.zero h1]
      by_cases h2 : j - (n + 8) < l
      · rw [if_pos (by omega)]
        simp [h1, h2]
      · have := hv (j - (n + 8)) (by omega)
        simp [h2, this]
    · rw [if_neg (by omega)]
      simp [h1]
  · simp only [List.length_append, List.length_take, be64_length, List.length_drop]
    omega

theorem putLong_spec {dst : List Byte} {n l : Nat} {B : List Bool} {v : U64} (h : Holds dst n B) (hl : n / 8 + 1 < dst.length)
    (h64 : l ≤ 64) (hv : Top l v) :
    ∃ dst', putLong dst n l v = some (dst', n + l) ∧ Holds dst' (n + l) (B ++ msbs l v) ∧ n + l + 8 ≤ 8 * dst'.length := by
  unfold putLong
  simp only []
  by_cases hm : 0 < n % 8
  · rw [if_pos hm]
    by_cases hs : l < 8 - n % 8
    · rw [if_pos hs]
      obtain ⟨d, e, hd, hdl⟩ := orAt_spec (l := l) h hl (by omega) (fun _ => hv)
      refine ⟨d, ?_, hd, by omega⟩
      rw [e]
      simp
    · rw [if_neg hs]
      obtain ⟨d, e, hd, hdl⟩ := orAt_spec (l := 8 - n % 8) (v := v) h hl (by omega) (fun hlt => by omega)
      rw [e]
      simp only [Option.bind_eq_bind, Option.bind_some]
      by_cases h0 : l - (8 - n % 8) = 0
      · have hll : 8 - n % 8 = l := by omega
        rw [if_pos h0]
        rw [hll] at hd ⊢
        exact ⟨d, rfl, hd, by omega⟩
      · rw [if_neg h0]
        obtain ⟨d', e', hd', hdl'⟩ := putRest_spec (l := l - (8 - n % 8)) (v := v <<< (8 - n % 8)) hd (by omega) (by omega) (hv.shift _)
        refine ⟨d', ?_, ?_, by omega⟩
        · rw [e', show n + (8 - n % 8) + (l - (8 - n % 8)) = n + l by omega]
        · have := msbs_split v (8 - n % 8) (l - (8 - n % 8))
          rw [show 8 - n % 8 + (l - (8 - n % 8)) = l by omega] at this
          rw [this, ← List.append_assoc, show n + l = n + (8 - n % 8) + (l - (8 - n % 8)) by omega]
          exact hd'
  · rw [if_neg hm, BitVec.shiftLeft_zero]
    exact putRest_spec h (by omega) h64 hv

end Verif.Codec.Float
