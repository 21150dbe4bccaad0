import Verif.Common.Crc32
/-! # CRC-32 notices every burst of at most 32 bits -/
namespace Verif.Crc32

theorem getLsbD_shift1 (s : BitVec 32) (i : Nat) :
    (shift1 s).getLsbD i = (s.getLsbD (i + 1) ^^ (s.getLsbD 0 && (0xEDB88320#32).getLsbD i)) := by
  unfold shift1
  cases h : s.getLsbD 0 with
  | true => simp [BitVec.getLsbD_xor, BitVec.getLsbD_ushiftRight, Nat.add_comm]
  | false => simp [BitVec.getLsbD_ushiftRight, Nat.add_comm]

theorem shift1_xor (a b : BitVec 32) : shift1 (a ^^^ b) = shift1 a ^^^ shift1 b := by
  apply BitVec.eq_of_getLsbD_eq
  intro i hi
  simp only [getLsbD_shift1, BitVec.getLsbD_xor]
  cases a.getLsbD (i + 1) <;> cases b.getLsbD (i + 1) <;> cases a.getLsbD 0 <;> cases b.getLsbD 0 <;> simp

theorem shift1_eq_zero {s : BitVec 32} (h : shift1 s = 0#32) : s = 0#32 := by
  have hb : ∀ i, (shift1 s).getLsbD i = false := by intro i; rw [h]; simp
  have h0 : s.getLsbD 0 = false := by
    have := hb 31
    rw [getLsbD_shift1, BitVec.getLsbD_of_ge s 32 (by omega)] at this
    revert this
    cases s.getLsbD 0
    · simp
    · intro h; revert h; decide
  apply BitVec.eq_of_getLsbD_eq
  intro i hi
  rw [BitVec.getLsbD_zero]
  cases i with
  | zero => exact h0
  | succ i =>
    have := hb i
    rw [getLsbD_shift1, h0] at this
    simpa using this

theorem shiftN_xor (n : Nat) (a b : BitVec 32) : shiftN n (a ^^^ b) = shiftN n a ^^^ shiftN n b := by
  induction n generalizing a b with
  | zero => rfl
  | succ n ih => rw [shiftN, shiftN, shiftN, shift1_xor, ih]

theorem shiftN_eq_zero {n : Nat} {s : BitVec 32} (h : shiftN n s = 0#32) : s = 0#32 := by
  induction n generalizing s with
  | zero => exact h
  | succ n ih => exact shift1_eq_zero (ih h)

/-- Take one bit in. -/
def bitStep (s : BitVec 32) (v : Bool) : BitVec 32 := shift1 (s ^^^ (if v then 1#32 else 0#32))

/-- The `n` low bits, lowest first. -/
def bitsLE {w : Nat} : Nat → BitVec w → List Bool
  | 0, _ => []
  | n + 1, x => x.getLsbD 0 :: bitsLE n (x >>> 1)

/-- All bits of a byte string in the order in which the checksum takes them. -/
def bitsOf (bs : List Byte) : List Bool := bs.flatMap (bitsLE 8)

theorem bitsLE_length {w : Nat} (n : Nat) (x : BitVec w) : (bitsLE n x).length = n := by
  induction n generalizing x with
  | zero => rfl
  | succ n ih => simp [bitsLE, ih]

theorem shift1_low (s w : BitVec 32) : shift1 (s ^^^ w) = bitStep s (w.getLsbD 0) ^^^ (w >>> 1) := by
  apply BitVec.eq_of_getLsbD_eq
  intro i hi
  unfold bitStep
  cases h : w.getLsbD 0 with
  | true =>
    simp only [getLsbD_shift1, BitVec.getLsbD_xor, BitVec.getLsbD_ushiftRight, if_true, h, Nat.add_comm 1 i]
    have e1 : (1#32).getLsbD (i + 1) = false := by rw [BitVec.getLsbD_one]; simp
    have e2 : (1#32).getLsbD 0 = true := by decide
    rw [e1, e2]
    cases s.getLsbD (i + 1) <;> cases w.getLsbD (i + 1) <;> cases s.getLsbD 0 <;> simp
  | false =>
    simp only [getLsbD_shift1, BitVec.getLsbD_xor, BitVec.getLsbD_ushiftRight, Bool.false_eq_true, if_false, h, Nat.add_comm 1 i,
      BitVec.getLsbD_zero]
    cases s.getLsbD (i + 1) <;> cases w.getLsbD (i + 1) <;> cases s.getLsbD 0 <;> simp

theorem shiftN_bits (n : Nat) : ∀ (s w : BitVec 32), w.toNat < 2 ^ n → shiftN n (s ^^^ w) = (bitsLE n w).foldl bitStep s := by
  induction n with
  | zero =>
    intro s w h
    have : w = 0#32 := BitVec.eq_of_toNat_eq (by simpa using h)
    simp [shiftN, bitsLE, this]
  | succ n ih =>
    intro s w h
    rw [shiftN, shift1_low, ih _ _ (by
      rw [BitVec.toNat_ushiftRight, Nat.shiftRight_eq_div_pow]
      rw [Nat.pow_succ] at h
      omega)]
    rfl

theorem bitsLE_setWidth (n : Nat) : ∀ (b : Byte), bitsLE n (b.setWidth 32) = bitsLE n b := by
  induction n with
  | zero => intro b; rfl
  | succ n ih =>
    intro b
    have e : b.setWidth 32 >>> 1 = (b >>> 1).setWidth 32 := by
      apply BitVec.eq_of_getLsbD_eq
      intro i hi
      simp only [BitVec.getLsbD_ushiftRight, BitVec.getLsbD_setWidth, hi, decide_true, Bool.true_and]
      by_cases h : 1 + i < 32
      · simp [h]
      · simp [h]
        exact BitVec.getLsbD_of_ge b _ (by omega)
    rw [bitsLE, bitsLE, e, ih, BitVec.getLsbD_setWidth]
    rfl

theorem update_bits (s : BitVec 32) (b : Byte) : update s b = (bitsLE 8 b).foldl bitStep s := by
  unfold update
  rw [shiftN_bits 8 s _ (by have := b.isLt; simp [BitVec.toNat_setWidth]; omega), bitsLE_setWidth]

theorem foldl_update (bs : List Byte) : ∀ s, bs.foldl update s = (bitsOf bs).foldl bitStep s := by
  induction bs with
  | nil => intro s; rfl
  | cons b bs ih =>
    intro s
    rw [List.foldl_cons, ih, update_bits]
    simp [bitsOf, List.foldl_append]

/-- The number with the given bits. -/
def word (x : List Bool) : Nat :=
  match x with
  | [] => 0
  | b :: x => (if b then 1 else 0) + 2 * word x

theorem word_lt (x : List Bool) : word x < 2 ^ x.length := by
  induction x with
  | nil => simp [word]
  | cons b x ih =>
    rw [word, List.length_cons, Nat.pow_succ]
    split <;> omega

theorem bitsLE_word (x : List Bool) : x.length ≤ 32 → bitsLE x.length (BitVec.ofNat 32 (word x)) = x := by
  induction x with
  | nil => intro _; rfl
  | cons b x ih =>
    intro h
    rw [List.length_cons] at h
    rw [List.length_cons, bitsLE]
    have hlt := word_lt x
    have hp : (2 : Nat) ^ x.length ≤ 2 ^ 31 := Nat.pow_le_pow_right (by omega) (by omega)
    have e1 : (BitVec.ofNat 32 (word (b :: x))).getLsbD 0 = b := by
      rw [BitVec.getLsbD_ofNat]
      simp only [word, Nat.testBit_zero]
      cases b <;> simp
    have e2 : BitVec.ofNat 32 (word (b :: x)) >>> 1 = BitVec.ofNat 32 (word x) := by
      apply BitVec.eq_of_toNat_eq
      rw [BitVec.toNat_ushiftRight, BitVec.toNat_ofNat, BitVec.toNat_ofNat, Nat.shiftRight_eq_div_pow, word]
      cases b
      · simp only [Bool.false_eq_true, if_false]; omega
      · simp only [if_true]; omega
    rw [e1, e2, ih (by omega)]

theorem foldl_word (x : List Bool) (h : x.length ≤ 32) (s : BitVec 32) :
    x.foldl bitStep s = shiftN x.length (s ^^^ BitVec.ofNat 32 (word x)) := by
  rw [shiftN_bits, bitsLE_word x h]
  have h1 := word_lt x
  rw [BitVec.toNat_ofNat]
  exact Nat.lt_of_le_of_lt (Nat.mod_le _ _) h1

theorem xor_eq_zero {a b : BitVec 32} (h : a ^^^ b = 0#32) : a = b := by
  have : a ^^^ b ^^^ b = b := by rw [h]; simp
  rwa [BitVec.xor_assoc, BitVec.xor_self, BitVec.xor_zero] at this

theorem bitStep_inj {s t : BitVec 32} {v : Bool} (h : bitStep s v = bitStep t v) : s = t := by
  unfold bitStep at h
  apply xor_eq_zero
  apply shift1_eq_zero
  rw [shift1_xor] at h ⊢
  rw [shift1_xor] at h
  have h2 := congrArg (fun x => x ^^^ shift1 (if v then 1#32 else 0#32)) h
  simp only [BitVec.xor_assoc, BitVec.xor_self, BitVec.xor_zero] at h2
  rw [h2, BitVec.xor_self]

theorem foldl_inj (x : List Bool) : ∀ {s t : BitVec 32}, x.foldl bitStep s = x.foldl bitStep t → s = t := by
  induction x with
  | nil => intro s t h; exact h
  | cons v x ih => intro s t h; exact bitStep_inj (ih h)

/-- Two byte strings whose bits differ, but only in a window of at most 32 bits, have different checksums. -/
theorem burst {d d' : List Byte} {pre x y post : List Bool} (hd : bitsOf d = pre ++ x ++ post) (hd' : bitsOf d' = pre ++ y ++ post)
    (hl : x.length = y.length) (h32 : x.length ≤ 32) (hne : x ≠ y) : crc32 d ≠ crc32 d' := by
  intro h
  unfold crc32 at h
  have h1 : d.foldl update 0xFFFFFFFF#32 = d'.foldl update 0xFFFFFFFF#32 := by
    have h2 := congrArg (fun x => x ^^^ 0xFFFFFFFF#32) h
    simpa only [BitVec.xor_assoc, BitVec.xor_self, BitVec.xor_zero] using h2
  rw [foldl_update, foldl_update, hd, hd'] at h1
  simp only [List.foldl_append] at h1
  have h2 := foldl_inj post h1
  rw [foldl_word x h32, foldl_word y (by omega), ← hl] at h2
  generalize pre.foldl bitStep 0xFFFFFFFF#32 = s at h2
  have h3 : shiftN x.length ((s ^^^ BitVec.ofNat 32 (word x)) ^^^ (s ^^^ BitVec.ofNat 32 (word y))) = 0#32 := by
    rw [shiftN_xor, h2, BitVec.xor_self]
  have h4 := xor_eq_zero (shiftN_eq_zero h3)
  have h5 : BitVec.ofNat 32 (word x) = BitVec.ofNat 32 (word y) := by
    have h6 := congrArg (fun x => s ^^^ x) h4
    simpa only [← BitVec.xor_assoc, BitVec.xor_self, BitVec.zero_xor] using h6
  apply hne
  rw [← bitsLE_word x h32, ← bitsLE_word y (by omega), h5, hl]

theorem bitsLE_inj {n : Nat} : ∀ {a b : BitVec n}, ∀ k, k = n → bitsLE k a = bitsLE k b → a = b := by
  have key : ∀ (w k : Nat) (a : BitVec w) (i : Nat), i < k → (bitsLE k a)[i]? = some (a.getLsbD i) := by
    intro w k
    induction k with
    | zero => intro a i h; omega
    | succ k ih =>
      intro a i h
      cases i with
      | zero => rfl
      | succ i =>
        rw [bitsLE, List.getElem?_cons_succ, ih _ _ (by omega), BitVec.getLsbD_ushiftRight, Nat.add_comm]
  intro a b k hk h
  subst hk
  apply BitVec.eq_of_getLsbD_eq
  intro i hi
  have h1 := key _ k a i hi
  rw [h, key _ k b i hi] at h1
  exact (Option.some.inj h1).symm

theorem bitsOf_inj {u v : List Byte} (hl : u.length = v.length) (h : bitsOf u = bitsOf v) : u = v := by
  induction u generalizing v with
  | nil =>
    cases v with
    | nil => rfl
    | cons => simp at hl
  | cons a u ih =>
    cases v with
    | nil => simp at hl
    | cons b v =>
      simp only [bitsOf, List.flatMap_cons] at h
      have h1 := List.append_inj h (by rw [bitsLE_length, bitsLE_length])
      rw [bitsLE_inj 8 rfl h1.1, ih (by simpa using hl) h1.2]

theorem bitsOf_length (u : List Byte) : (bitsOf u).length = 8 * u.length := by
  induction u with
  | nil => rfl
  | cons a u ih =>
    have : bitsOf (a :: u) = bitsLE 8 a ++ bitsOf u := rfl
    rw [this, List.length_append, ih, bitsLE_length, List.length_cons]
    omega

theorem bitsOf_append (u v : List Byte) : bitsOf (u ++ v) = bitsOf u ++ bitsOf v := List.flatMap_append

/-- Up to four consecutive bytes changed: a different checksum. -/
theorem four_bytes {a u v c : List Byte} (hl : u.length = v.length) (h4 : u.length ≤ 4) (hne : u ≠ v) :
    crc32 (a ++ u ++ c) ≠ crc32 (a ++ v ++ c) :=
  burst (pre := bitsOf a) (x := bitsOf u) (y := bitsOf v) (post := bitsOf c) (by simp only [bitsOf_append]) (by simp only [bitsOf_append])
    (by rw [bitsOf_length, bitsOf_length, hl]) (by rw [bitsOf_length]; omega) (fun h => hne (bitsOf_inj hl h))

end Verif.Crc32
