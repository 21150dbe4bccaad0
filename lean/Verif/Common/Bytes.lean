import Mathlib.Data.List.Induction
/-!
# Bytes, machine words, big-endian and variable-length integers

Shared by all byte-level models.
-/
namespace Verif

/-- A byte (`u8`). -/
abbrev Byte := BitVec 8
/-- A 64-bit machine word (`u64`, or `i64` read through `BitVec.toInt`). -/
abbrev U64 := BitVec 64

/-- `uN::to_be_bytes` for an `n`-byte unsigned integer given as a natural number (Rust std). -/
def beEnc : Nat → Nat → List Byte
  | 0, _ => []
  | n + 1, x => beEnc n (x / 256) ++ [BitVec.ofNat 8 x]

/-- `uN::from_be_bytes` on a byte slice (Rust std). -/
def beDec (l : List Byte) : Nat := l.foldl (fun a b => a * 256 + b.toNat) 0

/-- `u64::to_be_bytes`. -/
def be64 (x : U64) : List Byte := beEnc 8 x.toNat

/-- `u64::from_be_bytes`. -/
def ofBe64 (l : List Byte) : U64 := BitVec.ofNat 64 (beDec l)

@[simp] theorem beEnc_length (n x : Nat) : (beEnc n x).length = n := by
  induction n generalizing x with
  | zero => rfl
  | succ n ih => simp [beEnc, ih]

theorem beDec_append_singleton (l : List Byte) (b : Byte) :
    beDec (l ++ [b]) = beDec l * 256 + b.toNat := by
  simp [beDec, List.foldl_append]

theorem beDec_beEnc (n x : Nat) : beDec (beEnc n x) = x % 256 ^ n := by
  induction n generalizing x with
  | zero => simp [beEnc, beDec, Nat.mod_one]
  | succ n ih =>
    rw [beEnc, beDec_append_singleton, ih]
    have h : x % 256 ^ (n + 1) = x % 256 + 256 * (x / 256 % 256 ^ n) := by
      rw [Nat.pow_succ, Nat.mul_comm, Nat.mod_mul]
    rw [h, BitVec.toNat_ofNat]
    omega

theorem beDec_beEnc_of_lt {n x : Nat} (h : x < 256 ^ n) : beDec (beEnc n x) = x := by
  rw [beDec_beEnc, Nat.mod_eq_of_lt h]

@[simp] theorem be64_length (x : U64) : (be64 x).length = 8 := by simp [be64]

@[simp] theorem ofBe64_be64 (x : U64) : ofBe64 (be64 x) = x := by
  unfold ofBe64 be64
  rw [beDec_beEnc_of_lt (by have := x.isLt; omega)]
  simp

theorem beDec_lt (l : List Byte) : beDec l < 256 ^ l.length := by
  induction l using List.reverseRecOn with
  | nil => simp [beDec]
  | append_singleton l b ih =>
    rw [beDec_append_singleton, List.length_append, List.length_singleton, Nat.pow_succ]
    have := b.isLt
    omega

theorem beEnc_beDec (l : List Byte) : beEnc l.length (beDec l) = l := by
  induction l using List.reverseRecOn with
  | nil => rfl
  | append_singleton l b ih =>
    rw [List.length_append, List.length_singleton, beEnc, beDec_append_singleton]
    have hb := b.isLt
    have h1 : (beDec l * 256 + b.toNat) / 256 = beDec l := by omega
    rw [h1, ih]
    congr 1
    congr 1
    apply BitVec.eq_of_toNat_eq
    rw [BitVec.toNat_ofNat]
    omega

/-- Injectivity of fixed-width big-endian encoding. -/
theorem beEnc_inj {n x y : Nat} (hx : x < 256 ^ n) (hy : y < 256 ^ n)
    (h : beEnc n x = beEnc n y) : x = y := by
  rw [← beDec_beEnc_of_lt hx, ← beDec_beEnc_of_lt hy, h]

/-! ## LEB128 variable-length integers -/

/-- `u64::encode_var` of crate `integer-encoding` (not part of /repo; trusted to be LEB128). -/
def varEnc (n : Nat) : List Byte :=
  if n < 128 then [BitVec.ofNat 8 n]
  else BitVec.ofNat 8 (128 + n % 128) :: varEnc (n / 128)
termination_by n

/-- The loop of `u64::decode_var` of crate `integer-encoding`: `shift` is a multiple of 7,
`res` the bits collected so far.  Stops unsuccessfully after ten bytes. -/
def varDecLoop (res shift : Nat) : List Byte → Option (Nat × Nat)
  | [] => none
  | b :: bs =>
    let res' := (res ||| ((b.toNat % 128) <<< shift)) % 2 ^ 64
    let shift' := shift + 7
    if b.toNat < 128 then some (res', shift' / 7)
    else if shift' > 63 then none
    else varDecLoop res' shift' bs

/-- `u64::decode_var`: the number read and how many bytes it used. -/
def varDec (l : List Byte) : Option (Nat × Nat) := varDecLoop 0 0 l

theorem or_shiftLeft_eq_add {r s : Nat} (x : Nat) (h : r < 2 ^ s) :
    r ||| (x <<< s) = r + x * 2 ^ s := by
  rw [Nat.shiftLeft_eq, Nat.or_comm, Nat.mul_comm x, ← Nat.two_pow_add_eq_or_of_lt h]
  omega

theorem varEnc_ne_nil (n : Nat) : varEnc n ≠ [] := by
  unfold varEnc; split <;> simp

theorem varDecLoop_varEnc (n : Nat) (rest : List Byte) : ∀ (res k : Nat), res < 2 ^ (7 * k) →
    n * 2 ^ (7 * k) < 2 ^ 64 → 7 * k ≤ 63 →
    varDecLoop res (7 * k) (varEnc n ++ rest)
      = some (res + n * 2 ^ (7 * k), k + (varEnc n).length) := by
  induction n using Nat.strongRecOn with
  | ind n ih =>
    intro res k hres hn hk
    rw [varEnc]
    split
    case isTrue h =>
      have e1 : (BitVec.ofNat 8 n).toNat = n := by rw [BitVec.toNat_ofNat]; omega
      simp only [List.cons_append, List.nil_append, varDecLoop, e1]
      rw [if_pos h, Nat.mod_eq_of_lt h, or_shiftLeft_eq_add _ hres, Nat.mod_eq_of_lt]
      · simp
      · rcases Nat.eq_zero_or_pos n with rfl | hp
        · have : 2 ^ (7 * k) ≤ 2 ^ 63 := Nat.pow_le_pow_right (by decide) hk
          omega
        · have hle : 2 ^ (7 * k) ≤ 2 ^ 63 := Nat.pow_le_pow_right (by decide) hk
          -- res + n * 2^s < (n + 1) * 2^s ≤ 2^64, as 2^s divides 2^64
          have hd : 2 ^ 64 = 2 ^ (64 - 7 * k) * 2 ^ (7 * k) := by
            rw [← Nat.pow_add]; congr 1; omega
          rw [hd] at hn ⊢
          have := Nat.lt_of_mul_lt_mul_right hn
          calc res + n * 2 ^ (7 * k) < 2 ^ (7 * k) + n * 2 ^ (7 * k) := by omega
            _ = (n + 1) * 2 ^ (7 * k) := by rw [Nat.succ_mul n]; omega
            _ ≤ _ := Nat.mul_le_mul_right _ this
    case isFalse h =>
      have e1 : (BitVec.ofNat 8 (128 + n % 128)).toNat = 128 + n % 128 := by
        rw [BitVec.toNat_ofNat]; omega
      have hd : 2 ^ 64 = 2 ^ (64 - 7 * k) * 2 ^ (7 * k) := by
        rw [← Nat.pow_add]; congr 1; omega
      have hn2 : n < 2 ^ (64 - 7 * k) := by
        rw [hd] at hn; exact Nat.lt_of_mul_lt_mul_right hn
      have hk2 : 7 * (k + 1) ≤ 63 := by
        have h7 : 2 ^ 7 < 2 ^ (64 - 7 * k) := by omega
        have := (Nat.pow_lt_pow_iff_right (by decide)).1 h7
        omega
      simp only [List.cons_append, varDecLoop, e1]
      rw [if_neg (by omega), if_neg (by omega)]
      have e2 : (128 + n % 128) % 128 = n % 128 := by omega
      rw [e2, or_shiftLeft_eq_add _ hres]
      have hsplit : n * 2 ^ (7 * k) = n % 128 * 2 ^ (7 * k) + n / 128 * 2 ^ (7 * (k + 1)) := by
        have : n = n % 128 + n / 128 * 128 := by omega
        have e3 : 2 ^ (7 * (k + 1)) = 128 * 2 ^ (7 * k) := by
          rw [Nat.mul_add, Nat.pow_add, Nat.mul_comm]
        rw [e3, ← Nat.mul_assoc, ← Nat.add_mul, ← this]
      have hr : res + n % 128 * 2 ^ (7 * k) < 2 ^ (7 * (k + 1)) := by
        have e3 : 2 ^ (7 * (k + 1)) = 128 * 2 ^ (7 * k) := by
          rw [Nat.mul_add, Nat.pow_add, Nat.mul_comm]
        rw [e3]
        calc res + n % 128 * 2 ^ (7 * k) < 2 ^ (7 * k) + n % 128 * 2 ^ (7 * k) := by omega
          _ = (n % 128 + 1) * 2 ^ (7 * k) := by rw [Nat.succ_mul (n % 128)]; omega
          _ ≤ _ := Nat.mul_le_mul_right _ (by omega)
      have hr2 : res + n % 128 * 2 ^ (7 * k) < 2 ^ 64 :=
        Nat.lt_of_lt_of_le hr (Nat.pow_le_pow_right (by decide) (by omega))
      rw [Nat.mod_eq_of_lt hr2]
      have e4 : 7 * k + 7 = 7 * (k + 1) := by omega
      rw [e4, ih (n / 128) (by omega) _ _ hr (by omega) hk2]
      simp only [List.length_cons]
      rw [hsplit]
      congr 2 <;> omega

/-- A variable-length integer in front of any other bytes is read back, and exactly its own bytes
are consumed. -/
theorem varDec_varEnc {n : Nat} (h : n < 2 ^ 64) (rest : List Byte) :
    varDec (varEnc n ++ rest) = some (n, (varEnc n).length) := by
  have := varDecLoop_varEnc n rest 0 0 (by simp) (by simpa using h) (by simp)
  simpa [varDec] using this

end Verif
