import Verif.Codec.Integer
import Verif.Codec.Column
import Verif.Codec.Simple8bLemmas
/-! Helper lemmas for the integer codec. -/
namespace Verif.Codec.Integer
open Verif.Codec

theorem zigZag_bit0 (v : U64) : (zigZagEncode v).getLsbD 0 = v.msb := by
  rw [zigZagEncode, BitVec.getLsbD_xor, BitVec.getLsbD_sshiftRight]
  simp [BitVec.msb_eq_getLsbD_last]

theorem sshr_sign (b : U64) (i : Nat) (hi : i < 64) :
    (((b &&& 1#64) <<< 63).sshiftRight 63).getLsbD i = b.getLsbD 0 := by
  rw [BitVec.getLsbD_sshiftRight]
  simp only [BitVec.msb_eq_getLsbD_last]
  by_cases h : 63 + i < 64
  · have : i = 0 := by omega
    subst this
    simp
  · rw [if_neg h]
    simp
    omega

theorem zigZagDecode_encode (v : U64) : zigZagDecode (zigZagEncode v) = v := by
  apply BitVec.eq_of_getLsbD_eq
  intro i hi
  rw [zigZagDecode, BitVec.getLsbD_xor, sshr_sign _ _ hi, zigZag_bit0]
  rw [BitVec.getLsbD_ushiftRight]
  by_cases h : i = 63
  · subst h
    have : (zigZagEncode v).getLsbD (1 + 63) = false := BitVec.getLsbD_of_ge _ _ (by decide)
    rw [this]
    simp [BitVec.msb_eq_getLsbD_last]
  · have h1 : 1 + i < 64 := by omega
    simp only [zigZagEncode, BitVec.getLsbD_xor, BitVec.getLsbD_shiftLeft,
      BitVec.getLsbD_sshiftRight, h1, decide_true, Bool.true_and]
    have h3 : ¬ (63 + (1 + i) < 64) := by omega
    rw [if_neg h3]
    have h4 : 1 + i - 1 = i := by omega
    rw [h4]
    have h5 : ¬ (64 ≤ 1 + i) := by omega
    have h6 : ¬ (1 + i < 1) := by omega
    simp [h6, h5]

/-! ### Deltas -/

@[simp] theorem diffs_length (p : U64) (xs : List U64) : (diffs p xs).length = xs.length := by
  induction xs generalizing p with
  | nil => rfl
  | cons x xs ih => simp [diffs, ih]

theorem le_foldl_max (ds : List U64) (m : U64) :
    m ≤ ds.foldl (fun m d => if m < d then d else m) m ∧
    ∀ d ∈ ds, d ≤ ds.foldl (fun m d => if m < d then d else m) m := by
  induction ds generalizing m with
  | nil => simp
  | cons x xs ih =>
    simp only [List.foldl_cons]
    obtain ⟨h1, h2⟩ := ih (if m < x then x else m)
    have hm : m ≤ (if m < x then x else m) ∧ x ≤ (if m < x then x else m) := by
      split
      · rename_i h; exact ⟨BitVec.le_of_lt h, BitVec.le_refl _⟩
      · rename_i h; exact ⟨BitVec.le_refl _, BitVec.not_lt.1 h⟩
    refine ⟨BitVec.le_trans hm.1 h1, ?_⟩
    intro d hd
    rcases List.mem_cons.1 hd with rfl | hd
    · exact BitVec.le_trans hm.2 h1
    · exact h2 d hd

theorem le_maxOf {ds : List U64} {d : U64} (h : d ∈ ds) : d.toNat ≤ (maxOf ds).toNat :=
  BitVec.le_def.1 ((le_foldl_max ds 0#64).2 d h)

/-! ### Uncompressed -/

theorem take_be64 (x : U64) (l : List Byte) : (be64 x ++ l).take 8 = be64 x := by
  have := be64_length x
  rw [List.take_append_of_le_length (by omega), List.take_of_length_le (by omega)]

theorem drop_be64 (x : U64) (l : List Byte) : (be64 x ++ l).drop 8 = l := by
  have := be64_length x
  rw [List.drop_append_of_le_length (by omega), List.drop_of_length_le (by omega), List.nil_append]

theorem flatMap_be64_length (xs : List U64) : (xs.flatMap be64).length = 8 * xs.length := by
  induction xs with
  | nil => rfl
  | cons x xs ih => simp [ih]; omega

theorem decodeUncompressedLoop_eq (m : List Bool) : ∀ (vs : List U64) (prev : U64),
    m.count true = vs.length →
    decodeUncompressedLoop m ((diffs prev vs).flatMap be64) prev = some (place m vs) := by
  induction m with
  | nil => intros; rfl
  | cons b m ih =>
    intro vs prev h
    cases b with
    | false =>
      simp at h
      rw [decodeUncompressedLoop, ih vs prev (by simpa using h)]
      rfl
    | true =>
      cases vs with
      | nil => simp at h
      | cons v vs =>
        simp at h
        rw [diffs, List.flatMap_cons, decodeUncompressedLoop, if_neg (by simp), take_be64, drop_be64,
          ofBe64_be64, zigZagDecode_encode]
        have e : prev + (v - prev) = v := by
          rw [BitVec.add_comm, BitVec.sub_add_cancel]
        simp only [e]
        rw [ih vs v (by simpa using h)]
        rfl

/-! ### Run-length -/

/-- Constant steps: the deltas all equal `d`. -/
theorem decodeRleLoop_rest (dz : U64) (m : List Bool) : ∀ (vs : List U64) (prev : U64),
    m.count true = vs.length → (∀ d ∈ diffs prev vs, d = zigZagEncode dz) →
    decodeRleLoop dz m false prev = place m vs := by
  induction m with
  | nil => intros; rfl
  | cons b m ih =>
    intro vs prev h hd
    cases b with
    | false =>
      simp at h
      rw [decodeRleLoop, ih vs prev (by simpa using h) hd]
      rfl
    | true =>
      cases vs with
      | nil => simp at h
      | cons v vs =>
        simp at h
        have h0 := hd _ (List.mem_cons_self ..)
        have h1 : v - prev = dz := by
          rw [← zigZagDecode_encode (v - prev), h0, zigZagDecode_encode]
        have e : prev + dz = v := by rw [← h1, BitVec.add_comm, BitVec.sub_add_cancel]
        rw [decodeRleLoop, e, ih vs v (by simpa using h)
          (fun d hm => hd d (List.mem_cons_of_mem _ hm))]
        rfl

theorem decodeRleLoop_first (dz : U64) (m : List Bool) : ∀ (v : U64) (vs : List U64),
    m.count true = vs.length + 1 → (∀ d ∈ diffs v vs, d = zigZagEncode dz) →
    decodeRleLoop dz m true v = place m (v :: vs) := by
  induction m with
  | nil => intros; rfl
  | cons b m ih =>
    intro v vs h hd
    cases b with
    | false =>
      simp at h
      rw [decodeRleLoop, ih v vs (by simpa using h) hd]
      rfl
    | true =>
      simp at h
      rw [decodeRleLoop, decodeRleLoop_rest dz m vs v (by simpa using h) hd]
      rfl

theorem useRle_spec {ds : List U64} (h : useRle ds = true) :
    2 ≤ ds.length ∧ ∀ d ∈ ds, d = ds.headD 0 := by
  match ds, h with
  | d1 :: d2 :: ds, h =>
    refine ⟨by simp, ?_⟩
    intro d hd
    simp only [useRle, List.all_eq_true, decide_eq_true_eq] at h
    rcases List.mem_cons.1 hd with rfl | hd
    · rfl
    · exact (h d hd).symm

/-! ### simple8b -/

theorem decodeSimple8bRest_eq (m : List Bool) : ∀ (vs : List U64) (prev : U64),
    m.count true = vs.length →
    decodeSimple8bRest m (diffs prev vs) prev = place m vs := by
  induction m with
  | nil => intros; rfl
  | cons b m ih =>
    intro vs prev h
    cases b with
    | false =>
      simp at h
      rw [decodeSimple8bRest, ih vs prev (by simpa using h)]
      rfl
    | true =>
      cases vs with
      | nil => simp at h
      | cons v vs =>
        simp at h
        have e : prev + (v - prev) = v := by rw [BitVec.add_comm, BitVec.sub_add_cancel]
        rw [diffs, decodeSimple8bRest, zigZagDecode_encode, e, ih vs v (by simpa using h)]
        rfl

theorem decodeSimple8bLoop_eq (m : List Bool) (v : U64) (vs : List U64) (packed : List Byte)
    (hp : Simple8b.decode packed = some (diffs v vs)) :
    m.count true = vs.length + 1 →
    decodeSimple8bLoop (be64 (zigZagEncode v) ++ packed) m = some (place m (v :: vs)) := by
  induction m with
  | nil => intros; rfl
  | cons b m ih =>
    intro h
    cases b with
    | false =>
      simp at h
      rw [decodeSimple8bLoop, ih (by simpa using h)]
      rfl
    | true =>
      simp at h
      rw [decodeSimple8bLoop, take_be64, drop_be64, ofBe64_be64, zigZagDecode_encode, hp]
      simp only [Option.map_some]
      rw [decodeSimple8bRest_eq m vs v (by simpa using h)]
      rfl

/-- The decoder puts the encoded values back to the valid rows of any mask with the right number of
valid rows. -/
theorem decode_encode (vs : List U64) (m : List Bool) (h : m.count true = vs.length) :
    ∃ bytes, encode vs = some bytes ∧ decode bytes m = some (place m vs) := by
  cases vs with
  | nil =>
    refine ⟨[], rfl, ?_⟩
    rw [decode, place_no_true (by simpa using h)]
  | cons v vs =>
    simp only [List.length_cons] at h
    unfold encode
    simp only
    split
    · rename_i hr
      obtain ⟨h2, hall⟩ := useRle_spec hr
      refine ⟨_, rfl, ?_⟩
      unfold decode encodeRle
      simp only [List.cons_append, List.nil_append, List.append_assoc]
      rw [if_neg (by decide), if_pos (by decide)]
      unfold decodeRle
      have hlen : ¬ ((be64 (zigZagEncode v) ++
          (varEnc ((diffs v vs).headD 0).toNat ++ varEnc ((diffs v vs).length % 2 ^ 64))).length < 8) := by
        simp
      rw [if_neg hlen, take_be64, drop_be64, ofBe64_be64, zigZagDecode_encode,
        varDec_varEnc (BitVec.isLt _)]
      simp only [Option.map_some, BitVec.ofNat_toNat, BitVec.setWidth_eq]
      rw [decodeRleLoop_first _ m v vs h]
      intro d hd
      rw [hall d hd]
      -- every 64-bit value is a zigzag code: its decoding encodes back to it
      cases vs with
      | nil => simp [diffs] at h2
      | cons x xs => simp [diffs, zigZagDecode_encode]
    · split
      · refine ⟨_, rfl, ?_⟩
        unfold decode
        simp only
        rw [if_pos (by decide)]
        unfold decodeUncompressed
        have hl : ((zigZagEncode v :: diffs v vs).flatMap be64).length = 8 * (vs.length + 1) := by
          rw [flatMap_be64_length]; simp
        rw [if_neg]
        · have e : zigZagEncode v :: diffs v vs = diffs 0 (v :: vs) := by
            simp [diffs]
          rw [e, decodeUncompressedLoop_eq m (v :: vs) 0 (by simpa using h)]
        · rintro (h0 | h0)
          · rw [h0] at hl; simp at hl
          · omega
      · rename_i hmax
        have hs : (Simple8b.encode (diffs v vs)).isSome := by
          rw [Simple8b.encode_isSome_iff]
          intro d hd
          have := le_maxOf hd
          omega
        obtain ⟨packed, hp⟩ := Option.isSome_iff_exists.1 hs
        rw [hp]
        refine ⟨_, rfl, ?_⟩
        unfold decode
        simp only [List.cons_append]
        rw [if_neg (by decide), if_neg (by decide), if_pos (by decide)]
        unfold decodeSimple8b
        rw [if_neg (by simp)]
        exact decodeSimple8bLoop_eq m v vs packed (Simple8b.decode_encode hp) h

end Verif.Codec.Integer
