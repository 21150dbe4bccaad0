import Verif.Codec.Boolean
import Verif.Codec.Column
/-! Helper lemmas for the boolean codec. -/
namespace Verif.Codec.Boolean
open Verif.Codec

/-- Bit `n` of a byte string, most significant bit of the first byte first. -/
def bitAt (l : List Byte) (n : Nat) : Bool := (l.getD (n / 8) 0#8).getMsbD (n % 8)

theorem pick_bit (b : Byte) {k : Nat} (hk : k < 8) :
    decide ((b >>> (7 - k)) &&& 1#8 = 1#8) = b.getMsbD k := by
  have h : (b >>> (7 - k)) &&& 1#8 = if b.getMsbD k then 1#8 else 0#8 := by
    apply BitVec.eq_of_getLsbD_eq
    intro i hi
    have hm : b.getMsbD k = b.getLsbD (7 - k) := by
      rw [BitVec.getMsbD_eq_getLsbD]; simp [hk]
    rw [hm, BitVec.getLsbD_and, BitVec.getLsbD_ushiftRight]
    rcases Nat.eq_zero_or_pos i with rfl | hp
    · cases hb : b.getLsbD (7 - k) <;> simp
    · have : (1#8).getLsbD i = false := by
        simp [BitVec.getLsbD_one]; omega
      rw [this, Bool.and_false]
      cases hb : b.getLsbD (7 - k)
      · simp
      · simp only [if_true]; rw [this]
  rw [h]
  cases b.getMsbD k <;> decide

theorem msbD_mask {p j : Nat} (hp : p < 8) (hj : j < 8) :
    (128#8 >>> p).getMsbD j = decide (j = p) := by
  have : ∀ p < 8, ∀ j < 8, (128#8 >>> p).getMsbD j = decide (j = p) := by decide
  exact this p hp j hj

theorem msbD_update (b : Byte) {p j : Nat} (hp : p < 8) (hj : j < 8) (v : Bool) :
    (if v then b ||| (128#8 >>> p) else b &&& ~~~(128#8 >>> p)).getMsbD j
      = if j = p then v else b.getMsbD j := by
  cases v
  · simp only [Bool.false_eq_true, if_false]
    rw [BitVec.getMsbD_and, BitVec.getMsbD_not, msbD_mask hp hj]
    by_cases h : j = p <;> simp [h, hj]
  · simp only [if_true]
    rw [BitVec.getMsbD_or, msbD_mask hp hj]
    by_cases h : j = p <;> simp [h]

theorem writeBit_spec {dst dst' : List Byte} {n : Nat} {v : Bool} (h : writeBit dst n v = some dst') :
    dst'.length = dst.length ∧
    ∀ k, bitAt dst' k = if k = n + 8 then v else bitAt dst k := by
  unfold writeBit at h
  split at h
  · rename_i hl
    simp only [Option.some.injEq] at h
    subst h
    refine ⟨by simp, ?_⟩
    intro k
    unfold bitAt
    simp only [List.getD_eq_getElem?_getD, List.getElem?_modify]
    have hmod := Nat.mod_lt n (by decide : 8 > 0)
    have hmodk := Nat.mod_lt k (by decide : 8 > 0)
    by_cases hk : n / 8 + 1 = k / 8
    · have hlt : k / 8 < dst.length := by omega
      rw [List.getElem?_eq_getElem hlt]
      simp only [hk, if_true, Option.map_eq_map, Option.map_some, Option.getD_some]
      rw [msbD_update _ hmod hmodk]
      have : (k % 8 = n % 8) ↔ k = n + 8 := by omega
      simp only [this]
    · have : k ≠ n + 8 := by omega
      simp [hk, this]
  · simp at h

theorem writeBits_spec (vs : List Bool) : ∀ (dst : List Byte) (n : Nat),
    (n + vs.length + 7) / 8 + 1 ≤ dst.length →
    ∃ dst', writeBits dst n vs = some dst' ∧ dst'.length = dst.length ∧
      (∀ i, (h : i < vs.length) → bitAt dst' (n + 8 + i) = vs[i]) ∧
      (∀ k, k < n + 8 → bitAt dst' k = bitAt dst k) := by
  induction vs with
  | nil => intro dst n h; exact ⟨dst, rfl, rfl, by simp, by simp⟩
  | cons v vs ih =>
    intro dst n h
    simp only [List.length_cons] at h
    have hb : writeBit dst n v = some (dst.modify (n / 8 + 1) fun b =>
      if v then b ||| (128#8 >>> (n % 8)) else b &&& ~~~(128#8 >>> (n % 8))) := by
      unfold writeBit; rw [if_pos (by omega)]
    obtain ⟨hlen, hbit⟩ := writeBit_spec hb
    obtain ⟨dst', h1, h2, h3, h4⟩ := ih _ (n + 1) (by rw [hlen]; omega)
    refine ⟨dst', ?_, by rw [h2, hlen], ?_, ?_⟩
    · rw [writeBits, hb]; exact h1
    · intro i hi
      cases i with
      | zero =>
        rw [h4 _ (by omega), hbit]
        simp
      | succ i =>
        have := h3 i (by simpa using hi)
        have e : n + 8 + (i + 1) = n + 1 + 8 + i := by omega
        rw [e, this]; rfl
    · intro k hk
      rw [h4 k (by omega), hbit, if_neg (by omega)]

theorem bitAt_take {l : List Byte} {m n : Nat} (h : n / 8 < m) : bitAt (l.take m) n = bitAt l n := by
  unfold bitAt
  simp [List.getD_eq_getElem?_getD, h]

theorem bitAt_drop (l : List Byte) (m n : Nat) : bitAt (l.drop m) n = bitAt l (8 * m + n) := by
  unfold bitAt
  have h1 : (8 * m + n) / 8 = m + n / 8 := by omega
  have h2 : (8 * m + n) % 8 = n % 8 := by omega
  simp [List.getD_eq_getElem?_getD, h1, h2]

theorem decodeLoop_eq (src : List Byte) (vs : List Bool) (m : List Bool) : ∀ (i : Nat),
    i + m.count true = vs.length → vs.length ≤ 8 * src.length →
    (∀ j, (h : j < vs.length) → bitAt src j = vs[j]) →
    decodeLoop src vs.length m i = some (place m (vs.drop i)) := by
  induction m with
  | nil => intros; rfl
  | cons b m ih =>
    intro i h hl hb
    cases b with
    | false =>
      simp at h
      rw [decodeLoop, ih i (by simpa using h) hl hb]
      rfl
    | true =>
      simp only [List.count_cons_self] at h
      have hi : i < vs.length := by omega
      have hlt : i / 8 < src.length := by omega
      rw [decodeLoop, if_neg (by omega), List.getElem?_eq_getElem hlt]
      simp only
      rw [ih (i + 1) (by omega) hl hb, pick_bit _ (Nat.mod_lt _ (by decide))]
      have := hb i hi
      unfold bitAt at this
      rw [List.getD_eq_getElem?_getD, List.getElem?_eq_getElem hlt, Option.getD_some] at this
      rw [this, List.drop_eq_getElem_cons hi]
      rfl

theorem varEnc_length_le (k : Nat) : ∀ (n : Nat), n < 128 ^ k → 1 ≤ k → (varEnc n).length ≤ k := by
  induction k with
  | zero => intro n _ h; omega
  | succ k ih =>
    intro n hn _
    rw [varEnc]
    split
    · simp
    · rename_i h
      rw [List.length_cons]
      rcases Nat.eq_zero_or_pos k with rfl | hk
      · simp at hn; omega
      · have := ih (n / 128) (by rw [Nat.pow_succ] at hn; omega) hk
        omega

theorem varEnc_length_pos (n : Nat) : 1 ≤ (varEnc n).length := by
  have := varEnc_ne_nil n
  exact List.length_pos_iff.2 this

theorem decode_encode_tag (vs : List Bool) (m : List Bool) (h : m.count true = vs.length)
    (hsize : vs.length < 2 ^ 56) :
    ∃ bytes, encode vs = some bytes ∧ decode bytes m = some (place m vs) ∧ (vs ≠ [] → bytes.head? = some tagBitPack) := by
  unfold encode
  by_cases hv : vs = []
  · subst hv
    refine ⟨[], by simp, ?_, fun h => absurd rfl h⟩
    rw [decode, place_no_true (by simpa using h)]
  · rw [if_neg hv]
    simp only
    have hvl := varEnc_length_le 8 vs.length (by
      have : (128 : Nat) ^ 8 = 2 ^ 56 := by decide
      omega) (by decide)
    have hv1 := varEnc_length_pos vs.length
    generalize hve : varEnc vs.length = ve at hvl hv1 ⊢
    have hpos : 0 < vs.length := List.length_pos_iff.2 hv
    have e0 : (tagBitPack :: List.replicate (1 + 8 + (vs.length + 7) / 8) 0#8).set 1 (1#8 <<< 4)
        = tagBitPack :: (1#8 <<< 4) :: List.replicate (8 + (vs.length + 7) / 8) 0#8 := by
      rw [Nat.add_assoc 1 8, Nat.add_comm 1, List.replicate_succ]; rfl
    rw [e0]
    have hw : writeAt (tagBitPack :: (1#8 <<< 4) :: List.replicate (8 + (vs.length + 7) / 8) 0#8) 2 ve
        = some (tagBitPack :: (1#8 <<< 4) :: ve ++
            List.replicate (8 + (vs.length + 7) / 8 - ve.length) 0#8) := by
      unfold writeAt
      rw [if_pos (by simp; omega)]
      congr 1
      rw [Nat.add_comm 2]
      simp [List.drop_replicate]
    rw [hw]
    simp only [Option.bind_some]
    obtain ⟨dst', h1, h2, h3, h4⟩ := writeBits_spec vs
      (tagBitPack :: (1#8 <<< 4) :: ve ++
            List.replicate (8 + (vs.length + 7) / 8 - ve.length) 0#8) (8 + ve.length * 8)
      (by simp; omega)
    rw [h1]
    refine ⟨_, rfl, ?_⟩
    -- length kept
    generalize hL : (if (8 + ve.length * 8 + vs.length) % 8 > 0
      then (8 + ve.length * 8 + vs.length) / 8 + 1
      else (8 + ve.length * 8 + vs.length) / 8) = L
    have hL' : L = (8 + ve.length * 8 + vs.length + 7) / 8 := by
      rw [← hL]; split <;> omega
    have hlen' : dst'.length = 10 + (vs.length + 7) / 8 := by
      rw [h2]; simp; omega
    -- the first bytes are unchanged
    have hpre : dst'.take (2 + ve.length) = tagBitPack :: (1#8 <<< 4) :: ve := by
      apply List.ext_getElem
      · simp [hlen']; omega
      · intro i hi1 hi2
        have hi : i < 2 + ve.length := by simp at hi1; omega
        apply BitVec.eq_of_getMsbD_eq
        intro j hj
        have := h4 (8 * i + j) (by omega)
        unfold bitAt at this
        have e1 : (8 * i + j) / 8 = i := by omega
        have e2 : (8 * i + j) % 8 = j := by omega
        rw [e1, e2, List.getD_eq_getElem?_getD, List.getD_eq_getElem?_getD,
          List.getElem?_append_left (by simp; omega),
          List.getElem?_eq_getElem (by omega), List.getElem?_eq_getElem (by simp; omega)] at this
        simp only [Option.getD_some] at this
        rw [List.getElem_take]
        exact this
    have hsplit : dst'.take (L + 1) = tagBitPack :: (1#8 <<< 4) ::
        (ve ++ (dst'.take (L + 1)).drop (2 + ve.length)) := by
      have : 2 + ve.length ≤ L + 1 := by omega
      conv => lhs; rw [← List.take_append_drop (2 + ve.length) (dst'.take (L + 1))]
      rw [List.take_take, Nat.min_eq_left this, hpre]
      rfl
    show decode (dst'.take (L + 1)) m = _ ∧ (vs ≠ [] → (dst'.take (L + 1)).head? = _)
    rw [hsplit]
    refine ⟨?_, fun _ => rfl⟩
    rw [decode]
    simp only [if_true]
    rw [← hve, varDec_varEnc (by omega)]
    simp only [Option.bind_some, hve, List.drop_left]
    rw [decodeLoop_eq _ vs m 0 (by omega)]
    · rfl
    · simp [hlen']; omega
    · intro j hj
      rw [bitAt_drop, bitAt_take (by omega)]
      have := h3 j hj
      rw [← this]
      congr 1; omega

theorem decode_encode (vs : List Bool) (m : List Bool) (h : m.count true = vs.length)
    (hsize : vs.length < 2 ^ 56) :
    ∃ bytes, encode vs = some bytes ∧ decode bytes m = some (place m vs) := by
  obtain ⟨b, h1, h2, -⟩ := decode_encode_tag vs m h hsize
  exact ⟨b, h1, h2⟩

theorem plainDecodeLoop_eq (m : List Bool) : ∀ (vs : List Bool),
    plainDecodeLoop m (vs.map (fun b => if b then 1#8 else 0#8)) = place m vs := by
  induction m with
  | nil => intros; rfl
  | cons b m ih =>
    intro vs
    cases b with
    | false => rw [plainDecodeLoop, ih vs]; rfl
    | true =>
      cases vs with
      | nil =>
        have := ih []
        simp only [List.map_nil] at this ⊢
        rw [plainDecodeLoop, this]; rfl
      | cons v vs =>
        rw [List.map_cons, plainDecodeLoop, ih vs]
        cases v <;> rfl

end Verif.Codec.Boolean
