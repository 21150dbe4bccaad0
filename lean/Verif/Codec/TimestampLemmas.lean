import Verif.Codec.Timestamp
import Verif.Codec.IntegerLemmas
/-! Helper lemmas for the timestamp codec. -/
namespace Verif.Codec.Timestamp
open Verif.Codec
open Verif.Codec.Integer (take_be64 drop_be64 flatMap_be64_length le_maxOf)

@[simp] theorem diffs_length (p : U64) (xs : List U64) : (diffs p xs).length = xs.length := by
  induction xs generalizing p with
  | nil => rfl
  | cons x xs ih => simp [diffs, ih]

theorem add_sub (p v : U64) : p + (v - p) = v := by rw [BitVec.add_comm, BitVec.sub_add_cancel]

theorem shrink_le (d e : Nat) : shrink d e ≤ e := by
  induction e with
  | zero => simp [shrink]
  | succ e ih => rw [shrink]; split <;> omega

theorem shrink_dvd (d e : Nat) : 10 ^ shrink d e ∣ d := by
  induction e with
  | zero => simp [shrink]
  | succ e ih =>
    rw [shrink]; split
    · rename_i h; exact Nat.dvd_of_mod_eq_zero h
    · exact ih

theorem foldl_shrink_le (ds : List U64) (e : Nat) :
    ds.foldl (fun e d => shrink d.toNat e) e ≤ e := by
  induction ds generalizing e with
  | nil => simp
  | cons d ds ih => exact Nat.le_trans (ih _) (shrink_le _ _)

theorem foldl_shrink_dvd (ds : List U64) (e : Nat) :
    ∀ d ∈ ds, 10 ^ ds.foldl (fun e d => shrink d.toNat e) e ∣ d.toNat := by
  induction ds generalizing e with
  | nil => simp
  | cons x ds ih =>
    intro d hd
    rcases List.mem_cons.1 hd with rfl | hd
    · exact Nat.dvd_trans (Nat.pow_dvd_pow 10 (foldl_shrink_le ds _)) (shrink_dvd _ _)
    · exact ih _ d hd

theorem findScale_le (ds : List U64) : findScale ds ≤ 12 := foldl_shrink_le ds 12
theorem findScale_dvd {ds : List U64} {d : U64} (h : d ∈ ds) : 10 ^ findScale ds ∣ d.toNat :=
  foldl_shrink_dvd ds 12 d h

theorem header_scale (k : Byte) (hk : k = 1#8 ∨ k = 2#8) (e : Nat) (he : e ≤ 12) :
    ((((k <<< 4) ||| BitVec.ofNat 8 e) &&& 0x0f).toNat = e) ∧
    (((k <<< 4) ||| BitVec.ofNat 8 e) >>> 4 = k) := by
  have : e = 0 ∨ e = 1 ∨ e = 2 ∨ e = 3 ∨ e = 4 ∨ e = 5 ∨ e = 6 ∨ e = 7 ∨ e = 8 ∨ e = 9 ∨ e = 10 ∨
    e = 11 ∨ e = 12 := by omega
  rcases hk with rfl | rfl <;>
  rcases this with h | h | h | h | h | h | h | h | h | h | h | h | h <;> subst h <;> decide

theorem scaled_back {d e : Nat} (hd : d < 2 ^ 64) (h : 10 ^ e ∣ d) :
    BitVec.ofNat 64 ((BitVec.ofNat 64 (d / 10 ^ e)).toNat * 10 ^ e) = BitVec.ofNat 64 d := by
  rw [BitVec.toNat_ofNat, Nat.mod_eq_of_lt (Nat.lt_of_le_of_lt (Nat.div_le_self _ _) hd),
    Nat.div_mul_cancel h]

theorem decodeUncompressedLoop_eq (m : List Bool) : ∀ (vs : List U64) (prev : U64),
    m.count true = vs.length →
    decodeUncompressedLoop m ((diffs prev vs).flatMap be64) prev = some (place m vs) := by
  induction m with
  | nil => intros; rfl
  | cons b m ih =>
    intro vs prev h
    cases b with
    | false =>
      simp at h
      rw [decodeUncompressedLoop, ih vs prev (by simpa using h)]
      rfl
    | true =>
      cases vs with
      | nil => simp at h
      | cons v vs =>
        simp at h
        have hne : be64 (v - prev) ++ (diffs v vs).flatMap be64 ≠ [] := by
          intro h0
          have := congrArg List.length h0
          simp at this
        rw [diffs, List.flatMap_cons, decodeUncompressedLoop, if_neg hne, if_neg (by simp), take_be64,
          drop_be64, ofBe64_be64]
        simp only [add_sub]
        rw [ih vs v (by simpa using h)]
        rfl

theorem decodeRleLoop_rest (dz : U64) (m : List Bool) : ∀ (vs : List U64) (prev : U64),
    m.count true = vs.length → (∀ d ∈ diffs prev vs, d = dz) →
    decodeRleLoop dz m false prev = place m vs := by
  induction m with
  | nil => intros; rfl
  | cons b m ih =>
    intro vs prev h hd
    cases b with
    | false =>
      simp at h
      rw [decodeRleLoop, ih vs prev (by simpa using h) hd]
      rfl
    | true =>
      cases vs with
      | nil => simp at h
      | cons v vs =>
        simp at h
        have h0 := hd _ (List.mem_cons_self ..)
        have e : prev + dz = v := by rw [← h0, add_sub]
        rw [decodeRleLoop, e, ih vs v (by simpa using h)
          (fun d hm => hd d (List.mem_cons_of_mem _ hm))]
        rfl

theorem decodeRleLoop_first (dz : U64) (m : List Bool) : ∀ (v : U64) (vs : List U64),
    m.count true = vs.length + 1 → (∀ d ∈ diffs v vs, d = dz) →
    decodeRleLoop dz m true v = place m (v :: vs) := by
  induction m with
  | nil => intros; rfl
  | cons b m ih =>
    intro v vs h hd
    cases b with
    | false =>
      simp at h
      rw [decodeRleLoop, ih v vs (by simpa using h) hd]
      rfl
    | true =>
      simp at h
      rw [decodeRleLoop, decodeRleLoop_rest dz m vs v (by simpa using h) hd]
      rfl

theorem useRle_spec {ds : List U64} (h : useRle ds = true) :
    1 ≤ ds.length ∧ ∀ d ∈ ds, d = ds.headD 0 := by
  match ds, h with
  | d1 :: ds, h =>
    refine ⟨by simp, ?_⟩
    intro d hd
    simp only [useRle, List.all_eq_true, decide_eq_true_eq] at h
    rcases List.mem_cons.1 hd with rfl | hd
    · rfl
    · exact (h d hd).symm

theorem decodeSimple8bRest_eq (e : Nat) (m : List Bool) : ∀ (vs : List U64) (prev : U64),
    m.count true = vs.length → (∀ d ∈ diffs prev vs, 10 ^ e ∣ d.toNat) →
    decodeSimple8bRest e m ((diffs prev vs).map fun d => BitVec.ofNat 64 (d.toNat / 10 ^ e)) prev
      = place m vs := by
  induction m with
  | nil => intros; rfl
  | cons b m ih =>
    intro vs prev h hd
    cases b with
    | false =>
      simp at h
      rw [decodeSimple8bRest, ih vs prev (by simpa using h) hd]
      rfl
    | true =>
      cases vs with
      | nil => simp at h
      | cons v vs =>
        simp at h
        have h0 := hd _ (List.mem_cons_self ..)
        rw [diffs, List.map_cons, decodeSimple8bRest]
        simp only [scaled_back (BitVec.isLt _) h0, BitVec.ofNat_toNat, BitVec.setWidth_eq, add_sub]
        rw [ih vs v (by simpa using h) (fun d hm => hd d (List.mem_cons_of_mem _ hm))]
        rfl

/-- The decoder puts the encoded values back, provided the first row is valid. -/
theorem decode_encode (vs : List U64) (m : List Bool) (h : m.count true = vs.length)
    (hfirst : m.headD true = true) :
    ∃ bytes, encode vs = some bytes ∧ decode bytes m = some (place m vs) := by
  cases vs with
  | nil =>
    refine ⟨[], rfl, ?_⟩
    rw [decode, place_no_true (by simpa using h)]
  | cons v vs =>
    simp only [List.length_cons] at h
    unfold encode
    simp only
    split
    · rename_i hr
      obtain ⟨h2, hall⟩ := useRle_spec hr
      refine ⟨_, rfl, ?_⟩
      have hsc := header_scale 2#8 (Or.inr rfl) (shrink ((diffs v vs).headD 0).toNat 12) (shrink_le _ _)
      unfold decode encodeRle
      simp only [List.cons_append, List.nil_append, List.append_assoc]
      rw [hsc.2, if_neg (by decide), if_pos (by decide)]
      unfold decodeRle
      rw [if_neg (by simp), take_be64, drop_be64, ofBe64_be64,
        varDec_varEnc (Nat.lt_of_le_of_lt (Nat.div_le_self _ _) (BitVec.isLt _)), hsc.1]
      simp only [Option.map_some]
      rw [Nat.div_mul_cancel (shrink_dvd _ _)]
      simp only [BitVec.ofNat_toNat, BitVec.setWidth_eq]
      rw [decodeRleLoop_first _ m v vs h hall]
    · split
      · refine ⟨_, rfl, ?_⟩
        unfold decode
        simp only
        rw [if_pos (by decide)]
        unfold decodeUncompressed
        have hl : ((v :: diffs v vs).flatMap be64).length = 8 * (vs.length + 1) := by
          rw [flatMap_be64_length]; simp
        rw [if_neg]
        · have e : v :: diffs v vs = diffs 0 (v :: vs) := by
            simp [diffs]
          rw [e, decodeUncompressedLoop_eq m (v :: vs) 0 (by simpa using h)]
        · rintro (h0 | h0)
          · rw [h0] at hl; simp at hl
          · omega
      · rename_i hmax
        have hs : (Simple8b.encode ((diffs v vs).map fun d =>
            BitVec.ofNat 64 (d.toNat / 10 ^ findScale (diffs v vs)))).isSome := by
          rw [Simple8b.encode_isSome_iff]
          intro d hd
          obtain ⟨x, hx, rfl⟩ := List.mem_map.1 hd
          have h1 := le_maxOf hx
          have h2 := Nat.div_le_self x.toNat (10 ^ findScale (diffs v vs))
          rw [BitVec.toNat_ofNat]
          refine Nat.le_trans (Nat.mod_le _ _) ?_
          omega
        obtain ⟨packed, hp⟩ := Option.isSome_iff_exists.1 hs
        rw [hp]
        refine ⟨_, rfl, ?_⟩
        have hsc := header_scale 1#8 (Or.inl rfl) (findScale (diffs v vs)) (findScale_le _)
        unfold decode
        simp only [List.cons_append]
        rw [hsc.2, if_neg (by decide), if_neg (by decide), if_pos (by decide)]
        unfold decodeSimple8b
        rw [if_neg (by simp)]
        cases m with
        | nil => simp at h
        | cons b m =>
          simp at hfirst
          subst hfirst
          simp only [take_be64, drop_be64, ofBe64_be64, Simple8b.decode_encode hp, hsc.1,
            Option.map_some]
          simp at h
          rw [decodeSimple8bRest_eq _ m vs v (by simpa using h) (fun d hd => findScale_dvd hd)]
          rfl

theorem plainDecodeLoop_eq (m : List Bool) : ∀ (vs : List U64), m.count true = vs.length →
    plainDecodeLoop m (vs.flatMap be64) = some (place m vs) := by
  induction m with
  | nil => intros; rfl
  | cons b m ih =>
    intro vs h
    cases b with
    | false =>
      simp at h
      rw [plainDecodeLoop, ih vs (by simpa using h)]
      rfl
    | true =>
      cases vs with
      | nil => simp at h
      | cons v vs =>
        simp at h
        have hne : be64 v ++ vs.flatMap be64 ≠ [] := by
          intro h0
          have := congrArg List.length h0
          simp at this
        rw [List.flatMap_cons, plainDecodeLoop, if_neg hne, if_neg (by simp), take_be64,
          drop_be64, ofBe64_be64, ih vs (by simpa using h)]
        rfl

theorem plainDecode_encode (vs : List U64) (m : List Bool) (h : m.count true = vs.length) :
    plainDecode (plainEncode vs) m = some (place m vs) := by
  cases vs with
  | nil =>
    simp only [plainEncode, if_pos, plainDecode]
    rw [place_no_true (by simpa using h)]
  | cons v vs =>
    simp only [plainEncode, reduceCtorEq, if_false, plainDecode]
    exact plainDecodeLoop_eq m _ h

end Verif.Codec.Timestamp
