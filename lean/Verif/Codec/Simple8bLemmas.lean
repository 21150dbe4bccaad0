import Verif.Codec.Simple8b
/-! Helper lemmas for simple8b. -/
namespace Verif.Codec.Simple8b

/-- The integer in which `vs` are the base `2^b` digits, least significant first. -/
def digits (b : Nat) : List U64 → Nat
  | [] => 0
  | v :: vs => v.toNat + 2 ^ b * digits b vs

theorem shift_mask {n : Nat} (h : n ≤ 60) : n &&& 0x3f = n := by
  rw [show (0x3f : Nat) = 2 ^ 6 - 1 by rfl, Nat.and_two_pow_sub_one_eq_mod]
  omega

theorem one_shl_le {b : Nat} (hb : b ≤ 60) (v : U64) :
    (1#64 <<< (b &&& 0x3f)) ≤ v ↔ 2 ^ b ≤ v.toNat := by
  rw [shift_mask hb, BitVec.le_def, BitVec.toNat_shiftLeft, Nat.shiftLeft_eq]
  have : 2 ^ b ≤ 2 ^ 60 := Nat.pow_le_pow_right (by decide) hb
  simp only [BitVec.toNat_ofNat]
  rw [Nat.mod_eq_of_lt (by omega : (1 % 2 ^ 64 * 2 ^ b) < 2 ^ 64)]
  simp

theorem or_step {c low s b : Nat} {val v : U64} (hval : val.toNat = c * 2 ^ 60 + low)
    (hlow : low < 2 ^ s) (hv : v.toNat < 2 ^ b) (hs : s + b ≤ 60) :
    (val ||| (v <<< s)).toNat = c * 2 ^ 60 + (low + v.toNat * 2 ^ s) := by
  have hvs : v.toNat * 2 ^ s < 2 ^ (s + b) := by
    rw [Nat.pow_add, Nat.mul_comm]
    exact Nat.mul_lt_mul_of_pos_left hv (Nat.two_pow_pos s)
  have h60 : 2 ^ (s + b) ≤ 2 ^ 60 := Nat.pow_le_pow_right (by decide) hs
  have hs60 : 2 ^ s ≤ 2 ^ 60 := Nat.pow_le_pow_right (by decide) (by omega)
  rw [BitVec.toNat_or, BitVec.toNat_shiftLeft, Nat.shiftLeft_eq, Nat.mod_eq_of_lt (by omega), hval]
  have e1 : c * 2 ^ 60 + low = low ||| (c <<< 60) := by
    rw [or_shiftLeft_eq_add _ (by omega)]; omega
  have e2 : low ||| v.toNat * 2 ^ s = low + v.toNat * 2 ^ s := by
    have := or_shiftLeft_eq_add v.toNat hlow
    rwa [Nat.shiftLeft_eq] at this
  have e3 : low + v.toNat * 2 ^ s < 2 ^ 60 := by
    have : (v.toNat + 1) * 2 ^ s ≤ 2 ^ b * 2 ^ s := Nat.mul_le_mul_right _ hv
    rw [Nat.add_mul, ← Nat.pow_add, Nat.add_comm b] at this
    omega
  rw [e1, Nat.or_assoc, Nat.or_comm (c <<< 60), ← Nat.or_assoc, e2, or_shiftLeft_eq_add _ e3]
  omega

theorem packLoop_spec {intN b c : Nat} (hb : intN * b ≤ 60) (hb1 : b ≤ 60) :
    ∀ (vs : List U64) (k : Nat) (val : U64) (low : Nat), k ≤ intN →
      val.toNat = c * 2 ^ 60 + low → low < 2 ^ (k * b) →
      (packLoop intN b k val vs = none ↔ ∃ v ∈ vs.take (intN - k), 2 ^ b ≤ v.toNat) ∧
      ∀ w, packLoop intN b k val vs = some w →
        w.toNat = c * 2 ^ 60 + (low + 2 ^ (k * b) * digits b (vs.take (intN - k))) := by
  intro vs
  induction vs with
  | nil =>
    intro k val low hk hval hlow
    refine ⟨by simp [packLoop], ?_⟩
    intro w hw
    simp [packLoop] at hw
    subst hw
    simp [digits, hval]
  | cons v vs ih =>
    intro k val low hk hval hlow
    rw [packLoop]
    by_cases hkn : k < intN
    · have htk : intN - k = (intN - (k + 1)) + 1 := by omega
      have hkb : k * b + b ≤ 60 := by
        calc k * b + b = (k + 1) * b := by rw [Nat.succ_mul]
          _ ≤ intN * b := Nat.mul_le_mul_right _ hkn
          _ ≤ 60 := hb
      rw [if_pos hkn, htk, List.take_succ_cons]
      by_cases hv : 2 ^ b ≤ v.toNat
      · rw [if_pos ((one_shl_le hb1 v).2 hv)]
        simp [hv]
      · rw [if_neg (fun h => hv ((one_shl_le hb1 v).1 h)), shift_mask (by omega)]
        have hv' : v.toNat < 2 ^ b := by omega
        have hor := or_step hval hlow hv' hkb
        have hl : low + v.toNat * 2 ^ (k * b) < 2 ^ ((k + 1) * b) := by
          have : (v.toNat + 1) * 2 ^ (k * b) ≤ 2 ^ b * 2 ^ (k * b) := Nat.mul_le_mul_right _ hv'
          rw [Nat.succ_mul k, Nat.pow_add]
          rw [Nat.add_mul] at this
          rw [Nat.mul_comm (2 ^ (k * b))]
          omega
        obtain ⟨h1, h2⟩ := ih (k + 1) _ _ hkn hor hl
        refine ⟨?_, ?_⟩
        · rw [h1]
          simp [hv]
        · intro w hw
          rw [h2 w hw, digits, Nat.succ_mul k, Nat.pow_add, Nat.mul_add, ← Nat.mul_assoc,
            Nat.mul_comm v.toNat]
          omega
    · have : intN - k = 0 := by omega
      rw [if_neg hkn, this]
      refine ⟨by simp, ?_⟩
      intro w hw
      simp at hw
      subst hw
      simp [digits, hval]

theorem unpack_digits {b : Nat} {mask : U64} (hm : mask.toNat = 2 ^ b - 1) :
    ∀ (vs : List U64) (w : U64) (c : Nat), (∀ v ∈ vs, v.toNat < 2 ^ b) →
      w.toNat = digits b vs + 2 ^ (vs.length * b) * c →
      unpack vs.length mask b w = vs := by
  intro vs
  induction vs with
  | nil => intros; rfl
  | cons v vs ih =>
    intro w c hv hw
    have hv0 := hv v (List.mem_cons_self ..)
    have hpos := Nat.two_pow_pos b
    have e : w.toNat = v.toNat + 2 ^ b * (digits b vs + 2 ^ (vs.length * b) * c) := by
      rw [hw, digits, List.length_cons, Nat.succ_mul, Nat.add_comm (vs.length * b), Nat.pow_add,
        Nat.mul_add, Nat.mul_assoc]
      omega
    rw [List.length_cons, unpack]
    congr 1
    · apply BitVec.eq_of_toNat_eq
      rw [BitVec.toNat_and, hm, Nat.and_two_pow_sub_one_eq_mod, e, Nat.add_mul_mod_self_left,
        Nat.mod_eq_of_lt hv0]
    · apply ih _ c (fun x hx => hv x (List.mem_cons_of_mem _ hx))
      rw [BitVec.toNat_ushiftRight, Nat.shiftRight_eq_div_pow, e,
        Nat.add_mul_div_left _ _ hpos, Nat.div_eq_of_lt hv0, Nat.zero_add]

theorem digits_lt {b : Nat} : ∀ (vs : List U64), (∀ v ∈ vs, v.toNat < 2 ^ b) →
    digits b vs < 2 ^ (vs.length * b) := by
  intro vs
  induction vs with
  | nil => intro; simp [digits]
  | cons v vs ih =>
    intro h
    have h0 := h v (List.mem_cons_self ..)
    have h1 := ih (fun x hx => h x (List.mem_cons_of_mem _ hx))
    rw [digits, List.length_cons, Nat.succ_mul, Nat.add_comm (vs.length * b), Nat.pow_add]
    calc v.toNat + 2 ^ b * digits b vs < 2 ^ b * 1 + 2 ^ b * digits b vs := by omega
      _ = 2 ^ b * (1 + digits b vs) := by rw [Nat.mul_add]
      _ ≤ _ := Nat.mul_le_mul_left _ (by omega)

/-- One packed word decodes to the values packed into it. -/
theorem decodeValue_pack {idx intN b : Nat} (hmem : numBits[idx]? = some (intN, b))
    {src : List U64} {w : U64} (hlen : intN ≤ src.length)
    (h : packLoop intN b 0 (BitVec.ofNat 64 (idx + 2) <<< 60) src = some w) :
    decodeValue w = src.take intN ∧ ∀ v ∈ src.take intN, v.toNat < 2 ^ 60 := by
  have hidx : idx < 14 := by
    have := (List.getElem?_eq_some_iff.1 hmem).1
    simpa [numBits] using this
  have hbounds : intN * b ≤ 60 ∧ b ≤ 60 := by
    have : ∀ c ∈ numBits, c.1 * c.2 ≤ 60 ∧ c.2 ≤ 60 := by decide
    exact this _ (List.mem_of_getElem? hmem)
  have hval : (BitVec.ofNat 64 (idx + 2) <<< 60).toNat = (idx + 2) * 2 ^ 60 + 0 := by
    rw [BitVec.toNat_shiftLeft, Nat.shiftLeft_eq, BitVec.toNat_ofNat]
    omega
  obtain ⟨h1, h2⟩ := packLoop_spec (c := idx + 2) hbounds.1 hbounds.2 src 0 _ 0 (Nat.zero_le _)
    hval (by simp)
  have hall : ∀ v ∈ src.take intN, v.toNat < 2 ^ b := by
    intro v hv
    apply Nat.lt_of_not_le
    intro hle
    rw [h1.2 ⟨v, by simpa using hv, hle⟩] at h
    cases h
  have hw := h2 w h
  simp only [Nat.zero_mul, Nat.pow_zero, Nat.one_mul, Nat.zero_add, Nat.sub_zero] at hw
  have hl : (src.take intN).length = intN := by simp; omega
  have hd := digits_lt _ hall
  rw [hl] at hd
  have hd60 : digits b (src.take intN) < 2 ^ 60 :=
    Nat.lt_of_lt_of_le hd (Nat.pow_le_pow_right (by decide) hbounds.1)
  have hsel : (w >>> 60).toNat = idx + 2 := by
    rw [BitVec.toNat_ushiftRight, Nat.shiftRight_eq_div_pow, hw]
    omega
  have hform : w.toNat = digits b (src.take intN)
      + 2 ^ ((src.take intN).length * b) * (2 ^ (60 - intN * b) * (idx + 2)) := by
    rw [hw, hl, ← Nat.mul_assoc, ← Nat.pow_add, Nat.add_sub_cancel' hbounds.1]
    omega
  refine ⟨?_, fun v hv => Nat.lt_of_lt_of_le (hall v hv)
    (Nat.pow_le_pow_right (by decide) hbounds.2)⟩
  have key : ∀ mask : U64, mask.toNat = 2 ^ b - 1 → unpack intN mask b w = src.take intN := by
    intro mask hm
    have := unpack_digits hm (src.take intN) w _ hall hform
    rwa [hl] at this
  have hcases : idx = 0 ∨ idx = 1 ∨ idx = 2 ∨ idx = 3 ∨ idx = 4 ∨ idx = 5 ∨ idx = 6 ∨ idx = 7 ∨
      idx = 8 ∨ idx = 9 ∨ idx = 10 ∨ idx = 11 ∨ idx = 12 ∨ idx = 13 := by omega
  unfold decodeValue
  rcases hcases with h | h | h | h | h | h | h | h | h | h | h | h | h | h <;>
  · subst h
    have hab := Option.some.inj hmem
    rw [Prod.mk.injEq] at hab
    obtain ⟨ha, hb⟩ := hab
    rw [hsel]
    change unpack _ _ _ w = _
    subst ha hb
    exact key _ (by rfl)

theorem takeWhile_ones {l : List U64} {n : Nat}
    (h : n ≤ (l.takeWhile (· = 1#64)).length) : l.take n = List.replicate n 1#64 := by
  induction n generalizing l with
  | zero => simp
  | succ n ih =>
    cases l with
    | nil => simp at h
    | cons x xs =>
      rw [List.takeWhile_cons] at h
      by_cases hx : x = 1#64
      · simp [hx] at h
        simp [hx, List.replicate_succ]
        exact ih (by simpa using h)
      · simp [hx] at h

theorem tryCodes_sound {src : List U64} {w : U64} {n : Nat} :
    ∀ (codes : List (Nat × Nat)) (idx : Nat), codes = numBits.drop idx →
      tryCodes src idx codes = some (w, n) →
      n ≤ src.length ∧ decodeValue w = src.take n ∧ ∀ v ∈ src.take n, v.toNat < 2 ^ 60 := by
  intro codes
  induction codes with
  | nil => intro idx _ h; simp [tryCodes] at h
  | cons c cs ih =>
    obtain ⟨a, b⟩ := c
    intro idx he h
    have hcs : cs = numBits.drop (idx + 1) := by
      have := congrArg List.tail he
      simpa using this
    have hget : numBits[idx]? = some (a, b) := by
      have := congrArg List.head? he
      simpa [List.head?_drop] using this.symm
    rw [tryCodes] at h
    split at h
    · exact ih _ hcs h
    · split at h
      · exact ih _ hcs h
      · rename_i hlen _ w' hp
        simp at h
        obtain ⟨rfl, rfl⟩ := h
        have hle : a ≤ src.length := by omega
        exact ⟨hle, decodeValue_pack hget hle hp⟩

theorem tryCodes_complete {src : List U64} {v : U64} {vs : List U64} (hsrc : src = v :: vs)
    (hv : v.toNat < 2 ^ 60) :
    ∀ (codes : List (Nat × Nat)) (idx : Nat), (1, 60) ∈ codes →
      tryCodes src idx codes ≠ none := by
  intro codes
  induction codes with
  | nil => intro idx h; simp at h
  | cons c cs ih =>
    obtain ⟨a, b⟩ := c
    intro idx hmem
    rw [tryCodes]
    by_cases hc : (a, b) = (1, 60)
    · simp at hc
      obtain ⟨rfl, rfl⟩ := hc
      subst hsrc
      rw [if_neg (by simp)]
      have : packLoop 1 60 0 (BitVec.ofNat 64 (idx + 2) <<< 60) (v :: vs) ≠ none := by
        rw [packLoop, if_pos (by decide),
          if_neg (fun h => by have := (one_shl_le (by decide) v).1 h; omega)]
        cases vs <;> simp [packLoop]
      split
      · contradiction
      · simp
    · have hm : (1, 60) ∈ cs := by
        rcases List.mem_cons.1 hmem with h | h
        · exact absurd h.symm hc
        · exact h
      split
      · exact ih _ hm
      · split
        · exact ih _ hm
        · simp

theorem onesRun_le_length (src : List U64) : onesRun src ≤ src.length := by
  unfold onesRun
  refine Nat.le_trans (List.takeWhile_sublist _).length_le ?_
  split <;> simp <;> omega

theorem take_of_onesRun {src : List U64} {n : Nat} (hn : n ≤ onesRun src) :
    src.take n = List.replicate n 1#64 := by
  have h1 := hn
  unfold onesRun at h1
  have h2 := takeWhile_ones h1
  split at h2
  · rename_i h240
    have : n ≤ 240 := by
      rw [if_pos h240] at h1
      refine Nat.le_trans h1 (Nat.le_trans (List.takeWhile_sublist _).length_le ?_)
      simp; omega
    rwa [List.take_take, Nat.min_eq_left this] at h2
  · rename_i h240
    have : n ≤ 120 := by
      rw [if_neg h240] at h1
      refine Nat.le_trans h1 (Nat.le_trans (List.takeWhile_sublist _).length_le ?_)
      simp; omega
    rwa [List.take_take, Nat.min_eq_left this] at h2

theorem encodeWord_sound {src : List U64} {w : U64} {n : Nat} (h : encodeWord src = some (w, n)) :
    n ≤ src.length ∧ decodeValue w = src.take n ∧ ∀ v ∈ src.take n, v.toNat < 2 ^ 60 := by
  have hlen := onesRun_le_length src
  unfold encodeWord at h
  split at h
  · rename_i hc
    simp at h
    obtain ⟨rfl, rfl⟩ := h
    have ht := take_of_onesRun (src := src) (n := 240) (by omega)
    refine ⟨by omega, ?_, ?_⟩
    · rw [ht]; rfl
    · rw [ht]
      intro v hv
      rw [(List.mem_replicate.1 hv).2]; decide
  · split at h
    · rename_i hc
      simp at h
      obtain ⟨rfl, rfl⟩ := h
      have ht := take_of_onesRun (src := src) (n := 120) (by omega)
      refine ⟨by omega, ?_, ?_⟩
      · rw [ht]; rfl
      · rw [ht]
        intro v hv
        rw [(List.mem_replicate.1 hv).2]; decide
    · exact tryCodes_sound numBits 0 rfl h

theorem decode_be64_append (w : U64) (l : List Byte) :
    decode (be64 w ++ l) = (decode l).map (decodeValue w ++ ·) := by
  rw [decode]
  have hl : (be64 w).length = 8 := be64_length w
  have hne : be64 w ++ l ≠ [] := by
    intro h
    have := congrArg List.length h
    simp [hl] at this
  rw [dif_neg hne, if_neg (by simp), List.drop_append_of_le_length (by omega),
    List.take_append_of_le_length (by omega)]
  rw [List.drop_of_length_le (by omega), List.take_of_length_le (by omega), ofBe64_be64]
  simp only [List.nil_append]
  cases decode l <;> rfl

theorem encode_eq {src : List U64} (hs : src ≠ []) : encode src =
    (encodeWord src).bind (fun p => (encode (src.drop p.2)).map (be64 p.1 ++ ·)) := by
  rw [encode, dif_neg hs]
  split
  · rename_i h; rw [h]; rfl
  · rename_i w n h
    rw [h]
    simp
    cases encode (src.drop n) <;> rfl

/-- Whatever `encode` accepts is read back. -/
theorem decode_encode {src : List U64} {bytes : List Byte} (h : encode src = some bytes) :
    decode bytes = some src := by
  induction hn : src.length using Nat.strongRecOn generalizing src bytes with
  | ind m ih =>
    by_cases hs : src = []
    · subst hs
      rw [encode] at h
      simp at h
      subst h
      rw [decode]; simp
    · rw [encode_eq hs] at h
      cases hw : encodeWord src with
      | none => simp [hw] at h
      | some p =>
        obtain ⟨w, n⟩ := p
        simp [hw] at h
        obtain ⟨rest, hr, rfl⟩ := h
        have hpos := encodeWord_pos hw
        have hlen : 0 < src.length := List.length_pos_iff.2 hs
        obtain ⟨hle, hdv, _⟩ := encodeWord_sound hw
        have := ih (src.drop n).length (by simp; omega) hr rfl
        rw [decode_be64_append, this, hdv]
        simp

/-- `encode` accepts exactly the sequences of values below `2^60`. -/
theorem encode_isSome_iff (src : List U64) :
    (encode src).isSome ↔ ∀ v ∈ src, v.toNat ≤ maxValue := by
  induction hn : src.length using Nat.strongRecOn generalizing src with
  | ind m ih =>
    by_cases hs : src = []
    · subst hs
      rw [encode]; simp
    · have hlen : 0 < src.length := List.length_pos_iff.2 hs
      rw [encode_eq hs]
      cases hw : encodeWord src with
      | none =>
        simp only [Option.bind_none, Option.isSome_none, Bool.false_eq_true, false_iff]
        intro hall
        unfold encodeWord at hw
        split at hw
        · simp at hw
        · split at hw
          · simp at hw
          · cases src with
            | nil => exact hs rfl
            | cons v vs =>
              have hv := hall v (List.mem_cons_self ..)
              refine tryCodes_complete (src := v :: vs) rfl ?_ numBits 0 (by decide) hw
              unfold maxValue at hv; omega
      | some p =>
        obtain ⟨w, n⟩ := p
        have hpos := encodeWord_pos hw
        obtain ⟨hle, _, hb⟩ := encodeWord_sound hw
        have := ih (src.drop n).length (by simp; omega) (src.drop n) rfl
        simp only [Option.bind_some, Option.isSome_map]
        rw [this]
        constructor
        · intro h v hv
          rw [← List.take_append_drop n src, List.mem_append] at hv
          rcases hv with hv | hv
          · have := hb v hv
            unfold maxValue; omega
          · exact h v hv
        · intro h v hv
          exact h v (List.mem_of_mem_drop hv)

end Verif.Codec.Simple8b
