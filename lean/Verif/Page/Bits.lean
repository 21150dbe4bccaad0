import Verif.Page.Model
/-! # Null bitmaps survive packing -/
namespace Verif.Page

theorem getLsbD_or_bit (b : Byte) (j t : Nat) (ht : t < 8) :
    (b ||| (1#8 <<< j)).getLsbD t = (b.getLsbD t || decide (t = j)) := by
  rw [BitVec.getLsbD_or, BitVec.getLsbD_shiftLeft]
  by_cases h : t < j
  · simp [h]; omega
  · have : (1#8).getLsbD (t - j) = decide (t = j) := by
      rw [BitVec.getLsbD_one]
      by_cases h2 : t = j
      · subst h2; simp
      · simp [h2]; omega
    simp [h, this, ht]

/-- A builder holds the bits of a mask. -/
structure Packed (s : List Byte × Nat) (m : List Bool) : Prop where
  count : s.2 = m.length
  size : s.1.length = (m.length + 7) / 8
  bits : ∀ i, i < 8 * s.1.length → getBit s.1 i = some (m.getD i false)

theorem packed_nil : Packed ([], 0) [] := ⟨rfl, rfl, fun i h => by simp at h⟩

theorem packed_append {s : List Byte × Nat} {m : List Bool} (h : Packed s m) (v : Bool) :
    Packed (appendBit s v) (m ++ [v]) := by
  obtain ⟨hc, hs, hb⟩ := h
  obtain ⟨buf, n⟩ := s
  simp only at hc hs hb
  subst hc
  have hlen : (buf ++ List.replicate ((m.length + 1 + 7) / 8 - buf.length) 0#8).length = (m.length + 1 + 7) / 8 := by
    simp; omega
  have hbase : ∀ i, i < 8 * ((m.length + 1 + 7) / 8) →
      getBit (buf ++ List.replicate ((m.length + 1 + 7) / 8 - buf.length) 0#8) i = some (m.getD i false) := by
    intro i hi
    unfold getBit
    by_cases h1 : i < 8 * buf.length
    · rw [List.getElem?_append_left (by omega)]
      exact hb i h1
    · rw [List.getElem?_append_right (by omega), List.getElem?_replicate, if_pos (by omega)]
      simp only [Option.map_some, BitVec.getLsbD_zero]
      congr 1
      symm
      rw [List.getD_eq_getElem?_getD, List.getElem?_eq_none (by omega)]
      rfl
  have happ : ∀ i, (m ++ [v]).getD i false = if i = m.length then v else m.getD i false := by
    intro i
    split
    · subst_vars; simp
    · simp only [List.getD_eq_getElem?_getD]
      by_cases h : i < m.length
      · rw [List.getElem?_append_left h]
      · rw [List.getElem?_eq_none (by simp; omega), List.getElem?_eq_none (by omega)]
  cases v with
  | false =>
    refine ⟨by simp [appendBit], by simp only [appendBit, List.length_append, List.length_singleton]; simpa using hlen, ?_⟩
    intro i hi
    simp only [appendBit, Bool.false_eq_true, if_false] at hi ⊢
    rw [hlen] at hi
    rw [hbase i hi, happ]
    split
    · subst_vars; simp
    · rfl
  | true =>
    refine ⟨by simp [appendBit], by simp only [appendBit, List.length_append, List.length_singleton, if_true, List.length_modify]; simpa using hlen, ?_⟩
    intro i hi
    simp only [appendBit, if_true, List.length_modify] at hi ⊢
    rw [hlen] at hi
    have h0 := hbase i hi
    rw [happ]
    unfold getBit at h0 ⊢
    rw [List.getElem?_modify]
    cases hx : (buf ++ List.replicate ((m.length + 1 + 7) / 8 - buf.length) 0#8)[i / 8]? with
    | none => rw [hx] at h0; simp at h0
    | some b =>
      rw [hx] at h0
      simp only [Option.map_some, Option.some.injEq] at h0
      by_cases h1 : m.length / 8 = i / 8
      · simp only [h1, if_true, Option.map_eq_map, Option.map_some, Option.some.injEq]
        rw [getLsbD_or_bit _ _ _ (by omega), h0]
        by_cases h2 : i = m.length
        · subst h2; simp
        · have h3 : i % 8 ≠ m.length % 8 := by omega
          simp [h2, h3]
      · have h2 : i ≠ m.length := by intro h; subst h; exact h1 rfl
        simp [h1, h2, h0]

theorem packed_foldl (m : List Bool) : ∀ {s : List Byte × Nat} {m0 : List Bool}, Packed s m0 →
    Packed (m.foldl appendBit s) (m0 ++ m) := by
  induction m with
  | nil => intro s m0 h; simpa using h
  | cons v m ih =>
    intro s m0 h
    have := ih (packed_append h v)
    simpa using this

theorem packed_packBits (m : List Bool) : Packed (m.foldl appendBit ([], 0)) m := by
  simpa using packed_foldl m packed_nil

theorem length_packBits (m : List Bool) : (packBits m).length = (m.length + 7) / 8 := (packed_packBits m).size

theorem unpackBits_eq {buf : List Byte} {m : List Bool} (h : ∀ i b, m[i]? = some b → getBit buf i = some b) :
    unpackBits buf m.length = some m := by
  unfold unpackBits
  induction m using List.reverseRecOn with
  | nil => rfl
  | append_singleton m b ih =>
    rw [List.length_append, List.length_singleton, List.range_succ, List.mapM_append]
    rw [ih fun i x hx => h i x (by rw [List.getElem?_append_left (by
      have := (List.getElem?_eq_some_iff.1 hx).1; exact this)]; exact hx)]
    have := h m.length b (by simp)
    simp [this]

theorem getBit_packBits {m : List Bool} {i : Nat} {b : Bool} (h : m[i]? = some b) : getBit (packBits m) i = some b := by
  have hp := packed_packBits m
  have hi := (List.getElem?_eq_some_iff.1 h).1
  have := hp.bits i (by rw [hp.size]; omega)
  unfold packBits
  rw [this, List.getD_eq_getElem?_getD, h]
  rfl

theorem unpackBits_packBits (m : List Bool) : unpackBits (packBits m) m.length = some m :=
  unpackBits_eq fun _ _ h => getBit_packBits h

end Verif.Page
