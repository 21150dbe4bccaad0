import Verif.Utils.Model
import Mathlib.Order.Basic
import Mathlib.Tactic.ByContra
/-!
# C41: the series membership filter
-/
namespace Verif.Utils

/-- Shape of every filter: the mask covers exactly the bits of the buffer. -/
def Bloom.Wf (f : Bloom) : Prop :=
  ∃ k, 3 ≤ k ∧ k < 62 ∧ f.mask = 2 ^ k - 1 ∧ f.b.length * 8 = 2 ^ k

/-- Bit number `loc` is set. -/
def Bloom.bit (f : Bloom) (loc : Nat) : Prop :=
  ∃ x, f.b[loc / 8]? = some x ∧ x.getLsbD (loc % 8) = true

theorem byte_or_get (x : BitVec 8) (i j : Nat) (hi : i < 8) :
    (x ||| (1#8 <<< i)).getLsbD j = (x.getLsbD j || decide (i = j)) := by
  rw [BitVec.getLsbD_or]
  congr 1
  rw [BitVec.getLsbD_shiftLeft, BitVec.getLsbD_one]
  by_cases h : i = j
  · subst h; simp [hi]
  · by_cases h2 : j < i
    · simp [h, h2]
    · have : j - i ≠ 0 := by omega
      simp [h, this]

theorem byte_and_ne (x : BitVec 8) (i : Nat) (hi : i < 8) :
    decide (x &&& (1#8 <<< i) ≠ 0#8) = x.getLsbD i := by
  cases hx : x.getLsbD i with
  | true =>
    rw [decide_eq_true_iff]
    intro h
    have := congrArg (fun y => y.getLsbD i) h
    simp only [BitVec.getLsbD_and, hx, BitVec.getLsbD_shiftLeft, BitVec.getLsbD_one] at this
    simp [hi] at this
  | false =>
    rw [decide_eq_false_iff_not, not_not]
    apply BitVec.eq_of_getLsbD_eq
    intro j hj
    rw [BitVec.getLsbD_and, BitVec.getLsbD_shiftLeft, BitVec.getLsbD_one]
    by_cases h : i = j
    · subst h; simp [hx]
    · by_cases h2 : j < i
      · simp [h2]
      · have : j - i ≠ 0 := by omega
        simp [this]

theorem Bloom.testBit_eq (f : Bloom) (loc : Nat) :
    f.testBit loc = some true ↔ f.bit loc := by
  simp only [Bloom.testBit, Bloom.bit, Option.map_eq_some_iff]
  constructor
  · rintro ⟨x, h1, h2⟩
    rw [byte_and_ne _ _ (Nat.mod_lt _ (by decide))] at h2
    exact ⟨x, h1, h2⟩
  · rintro ⟨x, h1, h2⟩
    refine ⟨x, h1, ?_⟩
    rw [byte_and_ne _ _ (Nat.mod_lt _ (by decide))]; exact h2

theorem Bloom.setBit_spec (f : Bloom) (loc : Nat) (h : loc / 8 < f.b.length) :
    ∃ g, f.setBit loc = some g ∧ g.mask = f.mask ∧ g.b.length = f.b.length ∧
      ∀ l, g.bit l ↔ (f.bit l ∨ l = loc) := by
  refine ⟨{ f with b := f.b.set (loc / 8) (f.b[loc / 8] ||| (1#8 <<< (loc % 8))) }, ?_, rfl, ?_, ?_⟩
  · simp [Bloom.setBit, List.getElem?_eq_getElem h]
  · simp
  · intro l
    simp only [Bloom.bit]
    rw [List.getElem?_set]
    by_cases hl : loc / 8 = l / 8
    · rw [if_pos hl, if_pos h]
      constructor
      · rintro ⟨x, hx, hb⟩
        obtain rfl := Option.some.inj hx
        rw [byte_or_get _ _ _ (Nat.mod_lt _ (by decide))] at hb
        rcases Bool.or_eq_true _ _ ▸ hb with hb | hb
        · left; exact ⟨f.b[loc / 8], by rw [← hl]; exact List.getElem?_eq_getElem h, hb⟩
        · right
          have := of_decide_eq_true hb
          omega
      · rintro (⟨x, hx, hb⟩ | rfl)
        · refine ⟨_, rfl, ?_⟩
          rw [byte_or_get _ _ _ (Nat.mod_lt _ (by decide))]
          rw [← hl, List.getElem?_eq_getElem h] at hx
          obtain rfl := Option.some.inj hx
          simp [hb]
        · refine ⟨_, rfl, ?_⟩
          rw [byte_or_get _ _ _ (Nat.mod_lt _ (by decide))]
          simp
    · rw [if_neg hl]
      constructor
      · exact Or.inl
      · rintro (h | rfl)
        · exact h
        · exact absurd rfl hl

theorem Bloom.location_lt {f : Bloom} (hf : f.Wf) (h : Nat) : f.location h / 8 < f.b.length := by
  obtain ⟨k, h3, _, hm, hl⟩ := hf
  have : f.location h < 2 ^ k := by
    rw [Bloom.location, hm, Nat.and_two_pow_sub_one_eq_mod]
    exact Nat.mod_lt _ (Nat.two_pow_pos k)
  omega

variable {δ : Type}

theorem Bloom.insert_spec (hs : List (δ → Nat)) (f : Bloom) (hf : f.Wf) (d : δ) :
    ∃ g, Bloom.insert hs f d = some g ∧ g.mask = f.mask ∧ g.b.length = f.b.length ∧
      (∀ l, f.bit l → g.bit l) ∧ ∀ h ∈ hs, g.bit (f.location (h d)) := by
  induction hs generalizing f with
  | nil => exact ⟨f, rfl, rfl, rfl, fun _ h => h, by simp⟩
  | cons h hs ih =>
    obtain ⟨g, hg, hgm, hgl, hgb⟩ := f.setBit_spec (f.location (h d)) (Bloom.location_lt hf _)
    have hgwf : g.Wf := by
      obtain ⟨k, a, b, c, e⟩ := hf
      exact ⟨k, a, b, by rw [hgm]; exact c, by rw [hgl]; exact e⟩
    obtain ⟨g', hg', hm', hl', hb', hh'⟩ := ih g hgwf
    refine ⟨g', ?_, by rw [hm', hgm], by rw [hl', hgl], fun l hl => hb' l ((hgb l).2 (Or.inl hl)), ?_⟩
    · simp only [Bloom.insert, List.foldlM_cons, hg]
      exact hg'
    · intro h2 hh2
      rcases List.mem_cons.1 hh2 with rfl | hh2
      · exact hb' _ ((hgb _).2 (Or.inr rfl))
      · have := hh' h2 hh2
        simpa [Bloom.location, hgm] using this

theorem Bloom.insertAll_spec (hs : List (δ → Nat)) (f : Bloom) (hf : f.Wf) (ds : List δ) :
    ∃ g, ds.foldlM (Bloom.insert hs) f = some g ∧ g.mask = f.mask ∧ g.b.length = f.b.length ∧
      (∀ l, f.bit l → g.bit l) ∧ ∀ d ∈ ds, ∀ h ∈ hs, g.bit (g.location (h d)) := by
  induction ds generalizing f with
  | nil => exact ⟨f, rfl, rfl, rfl, fun _ h => h, by simp⟩
  | cons d ds ih =>
    obtain ⟨g, hg, hgm, hgl, hgb, hgh⟩ := Bloom.insert_spec hs f hf d
    have hgwf : g.Wf := by
      obtain ⟨k, a, b, c, e⟩ := hf
      exact ⟨k, a, b, by rw [hgm]; exact c, by rw [hgl]; exact e⟩
    obtain ⟨g', hg', hm', hl', hb', hh'⟩ := ih g hgwf
    refine ⟨g', ?_, by rw [hm', hgm], by rw [hl', hgl], fun l hl => hb' l (hgb l hl), ?_⟩
    · simp only [List.foldlM_cons, hg]
      exact hg'
    · intro d2 hd2 h hh
      rcases List.mem_cons.1 hd2 with rfl | hd2
      · have := hb' _ (hgh h hh)
        simpa [Bloom.location, hgm, hm'] using this
      · exact hh' d2 hd2 h hh

theorem Bloom.maybeContains_of_bits (hs : List (δ → Nat)) (f : Bloom) (d : δ)
    (h : ∀ h ∈ hs, f.bit (f.location (h d))) : Bloom.maybeContains hs f d = some true := by
  induction hs with
  | nil => rfl
  | cons a hs ih =>
    have := (Bloom.testBit_eq f _).2 (h a (by simp))
    simp only [Bloom.maybeContains, this]
    exact ih fun x hx => h x (by simp [hx])

theorem pow2Loop_spec (fuel : Nat) (k num r : Nat) (h : pow2Loop fuel (2 ^ k) num = some r) :
    ∃ j, k ≤ j ∧ j < 62 ∧ r = 2 ^ j ∧ num ≤ r ∧ (k < j → 2 ^ (j - 1) < num) := by
  induction fuel generalizing k with
  | zero => cases h
  | succ fuel ih =>
    simp only [pow2Loop] at h
    split at h
    · rename_i hlt
      split at h
      · rename_i hge
        cases h
        exact ⟨k, Nat.le_refl k, (Nat.pow_lt_pow_iff_right (by decide)).1 hlt, rfl, hge, by omega⟩
      · rename_i hge
        rw [← Nat.pow_succ] at h
        obtain ⟨j, h1, h2, h3, h4, h5⟩ := ih (k + 1) h
        refine ⟨j, by omega, h2, h3, h4, fun _ => ?_⟩
        by_cases hj : j = k + 1
        · subst hj; simp only [Nat.add_sub_cancel]; omega
        · exact h5 (by omega)
    · cases h

theorem pow2Loop_pow (fuel k j : Nat) (hk : k ≤ j) (hj : j < 62) (hf : j - k < fuel) :
    pow2Loop fuel (2 ^ k) (2 ^ j) = some (2 ^ j) := by
  induction fuel generalizing k with
  | zero => omega
  | succ fuel ih =>
    have hlt : 2 ^ k < 2 ^ 62 := Nat.pow_lt_pow_right (by decide) (by omega)
    simp only [pow2Loop, if_pos hlt]
    by_cases h : k = j
    · subst h; simp
    · have : ¬ (2 ^ k ≥ 2 ^ j) := by
        have : 2 ^ k < 2 ^ j := Nat.pow_lt_pow_right (by decide) (by omega)
        omega
      rw [if_neg this, ← Nat.pow_succ]
      exact ih (k + 1) (by omega) (by omega)

theorem Bloom.new_wf {m : Nat} {f : Bloom} (h : Bloom.new m = some f) : f.Wf ∧ m ≤ f.b.length * 8 := by
  simp only [Bloom.new, Option.map_eq_some_iff] at h
  obtain ⟨r, hr, rfl⟩ := h
  obtain ⟨j, h1, h2, h3, h4, _⟩ := pow2Loop_spec 60 3 m r hr
  have h8 : r / 8 * 8 = r := by
    subst h3
    obtain ⟨t, rfl⟩ := Nat.exists_eq_add_of_le h1
    rw [Nat.pow_add]; omega
  refine ⟨⟨j, h1, h2, by rw [h3], by rw [List.length_replicate, h8, h3]⟩, ?_⟩
  rw [List.length_replicate, h8]; exact h4

theorem Bloom.reload_eq {f : Bloom} (hf : f.Wf) (h : 64 ≤ f.b.length * 8) :
    Bloom.withData f.b = some f := by
  obtain ⟨k, h1, h2, h3, h4⟩ := hf
  have hk : 6 ≤ k := by
    by_contra hc
    have : (2 : Nat) ^ k < 2 ^ 6 := Nat.pow_lt_pow_right (by decide) (by omega)
    omega
  have hlen : f.b.length = 2 ^ (k - 3) := by
    obtain ⟨t, rfl⟩ := Nat.exists_eq_add_of_le h1
    rw [Nat.pow_add] at h4
    simp only [Nat.add_sub_cancel_left]; omega
  have : pow2 f.b.length = some f.b.length := by
    rw [hlen]; exact pow2Loop_pow 60 3 (k - 3) (by omega) (by omega) (by omega)
  simp only [Bloom.withData, this, Option.map_some, Nat.sub_self, List.replicate_zero,
    List.append_nil, h4, ← h3]

/-- C41, general form: whatever the hash functions, a filter of any size that was built answers
"maybe" for every inserted element and never indexes out of bounds.  When it has at least 64 bits, the
reloaded filter equals the stored one, so it answers the same. -/
theorem C41_filter_never_hides (hs : List (δ → Nat)) (m : Nat) (f₀ : Bloom)
    (h : Bloom.new m = some f₀) (ds : List δ) :
    ∃ f, ds.foldlM (Bloom.insert hs) f₀ = some f ∧
      (∀ d ∈ ds, Bloom.maybeContains hs f d = some true) := by
  obtain ⟨hwf, hm⟩ := Bloom.new_wf h
  obtain ⟨g, hg, hgm, hgl, _, hh⟩ := Bloom.insertAll_spec hs f₀ hwf ds
  exact ⟨g, hg, fun d hd => Bloom.maybeContains_of_bits hs g d (hh d hd)⟩

/-- C41 after storing and reloading; holds for filters requested with more than 32 bits
(the code uses 1048576, tskv/src/tsm/mod.rs:17). -/
theorem C41_reloaded_filter_never_hides_partial (hs : List (δ → Nat)) (m : Nat) (f₀ : Bloom)
    (h : Bloom.new m = some f₀) (hm : 32 < m) (ds : List δ) :
    ∃ f, ds.foldlM (Bloom.insert hs) f₀ = some f ∧ Bloom.withData f.b = some f ∧
      (∀ d ∈ ds, Bloom.maybeContains hs f d = some true) := by
  obtain ⟨hwf, hmm⟩ := Bloom.new_wf h
  obtain ⟨g, hg, hgm, hgl, _, hh⟩ := Bloom.insertAll_spec hs f₀ hwf ds
  have hgwf : g.Wf := by
    obtain ⟨k, a, b, c, e⟩ := hwf
    exact ⟨k, a, b, by rw [hgm]; exact c, by rw [hgl]; exact e⟩
  refine ⟨g, hg, Bloom.reload_eq hgwf ?_, fun d hd => Bloom.maybeContains_of_bits hs g d (hh d hd)⟩
  rw [hgl]
  obtain ⟨k, a, b, c, e⟩ := hwf
  by_contra hc
  have h5 : 2 ^ 5 < 2 ^ k := by omega
  have : 5 < k := (Nat.pow_lt_pow_iff_right (by decide)).1 h5
  have : 2 ^ 6 ≤ 2 ^ k := Nat.pow_le_pow_right (by decide) (by omega)
  omega

/-- The requested size of the code meets the hypothesis. -/
example : ∃ f, Bloom.new 1048576 = some f ∧ 32 < 1048576 := by
  have : pow2 1048576 = some 1048576 := by decide
  exact ⟨_, by rw [Bloom.new, this]; rfl, by decide⟩

example : (Bloom.new 8).bind (fun f => Bloom.insert [fun (n : Nat) => 9 * n] f 1) =
    some ⟨[2#8], 7⟩ := by decide

/-- C41 is false after reloading for filters of at most 32 bits: the reloaded filter has a wider mask
and looks at another bit. -/
theorem C41_small_filter_refuted :
    ∃ (hs : List (Nat → Nat)) (f₀ f g : Bloom), Bloom.new 8 = some f₀ ∧
      Bloom.insert hs f₀ 1 = some f ∧ Bloom.withData f.b = some g ∧
      Bloom.maybeContains hs g 1 = some false :=
  ⟨[fun n => 9 * n], ⟨[0#8], 7⟩, ⟨[2#8], 7⟩, ⟨[2#8, 0#8, 0#8, 0#8, 0#8, 0#8, 0#8, 0#8], 63⟩,
    by decide, by decide, by decide, by decide⟩

end Verif.Utils
