import Verif.Repair.Fill
/-!
# Integer columns in repair functions

The repair functions take columns of any numeric type and give a column of the same type back.  Everything is computed with
doubles.
-/
namespace Verif.Repair

theorem f64OfNat_small {n : Nat} (h : n ≤ 2 ^ 53) : f64OfNat n = n := by
  by_cases h1 : n < 2 ^ 53
  · unfold f64OfNat; rw [if_pos h1]
  · have : n = 2 ^ 53 := by omega
    subst this
    decide +kernel

theorem f64OfInt_small {x : Int} (h : x.natAbs ≤ 2 ^ 53) : f64OfInt x = x := by
  unfold f64OfInt
  rw [f64OfNat_small h]
  split <;> omega

theorem toI64_int {x : Int} (h1 : -(2 : Int) ^ 63 ≤ x) (h2 : x < (2 : Int) ^ 63) : toI64 (.num (x : Rat)) = some x := by
  unfold toI64
  simp only [Rat.num_intCast, Rat.den_intCast]
  congr 1
  simp only [Int.ofNat_one, Int.tdiv_one]
  omega

theorem fillInts_ok {m : FillMethod} {l out : List (Option Int)} (h : fillInts m l = .ok out) :
    ∃ cs, fill m (l.map fun x => x.map fun v => (f64OfInt v : Rat)) = .ok cs ∧ out = cs.map toI64 := by
  unfold fillInts readNum at h
  simp only [List.map_map] at h
  have e : l.map (numVal ∘ fun x : Option Int => x.map Num.int) = l.map fun x => x.map fun v => (f64OfInt v : Rat) := by
    apply List.map_congr_left
    intro x _
    cases x <;> rfl
  rw [e] at h
  cases hf : fill m (l.map fun x => x.map fun v => (f64OfInt v : Rat)) with
  | error er => rw [hf] at h; simp [Except.map] at h
  | ok cs =>
    rw [hf] at h
    simp only [Except.map, Except.ok.injEq] at h
    exact ⟨cs, rfl, h.symm⟩

/-- **C160 (partial: small integers)**: filling keeps the rows, and every known integer up to 2^53. -/
theorem C160_kept_partial (m : FillMethod) (l out : List (Option Int)) (h : fillInts m l = .ok out) :
    out.length = l.length ∧ ∀ (i : Nat) (v : Int), l[i]? = some (some v) → v.natAbs ≤ 2 ^ 53 → out[i]? = some (some v) := by
  obtain ⟨cs, hf, rfl⟩ := fillInts_ok h
  obtain ⟨h1, h2⟩ := C156_kept _ _ _ hf
  refine ⟨by simpa using h1, fun i v hi hv => ?_⟩
  have h3 : (l.map fun x => x.map fun v => (f64OfInt v : Rat))[i]? = some (some (v : Rat)) := by
    simp [hi, f64OfInt_small hv]
  rw [List.getElem?_map, h2 i _ h3]
  simp only [Option.map_some]
  rw [toI64_int (by omega) (by omega)]

example : fillInts .linear [some 1, none, some 4, some 7] = .ok [some 1, some 2, some 4, some 7] := by with_unfolding_all rfl

/-- What is to hold: every known integer stays as it is. -/
def C160Full : Prop := ∀ (m : FillMethod) (l out : List (Option Int)), fillInts m l = .ok out →
  ∀ (i : Nat) (v : Int), l[i]? = some (some v) → -(2 : Int) ^ 63 ≤ v → v < (2 : Int) ^ 63 → out[i]? = some (some v)

/-- **C160 is false**: a known integer next above 2^53 comes back as another one. -/
theorem C160_big_refuted : fillInts .previous [some 9007199254740993, none] = .ok [some 9007199254740992, some 9007199254740992] := by
  with_unfolding_all rfl

theorem C160_refuted : ¬ C160Full := by
  intro h
  have h1 := h _ _ _ C160_big_refuted 0 9007199254740993 rfl (by omega) (by omega)
  simp at h1

/-- **C160 is false**: an unsigned column is always refused, with a message that says an unsigned column was expected. -/
theorem C160_unsigned_refuted (l : List (Option Num)) : readNum .uint l = .error .error := rfl

/-- A row for which there is no number becomes 0 in an integer column, while it is NaN in a column of doubles. -/
theorem C160_nan_refuted (l : List Val) : fill .previous (none :: some 1 :: l) = .ok (.nan :: .num 1 :: fillPrevious (some 1) l) ∧
    ∀ r : List (Option Int), ∃ out, fillInts .previous (none :: some 1 :: r) = .ok (some 0 :: some 1 :: out) := by
  constructor
  · simp [fill, known, fillPrevious, Cell.ofVal]
  · intro r
    refine ⟨writeInt (fillPrevious (some 1) (r.map fun x => x.map fun v => (f64OfInt v : Rat))), ?_⟩
    have e : r.map (numVal ∘ fun x : Option Int => x.map Num.int) = r.map fun x => x.map fun v => (f64OfInt v : Rat) := by
      apply List.map_congr_left
      intro x _
      cases x <;> rfl
    have e1 : ((f64OfInt 1 : Int) : Rat) = 1 := by decide +kernel
    have e3 : numVal (some (.int 1)) = some 1 := by rw [numVal, e1]
    have e4 : numVal none = none := rfl
    have e2 : toI64 (.num 1) = some 1 := by decide +kernel
    have e5 : fill .previous (none :: some 1 :: r.map fun x => x.map fun v => (f64OfInt v : Rat)) =
        .ok (.nan :: .num 1 :: fillPrevious (some 1) (r.map fun x => x.map fun v => (f64OfInt v : Rat))) := by
      simp [fill, known, fillPrevious, Cell.ofVal]
    simp only [fillInts, readNum, List.map_cons, List.map_map, e, Option.map_none, Option.map_some, e3, e4, e5, Except.map, writeInt, e2]
    rfl

end Verif.Repair
