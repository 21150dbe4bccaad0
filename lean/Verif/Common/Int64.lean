/-!
# 64-bit signed integers as integers with explicit wrapping
-/
namespace Verif

/-- `i64::MIN`. -/
abbrev i64Min : Int := -9223372036854775808
/-- `i64::MAX`. -/
abbrev i64Max : Int := 9223372036854775807

/-- `x` is the value of an `i64`. -/
def IsI64 (x : Int) : Prop := -9223372036854775808 ≤ x ∧ x ≤ 9223372036854775807

/-- Two's complement wrapping of release-mode `i64` arithmetic. -/
def wrap64 (x : Int) : Int :=
  (x + 9223372036854775808) % 18446744073709551616 - 9223372036854775808

/-- `i64::checked_add(1).unwrap_or(self)`. -/
def satSucc (x : Int) : Int := if x = i64Max then x else x + 1
/-- `i64::checked_sub(1).unwrap_or(self)`. -/
def satPred (x : Int) : Int := if x = i64Min then x else x - 1

theorem wrap64_of_isI64 {x : Int} (h : IsI64 x) : wrap64 x = x := by
  unfold IsI64 at h; unfold wrap64; omega

theorem wrap64_isI64 (x : Int) : IsI64 (wrap64 x) := by
  unfold IsI64 wrap64; omega

end Verif
