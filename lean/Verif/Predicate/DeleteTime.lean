import Verif.Time.Model
import Verif.Utils.Props
/-!
# C56, time part: the nanosecond bounds of a DELETE in a coarser database

`query_server/query/src/execution/dml/delete_from_table.rs`.  Time literals are nanoseconds; the bounds
of each range are converted to the precision of the database before rows are removed.
-/
namespace Verif.Predicate.DeleteTime

open Verif.Time Verif.Utils

/-- The conversion loop (delete_from_table.rs:60-78); `none` is the error "Invalid timestamp". -/
def convertRange (p : Precision) (r : TimeRange) : Option TimeRange :=
  match timestampConvert .ns p r.minTs, timestampConvert .ns p r.maxTs with
  | some a, some b => some ⟨a, b⟩
  | _, _ => none

/-- Nanoseconds in a unit of the precision. -/
def unitNs : Precision → Int
  | .ns => 1
  | .us => 1000
  | .ms => 1000000

/-- C56, time: the conversion never fails and every row whose time, in nanoseconds, is between the bounds
is removed. -/
theorem C56_delete_time_complete (p : Precision) (r : TimeRange) :
    ∃ r', convertRange p r = some r' ∧
      ∀ ts : Int, r.minTs ≤ ts * unitNs p → ts * unitNs p ≤ r.maxTs → r'.contains ts = true := by
  have key : ∀ (u ts lo hi : Int), 0 < u → lo ≤ ts * u → ts * u ≤ hi →
      lo.tdiv u ≤ ts ∧ ts ≤ hi.tdiv u := by
    intro u ts lo hi hu h1 h2
    have a := Int.tdiv_le_tdiv hu h1
    have b := Int.tdiv_le_tdiv hu h2
    rw [Int.mul_tdiv_cancel _ (by omega)] at a b
    exact ⟨a, b⟩
  cases p with
  | ns =>
    refine ⟨r, rfl, fun ts h1 h2 => ?_⟩
    simp only [TimeRange.contains, unitNs, Bool.and_eq_true, decide_eq_true_eq] at *
    omega
  | us =>
    refine ⟨_, rfl, fun ts h1 h2 => ?_⟩
    have := key 1000 ts _ _ (by decide) h1 h2
    simp only [TimeRange.contains, Bool.and_eq_true, decide_eq_true_eq]
    exact this
  | ms =>
    refine ⟨_, rfl, fun ts h1 h2 => ?_⟩
    have := key 1000000 ts _ _ (by decide) h1 h2
    simp only [TimeRange.contains, Bool.and_eq_true, decide_eq_true_eq]
    exact this

/-- C56, time: exact when the lower bound is at most zero or a multiple of the unit, and the upper bound is
at least zero or a multiple of the unit.  Missing: the other bounds, where rows outside are removed too. -/
theorem C56_delete_time_exact_partial (p : Precision) (r : TimeRange)
    (hlo : r.minTs ≤ 0 ∨ unitNs p ∣ r.minTs) (hhi : 0 ≤ r.maxTs ∨ unitNs p ∣ r.maxTs) :
    ∃ r', convertRange p r = some r' ∧
      ∀ ts : Int, r'.contains ts = true ↔ r.minTs ≤ ts * unitNs p ∧ ts * unitNs p ≤ r.maxTs := by
  obtain ⟨r', h1, h2⟩ := C56_delete_time_complete p r
  refine ⟨r', h1, fun ts => ⟨fun h => ?_, fun h => h2 ts h.1 h.2⟩⟩
  have low : ∀ (u : Int), 0 < u → (r.minTs ≤ 0 ∨ u ∣ r.minTs) → r.minTs.tdiv u ≤ ts → r.minTs ≤ ts * u := by
    intro u hu hd hle
    have hm : r.minTs ≤ r.minTs.tdiv u * u := by
      have e := Int.mul_tdiv_add_tmod r.minTs u
      rw [Int.mul_comm] at e
      rcases hd with hd | hd
      · have : r.minTs.tmod u ≤ 0 := by
          have h3 := Int.tmod_nonneg (a := -r.minTs) u (by omega)
          rw [Int.neg_tmod] at h3; omega
        omega
      · rw [Int.tmod_eq_zero_of_dvd hd] at e; omega
    exact Int.le_trans hm (Int.mul_le_mul_of_nonneg_right hle (by omega))
  have high : ∀ (u : Int), 0 < u → (0 ≤ r.maxTs ∨ u ∣ r.maxTs) → ts ≤ r.maxTs.tdiv u → ts * u ≤ r.maxTs := by
    intro u hu hd hle
    have hm : r.maxTs.tdiv u * u ≤ r.maxTs := by
      have e := Int.mul_tdiv_add_tmod r.maxTs u
      rw [Int.mul_comm] at e
      rcases hd with hd | hd
      · have := Int.tmod_nonneg (a := r.maxTs) u hd; omega
      · rw [Int.tmod_eq_zero_of_dvd hd] at e; omega
    exact Int.le_trans (Int.mul_le_mul_of_nonneg_right hle (by omega)) hm
  cases p with
  | ns =>
    cases h1
    simp only [TimeRange.contains, unitNs, Bool.and_eq_true, decide_eq_true_eq] at *
    omega
  | us =>
    cases h1
    simp only [TimeRange.contains, Bool.and_eq_true, decide_eq_true_eq] at h
    exact ⟨low _ (by decide) hlo h.1, high _ (by decide) hhi h.2⟩
  | ms =>
    cases h1
    simp only [TimeRange.contains, Bool.and_eq_true, decide_eq_true_eq] at h
    exact ⟨low _ (by decide) hlo h.1, high _ (by decide) hhi h.2⟩

example : convertRange .ms (TimeRange.ofBounds (.included 5000000) .unbounded) = some ⟨5, 9223372036854⟩ := by
  decide

/-- C56 is false for strict lower bounds in a millisecond database: `DELETE … WHERE time > 5 ms` also
removes the row at 5 ms. -/
theorem C56_delete_strict_bound_refuted :
    ∃ (r' : TimeRange) (ts : Int),
      convertRange .ms (TimeRange.ofBounds (.excluded 5000000) .unbounded) = some r' ∧
      r'.contains ts = true ∧ ¬ 5000000 < ts * unitNs .ms :=
  ⟨⟨5, 9223372036854⟩, 5, by decide, by decide, by decide⟩

end Verif.Predicate.DeleteTime
