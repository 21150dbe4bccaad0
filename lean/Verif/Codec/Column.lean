import Mathlib.Data.List.Induction
/-!
# Specification: what a column with NULLs is

A column is a list of optional values, one per row.  A page stores the validity mask and, separately,
the compressed list of the non-NULL values.
-/
namespace Verif.Codec

variable {α : Type}

/-- The non-NULL values, in row order: what is given to the compressor. -/
def values (rows : List (Option α)) : List α := rows.filterMap id

/-- Which rows are non-NULL: what is stored beside the compressed values. -/
def validity (rows : List (Option α)) : List Bool := rows.map Option.isSome

/-- Put values back to the valid rows of a mask.  When values run out nothing is appended
(the shape of the `if let Some(v) = iter.next()` loops of the decoders). -/
def place : List Bool → List α → List (Option α)
  | [], _ => []
  | false :: m, vs => none :: place m vs
  | true :: m, v :: vs => some v :: place m vs
  | true :: m, [] => place m []

theorem place_validity_values (rows : List (Option α)) :
    place (validity rows) (values rows) = rows := by
  induction rows with
  | nil => rfl
  | cons r rows ih =>
    cases r with
    | none => simpa [validity, values, place] using ih
    | some v => simpa [validity, values, place] using ih

theorem count_validity (rows : List (Option α)) :
    (validity rows).count true = (values rows).length := by
  induction rows with
  | nil => rfl
  | cons r rows ih =>
    cases r with
    | none => simpa [validity, values] using ih
    | some v => simpa [validity, values] using ih

theorem place_replicate_false (n : Nat) (vs : List α) :
    place (List.replicate n false) vs = List.replicate n none := by
  induction n with
  | zero => rfl
  | succ n ih => simp [List.replicate_succ, place, ih]

theorem place_no_true {m : List Bool} (h : m.count true = 0) (vs : List α) :
    place m vs = List.replicate m.length none := by
  induction m with
  | nil => rfl
  | cons b m ih =>
    cases b with
    | false => simp at h; simp [place, List.replicate_succ]; exact ih (by simpa using h)
    | true => simp at h

end Verif.Codec
