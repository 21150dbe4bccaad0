import Verif.Home.Props
/-!
# Columns that a write adds, and owners that name no database
-/
namespace Verif.Home

/-- C202: after a write its table has the columns it had, in their places, and those of the write. -/
theorem C202_columns (old new : List Name) :
    old <+: addCols old new ∧ ∀ c, c ∈ addCols old new ↔ c ∈ old ∨ c ∈ new := by
  refine ⟨List.prefix_append _ _, ?_⟩
  intro c
  unfold addCols
  rw [List.mem_append, List.mem_filter]
  by_cases h : c ∈ old <;> simp [h]

/-- C202: no column is there twice. -/
theorem C202_columns_once (old new : List Name) (ho : old.Nodup) (hn : new.Nodup) : (addCols old new).Nodup := by
  unfold addCols
  rw [List.nodup_append]
  refine ⟨ho, hn.filter _, ?_⟩
  intro a ha b hb he
  subst he
  have := (List.mem_filter.1 hb).2
  simp [ha] at this

example : (addCols ["a".toList, "b".toList] ["b".toList, "c".toList]) = ["a".toList, "b".toList, "c".toList] := by decide +kernel

/-- C202: an owner without a dot names no tenant. -/
theorem C202_no_dot (o : Name) (h : '.' ∉ o) : splitOwner o = ([], []) := by
  unfold splitOwner
  cases hc : cut o with
  | none => rfl
  | some p =>
    obtain ⟨t, d⟩ := p
    have := (cut_no_dot hc).2
    exact absurd (by rw [this]; simp) h

end Verif.Home
