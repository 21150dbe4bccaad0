import Verif.Stream.Props
/-!
# A run reads only sources that have been offered a range, and only what is in it (C142)
-/
namespace Verif.Stream
variable {K V : Type} [DecidableEq K]

/-- Every row that a run reads is in the table, below the end of the range of its source and not below the begin of it. -/
theorem C142_range (q : Query K V) (s : St K V) (table : List (Row K V)) (r : Row K V) (h : r ∈ s.reads q table) :
    r ∈ table ∧ ∃ stop, (s.offerAll q).avail.get r.src = some stop ∧ r.time * q.unit r.src < stop ∧
      ∀ d, (s.offerAll q).done.get r.src = some d → d < r.time * q.unit r.src := by
  unfold St.reads at h
  rw [List.mem_filter] at h
  refine ⟨h.1, ?_⟩
  have hw := h.2
  unfold St.wants at hw
  cases ha : (s.offerAll q).avail.get r.src with
  | none => rw [ha] at hw; simp at hw
  | some stop =>
    rw [ha] at hw
    simp only [Bool.and_eq_true, decide_eq_true_eq] at hw
    refine ⟨stop, rfl, hw.1, fun d hd => ?_⟩
    have h2 := hw.2
    unfold St.start at h2
    rw [hd] at h2
    simp at h2
    omega

end Verif.Stream
