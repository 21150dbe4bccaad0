import Verif.Group.Witness
/-!
# PROMOTE takes no replica out of its group (C186)
-/
namespace Verif.Group

/-- The vnode votes or learns in the group. -/
def Kept (x : Nat) (s : State) : Prop := x ∈ s.voters ∨ x ∈ s.learners

theorem change_kept {x : Nat} {goal q : List Nat} {nx : Nat} {s t : State} (hx : Kept x s) (h : change goal true q nx s = some t) :
    Kept x t := by
  simp only [change] at h
  have key : ∀ (l : Nat), Kept x { sync s q with
      voters := goal, learners := (s.learners ++ if True then s.voters else []).filter fun v => decide (v ∉ goal), leader := l } := by
    intro l
    by_cases hg : x ∈ goal
    · exact Or.inl hg
    · refine Or.inr ?_
      simp only [if_true, List.mem_filter, List.mem_append, decide_eq_true_eq]
      exact ⟨hx.symm, hg⟩
  by_cases h1 : goal = []
  · rw [if_pos h1] at h; cases h
  · rw [if_neg h1] at h
    by_cases h2 : (goal.all fun v => decide (v ∈ s.voters ∨ v ∈ s.learners)) = false
    · rw [if_pos h2] at h; cases h
    · rw [if_neg h2] at h
      by_cases h3 : majority s q s.voters = false
      · rw [if_pos h3] at h; cases h
      · rw [if_neg h3] at h
        by_cases h4 : majority s q goal = false
        · rw [if_pos h4] at h; cases h
        · rw [if_neg h4] at h
          by_cases h5 : (if s.leader ∈ goal then s.leader else nx) ∈ goal
          · rw [if_pos h5] at h
            injection h with h
            subst h
            exact key _
          · rw [if_neg h5] at h; cases h

theorem newLeader_kept {view : State → Option Listing} {x v n : Nat} {s t : State} (hx : Kept x s)
    (h : newLeader view v s = some (t, n)) : Kept x t := by
  simp only [newLeader] at h
  split at h
  · cases h
  · split at h
    · cases h
    · injection h with h; injection h with h _; subst h; exact hx

theorem follow_kept {env : Env} {view : State → Option Listing} {n x : Nat} {s : State} (hx : Kept x s) :
    Kept x (follow env view n s).1 := by
  simp only [follow]
  cases view s with
  | none => exact hx
  | some l =>
    cases lead env n s with
    | error e => exact hx
    | ok me => exact step_inv (P := Kept x) hx (fun t ht => change_kept hx ht) (fun t ht => change_kept hx ht)

theorem promote_kept {env : Env} {env2 : Nat → Env} {up : Nat → Bool} {view : State → Option Listing} {n v x : Nat} {s : State}
    (hx : Kept x s) : Kept x (promote env env2 up view n v s).1 := by
  simp only [promote]
  cases view s with
  | none => exact hx
  | some l =>
    dsimp only
    split
    · exact hx
    · split
      · exact hx
      · cases lead env n s with
        | error e => exact hx
        | ok me =>
          exact step_inv (P := Kept x) hx (fun t ht => change_kept hx ht) fun t ht =>
            exec_inv (P := Kept x) (reach_inv fun k m t ht => follow_kept ht) (fun v s t n hs ht => newLeader_kept hs ht)
              (change_kept hx ht)

/-- **C186**: a PROMOTE takes no replica out of the group, whatever the nodes remember of the listing, whichever steps fail or lose their
answer, and whether it succeeds: a vnode that votes or learns before votes or learns after it. -/
theorem C186_promote_keeps (r : Run) (env : Nat → Env) (v x : Nat) (s : State) (hx : x ∈ s.voters ∨ x ∈ s.learners) :
    x ∈ (promoteCmd r env v s).1.voters ∨ x ∈ (promoteCmd r env v s).1.learners := by
  show Kept x _
  simp only [promoteCmd]
  cases r.view s with
  | none => exact hx
  | some l =>
    exact exec_inv (P := Kept x) (reach_inv fun k m t ht => promote_kept ht) (fun v s t n hs ht => newLeader_kept hs ht) hx

/-- It holds of a group of three voters. -/
example : (3 ∈ Witness.start.voters ∨ 3 ∈ Witness.start.learners) := by decide +kernel

end Verif.Group
