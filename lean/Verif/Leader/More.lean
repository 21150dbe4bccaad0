import Verif.Leader.Find
/-!
# The members that a client keeps
-/
namespace Verif.Leader

/-- C176: after a change of members the client has just these, in order, so that it goes round all of them. -/
theorem C176_members (c : Client) (addrs : List Addr) :
    (c.setMembers addrs).addrs.Perm addrs ∧ (c.setMembers addrs).addrs.Pairwise (· ≤ ·) ∧ (c.setMembers addrs).leader = c.leader := by
  refine ⟨Sort.sortBy_perm _ _, ?_, rfl⟩
  have := Sort.sortBy_sorted (le := fun a b : Addr => decide (a ≤ b)) (by intro a b d; simp only [decide_eq_true_eq]; exact Nat.le_trans) (by intro a b; simp only [decide_eq_true_eq]; exact Nat.le_total a b) addrs
  exact this.imp fun h => by simpa using h

example : ((⟨[1, 2], 2⟩ : Client).setMembers [7, 2, 5]).addrs = [2, 5, 7] := by decide +kernel

end Verif.Leader
