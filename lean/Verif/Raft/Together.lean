import Verif.Raft.Props
import Verif.Replica.Props
/-!
# The raft group and the vnodes together
-/
namespace Verif.Raft

/-- Commands that a replica has applied; `f` reads the requests. -/
def Node.cmds (f : Nat → Replica.Cmd) (n : Node) : List Replica.Cmd := (n.log.take n.applied).map fun e => f e.cmd

theorem Inv.applied_le {N : Nat} {s : State} (h : Inv N s) (j : Nat) : (s.nodes j).applied ≤ (s.nodes j).log.length := by
  by_cases h0 : (s.nodes j).applied = 0
  · omega
  · obtain ⟨c, hc, e, h1, h2⟩ := h.applied_get (j := j) (k := (s.nodes j).applied - 1) (by omega)
    have := (List.getElem?_eq_some_iff.1 h2.1).1
    omega

/-- **C117 (partial)**: two replicas of a set that have applied equally many entries show the same to queries, however messages came and
whenever each of them flushed its caches and was restarted — with the restrictions of `C117_partial` on restarts and of `C114_partial` on
what the vnodes do. -/
theorem C117_queries_partial (N : Nat) (l : List Act) (hc : Calm N .init l) (f : Nat → Replica.Cmd) (i j : Nat)
    (he : ((State.init.run N l).nodes i).applied = ((State.init.run N l).nodes j).applied)
    (li lj : List Replica.Step) (hi : Replica.CalmRun .init li) (hj : Replica.CalmRun .init lj)
    (ci : Replica.cmdsOf li = ((State.init.run N l).nodes i).cmds f) (cj : Replica.cmdsOf lj = ((State.init.run N l).nodes j).cmds f)
    (k : Nat) (ts : Int) (x : Nat) : (Replica.Sys.init.run li).v.Shows k ts x ↔ (Replica.Sys.init.run lj).v.Shows k ts x := by
  rw [Replica.C114_partial li hi, Replica.C114_partial lj hj, ci, cj]
  have hp := (C117_partial N l hc).2
  have hinv := (Inv.init N).run l hc
  have : ((State.init.run N l).nodes i).log.take ((State.init.run N l).nodes i).applied =
      ((State.init.run N l).nodes j).log.take ((State.init.run N l).nodes j).applied := by
    apply List.ext_getElem?
    intro n
    by_cases hn : n < ((State.init.run N l).nodes i).applied
    · rw [List.getElem?_take_of_lt hn, List.getElem?_take_of_lt (by omega)]
      obtain ⟨e, h1, h2⟩ := hp i j n hn (by omega)
      rw [h1, h2]
    · rw [List.getElem?_eq_none (by rw [List.length_take]; omega), List.getElem?_eq_none (by rw [List.length_take]; omega)]
  simp only [Node.cmds, this]

/-- Replicas 0 and 1 after `calmRun`: one flushed its cache in between, the other was restarted. -/
example :
    let f : Nat → Replica.Cmd := fun n => .write [(n, 10, n)]
    let li : List Replica.Step := [.apply (f 5), .switch, .begin, .install, .apply (f 9)]
    let lj : List Replica.Step := [.apply (f 5), .crash, .apply (f 9)]
    ((State.init.run 3 calmRun).nodes 0).applied = ((State.init.run 3 calmRun).nodes 1).applied ∧
    Replica.CalmRun .init li ∧ Replica.CalmRun .init lj ∧
    Replica.cmdsOf li = ((State.init.run 3 calmRun).nodes 0).cmds f ∧ Replica.cmdsOf lj = ((State.init.run 3 calmRun).nodes 1).cmds f ∧
    (Replica.Sys.init.run li).v.Shows 9 10 9 := by
  intro f li lj
  refine ⟨by decide +kernel, ⟨trivial, trivial, trivial, trivial, trivial, trivial⟩, ⟨trivial, ⟨?_, fun k => rfl⟩, trivial, trivial⟩, ?_, ?_,
    by decide +kernel⟩
  · intro c hc
    have : c ∈ [f 5] := hc
    rw [List.mem_singleton] at this
    subst this
    rfl
  · have : ((State.init.run 3 calmRun).nodes 0).log.take ((State.init.run 3 calmRun).nodes 0).applied = [⟨1, 5⟩, ⟨2, 9⟩] := by decide +kernel
    simp only [Node.cmds, this]
    rfl
  · have : ((State.init.run 3 calmRun).nodes 1).log.take ((State.init.run 3 calmRun).nodes 1).applied = [⟨1, 5⟩, ⟨2, 9⟩] := by decide +kernel
    simp only [Node.cmds, this]
    rfl

end Verif.Raft
