import Verif.Raft.Step
/-!
# Raft: acknowledged writes
-/
namespace Verif.Raft

/-- A restart of this replica removes nothing: it has applied its whole log, or nothing. -/
def Node.Calm (n : Node) : Prop := n.applied = 0 ∨ n.log.length ≤ n.applied

instance (n : Node) : Decidable n.Calm := by unfold Node.Calm; infer_instance

/-- No restart of the run removes entries. -/
def Calm (N : Nat) : State → List Act → Prop
  | _, [] => True
  | s, a :: l => (match a with | .restart j => (s.nodes j).Calm | _ => True) ∧ Calm N (s.next N a) l

theorem Node.Calm.restart {n : Node} (h : n.Calm) : n.restart = n := by
  unfold Node.restart
  split
  · rfl
  · rename_i h0
    rcases h with h | h
    · exact absurd h h0
    · rw [List.take_of_length_le h]

theorem setNode_self (s : State) (j : Nat) : s.setNode j (s.nodes j) = s := by
  unfold State.setNode
  congr
  funext k
  split
  · rename_i e; rw [e]
  · rfl

theorem Inv.next {N : Nat} {s : State} (h : Inv N s) (a : Act) (hc : match a with | .restart j => (s.nodes j).Calm | _ => True) :
    Inv N (s.next N a) := by
  cases a with
  | campaign i t => exact h.campaign i t
  | vote j t i => exact h.vote j t i
  | win i t q => exact h.win i t q
  | append t c => exact h.append t c
  | accept j t p n => exact h.accept j t p n
  | commit t n q => exact h.commitStep t n q
  | apply j t n => exact h.applyStep j t n
  | answer t k => exact h.answerStep t k
  | restart j =>
    simp only at hc
    simp only [State.next, hc.restart, setNode_self]
    exact h

theorem Inv.run {N : Nat} {s : State} (h : Inv N s) (l : List Act) (hc : Calm N s l) : Inv N (s.run N l) := by
  induction l generalizing s with
  | nil => exact h
  | cons a l ih =>
    obtain ⟨h1, h2⟩ := hc
    simp only [State.run, List.foldl_cons]
    exact ih (h.next a h1) h2

/-! ## What it means -/

/-- Two committed parts of logs of leaders: one is a part of the other. -/
theorem Inv.committed_agree {N : Nat} {s : State} (h : Inv N s) {c d : Nat × Nat} (hc : c ∈ s.committed) (hd : d ∈ s.committed)
    {k : Nat} (hk : k < c.2) (hk' : k < d.2) : (logOf s.leaders c.1)[k]? = (logOf s.leaders d.1)[k]? := by
  have key : ∀ {c d : Nat × Nat}, c ∈ s.committed → d ∈ s.committed → c.1 ≤ d.1 → k < c.2 →
      (logOf s.leaders c.1)[k]? = (logOf s.leaders d.1)[k]? := by
    intro c d hc hd hle hk
    obtain ⟨i, L, q, hL, _, _, hlt, _⟩ := h.commit c hc
    obtain ⟨i', L', q', hL', _, _, _, _⟩ := h.commit d hd
    have hnl : c.2 ≤ L.length := by
      cases hg : L[c.2 - 1]? with
      | none => rw [hg] at hlt; simp at hlt
      | some e =>
        have := (List.getElem?_eq_some_iff.1 hg).1
        omega
    obtain ⟨w, hw⟩ := h.complete hc d.1 hle i' L' hL'
    rw [logOf_eq hL'] at *
    rw [logOf_eq hL] at hw ⊢
    rw [← hw, List.getElem?_append_left (by rw [List.length_take]; omega), List.getElem?_take_of_lt hk]
  rcases Nat.le_total c.1 d.1 with hle | hle
  · exact key hc hd hle hk
  · exact (key hd hc hle hk').symm

theorem Inv.applied_get {N : Nat} {s : State} (h : Inv N s) {j k : Nat} (hk : k < (s.nodes j).applied) :
    ∃ c ∈ s.committed, k < c.2 ∧ ∃ e, (s.nodes j).log[k]? = some e ∧ (logOf s.leaders c.1)[k]? = some e := by
  obtain ⟨c, hc, h1, h2, w, hw⟩ := h.applied j (by omega)
  refine ⟨c, hc, by omega, ?_⟩
  obtain ⟨i, L, q, hL, _, _, hlt, _⟩ := h.commit c hc
  have hnl : c.2 ≤ L.length := by
    cases hg : L[c.2 - 1]? with
    | none => rw [hg] at hlt; simp at hlt
    | some e =>
      have := (List.getElem?_eq_some_iff.1 hg).1
      omega
  rw [logOf_eq hL] at hw ⊢
  have hkl : k < L.length := by omega
  refine ⟨L[k], ?_, List.getElem?_eq_getElem hkl⟩
  rw [← hw, List.getElem?_append_left (by rw [List.length_take]; omega), List.getElem?_take_of_lt hk, List.getElem?_eq_getElem hkl]

/-- **C117 (partial)**: however messages are delayed, lost, repeated and reordered, whichever replicas ask for votes, as long as a replica
is only restarted when it has applied its whole log (or nothing):
a write acknowledged to the client is in the log of every leader of a later term at the same place, every replica that has applied so
many entries has applied it there, and any two replicas have applied the same commands at the same places.

Missing for the full statement: restarts at other moments; for them it is false (`C117_refuted`).  The replication set is fixed and logs
are never cut by snapshots here. -/
theorem C117_partial (N : Nat) (l : List Act) (hc : Calm N .init l) :
    (∀ t k c, (t, k, c) ∈ (State.init.run N l).answered →
      (∀ u i M, t ≤ u → (State.init.run N l).leaders u = some (i, M) → (M[k]?).map Entry.cmd = some c) ∧
      (∀ j, k < ((State.init.run N l).nodes j).applied → (((State.init.run N l).nodes j).log[k]?).map Entry.cmd = some c)) ∧
    (∀ i j k, k < ((State.init.run N l).nodes i).applied → k < ((State.init.run N l).nodes j).applied →
      ∃ e, ((State.init.run N l).nodes i).log[k]? = some e ∧ ((State.init.run N l).nodes j).log[k]? = some e) := by
  have h := (Inv.init N).run l hc
  generalize State.init.run N l = s at *
  refine ⟨fun t k c hx => ?_, fun i j k hi hj => ?_⟩
  · obtain ⟨d, hd, e1, e2, e3⟩ := h.answered _ hx
    simp only at e1 e2 e3
    subst e1
    refine ⟨fun u i M hu hM => ?_, fun j hj => ?_⟩
    · obtain ⟨w, hw⟩ := h.complete hd u hu i M hM
      rw [← hw, List.getElem?_append_left, List.getElem?_take_of_lt e2]
      · exact e3
      · rw [List.length_take]
        cases hg : (logOf s.leaders d.1)[k]? with
        | none => rw [hg] at e3; simp at e3
        | some e =>
          have := (List.getElem?_eq_some_iff.1 hg).1
          omega
    · obtain ⟨c', hc', hk', e, he1, he2⟩ := h.applied_get hj
      rw [he1]
      rw [h.committed_agree hd hc' e2 hk', he2] at e3
      exact e3
  · obtain ⟨c, hc1, hk1, e, he1, he2⟩ := h.applied_get hi
    obtain ⟨c', hc', hk', e', he1', he2'⟩ := h.applied_get hj
    have := h.committed_agree hc1 hc' hk1 hk'
    rw [he2, he2'] at this
    cases this
    exact ⟨e, he1, he1'⟩

/-- Three replicas, a change of the leader, an entry that is thrown away, a restart. -/
def calmRun : List Act :=
  [.campaign 0 1, .vote 1 1 0, .win 0 1 [0, 1], .append 1 5, .accept 1 1 0 1, .commit 1 1 [0, 1], .apply 0 1 1, .answer 1 0,
   .append 1 7, .apply 1 1 1, .restart 1, .campaign 1 2, .vote 2 2 1, .win 1 2 [1, 2], .append 2 9, .accept 2 2 0 2, .commit 2 2 [1, 2],
   .apply 1 2 2, .answer 2 1, .accept 0 2 1 2, .apply 0 2 2, .restart 0]

example : Calm 3 .init calmRun ∧ (State.init.run 3 calmRun).answered = [(2, 1, 9), (1, 0, 5)] ∧
    ((State.init.run 3 calmRun).nodes 0).log.map Entry.cmd = [5, 9] ∧ ((State.init.run 3 calmRun).nodes 0).applied = 2 ∧
    ((State.init.run 3 calmRun).nodes 2).log.map Entry.cmd = [5, 9] := by
  refine ⟨?_, by decide +kernel, by decide +kernel, by decide +kernel, by decide +kernel⟩
  simp only [Calm, calmRun, and_true, true_and]
  exact ⟨by decide +kernel, by decide +kernel⟩

/-! ## What is false -/

/-- The leader has two entries, both are on a majority, the client gets the answer for the second one; the follower has applied only the
first one when its process is restarted, so the second one disappears from its log; with the third replica, that never had it, it elects
itself and another entry takes the place. -/
def lostRun : List Act :=
  [.campaign 0 1, .vote 1 1 0, .win 0 1 [0, 1], .append 1 5, .accept 1 1 0 1, .commit 1 1 [0, 1], .apply 0 1 1, .apply 1 1 1,
   .append 1 7, .accept 1 1 1 2, .commit 1 2 [0, 1], .apply 0 1 2, .answer 1 1, .restart 1,
   .campaign 1 2, .vote 2 2 1, .win 1 2 [1, 2], .append 2 9, .accept 2 2 0 2, .commit 2 2 [1, 2], .apply 1 2 2]

/-- **C117 (refuted)**: with one restart of one of three replicas a write whose success was reported to the client is not in the log of the
next leader, and two replicas have applied different commands at the same place. -/
theorem C117_refuted :
    (1, 1, 7) ∈ (State.init.run 3 lostRun).answered ∧
    ((State.init.run 3 lostRun).leaders 2).map (fun p => p.2.map Entry.cmd) = some [5, 9] ∧
    ((State.init.run 3 lostRun).nodes 0).applied = 2 ∧ ((State.init.run 3 lostRun).nodes 0).log.map Entry.cmd = [5, 7] ∧
    ((State.init.run 3 lostRun).nodes 1).applied = 2 ∧ ((State.init.run 3 lostRun).nodes 1).log.map Entry.cmd = [5, 9] := by
  decide +kernel

/-! ## One replica -/

/-- What holds of a single replica: it is the only leader, and what it has applied is committed. -/
structure Alone (s : State) : Prop where
  lead : ∀ t i L, s.leaders t = some (i, L) → i = 0
  vote : ∀ v ∈ s.votes, v.1 < 1 → v.2.2 = 0
  cand : ∀ c ∈ s.cands, c.2.1 = 0
  applied : (s.nodes 0).applied ≤ (s.nodes 0).log.length
  answered : ∀ x ∈ s.answered, x.2.1 < (s.nodes 0).applied ∧ ((s.nodes 0).log[x.2.1]?).map Entry.cmd = some x.2.2

theorem Alone.next {s : State} (h : Alone s) (a : Act) : Alone (s.next 1 a) := by
  cases a with
  | campaign i t =>
    simp only [State.next]
    split
    · rename_i hg
      have hi : i = 0 := by omega
      subst hi
      exact ⟨h.lead, fun v hv => by
          rcases List.mem_cons.1 hv with rfl | hv
          · intro _; rfl
          · exact h.vote v hv, fun c hc => by
          rcases List.mem_cons.1 hc with rfl | hc
          · rfl
          · exact h.cand c hc, by simp only [State.setNode, if_true]; exact h.applied, by
          simp only [State.setNode, if_true]; exact h.answered⟩
    · exact h
  | vote j t i =>
    simp only [State.next]
    split
    case h_2 => exact h
    rename_i t0 i0 log hf
    obtain ⟨hc0, rfl, rfl⟩ := find_cand hf
    split
    · rename_i hg
      have hj : j = 0 := by omega
      subst hj
      exact ⟨h.lead, fun v hv => by
          rcases List.mem_cons.1 hv with rfl | hv
          · intro _; exact h.cand _ hc0
          · exact h.vote v hv, h.cand, by simp only [State.setNode, if_true]; exact h.applied, by
          simp only [State.setNode, if_true]; exact h.answered⟩
    · exact h
  | win i t q =>
    simp only [State.next]
    split
    case h_2 => exact h
    rename_i t0 i0 log hf
    obtain ⟨hc0, rfl, rfl⟩ := find_cand hf
    split
    · exact ⟨fun u k L hu => by
        simp only at hu
        split at hu
        · simp only [Option.some.injEq, Prod.mk.injEq] at hu
          rw [← hu.1]; exact h.cand _ hc0
        · exact h.lead u k L hu, h.vote, h.cand, h.applied, h.answered⟩
    · exact h
  | append t c =>
    simp only [State.next]
    split
    case h_2 => exact h
    rename_i i L hL
    have hi := h.lead _ _ _ hL
    subst hi
    split
    · rename_i hg
      exact ⟨fun u k M hu => by
        simp only at hu
        split at hu
        · simp only [Option.some.injEq, Prod.mk.injEq] at hu
          exact hu.1.symm
        · exact h.lead u k M hu, h.vote, h.cand, by
          have := h.applied
          simp only [State.setNode, if_true, List.length_append, ← hg.2]; omega, fun x hx => by
          have h1 := h.answered x hx
          have h2 := h.applied
          simp only [State.setNode, if_true, ← hg.2]
          refine ⟨h1.1, ?_⟩
          rw [List.getElem?_append_left (by omega)]
          exact h1.2⟩
    · exact h
  | accept j t p n =>
    simp only [State.next]
    split
    case h_2 => exact h
    rename_i i L hL
    split
    · rename_i hg
      have := h.lead _ _ _ hL
      omega
    · exact h
  | commit t n q =>
    simp only [State.next]
    split
    case h_2 => exact h
    split
    · exact ⟨h.lead, h.vote, h.cand, h.applied, h.answered⟩
    · exact h
  | apply j t n =>
    simp only [State.next]
    split
    · rename_i hg
      obtain ⟨_, _, _, h1, h2⟩ := hg
      by_cases hj : j = 0
      · subst hj
        exact ⟨h.lead, h.vote, h.cand, by simp only [State.setNode, if_true]; exact h1, fun x hx => by
          have := h.answered x hx
          simp only [State.setNode, if_true]
          exact ⟨by omega, this.2⟩⟩
      · have e : (s.setNode j { s.nodes j with applied := n }).nodes 0 = s.nodes 0 := by
          simp only [State.setNode]; rw [if_neg (fun e => hj e.symm)]
        exact ⟨h.lead, h.vote, h.cand, by rw [e]; exact h.applied, by rw [e]; exact h.answered⟩
    · exact h
  | answer t k =>
    simp only [State.next]
    split
    case h_2 => exact h
    rename_i i L hL
    have hi := h.lead _ _ _ hL
    subst hi
    split
    case h_2 => exact h
    rename_i e he
    split
    · rename_i hg
      exact ⟨h.lead, h.vote, h.cand, h.applied, fun x hx => by
        rcases List.mem_cons.1 hx with rfl | hx
        · exact ⟨hg.2.2, by simp only; rw [he]; rfl⟩
        · exact h.answered x hx⟩
    · exact h
  | restart j =>
    simp only [State.next]
    by_cases hj : j = 0
    · subst hj
      have h1 := h.applied
      refine ⟨h.lead, h.vote, h.cand, ?_, fun x hx => ?_⟩
      · simp only [State.setNode, if_true, Node.restart]
        split
        · exact h1
        · simp only [List.length_take]; omega
      · have := h.answered x hx
        simp only [State.setNode, if_true, Node.restart]
        split
        · exact this
        · exact ⟨this.1, by rw [List.getElem?_take_of_lt this.1]; exact this.2⟩
    · have e : (s.setNode j (s.nodes j).restart).nodes 0 = s.nodes 0 := by
        simp only [State.setNode]; rw [if_neg (fun e => hj e.symm)]
      exact ⟨h.lead, h.vote, h.cand, by rw [e]; exact h.applied, by rw [e]; exact h.answered⟩

theorem Alone.run {s : State} (h : Alone s) (l : List Act) : Alone (s.run 1 l) := by
  induction l generalizing s with
  | nil => exact h
  | cons a l ih =>
    simp only [State.run, List.foldl_cons]
    exact ih (h.next a)

/-- **C117 (partial)**: with one replica, restarted at any time: a write acknowledged to the client stays in the log, at its place, and
stays applied. -/
theorem C117_single_partial (l : List Act) (t k c : Nat) (hx : (t, k, c) ∈ (State.init.run 1 l).answered) :
    k < ((State.init.run 1 l).nodes 0).applied ∧ (((State.init.run 1 l).nodes 0).log[k]?).map Entry.cmd = some c := by
  have h : Alone .init := ⟨by simp [State.init], by simp [State.init], by simp [State.init], by simp [State.init], by simp [State.init]⟩
  exact (h.run l).answered _ hx

example : (2, 1, 7) ∈ (State.init.run 1 [.campaign 0 1, .win 0 1 [0], .append 1 5, .commit 1 1 [0], .apply 0 1 1, .append 1 6, .restart 0,
    .campaign 0 2, .win 0 2 [0], .append 2 7, .commit 2 2 [0], .apply 0 2 2, .answer 2 1, .append 2 8, .restart 0]).answered := by
  decide +kernel

end Verif.Raft
