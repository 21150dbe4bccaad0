import Verif.Raft.Inv
/-!
# Raft: the invariant is kept by every step
-/
namespace Verif.Raft

theorem Ext.refl (ld : Leaders) : Ext ld ld := fun _ _ L h => ⟨[], by rw [List.append_nil]; exact h, by simp⟩

theorem Inv.init (N : Nat) : Inv N .init where
  nodeTerms := by simp [State.init]
  nodeValid := by intro j k e; simp [State.init]
  candValid := by simp [State.init]
  candTerms := by simp [State.init]
  candTerm := by simp [State.init]
  candUniq := by simp [State.init]
  voteTerm := by simp [State.init]
  voteCand := by simp [State.init]
  voteUniq := by simp [State.init]
  leadTerms := by simp [State.init]
  leadValid := by simp [State.init]
  leadVotes := by simp [State.init]
  leadCand := by simp [State.init]
  ackLead := by simp [State.init]
  ackTerm := by simp [State.init]
  ackLog := by simp [State.init]
  ackVote := by simp [State.init]
  commit := by simp [State.init]
  applied := by simp [State.init]
  answered := by simp [State.init]

/-- A replica gets a later term. -/
theorem Inv.node {N : Nat} {s : State} (h : Inv N s) (j : Nat) (n : Node) (ht : (s.nodes j).term ≤ n.term) (hl : n.log = (s.nodes j).log)
    (ha : n.applied = (s.nodes j).applied) : Inv N (s.setNode j n) := by
  have hterm : ∀ k, (s.nodes k).term ≤ ((s.setNode j n).nodes k).term := by
    intro k
    simp only [State.setNode]
    split
    · rename_i e; rw [e]; exact ht
    · exact Nat.le_refl _
  have hlog : ∀ k, ((s.setNode j n).nodes k).log = (s.nodes k).log := by
    intro k
    simp only [State.setNode]
    split
    · rename_i e; rw [e]; exact hl
    · rfl
  have happ : ∀ k, ((s.setNode j n).nodes k).applied = (s.nodes k).applied := by
    intro k
    simp only [State.setNode]
    split
    · rename_i e; rw [e]; exact ha
    · rfl
  exact {
    nodeTerms := fun k e he => by
      rw [hlog] at he
      exact Nat.le_trans (h.nodeTerms k e he) (hterm k)
    nodeValid := fun k => by rw [hlog]; exact h.nodeValid k
    candValid := h.candValid
    candTerms := h.candTerms
    candTerm := fun c hc => Nat.le_trans (h.candTerm c hc) (hterm _)
    candUniq := h.candUniq
    voteTerm := fun v hv => Nat.le_trans (h.voteTerm v hv) (hterm _)
    voteCand := h.voteCand
    voteUniq := h.voteUniq
    leadTerms := h.leadTerms
    leadValid := h.leadValid
    leadVotes := h.leadVotes
    leadCand := h.leadCand
    ackLead := h.ackLead
    ackTerm := fun a h1 => Nat.le_trans (h.ackTerm a h1) (hterm _)
    ackLog := fun a h1 n hn => by
      rw [hlog]
      rcases h.ackLog a h1 n hn with ⟨u, hu1, hu2, hu3⟩ | hp
      · exact .inl ⟨u, hu1, Nat.le_trans hu2 (hterm _), hu3⟩
      · exact .inr hp
    ackVote := h.ackVote
    commit := h.commit
    applied := fun k hk => by
      rw [happ] at hk
      obtain ⟨c, h1, h2, h3, h4⟩ := h.applied k hk
      refine ⟨c, h1, ?_, Nat.le_trans h3 (hterm k), ?_⟩
      · rw [happ]; exact h2
      · rw [happ, hlog]; exact h4
    answered := h.answered }

theorem UpToDate.refl (l : List Entry) : UpToDate l l := .inr ⟨rfl, Nat.le_refl _⟩

theorem Inv.campaign {N : Nat} {s : State} (h : Inv N s) (i t : Nat) : Inv N (s.next N (.campaign i t)) := by
  simp only [State.next]
  split
  case isFalse => exact h
  rename_i hg
  obtain ⟨hi, ht⟩ := hg
  have h' := h.node i { s.nodes i with term := t, vote := some i } (Nat.le_of_lt ht) rfl rfl
  have hnew : ∀ l, (t, i, l) ∉ s.cands := fun l hl => by
    have := h.candTerm _ hl
    simp only at this
    omega
  have hti : ∀ c ∈ (t, i, (s.nodes i).log) :: s.cands, c.1 = t → c.2.1 = i → c = (t, i, (s.nodes i).log) := by
    intro c hc h1 h2
    obtain ⟨c1, c2, c3⟩ := c
    simp only at h1 h2
    rw [h1, h2] at hc ⊢
    rcases List.mem_cons.1 hc with hc | hc
    · exact hc
    · exact absurd hc (hnew _)
  have hself : ((s.setNode i { s.nodes i with term := t, vote := some i }).nodes i).term = t := by simp [State.setNode]
  have hvt : ∀ v ∈ s.votes, v.1 = i → v.2.1 < t := fun v hv e => by
    have := h.voteTerm v hv
    rw [e] at this
    omega
  have hvn : ∀ v ∈ s.votes, ¬ (v.2.1 = t ∧ v.2.2 = i) := fun v hv e => by
    obtain ⟨l, hl⟩ := h.voteCand v hv
    rw [e.1, e.2] at hl
    exact hnew l hl
  exact {
    nodeTerms := h'.nodeTerms
    nodeValid := h'.nodeValid
    candValid := fun c hc => by
      rcases List.mem_cons.1 hc with rfl | hc
      · exact h.nodeValid i
      · exact h.candValid c hc
    candTerms := fun c hc e he => by
      rcases List.mem_cons.1 hc with rfl | hc
      · have := h.nodeTerms i e he
        simp only
        omega
      · exact h.candTerms c hc e he
    candTerm := fun c hc => by
      rcases List.mem_cons.1 hc with rfl | hc
      · simp [State.setNode]
      · exact h'.candTerm c hc
    candUniq := fun c hc c' hc' h1 h2 => by
      by_cases hn : c.1 = t ∧ c.2.1 = i
      · rw [hti c hc hn.1 hn.2, hti c' hc' (by rw [← h1]; exact hn.1) (by rw [← h2]; exact hn.2)]
      · rcases List.mem_cons.1 hc with rfl | hc
        · exact absurd ⟨rfl, rfl⟩ hn
        · rcases List.mem_cons.1 hc' with rfl | hc'
          · exact absurd ⟨h1, h2⟩ hn
          · exact h.candUniq c hc c' hc' h1 h2
    voteTerm := fun v hv => by
      rcases List.mem_cons.1 hv with rfl | hv
      · simp [State.setNode]
      · exact h'.voteTerm v hv
    voteCand := fun v hv => by
      rcases List.mem_cons.1 hv with rfl | hv
      · exact ⟨_, List.mem_cons_self⟩
      · obtain ⟨l, hl⟩ := h.voteCand v hv
        exact ⟨l, List.mem_cons_of_mem _ hl⟩
    voteUniq := fun v hv v' hv' h1 h2 => by
      rcases List.mem_cons.1 hv with rfl | hv
      · rcases List.mem_cons.1 hv' with rfl | hv'
        · rfl
        · have := hvt v' hv' h1.symm
          simp only at h2
          omega
      · rcases List.mem_cons.1 hv' with rfl | hv'
        · have := hvt v hv h1
          simp only at h2
          omega
        · exact h.voteUniq v hv v' hv' h1 h2
    leadTerms := h.leadTerms
    leadValid := h.leadValid
    leadVotes := fun u k L hL => by
      obtain ⟨q, hq, hv⟩ := h.leadVotes u k L hL
      exact ⟨q, hq, fun j hj => List.mem_cons_of_mem _ (hv j hj)⟩
    leadCand := fun u k L hL => by
      obtain ⟨l, hl, hp⟩ := h.leadCand u k L hL
      exact ⟨l, List.mem_cons_of_mem _ hl, hp⟩
    ackLead := h.ackLead
    ackTerm := h'.ackTerm
    ackLog := h'.ackLog
    ackVote := fun a ha n hn v hv h1 h2 c hc h3 h4 => by
      rcases List.mem_cons.1 hv with rfl | hv
      · have hce := hti c hc h3 h4
        subst hce
        simp only at h1 h2
        rcases h.ackLog a ha n hn with ⟨u, hu1, hu2, hu3⟩ | hp
        · refine .inl ⟨u, hu1, ?_, hu3⟩
          rw [← h1] at hu2
          simp only
          omega
        · refine .inr ⟨(s.nodes i).log, ?_, UpToDate.refl _, h.nodeValid i⟩
          rw [h1]; exact hp
      · rcases List.mem_cons.1 hc with rfl | hc
        · exact absurd ⟨h3.symm, h4.symm⟩ (hvn v hv)
        · exact h.ackVote a ha n hn v hv h1 h2 c hc h3 h4
    commit := h.commit
    applied := h'.applied
    answered := h.answered }

theorem find_cand {s : State} {t i : Nat} {c : Nat × Nat × List Entry}
    (h : (s.cands.find? fun c => decide (c.1 = t) && decide (c.2.1 = i)) = some c) : c ∈ s.cands ∧ c.1 = t ∧ c.2.1 = i := by
  have h1 := List.find?_some h
  simp only [Bool.and_eq_true, decide_eq_true_eq] at h1
  exact ⟨List.mem_of_find?_eq_some h, h1⟩

theorem Inv.vote {N : Nat} {s : State} (h : Inv N s) (j t i : Nat) : Inv N (s.next N (.vote j t i)) := by
  simp only [State.next]
  split
  case h_2 => exact h
  rename_i t0 i0 log hf
  obtain ⟨hc0, rfl, rfl⟩ := find_cand hf
  simp only
  split
  case isFalse => exact h
  rename_i hg
  obtain ⟨hj, ht, hup⟩ := hg
  have h' := h.node j { s.nodes j with term := t0, vote := some i0 } (Nat.le_of_lt ht) rfl rfl
  have hvt : ∀ v ∈ s.votes, v.1 = j → v.2.1 < t0 := fun v hv e => by
    have := h.voteTerm v hv
    rw [e] at this
    omega
  exact {
    nodeTerms := h'.nodeTerms
    nodeValid := h'.nodeValid
    candValid := h.candValid
    candTerms := h.candTerms
    candTerm := h'.candTerm
    candUniq := h.candUniq
    voteTerm := fun v hv => by
      rcases List.mem_cons.1 hv with rfl | hv
      · simp [State.setNode]
      · exact h'.voteTerm v hv
    voteCand := fun v hv => by
      rcases List.mem_cons.1 hv with rfl | hv
      · exact ⟨_, hc0⟩
      · exact h.voteCand v hv
    voteUniq := fun v hv v' hv' h1 h2 => by
      rcases List.mem_cons.1 hv with rfl | hv
      · rcases List.mem_cons.1 hv' with rfl | hv'
        · rfl
        · have := hvt v' hv' h1.symm
          simp only at h2
          omega
      · rcases List.mem_cons.1 hv' with rfl | hv'
        · have := hvt v hv h1
          simp only at h2
          omega
        · exact h.voteUniq v hv v' hv' h1 h2
    leadTerms := h.leadTerms
    leadValid := h.leadValid
    leadVotes := fun u k L hL => by
      obtain ⟨q, hq, hv⟩ := h.leadVotes u k L hL
      exact ⟨q, hq, fun j hj => List.mem_cons_of_mem _ (hv j hj)⟩
    leadCand := h.leadCand
    ackLead := h.ackLead
    ackTerm := h'.ackTerm
    ackLog := h'.ackLog
    ackVote := fun a ha n hn v hv h1 h2 c hc h3 h4 => by
      rcases List.mem_cons.1 hv with rfl | hv
      · have hce := h.candUniq c hc _ hc0 h3 h4
        subst hce
        simp only at h1 h2
        rcases h.ackLog a ha n hn with ⟨u, hu1, hu2, hu3⟩ | hp
        · refine .inl ⟨u, hu1, ?_, hu3⟩
          rw [← h1] at hu2
          simp only
          omega
        · refine .inr ⟨(s.nodes j).log, ?_, hup, h.nodeValid j⟩
          rw [h1]; exact hp
      · exact h.ackVote a ha n hn v hv h1 h2 c hc h3 h4
    commit := h.commit
    applied := h'.applied
    answered := h.answered }

/-- New entries of a leader, or a new leader. -/
structure Grow (s s' : State) : Prop where
  ext : Ext s.leaders s'.leaders
  nodes : ∀ j, s'.nodes j = s.nodes j
  cands : s'.cands = s.cands
  votes : s'.votes = s.votes
  acks : s'.acks = s.acks
  committed : s'.committed = s.committed
  answered : s'.answered = s.answered

theorem Inv.grow {N : Nat} {s s' : State} (h : Inv N s) (g : Grow s s')
    (h1 : ∀ t i L, s'.leaders t = some (i, L) → ∀ e ∈ L, e.term ≤ t)
    (h2 : ∀ t i L, s'.leaders t = some (i, L) → Valid s'.leaders L)
    (h3 : ∀ t i L, s'.leaders t = some (i, L) → ∃ q, Quorum N q ∧ ∀ j ∈ q, (j, t, i) ∈ s.votes)
    (h4 : ∀ t i L, s'.leaders t = some (i, L) → ∃ l, (t, i, l) ∈ s.cands ∧ l <+: L) : Inv N s' where
  nodeTerms := fun j e he => by rw [g.nodes] at he ⊢; exact h.nodeTerms j e he
  nodeValid := fun j => by rw [g.nodes]; exact (h.nodeValid j).mono g.ext
  candValid := fun c hc => by rw [g.cands] at hc; exact (h.candValid c hc).mono g.ext
  candTerms := by rw [g.cands]; exact h.candTerms
  candTerm := fun c hc => by rw [g.cands] at hc; rw [g.nodes]; exact h.candTerm c hc
  candUniq := by rw [g.cands]; exact h.candUniq
  voteTerm := fun c hc => by rw [g.votes] at hc; rw [g.nodes]; exact h.voteTerm c hc
  voteCand := by rw [g.votes, g.cands]; exact h.voteCand
  voteUniq := by rw [g.votes]; exact h.voteUniq
  leadTerms := h1
  leadValid := h2
  leadVotes := by rw [g.votes]; exact h3
  leadCand := by rw [g.cands]; exact h4
  ackLead := fun a ha => by
    rw [g.acks] at ha
    obtain ⟨i, L, hL, hn⟩ := h.ackLead a ha
    obtain ⟨R, hR, _⟩ := g.ext _ _ _ hL
    exact ⟨i, L ++ R, hR, by rw [List.length_append]; omega⟩
  ackTerm := fun a ha => by rw [g.acks] at ha; rw [g.nodes]; exact h.ackTerm a ha
  ackLog := fun a ha n hn => by
    rw [g.acks] at ha
    obtain ⟨i, L, hL, hl⟩ := h.ackLead a ha
    rw [g.nodes, logOf_take g.ext hL (Nat.le_trans hn hl)]
    rcases h.ackLog a ha n hn with ⟨u, hu1, hu2, hu3⟩ | hp
    · exact .inl ⟨u, hu1, hu2, hu3.mono g.ext hL (Nat.le_trans hn hl) (h.leadTerms _ _ _ hL) hu1⟩
    · exact .inr hp
  ackVote := fun a ha n hn v hv e1 e2 c hc e3 e4 => by
    rw [g.acks] at ha
    rw [g.votes] at hv
    rw [g.cands] at hc
    obtain ⟨i, L, hL, hl⟩ := h.ackLead a ha
    rw [logOf_take g.ext hL (Nat.le_trans hn hl)]
    rcases h.ackVote a ha n hn v hv e1 e2 c hc e3 e4 with ⟨u, hu1, hu2, hu3⟩ | ⟨l, hp, hu, hva⟩
    · exact .inl ⟨u, hu1, hu2, hu3.mono g.ext hL (Nat.le_trans hn hl) (h.leadTerms _ _ _ hL) hu1⟩
    · exact .inr ⟨l, hp, hu, hva.mono g.ext⟩
  commit := fun c hc => by
    rw [g.committed] at hc
    obtain ⟨i, L, q, hL, hq, hn, hlt, hack⟩ := h.commit c hc
    obtain ⟨R, hR, _⟩ := g.ext _ _ _ hL
    refine ⟨i, L ++ R, q, hR, hq, hn, ?_, ?_⟩
    · cases hg : L[c.2 - 1]? with
      | none => rw [hg] at hlt; simp at hlt
      | some e =>
        rw [List.getElem?_append_left (List.getElem?_eq_some_iff.1 hg).1]
        exact hlt
    · rw [g.acks]; exact hack
  applied := fun j hj => by
    rw [g.nodes] at hj
    obtain ⟨c, hc, e1, e2, e3⟩ := h.applied j hj
    rw [g.committed, g.nodes]
    refine ⟨c, hc, e1, e2, ?_⟩
    obtain ⟨i, L, q, hL, hq, hn, hlt, hack⟩ := h.commit c hc
    have hnl : c.2 ≤ L.length := by
      cases hg : L[c.2 - 1]? with
      | none => rw [hg] at hlt; simp at hlt
      | some e =>
        have := (List.getElem?_eq_some_iff.1 hg).1
        omega
    rw [logOf_take g.ext hL (Nat.le_trans e1 hnl)]
    exact e3
  answered := fun x hx => by
    rw [g.answered] at hx
    rw [g.committed]
    obtain ⟨c, hc, e1, e2, e3⟩ := h.answered x hx
    refine ⟨c, hc, e1, e2, ?_⟩
    cases hL : s.leaders x.1 with
    | none => simp [logOf, hL] at e3
    | some p =>
      obtain ⟨i, L⟩ := p
      obtain ⟨R, hR, _⟩ := g.ext _ _ _ hL
      rw [logOf_eq hL] at e3
      rw [logOf_eq hR]
      cases hg : L[x.2.1]? with
      | none => rw [hg] at e3; simp at e3
      | some e =>
        rw [List.getElem?_append_left (List.getElem?_eq_some_iff.1 hg).1]
        exact e3

theorem Inv.win {N : Nat} {s : State} (h : Inv N s) (i t : Nat) (q : List Nat) : Inv N (s.next N (.win i t q)) := by
  simp only [State.next]
  split
  case h_2 => exact h
  rename_i t0 i0 log hf
  obtain ⟨hc0, rfl, rfl⟩ := find_cand hf
  simp only
  split
  case isFalse => exact h
  rename_i hg
  obtain ⟨hq, hv, hne⟩ := hg
  have hnone : s.leaders t0 = none := by
    cases hL : s.leaders t0 with
    | none => rfl
    | some p =>
      exfalso
      obtain ⟨k, L⟩ := p
      obtain ⟨q', hq', hv'⟩ := h.leadVotes _ _ _ hL
      obtain ⟨j, hj, hj'⟩ := hq.meet hq'
      have := h.voteUniq _ (hv j hj) _ (hv' j hj') rfl rfl
      simp only [Prod.mk.injEq, true_and] at this
      apply hne
      rw [hL, this]
      rfl
  have hget : ∀ u k L, (if u = t0 then some (i0, log) else s.leaders u) = some (k, L) →
      (u = t0 ∧ k = i0 ∧ L = log) ∨ (u ≠ t0 ∧ s.leaders u = some (k, L)) := by
    intro u k L hu
    split at hu
    · rename_i e
      simp only [Option.some.injEq, Prod.mk.injEq] at hu
      exact .inl ⟨e, hu.1.symm, hu.2.symm⟩
    · rename_i e
      exact .inr ⟨e, hu⟩
  have hext : Ext s.leaders (fun k => if k = t0 then some (i0, log) else s.leaders k) := by
    intro u k L hu
    refine ⟨[], ?_, by simp⟩
    have : u ≠ t0 := by intro e; rw [e, hnone] at hu; cases hu
    simp only [if_neg this, List.append_nil]
    exact hu
  refine h.grow ⟨hext, fun _ => rfl, rfl, rfl, rfl, rfl, rfl⟩ ?_ ?_ ?_ ?_
  · intro u k L hu e he
    rcases hget u k L hu with ⟨rfl, rfl, rfl⟩ | ⟨_, hu⟩
    · exact Nat.le_of_lt (h.candTerms _ hc0 e he)
    · exact h.leadTerms _ _ _ hu e he
  · intro u k L hu
    rcases hget u k L hu with ⟨rfl, rfl, rfl⟩ | ⟨_, hu⟩
    · exact (h.candValid _ hc0).mono hext
    · exact (h.leadValid _ _ _ hu).mono hext
  · intro u k L hu
    rcases hget u k L hu with ⟨rfl, rfl, rfl⟩ | ⟨_, hu⟩
    · exact ⟨q, hq, hv⟩
    · exact h.leadVotes _ _ _ hu
  · intro u k L hu
    rcases hget u k L hu with ⟨rfl, rfl, rfl⟩ | ⟨_, hu⟩
    · exact ⟨_, hc0, List.prefix_refl _⟩
    · exact h.leadCand _ _ _ hu

/-- A replica's log is changed to one that has all that was before, and it acknowledges the first entries of a leader. -/
theorem Inv.ack {N : Nat} {s : State} (h : Inv N s) (j t n i : Nat) (L : List Entry) (m : Node) (hL : s.leaders t = some (i, L))
    (hn : n ≤ L.length) (ht : (s.nodes j).term ≤ t) (hmt : m.term = t) (hma : m.applied = (s.nodes j).applied)
    (hml : m.log = (s.nodes j).log ∨ m.log = L.take n ∧ ¬ L.take n <+: (s.nodes j).log) (hp : L.take n <+: m.log) :
    Inv N { s.setNode j m with acks := (j, t, n) :: s.acks } := by
  have hterm : ∀ k, (s.nodes k).term ≤ ((s.setNode j m).nodes k).term := by
    intro k
    simp only [State.setNode]
    split
    · rename_i e; rw [e, hmt]; exact ht
    · exact Nat.le_refl _
  have hnode : ∀ k, k ≠ j → (s.setNode j m).nodes k = s.nodes k := fun k e => by simp [State.setNode, e]
  have hself : (s.setNode j m).nodes j = m := by simp [State.setNode]
  -- an older part of a log that is also in the new leader's log stays
  have hkeep : ∀ l, l <+: (s.nodes j).log → l <+: L → l <+: m.log := by
    intro l h1 h2
    rcases hml with e | ⟨e, hne⟩
    · rw [e]; exact h1
    · rw [e]
      by_cases hc : l.length ≤ (L.take n).length
      · exact List.prefix_of_prefix_length_le h2 (List.take_prefix _ _) hc
      · exfalso
        apply hne
        refine List.IsPrefix.trans ?_ h1
        exact List.prefix_of_prefix_length_le (List.take_prefix _ _) h2 (by omega)
  exact {
    nodeTerms := fun k e he => by
      by_cases hk : k = j
      · subst hk
        simp only [hself] at he ⊢
        rw [hmt]
        rcases hml with e1 | ⟨e1, _⟩
        · rw [e1] at he; exact Nat.le_trans (h.nodeTerms k e he) ht
        · rw [e1] at he; exact h.leadTerms _ _ _ hL e (List.mem_of_mem_take he)
      · simp only [hnode k hk] at he ⊢
        exact h.nodeTerms k e he
    nodeValid := fun k => by
      by_cases hk : k = j
      · subst hk
        simp only [hself]
        rcases hml with e1 | ⟨e1, _⟩
        · rw [e1]; exact h.nodeValid k
        · rw [e1]; exact (h.leadValid _ _ _ hL).take n
      · simp only [hnode k hk]; exact h.nodeValid k
    candValid := h.candValid
    candTerms := h.candTerms
    candTerm := fun c hc => Nat.le_trans (h.candTerm c hc) (hterm _)
    candUniq := h.candUniq
    voteTerm := fun v hv => Nat.le_trans (h.voteTerm v hv) (hterm _)
    voteCand := h.voteCand
    voteUniq := h.voteUniq
    leadTerms := h.leadTerms
    leadValid := h.leadValid
    leadVotes := h.leadVotes
    leadCand := h.leadCand
    ackLead := fun a ha => by
      rcases List.mem_cons.1 ha with rfl | ha
      · exact ⟨i, L, hL, hn⟩
      · exact h.ackLead a ha
    ackTerm := fun a ha => by
      rcases List.mem_cons.1 ha with rfl | ha
      · simp only [hself, hmt]; exact Nat.le_refl _
      · exact Nat.le_trans (h.ackTerm a ha) (hterm _)
    ackLog := fun a ha k hk => by
      rcases List.mem_cons.1 ha with rfl | ha
      · right
        simp only [hself]
        have e : logOf (s.setNode j m).leaders t = L := logOf_eq hL
        rw [e]
        refine List.IsPrefix.trans ?_ hp
        exact List.prefix_of_prefix_length_le (List.take_prefix _ _) (List.take_prefix _ _)
          (by rw [List.length_take, List.length_take]; simp only at hk; omega)
      · rcases h.ackLog a ha k hk with ⟨u, hu1, hu2, hu3⟩ | hpre
        · exact .inl ⟨u, hu1, Nat.le_trans hu2 (hterm _), hu3⟩
        · by_cases hj : a.1 = j
          · simp only [hj, hself]
            rw [hj] at hpre
            by_cases hs : (logOf s.leaders a.2.1).take k <+: L
            · exact .inr (hkeep _ hpre hs)
            · left
              have hle := h.ackTerm a ha
              rw [hj] at hle
              have hne : a.2.1 ≠ t := by
                intro e
                rw [e, logOf_eq hL] at hs
                exact hs (List.take_prefix _ _)
              exact ⟨t, by omega, by rw [hmt]; exact Nat.le_refl _, i, L, hL, hs⟩
          · simp only [hnode _ hj]; exact .inr hpre
    ackVote := fun a ha k hk v hv e1 e2 c hc e3 e4 => by
      rcases List.mem_cons.1 ha with rfl | ha
      · exfalso
        have := h.voteTerm v hv
        simp only at e1 e2
        rw [e1] at this
        omega
      · exact h.ackVote a ha k hk v hv e1 e2 c hc e3 e4
    commit := fun c hc => by
      obtain ⟨i', L', q, a1, a2, a3, a4, a5⟩ := h.commit c hc
      refine ⟨i', L', q, a1, a2, a3, a4, fun x hx => ?_⟩
      obtain ⟨a, ha, h1⟩ := a5 x hx
      exact ⟨a, List.mem_cons_of_mem _ ha, h1⟩
    applied := fun k hk => by
      by_cases hj : k = j
      · subst hj
        simp only [hself] at hk ⊢
        rw [hma] at hk ⊢
        obtain ⟨c, hc, e1, e2, e3⟩ := h.applied k hk
        refine ⟨c, hc, e1, by rw [hmt]; omega, ?_⟩
        apply hkeep _ e3
        have := h.complete hc t (by omega) i L hL
        refine List.IsPrefix.trans ?_ this
        exact List.prefix_of_prefix_length_le (List.take_prefix _ _) (List.take_prefix _ _)
          (by rw [List.length_take, List.length_take]; omega)
      · simp only [hnode _ hj] at hk ⊢; exact h.applied k hk
    answered := h.answered }

theorem Inv.accept {N : Nat} {s : State} (h : Inv N s) (j t p n : Nat) : Inv N (s.next N (.accept j t p n)) := by
  simp only [State.next]
  split
  case h_2 => exact h
  rename_i i L hL
  split
  case isFalse => exact h
  rename_i hg
  obtain ⟨_, _, ht, hp, hn, hm⟩ := hg
  rcases accept_eq (h.nodeValid j) (h.leadValid _ _ _ hL) hp hn hm with ⟨e1, e2⟩ | ⟨e1, e2⟩
  · refine h.ack j t n i L _ hL hn ht rfl rfl (.inl e1) ?_
    simp only [e1]; exact e2
  · refine h.ack j t n i L _ hL hn ht rfl rfl (.inr ⟨e1, e2⟩) ?_
    simp only [e1]; exact List.prefix_refl _

theorem Inv.append {N : Nat} {s : State} (h : Inv N s) (t c : Nat) : Inv N (s.next N (.append t c)) := by
  simp only [State.next]
  split
  case h_2 => exact h
  rename_i i L hL
  split
  case isFalse => exact h
  rename_i hg
  obtain ⟨ht, hlog⟩ := hg
  have hget : ∀ u k M, (if u = t then some (i, L ++ [⟨t, c⟩]) else s.leaders u) = some (k, M) →
      (u = t ∧ k = i ∧ M = L ++ [⟨t, c⟩]) ∨ (u ≠ t ∧ s.leaders u = some (k, M)) := by
    intro u k M hu
    split at hu
    · rename_i e
      simp only [Option.some.injEq, Prod.mk.injEq] at hu
      exact .inl ⟨e, hu.1.symm, hu.2.symm⟩
    · rename_i e
      exact .inr ⟨e, hu⟩
  have hext : Ext s.leaders (fun k => if k = t then some (i, L ++ [⟨t, c⟩]) else s.leaders k) := by
    intro u k M hu
    by_cases e : u = t
    · subst e
      rw [hL] at hu
      cases hu
      exact ⟨[⟨u, c⟩], by simp, by simp⟩
    · exact ⟨[], by simp only [if_neg e, List.append_nil]; exact hu, by simp⟩
  have hval : Valid (fun k => if k = t then some (i, L ++ [⟨t, c⟩]) else s.leaders k) (L ++ [⟨t, c⟩]) := by
    intro k e hk
    by_cases hkl : k < L.length
    · rw [List.getElem?_append_left hkl] at hk
      obtain ⟨i', L', h1, h2⟩ := ((h.leadValid _ _ _ hL).mono hext) k e hk
      refine ⟨i', L', h1, ?_⟩
      rw [List.take_append_of_le_length (by omega)]
      exact h2
    · have hkl' : k = L.length := by
        have := (List.getElem?_eq_some_iff.1 hk).1
        simp only [List.length_append, List.length_cons, List.length_nil] at this
        omega
      subst hkl'
      simp only [List.getElem?_append_right (Nat.le_refl _), Nat.sub_self, List.getElem?_cons_zero, Option.some.injEq] at hk
      subst hk
      exact ⟨i, L ++ [⟨t, c⟩], by simp, rfl⟩
  have hgrow : Inv N { s with leaders := fun k => if k = t then some (i, L ++ [⟨t, c⟩]) else s.leaders k } := by
    refine h.grow ⟨hext, fun _ => rfl, rfl, rfl, rfl, rfl, rfl⟩ ?_ ?_ ?_ ?_
    · intro u k M hu e he
      rcases hget u k M hu with ⟨rfl, rfl, rfl⟩ | ⟨_, hu⟩
      · rcases List.mem_append.1 he with he | he
        · exact h.leadTerms _ _ _ hL e he
        · rw [List.mem_singleton] at he; rw [he]; exact Nat.le_refl _
      · exact h.leadTerms _ _ _ hu e he
    · intro u k M hu
      rcases hget u k M hu with ⟨rfl, rfl, rfl⟩ | ⟨_, hu⟩
      · exact hval
      · exact (h.leadValid _ _ _ hu).mono hext
    · intro u k M hu
      rcases hget u k M hu with ⟨rfl, rfl, rfl⟩ | ⟨_, hu⟩
      · exact h.leadVotes _ _ _ hL
      · exact h.leadVotes _ _ _ hu
    · intro u k M hu
      rcases hget u k M hu with ⟨rfl, rfl, rfl⟩ | ⟨_, hu⟩
      · obtain ⟨l, h1, h2⟩ := h.leadCand _ _ _ hL
        exact ⟨l, h1, h2.trans (List.prefix_append _ _)⟩
      · exact h.leadCand _ _ _ hu
  have hn : L.length + 1 ≤ (L ++ [(⟨t, c⟩ : Entry)]).length := by simp
  have htk : (L ++ [(⟨t, c⟩ : Entry)]).take (L.length + 1) = L ++ [⟨t, c⟩] := by
    rw [List.take_of_length_le]; simp
  have hneg : ¬ (L ++ [(⟨t, c⟩ : Entry)]).take (L.length + 1) <+: (s.nodes i).log := by
    rw [htk, hlog]
    intro hc
    have := hc.length_le
    simp at this
    omega
  have hle : (s.nodes i).term ≤ t := Nat.le_of_eq ht
  exact hgrow.ack i t (L.length + 1) i (L ++ [⟨t, c⟩]) { s.nodes i with log := L ++ [⟨t, c⟩] } (by simp) hn hle
    ht rfl (.inr ⟨htk.symm, hneg⟩) (by rw [htk]; exact List.prefix_refl _)

theorem Inv.commitStep {N : Nat} {s : State} (h : Inv N s) (t n : Nat) (q : List Nat) : Inv N (s.next N (.commit t n q)) := by
  simp only [State.next]
  split
  case h_2 => exact h
  rename_i i L hL
  split
  case isFalse => exact h
  rename_i hg
  obtain ⟨hq, hn, ht, ha⟩ := hg
  exact { h with
    commit := fun c hc => by
      rcases List.mem_cons.1 hc with rfl | hc
      · exact ⟨i, L, q, hL, hq, hn, ht, ha⟩
      · exact h.commit c hc
    applied := fun j hj => by
      obtain ⟨c, hc, e⟩ := h.applied j hj
      exact ⟨c, List.mem_cons_of_mem _ hc, e⟩
    answered := fun x hx => by
      obtain ⟨c, hc, e⟩ := h.answered x hx
      exact ⟨c, List.mem_cons_of_mem _ hc, e⟩ }

theorem Inv.applyStep {N : Nat} {s : State} (h : Inv N s) (j t n : Nat) : Inv N (s.next N (.apply j t n)) := by
  simp only [State.next]
  split
  case isFalse => exact h
  rename_i hg
  obtain ⟨⟨c, hc, hc1, hc2⟩, ⟨a, ha, ha1, ha2, ha3⟩, ht, _, _⟩ := hg
  have hterm : ∀ k, ((s.setNode j { s.nodes j with applied := n }).nodes k).term = (s.nodes k).term := by
    intro k; simp only [State.setNode]; split
    · rename_i e; rw [e]
    · rfl
  have hlog : ∀ k, ((s.setNode j { s.nodes j with applied := n }).nodes k).log = (s.nodes k).log := by
    intro k; simp only [State.setNode]; split
    · rename_i e; rw [e]
    · rfl
  exact {
    nodeTerms := fun k => by rw [hterm, hlog]; exact h.nodeTerms k
    nodeValid := fun k => by rw [hlog]; exact h.nodeValid k
    candValid := h.candValid
    candTerms := h.candTerms
    candTerm := fun c hc => by rw [hterm]; exact h.candTerm c hc
    candUniq := h.candUniq
    voteTerm := fun c hc => by rw [hterm]; exact h.voteTerm c hc
    voteCand := h.voteCand
    voteUniq := h.voteUniq
    leadTerms := h.leadTerms
    leadValid := h.leadValid
    leadVotes := h.leadVotes
    leadCand := h.leadCand
    ackLead := h.ackLead
    ackTerm := fun c hc => by rw [hterm]; exact h.ackTerm c hc
    ackLog := fun a ha n hn => by rw [hterm, hlog]; exact h.ackLog a ha n hn
    ackVote := h.ackVote
    commit := h.commit
    applied := fun k hk => by
      by_cases hkj : k = j
      · subst hkj
        refine ⟨c, hc, ?_, ?_, ?_⟩
        · simp only [State.setNode, if_true]; exact hc2
        · rw [hterm, hc1, ht]; exact Nat.le_refl _
        · rw [hlog]
          simp only [State.setNode, if_true]
          rcases h.ackLog a ha n ha3 with ⟨u, hu1, hu2, _⟩ | hp
          · rw [ha1] at hu2; omega
          · rw [ha1, ha2] at hp
            rw [hc1]; exact hp
      · have e : (s.setNode j { s.nodes j with applied := n }).nodes k = s.nodes k := by simp [State.setNode, hkj]
        rw [e] at hk ⊢
        exact h.applied k hk
    answered := h.answered }

theorem Inv.answerStep {N : Nat} {s : State} (h : Inv N s) (t k : Nat) : Inv N (s.next N (.answer t k)) := by
  simp only [State.next]
  split
  case h_2 => exact h
  rename_i i L hL
  split
  case h_2 => exact h
  rename_i e he
  split
  case isFalse => exact h
  rename_i hg
  obtain ⟨ht, het, hk⟩ := hg
  obtain ⟨c, hc, h1, h2, h3⟩ := h.applied i (by omega)
  obtain ⟨i', L', q, hL', _, _, hlt, _⟩ := h.commit c hc
  have hnl : c.2 ≤ L'.length := by
    cases hg : L'[c.2 - 1]? with
    | none => rw [hg] at hlt; simp at hlt
    | some e =>
      have := (List.getElem?_eq_some_iff.1 hg).1
      omega
  have hget : L'[k]? = some e := by
    obtain ⟨w, hw⟩ := h3
    rw [logOf_eq hL'] at hw
    rw [← hw, List.getElem?_append_left (by rw [List.length_take]; omega), List.getElem?_take_of_lt hk] at he
    exact he
  have hct : c.1 = t := by
    have := h.leadTerms _ _ _ hL' e (List.mem_of_getElem? hget)
    omega
  exact { h with
    answered := fun x hx => by
      rcases List.mem_cons.1 hx with rfl | hx
      · refine ⟨c, hc, hct, by simp only; omega, ?_⟩
        simp only
        rw [← hct, logOf_eq hL', hget]
        rfl
      · exact h.answered x hx }

end Verif.Raft
