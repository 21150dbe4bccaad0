import Verif.Raft.Model
import Mathlib.Data.List.Perm.Subperm
/-!
# Raft: the invariant of runs in which restarts lose nothing of the log
-/
namespace Verif.Raft

abbrev Leaders := Nat → Option (Nat × List Entry)

/-- The log of the leader of a term. -/
def logOf (ld : Leaders) (t : Nat) : List Entry := ((ld t).map Prod.snd).getD []

theorem logOf_eq {ld : Leaders} {t i : Nat} {L : List Entry} (h : ld t = some (i, L)) : logOf ld t = L := by simp [logOf, h]

/-- Each entry of the log comes from the leader of its term, with all entries before. -/
def Valid (ld : Leaders) (l : List Entry) : Prop :=
  ∀ k e, l[k]? = some e → ∃ i L, ld e.term = some (i, L) ∧ l.take (k + 1) = L.take (k + 1)

/-- The leader of term `u` lacks one of the first `n` entries of the leader of `t`. -/
def Bad (ld : Leaders) (t n u : Nat) : Prop := ∃ i M, ld u = some (i, M) ∧ ¬ (logOf ld t).take n <+: M

/-- Later states of the leaders. -/
def Ext (ld ld' : Leaders) : Prop :=
  ∀ t i L, ld t = some (i, L) → ∃ R, ld' t = some (i, L ++ R) ∧ ∀ e ∈ R, e.term = t

structure Inv (N : Nat) (s : State) : Prop where
  nodeTerms : ∀ j, ∀ e ∈ (s.nodes j).log, e.term ≤ (s.nodes j).term
  nodeValid : ∀ j, Valid s.leaders (s.nodes j).log
  candValid : ∀ c ∈ s.cands, Valid s.leaders c.2.2
  candTerms : ∀ c ∈ s.cands, ∀ e ∈ c.2.2, e.term < c.1
  candTerm : ∀ c ∈ s.cands, c.1 ≤ (s.nodes c.2.1).term
  candUniq : ∀ c ∈ s.cands, ∀ c' ∈ s.cands, c.1 = c'.1 → c.2.1 = c'.2.1 → c = c'
  voteTerm : ∀ v ∈ s.votes, v.2.1 ≤ (s.nodes v.1).term
  voteCand : ∀ v ∈ s.votes, ∃ l, (v.2.1, v.2.2, l) ∈ s.cands
  voteUniq : ∀ v ∈ s.votes, ∀ v' ∈ s.votes, v.1 = v'.1 → v.2.1 = v'.2.1 → v = v'
  leadTerms : ∀ t i L, s.leaders t = some (i, L) → ∀ e ∈ L, e.term ≤ t
  leadValid : ∀ t i L, s.leaders t = some (i, L) → Valid s.leaders L
  leadVotes : ∀ t i L, s.leaders t = some (i, L) → ∃ q, Quorum N q ∧ ∀ j ∈ q, (j, t, i) ∈ s.votes
  leadCand : ∀ t i L, s.leaders t = some (i, L) → ∃ l, (t, i, l) ∈ s.cands ∧ l <+: L
  ackLead : ∀ a ∈ s.acks, ∃ i L, s.leaders a.2.1 = some (i, L) ∧ a.2.2 ≤ L.length
  ackTerm : ∀ a ∈ s.acks, a.2.1 ≤ (s.nodes a.1).term
  ackLog : ∀ a ∈ s.acks, ∀ n, n ≤ a.2.2 → (∃ u, a.2.1 < u ∧ u ≤ (s.nodes a.1).term ∧ Bad s.leaders a.2.1 n u) ∨
    (logOf s.leaders a.2.1).take n <+: (s.nodes a.1).log
  ackVote : ∀ a ∈ s.acks, ∀ n, n ≤ a.2.2 → ∀ v ∈ s.votes, v.1 = a.1 → a.2.1 < v.2.1 → ∀ c ∈ s.cands, c.1 = v.2.1 → c.2.1 = v.2.2 →
    (∃ u, a.2.1 < u ∧ u < v.2.1 ∧ Bad s.leaders a.2.1 n u) ∨
    ∃ l, (logOf s.leaders a.2.1).take n <+: l ∧ UpToDate l c.2.2 ∧ Valid s.leaders l
  commit : ∀ c ∈ s.committed, ∃ i L q, s.leaders c.1 = some (i, L) ∧ Quorum N q ∧ 0 < c.2 ∧ (L[c.2 - 1]?).map Entry.term = some c.1 ∧
    ∀ j ∈ q, ∃ a ∈ s.acks, a.1 = j ∧ a.2.1 = c.1 ∧ c.2 ≤ a.2.2
  applied : ∀ j, 0 < (s.nodes j).applied → ∃ c ∈ s.committed, (s.nodes j).applied ≤ c.2 ∧ c.1 ≤ (s.nodes j).term ∧
    (logOf s.leaders c.1).take (s.nodes j).applied <+: (s.nodes j).log
  answered : ∀ x ∈ s.answered, ∃ c ∈ s.committed, c.1 = x.1 ∧ x.2.1 < c.2 ∧ ((logOf s.leaders x.1)[x.2.1]?).map Entry.cmd = some x.2.2

/-! ## Quorums -/

theorem Quorum.meet {N : Nat} {q q' : List Nat} (h : Quorum N q) (h' : Quorum N q') : ∃ j ∈ q, j ∈ q' := by
  by_cases hd : ∃ j ∈ q, j ∈ q'
  · exact hd
  · exfalso
    have hnd : (q ++ q').Nodup := by
      rw [List.nodup_append]
      exact ⟨h.1, h'.1, fun a ha b hb e => hd ⟨a, ha, by rw [e]; exact hb⟩⟩
    have hs : q ++ q' ⊆ List.range N := by
      intro j hj
      rw [List.mem_range]
      rcases List.mem_append.1 hj with hj | hj
      · exact h.2.1 j hj
      · exact h'.2.1 j hj
    have := (List.subperm_of_subset hnd hs).length_le
    simp only [List.length_append, List.length_range] at this
    have h1 := h.2.2
    have h2 := h'.2.2
    omega

/-! ## Logs -/

theorem take_of_get {l L : List Entry} {k : Nat} {e : Entry} (h1 : l[k]? = some e) (h2 : l.take (k + 1) = L.take (k + 1)) :
    L[k]? = some e ∧ k + 1 ≤ L.length := by
  have hk : k < l.length := (List.getElem?_eq_some_iff.1 h1).1
  have hl : (L.take (k + 1)).length = k + 1 := by
    rw [← h2, List.length_take]; omega
  rw [List.length_take] at hl
  have : L[k]? = l[k]? := by
    rw [← List.getElem?_take_of_lt (Nat.lt_succ_self k), ← h2, List.getElem?_take_of_lt (Nat.lt_succ_self k)]
  exact ⟨this.trans h1, by omega⟩

theorem Valid.mono {ld ld' : Leaders} {l : List Entry} (h : Valid ld l) (hx : Ext ld ld') : Valid ld' l := by
  intro k e hk
  obtain ⟨i, L, h1, h2⟩ := h k e hk
  obtain ⟨R, h3, _⟩ := hx _ _ _ h1
  obtain ⟨_, hl⟩ := take_of_get hk h2
  refine ⟨i, L ++ R, h3, ?_⟩
  rw [h2, List.take_append_of_le_length hl]

theorem Valid.agree {ld : Leaders} {l m : List Entry} (h : Valid ld l) (h' : Valid ld m) {k : Nat}
    (ht : (l[k]?).map Entry.term = (m[k]?).map Entry.term) (hk : k < m.length) : l.take (k + 1) = m.take (k + 1) := by
  rw [List.getElem?_eq_getElem hk] at ht
  cases hl : l[k]? with
  | none => rw [hl] at ht; simp at ht
  | some e =>
    rw [hl] at ht
    simp only [Option.map_some, Option.some.injEq] at ht
    obtain ⟨i, L, h1, h2⟩ := h k e hl
    obtain ⟨i', L', h3, h4⟩ := h' k m[k] (List.getElem?_eq_getElem hk)
    rw [← ht, h1] at h3
    cases h3
    rw [h2, h4]

theorem Valid.take {ld : Leaders} {l : List Entry} (h : Valid ld l) (n : Nat) : Valid ld (l.take n) := by
  intro k e hk
  have hn : k < n := by
    have := (List.getElem?_eq_some_iff.1 hk).1
    rw [List.length_take] at this
    omega
  rw [List.getElem?_take_of_lt hn] at hk
  obtain ⟨i, L, h1, h2⟩ := h k e hk
  refine ⟨i, L, h1, ?_⟩
  rw [List.take_take, Nat.min_eq_left (by omega), h2]

/-- A log is a part of the log of the leader of its last term. -/
theorem Valid.last {ld : Leaders} {l : List Entry} (h : Valid ld l) {e : Entry} (he : l.getLast? = some e) :
    ∃ i L, ld e.term = some (i, L) ∧ l <+: L := by
  rw [List.getLast?_eq_getElem?] at he
  obtain ⟨i, L, h1, h2⟩ := h _ e he
  have hl := (List.getElem?_eq_some_iff.1 he).1
  have : l.length - 1 + 1 = l.length := by omega
  rw [this, List.take_length] at h2
  exact ⟨i, L, h1, h2 ▸ List.take_prefix _ _⟩

/-- What `accept` does. -/
theorem accept_eq {ld : Leaders} {log L : List Entry} (h : Valid ld log) (h' : Valid ld L) {p n : Nat} (hp : p ≤ n) (hn : n ≤ L.length)
    (hm : p = 0 ∨ (log[p - 1]?).map Entry.term = (L[p - 1]?).map Entry.term) :
    accept log p ((L.take n).drop p) = log ∧ L.take n <+: log ∨
    accept log p ((L.take n).drop p) = L.take n ∧ ¬ L.take n <+: log := by
  have hpp : log.take p = L.take p := by
    rcases hm with rfl | hm
    · simp
    · by_cases h0 : p = 0
      · simp [h0]
      · have := h.agree h' hm (by omega)
        rwa [show p - 1 + 1 = p by omega] at this
  have hlen : ((L.take n).drop p).length = n - p := by
    rw [List.length_drop, List.length_take, Nat.min_eq_left hn]
  unfold accept
  split
  · rename_i ha
    refine .inl ⟨rfl, ?_⟩
    by_cases hnp : n = p
    · subst hnp
      rw [← hpp]; exact List.take_prefix _ _
    · unfold agrees at ha
      rw [hlen] at ha
      have h1 := congrArg (fun x => x[n - 1 - p]?) ha
      simp only [List.getElem?_map] at h1
      rw [List.getElem?_take_of_lt (by omega), List.getElem?_drop, List.getElem?_drop, List.getElem?_take_of_lt (by omega),
        show p + (n - 1 - p) = n - 1 by omega] at h1
      have := h.agree h' h1 (by omega)
      rw [show n - 1 + 1 = n by omega] at this
      rw [← this]
      exact List.take_prefix _ _
  · rename_i ha
    refine .inr ⟨?_, fun hc => ha ?_⟩
    · rw [hpp]
      have : L.take p = (L.take n).take p := by rw [List.take_take, Nat.min_eq_left hp]
      rw [this, List.take_append_drop]
    · unfold agrees
      have h1 := List.prefix_iff_eq_take.1 hc
      rw [List.length_take, Nat.min_eq_left hn] at h1
      rw [hlen, h1, List.drop_take]

theorem logOf_take {ld ld' : Leaders} (hx : Ext ld ld') {t i n : Nat} {L : List Entry} (h : ld t = some (i, L)) (hn : n ≤ L.length) :
    (logOf ld' t).take n = (logOf ld t).take n := by
  obtain ⟨R, h1, _⟩ := hx _ _ _ h
  rw [logOf_eq h1, logOf_eq h, List.take_append_of_le_length hn]

theorem Bad.mono {ld ld' : Leaders} (hx : Ext ld ld') {t n u i : Nat} {L : List Entry} (h : ld t = some (i, L)) (hn : n ≤ L.length)
    (ht : ∀ e ∈ L, e.term ≤ t) (hu : t < u) (hb : Bad ld t n u) : Bad ld' t n u := by
  obtain ⟨k, M, h1, h2⟩ := hb
  obtain ⟨R, h3, h4⟩ := hx _ _ _ h1
  refine ⟨k, M ++ R, h3, fun hc => h2 ?_⟩
  rw [logOf_take hx h hn] at hc
  rw [logOf_eq h] at hc ⊢
  by_cases hl : (L.take n).length ≤ M.length
  · exact List.prefix_of_prefix_length_le hc (List.prefix_append _ _) hl
  · exfalso
    have h5 : M.length < (L.take n).length := by omega
    obtain ⟨w, hw⟩ := hc
    have h6 : (L.take n ++ w)[M.length]? = (L.take n)[M.length]? := List.getElem?_append_left h5
    rw [hw, List.getElem?_append_right (Nat.le_refl _), Nat.sub_self, List.getElem?_eq_getElem h5] at h6
    have h7 := ht _ (List.mem_of_mem_take (List.getElem_mem h5))
    have h8 := h4 _ (List.mem_of_getElem? h6)
    omega

/-! ## Committed entries are in the logs of all later leaders -/

theorem Inv.complete {N : Nat} {s : State} (h : Inv N s) {c : Nat × Nat} (hc : c ∈ s.committed) :
    ∀ u, c.1 ≤ u → ∀ k M, s.leaders u = some (k, M) → (logOf s.leaders c.1).take c.2 <+: M := by
  obtain ⟨i, L, q, hL, hq, hn, hlt, hack⟩ := h.commit c hc
  rw [logOf_eq hL]
  have hnl : c.2 ≤ L.length := by
    cases hg : L[c.2 - 1]? with
    | none => rw [hg] at hlt; simp at hlt
    | some e =>
      have := (List.getElem?_eq_some_iff.1 hg).1
      omega
  intro u
  induction u using Nat.strongRecOn with
  | _ u ih =>
    intro hu k M hM
    by_cases htu : c.1 = u
    · subst htu
      rw [hL] at hM
      cases hM
      exact List.take_prefix _ _
    have hu : c.1 < u := by omega
    obtain ⟨l, hl, hlM⟩ := h.leadCand _ _ _ hM
    refine List.IsPrefix.trans ?_ hlM
    obtain ⟨q', hq', hv⟩ := h.leadVotes _ _ _ hM
    obtain ⟨j, hj, hj'⟩ := hq.meet hq'
    obtain ⟨a, ha, ha1, ha2, ha3⟩ := hack j hj
    have hkey := h.ackVote a ha c.2 ha3 (j, u, k) (hv j hj') ha1.symm (by rw [ha2]; exact hu) (u, k, l) hl rfl rfl
    rw [ha2] at hkey
    rcases hkey with ⟨w, hw1, hw2, k', M', hb1, hb2⟩ | ⟨m, hm1, hm2, hm3⟩
    · rw [logOf_eq hL] at hb2
      exact absurd (ih w hw2 (by omega) k' M' hb1) hb2
    · rw [logOf_eq hL] at hm1
      have hm2 : UpToDate m l := hm2
      -- the log of the voter ends with a term that is not before the committed one
      have hmlen : c.2 ≤ m.length := by
        have := hm1.length_le
        rwa [List.length_take, Nat.min_eq_left hnl] at this
      have hmg : m[c.2 - 1]? = L[c.2 - 1]? := by
        obtain ⟨w, hw⟩ := hm1
        rw [← hw, List.getElem?_append_left (by rw [List.length_take, Nat.min_eq_left hnl]; omega), List.getElem?_take_of_lt (by omega)]
      have hmne : m ≠ [] := by intro e; rw [e] at hmlen; simp at hmlen; omega
      obtain ⟨em, hem⟩ : ∃ e, m.getLast? = some e := ⟨m.getLast hmne, List.getLast?_eq_some_getLast hmne⟩
      have hmt : c.1 ≤ em.term := by
        obtain ⟨i', L', hL', hp⟩ := hm3.last hem
        have hg : ∃ e, L[c.2 - 1]? = some e ∧ e.term = c.1 := by
          cases hg : L[c.2 - 1]? with
          | none => rw [hg] at hlt; simp at hlt
          | some e => rw [hg] at hlt; simp only [Option.map_some, Option.some.injEq] at hlt; exact ⟨e, rfl, hlt⟩
        obtain ⟨e, hg1, hg2⟩ := hg
        rw [← hg2]
        apply h.leadTerms _ _ _ hL' e
        apply hp.subset
        rw [hg1] at hmg
        exact List.mem_of_getElem? hmg
      have hlm : lastTerm m = em.term := by simp [lastTerm, hem]
      have hlne : l ≠ [] := by
        intro e
        unfold UpToDate at hm2
        subst e
        simp only [lastTerm, List.getLast?_nil, Option.map_none, Option.getD_none, List.length_nil] at hm2
        rcases hm2 with h1 | ⟨_, h1⟩
        · omega
        · omega
      obtain ⟨el, hel⟩ : ∃ e, l.getLast? = some e := ⟨l.getLast hlne, List.getLast?_eq_some_getLast hlne⟩
      have hll : lastTerm l = el.term := by simp [lastTerm, hel]
      obtain ⟨i2, L2, hL2, hp2⟩ : ∃ i L, s.leaders el.term = some (i, L) ∧ l <+: L := (h.candValid _ hl).last hel
      have hlu : el.term < u := h.candTerms _ hl el (List.mem_of_getLast? hel)
      unfold UpToDate at hm2
      rw [hlm, hll] at hm2
      by_cases hs : c.1 < el.term
      · have hpre := ih el.term hlu (by omega) i2 L2 hL2
        -- the candidate's log reaches beyond the committed entries, because its last entry has a later term
        have hlen : c.2 ≤ l.length := by
          by_cases hcl : c.2 ≤ l.length
          · exact hcl
          · exfalso
            have h1 : l <+: L.take c.2 := by
              apply List.prefix_of_prefix_length_le hp2 hpre
              rw [List.length_take]; omega
            have h2 := h.leadTerms _ _ _ hL el (List.mem_of_mem_take (h1.subset (List.mem_of_getLast? hel)))
            omega
        apply List.prefix_of_prefix_length_le hpre hp2
        rw [List.length_take]; omega
      · have he : el.term = c.1 := by omega
        rw [he, hL] at hL2
        cases hL2
        have hlen : m.length ≤ l.length := by
          rcases hm2 with h1 | ⟨_, h1⟩
          · omega
          · exact h1
        apply List.prefix_of_prefix_length_le (List.take_prefix _ _) hp2
        rw [List.length_take]; omega

end Verif.Raft
