import Verif.Group.Model
/-!
# What every command keeps

The listing, the placement of vnodes, and the acknowledged writes on a majority of the voters.
-/
namespace Verif.Group

/-! ## Sets, majorities -/

theorem mem_setOf {a : Nat} {l : List Nat} : a ∈ setOf l ↔ a ∈ l := by
  induction l with
  | nil => simp [setOf]
  | cons b l ih =>
    simp only [setOf]
    split
    · rename_i h
      rw [ih, List.mem_cons]
      constructor
      · exact Or.inr
      · rintro (rfl | h1)
        · exact ih.1 h |> fun h2 => h2
        · exact h1
    · rw [List.mem_cons, List.mem_cons, ih]

theorem nodup_setOf (l : List Nat) : (setOf l).Nodup := by
  induction l with
  | nil => simp [setOf]
  | cons b l ih =>
    simp only [setOf]
    split
    · exact ih
    · rename_i h; exact List.nodup_cons.2 ⟨h, ih⟩

theorem filter_length_mono {p q : Nat → Bool} {l : List Nat} (h : ∀ x ∈ l, p x = true → q x = true) :
    (l.filter p).length ≤ (l.filter q).length := by
  rw [← List.countP_eq_length_filter, ← List.countP_eq_length_filter]
  exact List.countP_mono_left h

theorem sync_running {s : State} {q : List Nat} {n v : Nat} {log : List Nat} (h : (sync s q).nodes n = some (.running v log)) :
    ∃ log', s.nodes n = some (.running v log') := by
  simp only [sync] at h
  split at h
  · rename_i w log' hw
    rw [hw]
    injection h with h; injection h with h1 h2
    subst h1; exact ⟨_, rfl⟩
  · rename_i x hx
    rw [h]; exact ⟨_, rfl⟩

theorem running_sync {s : State} {q : List Nat} {n v : Nat} {log : List Nat} (h : s.nodes n = some (.running v log)) :
    ∃ log', (sync s q).nodes n = some (.running v log') := by
  simp only [sync, h]; exact ⟨_, rfl⟩

theorem alive_iff {s : State} {v : Nat} : alive s v = true ↔ ∃ log, s.nodes (s.home v) = some (.running v log) := by
  simp only [alive]
  split
  · rename_i u log h
    rw [h]
    simp only [beq_iff_eq, Option.some.injEq, Slot.running.injEq]
    constructor
    · rintro rfl; exact ⟨log, rfl, rfl⟩
    · rintro ⟨_, h1, _⟩; exact h1
  · rename_i h
    simp only [Bool.false_eq_true, false_iff]
    rintro ⟨log, h1⟩
    exact h _ _ h1

theorem holds_iff {s : State} {v : Nat} : holds s v = true ↔ s.nodes (s.home v) = some (.running v s.acked) := by
  simp [holds]

theorem holds_sync_of {s : State} {q : List Nat} {v : Nat} (h : holds s v = true) : holds (sync s q) v = true := by
  rw [holds_iff] at h ⊢
  show (sync s q).nodes (s.home v) = some (.running v s.acked)
  simp only [sync, h]
  split <;> rfl

theorem holds_sync {s : State} {q : List Nat} {v : Nat} (hv : v ∈ q) (h : alive s v = true) : holds (sync s q) v = true := by
  rw [alive_iff] at h
  obtain ⟨log, h⟩ := h
  rw [holds_iff]
  show (sync s q).nodes (s.home v) = some (.running v s.acked)
  simp only [sync, h, hv, and_self, if_true]

theorem majority_sync {s : State} {q vs : List Nat} (h : majority s q vs = true) :
    vs.length < 2 * (vs.filter (holds (sync s q))).length := by
  simp only [majority, decide_eq_true_eq] at h
  have := filter_length_mono (l := vs) (p := fun v => decide (v ∈ q) && alive s v) (q := holds (sync s q)) (by
    intro x _ hx
    simp only [Bool.and_eq_true, decide_eq_true_eq] at hx
    exact holds_sync hx.1 hx.2)
  omega

/-! ## The invariant -/

/-- What is true of a group in every state. -/
structure Inv (s : State) : Prop where
  nodes : ∀ l, s.listed = some l → (l.vnodes.map Vnode.node).Nodup
  leads : ∀ l, s.listed = some l → ∃ x ∈ l.vnodes, x.id = l.leaderV ∧ x.node = l.leaderN
  homes : ∀ l, s.listed = some l → ∀ x ∈ l.vnodes, s.home x.id = x.node ∧ x.id < s.nextId
  runs : ∀ n v log, s.nodes n = some (.running v log) → s.home v = n ∧ v < s.nextId
  known : ∀ v, v ∈ s.voters ∨ v ∈ s.learners → v < s.nextId
  single : s.voters.Nodup
  leader : s.leader ∈ s.voters
  safe : durable s = true

theorem nodup_node {l : List Vnode} (h : (l.map Vnode.node).Nodup) {x y : Vnode} (hx : x ∈ l) (hy : y ∈ l) (he : x.node = y.node) :
    x = y := by
  induction l with
  | nil => cases hx
  | cons a l ih =>
    simp only [List.map_cons, List.nodup_cons] at h
    rcases List.mem_cons.1 hx with rfl | hx1 <;> rcases List.mem_cons.1 hy with rfl | hy1
    · rfl
    · exact absurd (List.mem_map.2 ⟨y, hy1, he.symm⟩) h.1
    · exact absurd (List.mem_map.2 ⟨x, hx1, he⟩) h.1
    · exact ih h.2 hx1 hy1

/-- Two listed vnodes with one number are one vnode. -/
theorem Inv.same {s : State} (h : Inv s) {l : Listing} (hl : s.listed = some l) {x y : Vnode} (hx : x ∈ l.vnodes) (hy : y ∈ l.vnodes)
    (he : x.id = y.id) : x = y := by
  refine nodup_node (h.nodes l hl) hx hy ?_
  rw [← (h.homes l hl x hx).1, ← (h.homes l hl y hy).1, he]

/-- Durability in another state of the same voters where nothing was lost. -/
theorem durable_mono {s t : State} (hv : t.voters = s.voters) (h : ∀ v ∈ s.voters, holds s v = true → holds t v = true)
    (hs : durable s = true) : durable t = true := by
  simp only [durable, decide_eq_true_eq] at hs ⊢
  rw [hv]
  have := filter_length_mono h
  omega

theorem sync_inv {s : State} (q : List Nat) (h : Inv s) : Inv (sync s q) := by
  refine ⟨h.nodes, h.leads, h.homes, ?_, h.known, h.single, h.leader, ?_⟩
  · intro n v log hn
    obtain ⟨log', h1⟩ := sync_running hn
    exact h.runs n v log' h1
  · exact durable_mono (s := s) rfl (fun v _ hv => holds_sync_of hv) h.safe

theorem write_inv {s : State} (w : Nat) (q : List Nat) (h : Inv s) : Inv (write s w q) := by
  simp only [write]
  split
  · rename_i hm
    have hm' : majority { s with acked := s.acked ++ [w] } q s.voters = true := hm
    refine ⟨h.nodes, h.leads, h.homes, ?_, h.known, h.single, h.leader, ?_⟩
    · intro n v log hn
      obtain ⟨log', h1⟩ := sync_running hn
      exact h.runs n v log' h1
    · simp only [durable, decide_eq_true_eq]
      exact majority_sync hm'
  · exact h

theorem elect_inv {s : State} (v : Nat) (h : Inv s) : Inv (elect s v) := by
  simp only [elect]
  split
  · rename_i hv
    exact ⟨h.nodes, h.leads, h.homes, h.runs, h.known, h.single, hv.1, h.safe⟩
  · exact h

/-- What a change of the membership gives. -/
theorem change_some {goal : List Nat} {r : Bool} {q : List Nat} {nx : Nat} {s t : State} (h : change goal r q nx s = some t) :
    goal ≠ [] ∧ (∀ v ∈ goal, v ∈ s.voters ∨ v ∈ s.learners) ∧ majority s q goal = true ∧ t.voters = goal ∧ t.leader ∈ goal ∧
    t.listed = s.listed ∧ t.home = s.home ∧ t.nextId = s.nextId ∧ t.nodes = (sync s q).nodes ∧ t.acked = s.acked ∧
    (∀ v ∈ t.learners, v ∈ s.voters ∨ v ∈ s.learners) := by
  simp only [change] at h
  split at h
  · cases h
  · rename_i h1
    split at h
    · cases h
    · rename_i h2
      split at h
      · cases h
      · rename_i h3
        split at h
        · cases h
        · rename_i h4
          by_cases h5 : (if s.leader ∈ goal then s.leader else nx) ∈ goal
          · rw [if_pos h5] at h
            injection h with h; subst h
            refine ⟨h1, ?_, by simpa using h4, rfl, h5, rfl, rfl, rfl, rfl, rfl, ?_⟩
            · intro v hv
              simp only [Bool.not_eq_false, List.all_eq_true, decide_eq_true_eq] at h2
              exact h2 v hv
            · intro v hv
              simp only [List.mem_filter, List.mem_append] at hv
              rcases hv.1 with hv | hv
              · exact Or.inr hv
              · split at hv
                · exact Or.inl hv
                · cases hv
          · rw [if_neg h5] at h
            cases h

theorem change_inv {goal : List Nat} {r : Bool} {q : List Nat} {nx : Nat} {s t : State} (hg : goal.Nodup) (h : Inv s)
    (hc : change goal r q nx s = some t) : Inv t := by
  obtain ⟨_, hk, hm, hv, hl, h1, h2, h3, h4, h5, h6⟩ := change_some hc
  refine ⟨?_, ?_, ?_, ?_, ?_, ?_, ?_, ?_⟩
  · rw [h1]; exact h.nodes
  · rw [h1]; exact h.leads
  · rw [h1, h2, h3]; exact h.homes
  · intro n v log hn
    rw [h4] at hn
    obtain ⟨log', hn'⟩ := sync_running hn
    rw [h2, h3]; exact h.runs n v log' hn'
  · intro v hvl
    rw [h3]
    rcases hvl with h7 | h7
    · rw [hv] at h7; exact h.known v (hk v h7)
    · exact h.known v (h6 v h7)
  · rw [hv]; exact hg
  · rw [hv]; exact hl
  · have := majority_sync hm
    simp only [durable, decide_eq_true_eq, hv]
    have e : holds t = holds (sync s q) := by
      funext v
      simp only [holds, h4, h2, h5]
      rfl
    rw [e]; exact this

theorem addLearner_inv {v : Nat} {s t : State} (hv : v < s.nextId) (h : Inv s) (hc : addLearner v s = some t) :
    Inv t ∧ t.listed = s.listed ∧ t.nodes = s.nodes ∧ t.home = s.home ∧ t.nextId = s.nextId := by
  simp only [addLearner] at hc
  split at hc
  · injection hc with hc; subst hc; exact ⟨h, rfl, rfl, rfl, rfl⟩
  · injection hc with hc; subst hc
    refine ⟨⟨h.nodes, h.leads, h.homes, h.runs, ?_, h.single, h.leader, ?_⟩, rfl, rfl, rfl, rfl⟩
    · intro u hu
      rcases hu with hu | hu
      · exact h.known u (Or.inl hu)
      · rcases List.mem_cons.1 hu with rfl | hu
        · exact hv
        · exact h.known u (Or.inr hu)
    · exact durable_mono (s := s) rfl (fun v _ hv => hv) h.safe

/-- A node that runs a vnode of the group. -/
def Busy (s : State) (n : Nat) : Prop := ∃ v log, s.nodes n = some (.running v log)

theorem openNode_inv {n v : Nat} {s t : State} (hv : v < s.nextId) (hh : s.home v = n) (h : Inv s) (hc : openNode n v s = some t) :
    Inv t ∧ t.listed = s.listed ∧ t.home = s.home ∧ t.nextId = s.nextId ∧ Busy t n := by
  simp only [openNode] at hc
  split at hc
  · rename_i u log hu
    split at hc
    · injection hc with hc; subst hc; exact ⟨h, rfl, rfl, rfl, _, _, hu⟩
    · cases hc
  · rename_i hno
    injection hc with hc; subst hc
    refine ⟨⟨h.nodes, h.leads, h.homes, ?_, h.known, h.single, h.leader, ?_⟩, rfl, rfl, rfl, v, [], by simp⟩
    · intro m u log hm
      by_cases he : m = n
      · subst he
        simp only [if_true, Option.some.injEq, Slot.running.injEq] at hm
        obtain ⟨rfl, _⟩ := hm
        exact ⟨hh, hv⟩
      · simp only [he, if_false] at hm
        exact h.runs m u log hm
    · refine durable_mono (s := s) rfl (fun u _ hu => ?_) h.safe
      rw [holds_iff] at hu ⊢
      by_cases he : s.home u = n
      · rw [he] at hu; exact absurd hu (hno _ _)
      · simpa [he] using hu

theorem dropNode_inv {n : Nat} {s t : State} (h : Inv s) (hn : ∀ v ∈ s.voters, s.home v ≠ n) (hc : dropNode n s = some t) :
    Inv t ∧ t.listed = s.listed ∧ t.voters = s.voters ∧ t.home = s.home ∧ ¬ Busy t n := by
  simp only [dropNode] at hc
  split at hc
  · injection hc with hc; subst hc
    refine ⟨⟨h.nodes, h.leads, h.homes, ?_, h.known, h.single, h.leader, ?_⟩, rfl, rfl, rfl, ?_⟩
    · intro m u log hm
      by_cases he : m = n
      · subst he; simp at hm
      · simp only [he, if_false] at hm
        exact h.runs m u log hm
    · refine durable_mono (s := s) rfl (fun u hu hh => ?_) h.safe
      rw [holds_iff] at hh ⊢
      simpa [hn u hu] using hh
    · rintro ⟨v, log, h1⟩; simp at h1
  · rename_i hno
    injection hc with hc; subst hc
    exact ⟨h, rfl, rfl, rfl, fun ⟨v, log, h1⟩ => hno _ _ h1⟩

theorem takeId_inv {nid : Nat} {s t : State} (h : Inv s) (hc : takeId nid s = some t) :
    Inv t ∧ t.listed = s.listed ∧ t.nodes = s.nodes ∧ t.home s.nextId = nid ∧ s.nextId < t.nextId := by
  simp only [takeId, Option.some.injEq] at hc
  subst hc
  have hne : ∀ {v : Nat}, v < s.nextId → (if v = s.nextId then nid else s.home v) = s.home v := by
    intro v hv
    rw [if_neg (by omega)]
  refine ⟨⟨h.nodes, h.leads, ?_, ?_, ?_, h.single, h.leader, ?_⟩, rfl, rfl, by simp, by simp⟩
  · intro l hl x hx
    obtain ⟨h1, h2⟩ := h.homes l hl x hx
    exact ⟨(hne h2).trans h1, Nat.lt_succ_of_lt h2⟩
  · intro n v log hn
    obtain ⟨h1, h2⟩ := h.runs n v log hn
    exact ⟨(hne h2).trans h1, Nat.lt_succ_of_lt h2⟩
  · intro v hv
    exact Nat.lt_succ_of_lt (h.known v hv)
  · refine durable_mono (s := s) rfl (fun u hu hh => ?_) h.safe
    rw [holds_iff] at hh ⊢
    show s.nodes (if u = s.nextId then nid else s.home u) = _
    rw [hne (h.known u (Or.inl hu))]
    exact hh

/-- What a change of the listing gives. -/
theorem relist_some {del ad : List Vnode} {s t : State} (hc : relist del ad s = some t) :
    ∃ l, s.listed = some l ∧ t.nextId = s.nextId ∧ t.nodes = s.nodes ∧ t.home = s.home ∧ t.voters = s.voters ∧
      t.learners = s.learners ∧ t.leader = s.leader ∧ t.acked = s.acked ∧
      ((without del l.vnodes ++ ad = [] ∧ t.listed = none) ∨
       ∃ l', t.listed = some l' ∧ l'.vnodes = without del l.vnodes ++ ad ∧ l'.vnodes ≠ [] ∧
         ((∃ x ∈ l'.vnodes, x.id = l.leaderV) ∧ l'.leaderV = l.leaderV ∧ l'.leaderN = l.leaderN ∨
          ∃ x ∈ l'.vnodes, x.id = l'.leaderV ∧ x.node = l'.leaderN)) := by
  simp only [relist] at hc
  split at hc
  · cases hc
  · rename_i l hl
    refine ⟨l, hl, ?_⟩
    split at hc
    · rename_i he
      injection hc with hc; subst hc
      exact ⟨rfl, rfl, rfl, rfl, rfl, rfl, rfl, Or.inl ⟨he, rfl⟩⟩
    · rename_i v vs he
      split at hc
      · rename_i ha
        injection hc with hc; subst hc
        refine ⟨rfl, rfl, rfl, rfl, rfl, rfl, rfl, Or.inr ⟨_, rfl, he.symm, by simp, Or.inl ⟨?_, rfl, rfl⟩⟩⟩
        obtain ⟨x, hx, h1⟩ := List.any_eq_true.1 ha
        exact ⟨x, hx, by simpa using h1⟩
      · injection hc with hc; subst hc
        exact ⟨rfl, rfl, rfl, rfl, rfl, rfl, rfl, Or.inr ⟨_, rfl, he.symm, by simp, Or.inr ⟨v, by simp, rfl, rfl⟩⟩⟩

theorem without_sublist (del vs : List Vnode) : (without del vs).Sublist vs := List.filter_sublist

theorem relist_inv {del ad : List Vnode} {s t : State} (h : Inv s) (hc : relist del ad s = some t)
    (ha : ∀ x ∈ ad, s.home x.id = x.node ∧ x.id < s.nextId)
    (hn : ∀ l, s.listed = some l → ((without del l.vnodes ++ ad).map Vnode.node).Nodup) : Inv t := by
  obtain ⟨l, hl, e1, e2, e3, e4, e5, e6, e7, hr⟩ := relist_some hc
  have hall : ∀ x ∈ without del l.vnodes ++ ad, s.home x.id = x.node ∧ x.id < s.nextId := by
    intro x hx
    rcases List.mem_append.1 hx with hx | hx
    · exact h.homes l hl x ((without_sublist _ _).subset hx)
    · exact ha x hx
  have hd : durable t = true := durable_mono (s := s) e4 (fun v _ hv => by
    rw [holds_iff] at hv ⊢; rw [e2, e3, e7]; exact hv) h.safe
  refine ⟨?_, ?_, ?_, ?_, ?_, ?_, ?_, hd⟩
  · intro l2 hl2
    rcases hr with ⟨_, hr⟩ | ⟨l', hl', hv, _⟩
    · rw [hr] at hl2; cases hl2
    · rw [hl'] at hl2; injection hl2 with hl2; subst hl2
      rw [hv]; exact hn l hl
  · intro l2 hl2
    rcases hr with ⟨_, hr⟩ | ⟨l', hl', hv, _, hx⟩
    · rw [hr] at hl2; cases hl2
    · rw [hl'] at hl2; injection hl2 with hl2; subst hl2
      rcases hx with ⟨⟨x, hx, hid⟩, h1, h2⟩ | hx
      · refine ⟨x, hx, hid.trans h1.symm, ?_⟩
        rw [hv] at hx
        obtain ⟨y, hy, hy1, hy2⟩ := h.leads l hl
        rw [h2, ← (hall x hx).1, hid, ← hy1, (h.homes l hl y hy).1, hy2]
      · exact hx
  · intro l2 hl2
    rcases hr with ⟨_, hr⟩ | ⟨l', hl', hv, _⟩
    · rw [hr] at hl2; cases hl2
    · rw [hl'] at hl2; injection hl2 with hl2; subst hl2
      rw [hv, e1, e3]; exact hall
  · rw [e1, e2, e3]; exact h.runs
  · rw [e1, e4, e5]; exact h.known
  · rw [e4]; exact h.single
  · rw [e4, e6]; exact h.leader

/-- What writing down another leader gives. -/
theorem newLeader_some {v n : Nat} {s t : State} (hc : newLeader fresh v s = some (t, n)) :
    ∃ l x, s.listed = some l ∧ x ∈ l.vnodes ∧ x.id = v ∧ x.node = n ∧
      t = { s with listed := some { l with leaderV := x.id, leaderN := x.node } } := by
  simp only [newLeader, fresh] at hc
  cases hl : s.listed with
  | none => simp [hl] at hc
  | some l =>
    simp only [hl, Option.bind_some] at hc
    split at hc
    · cases hc
    · rename_i x hx
      injection hc with hc; injection hc with h1 h2
      refine ⟨l, x, rfl, List.mem_of_find?_eq_some hx, ?_, h2, h1.symm⟩
      have := List.find?_some hx
      simpa using this

theorem newLeader_inv {v n : Nat} {s t : State} (h : Inv s) (hc : newLeader fresh v s = some (t, n)) : Inv t := by
  obtain ⟨l, x, hl, hx, _, _, rfl⟩ := newLeader_some hc
  refine ⟨?_, ?_, ?_, h.runs, h.known, h.single, h.leader, ?_⟩
  · intro l2 hl2; injection hl2 with hl2; subst hl2; exact h.nodes l hl
  · intro l2 hl2; injection hl2 with hl2; subst hl2; exact ⟨x, hx, rfl, rfl⟩
  · intro l2 hl2; injection hl2 with hl2; subst hl2; exact h.homes l hl
  · exact durable_mono (s := s) rfl (fun v _ hv => hv) h.safe

/-! ## Steps, attempts -/

theorem step_inv {P : State → Prop} {o : Out} {act : State → Option State} {e : Err} {s : State} {k : State → Res} (hs : P s)
    (ha : ∀ t, act s = some t → P t) (hk : ∀ t, act s = some t → P (k t).1) : P (step o act e s k).1 := by
  cases o with
  | failed => exact hs
  | lost =>
    show P ((act s).getD s)
    cases h : act s with
    | none => exact hs
    | some t => exact ha t h
  | done =>
    simp only [step]
    cases h : act s with
    | none => exact hs
    | some t => exact hk t h

theorem step_ok {o : Out} {act : State → Option State} {e : Err} {s : State} {k : State → Res}
    (h : (step o act e s k).2 = .ok ()) : ∃ t, act s = some t ∧ step o act e s k = k t := by
  cases o with
  | failed => simp [step] at h
  | lost => simp [step] at h
  | done =>
    simp only [step] at h ⊢
    cases ha : act s with
    | none => simp [ha] at h
    | some t => exact ⟨t, rfl, rfl⟩

theorem loop_inv {P : State → Prop} {call : Call} {view : State → Option Listing} {ln : Nat}
    (hc : ∀ k n s, P s → P (call k n s).1) (hl : ∀ v s t n, P s → newLeader view v s = some (t, n) → P t) :
    ∀ (xs : List Vnode) (k : Nat) (r : Except Err Unit) (s : State), P s → P (loop call view ln k xs r s).1 := by
  intro xs
  induction xs with
  | nil => intro k r s hs; exact hs
  | cons x xs ih =>
    intro k r s hs
    have h1 := hc k x.node s hs
    simp only [loop]
    split
    · rename_i t ht; rw [ht] at h1; exact ih _ _ _ h1
    · rename_i t v ht
      rw [ht] at h1
      have h2 : P (redirect call view (k + 1) v t).1 := by
        simp only [redirect]
        cases hn : newLeader view v t with
        | none => exact h1
        | some p => exact hc _ _ _ (hl v t p.1 p.2 h1 hn)
      split
      · rename_i u _ hu; rw [hu] at h2; exact h2
      · rename_i u _ hu; rw [hu] at h2; exact ih _ _ _ h2
    · rename_i t _ ht
      rw [ht] at h1
      split
      · exact h1
      · cases hn : newLeader view x.id t with
        | none => exact h1
        | some p => exact hl x.id t p.1 p.2 h1 hn
    · rename_i t _ _ _ ht; rw [ht] at h1; exact h1

theorem exec_inv {P : State → Prop} {call : Call} {view : State → Option Listing} {l : Listing} {s : State}
    (hc : ∀ k n s, P s → P (call k n s).1) (hl : ∀ v s t n, P s → newLeader view v s = some (t, n) → P t) (hs : P s) :
    P (exec call view l s).1 := loop_inv hc hl _ _ _ _ hs

/-- A command that succeeds has succeeded at some node, in a state that the attempts before left. -/
theorem loop_ok {P : State → Prop} {call : Call} {view : State → Option Listing} {ln : Nat}
    (hc : ∀ k n s, P s → P (call k n s).1) (hl : ∀ v s t n, P s → newLeader view v s = some (t, n) → P t) :
    ∀ (xs : List Vnode) (k : Nat) (r : Except Err Unit) (s : State), P s → r ≠ .ok () → (loop call view ln k xs r s).2 = .ok () →
      ∃ k' n s0, P s0 ∧ (call k' n s0).2 = .ok () ∧
        ((loop call view ln k xs r s).1 = (call k' n s0).1 ∨
         ∃ v m, newLeader view v (call k' n s0).1 = some ((loop call view ln k xs r s).1, m)) := by
  intro xs
  induction xs with
  | nil => intro k r s hs hr h; exact absurd h hr
  | cons x xs ih =>
    intro k r s hs hr h
    have h1 := hc k x.node s hs
    simp only [loop] at h ⊢
    split at h
    · rename_i t ht; rw [ht] at h1
      exact ih _ _ _ h1 (by simp) h
    · rename_i t v ht
      rw [ht] at h1
      cases hn : newLeader view v t with
      | none =>
        simp only [redirect, hn] at h ⊢
        exact ih _ _ _ h1 (by simp) h
      | some p =>
        simp only [redirect, hn] at h ⊢
        have hp := hl v t p.1 p.2 h1 hn
        have h3 := hc (k + 1) p.2 p.1 hp
        cases hcall : call (k + 1) p.2 p.1 with
        | mk u r2 =>
          rw [hcall] at h3
          cases r2 with
          | ok a =>
            cases a
            exact ⟨k + 1, p.2, p.1, hp, by rw [hcall], Or.inl (by rw [hcall])⟩
          | error e =>
            simp only [hcall] at h ⊢
            exact ih _ _ _ h3 (by simp) h
    · rename_i t a ht
      cases a
      refine ⟨k, x.node, s, hs, by rw [ht], ?_⟩
      rw [ht]
      simp only
      split
      · exact Or.inl rfl
      · cases hn : newLeader view x.id t with
        | none => exact Or.inl rfl
        | some p => exact Or.inr ⟨x.id, p.2, hn⟩
    · cases h

theorem exec_ok {P : State → Prop} {call : Call} {view : State → Option Listing} {l : Listing} {s : State}
    (hc : ∀ k n s, P s → P (call k n s).1) (hl : ∀ v s t n, P s → newLeader view v s = some (t, n) → P t) (hs : P s)
    (h : (exec call view l s).2 = .ok ()) :
    ∃ k n s0, P s0 ∧ (call k n s0).2 = .ok () ∧
      ((exec call view l s).1 = (call k n s0).1 ∨ ∃ v m, newLeader view v (call k n s0).1 = some ((exec call view l s).1, m)) :=
  loop_ok hc hl _ _ _ _ hs (by simp) h

theorem reach_inv {P : State → Prop} {up : Nat → Bool} {run : Nat → Nat → State → Res} (hc : ∀ k n s, P s → P (run k n s).1) :
    ∀ k n s, P s → P (reach up run k n s).1 := by
  intro k n s hs
  simp only [reach]
  split
  · exact hc k n s hs
  · exact hs

theorem reach_ok {up : Nat → Bool} {run : Nat → Nat → State → Res} {k n : Nat} {s : State} (h : (reach up run k n s).2 = .ok ()) :
    reach up run k n s = run k n s := by
  simp only [reach] at h ⊢
  split
  · rfl
  · rename_i hu; simp [hu] at h

/-! ## The commands -/

/-- The node is not listed, or a vnode of the group runs there: ADD cannot list it a second time. -/
def AddOk (nid : Nat) (s : State) : Prop := (∀ l, s.listed = some l → nid ∉ l.vnodes.map Vnode.node) ∨ Busy s nid

theorem busy_sync {s : State} {q : List Nat} {n : Nat} (h : Busy s n) : Busy (sync s q) n := by
  obtain ⟨v, log, h⟩ := h
  obtain ⟨log', h'⟩ := running_sync (q := q) h
  exact ⟨v, log', h'⟩

theorem busy_of_nodes {s t : State} {n : Nat} (h : Busy s n) (e : t.nodes = s.nodes) : Busy t n := by
  obtain ⟨v, log, h⟩ := h
  exact ⟨v, log, by rw [e]; exact h⟩

theorem add_inv {env : Env} {n nid : Nat} {s : State} (h : Inv s) (ho : AddOk nid s) :
    Inv (add env fresh n nid s).1 ∧ AddOk nid (add env fresh n nid s).1 := by
  simp only [add]
  cases hl : fresh s with
  | none => exact ⟨h, ho⟩
  | some l =>
    cases hd : lead env n s with
    | error e => exact ⟨h, ho⟩
    | ok me =>
      have hls : s.listed = some l := hl
      refine step_inv (P := fun t => Inv t ∧ AddOk nid t) ⟨h, ho⟩ ?_ ?_
      · intro t ht
        obtain ⟨h1, h2, h3, _⟩ := takeId_inv h ht
        refine ⟨h1, ?_⟩
        rcases ho with ho | ho
        · exact Or.inl (by rw [h2]; exact ho)
        · exact Or.inr (busy_of_nodes ho h3)
      · intro s1 hs1
        obtain ⟨i1, l1, n1, m1, k1⟩ := takeId_inv h hs1
        have ho1 : AddOk nid s1 := by
          rcases ho with ho | ho
          · exact Or.inl (by rw [l1]; exact ho)
          · exact Or.inr (busy_of_nodes ho n1)
        have key : ∀ s2, openNode nid s.nextId s1 = some s2 → nid ∉ l.vnodes.map Vnode.node := by
          intro s2 hs2 hin
          rcases ho with ho | ⟨v, log, ho⟩
          · exact ho l hls hin
          · simp only [openNode, n1, ho] at hs2
            split at hs2
            · rename_i he
              have := (h.runs nid v log ho).2
              omega
            · cases hs2
        refine step_inv (P := fun t => Inv t ∧ AddOk nid t) ⟨i1, ho1⟩ ?_ ?_
        · intro t ht
          obtain ⟨j1, _, _, _, j5⟩ := openNode_inv k1 m1 i1 ht
          exact ⟨j1, Or.inr j5⟩
        · intro s2 hs2
          obtain ⟨i2, l2, m2, k2, b2⟩ := openNode_inv k1 m1 i1 hs2
          have hnot := key s2 hs2
          refine step_inv (P := fun t => Inv t ∧ AddOk nid t) ⟨i2, Or.inr b2⟩ ?_ ?_
          · intro t ht
            obtain ⟨j1, _, j3, _⟩ := addLearner_inv (by omega) i2 ht
            exact ⟨j1, Or.inr (busy_of_nodes b2 j3)⟩
          · intro s3 hs3
            obtain ⟨i3, l3, n3, m3, k3⟩ := addLearner_inv (by omega) i2 hs3
            have b3 := busy_of_nodes b2 n3
            refine step_inv (P := fun t => Inv t ∧ AddOk nid t) ⟨i3, Or.inr b3⟩ ?_ ?_
            · intro t ht
              obtain ⟨_, _, _, _, _, _, _, _, hn4, _⟩ := change_some ht
              exact ⟨change_inv (nodup_setOf _) i3 ht, Or.inr (busy_of_nodes (busy_sync b3) hn4)⟩
            · intro s4 hs4
              have i4 := change_inv (nodup_setOf _) i3 hs4
              obtain ⟨_, _, _, _, _, l4, m4, k4, n4, _⟩ := change_some hs4
              have b4 : Busy s4 nid := busy_of_nodes (busy_sync b3) n4
              have fin : ∀ t, relist [] [⟨s.nextId, nid⟩] s4 = some t → Inv t ∧ AddOk nid t := by
                intro t ht
                obtain ⟨_, _, _, hn5, _⟩ := relist_some ht
                refine ⟨relist_inv i4 ht ?_ ?_, Or.inr (busy_of_nodes b4 hn5)⟩
                · intro x hx
                  rw [List.mem_singleton] at hx
                  subst hx
                  refine ⟨?_, ?_⟩
                  · rw [m4, m3, m2]; exact m1
                  · show s.nextId < s4.nextId
                    omega
                · intro l5 hl5
                  rw [l4, l3, l2, l1, hls] at hl5
                  injection hl5 with hl5; subst hl5
                  have hw : without [] l.vnodes = l.vnodes := by simp [without]
                  rw [hw, List.map_append, List.nodup_append]
                  refine ⟨h.nodes l hls, by simp, ?_⟩
                  intro a ha b hb
                  simp only [List.map_cons, List.map_nil, List.mem_singleton] at hb
                  subst hb
                  rintro rfl
                  exact hnot ha
              refine step_inv (P := fun t => Inv t ∧ AddOk nid t) ⟨i4, Or.inr b4⟩ fin ?_
              intro s5 hs5
              exact fin s5 hs5

theorem find_some {l : List Vnode} {v : Nat} {x : Vnode} (h : (l.find? fun x => x.id == v) = some x) : x ∈ l ∧ x.id = v :=
  ⟨List.mem_of_find?_eq_some h, by simpa using List.find?_some h⟩

/-- The voters that REMOVE asks for live on other nodes. -/
theorem rest_homes {s : State} (h : Inv s) {l : Listing} (hl : s.listed = some l) {x : Vnode} (hx : x ∈ l.vnodes) {u : Nat}
    (hu : u ∈ setOf (ids (l.vnodes.filter fun y => y.id != x.id))) : s.home u ≠ x.node := by
  rw [mem_setOf, ids, List.mem_map] at hu
  obtain ⟨y, hy, rfl⟩ := hu
  rw [List.mem_filter] at hy
  rw [(h.homes l hl y hy.1).1]
  intro he
  have := nodup_node (h.nodes l hl) hy.1 hx he
  rw [this] at hy
  simp at hy

theorem remove_inv {env : Env} {n v : Nat} {s : State} (h : Inv s) : Inv (remove env fresh n v s).1 := by
  simp only [remove]
  cases hl : fresh s with
  | none => exact h
  | some l =>
    have hls : s.listed = some l := hl
    dsimp only
    cases hf : l.vnodes.find? fun x => x.id == v with
    | none => exact h
    | some x =>
      obtain ⟨hx, hxv⟩ := find_some hf
      subst hxv
      cases hd : lead env n s with
      | error e => exact h
      | ok me =>
        refine step_inv (P := Inv) h (fun t ht => change_inv (nodup_setOf _) h ht) ?_
        intro s1 hs1
        have i1 := change_inv (nodup_setOf _) h hs1
        obtain ⟨_, _, _, v1, _, l1, m1, _⟩ := change_some hs1
        have hh : ∀ u ∈ s1.voters, s1.home u ≠ x.node := by
          intro u hu
          rw [v1] at hu
          rw [m1]
          exact rest_homes h hls hx hu
        refine step_inv (P := Inv) i1 (fun t ht => (dropNode_inv i1 hh ht).1) ?_
        intro s2 hs2
        obtain ⟨i2, l2, _⟩ := dropNode_inv i1 hh hs2
        have fin : ∀ t, relist [x] [] s2 = some t → Inv t := by
          intro t ht
          refine relist_inv i2 ht (by intro y hy; cases hy) ?_
          intro l3 hl3
          rw [l2, l1, hls] at hl3
          injection hl3 with hl3; subst hl3
          rw [List.append_nil]
          exact (h.nodes l hls).sublist ((without_sublist _ _).map _)
        exact step_inv (P := Inv) i2 fin (fun s3 hs3 => fin s3 hs3)

theorem follow_inv {env : Env} {n : Nat} {s : State} (h : Inv s) : Inv (follow env fresh n s).1 := by
  simp only [follow]
  cases hl : fresh s with
  | none => exact h
  | some l =>
    cases hd : lead env n s with
    | error e => exact h
    | ok me =>
      exact step_inv (P := Inv) h (fun t ht => change_inv (nodup_setOf _) h ht) (fun t ht => change_inv (nodup_setOf _) h ht)

theorem promote_inv {env : Env} {env2 : Nat → Env} {up : Nat → Bool} {n v : Nat} {s : State} (h : Inv s) :
    Inv (promote env env2 up fresh n v s).1 := by
  simp only [promote]
  cases hl : fresh s with
  | none => exact h
  | some l =>
    dsimp only
    split
    · exact h
    · split
      · exact h
      · cases hd : lead env n s with
        | error e => exact h
        | ok me =>
          refine step_inv (P := Inv) h (fun t ht => change_inv (by simp) h ht) ?_
          intro s1 hs1
          refine exec_inv (P := Inv) (reach_inv fun k m t ht => follow_inv ht) (fun v s t n hs ht => newLeader_inv hs ht) ?_
          exact change_inv (by simp) h hs1

theorem newLeader_addOk {nid v n : Nat} {s t : State} (h : AddOk nid s) (hc : newLeader fresh v s = some (t, n)) : AddOk nid t := by
  obtain ⟨l, x, hl, _, _, _, rfl⟩ := newLeader_some hc
  rcases h with h | h
  · refine Or.inl fun l2 hl2 => ?_
    injection hl2 with hl2; subst hl2
    exact h l hl
  · exact Or.inr h

theorem addCmd_inv {r : Run} (hr : r.view = fresh) {nid : Nat} {s : State} (h : Inv s) : Inv (addCmd r nid s).1 := by
  simp only [addCmd, hr]
  cases hl : fresh s with
  | none => exact h
  | some l =>
    have hls : s.listed = some l := hl
    dsimp only
    split
    · exact h
    · rename_i hno
      have ho : AddOk nid s := by
        refine Or.inl fun l2 hl2 => ?_
        rw [hls] at hl2; injection hl2 with hl2; subst hl2
        intro hin
        obtain ⟨x, hx, he⟩ := List.mem_map.1 hin
        exact hno (List.any_eq_true.2 ⟨x, hx, by simpa using he⟩)
      exact (exec_inv (P := fun t => Inv t ∧ AddOk nid t) (reach_inv fun k m t ht => add_inv ht.1 ht.2)
        (fun v s t n hs ht => ⟨newLeader_inv hs.1 ht, newLeader_addOk hs.2 ht⟩) ⟨h, ho⟩).1

theorem promoteCmd_inv {r : Run} (hr : r.view = fresh) {env : Nat → Env} {v : Nat} {s : State} (h : Inv s) :
    Inv (promoteCmd r env v s).1 := by
  simp only [promoteCmd, hr]
  cases hl : fresh s with
  | none => exact h
  | some l =>
    exact exec_inv (P := Inv) (reach_inv fun k m t ht => promote_inv ht) (fun v s t n hs ht => newLeader_inv hs ht) h

theorem checkRemove_inv {r : Run} (hr : r.view = fresh) {v : Nat} {s : State} (h : Inv s) : Inv (checkRemove r v s).1 := by
  simp only [checkRemove]
  cases hl : s.listed with
  | none => exact h
  | some l =>
    dsimp only
    split
    · split
      · exact h
      · exact promoteCmd_inv hr h
    · exact h

theorem removeCmd_inv {r : Run} (hr : r.view = fresh) {v : Nat} {s : State} (h : Inv s) : Inv (removeCmd r v s).1 := by
  simp only [removeCmd]
  cases hl : r.view s with
  | none => exact h
  | some l0 =>
    dsimp only
    split
    · exact h
    · have hc := checkRemove_inv hr (v := v) h
      split
      · rename_i t e ht; rw [ht] at hc; exact hc
      · rename_i t _ ht
        rw [ht] at hc
        rw [hr]
        cases hl2 : fresh t with
        | none => exact hc
        | some l =>
          exact exec_inv (P := Inv) (reach_inv fun k m t ht => remove_inv ht) (fun v s t n hs ht => newLeader_inv hs ht) hc

theorem writeAt_inv {env : Env} {n w : Nat} {s : State} (h : Inv s) : Inv (writeAt env n w s).1 := by
  simp only [writeAt]
  cases hd : lead env n s with
  | error e => exact h
  | ok me =>
    dsimp only
    split
    · exact write_inv w env.q h
    · exact h

theorem writeCmd_inv {r : Run} (hr : r.view = fresh) {w : Nat} {s : State} (h : Inv s) : Inv (writeCmd r w s).1 := by
  simp only [writeCmd, hr]
  cases hl : fresh s with
  | none => exact h
  | some l =>
    exact exec_inv (P := Inv) (reach_inv fun k m t ht => writeAt_inv ht) (fun v s t n hs ht => newLeader_inv hs ht) h

theorem apply_inv {s : State} {e : Event} (he : e.Fresh) (h : Inv s) : Inv (apply s e) := by
  cases e with
  | write r w => exact writeCmd_inv he h
  | elect v => exact elect_inv v h
  | add r nid => exact addCmd_inv he h
  | remove r v => exact removeCmd_inv he h
  | promote r v => exact promoteCmd_inv he h

theorem run_inv {es : List Event} {s : State} (he : ∀ e ∈ es, e.Fresh) (h : Inv s) : Inv (es.foldl apply s) := by
  induction es generalizing s with
  | nil => exact h
  | cons e es ih =>
    exact ih (fun x hx => he x (List.mem_cons_of_mem _ hx)) (apply_inv (he e (by simp)) h)

end Verif.Group
