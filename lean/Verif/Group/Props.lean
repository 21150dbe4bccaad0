import Verif.Group.Inv
/-!
# What a replica command that succeeds, or fails, leaves behind (C186–C189)
-/
namespace Verif.Group

/-- The voters of the group are the listed replicas. -/
def Agree (s : State) : Prop := ∃ l, s.listed = some l ∧ ∀ v, v ∈ s.voters ↔ v ∈ ids l.vnodes

theorem newLeader_agree {v n : Nat} {s t : State} (h : Agree s) (hc : newLeader fresh v s = some (t, n)) : Agree t := by
  obtain ⟨l, x, hl, _, _, _, rfl⟩ := newLeader_some hc
  obtain ⟨l2, hl2, h2⟩ := h
  rw [hl] at hl2; injection hl2 with hl2; subst hl2
  exact ⟨_, rfl, h2⟩

/-- The node has a listed replica that votes. -/
def Member (nid : Nat) (s : State) : Prop := ∃ l x, s.listed = some l ∧ x ∈ l.vnodes ∧ x.node = nid ∧ x.id ∈ s.voters

theorem newLeader_member {nid v n : Nat} {s t : State} (h : Member nid s) (hc : newLeader fresh v s = some (t, n)) : Member nid t := by
  obtain ⟨l, x, hl, _, _, _, rfl⟩ := newLeader_some hc
  obtain ⟨l2, y, hl2, h2, h3, h4⟩ := h
  rw [hl] at hl2; injection hl2 with hl2; subst hl2
  exact ⟨_, y, rfl, h2, h3, h4⟩

theorem add_ok {env : Env} {n nid : Nat} {s : State} (h : Inv s) (hok : (add env fresh n nid s).2 = .ok ()) :
    Agree (add env fresh n nid s).1 ∧ Member nid (add env fresh n nid s).1 := by
  simp only [add] at hok ⊢
  cases hl : fresh s with
  | none => simp [hl] at hok
  | some l =>
    have hls : s.listed = some l := hl
    cases hd : lead env n s with
    | error e => simp [hl, hd] at hok
    | ok me =>
      simp only [hl, hd] at hok ⊢
      obtain ⟨s1, a1, e1⟩ := step_ok hok
      rw [e1] at hok ⊢
      obtain ⟨s2, a2, e2⟩ := step_ok hok
      rw [e2] at hok ⊢
      obtain ⟨s3, a3, e3⟩ := step_ok hok
      rw [e3] at hok ⊢
      obtain ⟨s4, a4, e4⟩ := step_ok hok
      rw [e4] at hok ⊢
      obtain ⟨s5, a5, e5⟩ := step_ok hok
      rw [e5]
      obtain ⟨i1, l1, _, m1, k1⟩ := takeId_inv h a1
      obtain ⟨i2, l2, _, k2, _⟩ := openNode_inv k1 m1 i1 a2
      obtain ⟨i3, l3, _, _, k3⟩ := addLearner_inv (by omega) i2 a3
      obtain ⟨_, _, _, v4, _, l4, _⟩ := change_some a4
      obtain ⟨l', hl', _, _, _, v5, _, _, _, hr⟩ := relist_some a5
      rw [l4, l3, l2, l1, hls] at hl'
      injection hl' with hl'; subst hl'
      have hw : without [] l.vnodes = l.vnodes := by simp [without]
      rw [hw] at hr
      rcases hr with ⟨hr, _⟩ | ⟨l5, hl5, hv5, _⟩
      · simp at hr
      · refine ⟨⟨l5, hl5, ?_⟩, ⟨l5, ⟨s.nextId, nid⟩, hl5, ?_, rfl, ?_⟩⟩
        · intro v
          show v ∈ s5.voters ↔ _
          rw [v5, v4, mem_setOf, hv5, ids, ids, List.map_append, List.mem_append, List.mem_cons]
          simp only [List.map_cons, List.map_nil, List.mem_singleton]
          exact Or.comm
        · rw [hv5]; simp
        · show s.nextId ∈ s5.voters
          rw [v5, v4, mem_setOf]; simp

/-- **C186** (partial): a REPLICA ADD that succeeds, run by nodes that know the listing, leaves a group whose voters are exactly the listed
replicas, and one of them is on the node. -/
theorem C186_add_partial {r : Run} (hr : r.view = fresh) {nid : Nat} {s : State} (h : Inv s) (hok : (addCmd r nid s).2 = .ok ()) :
    Agree (addCmd r nid s).1 ∧ Member nid (addCmd r nid s).1 := by
  simp only [addCmd, hr] at hok ⊢
  cases hl : fresh s with
  | none => simp [hl] at hok
  | some l =>
    have hls : s.listed = some l := hl
    simp only [hl] at hok ⊢
    split at hok
    · simp at hok
    · rename_i hno
      rw [if_neg hno]
      have ho : AddOk nid s := by
        refine Or.inl fun l2 hl2 => ?_
        rw [hls] at hl2; injection hl2 with hl2; subst hl2
        intro hin
        obtain ⟨x, hx, he⟩ := List.mem_map.1 hin
        exact hno (List.any_eq_true.2 ⟨x, hx, by simpa using he⟩)
      obtain ⟨k, n, s0, hs0, hc, hfin⟩ := exec_ok (P := fun t => Inv t ∧ AddOk nid t) (reach_inv fun k m t ht => add_inv ht.1 ht.2)
        (fun v s t n hs ht => ⟨newLeader_inv hs.1 ht, newLeader_addOk hs.2 ht⟩) ⟨h, ho⟩ hok
      have hre := reach_ok hc
      rw [hre] at hc hfin
      have hg := add_ok hs0.1 hc
      rcases hfin with hfin | ⟨v, m, hfin⟩
      · rw [hfin]; exact hg
      · exact ⟨newLeader_agree hg.1 hfin, newLeader_member hg.2 hfin⟩

/-- The vnode is listed, or it is out of the group: not listed, not running, and the voters are the listed replicas. -/
def Gone (v : Nat) (s : State) : Prop :=
  Agree s ∧ alive s v = false ∧ ∀ l, s.listed = some l → v ∉ ids l.vnodes

/-- The vnode is listed. -/
def Listed (v : Nat) (s : State) : Prop := ∃ l x, s.listed = some l ∧ x ∈ l.vnodes ∧ x.id = v

theorem newLeader_gone {u v n : Nat} {s t : State} (h : Gone u s) (hc : newLeader fresh v s = some (t, n)) : Gone u t := by
  refine ⟨newLeader_agree h.1 hc, ?_, ?_⟩
  · obtain ⟨l, x, hl, _, _, _, rfl⟩ := newLeader_some hc
    exact h.2.1
  · obtain ⟨l, x, hl, _, _, _, rfl⟩ := newLeader_some hc
    intro l2 hl2
    injection hl2 with hl2; subst hl2
    exact h.2.2 l hl

theorem newLeader_listed {u v n : Nat} {s t : State} (h : Listed u s) (hc : newLeader fresh v s = some (t, n)) : Listed u t := by
  obtain ⟨l, x, hl, _, _, _, rfl⟩ := newLeader_some hc
  obtain ⟨l2, y, hl2, h2, h3⟩ := h
  rw [hl] at hl2; injection hl2 with hl2; subst hl2
  exact ⟨_, y, rfl, h2, h3⟩

theorem listed_of {v : Nat} {s t : State} (h : Listed v s) (e : t.listed = s.listed) : Listed v t := by
  obtain ⟨l, x, hl, h1⟩ := h
  exact ⟨l, x, by rw [e]; exact hl, h1⟩

/-- Removing a listed vnode: in the end it is listed still, or it is out of the group; when REMOVE succeeds, it is out. -/
theorem remove_gone {env : Env} {n v : Nat} {s : State} (h : Inv s) (hg : Listed v s ∨ Gone v s) :
    (Listed v (remove env fresh n v s).1 ∨ Gone v (remove env fresh n v s).1) ∧
    ((remove env fresh n v s).2 = .ok () → Gone v (remove env fresh n v s).1) := by
  simp only [remove]
  cases hl : fresh s with
  | none => exact ⟨hg, fun h => by simp at h⟩
  | some l =>
    have hls : s.listed = some l := hl
    dsimp only
    cases hf : l.vnodes.find? fun x => x.id == v with
    | none =>
      have hno : ¬ Listed v s := by
        rintro ⟨l2, x, hl2, hx, hxv⟩
        rw [hls] at hl2; injection hl2 with hl2; subst hl2
        have := List.find?_eq_none.1 hf x hx
        simp [hxv] at this
      rcases hg with hg | hg
      · exact absurd hg hno
      · exact ⟨Or.inr hg, fun _ => hg⟩
    | some x =>
      obtain ⟨hx, hxv⟩ := find_some hf
      have hlist : Listed v s := ⟨l, x, hls, hx, hxv⟩
      cases hd : lead env n s with
      | error e => exact ⟨Or.inl hlist, fun h => by simp at h⟩
      | ok me =>
        have fin : ∀ s1 s2 t, change (setOf (ids (l.vnodes.filter fun y => y.id != v))) false env.q env.next s = some s1 →
            dropNode x.node s1 = some s2 → relist [x] [] s2 = some t → Gone v t := by
          intro s1 s2 t a1 a2 a3
          have i1 := change_inv (nodup_setOf _) h a1
          obtain ⟨g1, _, _, v1, _, l1, m1, _⟩ := change_some a1
          have hh : ∀ u ∈ s1.voters, s1.home u ≠ x.node := by
            intro u hu
            rw [v1] at hu
            rw [m1]
            subst hxv
            exact rest_homes h hls hx hu
          obtain ⟨i2, l2, v2, m2, nb⟩ := dropNode_inv i1 hh a2
          obtain ⟨l', hl', _, n3, m3, v3, _, _, _, hr⟩ := relist_some a3
          rw [l2, l1, hls] at hl'
          injection hl' with hl'; subst hl'
          rw [List.append_nil] at hr
          have hmem : ∀ u, u ∈ ids (without [x] l.vnodes) ↔ u ∈ ids (l.vnodes.filter fun y => y.id != v) := by
            intro u
            simp only [ids, List.mem_map, without, List.mem_filter, List.mem_singleton, decide_not, Bool.not_eq_true',
              decide_eq_false_iff_not, bne_iff_ne]
            constructor
            · rintro ⟨y, ⟨hy, hne⟩, rfl⟩
              exact ⟨y, ⟨hy, fun he => hne (h.same hls hy hx (he.trans hxv.symm))⟩, rfl⟩
            · rintro ⟨y, ⟨hy, hne⟩, rfl⟩
              exact ⟨y, ⟨hy, fun he => hne (by rw [he]; exact hxv)⟩, rfl⟩
          rcases hr with ⟨hr, _⟩ | ⟨l3, hl3, hv3, _⟩
          · exfalso
            apply g1
            cases hs : setOf (ids (l.vnodes.filter fun y => y.id != v)) with
            | nil => rfl
            | cons a b =>
              have : a ∈ setOf (ids (l.vnodes.filter fun y => y.id != v)) := by rw [hs]; simp
              rw [mem_setOf, ← hmem, hr] at this
              simp [ids] at this
          · refine ⟨⟨l3, hl3, ?_⟩, ?_, ?_⟩
            · intro u
              rw [v3, v2, v1, mem_setOf, hv3, hmem]
            · have hhome : t.home v = x.node := by
                rw [m3, m2, m1, ← hxv]; exact (h.homes l hls x hx).1
              cases ha : alive t v with
              | false => rfl
              | true =>
                obtain ⟨log, ha⟩ := alive_iff.1 ha
                rw [hhome, n3] at ha
                exact absurd ⟨v, log, ha⟩ nb
            · intro l4 hl4
              rw [hl3] at hl4; injection hl4 with hl4; subst hl4
              rw [hv3, hmem]
              simp only [ids, List.mem_map, List.mem_filter, bne_iff_ne]
              rintro ⟨y, ⟨_, hne⟩, he⟩
              exact hne he
        dsimp only
        refine ⟨?_, ?_⟩
        · refine step_inv (P := fun t => Listed v t ∨ Gone v t) (Or.inl hlist) ?_ ?_
          · intro t ht
            obtain ⟨_, _, _, _, _, l1, _⟩ := change_some ht
            exact Or.inl (listed_of hlist l1)
          · intro s1 hs1
            obtain ⟨_, _, _, _, _, l1, _⟩ := change_some hs1
            have hlist1 := listed_of hlist l1
            have dl : ∀ t, dropNode x.node s1 = some t → t.listed = s1.listed := by
              intro t ht
              simp only [dropNode] at ht
              split at ht <;> (injection ht with ht; subst ht; rfl)
            refine step_inv (P := fun t => Listed v t ∨ Gone v t) (Or.inl hlist1) (fun t ht => Or.inl (listed_of hlist1 (dl t ht))) ?_
            intro s2 hs2
            refine step_inv (P := fun t => Listed v t ∨ Gone v t) (Or.inl (listed_of hlist1 (dl s2 hs2)))
              (fun t ht => Or.inr (fin s1 s2 t hs1 hs2 ht)) (fun t ht => Or.inr (fin s1 s2 t hs1 hs2 ht))
        · intro hok
          obtain ⟨s1, a1, e1⟩ := step_ok hok
          rw [e1] at hok ⊢
          obtain ⟨s2, a2, e2⟩ := step_ok hok
          rw [e2] at hok ⊢
          obtain ⟨s3, a3, e3⟩ := step_ok hok
          rw [e3]
          exact fin s1 s2 s3 a1 a2 a3

theorem follow_listed {env : Env} {n v : Nat} {s : State} (h : Listed v s) : Listed v (follow env fresh n s).1 := by
  simp only [follow]
  cases hl : fresh s with
  | none => exact h
  | some l =>
    cases hd : lead env n s with
    | error e => exact h
    | ok me =>
      refine step_inv (P := Listed v) h (fun t ht => ?_) (fun t ht => ?_)
      all_goals
        obtain ⟨_, _, _, _, _, l1, _⟩ := change_some ht
        exact listed_of h l1

theorem promote_listed {env : Env} {env2 : Nat → Env} {up : Nat → Bool} {n u v : Nat} {s : State} (h : Listed v s) :
    Listed v (promote env env2 up fresh n u s).1 := by
  simp only [promote]
  cases hl : fresh s with
  | none => exact h
  | some l =>
    dsimp only
    split
    · exact h
    · split
      · exact h
      · cases hd : lead env n s with
        | error e => exact h
        | ok me =>
          refine step_inv (P := Listed v) h (fun t ht => ?_) (fun t ht => ?_)
          · obtain ⟨_, _, _, _, _, l1, _⟩ := change_some ht
            exact listed_of h l1
          · obtain ⟨_, _, _, _, _, l1, _⟩ := change_some ht
            exact exec_inv (P := Listed v) (reach_inv fun k m t ht => follow_listed ht)
              (fun v s t n hs ht => newLeader_listed hs ht) (listed_of h l1)

theorem checkRemove_listed {r : Run} (hr : r.view = fresh) {u v : Nat} {s : State} (h : Listed v s) :
    Listed v (checkRemove r u s).1 := by
  simp only [checkRemove]
  cases hl : s.listed with
  | none => exact h
  | some l =>
    dsimp only
    split
    · split
      · exact h
      · simp only [promoteCmd, hr]
        cases hl2 : fresh s with
        | none => exact h
        | some l2 =>
          exact exec_inv (P := Listed v) (reach_inv fun k m t ht => promote_listed ht) (fun v s t n hs ht => newLeader_listed hs ht) h
    · exact h

/-- **C186** (partial): a REPLICA REMOVE that succeeds, run by nodes that know the listing, leaves a group whose voters are exactly the
listed replicas; the vnode is not one of them and does not run any more. -/
theorem C186_remove_partial {r : Run} (hr : r.view = fresh) {v : Nat} {s : State} (h : Inv s) (hok : (removeCmd r v s).2 = .ok ()) :
    Gone v (removeCmd r v s).1 := by
  simp only [removeCmd, hr] at hok ⊢
  cases hl : fresh s with
  | none => simp [hl] at hok
  | some l0 =>
    have hls : s.listed = some l0 := hl
    simp only [hl] at hok ⊢
    split at hok
    · simp at hok
    · rename_i hin
      rw [if_neg hin]
      have hlist : Listed v s := by
        simp only [Bool.not_eq_false] at hin
        obtain ⟨x, hx, he⟩ := List.any_eq_true.1 hin
        exact ⟨l0, x, hls, hx, by simpa using he⟩
      have i1 := checkRemove_inv hr (v := v) h
      have g1 := checkRemove_listed hr (u := v) hlist
      cases hc : checkRemove r v s with
      | mk t a =>
        rw [hc] at i1 g1
        cases a with
        | error e => simp [hc] at hok
        | ok a =>
          simp only [hc] at hok ⊢
          cases hl2 : fresh t with
          | none => simp [hl2] at hok
          | some l =>
            simp only [hl2] at hok ⊢
            obtain ⟨k, n, s0, hs0, hcall, hfin⟩ := exec_ok (P := fun t => Inv t ∧ (Listed v t ∨ Gone v t))
              (reach_inv fun k m t ht => ⟨remove_inv ht.1, (remove_gone ht.1 ht.2).1⟩)
              (fun u s t n hs ht => ⟨newLeader_inv hs.1 ht,
                hs.2.elim (fun h => Or.inl (newLeader_listed h ht)) (fun h => Or.inr (newLeader_gone h ht))⟩)
              ⟨i1, Or.inl g1⟩ hok
            have hre := reach_ok hcall
            rw [hre] at hcall hfin
            have hg := (remove_gone hs0.1 hs0.2).2 hcall
            rcases hfin with hfin | ⟨u, m, hfin⟩
            · rw [hfin]; exact hg
            · exact newLeader_gone hg hfin

theorem follow_ok {env : Env} {n : Nat} {s : State} (hok : (follow env fresh n s).2 = .ok ()) : Agree (follow env fresh n s).1 := by
  simp only [follow] at hok ⊢
  cases hl : fresh s with
  | none => simp [hl] at hok
  | some l =>
    have hls : s.listed = some l := hl
    cases hd : lead env n s with
    | error e => simp [hl, hd] at hok
    | ok me =>
      simp only [hl, hd] at hok ⊢
      obtain ⟨s1, a1, e1⟩ := step_ok hok
      rw [e1]
      obtain ⟨_, _, _, v1, _, l1, _⟩ := change_some a1
      refine ⟨l, l1.trans hls, ?_⟩
      intro v
      show v ∈ s1.voters ↔ _
      rw [v1, mem_setOf]

/-- **C186** (partial): a PROMOTE that a node carries out because the vnode is not the recorded leader, and that succeeds, leaves a group
whose voters are exactly the listed replicas. -/
theorem C186_promote_partial {env : Env} {env2 : Nat → Env} {up : Nat → Bool} {n v : Nat} {s : State} {l : Listing}
    (hl : s.listed = some l) (hv : l.leaderV ≠ v) (hok : (promote env env2 up fresh n v s).2 = .ok ()) :
    Agree (promote env env2 up fresh n v s).1 := by
  have hl' : fresh s = some l := hl
  simp only [promote, hl', if_neg hv] at hok ⊢
  split at hok
  · simp at hok
  · rename_i hin
    rw [if_neg hin]
    cases hd : lead env n s with
    | error e => simp [hd] at hok
    | ok me =>
      simp only [hd] at hok ⊢
      obtain ⟨s1, a1, e1⟩ := step_ok hok
      rw [e1] at hok ⊢
      obtain ⟨k, m, s0, _, hcall, hfin⟩ := exec_ok (P := fun _ => True) (fun _ _ _ _ => trivial) (fun _ _ _ _ _ _ => trivial)
        trivial hok
      have hre := reach_ok hcall
      rw [hre] at hcall hfin
      have hg := follow_ok hcall
      rcases hfin with hfin | ⟨u, m, hfin⟩
      · rw [hfin]; exact hg
      · exact newLeader_agree hg hfin

/-- **C187** (partial): whatever commands and writes a group sees, and wherever they fail or lose an answer, every acknowledged write is on
a majority of the voters – as long as the commands are run one after the other by nodes that know the listing. -/
theorem C187_run_partial {s : State} (h : Inv s) {es : List Event} (he : ∀ e ∈ es, e.Fresh) :
    durable (es.foldl apply s) = true := (run_inv he h).safe

/-- What the majority means: a voter that holds all acknowledged writes, on a node of its own, and no two voters on one node. -/
theorem C187_holder {s : State} (h : Inv s) : ∃ v ∈ s.voters, s.nodes (s.home v) = some (.running v s.acked) := by
  have hd := h.safe
  simp only [durable, decide_eq_true_eq] at hd
  cases hf : s.voters.filter (holds s) with
  | nil => rw [hf] at hd; simp at hd
  | cons v vs =>
    have : v ∈ s.voters.filter (holds s) := by rw [hf]; simp
    rw [List.mem_filter] at this
    exact ⟨v, this.1, holds_iff.1 this.2⟩

/-- **C189** (partial): after any commands, run one after the other by nodes that know the listing, wherever they fail: no two listed
replicas are on one node or have one number, the recorded leader is one of them, and each listed replica is where it was placed.  In
particular a listing is never empty. -/
theorem C189_run_partial {s : State} (h : Inv s) {es : List Event} (he : ∀ e ∈ es, e.Fresh) {l : Listing}
    (hl : (es.foldl apply s).listed = some l) :
    (∀ x ∈ l.vnodes, ∀ y ∈ l.vnodes, x.node = y.node ∨ x.id = y.id → x = y) ∧
    (∃ x ∈ l.vnodes, x.id = l.leaderV ∧ x.node = l.leaderN) := by
  have hi := run_inv he h
  refine ⟨?_, hi.leads l hl⟩
  intro x hx y hy he
  rcases he with he | he
  · exact nodup_node (hi.nodes l hl) hx hy he
  · exact hi.same hl hx hy he

/-! ## Failing -/

/-- Where a vnode of the group runs, ADD changes nothing but the next number, and fails. -/
theorem add_busy {env : Env} {n nid : Nat} {s : State} (h : Inv s) (hb : Busy s nid) :
    (add env fresh n nid s).2 ≠ .ok () ∧ (Inv (add env fresh n nid s).1 ∧ Busy (add env fresh n nid s).1 nid) := by
  have key : ∀ s1, takeId nid s = some s1 → openNode nid s.nextId s1 = none := by
    intro s1 hs1
    obtain ⟨_, _, n1, _⟩ := takeId_inv h hs1
    obtain ⟨v, log, hb⟩ := hb
    have := (h.runs nid v log hb).2
    simp only [openNode, n1, hb]
    rw [if_neg (by omega)]
  simp only [add]
  cases hl : fresh s with
  | none => exact ⟨by simp, h, hb⟩
  | some l =>
    cases hd : lead env n s with
    | error e => exact ⟨by simp, h, hb⟩
    | ok me =>
      dsimp only
      refine ⟨?_, ?_⟩
      · intro hok
        obtain ⟨s1, a1, e1⟩ := step_ok hok
        rw [e1] at hok
        obtain ⟨s2, a2, _⟩ := step_ok hok
        rw [key s1 a1] at a2; cases a2
      · refine step_inv (P := fun t => Inv t ∧ Busy t nid) ⟨h, hb⟩ ?_ ?_
        · intro t ht
          obtain ⟨i1, _, n1, _⟩ := takeId_inv h ht
          exact ⟨i1, busy_of_nodes hb n1⟩
        · intro s1 hs1
          obtain ⟨i1, _, n1, _⟩ := takeId_inv h hs1
          refine step_inv (P := fun t => Inv t ∧ Busy t nid) ⟨i1, busy_of_nodes hb n1⟩ ?_ ?_
          · intro t ht; rw [key s1 hs1] at ht; cases ht
          · intro t ht; rw [key s1 hs1] at ht; cases ht

theorem newLeader_busy {nid v n : Nat} {s t : State} (h : Busy s nid) (hc : newLeader fresh v s = some (t, n)) : Busy t nid := by
  obtain ⟨l, x, hl, _, _, _, rfl⟩ := newLeader_some hc
  exact h

/-- **C188** (what is true instead): no REPLICA ADD of a node on which a vnode of the group runs ever succeeds, and it keeps running –
also a vnode that an ADD before has left there without listing it. -/
theorem C188_add_stuck {r : Run} (hr : r.view = fresh) {nid : Nat} {s : State} (h : Inv s) (hb : Busy s nid) :
    (addCmd r nid s).2 ≠ .ok () ∧ Busy (addCmd r nid s).1 nid := by
  simp only [addCmd, hr]
  cases hl : fresh s with
  | none => exact ⟨by simp, hb⟩
  | some l =>
    dsimp only
    split
    · exact ⟨by simp, hb⟩
    · have hc : ∀ k m t, (Inv t ∧ Busy t nid) → (Inv (add (r.env k) fresh m nid t).1 ∧ Busy (add (r.env k) fresh m nid t).1 nid) :=
        fun k m t ht => (add_busy ht.1 ht.2).2
      have hn : ∀ v s t n, (Inv s ∧ Busy s nid) → newLeader fresh v s = some (t, n) → Inv t ∧ Busy t nid :=
        fun v s t n hs ht => ⟨newLeader_inv hs.1 ht, newLeader_busy hs.2 ht⟩
      refine ⟨?_, ?_⟩
      · intro hok
        obtain ⟨k, n, s0, hs0, hcall, _⟩ := exec_ok (P := fun t => Inv t ∧ Busy t nid) (reach_inv hc) hn ⟨h, hb⟩ hok
        rw [reach_ok hcall] at hcall
        exact (add_busy hs0.1 hs0.2).1 hcall
      · exact (exec_inv (P := fun t => Inv t ∧ Busy t nid) (reach_inv hc) hn ⟨h, hb⟩).2

/-- The group is led by a vnode that is not listed and runs on none of the listed nodes. -/
def Orphan (s : State) : Prop :=
  ∀ l, s.listed = some l → ∀ x ∈ l.vnodes, x.id ≠ s.leader ∧ ∀ log, s.nodes x.node ≠ some (.running s.leader log)

/-- A request that a node which does not lead refuses. -/
def Refuses (run : Nat → Nat → State → Res) : Prop :=
  ∀ k n (s : State), (∀ log, s.nodes n ≠ some (.running s.leader log)) →
    ∃ e, run k n s = (s, .error e) ∧ ∀ v, e = .forward v → v = s.leader

theorem lead_refuses {env : Env} {n : Nat} {s : State} (h : ∀ log, s.nodes n ≠ some (.running s.leader log)) :
    ∃ e, lead env n s = .error e ∧ ∀ v, e = .forward v → v = s.leader := by
  simp only [lead]
  split
  · rename_i v log hv
    split
    · split
      · rename_i he; subst he; exact absurd hv (h log)
      · exact ⟨_, rfl, fun u hu => by injection hu with hu; exact hu.symm⟩
    · exact ⟨_, rfl, fun u hu => by cases hu⟩
  · exact ⟨_, rfl, fun u hu => by cases hu⟩
  · exact ⟨_, rfl, fun u hu => by cases hu⟩

theorem writeAt_refuses (env : Nat → Env) (w : Nat) : Refuses fun k n t => writeAt (env k) n w t := by
  intro k n s h
  obtain ⟨e, he, hf⟩ := lead_refuses (env := env k) h
  exact ⟨e, by simp only [writeAt, he], hf⟩

theorem add_refuses (env : Nat → Env) (nid : Nat) : Refuses fun k n t => add (env k) fresh n nid t := by
  intro k n s h
  obtain ⟨e, he, hf⟩ := lead_refuses (env := env k) h
  cases hl : fresh s with
  | none => exact ⟨.noSet, by simp only [add, hl], fun u hu => by cases hu⟩
  | some l => exact ⟨e, by simp only [add, hl, he], hf⟩

theorem destroy_refuses (env : Nat → Env) : Refuses fun k n t => destroy (env k) fresh n t := by
  intro k n s h
  obtain ⟨e, he, hf⟩ := lead_refuses (env := env k) h
  cases hl : fresh s with
  | none => exact ⟨.noSet, by simp only [destroy, hl], fun u hu => by cases hu⟩
  | some l => exact ⟨e, by simp only [destroy, hl, he], hf⟩

theorem exec_orphan {up : Nat → Bool} {run : Nat → Nat → State → Res} (hrun : Refuses run) {s : State} (h : Orphan s) {l : Listing}
    (hl : s.listed = some l) : ∃ e, exec (reach up run) fresh l s = (s, .error e) := by
  have hno : newLeader fresh s.leader s = none := by
    simp only [newLeader, fresh, hl, Option.bind_some]
    have : (l.vnodes.find? fun x => x.id == s.leader) = none := by
      rw [List.find?_eq_none]
      intro x hx
      simpa using (h l hl x hx).1
    rw [this]
  have gen : ∀ (xs : List Vnode), (∀ x ∈ xs, x ∈ l.vnodes) → ∀ (k : Nat) (e0 : Err),
      ∃ e, loop (reach up run) fresh l.leaderN k xs (.error e0) s = (s, .error e) := by
    intro xs
    induction xs with
    | nil => intro _ k e0; exact ⟨e0, rfl⟩
    | cons x xs ih =>
      intro hxs k e0
      have ih' := ih (fun y hy => hxs y (List.mem_cons_of_mem _ hy))
      obtain ⟨e, he, hf⟩ := hrun k x.node s (h l hl x (hxs x (by simp))).2
      by_cases hu : up x.node = true
      · have hcall : reach up run k x.node s = (s, .error e) := by simp only [reach, hu, if_true, he]
        cases e with
        | pre => simp only [loop, hcall]; exact ih' _ _
        | forward v =>
          have := hf v rfl
          subst this
          simp only [loop, hcall, redirect, hno]
          exact ih' _ _
        | noSet => exact ⟨.noSet, by simp only [loop, hcall]⟩
        | noVnode => exact ⟨.noVnode, by simp only [loop, hcall]⟩
        | shutdown => exact ⟨.shutdown, by simp only [loop, hcall]⟩
        | notBuilt => exact ⟨.notBuilt, by simp only [loop, hcall]⟩
        | already => exact ⟨.already, by simp only [loop, hcall]⟩
        | lastOne => exact ⟨.lastOne, by simp only [loop, hcall]⟩
        | noReplica => exact ⟨.noReplica, by simp only [loop, hcall]⟩
        | failed => exact ⟨.failed, by simp only [loop, hcall]⟩
      · have hcall : reach up run k x.node s = (s, .error .pre) := by simp only [reach, hu, if_false, Bool.false_eq_true]
        simp only [loop, hcall]
        exact ih' _ _
  refine gen _ ?_ 0 .noReplica
  intro x hx
  rcases List.mem_append.1 hx with hx | hx <;> exact (List.mem_filter.1 hx).1

/-- **C188** (what is true instead): while a group is led by a vnode that is not listed, every write, every ADD and every DESTORY fails and
changes nothing, whichever nodes answer. -/
theorem C188_orphan {r : Run} (hr : r.view = fresh) {s : State} (h : Orphan s) (w nid : Nat) :
    (∃ e, writeCmd r w s = (s, .error e)) ∧ (∃ e, addCmd r nid s = (s, .error e)) ∧ (∃ e, destroyCmd r s = (s, .error e)) := by
  simp only [writeCmd, addCmd, destroyCmd, hr]
  cases hl : fresh s with
  | none => exact ⟨⟨_, rfl⟩, ⟨_, rfl⟩, ⟨_, rfl⟩⟩
  | some l =>
    refine ⟨exec_orphan (writeAt_refuses r.env w) h hl, ?_, exec_orphan (destroy_refuses r.env) h hl⟩
    dsimp only
    split
    · exact ⟨_, rfl⟩
    · exact exec_orphan (add_refuses r.env nid) h hl

/-! ## DESTORY -/

theorem dropNode_same {n m : Nat} {s t : State} (h : dropNode n s = some t) :
    t.listed = s.listed ∧ t.voters = s.voters ∧ t.learners = s.learners ∧ t.leader = s.leader ∧ t.home = s.home ∧ t.acked = s.acked ∧
      (m ≠ n → t.nodes m = s.nodes m) ∧ ¬ Busy t n ∧ (¬ Busy s m → ¬ Busy t m) := by
  simp only [dropNode] at h
  split at h
  · injection h with h; subst h
    refine ⟨rfl, rfl, rfl, rfl, rfl, rfl, fun hm => by simp [hm], ?_, ?_⟩
    · rintro ⟨v, log, h1⟩; simp at h1
    · rintro hm ⟨v, log, h1⟩
      by_cases he : m = n
      · subst he; simp at h1
      · simp only [he, if_false] at h1; exact hm ⟨v, log, h1⟩
  · rename_i hno
    injection h with h; subst h
    exact ⟨rfl, rfl, rfl, rfl, rfl, rfl, fun _ => rfl, fun ⟨v, log, h1⟩ => hno _ _ h1, fun h => h⟩

theorem dropNode_total (n : Nat) (s : State) : ∃ t, dropNode n s = some t := by
  simp only [dropNode]
  split <;> exact ⟨_, rfl⟩

/-- What the loop over the replicas keeps. -/
structure Same (n : Nat) (s t : State) : Prop where
  listed : t.listed = s.listed
  voters : t.voters = s.voters
  learners : t.learners = s.learners
  leader : t.leader = s.leader
  home : t.home = s.home
  acked : t.acked = s.acked
  here : t.nodes n = s.nodes n
  idle : ∀ m, ¬ Busy s m → ¬ Busy t m

theorem Same.refl (n : Nat) (s : State) : Same n s s := ⟨rfl, rfl, rfl, rfl, rfl, rfl, rfl, fun _ h => h⟩

theorem Same.drop {n m : Nat} {s t : State} (hm : m ≠ n) (h : dropNode m s = some t) : Same n s t := by
  obtain ⟨h1, h2, h3, h4, h5, h6, h7, _, _⟩ := dropNode_same (m := n) h
  exact ⟨h1, h2, h3, h4, h5, h6, h7 (Ne.symm hm), fun k hk => (dropNode_same (m := k) h).2.2.2.2.2.2.2.2 hk⟩

theorem Same.trans {n : Nat} {s t u : State} (h : Same n s t) (g : Same n t u) : Same n s u :=
  ⟨g.listed.trans h.listed, g.voters.trans h.voters, g.learners.trans h.learners, g.leader.trans h.leader, g.home.trans h.home,
    g.acked.trans h.acked, g.here.trans h.here, fun m hm => g.idle m (h.idle m hm)⟩

/-- The loop ends in the rest of the command or in an error, in a state where only other nodes have changed. -/
theorem dropAll_cases {env : Env} {n : Nat} {k : State → Res} : ∀ (xs : List Vnode) (s : State),
    ∃ t, Same n s t ∧ (dropAll env n xs s k = k t ∨ dropAll env n xs s k = (t, .error .failed)) := by
  intro xs
  induction xs with
  | nil => intro s; exact ⟨s, Same.refl n s, Or.inl rfl⟩
  | cons x xs ih =>
    intro s
    simp only [dropAll]
    split
    · exact ih s
    · rename_i hne
      obtain ⟨t, ht⟩ := dropNode_total x.node s
      cases ho : env.out (.drop x.node) with
      | failed => exact ⟨s, Same.refl n s, Or.inr rfl⟩
      | lost => exact ⟨t, Same.drop hne ht, Or.inr (by simp [step, ht])⟩
      | done =>
        obtain ⟨u, hu, h1⟩ := ih t
        refine ⟨u, (Same.drop hne ht).trans hu, ?_⟩
        simpa only [step, ht] using h1

/-- The loop when every drop is done. -/
theorem dropAll_done {env : Env} {n : Nat} {k : State → Res} (hd : ∀ m, env.out (.drop m) = .done) : ∀ (xs : List Vnode) (s : State),
    ∃ t, Same n s t ∧ dropAll env n xs s k = k t ∧ ∀ x ∈ xs, x.node ≠ n → ¬ Busy t x.node := by
  intro xs
  induction xs with
  | nil => intro s; exact ⟨s, Same.refl n s, rfl, by simp⟩
  | cons x xs ih =>
    intro s
    simp only [dropAll]
    split
    · rename_i he
      obtain ⟨t, ht, h1, h2⟩ := ih s
      refine ⟨t, ht, h1, ?_⟩
      intro y hy hne
      rcases List.mem_cons.1 hy with rfl | hy
      · exact absurd he hne
      · exact h2 y hy hne
    · rename_i hne
      obtain ⟨t, ht⟩ := dropNode_total x.node s
      obtain ⟨u, hu, h1, h2⟩ := ih t
      refine ⟨u, (Same.drop hne ht).trans hu, ?_, ?_⟩
      · rw [hd]; simpa only [step, ht] using h1
      · intro y hy hyn
        rcases List.mem_cons.1 hy with rfl | hy
        · exact hu.idle _ (dropNode_same (m := n) ht).2.2.2.2.2.2.2.1
        · exact h2 y hy hyn

/-- A DESTORY of which every step is done destroys everything: no listed node runs a vnode of the group, neither does the node that ran
the command, and the set is not listed any more. -/
theorem C188_destroy_done {env : Env} {n me : Nat} {s s1 : State} {l : Listing} (hl : s.listed = some l) (hlead : lead env n s = .ok me)
    (hd : ∀ st, env.out st = .done) (hc : change [me] false env.q env.next s = some s1) :
    (destroy env fresh n s).2 = .ok () ∧ (destroy env fresh n s).1.listed = none ∧
    ¬ Busy (destroy env fresh n s).1 n ∧ ∀ x ∈ l.vnodes, ¬ Busy (destroy env fresh n s).1 x.node := by
  have hl' : fresh s = some l := hl
  obtain ⟨_, _, _, _, _, l1, _⟩ := change_some hc
  obtain ⟨s2, h2, e2, b2⟩ := dropAll_done (env := env) (n := n)
    (k := fun s2 => step (env.out .close) (dropNode n) .failed s2 fun s3 =>
      step (env.out .list) (relist l.vnodes []) .failed s3 fun s4 => (s4, .ok ())) (fun m => hd _) l.vnodes s1
  obtain ⟨s3, h3⟩ := dropNode_total n s2
  obtain ⟨l3, _, _, _, _, _, _, n3, _⟩ := dropNode_same (m := n) h3
  have hlist : s3.listed = some l := by rw [l3, h2.listed, l1, hl]
  have hw : without l.vnodes l.vnodes ++ [] = [] := by
    rw [List.append_nil, without, List.filter_eq_nil_iff]
    intro x hx
    simpa using hx
  have h4 : relist l.vnodes [] s3 = some { s3 with listed := none } := by
    simp only [relist, hlist, hw]
  have e : destroy env fresh n s = ({ s3 with listed := none }, .ok ()) := by
    simp only [destroy, hl', hlead]
    simp only [step, hd, hc]
    simp only [step, hd] at e2
    rw [e2]
    simp only [h3, h4]
  rw [e]
  refine ⟨rfl, rfl, n3, ?_⟩
  intro x hx hb
  by_cases hxn : x.node = n
  · rw [hxn] at hb; exact n3 hb
  · exact (dropNode_same (m := x.node) h3).2.2.2.2.2.2.2.2 (b2 x hx hxn) hb

/-- **C188** (partial): a DESTORY that got through the change of the membership and failed before the leader's own replica was destroyed
can be repeated: the node leads the group still, alone, and when every step of the second DESTORY is done everything is destroyed. -/
theorem C188_destroy_again_partial {env env' : Env} {n me : Nat} {s s1 : State} {l : Listing} (h : Inv s) (hl : s.listed = some l)
    (hlead : lead env n s = .ok me) (ho : env.out .member = .done) (hc : change [me] false env.q env.next s = some s1)
    (hb : Busy (destroy env fresh n s).1 n) (hd : ∀ st, env'.out st = .done) (hq : env'.q = [me]) :
    (destroy env' fresh n (destroy env fresh n s).1).2 = .ok () ∧
    (destroy env' fresh n (destroy env fresh n s).1).1.listed = none ∧
    ∀ x ∈ l.vnodes, ¬ Busy (destroy env' fresh n (destroy env fresh n s).1).1 x.node := by
  have hl' : fresh s = some l := hl
  obtain ⟨_, _, _, v1, g1, l1, m1, _, n1, _⟩ := change_some hc
  have hme : s1.leader = me := by simpa using g1
  -- the state that the first DESTORY leaves
  have first : ∃ t, Same n s1 t ∧ (destroy env fresh n s).1 = t := by
    obtain ⟨t, ht, he⟩ := dropAll_cases (env := env) (n := n)
      (k := fun s2 => step (env.out .close) (dropNode n) .failed s2 fun s3 =>
        step (env.out .list) (relist l.vnodes []) .failed s3 fun s4 => (s4, .ok ())) l.vnodes s1
    have e : destroy env fresh n s = dropAll env n l.vnodes s1 (fun s2 => step (env.out .close) (dropNode n) .failed s2 fun s3 =>
        step (env.out .list) (relist l.vnodes []) .failed s3 fun s4 => (s4, .ok ())) := by
      simp only [destroy, hl', hlead]
      rw [ho]
      simp only [step, hc]
    rcases he with he | he
    · rw [e, he] at hb ⊢
      obtain ⟨u, hu⟩ := dropNode_total n t
      obtain ⟨_, _, _, _, _, _, _, nu, _⟩ := dropNode_same (m := n) hu
      cases hcl : env.out .close with
      | failed => exact ⟨t, ht, rfl⟩
      | lost =>
        rw [hcl] at hb
        simp only [step, hu, Option.getD_some] at hb
        exact absurd hb nu
      | done =>
        rw [hcl] at hb
        simp only [step, hu] at hb
        exfalso
        have nodesame : ∀ w, relist l.vnodes [] u = some w → w.nodes = u.nodes := by
          intro w hw
          obtain ⟨_, _, _, hn, _⟩ := relist_some hw
          exact hn
        revert hb
        cases env.out .list with
        | failed => exact fun hb => nu hb
        | lost =>
          cases hw : relist l.vnodes [] u with
          | none => simpa using fun hb => nu hb
          | some w =>
            simp only [Option.getD_some]
            exact fun hb => nu (busy_of_nodes hb (nodesame w hw).symm)
        | done =>
          cases hw : relist l.vnodes [] u with
          | none => simpa using fun hb => nu hb
          | some w => exact fun hb => nu (busy_of_nodes hb (nodesame w hw).symm)
    · rw [e, he]; exact ⟨t, ht, rfl⟩
  obtain ⟨t, ht, e⟩ := first
  rw [e]
  -- the node runs `me` at home
  have hrun : ∃ log, s.nodes n = some (.running me log) := by
    simp only [lead] at hlead
    split at hlead
    · rename_i v log hv
      split at hlead
      · split at hlead
        · injection hlead with hlead; subst hlead; exact ⟨log, hv⟩
        · cases hlead
      · cases hlead
    · cases hlead
    · cases hlead
  obtain ⟨log, hrun⟩ := hrun
  have hhome := (h.runs n me log hrun).1
  obtain ⟨log', hrun'⟩ := running_sync (q := env.q) hrun
  have htn : t.nodes n = some (.running me log') := by rw [ht.here, n1]; exact hrun'
  have hth : t.home me = n := by rw [ht.home, m1]; exact hhome
  have htv : t.voters = [me] := by rw [ht.voters]; exact v1
  have htl : t.leader = me := by rw [ht.leader]; exact hme
  have htlist : t.listed = some l := by rw [ht.listed, l1, hl]
  have hlead2 : lead env' n t = .ok me := by
    simp only [lead, htn, hd, htl, if_true]
  have halive : alive t me = true := alive_iff.2 ⟨log', by rw [hth]; exact htn⟩
  have hmaj : majority t [me] [me] = true := by
    simp [majority, halive]
  have hc2 : ∃ s2, change [me] false env'.q env'.next t = some s2 := by
    simp only [change, hq, htv, hmaj, htl]
    simp
  obtain ⟨s2, hc2⟩ := hc2
  obtain ⟨r1, r2, _, r4⟩ := C188_destroy_done htlist hlead2 hd hc2
  exact ⟨r1, r2, r4⟩

end Verif.Group
