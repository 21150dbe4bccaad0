import Verif.Track.Props
/-!
# KILL and resumption (C179, C181), who sees queries (C180)
-/
namespace Verif.Track

/-! ## What is stored -/

/-- Queries are stored under their ids, and only queries of streams are. -/
def Keyed (s : State) : Prop := ∀ k q, s.stored.get k = some q → q.id = k ∧ q.stream = true

theorem expire_keyed {s : State} (h : Keyed s) (id : Nat) (gone : Bool) : Keyed (s.expire id gone).1 := by
  rw [State.expire]
  split
  · exact h
  · intro k q hk
    simp only at hk
    split at hk
    · rw [AMap.get_del] at hk
      split at hk
      · cases hk
      · exact h k q hk
    · exact h k q hk

theorem track_keyed {s : State} (h : Keyed s) (q : Info) (saved : Bool) : Keyed (s.track q saved).1 := by
  rw [State.track]
  split
  · exact h
  · split
    · exact h
    · intro k q' hk
      simp only at hk
      split at hk
      · rename_i hs
        rw [AMap.get_set] at hk
        split at hk
        · rename_i hkk
          cases hk
          exact ⟨hkk.symm, hs⟩
        · exact h k q' hk
      · exact h k q' hk

theorem started_keyed {s : State} (h : Keyed s) (id : Nat) (out : Out) : Keyed (s.started id out) := by
  have hd := expire_keyed (s := { s with alive := s.alive.del id }) h id true
  cases ha : s.alive.get id with
  | none => simp only [State.started, ha]; exact h
  | some p =>
    cases p with
    | reading => simp only [State.started, ha]; exact h
    | job => simp only [State.started, ha]; exact h
    | starting b => cases b <;> cases out <;> simp only [State.started, ha] <;> first | exact h | exact hd

theorem finish_keyed {s : State} (h : Keyed s) (id : Nat) : Keyed (s.finish id) := by
  rw [State.finish]
  split
  · exact expire_keyed (s := { s with alive := s.alive.del id }) h id true
  · exact h

theorem kill_keyed {s : State} (h : Keyed s) (id : Nat) (gone : Bool) : Keyed (s.kill id gone).1 := by
  have he := expire_keyed h id gone
  rw [State.kill]
  split
  · rename_i s' heq; rw [heq] at he; exact he
  · rename_i s' q heq
    rw [heq] at he
    repeat' split
    all_goals exact he

theorem resume_keyed {s : State} (h : Keyed s) (ok : Nat → Bool) (q : Info) : Keyed (s.resume ok q) := by
  rw [State.resume]
  have ht := track_keyed h q true
  split
  · split
    · rename_i s' heq; rw [heq] at ht; exact started_keyed ht _ _
    · rename_i s' heq; rw [heq] at ht; exact ht
  · exact h

theorem resumeList_keyed (ok : Nat → Bool) (l : List Info) {s : State} (h : Keyed s) : Keyed (l.foldl (State.resume ok) s) := by
  induction l generalizing s with
  | nil => exact h
  | cons q l ih => exact ih (resume_keyed h ok q)

/-- The stored queries of a node. -/
def State.ofNode (s : State) (node : Nat) : List Info := s.stored.entries.filterMap fun e => if e.2.node = node then some e.2 else none

theorem mem_ofNode {s : State} (h : Keyed s) {node : Nat} {q : Info} : q ∈ s.ofNode node ↔ s.stored.get q.id = some q ∧ q.node = node := by
  rw [State.ofNode, List.mem_filterMap]
  constructor
  · rintro ⟨⟨k, q'⟩, hm, hq⟩
    simp only at hq
    split at hq
    · cases hq
      rename_i hn
      have hg := AMap.mem_entries.1 hm
      rw [(h k q hg).1]
      exact ⟨hg, hn⟩
    · cases hq
  · rintro ⟨hg, hn⟩
    exact ⟨(q.id, q), AMap.mem_entries.2 hg, if_pos hn⟩

theorem nodup_ofNode {s : State} (h : Keyed s) (node : Nat) : ((s.ofNode node).map (·.id)).Nodup := by
  have main : ∀ l : List (Nat × Info), (∀ e ∈ l, e.2.id = e.1) → (l.map Prod.fst).Nodup →
      ((l.filterMap fun e => if e.2.node = node then some e.2 else none).map (·.id)).Nodup := by
    intro l
    induction l with
    | nil => intro _ _; exact List.nodup_nil
    | cons e l ih =>
      intro hk hn
      rw [List.map_cons, List.nodup_cons] at hn
      have ih' := ih (fun e he => hk e (List.mem_cons_of_mem _ he)) hn.2
      rw [List.filterMap_cons]
      split
      · exact ih'
      · rename_i q hq
        rw [List.map_cons, List.nodup_cons]
        refine ⟨?_, ih'⟩
        intro hm
        obtain ⟨q', hq', hid⟩ := List.mem_map.1 hm
        obtain ⟨e', he', hqe⟩ := List.mem_filterMap.1 hq'
        split at hq
        · cases hq
          split at hqe
          · cases hqe
            refine hn.1 (List.mem_map.2 ⟨e', he', ?_⟩)
            rw [← hk e' (List.mem_cons_of_mem _ he'), hid, hk e List.mem_cons_self]
          · cases hqe
        · cases hq
  exact main _ (fun e he => (h e.1 e.2 (AMap.mem_entries.1 he)).1) s.stored.nodup

theorem move_keyed {s : State} (h : Keyed s) (d : Nat) : Keyed (s.move d) := by
  have main : ∀ (l : List Info) (m : AMap Nat Info), (∀ k q, m.get k = some q → q.id = k ∧ q.stream = true) → (∀ q ∈ l, q.stream = true) →
      ∀ k q, (l.foldl (fun m q => m.set q.id { q with node := s.node }) m).get k = some q → q.id = k ∧ q.stream = true := by
    intro l
    induction l with
    | nil => intro m hm _; exact hm
    | cons q l ih =>
      intro m hm hl
      refine ih _ ?_ (fun q' hq' => hl q' (List.mem_cons_of_mem _ hq'))
      intro k q' hk
      rw [AMap.get_set] at hk
      split at hk
      · rename_i hkk; cases hk; exact ⟨hkk.symm, hl q List.mem_cons_self⟩
      · exact hm k q' hk
  exact main (s.ofNode d) s.stored h fun q hq => (h q.id q ((mem_ofNode h).1 hq).1).2

theorem step_keyed {s : State} (h : Keyed s) (e : Ev) : Keyed (s.step e) := by
  cases e with
  | track q saved => exact track_keyed h q saved
  | started id out => exact started_keyed h id out
  | finish id => exact finish_keyed h id
  | abandon id =>
    simp only [State.step, State.abandon]
    split
    · exact h
    · exact finish_keyed h id
  | kill q id gone =>
    simp only [State.step, State.killStmt]
    have ht := track_keyed h { q with stream := false } true
    split
    · rename_i s' heq; rw [heq] at ht; exact ht
    · rename_i s' heq; rw [heq] at ht; exact started_keyed (kill_keyed ht id gone) _ _
  | restart ok => exact resumeList_keyed ok _ (s := { s with queries := .empty, alive := .empty }) h
  | takeover d ok => exact move_keyed (resumeList_keyed ok _ h) d

theorem run_keyed (es : List Ev) (s : State) (h : Keyed s) : Keyed (s.run es) := by
  induction es generalizing s with
  | nil => exact h
  | cons e es ih => exact ih _ (step_keyed h e)

theorem init_keyed (node limit : Nat) : Keyed (State.init node limit) := by intro k q h; cases h

/-! ## One resumed query -/

theorem resume_eq {s : State} {ok : Nat → Bool} {q : Info} (hs : q.stream = true) (ho : ok q.id = true)
    (hl : s.queries.entries.length < s.limit) :
    s.resume ok q = { s with
      queries := s.queries.set q.id q
      stored := s.stored.set q.id { q with node := s.node }
      alive := (s.alive.set q.id (.starting true)).set q.id .job } := by
  simp only [State.resume, ho, if_true, State.track, if_neg (Nat.not_le.2 hl), hs, Bool.not_true, Bool.and_false, Bool.false_eq_true,
    if_false, State.started, AMap.get_set]

theorem resume_alive_ne (s : State) (ok : Nat → Bool) (q : Info) {x : Nat} (h : x ≠ q.id) :
    (s.resume ok q).alive.get x = s.alive.get x := by
  have st : ∀ s : State, (s.started q.id .data).alive.get x = s.alive.get x := by
    intro s
    cases ha : s.alive.get q.id with
    | none => simp only [State.started, ha]
    | some p =>
      cases p with
      | reading => simp only [State.started, ha]
      | job => simp only [State.started, ha]
      | starting b => cases b <;> simp only [State.started, ha, AMap.get_set, if_neg h]
  have ht := track_alive_ne (s := s) q true h
  rw [State.resume]
  split
  · split
    · rename_i s' heq; rw [heq] at ht; rw [st]; exact ht
    · rename_i s' heq; rw [heq] at ht; exact ht
  · rfl

theorem resumeList_alive_ne (ok : Nat → Bool) (l : List Info) (s : State) {x : Nat} (h : ∀ q ∈ l, q.id ≠ x) :
    (l.foldl (State.resume ok) s).alive.get x = s.alive.get x := by
  induction l generalizing s with
  | nil => rfl
  | cons q l ih =>
    rw [List.foldl_cons, ih _ (fun q' hq' => h q' (List.mem_cons_of_mem _ hq')), resume_alive_ne s ok q (h q List.mem_cons_self).symm]

/-- A query runs on this node: it is tracked, its job runs, and it is stored as a query of this node. -/
def Runs (s : State) (q : Info) : Prop :=
  s.alive.get q.id = some .job ∧ s.queries.get q.id = some q ∧ s.stored.get q.id = some { q with node := s.node }

theorem resumeList_runs (ok : Nat → Bool) (l : List Info) (s : State) (hs : ∀ q ∈ l, q.stream = true) (ho : ∀ q ∈ l, ok q.id = true)
    (hn : (l.map (·.id)).Nodup) (hl : s.queries.entries.length + l.length ≤ s.limit) :
    (∀ q ∈ l, Runs (l.foldl (State.resume ok) s) q) ∧
    (∀ x, (∀ q ∈ l, q.id ≠ x) → (l.foldl (State.resume ok) s).queries.get x = s.queries.get x ∧
      (l.foldl (State.resume ok) s).stored.get x = s.stored.get x) ∧ (l.foldl (State.resume ok) s).node = s.node := by
  induction l generalizing s with
  | nil => exact ⟨fun q h => absurd h List.not_mem_nil, fun x _ => ⟨rfl, rfl⟩, rfl⟩
  | cons q l ih =>
    rw [List.map_cons, List.nodup_cons] at hn
    simp only [List.length_cons] at hl
    have he := resume_eq (s := s) (hs q List.mem_cons_self) (ho q List.mem_cons_self) (by omega)
    have hq : (s.resume ok q).queries.entries.length ≤ s.queries.entries.length + 1 := by rw [he]; exact length_set _ _ _
    have hlim : (s.resume ok q).limit = s.limit := by rw [he]
    have hnode : (s.resume ok q).node = s.node := by rw [he]
    obtain ⟨i1, i2, i3⟩ := ih (s.resume ok q) (fun q' h' => hs q' (List.mem_cons_of_mem _ h')) (fun q' h' => ho q' (List.mem_cons_of_mem _ h'))
      hn.2 (by rw [hlim]; omega)
    rw [List.foldl_cons]
    refine ⟨?_, ?_, i3.trans hnode⟩
    · intro q' hq'
      rcases List.mem_cons.1 hq' with rfl | hm
      · have hfresh : ∀ p ∈ l, p.id ≠ q'.id := fun p hp e => hn.1 (List.mem_map.2 ⟨p, hp, e⟩)
        have h1 := resumeList_alive_ne ok l (s.resume ok q') hfresh
        obtain ⟨h2, h3⟩ := i2 q'.id hfresh
        refine ⟨?_, ?_, ?_⟩
        · rw [h1, he]; simp only [AMap.get_set, if_true]
        · rw [h2, he]; simp only [AMap.get_set, if_true]
        · rw [h3, i3, hnode, he]; simp only [AMap.get_set, if_true]
      · exact i1 q' hm
    · intro x hx
      obtain ⟨h2, h3⟩ := i2 x fun p hp => hx p (List.mem_cons_of_mem _ hp)
      have hne : x ≠ q.id := (hx q List.mem_cons_self).symm
      rw [h2, h3, he]
      simp only [AMap.get_set, if_neg hne, and_self]

/-! ## C179 -/

/-- **C179, stops.**  KILL of a query that is inside of `start`, or of a stream whose job runs, ends the work on it and its entry, and
touches no other query. -/
theorem C179_stops_partial (s : State) (id : Nat) (gone : Bool) (h : (s.kill id gone).2 = true) (h1 : s.alive.get id ≠ some .reading)
    (h2 : s.alive.get id ≠ some (.starting true)) :
    (s.kill id gone).1.alive.get id = none ∧ (s.kill id gone).1.queries.get id = none ∧
    ∀ x, x ≠ id → (s.kill id gone).1.alive.get x = s.alive.get x ∧ (s.kill id gone).1.queries.get x = s.queries.get x := by
  have hq := fun x => expire_get s id x gone
  have ha := expire_alive s id gone
  have hqk : ∀ x, (s.kill id gone).1.queries.get x = if x = id then none else s.queries.get x := by
    intro x
    rw [State.kill]
    split
    · rename_i s' heq; have := hq x; rw [heq] at this; exact this
    · rename_i s' q heq
      have hqx := hq x
      rw [heq] at hqx
      cases s'.alive.get id with
      | none => exact hqx
      | some p =>
        cases p with
        | reading => exact hqx
        | job => exact hqx
        | starting b => cases b <;> exact hqx
  refine ⟨?_, by rw [hqk, if_pos rfl], fun x hx => ⟨kill_alive_ne id gone hx, by rw [hqk, if_neg hx]⟩⟩
  revert h
  rw [State.kill]
  split
  · intro h; cases h
  · rename_i s' q heq
    rw [heq] at ha
    simp only at ha
    intro _
    rw [ha]
    split
    · simp only [AMap.get_del, if_true]
    · simp only [AMap.get_del, if_true]
    · rename_i hne1 hne2
      show s'.alive.get id = none
      rw [ha]
      cases hx : s.alive.get id with
      | none => rfl
      | some p =>
        cases p with
        | reading => exact absurd hx h1
        | job => exact absurd hx hne2
        | starting b =>
          cases b with
          | true => exact absurd hx h2
          | false => exact absurd hx hne1

/-- **C179, unknown.**  KILL of a query that is not tracked is refused and changes nothing. -/
theorem C179_unknown (s : State) (id : Nat) (gone : Bool) (h : s.queries.get id = none) : s.kill id gone = (s, false) := by
  rw [State.kill, State.expire, h]

/-- **C179, for good.**  If a stream is killed and its removal from the meta service succeeds, it does not run after the next start of
the node. -/
theorem C179_for_good (node limit : Nat) (es : List Ev) (id : Nat) (q : Info)
    (hq : ((State.init node limit).run es).queries.get id = some q) (hs : q.stream = true) (ok : Nat → Bool) :
    ((((State.init node limit).run es).kill id true).1.restart ok).alive.get id = none := by
  generalize hS : (State.init node limit).run es = s at hq
  have hk : Keyed s := by rw [← hS]; exact run_keyed es _ (init_keyed node limit)
  have hk' := kill_keyed hk id true
  have hst : (s.kill id true).1.stored.get id = none := by
    have he : s.expire id true = ({ s with queries := s.queries.del id, stored := s.stored.del id }, some q) := by
      simp only [State.expire, hq, hs, Bool.and_self, if_true]
    rw [State.kill, he]
    dsimp only
    repeat' split
    all_goals simp only [AMap.get_del, if_true]
  generalize (s.kill id true).1 = s' at hk' hst
  show (((s'.ofNode s'.node).foldl (State.resume ok) _).alive.get id) = none
  rw [resumeList_alive_ne]
  · rfl
  · intro q' hq' hid
    have := ((mem_ofNode hk').1 hq').1
    rw [hid, hst] at this
    cases this

/-! ## C181 -/

/-- **C181, restart.**  If all stored queries of the node can be planned and are not more than the limit, all of them run after a
restart, and nothing else does. -/
theorem C181_restart_partial (node limit : Nat) (es : List Ev) (ok : Nat → Bool)
    (hok : ∀ q ∈ ((State.init node limit).run es).ofNode ((State.init node limit).run es).node, ok q.id = true)
    (hl : (((State.init node limit).run es).ofNode ((State.init node limit).run es).node).length ≤ ((State.init node limit).run es).limit) :
    (∀ q ∈ ((State.init node limit).run es).ofNode ((State.init node limit).run es).node,
      Runs (((State.init node limit).run es).restart ok) q) ∧
    ∀ x, (∀ q ∈ ((State.init node limit).run es).ofNode ((State.init node limit).run es).node, q.id ≠ x) →
      (((State.init node limit).run es).restart ok).alive.get x = none := by
  generalize hS : (State.init node limit).run es = s at *
  have hk : Keyed s := by rw [← hS]; exact run_keyed es _ (init_keyed node limit)
  refine ⟨?_, ?_⟩
  · refine (resumeList_runs ok (s.ofNode s.node) { s with queries := .empty, alive := .empty } ?_ hok (nodup_ofNode hk _) ?_).1
    · intro q hq
      exact (hk q.id q ((mem_ofNode hk).1 hq).1).2
    · show 0 + _ ≤ s.limit
      omega
  · intro x hx
    exact resumeList_alive_ne ok (s.ofNode s.node) { s with queries := .empty, alive := .empty } hx

/-- **C181, takeover.**  If there are slots for them and they can be planned, all queries of the node that is gone run here afterwards,
and no query is left to that node. -/
theorem C181_takeover_partial (node limit : Nat) (es : List Ev) (d : Nat) (ok : Nat → Bool)
    (hd : d ≠ ((State.init node limit).run es).node)
    (hok : ∀ q ∈ ((State.init node limit).run es).ofNode d, ok q.id = true)
    (hl : ((State.init node limit).run es).queries.entries.length + (((State.init node limit).run es).ofNode d).length ≤
      ((State.init node limit).run es).limit) :
    (∀ q ∈ ((State.init node limit).run es).ofNode d, Runs (((State.init node limit).run es).takeover d ok) q) := by
  generalize hS : (State.init node limit).run es = s at *
  have hk : Keyed s := by rw [← hS]; exact run_keyed es _ (init_keyed node limit)
  intro q hq
  obtain ⟨r1, r2, r3⟩ := resumeList_runs ok (s.ofNode d) s (fun q hq => (hk q.id q ((mem_ofNode hk).1 hq).1).2) hok (nodup_ofNode hk _) hl
  have hk' := resumeList_keyed ok (s.ofNode d) hk
  obtain ⟨a, b, c⟩ := r1 q hq
  have hta : s.takeover d ok = ((s.ofNode d).foldl (State.resume ok) s).move d := rfl
  rw [hta]
  generalize (s.ofNode d).foldl (State.resume ok) s = s' at *
  refine ⟨a, b, ?_⟩
  show (((s'.ofNode d).foldl (fun m q => m.set q.id { q with node := s'.node }) s'.stored).get q.id) = some { q with node := s'.node }
  rw [AMap.get_foldl_set_of_not_mem (fun q : Info => q.id) (fun q => ({ q with node := s'.node } : Info))]
  · exact c
  · intro p hp hid
    obtain ⟨h1, h2⟩ := (mem_ofNode hk').1 hp
    rw [hid, c] at h1
    cases h1
    exact hd (h2.symm.trans r3)

/-- **C181, moved.**  After a takeover no stored query belongs to the node that is gone, whether it could be started here or not. -/
theorem C181_moved (node limit : Nat) (es : List Ev) (d : Nat) (ok : Nat → Bool) (hd : d ≠ node) :
    (((State.init node limit).run es).takeover d ok).ofNode d = [] := by
  have hnode : ∀ (es : List Ev) (s : State), (s.run es).node = s.node := by
    have hex : ∀ (s : State) id gone, (s.expire id gone).1.node = s.node := by intro s id gone; rw [State.expire]; split <;> rfl
    have htr : ∀ (s : State) q saved, (s.track q saved).1.node = s.node := by
      intro s q saved
      rw [State.track]
      repeat' split
      all_goals rfl
    have hst : ∀ (s : State) id out, (s.started id out).node = s.node := by
      intro s id out
      have hd := hex { s with alive := s.alive.del id } id true
      cases ha : s.alive.get id with
      | none => simp only [State.started, ha]
      | some p =>
        cases p with
        | reading => simp only [State.started, ha]
        | job => simp only [State.started, ha]
        | starting b => cases b <;> cases out <;> simp only [State.started, ha] <;> exact hd
    have hfi : ∀ (s : State) id, (s.finish id).node = s.node := by
      intro s id; rw [State.finish]; split
      · exact hex { s with alive := s.alive.del id } id true
      · rfl
    have hki : ∀ (s : State) id gone, (s.kill id gone).1.node = s.node := by
      intro s id gone
      have he := hex s id gone
      rw [State.kill]
      split
      · rename_i s' heq; rw [heq] at he; exact he
      · rename_i s' q heq
        rw [heq] at he
        repeat' split
        all_goals exact he
    have hre : ∀ (ok : Nat → Bool) (l : List Info) (s : State), (l.foldl (State.resume ok) s).node = s.node := by
      intro ok l
      induction l with
      | nil => intro s; rfl
      | cons q l ih =>
        intro s
        rw [List.foldl_cons, ih, State.resume]
        have ht := htr s q true
        split
        · split
          · rename_i s' heq; rw [heq] at ht; rw [hst]; exact ht
          · rename_i s' heq; rw [heq] at ht; exact ht
        · rfl
    intro es
    induction es with
    | nil => intro s; rfl
    | cons e es ih =>
      intro s
      refine (ih (s.step e)).trans ?_
      cases e with
      | track q saved => exact htr s q saved
      | started id out => exact hst s id out
      | finish id => exact hfi s id
      | abandon id =>
        simp only [State.step, State.abandon]
        split
        · rfl
        · exact hfi s id
      | kill q id gone =>
        simp only [State.step, State.killStmt]
        have ht := htr s { q with stream := false } true
        split
        · rename_i s' heq; rw [heq] at ht; exact ht
        · rename_i s' heq; rw [heq] at ht; rw [hst, hki]; exact ht
      | restart ok => exact hre ok _ _
      | takeover d ok => exact hre ok _ _
  have hn1 := hnode (es ++ [.takeover d ok]) (State.init node limit)
  have hkk := run_keyed (es ++ [.takeover d ok]) _ (init_keyed node limit)
  have hk := run_keyed es _ (init_keyed node limit)
  have hrun : (State.init node limit).run (es ++ [.takeover d ok]) = ((State.init node limit).run es).takeover d ok := by
    simp only [State.run, List.foldl_append]; rfl
  rw [hrun] at hn1 hkk
  have hk' := resumeList_keyed ok (((State.init node limit).run es).ofNode d) hk
  have hta : ((State.init node limit).run es).takeover d ok =
    ((((State.init node limit).run es).ofNode d).foldl (State.resume ok) ((State.init node limit).run es)).move d := rfl
  rw [hta] at hn1 hkk ⊢
  generalize (((State.init node limit).run es).ofNode d).foldl (State.resume ok) ((State.init node limit).run es) = s at *
  have hns : s.node = node := hn1
  cases hl : (s.move d).ofNode d with
  | nil => rfl
  | cons q l =>
    have hq : q ∈ (s.move d).ofNode d := by rw [hl]; exact List.mem_cons_self
    obtain ⟨h1, h2⟩ := (mem_ofNode hkk).1 hq
    exfalso
    have h1' : ((s.ofNode d).foldl (fun m q => m.set q.id { q with node := s.node }) s.stored).get q.id = some q := h1
    by_cases hin : ∃ p ∈ s.ofNode d, p.id = q.id
    · have key : ∀ (l : List Info) (m : AMap Nat Info), (∃ p ∈ l, p.id = q.id) →
          ∃ v, (l.foldl (fun m q => m.set q.id { q with node := s.node }) m).get q.id = some v ∧ v.node = s.node := by
        intro l
        induction l with
        | nil => rintro m ⟨p, hp, _⟩; cases hp
        | cons a l ih =>
          rintro m ⟨p, hp, hid⟩
          by_cases hl : ∃ p ∈ l, p.id = q.id
          · exact ih _ hl
          · rcases List.mem_cons.1 hp with rfl | hp
            · refine ⟨{ p with node := s.node }, ?_, rfl⟩
              rw [List.foldl_cons, AMap.get_foldl_set_of_not_mem (fun q : Info => q.id) (fun q => ({ q with node := s.node } : Info))]
              · rw [AMap.get_set, if_pos hid.symm]
              · intro p' hp' he; exact hl ⟨p', hp', he⟩
            · exact absurd ⟨p, hp, hid⟩ hl
      obtain ⟨v, hv, hvn⟩ := key _ s.stored hin
      rw [h1'] at hv
      cases hv
      exact hd (h2.symm.trans (hvn.trans hns))
    · rw [AMap.get_foldl_set_of_not_mem (fun q : Info => q.id) (fun q => ({ q with node := s.node } : Info))] at h1'
      · exact hin ⟨q, (mem_ofNode hk').2 ⟨h1', h2⟩, rfl⟩
      · intro p hp he; exact hin ⟨p, hp, he⟩

/-! ## C180 -/

/-- **C180, visible.**  A user sees a running query if and only if they are an administrator, or it is one of the tenant of the session
and either they may read the system tables of that tenant or it is their own. -/
theorem C180_visible (u : User) (tenant : Nat) (qs : List Info) (q : Info) :
    q ∈ visible u tenant qs ↔ q ∈ qs ∧ (u.admin = true ∨ q.tenant = tenant ∧ (u.system tenant = true ∨ q.user = u.id)) := by
  rw [visible]
  cases ha : u.admin with
  | true => simp
  | false =>
    cases hs : u.system tenant with
    | true => simp
    | false => simp only [Bool.false_eq_true, if_false, List.mem_filter, decide_eq_true_eq, false_or]; exact and_assoc

end Verif.Track
