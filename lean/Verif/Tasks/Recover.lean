import Verif.Tasks.Drop

/-!
# Tasks: what has been recovered stays, and what has been dropped goes
-/
namespace Verif.Tasks

/-- From `s` to `s'`, nodes were told of records in `P` and have no new sleeping task; or they were started again. -/
structure Grow (P : Info → Prop) (s s' : State) : Prop where
  mark : s'.mark = s.mark
  node : ∀ n,
    ((∃ b, (s'.node n).queue = (s.node n).queue ++ b ∧ ∀ e ∈ b, ∃ i, e = Event.info i ∧ P i) ∧
      (∀ x ∈ (s'.node n).sched, x.over = false → x ∈ (s.node n).sched) ∧
      ((s.node n).sched = [] → (s'.node n).sched = [])) ∨
    ((∀ e ∈ (s'.node n).queue, ∃ i, e = Event.info i ∧ P i) ∧ (s'.node n).sched = [])

theorem Grow.of_eq {P : Info → Prop} {s s' : State} (hm : s'.mark = s.mark)
    (hq : ∀ n, (s'.node n).queue = (s.node n).queue) (hs : ∀ n, (s'.node n).sched = (s.node n).sched) :
    Grow P s s' :=
  ⟨hm, fun n => Or.inl ⟨⟨[], by simp [hq], by simp⟩, by rw [hs]; exact fun _ h _ => h, by rw [hs]; exact id⟩⟩

theorem Grow.refl {P : Info → Prop} (s : State) : Grow P s s := Grow.of_eq rfl (fun _ => rfl) (fun _ => rfl)

theorem Grow.trans {P : Info → Prop} {s s' s'' : State} (h : Grow P s s') (k : Grow P s' s'') : Grow P s s'' := by
  refine ⟨k.mark.trans h.mark, fun n => ?_⟩
  rcases k.node n with ⟨⟨b, hb, hP⟩, hs, he⟩ | hk
  · rcases h.node n with ⟨⟨b', hb', hP'⟩, hs', he'⟩ | ⟨hq, hs'⟩
    · refine Or.inl ⟨⟨b' ++ b, by rw [hb, hb', List.append_assoc], ?_⟩, fun x hx ho => hs' x (hs x hx ho) ho,
        fun h => he (he' h)⟩
      intro e he
      rcases List.mem_append.mp he with he | he
      · exact hP' e he
      · exact hP e he
    · refine Or.inr ⟨?_, he hs'⟩
      intro e he
      rw [hb] at he
      rcases List.mem_append.mp he with he | he
      · exact hq e he
      · exact hP e he
  · exact Or.inr hk

theorem grow_upd {P : Info → Prop} {s : State} {n : Nat} {f : Node → Node}
    (hq : (f (s.node n)).queue = (s.node n).queue)
    (hs : ∀ x ∈ (f (s.node n)).sched, x.over = false → x ∈ (s.node n).sched)
    (he : (s.node n).sched = [] → (f (s.node n)).sched = []) : Grow P s (s.upd n f) := by
  refine ⟨rfl, fun k => Or.inl ?_⟩
  simp only [State.upd]
  split
  · next hk => subst hk; exact ⟨⟨[], by simp [hq], by simp⟩, hs, he⟩
  · exact ⟨⟨[], by simp, by simp⟩, fun _ h _ => h, id⟩

theorem grow_write {P : Info → Prop} (s : State) {i : Info} (hi : P i) : Grow P s (s.write i) := by
  refine ⟨rfl, fun n => Or.inl ?_⟩
  simp only [State.write]
  split
  · exact ⟨⟨[.info i], rfl, by simpa using hi⟩, fun _ h _ => h, id⟩
  · exact ⟨⟨[], by simp, by simp⟩, fun _ h _ => h, id⟩

theorem grow_restart {P : Info → Prop} (s : State) (n : Nat) : Grow P s (s.restart n) := by
  refine ⟨rfl, fun k => ?_⟩
  simp only [State.restart, State.upd]
  split
  · exact Or.inr ⟨by simp [Node.empty], rfl⟩
  · exact Or.inl ⟨⟨[], by simp, by simp⟩, fun _ h _ => h, id⟩

theorem grow_tenantMeta {P : Info → Prop} (s : State) (n : Nat) (t : Str) : Grow P s (s.tenantMeta n t).1 := by
  unfold State.tenantMeta
  split
  · exact Grow.refl s
  · split
    · show Grow P s (s.upd n fun x => { x with cached := t :: x.cached })
      exact grow_upd rfl (fun _ h _ => h) id
    · exact Grow.refl s

theorem grow_hideTenant {P : Info → Prop} (s : State) (n : Nat) (t : Str) (v : Bool) :
    Grow P s (s.hideTenant n t v) := by
  have : Grow P s (s.upd n (fun x => { x with cached := t :: x.cached })) := grow_upd rfl (fun _ h _ => h) id
  exact ⟨this.mark, this.node⟩

theorem grow_removeTenant {P : Info → Prop} (s : State) (n : Nat) (t : Str) : Grow P s (s.removeTenant n t) := by
  have : Grow P s (s.upd n (fun x => { x with cached := x.cached.filter fun c => c ≠ t })) :=
    grow_upd rfl (fun _ h _ => h) id
  exact ⟨this.mark, this.node⟩

theorem grow_same {P : Info → Prop} {s s' : State} (hm : s'.mark = s.mark) (hn : s'.node = s.node) : Grow P s s' :=
  Grow.of_eq hm (fun _ => by rw [hn]) (fun _ => by rw [hn])

theorem grow_operate {P : Info → Prop} (s : State) (n : Nat) (out : Outcome) (o : Op) :
    Grow P s (s.operate n out o).1 := by
  cases o with
  | dropTenant t =>
    have h0 := grow_tenantMeta (P := P) s n t
    simp only [State.operate]
    split
    · cases out with
      | ok => exact h0.trans (grow_removeTenant _ n t)
      | fail g => exact h0.trans (grow_same (s' := State.removeDbs _ t g) rfl rfl)
      | crash => exact h0
    · exact h0
  | dropDb t d =>
    have h0 := grow_tenantMeta (P := P) s n t
    simp only [State.operate]
    split
    · cases out with
      | ok => exact h0.trans (grow_same (s' := State.removeDb _ t d) rfl rfl)
      | fail g => exact h0
      | crash => exact h0
    · exact h0
  | dropTable t d b =>
    have h0 := grow_tenantMeta (P := P) s n t
    simp only [State.operate]
    split
    · split
      · split
        · exact h0.trans (grow_same (s' := State.removeTable _ t d b) rfl rfl)
        · exact h0
      · exact h0
    · exact h0

theorem grow_doOp {P : Info → Prop} (s : State) (n : Nat) (out : Outcome) {i : Info} (hi : ∀ ok, P (i.after ok)) :
    Grow P s (s.doOp n out i).1 := by
  cases out with
  | crash => exact grow_restart s n
  | ok => exact (grow_operate s n .ok i.op).trans (grow_write _ (hi _))
  | fail g => exact (grow_operate s n (.fail g) i.op).trans (grow_write _ (hi _))

theorem grow_add {P : Info → Prop} (s : State) (n : Nat) (out : Outcome) {i : Info} (hi : ∀ m, P { i with node := m })
    (hp : i.status = .executing → ∀ ok, P (i.after ok)) : Grow P s (s.add n out i).1 := by
  unfold State.add
  split
  · exact Grow.refl s
  · by_cases hs : i.status = .schedule ∧ s.mark.2 = true
    · simp only [if_pos hs]
      rw [if_neg (by simp [hs.1])]
      exact grow_write s (hi _)
    · simp only [if_neg hs]
      split
      · next he => exact (grow_write s (hi i.node)).trans (grow_doOp _ n out (hp he))
      · exact grow_write s (hi i.node)

/-- The step is not one by which a node hears of something, or loses what it would have heard. -/
def Step.silent : Step → Prop
  | .deliver _ | .unreachable _ | .resync _ => False
  | _ => True

theorem step_grow {PI PQ : Info → Prop} {PS PF : Handle → Prop} {H : Op → Prop} {s : State} {e : Step}
    (cl : Closed PI PQ PS PF H s.clock) (inv : Inv PI PQ PS PF s)
    (hn : ∀ i, e.made s.clock = some i → (∀ m, PI { i with node := m }) ∧ (i.status = .executing → ∀ ok, PI (i.after ok)))
    (he : e.silent) : Grow PI s (s.step e).1 := by
  cases e with
  | createTenant n a =>
    simp only [State.step, State.createTenant]
    split
    · exact grow_hideTenant s n a false
    · exact Grow.refl s
  | createDb n a b =>
    have h0 := grow_tenantMeta (P := PI) s n a
    simp only [State.step, State.createDb]
    split
    · split
      · exact h0.trans (grow_same rfl rfl)
      · exact h0
    · exact h0
  | createTable n a b c =>
    have h0 := grow_tenantMeta (P := PI) s n a
    simp only [State.step, State.createTable]
    split
    · split
      · split
        · exact h0.trans (grow_same rfl rfl)
        · exact h0
      · exact h0
    · exact h0
  | dropTenant n a af ie o =>
    obtain ⟨h1, h2⟩ := hn _ rfl
    simp only [State.step, State.dropTenant]
    split
    · split
      · exact Grow.refl s
      · exact (grow_hideTenant s n a true).trans (grow_add _ n o h1 h2)
    · exact Grow.refl s
  | dropDb n a b af ie o =>
    obtain ⟨h1, h2⟩ := hn _ rfl
    have h0 := grow_tenantMeta (P := PI) s n a
    simp only [State.step, State.dropDb]
    split
    · split
      · exact h0
      · exact (h0.trans (grow_same (s' := State.hideDb _ a b true) rfl rfl)).trans (grow_add _ n o h1 h2)
    · exact h0
  | dropTable n a b c ie o =>
    obtain ⟨h1, h2⟩ := hn _ rfl
    have h0 := grow_tenantMeta (P := PI) s n a
    simp only [State.step, State.dropTable]
    split
    · split
      · exact h0
      · split
        · exact h0.trans (grow_add _ n o h1 h2)
        · exact h0
    · exact h0
  | recoverDb n a b ie =>
    have hm := (hn _ rfl).1 n
    have h0 := grow_tenantMeta (P := PI) s n a
    simp only [State.step, State.recoverDb]
    split
    · have h1 := h0.trans (grow_write (s.tenantMeta n a).1 (i := Info.canceled s.clock (.dropDb a b) n) hm)
      split
      · exact h1
      · exact h1.trans (grow_same (s' := State.hideDb _ a b false) rfl rfl)
    · exact h0
  | recoverTenant n a ie =>
    have hm := (hn _ rfl).1 n
    have h0 := grow_tenantMeta (P := PI) s n a
    simp only [State.step, State.recoverTenant]
    split
    · have h1 := h0.trans (grow_write (s.tenantMeta n a).1 (i := Info.canceled s.clock (.dropTenant a) n) hm)
      split
      · exact h1
      · exact h1.trans (grow_hideTenant _ n a false)
    · exact h0
  | tick dt => exact grow_same rfl rfl
  | deliver n => exact he.elim
  | fire n name o =>
    simp only [State.step, State.fire]
    cases hr : ready (s.node n).sched name s.clock with
    | none => exact Grow.refl s
    | some x =>
      obtain ⟨hm, hn', ho, hw⟩ := ready_spec hr
      obtain ⟨hh, h1, h2⟩ := cl.fire x (inv.sched n x hm ho) hw
      have h3 : Grow PI s (s.upd n fun y => { y with sched := finish y.sched name }) :=
        grow_upd rfl (fun _ h ho => mem_finish h ho) (fun h => by simp [h, finish])
      exact (h3.trans (grow_write _ h1)).trans (grow_doOp _ n o h2)
  | retry n name o =>
    simp only [State.step, State.retry]
    cases hr : ready (s.node n).failed name s.clock with
    | none => exact Grow.refl s
    | some x =>
      simp only
      obtain ⟨hm, hn', ho, hw⟩ := ready_spec hr
      cases hi : s.reread x with
      | none =>
        show Grow PI s (s.upd n fun y => { y with failed := finish y.failed name })
        exact grow_upd rfl (fun _ h _ => h) id
      | some i =>
        simp only
        have hii : i = x.info ∨ (PI i ∧ i.name = x.info.name) := by
          unfold State.reread at hi
          split at hi
          · have := read_mem hi
            exact Or.inr ⟨inv.infos i this.1, this.2⟩
          · exact Or.inl (by simpa using hi.symm)
        obtain ⟨hh, h1, h2⟩ := cl.retry x i (inv.failed n x hm ho) hii
        refine (grow_doOp s n o h1).trans ?_
        exact grow_upd rfl (fun _ h _ => h) id
  | unreachable m => exact he.elim
  | restart n => exact grow_restart s n
  | resync n => exact he.elim

/-! ## One node has the mark -/

/-- Node `h` has the mark, no node is on the way to be taken for dead, and only `h` has sleeping tasks. -/
structure Stable (h : Nat) (s : State) : Prop where
  mark : s.mark = (h, true)
  queue : ∀ n m, Event.dead m ∉ (s.node n).queue
  sched : ∀ n, n ≠ h → (s.node n).sched = []

theorem Stable.grow {P : Info → Prop} {h : Nat} {s s' : State} (hs : Stable h s) (g : Grow P s s') : Stable h s' := by
  refine ⟨g.mark.trans hs.mark, ?_, ?_⟩
  · intro n m hm
    rcases g.node n with ⟨⟨b, hb, hP⟩, _⟩ | ⟨hq, _⟩
    · rw [hb] at hm
      rcases List.mem_append.mp hm with hm | hm
      · exact hs.queue n m hm
      · obtain ⟨i, hi, _⟩ := hP _ hm
        cases hi
    · obtain ⟨i, hi, _⟩ := hq _ hm
      cases hi
  · intro n hn
    rcases g.node n with ⟨_, _, he⟩ | ⟨_, he⟩
    · exact he (hs.sched n hn)
    · exact he

/-- No step of the execution reports a node to be unreachable. -/
def Step.calm : Step → Prop
  | .unreachable _ => False
  | _ => True

theorem onInfo_node (s : State) (n : Nat) (i : Info) :
    (s.onInfo n i).mark = s.mark ∧ (∀ k, ((s.onInfo n i).node k).queue = (s.node k).queue) ∧
      (∀ k, k ≠ n → (s.onInfo n i).node k = s.node k) ∧ (s.mark ≠ (n, true) → s.onInfo n i = s) := by
  unfold State.onInfo
  split
  · next hc =>
    have key : ∀ (f : Node → Node), (∀ x, (f x).queue = x.queue) → (s.upd n f).mark = s.mark ∧
        (∀ k, ((s.upd n f).node k).queue = (s.node k).queue) ∧
        (∀ k, k ≠ n → (s.upd n f).node k = s.node k) ∧ (s.mark ≠ (n, true) → s.upd n f = s) := by
      intro f hf
      refine ⟨rfl, ?_, ?_, fun h => absurd hc.2 h⟩
      · intro k
        simp only [State.upd]
        split
        · exact hf _
        · rfl
      · intro k hk
        simp only [State.upd]
        rw [if_neg hk]
    split
    · exact key _ (fun _ => rfl)
    · split
      · exact ⟨rfl, fun _ => rfl, fun _ _ => rfl, fun _ => rfl⟩
      · exact key _ (fun _ => rfl)
    · exact key _ (fun _ => rfl)
    · exact ⟨rfl, fun _ => rfl, fun _ _ => rfl, fun _ => rfl⟩
  · exact ⟨rfl, fun _ => rfl, fun _ _ => rfl, fun _ => rfl⟩

theorem stable_step {h : Nat} {s : State} {e : Step} (hs : Stable h s) (he : e.calm) : Stable h (s.step e).1 := by
  by_cases hsi : e.silent
  · exact hs.grow (step_grow (PI := fun _ => True) (PQ := fun _ => True) (PS := fun _ => True) (PF := fun _ => True)
      (H := fun _ => True) ⟨fun _ _ => trivial, fun _ _ _ => trivial, fun _ _ _ => trivial, fun _ _ _ _ => trivial,
        fun _ _ _ => ⟨trivial, trivial, fun _ => trivial⟩, fun _ _ _ _ => ⟨trivial, fun _ => trivial, fun _ => trivial⟩⟩
      ⟨fun _ _ => trivial, fun _ _ _ => trivial, fun _ _ _ _ => trivial, fun _ _ _ _ => trivial⟩
      (fun _ _ => ⟨fun _ => trivial, fun _ _ => trivial⟩) hsi)
  · cases e <;> try exact (hsi trivial).elim
    case deliver n =>
      simp only [State.step, State.deliver]
      cases hq : (s.node n).queue with
      | nil => exact hs
      | cons ev q =>
        simp only
        cases ev with
        | dead m => exact (hs.queue n m (by rw [hq]; simp)).elim
        | info i =>
          simp only
          obtain ⟨h1, h2, h3, h4⟩ := onInfo_node (s.upd n fun x => { x with queue := q }) n i
          refine ⟨h1.trans hs.mark, ?_, ?_⟩
          · intro k m hm
            rw [h2] at hm
            simp only [State.upd] at hm
            split at hm
            · next hk => subst hk; exact hs.queue k m (by rw [hq]; exact List.mem_cons_of_mem _ hm)
            · exact hs.queue k m hm
          · intro k hk
            by_cases hkn : k = n
            · subst hkn
              rw [h4 (by simp only [State.upd]; rw [hs.mark]; intro hh; exact hk (by injection hh with h _; exact h.symm))]
              simp only [State.upd, if_true]
              exact hs.sched k hk
            · rw [h3 k hkn]
              simp only [State.upd, if_neg hkn]
              exact hs.sched k hk
    case unreachable m => exact he.elim
    case resync n =>
      refine ⟨hs.mark, ?_, ?_⟩
      · intro k m hm
        simp only [State.step, State.resync, State.upd] at hm
        split at hm
        · cases hm
        · exact hs.queue k m hm
      · intro k hk
        simp only [State.step, State.resync, State.upd]
        split <;> exact hs.sched k hk

theorem stable_run {h : Nat} {s : State} (es : List Step) (hs : Stable h s) (he : ∀ e ∈ es, e.calm) :
    Stable h (s.run es) := by
  induction es generalizing s with
  | nil => exact hs
  | cons e es ih => exact ih (stable_step hs (he e (by simp))) (fun x hx => he x (by simp [hx]))

theorem stable_init (h : Nat) : Stable h (State.init h) :=
  ⟨rfl, fun _ _ hm => (List.not_mem_nil hm).elim, fun _ _ => rfl⟩

end Verif.Tasks
