import Verif.Tasks.Model

/-!
# Tasks: invariants of executions
-/
namespace Verif.Tasks

/-- The operator changes database `d` of tenant `t`. -/
def Op.hits (t d : Str) : Op → Prop
  | .dropTenant t' => t' = t
  | .dropDb t' d' => t' = t ∧ d' = d
  | .dropTable t' d' _ => t' = t ∧ d' = d

/-- The operator of a statement that drops. -/
def Step.dropOp : Step → Option Op
  | .dropTenant _ t _ _ _ => some (.dropTenant t)
  | .dropDb _ t d _ _ _ => some (.dropDb t d)
  | .dropTable _ t d b _ _ => some (.dropTable t d b)
  | _ => none

/-- The operator whose task a statement cancels. -/
def Step.recoverOp : Step → Option Op
  | .recoverDb _ t d _ => some (.dropDb t d)
  | .recoverTenant _ t _ => some (.dropTenant t)
  | _ => none

/-- The step is a statement that drops the database, its tenant, or a table of it. -/
def Step.drops (t d : Str) (e : Step) : Prop := ∃ o, e.dropOp = some o ∧ o.hits t d

/-- The step is a statement that recovers the database or its tenant. -/
def Step.recovers (t d : Str) (e : Step) : Prop := ∃ o, e.recoverOp = some o ∧ o.hits t d

/-- The record that a statement makes. -/
def Step.made (c : Int) : Step → Option Info
  | .dropTenant n t a _ _ => some (Info.mk' c (.dropTenant t) a n)
  | .dropDb n t d a _ _ => some (Info.mk' c (.dropDb t d) a n)
  | .dropTable n t d b _ _ => some (Info.mk' c (.dropTable t d b) none n)
  | .recoverDb n t d _ => some (Info.canceled c (.dropDb t d) n)
  | .recoverTenant n t _ => some (Info.canceled c (.dropTenant t) n)
  | _ => none

/-- The database is still there, has its tables, and is not hidden if it was not. -/
def Keeps (t d : Str) (s s' : State) : Prop :=
  ∀ x, s.db t d = some x → ∃ y, s'.db t d = some y ∧ (y.hidden = true → x.hidden = true) ∧
    ∀ b ∈ x.tables, b ∈ y.tables

theorem Keeps.refl (t d : Str) (s : State) : Keeps t d s s := fun x hx => ⟨x, hx, id, fun _ h => h⟩

theorem Keeps.of_eq {t d : Str} {s s' : State} (h : s'.db t d = s.db t d) : Keeps t d s s' :=
  fun x hx => ⟨x, by rw [h]; exact hx, id, fun _ h => h⟩

theorem Keeps.trans {t d : Str} {s s' s'' : State} (h : Keeps t d s s') (k : Keeps t d s' s'') : Keeps t d s s'' := by
  intro x hx
  obtain ⟨y, hy, hh, ht⟩ := h x hx
  obtain ⟨z, hz, hh', ht'⟩ := k y hy
  exact ⟨z, hz, fun h => hh (hh' h), fun b hb => ht' b (ht b hb)⟩

/-- `s'` knows of no task that `s` does not know of. -/
structure Sub (s' s : State) : Prop where
  infos : ∀ i ∈ s'.infos, i ∈ s.infos
  queue : ∀ n e, e ∈ (s'.node n).queue → e ∈ (s.node n).queue
  sched : ∀ n h, h ∈ (s'.node n).sched → h.over = false → h ∈ (s.node n).sched
  failed : ∀ n h, h ∈ (s'.node n).failed → h.over = false → h ∈ (s.node n).failed

theorem Sub.refl (s : State) : Sub s s := ⟨fun _ h => h, fun _ _ h => h, fun _ _ h _ => h, fun _ _ h _ => h⟩

theorem Sub.trans {a b c : State} (h : Sub a b) (k : Sub b c) : Sub a c :=
  ⟨fun i hi => k.infos i (h.infos i hi), fun n e he => k.queue n e (h.queue n e he),
    fun n x hx ho => k.sched n x (h.sched n x hx ho) ho, fun n x hx ho => k.failed n x (h.failed n x hx ho) ho⟩

/-- A change of one node that adds no task. -/
theorem Sub.upd {s : State} {n : Nat} {f : Node → Node}
    (hq : ∀ e, e ∈ (f (s.node n)).queue → e ∈ (s.node n).queue)
    (hs : ∀ h, h ∈ (f (s.node n)).sched → h.over = false → h ∈ (s.node n).sched)
    (hf : ∀ h, h ∈ (f (s.node n)).failed → h.over = false → h ∈ (s.node n).failed) : Sub (s.upd n f) s := by
  refine ⟨fun i hi => hi, ?_, ?_, ?_⟩ <;> intro k x hx <;> simp only [State.upd] at hx <;> split at hx
  · next hk => subst hk; exact hq x hx
  · exact hx
  · next hk => subst hk; exact hs x hx
  · exact fun _ => hx
  · next hk => subst hk; exact hf x hx
  · exact fun _ => hx

/-- Every task that is known has a property: `PI` for records, `PQ` for records that are on their way to a node, `PS` for
    sleeping tasks and `PF` for failed ones. -/
structure Inv (PI PQ : Info → Prop) (PS PF : Handle → Prop) (s : State) : Prop where
  infos : ∀ i ∈ s.infos, PI i
  queue : ∀ n i, Event.info i ∈ (s.node n).queue → PQ i
  sched : ∀ n h, h ∈ (s.node n).sched → h.over = false → PS h
  failed : ∀ n h, h ∈ (s.node n).failed → h.over = false → PF h

variable {PI PQ : Info → Prop} {PS PF : Handle → Prop}

theorem Inv.sub {s s' : State} (h : Inv PI PQ PS PF s) (k : Sub s' s) : Inv PI PQ PS PF s' :=
  ⟨fun i hi => h.infos i (k.infos i hi), fun n i hi => h.queue n i (k.queue n _ hi),
    fun n x hx ho => h.sched n x (k.sched n x hx ho) ho, fun n x hx ho => h.failed n x (k.failed n x hx ho) ho⟩

theorem Inv.write {s : State} {i : Info} (h : Inv PI PQ PS PF s) (hi : PI i) (hq : PQ i) :
    Inv PI PQ PS PF (s.write i) := by
  refine ⟨?_, ?_, ?_, ?_⟩
  · intro j hj
    simp only [State.write, List.mem_cons, List.mem_filter] at hj
    rcases hj with rfl | ⟨hj, _⟩
    · exact hi
    · exact h.infos j hj
  · intro n j hj
    simp only [State.write] at hj
    split at hj
    · simp only [List.mem_append, List.mem_singleton, Event.info.injEq] at hj
      rcases hj with hj | rfl
      · exact h.queue n j hj
      · exact hq
    · exact h.queue n j hj
  · intro n x hx
    have : x ∈ (s.node n).sched := by
      simp only [State.write] at hx
      split at hx <;> exact hx
    exact h.sched n x this
  · intro n x hx
    have : x ∈ (s.node n).failed := by
      simp only [State.write] at hx
      split at hx <;> exact hx
    exact h.failed n x this

/-- The properties are kept by what the nodes do at time `c`; the operators of the tasks that are done are in `H`. -/
structure Closed (PI PQ : Info → Prop) (PS PF : Handle → Prop) (H : Op → Prop) (c : Int) : Prop where
  told : ∀ i, PI i → PQ i
  move : ∀ i n, PI i → PI (i.moved n)
  spawn : ∀ i, PQ i → i.status = .schedule → PS ⟨i, wakeAt c i.time, false, false⟩
  fail : ∀ i n, PQ i → i.status = .failed → PF ⟨{ i with node := n }, c + pause i.tries, false, false⟩
  fire : ∀ h, PS h → h.wake ≤ c → H h.info.op ∧
    PI { h.info with status := .executing, isNew := false } ∧
    ∀ ok, PI (({ h.info with status := .executing, isNew := false } : Info).after ok)
  retry : ∀ h i, PF h → (i = h.info ∨ (PI i ∧ i.name = h.info.name)) → H i.op ∧
    (∀ ok, PI (i.after ok)) ∧ ∀ w, PF ⟨i, w, false, true⟩

theorem sub_tenantMeta (s : State) (n : Nat) (t : Str) : Sub (s.tenantMeta n t).1 s := by
  unfold State.tenantMeta
  split
  · exact Sub.refl s
  · split
    · show Sub (s.upd n fun x => { x with cached := t :: x.cached }) s
      exact Sub.upd (fun _ h => h) (fun _ h _ => h) (fun _ h _ => h)
    · exact Sub.refl s

theorem tenantMeta_db (s : State) (n : Nat) (t : Str) : (s.tenantMeta n t).1.db = s.db := by
  unfold State.tenantMeta
  split
  · rfl
  · split <;> rfl

theorem tenantMeta_clock (s : State) (n : Nat) (t : Str) : (s.tenantMeta n t).1.clock = s.clock := by
  unfold State.tenantMeta
  split
  · rfl
  · split <;> rfl

theorem sub_restart (s : State) (n : Nat) : Sub (s.restart n) s := by
  apply Sub.upd
  · intro e h; cases h
  · intro e h; cases h
  · intro e h; cases h

theorem sub_removeTenant (s : State) (n : Nat) (t : Str) : Sub (s.removeTenant n t) s := by
  have : Sub (s.upd n (fun x => { x with cached := x.cached.filter fun c => c ≠ t })) s :=
    Sub.upd (fun _ h => h) (fun _ h _ => h) (fun _ h _ => h)
  exact ⟨this.infos, this.queue, this.sched, this.failed⟩

theorem sub_hideTenant (s : State) (n : Nat) (t : Str) (v : Bool) : Sub (s.hideTenant n t v) s := by
  have : Sub (s.upd n (fun x => { x with cached := t :: x.cached })) s :=
    Sub.upd (fun _ h => h) (fun _ h _ => h) (fun _ h _ => h)
  exact ⟨this.infos, this.queue, this.sched, this.failed⟩

theorem Sub.of_eq {s' s : State} (hi : s'.infos = s.infos) (hn : s'.node = s.node) : Sub s' s := by
  refine ⟨?_, ?_, ?_, ?_⟩
  · rw [hi]; exact fun _ h => h
  · rw [hn]; exact fun _ _ h => h
  · rw [hn]; exact fun _ _ h _ => h
  · rw [hn]; exact fun _ _ h _ => h

theorem sub_removeDbs (s : State) (t : Str) (g : List Str) : Sub (s.removeDbs t g) s := Sub.of_eq rfl rfl

theorem sub_removeDb (s : State) (t d : Str) : Sub (s.removeDb t d) s := Sub.of_eq rfl rfl

theorem sub_removeTable (s : State) (t d b : Str) : Sub (s.removeTable t d b) s := Sub.of_eq rfl rfl

/-- The operator adds no task, and changes only what it is about. -/
theorem operate_spec (s : State) (n : Nat) (out : Outcome) (o : Op) :
    Sub (s.operate n out o).1 s ∧ (s.operate n out o).1.clock = s.clock ∧
      ∀ t d, ¬ o.hits t d → (s.operate n out o).1.db t d = s.db t d := by
  have hm (t : Str) := sub_tenantMeta s n t
  have hd (t : Str) := tenantMeta_db s n t
  have hc (t : Str) := tenantMeta_clock s n t
  have triv (t : Str) : Sub (s.tenantMeta n t).1 s ∧ (s.tenantMeta n t).1.clock = s.clock ∧
      ∀ t' d', ¬ o.hits t' d' → (s.tenantMeta n t).1.db t' d' = s.db t' d' :=
    ⟨hm t, hc t, fun _ _ _ => by rw [hd]⟩
  cases o with
  | dropTenant t =>
    simp only [State.operate]
    split
    · cases out with
      | ok =>
        refine ⟨(sub_removeTenant _ n t).trans (hm t), by simpa [State.removeTenant, State.upd] using hc t, ?_⟩
        intro t' d' hne
        simp only [State.removeTenant]
        rw [if_neg (fun h => hne (by simp [Op.hits, h])), hd]
      | fail gone =>
        refine ⟨(sub_removeDbs _ t gone).trans (hm t), by simpa [State.removeDbs] using hc t, ?_⟩
        intro t' d' hne
        simp only [State.removeDbs]
        rw [if_neg (fun h => hne (by simp [Op.hits, h.1])), hd]
      | crash => exact triv t
    · exact triv t
  | dropDb t d =>
    simp only [State.operate]
    split
    · cases out with
      | ok =>
        refine ⟨(sub_removeDb _ t d).trans (hm t), by simpa [State.removeDb] using hc t, ?_⟩
        intro t' d' hne
        simp only [State.removeDb]
        rw [if_neg (fun h => hne (by simp [Op.hits, h])), hd]
      | fail gone => exact triv t
      | crash => exact triv t
    · exact triv t
  | dropTable t d b =>
    simp only [State.operate]
    split
    · split
      · split
        · refine ⟨(sub_removeTable _ t d b).trans (hm t), by simpa [State.removeTable] using hc t, ?_⟩
          intro t' d' hne
          simp only [State.removeTable]
          rw [if_neg (fun h => hne (by simp [Op.hits, h])), hd]
        · exact triv t
      · exact triv t
    · exact triv t

/-- An attempt of a task. -/
theorem doOp_spec {s : State} {n : Nat} {out : Outcome} {i : Info} (inv : Inv PI PQ PS PF s)
    (hp : ∀ ok, PI (i.after ok)) (ht : ∀ i, PI i → PQ i) :
    Inv PI PQ PS PF (s.doOp n out i).1 ∧ (s.doOp n out i).1.clock = s.clock ∧
      ∀ t d, ¬ i.op.hits t d → (s.doOp n out i).1.db t d = s.db t d := by
  obtain ⟨h1, h2, h3⟩ := operate_spec s n out i.op
  cases out with
  | crash => exact ⟨inv.sub (sub_restart s n), rfl, fun _ _ _ => rfl⟩
  | ok => exact ⟨(inv.sub h1).write (hp _) (ht _ (hp _)), h2, h3⟩
  | fail g => exact ⟨(inv.sub h1).write (hp _) (ht _ (hp _)), h2, h3⟩

/-- A new task. -/
theorem add_spec {s : State} {n : Nat} {out : Outcome} {i : Info} (inv : Inv PI PQ PS PF s)
    (hi : ∀ m, PI { i with node := m }) (hp : i.status = .executing → ∀ ok, PI (i.after ok)) (ht : ∀ i, PI i → PQ i) :
    Inv PI PQ PS PF (s.add n out i).1 ∧ (s.add n out i).1.clock = s.clock ∧
      ∀ t d, ¬ i.op.hits t d → (s.add n out i).1.db t d = s.db t d := by
  unfold State.add
  split
  · exact ⟨inv, rfl, fun _ _ _ => rfl⟩
  · by_cases hs : i.status = .schedule ∧ s.mark.2 = true
    · simp only [if_pos hs]
      rw [if_neg (by simp [hs.1])]
      exact ⟨inv.write (hi _) (ht _ (hi _)), rfl, fun _ _ _ => rfl⟩
    · simp only [if_neg hs]
      have h0 : PI i := hi i.node
      have hw := inv.write h0 (ht _ h0)
      split
      · next he => exact doOp_spec hw (hp he) ht
      · exact ⟨hw, rfl, fun _ _ _ => rfl⟩

theorem read_write (s : State) (i : Info) : (s.write i).read i.name = some i := by
  simp [State.read, State.write]

/-- A record `Executing` that has just been written is not executed. -/
theorem add_executing (s : State) (n : Nat) (out : Outcome) (i : Info) (h : i.status = .executing) :
    (s.write i).add n out i = (s.write i, true) := by
  unfold State.add State.busy
  rw [read_write]
  simp [h]

theorem mem_put {l : List Handle} {h x : Handle} (hx : x ∈ put l h) : x = h ∨ x ∈ l := by
  simp only [put, List.mem_cons, List.mem_filter] at hx
  exact hx.imp id And.left

theorem spawn_inv {H : Op → Prop} {s : State} (cl : Closed PI PQ PS PF H s.clock) (inv : Inv PI PQ PS PF s) (n : Nat)
    {i : Info} (hi : PQ i) (hs : i.status = .schedule) : Inv PI PQ PS PF (s.spawn n i) := by
  refine ⟨inv.infos, ?_, ?_, ?_⟩ <;> intro k x hx <;> simp only [State.spawn, State.upd] at hx <;> split at hx
  · exact inv.queue k x hx
  · exact inv.queue k x hx
  · intro ho
    rcases mem_put hx with rfl | hx
    · exact cl.spawn i hi hs
    · exact inv.sched k x hx ho
  · exact inv.sched k x hx
  · exact inv.failed k x hx
  · exact inv.failed k x hx

theorem spawnFailed_inv {H : Op → Prop} {s : State} (cl : Closed PI PQ PS PF H s.clock) (inv : Inv PI PQ PS PF s) (n : Nat)
    {i : Info} (hi : PQ i) (hs : i.status = .failed) : Inv PI PQ PS PF (s.spawnFailed n i) := by
  refine ⟨inv.infos, ?_, ?_, ?_⟩ <;> intro k x hx <;> simp only [State.spawnFailed, State.upd] at hx <;> split at hx
  · exact inv.queue k x hx
  · exact inv.queue k x hx
  · exact inv.sched k x hx
  · exact inv.sched k x hx
  · intro ho
    rcases mem_put hx with rfl | hx
    · exact cl.fail i n hi hs
    · exact inv.failed k x hx ho
  · exact inv.failed k x hx

theorem onInfo_spec {H : Op → Prop} {s : State} (cl : Closed PI PQ PS PF H s.clock) (inv : Inv PI PQ PS PF s) (n : Nat)
    {i : Info} (hi : PQ i) :
    Inv PI PQ PS PF (s.onInfo n i) ∧ (s.onInfo n i).db = s.db ∧ (s.onInfo n i).clock = s.clock := by
  unfold State.onInfo
  split
  · split
    · next hs => exact ⟨spawn_inv cl inv n hi hs, rfl, rfl⟩
    · next hs =>
      split
      · exact ⟨inv, rfl, rfl⟩
      · exact ⟨spawnFailed_inv cl inv n hi hs, rfl, rfl⟩
    · exact ⟨inv.sub (Sub.upd (fun _ h => h) (fun _ h _ => (List.mem_filter.mp h).1) (fun _ h _ => h)), rfl, rfl⟩
    · exact ⟨inv, rfl, rfl⟩
  · exact ⟨inv, rfl, rfl⟩

theorem take_spec {H : Op → Prop} (n : Nat) (l : List Info) : ∀ {s : State}, Closed PI PQ PS PF H s.clock →
    Inv PI PQ PS PF s → (∀ i ∈ l, PI i) →
    Inv PI PQ PS PF (s.take n l) ∧ (s.take n l).db = s.db ∧ (s.take n l).clock = s.clock := by
  induction l with
  | nil => intro s cl inv hl; exact ⟨inv, rfl, rfl⟩
  | cons i is ih =>
    intro s cl inv hl
    have hi := cl.move i n (hl i (by simp))
    have hr : ∀ j ∈ is, PI j := fun j hj => hl j (by simp [hj])
    simp only [State.take]
    generalize i.moved n = j at hi
    have hw := inv.write hi (cl.told _ hi)
    split
    · next hs =>
      split
      · exact ⟨hw, rfl, rfl⟩
      · have h := ih (s := (s.write j).spawn n j) cl (spawn_inv (s := s.write _) cl hw n (cl.told _ hi) hs) hr
        exact ⟨h.1, h.2.1, h.2.2⟩
    · next hs =>
      rw [add_executing _ _ _ _ hs]
      exact ih (s := s.write _) cl hw hr
    · next hs =>
      split
      · exact ⟨hw, rfl, rfl⟩
      · have h := ih (s := (s.write j).spawnFailed n j) cl
          (spawnFailed_inv (s := s.write _) cl hw n (cl.told _ hi) hs) hr
        exact ⟨h.1, h.2.1, h.2.2⟩
    · exact ih (s := s.write _) cl hw hr

theorem onDead_spec {H : Op → Prop} {s : State} (cl : Closed PI PQ PS PF H s.clock) (inv : Inv PI PQ PS PF s) (n m : Nat) :
    Inv PI PQ PS PF (s.onDead n m) ∧ (s.onDead n m).db = s.db ∧ (s.onDead n m).clock = s.clock := by
  simp only [State.onDead]
  have key : ∀ s0 : State, s0.clock = s.clock → s0.db = s.db → Inv PI PQ PS PF s0 →
      Inv PI PQ PS PF (if s0.mark = (n, true) then s0.take n (s0.infos.filter fun i => i.node = m) else s0) ∧
      (if s0.mark = (n, true) then s0.take n (s0.infos.filter fun i => i.node = m) else s0).db = s.db ∧
      (if s0.mark = (n, true) then s0.take n (s0.infos.filter fun i => i.node = m) else s0).clock = s.clock := by
    intro s0 hc hd h0
    split
    · have := take_spec (H := H) n (s0.infos.filter fun i => i.node = m) (s := s0) (hc ▸ cl) h0
        (fun i hi => h0.infos i (List.mem_filter.mp hi).1)
      exact ⟨this.1, this.2.1.trans hd, this.2.2.trans hc⟩
    · exact ⟨h0, hd, hc⟩
  split
  · exact key _ rfl rfl (inv.sub (Sub.of_eq rfl rfl))
  · exact key _ rfl rfl inv

theorem deliver_spec {H : Op → Prop} {s : State} (cl : Closed PI PQ PS PF H s.clock) (inv : Inv PI PQ PS PF s) (n : Nat) :
    Inv PI PQ PS PF (s.deliver n) ∧ (s.deliver n).db = s.db ∧ (s.deliver n).clock = s.clock := by
  unfold State.deliver
  cases hq : (s.node n).queue with
  | nil => exact ⟨inv, rfl, rfl⟩
  | cons e q =>
    simp only
    have hsub : Sub (s.upd n fun x => { x with queue := q }) s := by
      refine Sub.upd (fun e' h => ?_) (fun _ h _ => h) (fun _ h _ => h)
      rw [hq]; exact List.mem_cons_of_mem _ h
    have h0 := inv.sub hsub
    cases e with
    | info i =>
      have hi : PQ i := inv.queue n i (by rw [hq]; simp)
      exact onInfo_spec (s := s.upd n _) cl h0 n hi
    | dead m => exact onDead_spec (s := s.upd n _) cl h0 n m

theorem ready_spec {l : List Handle} {name : Str} {c : Int} {h : Handle} (hr : ready l name c = some h) :
    h ∈ l ∧ h.info.name = name ∧ h.over = false ∧ h.wake ≤ c := by
  have h1 := List.mem_of_find?_eq_some hr
  have h2 := List.find?_some hr
  simp at h2
  exact ⟨h1, h2.1, h2.2.1, h2.2.2⟩

theorem mem_finish {l : List Handle} {name : Str} {h : Handle} (hx : h ∈ finish l name) (ho : h.over = false) :
    h ∈ l := by
  simp only [finish, List.mem_map] at hx
  obtain ⟨y, hy, rfl⟩ := hx
  split at ho
  · simp at ho
  · next hn => rw [if_neg hn]; exact hy

theorem sub_finishS (s : State) (n : Nat) (name : Str) :
    Sub (s.upd n fun x => { x with sched := finish x.sched name }) s :=
  Sub.upd (fun _ h => h) (fun _ h ho => mem_finish h ho) (fun _ h _ => h)

theorem sub_finishF (s : State) (n : Nat) (name : Str) :
    Sub (s.upd n fun x => { x with failed := finish x.failed name }) s :=
  Sub.upd (fun _ h => h) (fun _ h _ => h) (fun _ h ho => mem_finish h ho)

theorem fire_spec {H : Op → Prop} {s : State} (cl : Closed PI PQ PS PF H s.clock) (inv : Inv PI PQ PS PF s) (n : Nat)
    (name : Str) (out : Outcome) :
    Inv PI PQ PS PF (s.fire n name out) ∧
      (∀ t d, (∀ o, H o → ¬ o.hits t d) → (s.fire n name out).db t d = s.db t d) ∧
      (s.fire n name out).clock = s.clock := by
  unfold State.fire
  cases hr : ready (s.node n).sched name s.clock with
  | none => exact ⟨inv, fun _ _ _ => rfl, rfl⟩
  | some h =>
    obtain ⟨hm, hn, ho, hw⟩ := ready_spec hr
    obtain ⟨hh, h1, h2⟩ := cl.fire h (inv.sched n h hm ho) hw
    have h3 := (inv.sub (sub_finishS s n name)).write h1 (cl.told _ h1)
    have h4 := doOp_spec (n := n) (out := out) h3 h2 cl.told
    exact ⟨h4.1, fun t d hH => h4.2.2 t d (hH _ hh), h4.2.1⟩

theorem read_mem {s : State} {name : Str} {i : Info} (h : s.read name = some i) : i ∈ s.infos ∧ i.name = name := by
  have h1 := List.mem_of_find?_eq_some h
  have h2 := List.find?_some h
  exact ⟨h1, by simpa using h2⟩

theorem doOp_failed (s : State) (n : Nat) (out : Outcome) (i : Info) (k : Nat) (x : Handle)
    (hx : x ∈ ((s.doOp n out i).1.node k).failed) : x ∈ (s.node k).failed := by
  have key : ∀ (s' : State) (j : Info) (k : Nat), ((s'.write j).node k).failed = (s'.node k).failed := by
    intro s' j k
    simp only [State.write]
    split <;> rfl
  have key2 : ∀ (t : Str) (k : Nat), ((s.tenantMeta n t).1.node k).failed = (s.node k).failed := by
    intro t k
    unfold State.tenantMeta State.upd
    split
    · rfl
    · split
      · simp only
        split <;> rfl
      · rfl
  have key3 : ∀ (k : Nat), ((s.operate n out i.op).1.node k).failed = (s.node k).failed := by
    intro k
    cases i.op with
    | dropTenant t =>
      simp only [State.operate]
      split
      · cases out with
        | ok =>
          simp only [State.removeTenant, State.upd]
          rw [← key2 t k]
          split <;> rfl
        | fail g => exact key2 t k
        | crash => exact key2 t k
      · exact key2 t k
    | dropDb t d =>
      simp only [State.operate]
      split
      · cases out with
        | ok => exact key2 t k
        | fail g => exact key2 t k
        | crash => exact key2 t k
      · exact key2 t k
    | dropTable t d b =>
      simp only [State.operate]
      split
      · split
        · split <;> exact key2 t k
        · exact key2 t k
      · exact key2 t k
  cases out with
  | crash =>
    simp only [State.doOp, State.restart, State.upd] at hx
    split at hx
    · simp [Node.empty] at hx
    · exact hx
  | ok =>
    simp only [State.doOp] at hx
    rw [key, key3] at hx
    exact hx
  | fail g =>
    simp only [State.doOp] at hx
    rw [key, key3] at hx
    exact hx

theorem retry_spec {H : Op → Prop} {s : State} (cl : Closed PI PQ PS PF H s.clock) (inv : Inv PI PQ PS PF s) (n : Nat)
    (name : Str) (out : Outcome) :
    Inv PI PQ PS PF (s.retry n name out) ∧
      (∀ t d, (∀ o, H o → ¬ o.hits t d) → (s.retry n name out).db t d = s.db t d) ∧
      (s.retry n name out).clock = s.clock := by
  unfold State.retry
  cases hr : ready (s.node n).failed name s.clock with
  | none => exact ⟨inv, fun _ _ _ => rfl, rfl⟩
  | some h =>
    simp only
    obtain ⟨hm, hn, ho, hw⟩ := ready_spec hr
    cases hi : s.reread h with
    | none => exact ⟨inv.sub (sub_finishF s n name), fun _ _ _ => rfl, rfl⟩
    | some i =>
      simp only
      have hii : i = h.info ∨ (PI i ∧ i.name = h.info.name) := by
        unfold State.reread at hi
        split at hi
        · have := read_mem hi
          exact Or.inr ⟨inv.infos i this.1, this.2⟩
        · exact Or.inl (by simpa using hi.symm)
      obtain ⟨hh, h1, h2⟩ := cl.retry h i (inv.failed n h hm ho) hii
      obtain ⟨h3, h4, h5⟩ := doOp_spec (n := n) (out := out) inv h1 cl.told
      refine ⟨?_, fun t d hH => h5 t d (hH _ hh), h4⟩
      split
      · exact h3.sub (sub_finishF _ n name)
      · refine ⟨h3.infos, ?_, ?_, ?_⟩ <;> intro k x hx <;> simp only [State.upd] at hx <;> split at hx
        · exact h3.queue k x hx
        · exact h3.queue k x hx
        · exact h3.sched k x hx
        · exact h3.sched k x hx
        · intro hov
          simp only [later, List.mem_map] at hx
          obtain ⟨y, hy, rfl⟩ := hx
          by_cases hyn : y.info.name = name
          · simp only [if_pos hyn] at hov ⊢
            rw [hov]
            exact h2 _
          · simp only [if_neg hyn] at hov ⊢
            exact h3.failed k y hy hov
        · exact h3.failed k x hx

/-- **One step**: the tasks keep their properties, and the database is kept, unless the step is a statement that drops
    it. -/
theorem step_spec {H : Op → Prop} {s : State} {e : Step} (cl : Closed PI PQ PS PF H s.clock) (inv : Inv PI PQ PS PF s)
    (hn : ∀ i, e.made s.clock = some i → (∀ m, PI { i with node := m }) ∧ (i.status = .executing → ∀ ok, PI (i.after ok))) :
    Inv PI PQ PS PF (s.step e).1 ∧
      (∀ t d, (∀ o, H o → ¬ o.hits t d) → ¬ e.drops t d → Keeps t d s (s.step e).1) ∧
      s.clock ≤ (s.step e).1.clock := by
  have hmade : ∀ i, e.made s.clock = some i → PI i := fun i hi => (hn i hi).1 i.node
  cases e with
  | createTenant n a =>
    simp only [State.step, State.createTenant]
    split
    · exact ⟨inv.sub (sub_hideTenant s n a false), fun _ _ _ _ => Keeps.of_eq rfl, Int.le_refl _⟩
    · exact ⟨inv, fun _ _ _ _ => Keeps.refl _ _ _, Int.le_refl _⟩
  | createDb n a b =>
    simp only [State.step, State.createDb]
    have h0 := inv.sub (sub_tenantMeta s n a)
    have hk (t d : Str) : Keeps t d s (s.tenantMeta n a).1 := Keeps.of_eq (by rw [tenantMeta_db])
    have hc := tenantMeta_clock s n a
    split
    · split
      · next hnone =>
        refine ⟨h0.sub (Sub.of_eq rfl rfl), ?_, by simp [hc]⟩
        intro t d _ _
        apply (hk t d).trans
        intro x hx
        refine ⟨x, ?_, id, fun _ h => h⟩
        simp only
        rw [if_neg ?_]
        · exact hx
        · rintro ⟨rfl, rfl⟩
          rw [hnone] at hx; cases hx
      · exact ⟨h0, fun t d _ _ => hk t d, by rw [hc]; exact Int.le_refl _⟩
    · exact ⟨h0, fun t d _ _ => hk t d, by rw [hc]; exact Int.le_refl _⟩
  | createTable n a b c =>
    simp only [State.step, State.createTable]
    have h0 := inv.sub (sub_tenantMeta s n a)
    have hk (t d : Str) : Keeps t d s (s.tenantMeta n a).1 := Keeps.of_eq (by rw [tenantMeta_db])
    have hc := tenantMeta_clock s n a
    split
    · split
      · next y hy =>
        split
        · refine ⟨h0.sub (Sub.of_eq rfl rfl), ?_, by simp [hc]⟩
          intro t d _ _
          apply (hk t d).trans
          intro x hx
          by_cases he : t = a ∧ d = b
          · obtain ⟨rfl, rfl⟩ := he
            rw [hy] at hx
            cases hx
            exact ⟨{ y with tables := c :: y.tables }, by simp, id, fun _ h => List.mem_cons_of_mem _ h⟩
          · exact ⟨x, by simp only [if_neg he]; exact hx, id, fun _ h => h⟩
        · exact ⟨h0, fun t d _ _ => hk t d, by rw [hc]; exact Int.le_refl _⟩
      · exact ⟨h0, fun t d _ _ => hk t d, by rw [hc]; exact Int.le_refl _⟩
    · exact ⟨h0, fun t d _ _ => hk t d, by rw [hc]; exact Int.le_refl _⟩
  | dropTenant n a af ie o =>
    obtain ⟨h1, h2⟩ := hn _ rfl
    have hne (t d : Str) (hd : ¬ Step.drops t d (.dropTenant n a af ie o)) :
        ¬ (Op.dropTenant a).hits t d := fun h => hd ⟨_, rfl, h⟩
    simp only [State.step, State.dropTenant]
    split
    · split
      · exact ⟨inv, fun _ _ _ _ => Keeps.refl _ _ _, Int.le_refl _⟩
      · have := add_spec (n := n) (out := o) (inv.sub (sub_hideTenant s n a true)) h1 h2 cl.told
        exact ⟨this.1, fun t d _ hd => Keeps.of_eq (this.2.2 t d (hne t d hd)), by rw [this.2.1]; exact Int.le_refl _⟩
    · exact ⟨inv, fun _ _ _ _ => Keeps.refl _ _ _, Int.le_refl _⟩
  | dropDb n a b af ie o =>
    obtain ⟨h1, h2⟩ := hn _ rfl
    have hne (t d : Str) (hd : ¬ Step.drops t d (.dropDb n a b af ie o)) :
        ¬ (Op.dropDb a b).hits t d := fun h => hd ⟨_, rfl, h⟩
    have h0 := inv.sub (sub_tenantMeta s n a)
    have hk : (s.tenantMeta n a).1.db = s.db := tenantMeta_db s n a
    have hc := tenantMeta_clock s n a
    simp only [State.step, State.dropDb]
    split
    · split
      · exact ⟨h0, fun _ _ _ _ => Keeps.of_eq (by rw [hk]), by rw [hc]; exact Int.le_refl _⟩
      · have := add_spec (s := (s.tenantMeta n a).1.hideDb a b true) (n := n) (out := o) (h0.sub (Sub.of_eq rfl rfl))
          h1 h2 cl.told
        refine ⟨this.1, fun t d _ hd => Keeps.of_eq ((this.2.2 t d (hne t d hd)).trans ?_), by rw [this.2.1]; simp [State.hideDb, hc]⟩
        simp only [State.hideDb]
        rw [if_neg (fun h => hne t d hd (by simp [Op.hits, h])), hk]
    · exact ⟨h0, fun _ _ _ _ => Keeps.of_eq (by rw [hk]), by rw [hc]; exact Int.le_refl _⟩
  | dropTable n a b c ie o =>
    obtain ⟨h1, h2⟩ := hn _ rfl
    have hne (t d : Str) (hd : ¬ Step.drops t d (.dropTable n a b c ie o)) :
        ¬ (Op.dropTable a b c).hits t d := fun h => hd ⟨_, rfl, h⟩
    have h0 := inv.sub (sub_tenantMeta s n a)
    have hk : (s.tenantMeta n a).1.db = s.db := tenantMeta_db s n a
    have hc := tenantMeta_clock s n a
    simp only [State.step, State.dropTable]
    split
    · split
      · exact ⟨h0, fun _ _ _ _ => Keeps.of_eq (by rw [hk]), by rw [hc]; exact Int.le_refl _⟩
      · split
        · have := add_spec (s := (s.tenantMeta n a).1) (n := n) (out := o) h0 h1 h2 cl.told
          exact ⟨this.1, fun t d _ hd => Keeps.of_eq ((this.2.2 t d (hne t d hd)).trans (by rw [hk])), by rw [this.2.1, hc]; exact Int.le_refl _⟩
        · exact ⟨h0, fun _ _ _ _ => Keeps.of_eq (by rw [hk]), by rw [hc]; exact Int.le_refl _⟩
    · exact ⟨h0, fun _ _ _ _ => Keeps.of_eq (by rw [hk]), by rw [hc]; exact Int.le_refl _⟩
  | recoverDb n a b ie =>
    have hm := hmade _ rfl
    have h0 := inv.sub (sub_tenantMeta s n a)
    have hk : (s.tenantMeta n a).1.db = s.db := tenantMeta_db s n a
    have hc := tenantMeta_clock s n a
    simp only [State.step, State.recoverDb]
    split
    · have hw := h0.write hm (cl.told _ hm)
      split
      · exact ⟨hw, fun _ _ _ _ => Keeps.of_eq (by simp [State.write, hk]), by simp [State.write, hc]⟩
      · refine ⟨hw.sub (Sub.of_eq rfl rfl), ?_, by simp [State.hideDb, State.write, hc]⟩
        intro t d _ _ x hx
        by_cases he : t = a ∧ d = b
        · obtain ⟨rfl, rfl⟩ := he
          exact ⟨{ x with hidden := false }, by simp [State.hideDb, State.write, hk, hx], by simp, fun _ h => h⟩
        · exact ⟨x, by simp only [State.hideDb, if_neg he]; simpa [State.write, hk] using hx, id, fun _ h => h⟩
    · exact ⟨h0, fun _ _ _ _ => Keeps.of_eq (by rw [hk]), by rw [hc]; exact Int.le_refl _⟩
  | recoverTenant n a ie =>
    have hm := hmade _ rfl
    have h0 := inv.sub (sub_tenantMeta s n a)
    have hk : (s.tenantMeta n a).1.db = s.db := tenantMeta_db s n a
    have hc := tenantMeta_clock s n a
    simp only [State.step, State.recoverTenant]
    split
    · have hw := h0.write hm (cl.told _ hm)
      split
      · exact ⟨hw, fun _ _ _ _ => Keeps.of_eq (by simp [State.write, hk]), by simp [State.write, hc]⟩
      · exact ⟨hw.sub (sub_hideTenant _ n a false), fun _ _ _ _ => Keeps.of_eq (by simp [State.hideTenant, State.upd, State.write, hk]),
          by simp [State.hideTenant, State.upd, State.write, hc]⟩
    · exact ⟨h0, fun _ _ _ _ => Keeps.of_eq (by rw [hk]), by rw [hc]; exact Int.le_refl _⟩
  | tick dt => exact ⟨inv.sub (Sub.of_eq rfl rfl), fun _ _ _ _ => Keeps.of_eq rfl, by simp [State.step]; omega⟩
  | deliver n =>
    have := deliver_spec cl inv n
    exact ⟨this.1, fun _ _ _ _ => Keeps.of_eq (by simp only [State.step]; rw [this.2.1]), by simp only [State.step]; rw [this.2.2]; exact Int.le_refl _⟩
  | fire n name o =>
    have := fire_spec cl inv n name o
    exact ⟨this.1, fun t d hH _ => Keeps.of_eq (this.2.1 t d hH), by simp only [State.step]; rw [this.2.2]; exact Int.le_refl _⟩
  | retry n name o =>
    have := retry_spec cl inv n name o
    exact ⟨this.1, fun t d hH _ => Keeps.of_eq (this.2.1 t d hH), by simp only [State.step]; rw [this.2.2]; exact Int.le_refl _⟩
  | unreachable m =>
    refine ⟨⟨inv.infos, ?_, inv.sched, inv.failed⟩, fun _ _ _ _ => Keeps.of_eq rfl, Int.le_refl _⟩
    intro n i hi
    simp only [State.step, State.unreachable, List.mem_append, List.mem_singleton] at hi
    rcases hi with hi | hi
    · exact inv.queue n i hi
    · cases hi
  | restart n => exact ⟨inv.sub (sub_restart s n), fun _ _ _ _ => Keeps.of_eq rfl, Int.le_refl _⟩
  | resync n =>
    refine ⟨inv.sub ?_, fun _ _ _ _ => Keeps.of_eq rfl, Int.le_refl _⟩
    show Sub (s.upd n fun x => { x with cached := [], queue := [] }) s
    exact Sub.upd (fun e he => by cases he) (fun _ h _ => h) (fun _ h _ => h)

end Verif.Tasks
