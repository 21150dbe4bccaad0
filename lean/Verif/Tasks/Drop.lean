import Verif.Tasks.Props

/-!
# Tasks: nothing is dropped without a statement, nor before its time
-/
namespace Verif.Tasks

/-! ## Names of tasks -/

/-- The names of the operator have no `-`. -/
def Op.plain : Op → Prop
  | .dropTenant t => '-' ∉ t
  | .dropDb t d => '-' ∉ t ∧ '-' ∉ d
  | .dropTable t d b => '-' ∉ t ∧ '-' ∉ d ∧ '-' ∉ b

/-- The names of a statement that drops or recovers have no `-`. -/
def Step.plain (e : Step) : Prop := ∀ o, e.dropOp = some o ∨ e.recoverOp = some o → o.plain

theorem split_dash : ∀ {a b c d : Str}, '-' ∉ a → '-' ∉ c → a ++ '-' :: b = c ++ '-' :: d → a = c ∧ b = d
  | [], b, [], d, _, _, h => by simpa using h
  | [], b, y :: c, d, _, hc, h => by
    simp only [List.nil_append, List.cons_append, List.cons.injEq] at h
    rw [h.1] at hc
    exact absurd (by simp) hc
  | x :: a, b, [], d, ha, _, h => by
    simp only [List.nil_append, List.cons_append, List.cons.injEq] at h
    exact absurd (by simp [h.1]) ha
  | x :: a, b, y :: c, d, ha, hc, h => by
    simp only [List.cons_append, List.cons.injEq] at h
    simp only [List.mem_cons, not_or] at ha hc
    obtain ⟨rfl, rfl⟩ := split_dash ha.2 hc.2 h.2
    exact ⟨by rw [h.1], rfl⟩

/-- **C168 (names)**: without `-`, different operators have different names. -/
theorem C168_names_partial {o p : Op} (ho : o.plain) (hp : p.plain) (h : o.name = p.name) : o = p := by
  cases o <;> cases p <;> simp only [Op.name, Op.plain] at h ho hp
  · rw [h]
  · subst h; simp at ho
  · subst h; simp at ho
  · subst h; simp at hp
  · obtain ⟨rfl, rfl⟩ := split_dash ho.1 hp.1 h; rfl
  · obtain ⟨rfl, rfl⟩ := split_dash ho.1 hp.1 h
    simp at ho
  · subst h; simp at hp
  · obtain ⟨rfl, rfl⟩ := split_dash ho.1 hp.1 h
    simp at hp
  · obtain ⟨rfl, h'⟩ := split_dash ho.1 hp.1 h
    obtain ⟨rfl, rfl⟩ := split_dash ho.2.1 hp.2.1 h'
    rfl

example : (Op.dropTable ['a'] ['b'] ['c']).plain ∧ (Op.dropDb ['a'] ['b']).plain := by
  simp [Op.plain]

/-- The record has the name of its operator, which has no `-`. -/
def Good (i : Info) : Prop := i.name = i.op.name ∧ i.op.plain

theorem Good.eq {i j : Info} (hi : Good i) (hj : Good j) (h : i.name = j.name) : i.op = j.op :=
  C168_names_partial hi.2 hj.2 (by rw [← hi.1, ← hj.1, h])

/-! ## Executions -/

theorem step_clock (s : State) (e : Step) : s.clock ≤ (s.step e).1.clock :=
  (step_spec (PI := fun _ => True) (PQ := fun _ => True) (PS := fun _ => True) (PF := fun _ => True)
    (H := fun _ => True) ⟨fun _ _ => trivial, fun _ _ _ => trivial, fun _ _ _ => trivial, fun _ _ _ _ => trivial,
      fun _ _ _ => ⟨trivial, trivial, fun _ => trivial⟩, fun _ _ _ _ => ⟨trivial, fun _ => trivial, fun _ => trivial⟩⟩
    ⟨fun _ _ => trivial, fun _ _ _ => trivial, fun _ _ _ _ => trivial, fun _ _ _ _ => trivial⟩
    (fun _ _ => ⟨fun _ => trivial, fun _ _ => trivial⟩)).2.2

theorem run_clock (s : State) (es : List Step) : s.clock ≤ (s.run es).clock := by
  induction es generalizing s with
  | nil => exact Int.le_refl _
  | cons e es ih => exact Int.le_trans (step_clock s e) (ih _)

theorem run_append (s : State) (a b : List Step) : s.run (a ++ b) = (s.run a).run b := by
  induction a generalizing s with
  | nil => rfl
  | cons e a ih => exact ih _

/-- An execution keeps an invariant and the database; `lo` and `hi` bound the clock. -/
theorem run_spec {PI PQ : Info → Prop} {PS PF : Handle → Prop} {H : Op → Prop} {t d : Str} (lo : Int) (hi : Int → Prop)
    (hmono : ∀ c c', c ≤ c' → hi c' → hi c)
    (cl : ∀ c, lo ≤ c → hi c → Closed PI PQ PS PF H c) (hH : ∀ o, H o → ¬ o.hits t d) (es : List Step) :
    ∀ s : State, lo ≤ s.clock → hi (s.run es).clock → Inv PI PQ PS PF s →
      (∀ e ∈ es, ¬ e.drops t d ∧ ∀ c i, lo ≤ c → e.made c = some i →
        (∀ m, PI { i with node := m }) ∧ (i.status = .executing → ∀ ok, PI (i.after ok))) →
      Inv PI PQ PS PF (s.run es) ∧ Keeps t d s (s.run es) := by
  induction es with
  | nil => intro s _ _ inv _; exact ⟨inv, Keeps.refl _ _ _⟩
  | cons e es ih =>
    intro s hlo hhi inv he
    have hc : hi s.clock := hmono _ _ (run_clock s (e :: es)) hhi
    obtain ⟨h1, h2, h3⟩ := step_spec (e := e) (cl s.clock hlo hc) inv
      (fun i hi => (he e (by simp)).2 s.clock i hlo hi)
    obtain ⟨h4, h5⟩ := ih (s.step e).1 (Int.le_trans hlo h3) hhi h1 (fun x hx => he x (by simp [hx]))
    exact ⟨h4, (h2 t d hH (he e (by simp)).1).trans h5⟩

theorem inv_init {PI PQ : Info → Prop} {PS PF : Handle → Prop} (h : Nat) : Inv PI PQ PS PF (State.init h) :=
  ⟨fun _ hi => (List.not_mem_nil hi).elim, fun _ _ hi => (List.not_mem_nil hi).elim,
    fun _ _ hi => (List.not_mem_nil hi).elim, fun _ _ hi => (List.not_mem_nil hi).elim⟩

/-! ## Only what was dropped goes -/

/-- The operator of a record that a statement makes. -/
theorem made_op {e : Step} {c : Int} {i : Info} (h : e.made c = some i) :
    i.name = i.op.name ∧ (e.dropOp = some i.op ∨ (e.recoverOp = some i.op ∧ i.status = .cancel)) := by
  cases e <;> simp only [Step.made, Option.some.injEq, reduceCtorEq] at h <;> subst h <;>
    simp [Info.mk', Info.canceled, Step.dropOp, Step.recoverOp]

/-- **C168**: in every execution, whatever fails, stops or is late, a database stays, is not hidden and keeps its tables,
    as long as no statement drops or recovers it, its tenant, or a table of it. -/
theorem C168_kept (h : Nat) (pre es : List Step) (t d : Str)
    (hn : ∀ e ∈ pre ++ es, ¬ e.drops t d ∧ ¬ e.recovers t d) :
    Keeps t d ((State.init h).run pre) ((State.init h).run (pre ++ es)) := by
  have cl : ∀ c : Int, Closed (fun i => ¬ i.op.hits t d) (fun i => ¬ i.op.hits t d) (fun h => ¬ h.info.op.hits t d)
      (fun h => ¬ h.info.op.hits t d) (fun o => ¬ o.hits t d) c := by
    intro c
    refine ⟨fun _ h => h, fun _ _ h => h, fun _ h _ => h, fun _ _ h _ => h, fun _ h _ => ⟨h, h, fun _ => h⟩, ?_⟩
    intro h i hh hi
    have : ¬ i.op.hits t d := by
      rcases hi with rfl | hi
      · exact hh
      · exact hi.1
    exact ⟨this, fun _ => this, fun _ => this⟩
  have hs : ∀ e ∈ pre ++ es, ¬ e.drops t d ∧ ∀ (c : Int) i, (0 : Int) ≤ c → e.made c = some i →
      (∀ m, ¬ ({ i with node := m } : Info).op.hits t d) ∧ (i.status = .executing → ∀ ok, ¬ (i.after ok).op.hits t d) := by
    intro e he
    obtain ⟨h1, h2⟩ := hn e he
    refine ⟨h1, fun c i _ hi => ?_⟩
    have : ¬ i.op.hits t d := by
      intro hh
      rcases (made_op hi).2 with h | h
      · exact h1 ⟨_, h, hh⟩
      · exact h2 ⟨_, h.1, hh⟩
    exact ⟨fun _ => this, fun _ _ => this⟩
  have h1 := run_spec (t := t) (d := d) 0 (fun _ => True) (fun _ _ _ _ => trivial) (fun c _ _ => cl c) (fun _ h => h) pre
    (State.init h) (Int.le_refl _) trivial (inv_init h) (fun e he => hs e (by simp [he]))
  have h2 := run_spec (t := t) (d := d) 0 (fun _ => True) (fun _ _ _ _ => trivial) (fun c _ _ => cl c) (fun _ h => h) es
    ((State.init h).run pre) (run_clock _ _) trivial h1.1 (fun e he => hs e (by simp [he]))
  rw [run_append]
  exact h2.2

/-- Records of the database are of tasks that are not done any more. -/
def CalmI (t d : Str) (i : Info) : Prop := Good i ∧ (i.op.hits t d → i.status = .cancel)

/-- The task is not of the database. -/
def CalmH (t d : Str) (h : Handle) : Prop := Good h.info ∧ ¬ h.info.op.hits t d

/-- No task of the database is under way. -/
abbrev Calm (t d : Str) : State → Prop := Inv (CalmI t d) (CalmI t d) (CalmH t d) (CalmH t d)

theorem calm_closed (t d : Str) (c : Int) :
    Closed (CalmI t d) (CalmI t d) (CalmH t d) (CalmH t d) (fun o => ¬ o.hits t d) c := by
  refine ⟨fun _ h => h, fun _ _ h => h, ?_, ?_, ?_, ?_⟩
  · intro i hi hs
    exact ⟨hi.1, fun hh => by have := hi.2 hh; rw [hs] at this; cases this⟩
  · intro i n hi hs
    exact ⟨hi.1, fun hh => by have := hi.2 hh; rw [hs] at this; cases this⟩
  · intro h hh _
    exact ⟨hh.2, ⟨hh.1, fun x => absurd x hh.2⟩, fun _ => ⟨hh.1, fun x => absurd x hh.2⟩⟩
  · intro h i hh hi
    have : Good i ∧ ¬ i.op.hits t d := by
      rcases hi with rfl | ⟨hi, hn⟩
      · exact hh
      · refine ⟨hi.1, ?_⟩
        rw [hi.1.eq hh.1 hn]
        exact hh.2
    exact ⟨this.2, fun _ => ⟨this.1, fun x => absurd x this.2⟩, fun _ => this⟩

theorem calm_made {t d : Str} {e : Step} (hp : e.plain) (hd : ¬ e.drops t d) {c : Int} {i : Info}
    (hi : e.made c = some i) :
    (∀ m, CalmI t d { i with node := m }) ∧ (i.status = .executing → ∀ ok, CalmI t d (i.after ok)) := by
  obtain ⟨h1, h2⟩ := made_op hi
  have hg : Good i := ⟨h1, hp i.op (h2.imp id And.left)⟩
  refine ⟨fun m => ⟨hg, fun hh => ?_⟩, fun hs ok => ⟨hg, fun hh => ?_⟩⟩
  · rcases h2 with h | h
    · exact absurd ⟨_, h, hh⟩ hd
    · exact h.2
  · rcases h2 with h | h
    · exact absurd ⟨_, h, hh⟩ hd
    · rw [hs] at h; cases h.2

theorem calm_run {t d : Str} {s : State} (es : List Step) (h : Calm t d s)
    (hn : ∀ e ∈ es, e.plain ∧ ¬ e.drops t d) : Calm t d (s.run es) ∧ Keeps t d s (s.run es) :=
  run_spec (t := t) (d := d) s.clock (fun _ => True) (fun _ _ _ _ => trivial) (fun c _ _ => calm_closed t d c)
    (fun _ h => h) es s (Int.le_refl _) trivial h
    (fun e he => ⟨(hn e he).2, fun _ _ _ hi => calm_made (hn e he).1 (hn e he).2 hi⟩)

/-- **C168 (recover)**: the same with statements that recover it, if no name has a `-`. -/
theorem C168_recover_partial (h : Nat) (pre es : List Step) (t d : Str)
    (hn : ∀ e ∈ pre ++ es, e.plain ∧ ¬ e.drops t d) :
    Keeps t d ((State.init h).run pre) ((State.init h).run (pre ++ es)) := by
  rw [run_append]
  have h1 := (calm_run pre (inv_init (PI := CalmI t d) (PQ := CalmI t d) (PS := CalmH t d) (PF := CalmH t d) h)
    (fun e he => hn e (by simp [he]))).1
  exact (calm_run es h1 (fun e he => hn e (by simp [he]))).2

/-! ## Not before its time -/

/-- Records of the database: cancelled, or scheduled for time `T`. -/
def DueI (t d : Str) (T : Int) (i : Info) : Prop :=
  Good i ∧ (i.op.hits t d → i.status = .cancel ∨ (i.op = .dropDb t d ∧ i.status = .schedule ∧ i.time = T))

/-- Sleeping tasks of the database wake at `T`. -/
def DueS (t d : Str) (T : Int) (h : Handle) : Prop :=
  Good h.info ∧ (h.info.op.hits t d → h.info.op = .dropDb t d ∧ T ≤ h.wake)

/-- The database will not be dropped before `T`. -/
abbrev Due (t d : Str) (T : Int) : State → Prop := Inv (DueI t d T) (DueI t d T) (DueS t d T) (CalmH t d)

theorem wakeAt_ge {c T : Int} (h : c ≤ T) (hb : T - c < 2 ^ 64) : wakeAt c T = T := by
  unfold wakeAt
  rw [Int.emod_eq_of_lt (by omega) hb]
  omega

theorem due_closed {t d : Str} {T c : Int} (h : c < T) (hb : T - c < 2 ^ 64) :
    Closed (DueI t d T) (DueI t d T) (DueS t d T) (CalmH t d) (fun o => ¬ o.hits t d) c := by
  refine ⟨fun _ h => h, fun _ _ h => h, ?_, ?_, ?_, ?_⟩
  · intro i hi hs
    refine ⟨hi.1, fun hh => ?_⟩
    rcases hi.2 hh with h2 | h2
    · rw [hs] at h2; cases h2
    · refine ⟨h2.1, ?_⟩
      simp only
      rw [h2.2.2, wakeAt_ge (by omega) hb]
      exact Int.le_refl _
  · intro i n hi hs
    refine ⟨hi.1, fun hh => ?_⟩
    rcases hi.2 hh with h2 | h2
    · rw [hs] at h2; cases h2
    · rw [hs] at h2; cases h2.2.1
  · intro x hx hw
    have hn : ¬ x.info.op.hits t d := fun hh => by have := (hx.2 hh).2; omega
    exact ⟨hn, ⟨hx.1, fun y => absurd y hn⟩, fun _ => ⟨hx.1, fun y => absurd y hn⟩⟩
  · intro x i hx hi
    have : Good i ∧ ¬ i.op.hits t d := by
      rcases hi with rfl | ⟨hi, hn⟩
      · exact hx
      · refine ⟨hi.1, ?_⟩
        rw [hi.1.eq hx.1 hn]
        exact hx.2
    exact ⟨this.2, fun _ => ⟨this.1, fun x => absurd x this.2⟩, fun _ => this⟩

theorem due_of_calm {t d : Str} {T : Int} {s : State} (h : Calm t d s) : Due t d T s :=
  ⟨fun i hi => ⟨(h.infos i hi).1, fun hh => Or.inl ((h.infos i hi).2 hh)⟩,
    fun n i hi => ⟨(h.queue n i hi).1, fun hh => Or.inl ((h.queue n i hi).2 hh)⟩,
    fun n x hx ho => ⟨(h.sched n x hx ho).1, fun hh => absurd hh (h.sched n x hx ho).2⟩, h.failed⟩

theorem due_run {t d : Str} {T : Int} {s : State} (es : List Step) (h : Due t d T s) (hb : T - s.clock < 2 ^ 64)
    (hc : (s.run es).clock < T) (hn : ∀ e ∈ es, e.plain ∧ ¬ e.drops t d) :
    Due t d T (s.run es) ∧ Keeps t d s (s.run es) := by
  refine run_spec (t := t) (d := d) s.clock (fun c => c < T) (fun _ _ h k => by omega)
    (fun c hc hT => due_closed hT (by omega)) (fun _ h => h) es s (Int.le_refl _) hc h
    (fun e he => ⟨(hn e he).2, fun c i _ hi => ?_⟩)
  obtain ⟨h1, h2⟩ := calm_made (hn e he).1 (hn e he).2 hi
  exact ⟨fun m => ⟨(h1 m).1, fun hh => Or.inl ((h1 m).2 hh)⟩,
    fun hs ok => ⟨(h2 hs ok).1, fun hh => Or.inl ((h2 hs ok).2 hh)⟩⟩

theorem add_schedule (s : State) (n : Nat) (out : Outcome) (i : Info) (h : i.status = .schedule) :
    (s.add n out i).1.db = s.db ∧ (s.add n out i).2 = true := by
  unfold State.add
  split
  · exact ⟨rfl, rfl⟩
  · by_cases hs : i.status = .schedule ∧ s.mark.2 = true
    · simp only [if_pos hs]
      rw [if_neg (by simp [h])]
      exact ⟨rfl, rfl⟩
    · simp only [if_neg hs]
      rw [if_neg (by simp [h])]
      exact ⟨rfl, rfl⟩

/-- The statement `DROP DATABASE … AFTER`. -/
theorem drop_due {t d : Str} {s : State} {n : Nat} {a : Int} {ie : Bool} {out : Outcome} (h : Calm t d s) (ha : 0 < a)
    (hp : '-' ∉ t ∧ '-' ∉ d) :
    Due t d (s.clock + a) (s.dropDb n t d (some a) ie out).1 ∧ (s.dropDb n t d (some a) ie out).1.clock = s.clock ∧
      ∀ x, s.db t d = some x → ∃ y, (s.dropDb n t d (some a) ie out).1.db t d = some y ∧ y.tables = x.tables := by
  have h0 : Due t d (s.clock + a) (s.tenantMeta n t).1 := (due_of_calm h).sub (sub_tenantMeta s n t)
  have hk := tenantMeta_db s n t
  have hc := tenantMeta_clock s n t
  have hst : (Info.mk' s.clock (.dropDb t d) (some a) n).status = .schedule := by
    simp only [Info.mk']
    rw [if_pos ha]
  have htm : (Info.mk' s.clock (.dropDb t d) (some a) n).time = s.clock + a := by
    simp only [Info.mk']
    rw [if_pos ha]
  have hg : Good (Info.mk' s.clock (.dropDb t d) (some a) n) := ⟨rfl, hp⟩
  unfold State.dropDb
  simp only
  split
  · split
    · exact ⟨h0, hc, fun x hx => ⟨x, by rw [hk]; exact hx, rfl⟩⟩
    · have h1 : Due t d (s.clock + a) ((s.tenantMeta n t).1.hideDb t d true) := h0.sub (Sub.of_eq rfl rfl)
      have h2 := add_spec (n := n) (out := out) (i := Info.mk' s.clock (.dropDb t d) (some a) n) h1
        (fun m => ⟨hg, fun _ => Or.inr ⟨rfl, hst, htm⟩⟩) (fun hs => by rw [hst] at hs; cases hs) (fun _ h => h)
      refine ⟨h2.1, by rw [h2.2.1]; simpa [State.hideDb] using hc, fun x hx => ?_⟩
      refine ⟨{ x with hidden := true }, ?_, rfl⟩
      rw [(add_schedule _ n out _ hst).1]
      simp [State.hideDb, hk, hx]
  · exact ⟨h0, hc, fun x hx => ⟨x, by rw [hk]; exact hx, rfl⟩⟩

/-- **C169**: a database that is dropped with `AFTER` is still there, with its tables, until that time has passed, in
    every execution (nodes may stop, the mark may move, and events may be late), unless another statement drops it. -/
theorem C169_not_before (h : Nat) (pre es : List Step) (n : Nat) (t d : Str) (a : Int) (ie : Bool) (out : Outcome)
    (ha : 0 < a) (hb : a < 2 ^ 63) (hp : '-' ∉ t ∧ '-' ∉ d)
    (hn : ∀ e ∈ pre ++ es, e.plain ∧ ¬ e.drops t d) :
    let s := (State.init h).run pre
    let u := (s.step (.dropDb n t d (some a) ie out)).1.run es
    u.clock < s.clock + a →
      ∀ x, s.db t d = some x → ∃ y, u.db t d = some y ∧ ∀ b ∈ x.tables, b ∈ y.tables := by
  intro s u hc x hx
  have h1 := (calm_run pre (inv_init (PI := CalmI t d) (PQ := CalmI t d) (PS := CalmH t d) (PF := CalmH t d) h)
    (fun e he => hn e (by simp [he]))).1
  obtain ⟨h2, h3, h4⟩ := drop_due (n := n) (ie := ie) (out := out) h1 ha hp
  obtain ⟨y, hy, hyt⟩ := h4 x hx
  have h3' : (s.step (.dropDb n t d (some a) ie out)).1.clock = s.clock := h3
  have h5 := due_run (T := s.clock + a) (s := (s.step (.dropDb n t d (some a) ie out)).1) es h2
    (by rw [h3']; omega) hc (fun e he => hn e (by simp [he]))
  obtain ⟨z, hz, _, hzt⟩ := h5.2 y hy
  exact ⟨z, hz, fun b hbx => hzt b (by rw [hyt]; exact hbx)⟩

/-- **C169 (recover)**: and it can be recovered by any node that finds the tenant: the statement succeeds, and the
    database is as it was. -/
theorem C169_recover (h : Nat) (pre es : List Step) (n m : Nat) (t d : Str) (a : Int) (ie ie' : Bool) (out : Outcome)
    (ha : 0 < a) (hb : a < 2 ^ 63) (hp : '-' ∉ t ∧ '-' ∉ d)
    (hn : ∀ e ∈ pre ++ es, e.plain ∧ ¬ e.drops t d) :
    let s := (State.init h).run pre
    let u := (s.step (.dropDb n t d (some a) ie out)).1.run es
    let r := u.step (.recoverDb m t d ie')
    u.clock < s.clock + a → u.tenant t = some false →
      ∀ x, s.db t d = some x → r.2 = true ∧
        ∃ y, r.1.db t d = some y ∧ y.hidden = false ∧ ∀ b ∈ x.tables, b ∈ y.tables := by
  intro s u r hc ht x hx
  obtain ⟨y, hy, hyt⟩ := C169_not_before h pre es n t d a ie out ha hb hp hn hc x hx
  have hm : (u.tenantMeta m t).2 = true := by
    unfold State.tenantMeta
    split
    · rfl
    · rfl
  have hk := tenantMeta_db u m t
  have hne : ((u.tenantMeta m t).1.write (Info.canceled u.clock (.dropDb t d) m)).db t d ≠ none := by
    simp only [State.write]
    rw [hk]
    show u.db t d ≠ none
    rw [show u.db t d = some y from hy]
    simp
  have hr : r = (((u.tenantMeta m t).1.write (Info.canceled u.clock (.dropDb t d) m)).hideDb t d false, true) := by
    simp only [r, State.step, State.recoverDb]
    rw [if_pos hm, if_neg hne]
  rw [hr]
  refine ⟨rfl, { y with hidden := false }, ?_, rfl, hyt⟩
  have : u.db t d = some y := hy
  simp [State.hideDb, State.write, hk, this]

end Verif.Tasks
