import Verif.Tasks.Recover

/-!
# Tasks: a database that has been recovered in time stays
-/
namespace Verif.Tasks

/-- The node has not yet handled the record that cancels the task, or has no task of the database. -/
def Heard (t d : Str) (x : Node) : Prop :=
  (∃ a c b, x.queue = a ++ Event.info c :: b ∧ c.name = (Op.dropDb t d).name ∧ c.isNew = true ∧ c.status = .cancel ∧
    ∀ i, Event.info i ∈ b → CalmI t d i) ∨
  ((∀ i, Event.info i ∈ x.queue → CalmI t d i) ∧ ∀ y ∈ x.sched, y.over = false → CalmH t d y)

/-- The states after the database was recovered, before time `T`. -/
structure After (h : Nat) (t d : Str) (T : Int) (s : State) : Prop where
  stable : Stable h s
  inv : Inv (CalmI t d) (DueI t d T) (DueS t d T) (CalmH t d) s
  heard : ∀ n, Heard t d (s.node n)

theorem after_closed {t d : Str} {T c : Int} (h : c < T) (hb : T - c < 2 ^ 64) :
    Closed (CalmI t d) (DueI t d T) (DueS t d T) (CalmH t d) (fun o => ¬ o.hits t d) c := by
  have hd := due_closed (t := t) (d := d) h hb
  have hc := calm_closed t d c
  refine ⟨fun i hi => ⟨hi.1, fun hh => Or.inl (hi.2 hh)⟩, hc.move, hd.spawn, hd.fail, ?_, hc.retry⟩
  intro x hx hw
  obtain ⟨h1, _, _⟩ := hd.fire x hx hw
  exact ⟨h1, ⟨hx.1, fun y => absurd y h1⟩, fun _ => ⟨hx.1, fun y => absurd y h1⟩⟩

theorem Heard.grow {t d : Str} {s s' : State} (g : Grow (CalmI t d) s s') (n : Nat) (hh : Heard t d (s.node n)) :
    Heard t d (s'.node n) := by
  rcases g.node n with ⟨⟨b', hb', hP⟩, hs, _⟩ | ⟨hq, hs⟩
  · have hP' : ∀ i, Event.info i ∈ b' → CalmI t d i := by
      intro i hi
      obtain ⟨j, hj, hp⟩ := hP _ hi
      cases hj
      exact hp
    rcases hh with ⟨a, c, b, hq, h1, h2, h3, h4⟩ | ⟨h1, h2⟩
    · refine Or.inl ⟨a, c, b ++ b', by rw [hb', hq]; simp, h1, h2, h3, fun i hi => ?_⟩
      rcases List.mem_append.mp hi with hi | hi
      · exact h4 i hi
      · exact hP' i hi
    · refine Or.inr ⟨fun i hi => ?_, fun y hy ho => h2 y (hs y hy ho) ho⟩
      rw [hb'] at hi
      rcases List.mem_append.mp hi with hi | hi
      · exact h1 i hi
      · exact hP' i hi
  · refine Or.inr ⟨fun i hi => ?_, fun y hy => by rw [hs] at hy; cases hy⟩
    obtain ⟨j, hj, hp⟩ := hq _ hi
    cases hj
    exact hp

theorem heard_deliver {h : Nat} {t d : Str} {T : Int} {s : State} (ha : After h t d T s) (n : Nat) :
    ∀ k, Heard t d ((s.deliver n).node k) := by
  intro k
  unfold State.deliver
  cases hq : (s.node n).queue with
  | nil => exact ha.heard k
  | cons ev q =>
    simp only
    cases ev with
    | dead m => exact (ha.stable.queue n m (by rw [hq]; simp)).elim
    | info i =>
      simp only
      have hS : ((s.upd n fun x => { x with queue := q }).node n).sched = (s.node n).sched := by simp [State.upd]
      have hQ : ((s.upd n fun x => { x with queue := q }).node n).queue = q := by simp [State.upd]
      have hK : k ≠ n → (s.upd n fun x => { x with queue := q }).node k = s.node k := by
        intro hk; simp [State.upd, hk]
      have hM : (s.upd n fun x => { x with queue := q }).mark = s.mark := rfl
      generalize s.upd n (fun x => { x with queue := q }) = u at *
      obtain ⟨h1, h2, h3, h4⟩ := onInfo_node u n i
      by_cases hkn : k = n
      · subst hkn
        have hqueue : ((u.onInfo k i).node k).queue = q := by rw [h2, hQ]
        rcases ha.heard k with ⟨a, c, b, hab, hc1, hc2, hc3, hc4⟩ | ⟨hc1, hc2⟩
        · rw [hq] at hab
          cases a with
          | cons e a =>
            simp only [List.cons_append, List.cons.injEq] at hab
            exact Or.inl ⟨a, c, b, by rw [hqueue]; exact hab.2, hc1, hc2, hc3, hc4⟩
          | nil =>
            simp only [List.nil_append, List.cons.injEq, Event.info.injEq] at hab
            obtain ⟨rfl, rfl⟩ := hab
            refine Or.inr ⟨by rw [hqueue]; exact hc4, ?_⟩
            by_cases hmark : s.mark = (k, true)
            · intro y hy ho
              have hon : u.onInfo k i = u.upd k fun x => { x with sched := x.sched.filter fun h => h.info.name ≠ i.name } := by
                unfold State.onInfo
                rw [if_pos ⟨hc2, hM.trans hmark⟩, hc3]
              rw [hon] at hy
              simp only [State.upd, if_true, List.mem_filter] at hy
              rw [hS] at hy
              have hdue := ha.inv.sched k y hy.1 ho
              refine ⟨hdue.1, fun hh => ?_⟩
              have := (hdue.2 hh).1
              have hname : y.info.name = i.name := by rw [hdue.1.1, this, hc1]
              simp [hname] at hy
            · intro y hy ho
              rw [h4 (by rw [hM]; exact hmark), hS] at hy
              have hkh : k ≠ h := fun hk => hmark (by rw [ha.stable.mark, hk])
              rw [ha.stable.sched k hkh] at hy
              cases hy
        · have hci : CalmI t d i := hc1 i (by rw [hq]; simp)
          refine Or.inr ⟨fun j hj => ?_, fun y hy ho => ?_⟩
          · rw [hqueue] at hj
            exact hc1 j (by rw [hq]; exact List.mem_cons_of_mem _ hj)
          · have hsub : ∀ y ∈ (u.node k).sched, y.over = false → CalmH t d y := by
              rw [hS]; exact hc2
            unfold State.onInfo at hy
            split at hy
            · split at hy
              · next hst =>
                simp only [State.spawn, State.upd, if_true] at hy
                rcases mem_put hy with rfl | hy
                · exact ⟨hci.1, fun hh => by have := hci.2 hh; rw [hst] at this; cases this⟩
                · exact hsub y hy ho
              · split at hy
                · exact hsub y hy ho
                · simp only [State.spawnFailed, State.upd, if_true] at hy
                  exact hsub y hy ho
              · simp only [State.upd, if_true, List.mem_filter] at hy
                exact hsub y hy.1 ho
              · exact hsub y hy ho
            · exact hsub y hy ho
      · rw [h3 k hkn, hK hkn]
        exact ha.heard k

/-- The step does not lose what a node would have heard. -/
def Step.hears : Step → Prop
  | .unreachable _ | .resync _ => False
  | _ => True

theorem after_run {h : Nat} {t d : Str} {T : Int} (es : List Step) : ∀ {s : State}, After h t d T s →
    T - s.clock < 2 ^ 64 → (s.run es).clock < T → (∀ e ∈ es, e.plain ∧ ¬ e.drops t d ∧ e.hears) →
    After h t d T (s.run es) ∧ Keeps t d s (s.run es) := by
  induction es with
  | nil => intro s ha _ _ _; exact ⟨ha, Keeps.refl _ _ _⟩
  | cons e es ih =>
    intro s ha hb hT hn
    have hc : s.clock < T := Int.lt_of_le_of_lt (run_clock s (e :: es)) hT
    obtain ⟨hp, hd, hh⟩ := hn e (by simp)
    have cl := after_closed (t := t) (d := d) hc hb
    have hm : ∀ i, e.made s.clock = some i → _ := fun i hi => calm_made hp hd hi
    obtain ⟨h1, h2, h3⟩ := step_spec (e := e) cl ha.inv hm
    have hst : Stable h (s.step e).1 := stable_step ha.stable (by cases e <;> first | trivial | exact hh.elim)
    have hhe : ∀ n, Heard t d ((s.step e).1.node n) := by
      intro n
      by_cases hs : e.silent
      · exact (ha.heard n).grow (step_grow cl ha.inv hm hs) n
      · cases e <;> try exact (hs trivial).elim
        case deliver k => exact heard_deliver ha k n
        case unreachable m => exact hh.elim
        case resync m => exact hh.elim
    obtain ⟨h4, h5⟩ := ih (s := (s.step e).1) ⟨hst, h1, hhe⟩ (by omega) hT (fun x hx => hn x (by simp [hx]))
    exact ⟨h4, (h2 t d (fun _ h => h) hd).trans h5⟩

theorem recover_after {h : Nat} {t d : Str} {T : Int} {s : State} {m : Nat} {ie : Bool} (hs : Stable h s)
    (hd : Due t d T s) (hp : '-' ∉ t ∧ '-' ∉ d) (hok : (s.recoverDb m t d ie).2 = true) :
    After h t d T (s.recoverDb m t d ie).1 := by
  have hg := hs.grow (grow_tenantMeta (P := fun _ => True) s m t)
  have h0 : Due t d T (s.tenantMeta m t).1 := hd.sub (sub_tenantMeta s m t)
  have hmt : (s.tenantMeta m t).2 = true := by
    unfold State.recoverDb at hok
    simp only at hok
    split at hok
    · next h => exact h
    · simp at hok
  generalize hc : Info.canceled s.clock (.dropDb t d) m = c
  have hcn : c.name = (Op.dropDb t d).name ∧ c.isNew = true ∧ c.status = .cancel ∧ c.op = .dropDb t d := by
    subst hc; exact ⟨rfl, rfl, rfl, rfl⟩
  have hcg : Good c := ⟨by rw [hcn.1, hcn.2.2.2], by rw [hcn.2.2.2]; exact hp⟩
  have key : ∀ u : State, u.infos = ((s.tenantMeta m t).1.write c).infos → u.node = ((s.tenantMeta m t).1.write c).node →
      u.mark = s.mark → After h t d T u := by
    intro u hui hun hum
    have hw := h0.write (i := c) ⟨hcg, fun _ => Or.inl hcn.2.2.1⟩ ⟨hcg, fun _ => Or.inl hcn.2.2.1⟩
    have hsw := hg.grow (grow_write (P := fun _ => True) (s.tenantMeta m t).1 (i := c) trivial)
    refine ⟨⟨hum.trans hs.mark, by rw [hun]; exact hsw.queue, by rw [hun]; exact hsw.sched⟩, ⟨?_, by rw [hun]; exact hw.queue, by rw [hun]; exact hw.sched, by rw [hun]; exact hw.failed⟩, ?_⟩
    · intro i hi
      rw [hui] at hi
      simp only [State.write, List.mem_cons, List.mem_filter] at hi
      rcases hi with rfl | ⟨hi, hne⟩
      · exact ⟨hcg, fun _ => hcn.2.2.1⟩
      · have hdi := h0.infos i hi
        refine ⟨hdi.1, fun hh => ?_⟩
        rcases hdi.2 hh with h | h
        · exact h
        · have : i.name = c.name := by rw [hdi.1.1, h.1, hcn.1]
          simp [this] at hne
    · intro n
      rw [hun]
      have htold : c.status.told = true := by rw [hcn.2.2.1]; rfl
      refine Or.inl ⟨((s.tenantMeta m t).1.node n).queue, c, [], ?_, hcn.1, hcn.2.1, hcn.2.2.1,
        fun _ hi => (List.not_mem_nil hi).elim⟩
      simp only [State.write]
      rw [if_pos htold]
  have hmk : (s.tenantMeta m t).1.mark = s.mark := (grow_tenantMeta (P := fun _ => True) s m t).mark
  unfold State.recoverDb
  simp only
  rw [if_pos hmt, hc]
  split
  · exact key _ rfl rfl hmk
  · exact key _ rfl rfl hmk

theorem stays_from {h : Nat} {t d : Str} {T : Int} {s1 : State} (es fs gs : List Step) (m : Nat) (ie' : Bool)
    (hst1 : Stable h s1) (hdue1 : Due t d T s1) (hT1 : T - s1.clock < 2 ^ 64) (hp : '-' ∉ t ∧ '-' ∉ d)
    (hn : ∀ e ∈ es ++ fs ++ gs, e.plain ∧ ¬ e.drops t d)
    (hc : ∀ e ∈ es, e.calm) (hh : ∀ e ∈ fs, e.hears) (x1 : Db) (hdb1 : s1.db t d = some x1)
    (r : State × Bool) (hrr : r = (s1.run es).step (.recoverDb m t d ie')) (u : State) (hu : u = r.1.run fs)
    (hr : r.2 = true) (hT : u.clock < T)
    (hq : ∀ k i, Event.info i ∈ (u.node k).queue → i.name ≠ (Op.dropDb t d).name) :
    ∃ y, (u.run gs).db t d = some y ∧ y.hidden = false ∧ ∀ b ∈ x1.tables, b ∈ y.tables := by
  subst hrr
  subst hu
  have hmono1 := run_clock s1 es
  have hmono2 := step_clock (s1.run es) (.recoverDb m t d ie')
  have hmono3 := run_clock ((s1.run es).step (.recoverDb m t d ie')).1 fs
  obtain ⟨hdue2, hk2⟩ := due_run (T := T) es hdue1 hT1 (by omega)
    (fun e he => hn e (by simp [he]))
  have hst2 := stable_run es hst1 (fun e he => hc e (by simp [he]))
  obtain ⟨x2, hx2, _, hx2t⟩ := hk2 x1 hdb1
  have haf : After h t d T ((s1.run es).step (.recoverDb m t d ie')).1 := recover_after hst2 hdue2 hp hr
  have hvis : ∃ y, ((s1.run es).step (.recoverDb m t d ie')).1.db t d = some y ∧ y.hidden = false ∧ y.tables = x2.tables := by
    have hmt : ((s1.run es).tenantMeta m t).2 = true := by
      have : ((s1.run es).recoverDb m t d ie').2 = true := hr
      unfold State.recoverDb at this
      simp only at this
      split at this
      · next h => exact h
      · simp at this
    have hk := tenantMeta_db (s1.run es) m t
    refine ⟨{ x2 with hidden := false }, ?_, rfl, rfl⟩
    simp only [State.step, State.recoverDb]
    rw [if_pos hmt, if_neg (by simp [State.write, hk, hx2])]
    simp [State.hideDb, State.write, hk, hx2]
  obtain ⟨x3, hx3, hx3h, hx3t⟩ := hvis
  obtain ⟨haf2, hk3⟩ := after_run fs haf (by omega) hT
    (fun e he => ⟨(hn e (by simp [he])).1, (hn e (by simp [he])).2, hh e he⟩)
  obtain ⟨x4, hx4, hx4h, hx4t⟩ := hk3 x3 hx3
  generalize hu : ((s1.run es).step (.recoverDb m t d ie')).1.run fs = u at *
  have hcal : Calm t d u := by
    have hright : ∀ k, (∀ i, Event.info i ∈ (u.node k).queue → CalmI t d i) ∧
        ∀ y ∈ (u.node k).sched, y.over = false → CalmH t d y := by
      intro k
      rcases haf2.heard k with ⟨a', c, b, hab, hc1, _⟩ | h
      · exact (hq k c (by rw [show (u.node k).queue = _ from hab]; simp) hc1).elim
      · exact h
    exact ⟨haf2.inv.infos, fun k => (hright k).1, fun k => (hright k).2, haf2.inv.failed⟩
  obtain ⟨_, hk5⟩ := calm_run gs hcal (fun e he => hn e (by simp [he]))
  obtain ⟨x5, hx5, hx5h, hx5t⟩ := hk5 x4 hx4
  refine ⟨x5, hx5, ?_, ?_⟩
  · cases hv : x5.hidden with
    | false => rfl
    | true =>
      have := hx4h (hx5h hv)
      rw [hx3h] at this
      cases this
  · intro b hbx
    apply hx5t; apply hx4t
    rw [hx3t]
    exact hx2t b hbx

/-- **C169 (stays)**: a database that is recovered before its time stays for ever, as it was, if no node was taken for
    dead and no node lost its watch until every node had heard of the recovery, before the time of the drop. -/
theorem C169_stays_partial (h : Nat) (pre es fs gs : List Step) (n m : Nat) (t d : Str) (a : Int) (ie ie' : Bool)
    (out : Outcome) (ha : 0 < a) (hb : a < 2 ^ 63) (hp : '-' ∉ t ∧ '-' ∉ d)
    (hn : ∀ e ∈ pre ++ es ++ fs ++ gs, e.plain ∧ ¬ e.drops t d)
    (hc : ∀ e ∈ pre ++ es, e.calm) (hh : ∀ e ∈ fs, e.hears) :
    let s := (State.init h).run pre
    let r := ((s.step (.dropDb n t d (some a) ie out)).1.run es).step (.recoverDb m t d ie')
    let u := r.1.run fs
    r.2 = true → u.clock < s.clock + a →
      (∀ k i, Event.info i ∈ (u.node k).queue → i.name ≠ (Op.dropDb t d).name) →
      ∀ x, s.db t d = some x →
        ∃ y, (u.run gs).db t d = some y ∧ y.hidden = false ∧ ∀ b ∈ x.tables, b ∈ y.tables := by
  intro s r u hr hT hq x hx
  have hcalm := (calm_run pre (inv_init (PI := CalmI t d) (PQ := CalmI t d) (PS := CalmH t d) (PF := CalmH t d) h)
    (fun e he => hn e (by simp [he]))).1
  have hst0 : Stable h s := stable_run pre (stable_init h) (fun e he => hc e (by simp [he]))
  obtain ⟨hdue, hclock, hdb⟩ := drop_due (n := n) (ie := ie) (out := out) hcalm ha hp
  obtain ⟨x1, hx1, hx1t⟩ := hdb x hx
  have hst1 : Stable h (s.step (.dropDb n t d (some a) ie out)).1 := stable_step hst0 trivial
  have hclock1 : (s.step (.dropDb n t d (some a) ie out)).1.clock = s.clock := hclock
  obtain ⟨y, hy, hyh, hyt⟩ := stays_from es fs gs m ie' hst1 hdue (by rw [hclock1]; show s.clock + a - s.clock < _; omega) hp
    (fun e he => hn e (by simp only [List.mem_append] at he ⊢; rcases he with (he | he) | he <;> simp [he]))
    (fun e he => hc e (by simp [he])) hh x1 hx1 r rfl u rfl hr hT hq
  exact ⟨y, hy, hyh, fun b hbx => hyt b (by rw [hx1t]; exact hbx)⟩

end Verif.Tasks
