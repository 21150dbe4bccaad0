import Verif.Tasks.Stays

/-!
# Tasks: what is dropped goes
-/
namespace Verif.Tasks

/-! ## Drops without `AFTER` -/

theorem tenantMeta_infos (s : State) (n : Nat) (t : Str) : (s.tenantMeta n t).1.infos = s.infos := by
  unfold State.tenantMeta
  split
  · rfl
  · split <;> rfl

theorem tenantMeta_cached (s : State) (n : Nat) (t : Str) (h : (s.tenantMeta n t).2 = true) :
    t ∈ ((s.tenantMeta n t).1.node n).cached := by
  unfold State.tenantMeta at h ⊢
  split
  · assumption
  · next hc =>
    rw [if_neg hc] at h
    split
    · simp [State.upd]
    · next hf => rw [if_neg hf] at h; cases h

theorem tenantMeta_of_cached (s : State) (n : Nat) (t : Str) (h : t ∈ (s.node n).cached) :
    s.tenantMeta n t = (s, true) := by
  unfold State.tenantMeta
  rw [if_pos h]

theorem busy_infos {s s' : State} (h : s'.infos = s.infos) (name : Str) : s'.busy name = s.busy name := by
  unfold State.busy State.read
  rw [h]

theorem write_cached (s : State) (i : Info) (n : Nat) : ((s.write i).node n).cached = (s.node n).cached := by
  simp only [State.write]
  split <;> rfl

/-- A task that is to be done at once, and is not ignored, is done. -/
theorem add_now (s : State) (n : Nat) (out : Outcome) (i : Info) (hb : s.busy i.name = false) (hs : i.status = .executing) :
    s.add n out i = (s.write i).doOp n out i := by
  unfold State.add
  have h0 : ¬ (i.status = .schedule ∧ s.mark.2 = true) := by simp [hs]
  rw [if_neg (by simp [hb])]
  simp only [if_neg h0, if_pos hs]

theorem mk'_now (c : Int) (o : Op) (after : Option Int) (n : Nat) (ha : ∀ a, after = some a → a ≤ 0) :
    (Info.mk' c o after n).status = .executing := by
  unfold Info.mk'
  cases after with
  | none => rfl
  | some a =>
    have := ha a rfl
    simp only
    rw [if_neg (by omega)]

/-- An attempt that does not crash writes its result. -/
theorem doOp_read (s : State) (n : Nat) (i : Info) (ok : Bool) (s' : State) (out : Outcome) (hc : out ≠ .crash)
    (h : s.operate n out i.op = (s', ok)) : s.doOp n out i = (s'.write (i.after ok), ok) := by
  cases out with
  | crash => exact absurd rfl hc
  | ok => simp only [State.doOp, h]
  | fail g => simp only [State.doOp, h]

theorem doOp_crash (s : State) (n : Nat) (i : Info) : (s.doOp n .crash i).2 = false := rfl

/-- A task of a database is done: success is reported exactly if the database is gone for this reason. -/
theorem doOp_dropDb (s : State) (n : Nat) (out : Outcome) (i : Info) (t d : Str) (ho : i.op = .dropDb t d)
    (hc : t ∈ (s.node n).cached) :
    ((s.doOp n out i).2 = true ↔ out = .ok) ∧
      ((s.doOp n out i).2 = true → (s.doOp n out i).1.db t d = none ∧
        (s.doOp n out i).1.read i.name = some (i.after true)) := by
  have hm := tenantMeta_of_cached s n t hc
  cases out with
  | crash => exact ⟨by simp [doOp_crash], fun h => by rw [doOp_crash] at h; cases h⟩
  | ok =>
    rw [doOp_read s n i true (s.removeDb t d) .ok (by simp) (by rw [ho]; simp [State.operate, hm])]
    refine ⟨by simp, fun _ => ⟨by simp [State.write, State.removeDb], ?_⟩⟩
    exact read_write _ (i.after true)
  | fail g =>
    rw [doOp_read s n i false s (.fail g) (by simp) (by rw [ho]; simp [State.operate, hm])]
    exact ⟨by simp, fun h => by cases h⟩

/-- **C171**: `DROP DATABASE` without `AFTER`, for which no earlier task of that name has failed or is under way, reports
    success exactly if nothing failed, and then the database is gone. -/
theorem C171_database_partial (s : State) (n : Nat) (t d : Str) (after : Option Int) (ie : Bool) (out : Outcome)
    (ha : ∀ a, after = some a → a ≤ 0) (hm : (s.tenantMeta n t).2 = true) (hd : s.db t d ≠ none)
    (hb : s.busy (Op.dropDb t d).name = false) :
    let r := s.step (.dropDb n t d after ie out)
    (r.2 = true ↔ out = .ok) ∧ (r.2 = true → r.1.db t d = none ∧
      ∃ i, r.1.read (Op.dropDb t d).name = some i ∧ i.status = .successed) := by
  intro r
  have hst := mk'_now s.clock (.dropDb t d) after n ha
  generalize hi : Info.mk' s.clock (.dropDb t d) after n = i at hst
  have hin : i.name = (Op.dropDb t d).name ∧ i.op = .dropDb t d := by subst hi; exact ⟨rfl, rfl⟩
  have hr : r = (((s.tenantMeta n t).1.hideDb t d true).write i).doOp n out i := by
    have hbb : ((s.tenantMeta n t).1.hideDb t d true).busy i.name = false := by
      rw [hin.1, busy_infos (s := s) (by simp only [State.hideDb]; exact tenantMeta_infos s n t)]
      exact hb
    rw [← add_now _ n out i hbb hst]
    simp only [r, State.step, State.dropDb]
    rw [if_pos hm, if_neg (by rw [tenantMeta_db]; exact hd), hi]
  have hcached : t ∈ ((((s.tenantMeta n t).1.hideDb t d true).write i).node n).cached := by
    rw [write_cached]
    exact tenantMeta_cached s n t hm
  obtain ⟨h1, h2⟩ := doOp_dropDb _ n out i t d hin.2 hcached
  rw [hr]
  refine ⟨h1, fun h => ?_⟩
  obtain ⟨h3, h4⟩ := h2 h
  exact ⟨h3, _, by rw [← hin.1]; exact h4, rfl⟩

/-- **C171 (tables)**: the same for `DROP TABLE`: the table is gone, and the others are there. -/
theorem C171_table_partial (s : State) (n : Nat) (t d b : Str) (ie : Bool) (out : Outcome) (x : Db)
    (hm : (s.tenantMeta n t).2 = true) (hd : s.db t d = some x) (hx : b ∈ x.tables)
    (hb : s.busy (Op.dropTable t d b).name = false) :
    let r := s.step (.dropTable n t d b ie out)
    (r.2 = true ↔ out = .ok) ∧
      (r.2 = true → r.1.db t d = some { x with tables := x.tables.filter fun c => c ≠ b }) := by
  intro r
  have hst := mk'_now s.clock (.dropTable t d b) none n (by simp)
  generalize hi : Info.mk' s.clock (.dropTable t d b) none n = i at hst
  have hin : i.name = (Op.dropTable t d b).name ∧ i.op = .dropTable t d b := by subst hi; exact ⟨rfl, rfl⟩
  have hdb : (s.tenantMeta n t).1.db t d = some x := by rw [tenantMeta_db]; exact hd
  have hr : r = ((s.tenantMeta n t).1.write i).doOp n out i := by
    have hbb : (s.tenantMeta n t).1.busy i.name = false := by
      rw [hin.1, busy_infos (s := s) (tenantMeta_infos s n t)]
      exact hb
    rw [← add_now _ n out i hbb hst]
    simp only [r, State.step, State.dropTable]
    rw [if_pos hm, hdb]
    simp only
    rw [if_pos hx, hi]
  have hcached : t ∈ (((s.tenantMeta n t).1.write i).node n).cached := by
    rw [write_cached]
    exact tenantMeta_cached s n t hm
  have hmm := tenantMeta_of_cached _ n t hcached
  have hdb' : ((s.tenantMeta n t).1.write i).db t d = some x := hdb
  rw [hr]
  cases out with
  | crash => exact ⟨by simp [doOp_crash], fun h => by rw [doOp_crash] at h; cases h⟩
  | ok =>
    rw [doOp_read _ n i true (((s.tenantMeta n t).1.write i).removeTable t d b) .ok (by simp)
      (by rw [hin.2]; simp [State.operate, hmm, hdb', hx])]
    exact ⟨by simp, fun _ => by simp [State.write, State.removeTable, hdb]⟩
  | fail g =>
    rw [doOp_read _ n i false ((s.tenantMeta n t).1.write i) (.fail g) (by simp)
      (by rw [hin.2]; simp [State.operate, hmm])]
    exact ⟨by simp, fun h => by cases h⟩

/-- **C171 (tenants)**: the same for `DROP TENANT`: the tenant and all its databases are gone, and no others. -/
theorem C171_tenant_partial (s : State) (n : Nat) (t : Str) (after : Option Int) (ie : Bool) (out : Outcome)
    (ha : ∀ a, after = some a → a ≤ 0) (hm : s.tenant t = some false)
    (hb : s.busy (Op.dropTenant t).name = false) :
    let r := s.step (.dropTenant n t after ie out)
    (r.2 = true ↔ out = .ok) ∧ (r.2 = true → r.1.tenant t = none ∧ ∀ d, r.1.db t d = none) ∧
      ∀ t' d, t' ≠ t → r.1.db t' d = s.db t' d := by
  intro r
  have hst := mk'_now s.clock (.dropTenant t) after n ha
  generalize hi : Info.mk' s.clock (.dropTenant t) after n = i at hst
  have hin : i.name = (Op.dropTenant t).name ∧ i.op = .dropTenant t := by subst hi; exact ⟨rfl, rfl⟩
  have hr : r = ((s.hideTenant n t true).write i).doOp n out i := by
    have hbb : (s.hideTenant n t true).busy i.name = false := by
      rw [hin.1, busy_infos (s := s) (s' := s.hideTenant n t true) rfl]
      exact hb
    rw [← add_now _ n out i hbb hst]
    simp only [r, State.step, State.dropTenant]
    rw [if_pos (Or.inr hm), if_neg (by rw [hm]; simp), hi]
  have hcached : t ∈ (((s.hideTenant n t true).write i).node n).cached := by
    rw [write_cached]
    simp [State.hideTenant, State.upd]
  have hmm := tenantMeta_of_cached _ n t hcached
  have hother : ∀ t' d, t' ≠ t → r.1.db t' d = s.db t' d := by
    intro t' d hne
    rw [hr]
    have := (doOp_spec (PI := fun _ => True) (PQ := fun _ => True) (PS := fun _ => True) (PF := fun _ => True)
      (s := (s.hideTenant n t true).write i) (n := n) (out := out) (i := i)
      ⟨fun _ _ => trivial, fun _ _ _ => trivial, fun _ _ _ _ => trivial, fun _ _ _ _ => trivial⟩
      (fun _ => trivial) (fun _ _ => trivial)).2.2 t' d (by rw [hin.2]; exact fun h => hne h.symm)
    rw [this]
    rfl
  refine ⟨?_, ?_, hother⟩ <;> rw [hr] <;> cases out with
  | crash => simp [doOp_crash]
  | ok =>
    rw [doOp_read _ n i true (((s.hideTenant n t true).write i).removeTenant n t) .ok (by simp)
      (by rw [hin.2]; simp [State.operate, hmm])]
    simp [State.write, State.removeTenant, State.upd]
  | fail g =>
    rw [doOp_read _ n i false (((s.hideTenant n t true).write i).removeDbs t g) (.fail g) (by simp)
      (by rw [hin.2]; simp [State.operate, hmm])]
    simp

/-! ## Drops with `AFTER` -/

/-- The node with the mark hears of the task in time: it sleeps until the time of the drop. -/
theorem heard_spec (s : State) (n : Nat) (i : Info) (q : List Event) (hq : (s.node n).queue = .info i :: q)
    (hm : s.mark = (n, true)) (hi : i.isNew = true) (hs : i.status = .schedule) (ht : s.clock ≤ i.time)
    (hb : i.time - s.clock < 2 ^ 64) :
    ⟨i, i.time, false, false⟩ ∈ ((s.step (.deliver n)).1.node n).sched ∧
      ∀ y ∈ ((s.step (.deliver n)).1.node n).sched, y.info.name = i.name → y = ⟨i, i.time, false, false⟩ := by
  have hw := wakeAt_ge ht hb
  simp only [State.step, State.deliver, hq]
  unfold State.onInfo
  rw [if_pos ⟨hi, hm⟩, hs]
  simp [State.spawn, State.upd, put, hw]
  exact fun a _ h1 h2 => absurd h2 h1

/-- Nothing happens to the sleeping task: its node does not stop, does not hear of another task of the name, and does
    not wake it. -/
def Step.spares (n : Nat) (name : Str) (s : State) : Step → Prop
  | .dropTenant k _ _ _ o | .dropDb k _ _ _ _ o | .dropTable k _ _ _ _ o | .retry k _ o => k = n → o ≠ .crash
  | .fire k nm o => k = n → o ≠ .crash ∧ nm ≠ name
  | .restart k => k ≠ n
  | .deliver k => k = n → ∀ i q, (s.node n).queue = .info i :: q → i.name = name → i.isNew = false
  | _ => True

/-- No step of the execution touches the sleeping task. -/
def Spares (n : Nat) (name : Str) : State → List Step → Prop
  | _, [] => True
  | s, e :: es => e.spares n name s ∧ Spares n name (s.step e).1 es

theorem tenantMeta_sched (s : State) (n : Nat) (t : Str) (k : Nat) :
    ((s.tenantMeta n t).1.node k).sched = (s.node k).sched := by
  unfold State.tenantMeta State.upd
  split
  · rfl
  · split
    · simp only
      split <;> rfl
    · rfl

theorem write_sched (s : State) (i : Info) (k : Nat) : ((s.write i).node k).sched = (s.node k).sched := by
  simp only [State.write]
  split <;> rfl

theorem hideTenant_sched (s : State) (n : Nat) (t : Str) (v : Bool) (k : Nat) :
    ((s.hideTenant n t v).node k).sched = (s.node k).sched := by
  simp only [State.hideTenant, State.upd]
  split <;> rfl

theorem operate_sched (s : State) (n : Nat) (out : Outcome) (o : Op) (k : Nat) :
    ((s.operate n out o).1.node k).sched = (s.node k).sched := by
  cases o with
  | dropTenant t =>
    simp only [State.operate]
    split
    · cases out with
      | ok =>
        simp only [State.removeTenant, State.upd]
        rw [← tenantMeta_sched s n t k]
        split <;> rfl
      | fail g => exact tenantMeta_sched s n t k
      | crash => exact tenantMeta_sched s n t k
    · exact tenantMeta_sched s n t k
  | dropDb t d =>
    simp only [State.operate]
    split
    · cases out with
      | ok => exact tenantMeta_sched s n t k
      | fail g => exact tenantMeta_sched s n t k
      | crash => exact tenantMeta_sched s n t k
    · exact tenantMeta_sched s n t k
  | dropTable t d b =>
    simp only [State.operate]
    split
    · split
      · split <;> exact tenantMeta_sched s n t k
      · exact tenantMeta_sched s n t k
    · exact tenantMeta_sched s n t k

theorem doOp_sched (s : State) (n : Nat) (out : Outcome) (i : Info) (k : Nat) (h : n = k → out ≠ .crash) :
    ((s.doOp n out i).1.node k).sched = (s.node k).sched := by
  cases out with
  | crash =>
    simp only [State.doOp, State.restart, State.upd]
    rw [if_neg (fun hk => h hk.symm rfl)]
  | ok => simp only [State.doOp]; rw [write_sched, operate_sched]
  | fail g => simp only [State.doOp]; rw [write_sched, operate_sched]

theorem add_sched (s : State) (n : Nat) (out : Outcome) (i : Info) (k : Nat) (h : n = k → out ≠ .crash) :
    ((s.add n out i).1.node k).sched = (s.node k).sched := by
  unfold State.add
  split
  · rfl
  · by_cases hs : i.status = .schedule ∧ s.mark.2 = true
    · simp only [if_pos hs]
      rw [if_neg (by simp [hs.1])]
      exact write_sched _ _ _
    · simp only [if_neg hs]
      split
      · rw [doOp_sched _ _ _ _ _ h, write_sched]
      · exact write_sched _ _ _

theorem put_keeps {l : List Handle} {x h : Handle} (hn : x.info.name ≠ h.info.name) : x ∈ put l h ↔ x ∈ l := by
  simp only [put, List.mem_cons, List.mem_filter]
  constructor
  · rintro (rfl | h)
    · exact absurd rfl hn
    · exact h.1
  · intro h
    exact Or.inr ⟨h, by simpa using hn⟩

theorem has_mem {l : List Handle} {x : Handle} (hx : x ∈ l) : has l x.info.name = true := by
  simp only [has, List.any_eq_true]
  exact ⟨x, hx, by simp⟩

theorem take_keeps (n k : Nat) (l : List Info) : ∀ {s : State} {x y : Handle}, x ∈ (s.node k).sched →
    y.info.name = x.info.name → (y ∈ ((s.take n l).node k).sched ↔ y ∈ (s.node k).sched) := by
  induction l with
  | nil => intro s x y hx _; exact Iff.rfl
  | cons i is ih =>
    intro s x y hx hy
    have hw : x ∈ ((s.write (i.moved n)).node k).sched := by rw [write_sched]; exact hx
    have hwy : y ∈ ((s.write (i.moved n)).node k).sched ↔ y ∈ (s.node k).sched := by rw [write_sched]
    simp only [State.take]
    generalize i.moved n = j at hw hwy
    split
    · split
      · exact hwy
      · next hh =>
        have hs : ∀ z : Handle, z.info.name = x.info.name →
            (z ∈ (((s.write j).spawn n j).node k).sched ↔ z ∈ ((s.write j).node k).sched) := by
          intro z hz
          simp only [State.spawn, State.upd]
          split
          · next hk =>
            subst hk
            refine put_keeps (fun hn => hh ?_)
            have := has_mem hw
            rw [← hz, hn] at this
            exact this
          · exact Iff.rfl
        rw [ih ((hs x rfl).mpr hw) hy, hs y hy]
        exact hwy
    · next hs => rw [add_executing _ _ _ _ hs, ih hw hy]; exact hwy
    · split
      · exact hwy
      · have hs : (((s.write j).spawnFailed n j).node k).sched = ((s.write j).node k).sched := by
          simp only [State.spawnFailed, State.upd]
          split <;> rfl
        rw [ih (by rw [hs]; exact hw) hy, hs]
        exact hwy
    · rw [ih hw hy]; exact hwy

theorem step_keeps {n : Nat} {s : State} {e : Step} {x y : Handle} (hx : x ∈ (s.node n).sched)
    (hy : y.info.name = x.info.name) (he : e.spares n x.info.name s) :
    y ∈ ((s.step e).1.node n).sched ↔ y ∈ (s.node n).sched := by
  cases e with
  | createTenant k a =>
    simp only [State.step, State.createTenant]
    split
    · rw [hideTenant_sched]
    · exact Iff.rfl
  | createDb k a b =>
    have h0 := tenantMeta_sched s k a n
    simp only [State.step, State.createDb]
    split
    · split
      · show y ∈ ((s.tenantMeta k a).1.node n).sched ↔ _
        rw [h0]
      · rw [h0]
    · rw [h0]
  | createTable k a b c =>
    have h0 := tenantMeta_sched s k a n
    simp only [State.step, State.createTable]
    split
    · split
      · split
        · show y ∈ ((s.tenantMeta k a).1.node n).sched ↔ _
          rw [h0]
        · rw [h0]
      · rw [h0]
    · rw [h0]
  | dropTenant k a af ie o =>
    simp only [State.step, State.dropTenant]
    split
    · split
      · exact Iff.rfl
      · rw [add_sched _ _ _ _ _ he, hideTenant_sched]
    · exact Iff.rfl
  | dropDb k a b af ie o =>
    have h0 := tenantMeta_sched s k a n
    simp only [State.step, State.dropDb]
    split
    · split
      · rw [h0]
      · rw [add_sched _ _ _ _ _ he]
        show y ∈ ((s.tenantMeta k a).1.node n).sched ↔ _
        rw [h0]
    · rw [h0]
  | dropTable k a b c ie o =>
    have h0 := tenantMeta_sched s k a n
    simp only [State.step, State.dropTable]
    split
    · split
      · rw [h0]
      · split
        · rw [add_sched _ _ _ _ _ he, h0]
        · rw [h0]
    · rw [h0]
  | recoverDb k a b ie =>
    have h0 := tenantMeta_sched s k a n
    simp only [State.step, State.recoverDb]
    split
    · split
      · rw [write_sched, h0]
      · show y ∈ (((s.tenantMeta k a).1.write _).node n).sched ↔ _
        rw [write_sched, h0]
    · rw [h0]
  | recoverTenant k a ie =>
    have h0 := tenantMeta_sched s k a n
    simp only [State.step, State.recoverTenant]
    split
    · split
      · rw [write_sched, h0]
      · rw [hideTenant_sched, write_sched, h0]
    · rw [h0]
  | tick dt => exact Iff.rfl
  | deliver k =>
    simp only [State.step, State.deliver]
    cases hq : (s.node k).queue with
    | nil => exact Iff.rfl
    | cons ev q =>
      simp only
      have hu : ((s.upd k fun y => { y with queue := q }).node n).sched = (s.node n).sched := by
        simp only [State.upd]
        split <;> rfl
      cases ev with
      | dead m =>
        simp only [State.onDead]
        rw [← hu] at hx ⊢
        generalize (s.upd k fun y => { y with queue := q }) = v at hx
        split <;> split <;> first | exact Iff.rfl | exact take_keeps _ n _ hx hy
      | info i =>
        simp only
        by_cases hk : k = n
        · subst hk
          unfold State.onInfo
          split
          · next hc =>
            have hne : i.name ≠ x.info.name := fun hn => by
              have := he rfl i q hq hn
              rw [hc.1] at this
              cases this
            split
            · simp only [State.spawn, State.upd, if_true]
              exact put_keeps (fun h => hne (by rw [← hy]; exact h.symm))
            · split
              · rw [hu]
              · simp only [State.spawnFailed, State.upd, if_true]
            · simp only [State.upd, if_true, List.mem_filter]
              exact ⟨fun h => h.1, fun h => ⟨h, by simpa using fun h => hne (by rw [← hy]; exact h.symm)⟩⟩
            · rw [hu]
          · rw [hu]
        · rw [(onInfo_node _ k i).2.2.1 n (fun h => hk h.symm), hu]
  | fire k nm o =>
    simp only [State.step, State.fire]
    cases hr : ready (s.node k).sched nm s.clock with
    | none => exact Iff.rfl
    | some z =>
      simp only
      rw [doOp_sched _ _ _ _ _ (fun h => (he h).1), write_sched]
      simp only [State.upd]
      split
      · next hk =>
        subst hk
        have hne := (he rfl).2
        simp only [finish, List.mem_map]
        constructor
        · rintro ⟨w, hw, hwy⟩
          split at hwy
          · next hn =>
            subst hwy
            exact absurd (hn.symm.trans hy) hne
          · subst hwy; exact hw
        · intro h
          exact ⟨y, h, if_neg (fun h => hne (h.symm.trans hy))⟩
      · exact Iff.rfl
  | retry k nm o =>
    simp only [State.step, State.retry]
    cases hr : ready (s.node k).failed nm s.clock with
    | none => exact Iff.rfl
    | some z =>
      simp only
      cases hi : s.reread z with
      | none =>
        simp only [State.upd]
        split <;> exact Iff.rfl
      | some i =>
        simp only [State.upd]
        split <;> simp only [doOp_sched _ _ _ _ _ he]
  | unreachable m => exact Iff.rfl
  | restart k =>
    simp only [State.step, State.restart, State.upd]
    rw [if_neg (fun h => he h.symm)]
  | resync k =>
    simp only [State.step, State.resync, State.upd]
    split <;> exact Iff.rfl

/-- **C170**: a task that sleeps goes on to sleep, whatever else happens, if its node does not stop and hears of no other
    task of the same name. -/
theorem C170_sleeps (n : Nat) (x : Handle) (es : List Step) : ∀ s : State, x ∈ (s.node n).sched →
    Spares n x.info.name s es → ∀ y : Handle, y.info.name = x.info.name →
      (y ∈ ((s.run es).node n).sched ↔ y ∈ (s.node n).sched) := by
  induction es with
  | nil => intro s hx _ y _; exact Iff.rfl
  | cons e es ih =>
    intro s hx hs y hy
    have h1 := ih _ ((step_keeps hx rfl hs.1).mpr hx) hs.2 y hy
    exact h1.trans (step_keeps hx hy hs.1)

/-- When a live task of the name has come to its time, the first such task is done; if it succeeds, its
    database is gone and the record says so. -/
theorem fires_spec (s : State) (n : Nat) (x : Handle) (t d : Str) (hx : x ∈ (s.node n).sched) (ho : x.over = false)
    (hw : x.wake ≤ s.clock) (hop : ∀ y ∈ (s.node n).sched, y.info.name = x.info.name → y.info.op = .dropDb t d)
    (hc : t ∈ (s.node n).cached) :
    let u := (s.step (.fire n x.info.name .ok)).1
    u.db t d = none ∧ ∃ i, u.read x.info.name = some i ∧ i.status = .successed := by
  intro u
  have hsome : ∃ y, ready (s.node n).sched x.info.name s.clock = some y := by
    have := List.find?_isSome (p := fun h : Handle => decide (h.info.name = x.info.name ∧ h.over = false ∧ h.wake ≤ s.clock))
      (xs := (s.node n).sched)
    have h2 := this.mpr ⟨x, hx, by simp [ho, hw]⟩
    exact Option.isSome_iff_exists.mp h2
  obtain ⟨y, hy⟩ := hsome
  obtain ⟨hm, hn, _, _⟩ := ready_spec hy
  have hop' := hop y hm hn
  have hu : u = ((((s.upd n fun z => { z with sched := finish z.sched x.info.name }).write
      { y.info with status := .executing, isNew := false }).doOp n .ok
      { y.info with status := .executing, isNew := false })).1 := by
    simp only [u, State.step, State.fire, hy]
  have hcached : t ∈ (((s.upd n fun z => { z with sched := finish z.sched x.info.name }).write
      { y.info with status := .executing, isNew := false }).node n).cached := by
    rw [write_cached]
    simpa [State.upd] using hc
  have hj : ∃ j : Info, j = { y.info with status := .executing, isNew := false } := ⟨_, rfl⟩
  obtain ⟨j, hj⟩ := hj
  rw [← hj] at hu hcached
  have hjn : j.name = x.info.name ∧ j.op = .dropDb t d := by subst hj; exact ⟨hn, hop'⟩
  obtain ⟨h1, h2⟩ := doOp_dropDb _ n .ok j t d hjn.2 hcached
  obtain ⟨h3, h4⟩ := h2 (h1.mpr rfl)
  rw [hu]
  rw [hjn.1] at h4
  exact ⟨h3, _, h4, rfl⟩

/-- **C170**: a scheduled drop of which the node with the mark hears in time is done at its time: after any steps in which
    this node neither stops nor hears of another task of the name, and in which the time has come, the database is gone
    when the task wakes and succeeds; and until then the task is there, and nothing wakes it earlier. -/
theorem C170_done_partial (s : State) (n : Nat) (t d : Str) (i : Info) (q : List Event) (es : List Step)
    (hq : (s.node n).queue = .info i :: q) (hm : s.mark = (n, true)) (hi : i.isNew = true) (hs : i.status = .schedule)
    (hop : i.op = .dropDb t d) (ht : s.clock ≤ i.time) (hb : i.time - s.clock < 2 ^ 64)
    (hsp : Spares n i.name (s.step (.deliver n)).1 es) :
    let u := (s.step (.deliver n)).1.run es
    (ready (u.node n).sched i.name u.clock).isSome = decide (i.time ≤ u.clock) ∧
      (i.time ≤ u.clock → t ∈ (u.node n).cached →
        let v := (u.step (.fire n i.name .ok)).1
        v.db t d = none ∧ ∃ j, v.read i.name = some j ∧ j.status = .successed) := by
  intro u
  obtain ⟨hx, hu⟩ := heard_spec s n i q hq hm hi hs ht hb
  have hk := C170_sleeps n ⟨i, i.time, false, false⟩ es _ hx hsp
  have hmem : (⟨i, i.time, false, false⟩ : Handle) ∈ (u.node n).sched := (hk _ rfl).mpr hx
  refine ⟨?_, ?_⟩
  · rw [Bool.eq_iff_iff, decide_eq_true_iff]
    constructor
    · intro h
      obtain ⟨y, hy⟩ := Option.isSome_iff_exists.mp h
      obtain ⟨h1, h2, _, h4⟩ := ready_spec hy
      have := hu y ((hk y h2).mp h1) h2
      subst this
      exact h4
    · intro h
      exact List.find?_isSome.mpr ⟨_, hmem, by simp [h]⟩
  · intro hle hc
    exact fires_spec u n ⟨i, i.time, false, false⟩ t d hmem rfl hle
      (fun y hy hyn => by rw [hu y ((hk y hyn).mp hy) hyn]; exact hop) hc

end Verif.Tasks
