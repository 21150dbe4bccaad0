import Verif.Raft.StoreProps
/-!
# What a snapshot says of itself: the id of its last entry and the membership

`get_snapshot_meta` (node_store.rs:124-141) with what a replica does before: applying entries, making and restoring snapshots, purging.
-/
namespace Verif.Raft

/-- What a replica has: its part of the store, and the ids of the entries in its log (those that were applied; later ones do not matter). -/
structure Rep where
  db : Db
  log : List LogId

inductive Ev where
  /-- `append_to_log` and `apply_to_state_machine` (node_store.rs:376-403, 475-520) of an entry, with the replicas if it is a membership -/
  | entry (l : LogId) (m : Option Nat)
  /-- `get_snapshot_meta` of a snapshot that was just made or is read again -/
  | snap (i : Nat)
  /-- `apply_snapshot` (node_store.rs:168-184) -/
  | install (l : LogId) (m : Member)
  /-- `purge_logs_upto` (node_store.rs:423-446) -/
  | purge (l : LogId)

def Rep.step (g : Nat) (r : Rep) : Ev → Rep
  | .entry l m =>
    { db := match m with
        | some n => (r.db.write g (.applied l)).write g (.membership ⟨some l, n⟩)
        | none => r.db.write g (.applied l)
      log := r.log ++ [l] }
  | .snap i => { r with db := r.db.write g (.clear i) }
  | .install l m => { r with db := ((r.db.write g (.applied l)).write g (.membership m)).write g (.snapApplied l) }
  | .purge l => { db := r.db.write g (.purged l), log := r.log.filter fun x => decide (l.index < x.index) }

/-- What has happened: ids and memberships, newest first; index of the last snapshot; index of the last snapshot restored. -/
structure Hist where
  ids : List LogId
  mems : List Member
  snap : Nat
  inst : Option Nat

def Hist.start : Hist := ⟨[], [], 0, none⟩

def Hist.step (h : Hist) : Ev → Hist
  | .entry l m => { h with ids := l :: h.ids, mems := match m with | some n => ⟨some l, n⟩ :: h.mems | none => h.mems }
  | .snap i => { h with snap := i }
  | .install l m => { ids := l :: h.ids, mems := m :: h.mems, snap := l.index, inst := some l.index }
  | .purge _ => h

/-- The order of things: entries are applied in the order of their indexes; a snapshot is made at the index of an entry and not before the
snapshot made last; a snapshot restored is ahead of what was applied, with a membership that is not older than the ones known; openraft
purges what is before the last snapshot (`max_in_snapshot_log_to_keep > 0`), or up to a snapshot just restored. -/
def Hist.Legal (h : Hist) : Ev → Prop
  | .entry l _ => ∀ x ∈ h.ids, x.index < l.index
  | .snap i => h.snap ≤ i ∧ ∃ x ∈ h.ids, x.index = i
  | .install l m => (∀ x ∈ h.ids, x.index < l.index) ∧ ∃ ml, m.logId = some ml ∧ ml.index ≤ l.index ∧ ∀ x ∈ h.mems, x.index ≤ ml.index
  | .purge l => l.index < h.snap ∨ l.index = h.snap ∧ h.inst = some h.snap

def Hist.LegalRun : Hist → List Ev → Prop
  | _, [] => True
  | h, e :: l => h.Legal e ∧ (h.step e).LegalRun l

/-- The newest membership with an index. -/
def Hist.at (h : Hist) (i : Nat) : Option Member := h.mems.find? fun m => decide (m.index = i)

structure SnapInv (g : Nat) (r : Rep) (h : Hist) : Prop where
  wf : Wf r.db
  ids : h.ids.Pairwise fun a b => b.index < a.index
  log : ∀ x ∈ r.log, x ∈ h.ids
  kept : ∀ x ∈ h.ids, h.snap ≤ x.index → x ∈ r.log ∨ (r.db.view g).snapApplied = some (.log x)
  snapApplied : ∀ x, (r.db.view g).snapApplied = some x → ∃ l ∈ h.ids, x = .log l
  inst : ∀ n, h.inst = some n → ∃ x, (r.db.view g).snapApplied = some (.log x) ∧ x.index = n
  snap : (∃ x ∈ h.ids, h.snap ≤ x.index) ∨ h.snap = 0
  mems : h.mems.Pairwise fun a b => b.index ≤ a.index
  memId : ∀ m ∈ h.mems, m.logId.isSome ∧ ∃ x ∈ h.ids, m.index ≤ x.index
  list : ∀ i, (r.db.view g).list i = (h.at i).map .mem ∨
    ((r.db.view g).list i = none ∧ ∃ j, i < j ∧ j ≤ h.snap ∧ (h.at j).isSome)

theorem SnapInv.start (g : Nat) : SnapInv g ⟨AMap.empty, []⟩ .start where
  wf := Wf.empty
  ids := by simp [Hist.start]
  log := by simp
  kept := by simp [Hist.start]
  snapApplied := by simp [Db.view]
  inst := by simp [Hist.start]
  snap := .inr rfl
  mems := by simp [Hist.start]
  memId := by simp [Hist.start]
  list := fun i => .inl (by simp [Db.view, Hist.start, Hist.at])

theorem unique_index {l : List LogId} (h : l.Pairwise fun a b => b.index < a.index) {x y : LogId} (hx : x ∈ l) (hy : y ∈ l)
    (e : x.index = y.index) : x = y := by
  induction l with
  | nil => cases hx
  | cons a l ih =>
    rw [List.pairwise_cons] at h
    rcases List.mem_cons.1 hx with hx | hx
    · rcases List.mem_cons.1 hy with hy | hy
      · rw [hx, hy]
      · have := h.1 y hy
        rw [hx] at e; omega
    · rcases List.mem_cons.1 hy with hy | hy
      · have := h.1 x hx
        rw [hy] at e; omega
      · exact ih h.2 hx hy

/-- A new membership that is not older than the others. -/
theorem at_cons (h : Hist) (m : Member) (ids : List LogId) (s : Nat) (o : Option Nat) (i : Nat) :
    Hist.at ⟨ids, m :: h.mems, s, o⟩ i = if m.index = i then some m else h.at i := by
  simp only [Hist.at, List.find?_cons]
  by_cases e : m.index = i <;> simp [e]

theorem view_self {db : Db} (hw : Wf db) (g : Nat) (w : Write) : (db.write g w).view g = (db.view g).write w := by
  rw [view_write hw, if_pos rfl]

theorem SnapInv.step {g : Nat} {r : Rep} {h : Hist} (hi : SnapInv g r h) (e : Ev) (hl : h.Legal e) : SnapInv g (r.step g e) (h.step e) := by
  have hmi : ∀ (m : Member) (l : LogId), m.logId = some l → m.index = l.index := fun m l e => by simp [Member.index, e]
  cases e with
  | entry l m =>
    simp only [Hist.Legal] at hl
    have hw1 := hi.wf.write g (.applied l)
    have kept : ∀ x ∈ l :: h.ids, h.snap ≤ x.index → x ∈ r.log ++ [l] ∨ (r.db.view g).snapApplied = some (.log x) := by
      intro x hx hs
      rcases List.mem_cons.1 hx with rfl | hx
      · exact .inl (by simp)
      · rcases hi.kept x hx hs with h1 | h1
        · exact .inl (List.mem_append_left _ h1)
        · exact .inr h1
    have log : ∀ x ∈ r.log ++ [l], x ∈ l :: h.ids := by
      intro x hx
      rcases List.mem_append.1 hx with hx | hx
      · exact List.mem_cons_of_mem _ (hi.log x hx)
      · rw [List.mem_singleton] at hx; rw [hx]; exact List.mem_cons_self
    have ids : (l :: h.ids).Pairwise fun a b => b.index < a.index := List.pairwise_cons.2 ⟨hl, hi.ids⟩
    have snapApplied : ∀ x, (r.db.view g).snapApplied = some x → ∃ l' ∈ l :: h.ids, x = .log l' := by
      intro x hx
      obtain ⟨l', h1, h2⟩ := hi.snapApplied x hx
      exact ⟨l', List.mem_cons_of_mem _ h1, h2⟩
    have snap : (∃ x ∈ l :: h.ids, h.snap ≤ x.index) ∨ h.snap = 0 := by
      rcases hi.snap with ⟨x, h1, h2⟩ | h1
      · exact .inl ⟨x, List.mem_cons_of_mem _ h1, h2⟩
      · exact .inr h1
    cases m with
    | none =>
      have ev : (r.db.write g (.applied l)).view g = { r.db.view g with applied := some (.log l) } := by
        rw [view_self hi.wf]; rfl
      exact {
        wf := hw1
        ids := ids
        log := log
        kept := by simp only [Rep.step]; rw [ev]; exact kept
        snapApplied := by simp only [Rep.step]; rw [ev]; exact snapApplied
        inst := by simp only [Rep.step]; rw [ev]; exact hi.inst
        snap := snap
        mems := hi.mems
        memId := fun m hm => by
          obtain ⟨h1, x, h2, h3⟩ := hi.memId m hm
          exact ⟨h1, x, List.mem_cons_of_mem _ h2, h3⟩
        list := by simp only [Rep.step]; rw [ev]; exact hi.list }
    | some n =>
      have ev : ((r.db.write g (.applied l)).write g (.membership ⟨some l, n⟩)).view g =
          { r.db.view g with
            applied := some (.log l)
            member := some (.mem ⟨some l, n⟩)
            list := fun i => if l.index = i then some (.mem ⟨some l, n⟩) else (r.db.view g).list i } := by
        rw [view_self hw1, view_self hi.wf]
        simp [View.write]
      exact {
        wf := hw1.write g (.membership ⟨some l, n⟩)
        ids := ids
        log := log
        kept := by simp only [Rep.step]; rw [ev]; exact kept
        snapApplied := by simp only [Rep.step]; rw [ev]; exact snapApplied
        inst := by simp only [Rep.step]; rw [ev]; exact hi.inst
        snap := snap
        mems := by
          simp only [Hist.step, List.pairwise_cons]
          refine ⟨fun m hm => ?_, hi.mems⟩
          obtain ⟨h1, x, h2, h3⟩ := hi.memId m hm
          have := hl x h2
          rw [hmi ⟨some l, n⟩ l rfl]
          omega
        memId := fun m hm => by
          simp only [Hist.step, List.mem_cons] at hm
          rcases hm with rfl | hm
          · exact ⟨rfl, l, List.mem_cons_self, by rw [hmi _ l rfl]; exact Nat.le_refl _⟩
          · obtain ⟨h1, x, h2, h3⟩ := hi.memId m hm
            exact ⟨h1, x, List.mem_cons_of_mem _ h2, h3⟩
        list := fun i => by
          simp only [Rep.step]
          rw [ev]
          simp only [Hist.step]
          rw [at_cons]
          have hix : (⟨some l, n⟩ : Member).index = l.index := hmi _ l rfl
          rw [hix]
          by_cases e : l.index = i
          · left; rw [if_pos e, if_pos e]; rfl
          · rw [if_neg e, if_neg e]
            rcases hi.list i with h1 | ⟨h1, j, h2, h3, h4⟩
            · exact .inl h1
            · refine .inr ⟨h1, j, h2, h3, ?_⟩
              rw [at_cons, hix]
              split
              · rfl
              · exact h4 }
  | snap n =>
    obtain ⟨hn, hx⟩ := hl
    have ev : (r.db.write g (.clear n)).view g =
        { r.db.view g with list := fun i => if i ≤ n ∧ laterIn (r.db.view g).list i n = true then none else (r.db.view g).list i } := by
      rw [view_self hi.wf]; rfl
    exact {
      wf := hi.wf.write g (.clear n)
      ids := hi.ids
      log := hi.log
      kept := fun x hx hs => by
        simp only [Hist.step] at hs
        simp only [Rep.step]
        rw [ev]
        exact hi.kept x hx (by omega)
      snapApplied := by simp only [Rep.step]; rw [ev]; exact hi.snapApplied
      inst := by simp only [Rep.step]; rw [ev]; exact hi.inst
      snap := by
        obtain ⟨x, h1, h2⟩ := hx
        exact .inl ⟨x, h1, by simp only [Hist.step]; omega⟩
      mems := hi.mems
      memId := hi.memId
      list := fun i => by
        have hat : ∀ j, Hist.at (h.step (.snap n)) j = h.at j := fun _ => rfl
        simp only [Rep.step]
        rw [ev, hat]
        simp only [Hist.step]
        by_cases hc : i ≤ n ∧ laterIn (r.db.view g).list i n = true
        · rw [if_pos hc]
          right
          refine ⟨rfl, ?_⟩
          obtain ⟨j, h1, h2, h3⟩ := laterIn_iff.1 hc.2
          refine ⟨j, h1, h2, ?_⟩
          rcases hi.list j with h4 | ⟨h4, _⟩
          · rw [h4] at h3
            show (h.at j).isSome = true
            cases hj : h.at j with
            | none => rw [hj] at h3; cases h3
            | some _ => rfl
          · rw [h4] at h3; cases h3
        · rw [if_neg hc]
          rcases hi.list i with h1 | ⟨h1, j, h2, h3, h4⟩
          · exact .inl h1
          · exact .inr ⟨h1, j, h2, by omega, h4⟩ }
  | install l m =>
    obtain ⟨hl, ml, hm1, hm2, hm3⟩ := hl
    have hw1 := hi.wf.write g (.applied l)
    have hw2 := hw1.write g (.membership m)
    have hix : m.index = ml.index := hmi m ml hm1
    have ev : (((r.db.write g (.applied l)).write g (.membership m)).write g (.snapApplied l)).view g =
        { r.db.view g with
          applied := some (.log l)
          snapApplied := some (.log l)
          member := some (.mem m)
          list := fun i => if ml.index = i then some (.mem m) else (r.db.view g).list i } := by
      rw [view_self hw2, view_self hw1, view_self hi.wf]
      simp [View.write, hm1]
    exact {
      wf := hw2.write g (.snapApplied l)
      ids := List.pairwise_cons.2 ⟨hl, hi.ids⟩
      log := fun x hx => List.mem_cons_of_mem _ (hi.log x hx)
      kept := fun x hx hs => by
        simp only [Hist.step] at hx hs
        simp only [Rep.step]
        rw [ev]
        rcases List.mem_cons.1 hx with rfl | hx
        · exact .inr rfl
        · have := hl x hx
          omega
      snapApplied := fun x hx => by
        simp only [Rep.step] at hx
        rw [ev] at hx
        simp only [Option.some.injEq] at hx
        exact ⟨l, List.mem_cons_self, hx.symm⟩
      inst := fun n hn => by
        simp only [Hist.step, Option.some.injEq] at hn
        simp only [Rep.step]
        rw [ev]
        exact ⟨l, rfl, hn⟩
      snap := .inl ⟨l, List.mem_cons_self, Nat.le_refl _⟩
      mems := by
        simp only [Hist.step, List.pairwise_cons]
        refine ⟨fun x hx => ?_, hi.mems⟩
        rw [hix]; exact hm3 x hx
      memId := fun x hx => by
        simp only [Hist.step, List.mem_cons] at hx
        rcases hx with rfl | hx
        · exact ⟨by rw [hm1]; rfl, l, List.mem_cons_self, by rw [hix]; exact hm2⟩
        · obtain ⟨h1, y, h2, h3⟩ := hi.memId x hx
          exact ⟨h1, y, List.mem_cons_of_mem _ h2, h3⟩
      list := fun i => by
        simp only [Rep.step]
        rw [ev]
        simp only [Hist.step]
        rw [at_cons, hix]
        by_cases e : ml.index = i
        · left; rw [if_pos e, if_pos e]; rfl
        · rw [if_neg e, if_neg e]
          rcases hi.list i with h1 | ⟨h1, j, h2, h3, h4⟩
          · exact .inl h1
          · refine .inr ⟨h1, j, h2, ?_, ?_⟩
            · rcases hi.snap with ⟨x, hx, hxs⟩ | h0
              · have := hl x hx
                omega
              · omega
            · rw [at_cons]
              split
              · rfl
              · exact h4 }
  | purge l =>
    have ev : (r.db.write g (.purged l)).view g = { r.db.view g with purged := some (.log l) } := by rw [view_self hi.wf]; rfl
    exact {
      wf := hi.wf.write g (.purged l)
      ids := hi.ids
      log := fun x hx => hi.log x (List.mem_filter.1 hx).1
      kept := fun x hx hs => by
        simp only [Hist.step] at hx hs
        simp only [Rep.step]
        rw [ev]
        rcases hi.kept x hx hs with h1 | h1
        · rcases hl with hl | ⟨hl1, hl2⟩
          · exact .inl (List.mem_filter.2 ⟨h1, by simp only [decide_eq_true_eq]; omega⟩)
          · by_cases hlt : l.index < x.index
            · exact .inl (List.mem_filter.2 ⟨h1, by simp only [decide_eq_true_eq]; exact hlt⟩)
            · obtain ⟨y, hy1, hy2⟩ := hi.inst _ hl2
              obtain ⟨z, hz, hzz⟩ := hi.snapApplied _ hy1
              simp only [Val.log.injEq] at hzz
              subst hzz
              have := unique_index hi.ids hx hz (by omega)
              exact .inr (by rw [this]; exact hy1)
        · exact .inr h1
      snapApplied := by simp only [Rep.step]; rw [ev]; exact hi.snapApplied
      inst := by simp only [Rep.step]; rw [ev]; exact hi.inst
      snap := hi.snap
      mems := hi.mems
      memId := hi.memId
      list := by simp only [Rep.step]; rw [ev]; exact hi.list }

theorem SnapInv.run {g : Nat} {r : Rep} {h : Hist} (hi : SnapInv g r h) (l : List Ev) (hl : h.LegalRun l) :
    SnapInv g (l.foldl (Rep.step g) r) (l.foldl Hist.step h) := by
  induction l generalizing r h with
  | nil => exact hi
  | cons e l ih => exact ih (hi.step e hl.1) hl.2

theorem SnapInv.logId {g : Nat} {r : Rep} {h : Hist} (hi : SnapInv g r h) {i : Nat} (hl : h.Legal (.snap i)) :
    ∃ x ∈ h.ids, x.index = i ∧ snapshotLogId r.log r.db g i = some x := by
  obtain ⟨hs, x, hx, rfl⟩ := hl
  refine ⟨x, hx, rfl, ?_⟩
  unfold snapshotLogId
  cases hf : r.log.find? fun l => decide (l.index = x.index) with
  | some y =>
    have h1 := List.find?_some hf
    simp only [decide_eq_true_eq] at h1
    rw [unique_index hi.ids (hi.log y (List.mem_of_find?_eq_some hf)) hx h1]
  | none =>
    rcases hi.kept x hx hs with h1 | h1
    · have := List.find?_eq_none.1 hf x h1
      simp at this
    · have : r.db.log (kSnapApplied g) = some x := by
        have h2 : r.db.get (kSnapApplied g) = some (.log x) := h1
        simp [Db.log, h2]
      simp [this]

theorem SnapInv.membership {g : Nat} {r : Rep} {h : Hist} (hi : SnapInv g r h) {n : Nat} (hn : h.snap ≤ n) {m : Member}
    (hm : (h.mems.find? fun m => decide (m.index ≤ n)) = some m) : r.db.snapshotMembership g n = m := by
  have hle : m.index ≤ n := by simpa using List.find?_some hm
  obtain ⟨as, bs, hsplit, has⟩ := (List.find?_eq_some_iff_append.1 hm).2
  have hat : h.at m.index = some m := by
    rw [Hist.at, List.find?_eq_some_iff_append]
    refine ⟨by simp, as, bs, hsplit, fun a ha => ?_⟩
    have := has a ha
    simp only [Bool.not_eq_true', decide_eq_false_iff_not] at this ⊢
    omega
  -- no later one up to `n`
  have hmax : ∀ j, m.index < j → j ≤ n → h.at j = none := by
    intro j h1 h2
    rw [Hist.at, List.find?_eq_none]
    intro a ha
    simp only [decide_eq_true_eq]
    intro e
    rw [hsplit] at ha
    rcases List.mem_append.1 ha with ha | ha
    · have := has a ha
      simp only [Bool.not_eq_true', decide_eq_false_iff_not] at this
      omega
    · have hs := hi.mems
      rw [hsplit, List.pairwise_append] at hs
      rcases List.mem_cons.1 ha with rfl | ha
      · omega
      · have := (List.pairwise_cons.1 hs.2.1).1 a ha
        omega
  have hlist : (r.db.view g).list m.index = some (.mem m) := by
    rcases hi.list m.index with h1 | ⟨h1, j, h2, h3, h4⟩
    · rw [h1, hat]; rfl
    · rw [hmax j h2 (by omega)] at h4; cases h4
  have hlater : laterIn (fun j => r.db.get (kMemberAt g j)) m.index n = false := by
    cases hb : laterIn (fun j => r.db.get (kMemberAt g j)) m.index n with
    | false => rfl
    | true =>
      obtain ⟨j, h1, h2, h3⟩ := laterIn_iff.1 hb
      rcases hi.list j with h4 | ⟨h4, _⟩
      · have h5 : r.db.get (kMemberAt g j) = (h.at j).map .mem := h4
        rw [h5, hmax j h1 h2] at h3
        cases h3
      · have h5 : r.db.get (kMemberAt g j) = none := h4
        rw [h5] at h3
        cases h3
  have hget : r.db.get (kMemberAt g m.index) = some (.mem m) := hlist
  unfold Db.snapshotMembership
  cases hx : (r.db.membershipsUpTo g n).getLast? with
  | none =>
    exfalso
    rw [List.getLast?_eq_none_iff] at hx
    obtain ⟨m', l', e, e1, e2⟩ := hi.wf.list g m.index _ hget
    have : (kMemberAt g m.index, m') ∈ r.db.membershipsUpTo g n :=
      (mem_upTo hi.wf).2 ⟨m.index, l', rfl, e1, e2, hle, by rw [hget, e]⟩
    rw [hx] at this
    cases this
  | some x =>
    obtain ⟨i, h1, h2, h3, h4⟩ := getLast_upTo hi.wf hx
    have hi1 : ¬ i < m.index := by
      intro hlt
      have : laterIn (fun j => r.db.get (kMemberAt g j)) i n = true := laterIn_iff.2 ⟨m.index, hlt, hle, by rw [hget]; rfl⟩
      rw [this] at h4; cases h4
    have hi2 : ¬ m.index < i := by
      intro hlt
      have : laterIn (fun j => r.db.get (kMemberAt g j)) m.index n = true := laterIn_iff.2 ⟨i, hlt, h1, by rw [h3]; rfl⟩
      rw [this] at hlater; cases hlater
    have : i = m.index := by omega
    subst this
    rw [hget] at h3
    simp only [Option.some.injEq, Val.mem.injEq] at h3
    obtain ⟨x1, x2⟩ := x
    simp only at h3
    rw [h3]

/-- **C119**: whatever entries were applied, snapshots made, restored and parts of the log purged before: a snapshot at the index of an applied
entry carries the id of that entry, and the membership that was in force there: the newest one with an index up to it (there is one:
the first entry of every log is a membership).  In particular the memberships that making a snapshot removes are never missing later. -/
theorem C119_snapshot_meta (g : Nat) (l : List Ev) (hl : Hist.start.LegalRun l) (i : Nat) (hi : (l.foldl Hist.step .start).Legal (.snap i)) :
    (∃ x ∈ (l.foldl Hist.step .start).ids, x.index = i ∧
      snapshotLogId (l.foldl (Rep.step g) ⟨AMap.empty, []⟩).log (l.foldl (Rep.step g) ⟨AMap.empty, []⟩).db g i = some x) ∧
    (∀ m, ((l.foldl Hist.step .start).mems.find? fun m => decide (m.index ≤ i)) = some m →
      (l.foldl (Rep.step g) ⟨AMap.empty, []⟩).db.snapshotMembership g i = m) := by
  have h := (SnapInv.start g).run l hl
  exact ⟨h.logId hi, fun m hm => h.membership hi.1 hm⟩

/-- Memberships at 0, 3 and 6; snapshots at 2 and 4, the log purged in between: at 5 the membership of 3 is in force. -/
example :
    let l : List Ev := [.entry ⟨0, 0⟩ (some 1), .entry ⟨1, 1⟩ none, .entry ⟨2, 1⟩ none, .entry ⟨3, 1⟩ (some 3), .snap 2, .entry ⟨4, 2⟩ none,
      .snap 4, .purge ⟨3, 1⟩, .entry ⟨5, 2⟩ none, .entry ⟨6, 2⟩ (some 4)]
    Hist.start.LegalRun l ∧ (l.foldl Hist.step .start).Legal (.snap 5) ∧
    (l.foldl (Rep.step 7) ⟨AMap.empty, []⟩).db.snapshotMembership 7 5 = ⟨some ⟨3, 1⟩, 3⟩ ∧
    snapshotLogId (l.foldl (Rep.step 7) ⟨AMap.empty, []⟩).log (l.foldl (Rep.step 7) ⟨AMap.empty, []⟩).db 7 5 = some ⟨5, 2⟩ := by
  refine ⟨?_, ?_, by decide +kernel, by decide +kernel⟩
  · simp [Hist.LegalRun, Hist.Legal, Hist.step, Hist.start]
  · simp [Hist.Legal, Hist.step, Hist.start]

/-- **C119 (refuted for `raft_logs_to_keep = 0`)**: when openraft may purge up to the last snapshot, the id of the last entry of that snapshot
is not found any more when it is read for another replica, after a further entry was applied. -/
theorem C119_keep_none_refuted :
    let l : List Ev := [.entry ⟨0, 0⟩ (some 1), .entry ⟨1, 1⟩ none, .snap 1, .purge ⟨1, 1⟩, .entry ⟨2, 1⟩ none]
    snapshotLogId (l.foldl (Rep.step 7) ⟨AMap.empty, []⟩).log (l.foldl (Rep.step 7) ⟨AMap.empty, []⟩).db 7 1 = none := by
  decide +kernel

end Verif.Raft
