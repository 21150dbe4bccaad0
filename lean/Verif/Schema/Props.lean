import Verif.Schema.Lemmas
import Mathlib.Data.List.Induction
/-!
# Properties of the schemas of a table under concurrent writes
-/
namespace Verif.Schema

/-! ## The invariant of the executions -/

/-- What is known of a request. -/
def Pc.Ok (hist : List Table) (r : Req) : Pc → Prop
  | .send t .create _ => t.WF ∧ Covers t r ∧ t.ver = 0
  | .send t .update _ => t.WF ∧ Covers t r ∧ ∃ b ∈ hist, b.cols <+: t.cols ∧ t.ver = b.ver + 1
  | .send _ .keep _ => False
  | .done _ => ∃ t ∈ hist, Covers t r
  | _ => True

structure Inv (s : St) : Prop where
  hist : ∀ (k : Nat) (t : Table), s.hist[k]? = some t → t.ver = k ∧ t.WF
  mono : ∀ (i j : Nat) (ti tj : Table), i ≤ j → s.hist[i]? = some ti → s.hist[j]? = some tj → ti.cols <+: tj.cols
  stored : s.stored = s.hist.getLast?
  caches : ∀ n t, s.caches n = some t → t ∈ s.hist
  procs : ∀ p ∈ s.procs, p.pc.Ok s.hist p.req

theorem Pc.Ok.mono {h h' : List Table} {r : Req} (hh : ∀ t ∈ h, t ∈ h') : ∀ {pc : Pc}, pc.Ok h r → pc.Ok h' r
  | .send _ .create _, hk => hk
  | .send _ .update _, ⟨h1, h2, b, h3, h4⟩ => ⟨h1, h2, b, hh b h3, h4⟩
  | .send _ .keep _, hk => hk.elim
  | .done _, ⟨t, h1, h2⟩ => ⟨t, hh t h1, h2⟩
  | .fetch _, _ => trivial
  | .read _, _ => trivial
  | .failed, _ => trivial

theorem inv_init : Inv St.init := by
  constructor <;> simp [St.init]

/-- Storing a table. -/
theorem inv_put {s : St} (h : Inv s) {t : Table} (hw : t.WF)
    (hb : (s.stored = none ∧ t.ver = 0) ∨ ∃ b, s.stored = some b ∧ b.cols <+: t.cols ∧ t.ver = b.ver + 1) : Inv (s.put t) := by
  have hlast : ∀ (k : Nat) (b : Table), s.hist[k]? = some b → b.cols <+: t.cols := by
    intro k b hk
    rcases hb with ⟨hn, _⟩ | ⟨c, hc, hp, _⟩
    · rw [h.stored, List.getLast?_eq_none_iff] at hn
      rw [hn] at hk; simp at hk
    · rw [h.stored, List.getLast?_eq_getElem?] at hc
      have := (List.getElem?_eq_some_iff.1 hk).1
      exact (h.mono k _ b c (by omega) hk hc).trans hp
  have hver : t.ver = s.hist.length := by
    rcases hb with ⟨hn, hv⟩ | ⟨c, hc, _, hv⟩
    · rw [h.stored, List.getLast?_eq_none_iff] at hn
      rw [hn, hv]; rfl
    · rw [h.stored, List.getLast?_eq_getElem?] at hc
      have h1 := (h.hist _ c hc).1
      have h2 := (List.getElem?_eq_some_iff.1 hc).1
      omega
  have hget : ∀ (k : Nat) (x : Table), (s.hist ++ [t])[k]? = some x → s.hist[k]? = some x ∨ (k = s.hist.length ∧ x = t) := by
    intro k x hx
    by_cases hl : k < s.hist.length
    · rw [List.getElem?_append_left hl] at hx; exact .inl hx
    · have := (List.getElem?_eq_some_iff.1 hx).1
      simp only [List.length_append, List.length_singleton] at this
      have hk : k = s.hist.length := by omega
      subst hk
      simp at hx
      exact .inr ⟨rfl, hx.symm⟩
  refine ⟨?_, ?_, ?_, ?_, ?_⟩
  · intro k x hx
    rcases hget k x hx with hx | ⟨rfl, rfl⟩
    · exact h.hist k x hx
    · exact ⟨hver, hw⟩
  · intro i j ti tj hij hi hj
    rcases hget i ti hi with hi' | ⟨rfl, rfl⟩
    · rcases hget j tj hj with hj' | ⟨rfl, rfl⟩
      · exact h.mono i j ti tj hij hi' hj'
      · exact hlast i ti hi'
    · rcases hget j tj hj with hj | ⟨rfl, rfl⟩
      · have := (List.getElem?_eq_some_iff.1 hj).1; omega
      · exact List.prefix_refl _
  · simp [St.put]
  · intro n x hx
    exact List.mem_append_left _ (h.caches n x hx)
  · intro p hp
    exact (h.procs p hp).mono fun x hx => List.mem_append_left _ hx

theorem inv_cache {s : St} (h : Inv s) (node : Nat) {t : Table} (ht : t ∈ s.hist) : Inv (s.cache node (some t)) := by
  refine ⟨h.hist, h.mono, h.stored, ?_, h.procs⟩
  intro n x hx
  simp only [St.cache] at hx
  split at hx
  · simp only [Option.some.injEq] at hx; subst hx; exact ht
  · exact h.caches n x hx

theorem wf_of_mem {s : St} (h : Inv s) {t : Table} (ht : t ∈ s.hist) : t.WF := by
  obtain ⟨k, hk⟩ := List.getElem?_of_mem ht
  exact (h.hist k t hk).2

theorem mem_stored {s : St} (h : Inv s) {t : Table} (ht : s.stored = some t) : t ∈ s.hist := by
  rw [h.stored] at ht
  exact List.mem_of_getLast? ht

/-- Two stored values of one version are the same. -/
theorem same_ver {s : St} (h : Inv s) {a b : Table} (ha : a ∈ s.hist) (hb : b ∈ s.hist) (hv : a.ver = b.ver) : a = b := by
  obtain ⟨i, hi⟩ := List.getElem?_of_mem ha
  obtain ⟨j, hj⟩ := List.getElem?_of_mem hb
  have h1 := (h.hist i a hi).1
  have h2 := (h.hist j b hj).1
  have : i = j := by omega
  subst this
  rw [hi] at hj
  exact Option.some.inj hj

/-- A step of a request. -/
theorem inv_step {s : St} (h : Inv s) {p : Proc} (hp : p.pc.Ok s.hist p.req) :
    Inv (p.step s).1 ∧ (p.step s).2.Ok (p.step s).1.hist p.req ∧ (∀ t ∈ s.hist, t ∈ (p.step s).1.hist) ∧
    (p.step s).1.procs = s.procs := by
  obtain ⟨node, req, pc⟩ := p
  cases pc with
  | fetch ret =>
    simp only [Proc.step]
    cases hs : s.stored with
    | none => exact ⟨h, trivial, fun _ h => h, rfl⟩
    | some t => exact ⟨inv_cache h node (mem_stored h hs), trivial, fun _ h => h, rfl⟩
  | read ret =>
    simp only [Proc.step]
    cases hq : plan req (s.caches node) with
    | none => exact ⟨h, trivial, fun _ h => h, rfl⟩
    | some x =>
      obtain ⟨t, a⟩ := x
      cases hc : s.caches node with
      | none =>
        rw [hc] at hq
        obtain ⟨w, c, rfl, v⟩ := plan_none hq
        exact ⟨h, ⟨w, c, v⟩, fun _ h => h, rfl⟩
      | some b =>
        rw [hc] at hq
        have hb := h.caches node b hc
        obtain ⟨w, c, pre, hx⟩ := plan_some (wf_of_mem h hb) hq
        rcases hx with ⟨rfl, rfl⟩ | ⟨rfl, v⟩
        · exact ⟨h, ⟨t, hb, c⟩, fun _ h => h, rfl⟩
        · exact ⟨h, ⟨w, c, b, hb, pre, v⟩, fun _ h => h, rfl⟩
  | send t a ret =>
    cases a with
    | keep => exact hp.elim
    | create =>
      obtain ⟨w, c, v⟩ := hp
      simp only [Proc.step, create]
      cases hs : s.stored with
      | some b => exact ⟨h, trivial, fun _ h => h, rfl⟩
      | none =>
        exact ⟨inv_put h w (.inl ⟨hs, v⟩), ⟨t, by simp [St.put], c⟩, fun x hx => List.mem_append_left _ hx, rfl⟩
    | update =>
      obtain ⟨w, c, b, hb, pre, v⟩ := hp
      simp only [Proc.step, update]
      cases hs : s.stored with
      | none =>
        rw [h.stored, List.getLast?_eq_none_iff] at hs
        rw [hs] at hb; simp at hb
      | some x =>
        by_cases hv : x.ver + 1 = t.ver
        · simp only [hv, ne_eq, not_true_eq_false, if_false]
          have : x = b := same_ver h (mem_stored h hs) hb (by omega)
          subst this
          exact ⟨inv_put h w (.inr ⟨x, hs, pre, v⟩), ⟨t, by simp [St.put], c⟩, fun y hy => List.mem_append_left _ hy, rfl⟩
        · simp only []
          rw [if_pos hv]
          exact ⟨h, trivial, fun _ h => h, rfl⟩
  | done t => exact ⟨h, hp, fun _ h => h, rfl⟩
  | failed => exact ⟨h, trivial, fun _ h => h, rfl⟩

theorem inv_ev {s : St} (h : Inv s) (e : Ev) (hd : e ≠ .drop) : Inv (s.step e) ∧ ∀ t ∈ s.hist, t ∈ (s.step e).hist := by
  cases e with
  | request node r =>
    refine ⟨⟨h.hist, h.mono, h.stored, h.caches, fun p hp => ?_⟩, fun _ h => h⟩
    simp only [St.step, List.mem_append, List.mem_singleton] at hp
    rcases hp with hp | rfl
    · exact h.procs p hp
    · exact trivial
  | step i =>
    simp only [St.step]
    cases hp : s.procs[i]? with
    | none => exact ⟨h, fun _ h => h⟩
    | some p =>
      obtain ⟨h1, h2, h3, h4⟩ := inv_step h (h.procs p (List.mem_of_getElem? hp))
      refine ⟨⟨h1.hist, h1.mono, h1.stored, h1.caches, fun q hq => ?_⟩, h3⟩
      rcases List.mem_or_eq_of_mem_set hq with hq | rfl
      · exact (h.procs q hq).mono h3
      · exact h2
  | notify node k =>
    simp only [St.step]
    cases hk : s.hist[k]? with
    | none => exact ⟨h, fun _ h => h⟩
    | some t => exact ⟨inv_cache h node (List.mem_of_getElem? hk), fun _ h => h⟩
  | drop => exact absurd rfl hd

theorem inv_foldl : ∀ (l : List Ev) {s : St}, Ev.drop ∉ l → Inv s → Inv (l.foldl St.step s) ∧ ∀ t ∈ s.hist, t ∈ (l.foldl St.step s).hist
  | [], _, _, h => ⟨h, fun _ h => h⟩
  | e :: l, s, hd, h => by
    simp only [List.mem_cons, not_or] at hd
    obtain ⟨h1, h2⟩ := inv_ev h e (Ne.symm hd.1)
    obtain ⟨h3, h4⟩ := inv_foldl l hd.2 h1
    exact ⟨h3, fun t ht => h4 t (h2 t ht)⟩

theorem inv_run (l : List Ev) (hd : Ev.drop ∉ l) : Inv (run l) := (inv_foldl l hd inv_init).1

/-- Every value the store had is extended by the present one. -/
theorem stored_extends {s : St} (h : Inv s) {t : Table} (ht : t ∈ s.hist) :
    ∃ t', s.stored = some t' ∧ t.cols <+: t'.cols ∧ t.ver ≤ t'.ver := by
  obtain ⟨k, hk⟩ := List.getElem?_of_mem ht
  have hl := (List.getElem?_eq_some_iff.1 hk).1
  have hx : s.hist[s.hist.length - 1]? = some (s.hist[s.hist.length - 1]'(by omega)) := List.getElem?_eq_getElem (by omega)
  refine ⟨s.hist[s.hist.length - 1]'(by omega), ?_, ?_, ?_⟩
  · rw [h.stored, List.getLast?_eq_getElem?, hx]
  · exact h.mono k _ _ _ (by omega) hk hx
  · have h1 := (h.hist _ _ hk).1
    have h2 := (h.hist _ _ hx).1
    omega

/-! ## C92: writes only add columns -/

/-- For all write requests at any number of nodes, whatever they interleave with and however late the caches are: the
columns stored at some moment are the first columns of those stored at any later moment, and the version grows. -/
theorem C92_writes_extend (l l' : List Ev) (hd : Ev.drop ∉ l ++ l') (t : Table) (h : (run l).stored = some t) :
    ∃ t', (run (l ++ l')).stored = some t' ∧ t.cols <+: t'.cols ∧ t.ver ≤ t'.ver ∧ (t.ver = t'.ver → t = t') := by
  simp only [List.mem_append, not_or] at hd
  have h1 := inv_run l hd.1
  have h2 := inv_foldl l' hd.2 h1
  rw [run, List.foldl_append, ← run]
  obtain ⟨t', h3, h4, h5⟩ := stored_extends h2.1 (h2.2 t (mem_stored h1 h))
  exact ⟨t', h3, h4, h5, fun hv => same_ver h2.1 (h2.2 t (mem_stored h1 h)) (mem_stored h2.1 h3) hv⟩

/-- The stored table never has two columns of one name or one id. -/
theorem C92_distinct (l : List Ev) (hd : Ev.drop ∉ l) (t : Table) (h : (run l).stored = some t) :
    (t.cols.map Col.name).Nodup ∧ (t.cols.map Col.id).Nodup := by
  have hw := wf_of_mem (inv_run l hd) (mem_stored (inv_run l hd) h)
  exact ⟨hw.names, hw.ids⟩

/-- When a request has got its schema, the stored table has all its columns with suitable types. -/
theorem C92_covered (l : List Ev) (hn : Ev.drop ∉ l) (p : Proc) (hp : p ∈ (run l).procs) (t : Table) (hd : p.pc = .done t) :
    ∃ t', (run l).stored = some t' ∧ Covers t' p.req := by
  have h := inv_run l hn
  have hk := h.procs p hp
  rw [hd] at hk
  obtain ⟨x, h1, h2⟩ := hk
  obtain ⟨t', h3, h4, _⟩ := stored_extends h h1
  exact ⟨t', h3, h2.mono h4⟩

/-! ## C94: a write uses the ids of the stored table -/

/-- The schema a request has got agrees with the stored table. -/
def C94Full : Prop := ∀ (l : List Ev) (p : Proc) (t : Table), Ev.drop ∉ l → p ∈ (run l).procs → p.pc = .done t →
  ∃ t', (run l).stored = some t' ∧ ∀ c ∈ t.cols, c ∈ t'.cols

/-- A command of the request has been refused. -/
def Refused (l : List Ev) (i : Nat) : Prop :=
  ∃ l', l' <+: l ∧ ∃ p ret, (run l').procs[i]? = some p ∧ p.pc = .fetch ret

/-- A request that has not been refused. -/
def Pc.Fresh (hist : List Table) : Pc → Prop
  | .read ret => ret = none
  | .send t _ ret => ret = t
  | .done t => t ∈ hist
  | .failed => True
  | .fetch _ => False

theorem Pc.Fresh.mono {h h' : List Table} (hh : ∀ t ∈ h, t ∈ h') : ∀ {pc : Pc}, pc.Fresh h → pc.Fresh h'
  | .send _ _ _, hk => hk
  | .done t, hk => hh t hk
  | .fetch _, hk => hk
  | .read _, hk => hk
  | .failed, _ => trivial

theorem fresh_step {s : St} (h : Inv s) {p : Proc} (hp : p.pc.Ok s.hist p.req) (hf : p.pc.Fresh s.hist) :
    (p.step s).2.Fresh (p.step s).1.hist ∨ ∃ ret, (p.step s).2 = .fetch ret := by
  obtain ⟨node, req, pc⟩ := p
  cases pc with
  | fetch ret => exact hf.elim
  | read ret =>
    have : ret = none := hf
    subst this
    simp only [Proc.step]
    cases hq : plan req (s.caches node) with
    | none => exact .inl trivial
    | some x =>
      obtain ⟨t, a⟩ := x
      cases a with
      | create => exact .inl rfl
      | update => exact .inl rfl
      | keep =>
        refine .inl ?_
        cases hc : s.caches node with
        | none =>
          rw [hc] at hq
          exact absurd (plan_none hq).2.2.1 (by simp)
        | some b =>
          rw [hc] at hq
          have hb := h.caches node b hc
          obtain ⟨_, _, _, hx⟩ := plan_some (wf_of_mem h hb) hq
          rcases hx with ⟨_, rfl⟩ | ⟨hx, _⟩
          · exact hb
          · cases hx
  | send t a ret =>
    have : ret = t := hf
    subst this
    cases a with
    | keep => exact hp.elim
    | create =>
      simp only [Proc.step, create]
      cases hs : s.stored with
      | some b => exact .inr ⟨_, rfl⟩
      | none => exact .inl (by simp [Pc.Fresh, St.put])
    | update =>
      simp only [Proc.step]
      cases hs : update ret s.stored with
      | none => exact .inr ⟨_, rfl⟩
      | some x =>
        have : x = ret := by
          unfold update at hs
          cases hst : s.stored with
          | none => rw [hst] at hs; exact (Option.some.inj hs).symm
          | some v =>
            rw [hst] at hs
            simp only at hs
            split at hs
            · cases hs
            · exact (Option.some.inj hs).symm
        subst this
        exact .inl (by simp [Pc.Fresh, St.put])
  | done t => exact .inl hf
  | failed => exact .inl trivial

theorem fresh_run (l : List Ev) (hd : Ev.drop ∉ l) : ∀ (i : Nat) (p : Proc), (run l).procs[i]? = some p → ¬ Refused l i → p.pc.Fresh (run l).hist := by
  induction l using List.reverseRecOn with
  | nil => intro i p hp; simp [run, St.init] at hp
  | append_singleton l e ih =>
    intro i p hp hr
    have hprev : ¬ Refused l i := fun ⟨l', h1, h2⟩ => hr ⟨l', h1.trans (List.prefix_append _ _), h2⟩
    have hnow : ∀ ret, p.pc ≠ .fetch ret := fun ret hx => hr ⟨l ++ [e], List.prefix_refl _, p, ret, hp, hx⟩
    simp only [List.mem_append, List.mem_singleton, not_or] at hd
    replace ih := ih hd.1
    have hinv := inv_run l hd.1
    have hgrow := (inv_ev hinv e (Ne.symm hd.2)).2
    have hstep : run (l ++ [e]) = (run l).step e := by simp [run]
    rw [hstep] at hp ⊢
    cases e with
    | request node r =>
      simp only [St.step] at hp ⊢
      by_cases hl : i < (run l).procs.length
      · rw [List.getElem?_append_left hl] at hp
        exact ih i p hp hprev
      · rw [List.getElem?_append_right (by omega)] at hp
        have := List.mem_of_getElem? hp
        simp only [List.mem_singleton] at this
        subst this
        rfl
    | notify node k =>
      have hq : ((run l).step (.notify node k)).procs = (run l).procs := by
        simp only [St.step]; cases (run l).hist[k]? <;> rfl
      rw [hq] at hp
      exact (ih i p hp hprev).mono hgrow
    | drop => exact absurd rfl hd.2
    | step j =>
      cases hj : (run l).procs[j]? with
      | none =>
        have hq : (run l).step (.step j) = run l := by simp [St.step, hj]
        rw [hq] at hp ⊢
        exact ih i p hp hprev
      | some q =>
        have hq : (run l).step (.step j) = { (q.step (run l)).1 with
            procs := (run l).procs.set j { q with pc := (q.step (run l)).2 } } := by simp [St.step, hj]
        by_cases hij : j = i
        · subst hij
          rw [hq] at hp
          have hp' : ({ q with pc := (q.step (run l)).2 } : Proc) = p := by
            simpa [List.getElem?_set, (List.getElem?_eq_some_iff.1 hj).1] using hp
          subst hp'
          rw [hq]
          rcases fresh_step hinv (hinv.procs q (List.mem_of_getElem? hj)) (ih j q hj hprev) with hx | ⟨ret, hx⟩
          · exact hx
          · exact absurd hx (hnow ret)
        · have hp' : (run l).procs[i]? = some p := by
            rw [hq] at hp
            simpa [List.getElem?_set, hij] using hp
          exact (ih i p hp' hprev).mono hgrow

/-- A request none of whose commands was refused gets a schema that agrees with the stored table.  Missing from the full
statement: requests with a refused command. -/
theorem C94_accepted_partial (l : List Ev) (hn : Ev.drop ∉ l) (i : Nat) (p : Proc) (t : Table) (hp : (run l).procs[i]? = some p)
    (hd : p.pc = .done t) (hr : ¬ Refused l i) : ∃ t', (run l).stored = some t' ∧ t.cols <+: t'.cols := by
  have hf := fresh_run l hn i p hp hr
  rw [hd] at hf
  obtain ⟨t', h1, h2, _⟩ := stored_extends (inv_run l hn) hf
  exact ⟨t', h1, h2⟩

/-- One node, one client: a table, a request with a new field, and a third request with another new field before the
node has been notified of the second.  -/
def lateCache : List Ev :=
  [.request 0 ⟨["host"], [("a", .integer)]⟩, .step 0, .step 0, .notify 0 0,
   .request 0 ⟨["host"], [("b", .integer)]⟩, .step 1, .step 1,
   .request 0 ⟨["host"], [("c", .integer)]⟩, .step 2, .step 2, .step 2, .step 2, .step 2]

/-- Two nodes extend one table at the same time. -/
def twoNodes : List Ev :=
  [.request 0 ⟨["host"], [("a", .integer)]⟩, .step 0, .step 0, .notify 0 0, .notify 1 0,
   .request 0 ⟨["host"], [("b", .integer)]⟩, .request 1 ⟨["host"], [("c", .integer)]⟩, .step 1, .step 2, .step 1, .step 2,
   .step 2, .step 2, .step 2]

/-- The columns a request has got. -/
def got (s : St) (i : Nat) : Option (Req × List Col) :=
  (s.procs[i]?).bind fun p => match p.pc with | .done t => some (p.req, t.cols) | _ => none

theorem got_some {s : St} {i : Nat} {r : Req} {cols : List Col} (h : got s i = some (r, cols)) :
    ∃ p t, p ∈ s.procs ∧ p.pc = .done t ∧ p.req = r ∧ t.cols = cols := by
  unfold got at h
  cases hp : s.procs[i]? with
  | none => simp [hp] at h
  | some p =>
    rw [hp] at h
    simp only [Option.bind_some] at h
    cases hc : p.pc with
    | done t =>
      rw [hc] at h
      simp only [Option.some.injEq, Prod.mk.injEq] at h
      exact ⟨p, t, List.mem_of_getElem? hp, hc, h.1, h.2⟩
    | fetch _ => rw [hc] at h; cases h
    | read _ => rw [hc] at h; cases h
    | send _ _ _ => rw [hc] at h; cases h
    | failed => rw [hc] at h; cases h

theorem lateCache_stored : (run lateCache).stored.map Table.cols = some [⟨0, "time", .time⟩, ⟨1, "host", .tag⟩,
    ⟨2, "a", .field .integer⟩, ⟨3, "b", .field .integer⟩, ⟨4, "c", .field .integer⟩] := by decide +kernel

theorem lateCache_got : got (run lateCache) 2 = some (⟨["host"], [("c", .integer)]⟩, [⟨0, "time", .time⟩, ⟨1, "host", .tag⟩,
    ⟨2, "a", .field .integer⟩, ⟨3, "c", .field .integer⟩]) := by decide +kernel

theorem twoNodes_stored : (run twoNodes).stored.map Table.cols = some [⟨0, "time", .time⟩, ⟨1, "host", .tag⟩,
    ⟨2, "a", .field .integer⟩, ⟨3, "b", .field .integer⟩, ⟨4, "c", .field .integer⟩] := by decide +kernel

theorem twoNodes_got : got (run twoNodes) 2 = some (⟨["host"], [("c", .integer)]⟩, [⟨0, "time", .time⟩, ⟨1, "host", .tag⟩,
    ⟨2, "a", .field .integer⟩, ⟨3, "c", .field .integer⟩]) := by decide +kernel

/-- The witness in full: one node, requests one after another; the last one writes field `c` and gets a schema in which
`c` has the id that `b` has in the stored table. -/
theorem C94_late_cache_refuted : ∃ (l : List Ev) (p : Proc) (t t' : Table), Ev.drop ∉ l ∧ p ∈ (run l).procs ∧ p.node = 0 ∧
    p.pc = .done t ∧ p.req = ⟨["host"], [("c", .integer)]⟩ ∧ (run l).stored = some t' ∧
    (⟨3, "c", .field .integer⟩ : Col) ∈ t.cols ∧ (⟨3, "b", .field .integer⟩ : Col) ∈ t'.cols := by
  have hn : ∀ p ∈ (run lateCache).procs, p.node = 0 := by
    have : (run lateCache).procs.all (fun p => p.node == 0) = true := by decide +kernel
    intro p hp
    simpa using List.all_eq_true.1 this p hp
  obtain ⟨p, t, h1, h2, h3, h4⟩ := got_some lateCache_got
  obtain ⟨t', h5, h6⟩ := Option.map_eq_some_iff.1 lateCache_stored
  exact ⟨lateCache, p, t, t', by decide, h1, hn p h1, h2, h3, h5, by rw [h4]; decide, by rw [h6]; decide⟩

theorem C94_refuted : ¬ C94Full := by
  intro h
  obtain ⟨p, t, h1, h2, h3, h4⟩ := got_some lateCache_got
  obtain ⟨t', h5, h6⟩ := Option.map_eq_some_iff.1 lateCache_stored
  obtain ⟨t'', h7, h8⟩ := h lateCache p t (by decide) h1 h2
  rw [h5] at h7
  cases h7
  have := h8 ⟨3, "c", .field .integer⟩ (by rw [h4]; decide)
  rw [h6] at this
  revert this
  decide

/-- The same with two nodes whose caches are up to date when the requests arrive. -/
theorem C94_two_nodes_refuted : ∃ (l : List Ev) (p : Proc) (t t' : Table), Ev.drop ∉ l ∧ p ∈ (run l).procs ∧
    p.pc = .done t ∧ p.req = ⟨["host"], [("c", .integer)]⟩ ∧ (run l).stored = some t' ∧
    (⟨3, "c", .field .integer⟩ : Col) ∈ t.cols ∧ (⟨3, "b", .field .integer⟩ : Col) ∈ t'.cols := by
  obtain ⟨p, t, h1, h2, h3, h4⟩ := got_some twoNodes_got
  obtain ⟨t', h5, h6⟩ := Option.map_eq_some_iff.1 twoNodes_stored
  exact ⟨twoNodes, p, t, t', by decide, h1, h2, h3, h5, by rw [h4]; decide, by rw [h6]; decide⟩

/-- `Refused`, computed. -/
def refusedB (l : List Ev) (i : Nat) : Bool :=
  (List.range (l.length + 1)).any fun k => match (run (l.take k)).procs[i]? with
    | some p => (match p.pc with | .fetch _ => true | _ => false)
    | none => false

theorem refusedB_of {l : List Ev} {i : Nat} (h : Refused l i) : refusedB l i = true := by
  obtain ⟨l', h1, p, ret, h2, h3⟩ := h
  obtain ⟨k, hk, rfl⟩ : ∃ k, k ≤ l.length ∧ l' = l.take k := by
    refine ⟨l'.length, h1.length_le, ?_⟩
    exact List.prefix_iff_eq_take.1 h1
  unfold refusedB
  rw [List.any_eq_true]
  exact ⟨k, by simp; omega, by rw [h2]; simp [h3]⟩

/-- The second request of `lateCache` adds a field and is not refused, the third one is. -/
example : ¬ Refused lateCache 1 ∧ (∃ cols, got (run lateCache) 1 = some (⟨["host"], [("b", .integer)]⟩, cols) ∧ cols.length = 4) ∧
    refusedB lateCache 2 = true := by
  refine ⟨fun h => ?_, ⟨[⟨0, "time", .time⟩, ⟨1, "host", .tag⟩, ⟨2, "a", .field .integer⟩, ⟨3, "b", .field .integer⟩],
    by decide +kernel, rfl⟩, by decide +kernel⟩
  have := refusedB_of h
  rw [show refusedB lateCache 1 = false by decide +kernel] at this
  cases this

/-- The store of `lateCache` before and after the third request. -/
example : (run (lateCache.take 7)).stored.map Table.ver = some 1 ∧ (run lateCache).stored.map Table.ver = some 2 := by
  decide +kernel

/-- Two nodes, two requests that each add a field, one of them refused and planned again (C92): the stored table has both
fields, the version is 2 and both requests have got a schema. -/
example : Ev.drop ∉ twoNodes ∧ (run twoNodes).stored.map (fun t => (t.ver, t.cols.map Col.name)) =
    some (2, ["time", "host", "a", "b", "c"]) ∧ (got (run twoNodes) 1).isSome ∧ (got (run twoNodes) 2).isSome := by
  decide +kernel

/-! ## C96: a change is based on the stored table -/

/-- When the store accepts the schema of a request, no column of the table is lost. -/
def C96Full : Prop := ∀ (l : List Ev) (i : Nat) (t t' : Table), (run l).stored = some t →
  (run (l ++ [.step i])).stored = some t' → ∀ c ∈ t.cols, c ∈ t'.cols

/-- A table that was dropped stays away until a request computed after that creates it. -/
def C96DroppedFull : Prop := ∀ (l : List Ev) (i : Nat), (run l).stored = none →
  (∀ p ∈ (run l).procs, ∀ t ret, p.pc ≠ .send t .create ret) → (run (l ++ [.step i])).stored = none

/-- Without DROP TABLE it holds.  Missing from the full statement: tables that are dropped and created again. -/
theorem C96_no_drop_partial (l : List Ev) (hd : Ev.drop ∉ l) (i : Nat) (t t' : Table) (h : (run l).stored = some t)
    (h' : (run (l ++ [.step i])).stored = some t') : ∀ c ∈ t.cols, c ∈ t'.cols := by
  obtain ⟨x, h1, h2, _⟩ := C92_writes_extend l [.step i] (by simp [hd]) t h
  rw [h1] at h'
  cases h'
  exact fun c hc => h2.subset hc

/-- A table is dropped and created with other columns; a node that has not heard of it adds a column to the old table. -/
def recreated : List Ev :=
  [.request 0 ⟨["host"], [("a", .integer)]⟩, .step 0, .step 0, .notify 1 0, .drop,
   .request 0 ⟨["host"], [("x", .float), ("y", .float)]⟩, .step 1, .step 1, .request 1 ⟨["host"], [("b", .integer)]⟩, .step 2]

theorem C96_recreated_refuted : ¬ C96Full := by
  intro h
  have h1 : (run recreated).stored.map Table.cols = some [⟨0, "time", .time⟩, ⟨1, "host", .tag⟩,
      ⟨2, "x", .field .float⟩, ⟨3, "y", .field .float⟩] := by decide +kernel
  have h2 : (run (recreated ++ [.step 2])).stored.map Table.cols = some [⟨0, "time", .time⟩, ⟨1, "host", .tag⟩,
      ⟨2, "a", .field .integer⟩, ⟨3, "b", .field .integer⟩] := by decide +kernel
  obtain ⟨t, ht, h3⟩ := Option.map_eq_some_iff.1 h1
  obtain ⟨t', ht', h4⟩ := Option.map_eq_some_iff.1 h2
  have := h recreated 2 t t' ht ht' ⟨2, "x", .field .float⟩ (by rw [h3]; decide)
  rw [h4] at this
  revert this
  decide

/-- A table comes back when a write that was under way adds a column to it. -/
theorem C96_dropped_comes_back_refuted : ¬ C96DroppedFull := by
  intro h
  have := h [.request 0 ⟨["host"], [("a", .integer)]⟩, .step 0, .step 0, .notify 0 0,
    .request 0 ⟨["host"], [("b", .integer)]⟩, .step 1, .drop] 1 (by decide +kernel) (by
      intro p hp t ret hs
      have hb : (run [.request 0 ⟨["host"], [("a", .integer)]⟩, .step 0, .step 0, .notify 0 0,
        .request 0 ⟨["host"], [("b", .integer)]⟩, .step 1, .drop]).procs.all (fun p => match p.pc with
          | .send _ .create _ => false | _ => true) = true := by decide +kernel
      have := List.all_eq_true.1 hb p hp
      rw [hs] at this
      cases this)
  have hx : (run ([.request 0 ⟨["host"], [("a", .integer)]⟩, .step 0, .step 0, .notify 0 0,
    .request 0 ⟨["host"], [("b", .integer)]⟩, .step 1, .drop] ++ [.step 1])).stored.isSome = true := by decide +kernel
  rw [this] at hx
  cases hx

end Verif.Schema
