import Verif.Replica.Apply
/-!
# Flushes and restarts keep the invariant
-/
namespace Verif.Replica

/-- The files that a flush has written are those of the first caches. -/
def PendOk : List Pend → List Cache → Prop
  | [], cs => cs ≠ []
  | p :: ps, c :: cs =>
    (p.cache = c.id ∧ p.seq = c.seq ∧ p.file.id = c.id ∧ p.file.rows = c.rows ∧ p.file.tombs = []) ∧ PendOk ps cs
  | _ :: _, [] => False

theorem PendOk.lt : ∀ {ps : List Pend} {cs : List Cache}, PendOk ps cs → ps.length < cs.length
  | [], c :: cs, _ => by simp
  | [], [], h => (h rfl).elim
  | _ :: ps, _ :: cs, h => by have := PendOk.lt h.2; simp; omega
  | _ :: _, [], h => h.elim

theorem PendOk.onLast (f : Cache → Cache) : ∀ {ps : List Pend} {cs : List Cache}, PendOk ps cs → PendOk ps (onLast f cs)
  | [], [c], _ => by simp [PendOk, Replica.onLast]
  | [], c :: d :: cs, _ => by simp [PendOk, Replica.onLast]
  | [], [], h => h
  | p :: ps, [c], h => by
    have := PendOk.lt h.2
    simp at this
  | p :: ps, c :: d :: cs, h => ⟨h.1, PendOk.onLast f h.2⟩
  | _ :: _, [], h => h.elim

theorem PendOk.congr : ∀ {ps : List Pend} {cs cs' : List Cache},
    cs'.map (fun c => (c.id, c.seq, c.rows)) = cs.map (fun c => (c.id, c.seq, c.rows)) → PendOk ps cs → PendOk ps cs'
  | [], cs, cs', e, h => by
    intro e'; rw [e'] at e
    simp only [List.map_nil] at e
    exact h (List.map_eq_nil_iff.1 e.symm)
  | p :: ps, c :: cs, [], e, _ => by cases e
  | p :: ps, c :: cs, c' :: cs', e, h => by
    simp only [List.map_cons, List.cons.injEq, Prod.mk.injEq] at e
    obtain ⟨⟨e1, e2, e3⟩, e4⟩ := e
    refine ⟨?_, PendOk.congr e4 h.2⟩
    rw [e1, e2, e3]; exact h.1
  | _ :: _, [], _, _, h => h.elim

theorem PendOk.append : ∀ {ps : List Pend} {cs : List Cache} (l : List Cache), PendOk ps cs → PendOk ps (cs ++ l)
  | [], cs, l, h => by
    intro e
    exact h (List.append_eq_nil_iff.1 e).1
  | p :: ps, c :: cs, l, h => ⟨h.1, PendOk.append l h.2⟩
  | _ :: _, [], _, h => h.elim

theorem PendOk.take : ∀ {cs : List Cache}, cs ≠ [] → PendOk (cs.dropLast.map fun c => ⟨c.id, c.seq, c.file⟩) cs
  | [], h => (h rfl).elim
  | [c], _ => by simp [PendOk]
  | c :: d :: cs, _ => by
    simp only [List.dropLast_cons₂, List.map_cons]
    exact ⟨⟨rfl, rfl, rfl, rfl, rfl⟩, PendOk.take (by simp)⟩

/-- At a cut, the index on disk: as long as no tags were changed since. -/
def DCut (d x : Index) (log : List Cmd) (n : Nat) (evs : List Ev) : Prop :=
  NoRename (log.drop n) → d.Ok ∧ Agree d (specOf (log.take n)) evs ∧
    (∀ c, Ev.put c ∈ evs → ∃ k, d.key.get c.sid = some k ∧ x.key.get c.sid = some k) ∧
    HasAll d (specOf (log.take n)) ∧ HasOnly d (specOf log)

/-- The cells that are missing: none. -/
def noF : Nat → Int → Prop := fun _ _ => False

structure Inv (v : Vnode) (log : List Cmd) (h : H) : Prop where
  core : Core noF v log h
  hasAll : HasAll v.live (specOf log)
  hasOnly : HasOnly v.live (specOf log)
  pend : PendOk v.pend v.caches
  disk : AllCuts (DCut v.disk v.live log) [] ((h.q0, h.s0) :: h.segs.take v.pend.length)

/-! ## Which series exist -/

theorem foldl_put_has (rows : List (Nat × Int × Nat)) (σ : Spec) (k : Nat) :
    (rows.foldl Spec.put σ).has k = (σ.has k || decide (k ∈ rows.map Prod.fst)) := by
  induction rows generalizing σ with
  | nil => simp
  | cons r rows ih =>
    rw [List.foldl_cons, ih]
    simp only [Spec.put, List.map_cons, List.mem_cons]
    by_cases h : k = r.1
    · simp [h]
    · simp only [h, decide_false, Bool.false_or, false_or]

theorem step_has_mono {σ : Spec} {c : Cmd} (hc : c.isRename = false) {k : Nat} (h : σ.has k = true) : (σ.step c).has k = true := by
  cases c with
  | rename f ms => cases hc
  | blank => exact h
  | delete p lo hi => exact h
  | write rows => simp only [Spec.step, foldl_put_has, h, Bool.true_or]

theorem specOf_has_mono {log : List Cmd} {l : List Cmd} (hl : NoRename l) {k : Nat} (h : (specOf log).has k = true) :
    (specOf (log ++ l)).has k = true := by
  induction l generalizing log with
  | nil => simpa using h
  | cons c l ih =>
    have h1 : (specOf (log ++ [c])).has k = true := by
      rw [specOf_snoc]; exact step_has_mono (hl c List.mem_cons_self) h
    have h2 := ih (log := log ++ [c]) (fun c' hc' => hl c' (List.mem_cons_of_mem _ hc')) h1
    simpa [List.append_assoc] using h2

theorem has_take {log : List Cmd} {n : Nat} (hl : NoRename (log.drop n)) {k : Nat} (h : (specOf (log.take n)).has k = true) :
    (specOf log).has k = true := by
  have := specOf_has_mono hl h
  rwa [List.take_append_drop] at this

/-- The keys that a command adds. -/
def Cmd.keys : Cmd → List Nat
  | .write rows => rows.map Prod.fst
  | _ => []

theorem apply_has {v : Vnode} {wal : Bool} (hw : wal = false ∨ ∀ k, v.old.get k = none) (q : Nat) {c : Cmd} (hc : c.isRename = false) (k : Nat) :
    ((v.apply wal q c).live.fwd.get k).isSome = ((v.live.fwd.get k).isSome || decide (k ∈ c.keys)) := by
  cases c with
  | rename f ms => cases hc
  | blank => simp [Vnode.apply, Cmd.keys]
  | delete p lo hi => simp [Vnode.apply, Cmd.keys, Vnode.delete]
  | write rows => rw [apply_write hw]; exact Index.addAll_has rows v.live k

theorem step_has {σ : Spec} {c : Cmd} (hc : c.isRename = false) (k : Nat) : (σ.step c).has k = (σ.has k || decide (k ∈ c.keys)) := by
  cases c with
  | rename f ms => cases hc
  | blank => simp [Spec.step, Cmd.keys]
  | delete p lo hi => simp [Spec.step, Cmd.keys]
  | write rows => exact foldl_put_has rows σ k

/-! ## Commands -/

theorem apply_other {v : Vnode} {wal : Bool} (hw : wal = false ∨ ∀ k, v.old.get k = none) (q : Nat) {c : Cmd} (hc : c.isRename = false) :
    (v.apply wal q c).disk = v.disk ∧ (v.apply wal q c).old = v.old ∧ (v.apply wal q c).pend = v.pend ∧ (v.apply wal q c).flushed = v.flushed := by
  cases c with
  | rename f ms => cases hc
  | blank => exact ⟨rfl, rfl, rfl, rfl⟩
  | delete p lo hi => exact ⟨rfl, rfl, rfl, rfl⟩
  | write rows => rw [apply_write hw]; exact ⟨rfl, rfl, rfl, rfl⟩

theorem DCut.snoc {d x x' : Index} {log : List Cmd} {c : Cmd} {n : Nat} {evs : List Ev} (hn : n ≤ log.length)
    (he : c.isRename = false → x.Ext x') (h : DCut d x log n evs) : DCut d x' (log ++ [c]) n evs := by
  intro hr
  rw [drop_snoc hn, NoRename.append] at hr
  have hc := hr.2 c List.mem_cons_self
  obtain ⟨h1, h2, h3, h4, h5⟩ := h hr.1
  rw [take_snoc hn]
  refine ⟨h1, h2, fun e he' => ?_, h4, fun k hk => ?_⟩
  · obtain ⟨k, hk, hk'⟩ := h3 e he'
    exact ⟨k, hk, he hc _ _ hk'⟩
  · rw [specOf_snoc]; exact step_has_mono hc (h5 k hk)

theorem Inv.apply {v : Vnode} {log : List Cmd} {h : H} (i : Inv v log h) (cmd : Cmd)
    (hd : ∀ p lo hi, cmd = .delete p lo hi → v.pend = []) :
    ∃ h', Inv (v.apply false (log.length + 1) cmd) (log ++ [cmd]) h' := by
  have hsl : h.segs.length = v.caches.length := by
    have := congrArg List.length i.core.seqs; simpa using this
  have hlt := i.pend.lt
  cases hc : cmd.isRename with
  | false =>
    have hw : (false : Bool) = false ∨ ∀ k, v.old.get k = none := .inl rfl
    obtain ⟨h', c', e1, e2, e3, e4⟩ := i.core.apply (F' := noF) hw cmd hc fun _ _ hf => hf.elim
    obtain ⟨o1, o2, o3, o4⟩ := apply_other hw (log.length + 1) hc
    refine ⟨h', c', fun k hk => ?_, fun k hk => ?_, ?_, ?_⟩
    · rw [specOf_snoc, step_has hc] at hk
      rw [apply_has hw _ hc]
      cases hh : (specOf log).has k with
      | true => rw [i.hasAll k hh]; rfl
      | false => rw [hh] at hk; simp only [Bool.false_or] at hk; rw [hk]; simp
    · rw [specOf_snoc, step_has hc]
      rw [apply_has hw _ hc] at hk
      cases hh : (v.live.fwd.get k).isSome with
      | true => rw [i.hasOnly k hh]; rfl
      | false => rw [hh] at hk; simp only [Bool.false_or] at hk; rw [hk]; simp
    · rw [o3]
      cases cmd with
      | rename f ms => cases hc
      | blank => exact i.pend
      | delete p lo hi =>
        rw [hd p lo hi rfl]
        intro e
        exact i.core.ne (List.map_eq_nil_iff.1 e)
      | write rows => rw [apply_write hw]; exact i.pend.onLast _
    · rw [o1, o3, e1, e2, e3 _ (by omega)]
      refine AllCuts.imp (fun z hz evs hz' => hz'.snoc (i.core.bound z ?_) fun _ => e4) i.disk
      rcases List.mem_cons.1 hz with hz | hz
      · exact List.mem_cons.2 (.inl hz)
      · exact List.mem_cons_of_mem _ (List.mem_of_mem_take hz)
  | true =>
    cases cmd with
    | blank => cases hc
    | write rows => cases hc
    | delete p lo hi => cases hc
    | rename f ms =>
      obtain ⟨c', a1, a2⟩ := i.core.rename i.hasAll i.hasOnly f ms (log.length + 1)
      have hpc : PendOk (v.apply false (log.length + 1) (.rename f ms)).pend (v.apply false (log.length + 1) (.rename f ms)).caches ∧
          (v.apply false (log.length + 1) (.rename f ms)).pend = v.pend := by
        simp only [Vnode.apply]
        split
        · obtain ⟨r1, r2, r3, r4⟩ := renameFold f (v.live.matched ms) v
          generalize (v.live.matched ms).foldl (fun v m => v.renameOne m.2 (f m.1) m.1) v = w at r1 r2 r3 r4 ⊢
          have hp : w.pend = v.pend := by rw [r2]
          exact ⟨by rw [hp]; exact i.pend.congr r4, hp⟩
        · exact ⟨i.pend, rfl⟩
      refine ⟨h, c', a1, a2, hpc.1, ?_⟩
      rw [hpc.2]
      refine AllCuts.imp (fun z hz evs _ => ?_) i.disk
      intro hr
      have hb := i.core.bound z (by
        rcases List.mem_cons.1 hz with hz | hz
        · exact List.mem_cons.2 (.inl hz)
        · exact List.mem_cons_of_mem _ (List.mem_of_mem_take hz))
      rw [drop_snoc hb, NoRename.append] at hr
      have := hr.2 _ List.mem_cons_self
      cases this

/-! ## Flushes -/

theorem DCut.of_cut {x : Index} {log : List Cmd} {n : Nat} {evs : List Ev} (hx : x.Ok) (h1 : HasAll x (specOf log)) (h2 : HasOnly x (specOf log))
    (h : Cut x log n evs) : DCut x x log n evs := by
  intro hr
  refine ⟨hx, h.2 hr, fun c hc => ?_, fun k hk => h1 k (has_take hr hk), h2⟩
  obtain ⟨k, hk⟩ := Option.isSome_iff_exists.1 (h.1 c hc)
  exact ⟨k, hk, hk⟩

/-- With the index just written, all cuts are safe. -/
theorem Inv.allDisk {v : Vnode} {log : List Cmd} {h : H} (i : Inv v log h) : AllCuts (DCut v.live v.live log) [] ((h.q0, h.s0) :: h.segs) := by
  have := i.core.cuts
  simp only [H.parts] at this
  rw [AllCuts.append] at this
  exact AllCuts.imp (fun z _ evs hz => DCut.of_cut i.core.ix i.hasAll i.hasOnly hz) this.1

theorem AllCuts.take {P : Nat → List Ev → Prop} {acc : List Ev} {zs : List (Nat × List Ev)} (n : Nat) (h : AllCuts P acc zs) :
    AllCuts P acc (zs.take n) := by
  rw [← List.take_append_drop n zs, AllCuts.append] at h
  exact h.1

theorem Core.of_eq {F : Nat → Int → Prop} {v w : Vnode} {log : List Cmd} {h : H} (c : Core F v log h) (h1 : w.live = v.live) (h2 : w.files = v.files)
    (h3 : w.caches = v.caches) (h4 : w.nextFile = v.nextFile) (h5 : w.maxFile = v.maxFile) (h6 : w.flushed = v.flushed) : Core F w log h := by
  obtain ⟨a, b, c, d, e, f, g⟩ := v
  obtain ⟨a', b', c', d', e', f', g'⟩ := w
  simp only at h1 h2 h3 h4 h5 h6
  subst h1 h2 h3 h4 h5 h6
  exact ⟨c.1, c.2, c.3, c.4, c.5, c.6, c.7, c.8, c.9, c.10, c.11, c.12, c.13⟩

theorem Inv.sync {v : Vnode} {log : List Cmd} {h : H} (i : Inv v log h) : Inv v.sync log h := by
  refine ⟨i.core.of_eq rfl rfl rfl rfl rfl rfl, i.hasAll, i.hasOnly, i.pend, ?_⟩
  have := AllCuts.take (v.pend.length + 1) i.allDisk
  exact this

theorem Inv.begin {v : Vnode} {log : List Cmd} {h : H} (i : Inv v log h) : Inv v.begin log h := by
  have hs := i.sync
  show Inv v.sync.take log h
  unfold Vnode.take
  split
  · refine ⟨hs.core.of_eq rfl rfl rfl rfl rfl rfl, hs.hasAll, hs.hasOnly, PendOk.take hs.core.ne, ?_⟩
    exact AllCuts.take (_ + 1) i.allDisk
  · exact hs

theorem Inv.switch {v : Vnode} {log : List Cmd} {h : H} (i : Inv v log h) : ∃ h', Inv v.switch log h' := by
  obtain ⟨cs, c, hcs⟩ := exists_snoc i.core.ne
  unfold Vnode.switch
  rw [hcs]
  simp only [List.getLast?_append, List.getLast?_singleton, Option.some_or]
  split
  · have hsl : h.segs.length = v.caches.length := by
      have := congrArg List.length i.core.seqs; simpa using this
    have hsn : h.segs ≠ [] := by
      intro e; rw [e, hcs] at hsl; simp at hsl
    obtain ⟨ss, ⟨ql, el⟩, hss⟩ := exists_snoc hsn
    have hseqs := i.core.seqs
    rw [hss, hcs] at hseqs
    simp only [List.map_append, List.map_cons, List.map_nil] at hseqs
    have hql : ql = c.seq := by
      have := List.append_inj_right hseqs (by
        have := congrArg List.length hseqs
        simp at this
        simp [this])
      simpa using this
    have co := i.core
    have hm := co.mono
    have hp := co.pos
    have hcu := co.cuts
    simp only [H.parts, hss] at hm hp hcu
    refine ⟨{ h with segs := h.segs ++ [(c.seq, [])] }, ⟨co.q0, ?_, by simp, ?_, ?_, ?_, co.fileMax, ?_, ?_, co.ix, ?_, ?_, ?_⟩, i.hasAll, i.hasOnly, ?_, ?_⟩
    · rw [← hcs]; simp [co.seqs, Cache.new]
    · simp only [H.parts, hss, hql, List.map_append, List.map_cons, List.map_nil, List.cons_append, List.pairwise_cons, List.pairwise_append,
        List.mem_append, List.mem_cons, List.not_mem_nil] at hm ⊢
      refine ⟨fun a ha => ?_, ⟨⟨⟨hm.2.1.1, by simp, hm.2.1.2.2⟩, by simp, fun a ha b hb => ?_⟩, by simp, fun a ha b hb => ?_⟩⟩
      · rcases ha with ((ha | ha) | ha) | ha
        · exact hm.1 a (.inl (.inl ha))
        · exact hm.1 a (.inl (.inr ha))
        · exact hm.1 a (.inl (.inr ha))
        · exact hm.1 a (.inr ha)
      · simp only [or_false] at hb
        subst hb
        rcases ha with ha | ha
        · exact hm.2.1.2.2 a ha _ (.inl rfl)
        · simp at ha; omega
      · rcases ha with ha | ha
        · exact hm.2.2.2 a ha b hb
        · exact hm.2.2.2 a (.inr ha) b hb
    · have := co.ids
      have h2 := co.idMax
      simp only [Vnode.ids, hcs] at this h2
      simp only [Vnode.ids, List.map_append, List.map_cons, List.map_nil, ← List.append_assoc] at this ⊢
      rw [List.pairwise_append]
      refine ⟨this, by simp, fun a ha b hb => ?_⟩
      simp only [List.mem_singleton, Cache.new] at hb
      subst hb
      exact h2 a (by simpa [List.append_assoc] using ha)
    · intro a ha
      have h2 := co.idMax
      simp only [Vnode.ids, hcs] at h2
      simp only [Vnode.ids, List.map_append, List.map_cons, List.map_nil, ← List.append_assoc] at ha
      rcases List.mem_append.1 ha with ha | ha
      · have := h2 a (by simpa [List.append_assoc] using ha)
        simp only; omega
      · simp only [List.mem_singleton, Cache.new] at ha
        simp only; omega
    · intro sid ts
      have h1 := co.head sid ts
      have h2 : H.later { h with segs := h.segs ++ [(c.seq, [])] } = h.later := by simp [H.later]
      rw [h2]; exact h1
    · intro sid ts
      have h1 := co.rest sid ts
      simp only [Vnode.cacheVals, hcs, List.map_append, List.map_cons, List.map_nil, List.append_assoc] at h1 ⊢
      have hl := h1.length
      simp only [List.length_append, List.length_cons, List.length_nil, List.length_map] at hl
      rw [show cs.map (fun c => look c.rows sid ts) ++ ([look c.rows sid ts] ++ ([look (Cache.new v.nextFile c.seq).rows sid ts] ++ [none])) =
        (cs.map (fun c => look c.rows sid ts) ++ [look c.rows sid ts]) ++ [none, none] by simp [Cache.new, look]]
      refine Good.onEnd (x := [none]) (y := [h.tail]) ?_ ?_ rfl ?_
      · simp only [List.any_append, List.any_cons, List.any_nil]
        rw [show hasDel sid ts [] = false from rfl]; simp
      · intro hg
        refine ⟨?_, hg⟩
        simp [lastEv]
      · simpa using h1
    · simp only [H.parts, hss] at hcu ⊢
      simp only [List.cons_append, AllCuts, List.append_assoc, AllCuts.append, List.nil_append, List.append_nil, List.flatMap_cons, List.flatMap_nil] at hcu ⊢
      refine ⟨hcu.1, hcu.2.1, hcu.2.2.1, ?_, hcu.2.2.2.1, trivial⟩
      rw [← hql]; exact hcu.2.2.1
    · have h2 : H.later { h with segs := h.segs ++ [(c.seq, [])] } = h.later := by simp [H.later]
      rw [h2]; exact co.dels
    · simp only [H.parts, hss, hql] at hp ⊢
      simp only [List.cons_append, List.append_assoc, List.pairwise_cons, List.pairwise_append, List.mem_append, List.mem_cons,
        List.not_mem_nil, List.nil_append] at hp ⊢
      have none : ∀ a : Nat × List Ev, After a (c.seq, []) := fun a q p d hd => by cases hd
      refine ⟨fun b hb => ?_, hp.2.1, ⟨fun b hb => ?_, ⟨fun b hb => ?_, by simp⟩⟩, fun a ha b hb => ?_⟩
      · rcases hb with hb | hb | hb | hb
        · exact hp.1 b (.inl hb)
        · exact hp.1 b (.inr (.inl hb))
        · subst hb; exact none _
        · exact hp.1 b (.inr (.inr hb))
      · rcases hb with hb | hb
        · subst hb; exact none _
        · exact hp.2.2.1.1 b hb
      · exact hp.2.2.1.1 b hb
      · rcases hb with hb | hb | hb
        · exact hp.2.2.2 a ha b (.inl hb)
        · subst hb; exact none _
        · exact hp.2.2.2 a ha b (.inr hb)
    · simp only
      rw [← hcs]; exact i.pend.append _
    · have hlt := i.pend.lt
      simp only
      rw [List.take_append_of_le_length (by omega)]
      exact i.disk
  · exact ⟨h, by
      have := i
      rw [← hcs] at *
      exact i⟩

end Verif.Replica
