import Verif.Replica.Inv
/-!
# Installing files and restarting keep the invariant
-/
namespace Verif.Replica

theorem filter_ne_head {c : Cache} {cs : List Cache} (h : (c.id :: cs.map Cache.id).Pairwise (· < ·)) :
    (c :: cs).filter (fun x => decide (x.id ≠ c.id)) = cs := by
  rw [List.pairwise_cons] at h
  rw [List.filter_cons]
  simp only [ne_eq, not_true_eq_false, decide_false, Bool.false_eq_true, if_false]
  rw [List.filter_eq_self]
  intro x hx
  have := h.1 x.id (List.mem_map.2 ⟨x, hx, rfl⟩)
  simp; omega

theorem Inv.install {v : Vnode} {log : List Cmd} {h : H} (i : Inv v log h) : ∃ h', Inv v.install log h' := by
  unfold Vnode.install
  cases hp : v.pend with
  | nil => exact ⟨h, i⟩
  | cons p ps =>
    have hpo := i.pend
    rw [hp] at hpo
    obtain ⟨live, disk, old, files, caches, pend, nextFile, maxFile, flushed⟩ := v
    simp only at hp hpo
    subst hp
    cases caches with
    | nil => exact hpo.elim
    | cons c cs =>
      obtain ⟨⟨e1, e2, e3, e4, e5⟩, hpo⟩ := hpo
      obtain ⟨q0, s0, segs, tail⟩ := h
      have co := i.core
      have hq := co.q0
      have hseqs := co.seqs
      cases segs with
      | nil => simp at hseqs
      | cons s1 segs =>
        obtain ⟨q1, s1⟩ := s1
        simp only [List.map_cons, List.cons.injEq] at hseqs hq
        subst hq
        obtain ⟨hq1, hseqs⟩ := hseqs
        subst hq1
        have hm := co.mono
        have hpos := co.pos
        have hcu := co.cuts
        have hids := co.ids
        have hmax := co.idMax
        have hfm := co.fileMax
        have hdisk := i.disk
        simp only [H.parts, List.cons_append, List.map_cons, List.pairwise_cons, List.mem_cons] at hm hpos
        simp only [H.parts, List.cons_append, AllCuts, List.nil_append] at hcu
        simp only [List.length_cons, List.take_succ_cons, AllCuts, List.nil_append] at hdisk
        simp only [Vnode.ids, List.map_cons] at hids hmax
        have hidc : (c.id :: cs.map Cache.id).Pairwise (· < ·) := (List.pairwise_append.1 hids).2.1
        have hle : q0 ≤ c.seq := hm.1 c.seq (.inl rfl)
        have hcne : cs ≠ [] := by
          intro e
          have := hpo.lt
          rw [e] at this; simp at this
        have hlater : H.later ⟨q0, s0, (c.seq, s1) :: segs, tail⟩ = s1 ++ H.later ⟨c.seq, s0 ++ s1, segs, tail⟩ := by
          simp [H.later]
        have hrest := co.rest
        have hhead := co.head
        rw [hlater] at hhead
        have hdels := co.dels
        rw [hlater] at hdels
        have hmem : ∀ f, f ∈ (if p.file.rows.isEmpty = true then files else files ++ [p.file]) → f ∈ files ∨ f = p.file := by
          intro f hf
          split at hf
          · exact .inl hf
          · simpa using hf
        refine ⟨⟨c.seq, s0 ++ s1, segs, tail⟩, ⟨?_, ?_, ?_, ?_, ?_, ?_, ?_, ?_, ?_, co.ix, ?_, ?_, ?_⟩, i.hasAll, i.hasOnly, ?_, ?_⟩ <;> try simp only [e1, filter_ne_head hidc]
        · rw [e2]; omega
        · exact hseqs
        · exact hcne
        · simp only [H.parts, List.cons_append, List.map_cons, List.pairwise_cons]
          exact hm.2
        · simp only [Vnode.ids]
          split
          · exact hids.sublist (List.Sublist.append_left (List.sublist_cons_self _ _) _)
          · simpa [e3] using hids
        · intro a ha
          simp only [Vnode.ids] at ha
          refine hmax a ?_
          rcases List.mem_append.1 ha with ha | ha
          · obtain ⟨f, hf, rfl⟩ := List.mem_map.1 ha
            rcases hmem f hf with hf | hf
            · exact List.mem_append_left _ (List.mem_map.2 ⟨f, hf, rfl⟩)
            · subst hf; rw [e3]; simp
          · exact List.mem_append_right _ (List.mem_cons_of_mem _ ha)
        · intro f hf
          split at hf
          · rename_i he
            rw [if_pos he]; exact hfm f hf
          · rename_i he
            rw [if_neg he]
            simp only [List.mem_append, List.mem_singleton] at hf
            rcases hf with hf | hf
            · have := hfm f hf; simp only at this; omega
            · subst hf; omega
        · intro sid ts
          left
          have hlk : p.file.look sid ts = look c.rows sid ts := by simp [File.look, e5, e4]
          have hfv : newest ((if p.file.rows.isEmpty = true then files else files ++ [p.file]).map fun f => f.look sid ts) =
              (look c.rows sid ts).or (newest (files.map fun f => f.look sid ts)) := by
            split
            · rename_i he
              have : c.rows = [] := by rw [← e4]; simpa using he
              simp [this, look]
            · simp [newest_append, newest, hlk]
          simp only [Vnode.fileVal, hfv]
          have h1 := (hhead sid ts).resolve_right fun e => e.2
          have h2 := hrest sid ts
          simp only [Vnode.cacheVals, List.map_cons, List.cons_append] at h2
          have h3 := h2.1
          rw [any_hasDel] at h3
          have hl : H.later ⟨c.seq, s0 ++ s1, segs, tail⟩ = (segs.map Prod.snd ++ [tail]).flatten := H.later_eq _
          rw [← hl] at h3
          have := merge_val (sid := sid) (ts := ts) (e1 := s0) (e2 := s1) (es := [H.later ⟨c.seq, s0 ++ s1, segs, tail⟩])
            (a := newest (files.map fun f => f.look sid ts)) (b := look c.rows sid ts)
            (by simpa [hasDel_append, Vnode.fileVal] using h1) (by simpa using h3)
          simpa using this
        · intro sid ts
          have h2 := hrest sid ts
          simp only [Vnode.cacheVals, List.map_cons, List.cons_append] at h2
          exact h2.2
        · simp only [H.parts, List.cons_append, AllCuts, List.nil_append]
          exact ⟨hcu.2.1, hcu.2.2⟩
        · intro q p' d hd
          exact hdels q p' d (List.mem_append_right _ hd)
        · simp only [H.parts, List.cons_append, List.pairwise_cons]
          exact hpos.2
        · exact hpo
        · exact ⟨hdisk.2.1, hdisk.2.2⟩

/-! ## Restarts -/

/-- A command of the rest of the log that takes away a cell, by the keys `K`. -/
def Takes (K : Nat → Option Nat) (l : List Cmd) (sid : Nat) (ts : Int) : Prop :=
  ∃ p lo hi k, Cmd.delete p lo hi ∈ l ∧ K sid = some k ∧ p k = true ∧ lo ≤ ts ∧ ts ≤ hi

/-- Replaying commands, when the files may lack what the rest of them deletes. -/
theorem replay_core (K : Nat → Option Nat) : ∀ (l : List Cmd) {v : Vnode} {log : List Cmd} {h : H}, NoRename l → (∀ k, v.old.get k = none) →
    v.flushed ≤ log.length → (∀ sid k, K sid = some k → v.live.key.get sid = some k) → Core (Takes K l) v log h →
    ∃ h', Core noF (v.replay log.length l) (log ++ l) h' ∧ h'.q0 = h.q0 ∧ h'.s0 = h.s0 ∧ v.live.Ext (v.replay log.length l).live ∧
      (v.replay log.length l).disk = v.disk ∧ (v.replay log.length l).old = v.old ∧ (v.replay log.length l).pend = v.pend ∧
      (∀ k, ((v.replay log.length l).live.fwd.get k).isSome = ((v.live.fwd.get k).isSome || l.any fun c => decide (k ∈ c.keys)))
  | [], v, log, h, _, _, _, _, c => by
    refine ⟨h, ?_, rfl, rfl, Index.Ext.refl _, rfl, rfl, rfl, fun k => by simp [Vnode.replay]⟩
    simp only [Vnode.replay, List.append_nil]
    refine { c with head := fun sid ts => ?_ }
    rcases c.head sid ts with h1 | ⟨_, p, lo, hi, k, hm, _⟩
    · exact .inl h1
    · cases hm
  | cmd :: l, v, log, h, hr, ho, hfl, hK, c => by
    have hc := hr cmd List.mem_cons_self
    have hf : v.fails true cmd = false := by
      cases cmd with
      | rename f ms => cases hc
      | _ => rfl
    have hlt : v.flushed < log.length + 1 := by omega
    simp only [Vnode.replay, if_pos hlt, hf, Bool.false_eq_true, if_false]
    obtain ⟨h', c', e1, e2, _, e4⟩ := c.apply (F' := Takes K l) (wal := true) (.inr ho) cmd hc (by
      rintro sid ts ⟨p, lo, hi, k, hm, hk, hp, ht⟩
      rcases List.mem_cons.1 hm with hm | hm
      · right
        refine ⟨p, lo, hi, hm.symm, ?_⟩
        rw [covers_iff]
        exact ⟨Index.mem_select.2 ⟨k, hK _ _ hk, hp⟩, ht⟩
      · exact .inl ⟨p, lo, hi, k, hm, hk, hp, ht⟩)
    obtain ⟨o1, o2, o3, o4⟩ := apply_other (v := v) (wal := true) (.inr ho) (log.length + 1) hc
    have hlen : (log ++ [cmd]).length = log.length + 1 := by simp
    obtain ⟨h'', d1, d2, d3, d4, d5, d6, d7, d8⟩ := replay_core K l (v := v.apply true (log.length + 1) cmd) (log := log ++ [cmd]) (h := h')
      (fun c hc => hr c (List.mem_cons_of_mem _ hc)) (by rw [o2]; exact ho) (by rw [o4, hlen]; omega) (fun sid k hk => e4 _ _ (hK sid k hk)) c'
    rw [hlen] at d1 d4 d5 d6 d7 d8
    refine ⟨h'', by simpa [List.append_assoc] using d1, d2.trans e1, d3.trans e2, e4.trans d4, d5.trans o1, d6.trans o2, d7.trans o3, fun k => ?_⟩
    rw [d8, apply_has (.inr ho) _ hc]
    simp [Bool.or_assoc]

theorem replay_skip : ∀ (l : List Cmd) (v : Vnode) (n : Nat) (l' : List Cmd), n + l.length ≤ v.flushed →
    v.replay n (l ++ l') = v.replay (n + l.length) l'
  | [], v, n, l', _ => rfl
  | c :: l, v, n, l', h => by
    simp only [List.length_cons] at h
    have : ¬ v.flushed < n + 1 := by omega
    simp only [List.cons_append, Vnode.replay, if_neg this]
    rw [replay_skip l v (n + 1) l' (by omega)]
    simp only [List.length_cons]
    rw [Nat.add_right_comm, Nat.add_assoc]

theorem specOf_has_append {l : List Cmd} (hl : NoRename l) (log : List Cmd) (k : Nat) :
    (specOf (log ++ l)).has k = ((specOf log).has k || l.any fun c => decide (k ∈ c.keys)) := by
  induction l generalizing log with
  | nil => simp
  | cons c l ih =>
    have := ih (fun c' hc' => hl c' (List.mem_cons_of_mem _ hc')) (log ++ [c])
    rw [List.append_assoc] at this
    rw [show log ++ c :: l = log ++ ([c] ++ l) by simp, this, specOf_snoc, step_has (hl c List.mem_cons_self)]
    simp [Bool.or_assoc]

theorem Inv.crash {v : Vnode} {log : List Cmd} {h : H} (i : Inv v log h) (hr : NoRename (log.drop v.flushed)) (ho : ∀ k, v.old.get k = none) :
    ∃ h', Inv (v.reopen.replay 0 log) log h' := by
  have co := i.core
  have hb := co.bound (h.q0, h.s0) List.mem_cons_self
  simp only [co.q0] at hb
  have hd := i.disk.1
  simp only [List.nil_append, co.q0] at hd
  obtain ⟨hd1, hd2, hd3, hd4, hd5⟩ := hd hr
  have hlen : (log.take v.flushed).length = v.flushed := by rw [List.length_take]; omega
  have hrep : v.reopen.replay 0 log = v.reopen.replay (log.take v.flushed).length (log.drop v.flushed) := by
    rw [hlen]
    conv => lhs; rw [← List.take_append_drop v.flushed log]
    rw [replay_skip _ _ _ _ (by rw [hlen]; simp [Vnode.reopen]), hlen, Nat.zero_add]
  have hkn : Known v.disk h.s0 := by
    intro c hc
    obtain ⟨k, hk, _⟩ := hd3 c hc
    rw [hk]; rfl
  have c0 : Core (Takes v.disk.key.get (log.drop v.flushed)) v.reopen (log.take v.flushed) ⟨v.flushed, h.s0, [(v.flushed, [])], []⟩ := by
    have hlt : H.later ⟨v.flushed, h.s0, [(v.flushed, [])], []⟩ = [] := by simp [H.later]
    refine ⟨rfl, by simp [Vnode.reopen, Cache.new], by simp [Vnode.reopen], by simp [H.parts, hlen], ?_, ?_, co.fileMax, ?_, ?_, hd1, ?_, ?_, ?_⟩
    · have := co.ids
      simp only [Vnode.ids, Vnode.reopen, Cache.new, List.map_cons, List.map_nil] at this ⊢
      rw [List.pairwise_append] at this ⊢
      refine ⟨this.1, by simp, fun a ha b hb => ?_⟩
      obtain ⟨f, hf, rfl⟩ := List.mem_map.1 ha
      have := co.fileMax f hf
      simp at hb; omega
    · intro a ha
      simp only [Vnode.ids, Vnode.reopen, Cache.new, List.map_cons, List.map_nil, List.mem_append, List.mem_singleton] at ha
      rcases ha with ha | ha
      · obtain ⟨f, hf, rfl⟩ := List.mem_map.1 ha
        have := co.fileMax f hf
        simp only [Vnode.reopen]; omega
      · simp only [Vnode.reopen]; omega
    · intro sid ts
      rw [hlt]
      have hfv : v.reopen.fileVal sid ts = v.fileVal sid ts := rfl
      rw [hfv]
      simp only [hasDel, List.any_nil, Bool.false_eq_true, if_false]
      have h1 := (co.head sid ts).resolve_right fun e => e.2
      by_cases hdl : hasDel sid ts h.later = true
      · rw [if_pos hdl] at h1
        cases hl : (lastEv sid ts h.s0).join with
        | none => left; exact h1
        | some x =>
          right
          refine ⟨h1, ?_⟩
          -- the delete is in the rest of the log
          simp only [hasDel, List.any_eq_true, decide_eq_true_eq] at hdl
          obtain ⟨e, he, hev⟩ := hdl
          cases e with
          | put c => simp only [Ev.at] at hev; split at hev <;> simp at hev
          | del q p d =>
            simp only [Ev.at] at hev
            split at hev
            · rename_i hcov
              rw [covers_iff] at hcov
              obtain ⟨g1, g2, g3⟩ := co.dels q p d he
              have hpos := co.pos
              have hq : v.flushed < q := by
                simp only [H.parts, List.cons_append, List.pairwise_cons] at hpos
                have hm : ∃ b ∈ h.segs ++ [(log.length, h.tail)], Ev.del q p d ∈ b.2 := by
                  simp only [H.later, List.mem_append, List.mem_flatMap] at he
                  rcases he with ⟨b, hb, he⟩ | he
                  · exact ⟨b, List.mem_append_left _ hb, he⟩
                  · exact ⟨(log.length, h.tail), by simp, he⟩
                obtain ⟨b, hb, he⟩ := hm
                have := hpos.1 b hb q p d he
                rw [← co.q0]; exact this
              have hmem : Cmd.delete p d.2.1 d.2.2 ∈ log.drop v.flushed := by
                apply List.mem_of_getElem? (i := q - 1 - v.flushed)
                rw [List.getElem?_drop, show v.flushed + (q - 1 - v.flushed) = q - 1 by omega]
                exact g2
              have hnr : NoRename (log.drop q) := by
                intro c hc
                refine hr c ?_
                rw [show log.drop q = (log.drop v.flushed).drop (q - v.flushed) by rw [List.drop_drop]; congr 1; omega] at hc
                exact List.mem_of_mem_drop hc
              obtain ⟨k, hk, hpk⟩ := g3 hnr sid hcov.1
              cases hle : lastEv sid ts h.s0 with
              | none => rw [hle] at hl; cases hl
              | some r =>
                rw [hle] at hl
                cases r with
                | none => cases hl
                | some y =>
                  obtain ⟨k', hk', hk''⟩ := hd3 _ (mem_of_lastEv hle)
                  simp only at hk' hk''
                  rw [hk] at hk''
                  cases hk''
                  exact ⟨p, d.2.1, d.2.2, k, hmem, hk', hpk, hcov.2⟩
            · cases hev
      · rw [if_neg hdl] at h1
        exact .inl h1
    · intro sid ts
      simp [Vnode.cacheVals, Vnode.reopen, Cache.new, Good, look, lastEv]
    · simp only [H.parts, List.cons_append, List.nil_append, AllCuts, List.append_nil, hlen]
      have hcut : Cut v.reopen.live (log.take v.flushed) v.flushed h.s0 := by
        refine ⟨hkn, fun _ => ?_⟩
        rw [List.take_take, Nat.min_self]
        exact hd2
      exact ⟨hcut, hcut, hcut, trivial⟩
    · rw [hlt]; intro q p d hd; cases hd
    · simp only [H.parts, List.cons_append, List.nil_append, List.pairwise_cons, List.mem_cons, List.not_mem_nil, or_false]
      refine ⟨fun b hb => ?_, fun b hb => ?_, by simp⟩
      · rcases hb with hb | hb <;> subst hb <;> (intro q p d hd; cases hd)
      · subst hb; intro q p d hd; cases hd
  obtain ⟨h', d1, d2, d3, d4, d5, d6, d7, d8⟩ := replay_core v.disk.key.get (log.drop v.flushed) (v := v.reopen) hr ho (by rw [hlen]; simp [Vnode.reopen])
    (fun _ _ h => h) c0
  rw [← hrep] at d1 d4 d5 d6 d7 d8
  rw [List.take_append_drop] at d1
  have hhas : ∀ k, (specOf log).has k = ((specOf (log.take v.flushed)).has k || (log.drop v.flushed).any fun c => decide (k ∈ c.keys)) := by
    intro k
    rw [← specOf_has_append hr, List.take_append_drop]
  refine ⟨h', d1, fun k hk => ?_, fun k hk => ?_, ?_, ?_⟩
  · rw [d8]
    rw [hhas] at hk
    cases hh : (specOf (log.take v.flushed)).has k with
    | true =>
      have : (v.reopen.live.fwd.get k).isSome = true := hd4 k hh
      rw [this]; rfl
    | false => rw [hh, Bool.false_or] at hk; rw [hk]; simp
  · rw [d8] at hk
    cases hh : (v.reopen.live.fwd.get k).isSome with
    | true => exact hd5 k hh
    | false => rw [hh, Bool.false_or] at hk; rw [hhas, hk]; simp
  · rw [d7]; exact d1.ne
  · rw [d7, d5, d2, d3]
    refine ⟨fun _ => ⟨hd1, ?_, fun c hc => ?_, hd4, hd5⟩, trivial⟩
    · simpa [Vnode.reopen] using hd2
    · obtain ⟨k, hk, _⟩ := hd3 c (by simpa using hc)
      exact ⟨k, hk, d4 _ _ hk⟩

end Verif.Replica
