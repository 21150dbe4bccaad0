import Verif.Replica.Refute
/-!
# C115: a replica made from a snapshot shows what the other one shows
-/
namespace Verif.Replica

/-- The state of a vnode of which a snapshot gives a good copy: all files are in level 0 and without tombstones, the series of the files
have in them the keys they have in the index. -/
structure Plain (v : Vnode) : Prop where
  level : ∀ f ∈ v.files, f.level = 0
  tombs : ∀ f ∈ v.files, f.tombs = []
  keyed : ∀ f ∈ v.files, ∀ c ∈ f.rows, (f.keys.get c.sid).isSome
  keys : ∀ f ∈ v.files, ∀ sid k, f.keys.get sid = some k → v.live.key.get sid = some k

/-- Only writes. -/
def OnlyWrites (l : List Cmd) : Prop := ∀ c ∈ l, (∃ rows, c = .write rows) ∨ c = .blank

theorem OnlyWrites.noRename {l : List Cmd} (h : OnlyWrites l) : NoRename l := by
  intro c hc
  rcases h c hc with ⟨rows, rfl⟩ | rfl <;> rfl

theorem Plain.snapshot {v : Vnode} (h : Plain v) : v.snapshot = (v.files, v.flushed) := by
  have h0 : v.files.filter (fun f => decide (f.level = 0)) = v.files := by
    rw [List.filter_eq_self]
    intro f hf; simp [h.level f hf]
  have hn : ∀ l, l ≠ 0 → v.files.filter (fun f => decide (f.level = l)) = [] := by
    intro l hl
    rw [List.filter_eq_nil_iff]
    intro f hf
    rw [h.level f hf]; simp; omega
  simp only [Vnode.snapshot, show List.range 5 = [0, 1, 2, 3, 4] from rfl, List.flatMap_cons, List.flatMap_nil, h0, hn 1 (by omega), hn 2 (by omega),
    hn 3 (by omega), hn 4 (by omega), List.append_nil]

theorem renumber_map {α : Type} (g : File → α) (hg : ∀ f i, g { f with id := i, tombs := [] } = g f) : ∀ (n : Nat) (fs : List File),
    (renumber n fs).map g = fs.map g
  | _, [] => rfl
  | n, f :: fs => by simp only [renumber, List.map_cons, hg, renumber_map g hg (n + 1) fs]

theorem renumber_ids : ∀ (fs : List File) (n : Nat), ((renumber n fs).map File.id).Pairwise (· < ·) ∧
    (∀ f ∈ renumber n fs, n ≤ f.id ∧ f.id < n + fs.length)
  | [], n => by simp [renumber]
  | f :: fs, n => by
    obtain ⟨h1, h2⟩ := renumber_ids fs (n + 1)
    simp only [renumber, List.map_cons, List.pairwise_cons, List.mem_cons, List.length_cons]
    refine ⟨⟨fun a ha => ?_, h1⟩, fun g hg => ?_⟩
    · obtain ⟨g, hg, rfl⟩ := List.mem_map.1 ha
      have := h2 g hg; omega
    · rcases hg with rfl | hg
      · simp only; omega
      · have := h2 g hg; omega

theorem renumber_tombs : ∀ (fs : List File) (n : Nat), ∀ f ∈ renumber n fs, f.tombs = []
  | [], _, _, h => by cases h
  | _ :: fs, n, f, h => by
    rcases List.mem_cons.1 h with rfl | h
    · rfl
    · exact renumber_tombs fs (n + 1) f h

/-! ## The index -/

/-- One step of `rebuildIndex`. -/
def Index.rebuildOne (x : Index) (e : Nat × Nat) : Index := { x.put e.1 e.2 with incr := if x.incr ≤ e.1 then e.1 + 1 else x.incr }

theorem rebuildIndex_eq (fs : List File) : rebuildIndex fs = (fs.flatMap fun f => f.keys.entries).foldl Index.rebuildOne .empty := rfl

/-- The index has exactly the given pairs. -/
structure Index.Exact (x : Index) (P : Nat → Nat → Prop) : Prop where
  fwd : ∀ k sid, x.fwd.get k = some sid ↔ P sid k
  key : ∀ k sid, x.key.get sid = some k ↔ P sid k
  le : ∀ sid k, P sid k → sid ≤ x.incr

theorem rebuild_exact {y : Index} (hy : y.Ok) : ∀ (l : List (Nat × Nat)) {x : Index} {P : Nat → Nat → Prop}, x.Exact P →
    (∀ sid k, P sid k → y.key.get sid = some k) → (∀ e ∈ l, y.key.get e.1 = some e.2) →
    (l.foldl Index.rebuildOne x).Exact fun sid k => P sid k ∨ (sid, k) ∈ l
  | [], x, P, h, _, _ => by simpa using h
  | (s, k) :: l, x, P, h, hP, hl => by
    have hsk := hl (s, k) List.mem_cons_self
    simp only at hsk
    have h1 : (x.rebuildOne (s, k)).Exact fun sid k' => P sid k' ∨ (sid = s ∧ k' = k) := by
      refine ⟨fun k' sid => ?_, fun k' sid => ?_, fun sid k' hp => ?_⟩
      · simp only [Index.rebuildOne, Index.put]
        rw [AMap.get_set]
        by_cases e : k' = k
        · subst e
          rw [if_pos rfl]
          constructor
          · intro e; cases e; exact .inr ⟨rfl, rfl⟩
          · rintro (hp | ⟨rfl, _⟩)
            · have := (hy.bij _ _).2 (hP _ _ hp)
              rw [(hy.bij _ _).2 hsk] at this
              exact this
            · rfl
        · rw [if_neg e, h.fwd]
          exact ⟨.inl, fun o => o.resolve_right fun e' => e e'.2⟩
      · simp only [Index.rebuildOne, Index.put]
        rw [AMap.get_set]
        by_cases e : sid = s
        · subst e
          rw [if_pos rfl]
          constructor
          · intro e; cases e; exact .inr ⟨rfl, rfl⟩
          · rintro (hp | ⟨_, rfl⟩)
            · have := hP _ _ hp
              rw [hsk] at this
              exact this
            · rfl
        · rw [if_neg e, h.key]
          exact ⟨.inl, fun o => o.resolve_right fun e' => e e'.1⟩
      · simp only [Index.rebuildOne]
        rcases hp with hp | ⟨rfl, _⟩
        · have := h.le _ _ hp
          split <;> omega
        · split <;> omega
    have h2 := rebuild_exact hy l h1 (fun sid k' hp => hp.elim (hP _ _) fun e => by rw [e.1, e.2]; exact hsk)
      fun e he => hl e (List.mem_cons_of_mem _ he)
    have he : (fun sid k' => (P sid k' ∨ sid = s ∧ k' = k) ∨ (sid, k') ∈ l) = fun sid k' => P sid k' ∨ (sid, k') ∈ (s, k) :: l := by
      funext sid k'
      simp only [List.mem_cons, Prod.mk.injEq, or_assoc]
    rw [he] at h2
    exact h2

theorem rebuild_plain {v : Vnode} (hv : v.live.Ok) (h : Plain v) (n : Nat) :
    (rebuildIndex (renumber n v.files)).Exact fun sid k => ∃ f ∈ v.files, f.keys.get sid = some k := by
  rw [rebuildIndex_eq]
  have hm : (renumber n v.files).flatMap (fun f => f.keys.entries) = v.files.flatMap fun f => f.keys.entries := by
    rw [List.flatMap_def, List.flatMap_def, renumber_map (fun f => f.keys.entries) fun _ _ => rfl]
  rw [hm]
  have h0 : Index.empty.Exact fun _ _ => False :=
    ⟨fun k s => by simp [Index.empty], fun k s => by simp [Index.empty], fun _ _ h => h.elim⟩
  have h1 := rebuild_exact hv (v.files.flatMap fun f => f.keys.entries) h0 (fun _ _ h => h.elim) (by
    intro e he
    obtain ⟨f, hf, he⟩ := List.mem_flatMap.1 he
    exact h.keys f hf e.1 e.2 (AMap.mem_entries.1 he))
  have he : (fun sid k => False ∨ (sid, k) ∈ v.files.flatMap fun f => f.keys.entries) = fun sid k => ∃ f ∈ v.files, f.keys.get sid = some k := by
    funext sid k
    simp only [false_or, List.mem_flatMap, AMap.mem_entries]
  rw [he] at h1
  exact h1

theorem Index.Exact.ok {x : Index} {P : Nat → Nat → Prop} (h : x.Exact P) : x.Ok :=
  ⟨fun k sid => by rw [h.fwd, h.key], fun sid k hk => h.le _ _ ((h.key _ _).1 hk)⟩

/-! ## The rows of the files as events -/

def rowEvs (rows : List Cell) : List Ev := (rows.map Ev.put).reverse

theorem lastEv_rowEvs (sid : Nat) (ts : Int) : ∀ (rows : List Cell), (lastEv sid ts (rowEvs rows)).join = look rows sid ts
  | [] => rfl
  | c :: rows => by
    have ih := lastEv_rowEvs sid ts rows
    simp only [rowEvs, List.map_cons, List.reverse_cons] at ih ⊢
    rw [lastEv_put, look_cons]
    split
    · rfl
    · exact ih

def fileEvs (fs : List File) : List Ev := fs.flatMap fun f => rowEvs f.rows

theorem noDel_rowEvs (sid : Nat) (ts : Int) (rows : List Cell) : hasDel sid ts (rowEvs rows) = false := by
  simp only [hasDel, rowEvs, List.any_reverse, List.any_map, List.any_eq_false]
  intro c _
  simp only [Function.comp, Ev.at]
  split <;> simp

theorem join_or {a b : Option (Option Nat)} (h : b ≠ some none) : (b.or a).join = b.join.or a.join := by
  match b with
  | none => rfl
  | some none => exact (h rfl).elim
  | some (some x) => rfl

theorem lastEv_fileEvs (sid : Nat) (ts : Int) : ∀ (fs : List File), (lastEv sid ts (fileEvs fs)).join = newest (fs.map fun f => look f.rows sid ts) ∧
    hasDel sid ts (fileEvs fs) = false
  | [] => ⟨rfl, rfl⟩
  | f :: fs => by
    obtain ⟨h1, h2⟩ := lastEv_fileEvs sid ts fs
    simp only [fileEvs, List.flatMap_cons] at h1 h2 ⊢
    refine ⟨?_, by rw [hasDel_append, noDel_rowEvs, h2]; rfl⟩
    rw [lastEv_append, join_or, h1, lastEv_rowEvs]
    · rfl
    · intro e
      rw [lastEv_del e] at h2
      cases h2

/-! ## The copy -/

theorem restore_core {v : Vnode} {log : List Cmd} {h : H} (i : Inv v log h) (hp : Plain v) (hw : OnlyWrites (log.drop v.flushed)) :
    Core noF (restore v.snapshot) (log.take v.flushed) ⟨v.flushed, fileEvs v.files, [(v.flushed, [])], []⟩ := by
  have co := i.core
  have hb := co.bound (h.q0, h.s0) List.mem_cons_self
  simp only [co.q0] at hb
  have hlen : (log.take v.flushed).length = v.flushed := by rw [List.length_take]; omega
  rw [hp.snapshot]
  have hx := rebuild_plain co.ix hp 1
  obtain ⟨hi1, hi2⟩ := renumber_ids v.files 1
  have hln : (renumber 1 v.files).length = v.files.length := by
    have := congrArg List.length (renumber_map (fun _ => ()) (fun _ _ => rfl) 1 v.files)
    simpa using this
  have hlt : H.later ⟨v.flushed, fileEvs v.files, [(v.flushed, [])], []⟩ = [] := by simp [H.later]
  -- what the files say is what the log says up to the mark
  have hnd : ∀ sid ts, hasDel sid ts h.later = false := by
    intro sid ts
    cases hh : hasDel sid ts h.later with
    | false => rfl
    | true =>
      simp only [hasDel, List.any_eq_true, decide_eq_true_eq] at hh
      obtain ⟨e, he, hev⟩ := hh
      cases e with
      | put c => simp only [Ev.at] at hev; split at hev <;> simp at hev
      | del q p d =>
        obtain ⟨g1, g2, _⟩ := co.dels q p d he
        have hq : v.flushed < q := by
          have hpos := co.pos
          simp only [H.parts, List.cons_append, List.pairwise_cons] at hpos
          have hm : ∃ b ∈ h.segs ++ [(log.length, h.tail)], Ev.del q p d ∈ b.2 := by
            simp only [H.later, List.mem_append, List.mem_flatMap] at he
            rcases he with ⟨b, hb, he⟩ | he
            · exact ⟨b, List.mem_append_left _ hb, he⟩
            · exact ⟨(log.length, h.tail), by simp, he⟩
          obtain ⟨b, hb, he⟩ := hm
          have := hpos.1 b hb q p d he
          rw [← co.q0]; exact this
        have hmem : Cmd.delete p d.2.1 d.2.2 ∈ log.drop v.flushed := by
          apply List.mem_of_getElem? (i := q - 1 - v.flushed)
          rw [List.getElem?_drop, show v.flushed + (q - 1 - v.flushed) = q - 1 by omega]
          exact g2
        rcases hw _ hmem with ⟨rows, e⟩ | e <;> cases e
  have hfv : ∀ sid ts, newest (v.files.map fun f => look f.rows sid ts) = (lastEv sid ts h.s0).join := by
    intro sid ts
    have h1 := (co.head sid ts).resolve_right fun e => e.2
    rw [hnd] at h1
    simp only [Bool.false_eq_true, if_false] at h1
    rw [← h1]
    unfold Vnode.fileVal
    congr 1
    apply List.map_congr_left
    intro f hf
    simp [File.look, hp.tombs f hf]
  have hag : Agree v.live (specOf (log.take v.flushed)) h.s0 := by
    have := co.cuts.1
    simp only [List.nil_append, co.q0] at this
    exact this.2 hw.noRename
  refine ⟨rfl, by simp [restore, Cache.new], by simp [restore], by simp [H.parts, hlen], ?_, ?_, ?_, ?_, ?_, hx.ok, ?_, ?_, ?_⟩
  · simp only [Vnode.ids, restore, Cache.new, List.map_cons, List.map_nil]
    rw [List.pairwise_append]
    refine ⟨hi1, by simp, fun a ha b hb => ?_⟩
    obtain ⟨f, hf, rfl⟩ := List.mem_map.1 ha
    have := hi2 f hf
    simp only [List.mem_singleton] at hb
    omega
  · intro a ha
    simp only [Vnode.ids, restore, Cache.new, List.map_cons, List.map_nil, List.mem_append, List.mem_singleton] at ha
    simp only [restore]
    rcases ha with ha | ha
    · obtain ⟨f, hf, rfl⟩ := List.mem_map.1 ha
      have := hi2 f hf
      omega
    · omega
  · intro f hf
    have := hi2 f hf
    simp only [restore]
    omega
  · intro sid ts
    left
    rw [hlt]
    simp only [hasDel, List.any_nil, Bool.false_eq_true, if_false]
    rw [(lastEv_fileEvs sid ts v.files).1]
    simp only [Vnode.fileVal, restore]
    rw [← renumber_map (fun f => look f.rows sid ts) (fun _ _ => rfl) 1 v.files]
    congr 1
    apply List.map_congr_left
    intro f hf
    simp [File.look, renumber_tombs v.files 1 f hf]
  · intro sid ts
    simp [Vnode.cacheVals, restore, Cache.new, Good, look, lastEv]
  · have hcut : Cut (restore (v.files, v.flushed)).live (log.take v.flushed) v.flushed (fileEvs v.files) := by
      refine ⟨fun c hc => ?_, fun _ k ts => ?_⟩
      · simp only [fileEvs, rowEvs, List.mem_flatMap, List.mem_reverse, List.mem_map] at hc
        obtain ⟨f, hf, c', hc', e⟩ := hc
        cases e
        obtain ⟨k, hk⟩ := Option.isSome_iff_exists.1 (hp.keyed f hf c hc')
        have := (hx.key k c.sid).2 ⟨f, hf, hk⟩
        show ((rebuildIndex (renumber 1 v.files)).key.get c.sid).isSome
        rw [this]; rfl
      · rw [List.take_take, Nat.min_self, hag]
        show _ = ((rebuildIndex (renumber 1 v.files)).fwd.get k).bind _
        cases hf : (rebuildIndex (renumber 1 v.files)).fwd.get k with
        | some sid =>
          obtain ⟨f, hf', hk⟩ := (hx.fwd k sid).1 hf
          rw [(co.ix.bij _ _).2 (hp.keys f hf' sid k hk)]
          simp only [Option.bind_some]
          rw [(lastEv_fileEvs sid ts v.files).1, hfv]
        | none =>
          cases hl : v.live.fwd.get k with
          | none => rfl
          | some sid =>
            simp only [Option.bind_some, Option.bind_none]
            rw [← hfv, ← (lastEv_fileEvs sid ts v.files).1]
            cases he : lastEv sid ts (fileEvs v.files) with
            | none => rfl
            | some r =>
              cases r with
              | none => rfl
              | some y =>
                exfalso
                have hm := mem_of_lastEv he
                simp only [fileEvs, rowEvs, List.mem_flatMap, List.mem_reverse, List.mem_map] at hm
                obtain ⟨f, hf', c', hc', e⟩ := hm
                cases e
                obtain ⟨k', hk'⟩ := Option.isSome_iff_exists.1 (hp.keyed f hf' _ hc')
                simp only at hk'
                have h1 := hp.keys f hf' sid k' hk'
                rw [(co.ix.bij _ _).1 hl] at h1
                cases h1
                have := (hx.fwd k sid).2 ⟨f, hf', hk'⟩
                rw [hf] at this; cases this
    simp only [H.parts, List.cons_append, List.nil_append, AllCuts, List.append_nil, hlen]
    exact ⟨hcut, hcut, hcut, trivial⟩
  · rw [hlt]; intro q p d hd; cases hd
  · simp only [H.parts, List.cons_append, List.nil_append, List.pairwise_cons, List.mem_cons, List.not_mem_nil, or_false]
    refine ⟨fun b hb => ?_, fun b hb => ?_, by simp⟩
    · rcases hb with hb | hb <;> subst hb <;> (intro q p d hd; cases hd)
    · subst hb; intro q p d hd; cases hd

theorem applyAll_core : ∀ (l : List Cmd) {v : Vnode} {log : List Cmd}, NoRename l → (∃ h, Core noF v log h) →
    ∃ h, Core noF (v.applyAll log.length l) (log ++ l) h
  | [], v, log, _, hc => by simpa [Vnode.applyAll] using hc
  | c :: l, v, log, hr, ⟨h, hc⟩ => by
    obtain ⟨h', c', _⟩ := hc.apply (F' := noF) (wal := false) (.inl rfl) c (hr c List.mem_cons_self) fun _ _ hf => hf.elim
    have := applyAll_core l (v := v.apply false (log.length + 1) c) (log := log ++ [c]) (fun x hx => hr x (List.mem_cons_of_mem _ hx)) ⟨h', c'⟩
    simpa [Vnode.applyAll, List.append_assoc] using this

/-- A new replica that has taken the snapshot and then the rest of the log shows what the other one shows, if the files of the other are in
level 0, have no tombstones and the keys of the index, and the rest of the log are writes.  What is missing: `C115_refuted_*`. -/
theorem C115_partial (l : List Step) (hc : CalmRun .init l) (hp : Plain (Sys.init.run l).v)
    (hw : OnlyWrites ((cmdsOf l).drop (Sys.init.run l).v.flushed)) (k : Nat) (ts : Int) (x : Nat) :
    (Sys.init.run l).clone.v.Shows k ts x ↔ (Sys.init.run l).v.Shows k ts x := by
  obtain ⟨h, i⟩ := run_inv hc Inv.init
  have hl : (Sys.init.run l).log = cmdsOf l := by rw [run_log]; rfl
  rw [hl] at i
  have c0 := restore_core i hp hw
  have hb := i.core.bound (h.q0, h.s0) List.mem_cons_self
  simp only [i.core.q0] at hb
  have hlen : ((cmdsOf l).take (Sys.init.run l).v.flushed).length = (Sys.init.run l).v.flushed := by rw [List.length_take]; omega
  obtain ⟨h', c'⟩ := applyAll_core _ hw.noRename ⟨_, c0⟩
  rw [hlen, List.take_append_drop] at c'
  have h1 := c'.shows (fun _ _ h => h) k ts x
  have h2 := i.core.shows (fun _ _ h => h) k ts x
  rw [h2, ← h1]
  simp only [Sys.clone, hl]
  rw [show (Sys.init.run l).v.snapshot.2 = (Sys.init.run l).v.flushed from rfl]

/-- Two files, one of them with a newer value for the same cell, and writes after the mark. -/
def exClone : List Step :=
  [wr 1 1 5, wr 2 1 4, .switch, .begin, .install, wr 1 1 6, .switch, .begin, .install, wr 3 2 7, wr 1 2 8]

example : Plain (Sys.init.run exClone).v where
  level := by decide +kernel
  tombs := by decide +kernel
  keyed := by decide +kernel
  keys := by
    have h : ∀ f ∈ (Sys.init.run exClone).v.files, ∀ e ∈ f.keys.entries, (Sys.init.run exClone).v.live.key.get e.1 = some e.2 := by decide +kernel
    intro f hf sid k hk
    exact h f hf (sid, k) (AMap.mem_entries.2 hk)

example : (Sys.init.run exClone).clone.v.Shows 1 1 6 ∧ (Sys.init.run exClone).clone.v.Shows 2 1 4 ∧ (Sys.init.run exClone).clone.v.Shows 3 2 7 ∧
    (Sys.init.run exClone).clone.v.Shows 1 2 8 ∧ ¬ (Sys.init.run exClone).clone.v.Shows 1 1 5 := by decide +kernel

example : CalmRun .init exClone := ⟨trivial, trivial, trivial, trivial, trivial, trivial, trivial, trivial, trivial, trivial, trivial, trivial⟩

/-- The tombstones of the files are not copied: deleted rows come back on the new replica. -/
theorem C115_refuted_tombstones : ∃ l, CalmRun .init l ∧ ¬ (Sys.init.run l).v.Shows 1 1 5 ∧ (Sys.init.run l).clone.v.Shows 1 1 5 :=
  ⟨[wr 1 1 5, .switch, .begin, .install, del 1, wr 2 2 7, .switch, .begin, .install],
    ⟨trivial, trivial, trivial, trivial, rfl, trivial, trivial, trivial, trivial, trivial⟩, by decide +kernel, by decide +kernel⟩

/-- The files get new numbers in the order of the levels, so the values in level 0, which are the newest, lose against older ones. -/
theorem C115_refuted_order : ∃ l, (specOf (cmdsOf l)).val 1 1 = some 6 ∧ (Sys.init.run l).v.Shows 1 1 6 ∧ ¬ (Sys.init.run l).clone.v.Shows 1 1 6 ∧
    (Sys.init.run l).clone.v.Shows 1 1 5 :=
  ⟨[wr 1 1 5, .switch, .begin, .install, .compact, wr 2 1 1, .switch, .begin, .install, wr 1 1 6, .switch, .begin, .install], by decide +kernel,
    by decide +kernel, by decide +kernel, by decide +kernel⟩

/-- A series without rows is not in the index of the new replica, so an update of tags that one replica refuses is carried out by the other. -/
theorem C115_refuted_series : ∃ l f ms, CalmRun .init l ∧ (Sys.init.run l).v.fails false (.rename f ms) = true ∧
    (Sys.init.run l).clone.v.fails false (.rename f ms) = false ∧
    ¬ ((Sys.init.run l).step (.apply (.rename f ms))).v.Shows 1 2 7 ∧ ((Sys.init.run l).clone.step (.apply (.rename f ms))).v.Shows 1 2 7 :=
  ⟨[wr 1 1 5, del 1, wr 2 2 7, .switch, .begin, .install], fun _ => 1, [2],
    ⟨trivial, rfl, trivial, trivial, trivial, trivial, trivial⟩, by decide +kernel, by decide +kernel, by decide +kernel, by decide +kernel⟩

end Verif.Replica
