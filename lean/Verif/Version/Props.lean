import Verif.Version.Inv
/-! # Properties: the set of live files, file numbers, and the flushed-up-to mark -/
namespace Verif.Version
open Verif.Time Verif.Wal

theorem survive_nil (M : List Meta) : survive M [] = M := by simp [survive]

theorem create_inv {v : Nat} {owner : Bytes} {full : Bool} : ∃ s, Sys.create v owner full = some s ∧ Inv s [] := by
  have hc : current ([] ++ [(Edit.newAdd v owner 0).stored]) = [(Edit.newAdd v owner 0).stored] := current_single _ rfl
  obtain ⟨s', h1, h2, h3, h4, _, h5, h6, h7, h8, h9⟩ := apply_inv (s := ⟨[], ⟨v, 0, i64Min, initLevels v⟩, 2, [1]⟩) (M := [])
    (e := Edit.newAdd v owner 0) owner full rfl (by intro d hd; cases hd) (by simp [Ids, survive, Edit.newAdd, Edit.new])
    (by intro m hm; cases hm) (by rw [hc]; simp) (by
      intro k m
      rw [hc]
      simp [filesOf, applyFiles, Edit.stored, Edit.newAdd, Edit.new, survive])
    (by rw [hc]; simp [maxSeq, Edit.stored, Edit.newAdd]) (by intro m hm; cases hm)
  refine ⟨s', h1, ?_⟩
  have he : survive [] (Edit.newAdd v owner 0).del ++ (Edit.newAdd v owner 0).add = [] := rfl
  rw [he] at h5 h7 h9
  exact ⟨by simp [Ids], by simp, h5, h6, h7, h8, by simp, by simp, by simp [h4], by simp [h3, h4], by simp, by simp [h3]⟩

/-! ### Installing a snapshot -/

theorem mem_renumber {st : Nat} {l : List Meta} {m : Meta} (h : m ∈ renumber st l) :
    (∃ a ∈ l, m = { a with id := m.id }) ∧ st ≤ m.id ∧ m.id < st + l.length := by
  obtain ⟨p, hp, rfl⟩ := List.mem_map.1 h
  obtain ⟨a, n⟩ := p
  have := List.mem_zipIdx hp
  refine ⟨⟨a, ?_, rfl⟩, this.1, this.2.1⟩
  rw [this.2.2]
  exact List.getElem_mem _

theorem renumber_ids (st : Nat) (l : List Meta) : (renumber st l).map Meta.id = List.range' st l.length := by
  unfold renumber
  rw [List.map_map]
  have : (Meta.id ∘ fun p : Meta × Nat => { p.1 with id := p.2 }) = Prod.snd := rfl
  rw [this, List.zipIdx_map_snd]

theorem length_renumber (st : Nat) (l : List Meta) : (renumber st l).length = l.length := by simp [renumber]

theorem length_le_max {M : List Meta} (hi : Ids M) (n : Nat) (h : ∀ m ∈ M, 1 ≤ m.id ∧ m.id ≤ n) : M.length ≤ n := by
  have hs : (M.map Meta.id) ⊆ List.range' 1 n := by
    intro k hk
    obtain ⟨m, hm, rfl⟩ := List.mem_map.1 hk
    rw [List.mem_range'_1]
    have := h m hm
    omega
  have := (List.subperm_of_subset hi hs).length_le
  simpa using this

theorem install_inv {s : Sys} {M : List Meta} (h : Inv s M) (v : Nat) (owner : Bytes) (full : Bool) :
    ∃ s', Sys.install v owner full (s.ver.build owner) = some s'
      ∧ Inv s' (renumber 1 ((s.ver.build owner).setVnode v).add) ∧ s'.ver.vnode = v ∧ s'.ver.lastSeq = s.ver.lastSeq := by
  have hb := build_eq owner s.ver
  obtain ⟨h1, h2, h3, h4, _, _, h6⟩ := foldl_addFile (buildList s.ver) (Edit.newAdd s.ver.vnode owner s.ver.lastSeq)
  rw [← hb] at h1 h2 h3 h4 h6
  have hp := buildList_perm h.ids h.good h.levels
  have ha : (s.ver.build owner).add = (buildList s.ver).map Prod.fst := by rw [h1]; rfl
  generalize hE : s.ver.build owner = E at *
  have hd : E.del = [] := h4
  have hact : E.act = .add := h3
  have hsq : E.seq = s.ver.lastSeq := h2
  have hperm : E.add.Perm M := by rw [ha]; exact hp
  have hlen : E.add.length ≤ E.fileId := by
    rw [hperm.length_eq]
    apply length_le_max h.ids
    intro m hm
    refine ⟨(h.good m hm).2.2.2, ?_⟩
    obtain ⟨p, hp1, rfl⟩ := List.mem_map.1 (hp.mem_iff.2 hm)
    exact h6 p hp1
  generalize hN : renumber 1 (E.setVnode v).add = N at *
  have hNlen : N.length = E.add.length := by rw [← hN, length_renumber]; simp [Edit.setVnode]
  have hNids : Ids N := by
    unfold Ids
    rw [← hN, renumber_ids]
    exact List.nodup_range'
  have hNb : ∀ m ∈ N, m.Good v ∧ m.id ≤ E.add.length := by
    intro m hm
    rw [← hN] at hm
    obtain ⟨⟨a, ha1, ha2⟩, hlo, hhi⟩ := mem_renumber hm
    obtain ⟨b, hb1, rfl⟩ := List.mem_map.1 ha1
    obtain ⟨g1, g2, g3, g4⟩ := h.good b (hperm.mem_iff.1 hb1)
    have hl2 : (E.setVnode v).add.length = E.add.length := by simp [Edit.setVnode]
    refine ⟨⟨?_, ?_, ?_, hlo⟩, by omega⟩
    · rw [ha2]; exact g1
    · rw [ha2]
    · rw [ha2]; exact g3
  let e : Edit := { E.setVnode v with add := N, del := [] }
  have hinst : Sys.install v owner full E
      = Sys.apply owner full e ⟨[], ⟨v, E.seq, E.maxLevelTs, initLevels v⟩, 1 + N.length + 1, [1 + N.length]⟩ := by
    unfold Sys.install
    simp only [hN]
    have hd2 : (E.setVnode v).del = [] := by simp [Edit.setVnode, hd]
    rw [hd2]
    rfl
  have hc : current ([] ++ [e.stored]) = [e.stored] := current_single _ hact
  obtain ⟨s', k1, k2, k3, k4, k10, k5, k6, k7, k8, k9⟩ :=
    apply_inv (s := ⟨[], ⟨v, E.seq, E.maxLevelTs, initLevels v⟩, 1 + N.length + 1, [1 + N.length]⟩) (M := []) (e := e) owner full
      rfl (by intro d hd; cases hd) (by simpa [survive, e] using hNids)
      (by intro m hm; exact (hNb m (by simpa [survive, e] using hm)).1) (by rw [hc]; simp) (by
        intro k m
        rw [hc, show [e.stored] = [] ++ [e.stored] from rfl, filesOf_append, get_applyFiles _ _ _ _ hNids]
        simp [filesOf, survive, e, Edit.stored])
      (by rw [hc]; simp [maxSeq, Edit.stored, e, Edit.setVnode]) (by
        intro m hm
        have := hNb m (by simpa [survive, e] using hm)
        rw [hc]
        simp only [maxFile, List.foldl_cons, List.foldl_nil, Edit.stored, e, Edit.setVnode]
        omega)
  have he : survive [] e.del ++ e.add = N := by simp [survive, e]
  rw [he] at k5 k7 k9
  refine ⟨s', by rw [hinst, k1], ⟨hNids, ?_, k5, k6, k7, k8, k9, ?_, ?_, ?_, ?_, ?_⟩, k2, ?_⟩
  · intro m hm; rw [k2]; exact (hNb m hm).1
  · intro m hm; rw [k3]; have := (hNb m hm).2; simp only; omega
  · rw [k4]; simp
  · rw [k3, k4]; simp
  · rw [k4]
    intro t ht m hm
    simp only [List.mem_singleton] at ht
    have := (hNb m hm).2
    omega
  · rw [k3]; simp only; omega
  · rw [k10]
    simp [e, Edit.setVnode, hsq]

/-! ### Recovery -/

theorem recover_inv {s : Sys} {M : List Meta} (h : Inv s M) (order : List (Nat × Meta) → List (Nat × Meta))
    (ho : ∀ l, (order l).Perm l) : ∃ v, recover s.ver.vnode order s.manifest = some (some (v, maxFile (current s.manifest) + 1))
      ∧ v.vnode = s.ver.vnode ∧ v.levels = s.ver.levels ∧ v.lastSeq = s.ver.lastSeq := by
  have hkey : ∀ p ∈ (filesOf (current s.manifest)).entries, p.2 ∈ M ∧ p.2.id = p.1 := by
    rintro ⟨k, m⟩ hp
    exact (h.files k m).1 (AMap.mem_entries.1 hp)
  have hids : Ids ((filesOf (current s.manifest)).entries.map Prod.snd) := by
    unfold Ids
    rw [List.map_map]
    have : (filesOf (current s.manifest)).entries.map (Meta.id ∘ Prod.snd) = (filesOf (current s.manifest)).entries.map Prod.fst :=
      List.map_congr_left fun p hp => (hkey p hp).2
    rw [this]
    exact (filesOf (current s.manifest)).nodup
  have hperm : ((order (filesOf (current s.manifest)).entries).map Prod.snd).Perm M := by
    refine ((ho _).map _).trans ?_
    rw [List.perm_ext_iff_of_nodup hids.nodup h.ids.nodup]
    intro m
    constructor
    · intro hm
      obtain ⟨p, hp, rfl⟩ := List.mem_map.1 hm
      exact (hkey p hp).1
    · intro hm
      exact List.mem_map.2 ⟨(m.id, m), AMap.mem_entries.2 ((h.files m.id m).2 ⟨hm, rfl⟩), rfl⟩
  have hall : (((order (filesOf (current s.manifest)).entries).map Prod.snd).all fun m => decide (m.level < 5)) = true := by
    rw [List.all_eq_true]
    intro m hm
    exact decide_eq_true (h.good m (hperm.mem_iff.1 hm)).1
  have hlev : ((order (filesOf (current s.manifest)).entries).map Prod.snd).foldl pushTo (initLevels s.ver.vnode)
      = s.ver.levels := by
    rw [initLevels_eq, foldl_pushTo, List.nil_append, h.levels]
    · exact levelsOf_congr _ hperm ((hperm.map _).nodup_iff.2 h.ids)
    · intro m hm
      have := h.good m (hperm.mem_iff.1 hm)
      exact ⟨this.2.1, this.1⟩
    · rw [List.nil_append]; exact (hperm.map _).nodup_iff.2 h.ids
  have hseq := h.seq
  have hcur := h.cur
  unfold recover
  unfold filesOf at hall hlev
  unfold maxSeq at hseq
  unfold maxFile
  generalize current s.manifest = es at *
  cases es with
  | nil => exact absurd rfl hcur
  | cons e es =>
    simp only []
    rw [if_pos hall]
    exact ⟨_, rfl, rfl, hlev, hseq.symm⟩

/-! ### Steps -/

theorem step_inv {s : Sys} {M : List Meta} (owner : Bytes) (op : Op) (h : Inv s M) (hl : Legal s op) :
    ∃ s', step owner op s = some s' ∧ Inv s' (liveAfter M op) ∧ s'.ver.vnode = s.ver.vnode ∧ s.ver.lastSeq ≤ s'.ver.lastSeq := by
  cases op with
  | take =>
    refine ⟨_, rfl, ⟨h.ids, h.good, h.levels, h.cur, h.files, h.seq, h.fid, ?_, ?_, ?_, ?_, ?_⟩, rfl, Nat.le_refl _⟩
    · intro m hm; have := h.lt m hm; simp only; omega
    · simp only
      rw [List.nodup_append]
      refine ⟨h.nodup, by simp, ?_⟩
      intro a ha b hb
      have := h.tlt a ha
      simp only [List.mem_singleton] at hb
      omega
    · intro t ht
      simp only [List.mem_append, List.mem_singleton] at ht ⊢
      rcases ht with ht | rfl
      · have := h.tlt t ht; omega
      · have := h.pos; omega
    · intro t ht m hm
      simp only [List.mem_append, List.mem_singleton] at ht
      rcases ht with ht | rfl
      · exact h.fresh t ht m hm
      · have := h.lt m hm; omega
    · simp only; omega
  | restart order =>
    obtain ⟨v, h1, h2, h3, h4⟩ := recover_inv h order hl
    refine ⟨⟨s.manifest, v, maxFile (current s.manifest) + 1 + 1, [maxFile (current s.manifest) + 1]⟩, ?_,
      ⟨h.ids, ?_, ?_, h.cur, h.files, ?_, h.fid, ?_, by simp, ?_, ?_, ?_⟩, h2, ?_⟩
    · simp only [step, h1]
    · rw [h2]; exact h.good
    · simp only; rw [h3, h2, h.levels]; rfl
    · rw [h4, h.seq]
    · intro m hm; have := h.fid m hm; simp only; omega
    · intro t ht; simp only [List.mem_singleton] at ht ⊢; omega
    · intro t ht m hm
      simp only [List.mem_singleton] at ht
      have := h.fid m hm
      omega
    · simp only; omega
    · simp only [h4]; omega
  | commit seq name adds dels part full =>
    obtain ⟨l1, l2, l3⟩ := hl
    obtain ⟨h1, h2, h3, _, _, _, h6⟩ := foldl_addFile adds (Edit.newUpdate s.ver.vnode name seq)
    let e := commitEdit s.ver.vnode seq name adds dels part
    have ea : e.add = adds.map Prod.fst := by
      change (adds.foldl (fun e p => e.addFile p.1 p.2) (Edit.newUpdate s.ver.vnode name seq)).add = _
      rw [h1]; rfl
    have ed : e.del = dels := rfl
    have es : e.seq = seq := h2
    have eact : e.act = .update := h3
    have ef : ∀ p ∈ adds, p.1.id ≤ e.fileId := h6
    have hN : Ids (survive M e.del ++ e.add) := by
      unfold Ids
      rw [List.map_append, List.nodup_append]
      refine ⟨h.ids.sublist (List.filter_sublist.map _), ?_, ?_⟩
      · rw [ea, List.map_map]; exact l1
      · intro a ha b hb
        obtain ⟨m, hm, rfl⟩ := List.mem_map.1 ha
        rw [ea, List.map_map] at hb
        obtain ⟨p, hp, rfl⟩ := List.mem_map.1 hb
        exact h.fresh _ (l2 p hp).1 m (mem_survive.1 hm).1
    have hG : ∀ m ∈ survive M e.del ++ e.add, m.Good s.ver.vnode := by
      intro m hm
      rcases List.mem_append.1 hm with hm | hm
      · exact h.good m (mem_survive.1 hm).1
      · rw [ea] at hm
        obtain ⟨p, hp, rfl⟩ := List.mem_map.1 hm
        obtain ⟨q1, q2, q3, q4⟩ := l2 p hp
        exact ⟨q2, q3, q4, (h.tlt _ q1).1⟩
    have hc : current (s.manifest ++ [e.stored]) = current s.manifest ++ [e.stored] := current_append _ _ eact
    have hfp := files_perm h.ids h.good h.levels
    obtain ⟨s', k1, k2, k3, k4, k10, k5, k6, k7, k8, k9⟩ := apply_inv (s := s) (M := M) (e := e) owner full h.levels
      (by
        intro d hd
        refine ⟨(l3 d hd).1, fun m hm hid => ?_⟩
        exact (l3 d hd).2 (m.file s.ver.vnode) (hfp.mem_iff.2 (List.mem_map.2 ⟨m, hm, rfl⟩)) hid)
      hN hG (by rw [hc]; simp) (by
        intro k m
        have hea : Ids e.stored.add := by
          unfold Ids at hN ⊢
          rw [List.map_append] at hN
          exact hN.of_append_right
        rw [hc, filesOf_append, get_applyFiles _ _ _ _ hea, List.mem_append, mem_survive, h.files k m]
        have e1 : e.stored.add = e.add := rfl
        have e2 : e.stored.del = e.del := rfl
        rw [e1, e2]
        constructor
        · rintro (⟨q1, q2⟩ | ⟨q1, q2, q3, q4⟩)
          · exact ⟨.inr q1, q2⟩
          · exact ⟨.inl ⟨q3, fun d hd => q4 ▸ q2 d hd⟩, q4⟩
        · rintro ⟨⟨q1, q2⟩ | q1, q3⟩
          · refine .inr ⟨?_, fun d hd => q3 ▸ q2 d hd, q1, q3⟩
            intro a ha hak
            rw [ea] at ha
            obtain ⟨p, hp, rfl⟩ := List.mem_map.1 ha
            exact h.fresh _ (l2 p hp).1 m q1 (q3.trans hak.symm)
          · exact .inl ⟨q1, q3⟩)
      (by rw [hc, maxSeq_append, ← h.seq]; rfl) (by
        intro m hm
        rw [hc, maxFile_append]
        have e3 : e.stored.fileId = e.fileId := rfl
        rcases List.mem_append.1 hm with hm | hm
        · have := h.fid m (mem_survive.1 hm).1
          omega
        · rw [ea] at hm
          obtain ⟨p, hp, rfl⟩ := List.mem_map.1 hm
          have := ef p hp
          omega)
    have hM' : survive M e.del ++ e.add = liveAfter M (.commit seq name adds dels part full) := by
      rw [ea]; rfl
    rw [hM'] at hN hG k5 k7 k9
    have hlt : ∀ m ∈ liveAfter M (.commit seq name adds dels part full), m.id < s.gen := by
      intro m hm
      rcases List.mem_append.1 hm with hm | hm
      · exact h.lt m (mem_survive.1 hm).1
      · obtain ⟨p, hp, rfl⟩ := List.mem_map.1 hm
        exact (h.tlt _ (l2 p hp).1).2
    refine ⟨{ s' with taken := s'.taken.filter fun i => !(adds.any fun p => decide (p.1.id = i)) }, ?_,
      ⟨hN, ?_, k5, k6, k7, k8, k9, ?_, ?_, ?_, ?_, ?_⟩, k2, ?_⟩
    · simp only [step]
      rw [show s.apply owner full (commitEdit s.ver.vnode seq name adds dels part) = some s' from k1]
      rfl
    · rw [k2]; exact hG
    · rw [k3]; exact hlt
    · rw [k4]; exact h.nodup.filter _
    · rw [k3, k4]
      intro t ht
      exact h.tlt t (List.mem_filter.1 ht).1
    · rw [k4]
      intro t ht m hm hid
      obtain ⟨ht1, ht2⟩ := List.mem_filter.1 ht
      rcases List.mem_append.1 hm with hm | hm
      · exact h.fresh t ht1 m (mem_survive.1 hm).1 hid
      · obtain ⟨p, hp, rfl⟩ := List.mem_map.1 hm
        simp only [Bool.not_eq_true', List.any_eq_false, decide_eq_true_eq] at ht2
        exact ht2 p hp hid
    · rw [k3]; exact h.pos
    · simp only [k10]; omega

theorem reach_inv {owner : Bytes} {s : Sys} {M : List Meta} (h : Reach owner s M) : Inv s M := by
  induction h with
  | create h =>
    obtain ⟨s', h1, h2⟩ := create_inv (v := _) (owner := _) (full := _)
    rw [h1] at h; cases h; exact h2
  | install _ h ih =>
    obtain ⟨s', h1, h2, _⟩ := install_inv ih _ _ _
    rw [h1] at h; cases h; exact h2
  | step op _ hl h ih =>
    obtain ⟨s', h1, h2, _⟩ := step_inv owner op ih hl
    rw [h1] at h; cases h; exact h2

/-! ## C29 — the live files -/

/-- **C29**: the files in the levels of the running system are those that flushes and compactions added and that none deleted
since, each with its number, level, range, size and place. -/
theorem C29_live {owner : Bytes} {s : Sys} {M : List Meta} (h : Reach owner s M) :
    s.ver.files.Perm (M.map (·.file s.ver.vnode)) ∧ (M.map Meta.id).Nodup :=
  ⟨files_perm (reach_inv h).ids (reach_inv h).good (reach_inv h).levels, (reach_inv h).ids⟩

/-- **C29**: recovery of the manifest gives the levels of the running system, whenever the manifest was rewritten and in
whatever order the map of files is walked. -/
theorem C29_restart {owner : Bytes} {s : Sys} {M : List Meta} (h : Reach owner s M)
    (order : List (Nat × Meta) → List (Nat × Meta)) (ho : ∀ l, (order l).Perm l) :
    ∃ v n, recover s.ver.vnode order s.manifest = some (some (v, n)) ∧ v.vnode = s.ver.vnode ∧ v.levels = s.ver.levels := by
  obtain ⟨v, h1, h2, h3, _⟩ := recover_inv (reach_inv h) order ho
  exact ⟨v, _, h1, h2, h3⟩

/-- **C29**: no step of a flush, a compaction or a restart fails. -/
theorem C29_no_failure {owner : Bytes} {s : Sys} {M : List Meta} (h : Reach owner s M) (op : Op) (hl : Legal s op) :
    ∃ s', step owner op s = some s' := by
  obtain ⟨s', h1, _⟩ := step_inv owner op (reach_inv h) hl
  exact ⟨s', h1⟩

theorem renumber_fields (st : Nat) (l : List Meta) (f : Meta → Meta) (hf : ∀ (m : Meta) (n : Nat), f { m with id := n } = f m) :
    (renumber st l).map f = l.map f := by
  unfold renumber
  rw [List.map_map]
  have : (f ∘ fun p : Meta × Nat => { p.1 with id := p.2 }) = f ∘ Prod.fst := by
    funext p; exact hf p.1 p.2
  rw [this, ← List.map_map, List.zipIdx_map_fst]

/-- **C29**, snapshots: a vnode made from a snapshot has the files of the vnode the snapshot was taken of, with new numbers and
in its own directory, and survives restarts like any other (it is one of the states above). -/
theorem C29_snapshot {owner : Bytes} {s : Sys} {M : List Meta} (h : Reach owner s M) (v : Nat) (full : Bool) :
    ∃ s' M', Sys.install v owner full (s.ver.build owner) = some s' ∧ Reach owner s' M' ∧ s'.ver.vnode = v
      ∧ s'.ver.lastSeq = s.ver.lastSeq
      ∧ (M'.map fun m => { m with id := 0 }).Perm (M.map fun m => { m with id := 0, vnode := v }) := by
  have hi := reach_inv h
  obtain ⟨s', h1, h2, h3, h4⟩ := install_inv hi v owner full
  refine ⟨s', _, h1, .install h h1, h3, h4, ?_⟩
  rw [renumber_fields 1 _ (fun m => { m with id := 0 }) (fun _ _ => rfl)]
  have hb := build_eq owner s.ver
  obtain ⟨k1, _⟩ := foldl_addFile (buildList s.ver) (Edit.newAdd s.ver.vnode owner s.ver.lastSeq)
  rw [← hb] at k1
  have ha : (s.ver.build owner).add = (buildList s.ver).map Prod.fst := by rw [k1]; rfl
  simp only [Edit.setVnode, ha]
  rw [List.map_map]
  exact (buildList_perm hi.ids hi.good hi.levels).map _

/-! ## C30 — file numbers -/

/-- **C30**: after a restart the number handed out next is greater than that of every live file. -/
theorem C30_after_restart {owner : Bytes} {s : Sys} {M : List Meta} (h : Reach owner s M)
    (order : List (Nat × Meta) → List (Nat × Meta)) (ho : ∀ l, (order l).Perm l) :
    ∃ v n, recover s.ver.vnode order s.manifest = some (some (v, n)) ∧ (∀ f ∈ s.ver.files, f.id < n) ∧ ∀ f ∈ v.files, f.id < n := by
  have hi := reach_inv h
  obtain ⟨v, h1, h2, h3, _⟩ := recover_inv hi order ho
  have key : ∀ f ∈ s.ver.files, f.id < maxFile (current s.manifest) + 1 := by
    intro f hf
    obtain ⟨m, hm, rfl⟩ := List.mem_map.1 ((files_perm hi.ids hi.good hi.levels).mem_iff.1 hf)
    exact Nat.lt_succ_of_le (hi.fid m hm)
  refine ⟨v, _, h1, key, ?_⟩
  unfold Ver.files at key ⊢
  rw [h3]
  exact key

/-- **C30**: at any time, the number handed out next is greater than that of every live file and of every file that is being
written, and no two files that are being written have the same number or that of a live file. -/
theorem C30_running {owner : Bytes} {s : Sys} {M : List Meta} (h : Reach owner s M) :
    (∀ f ∈ s.ver.files, f.id < s.gen) ∧ (∀ t ∈ s.taken, t < s.gen) ∧ s.taken.Nodup ∧ ∀ t ∈ s.taken, ∀ f ∈ s.ver.files, f.id ≠ t := by
  have hi := reach_inv h
  have hp := files_perm hi.ids hi.good hi.levels
  refine ⟨?_, fun t ht => (hi.tlt t ht).2, hi.nodup, ?_⟩
  · intro f hf
    obtain ⟨m, hm, rfl⟩ := List.mem_map.1 (hp.mem_iff.1 hf)
    exact hi.lt m hm
  · intro t ht f hf
    obtain ⟨m, hm, rfl⟩ := List.mem_map.1 (hp.mem_iff.1 hf)
    exact hi.fresh t ht m hm

/-! ## C31 — the flushed-up-to mark -/

/-- The mark after one step. -/
def seqAfter (n : Nat) : Op → Nat
  | .commit seq _ _ _ _ _ => max n seq
  | _ => n

/-- All steps of a run are legal. -/
def LegalRun (owner : Bytes) : List Op → Sys → Prop
  | [], _ => True
  | op :: ops, s => Legal s op ∧ ∀ s', step owner op s = some s' → LegalRun owner ops s'

theorem step_seq {owner : Bytes} {s s' : Sys} {M : List Meta} (hi : Inv s M) (op : Op) (hl : Legal s op)
    (h : step owner op s = some s') : s'.ver.lastSeq = seqAfter s.ver.lastSeq op := by
  cases op with
  | take => cases h; rfl
  | restart order =>
    obtain ⟨v, h1, _, _, h4⟩ := recover_inv hi order hl
    simp only [step, h1] at h
    cases h
    exact h4
  | commit seq name adds dels part full =>
    simp only [step] at h
    obtain ⟨s1, h1, rfl⟩ := Option.map_eq_some_iff.1 h
    unfold Sys.apply at h1
    obtain ⟨v, h2, rfl⟩ := Option.map_eq_some_iff.1 h1
    unfold Ver.apply at h2
    split at h2
    · cases h2
      have := (foldl_addFile adds (Edit.newUpdate s.ver.vnode name seq)).2.1
      change max s.ver.lastSeq (adds.foldl (fun e p => e.addFile p.1 p.2) (Edit.newUpdate s.ver.vnode name seq)).seq = _
      rw [this]
      rfl
    · cases h2

/-- **C31**: over any run, with restarts and rewrites of the manifest anywhere, the mark is the greatest of the sequence numbers
of the recorded edits and the mark at the start. -/
theorem C31_mark_is_maximum {owner : Bytes} (ops : List Op) {s : Sys} {M : List Meta} (h : Reach owner s M)
    (hl : LegalRun owner ops s) : ∃ s', run owner ops s = some s' ∧ Reach owner s' (ops.foldl liveAfter M)
      ∧ s'.ver.lastSeq = ops.foldl seqAfter s.ver.lastSeq := by
  induction ops generalizing s M with
  | nil => exact ⟨s, rfl, h, rfl⟩
  | cons op ops ih =>
    obtain ⟨s1, h1⟩ := C29_no_failure h op hl.1
    obtain ⟨s', h2, h3, h4⟩ := ih (.step op h hl.1 h1) (hl.2 s1 h1)
    refine ⟨s', ?_, h3, ?_⟩
    · simp only [run, h1]; exact h2
    · rw [h4, List.foldl_cons, step_seq (reach_inv h) op hl.1 h1]

theorem seqAfter_le (ops : List Op) (n : Nat) : n ≤ ops.foldl seqAfter n := by
  induction ops generalizing n with
  | nil => exact Nat.le_refl _
  | cons op ops ih =>
    refine Nat.le_trans ?_ (ih _)
    cases op <;> simp only [seqAfter] <;> omega

/-- **C31**: the mark never moves backwards, and recovery gives the mark of the running system. -/
theorem C31_monotone {owner : Bytes} {s : Sys} {M : List Meta} (h : Reach owner s M) :
    (∀ ops s', LegalRun owner ops s → run owner ops s = some s' → s.ver.lastSeq ≤ s'.ver.lastSeq) ∧
    ∀ order, (∀ l, (order l).Perm l) → ∃ v n, recover s.ver.vnode order s.manifest = some (some (v, n))
      ∧ v.lastSeq = s.ver.lastSeq := by
  constructor
  · intro ops s' hl hr
    obtain ⟨s1, h1, _, h3⟩ := C31_mark_is_maximum ops h hl
    rw [h1] at hr
    cases hr
    rw [h3]
    exact seqAfter_le ops _
  · intro order ho
    obtain ⟨v, h1, _, _, h4⟩ := recover_inv (reach_inv h) order ho
    exact ⟨v, _, h1, h4⟩

/-! ## Examples -/

/-- Two flushes, a compaction of both into level 2 with a rewrite of the manifest, another flush, a restart, and a flush. -/
def exOps : List Op :=
  [.take, .commit 5 [] [(⟨1, 100, 7, 0, 10, 20, true⟩, 20)] [] [] false,
   .take, .commit 9 [] [(⟨2, 80, 7, 0, 15, 30, true⟩, 30)] [] [] false,
   .take, .take, .commit 0 [] [(⟨4, 150, 7, 2, 10, 30, false⟩, 30)]
     [⟨1, 0, 0, 0, 0, 0, true⟩, ⟨2, 0, 0, 0, 0, 0, true⟩] [] true,
   .commit 12 [] [(⟨3, 60, 7, 0, 31, 40, true⟩, 40)] [] [] false,
   .restart List.reverse,
   .commit 15 [] [(⟨5, 60, 7, 0, 41, 50, true⟩, 50)] [] [] false]

instance (s : Sys) (seq : Nat) (name : Bytes) (adds : List (Meta × Int)) (dels part : List Meta) (full : Bool) :
    Decidable (Legal s (.commit seq name adds dels part full)) := by unfold Legal; infer_instance

/-- A check of `LegalRun` for runs whose restarts walk the map backwards. -/
def checkRun (owner : Bytes) : List Op → Sys → Bool
  | [], _ => true
  | op :: ops, s =>
    (match op with
      | .commit seq name adds dels part full => decide (Legal s (.commit seq name adds dels part full))
      | _ => true) &&
    match step owner op s with
    | some s' => checkRun owner ops s'
    | none => true

theorem legalRun_of_check {owner : Bytes} (ops : List Op) (s : Sys) (h : checkRun owner ops s = true)
    (hr : ∀ o, Op.restart o ∈ ops → ∀ l, (o l).Perm l) : LegalRun owner ops s := by
  induction ops generalizing s with
  | nil => trivial
  | cons op ops ih =>
    simp only [checkRun, Bool.and_eq_true] at h
    refine ⟨?_, fun s' hs => ih s' ?_ fun o ho => hr o (List.mem_cons_of_mem _ ho)⟩
    · cases op with
      | take => trivial
      | commit => exact of_decide_eq_true h.1
      | restart o => exact hr o List.mem_cons_self
    · have := h.2
      rw [hs] at this
      exact this

/-- The hypotheses hold for this run, and its outcome. -/
example : ∃ s s', Sys.create 7 [] false = some s ∧ Reach [] s [] ∧ LegalRun [] exOps s ∧ run [] exOps s = some s'
    ∧ s'.ver.lastSeq = 15 ∧ s'.ver.files.map File.id = [3, 5, 4] ∧ s'.manifest.length = 3 ∧ s'.gen = 6 := by
  refine ⟨_, _, rfl, .create (v := 7) (full := false) rfl, legalRun_of_check _ _ (by decide +kernel) ?_, rfl, by decide +kernel⟩
  intro o ho l
  simp only [exOps, List.mem_cons, List.not_mem_nil, or_false, reduceCtorEq, false_or, Op.restart.injEq] at ho
  subst ho
  exact List.reverse_perm l

end Verif.Version
