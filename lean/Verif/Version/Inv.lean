import Verif.Version.Lemmas
/-! # The invariant that ties the manifest to the version -/
namespace Verif.Version
open Verif.Time Verif.Wal

/-! ## What the property is about -/

/-- The live files of a version. -/
def Ver.files (v : Ver) : List File := v.levels.flatMap Level.files

/-- The live files after one step, in terms of what the step means: a flush or compaction removes the files that it deletes and
adds its own, nothing else changes the set. -/
def liveAfter (M : List Meta) : Op → List Meta
  | .take => M
  | .commit _ _ adds dels _ _ => survive M dels ++ adds.map Prod.fst
  | .restart _ => M

/-- The steps that flushes and compactions take: new files carry numbers that were handed out and not used, each once; they
belong to the vnode, and delta files are exactly those of level 0; a file to delete is named with the level that it has. -/
def Legal (s : Sys) : Op → Prop
  | .take => True
  | .commit _ _ adds dels _ _ =>
    (adds.map fun p => p.1.id).Nodup
    ∧ (∀ p ∈ adds, p.1.id ∈ s.taken ∧ p.1.level < 5 ∧ p.1.vnode = s.ver.vnode ∧ p.1.delta = decide (p.1.level = 0))
    ∧ ∀ d ∈ dels, d.level < 5 ∧ ∀ f ∈ s.ver.files, d.id = f.id → d.level = f.level
  | .restart order => ∀ l, (order l).Perm l

/-- The states a vnode can be in, with the set of files that should be live. -/
inductive Reach (owner : Bytes) : Sys → List Meta → Prop
  | create {v : Nat} {full : Bool} {s : Sys} : Sys.create v owner full = some s → Reach owner s []
  | install {v : Nat} {full : Bool} {s s' : Sys} {M : List Meta} : Reach owner s M →
      Sys.install v owner full (s.ver.build owner) = some s' →
      Reach owner s' (renumber 1 ((s.ver.build owner).setVnode v).add)
  | step {s s' : Sys} {M : List Meta} (op : Op) : Reach owner s M → Legal s op → step owner op s = some s' →
      Reach owner s' (liveAfter M op)

/-! ## Folds -/

def filesOf (es : List Edit) : AMap Nat Meta := es.foldl applyFiles AMap.empty
def maxSeq (es : List Edit) : Nat := es.foldl (fun s e => max s e.seq) 0
def maxFile (es : List Edit) : Nat := es.foldl (fun s e => max s e.fileId) 0

theorem maxSeq_append (es : List Edit) (e : Edit) : maxSeq (es ++ [e]) = max (maxSeq es) e.seq := by simp [maxSeq]
theorem maxFile_append (es : List Edit) (e : Edit) : maxFile (es ++ [e]) = max (maxFile es) e.fileId := by simp [maxFile]
theorem filesOf_append (es : List Edit) (e : Edit) : filesOf (es ++ [e]) = applyFiles (filesOf es) e := by simp [filesOf]

theorem current_append (es : List Edit) (e : Edit) (h : e.act = .update) : current (es ++ [e]) = current es ++ [e] := by
  simp [current, h]

theorem current_single (e : Edit) (h : e.act = .add) : current [e] = [e] := by simp [current, h]

theorem get_foldl_del (ds : List Meta) (m : AMap Nat Meta) (k : Nat) (x : Meta) :
    (ds.foldl (fun m f => m.del f.id) m).get k = some x ↔ (∀ d ∈ ds, d.id ≠ k) ∧ m.get k = some x := by
  induction ds generalizing m with
  | nil => simp
  | cons d ds ih =>
    rw [List.foldl_cons, ih, AMap.get_del]
    by_cases h : k = d.id
    · simp [h]
    · rw [if_neg h]
      simp only [List.forall_mem_cons]
      exact ⟨fun ⟨a, b⟩ => ⟨⟨fun c => h c.symm, a⟩, b⟩, fun ⟨a, b⟩ => ⟨a.2, b⟩⟩

theorem get_applyFiles (m : AMap Nat Meta) (e : Edit) (k : Nat) (x : Meta) (h : Ids e.add) :
    (applyFiles m e).get k = some x ↔
      (x ∈ e.add ∧ x.id = k) ∨ ((∀ a ∈ e.add, a.id ≠ k) ∧ (∀ d ∈ e.del, d.id ≠ k) ∧ m.get k = some x) := by
  unfold applyFiles
  rw [AMap.get_foldl_set_iff (fun f : Meta => f.id) (fun f => f) e.add _ k x h, get_foldl_del]
  constructor
  · rintro (⟨a, h1, h2, rfl⟩ | h)
    · exact .inl ⟨h1, h2⟩
    · exact .inr h
  · rintro (⟨h1, h2⟩ | h)
    · exact .inl ⟨x, h1, h2, rfl⟩
    · exact .inr h

theorem foldl_addFile (adds : List (Meta × Int)) (e : Edit) :
    let r := adds.foldl (fun e p => e.addFile p.1 p.2) e
    r.add = e.add ++ adds.map Prod.fst ∧ r.seq = e.seq ∧ r.act = e.act ∧ r.del = e.del ∧ e.fileId ≤ r.fileId
      ∧ r.vnode = e.vnode ∧ ∀ p ∈ adds, p.1.id ≤ r.fileId := by
  induction adds generalizing e with
  | nil => simp
  | cons p adds ih =>
    obtain ⟨h1, h2, h3, h4, h5, h7, h6⟩ := ih (e.addFile p.1 p.2)
    have h8 : (e.addFile p.1 p.2).fileId = max e.fileId p.1.id := rfl
    rw [h8] at h5
    simp only [List.foldl_cons]
    refine ⟨?_, h2, h3, h4, by omega, h7, ?_⟩
    · rw [h1]; simp [Edit.addFile]
    · intro q hq
      rcases List.mem_cons.1 hq with rfl | hq
      · omega
      · exact h6 q hq

/-! ## The edit of a rewrite -/

/-- The description that `build_version_edit` writes for a file. -/
def File.desc (v : Nat) (f : File) : Meta := ⟨f.id, f.size, v, f.level, f.range.minTs, f.range.maxTs, decide (f.level = 0)⟩

theorem desc_file {v : Nat} {m : Meta} (h : m.Good v) : (m.file v).desc v = m := by
  obtain ⟨id, size, vn, level, a, b, d⟩ := m
  obtain ⟨_, h2, h3, _⟩ := h
  simp only at h2 h3
  simp only [File.desc, Meta.file, Meta.mk.injEq, true_and]
  exact ⟨h2.symm, h3.symm⟩

def buildList (v : Ver) : List (Meta × Int) :=
  v.levels.flatMap fun l => l.files.map fun f => (f.desc l.vnode, v.maxLevelTs)

theorem build_eq (owner : Bytes) (v : Ver) :
    v.build owner = (buildList v).foldl (fun e p => e.addFile p.1 p.2) (Edit.newAdd v.vnode owner v.lastSeq) := by
  unfold Ver.build buildList
  rw [List.foldl_flatMap]
  congr 1
  funext e l
  rw [List.foldl_map]
  rfl

theorem Ids.nodup {M : List Meta} (h : Ids M) : M.Nodup := List.Nodup.of_map _ h

theorem byLevel_perm {v : Nat} {M : List Meta} (hi : Ids M) (hg : ∀ m ∈ M, m.Good v) :
    ((List.range 5).flatMap fun l => M.filter fun m => decide (m.level = l)).Perm M := by
  rw [List.perm_ext_iff_of_nodup ?_ hi.nodup]
  · intro m
    simp only [List.mem_flatMap, List.mem_range, List.mem_filter, decide_eq_true_eq]
    constructor
    · rintro ⟨_, _, h, _⟩; exact h
    · intro h; exact ⟨_, (hg m h).1, h, rfl⟩
  · rw [List.nodup_flatMap]
    refine ⟨fun l _ => hi.nodup.filter _, ?_⟩
    refine List.Pairwise.imp ?_ List.nodup_range
    intro a b hab x h1 h2
    simp only [List.mem_filter, decide_eq_true_eq] at h1 h2
    exact hab (h1.2.symm.trans h2.2)

theorem buildList_perm {v : Ver} {M : List Meta} (hi : Ids M) (hg : ∀ m ∈ M, m.Good v.vnode)
    (hl : v.levels = levelsOf v.vnode M) : ((buildList v).map Prod.fst).Perm M := by
  refine List.Perm.trans ?_ (byLevel_perm hi hg)
  unfold buildList
  rw [hl, levelsOf, List.flatMap_map, List.map_flatMap]
  apply List.Perm.flatMap_left
  intro l _
  rw [List.map_map]
  refine ((sortFiles_perm _).map _).trans (List.Perm.of_eq ?_)
  rw [List.map_map]
  conv => rhs; rw [← List.map_id (M.filter fun m => decide (m.level = l))]
  apply List.map_congr_left
  intro m hm
  exact desc_file (hg m (List.mem_filter.1 hm).1)

theorem files_perm {v : Ver} {M : List Meta} (hi : Ids M) (hg : ∀ m ∈ M, m.Good v.vnode)
    (hl : v.levels = levelsOf v.vnode M) : v.files.Perm (M.map (·.file v.vnode)) := by
  refine List.Perm.trans ?_ ((byLevel_perm hi hg).map _)
  unfold Ver.files
  rw [hl, levelsOf, List.flatMap_map, List.map_flatMap]
  apply List.Perm.flatMap_left
  intro l _
  exact sortFiles_perm _

/-! ## The invariant -/

structure Inv (s : Sys) (M : List Meta) : Prop where
  ids : Ids M
  good : ∀ m ∈ M, m.Good s.ver.vnode
  levels : s.ver.levels = levelsOf s.ver.vnode M
  cur : current s.manifest ≠ []
  files : ∀ k m, (filesOf (current s.manifest)).get k = some m ↔ m ∈ M ∧ m.id = k
  seq : s.ver.lastSeq = maxSeq (current s.manifest)
  fid : ∀ m ∈ M, m.id ≤ maxFile (current s.manifest)
  lt : ∀ m ∈ M, m.id < s.gen
  nodup : s.taken.Nodup
  tlt : ∀ t ∈ s.taken, 1 ≤ t ∧ t < s.gen
  fresh : ∀ t ∈ s.taken, ∀ m ∈ M, m.id ≠ t
  pos : 1 ≤ s.gen

/-- The manifest after a rewrite. -/
theorem rewritten {v : Ver} {M : List Meta} (owner : Bytes) (hi : Ids M) (hg : ∀ m ∈ M, m.Good v.vnode)
    (hl : v.levels = levelsOf v.vnode M) :
    let man := [(v.build owner).stored]
    current man ≠ [] ∧ (∀ k m, (filesOf (current man)).get k = some m ↔ m ∈ M ∧ m.id = k)
      ∧ v.lastSeq = maxSeq (current man) ∧ ∀ m ∈ M, m.id ≤ maxFile (current man) := by
  have hb := build_eq owner v
  obtain ⟨h1, h2, h3, h4, _, _, h6⟩ := foldl_addFile (buildList v) (Edit.newAdd v.vnode owner v.lastSeq)
  rw [← hb] at h1 h2 h3 h4 h6
  have hp := buildList_perm hi hg hl
  have ha : (v.build owner).add = (buildList v).map Prod.fst := by rw [h1]; rfl
  have hd : (v.build owner).del = [] := h4
  have hc : current [(v.build owner).stored] = [(v.build owner).stored] := current_single _ h3
  simp only [hc]
  refine ⟨by simp, ?_, ?_, ?_⟩
  · intro k m
    rw [show [(v.build owner).stored] = [] ++ [(v.build owner).stored] from rfl, filesOf_append, get_applyFiles]
    · simp only [Edit.stored, ha, hp.mem_iff]
      constructor
      · rintro (h | ⟨_, _, h⟩)
        · exact h
        · simp [filesOf] at h
      · exact .inl
    · simp only [Edit.stored, ha]
      exact (hp.map _).nodup_iff.2 hi
  · simp only [maxSeq, List.foldl_cons, List.foldl_nil, Edit.stored, h2]
    change v.lastSeq = max 0 v.lastSeq
    omega
  · intro m hm
    obtain ⟨p, hp1, rfl⟩ := List.mem_map.1 (hp.mem_iff.2 hm)
    simp only [maxFile, List.foldl_cons, List.foldl_nil, Edit.stored]
    have := h6 p hp1
    omega

theorem mem_survive {M ds : List Meta} {m : Meta} : m ∈ survive M ds ↔ m ∈ M ∧ ∀ d ∈ ds, d.id ≠ m.id := by
  simp [survive, List.mem_filter, List.any_eq_false]

/-- What `Sys.apply` does to the state; the facts about the new set of files are given. -/
theorem apply_inv {s : Sys} {M : List Meta} {e : Edit} (owner : Bytes) (full : Bool)
    (hlv : s.ver.levels = levelsOf s.ver.vnode M)
    (hD : ∀ d ∈ e.del, d.level < 5 ∧ ∀ m ∈ M, d.id = m.id → d.level = m.level)
    (hN : Ids (survive M e.del ++ e.add)) (hG : ∀ m ∈ survive M e.del ++ e.add, m.Good s.ver.vnode)
    (hcur : current (s.manifest ++ [e.stored]) ≠ [])
    (hfiles : ∀ k m, (filesOf (current (s.manifest ++ [e.stored]))).get k = some m ↔ m ∈ survive M e.del ++ e.add ∧ m.id = k)
    (hseq : max s.ver.lastSeq e.seq = maxSeq (current (s.manifest ++ [e.stored])))
    (hfid : ∀ m ∈ survive M e.del ++ e.add, m.id ≤ maxFile (current (s.manifest ++ [e.stored]))) :
    ∃ s', s.apply owner full e = some s' ∧ s'.ver.vnode = s.ver.vnode ∧ s'.gen = s.gen ∧ s'.taken = s.taken
      ∧ s'.ver.lastSeq = max s.ver.lastSeq e.seq
      ∧ s'.ver.levels = levelsOf s'.ver.vnode (survive M e.del ++ e.add) ∧ current s'.manifest ≠ []
      ∧ (∀ k m, (filesOf (current s'.manifest)).get k = some m ↔ m ∈ survive M e.del ++ e.add ∧ m.id = k)
      ∧ s'.ver.lastSeq = maxSeq (current s'.manifest)
      ∧ ∀ m ∈ survive M e.del ++ e.add, m.id ≤ maxFile (current s'.manifest) := by
  have hall : ((e.add ++ e.del).all fun m => decide (m.level < 5)) = true := by
    rw [List.all_eq_true]
    intro m hm
    rcases List.mem_append.1 hm with hm | hm
    · exact decide_eq_true (hG m (List.mem_append_right _ hm)).1
    · exact decide_eq_true (hD m hm).1
  have hL := apply_levels s.ver.vnode M e (fun m hm => (hG m (List.mem_append_right _ hm)).2.1)
    (fun d hd m hm => (hD d hd).2 m hm) hN
  rw [← hlv] at hL
  unfold Sys.apply Ver.apply
  rw [if_pos hall]
  refine ⟨_, rfl, rfl, rfl, rfl, rfl, hL, ?_⟩
  cases full with
  | false => exact ⟨hcur, hfiles, hseq, hfid⟩
  | true =>
    simp only [if_true]
    exact rewritten owner hN hG hL

end Verif.Version
