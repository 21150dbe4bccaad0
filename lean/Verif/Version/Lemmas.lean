import Verif.Version.Model
import Mathlib.Data.List.Nodup
import Mathlib.Data.List.Perm.Basic
import Mathlib.Data.List.Perm.Subperm
/-! # Lemmas: levels as sorted sets of files -/
namespace Verif.Version
open Verif.Time Verif.Wal

/-- A level that holds the files `F`, in whatever order they came. -/
def canon (vnode l : Nat) (F : List File) : Level :=
  let fs := sortFiles F
  ⟨l, vnode, fs, (fs.map File.size).sum,
    ⟨fs.foldl (fun t f => min t f.range.minTs) i64Max, fs.foldl (fun t f => max t f.range.maxTs) i64Min⟩⟩

/-- No two files of the list have the same number. -/
def Distinct (F : List File) : Prop := (F.map File.id).Nodup

theorem Distinct.perm {F G : List File} (h : F.Perm G) (d : Distinct F) : Distinct G := (h.map _).nodup_iff.1 d

theorem Distinct.inj {F : List File} (d : Distinct F) {a b : File} (ha : a ∈ F) (hb : b ∈ F) (h : a.id = b.id) : a = b :=
  List.inj_on_of_nodup_map d ha hb h

theorem sortFiles_perm (F : List File) : (sortFiles F).Perm F := Sort.sortBy_perm _ _

theorem sortFiles_sorted (F : List File) : (sortFiles F).Pairwise fun a b => a.id ≤ b.id := by
  have := Sort.sortBy_sorted (le := fun a b : File => decide (a.id ≤ b.id))
    (by intro a b c; simp only [decide_eq_true_eq]; omega) (by intro a b; simp only [decide_eq_true_eq]; omega) F
  exact this.imp (by intro a b h; simpa using h)

theorem sortFiles_congr {F G : List File} (h : F.Perm G) (d : Distinct F) : sortFiles F = sortFiles G := by
  have hp : (sortFiles F).Perm (sortFiles G) := (sortFiles_perm F).trans (h.trans (sortFiles_perm G).symm)
  refine hp.eq_of_pairwise ?_ (sortFiles_sorted F) (sortFiles_sorted G)
  intro a b ha hb h1 h2
  have ha' := (sortFiles_perm F).mem_iff.1 ha
  have hb' := h.mem_iff.2 ((sortFiles_perm G).mem_iff.1 hb)
  exact d.inj ha' hb' (Nat.le_antisymm h1 h2)

theorem canon_congr {F G : List File} (v l : Nat) (h : F.Perm G) (d : Distinct F) : canon v l F = canon v l G := by
  unfold canon; rw [sortFiles_congr h d]

theorem foldl_min_perm {F G : List File} (h : F.Perm G) (t : Int) :
    F.foldl (fun t f => min t f.range.minTs) t = G.foldl (fun t f => min t f.range.minTs) t :=
  h.foldl_eq' (by intros; omega) t

theorem foldl_max_perm {F G : List File} (h : F.Perm G) (t : Int) :
    F.foldl (fun t f => max t f.range.maxTs) t = G.foldl (fun t f => max t f.range.maxTs) t :=
  h.foldl_eq' (by intros; omega) t

theorem pushFile_canon (v l : Nat) (F : List File) (f : File) (d : Distinct (F ++ [f])) :
    (canon v l F).pushFile f = canon v l (F ++ [f]) := by
  have hp : (sortFiles F ++ [f]).Perm (F ++ [f]) := (sortFiles_perm F).append_right [f]
  have hs : sortFiles (sortFiles F ++ [f]) = sortFiles (F ++ [f]) := sortFiles_congr hp (d.perm hp.symm)
  have hq : (sortFiles (F ++ [f])).Perm (sortFiles F ++ [f]) := (sortFiles_perm _).trans hp.symm
  unfold Level.pushFile canon
  simp only [hs, foldl_min_perm hq, foldl_max_perm hq, (hq.map File.size).sum_nat, List.foldl_append, List.foldl_cons,
    List.foldl_nil, List.map_append, List.sum_append, List.map_cons, List.map_nil, List.sum_cons, List.sum_nil, Nat.add_zero]

theorem pushMeta_canon (v l : Nat) (F : List File) (m : Meta) (hv : m.vnode = v) (d : Distinct (F ++ [m.file v])) :
    (canon v l F).pushMeta m = canon v l (F ++ [m.file v]) := by
  rw [← pushFile_canon v l F _ d]
  unfold Level.pushMeta Level.pushFile
  simp only [hv]
  rfl

theorem init_canon (v l : Nat) : Level.init v l = canon v l [] := rfl

theorem updateRange_canon (v l : Nat) (F : List File) : (canon v l F).updateRange = canon v l F := rfl

theorem foldl_pushFile (v l : Nat) (G F : List File) (d : Distinct (F ++ G)) :
    G.foldl (fun l f => l.pushFile f) (canon v l F) = canon v l (F ++ G) := by
  induction G generalizing F with
  | nil => simp
  | cons g G ih =>
    rw [List.append_cons] at d ⊢
    rw [List.foldl_cons, pushFile_canon, ih _ d]
    unfold Distinct at d ⊢
    rw [List.map_append] at d
    exact d.of_append_left

theorem foldl_pushMeta (v l : Nat) (M : List Meta) (F : List File) (hv : ∀ m ∈ M, m.vnode = v)
    (d : Distinct (F ++ M.map (·.file v))) :
    M.foldl (fun l m => l.pushMeta m) (canon v l F) = canon v l (F ++ M.map (·.file v)) := by
  induction M generalizing F with
  | nil => simp
  | cons m M ih =>
    rw [List.map_cons, List.append_cons] at d ⊢
    rw [List.foldl_cons, pushMeta_canon _ _ _ _ (hv m (by simp)), ih _ (fun a ha => hv a (by simp [ha])) d]
    unfold Distinct at d ⊢
    rw [List.map_append] at d
    exact d.of_append_left

/-- The levels of a vnode whose live files are `M`. -/
def levelsOf (v : Nat) (M : List Meta) : List Level :=
  (List.range 5).map fun l => canon v l ((M.filter fun m => decide (m.level = l)).map (·.file v))

/-- A description of a file as flushes and compactions of the vnode write it. -/
def Meta.Good (v : Nat) (m : Meta) : Prop := m.level < 5 ∧ m.vnode = v ∧ m.delta = decide (m.level = 0) ∧ 1 ≤ m.id

instance (v : Nat) (m : Meta) : Decidable (m.Good v) := by unfold Meta.Good; infer_instance

/-- The live files after an edit. -/
def survive (M : List Meta) (dels : List Meta) : List Meta := M.filter fun m => !(dels.any fun d => decide (d.id = m.id))

def Ids (M : List Meta) : Prop := (M.map Meta.id).Nodup

theorem Ids.files {M : List Meta} (h : Ids M) (v : Nat) (p : Meta → Bool) : Distinct ((M.filter p).map (·.file v)) := by
  unfold Distinct
  rw [List.map_map]
  exact h.sublist (List.filter_sublist.map _)

theorem Ids.inj {M : List Meta} (d : Ids M) {a b : Meta} (ha : a ∈ M) (hb : b ∈ M) (h : a.id = b.id) : a = b :=
  List.inj_on_of_nodup_map d ha hb h

theorem levelsOf_congr {M N : List Meta} (v : Nat) (h : M.Perm N) (d : Ids M) : levelsOf v M = levelsOf v N := by
  unfold levelsOf
  exact List.map_congr_left fun l _ => canon_congr v l ((h.filter _).map _) (d.files v _)

theorem applyLevel_canon (v l : Nat) (M : List Meta) (e : Edit) (hA : ∀ m ∈ e.add, m.vnode = v)
    (hD : ∀ d ∈ e.del, ∀ m ∈ M, d.id = m.id → d.level = m.level) (hN : Ids (survive M e.del ++ e.add)) :
    applyLevel v e (canon v l ((M.filter fun m => decide (m.level = l)).map (·.file v)))
      = canon v l (((survive M e.del ++ e.add).filter fun m => decide (m.level = l)).map (·.file v)) := by
  have hk : ((canon v l ((M.filter fun m => decide (m.level = l)).map (·.file v))).files.filter fun f =>
        !(e.del.any fun d => decide (d.level = f.level) && decide (d.id = f.id))).Perm
      (((survive M e.del).filter fun m => decide (m.level = l)).map (·.file v)) := by
    refine ((sortFiles_perm _).filter _).trans (List.Perm.of_eq ?_)
    rw [List.filter_map, survive, List.filter_filter, List.filter_filter]
    congr 1
    apply List.filter_congr
    intro m hm
    simp only [Function.comp, Meta.file]
    rw [Bool.and_comm]
    congr 2
    apply Bool.eq_iff_iff.2
    simp only [List.any_eq_true, Bool.and_eq_true, decide_eq_true_eq]
    constructor
    · rintro ⟨d, h1, h2⟩; exact ⟨d, h1, of_decide_eq_true h2.2⟩
    · rintro ⟨d, h1, h2⟩
      exact ⟨d, h1, decide_eq_true (hD d h1 m hm h2), decide_eq_true h2⟩
  have hd := hN.files v (fun m => decide (m.level = l))
  rw [List.filter_append, List.map_append] at hd
  have hd1 : Distinct (((survive M e.del).filter fun m => decide (m.level = l)).map (·.file v)) := by
    unfold Distinct at hd ⊢; rw [List.map_append] at hd; exact hd.of_append_left
  unfold applyLevel
  simp only []
  have hl : (canon v l ((M.filter fun m => decide (m.level = l)).map (·.file v))).level = l := rfl
  rw [hl, init_canon, foldl_pushFile _ _ _ _ (by rw [List.nil_append]; exact hd1.perm hk.symm), List.nil_append,
    canon_congr v l hk (hd1.perm hk.symm),
    foldl_pushMeta _ _ _ _ (fun m hm => hA m (List.mem_filter.1 hm).1) hd, updateRange_canon, List.filter_append,
    List.map_append]

/-- Applying an edit to the levels. -/
theorem apply_levels (v : Nat) (M : List Meta) (e : Edit) (hA : ∀ m ∈ e.add, m.vnode = v)
    (hD : ∀ d ∈ e.del, ∀ m ∈ M, d.id = m.id → d.level = m.level) (hN : Ids (survive M e.del ++ e.add)) :
    (levelsOf v M).map (applyLevel v e) = levelsOf v (survive M e.del ++ e.add) := by
  unfold levelsOf
  rw [List.map_map]
  exact List.map_congr_left fun l _ => applyLevel_canon v l M e hA hD hN

theorem initLevels_eq (v : Nat) : initLevels v = levelsOf v [] := rfl

/-- Recovery pushes the files one by one. -/
theorem foldl_pushTo (v : Nat) (N M : List Meta) (hv : ∀ m ∈ N, m.vnode = v ∧ m.level < 5) (d : Ids (M ++ N)) :
    N.foldl pushTo (levelsOf v M) = levelsOf v (M ++ N) := by
  induction N generalizing M with
  | nil => simp
  | cons m N ih =>
    rw [List.append_cons] at d ⊢
    rw [List.foldl_cons]
    have hm := hv m (by simp)
    have d1 : Ids (M ++ [m]) := by unfold Ids at d ⊢; rw [List.map_append] at d; exact d.of_append_left
    have hs : pushTo (levelsOf v M) m = levelsOf v (M ++ [m]) := by
      unfold pushTo levelsOf
      apply List.ext_getElem
      · simp
      · intro i h1 h2
        simp only [List.length_map, List.length_range] at h2
        rw [List.getElem_modify]
        simp only [List.getElem_map, List.getElem_range]
        rw [List.filter_append, List.map_append]
        split
        · rename_i hi
          subst hi
          rw [show ([m].filter fun a => decide (a.level = m.level)) = [m] by simp, List.map_cons, List.map_nil]
          apply pushMeta_canon _ _ _ _ hm.1
          have := d1.files v (fun a => decide (a.level = m.level))
          rw [List.filter_append, List.map_append] at this
          simpa using this
        · rename_i hi
          rw [show ([m].filter fun a => decide (a.level = i)) = [] by simp [hi]]
          simp
    rw [hs, ih _ (fun a ha => hv a (by simp [ha])) d]

end Verif.Version
