import Verif.Compact.Model
/-!
# Compaction groups
-/
namespace Verif.Compact

open Verif.Sort Verif.Reader

variable {α : Type}

/-- What holds for the list of groups while it is worked on. -/
structure GrpsOk (gs : List (Grp α)) : Prop where
  sorted : gs.Pairwise fun g h => g.lo ≤ h.lo
  valid : ∀ g ∈ gs, g.lo ≤ g.hi
  inside : ∀ g ∈ gs, ∀ b ∈ g.blocks, g.lo ≤ b.lo ∧ b.hi ≤ g.hi

theorem absorb_far (g : Grp α) (hs : List (Grp α)) (h : ∀ k ∈ hs, k.blocks ≠ [] → g.hi < k.lo) : absorb g hs = (g, hs) := by
  induction hs with
  | nil => rfl
  | cons k hs ih =>
    have ih := ih (fun k hk => h k (List.mem_cons_of_mem _ hk))
    unfold absorb
    rw [ih]
    split
    · rfl
    · rename_i hne
      have hlt := h k List.mem_cons_self (by simpa using hne)
      have : g.overlaps k = false := by simp [Grp.overlaps, hlt]
      rw [this]; rfl

theorem absorb_spec (g : Grp α) (hs : List (Grp α)) (hv : g.lo ≤ g.hi) (hin : ∀ b ∈ g.blocks, g.lo ≤ b.lo ∧ b.hi ≤ g.hi)
    (hlo : ∀ k ∈ hs, g.lo ≤ k.lo) (hok : GrpsOk hs) :
    ((absorb g hs).1.blocks ++ (absorb g hs).2.flatMap Grp.blocks).Perm (g.blocks ++ hs.flatMap Grp.blocks) ∧
      (absorb g hs).1.lo = g.lo ∧ g.hi ≤ (absorb g hs).1.hi ∧
      (∀ b ∈ g.blocks, b ∈ (absorb g hs).1.blocks) ∧
      (∀ b ∈ (absorb g hs).1.blocks, g.lo ≤ b.lo ∧ b.hi ≤ (absorb g hs).1.hi) ∧
      GrpsOk (absorb g hs).2 ∧ (absorb g hs).2.map Grp.lo = hs.map Grp.lo ∧
      ∀ k ∈ (absorb g hs).2, k.blocks ≠ [] → (absorb g hs).1.hi < k.lo := by
  induction hs generalizing g with
  | nil =>
    exact ⟨List.Perm.refl _, rfl, Int.le_refl _, fun _ h => h, hin, hok, rfl, by simp [absorb]⟩
  | cons k hs ih =>
    have hs' := hok.sorted
    rw [List.pairwise_cons] at hs'
    have hok' : GrpsOk hs := ⟨hs'.2, fun g hg => hok.valid g (List.mem_cons_of_mem _ hg), fun g hg => hok.inside g (List.mem_cons_of_mem _ hg)⟩
    have hkv := hok.valid k List.mem_cons_self
    have hkl := hlo k List.mem_cons_self
    have hlo' : ∀ k ∈ hs, g.lo ≤ k.lo := fun k hk => hlo k (List.mem_cons_of_mem _ hk)
    by_cases he : k.blocks = []
    · obtain ⟨p1, p2, p3, p4, p5, p6, p7, p8⟩ := ih g hv hin hlo' hok'
      have e : absorb g (k :: hs) = ((absorb g hs).1, k :: (absorb g hs).2) := by rw [absorb, if_pos (by simp [he])]
      rw [e]
      simp only
      refine ⟨?_, p2, p3, p4, p5, ?_, by simp [p7], ?_⟩
      · simpa [he] using p1
      · refine ⟨?_, ?_, ?_⟩
        · rw [List.pairwise_cons]
          refine ⟨?_, p6.sorted⟩
          intro x hx
          have : x.lo ∈ (absorb g hs).2.map Grp.lo := List.mem_map.2 ⟨x, hx, rfl⟩
          rw [p7] at this
          obtain ⟨y, hy, hxy⟩ := List.mem_map.1 this
          have := hs'.1 y hy; omega
        · intro x hx
          rcases List.mem_cons.1 hx with e1 | hx
          · rw [e1]; exact hkv
          · exact p6.valid x hx
        · intro x hx
          rcases List.mem_cons.1 hx with e1 | hx
          · rw [e1]; simp [he]
          · exact p6.inside x hx
      · intro x hx hne
        rcases List.mem_cons.1 hx with e1 | hx
        · rw [e1] at hne; exact absurd he hne
        · exact p8 x hx hne
    · by_cases ho : g.overlaps k = true
      · obtain ⟨p1, p2, p3, p4, p5, p6, p7, p8⟩ := ih ⟨g.blocks ++ k.blocks, min g.lo k.lo, max g.hi k.hi⟩ (by simp only; omega)
          (by
            intro b hb
            simp only at hb ⊢
            rcases List.mem_append.1 hb with hb | hb
            · have := hin b hb; omega
            · have := hok.inside k List.mem_cons_self b hb; omega)
          (by intro x hx; simp only; have := hlo' x hx; omega) hok'
        have e : absorb g (k :: hs) = ((absorb ⟨g.blocks ++ k.blocks, min g.lo k.lo, max g.hi k.hi⟩ hs).1,
            { k with blocks := [] } :: (absorb ⟨g.blocks ++ k.blocks, min g.lo k.lo, max g.hi k.hi⟩ hs).2) := by
          rw [absorb, if_neg (by simpa using he), if_pos ho]
        rw [e]
        simp only at *
        refine ⟨?_, by omega, by omega, ?_, ?_, ?_, by simp [p7], ?_⟩
        · simpa using p1
        · intro b hb; exact p4 b (List.mem_append_left _ hb)
        · intro b hb; have := p5 b hb; omega
        · refine ⟨?_, ?_, ?_⟩
          · rw [List.pairwise_cons]
            refine ⟨?_, p6.sorted⟩
            intro x hx
            have : x.lo ∈ hs.map Grp.lo := by rw [← p7]; exact List.mem_map.2 ⟨x, hx, rfl⟩
            obtain ⟨y, hy, hxy⟩ := List.mem_map.1 this
            have := hs'.1 y hy
            simp only
            omega
          · intro x hx
            rcases List.mem_cons.1 hx with e1 | hx
            · rw [e1]; exact hkv
            · exact p6.valid x hx
          · intro x hx
            rcases List.mem_cons.1 hx with e1 | hx
            · rw [e1]; simp
            · exact p6.inside x hx
        · intro x hx hne
          rcases List.mem_cons.1 hx with e1 | hx
          · rw [e1] at hne; exact absurd rfl hne
          · exact p8 x hx hne
      · have hlt : g.hi < k.lo := by
          simp only [Grp.overlaps, Bool.not_eq_true, Bool.not_eq_false', Bool.or_eq_true, decide_eq_true_eq] at ho
          omega
        have hfar : ∀ x ∈ k :: hs, x.blocks ≠ [] → g.hi < x.lo := by
          intro x hx _
          rcases List.mem_cons.1 hx with e1 | hx
          · rw [e1]; exact hlt
          · have := hs'.1 x hx; omega
        rw [absorb_far g (k :: hs) hfar]
        exact ⟨List.Perm.refl _, rfl, Int.le_refl _, fun _ h => h, hin, hok, rfl, hfar⟩

theorem groupLoop_spec (gs : List (Grp α)) (hok : GrpsOk gs) :
    ((groupLoop gs).flatMap Grp.blocks).Perm (gs.flatMap Grp.blocks) ∧
      (∀ g ∈ groupLoop gs, ∀ b ∈ g.blocks, ∀ x, (∀ k ∈ gs, k.blocks ≠ [] → x < k.lo) → x < b.lo) ∧
      (groupLoop gs).Pairwise fun g h => ∀ a ∈ g.blocks, ∀ b ∈ h.blocks, a.hi < b.lo := by
  fun_induction groupLoop gs with
  | case1 => simp
  | case2 g gs he ih =>
    have hs := hok.sorted
    rw [List.pairwise_cons] at hs
    have hok' : GrpsOk gs := ⟨hs.2, fun g hg => hok.valid g (List.mem_cons_of_mem _ hg), fun g hg => hok.inside g (List.mem_cons_of_mem _ hg)⟩
    have he : g.blocks = [] := by simpa using he
    obtain ⟨h1, h2, h3⟩ := ih hok'
    refine ⟨?_, ?_, ?_⟩
    · simpa [he] using h1
    · intro k hk b hb x hx
      rcases List.mem_cons.1 hk with e | hk
      · rw [e, he] at hb; cases hb
      · exact h2 k hk b hb x (fun k hk => hx k (List.mem_cons_of_mem _ hk))
    · rw [List.pairwise_cons]
      exact ⟨fun k _ a ha => by (rw [he] at ha; cases ha), h3⟩
  | case3 g gs he ih =>
    have hs := hok.sorted
    rw [List.pairwise_cons] at hs
    have hok' : GrpsOk gs := ⟨hs.2, fun g hg => hok.valid g (List.mem_cons_of_mem _ hg), fun g hg => hok.inside g (List.mem_cons_of_mem _ hg)⟩
    have he : g.blocks ≠ [] := by simpa using he
    obtain ⟨p1, p2, p3, p4, p5, p6, p7, p8⟩ := absorb_spec g gs (hok.valid g List.mem_cons_self) (hok.inside g List.mem_cons_self) hs.1 hok'
    obtain ⟨h1, h2, h3⟩ := ih p6
    refine ⟨?_, ?_, ?_⟩
    · rw [List.flatMap_cons, List.flatMap_cons]
      exact (List.Perm.append_left _ h1).trans p1
    · intro k hk b hb x hx
      have hxg := hx g List.mem_cons_self he
      rcases List.mem_cons.1 hk with e | hk
      · rw [e] at hb
        have := p5 b hb; omega
      · apply h2 k hk b hb
        intro y hy hyn
        have := p8 y hy hyn
        have := hok.valid g List.mem_cons_self
        omega
    · rw [List.pairwise_cons]
      refine ⟨?_, h3⟩
      intro k hk a ha b hb
      have h5 := (p5 a ha).2
      have := h2 k hk b hb ((absorb g gs).1.hi) (fun y hy hyn => p8 y hy hyn)
      omega

theorem singles_ok (bs : List (Block α)) (h : bs.Pairwise fun a b => leB a b = true) (hv : ∀ b ∈ bs, b.lo ≤ b.hi) :
    GrpsOk (bs.map Grp.new) := by
  refine ⟨?_, ?_, ?_⟩
  · rw [List.pairwise_map]
    refine h.imp ?_
    intro a b hab
    simp only [leB, Bool.or_eq_true, Bool.and_eq_true, decide_eq_true_eq] at hab
    simp only [Grp.new]
    omega
  · intro g hg
    obtain ⟨b, hb, rfl⟩ := List.mem_map.1 hg
    exact hv b hb
  · intro g hg b hb
    obtain ⟨c, hc, rfl⟩ := List.mem_map.1 hg
    simp only [Grp.new, List.mem_singleton] at hb
    subst hb
    simp [Grp.new]

/-- **C39.** The groups that a compaction makes of the blocks of a series contain each block exactly once, no group is empty, and the
blocks of an earlier group end before the blocks of a later group begin, so that no time is in two groups. -/
theorem C39_groups (blocks : List (Block α)) (hv : ∀ b ∈ blocks, b.lo ≤ b.hi) :
    ((groupsOf blocks).flatMap Grp.blocks).Perm blocks ∧ (∀ g ∈ groupsOf blocks, g.blocks ≠ []) ∧
      ((groupsOf blocks).Pairwise fun g h => ∀ a ∈ g.blocks, ∀ b ∈ h.blocks, a.hi < b.lo) ∧
      (groupsOf blocks).Pairwise fun g h => ∀ a ∈ g.blocks, ∀ b ∈ h.blocks, ∀ t : Int, ¬ ((a.lo ≤ t ∧ t ≤ a.hi) ∧ (b.lo ≤ t ∧ t ≤ b.hi)) := by
  have hsorted : (sortBy leB blocks).Pairwise fun a b => leB a b = true := sortBy_sorted
    (by intro a b c h1 h2; simp only [leB, Bool.or_eq_true, Bool.and_eq_true, decide_eq_true_eq] at *; omega)
    (by intro a b; simp only [leB, Bool.or_eq_true, Bool.and_eq_true, decide_eq_true_eq]; omega) blocks
  obtain ⟨h1, _, h3⟩ := groupLoop_spec _ (singles_ok _ hsorted (fun b hb => hv b (mem_sortBy.1 hb)))
  have h4 : (groupsOf blocks).Pairwise fun g h => ∀ a ∈ g.blocks, ∀ b ∈ h.blocks, a.hi < b.lo := h3.filter _
  refine ⟨?_, ?_, h4, h4.imp ?_⟩
  · have e1 : ∀ l : List (Grp α), (l.filter fun g => !g.blocks.isEmpty).flatMap Grp.blocks = l.flatMap Grp.blocks := by
      intro l
      induction l with
      | nil => rfl
      | cons g l ih =>
        rw [List.filter_cons]
        by_cases he : g.blocks = []
        · simp [he, ih]
        · simp [he, ih]
    have e2 : ((sortBy leB blocks).map Grp.new).flatMap Grp.blocks = sortBy leB blocks := by
      generalize sortBy leB blocks = l
      induction l with
      | nil => rfl
      | cons b l ih => rw [List.map_cons, List.flatMap_cons, ih]; rfl
    rw [e2] at h1
    unfold groupsOf
    rw [e1]
    exact h1.trans (sortBy_perm leB blocks)
  · intro g hg
    have := (List.mem_filter.1 hg).2
    simpa using this
  · intro g h hgh a ha b hb t
    have := hgh a ha b hb
    omega

/-- Blocks for the examples. -/
def exBlocks : List (Block Nat) :=
  [⟨0, false, 10, 20, [], []⟩, ⟨1, false, 1, 5, [], []⟩, ⟨2, false, 18, 30, [], []⟩, ⟨1, false, 6, 9, [], []⟩, ⟨2, false, 4, 4, [], []⟩, ⟨3, true, 29, 29, [], []⟩]

example : (∀ b ∈ exBlocks, b.lo ≤ b.hi) ∧
    (groupsOf exBlocks).map (fun g => g.blocks.map fun b => (b.idx, b.lo)) = [[(1, 1), (2, 4)], [(1, 6)], [(0, 10), (2, 18), (3, 29)]] := by
  decide +kernel

end Verif.Compact
