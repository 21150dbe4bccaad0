/-!
# A stable sort

`slice::sort_by`, `sort_by_key` and friends are stable; every stable sort of a list by a total preorder
gives the same result, so models use this simple one.
-/
namespace Verif.Sort

variable {β : Type}

/-- Insert before the first element that is not smaller. -/
def insertBy (le : β → β → Bool) (a : β) : List β → List β
  | [] => [a]
  | b :: l => if le a b then a :: b :: l else b :: insertBy le a l

/-- Stable sort. -/
def sortBy (le : β → β → Bool) : List β → List β
  | [] => []
  | a :: l => insertBy le a (sortBy le l)

theorem insertBy_perm (le : β → β → Bool) (a : β) (l : List β) :
    (insertBy le a l).Perm (a :: l) := by
  induction l with
  | nil => exact List.Perm.refl _
  | cons b l ih =>
    unfold insertBy
    split
    · exact List.Perm.refl _
    · exact (List.Perm.cons b ih).trans (List.Perm.swap a b l)

theorem sortBy_perm (le : β → β → Bool) (l : List β) : (sortBy le l).Perm l := by
  induction l with
  | nil => exact List.Perm.refl _
  | cons a l ih => exact (insertBy_perm le a _).trans (List.Perm.cons a ih)

theorem mem_sortBy {le : β → β → Bool} {l : List β} {x : β} : x ∈ sortBy le l ↔ x ∈ l :=
  (sortBy_perm le l).mem_iff

theorem length_sortBy {le : β → β → Bool} {l : List β} : (sortBy le l).length = l.length :=
  (sortBy_perm le l).length_eq

theorem insertBy_sorted {le : β → β → Bool} (trans : ∀ a b c, le a b = true → le b c = true → le a c = true)
    (total : ∀ a b, le a b = true ∨ le b a = true) {a : β} {l : List β}
    (h : l.Pairwise (fun x y => le x y = true)) :
    (insertBy le a l).Pairwise (fun x y => le x y = true) := by
  induction l with
  | nil => simp [insertBy]
  | cons b l ih =>
    rw [List.pairwise_cons] at h
    unfold insertBy
    split
    · rename_i hab
      refine List.pairwise_cons.2 ⟨?_, List.pairwise_cons.2 h⟩
      intro x hx
      rcases List.mem_cons.1 hx with rfl | hx
      · exact hab
      · exact trans _ _ _ hab (h.1 x hx)
    · rename_i hab
      refine List.pairwise_cons.2 ⟨?_, ih h.2⟩
      intro x hx
      rcases List.mem_cons.1 ((insertBy_perm le a l).mem_iff.1 hx) with rfl | hx
      · exact (total x b).resolve_left hab
      · exact h.1 x hx

theorem sortBy_sorted {le : β → β → Bool} (trans : ∀ a b c, le a b = true → le b c = true → le a c = true)
    (total : ∀ a b, le a b = true ∨ le b a = true) (l : List β) :
    (sortBy le l).Pairwise (fun x y => le x y = true) := by
  induction l with
  | nil => exact List.Pairwise.nil
  | cons a l ih => exact insertBy_sorted trans total ih

theorem sortBy_of_sorted {le : β → β → Bool} {l : List β}
    (h : l.Pairwise (fun x y => le x y = true)) : sortBy le l = l := by
  induction l with
  | nil => rfl
  | cons a l ih =>
    rw [List.pairwise_cons] at h
    unfold sortBy
    rw [ih h.2]
    cases l with
    | nil => rfl
    | cons b l => simp [insertBy, h.1 b (by simp)]

/-- Stability: elements that satisfy `p` and are pairwise equivalent keep their order. -/
theorem insertBy_filter {le : β → β → Bool} (p : β → Bool) (a : β) (l : List β)
    (h : p a = true → ∀ b ∈ l, p b = true → le a b = true) :
    (insertBy le a l).filter p = if p a then a :: l.filter p else l.filter p := by
  induction l with
  | nil => unfold insertBy; cases hp : p a <;> simp [hp]
  | cons b l ih =>
    unfold insertBy
    by_cases hab : le a b = true
    · rw [if_pos hab]
      cases hp : p a <;> simp [hp]
    · rw [if_neg hab]
      have ih' := ih (fun ha c hc => h ha c (List.mem_cons_of_mem _ hc))
      cases hpb : p b
      · simp only [List.filter_cons, hpb, Bool.false_eq_true, if_false, ih']
      · simp only [List.filter_cons, hpb, if_true, ih']
        cases hp : p a
        · simp
        · exact absurd (h hp b (by simp) hpb) hab

theorem sortBy_filter {le : β → β → Bool} (p : β → Bool) (l : List β)
    (h : ∀ a ∈ l, ∀ b ∈ l, p a = true → p b = true → le a b = true) :
    (sortBy le l).filter p = l.filter p := by
  induction l with
  | nil => rfl
  | cons a l ih =>
    unfold sortBy
    rw [insertBy_filter p a _ (fun ha b hb hpb =>
      h a (by simp) b (List.mem_cons_of_mem _ (mem_sortBy.1 hb)) ha hpb),
      ih (fun a ha b hb => h a (List.mem_cons_of_mem _ ha) b (List.mem_cons_of_mem _ hb)),
      List.filter_cons]

end Verif.Sort
