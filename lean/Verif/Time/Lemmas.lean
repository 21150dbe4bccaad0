import Verif.Time.Model
import Mathlib.Data.List.Basic
/-! Helper lemmas for time ranges. -/
namespace Verif.Time

/-- `t` lies in one of the closed intervals of `l`. -/
def Covers (l : List (Int × Int)) (t : Int) : Prop := ∃ e ∈ l, e.1 ≤ t ∧ t ≤ e.2

theorem covers_append (l m : List (Int × Int)) (t : Int) :
    Covers (l ++ m) t ↔ Covers l t ∨ Covers m t := by
  unfold Covers
  constructor
  · rintro ⟨e, he, h⟩
    rcases List.mem_append.1 he with he | he
    · exact Or.inl ⟨e, he, h⟩
    · exact Or.inr ⟨e, he, h⟩
  · rintro (⟨e, he, h⟩ | ⟨e, he, h⟩)
    · exact ⟨e, List.mem_append_left _ he, h⟩
    · exact ⟨e, List.mem_append_right _ he, h⟩

/-- Ascending, non-empty, pairwise disjoint and non-adjacent intervals of 64-bit integers. -/
structure Sep (l : List (Int × Int)) : Prop where
  pw : l.Pairwise (fun a b => a.2 + 1 < b.1)
  ok : ∀ e ∈ l, e.1 ≤ e.2 ∧ IsI64 e.1 ∧ IsI64 e.2

theorem Sep.nil : Sep [] := ⟨List.Pairwise.nil, by simp⟩

theorem Sep.sublist {l m : List (Int × Int)} (h : Sep l) (hs : m.Sublist l) : Sep m :=
  ⟨h.pw.sublist hs, fun e he => h.ok e (hs.subset he)⟩

/-- Splitting an ordered list by a predicate that is downward closed. -/
theorem filter_split {α : Type} {R : α → α → Prop} {p : α → Bool} {l : List α}
    (hpw : l.Pairwise R) (hp : ∀ a ∈ l, ∀ b ∈ l, R a b → p b = true → p a = true) :
    l = l.filter p ++ l.filter (fun x => !p x) := by
  induction l with
  | nil => rfl
  | cons x l ih =>
    rw [List.pairwise_cons] at hpw
    have ih' := ih hpw.2 (fun a ha b hb => hp a (List.mem_cons_of_mem _ ha) b (List.mem_cons_of_mem _ hb))
    by_cases hx : p x = true
    · simp only [List.filter_cons, hx, if_true, Bool.not_true, List.cons_append]
      rw [if_neg (by simp)]
      congr 1
    · have hl : l.filter p = [] := by
        apply List.filter_eq_nil_iff.2
        intro b hb hpb
        exact hx (hp x (List.mem_cons_self ..) b (List.mem_cons_of_mem _ hb) (hpw.1 b hb) hpb)
      have hx' : p x = false := by simpa using hx
      rw [hl] at ih'
      simp only [List.filter_cons, hx', Bool.false_eq_true, if_false, Bool.not_false, if_true, hl,
        List.nil_append]
      congr 1

theorem reverse_takeWhile {α : Type} {q : α → Bool} {X Y : List α} (hY : ∀ y ∈ Y, q y = true)
    (hX : ∀ x ∈ X, q x = false) : (X ++ Y).reverse.takeWhile q = Y.reverse := by
  rw [List.reverse_append]
  have h1 : ∀ y ∈ Y.reverse, q y = true := fun y hy => hY y (List.mem_reverse.1 hy)
  rw [List.takeWhile_append_of_pos h1]
  cases hx : X.reverse with
  | nil => simp
  | cons x xs =>
    have : x ∈ X := by rw [← List.mem_reverse, hx]; exact List.mem_cons_self ..
    simp [List.takeWhile_cons, hX x this]

theorem btInsert_between (k v : Int) (A C : List (Int × Int)) (hA : ∀ e ∈ A, e.1 < k)
    (hC : ∀ e ∈ C, k < e.1) : TimeRanges.btInsert k v (A ++ C) = A ++ (k, v) :: C := by
  induction A with
  | nil =>
    cases C with
    | nil => rfl
    | cons c C =>
      have := hC c (List.mem_cons_self ..)
      simp [TimeRanges.btInsert, this]
  | cons a A ih =>
    have := hA a (List.mem_cons_self ..)
    rw [List.cons_append, TimeRanges.btInsert, if_neg (by omega), if_neg (by omega),
      ih (fun e he => hA e (List.mem_cons_of_mem _ he))]
    rfl

/-- What `add_time_range` does to the stored intervals: those touching or adjacent to the new one
(`B`) are replaced by a single one. -/
theorem addTimeRange_inner {s : TimeRanges} {r : TimeRange} (hs : Sep s.inner)
    (hr : r.minTs ≤ r.maxTs) (h1 : IsI64 r.minTs) (h2 : IsI64 r.maxTs) :
    ∃ (A B C : List (Int × Int)) (lo hi : Int), s.inner = A ++ B ++ C ∧
      (s.addTimeRange r).inner = A ++ (lo, hi) :: C ∧
      (∀ e ∈ A, e.2 + 1 < r.minTs) ∧ (∀ e ∈ C, r.maxTs + 1 < e.1) ∧
      (∀ e ∈ B, r.minTs ≤ e.2 + 1 ∧ e.1 ≤ r.maxTs + 1) ∧
      lo = (match B.head? with | none => r.minTs | some e => min r.minTs e.1) ∧
      hi = (match B.getLast? with | none => r.maxTs | some e => max r.maxTs e.2) := by
  let pk : Int × Int → Bool := fun e => e.1 ≤ satSucc r.maxTs
  let pa : Int × Int → Bool := fun e => e.2 < satPred r.minTs
  let AB := s.inner.filter pk
  let C := s.inner.filter (fun x => !pk x)
  let A := AB.filter pa
  let B := AB.filter (fun x => !pa x)
  have hsplit1 : s.inner = AB ++ C := filter_split hs.pw (by
    intro a ha b hb hab hp
    have := (hs.ok a ha).1
    simp only [pk, decide_eq_true_eq] at hp ⊢
    omega)
  have hsubAB : AB.Sublist s.inner := List.filter_sublist
  have hsAB := hs.sublist hsubAB
  have hsplit2 : AB = A ++ B := filter_split hsAB.pw (by
    intro a ha b hb hab hp
    have := (hsAB.ok b hb).1
    simp only [pa, decide_eq_true_eq] at hp ⊢
    omega)
  have hA : ∀ e ∈ A, e.2 + 1 < r.minTs := by
    intro e he
    have := of_decide_eq_true (List.mem_filter.1 he).2
    have hI := (hsAB.ok e (List.mem_filter.1 he).1)
    simp only [satPred, i64Min] at this
    unfold IsI64 at *
    split at this <;> omega
  have hC : ∀ e ∈ C, r.maxTs + 1 < e.1 := by
    intro e he
    have := (List.mem_filter.1 he).2
    have hI := hs.ok e (List.mem_filter.1 he).1
    simp only [pk, Bool.not_eq_true'] at this
    have := of_decide_eq_false this
    simp only [satSucc, i64Max] at this
    unfold IsI64 at *
    split at this <;> omega
  have hB : ∀ e ∈ B, r.minTs ≤ e.2 + 1 ∧ e.1 ≤ r.maxTs + 1 := by
    intro e he
    have hb := (List.mem_filter.1 he).2
    have hab := (List.mem_filter.1 (List.mem_filter.1 he).1).2
    have hI := hsAB.ok e (List.mem_filter.1 he).1
    simp only [pa, Bool.not_eq_true'] at hb
    have hb := of_decide_eq_false hb
    have hab := of_decide_eq_true hab
    simp only [satPred, i64Min] at hb
    simp only [satSucc, i64Max] at hab
    unfold IsI64 at *
    constructor
    · split at hb <;> omega
    · split at hab <;> omega
  have hcands : (AB.reverse.takeWhile (fun e => satPred r.minTs ≤ e.2)) = B.reverse := by
    rw [hsplit2]
    apply reverse_takeWhile
    · intro e he
      have hb := (List.mem_filter.1 he).2
      simp only [pa, Bool.not_eq_true', decide_eq_false_iff_not, Int.not_lt] at hb
      simpa using hb
    · intro e he
      have hb := (List.mem_filter.1 he).2
      simp only [pa, decide_eq_true_eq] at hb
      simpa using hb
  -- keys of B differ from keys of A and C
  have hpw := hs.pw
  rw [hsplit1, hsplit2] at hpw
  rw [List.pairwise_append, List.pairwise_append] at hpw
  obtain ⟨⟨hpA, hpB, hAB⟩, hpC, hABC⟩ := hpw
  have hokA : ∀ e ∈ A, e.1 ≤ e.2 := fun e he => (hsAB.ok e (List.mem_filter.1 he).1).1
  have hokB : ∀ e ∈ B, e.1 ≤ e.2 := fun e he => (hsAB.ok e (List.mem_filter.1 he).1).1
  have hrest : s.inner.filter (fun e => !(B.reverse.map Prod.fst).contains e.1) = A ++ C := by
    rw [hsplit1, hsplit2, List.filter_append, List.filter_append]
    have fA : A.filter (fun e => !(B.reverse.map Prod.fst).contains e.1) = A := by
      apply List.filter_eq_self.2
      intro a ha
      simp only [Bool.not_eq_true', List.contains_eq_mem, decide_eq_false_iff_not]
      intro hm
      obtain ⟨b, hb, hbe⟩ := List.mem_map.1 hm
      have := hAB a ha b (List.mem_reverse.1 hb)
      have := hokA a ha
      omega
    have fB : B.filter (fun e => !(B.reverse.map Prod.fst).contains e.1) = [] := by
      apply List.filter_eq_nil_iff.2
      intro b hb
      simp only [Bool.not_eq_true, Bool.not_eq_false', List.contains_eq_mem, decide_eq_true_eq]
      exact List.mem_map.2 ⟨b, List.mem_reverse.2 hb, rfl⟩
    have fC : C.filter (fun e => !(B.reverse.map Prod.fst).contains e.1) = C := by
      apply List.filter_eq_self.2
      intro c hc
      simp only [Bool.not_eq_true', List.contains_eq_mem, decide_eq_false_iff_not]
      intro hm
      obtain ⟨b, hb, hbe⟩ := List.mem_map.1 hm
      have := hABC b (List.mem_append_right _ (List.mem_reverse.1 hb)) c hc
      have := hokB b (List.mem_reverse.1 hb)
      omega
    rw [fA, fB, fC, List.append_nil]
  refine ⟨A, B, C, _, _, by rw [← hsplit2]; exact hsplit1, ?_, hA, hC, hB, rfl, rfl⟩
  have hlo : (match (B.reverse.map Prod.fst).getLast? with
      | none => r.minTs
      | some k => min r.minTs k)
      = (match B.head? with | none => r.minTs | some e => min r.minTs e.1) := by
    rw [List.getLast?_map, List.getLast?_reverse]
    cases B.head? <;> rfl
  have hhi : (match (B.reverse).head? with
      | none => r.maxTs
      | some e => max r.maxTs e.2)
      = (match B.getLast? with | none => r.maxTs | some e => max r.maxTs e.2) := by
    rw [List.head?_reverse]
  have e : (s.addTimeRange r).inner = TimeRanges.btInsert
      (match (B.reverse.map Prod.fst).getLast? with
        | none => r.minTs
        | some k => min r.minTs k)
      (match (B.reverse).head? with
        | none => r.maxTs
        | some e => max r.maxTs e.2)
      (s.inner.filter (fun e => !(B.reverse.map Prod.fst).contains e.1)) := by
    rw [← hcands]; rfl
  rw [e, hlo, hhi, hrest]
  apply btInsert_between
  · intro a ha
    have h1 := hA a ha
    have h2 := hokA a ha
    split
    · omega
    · rename_i b hb
      have := hAB a ha b (List.mem_of_head? hb)
      omega
  · intro c hc
    have h1 := hC c hc
    split
    · omega
    · omega

theorem addTimeRange_sep {s : TimeRanges} {r : TimeRange} (hs : Sep s.inner)
    (hr : r.minTs ≤ r.maxTs) (h1 : IsI64 r.minTs) (h2 : IsI64 r.maxTs) :
    Sep (s.addTimeRange r).inner ∧
    ∀ t, Covers (s.addTimeRange r).inner t ↔ Covers s.inner t ∨ (r.minTs ≤ t ∧ t ≤ r.maxTs) := by
  obtain ⟨A, B, C, lo, hi, hin, hout, hA, hC, hB, hlo, hhi⟩ := addTimeRange_inner hs hr h1 h2
  have hpw := hs.pw
  rw [hin, List.pairwise_append, List.pairwise_append] at hpw
  obtain ⟨⟨hpA, hpB, hAB⟩, hpC, hABC⟩ := hpw
  have hok : ∀ e, e ∈ A ∨ e ∈ B ∨ e ∈ C → e.1 ≤ e.2 ∧ IsI64 e.1 ∧ IsI64 e.2 := by
    intro e he
    apply hs.ok
    rw [hin]
    simp only [List.mem_append]
    tauto
  -- facts about lo and hi
  have hlo1 : lo ≤ r.minTs ∧ IsI64 lo ∧ (lo = r.minTs ∨ ∃ b, B.head? = some b ∧ lo = b.1) := by
    rw [hlo]
    cases hb : B.head? with
    | none => exact ⟨Int.le_refl _, h1, Or.inl rfl⟩
    | some b =>
      have hbm := List.mem_of_head? hb
      have := hok b (by tauto)
      simp only
      refine ⟨by omega, ?_, ?_⟩
      · unfold IsI64 at *; omega
      · by_cases h : r.minTs ≤ b.1
        · left; omega
        · right; exact ⟨b, rfl, by omega⟩
  have hhi1 : r.maxTs ≤ hi ∧ IsI64 hi ∧ (hi = r.maxTs ∨ ∃ b, B.getLast? = some b ∧ hi = b.2) := by
    rw [hhi]
    cases hb : B.getLast? with
    | none => exact ⟨Int.le_refl _, h2, Or.inl rfl⟩
    | some b =>
      have hbm := List.mem_of_getLast? hb
      have := hok b (by tauto)
      simp only
      refine ⟨by omega, ?_, ?_⟩
      · unfold IsI64 at *; omega
      · by_cases h : b.2 ≤ r.maxTs
        · left; omega
        · right; exact ⟨b, rfl, by omega⟩
  -- every element of B lies inside [lo, hi]
  have hBlo : ∀ b ∈ B, lo ≤ b.1 := by
    intro b hb
    cases hBe : B with
    | nil => rw [hBe] at hb; simp at hb
    | cons x xs =>
      rw [hBe] at hb hlo hpB
      simp only [List.head?_cons] at hlo
      rcases List.mem_cons.1 hb with rfl | hb
      · omega
      · have := (List.pairwise_cons.1 hpB).1 b hb
        have hx := hok x (by rw [hBe]; simp)
        omega
  have hBhi : ∀ b ∈ B, b.2 ≤ hi := by
    intro b hb
    rcases List.eq_nil_or_concat' B with hBe | ⟨xs, x, hBe⟩
    · rw [hBe] at hb; simp at hb
    · rw [hBe] at hb hhi hpB
      simp only [List.getLast?_concat] at hhi
      rcases List.mem_append.1 hb with hb | hb
      · have := (List.pairwise_append.1 hpB).2.2 b hb x (by simp)
        have hx := hok x (by rw [hBe]; simp)
        omega
      · simp only [List.mem_singleton] at hb
        subst hb; omega
  refine ⟨⟨?_, ?_⟩, ?_⟩
  · rw [hout, List.pairwise_append]
    refine ⟨hpA, ?_, ?_⟩
    · rw [List.pairwise_cons]
      refine ⟨?_, hpC⟩
      intro c hc
      rcases hhi1.2.2 with h | ⟨b, hb, h⟩
      · rw [h]; exact hC c hc
      · rw [h]; exact hABC b (List.mem_append_right _ (List.mem_of_getLast? hb)) c hc
    · intro a ha x hx
      rcases List.mem_cons.1 hx with rfl | hx
      · rcases hlo1.2.2 with h | ⟨b, hb, h⟩
        · simp only; rw [h]; exact hA a ha
        · simp only; rw [h]; exact hAB a ha b (List.mem_of_head? hb)
      · exact hABC a (List.mem_append_left _ ha) x hx
  · intro e he
    rw [hout] at he
    rcases List.mem_append.1 he with he | he
    · exact hok e (by tauto)
    · rcases List.mem_cons.1 he with rfl | he
      · exact ⟨by simp only; omega, hlo1.2.1, hhi1.2.1⟩
      · exact hok e (by tauto)
  · intro t
    have hcons : ∀ l : List (Int × Int), Covers ((lo, hi) :: l) t ↔ (lo ≤ t ∧ t ≤ hi) ∨ Covers l t := by
      intro l
      unfold Covers
      simp
    rw [hout, hin, covers_append, covers_append, covers_append, hcons]
    have key : (lo ≤ t ∧ t ≤ hi) ↔ Covers B t ∨ (r.minTs ≤ t ∧ t ≤ r.maxTs) := by
      constructor
      · rintro ⟨ha, hb⟩
        by_cases c1 : t < r.minTs
        · left
          rcases hlo1.2.2 with h | ⟨b, hbh, h⟩
          · omega
          · have hbm := List.mem_of_head? hbh
            have := (hB b hbm).1
            exact ⟨b, hbm, by omega, by omega⟩
        · by_cases c2 : r.maxTs < t
          · left
            rcases hhi1.2.2 with h | ⟨b, hbh, h⟩
            · omega
            · have hbm := List.mem_of_getLast? hbh
              have := (hB b hbm).2
              exact ⟨b, hbm, by omega, by omega⟩
          · right; omega
      · rintro (⟨b, hb, h3, h4⟩ | h)
        · have := hBlo b hb
          have := hBhi b hb
          omega
        · omega
    rw [key]
    constructor
    · rintro (h | (h | h) | h)
      · exact Or.inl (Or.inl (Or.inl h))
      · exact Or.inl (Or.inl (Or.inr h))
      · exact Or.inr h
      · exact Or.inl (Or.inr h)
    · rintro (((h | h) | h) | h)
      · exact Or.inl h
      · exact Or.inr (Or.inl (Or.inl h))
      · exact Or.inr (Or.inr h)
      · exact Or.inr (Or.inl (Or.inr h))

theorem foldl_add_sep (rs : List TimeRange)
    (h : ∀ r ∈ rs, r.minTs ≤ r.maxTs ∧ IsI64 r.minTs ∧ IsI64 r.maxTs) :
    ∀ (s : TimeRanges), Sep s.inner → Sep (rs.foldl TimeRanges.addTimeRange s).inner ∧
    ∀ t, Covers (rs.foldl TimeRanges.addTimeRange s).inner t ↔
      Covers s.inner t ∨ ∃ r ∈ rs, r.minTs ≤ t ∧ t ≤ r.maxTs := by
  induction rs with
  | nil => intro s hs; exact ⟨hs, by simp⟩
  | cons r rs ih =>
    intro s hs
    obtain ⟨a, b, c⟩ := h r (List.mem_cons_self ..)
    obtain ⟨h1, h2⟩ := addTimeRange_sep hs a b c
    obtain ⟨h3, h4⟩ := ih (fun x hx => h x (List.mem_cons_of_mem _ hx)) _ h1
    refine ⟨h3, ?_⟩
    intro t
    rw [List.foldl_cons, h4, h2]
    simp only [List.mem_cons, exists_eq_or_imp, or_assoc]

theorem contains_iff_covers {s : TimeRanges} (hs : Sep s.inner) (t : Int) :
    s.contains t = true ↔ Covers s.inner t := by
  let pk : Int × Int → Bool := fun e => e.1 ≤ t
  have hsplit : s.inner = s.inner.filter pk ++ s.inner.filter (fun x => !pk x) :=
    filter_split hs.pw (by
      intro a ha b hb hab hp
      have := (hs.ok a ha).1
      simp only [pk, decide_eq_true_eq] at hp ⊢
      omega)
  have hsub : Sep (s.inner.filter pk) := hs.sublist List.filter_sublist
  have hdef : s.contains t = (match (s.inner.filter pk).getLast? with
    | some e => decide (t ≤ e.2) && decide (t ≥ e.1)
    | none => false) := rfl
  rw [hdef]
  rcases List.eq_nil_or_concat' (s.inner.filter pk) with he | ⟨xs, x, he⟩
  · rw [he]
    simp only [List.getLast?_nil, Bool.false_eq_true, false_iff]
    rintro ⟨e, hm, h1, h2⟩
    have : e ∈ s.inner.filter pk := List.mem_filter.2 ⟨hm, by simpa [pk] using h1⟩
    rw [he] at this; simp at this
  · rw [he]
    simp only [List.getLast?_concat, Bool.and_eq_true, decide_eq_true_eq]
    have hxm : x ∈ s.inner.filter pk := by rw [he]; simp
    constructor
    · rintro ⟨h1, h2⟩
      exact ⟨x, (List.mem_filter.1 hxm).1, h2, h1⟩
    · rintro ⟨e, hm, h1, h2⟩
      have hef : e ∈ s.inner.filter pk := List.mem_filter.2 ⟨hm, by simpa [pk] using h1⟩
      rw [he] at hef
      rcases List.mem_append.1 hef with hex | hex
      · have hp := hsub.pw
        rw [he] at hp
        have := (List.pairwise_append.1 hp).2.2 e hex x (by simp)
        have hx1 : x.1 ≤ t := by simpa [pk] using (List.mem_filter.1 hxm).2
        omega
      · simp only [List.mem_singleton] at hex
        subst hex; exact ⟨h2, h1⟩

end Verif.Time

namespace Verif.Time

/-- A well-formed collection: separated intervals within the recorded hull. -/
structure WF (s : TimeRanges) : Prop where
  sep : Sep s.inner
  hull : ∀ e ∈ s.inner, s.minTs ≤ e.1 ∧ e.2 ≤ s.maxTs

theorem WF.empty : WF TimeRanges.empty := ⟨Sep.nil, by simp [TimeRanges.empty]⟩

theorem addTimeRange_wf {s : TimeRanges} {r : TimeRange} (hs : WF s)
    (hr : r.minTs ≤ r.maxTs) (h1 : IsI64 r.minTs) (h2 : IsI64 r.maxTs) :
    WF (s.addTimeRange r) := by
  refine ⟨(addTimeRange_sep hs.sep hr h1 h2).1, ?_⟩
  obtain ⟨A, B, C, lo, hi, hin, hout, hA, hC, hB, hlo, hhi⟩ := addTimeRange_inner hs.sep hr h1 h2
  have hh := hs.hull
  intro e he
  have m1 : (s.addTimeRange r).minTs = min s.minTs r.minTs := rfl
  have m2 : (s.addTimeRange r).maxTs = max s.maxTs r.maxTs := rfl
  rw [m1, m2]
  rw [hout] at he
  have old : ∀ e, e ∈ s.inner → min s.minTs r.minTs ≤ e.1 ∧ e.2 ≤ max s.maxTs r.maxTs := by
    intro e he; have := hh e he; omega
  rcases List.mem_append.1 he with he | he
  · exact old e (by rw [hin]; simp [he])
  rcases List.mem_cons.1 he with rfl | he
  · simp only
    constructor
    · rw [hlo]; split
      · omega
      · rename_i b hb
        have := old b (by rw [hin]; simp [List.mem_of_head? hb])
        omega
    · rw [hhi]; split
      · omega
      · rename_i b hb
        have := old b (by rw [hin]; simp [List.mem_of_getLast? hb])
        omega
  · exact old e (by rw [hin]; simp [he])

theorem foldl_add_wf (rs : List TimeRange)
    (h : ∀ r ∈ rs, r.minTs ≤ r.maxTs ∧ IsI64 r.minTs ∧ IsI64 r.maxTs) :
    ∀ (s : TimeRanges), WF s → WF (rs.foldl TimeRanges.addTimeRange s) := by
  induction rs with
  | nil => intro s hs; exact hs
  | cons r rs ih =>
    intro s hs
    obtain ⟨a, b, c⟩ := h r (List.mem_cons_self ..)
    exact ih (fun x hx => h x (List.mem_cons_of_mem _ hx)) _ (addTimeRange_wf hs a b c)

theorem new_eq (rs : List TimeRange) :
    TimeRanges.new rs = rs.foldl TimeRanges.addTimeRange TimeRanges.empty := by
  have : TimeRanges.isBoundless TimeRanges.empty = false := by decide
  unfold TimeRanges.new TimeRanges.extend
  rw [this]; rfl

theorem new_wf (rs : List TimeRange)
    (h : ∀ r ∈ rs, r.minTs ≤ r.maxTs ∧ IsI64 r.minTs ∧ IsI64 r.maxTs) : WF (TimeRanges.new rs) := by
  rw [new_eq]; exact foldl_add_wf rs h _ WF.empty

theorem new_covers (rs : List TimeRange)
    (h : ∀ r ∈ rs, r.minTs ≤ r.maxTs ∧ IsI64 r.minTs ∧ IsI64 r.maxTs) (t : Int) :
    Covers (TimeRanges.new rs).inner t ↔ ∃ r ∈ rs, r.minTs ≤ t ∧ t ≤ r.maxTs := by
  rw [new_eq, (foldl_add_sep rs h _ Sep.nil).2 t]
  constructor
  · rintro (⟨e, he, _⟩ | h)
    · simp [TimeRanges.empty] at he
    · exact h
  · exact Or.inr

theorem excludeLoop_spec (self : TimeRange) (hmax : self.maxTs < i64Max) (es : List (Int × Int)) :
    Sep es → ∀ (tmp : Int) (acc : List TimeRange), IsI64 tmp →
    match self.excludeLoop es tmp acc with
    | none => ∀ t, IsI64 t → Covers es t
    | some (tmp', acc') => ∃ new, acc' = acc ++ new ∧ IsI64 tmp' ∧
        (∀ r ∈ new, r.minTs ≤ r.maxTs ∧ IsI64 r.minTs ∧ IsI64 r.maxTs ∧ tmp ≤ r.minTs ∧
          r.maxTs ≤ self.maxTs) ∧ tmp ≤ tmp' ∧
        ∀ t, tmp ≤ t → t ≤ self.maxTs →
          (¬ Covers es t ↔ (∃ r ∈ new, r.minTs ≤ t ∧ t ≤ r.maxTs) ∨ tmp' ≤ t) := by
  induction es with
  | nil =>
    intro _ tmp acc ht
    exact ⟨[], by simp, ht, by simp, Int.le_refl _, by intro t h1 h2; simp [Covers, h1]⟩
  | cons e es ih =>
    intro hs tmp acc ht
    have hes : Sep es := hs.sublist (List.sublist_cons_self ..)
    have hpw := List.pairwise_cons.1 hs.pw
    have hok := hs.ok e (List.mem_cons_self ..)
    have hcov : ∀ t, Covers (e :: es) t ↔ (e.1 ≤ t ∧ t ≤ e.2) ∨ Covers es t := by
      intro t; unfold Covers; simp
    have hlater : ∀ t, Covers es t → e.2 + 1 < t := by
      rintro t ⟨x, hx, h1, h2⟩
      have := hpw.1 x hx
      omega
    unfold TimeRange.excludeLoop
    by_cases c1 : e.1 = i64Min ∧ e.2 = i64Max
    · rw [if_pos c1]
      intro t htt
      rw [hcov]; left
      unfold IsI64 at htt
      simp only [i64Min, i64Max] at c1
      omega
    rw [if_neg c1]
    by_cases c2 : tmp > self.maxTs
    · rw [if_pos c2]
      exact ⟨[], by simp, ht, by simp, Int.le_refl _, by intro t h1 h2; omega⟩
    rw [if_neg c2]
    by_cases c3 : tmp ≤ e.2 ∧ self.maxTs ≥ e.1
    · rw [if_pos c3]
      have hsat : IsI64 (satSucc e.2) := by
        unfold satSucc IsI64 i64Max at *; split <;> omega
      have hsat2 : ∀ t, t ≤ self.maxTs → (satSucc e.2 ≤ t ↔ e.2 < t) := by
        intro t ht'
        unfold satSucc
        simp only [i64Max] at *
        split <;> omega
      have hsat3 : e.2 ≤ satSucc e.2 := by unfold satSucc; split <;> omega
      have hI := ih hes (satSucc e.2)
        (if e.1 > tmp then acc ++ [⟨tmp, wrap64 (e.1 - 1)⟩] else acc) hsat
      cases hr : self.excludeLoop es (satSucc e.2)
        (if e.1 > tmp then acc ++ [⟨tmp, wrap64 (e.1 - 1)⟩] else acc) with
      | none =>
        rw [hr] at hI
        intro t htt; rw [hcov]; exact Or.inr (hI t htt)
      | some p =>
        obtain ⟨tmp', acc'⟩ := p
        rw [hr] at hI
        obtain ⟨new, ha, ht', hnew, hle, hspec⟩ := hI
        by_cases c4 : e.1 > tmp
        · rw [if_pos c4] at ha
          have hw : wrap64 (e.1 - 1) = e.1 - 1 := by
            apply wrap64_of_isI64; unfold IsI64 at *; omega
          rw [hw] at ha
          refine ⟨⟨tmp, e.1 - 1⟩ :: new, by rw [ha]; simp, ht', ?_, by omega, ?_⟩
          · intro r hr
            rcases List.mem_cons.1 hr with rfl | hr
            · simp only; unfold IsI64 at *; omega
            · have := hnew r hr
              refine ⟨this.1, this.2.1, this.2.2.1, ?_, this.2.2.2.2⟩
              omega
          · intro t h1 h2
            rw [hcov]
            simp only [List.mem_cons, exists_eq_or_imp]
            by_cases d1 : t < e.1
            · have : ¬ Covers es t := fun h => by have := hlater t h; omega
              constructor
              · intro _; left; left; omega
              · intro _ h; rcases h with h | h
                · omega
                · exact this h
            · by_cases d2 : t ≤ e.2
              · constructor
                · intro h; exact absurd (Or.inl ⟨by omega, d2⟩) h
                · rintro ((h | ⟨r, hr, h3, h4⟩) | h)
                  · omega
                  · have := hnew r hr
                    have := (hsat2 t h2)
                    omega
                  · have := (hsat2 t h2)
                    omega
              · have := hspec t ((hsat2 t h2).2 (by omega)) h2
                constructor
                · intro h
                  have := this.1 (fun h' => h (Or.inr h'))
                  rcases this with h | h
                  · exact Or.inl (Or.inr h)
                  · exact Or.inr h
                · rintro ((h | h) | h) h'
                  · omega
                  · refine this.2 (Or.inl h) ?_
                    rcases h' with h' | h'
                    · omega
                    · exact h'
                  · refine this.2 (Or.inr h) ?_
                    rcases h' with h' | h'
                    · omega
                    · exact h'
        · rw [if_neg c4] at ha
          refine ⟨new, ha, ht', ?_, by omega, ?_⟩
          · intro r hr
            have := hnew r hr
            refine ⟨this.1, this.2.1, this.2.2.1, ?_, this.2.2.2.2⟩
            omega
          · intro t h1 h2
            rw [hcov]
            by_cases d2 : t ≤ e.2
            · constructor
              · intro h; exact absurd (Or.inl ⟨by omega, d2⟩) h
              · rintro (⟨r, hr, h3, h4⟩ | h)
                · have := hnew r hr
                  have := (hsat2 t h2)
                  omega
                · have := (hsat2 t h2)
                  omega
            · have := hspec t ((hsat2 t h2).2 (by omega)) h2
              constructor
              · intro h
                exact this.1 (fun h' => h (Or.inr h'))
              · intro h h'
                refine this.2 h ?_
                rcases h' with h' | h'
                · omega
                · exact h'
    · rw [if_neg c3]
      have hI := ih hes tmp acc ht
      cases hr : self.excludeLoop es tmp acc with
      | none =>
        rw [hr] at hI
        intro t htt; rw [hcov]; exact Or.inr (hI t htt)
      | some p =>
        obtain ⟨tmp', acc'⟩ := p
        rw [hr] at hI
        obtain ⟨new, ha, ht', hnew, hle, hspec⟩ := hI
        refine ⟨new, ha, ht', hnew, hle, ?_⟩
        intro t h1 h2
        rw [hcov, ← hspec t h1 h2]
        constructor
        · intro h h'; exact h (Or.inr h')
        · intro h h'
          rcases h' with h' | h'
          · omega
          · exact h h'

end Verif.Time
