import Verif.Reader.Tree
import Verif.Common.Sort
/-!
# What the merge should give, and lemmas about it
-/
namespace Verif.Reader

variable {α : Type}

/-- Order of rows by time. -/
def leTs (a b : Row α) : Bool := decide (a.ts ≤ b.ts)

/-- The rows of an input. -/
def rowsOf (inp : Input α) : List (Row α) :=
  inp.flatMap fun
    | .pending => []
    | .batch rows => rows

/-- The newest value of column `c` that is not null in rows of the same time, from the oldest source to the newest. -/
def lastCell (c : Nat) (g : List (Row α)) : Option α := g.reverse.findSome? fun r => (r.cells[c]?).join

/-- The row that rows of the same time are merged to. -/
def mergeGroup (cols : Nat) (g : List (Row α)) : Row α :=
  ⟨g.getLast?.elim 0 Row.ts, (List.range cols).map fun c => lastCell c g⟩

/-- Taking one more row: finished rows, and the rows of the current time. -/
def push (cols : Nat) (s : List (Row α) × List (Row α)) (x : Row α) : List (Row α) × List (Row α) :=
  match s.2.getLast? with
  | none => (s.1, [x])
  | some y => if y.ts = x.ts then (s.1, s.2 ++ [x]) else (s.1 ++ [mergeGroup cols s.2], [x])

/-- All rows at the end. -/
def finish (cols : Nat) (s : List (Row α) × List (Row α)) : List (Row α) :=
  if s.2.isEmpty then s.1 else s.1 ++ [mergeGroup cols s.2]

theorem leTs_trans (a b c : Row α) (h1 : leTs a b = true) (h2 : leTs b c = true) : leTs a c = true := by
  simp only [leTs, decide_eq_true_eq] at *; omega

theorem leTs_total (a b : Row α) : leTs a b = true ∨ leTs b a = true := by
  simp only [leTs, decide_eq_true_eq]; omega

/-! ## The stable sort of several sorted lists -/

open Verif.Sort

theorem sort_min_head {x : Row α} {l : List (Row α)} (h : ∀ y ∈ l, x.ts ≤ y.ts) :
    sortBy leTs (x :: l) = x :: sortBy leTs l := by
  show insertBy leTs x (sortBy leTs l) = _
  cases hs : sortBy leTs l with
  | nil => rfl
  | cons y r =>
    have : y ∈ l := mem_sortBy.1 (hs ▸ List.mem_cons_self)
    unfold insertBy
    rw [if_pos (by simpa [leTs] using h y this)]

theorem sort_min {x : Row α} {l : List (Row α)} (h : ∀ y ∈ l, x.ts ≤ y.ts) {a : List (Row α)} (ha : ∀ y ∈ a, x.ts < y.ts) :
    sortBy leTs (a ++ x :: l) = x :: sortBy leTs (a ++ l) := by
  induction a with
  | nil => exact sort_min_head h
  | cons y a ih =>
    have e : sortBy leTs (a ++ x :: l) = x :: sortBy leTs (a ++ l) := ih (fun z hz => ha z (List.mem_cons_of_mem _ hz))
    show insertBy leTs y (sortBy leTs (a ++ x :: l)) = x :: insertBy leTs y (sortBy leTs (a ++ l))
    rw [e]
    have := ha y List.mem_cons_self
    rw [insertBy, if_neg (by simp [leTs]; omega)]

/-- Taking the first row of a list whose head is least gives the first row of the stable sort. -/
theorem sort_take {L : List (List (Row α))} {w : Nat} {x : Row α} {xs : List (Row α)} (hw : L[w]? = some (x :: xs))
    (hs : ∀ l ∈ L, l.Pairwise fun a b => a.ts ≤ b.ts)
    (hmin : ∀ i y ys, L[i]? = some (y :: ys) → x.ts < y.ts ∨ x.ts = y.ts ∧ w ≤ i) :
    sortBy leTs L.flatten = x :: sortBy leTs (L.set w xs).flatten := by
  obtain ⟨hlt, he⟩ := List.getElem?_eq_some_iff.1 hw
  have hall : ∀ i y, ∀ l, L[i]? = some l → y ∈ l → x.ts < y.ts ∨ x.ts ≤ y.ts ∧ w ≤ i := by
    intro i y l hl hy
    cases l with
    | nil => cases hy
    | cons z zs =>
      have h1 := hmin i z zs hl
      have h2 := hs _ (List.mem_of_getElem? hl)
      rw [List.pairwise_cons] at h2
      rcases List.mem_cons.1 hy with e | hy
      · subst e; omega
      · have := h2.1 y hy; omega
  have e1 : L = L.take w ++ (x :: xs) :: L.drop (w + 1) := by
    rw [← he, List.getElem_cons_drop, List.take_append_drop]
  have e2 : L.set w xs = L.take w ++ xs :: L.drop (w + 1) := by
    rw [List.set_eq_take_append_cons_drop, if_pos hlt]
  have e3 : L.flatten = (L.take w).flatten ++ x :: (xs ++ (L.drop (w + 1)).flatten) := by
    conv => lhs; rw [e1]
    simp
  rw [e2, e3, sort_min]
  · simp
  · intro y hy
    rcases List.mem_append.1 hy with hy | hy
    · have := hall w y _ hw (List.mem_cons_of_mem _ hy); omega
    · obtain ⟨l, hl, hyl⟩ := List.mem_flatten.1 hy
      obtain ⟨i, hi⟩ := List.getElem?_of_mem hl
      rw [List.getElem?_drop] at hi
      have := hall _ y l hi hyl; omega
  · intro y hy
    obtain ⟨l, hl, hyl⟩ := List.mem_flatten.1 hy
    obtain ⟨i, hi⟩ := List.getElem?_of_mem hl
    rw [List.getElem?_take] at hi
    split at hi
    · have := hall _ y l hi hyl; omega
    · simp at hi

/-- The stable sort keeps the order of rows of the same time. -/
theorem filter_sort (l : List (Row α)) (t : Int) :
    (sortBy leTs l).filter (fun r => decide (r.ts = t)) = l.filter fun r => decide (r.ts = t) := by
  have ins : ∀ (x : Row α) (s : List (Row α)), s.Pairwise (fun a b => leTs a b = true) →
      (insertBy leTs x s).filter (fun r => decide (r.ts = t)) = (x :: s).filter fun r => decide (r.ts = t) := by
    intro x s
    induction s with
    | nil => intro _; rfl
    | cons y s ih =>
      intro hp
      rw [List.pairwise_cons] at hp
      unfold insertBy
      split
      · rfl
      · rename_i hxy
        simp only [leTs, decide_eq_true_eq] at hxy
        rw [List.filter_cons, ih hp.2]
        by_cases h1 : x.ts = t
        · have h2 : ¬ y.ts = t := by omega
          simp [h1, h2]
        · simp [List.filter_cons, h1]
  induction l with
  | nil => rfl
  | cons x l ih =>
    show (insertBy leTs x (sortBy leTs l)).filter _ = _
    rw [ins _ _ (sortBy_sorted leTs_trans leTs_total l), List.filter_cons, List.filter_cons, ih]

/-! ## Rows of the same time -/

/-- What the state says about the rows `P` taken so far. -/
structure Pushed (cols : Nat) (P : List (Row α)) (s : List (Row α) × List (Row α)) : Prop where
  inc : s.1.Pairwise fun a b => a.ts < b.ts
  below : ∀ a ∈ s.1, ∀ b ∈ s.2, a.ts < b.ts
  group : ∀ a ∈ s.1, a = mergeGroup cols (P.filter fun r => decide (r.ts = a.ts))
  times : ∀ r ∈ P, r.ts ∈ s.1.map Row.ts ∨ r ∈ s.2
  known : ∀ a ∈ s.1, a.ts ∈ P.map Row.ts
  same : ∀ b ∈ s.2, s.2 = P.filter fun r => decide (r.ts = b.ts)
  empty : s.2 = [] → P = []

theorem mergeGroup_ts {cols : Nat} {g : List (Row α)} {t : Int} (hne : g ≠ []) (h : ∀ r ∈ g, r.ts = t) : (mergeGroup cols g).ts = t := by
  unfold mergeGroup
  rw [List.getLast?_eq_some_getLast hne]
  exact h (g.getLast hne) (List.getLast_mem hne)

theorem Pushed.pend_ts {cols : Nat} {P : List (Row α)} {s : List (Row α) × List (Row α)} (h : Pushed cols P s) {a b : Row α}
    (ha : a ∈ s.2) (hb : b ∈ s.2) : a.ts = b.ts := by
  rw [h.same b hb] at ha
  simpa using (List.mem_filter.1 ha).2

theorem Pushed.push {cols : Nat} {P : List (Row α)} {s : List (Row α) × List (Row α)} (h : Pushed cols P s) {x : Row α}
    (hx : ∀ r ∈ P, r.ts ≤ x.ts) : Pushed cols (P ++ [x]) (push cols s x) := by
  have hin : ∀ b ∈ s.2, b ∈ P := fun b hb => by
    have := hb; rw [h.same b hb] at this; exact (List.mem_filter.1 this).1
  cases hp : s.2.getLast? with
  | none =>
    have hnil : s.2 = [] := by simpa using hp
    have hP := h.empty hnil
    subst hP
    have hs1 : s.1 = [] := by
      cases hs : s.1 with
      | nil => rfl
      | cons a l => simpa using h.known a (hs ▸ List.mem_cons_self)
    simp only [Reader.push, hp, hs1]
    refine ⟨List.Pairwise.nil, by simp, by simp, by simp, by simp, by simp, by simp⟩
  | some y =>
    have hy : y ∈ s.2 := List.mem_of_getLast? hp
    have hne : s.2 ≠ [] := List.ne_nil_of_mem hy
    have hyx := hx y (hin y hy)
    simp only [Reader.push, hp]
    have hlow : ∀ a ∈ s.1, ¬ x.ts = a.ts := by
      intro a ha
      have := h.below a ha y hy
      omega
    split
    · rename_i he
      refine ⟨h.inc, ?_, ?_, ?_, ?_, ?_, by simp⟩
      · intro a ha b hb
        rcases List.mem_append.1 hb with hb | hb
        · exact h.below a ha b hb
        · have := h.below a ha y hy
          simp only [List.mem_singleton] at hb
          subst hb; omega
      · intro a ha
        rw [List.filter_append]
        simpa [hlow a ha] using h.group a ha
      · intro r hr
        rcases List.mem_append.1 hr with hr | hr
        · rcases h.times r hr with h1 | h1
          · exact .inl h1
          · exact .inr (List.mem_append_left _ h1)
        · exact .inr (List.mem_append_right _ hr)
      · intro a ha
        have := h.known a ha
        simp only [List.map_append, List.mem_append]
        exact .inl this
      · intro b hb
        have hbt : b.ts = x.ts := by
          rcases List.mem_append.1 hb with hb | hb
          · have := h.pend_ts hb hy; omega
          · simp only [List.mem_singleton] at hb; rw [hb]
        have := h.same y hy
        rw [List.filter_append, hbt, ← he, ← this]
        simp [he]
    · rename_i he
      have hts : (mergeGroup cols s.2).ts = y.ts := mergeGroup_ts hne (fun r hr => h.pend_ts hr hy)
      refine ⟨?_, ?_, ?_, ?_, ?_, ?_, by simp⟩
      · rw [List.pairwise_append]
        refine ⟨h.inc, by simp, ?_⟩
        intro a ha b hb
        simp only [List.mem_singleton] at hb
        rw [hb, hts]
        exact h.below a ha y hy
      · intro a ha b hb
        simp only [List.mem_singleton] at hb
        subst hb
        rcases List.mem_append.1 ha with ha | ha
        · have := h.below a ha y hy; omega
        · simp only [List.mem_singleton] at ha
          rw [ha, hts]; omega
      · intro a ha
        rcases List.mem_append.1 ha with ha | ha
        · rw [List.filter_append]
          simpa [hlow a ha] using h.group a ha
        · simp only [List.mem_singleton] at ha
          rw [ha, hts, List.filter_append, ← h.same y hy]
          have : ¬ x.ts = y.ts := fun e => he e.symm
          simp [this]
      · intro r hr
        rcases List.mem_append.1 hr with hr | hr
        · rcases h.times r hr with h1 | h1
          · left; rw [List.map_append]; exact List.mem_append_left _ h1
          · left; rw [List.map_append]
            refine List.mem_append_right _ ?_
            simp [hts, h.pend_ts h1 hy]
        · exact .inr hr
      · intro a ha
        rw [List.map_append]
        refine List.mem_append_left _ ?_
        rcases List.mem_append.1 ha with ha | ha
        · exact h.known a ha
        · simp only [List.mem_singleton] at ha
          rw [ha, hts]
          exact List.mem_map.2 ⟨y, hin y hy, rfl⟩
      · intro b hb
        simp only [List.mem_singleton] at hb
        subst hb
        rw [List.filter_append]
        have : P.filter (fun r => decide (r.ts = b.ts)) = [] := by
          rw [List.filter_eq_nil_iff]
          intro r hr
          simp only [decide_eq_true_eq]
          intro hrb
          rcases h.times r hr with h1 | h1
          · obtain ⟨a, ha, e⟩ := List.mem_map.1 h1
            have := h.below a ha y hy; omega
          · have := h.pend_ts h1 hy; omega
        simp [this]

theorem pushed_fold {cols : Nat} (P : List (Row α)) (h : P.Pairwise fun a b => a.ts ≤ b.ts) :
    Pushed cols P (P.foldl (push cols) ([], [])) := by
  have key : ∀ (l Q : List (Row α)) (s), Pushed cols Q s → (Q ++ l).Pairwise (fun a b => a.ts ≤ b.ts) →
      Pushed cols (Q ++ l) (l.foldl (push cols) s) := by
    intro l
    induction l with
    | nil => intro Q s hs _; simpa using hs
    | cons x l ih =>
      intro Q s hs hp
      have h1 := hs.push (x := x) (by
        rw [List.pairwise_append] at hp
        exact fun r hr => hp.2.2 r hr x List.mem_cons_self)
      have := ih (Q ++ [x]) _ h1 (by simpa using hp)
      simpa using this
  have := key P [] ([], []) ⟨by simp, by simp, by simp, by simp, by simp, by simp, by simp⟩ (by simpa using h)
  simpa using this

theorem fold_pend_mem {cols : Nat} (P : List (Row α)) (s : List (Row α) × List (Row α)) :
    ∀ x ∈ (P.foldl (push cols) s).2, x ∈ P ∨ x ∈ s.2 := by
  induction P generalizing s with
  | nil => exact fun x h => .inr h
  | cons y P ih =>
    intro x hx
    rcases ih _ x hx with h | h
    · exact .inl (List.mem_cons_of_mem _ h)
    · unfold push at h
      split at h
      · simp only [List.mem_singleton] at h; subst h; exact .inl List.mem_cons_self
      · split at h
        · rcases List.mem_append.1 h with h | h
          · exact .inr h
          · simp only [List.mem_singleton] at h; subst h; exact .inl List.mem_cons_self
        · simp only [List.mem_singleton] at h; subst h; exact .inl List.mem_cons_self

/-- The rows at the end: one row for each time, with the newest values. -/
theorem finish_spec {cols : Nat} (P : List (Row α)) (h : P.Pairwise fun a b => a.ts ≤ b.ts) :
    let out := finish cols (P.foldl (push cols) ([], []))
    out.Pairwise (fun a b => a.ts < b.ts) ∧ (∀ t, t ∈ out.map Row.ts ↔ t ∈ P.map Row.ts) ∧
      ∀ r ∈ out, r = mergeGroup cols (P.filter fun x => decide (x.ts = r.ts)) := by
  intro out
  have hp := pushed_fold (cols := cols) P h
  generalize he : P.foldl (push cols) ([], []) = s at *
  cases hs : s.2 with
  | nil =>
    have ho : out = s.1 := by simp [out, finish, he, hs]
    have hP := hp.empty hs
    rw [ho]
    refine ⟨hp.inc, ?_, hp.group⟩
    intro t
    constructor
    · intro ht
      obtain ⟨a, ha, rfl⟩ := List.mem_map.1 ht
      exact hp.known a ha
    · subst hP; simp
  | cons y ys =>
    have hy : y ∈ s.2 := hs ▸ List.mem_cons_self
    have ho : out = s.1 ++ [mergeGroup cols s.2] := by simp [out, finish, he, hs]
    have hts : (mergeGroup cols s.2).ts = y.ts := mergeGroup_ts (List.ne_nil_of_mem hy) (fun r hr => hp.pend_ts hr hy)
    rw [ho]
    refine ⟨?_, ?_, ?_⟩
    · rw [List.pairwise_append]
      refine ⟨hp.inc, by simp, ?_⟩
      intro a ha b hb
      simp only [List.mem_singleton] at hb
      rw [hb, hts]
      exact hp.below a ha y hy
    · intro t
      rw [List.map_append, List.mem_append]
      constructor
      · rintro (ht | ht)
        · obtain ⟨a, ha, rfl⟩ := List.mem_map.1 ht
          exact hp.known a ha
        · simp only [List.map_cons, List.map_nil, List.mem_singleton, hts] at ht
          subst ht
          have := hy; rw [hp.same y hy] at this
          exact List.mem_map.2 ⟨y, (List.mem_filter.1 this).1, rfl⟩
      · intro ht
        obtain ⟨r, hr, rfl⟩ := List.mem_map.1 ht
        rcases hp.times r hr with h1 | h1
        · exact .inl h1
        · right; simp [hts, hp.pend_ts h1 hy]
    · intro r hr
      rcases List.mem_append.1 hr with hr | hr
      · exact hp.group r hr
      · simp only [List.mem_singleton] at hr
        rw [hr, hts, ← hp.same y hy]

end Verif.Reader
