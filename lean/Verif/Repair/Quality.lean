import Verif.Repair.Value
/-!
# Scores of the quality of a series

`completeness`, `consistency`, `timeliness` and `validity` are to be numbers between 0 and 1 that depend on the rows of the
series alone: not on how they come in batches, nor on the type of the numbers.
-/
namespace Verif.Repair
open Verif.Sort

/-! ## The counters of times -/

theorem lateLoop_le (base : Rat) (target : Nat) (win : List Rat) (prev : Rat) (temp : Nat) (h : temp < target) :
    (lateLoop base target prev temp win).1 ≤ target := by
  induction win generalizing prev temp with
  | nil => rw [lateLoop]; exact Nat.le_of_lt h
  | cons x xs ih =>
    rw [lateLoop]
    split
    · exact ih x temp h
    · rename_i r _
      by_cases h1 : 2 ≤ r
      · rw [if_pos h1]; exact Nat.le_of_lt h
      · rw [if_neg h1]
        by_cases h2 : r ≤ 1 / 2
        · rw [if_pos h2]
          by_cases h3 : temp + 1 = target
          · rw [if_pos h3]; exact Nat.le_of_eq h3
          · rw [if_neg h3]; exact ih prev (temp + 1) (by omega)
        · rw [if_neg h2]; exact ih x temp h

theorem roundR_pos {r : Rat} (h : 2 ≤ r) : 0 < roundR (r - 1) := by
  unfold roundR
  have h1 : (1 : Int) ≤ (r - 1 + 1 / 2).floor := by
    rw [Rat.le_floor_iff]
    have : ((1 : Int) : Rat) = 1 := rfl
    rw [this]
    grind
  omega

/-- What is counted and what is still to be looked at is never more than there was. -/
theorem detectStep_count (base a b : Rat) (win : List Rat) (c : Cnt) :
    (detectStep base a b win c).1.redundant + (detectStep base a b win c).1.late + (detectStep base a b win c).2.length ≤
      c.redundant + c.late + (win.length + 1) := by
  rw [detectStep]
  split
  · simp
  · rename_i r _
    by_cases h1 : r ≤ 1 / 2
    · rw [if_pos h1]; simp only; omega
    · rw [if_neg h1]
      by_cases h2 : 2 ≤ r ∧ r ≤ 9
      · rw [if_pos h2]
        have := lateLoop_length base (roundR (r - 1)) win b 0
        simp only [List.length_cons]
        omega
      · rw [if_neg h2]; simp

theorem detect_count (base : Rat) (win rest : List Rat) (c : Cnt) :
    (detect base win rest c).redundant + (detect base win rest c).late ≤ c.redundant + c.late + (win.length + rest.length) := by
  induction win, rest, c using detect.induct base with
  | case1 rest c a b more s ih =>
    rw [detect]
    have h := detectStep_count base a b more c
    refine Nat.le_trans ih ?_
    simp only [List.length_append, List.length_cons, List.length_take, List.length_drop]
    have hs : s = detectStep base a b more c := rfl
    rw [← hs] at h
    omega
  | case2 win rest c h =>
    have e : detect base win rest c = c := by
      unfold detect
      split
      · exact absurd rfl (h _ _ _)
      · rfl
    rw [e]
    omega

/-! ## Medians of equal numbers -/

theorem median_const {l : List Rat} {d : Rat} (hne : l ≠ []) (h : ∀ x ∈ l, x = d) : median l = .ok d := by
  have hl : (sortRat l).length = l.length := length_sortBy
  have hpos : 0 < l.length := List.length_pos_iff.2 hne
  have hg : ∀ i, i < l.length → (sortRat l).getD i 0 = d := by
    intro i hi
    rw [List.getD_eq_getElem?_getD, List.getElem?_eq_getElem (by omega)]
    exact h _ (mem_sortBy.1 (List.getElem_mem _))
  simp only [median]
  rw [if_neg (by omega)]
  split
  · rw [hg _ (by omega), hg _ (by omega)]
    congr 1
    grind
  · rw [hg _ (by omega)]

/-! ## Spaced times -/

/-- Neighbours are `d` apart. -/
def Spaced (d : Rat) : List Rat → Prop
  | a :: b :: l => b - a = d ∧ Spaced d (b :: l)
  | _ => True

theorem Spaced.gaps {d : Rat} : ∀ {l : List Rat}, Spaced d l → ∀ x ∈ gapsR l, x = d
  | [], _, x, hx => by simp [gapsR] at hx
  | [a], _, x, hx => by simp [gapsR] at hx
  | a :: b :: l, h, x, hx => by
    have e : gapsR (a :: b :: l) = (b - a) :: gapsR (b :: l) := by simp [gapsR]
    rw [e] at hx
    rcases List.mem_cons.1 hx with rfl | hx
    · exact h.1
    · exact Spaced.gaps h.2 x hx

theorem Spaced.tail {d a : Rat} {l : List Rat} (h : Spaced d (a :: l)) : Spaced d l := by
  cases l with
  | nil => trivial
  | cons b l => exact h.2

theorem detect_regular {d : Rat} (hd : 0 < d) (win rest : List Rat) (c : Cnt) (h : Spaced d (win ++ rest)) :
    detect d win rest c = c := by
  induction win, rest, c using detect.induct d with
  | case1 rest c a b more s ih =>
    have h1 : b - a = d := h.1
    have hr : ratio (b - a) d = some 1 := by
      unfold ratio
      rw [if_neg (by grind), h1]
      congr 1
      rw [Rat.div_def, Rat.mul_inv_cancel _ (by grind)]
    have hs : s = (c, b :: more) := by
      show detectStep d a b more c = (c, b :: more)
      rw [detectStep, hr]
      simp only
      rw [if_neg (by decide +kernel), if_neg (by decide +kernel)]
    rw [detect]
    show detect d (s.2 ++ rest.take (10 - s.2.length)) (rest.drop (10 - s.2.length)) s.1 = c
    rw [ih (by
      rw [hs, List.append_assoc, List.take_append_drop]
      exact h.tail)]
    rw [hs]
  | case2 win rest c hn =>
    unfold detect
    split
    · exact absurd rfl (hn _ _ _)
    · rfl

theorem timeDetect_regular {d : Rat} (hd : 0 < d) {ts : List Rat} (hn : 2 ≤ ts.length) (h : Spaced d ts) : timeDetect ts = .ok {} := by
  have hne : gapsR ts ≠ [] := by
    intro h0
    have := congrArg List.length h0
    simp only [gapsR, List.length_map, List.length_zip, List.length_tail, List.length_nil] at this
    omega
  unfold timeDetect
  rw [median_const hne h.gaps]
  simp only [Except.map]
  rw [detect_regular hd _ _ _ (by rw [List.take_append_drop]; exact h)]

/-! ## Bounds -/

theorem unit_of_frac (a n : Nat) (h : a ≤ n) (hn : 0 < n) : 0 ≤ 1 - (a : Rat) / (n : Rat) ∧ 1 - (a : Rat) / (n : Rat) ≤ 1 := by
  have hn' : (0 : Rat) < (n : Rat) := by exact_mod_cast hn
  have ha : (a : Rat) ≤ (n : Rat) := by exact_mod_cast h
  have ha0 : (0 : Rat) ≤ (a : Rat) := by exact_mod_cast Nat.zero_le a
  have h1 : (a : Rat) / (n : Rat) ≤ 1 := by
    rw [← Rat.not_lt, Rat.lt_div_iff hn']
    grind
  have h2 : 0 ≤ (a : Rat) / (n : Rat) := by
    rw [← Rat.not_lt, Rat.div_lt_iff hn']
    grind
  constructor <;> grind

theorem length_sortPts (pts : List Pt) : (sortPts pts).length = pts.length := length_sortBy

theorem enough_length {pts : List Pt} (h : enough pts = true) : 2 ≤ pts.length := by
  simp only [enough, decide_eq_true_eq] at h
  have := List.length_filterMap_le id (pts.map (·.2))
  simp only [List.length_map] at this
  unfold known at h
  omega

/-- **C159 (partial: scores)**: completeness, consistency and timeliness, if there is an answer, are between 0 and 1. -/
theorem C159_unit_partial (s : Score) (pts : List Pt) (r : Rat) (h : score s pts = .ok r) : 0 ≤ r ∧ r ≤ 1 := by
  unfold score at h
  split at h
  · rename_i he
    have hn := enough_length he
    unfold timeDetect at h
    cases hm : median (gapsR ((sortPts pts).map (·.1))) with
    | error e => rw [hm] at h; simp [Except.map] at h
    | ok base =>
      rw [hm] at h
      simp only [Except.map, Except.ok.injEq] at h
      have hc := detect_count base (((sortPts pts).map (·.1)).take 10) (((sortPts pts).map (·.1)).drop 10) {}
      simp only [List.length_take, List.length_drop, List.length_map, length_sortPts, Nat.zero_add] at hc
      generalize detect base (((sortPts pts).map (·.1)).take 10) (((sortPts pts).map (·.1)).drop 10) {} = c at hc h
      have hcp : pts.countP (fun p => p.2.isNone) ≤ pts.length := List.countP_le_length
      rw [← h]
      cases s with
      | completeness => exact unit_of_frac _ _ (by omega) (by omega)
      | consistency => exact unit_of_frac _ _ (by omega) (by omega)
      | timeliness => exact unit_of_frac _ _ (by omega) (by omega)
  · simp at h

example : (match score .consistency [(10, some 1), (0, some 1), (11, some 3), (20, none), (60, some 1)] with | .ok r => some r | _ => none) =
    some (4 / 5) := by decide +kernel

/-- Points late are never more than the points missing, so the difference does not wrap. -/
theorem C159_missing (base prev r : Rat) (win : List Rat) (h : 2 ≤ r) :
    (lateLoop base (roundR (r - 1)) prev 0 win).1 ≤ roundR (r - 1) := lateLoop_le _ _ _ _ _ (roundR_pos h)

/-- **C159 (partial: a perfect series)**: all values known, and times a distance apart, score 1 in everything. -/
theorem C159_regular (s : Score) (d : Rat) (hd : 0 < d) (pts : List Pt) (hn : 2 ≤ pts.length) (hv : ∀ p ∈ pts, p.2 ≠ none)
    (h : Spaced d ((sortPts pts).map (·.1))) : score s pts = .ok 1 := by
  have he : enough pts = true := by
    have : ∀ l : List Pt, (∀ p ∈ l, p.2 ≠ none) → (known (l.map (·.2))).length = l.length := by
      intro l
      induction l with
      | nil => intro _; rfl
      | cons p l ih =>
        intro hl
        have h1 := ih (fun q hq => hl q (List.mem_cons_of_mem _ hq))
        have h2 := hl p List.mem_cons_self
        cases hp : p.2 with
        | none => exact absurd hp h2
        | some v =>
          simp only [known, List.map_cons, hp] at h1 ⊢
          simp only [List.filterMap_cons, id, List.length_cons]
          omega
    simp only [enough, decide_eq_true_eq, this pts hv]
    exact hn
  have hc : pts.countP (fun p => p.2.isNone) = 0 := by
    rw [List.countP_eq_zero]
    intro p hp
    have := hv p hp
    cases hq : p.2 with
    | none => exact absurd hq this
    | some v => simp
  unfold score
  rw [if_pos he, timeDetect_regular hd (by simpa [length_sortPts] using hn) h]
  have h0 : ∀ n : Nat, (1 : Rat) - ((0 : Nat) : Rat) / (n : Rat) = 1 := by
    intro n
    have : ((0 : Nat) : Rat) = 0 := rfl
    rw [this, Rat.div_def, Rat.zero_mul]
    decide +kernel
  cases s with
  | completeness =>
    simp only [Except.map, completenessOf, hc]
    congr 1
    exact h0 _
  | consistency =>
    simp only [Except.map]
    congr 1
    exact h0 _
  | timeliness =>
    simp only [Except.map]
    congr 1
    exact h0 _

example : Spaced 10 ((sortPts [(20, some 1), (0, some 5), (10, some 7)]).map (·.1)) := by
  refine ⟨by decide +kernel, by decide +kernel, trivial⟩

theorem outliers_le {l : List Rat} {n : Nat} (h : outliers l = .ok n) : n ≤ l.length := by
  unfold outliers at h
  split at h
  · simp only [Except.ok.injEq] at h
    rw [← h]
    exact List.countP_le_length
  · simp at h

theorem outliers_ok {l : List Rat} (h : l ≠ []) : ∃ n, outliers l = .ok n := by
  have hmed : ∀ l : List Rat, l ≠ [] → ∃ m, median l = .ok m := by
    intro l hne
    simp only [median]
    rw [if_neg (by intro h; exact hne (List.length_eq_zero_iff.1 h))]
    split
    · exact ⟨_, rfl⟩
    · exact ⟨_, rfl⟩
  obtain ⟨m, h2⟩ := hmed _ h
  obtain ⟨m', h3⟩ := hmed (l.map fun v => absR (v - m)) (by simpa using h)
  have h4 : mad l = .ok (14826 / 10000 * m') := by simp [mad, h2, h3, Except.map]
  unfold outliers
  rw [h2, h4]
  exact ⟨_, rfl⟩

theorem variation_length (l : List Rat) : (variation l).length = l.length - 1 := by
  simp only [variation, List.length_map, List.length_zip, List.length_tail]
  omega

/-- **C159 (partial: validity)**: of three rows or more it is a number between 0 and 1. -/
theorem C159_validity_partial (ts vs : List Rat) (hl : ts.length = vs.length) (hn : 3 ≤ vs.length) :
    ∃ r, validityOf ts vs = .ok r ∧ 0 ≤ r ∧ r ≤ 1 := by
  simp only [validityOf]
  generalize hsp : (((ts.zip vs).zip (ts.zip vs).tail).map fun p => (p.2.2 - p.1.2) / (p.2.1 - p.1.1)) = sp
  have hspl : sp.length = vs.length - 1 := by
    rw [← hsp]
    simp only [List.length_map, List.length_zip, List.length_tail]
    omega
  have ne : ∀ l : List Rat, 0 < l.length → l ≠ [] := fun l h => List.length_pos_iff.1 h
  have hv1 := variation_length vs
  have hv2 := variation_length sp
  obtain ⟨a, ha⟩ := outliers_ok (ne vs (by omega))
  obtain ⟨b, hb⟩ := outliers_ok (ne (variation vs) (by omega))
  obtain ⟨c, hc⟩ := outliers_ok (ne sp (by omega))
  obtain ⟨d, hd⟩ := outliers_ok (ne (variation sp) (by omega))
  have h1 := outliers_le ha
  have h2 := outliers_le hb
  have h3 := outliers_le hc
  have h4 := outliers_le hd
  rw [ha, hb, hc, hd]
  refine ⟨_, rfl, ?_⟩
  have hle : a + b + c + d ≤ 4 * vs.length := by omega
  have hn' : (0 : Rat) < (vs.length : Rat) := by exact_mod_cast (by omega : 0 < vs.length)
  have hle' : ((a + b + c + d : Nat) : Rat) ≤ 4 * (vs.length : Rat) := by exact_mod_cast hle
  have h0 : (0 : Rat) ≤ ((a + b + c + d : Nat) : Rat) := by exact_mod_cast Nat.zero_le _
  have u1 : 1 / 4 * ((a + b + c + d : Nat) : Rat) / (vs.length : Rat) ≤ 1 := by
    rw [← Rat.not_lt, Rat.lt_div_iff hn']
    grind
  have u2 : 0 ≤ 1 / 4 * ((a + b + c + d : Nat) : Rat) / (vs.length : Rat) := by
    rw [← Rat.not_lt, Rat.div_lt_iff hn']
    grind
  constructor <;> grind

/-- **C159 is false**: two rows, enough for the other scores, panic. -/
theorem C159_two_refuted (t0 t1 v0 v1 : Rat) : validityOf [t0, t1] [v0, v1] = .error .panic := by
  have hv : outliers (variation [(v1 - v0) / (t1 - t0)]) = .error .panic := by
    have : variation [(v1 - v0) / (t1 - t0)] = [] := by simp [variation]
    rw [this]
    rfl
  simp only [validityOf]
  have e : (([t0, t1].zip [v0, v1]).zip ([t0, t1].zip [v0, v1]).tail).map (fun p : (Rat × Rat) × (Rat × Rat) => (p.2.2 - p.1.2) / (p.2.1 - p.1.1)) =
      [(v1 - v0) / (t1 - t0)] := by simp
  rw [e, hv]
  split
  · rename_i h; simp at h
  · rfl

/-! ## Batches, partitions, and types -/

theorem sortPts_perm {a b : List Pt} (h : a.Perm b) (hd : (a.map (·.1)).Nodup) : sortPts a = sortPts b := by
  have hp : (sortPts a).Perm (sortPts b) := (sortBy_perm _ a).trans (h.trans (sortBy_perm _ b).symm)
  have hs : ∀ l : List Pt, (sortPts l).Pairwise (fun x y => x.1 ≤ y.1) := by
    intro l
    have := sortBy_sorted (le := fun a b : Pt => decide (a.1 ≤ b.1)) (by simp only [decide_eq_true_eq]; intros; grind)
      (by intro a b; simp only [decide_eq_true_eq]; grind) l
    exact this.imp (fun h => by simpa using h)
  refine List.Perm.eq_of_pairwise ?_ (hs a) (hs b) hp
  intro x y hx hy h1 h2
  have hxa : x ∈ a := mem_sortBy.1 hx
  have hya : y ∈ a := h.mem_iff.2 (mem_sortBy.1 hy)
  have e : x.1 = y.1 := Rat.le_antisymm h1 h2
  have go : ∀ l : List Pt, (l.map (·.1)).Nodup → x ∈ l → y ∈ l → x = y := by
    intro l
    induction l with
    | nil => intro _ h; simp at h
    | cons z l ih =>
      intro hn hx hy
      simp only [List.map_cons, List.nodup_cons] at hn
      rcases List.mem_cons.1 hx with rfl | hx'
      · rcases List.mem_cons.1 hy with rfl | hy
        · rfl
        · exact absurd (List.mem_map.2 ⟨y, hy, e.symm⟩) hn.1
      · rcases List.mem_cons.1 hy with rfl | hy'
        · exact absurd (List.mem_map.2 ⟨x, hx', e⟩) hn.1
        · exact ih hn.2 hx' hy'
  exact go a hd hxa hya

/-- **C159 (partial: order)**: the scores of a series with different times do not depend on the order of its rows. -/
theorem C159_order (s : Score) (a b : List Pt) (h : a.Perm b) (hd : (a.map (·.1)).Nodup) : score s a = score s b := by
  have h1 : enough a = enough b := by
    have hp : (known (a.map (·.2))).Perm (known (b.map (·.2))) := (h.map _).filterMap _
    simp only [enough, hp.length_eq]
  have h2 : a.countP (fun p => p.2.isNone) = b.countP (fun p => p.2.isNone) := h.countP_eq _
  unfold score completenessOf
  rw [h1, sortPts_perm h hd, h2, h.length_eq]

/-- **C159 (partial: partitions)**: if every partition sees one batch, it does not matter how the rows are spread. -/
theorem C159_partitions (s : Score) (rows : List Pt) (parts : List (List Pt)) (h : parts.flatten.Perm rows)
    (hd : (rows.map (·.1)).Nodup) : score s (gather (parts.map fun b => [b])) = score s rows := by
  have e : gather (parts.map fun b => [b]) = parts.flatten := by
    unfold gather mergeStates
    rw [List.map_map]
    congr 1
    exact List.map_id'' (fun b => rfl) parts
  rw [e]
  exact C159_order s _ _ h ((h.map (·.1)).nodup_iff.2 hd)

/-- **C159 is false**: a partition keeps the rows of its last batch only. -/
theorem C159_batches_refuted (bs : List (List Pt)) (b : List Pt) : gather [bs ++ [b]] = b := by
  simp [gather, mergeStates, updateBatch]

/-- So the completeness of one and the same series is 3/4 in one batch and 1/2 in two. -/
theorem C159_batch_score_refuted : score .completeness (gather [[[(0, some 1), (1, some 1), (2, some 1), (3, some 1)], [(4, none), (5, some 1),
      (6, some 1), (7, none)]]]) = .ok (1 / 2) ∧
    score .completeness (gather [[[(0, some 1), (1, some 1), (2, some 1), (3, some 1), (4, none), (5, some 1), (6, some 1), (7, none)]]]) =
      .ok (3 / 4) := by
  constructor <;> with_unfolding_all rfl

/-- **C159 is false**: numbers of an unsigned column are no numbers, so every score of such a column is an error. -/
theorem C159_unsigned_refuted (s : Score) (rows : List (Rat × Nat)) :
    score s (rows.map fun r => (r.1, scalarToF64 (some (.uint r.2)))) = .error .error := by
  have h : known ((rows.map fun r => (r.1, scalarToF64 (some (.uint r.2)))).map (·.2)) = [] := by
    simp [known, scalarToF64]
  unfold score
  rw [if_neg (by simp only [enough, h]; decide)]

/-- The property as users see it: the score of a series of two numbers or more is a number between 0 and 1, whatever the batches. -/
def C159Full : Prop := ∀ (s : Score) (rows : List Pt) (parts : List (List (List Pt))), (parts.map List.flatten).flatten.Perm rows →
  (rows.map (·.1)).Nodup → enough rows = true → score s (gather parts) = score s rows

/-- It is false. -/
theorem C159_refuted : ¬ C159Full := by
  intro h
  have h1 := h .completeness [(0, some 1), (1, some 1), (2, some 1)] [[[(0, some 1), (1, some 1)], [(2, some 1)]]] (List.Perm.refl _)
    (by decide +kernel) (by decide +kernel)
  have h2 : score .completeness (gather [[[(0, some 1), (1, some 1)], [(2, some 1)]]]) = .error .error := by with_unfolding_all rfl
  have h3 : score .completeness [(0, some 1), (1, some 1), (2, some 1)] = .ok 1 := by with_unfolding_all rfl
  rw [h2, h3] at h1
  simp at h1

end Verif.Repair
