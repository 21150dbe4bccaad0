import Verif.Repair.Fill
import Verif.Repair.Times
/-!
# C158: `value_repair` with `method=screen` gives values that obey the speeds
-/
namespace Verif.Repair
open Verif.Sort

/-! ## What is asked -/

/-- The change from every row to the next is at least `smin` and at most `smax` per unit of time. -/
def Obeys (smin smax : Rat) : List (Int × Rat) → Prop
  | p :: q :: l => (smin * ((q.1 - p.1 : Int) : Rat) ≤ q.2 - p.2 ∧ q.2 - p.2 ≤ smax * ((q.1 - p.1 : Int) : Rat)) ∧ Obeys smin smax (q :: l)
  | _ => True

/-- C158: a repair succeeds or fails with an answer, has a value for every row, and the values obey the speeds. -/
def C158Full : Prop := ∀ (smin smax : Option Rat) (ts : List Int) (l : List Val), ts.length = l.length → ts.Pairwise (· < ·) →
  (∀ a b, smin = some a → smax = some b → a ≤ b) →
  valueRepair smin smax ts l ≠ .error .panic

/-! ## Speeds -/

theorem screenFrom_length (w : Int) (smin smax : Rat) (prev : Option (Int × Rat)) (pts : List (Int × Rat)) :
    (screenFrom w smin smax prev pts).length = pts.length := by
  induction pts generalizing prev with
  | nil => rfl
  | cons p l ih => simp [screenFrom, ih]

theorem clamp_obeys {smin smax : Rat} (h : smin ≤ smax) {q p : Int × Rat} (ht : q.1 ≤ p.1) (mid : Rat) :
    smin * ((p.1 - q.1 : Int) : Rat) ≤ clamp smin smax q p mid - q.2 ∧ clamp smin smax q p mid - q.2 ≤ smax * ((p.1 - q.1 : Int) : Rat) := by
  have h0 : (0 : Rat) ≤ ((p.1 - q.1 : Int) : Rat) := by
    have : (0 : Int) ≤ p.1 - q.1 := by omega
    exact_mod_cast this
  have h1 : smin * ((p.1 - q.1 : Int) : Rat) ≤ smax * ((p.1 - q.1 : Int) : Rat) := Rat.mul_le_mul_of_nonneg_right h h0
  unfold clamp
  simp only
  generalize smin * ((p.1 - q.1 : Int) : Rat) = a at *
  generalize smax * ((p.1 - q.1 : Int) : Rat) = b at *
  rw [Rat.max_def, Rat.min_def]
  grind

theorem screenFrom_obeys {w : Int} {smin smax : Rat} (h : smin ≤ smax) (pts : List (Int × Rat)) (prev : Option (Int × Rat))
    (hs : pts.Pairwise (fun a b => a.1 ≤ b.1)) :
    Obeys smin smax ((pts.map (·.1)).zip (screenFrom w smin smax prev pts)) ∧
    ∀ q p rest, prev = some q → pts = p :: rest → q.1 ≤ p.1 →
      ∃ v, (screenFrom w smin smax prev pts).head? = some v ∧ smin * ((p.1 - q.1 : Int) : Rat) ≤ v - q.2 ∧ v - q.2 ≤ smax * ((p.1 - q.1 : Int) : Rat) := by
  induction pts generalizing prev with
  | nil => exact ⟨trivial, fun q p rest _ h => by simp at h⟩
  | cons p l ih =>
    refine ⟨?_, ?_⟩
    · simp only [screenFrom, List.map_cons, List.zip_cons_cons]
      generalize hv : repaired smin smax prev p (getMedian w smin smax p l) = v
      obtain ⟨h1, h2⟩ := ih (some (p.1, v)) (List.Pairwise.of_cons hs)
      cases l with
      | nil => simp [screenFrom, Obeys]
      | cons p' l =>
        obtain ⟨v', h3, h4⟩ := h2 (p.1, v) p' l rfl rfl ((List.pairwise_cons.1 hs).1 p' (by simp))
        simp only [screenFrom, List.map_cons, List.zip_cons_cons] at h1 h3 ⊢
        simp only [List.head?_cons, Option.some.injEq] at h3
        rw [← h3] at h4
        exact ⟨h4, h1⟩
    · intro q p' rest hq hp hle
      simp only [List.cons.injEq] at hp
      obtain ⟨rfl, rfl⟩ := hp
      subst hq
      exact ⟨clamp smin smax q p (getMedian w smin smax p l), by simp [screenFrom, repaired], clamp_obeys h hle _⟩

/-! ## Medians -/

theorem sortRat_sorted (l : List Rat) : (sortRat l).Pairwise (fun a b => a ≤ b) := by
  have := sortBy_sorted (le := fun a b : Rat => decide (a ≤ b)) (by intro a b c; simp; exact fun h1 h2 => Rat.le_trans h1 h2)
    (by intro a b; simp; exact Rat.le_total) l
  exact this.imp (by simp)

theorem mem_sortRat {l : List Rat} {x : Rat} : x ∈ sortRat l ↔ x ∈ l := mem_sortBy

theorem sortRat_length (l : List Rat) : (sortRat l).length = l.length := length_sortBy

/-- A median of numbers that are not negative is not negative. -/
theorem median_nonneg {l : List Rat} {m : Rat} (h : median l = .ok m) (hl : ∀ x ∈ l, 0 ≤ x) : 0 ≤ m := by
  have hg : ∀ i, 0 ≤ (sortRat l).getD i 0 := by
    intro i
    rw [List.getD_eq_getElem?_getD]
    cases hx : (sortRat l)[i]? with
    | none => simp
    | some x => simp; exact hl x (mem_sortRat.1 (List.mem_of_getElem? hx))
  simp only [median] at h
  split at h
  · simp at h
  · split at h
    · simp at h
      have h1 := hg (l.length / 2 - 1)
      have h2 := hg (l.length / 2)
      grind
    · simp at h; rw [← h]; exact hg _

theorem absR_nonneg (q : Rat) : 0 ≤ absR q := by unfold absR; split <;> grind

theorem mad_nonneg {l : List Rat} {s : Rat} (h : mad l = .ok s) : 0 ≤ s := by
  unfold mad at h
  split at h
  · simp at h
  · rename_i m hm
    cases hx : median (l.map fun v => absR (v - m)) with
    | error e => rw [hx] at h; simp [Except.map] at h
    | ok x =>
      rw [hx] at h
      simp [Except.map] at h
      have : 0 ≤ x := median_nonneg hx (by intro y hy; simp at hy; obtain ⟨a, _, rfl⟩ := hy; exact absR_nonneg _)
      rw [← h]
      exact Rat.mul_nonneg (by decide +kernel) this

/-- The number in the middle: if as many of the others are at most it as are at least it. -/
theorem middle {l lo hi : List Rat} {v : Rat} (hp : l.Perm (lo ++ v :: hi)) (hl : ∀ x ∈ lo, x ≤ v) (hh : ∀ x ∈ hi, v ≤ x) :
    (sortRat l).getD lo.length 0 = v := by
  have hs : (sortRat lo ++ v :: sortRat hi).Pairwise (fun a b => decide (a ≤ b) = true) := by
    rw [List.pairwise_append]
    refine ⟨(sortRat_sorted lo).imp (by simp), ?_, ?_⟩
    · rw [List.pairwise_cons]
      exact ⟨fun x hx => by simpa using hh x (mem_sortRat.1 hx), (sortRat_sorted hi).imp (by simp)⟩
    · intro a ha b hb
      have h1 := hl a (mem_sortRat.1 ha)
      rcases List.mem_cons.1 hb with rfl | hb
      · simpa using h1
      · have := hh b (mem_sortRat.1 hb); simp; exact Rat.le_trans h1 this
  have hp2 : (sortRat l).Perm (sortRat lo ++ v :: sortRat hi) := by
    refine (sortBy_perm _ l).trans (hp.trans ?_)
    exact ((sortBy_perm _ lo).symm).append (List.Perm.cons v (sortBy_perm _ hi).symm)
  have heq : sortRat l = sortRat lo ++ v :: sortRat hi := by
    refine List.Perm.eq_of_pairwise (le := fun a b : Rat => a ≤ b) ?_ (sortRat_sorted l) (hs.imp (by simp)) hp2
    intro a b _ _ h1 h2
    exact Rat.le_antisymm h1 h2
  rw [heq, List.getD_eq_getElem?_getD, List.getElem?_append_right (by rw [sortRat_length]; omega), sortRat_length]
  simp

/-- From one point to all later ones: the speeds are obeyed over any distance. -/
theorem Obeys.far {smin smax : Rat} {p : Int × Rat} {l : List (Int × Rat)} (h : Obeys smin smax (p :: l)) :
    ∀ q ∈ l, smin * ((q.1 - p.1 : Int) : Rat) ≤ q.2 - p.2 ∧ q.2 - p.2 ≤ smax * ((q.1 - p.1 : Int) : Rat) := by
  induction l generalizing p with
  | nil => intro q hq; simp at hq
  | cons a l ih =>
    intro q hq
    obtain ⟨h1, h2⟩ := h
    rcases List.mem_cons.1 hq with rfl | hq
    · exact h1
    · have h3 := ih h2 q hq
      have e : ((q.1 - p.1 : Int) : Rat) = ((q.1 - a.1 : Int) : Rat) + ((a.1 - p.1 : Int) : Rat) := by
        rw [← Rat.intCast_add]; congr 1; omega
      rw [e, Rat.mul_add, Rat.mul_add]
      grind

theorem getMedian_obeys {w : Int} {smin smax : Rat} {p : Int × Rat} {l : List (Int × Rat)} (h : Obeys smin smax (p :: l)) :
    getMedian w smin smax p l = p.2 := by
  unfold getMedian
  simp only
  have hfar := h.far
  have hin : ∀ q ∈ within (p.1 + w) l, q ∈ l := fun q hq => (List.takeWhile_sublist _).mem hq
  have := middle (v := p.2) (l := p.2 :: (within (p.1 + w) l).map (fun q => q.2 + smin * ((p.1 - q.1 : Int) : Rat)) ++
      (within (p.1 + w) l).map (fun q => q.2 + smax * ((p.1 - q.1 : Int) : Rat)))
    (lo := (within (p.1 + w) l).map (fun q => q.2 + smax * ((p.1 - q.1 : Int) : Rat)))
    (hi := (within (p.1 + w) l).map (fun q => q.2 + smin * ((p.1 - q.1 : Int) : Rat))) ?_ ?_ ?_
  · simpa using this
  · exact List.perm_append_comm
  · intro x hx
    obtain ⟨q, hq, rfl⟩ := List.mem_map.1 hx
    have h1 := (hfar q (hin q hq)).2
    have e : ((p.1 - q.1 : Int) : Rat) = -((q.1 - p.1 : Int) : Rat) := by rw [← Rat.intCast_neg]; congr 1; omega
    rw [e, Rat.mul_neg]
    grind
  · intro x hx
    obtain ⟨q, hq, rfl⟩ := List.mem_map.1 hx
    have h1 := (hfar q (hin q hq)).1
    have e : ((p.1 - q.1 : Int) : Rat) = -((q.1 - p.1 : Int) : Rat) := by rw [← Rat.intCast_neg]; congr 1; omega
    rw [e, Rat.mul_neg]
    grind

theorem screenFrom_same {w : Int} {smin smax : Rat} {l : List (Int × Rat)} {prev : Option (Int × Rat)} (h : Obeys smin smax l)
    (hp : ∀ q p rest, prev = some q → l = p :: rest → smin * ((p.1 - q.1 : Int) : Rat) ≤ p.2 - q.2 ∧ p.2 - q.2 ≤ smax * ((p.1 - q.1 : Int) : Rat)) :
    screenFrom w smin smax prev l = l.map (·.2) := by
  induction l generalizing prev with
  | nil => rfl
  | cons p l ih =>
    have hm := getMedian_obeys (w := w) h
    have hv : repaired smin smax prev p p.2 = p.2 := by
      cases prev with
      | none => rfl
      | some q =>
        have := hp q p l rfl rfl
        simp only [repaired, clamp]
        generalize smin * ((p.1 - q.1 : Int) : Rat) = a at *
        generalize smax * ((p.1 - q.1 : Int) : Rat) = b at *
        rw [Rat.max_def, Rat.min_def]
        grind
    simp only [screenFrom, hm, List.map_cons]
    rw [hv]
    congr 1
    cases l with
    | nil => rfl
    | cons p' l =>
      refine ih h.2 ?_
      intro q p'' rest hq he
      simp only [Option.some.injEq] at hq
      simp only [List.cons.injEq] at he
      obtain ⟨rfl, rfl⟩ := he
      subst hq
      exact h.1

/-! ## Values that are missing -/

theorem nextKnown_spec (l : List Val) (i : Nat) : i ≤ nextKnown l i ∧ (∀ k, i ≤ k → k < nextKnown l i → at' l k = none) ∧
    (nextKnown l i < l.length → ∃ v, at' l (nextKnown l i) = some v) ∧ (i ≤ l.length → nextKnown l i ≤ l.length) := by
  induction i using nextKnown.induct l with
  | case1 i h ih =>
    have e : nextKnown l i = nextKnown l (i + 1) := by rw [nextKnown, if_pos h]
    rw [e]
    refine ⟨by omega, fun k h1 h2 => ?_, ih.2.2.1, fun _ => ih.2.2.2 (by omega)⟩
    by_cases hk : k = i
    · rw [hk]; exact h.2
    · exact ih.2.1 k (by omega) h2
  | case2 i h =>
    have e : nextKnown l i = i := by rw [nextKnown, if_neg h]
    rw [e]
    refine ⟨Nat.le_refl _, fun k h1 h2 => absurd h2 (by omega), fun hl => ?_, fun h => h⟩
    cases hv : at' l i with
    | none => exact absurd ⟨hl, hv⟩ h
    | some v => exact ⟨v, rfl⟩

/-- The value at the time `t` on the line through two points. -/
def interp (tp tq t : Int) (a b : Rat) : Rat := a + (b - a) * (((t - tp : Int) : Rat) / ((tq - tp : Int) : Rat))

/-- A value of the result up to the last known number. -/
structure GoodR (ts : List Int) (l : List Val) (t : Nat) (r : Rat) : Prop where
  kept : ∀ v, at' l t = some v → r = v
  line : ∀ p q a b, p < t → t < q → at' l p = some a → at' l q = some b → (∀ i, p < i → i < q → at' l i = none) →
    r = interp (ts.getD p 0) (ts.getD q 0) (ts.getD t 0) a b
  head : ∀ p q a b, t < p → p < q → at' l p = some a → at' l q = some b → (∀ i, i < p → at' l i = none) →
    (∀ i, p < i → i < q → at' l i = none) → r = interp (ts.getD p 0) (ts.getD q 0) (ts.getD t 0) a b

/-- Before the index `k` is looked at. -/
structure NanInv (ts : List Int) (l : List Val) (k : Nat) (s : Nat × Nat × List Val) : Prop where
  lt : s.1 < s.2.1
  ltk : s.2.1 < k
  len : s.2.2.length = l.length
  a : ∃ v, at' l s.1 = some v
  b : ∃ v, at' l s.2.1 = some v
  between : ∀ i, s.1 < i → i < s.2.1 → at' l i = none
  after : ∀ i, s.2.1 < i → i < k → at' l i = none
  rest : ∀ t, s.2.1 < t → at' s.2.2 t = at' l t
  good : ∀ t, t ≤ s.2.1 → ∃ r, at' s.2.2 t = some r ∧ GoodR ts l t r

theorem at'_putLine (ts : List Int) (l : List Val) (a b i j t : Nat) (ht : t < l.length) :
    at' (putLine ts l a b i j) t = if i ≤ t ∧ t < j then some (line ts l a b t) else at' l t := by
  unfold putLine at'
  rw [List.getElem?_mapIdx, List.getElem?_eq_getElem ht]
  simp only [Option.map_some]
  split <;> simp

theorem at'_none_of_ge {l : List Val} {t : Nat} (h : l.length ≤ t) : at' l t = none := by
  unfold at'
  rw [List.getElem?_eq_none h]
  rfl

theorem putLine_length (ts : List Int) (l : List Val) (a b i j : Nat) : (putLine ts l a b i j).length = l.length := by
  simp [putLine]

theorem line_interp {ts : List Int} {l : List Val} {p q t : Nat} {a b : Rat} (hp : at' l p = some a) (hq : at' l q = some b) :
    line ts l p q t = interp (ts.getD p 0) (ts.getD q 0) (ts.getD t 0) a b := by
  simp [line, interp, numAt, hp, hq]

theorem interp_self (tp tq : Int) (a b : Rat) : interp tp tq tp a b = a := by
  unfold interp
  rw [Int.sub_self]
  simp
  grind

theorem NanInv.init {ts : List Int} {l : List Val} {i1 i2 : Nat} {a b : Rat} (h12 : i1 < i2) (h2 : i2 < l.length) (ha : at' l i1 = some a)
    (hb : at' l i2 = some b) (h0 : ∀ i, i < i1 → at' l i = none) (hm : ∀ i, i1 < i → i < i2 → at' l i = none) :
    NanInv ts l (i2 + 1) (i1, i2, putLine ts l i1 i2 0 i2) := by
  refine ⟨h12, by simp, by simp [putLine], ⟨a, ha⟩, ⟨b, hb⟩, hm, fun i h1 h3 => absurd h1 (by simp at *; omega), fun t ht => ?_, fun t ht => ?_⟩
  · simp only at ht
    by_cases htl : t < l.length
    · rw [at'_putLine _ _ _ _ _ _ _ htl, if_neg (by omega)]
    · rw [at'_none_of_ge (by rw [putLine_length]; omega), at'_none_of_ge (by omega)]
  · simp only at ht
    rw [at'_putLine _ _ _ _ _ _ _ (by omega)]
    by_cases hlt : t < i2
    · rw [if_pos ⟨by omega, hlt⟩]
      refine ⟨_, rfl, ?_⟩
      rw [line_interp ha hb]
      refine ⟨fun v hv => ?_, fun p q a' b' h3 h4 h5 h6 h7 => ?_, fun p q a' b' h3 h4 h5 h6 h7 h8 => ?_⟩
      · have : t = i1 := by
          rcases Nat.lt_trichotomy t i1 with h | h | h
          · rw [h0 t h] at hv; simp at hv
          · exact h
          · rw [hm t h hlt] at hv; simp at hv
        subst this
        rw [interp_self]
        rw [ha] at hv; simpa using hv
      · have hp : p = i1 := by
          rcases Nat.lt_trichotomy p i1 with h | h | h
          · rw [h0 p h] at h5; simp at h5
          · exact h
          · rw [hm p h (by omega)] at h5; simp at h5
        subst hp
        have hq : q = i2 := by
          rcases Nat.lt_trichotomy q i2 with h | h | h
          · rw [hm q (by omega) h] at h6; simp at h6
          · exact h
          · rw [h7 i2 h12 h] at hb; simp at hb
        subst hq
        rw [ha] at h5; rw [hb] at h6
        simp at h5 h6
        rw [h5, h6]
      · have hp : p = i1 := by
          rcases Nat.lt_trichotomy p i1 with h | h | h
          · rw [h0 p h] at h5; simp at h5
          · exact h
          · rw [h7 i1 h] at ha; simp at ha
        subst hp
        have hq : q = i2 := by
          rcases Nat.lt_trichotomy q i2 with h | h | h
          · rw [hm q (by omega) h] at h6; simp at h6
          · exact h
          · rw [h8 i2 h12 h] at hb; simp at hb
        subst hq
        rw [ha] at h5; rw [hb] at h6
        simp at h5 h6
        rw [h5, h6]
    · rw [if_neg (by omega)]
      have : t = i2 := by omega
      subst this
      refine ⟨b, hb, fun v hv => ?_, fun p q a' b' h3 h4 h5 h6 h7 => ?_, fun p q a' b' h3 h4 h5 h6 h7 h8 => ?_⟩
      · rw [hb] at hv; simpa using hv
      · rw [h7 t h3 h4] at hb; simp at hb
      · rw [h7 t h3] at hb; simp at hb

theorem NanInv.step {ts : List Int} {l : List Val} {k : Nat} {s : Nat × Nat × List Val} (h : NanInv ts l k s) (hk : k < l.length) :
    NanInv ts l (k + 1) (nanStep ts s k) := by
  have hrk := h.rest k h.ltk
  obtain ⟨vb, hb⟩ := h.b
  obtain ⟨va, ha⟩ := h.a
  unfold nanStep
  cases hv : at' l k with
  | none =>
    rw [if_pos (by rw [hrk]; exact hv)]
    refine ⟨h.lt, by have := h.ltk; omega, h.len, h.a, h.b, h.between, fun i h1 h2 => ?_, h.rest, h.good⟩
    by_cases hik : i = k
    · rw [hik]; exact hv
    · exact h.after i h1 (by omega)
  | some v =>
    rw [if_neg (by rw [hrk, hv]; simp)]
    obtain ⟨rb, hrb, hgb⟩ := h.good s.2.1 (Nat.le_refl _)
    have hrbv : rb = vb := hgb.kept vb hb
    subst hrbv
    have hltk := h.ltk
    have hlen := h.len
    refine ⟨hltk, by simp, by simp [putLine, hlen], ⟨_, hb⟩, ⟨_, hv⟩, fun i h1 h2 => h.after i h1 h2, fun i h1 h2 => absurd h1 (by simp at *; omega),
      fun t ht => ?_, fun t ht => ?_⟩
    · simp only at ht ⊢
      by_cases htl : t < s.2.2.length
      · rw [at'_putLine _ _ _ _ _ _ _ htl, if_neg (by omega)]
        exact h.rest t (by omega)
      · rw [at'_none_of_ge (by rw [putLine_length]; omega), at'_none_of_ge (by omega)]
    · simp only at ht ⊢
      rw [at'_putLine _ _ _ _ _ _ _ (by omega)]
      by_cases h1 : t ≤ s.2.1
      · rw [if_neg (by omega)]
        exact h.good t h1
      · by_cases h2 : t < k
        · rw [if_pos ⟨by omega, h2⟩]
          refine ⟨_, rfl, ?_⟩
          rw [line_interp hrb (by rw [hrk]; exact hv)]
          refine ⟨fun v' hv' => ?_, fun p q a' b' h3 h4 h5 h6 h7 => ?_, fun p q a' b' h3 h4 h5 h6 h7 h8 => ?_⟩
          · rw [h.after t (by omega) h2] at hv'; simp at hv'
          · have hp : p = s.2.1 := by
              rcases Nat.lt_trichotomy p s.2.1 with h | h | h'
              · rw [h7 s.2.1 h (by omega)] at hb; simp at hb
              · exact h
              · rw [h.after p h' (by omega)] at h5; simp at h5
            have hq : q = k := by
              rcases Nat.lt_trichotomy q k with h' | h' | h'
              · rw [h.after q (by omega) h'] at h6; simp at h6
              · exact h'
              · rw [h7 k (by omega) h'] at hv; simp at hv
            rw [hp, hb] at h5; rw [hq, hv] at h6
            simp at h5 h6
            rw [hp, hq, h5, h6]
          · rw [h7 s.2.1 (by omega)] at hb; simp at hb
        · rw [if_neg (by omega)]
          have : t = k := by omega
          subst this
          refine ⟨v, by rw [hrk]; exact hv, fun v' hv' => ?_, fun p q a' b' h3 h4 h5 h6 h7 => ?_, fun p q a' b' h3 h4 h5 h6 h7 h8 => ?_⟩
          · rw [hv] at hv'; simpa using hv'
          · rw [h7 t h3 h4] at hv; simp at hv
          · rw [h7 t h3] at hv; simp at hv

theorem NanInv.fold {ts : List Int} {l : List Val} {i2 : Nat} {s : Nat × Nat × List Val} (h : NanInv ts l (i2 + 1) s) (k : Nat) (hk : k ≤ l.length) :
    NanInv ts l (max k (i2 + 1)) (((List.range k).filter fun i => decide (i2 < i)).foldl (nanStep ts) s) := by
  induction k with
  | zero => simpa using h
  | succ k ih =>
    have ih := ih (by omega)
    rw [List.range_succ, List.filter_append, List.foldl_append]
    by_cases hlt : i2 < k
    · have e : [k].filter (fun i => decide (i2 < i)) = [k] := by simp [hlt]
      rw [e, show max (k + 1) (i2 + 1) = k + 1 by omega]
      rw [show max k (i2 + 1) = k by omega] at ih
      exact ih.step (by omega)
    · have e : [k].filter (fun i => decide (i2 < i)) = [] := by simp [hlt]
      rw [e, show max (k + 1) (i2 + 1) = i2 + 1 by omega]
      rw [show max k (i2 + 1) = i2 + 1 by omega] at ih
      exact ih

/-- What `process_nan` is to give: a value for every row; those known as they were; the others on the line through the known
ones on both sides, or through the nearest two if there are none on one side. -/
structure Completed (ts : List Int) (l : List Val) (out : List Val) : Prop where
  len : out.length = l.length
  kept : ∀ t v, at' l t = some v → at' out t = some v
  line : ∀ t p q a b, p < q → t < l.length → at' l t = none → at' l p = some a → at' l q = some b → (∀ i, p < i → i < q → at' l i = none) →
    (p < t ∧ t < q) ∨ (t < p ∧ ∀ i, i < p → at' l i = none) ∨ (q < t ∧ ∀ i, q < i → at' l i = none) →
    at' out t = some (interp (ts.getD p 0) (ts.getD q 0) (ts.getD t 0) a b)

theorem processNan_ok {ts : List Int} {l : List Val} {p q : Nat} {a b : Rat} (hpq : p < q) (hp : at' l p = some a) (hq : at' l q = some b) :
    ∃ out, processNan ts l = .ok out ∧ Completed ts l out := by
  obtain ⟨n1, n2, n3, n4⟩ := nextKnown_spec l 0
  obtain ⟨m1, m2, m3, m4⟩ := nextKnown_spec l (nextKnown l 0 + 1)
  have hql := at'_lt hq
  have h1p : nextKnown l 0 ≤ p := by
    rcases Nat.lt_or_ge p (nextKnown l 0) with h | h
    · rw [n2 p (by omega) h] at hp; simp at hp
    · exact h
  have h2q : nextKnown l (nextKnown l 0 + 1) ≤ q := by
    rcases Nat.lt_or_ge q (nextKnown l (nextKnown l 0 + 1)) with h | h
    · rw [m2 q (by omega) h] at hq; simp at hq
    · exact h
  obtain ⟨va, hva⟩ := n3 (by omega)
  obtain ⟨vb, hvb⟩ := m3 (by omega)
  have hinit := NanInv.init (ts := ts) (by omega) (by omega) hva hvb (fun i hi => n2 i (by omega) hi)
    (fun i h1 h2 => m2 i (by omega) h2)
  have hfold := hinit.fold l.length (Nat.le_refl _)
  rw [show max l.length (nextKnown l (nextKnown l 0 + 1) + 1) = l.length by omega] at hfold
  simp only [processNan]
  rw [if_neg (by omega), if_neg (by omega)]
  refine ⟨_, rfl, ?_⟩
  generalize ((List.range l.length).filter fun i => decide (nextKnown l (nextKnown l 0 + 1) < i)).foldl (nanStep ts)
    (nextKnown l 0, nextKnown l (nextKnown l 0 + 1), putLine ts l (nextKnown l 0) (nextKnown l (nextKnown l 0 + 1)) 0
      (nextKnown l (nextKnown l 0 + 1))) = s at hfold
  obtain ⟨sb, hsb⟩ := hfold.b
  obtain ⟨sa, hsa⟩ := hfold.a
  have hlen := hfold.len
  have hlt := hfold.ltk
  refine ⟨by rw [putLine_length, hlen], fun t v hv => ?_, fun t p' q' a' b' hpq' htl ht hp' hq' hm hc => ?_⟩
  · have htl := at'_lt hv
    have : t ≤ s.2.1 := by
      rcases Nat.lt_or_ge s.2.1 t with h | h
      · rw [hfold.after t h htl] at hv; simp at hv
      · exact h
    rw [at'_putLine _ _ _ _ _ _ _ (by omega), if_neg (by omega)]
    obtain ⟨r, hr, hg⟩ := hfold.good t this
    rw [hr, hg.kept v hv]
  · rw [at'_putLine _ _ _ _ _ _ _ (by omega)]
    have hql' := at'_lt hq'
    have hqs : q' ≤ s.2.1 := by
      rcases Nat.lt_or_ge s.2.1 q' with h | h
      · rw [hfold.after q' h hql'] at hq'; simp at hq'
      · exact h
    rcases hc with ⟨h1, h2⟩ | ⟨h1, h2⟩ | ⟨h1, h2⟩
    · rw [if_neg (by omega)]
      obtain ⟨r, hr, hg⟩ := hfold.good t (by omega)
      rw [hr, hg.line p' q' a' b' h1 h2 hp' hq' hm]
    · rw [if_neg (by omega)]
      obtain ⟨r, hr, hg⟩ := hfold.good t (by omega)
      rw [hr, hg.head p' q' a' b' h1 hpq' hp' hq' h2 hm]
    · have hq2 : q' = s.2.1 := by
        rcases Nat.lt_or_ge q' s.2.1 with h | h
        · rw [h2 s.2.1 h] at hsb; simp at hsb
        · omega
      have hp2 : p' = s.1 := by
        have hslt := hfold.lt
        rcases Nat.lt_trichotomy p' s.1 with h | h | h
        · rw [hm s.1 h (by omega)] at hsa; simp at hsa
        · exact h
        · rw [hfold.between p' h (by omega)] at hp'; simp at hp'
      rw [if_pos ⟨by omega, htl⟩]
      obtain ⟨ra, hra, hga⟩ := hfold.good s.1 (by have := hfold.lt; omega)
      obtain ⟨rb, hrb, hgb⟩ := hfold.good s.2.1 (Nat.le_refl _)
      have e1 := hga.kept sa hsa
      have e2 := hgb.kept sb hsb
      subst e1 e2
      rw [line_interp hra hrb]
      rw [hp2] at hp'; rw [hq2] at hq'
      rw [hsa] at hp'; rw [hsb] at hq'
      simp at hp' hq'
      rw [hp2, hq2, hp', hq']

/-! ## The property -/

/-- **C158 (missing values)**: with two numbers or more, missing values are put on the lines through the known ones, and no known
value is changed before the repair. -/
theorem C158_completed (ts : List Int) (l : List Val) (p q : Nat) (a b : Rat) (hpq : p < q) (hp : l[p]? = some (some a))
    (hq : l[q]? = some (some b)) : ∃ out, processNan ts l = .ok out ∧ Completed ts l out :=
  processNan_ok hpq (at'_eq.2 hp) (at'_eq.2 hq)

example : (match processNan [0, 1, 2, 3, 10, 20] [none, some 2, none, some 6, none, some 6] with | .ok out => some out | _ => none) =
    some [some 0, some 2, some 4, some 6, some 6, some 6] := by decide +kernel

theorem screen_ok {smin smax : Option Rat} {ts : List Int} {vs out : List Rat} (h : screen smin smax ts vs = .ok out) :
    ∃ iv sigma mid, intervalMedian ts = .ok iv ∧ mad (speeds ts vs) = .ok sigma ∧ median (speeds ts vs) = .ok mid ∧
      out = screenFrom (5 * iv) (smin.getD (mid - 3 * sigma)) (smax.getD (mid + 3 * sigma)) none (ts.zip vs) := by
  unfold screen at h
  split at h
  · rename_i iv sigma mid h1 h2 h3
    simp at h
    exact ⟨iv, sigma, mid, h1, h2, h3, h.symm⟩
  · simp at h

/-- **C158 (partial: speeds)**: if a repair with given speeds, the smaller not above the larger, ends well, there is a value for
every row and the changes between neighbours obey the speeds. -/
theorem C158_speeds (smin smax : Rat) (hm : smin ≤ smax) (ts : List Int) (l : List Val) (hl : ts.length = l.length)
    (hs : ts.Pairwise (· ≤ ·)) (out : List Rat) (h : valueRepair (some smin) (some smax) ts l = .ok out) :
    out.length = l.length ∧ Obeys smin smax (ts.zip out) := by
  unfold valueRepair at h
  split at h
  · simp at h
  · rename_i vs hvs
    obtain ⟨iv, sigma, mid, _, _, _, rfl⟩ := screen_ok h
    have hlen : vs.length = l.length := by
      simp only [processNan] at hvs
      split at hvs
      · simp at hvs
      · split at hvs
        · simp at hvs
        · rename_i h1 h2
          simp at hvs
          rw [← hvs, putLine_length]
          have go : ∀ (is : List Nat) (s : Nat × Nat × List Val), (is.foldl (nanStep ts) s).2.2.length = s.2.2.length := by
            intro is
            induction is with
            | nil => intro s; rfl
            | cons i is ih =>
              intro s
              rw [List.foldl_cons, ih]
              unfold nanStep
              split
              · rfl
              · simp [putLine]
          rw [go]
          simp [putLine]
    have hz : (ts.zip (vs.map fun v => v.getD 0)).map (·.1) = ts := by
      rw [List.map_fst_zip]; simp; omega
    have hp : (ts.zip (vs.map fun v => v.getD 0)).Pairwise (fun a b => a.1 ≤ b.1) := by
      have : ((ts.zip (vs.map fun v => v.getD 0)).map (·.1)).Pairwise (· ≤ ·) := by rw [hz]; exact hs
      exact List.pairwise_map.1 this
    refine ⟨by rw [screenFrom_length]; simp; omega, ?_⟩
    have := (screenFrom_obeys (w := 5 * iv) hm (ts.zip (vs.map fun v => v.getD 0)) none hp).1
    rw [hz] at this
    exact this

/-- A spike is flattened, but values before it are changed as well. -/
example : (match valueRepair (some (-2)) (some 2) [0, 1, 2, 3, 4] [some 1, none, some 50, some 2, some 1] with | .ok out => some out | _ => none) =
    some [9, 7, 5, 3, 1] := by decide +kernel

/-- Without given speeds those found in the series are used, and the smaller is never above the larger. -/
theorem C158_default (ts : List Int) (vs out : List Rat) (hl : ts.length = vs.length) (hs : ts.Pairwise (· ≤ ·))
    (h : screen none none ts vs = .ok out) : ∃ smin smax, smin ≤ smax ∧ Obeys smin smax (ts.zip out) := by
  obtain ⟨iv, sigma, mid, _, h2, _, rfl⟩ := screen_ok h
  have hn := mad_nonneg h2
  have hm : mid - 3 * sigma ≤ mid + 3 * sigma := by grind
  have hz : (ts.zip vs).map (·.1) = ts := by rw [List.map_fst_zip]; omega
  have hp : (ts.zip vs).Pairwise (fun a b => a.1 ≤ b.1) := by
    have : ((ts.zip vs).map (·.1)).Pairwise (· ≤ ·) := by rw [hz]; exact hs
    exact List.pairwise_map.1 this
  refine ⟨_, _, hm, ?_⟩
  have := (screenFrom_obeys (w := 5 * iv) hm (ts.zip vs) none hp).1
  rw [hz] at this
  exact this

/-- **C158 (partial: nothing to repair)**: a series that obeys the speeds is returned as it is. -/
theorem C158_unchanged (smin smax : Rat) (ts : List Int) (vs out : List Rat) (hl : ts.length = vs.length)
    (ho : Obeys smin smax (ts.zip vs)) (h : screen (some smin) (some smax) ts vs = .ok out) : out = vs := by
  obtain ⟨iv, sigma, mid, _, _, _, rfl⟩ := screen_ok h
  simp only [Option.getD_some]
  rw [screenFrom_same ho (by intro q p rest hq; simp at hq), List.map_snd_zip]
  omega

example : Obeys 0 10 ([0, 1, 2, 4].zip [1, 2, 2, 20]) := by
  refine ⟨by decide +kernel, by decide +kernel, by decide +kernel, trivial⟩

/-- With three rows or more and two numbers or more, the repair does not fail. -/
theorem C158_total (smin smax : Option Rat) (ts : List Int) (vs : List Rat) (hl : ts.length = vs.length) (hn : 3 ≤ ts.length) :
    ∃ out, screen smin smax ts vs = .ok out := by
  have h1 : ∃ iv, intervalMedian ts = .ok iv := by
    have hlen : (sortInt (gaps ts)).length = ts.length - 1 := by simp [sortInt, length_sortBy, gaps]
    simp only [intervalMedian]
    rw [if_neg (by omega), List.getElem?_eq_getElem (by omega), List.getElem?_eq_getElem (i := ts.length / 2) (by omega)]
    split
    · exact ⟨_, rfl⟩
    · exact ⟨_, rfl⟩
  have hmed : ∀ l : List Rat, l ≠ [] → ∃ m, median l = .ok m := by
    intro l hne
    simp only [median]
    rw [if_neg (by intro h; exact hne (List.length_eq_zero_iff.1 h))]
    split
    · exact ⟨_, rfl⟩
    · exact ⟨_, rfl⟩
  have hsp : speeds ts vs ≠ [] := by
    intro h
    have := congrArg List.length h
    simp only [speeds, List.length_map, List.length_zip, List.length_tail, List.length_nil] at this
    omega
  obtain ⟨iv, h1⟩ := h1
  obtain ⟨m, h2⟩ := hmed _ hsp
  obtain ⟨m', h3⟩ := hmed ((speeds ts vs).map fun v => absR (v - m)) (by simpa using hsp)
  have h4 : mad (speeds ts vs) = .ok (14826 / 10000 * m') := by simp [mad, h2, h3, Except.map]
  unfold screen
  rw [h1, h2, h4]
  exact ⟨_, rfl⟩

/-- **C158 is false**: a series with exactly one number panics instead of giving the answer that two are needed. -/
theorem C158_one_refuted (smin smax : Option Rat) (ts : List Int) (l : List Val) (p : Nat) (a : Rat) (hp : l[p]? = some (some a))
    (ho : ∀ i, i ≠ p → i < l.length → l[i]? = some none) : valueRepair smin smax ts l = .error .panic := by
  have hp' := at'_eq.2 hp
  have hpl := at'_lt hp'
  have hn : ∀ i, i ≠ p → at' l i = none := by
    intro i hi
    by_cases hl : i < l.length
    · simp [at', ho i hi hl]
    · exact at'_none_of_ge (by omega)
  obtain ⟨n1, n2, n3, n4⟩ := nextKnown_spec l 0
  have h1 : nextKnown l 0 = p := by
    rcases Nat.lt_trichotomy (nextKnown l 0) p with h | h | h
    · obtain ⟨v, hv⟩ := n3 (by omega)
      rw [hn _ (by omega)] at hv; simp at hv
    · exact h
    · rw [n2 p (by omega) h] at hp'; simp at hp'
  obtain ⟨m1, m2, m3, m4⟩ := nextKnown_spec l (p + 1)
  have h2 : nextKnown l (p + 1) = l.length := by
    have h3 := m4 (by omega)
    rcases Nat.lt_or_ge (nextKnown l (p + 1)) l.length with h | h
    · obtain ⟨v, hv⟩ := m3 h
      rw [hn _ (by omega)] at hv; simp at hv
    · omega
  have h3 : processNan ts l = .error .panic := by
    simp only [processNan]
    rw [h1, h2, if_neg (by omega), if_pos rfl]
  unfold valueRepair
  rw [h3]

/-- No number at all is answered with an error. -/
theorem C158_none (smin smax : Option Rat) (ts : List Int) (l : List Val) (h : ∀ i, i < l.length → l[i]? = some none) :
    valueRepair smin smax ts l = .error .error := by
  have hn : ∀ i, at' l i = none := by
    intro i
    by_cases hl : i < l.length
    · simp [at', h i hl]
    · exact at'_none_of_ge (by omega)
  obtain ⟨n1, n2, n3, n4⟩ := nextKnown_spec l 0
  have h1 : nextKnown l 0 = l.length := by
    have h3 := n4 (by omega)
    rcases Nat.lt_or_ge (nextKnown l 0) l.length with h | h
    · obtain ⟨v, hv⟩ := n3 h
      rw [hn _] at hv; simp at hv
    · omega
  have h3 : processNan ts l = .error .error := by
    simp only [processNan]
    rw [h1, if_pos (by have := (nextKnown_spec l (l.length + 1)).1; omega)]
  unfold valueRepair
  rw [h3]

/-- **C158 is false**: two rows panic, with or without given speeds. -/
theorem C158_two_refuted (smin smax : Option Rat) (t0 t1 : Int) (v0 v1 : Rat) :
    screen smin smax [t0, t1] [v0, v1] = .error .panic := by
  have : intervalMedian [t0, t1] = .error .panic := by
    simp [intervalMedian, gaps, sortInt, sortBy, insertBy]
  unfold screen
  rw [this]

/-- A smallest speed above the largest is accepted: the result of a series then jumps at the smallest one, and obeys neither. -/
theorem C158_order_refuted : ∃ out, screen (some 5) (some 1) [0, 1, 2, 3] [0, 0, 0, 0] = .ok out ∧ ¬ Obeys 1 1 ([0, 1, 2, 3].zip out) ∧
    ¬ Obeys 5 1 ([0, 1, 2, 3].zip out) := by
  have h : (match screen (some 5) (some 1) [0, 1, 2, 3] [0, 0, 0, 0] with | .ok out => some out | .error _ => none) = some [-3, 2, 7, 12] := by
    decide +kernel
  split at h
  · rename_i out ho
    simp at h
    refine ⟨[-3, 2, 7, 12], by rw [ho, h], ?_, ?_⟩
    · intro ⟨⟨_, h2⟩, _⟩
      exact absurd h2 (by decide +kernel)
    · intro ⟨⟨_, h2⟩, _⟩
      exact absurd h2 (by decide +kernel)
  · simp at h

/-- The property as stated is false. -/
theorem C158_refuted : ¬ C158Full := by
  intro h
  exact h none none [1, 2] [some 1, none] rfl (by decide) (by intro a b h; simp at h)
    (C158_one_refuted none none [1, 2] [some 1, none] 0 1 rfl (by
      intro i h1 h2
      match i with
      | 0 => exact absurd rfl h1
      | 1 => rfl
      | i + 2 => exact absurd h2 (by simp)))

end Verif.Repair
