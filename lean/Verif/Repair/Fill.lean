import Verif.Repair.Model
/-!
# C156: `value_fill` keeps what is known and fills what is not
-/
namespace Verif.Repair

/-! ## What is asked -/

/-- As many rows as before, and the known numbers as they were. -/
def Keeps (l : List Val) (out : List Cell) : Prop :=
  out.length = l.length ∧ ∀ (i : Nat) (q : Rat), l[i]? = some (some q) → out[i]? = some (.num q)

/-- Every row has a number. -/
def Full (out : List Cell) : Prop := ∀ c ∈ out, ∃ q, c = .num q

theorem at'_eq {l : List Val} {i : Nat} {q : Rat} : at' l i = some q ↔ l[i]? = some (some q) := by
  unfold at'
  cases h : l[i]? with
  | none => simp
  | some v => simp

theorem at'_lt {l : List Val} {i : Nat} {q : Rat} (h : at' l i = some q) : i < l.length := by
  have := at'_eq.1 h
  exact (List.getElem?_eq_some_iff.1 this).1

/-! ## `mean` -/

theorem fillMean_keeps (l : List Val) : Keeps l (fillMean l) := by
  refine ⟨by simp [fillMean], fun i q h => ?_⟩
  simp [fillMean, h]

theorem fillMean_full (l : List Val) : Full (fillMean l) := by
  intro c hc
  simp only [fillMean, List.mem_map] at hc
  obtain ⟨v, _, rfl⟩ := hc
  exact ⟨_, rfl⟩

/-! ## `previous` -/

theorem fillPrevious_keeps (l : List Val) (last : Val) : Keeps l (fillPrevious last l) := by
  induction l generalizing last with
  | nil => exact ⟨rfl, fun i q h => by simp at h⟩
  | cons v l ih =>
    cases v with
    | none =>
      refine ⟨by simp [fillPrevious, (ih last).1], fun i q h => ?_⟩
      cases i with
      | zero => simp at h
      | succ i => simpa [fillPrevious] using (ih last).2 i q (by simpa using h)
    | some r =>
      refine ⟨by simp [fillPrevious, (ih (some r)).1], fun i q h => ?_⟩
      cases i with
      | zero => simp at h; simp [fillPrevious, h]
      | succ i => simpa [fillPrevious] using (ih (some r)).2 i q (by simpa using h)

theorem fillPrevious_full (l : List Val) (last : Rat) : Full (fillPrevious (some last) l) := by
  induction l generalizing last with
  | nil => intro c hc; simp [fillPrevious] at hc
  | cons v l ih =>
    intro c hc
    cases v with
    | none =>
      rcases List.mem_cons.1 hc with rfl | hc
      · exact ⟨last, rfl⟩
      · exact ih last c hc
    | some r =>
      rcases List.mem_cons.1 hc with rfl | hc
      · exact ⟨r, rfl⟩
      · exact ih r c hc

/-- The value of a row is the last known one at or before it. -/
theorem fillPrevious_at (l : List Val) (last : Val) (p t : Nat) (a : Rat) (hp : l[p]? = some (some a)) (hpt : p ≤ t) (ht : t < l.length)
    (hn : ∀ i, p < i → i ≤ t → at' l i = none) : (fillPrevious last l)[t]? = some (.num a) := by
  induction l generalizing last p t with
  | nil => simp at ht
  | cons v l ih =>
    cases p with
    | zero =>
      simp at hp; subst hp
      have go : ∀ (l : List Val) (t : Nat), t < l.length → (∀ i, i ≤ t → at' l i = none) →
          (fillPrevious (some a) l)[t]? = some (.num a) := by
        intro l
        induction l with
        | nil => intro t ht; simp at ht
        | cons v l ihl =>
          intro t ht h0
          have hv : v = none := by have := h0 0 (by omega); simpa [at'] using this
          subst hv
          cases t with
          | zero => rfl
          | succ t =>
            simp only [fillPrevious, List.getElem?_cons_succ]
            exact ihl t (by simpa using ht) fun i hi => by have := h0 (i + 1) (by omega); simpa [at'] using this
      cases t with
      | zero => rfl
      | succ t =>
        simp only [fillPrevious, List.getElem?_cons_succ]
        exact go l t (by simpa using ht) fun i hi => by have := hn (i + 1) (by omega) (by omega); simpa [at'] using this
    | succ p =>
      cases t with
      | zero => omega
      | succ t =>
        have hp' : l[p]? = some (some a) := by simpa using hp
        have hn' : ∀ i, p < i → i ≤ t → at' l i = none := fun i h1 h2 => by
          have := hn (i + 1) (by omega) (by omega); simpa [at'] using this
        cases v with
        | none => simpa [fillPrevious] using ih last p t hp' (by omega) (by simpa using ht) hn'
        | some r => simpa [fillPrevious] using ih (some r) p t hp' (by omega) (by simpa using ht) hn'

/-! ## `linear` -/

/-- What a cell must be: the number that is known, the point on the line between the neighbours that are known, or the first
number. -/
structure Good (o : List Val) (t : Nat) (c : Cell) : Prop where
  kept : ∀ v, at' o t = some v → c = .num v
  line : ∀ p q a b, p < t → t < q → at' o p = some a → at' o q = some b → (∀ i, p < i → i < q → at' o i = none) →
    c = .num (a + (b - a) * (((t : Rat) - (p : Rat)) / ((q : Rat) - (p : Rat))))
  head : ∀ q b, t < q → at' o q = some b → (∀ i, i < q → at' o i = none) → c = .num b

/-- After `k` rows. -/
structure LinInv (o : List Val) (k : Nat) (s : Option Nat × List Cell) : Prop where
  len : s.2.length = o.length
  none' : s.1 = none → ∀ i, i < k → at' o i = none
  prev : ∀ p, s.1 = some p → p < k ∧ (∃ a, at' o p = some a) ∧ ∀ i, p < i → i < k → at' o i = none
  good : ∀ p t c, s.1 = some p → t ≤ p → s.2[t]? = some c → Good o t c ∧ ∃ q, c = .num q
  junk : ∀ t c, s.2[t]? = some c → (∀ p, s.1 = some p → p < t) → c = .junk

theorem line_eq (a v : Rat) (p t i : Nat) (h : p < i) :
    v + (v - a) / ((i : Rat) - (p : Rat)) * ((t : Rat) - (i : Rat)) =
      a + (v - a) * (((t : Rat) - (p : Rat)) / ((i : Rat) - (p : Rat))) := by
  have h1 : (p : Rat) < (i : Rat) := by exact_mod_cast h
  have h2 : ((i : Rat) - (p : Rat)) ≠ 0 := by grind
  grind

theorem LinInv.step {o : List Val} {k : Nat} {s : Option Nat × List Cell} (h : LinInv o k s) (hk : k < o.length) :
    LinInv o (k + 1) (linearStep o s k) := by
  unfold linearStep
  cases hv : at' o k with
  | none =>
    refine ⟨h.len, fun h0 i hi => ?_, fun p hp => ?_, h.good, h.junk⟩
    · by_cases hik : i = k
      · rw [hik]; exact hv
      · exact h.none' h0 i (by omega)
    · obtain ⟨h1, h2, h3⟩ := h.prev p hp
      refine ⟨by omega, h2, fun i h4 h5 => ?_⟩
      by_cases hik : i = k
      · rw [hik]; exact hv
      · exact h3 i h4 (by omega)
  | some v =>
    refine ⟨by simp [h.len], by simp, ?_, ?_, ?_⟩
    · intro p hp
      simp only [Option.some.injEq] at hp
      subst hp
      exact ⟨by omega, ⟨v, hv⟩, fun i h1 h2 => absurd h1 (by omega)⟩
    · intro p t c hp htp hc
      simp only [Option.some.injEq] at hp
      subst hp
      simp only [List.getElem?_mapIdx, Option.map_eq_some_iff] at hc
      obtain ⟨c0, hc0, hc⟩ := hc
      by_cases htk : t = k
      · subst htk
        rw [if_pos rfl] at hc
        subst hc
        refine ⟨⟨fun v' h' => ?_, fun p q a b h1 h2 _ _ h5 => ?_, fun q b h1 _ h3 => ?_⟩, ⟨v, rfl⟩⟩
        · rw [hv] at h'; simp at h'; rw [h']
        · rw [h5 t h1 h2] at hv; simp at hv
        · rw [h3 t h1] at hv; simp at hv
      · rw [if_neg htk] at hc
        have htk' : t < k := by omega
        cases hs : s.1 with
        | none =>
          simp only [hs] at hc
          rw [if_pos ⟨Nat.zero_le _, htk'⟩] at hc
          have hz : v + 0 * ((t : Rat) - (k : Rat)) = v := by grind
          rw [hz] at hc
          subst hc
          have hn := h.none' hs
          refine ⟨⟨fun v' h' => ?_, fun p q a b h1 h2 h3 _ _ => ?_, fun q b h1 h2 h3 => ?_⟩, ⟨v, rfl⟩⟩
          · rw [hn t htk'] at h'; simp at h'
          · rw [hn p (by omega)] at h3; simp at h3
          · have : q = k := by
              rcases Nat.lt_trichotomy q k with h4 | h4 | h4
              · rw [hn q h4] at h2; simp at h2
              · exact h4
              · rw [h3 k h4] at hv; simp at hv
            subst this
            rw [hv] at h2; simp at h2; rw [h2]
        | some p =>
          obtain ⟨hpk, ⟨a, ha⟩, hpn⟩ := h.prev p hs
          simp only [hs] at hc
          by_cases hpt : p + 1 ≤ t
          · rw [if_pos ⟨hpt, htk'⟩] at hc
            have hna : numAt o p = a := by simp [numAt, ha]
            rw [hna, line_eq a v p t k hpk] at hc
            subst hc
            refine ⟨⟨fun v' h' => ?_, fun p' q a' b h1 h2 h3 h4 h5 => ?_, fun q b h1 h2 h3 => ?_⟩, ⟨_, rfl⟩⟩
            · rw [hpn t (by omega) htk'] at h'; simp at h'
            · have hp' : p' = p := by
                rcases Nat.lt_trichotomy p' p with h6 | h6 | h6
                · rw [h5 p h6 (by omega)] at ha; simp at ha
                · exact h6
                · rw [hpn p' h6 (by omega)] at h3; simp at h3
              have hq' : q = k := by
                rcases Nat.lt_trichotomy q k with h6 | h6 | h6
                · rw [hpn q (by omega) h6] at h4; simp at h4
                · exact h6
                · rw [h5 k (by omega) h6] at hv; simp at hv
              subst hp' hq'
              rw [ha] at h3; simp at h3; subst h3
              rw [hv] at h4; simp at h4; subst h4
              rfl
            · rw [h3 p (by omega)] at ha; simp at ha
          · rw [if_neg (fun hh => hpt hh.1)] at hc
            subst hc
            exact h.good p t c0 hs (by omega) hc0
    · intro t c hc hp
      have hkt : k < t := hp k rfl
      simp only [List.getElem?_mapIdx, Option.map_eq_some_iff] at hc
      obtain ⟨c0, hc0, hc⟩ := hc
      rw [if_neg (by omega), if_neg (by omega)] at hc
      subst hc
      exact h.junk t c0 hc0 fun p hp' => by have := (h.prev p hp').1; omega

theorem LinInv.fold {o : List Val} (k : Nat) (hk : k ≤ o.length) :
    LinInv o k ((List.range k).foldl (linearStep o) (none, o.map fun _ => .junk)) := by
  induction k with
  | zero =>
    refine ⟨by simp, fun _ i hi => absurd hi (by omega), fun p hp => by simp at hp, fun p t c hp => by simp at hp, ?_⟩
    intro t c hc _
    simp at hc
    exact hc.2.symm
  | succ k ih =>
    rw [List.range_succ, List.foldl_append]
    exact (ih (by omega)).step (by omega)

theorem fillLinear_length (o : List Val) : (fillLinear o).length = o.length := by
  have h := (LinInv.fold (o := o) o.length (Nat.le_refl _)).len
  unfold fillLinear linearTail
  split
  · exact h
  · simpa using h

/-- The cells of the result: those up to the last number, those after it, and the last one. -/
theorem fillLinear_at (o : List Val) (t : Nat) (c : Cell) (hc : (fillLinear o)[t]? = some c) (p : Nat) (a : Rat)
    (hp : at' o p = some a) (hlast : ∀ i, p < i → i < o.length → at' o i = none) :
    (t ≤ p → Good o t c ∧ ∃ q, c = .num q) ∧ (p < t → t + 1 < o.length → c = .num a) ∧ (p < t → t + 1 = o.length → c = .junk) := by
  have h := LinInv.fold (o := o) o.length (Nat.le_refl _)
  generalize hs : (List.range o.length).foldl (linearStep o) (none, o.map fun _ => .junk) = s at h
  have h1 : s.1 = some p := by
    cases h2 : s.1 with
    | none => rw [h.none' h2 p (at'_lt hp)] at hp; simp at hp
    | some p' =>
      obtain ⟨h3, ⟨a', h4⟩, h5⟩ := h.prev p' h2
      rcases Nat.lt_trichotomy p p' with h6 | h6 | h6
      · rw [hlast p' h6 h3] at h4; simp at h4
      · rw [h6]
      · rw [h5 p h6 (at'_lt hp)] at hp; simp at hp
  unfold fillLinear linearTail at hc
  rw [hs, h1] at hc
  simp only [List.getElem?_mapIdx, Option.map_eq_some_iff] at hc
  obtain ⟨c0, hc0, hc⟩ := hc
  have hna : numAt o p = a := by simp [numAt, hp]
  rw [hna] at hc
  refine ⟨fun htp => ?_, fun htp h2 => ?_, fun htp h2 => ?_⟩
  · by_cases hcond : p ≤ t ∧ t < o.length - 1
    · rw [if_pos hcond] at hc
      have : t = p := by omega
      subst this
      subst hc
      have hg := (h.good t t c0 h1 (Nat.le_refl _) hc0).1
      have := hg.kept a hp
      subst this
      exact ⟨hg, ⟨a, rfl⟩⟩
    · rw [if_neg hcond] at hc
      subst hc
      exact h.good p t c0 h1 htp hc0
  · rw [if_pos (by omega)] at hc
    exact hc.symm
  · rw [if_neg (by omega)] at hc
    subst hc
    exact h.junk t c0 hc0 fun p' hp' => by rw [h1] at hp'; simp at hp'; omega

/-- There is a last number. -/
theorem last_known (o : List Val) (h : known o ≠ []) :
    ∃ p a, at' o p = some a ∧ ∀ i, p < i → i < o.length → at' o i = none := by
  have : ∃ i a, at' o i = some a := by
    cases hk : known o with
    | nil => exact absurd hk h
    | cons q _ =>
      have : q ∈ known o := by rw [hk]; simp
      simp only [known, List.mem_filterMap, id] at this
      obtain ⟨v, hv, rfl⟩ := this
      obtain ⟨i, hi⟩ := List.getElem?_of_mem hv
      exact ⟨i, q, at'_eq.2 hi⟩
  obtain ⟨i, a, hi⟩ := this
  have go : ∀ n i a, o.length ≤ i + n → at' o i = some a →
      ∃ p a, at' o p = some a ∧ ∀ i, p < i → i < o.length → at' o i = none := by
    intro n
    induction n with
    | zero => intro i a h1 h2; have := at'_lt h2; omega
    | succ n ih =>
      intro i a h1 h2
      by_cases h3 : ∃ j b, i < j ∧ at' o j = some b
      · obtain ⟨j, b, h4, h5⟩ := h3
        exact ih j b (by omega) h5
      · refine ⟨i, a, h2, fun j h4 h5 => ?_⟩
        cases h6 : at' o j with
        | none => rfl
        | some b => exact absurd ⟨j, b, h4, h6⟩ h3
  exact go o.length i a (by omega) hi

theorem getElem?_some_of_lt {α : Type} {l : List α} {i : Nat} (h : i < l.length) : ∃ c, l[i]? = some c :=
  ⟨l[i], List.getElem?_eq_getElem h⟩

theorem fillLinear_keeps (o : List Val) (h : known o ≠ []) : Keeps o (fillLinear o) := by
  refine ⟨fillLinear_length o, fun i q hi => ?_⟩
  obtain ⟨p, a, hp, hl⟩ := last_known o h
  have hi' := at'_eq.2 hi
  obtain ⟨c, hc⟩ := getElem?_some_of_lt (l := fillLinear o) (i := i) (by rw [fillLinear_length]; exact at'_lt hi')
  have hip : i ≤ p := by
    rcases Nat.lt_or_ge p i with h1 | h1
    · rw [hl i h1 (at'_lt hi')] at hi'; simp at hi'
    · exact h1
  rw [hc, ((fillLinear_at o i c hc p a hp hl).1 hip).1.kept q hi']

theorem fillLinear_full (o : List Val) (a : Rat) (h : o.getLast? = some (some a)) : Full (fillLinear o) := by
  intro c hc
  have hp : at' o (o.length - 1) = some a := by
    rw [at'_eq, ← List.getLast?_eq_getElem?]; exact h
  obtain ⟨t, ht⟩ := List.getElem?_of_mem hc
  have htl : t < o.length := by
    have := (List.getElem?_eq_some_iff.1 ht).1
    rw [fillLinear_length] at this; exact this
  exact ((fillLinear_at o t c ht _ a hp fun i h1 h2 => absurd h1 (by omega)).1 (by omega)).2

/-! ## `ar` -/

theorem arRows_keeps (m th ep : Rat) (prev : Option Rat) (l : List Val) : Keeps l (arRows m th ep prev l) := by
  induction l generalizing prev with
  | nil => exact ⟨rfl, fun i q h => by simp at h⟩
  | cons v l ih =>
    refine ⟨by simp [arRows, (ih _).1], fun i q h => ?_⟩
    cases i with
    | zero => simp at h; subst h; rfl
    | succ i => simpa [arRows] using (ih _).2 i q (by simpa using h)

theorem arRows_full (m th ep : Rat) (prev : Option Rat) (l : List Val) : Full (arRows m th ep prev l) := by
  induction l generalizing prev with
  | nil => intro c hc; simp [arRows] at hc
  | cons v l ih =>
    intro c hc
    simp only [arRows] at hc
    rcases List.mem_cons.1 hc with rfl | hc
    · exact ⟨_, rfl⟩
    · exact ih _ c hc

/-! ## `ma` -/

theorem maRows_keeps (o : List Val) (l : List Val) (w : Win) (k : Nat) : Keeps l (maRows o w k l) := by
  induction l generalizing w k with
  | nil => exact ⟨rfl, fun i q h => by simp at h⟩
  | cons v l ih =>
    refine ⟨by simp [maRows, (ih _ _).1], fun i q h => ?_⟩
    cases i with
    | zero => simp at h; subst h; rfl
    | succ i => simpa [maRows] using (ih _ _).2 i q (by simpa using h)

theorem Win.add_cnt (w : Win) (v : Val) : w.cnt ≤ (w.add v).cnt := by cases v <;> simp [Win.add]

theorem maRows_full (o : List Val) (l : List Val) (w : Win) (k : Nat) (h : 0 < w.cnt) : Full (maRows o w k l) := by
  induction l generalizing w k with
  | nil => intro c hc; simp [maRows] at hc
  | cons v l ih =>
    intro c hc
    simp only [maRows] at hc
    rcases List.mem_cons.1 hc with rfl | hc
    · cases v with
      | some q => exact ⟨q, rfl⟩
      | none => exact ⟨_, by simp only [Win.mean]; rw [if_neg (by omega)]⟩
    · refine ih _ _ ?_ c hc
      split
      · exact h
      · exact Nat.lt_of_lt_of_le h (Win.add_cnt w _)

theorem firstWin_cnt (l : List Val) (i : Nat) (q : Rat) (hi : i < 4) (h : l[i]? = some (some q)) : 0 < (firstWin l).cnt := by
  have hm : some q ∈ l.take 4 := by
    have : (l.take 4)[i]? = some (some q) := by rw [List.getElem?_take_of_lt hi]; exact h
    exact List.mem_of_getElem? this
  have mono : ∀ (l : List Val) (w : Win), w.cnt ≤ (l.foldl Win.add w).cnt := by
    intro l
    induction l with
    | nil => intro w; exact Nat.le_refl _
    | cons v l ih => intro w; exact Nat.le_trans (Win.add_cnt w v) (ih _)
  have go : ∀ (l : List Val) (w : Win), some q ∈ l → 0 < (l.foldl Win.add w).cnt := by
    intro l
    induction l with
    | nil => intro w h; simp at h
    | cons v l ih =>
      intro w h
      rcases List.mem_cons.1 h with h | h
      · subst h
        exact Nat.lt_of_lt_of_le (by simp [Win.add]) (mono l _)
      · exact ih _ h
  exact go _ _ hm

/-! ## The property -/

/-- **C156 (partial: kept)**: every method returns as many rows as it was given and keeps the numbers it was given. -/
theorem C156_kept (m : FillMethod) (l : List Val) (out : List Cell) (h : fill m l = .ok out) : Keeps l out := by
  unfold fill at h
  by_cases hk : known l = []
  · rw [if_pos hk] at h; simp at h
  · rw [if_neg hk] at h
    cases m with
    | mean => simp at h; subst h; exact fillMean_keeps l
    | previous => simp at h; subst h; exact fillPrevious_keeps l none
    | linear => simp at h; subst h; exact fillLinear_keeps l hk
    | ar =>
      simp only [fillAr] at h
      split at h
      · simp at h
      · simp at h; subst h; exact arRows_keeps _ _ _ _ l
    | ma => simp at h; subst h; exact maRows_keeps l l _ _

/-- **C156 (partial: filled)**: `mean` and `ar` fill every row; `previous` does if the first row is known, `linear` if the
last one is, `ma` if one of the first four is.  The other cases are refuted below. -/
theorem C156_filled_partial (m : FillMethod) (l : List Val) (out : List Cell) (h : fill m l = .ok out)
    (hp : m = .previous → ∃ q, l[0]? = some (some q)) (hl : m = .linear → ∃ q, l.getLast? = some (some q))
    (hm : m = .ma → ∃ i q, i < 4 ∧ l[i]? = some (some q)) : Full out := by
  unfold fill at h
  by_cases hk : known l = []
  · rw [if_pos hk] at h; simp at h
  · rw [if_neg hk] at h
    cases m with
    | mean => simp at h; subst h; exact fillMean_full l
    | previous =>
      simp at h; subst h
      obtain ⟨q, hq⟩ := hp rfl
      cases l with
      | nil => simp at hq
      | cons v l =>
        simp at hq; subst hq
        intro c hc
        rcases List.mem_cons.1 hc with rfl | hc
        · exact ⟨q, rfl⟩
        · exact fillPrevious_full l q c hc
    | linear => simp at h; subst h; obtain ⟨q, hq⟩ := hl rfl; exact fillLinear_full l q hq
    | ar =>
      simp only [fillAr] at h
      split at h
      · simp at h
      · simp at h; subst h; exact arRows_full _ _ _ _ l
    | ma =>
      simp at h; subst h
      obtain ⟨i, q, hi, hq⟩ := hm rfl
      exact maRows_full l l _ _ (firstWin_cnt l i q hi hq)

/-- `mean` puts the mean of the known numbers into every other row. -/
theorem C156_mean (l : List Val) (out : List Cell) (h : fill .mean l = .ok out) (t : Nat) (ht : l[t]? = some none) :
    out[t]? = some (.num ((l.filterMap id).sum / ((l.filterMap id).length : Rat))) := by
  unfold fill at h
  split at h
  · simp at h
  · simp at h; subst h; simp [fillMean, ht, mean, known]

/-- `previous` puts the last number before a row into it. -/
theorem C156_previous (l : List Val) (out : List Cell) (h : fill .previous l = .ok out) (p t : Nat) (a : Rat)
    (hp : l[p]? = some (some a)) (hpt : p ≤ t) (ht : t < l.length) (hn : ∀ i, p < i → i ≤ t → l[i]? = some none) :
    out[t]? = some (.num a) := by
  unfold fill at h
  split at h
  · simp at h
  · simp at h; subst h
    exact fillPrevious_at l none p t a hp hpt ht fun i h1 h2 => by simp [at', hn i h1 h2]

/-- `linear` puts a row between two numbers on the line between them (by the positions of the rows, not by their times). -/
theorem C156_line (l : List Val) (out : List Cell) (h : fill .linear l = .ok out) (p t q : Nat) (a b : Rat) (h1 : p < t) (h2 : t < q)
    (hp : l[p]? = some (some a)) (hq : l[q]? = some (some b)) (hn : ∀ i, p < i → i < q → l[i]? = some none) :
    out[t]? = some (.num (a + (b - a) * (((t : Rat) - (p : Rat)) / ((q : Rat) - (p : Rat))))) := by
  unfold fill at h
  split at h
  · simp at h
  · rename_i hk
    simp at h; subst h
    obtain ⟨p', a', hp', hl⟩ := last_known l hk
    have hq' := at'_eq.2 hq
    have hql := at'_lt hq'
    obtain ⟨c, hc⟩ := getElem?_some_of_lt (l := fillLinear l) (i := t) (by rw [fillLinear_length]; omega)
    have hqp : q ≤ p' := by
      rcases Nat.lt_or_ge p' q with h3 | h3
      · rw [hl q h3 hql] at hq'; simp at hq'
      · exact h3
    rw [hc, ((fillLinear_at l t c hc p' a' hp' hl).1 (by omega)).1.line p q a b h1 h2 (at'_eq.2 hp) hq'
      fun i h3 h4 => by simp [at', hn i h3 h4]]

/-- `linear` puts the first number before it and the last number after it, but for the last row. -/
theorem C156_ends (l : List Val) (out : List Cell) (h : fill .linear l = .ok out) (p t : Nat) (a : Rat) (hp : l[p]? = some (some a))
    (hn : (t < p ∧ ∀ i, i < p → l[i]? = some none) ∨ (p < t ∧ t + 1 < l.length ∧ ∀ i, p < i → i < l.length → l[i]? = some none)) :
    out[t]? = some (.num a) := by
  unfold fill at h
  split at h
  · simp at h
  · rename_i hk
    simp at h; subst h
    obtain ⟨p', a', hp', hl⟩ := last_known l hk
    have hp1 := at'_eq.2 hp
    have hpl := at'_lt hp1
    obtain ⟨c, hc⟩ := getElem?_some_of_lt (l := fillLinear l) (i := t) (by rw [fillLinear_length]; omega)
    have hpp : p ≤ p' := by
      rcases Nat.lt_or_ge p' p with h3 | h3
      · rw [hl p h3 hpl] at hp1; simp at hp1
      · exact h3
    rw [hc]
    rcases hn with ⟨h1, h2⟩ | ⟨h1, h2, h3⟩
    · rw [((fillLinear_at l t c hc p' a' hp' hl).1 (by omega)).1.head p a h1 hp1 fun i h3 => by simp [at', h2 i h3]]
    · rw [(fillLinear_at l t c hc p a hp1 fun i h4 h5 => by simp [at', h3 i h4 h5]).2.1 h1 h2]

/-- **C156 is false for `linear`**: whenever the last row has no value, the last row of the result is memory that was never
written, whatever else is in the series. -/
theorem C156_linear_refuted (l : List Val) (out : List Cell) (h : fill .linear l = .ok out) (hl : l.getLast? = some none) :
    out.getLast? = some .junk := by
  unfold fill at h
  split at h
  · simp at h
  · rename_i hk
    simp at h; subst h
    obtain ⟨p, a, hp, hlast⟩ := last_known l hk
    have hpl := at'_lt hp
    obtain ⟨c, hc⟩ := getElem?_some_of_lt (l := fillLinear l) (i := l.length - 1) (by rw [fillLinear_length]; omega)
    have hne : p ≠ l.length - 1 := by
      intro he
      have h1 : l[l.length - 1]? = some none := by rw [← List.getLast?_eq_getElem?]; exact hl
      rw [he, at'_eq, h1] at hp
      simp at hp
    rw [List.getLast?_eq_getElem?, fillLinear_length, hc,
      (fillLinear_at l _ c hc p a hp hlast).2.2 (by omega) (by omega)]

example : fill .linear [none, some 2, none, none, some 8, none, none] =
    .ok [.num 2, .num 2, .num 4, .num 6, .num 8, .num 8, .junk] := by with_unfolding_all rfl

/-- **C156 is false for `previous`**: rows before the first number stay without one. -/
theorem C156_previous_refuted : ∃ (l : List Val) (out : List Cell), fill .previous l = .ok out ∧ ¬ Full out :=
  ⟨[none, some 1], [.nan, .num 1], rfl, fun h => by
    obtain ⟨q, hq⟩ := h .nan (by simp)
    simp at hq⟩

/-- **C156 is false for `ma`**: with no number among the first four rows, rows stay without one although there are numbers
near them. -/
theorem C156_ma_refuted : ∃ (l : List Val) (out : List Cell), fill .ma l = .ok out ∧ ¬ Full out :=
  ⟨[none, none, none, none, some 1, some 2, some 3], [.nan, .nan, .nan, .nan, .num 1, .num 2, .num 3], rfl, fun h => by
    obtain ⟨q, hq⟩ := h .nan (by simp)
    simp at hq⟩

/-- **`ma` is no moving average**: nothing leaves the window of five rows.  The value of row 9 depends on row 0. -/
theorem C156_window_refuted : ∃ (a b : Rat) (l : List Val) (x y : List Cell),
    fill .ma (some a :: l) = .ok x ∧ fill .ma (some b :: l) = .ok y ∧ l[8]? = some none ∧ x[9]? ≠ y[9]? := by
  refine ⟨0, 900, [some 1, some 1, some 1, some 1, some 1, some 1, some 1, some 1, none, some 1, some 1, some 1], _, _, rfl, rfl, rfl, ?_⟩
  decide +kernel

/-- The property as stated is false. -/
theorem C156_refuted : ¬ ∀ (m : FillMethod) (l : List Val) (out : List Cell), fill m l = .ok out → Keeps l out ∧ Full out := by
  intro h
  obtain ⟨l, out, h1, h2⟩ := C156_previous_refuted
  exact h2 (h _ l out h1).2

example : fill .mean [some 1, none, some 3] = .ok [.num 1, .num 2, .num 3] := by with_unfolding_all rfl

end Verif.Repair
