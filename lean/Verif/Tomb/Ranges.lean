import Verif.Tomb.Format
import Verif.Time.Props
/-! What collections of ranges contain, after extending, saving and loading. -/
namespace Verif.Tomb
open Verif.Time

/-- What can be observed of a collection: the hull and the timestamps covered. -/
structure Abs where
  lo : Int
  hi : Int
  cov : Int → Prop

/-- The observable part of a collection. -/
def abs (s : TimeRanges) : Abs := ⟨s.minTs, s.maxTs, fun t => Covers s.inner t⟩

/-- The hull is complete, so further insertions are ignored. -/
def Abs.done (a : Abs) : Prop := a.lo = i64Min ∧ a.hi = i64Max

instance (a : Abs) : Decidable a.done := inferInstanceAs (Decidable (_ ∧ _))

/-- Extending, observed. -/
def Abs.ext (a : Abs) (rs : List TimeRange) : Abs :=
  if a.done then a else
  ⟨rs.foldl (fun m r => min m r.minTs) a.lo, rs.foldl (fun m r => max m r.maxTs) a.hi,
    fun t => a.cov t ∨ ∃ r ∈ rs, Has r t⟩

/-- A well-formed collection with 64-bit hull. -/
structure Good (s : TimeRanges) : Prop where
  wf : WF s
  lo : i64Min ≤ s.minTs
  hi : s.maxTs ≤ i64Max

theorem good_empty : Good TimeRanges.empty := ⟨WF.empty, by decide, by decide⟩

theorem boundless_iff (s : TimeRanges) : s.isBoundless = true ↔ (abs s).done := by
  unfold TimeRanges.isBoundless Abs.done abs
  simp

theorem foldl_add_hull_eq (rs : List TimeRange) : ∀ s : TimeRanges,
    (rs.foldl TimeRanges.addTimeRange s).minTs = rs.foldl (fun m r => min m r.minTs) s.minTs ∧
    (rs.foldl TimeRanges.addTimeRange s).maxTs = rs.foldl (fun m r => max m r.maxTs) s.maxTs := by
  induction rs with
  | nil => intro s; exact ⟨rfl, rfl⟩
  | cons r rs ih => intro s; exact ih (s.addTimeRange r)

theorem foldl_min_ge (rs : List TimeRange) (h : ∀ r ∈ rs, Proper r) : ∀ m : Int, i64Min ≤ m →
    i64Min ≤ rs.foldl (fun m r => min m r.minTs) m := by
  induction rs with
  | nil => intro m hm; exact hm
  | cons r rs ih =>
    intro m hm
    have : i64Min ≤ r.minTs := (h r (List.mem_cons_self ..)).2.1.1
    exact ih (fun x hx => h x (List.mem_cons_of_mem _ hx)) _ (by simp only; omega)

theorem foldl_max_le (rs : List TimeRange) (h : ∀ r ∈ rs, Proper r) : ∀ m : Int, m ≤ i64Max →
    rs.foldl (fun m r => max m r.maxTs) m ≤ i64Max := by
  induction rs with
  | nil => intro m hm; exact hm
  | cons r rs ih =>
    intro m hm
    have : r.maxTs ≤ i64Max := (h r (List.mem_cons_self ..)).2.2.2
    exact ih (fun x hx => h x (List.mem_cons_of_mem _ hx)) _ (by simp only; omega)

theorem good_extend {s : TimeRanges} (hs : Good s) {rs : List TimeRange} (h : ∀ r ∈ rs, Proper r) :
    Good (s.extend rs) := by
  unfold TimeRanges.extend
  split
  · exact hs
  · obtain ⟨e1, e2⟩ := foldl_add_hull_eq rs s
    exact ⟨foldl_add_wf rs h s hs.wf, by rw [e1]; exact foldl_min_ge rs h _ hs.lo,
      by rw [e2]; exact foldl_max_le rs h _ hs.hi⟩

theorem abs_extend {s : TimeRanges} (hs : Good s) {rs : List TimeRange} (h : ∀ r ∈ rs, Proper r) :
    abs (s.extend rs) = (abs s).ext rs := by
  unfold TimeRanges.extend Abs.ext
  by_cases hb : s.isBoundless = true
  · rw [if_pos hb, if_pos ((boundless_iff s).1 hb)]
  · rw [if_neg hb, if_neg (fun hx => hb ((boundless_iff s).2 hx))]
    obtain ⟨e1, e2⟩ := foldl_add_hull_eq rs s
    unfold abs
    rw [e1, e2]
    congr 1
    funext t
    exact propext ((foldl_add_sep rs h s hs.wf.sep).2 t)

theorem push_eq_extend (s : TimeRanges) (r : TimeRange) : s.push r = s.extend [r] := by
  unfold TimeRanges.push TimeRanges.extend
  split <;> rfl

theorem ext_twice (a : Abs) (r : TimeRange) : (a.ext [r]).ext [r] = a.ext [r] := by
  unfold Abs.ext
  by_cases h : a.done
  · simp only [if_pos h]
  · simp only [if_neg h]
    split
    · rfl
    · simp only [List.foldl_cons, List.foldl_nil, List.mem_singleton, exists_eq_left, Abs.mk.injEq]
      refine ⟨by omega, by omega, ?_⟩
      funext t
      simp only [or_assoc, or_self]

theorem ext_replicate (a : Abs) (r : TimeRange) (n : Nat) : a.ext (List.replicate (n + 1) r) = a.ext [r] := by
  unfold Abs.ext
  by_cases h : a.done
  · simp only [if_pos h]
  · simp only [if_neg h]
    have e1 : ∀ (n : Nat) (m : Int), (List.replicate (n + 1) r).foldl (fun m r => min m r.minTs) m = min m r.minTs := by
      intro n
      induction n with
      | zero => intro m; rfl
      | succ n ih =>
        intro m
        rw [List.replicate_succ, List.foldl_cons, ih]; omega
    have e2 : ∀ (n : Nat) (m : Int), (List.replicate (n + 1) r).foldl (fun m r => max m r.maxTs) m = max m r.maxTs := by
      intro n
      induction n with
      | zero => intro m; rfl
      | succ n ih =>
        intro m
        rw [List.replicate_succ, List.foldl_cons, ih]; omega
    rw [e1, e2]
    simp only [List.foldl_cons, List.foldl_nil, Abs.mk.injEq, true_and]
    funext t
    simp [List.mem_replicate]

theorem ranges_proper {s : TimeRanges} (hs : Good s) : ∀ r ∈ s.ranges, Proper r := by
  intro r hr
  obtain ⟨e, he, rfl⟩ := List.mem_map.1 hr
  exact hs.wf.sep.ok e he

theorem ranges_covers (s : TimeRanges) (t : Int) : (∃ r ∈ s.ranges, Has r t) ↔ Covers s.inner t := by
  unfold TimeRanges.ranges Covers Has
  simp

/-- A range that is included is covered. -/
theorem includes_covers {s : TimeRanges} {r : TimeRange} (h : s.includes r = true) {t : Int} (ht : Has r t) :
    Covers s.inner t := by
  unfold TimeRanges.includes at h
  split at h
  · rename_i e he
    have hm := (List.mem_filter.1 (List.mem_of_getLast? he)).1
    simp only [Bool.and_eq_true, decide_eq_true_eq] at h
    exact ⟨e, hm, by have := ht.1; omega, by have := ht.2; omega⟩
  · cases h

/-! ## Saving and loading one collection -/

/-- Loading the pieces of one field. -/
def loadPieces (s : TimeRanges) (ps : List Stone) : TimeRanges := ps.foldl (fun s t => s.extend t.ranges) s

/-- Ascending ranges with gaps. -/
def Asc (rs : List TimeRange) : Prop := rs.Pairwise fun a b => a.maxTs + 1 < b.minTs

theorem asc_ranges {s : TimeRanges} (h : Sep s.inner) : Asc s.ranges := by
  unfold Asc TimeRanges.ranges
  rw [List.pairwise_map]
  exact h.pw

theorem foldl_max_lt (rs : List TimeRange) (b : Int) (h : ∀ r ∈ rs, r.maxTs < b) : ∀ m : Int, m < b →
    rs.foldl (fun m r => max m r.maxTs) m < b := by
  induction rs with
  | nil => intro m hm; exact hm
  | cons r rs ih =>
    intro m hm
    have := h r (List.mem_cons_self ..)
    exact ih (fun x hx => h x (List.mem_cons_of_mem _ hx)) _ (by simp only; omega)

theorem loadPieces_spec (f : Field) : ∀ (fuel : Nat) (rs : List TimeRange) (s : TimeRanges), rs.length ≤ fuel →
    Asc rs → (∀ r ∈ rs, Proper r) → Good s → (s = TimeRanges.empty ∨ ∀ r ∈ rs, s.maxTs < r.minTs) →
    Good (loadPieces s (pieces f fuel rs)) ∧
    ((loadPieces s (pieces f fuel rs)).minTs = i64Min → s.minTs = i64Min ∨ ∃ r ∈ rs, r.minTs = i64Min) ∧
    ((loadPieces s (pieces f fuel rs)).maxTs = i64Max → s.maxTs = i64Max ∨ ∃ r ∈ rs, r.maxTs = i64Max) ∧
    ∀ t, Covers (loadPieces s (pieces f fuel rs)).inner t ↔ Covers s.inner t ∨ ∃ r ∈ rs, Has r t
  | 0, rs, s, hl, _, _, hs, _ => by
    have : rs = [] := List.length_eq_zero_iff.1 (by omega)
    subst this
    simp only [pieces, loadPieces, List.foldl_nil]
    exact ⟨hs, fun h => .inl h, fun h => .inl h, by simp⟩
  | fuel + 1, rs, s, hl, ha, hp, hs, hm => by
    simp only [pieces]
    split
    · rename_i he
      subst he
      simp only [loadPieces, List.foldl_nil]
      exact ⟨hs, fun h => .inl h, fun h => .inl h, by simp⟩
    · rename_i hne
      have hp1 : ∀ r ∈ rs.take maxRanges, Proper r := fun r h => hp r (List.mem_of_mem_take h)
      have hp2 : ∀ r ∈ rs.drop maxRanges, Proper r := fun r h => hp r (List.mem_of_mem_drop h)
      have g1 := good_extend hs hp1
      have a1 := abs_extend hs hp1
      have hsplit : rs.take maxRanges ++ rs.drop maxRanges = rs := List.take_append_drop ..
      have hmem : ∀ (P : TimeRange → Prop), (∃ r ∈ rs, P r) ↔ (∃ r ∈ rs.take maxRanges, P r) ∨ ∃ r ∈ rs.drop maxRanges, P r := by
        intro P
        conv_lhs => rw [← hsplit]
        simp only [List.mem_append, or_and_right, exists_or]
      -- not complete yet
      have nd : ¬ (abs s).done := by
        rintro ⟨_, h2⟩
        rcases hm with hm | hm
        · subst hm; revert h2; decide
        · obtain ⟨r, hr⟩ := List.exists_mem_of_ne_nil _ hne
          have h3 := hm r hr
          have h4 : r.minTs ≤ i64Max := (hp r hr).2.1.2
          simp only [abs] at h2
          omega
      have a2 : abs (s.extend (rs.take maxRanges)) = ⟨(rs.take maxRanges).foldl (fun m r => min m r.minTs) s.minTs,
          (rs.take maxRanges).foldl (fun m r => max m r.maxTs) s.maxTs,
          fun t => Covers s.inner t ∨ ∃ r ∈ rs.take maxRanges, Has r t⟩ := by
        rw [a1]; unfold Abs.ext; rw [if_neg nd]; rfl
      have b1 : (s.extend (rs.take maxRanges)).minTs = _ := congrArg Abs.lo a2
      have b2 : (s.extend (rs.take maxRanges)).maxTs = _ := congrArg Abs.hi a2
      have b3 : (fun t => Covers (s.extend (rs.take maxRanges)).inner t) = _ := congrArg Abs.cov a2
      simp only at b1 b2 b3
      have ha2 := ha
      unfold Asc at ha2
      rw [← hsplit, List.pairwise_append] at ha2
      have hlen : (rs.drop maxRanges).length ≤ fuel := by
        have := List.length_pos_iff.2 hne
        simp only [List.length_drop, maxRanges]; omega
      have ih := loadPieces_spec f fuel (rs.drop maxRanges) (s.extend (rs.take maxRanges)) hlen ha2.2.1 hp2 g1 (by
        right
        intro r hr
        rw [b2]
        have hle : ∀ x ∈ rs.take maxRanges, x.maxTs < r.minTs := fun x hx => by have := ha2.2.2 x hx r hr; omega
        rcases hm with hm | hm
        · -- from empty: at least one range was taken
          obtain ⟨x, hx⟩ : ∃ x, x ∈ rs.take maxRanges := by
            obtain ⟨x, xs, rfl⟩ := List.exists_cons_of_ne_nil hne
            exact ⟨x, by simp [maxRanges]⟩
          have h1 := hle x hx
          have h2 := (hp1 x hx).1
          have h3 : i64Min ≤ x.minTs := (hp1 x hx).2.1.1
          refine foldl_max_lt _ _ hle _ ?_
          subst hm
          show i64Min < r.minTs
          omega
        · exact foldl_max_lt _ _ hle _ (hm r (List.mem_of_mem_drop hr)))
      have e : loadPieces s (⟨f, rs.take maxRanges⟩ :: pieces f fuel (rs.drop maxRanges)) =
        loadPieces (s.extend (rs.take maxRanges)) (pieces f fuel (rs.drop maxRanges)) := rfl
      rw [e]
      obtain ⟨i1, i2, i3, i4⟩ := ih
      refine ⟨i1, ?_, ?_, ?_⟩
      · intro h
        rw [hmem]
        rcases i2 h with h | h
        · rw [b1] at h
          by_contra hc
          simp only [not_or, not_exists, not_and] at hc
          exact (foldl_add_hull (rs.take maxRanges) s).1 ⟨hc.1, hc.2.1⟩ (by rw [(foldl_add_hull_eq _ _).1]; exact h)
        · exact .inr (.inr h)
      · intro h
        rw [hmem]
        rcases i3 h with h | h
        · rw [b2] at h
          by_contra hc
          simp only [not_or, not_exists, not_and] at hc
          exact (foldl_add_hull (rs.take maxRanges) s).2 ⟨hc.1, hc.2.1⟩ (by rw [(foldl_add_hull_eq _ _).2]; exact h)
        · exact .inr (.inr h)
      · intro t
        rw [i4, hmem]
        have := congrFun b3 t
        simp only [eq_iff_iff] at this
        rw [this, or_assoc]

/-- A collection saved and loaded again covers the same timestamps, and its hull is not wider. -/
theorem saved_loaded (f : Field) {s : TimeRanges} (hs : Good s) :
    Good (loadPieces TimeRanges.empty (pieces f s.ranges.length s.ranges)) ∧
    ((loadPieces TimeRanges.empty (pieces f s.ranges.length s.ranges)).minTs = i64Min → s.minTs = i64Min) ∧
    ((loadPieces TimeRanges.empty (pieces f s.ranges.length s.ranges)).maxTs = i64Max → s.maxTs = i64Max) ∧
    ∀ t, Covers (loadPieces TimeRanges.empty (pieces f s.ranges.length s.ranges)).inner t ↔ Covers s.inner t := by
  obtain ⟨h1, h2, h3, h4⟩ := loadPieces_spec f s.ranges.length s.ranges TimeRanges.empty (Nat.le_refl _)
    (asc_ranges hs.wf.sep) (ranges_proper hs) good_empty (.inl rfl)
  refine ⟨h1, ?_, ?_, ?_⟩
  · intro h
    rcases h2 h with h | ⟨r, hr, h⟩
    · exact absurd h (by decide)
    · obtain ⟨e, he, rfl⟩ := List.mem_map.1 hr
      have := (hs.wf.hull e he).1
      have := hs.lo
      simp only at h
      omega
  · intro h
    rcases h3 h with h | ⟨r, hr, h⟩
    · exact absurd h (by decide)
    · obtain ⟨e, he, rfl⟩ := List.mem_map.1 hr
      have := (hs.wf.hull e he).2
      have := hs.hi
      simp only at h
      omega
  · intro t
    rw [h4, ranges_covers]
    constructor
    · rintro (⟨e, he, _⟩ | h)
      · simp [TimeRanges.empty] at he
      · exact h
    · exact .inr

end Verif.Tomb
