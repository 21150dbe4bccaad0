import Verif.Agg.Plan
/-!
# C85: `increase`

`query_server/query/src/extension/expr/aggregate_function/increase.rs`. Values are integers without bound (overflow is not modelled).
-/
namespace Verif.Agg.Increase

/-- One row: time and value, either may be NULL. -/
abbrev Row := Option Int × Option Int

/-- `IncreaseAccumulator` (`increase.rs:65-69`): the sum and the last point. -/
structure Acc where
  /-- `increase`. -/
  inc : Int
  /-- `last`. -/
  last : Option (Int × Int)
  deriving DecidableEq

/-- `update_inner` (`increase.rs:82-108`); `none` is the error for rows out of order. -/
def updateInner (a : Acc) (r : Row) : Option Acc :=
  match r with
  | (some t, some v) =>
    match a.last with
    | none => some ⟨a.inc, some (t, v)⟩
    | some (lt, lv) =>
      if t < lt then none
      else if lv < v then some ⟨a.inc + (v - lv), some (t, v)⟩
      else if v < lv then some ⟨a.inc + v, some (t, v)⟩
      else some ⟨a.inc, some (t, v)⟩
  | _ => some a

/-- `update_batch` (`increase.rs:119-143`). -/
def update (a : Option Acc) (b : List Row) : Option Acc := b.foldl (fun a r => a.bind (updateInner · r)) a

/-- `state` (`increase.rs:154-156`). -/
def state (a : Option Acc) : Option Int := a.map (·.inc)

/-- `merge_batch` and `merge_inner` (`increase.rs:158-165`, `:110-115`). -/
def merge (a : Option Acc) (ss : List (Option Int)) : Option Acc :=
  ss.foldl (fun a s => a.bind fun a => s.map fun i => ⟨a.inc + i, a.last⟩) a

/-- `increase(time, value order by time)` (`evaluate`, `increase.rs:145-147`); `none` is an error. -/
def increase (p : Plan (List Row)) : Option Int := (p.run (some ⟨0, none⟩) update state merge).map (·.inc)

/-- The rows with time and value. -/
def points (rs : List Row) : List (Int × Int) := rs.filterMap fun r => match r with | (some t, some v) => some (t, v) | _ => none

/-- The growth of a counter from `a` to `b`: after a reset it starts at zero. -/
def growth (a b : Int) : Int := if b < a then b else b - a

/-- The growth of a counter over a list of readings. -/
def total : List Int → Int
  | a :: b :: l => growth a b + total (b :: l)
  | _ => 0

/-! ## Proofs -/

theorem run_last (t v : Int) (inc : Int) : ∀ (b : List Row) (a : Acc), a = ⟨inc, some (t, v)⟩ →
    update (some a) b =
      if ((t, v) :: points b).Pairwise (fun x y => x.1 ≤ y.1) then
        some ⟨inc + total (((t, v) :: points b).map (·.2)), ((t, v) :: points b).getLast?⟩
      else none := by
  intro b
  induction b generalizing t v inc with
  | nil =>
    rintro _ rfl
    simp [update, points, total]
  | cons r b ih =>
    rintro _ rfl
    have hnone : ∀ l : List Row, l.foldl (fun a r => a.bind (updateInner · r)) none = none := by
      intro l; induction l with
      | nil => rfl
      | cons _ _ ih => rw [List.foldl_cons]; exact ih
    rcases r with ⟨_ | t', _ | v'⟩
    · exact ih t v inc _ rfl
    · exact ih t v inc _ rfl
    · exact ih t v inc _ rfl
    · show update (updateInner ⟨inc, some (t, v)⟩ (some t', some v')) b = _
      have hpts : points ((some t', some v') :: b) = (t', v') :: points b := rfl
      rw [hpts]
      have hpw : ((t, v) :: (t', v') :: points b).Pairwise (fun x y => x.1 ≤ y.1) ↔
          t ≤ t' ∧ ((t', v') :: points b).Pairwise (fun x y => x.1 ≤ y.1) := by
        rw [List.pairwise_cons]
        constructor
        · rintro ⟨h1, h2⟩; exact ⟨h1 (t', v') (by simp), h2⟩
        · rintro ⟨h1, h2⟩
          refine ⟨fun x hx => ?_, h2⟩
          rcases List.mem_cons.1 hx with rfl | hx
          · exact h1
          · have h3 := (List.pairwise_cons.1 h2).1 x hx
            dsimp only at h1 h3 ⊢
            omega
      by_cases ht : t' < t
      · rw [if_neg (by rw [hpw]; omega)]
        unfold updateInner
        dsimp only
        rw [if_pos ht]
        exact hnone b
      · have hup : updateInner ⟨inc, some (t, v)⟩ (some t', some v') = some ⟨inc + growth v v', some (t', v')⟩ := by
          unfold updateInner growth
          dsimp only
          rw [if_neg ht]
          by_cases h1 : v < v'
          · rw [if_pos h1, if_neg (by omega)]
          · by_cases h2 : v' < v
            · rw [if_neg h1, if_pos h2, if_pos h2]
            · rw [if_neg h1, if_neg h2, if_neg h2, show inc + (v' - v) = inc by omega]
        rw [hup, ih t' v' _ _ rfl]
        by_cases hs : ((t', v') :: points b).Pairwise (fun x y => x.1 ≤ y.1)
        · rw [if_pos hs, if_pos (hpw.2 ⟨by omega, hs⟩)]
          simp [total, Int.add_assoc]
        · rw [if_neg hs, if_neg (fun h => hs (hpw.1 h).2)]

theorem update_append (a : Option Acc) (b c : List Row) : update (update a b) c = update a (b ++ c) := by
  unfold update; rw [List.foldl_append]

theorem update_flatten (bs : List (List Row)) (a : Option Acc) : bs.foldl update a = update a bs.flatten := by
  induction bs generalizing a with
  | nil => rfl
  | cons b bs ih => rw [List.foldl_cons, ih, update_append, List.flatten_cons]

/-- C85, one phase: `increase` is the growth of the counter over the rows with time and value, resets counted from zero, however the rows
are cut into batches; it is an error exactly if these rows are not ordered by time. What is missing: two phases, see
`C85_two_phases_refuted`. -/
theorem C85_increase_partial (bs : List (List Row)) :
    increase (.single bs) =
      if (points bs.flatten).Pairwise (fun x y => x.1 ≤ y.1) then some (total ((points bs.flatten).map (·.2))) else none := by
  unfold increase
  show (bs.foldl update _).map _ = _
  rw [update_flatten]
  have : ∀ (b : List Row) (a : Acc), a = ⟨0, none⟩ → (update (some a) b).map (·.inc) =
      if (points b).Pairwise (fun x y => x.1 ≤ y.1) then some (total ((points b).map (·.2))) else none := by
    intro b
    induction b with
    | nil => rintro _ rfl; simp [update, points, total]
    | cons r b ih =>
      rintro _ rfl
      rcases r with ⟨_ | t', _ | v'⟩
      · exact ih _ rfl
      · exact ih _ rfl
      · exact ih _ rfl
      · show (update (some ⟨0, some (t', v')⟩) b).map _ = _
        have hpts : points ((some t', some v') :: b) = (t', v') :: points b := rfl
        rw [hpts, run_last t' v' 0 b _ rfl]
        split
        · simp
        · rfl
  exact this _ _ rfl

/-- Rows of a counter that was reset, in two batches, with a NULL. -/
example : increase (.single [[(some 1, some 10), (some 2, some 15)], [(some 3, none), (some 4, some 3), (some 5, some 4)]]) = some 9 := by
  decide

/-- C85 fails in two phases: the states are only sums, so the growth between the last row of a partition and the first of the next is
lost. A counter growing from 0 to 100, one row in each partition, has the increase 0. -/
theorem C85_two_phases_refuted :
    increase (.twoPhase [[[[(some 1, some 0)]], [[(some 2, some 100)]]]]) = some 0 ∧
      increase (.single [[(some 1, some 0)], [(some 2, some 100)]]) = some 100 := by decide

/-- What does hold of the accumulator in two phases: the sums of the partitions are added up. -/
theorem C85_two_phases_partial (parts : List (List (List Row))) (is : List Int)
    (h : parts.map (fun bs => increase (.single bs)) = is.map some) : increase (.twoPhase [parts]) = some is.sum := by
  unfold increase at h ⊢
  show (merge (some ⟨0, none⟩) (parts.map fun bs => state (bs.foldl update (some ⟨0, none⟩)))).map _ = _
  have e : (parts.map fun bs => state (bs.foldl update (some ⟨0, none⟩))) = is.map some := h
  rw [e]
  have : ∀ (is : List Int) (i : Int) (l), (merge (some ⟨i, l⟩) (is.map some)).map (·.inc) = some (i + is.sum) := by
    intro is
    induction is with
    | nil => intro i l; simp [merge]
    | cons x is ih =>
      intro i l
      show (merge (some ⟨i + x, l⟩) (is.map some)).map (·.inc) = _
      rw [ih, List.sum_cons, Int.add_assoc]
  rw [this, Int.zero_add]

end Verif.Agg.Increase
