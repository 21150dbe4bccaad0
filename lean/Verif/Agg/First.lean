import Verif.Agg.Plan
/-!
# C80: `first` and `last`

`query_server/query/src/extension/expr/aggregate_function/{first,last}.rs`. Times are integers (timestamps of one unit), values are of any
type; `none` is NULL.
-/
namespace Verif.Agg

/-- `TSPoint` (`aggregate_function/mod.rs:66-70`), and one row of the two argument columns. -/
abbrev Point (V : Type) := Option Int × Option V

/-- Which end of time is asked for. -/
inductive Dir | first | last
  deriving DecidableEq, Repr

/-- `Ordering::Less` (`first.rs:105`), `Ordering::Greater` (`last.rs:104`): does time `a` replace time `b`? -/
def Dir.better : Dir → Int → Int → Bool
  | .first, a, b => decide (a < b)
  | .last, a, b => decide (b < a)

/-- `update_inner` (`first.rs:93-117`, `last.rs:92-116`). -/
def updateInner {V : Type} (d : Dir) (s p : Point V) : Point V :=
  match p.1, p.2 with
  | some a, some _ =>
    match s.1 with
    | none => p
    | some b => if d.better a b then p else s
  | _, _ => s

/-- What `sort_to_indices(times, {descending, nulls_first: false}, limit 1)` gives (`first.rs:137-138`, `last.rs:136-137`): some row
with the least (greatest) time, rows without time come last. `top` is the choice that arrow's sort makes. -/
def TopOf {V : Type} (d : Dir) (top : List (Point V) → Option (Point V)) : Prop :=
  top [] = none ∧ ∀ l, l ≠ [] → ∃ p, top l = some p ∧ p ∈ l ∧
    match p.1 with
    | none => ∀ q ∈ l, q.1 = none
    | some a => ∀ q ∈ l, ∀ b, q.1 = some b → d.better b a = false

/-- `update_batch` and `merge_batch` (`first.rs:121-148`, `:165-169`; `last.rs:120-147`, `:164-168`). -/
def updateBatch {V : Type} (d : Dir) (top : List (Point V) → Option (Point V)) (s : Point V) (batch : List (Point V)) : Point V :=
  match top batch with
  | none => s
  | some p => updateInner d s p

/-- `first(time, value)` or `last(time, value)` over a plan: the state is the point, the result its value (`first.rs:150-163`,
`last.rs:149-162`). -/
def firstLast {V : Type} (d : Dir) (top : List (Point V) → Option (Point V)) (p : Plan (List (Point V))) : Option V :=
  (p.run (none, none) (updateBatch d top) id (updateBatch d top)).2

/-! ## Specification -/

/-- Time `a` is at least as early (late) as time `b`. -/
def Dir.Wins : Dir → Int → Int → Prop
  | .first, a, b => a ≤ b
  | .last, a, b => b ≤ a

/-- The value `v` is the answer for the rows: that of a row with the least (greatest) time among the rows that have a time and a value;
NULL if there is no such row. -/
def IsAnswer {V : Type} (d : Dir) (rows : List (Point V)) : Option V → Prop
  | none => ∀ r ∈ rows, r.1 = none ∨ r.2 = none
  | some v => ∃ a, (some a, some v) ∈ rows ∧ ∀ r ∈ rows, ∀ b, r.1 = some b → r.2 ≠ none → d.Wins a b

/-! ## Proofs -/

theorem Dir.wins_of_better {d : Dir} {a b : Int} (h : d.better b a = false) : d.Wins a b := by
  cases d <;> simpa [better, Wins] using h

theorem Dir.better_irrefl (d : Dir) (a : Int) : d.better a a = false := by cases d <;> simp [better]

theorem Dir.better_trans (d : Dir) {a b c : Int} (h1 : d.better b a = false) (h2 : d.better c b = false) : d.better c a = false := by
  cases d <;> simp [better] at * <;> omega

theorem Dir.not_better (d : Dir) {a b : Int} (h : d.better a b = true) : d.better b a = false := by
  cases d <;> simp [better] at * <;> omega

/-- The point knows the best time of the rows. -/
def Knows {V : Type} (d : Dir) (p : Point V) (rows : List (Point V)) : Prop :=
  (p.1 = none ∧ ∀ r ∈ rows, r.1 = none) ∨
    ∃ a v, p = (some a, some v) ∧ p ∈ rows ∧ ∀ r ∈ rows, ∀ b, r.1 = some b → d.better b a = false

/-- An accumulator: it knows the best time of the rows, and has no value without one. -/
def AccInv {V : Type} (d : Dir) (p : Point V) (rows : List (Point V)) : Prop := Knows d p rows ∧ (p.1 = none → p.2 = none)

theorem updateBatch_knows {V : Type} {d : Dir} {top : List (Point V) → Option (Point V)} (ht : TopOf d top) {s : Point V}
    {rs : List (Point V)} (hs : AccInv d s rs) (ps : List (Point V × List (Point V))) (hp : ∀ p ∈ ps, Knows d p.1 p.2) :
    AccInv d (updateBatch d top s (ps.map (·.1))) (rs ++ (ps.map (·.2)).flatten) := by
  unfold updateBatch
  by_cases hne : ps.map (·.1) = []
  · rw [hne, ht.1]
    rw [List.map_eq_nil_iff] at hne
    subst hne
    simpa using hs
  · obtain ⟨p, h1, h2, h3⟩ := ht.2 _ hne
    rw [h1]
    obtain ⟨q, hq, rfl⟩ := List.mem_map.1 h2
    have mem : ∀ r ∈ (ps.map (·.2)).flatten, ∃ q ∈ ps, r ∈ q.2 := by
      intro r hr
      obtain ⟨l, hl, hr⟩ := List.mem_flatten.1 hr
      obtain ⟨q, hq, rfl⟩ := List.mem_map.1 hl
      exact ⟨q, hq, hr⟩
    have inn : ∀ r, r ∈ q.2 → r ∈ (ps.map (·.2)).flatten := fun r hr =>
      List.mem_flatten.2 ⟨q.2, List.mem_map.2 ⟨q, hq, rfl⟩, hr⟩
    dsimp only
    rcases hp q hq with ⟨hn, hall⟩ | ⟨a, v, e, hin, hmin⟩
    · -- no state has a time
      rw [hn] at h3
      have hnone : ∀ r ∈ (ps.map (·.2)).flatten, r.1 = none := by
        intro r hr
        obtain ⟨q', hq', hr'⟩ := mem r hr
        rcases hp q' hq' with ⟨_, hall'⟩ | ⟨a, v, e, _, _⟩
        · exact hall' r hr'
        · have := h3 q'.1 (List.mem_map.2 ⟨q', hq', rfl⟩)
          rw [e] at this; cases this
      have hu : updateInner d s q.1 = s := by unfold updateInner; rw [hn]
      rw [hu]
      refine ⟨?_, hs.2⟩
      rcases hs.1 with ⟨hs1, hs2⟩ | ⟨b, w, e, hb1, hb2⟩
      · refine Or.inl ⟨hs1, fun r hr => ?_⟩
        rcases List.mem_append.1 hr with hr | hr
        · exact hs2 r hr
        · exact hnone r hr
      · refine Or.inr ⟨b, w, e, List.mem_append.2 (Or.inl hb1), fun r hr c hc => ?_⟩
        rcases List.mem_append.1 hr with hr | hr
        · exact hb2 r hr c hc
        · rw [hnone r hr] at hc; cases hc
    · rw [e] at h3
      dsimp only at h3
      -- `a` is the best of the batch
      have hbest : ∀ r ∈ (ps.map (·.2)).flatten, ∀ b, r.1 = some b → d.better b a = false := by
        intro r hr b hb
        obtain ⟨q', hq', hr'⟩ := mem r hr
        rcases hp q' hq' with ⟨_, hall'⟩ | ⟨a', v', e', _, hmin'⟩
        · rw [hall' r hr'] at hb; cases hb
        · have h4 := h3 q'.1 (List.mem_map.2 ⟨q', hq', rfl⟩) a' (by rw [e'])
          exact d.better_trans h4 (hmin' r hr' b hb)
      rw [e] at hin ⊢
      unfold updateInner
      dsimp only
      rcases hs.1 with ⟨hs1, hs2⟩ | ⟨b, w, es, hb1, hb2⟩
      · rw [hs1]
        refine ⟨Or.inr ⟨a, v, rfl, List.mem_append.2 (Or.inr (inn _ hin)), fun r hr c hc => ?_⟩, fun h => by cases h⟩
        rcases List.mem_append.1 hr with hr | hr
        · rw [hs2 r hr] at hc; cases hc
        · exact hbest r hr c hc
      · rw [es] at hb1 ⊢
        dsimp only
        split
        · rename_i hab
          refine ⟨Or.inr ⟨a, v, rfl, List.mem_append.2 (Or.inr (inn _ hin)), fun r hr c hc => ?_⟩, fun h => by cases h⟩
          rcases List.mem_append.1 hr with hr | hr
          · exact d.better_trans (d.not_better hab) (hb2 r hr c hc)
          · exact hbest r hr c hc
        · rename_i hab
          refine ⟨Or.inr ⟨b, w, rfl, List.mem_append.2 (Or.inl hb1), fun r hr c hc => ?_⟩, fun h => by cases h⟩
          rcases List.mem_append.1 hr with hr | hr
          · exact hb2 r hr c hc
          · exact d.better_trans (by simpa using hab) (hbest r hr c hc)

/-- C80 for rows without NULL values: however the rows are cut into batches and partitions, and whatever rows arrow's sort chooses among equal
times, `first` and `last` give the value of a row with the least and greatest time. What is missing: NULL values, see
`C80_null_refuted`. -/
theorem C80_first_last_partial {V : Type} {d : Dir} {top : List (Point V) → Option (Point V)} (ht : TopOf d top)
    (p : Plan (List (Point V))) (hv : ∀ r ∈ p.rows, r.2 ≠ none) : IsAnswer d p.rows (firstLast d top p) := by
  -- an invariant that holds once the values are known to be there
  have h := Plan.run_inv (init := ((none, none) : Point V)) (update := updateBatch d top) (state := id) (merge := updateBatch d top)
    (fun s rs => (∀ r ∈ rs, r.2 ≠ none) → AccInv d s rs) (fun s rs => (∀ r ∈ rs, r.2 ≠ none) → Knows d s rs)
    (fun _ => ⟨Or.inl ⟨rfl, fun r hr => by cases hr⟩, fun _ => rfl⟩)
    (by
      intro s rs b hs hall
      have h1 := updateBatch_knows ht (hs fun r hr => hall r (List.mem_append.2 (Or.inl hr))) (b.map fun r => (r, [r])) (by
        intro q hq
        obtain ⟨r, hr, rfl⟩ := List.mem_map.1 hq
        cases h1 : r.1 with
        | none => exact Or.inl ⟨h1, fun x hx => by rw [List.mem_singleton.1 hx]; exact h1⟩
        | some a =>
          cases h2 : r.2 with
          | none => exact absurd h2 (hall r (List.mem_append.2 (Or.inr hr)))
          | some v =>
            refine Or.inr ⟨a, v, Prod.ext h1 h2, List.mem_singleton.2 rfl, fun x hx c hc => ?_⟩
            rw [List.mem_singleton.1 hx] at hc
            rw [h1] at hc
            cases hc
            exact d.better_irrefl a)
      have e1 : (b.map fun r => (r, [r])).map (·.1) = b := by rw [List.map_map]; exact List.map_id b
      have e2 : ((b.map fun r => (r, [r])).map (·.2)).flatten = b := by
        clear h1 e1 hall
        induction b with
        | nil => rfl
        | cons x xs ih => simpa using ih
      rw [e1, e2] at h1
      exact h1)
    (fun s rs hs hall => (hs hall).1)
    (by
      intro s rs ps hs hps hall
      refine updateBatch_knows ht (hs fun r hr => hall r (List.mem_append.2 (Or.inl hr))) ps fun q hq => hps q hq fun r hr =>
        hall r (List.mem_append.2 (Or.inr (List.mem_flatten.2 ⟨q.2, List.mem_map.2 ⟨q, hq, rfl⟩, hr⟩))))
    p hv
  unfold firstLast
  rcases h with ⟨⟨h1, h2⟩ | ⟨a, v, e, h1, h2⟩, h3⟩
  · rw [h3 h1]
    exact fun r hr => Or.inl (h2 r hr)
  · rw [e] at h1 ⊢
    exact ⟨a, h1, fun r hr b hb _ => Dir.wins_of_better (h2 r hr b hb)⟩

/-- C80, any rows: a value that is returned is that of a row of the table that has a time. What is missing: it need not be the first or last one,
and NULL may be returned although there are values. -/
theorem C80_sound_partial {V : Type} {d : Dir} {top : List (Point V) → Option (Point V)} (ht : TopOf d top)
    (p : Plan (List (Point V))) {v : V} (h : firstLast d top p = some v) : ∃ a, (some a, some v) ∈ p.rows := by
  have hub : ∀ (s : Point V) (rs : List (Point V)) (ps : List (Point V × List (Point V))),
      ((∃ a v, s = (some a, some v) ∧ s ∈ rs) ∨ s = (none, none)) →
      (∀ q ∈ ps, (∀ a v, q.1 = (some a, some v) → q.1 ∈ q.2)) →
      (∃ a v, updateBatch d top s (ps.map (·.1)) = (some a, some v) ∧ updateBatch d top s (ps.map (·.1)) ∈ rs ++ (ps.map (·.2)).flatten) ∨
        updateBatch d top s (ps.map (·.1)) = (none, none) := by
    intro s rs ps hs hps
    have hs' : (∃ a v, s = (some a, some v) ∧ s ∈ rs ++ (ps.map (·.2)).flatten) ∨ s = (none, none) := by
      rcases hs with ⟨a, v, e, h⟩ | h
      · exact Or.inl ⟨a, v, e, List.mem_append.2 (Or.inl h)⟩
      · exact Or.inr h
    unfold updateBatch
    cases htop : top (ps.map (·.1)) with
    | none => exact hs'
    | some q =>
      have hne : ps.map (·.1) ≠ [] := fun e => by rw [e, ht.1] at htop; cases htop
      obtain ⟨q', h1, h2, _⟩ := ht.2 _ hne
      rw [h1] at htop; cases htop
      obtain ⟨x, hx, rfl⟩ := List.mem_map.1 h2
      dsimp only
      unfold updateInner
      cases e1 : x.1.1 with
      | none => exact hs'
      | some a =>
        cases e2 : x.1.2 with
        | none => exact hs'
        | some v =>
          have e : x.1 = (some a, some v) := Prod.ext e1 e2
          have hin := hps x hx a v e
          have hnew : (∃ a v, x.1 = (some a, some v) ∧ x.1 ∈ rs ++ (ps.map (·.2)).flatten) ∨ x.1 = (none, none) :=
            Or.inl ⟨a, v, e, List.mem_append.2 (Or.inr (List.mem_flatten.2 ⟨x.2, List.mem_map.2 ⟨x, hx, rfl⟩, hin⟩))⟩
          dsimp only
          split
          · exact hnew
          · split
            · exact hnew
            · exact hs'
  have hr := Plan.run_inv (init := ((none, none) : Point V)) (update := updateBatch d top) (state := id) (merge := updateBatch d top)
    (fun s rs => (∃ a v, s = (some a, some v) ∧ s ∈ rs) ∨ s = (none, none)) (fun s rs => ∀ a v, s = (some a, some v) → s ∈ rs)
    (Or.inr rfl)
    (by
      intro s rs b hs
      have h1 := hub s rs (b.map fun r => (r, [r])) hs (by
        intro q hq a v _
        obtain ⟨r, _, rfl⟩ := List.mem_map.1 hq
        exact List.mem_singleton.2 rfl)
      have e1 : (b.map fun r => (r, [r])).map (·.1) = b := by rw [List.map_map]; exact List.map_id b
      have e2 : ((b.map fun r => (r, [r])).map (·.2)).flatten = b := by
        clear h1 e1
        induction b with
        | nil => rfl
        | cons x xs ih => simpa using ih
      rw [e1, e2] at h1
      exact h1)
    (by
      rintro s rs (⟨a, v, e, h⟩ | h)
      · intro _ _ _; exact h
      · intro a v e; rw [h] at e; cases e)
    (fun s rs ps hs hps => hub s rs ps hs hps) p
  unfold firstLast at h
  rcases hr with ⟨a, w, e, hin⟩ | hr
  · rw [e] at h hin
    cases h
    exact ⟨a, hin⟩
  · rw [hr] at h; cases h

/-- A choice that arrow's sort could make: the earliest of the rows with the best time. -/
def topBy {V : Type} (d : Dir) : List (Point V) → Option (Point V)
  | [] => none
  | p :: l =>
    match topBy d l with
    | none => some p
    | some q =>
      match p.1, q.1 with
      | some a, some b => if d.better b a then some q else some p
      | none, some _ => some q
      | _, none => some p

theorem topBy_topOf {V : Type} (d : Dir) : TopOf (V := V) d (topBy d) := by
  refine ⟨rfl, fun l => ?_⟩
  induction l with
  | nil => intro h; exact absurd rfl h
  | cons p l ih =>
    intro _
    rw [topBy]
    by_cases hl : l = []
    · subst hl
      refine ⟨p, rfl, List.mem_singleton.2 rfl, ?_⟩
      cases hp : p.1 with
      | none => intro q hq; rw [List.mem_singleton.1 hq]; exact hp
      | some a =>
        intro q hq b hb
        rw [List.mem_singleton.1 hq, hp] at hb
        cases hb; exact d.better_irrefl a
    · obtain ⟨q, h1, h2, h3⟩ := ih hl
      rw [h1]
      dsimp only
      cases hp : p.1 with
      | none =>
        cases hq : q.1 with
        | none =>
          rw [hq] at h3
          refine ⟨p, rfl, List.mem_cons_self .., ?_⟩
          rw [hp]
          intro x hx
          rcases List.mem_cons.1 hx with rfl | hx
          · exact hp
          · exact h3 x hx
        | some b =>
          rw [hq] at h3
          refine ⟨q, rfl, List.mem_cons_of_mem _ h2, ?_⟩
          rw [hq]
          intro x hx c hc
          rcases List.mem_cons.1 hx with rfl | hx
          · rw [hp] at hc; cases hc
          · exact h3 x hx c hc
      | some a =>
        cases hq : q.1 with
        | none =>
          rw [hq] at h3
          refine ⟨p, rfl, List.mem_cons_self .., ?_⟩
          rw [hp]
          intro x hx c hc
          rcases List.mem_cons.1 hx with rfl | hx
          · rw [hp] at hc; cases hc; exact d.better_irrefl a
          · rw [h3 x hx] at hc; cases hc
        | some b =>
          rw [hq] at h3
          dsimp only
          split
          · rename_i hba
            refine ⟨q, rfl, List.mem_cons_of_mem _ h2, ?_⟩
            rw [hq]
            intro x hx c hc
            rcases List.mem_cons.1 hx with rfl | hx
            · rw [hp] at hc; cases hc; exact d.not_better hba
            · exact h3 x hx c hc
          · rename_i hba
            refine ⟨p, rfl, List.mem_cons_self .., ?_⟩
            rw [hp]
            intro x hx c hc
            rcases List.mem_cons.1 hx with rfl | hx
            · rw [hp] at hc; cases hc; exact d.better_irrefl a
            · exact d.better_trans (by simpa using hba) (h3 x hx c hc)

/-- Four rows in two partitions, a partition without rows, and a group with two partitions. -/
example : firstLast .first (topBy .first)
    (.twoPhase [[[[(some 5, some 'a'), (some 3, some 'b')]], []], [[[(some 7, some 'c')], [(some 2, some 'd')]]]]) = some 'd' ∧
    firstLast .last (topBy .last)
    (.twoPhase [[[[(some 5, some 'a'), (some 3, some 'b')]], []], [[[(some 7, some 'c')], [(some 2, some 'd')]]]]) = some 'c' := by
  decide

/-- C80 fails for NULL values: a batch with the rows (1, NULL) and (2, 5) gives NULL, in two batches it gives 5. -/
theorem C80_null_refuted :
    (∀ top, TopOf (V := Nat) .first top → firstLast .first top (.single [[(some 1, none), (some 2, some 5)]]) = none) ∧
      ¬ IsAnswer (V := Nat) .first [(some 1, none), (some 2, some 5)] none ∧
      firstLast (V := Nat) .first (topBy .first) (.single [[(some 1, none)], [(some 2, some 5)]]) = some 5 := by
  refine ⟨?_, ?_, by decide⟩
  · intro top ht
    obtain ⟨p, h1, h2, h3⟩ := ht.2 [(some 1, none), (some 2, some 5)] (by simp)
    show (updateBatch .first top (none, none) [(some 1, none), (some 2, some 5)]).2 = none
    unfold updateBatch
    rw [h1]
    rcases List.mem_cons.1 h2 with rfl | h2
    · rfl
    · rw [List.mem_singleton.1 h2] at h3
      have := h3 (some 1, none) (by simp) 1 rfl
      simp [Dir.better] at this
  · intro h
    have := h (some 2, some 5) (by simp)
    simp at this

end Verif.Agg
