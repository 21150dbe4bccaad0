/-!
# How DataFusion runs an aggregate function

An accumulator is fed with batches (`update_batch`). In a plan with two phases each partition has its own accumulator; the states of
these (`state`) are handed, in groups of any size and in any order, to `merge_batch` of the accumulator of the second phase.
DataFusion is outside of the repository; the plan below covers every way to cut the rows into batches, partitions and groups.
-/
namespace Verif.Agg

/-- A plan over batches of type `B`: one phase, or two phases: groups of partitions of batches. -/
inductive Plan (B : Type) where
  /-- `AggregateMode::Single`. -/
  | single (batches : List B)
  /-- `AggregateMode::Partial`, then `AggregateMode::Final`. -/
  | twoPhase (groups : List (List (List B)))

/-- All batches of a plan. -/
def Plan.batches {B : Type} : Plan B → List B
  | .single bs => bs
  | .twoPhase gs => gs.flatten.flatten

/-- All rows of a plan. -/
def Plan.rows {R : Type} (p : Plan (List R)) : List R := p.batches.flatten

/-- The accumulator at the end of a plan. -/
def Plan.run {B A S : Type} (init : A) (update : A → B → A) (state : A → S) (merge : A → List S → A) : Plan B → A
  | .single bs => bs.foldl update init
  | .twoPhase gs => gs.foldl (fun a parts => merge a (parts.map fun bs => state (bs.foldl update init))) init

/-- An invariant between the accumulator and the rows it has seen carries over to the plan. `Inv a rows` for accumulators,
`SInv s rows` for states; `rowsOf` gives the rows of a batch. -/
theorem Plan.run_inv' {B R A S : Type} {init : A} {update : A → B → A} {state : A → S} {merge : A → List S → A} (rowsOf : B → List R)
    (Inv : A → List R → Prop) (SInv : S → List R → Prop)
    (h0 : Inv init []) (hu : ∀ a rs b, Inv a rs → Inv (update a b) (rs ++ rowsOf b)) (hst : ∀ a rs, Inv a rs → SInv (state a) rs)
    (hm : ∀ a rs (ps : List (S × List R)), Inv a rs → (∀ p ∈ ps, SInv p.1 p.2) →
      Inv (merge a (ps.map (·.1))) (rs ++ (ps.map (·.2)).flatten))
    (p : Plan B) : Inv (p.run init update state merge) (p.batches.flatMap rowsOf) := by
  have hf : ∀ (bs : List B) a rs, Inv a rs → Inv (bs.foldl update a) (rs ++ bs.flatMap rowsOf) := by
    intro bs
    induction bs with
    | nil => intro a rs h; simpa using h
    | cons b bs ih =>
      intro a rs h
      rw [List.foldl_cons, List.flatMap_cons, ← List.append_assoc]
      exact ih _ _ (hu a rs b h)
  cases p with
  | single bs => simpa [Plan.batches, Plan.run] using hf bs init [] h0
  | twoPhase gs =>
    have : ∀ (gs : List (List (List B))) a rs, Inv a rs →
        Inv (gs.foldl (fun a parts => merge a (parts.map fun bs => state (bs.foldl update init))) a)
          (rs ++ gs.flatten.flatten.flatMap rowsOf) := by
      intro gs
      induction gs with
      | nil => intro a rs h; simpa using h
      | cons g gs ih =>
        intro a rs h
        rw [List.foldl_cons]
        have h1 := hm a rs (g.map fun bs => (state (bs.foldl update init), bs.flatMap rowsOf)) h (by
          intro p hp
          obtain ⟨bs, _, rfl⟩ := List.mem_map.1 hp
          exact hst _ _ (by simpa using hf bs init [] h0))
        have e1 : (g.map fun bs => (state (bs.foldl update init), bs.flatMap rowsOf)).map (·.1) =
            g.map fun bs => state (bs.foldl update init) := by simp
        have e2 : ((g.map fun bs => (state (bs.foldl update init), bs.flatMap rowsOf)).map (·.2)).flatten = g.flatten.flatMap rowsOf := by
          clear h1 e1
          induction g with
          | nil => rfl
          | cons x xs ihx => simp_all [List.flatMap_append]
        rw [e1, e2] at h1
        have h2 := ih _ _ h1
        simpa [List.flatMap_append, List.append_assoc] using h2
    simpa [Plan.batches, Plan.run] using this gs init [] h0

/-- The same where a batch is a list of rows. -/
theorem Plan.run_inv {R A S : Type} {init : A} {update : A → List R → A} {state : A → S} {merge : A → List S → A}
    (Inv : A → List R → Prop) (SInv : S → List R → Prop)
    (h0 : Inv init []) (hu : ∀ a rs b, Inv a rs → Inv (update a b) (rs ++ b)) (hst : ∀ a rs, Inv a rs → SInv (state a) rs)
    (hm : ∀ a rs (ps : List (S × List R)), Inv a rs → (∀ p ∈ ps, SInv p.1 p.2) →
      Inv (merge a (ps.map (·.1))) (rs ++ (ps.map (·.2)).flatten))
    (p : Plan (List R)) : Inv (p.run init update state merge) p.rows := by
  have h := Plan.run_inv' id Inv SInv h0 hu hst hm p
  rw [List.flatMap_id] at h
  exact h

end Verif.Agg
