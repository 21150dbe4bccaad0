import Verif.Agg.Plan
/-!
# C83: `sample`

`query_server/query/src/extension/expr/aggregate_function/sample.rs`. Random choices are a parameter `pick`, which may depend on
everything that happened before: a batch carries a number (the luck of the draw), an accumulator the numbers it has seen, and each call
has its own number. So two accumulators, or two calls, need not choose alike.
-/
namespace Verif.Agg.Sample

variable {V : Type}

/-- `generate_unique_random_numbers` and `take` (`sample.rs:252-269`, `:163-176`, `:199-202`): `pick h s c` are `min c s.length` of the
values `s`, at different places, in any order. -/
def Picks (pick : List Nat → List V → Nat → List V) : Prop :=
  ∀ h s c, (pick h s c).length = min c s.length ∧ ∃ rest, (pick h s c ++ rest).Perm s

/-- The number of values in some states. -/
def total (ss : List (List V)) : Nat := (ss.map List.length).sum

/-- The loop of `sample_state` (`sample.rs:194-207`): how many of each state are taken, until nothing remains to be taken. -/
def sampleLoop (pick : List Nat → List V → Nat → List V) (h : List Nat) (n tot : Nat) : Nat → List (List V) → List V
  | _, [] => []
  | remain, s :: ss =>
    if remain = 0 then []
    else
      let select := (s.length * n + tot - 1) / tot
      pick ((ss.length + 1) :: h) s select ++ sampleLoop pick h n tot (remain - select) ss

/-- `sample_state` (`sample.rs:180-210`). -/
def sampleState (pick : List Nat → List V → Nat → List V) (h : List Nat) (n : Nat) (ss : List (List V)) : List V :=
  sampleLoop pick h n (total ss) n ss

/-- `SampleAccumulator` (`sample.rs:79-84`); the number of samples is the same for all states. -/
structure Acc (V : Type) where
  /-- The numbers seen. -/
  hist : List Nat
  /-- The saved samples. -/
  states : List (List V)

/-- `update_batch_inner` (`sample.rs:232-249`), with `sample_data` (`:162-178`) and `try_compact_state` (`:213-222`). -/
def save (pick : List Nat → List V → Nat → List V) (n : Nat) (a : Acc V) (h : List Nat) (arr : List V) : Acc V :=
  let h' := h ++ a.hist
  let s := if arr.length ≤ n then arr else pick (0 :: h') arr n
  let ss := a.states ++ [s]
  if total ss > n * 10 then ⟨h', [sampleState pick (0 :: h') n ss]⟩ else ⟨h', ss⟩

/-- `update_batch` (`sample.rs:102-111`): an empty batch has no number of samples (`extract_sample_n`, `:283-300`). -/
def update (pick : List Nat → List V → Nat → List V) (n : Nat) (a : Acc V) (b : Nat × List V) : Acc V :=
  if b.2 = [] then a else save pick n a [b.1] b.2

/-- `state` (`sample.rs:87-100`). -/
def state (pick : List Nat → List V → Nat → List V) (n : Nat) (a : Acc V) : List Nat × Option (List V) :=
  (a.hist, if a.states = [] then none else some (sampleState pick (1 :: a.hist) n a.states))

/-- `merge_batch` (`sample.rs:113-135`): empty states are skipped. -/
def merge (pick : List Nat → List V → Nat → List V) (n : Nat) (a : Acc V) (ss : List (List Nat × Option (List V))) : Acc V :=
  ss.foldl (fun a s => match s.2 with | none => a | some arr => if arr = [] then a else save pick n a s.1 arr) a

/-- `sample(value, n)` over a plan (`evaluate`, `sample.rs:137-143`). `n` is between 1 and 2000 (`:293-296`). -/
def sample (pick : List Nat → List V → Nat → List V) (n : Nat) (p : Plan (Nat × List V)) : Option (List V) :=
  (state pick n (p.run ⟨[], []⟩ (update pick n) (state pick n) (merge pick n))).2

/-- The rows of a plan. -/
def rows (p : Plan (Nat × List V)) : List V := p.batches.flatMap (·.2)

/-! ## Proofs -/

/-- `a` are some of `b`, none taken twice. -/
def Some' (a b : List V) : Prop := ∃ rest, (a ++ rest).Perm b

theorem Some'.trans {a b c : List V} (h1 : Some' a b) (h2 : Some' b c) : Some' a c := by
  obtain ⟨r, h1⟩ := h1
  obtain ⟨s, h2⟩ := h2
  exact ⟨r ++ s, by rw [← List.append_assoc]; exact (h1.append_right s).trans h2⟩

theorem Some'.append {a b c d : List V} (h1 : Some' a b) (h2 : Some' c d) : Some' (a ++ c) (b ++ d) := by
  obtain ⟨r, h1⟩ := h1
  obtain ⟨s, h2⟩ := h2
  refine ⟨r ++ s, ?_⟩
  refine List.Perm.trans ?_ (h1.append h2)
  rw [List.append_assoc, List.append_assoc]
  refine List.Perm.append_left _ ?_
  rw [← List.append_assoc, ← List.append_assoc]
  exact List.Perm.append_right _ List.perm_append_comm

theorem Some'.refl (a : List V) : Some' a a := ⟨[], by simp⟩

theorem Some'.nil (b : List V) : Some' [] b := ⟨b, by simp⟩

theorem sampleLoop_some {pick : List Nat → List V → Nat → List V} (hp : Picks pick) (h : List Nat) (n tot : Nat) :
    ∀ (ss : List (List V)) (r : Nat), Some' (sampleLoop pick h n tot r ss) ss.flatten := by
  intro ss
  induction ss with
  | nil => intro r; rw [sampleLoop]; exact Some'.nil _
  | cons s ss ih =>
    intro r
    rw [sampleLoop]
    split
    · exact Some'.nil _
    · rw [List.flatten_cons]
      exact Some'.append (hp _ s _).2 (ih _)

theorem total_append (a b : List (List V)) : total (a ++ b) = total a + total b := by simp [total]

theorem le_total {s : List V} {ss : List (List V)} (h : s ∈ ss) : s.length ≤ total ss := by
  obtain ⟨a, b, rfl⟩ := List.append_of_mem h
  simp [total]; omega

/-- A sample of at least one value from a first state with values has a value. -/
theorem sampleState_pos {pick : List Nat → List V → Nat → List V} (hp : Picks pick) (h : List Nat) {n : Nat} (hn : 0 < n)
    {s : List V} {ss : List (List V)} (hs : s ≠ []) : sampleState pick h n (s :: ss) ≠ [] := by
  have hsl : 0 < s.length := List.length_pos_iff.2 hs
  have ht : 0 < total (s :: ss) := Nat.lt_of_lt_of_le hsl (le_total (List.mem_cons_self ..))
  unfold sampleState
  rw [sampleLoop, if_neg (by omega)]
  dsimp only
  intro e
  have h1 := congrArg List.length e
  rw [List.length_append, (hp _ s _).1] at h1
  have h2 : 1 ≤ (s.length * n + total (s :: ss) - 1) / total (s :: ss) := by
    rw [Nat.le_div_iff_mul_le ht]
    have : 1 ≤ s.length * n := Nat.mul_pos hsl hn
    omega
  rw [List.length_nil] at h1
  generalize (s.length * n + total (s :: ss) - 1) / total (s :: ss) = q at *
  omega

/-- What an accumulator knows: some of the rows; no state is empty, and there is one if there are rows. -/
def Inv (a : Acc V) (rs : List V) : Prop :=
  Some' a.states.flatten rs ∧ (∀ s ∈ a.states, s ≠ []) ∧ (rs ≠ [] → a.states ≠ [])

/-- The same of a state. -/
def SInv (s : List Nat × Option (List V)) (rs : List V) : Prop :=
  match s.2 with
  | none => rs = []
  | some arr => Some' arr rs ∧ arr ≠ []

theorem save_inv {pick : List Nat → List V → Nat → List V} (hp : Picks pick) {n : Nat} (hn : 0 < n) {a : Acc V} {rs : List V}
    (ha : Inv a rs) (h : List Nat) {arr b : List V} (harr : Some' arr b) (hne : arr ≠ []) : Inv (save pick n a h arr) (rs ++ b) := by
  unfold save
  dsimp only
  have hs : Some' (if arr.length ≤ n then arr else pick (0 :: (h ++ a.hist)) arr n) arr ∧
      (if arr.length ≤ n then arr else pick (0 :: (h ++ a.hist)) arr n) ≠ [] := by
    split
    · exact ⟨Some'.refl _, hne⟩
    · refine ⟨(hp _ arr n).2, fun e => ?_⟩
      have h1 := (hp (0 :: (h ++ a.hist)) arr n).1
      rw [e] at h1
      simp at h1; omega
  generalize (if arr.length ≤ n then arr else pick (0 :: (h ++ a.hist)) arr n) = s at hs ⊢
  have hall : Some' (a.states ++ [s]).flatten (rs ++ b) := by
    rw [List.flatten_append]
    simp only [List.flatten_cons, List.flatten_nil, List.append_nil]
    exact ha.1.append (hs.1.trans harr)
  have hnes : ∀ x ∈ a.states ++ [s], x ≠ [] := by
    intro x hx
    rcases List.mem_append.1 hx with hx | hx
    · exact ha.2.1 x hx
    · rw [List.mem_singleton.1 hx]; exact hs.2
  split
  · refine ⟨?_, ?_, fun _ => by simp⟩
    · simp only [List.flatten_cons, List.flatten_nil, List.append_nil]
      exact (sampleLoop_some hp _ _ _ _ _).trans hall
    · intro x hx
      rw [List.mem_singleton.1 hx]
      cases hst : a.states with
      | nil => exact sampleState_pos hp _ hn hs.2
      | cons y ys =>
        rw [List.cons_append]
        exact sampleState_pos hp _ hn (hnes y (by rw [hst]; simp))
  · exact ⟨hall, hnes, fun _ => by simp⟩

/-- C83 (what holds of the values): the result has no value that is not in the table, none more often than there, and it is not empty if
there are rows. What is missing: the number of values, see `C83_too_many_refuted` and `C83_too_few_refuted`. -/
theorem C83_values_partial {pick : List Nat → List V → Nat → List V} (hp : Picks pick) {n : Nat} (hn : 0 < n)
    (p : Plan (Nat × List V)) :
    match sample pick n p with
    | none => rows p = []
    | some out => out ≠ [] ∧ ∃ rest, (out ++ rest).Perm (rows p) := by
  have hst : ∀ (a : Acc V) rs, Inv a rs → SInv (state pick n a) rs := by
    intro a rs ha
    unfold state SInv
    dsimp only
    split <;> rename_i hs <;> split at hs
    · rename_i he
      apply Classical.byContradiction
      exact fun hc => ha.2.2 hc he
    · cases hs
    · cases hs
    · rename_i he
      cases hs
      refine ⟨(sampleLoop_some hp _ _ _ _ _).trans ha.1, ?_⟩
      cases hs' : a.states with
      | nil => exact absurd hs' he
      | cons y ys => exact sampleState_pos hp _ hn (ha.2.1 y (by rw [hs']; simp))
  have h := Plan.run_inv' (init := (⟨[], []⟩ : Acc V)) (update := update pick n) (state := state pick n) (merge := merge pick n) (·.2)
    Inv SInv ⟨Some'.nil _, (fun s hs => absurd hs List.not_mem_nil), fun e => absurd rfl e⟩
    (by
      intro a rs b ha
      unfold update
      split
      · rename_i hb; rw [hb, List.append_nil]; exact ha
      · rename_i hb; exact save_inv hp hn ha _ (Some'.refl _) hb)
    hst
    (by
      intro a rs ps ha hps
      induction ps generalizing a rs with
      | nil => simpa [merge] using ha
      | cons q ps ih =>
        have e : rs ++ ((q :: ps).map (·.2)).flatten = (rs ++ q.2) ++ (ps.map (·.2)).flatten := by simp
        rw [e]
        unfold merge
        rw [List.map_cons, List.foldl_cons]
        refine ih _ _ ?_ fun x hx => hps x (List.mem_cons_of_mem _ hx)
        have hq := hps q (List.mem_cons_self ..)
        unfold SInv at hq
        cases hq2 : q.1.2 with
        | none => rw [hq2] at hq; rw [show q.2 = [] from hq, List.append_nil]; exact ha
        | some arr =>
          rw [hq2] at hq
          dsimp only
          rw [if_neg hq.2]
          exact save_inv hp hn ha _ hq.1 hq.2)
    p
  have h2 := hst _ _ h
  unfold SInv at h2
  unfold sample rows
  cases hs : (state pick n (p.run ⟨[], []⟩ (update pick n) (state pick n) (merge pick n))).2 with
  | none => rw [hs] at h2; exact h2
  | some out => rw [hs] at h2; exact ⟨h2.2, h2.1⟩

/-- C83, one batch: the result has exactly `n` values, or all if there are fewer. -/
theorem C83_one_batch_partial {pick : List Nat → List V → Nat → List V} (hp : Picks pick) {n : Nat} (hn : 0 < n) (k : Nat) {b : List V}
    (hb : b ≠ []) : ∃ out, sample pick n (.single [(k, b)]) = some out ∧ out.length = min n b.length := by
  have hbl : 0 < b.length := List.length_pos_iff.2 hb
  have key : ∀ (h : List Nat) (s : List V), s ≠ [] → s.length ≤ n → (sampleState pick h n [s]).length = s.length := by
    intro h s hs hle
    have hsl : 0 < s.length := List.length_pos_iff.2 hs
    unfold sampleState
    rw [sampleLoop, if_neg (by omega)]
    simp only [sampleLoop, List.append_nil]
    rw [(hp _ s _).1]
    have ht : total [s] = s.length := by simp [total]
    rw [ht]
    have : n ≤ (s.length * n + s.length - 1) / s.length := by
      rw [Nat.le_div_iff_mul_le hsl, Nat.mul_comm]; omega
    omega
  unfold sample
  show ∃ out, (state pick n (update pick n ⟨[], []⟩ (k, b))).2 = some out ∧ _
  unfold update
  rw [if_neg hb]
  unfold save
  dsimp only
  have hs : (if b.length ≤ n then b else pick (0 :: ([k] ++ ([] : List Nat))) b n).length = min n b.length := by
    split
    · omega
    · exact (hp _ b n).1
  generalize (if b.length ≤ n then b else pick (0 :: ([k] ++ ([] : List Nat))) b n) = s at hs ⊢
  have hsne : s ≠ [] := fun e => by rw [e] at hs; simp at hs; omega
  have ht : ¬ total ([] ++ [s]) > n * 10 := by simp [total]; omega
  rw [if_neg ht]
  refine ⟨sampleState pick (1 :: ([k] ++ [])) n ([] ++ [s]), ?_, ?_⟩
  · unfold state
    rw [if_neg (by simp)]
  · rw [List.nil_append, key _ s hsne (by omega), hs]

/-- Choice of the first values, for examples. -/
def pickFirst (_ : List Nat) (s : List V) (c : Nat) : List V := s.take c

theorem pickFirst_picks : Picks (V := V) pickFirst := fun _ s c =>
  ⟨by simp [pickFirst], s.drop c, by rw [pickFirst, List.take_append_drop]⟩

example : sample pickFirst 2 (.twoPhase [[[(0, ['a', 'b', 'c'])], [(1, ['d'])], []]]) = some ['a', 'b'] := by decide

/-- C83 fails: of two batches with two rows each, `sample(x, 3)` returns four values, whatever the luck. -/
theorem C83_too_many_refuted {pick : List Nat → List Nat → Nat → List Nat} (hp : Picks pick) :
    ∃ out, sample pick 3 (.single [(0, [1, 2]), (1, [3, 4])]) = some out ∧ out.length = 4 := by
  have h1 := (hp [2, 1, 1, 0] [1, 2] 2).1
  have h2 := (hp [1, 1, 1, 0] [3, 4] 2).1
  simp [sample, state, Plan.run, update, save, total, sampleState, sampleLoop, h1, h2]

/-- C83 fails: of three batches with one row each, `sample(x, 4)` returns two values, although there are three. -/
theorem C83_too_few_refuted {pick : List Nat → List Nat → Nat → List Nat} (hp : Picks pick) :
    ∃ out, sample pick 4 (.single [(0, [1]), (1, [2]), (2, [3])]) = some out ∧ out.length = 2 := by
  have h1 := (hp [3, 1, 2, 1, 0] [1] 2).1
  have h2 := (hp [2, 1, 2, 1, 0] [2] 2).1
  simp [sample, state, Plan.run, update, save, total, sampleState, sampleLoop, h1, h2]

end Verif.Agg.Sample
