import Verif.Reader.Step
/-!
# Properties C33 and C34: merging the sources of a series
-/
namespace Verif.Reader

open Verif.Sort

variable {α : Type}

/-- The rows that the stream takes from its inputs, in the order in which it takes them, until it ends. -/
def Merge.trace : Nat → Merge α → List (Row α)
  | 0, _ => []
  | fuel + 1, m =>
    match m.step with
    | (.more, m') => m.pulled.toList ++ trace fuel m'
    | (.pending, m') => m.pulled.toList ++ trace fuel m'
    | (.batch _, m') => m.pulled.toList ++ trace fuel m'
    | (.finished, _) => m.pulled.toList
    | (.failed, _) => m.pulled.toList

/-- All rows of all inputs, input by input: an older source comes before a newer one. -/
def allRows (inputs : List (Input α)) : List (Row α) := (inputs.map rowsOf).flatten

/-- Each input is sorted by time; equal times may occur. -/
def SortedInputs (inputs : List (Input α)) : Prop := ∀ i ∈ inputs, (rowsOf i).Pairwise fun a b => a.ts ≤ b.ts

theorem inv_collect {cols n : Nat} (hn : 1 ≤ n) {S : List (Row α)} (hS : S.Pairwise fun a b => a.ts ≤ b.ts) :
    ∀ (k : Nat) {em pulled : List (Row α)} {m : Merge α}, m.todo ≤ k → Inv cols n S em pulled m → m.builder.len < m.batchSize →
      ∃ out : List (List (Row α)), em ++ out.flatten = finish cols (S.foldl (push cols) ([], [])) ∧
        (∀ b ∈ out, b ≠ [] ∧ b.length ≤ m.batchSize) ∧
        ∀ fuel, k < fuel → m.collect fuel = some out ∧ pulled ++ m.trace fuel = S := by
  intro k
  induction k with
  | zero =>
    intro em pulled m hk hinv hlen
    have hstep := hinv.step hn hS hlen
    generalize hz : m.step = z at hstep
    obtain ⟨o, m'⟩ := z
    cases o with
    | more => obtain ⟨x, _, _, h, _⟩ := hstep; omega
    | pending => obtain ⟨_, _, h, _⟩ := hstep; omega
    | batch rows => obtain ⟨_, h, _⟩ := hstep; omega
    | failed => exact hstep.elim
    | finished =>
      obtain ⟨h1, h2, h3⟩ := hstep
      refine ⟨[], by simpa using h3, by simp, ?_⟩
      intro fuel hf
      obtain ⟨f, rfl⟩ : ∃ f, fuel = f + 1 := ⟨fuel - 1, by omega⟩
      rw [Merge.collect, Merge.trace, hz, h1]
      simp [h2]
  | succ k ih =>
    intro em pulled m hk hinv hlen
    have hstep := hinv.step hn hS hlen
    generalize hz : m.step = z at hstep
    obtain ⟨o, m'⟩ := z
    cases o with
    | more =>
      obtain ⟨x, h1, h2, h3, h4, h5⟩ := hstep
      obtain ⟨out, i1, i2, i3⟩ := ih (by omega) h2 h4
      refine ⟨out, i1, by rw [← h5]; exact i2, ?_⟩
      intro fuel hf
      obtain ⟨f, rfl⟩ : ∃ f, fuel = f + 1 := ⟨fuel - 1, by omega⟩
      rw [Merge.collect, Merge.trace, hz, h1]
      obtain ⟨j1, j2⟩ := i3 f (by omega)
      exact ⟨j1, by simpa using j2⟩
    | pending =>
      obtain ⟨h1, h2, h3, h4, h5⟩ := hstep
      obtain ⟨out, i1, i2, i3⟩ := ih (by omega) h2 h4
      refine ⟨out, i1, by rw [← h5]; exact i2, ?_⟩
      intro fuel hf
      obtain ⟨f, rfl⟩ : ∃ f, fuel = f + 1 := ⟨fuel - 1, by omega⟩
      rw [Merge.collect, Merge.trace, hz, h1]
      obtain ⟨j1, j2⟩ := i3 f (by omega)
      exact ⟨j1, by simpa using j2⟩
    | batch rows =>
      obtain ⟨h2, h3, h4, h6, h7, h5⟩ := hstep
      obtain ⟨out, i1, i2, i3⟩ := ih (by omega) h2 h4
      refine ⟨rows :: out, by simpa using i1, ?_, ?_⟩
      · intro b hb
        rcases List.mem_cons.1 hb with e | hb
        · subst e; exact ⟨h6, h7⟩
        · rw [← h5]; exact i2 b hb
      · intro fuel hf
        obtain ⟨f, rfl⟩ : ∃ f, fuel = f + 1 := ⟨fuel - 1, by omega⟩
        rw [Merge.collect, Merge.trace, hz]
        obtain ⟨j1, j2⟩ := i3 f (by omega)
        simp only
        rw [j1]
        exact ⟨rfl, by simpa using j2⟩
    | failed => exact hstep.elim
    | finished =>
      obtain ⟨h1, h2, h3⟩ := hstep
      refine ⟨[], by simpa using h3, by simp, ?_⟩
      intro fuel hf
      obtain ⟨f, rfl⟩ : ∃ f, fuel = f + 1 := ⟨fuel - 1, by omega⟩
      rw [Merge.collect, Merge.trace, hz, h1]
      simp [h2]

theorem new_lefts (cols bs : Nat) (inputs : List (Input α)) : (Merge.new cols bs inputs).lefts = inputs.map rowsOf := by
  apply List.ext_getElem?
  intro i
  unfold Merge.lefts
  simp only [List.getElem?_map]
  by_cases hi : i < inputs.length
  · rw [List.getElem?_range (show i < (Merge.new cols bs inputs).inputs.length from hi), List.getElem?_eq_getElem hi]
    simp only [Option.map_some, Option.some.injEq]
    have : cursorAt (Merge.new cols bs inputs).cursors i = none := by
      simp [cursorAt, Merge.new, hi]
    unfold Merge.left
    rw [this]
    show [] ++ rowsOf (inputs.getD i []) = _
    simp [List.getD_eq_getElem?_getD, hi]
  · have e1 : (List.range (Merge.new cols bs inputs).inputs.length)[i]? = none :=
      List.getElem?_eq_none (by rw [List.length_range]; exact Nat.le_of_not_lt hi)
    rw [e1, List.getElem?_eq_none (Nat.le_of_not_lt hi)]
    rfl

theorem new_inv {cols bs : Nat} {inputs : List (Input α)} (hs : SortedInputs inputs) :
    Inv cols inputs.length (sortBy leTs (allRows inputs)) [] [] (Merge.new cols bs inputs) := by
  have hrows : (Builder.new cols inputs.length : Builder α).rows = [] := by
    simp [Builder.rows, Builder.len, Builder.new, List.replicate_succ]
  have hc : ∀ i, cursorAt (Merge.new cols bs inputs).cursors i = none := by
    intro i
    simp only [cursorAt, Merge.new, List.getElem?_replicate]
    split <;> rfl
  refine .start ⟨rfl, by simp [Merge.new], by simp [Merge.new, Builder.new], ⟨?_, ?_, ?_⟩, ?_, ?_, ?_, ?_, ?_, .inl ⟨rfl, rfl⟩⟩ rfl rfl
  · simp [Merge.new, Builder.new]
  · intro l hl
    have hl : l ∈ List.replicate (cols + 1) ([] : List (Nat × Nat)) := hl
    rw [List.eq_of_mem_replicate hl]
    simp [Merge.new, Builder.new, Builder.len, List.replicate_succ]
  · intro l hl p hp
    have hl : l ∈ List.replicate (cols + 1) ([] : List (Nat × Nat)) := hl
    rw [List.eq_of_mem_replicate hl] at hp
    cases hp
  · intro p hp; cases hp
  · intro i c hic; rw [hc] at hic; cases hic
  · rw [new_lefts]
    intro l hl
    obtain ⟨i, hi, rfl⟩ := List.mem_map.1 hl
    exact hs i hi
  · rw [new_lefts]; rfl
  · show ([], []) = ([] ++ (Builder.new cols inputs.length : Builder α).rows, (Builder.new cols inputs.length : Builder α).pend)
    rw [hrows]
    rfl

/-- Everything about the merge at once. -/
theorem merge_all (cols bs : Nat) (inputs : List (Input α)) (hne : inputs ≠ []) (hbs : 1 ≤ bs) (hs : SortedInputs inputs) :
    ∃ (N : Nat) (out : List (List (Row α))), out.flatten = finish cols ((sortBy leTs (allRows inputs)).foldl (push cols) ([], [])) ∧
      (∀ b ∈ out, b ≠ [] ∧ b.length ≤ bs) ∧
      ∀ fuel, N < fuel → (Merge.new cols bs inputs).collect fuel = some out ∧
        (Merge.new cols bs inputs).trace fuel = sortBy leTs (allRows inputs) := by
  have hS : (sortBy leTs (allRows inputs)).Pairwise fun a b => a.ts ≤ b.ts := by
    have := sortBy_sorted leTs_trans leTs_total (allRows inputs)
    simpa [leTs] using this
  have hlen : (Merge.new cols bs inputs).builder.len < (Merge.new cols bs inputs).batchSize := by
    simp [Merge.new, Builder.new, Builder.len, List.replicate_succ]; omega
  obtain ⟨out, h1, h2, h3⟩ := inv_collect (List.length_pos_iff.2 hne) hS _ (Nat.le_refl _) (new_inv (cols := cols) (bs := bs) hs) hlen
  exact ⟨_, out, by simpa using h1, h2, fun fuel hf => by simpa using h3 fuel hf⟩

/-- **C33.** Merging time-sorted inputs takes every row of every input, in time order; rows of the same time are taken in the order
of the inputs (and, within an input, in the input's order).  This holds for every number of inputs, however they are cut into
batches and whenever they make the merge wait, and for every batch size of the output. -/
theorem C33_merge_sorted (cols bs : Nat) (inputs : List (Input α)) (hne : inputs ≠ []) (hbs : 1 ≤ bs) (hs : SortedInputs inputs) :
    ∃ (N : Nat) (taken : List (Row α)), (∀ fuel, N < fuel → (Merge.new cols bs inputs).trace fuel = taken) ∧
      taken.Perm (allRows inputs) ∧ (taken.Pairwise fun a b => a.ts ≤ b.ts) ∧
      ∀ t, taken.filter (fun r => decide (r.ts = t)) = (allRows inputs).filter fun r => decide (r.ts = t) := by
  obtain ⟨N, out, _, _, h3⟩ := merge_all cols bs inputs hne hbs hs
  refine ⟨N, _, fun fuel hf => (h3 fuel hf).2, sortBy_perm _ _, ?_, filter_sort _⟩
  have := sortBy_sorted leTs_trans leTs_total (allRows inputs)
  simpa [leTs] using this

/-- **C34.** The merged stream ends without an error.  Its rows have strictly increasing times, exactly the times of the inputs; in
each row, each column has the value of the newest source that has a value which is not null at that time (null if there is none).
No batch is empty or larger than the batch size. -/
theorem C34_newest_value (cols bs : Nat) (inputs : List (Input α)) (hne : inputs ≠ []) (hbs : 1 ≤ bs) (hs : SortedInputs inputs) :
    ∃ (N : Nat) (out : List (List (Row α))), (∀ fuel, N < fuel → (Merge.new cols bs inputs).collect fuel = some out) ∧
      (out.flatten.Pairwise fun a b => a.ts < b.ts) ∧
      (∀ t, t ∈ out.flatten.map Row.ts ↔ t ∈ (allRows inputs).map Row.ts) ∧
      (∀ r ∈ out.flatten, r.cells = (List.range cols).map fun c =>
        ((allRows inputs).filter fun x => decide (x.ts = r.ts)).reverse.findSome? fun x => (x.cells[c]?).join) ∧
      ∀ b ∈ out, b ≠ [] ∧ b.length ≤ bs := by
  obtain ⟨N, out, h1, h2, h3⟩ := merge_all cols bs inputs hne hbs hs
  have hS : (sortBy leTs (allRows inputs)).Pairwise fun a b => a.ts ≤ b.ts := by
    have := sortBy_sorted leTs_trans leTs_total (allRows inputs)
    simpa [leTs] using this
  obtain ⟨f1, f2, f3⟩ := finish_spec (cols := cols) _ hS
  rw [← h1] at f1 f2 f3
  refine ⟨N, out, fun fuel hf => (h3 fuel hf).1, f1, ?_, ?_, h2⟩
  · intro t
    rw [f2, List.mem_map, List.mem_map]
    exact ⟨fun ⟨r, h, e⟩ => ⟨r, mem_sortBy.1 h, e⟩, fun ⟨r, h, e⟩ => ⟨r, mem_sortBy.2 h, e⟩⟩
  · intro r hr
    have := congrArg Row.cells (f3 r hr)
    rw [this, filter_sort]
    rfl

/-- Two sources in batches that share times 2 and 5; the second one makes the merge wait. -/
def exInputs : List (Input Nat) :=
  [[.batch [⟨1, [some 10, none]⟩, ⟨2, [some 20, some 21]⟩], .batch [], .batch [⟨5, [some 50, some 51]⟩]],
   [.pending, .batch [⟨2, [none, some 22]⟩], .pending, .batch [⟨5, [none, none]⟩, ⟨6, [some 60, none]⟩]],
   [.batch [⟨5, [some 55, none]⟩]]]

example : SortedInputs exInputs := by unfold SortedInputs; decide

example : (Merge.new 2 2 exInputs).collect 30 = some
    [[⟨1, [some 10, none]⟩, ⟨2, [some 20, some 22]⟩], [⟨5, [some 55, some 51]⟩, ⟨6, [some 60, none]⟩]] := by decide +kernel

/-- With a batch size of 0 the stream ends at once (the batch size comes from the session configuration and is positive). -/
theorem C34_zero_batch_size_refuted :
    ∃ inputs : List (Input Nat), SortedInputs inputs ∧ inputs ≠ [] ∧ allRows inputs ≠ [] ∧ (Merge.new 1 0 inputs).collect 1 = some [] :=
  ⟨[[.batch [⟨1, [some 1]⟩]]], by unfold SortedInputs; decide, by decide, by decide, by decide +kernel⟩

end Verif.Reader
