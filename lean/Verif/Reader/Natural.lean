import Verif.Reader.Model
/-!
# Merging looks at each column alone

Choosing columns and merging commute: the merge of the inputs in which each row is replaced by some of its columns gives the batches of
the merge of the inputs, with each row replaced by these columns.
-/
namespace Verif.Reader

variable {α : Type}

/-- The row with the chosen columns; `none` stands for a column without values. -/
def Row.choose (fs : List (Option Nat)) (r : Row α) : Row α := ⟨r.ts, fs.map fun o => o.bind fun c => (r.cells[c]?).join⟩

/-- The items of an input with the chosen columns. -/
def Item.choose (fs : List (Option Nat)) : Item α → Item α
  | .pending => .pending
  | .batch rows => .batch (rows.map (Row.choose fs))

@[simp] theorem Row.choose_ts (fs : List (Option Nat)) (r : Row α) : (r.choose fs).ts = r.ts := rfl

theorem pollInput_choose (fs : List (Option Nat)) (i : Input α) :
    pollInput (i.map (Item.choose fs)) = ((pollInput i).1.map (Option.map (List.map (Row.choose fs))), (pollInput i).2.map (Item.choose fs)) := by
  induction i with
  | nil => rfl
  | cons x i ih =>
    cases x with
    | pending => rfl
    | batch rows =>
      cases rows with
      | nil => simpa [pollInput, Item.choose] using ih
      | cons r rows => rfl

/-- The indices of two builders that hold the same positions, for all and for the chosen columns. -/
structure SimI (n : Nat) (fs : List (Option Nat)) (is js : List (List (Nat × Nat))) : Prop where
  ilen : is.length = n + 1
  jlen : js.length = fs.length + 1
  time : is[0]? = js[0]?
  cols : ∀ k c, fs[k]? = some (some c) → js[k + 1]? = is[c + 1]?

/-- Two builders that differ by the columns chosen. -/
structure SimB (n : Nat) (fs : List (Option Nat)) (a b : Builder α) : Prop where
  batches : b.batches = a.batches.map (List.map (Row.choose fs))
  cursors : b.cursors = a.cursors
  last : b.last = a.last
  same : b.same = a.same
  indices : SimI n fs a.indices b.indices

/-- The columns chosen exist. -/
def FsOk (n : Nat) (fs : List (Option Nat)) : Prop := ∀ o ∈ fs, ∀ c, o = some c → c < n

variable {n : Nat} {fs : List (Option Nat)} {a b : Builder α}

theorem SimB.new (n : Nat) (fs : List (Option Nat)) (hf : FsOk n fs) (k : Nat) : SimB n fs (Builder.new n k : Builder α) (Builder.new fs.length k) := by
  refine ⟨rfl, rfl, rfl, rfl, ⟨?_, ?_, ?_, ?_⟩⟩
  · simp [Builder.new]
  · simp [Builder.new]
  · simp [Builder.new]
  · intro k c h
    have hk : k < fs.length := by
      by_cases hk : k < fs.length
      · exact hk
      · rw [List.getElem?_eq_none (by omega)] at h; cases h
    have := hf _ (List.mem_of_getElem? h) c rfl
    simp [Builder.new, hk, this]

theorem SimB.pushBatch (h : SimB n fs a b) (i : Nat) (rows : List (Row α)) :
    SimB n fs (a.pushBatch i rows) (b.pushBatch i (rows.map (Row.choose fs))) := by
  refine ⟨?_, ?_, h.last, h.same, h.indices⟩
  · simp [Builder.pushBatch, h.batches]
  · simp [Builder.pushBatch, h.batches, h.cursors]

theorem SimB.row (h : SimB n fs a b) (p : Nat × Nat) : b.row p = (a.row p).map (Row.choose fs) := by
  unfold Builder.row
  rw [h.batches, List.getElem?_map]
  cases a.batches[p.1]? with
  | none => rfl
  | some rows => simp

theorem SimB.valid (h : SimB n fs a b) (p : Nat × Nat) (k c : Nat) (hc : fs[k]? = some (some c)) : b.valid (k + 1) p = a.valid (c + 1) p := by
  unfold Builder.valid
  rw [h.row]
  cases a.row p with
  | none => rfl
  | some r => simp [Row.choose, hc]

theorem SimB.pick (h : SimB n fs a b) (ps : List (Nat × Nat)) (k c : Nat) (hc : fs[k]? = some (some c)) :
    b.pick (k + 1) ps = a.pick (c + 1) ps := by
  induction ps with
  | nil => rfl
  | cons p ps ih => simp only [Builder.pick, h.valid p k c hc, ih]

theorem pick_zero (a b : Builder α) (ps : List (Nat × Nat)) : b.pick 0 ps = a.pick 0 ps := by
  cases ps with
  | nil => rfl
  | cons p ps => simp [Builder.pick, Builder.valid]

theorem SimB.takeLast (h : SimB n fs a b) : SimB n fs a.takeLast b.takeLast := by
  unfold Builder.takeLast
  rw [h.same]
  split
  · exact h
  · refine ⟨h.batches, h.cursors, h.last, rfl, ⟨?_, ?_, ?_, ?_⟩⟩
    · simp [h.indices.ilen]
    · simp [h.indices.jlen]
    · simp only [List.getElem?_map, h.indices.time]
    · intro k c hc
      simp only [List.getElem?_map, h.indices.cols k c hc]
  · refine ⟨h.batches, h.cursors, h.last, rfl, ⟨?_, ?_, ?_, ?_⟩⟩
    · simp [h.indices.ilen]
    · simp [h.indices.jlen]
    · simp only [List.getElem?_mapIdx, h.indices.time, pick_zero a b]
    · intro k c hc
      simp only [List.getElem?_mapIdx, h.indices.cols k c hc, h.pick _ k c hc]

/-- Two results of `push_row` that differ by the columns chosen. -/
def SimO (n : Nat) (fs : List (Option Nat)) : Option (Builder α) → Option (Builder α) → Prop
  | none, none => True
  | some a, some b => SimB n fs a b
  | _, _ => False

theorem SimB.pushRow (h : SimB n fs a b) (i : Nat) : SimO n fs (a.pushRow i) (b.pushRow i) := by
  have hp : b.cursors.getD i (0, 0) = a.cursors.getD i (0, 0) := by rw [h.cursors]
  unfold Builder.pushRow
  simp only [hp, h.last]
  generalize hpe : a.cursors.getD i (0, 0) = p
  cases hl : a.last with
  | none =>
    exact ⟨h.batches, by simp [h.cursors], rfl, by simp [h.same], h.indices⟩
  | some l =>
    simp only
    have h1 : SimB n fs { a with cursors := a.cursors.set i (p.1, p.2 + 1), last := some l }
        { b with cursors := b.cursors.set i (p.1, p.2 + 1), last := some l } :=
      ⟨h.batches, by simp [h.cursors], rfl, h.same, h.indices⟩
    rw [h1.row, h1.row]
    cases Builder.row { a with cursors := a.cursors.set i (p.1, p.2 + 1), last := some l } l with
    | none => trivial
    | some x =>
      cases Builder.row { a with cursors := a.cursors.set i (p.1, p.2 + 1), last := some l } p with
      | none => trivial
      | some y =>
        simp only [Option.map_some]
        by_cases e1 : x.ts = y.ts
        · rw [if_pos e1, if_pos (show (Row.choose fs x).ts = (Row.choose fs y).ts from e1)]
          exact ⟨h.batches, by simp [h.cursors], rfl, by simp [h.same], h.indices⟩
        · rw [if_neg e1, if_neg (show ¬(Row.choose fs x).ts = (Row.choose fs y).ts from e1)]
          by_cases e2 : x.ts < y.ts
          · rw [if_pos e2, if_pos (show (Row.choose fs x).ts < (Row.choose fs y).ts from e2)]
            have h2 : SimB n fs { a with cursors := a.cursors.set i (p.1, p.2 + 1), last := some p }
                { b with cursors := b.cursors.set i (p.1, p.2 + 1), last := some p } :=
              ⟨h.batches, by simp [h.cursors], rfl, h.same, h.indices⟩
            have h3 := h2.takeLast
            exact ⟨h3.batches, h3.cursors, h3.last, by simp [h3.same], h3.indices⟩
          · rw [if_neg e2, if_neg (show ¬(Row.choose fs x).ts < (Row.choose fs y).ts from e2)]
            trivial

theorem SimI.head (h : SimI n fs is js) : js.headD [] = is.headD [] := by
  have := h.time
  rw [← List.head?_eq_getElem?, ← List.head?_eq_getElem?] at this
  rw [List.headD_eq_head?_getD, List.headD_eq_head?_getD, this]

theorem SimB.len (h : SimB n fs a b) : b.len = a.len := by
  unfold Builder.len; rw [h.indices.head]

theorem SimB.rows (h : SimB n fs a b) (hf : FsOk n fs) : b.rows = a.rows.map (Row.choose fs) := by
  unfold Builder.rows
  rw [h.len, List.map_map]
  refine List.map_congr_left ?_
  intro j _
  have ht : ((b.indices.headD [])[j]?.bind b.row).elim 0 Row.ts = ((a.indices.headD [])[j]?.bind a.row).elim 0 Row.ts := by
    rw [h.indices.head]
    cases (a.indices.headD [])[j]? with
    | none => rfl
    | some p =>
      simp only [Option.bind_some, h.row]
      cases a.row p with
      | none => rfl
      | some r => rfl
  simp only [Function.comp, Row.choose, Row.mk.injEq]
  refine ⟨ht, ?_⟩
  apply List.ext_getElem?
  intro k
  rw [List.getElem?_mapIdx, List.getElem?_map, List.getElem?_tail]
  cases hk : fs[k]? with
  | none =>
    rw [List.getElem?_eq_none_iff] at hk
    rw [List.getElem?_eq_none (by rw [h.indices.jlen]; omega)]
    rfl
  | some o =>
    have hlt : k < fs.length := by
      by_cases hlt : k < fs.length
      · exact hlt
      · rw [List.getElem?_eq_none (by omega)] at hk; cases hk
    cases o with
    | none =>
      have hj : k + 1 < b.indices.length := by rw [h.indices.jlen]; omega
      rw [List.getElem?_eq_getElem hj]
      simp only [Option.map_some, Option.some.injEq, Option.bind_none]
      cases b.indices[k + 1][j]? with
      | none => rfl
      | some p =>
        simp only [Option.bind_some, Builder.cell, h.row]
        cases a.row p with
        | none => rfl
        | some r => simp [Row.choose, hk]
    | some c =>
      have hc := hf _ (List.mem_of_getElem? hk) c rfl
      rw [h.indices.cols k c hk]
      have hi : c + 1 < a.indices.length := by rw [h.indices.ilen]; omega
      rw [List.getElem?_eq_getElem hi]
      simp only [Option.map_some, Option.some.injEq, Option.bind_some]
      rw [List.getElem?_mapIdx, List.getElem?_tail, List.getElem?_eq_getElem hi]
      simp only [Option.map_some, Option.join_some]
      cases a.indices[c + 1][j]? with
      | none => rfl
      | some p =>
        simp only [Option.bind_some, Builder.cell, h.row]
        cases a.row p with
        | none => rfl
        | some r => simp [Row.choose, hk]

theorem SimB.build (h : SimB n fs a b) (hf : FsOk n fs) :
    b.build.1 = a.build.1.map (List.map (Row.choose fs)) ∧ SimB n fs a.build.2 b.build.2 := by
  unfold Builder.build
  rw [h.len]
  split
  · exact ⟨rfl, h⟩
  · refine ⟨by simp [h.rows hf], ⟨h.batches, h.cursors, h.last, h.same, ⟨?_, ?_, ?_, ?_⟩⟩⟩
    · simp [h.indices.ilen]
    · simp [h.indices.jlen]
    · simp only [List.getElem?_map, h.indices.time]
    · intro k c hc
      simp only [List.getElem?_map, h.indices.cols k c hc]

/-- Two merges that differ by the columns chosen. -/
structure SimM (n : Nat) (fs : List (Option Nat)) (a b : Merge α) : Prop where
  builder : SimB n fs a.builder b.builder
  inputs : b.inputs = a.inputs.map (List.map (Item.choose fs))
  tree : b.tree = a.tree
  adjusted : b.adjusted = a.adjusted
  size : b.batchSize = a.batchSize
  cursors : b.cursors = a.cursors

variable {m k : Merge α}

theorem SimM.maybePoll (h : SimM n fs m k) (i : Nat) : (k.maybePoll i).1 = (m.maybePoll i).1 ∧ SimM n fs (m.maybePoll i).2 (k.maybePoll i).2 := by
  unfold Merge.maybePoll
  rw [h.cursors]
  cases cursorAt m.cursors i with
  | some c => exact ⟨rfl, h⟩
  | none =>
    have hi : k.inputs.getD i [] = (m.inputs.getD i []).map (Item.choose fs) := by
      rw [h.inputs, List.getD_eq_getElem?_getD, List.getD_eq_getElem?_getD, List.getElem?_map]
      cases m.inputs[i]? <;> rfl
    simp only
    rw [hi, pollInput_choose]
    rcases pollInput (m.inputs.getD i []) with ⟨o, r⟩
    cases o with
    | none => exact ⟨rfl, h.builder, by simp [h.inputs], h.tree, h.adjusted, h.size, rfl⟩
    | some o =>
      cases o with
      | none => exact ⟨rfl, h.builder, by simp [h.inputs], h.tree, h.adjusted, h.size, rfl⟩
      | some rows =>
        refine ⟨rfl, h.builder.pushBatch i rows, by simp [h.inputs], h.tree, h.adjusted, h.size, ?_⟩
        simp [Function.comp_def]

theorem SimM.pollAll (h : SimM n fs m k) (l : List Nat) : (k.pollAll l).1 = (m.pollAll l).1 ∧ SimM n fs (m.pollAll l).2 (k.pollAll l).2 := by
  induction l generalizing m k with
  | nil => exact ⟨rfl, h⟩
  | cons i l ih =>
    obtain ⟨h1, h2⟩ := h.maybePoll i
    unfold Merge.pollAll
    rcases hm : m.maybePoll i with ⟨x, m'⟩
    rcases hk : k.maybePoll i with ⟨y, k'⟩
    rw [hm, hk] at h1 h2
    simp only at h1 h2
    subst h1
    cases y with
    | false => exact ⟨rfl, h2⟩
    | true => exact ih h2

theorem SimM.prepare (h : SimM n fs m k) : k.prepare.1 = m.prepare.1 ∧ SimM n fs m.prepare.2 k.prepare.2 := by
  unfold Merge.prepare
  rw [h.tree]
  split
  · have hl : k.inputs.length = m.inputs.length := by rw [h.inputs]; simp
    rw [hl]
    obtain ⟨h1, h2⟩ := h.pollAll (List.range m.inputs.length)
    rcases hm : m.pollAll (List.range m.inputs.length) with ⟨x, m'⟩
    rcases hk : k.pollAll (List.range m.inputs.length) with ⟨y, k'⟩
    rw [hm, hk] at h1 h2
    simp only at h1 h2
    subst h1
    cases y with
    | false => exact ⟨rfl, h2⟩
    | true => exact ⟨rfl, h2.builder, h2.inputs, by simp [h2.cursors], rfl, h2.size, h2.cursors⟩
  · exact ⟨rfl, h⟩

theorem SimM.winner (h : SimM n fs m k) : k.winner = m.winner := by unfold Merge.winner; rw [h.tree]

theorem SimM.adjust (h : SimM n fs m k) : k.adjust.1 = m.adjust.1 ∧ SimM n fs m.adjust.2 k.adjust.2 := by
  unfold Merge.adjust
  rw [h.adjusted, h.winner]
  split
  · exact ⟨rfl, h⟩
  · obtain ⟨h1, h2⟩ := h.maybePoll m.winner
    rcases hm : m.maybePoll m.winner with ⟨x, m'⟩
    rcases hk : k.maybePoll m.winner with ⟨y, k'⟩
    rw [hm, hk] at h1 h2
    simp only at h1 h2
    subst h1
    cases y with
    | false => exact ⟨rfl, h2⟩
    | true => exact ⟨rfl, h2.builder, h2.inputs, by simp [h2.cursors, h2.tree, h2.winner], rfl, h2.size, h2.cursors⟩

/-- Two ends of a turn that differ by the columns chosen. -/
def Out.choose (fs : List (Option Nat)) : Out α → Out α
  | .batch rows => .batch (rows.map (Row.choose fs))
  | o => o

theorem SimM.flush (h : SimM n fs m k) (hf : FsOk n fs) : k.flush.1 = m.flush.1.choose fs ∧ SimM n fs m.flush.2 k.flush.2 := by
  obtain ⟨h1, h2⟩ := h.builder.build hf
  unfold Merge.flush
  rcases hm : m.builder.build with ⟨x, m'⟩
  rcases hk : k.builder.build with ⟨y, k'⟩
  rw [hm, hk] at h1 h2
  simp only at h1 h2
  subst h1
  cases x with
  | none => exact ⟨rfl, h2, h.inputs, h.tree, h.adjusted, h.size, h.cursors⟩
  | some rows => exact ⟨rfl, h2, h.inputs, h.tree, h.adjusted, h.size, h.cursors⟩

theorem SimM.emit (h : SimM n fs m k) (hf : FsOk n fs) : k.emit.1 = m.emit.1.choose fs ∧ SimM n fs m.emit.2 k.emit.2 := by
  unfold Merge.emit
  simp only [h.winner]
  unfold Merge.advance
  rw [h.cursors]
  cases cursorAt m.cursors m.winner with
  | none =>
    exact SimM.flush ⟨h.builder.takeLast, h.inputs, h.tree, h.adjusted, h.size, rfl⟩ hf
  | some c =>
    simp only
    have h1 := h.builder.pushRow m.winner
    rcases hm : m.builder.pushRow m.winner with _ | x
    · rcases hk : k.builder.pushRow m.winner with _ | y
      · exact ⟨rfl, h.builder, h.inputs, h.tree, rfl, h.size, rfl⟩
      · rw [hm, hk] at h1; exact h1.elim
    · rcases hk : k.builder.pushRow m.winner with _ | y
      · rw [hm, hk] at h1; exact h1.elim
      · rw [hm, hk] at h1
        have h1 : SimB n fs x y := h1
        simp only [h1.len, h.size]
        split
        · exact ⟨rfl, h1, h.inputs, h.tree, rfl, rfl, rfl⟩
        · exact SimM.flush ⟨h1, h.inputs, h.tree, rfl, rfl, rfl⟩ hf

theorem SimM.step (h : SimM n fs m k) (hf : FsOk n fs) : k.step.1 = m.step.1.choose fs ∧ SimM n fs m.step.2 k.step.2 := by
  obtain ⟨h1, h2⟩ := h.prepare
  unfold Merge.step
  rcases hm : m.prepare with ⟨x, m'⟩
  rcases hk : k.prepare with ⟨y, k'⟩
  rw [hm, hk] at h1 h2
  simp only at h1 h2
  subst h1
  cases y with
  | false => exact ⟨rfl, h2⟩
  | true =>
    simp only
    obtain ⟨h3, h4⟩ := h2.adjust
    rcases hm' : m'.adjust with ⟨x, m''⟩
    rcases hk' : k'.adjust with ⟨y, k''⟩
    rw [hm', hk'] at h3 h4
    simp only at h3 h4
    subst h3
    cases y with
    | false => exact ⟨rfl, h4⟩
    | true => exact h4.emit hf

theorem SimM.collect (h : SimM n fs m k) (hf : FsOk n fs) (fuel : Nat) :
    k.collect fuel = (m.collect fuel).map (List.map (List.map (Row.choose fs))) := by
  induction fuel generalizing m k with
  | zero => rfl
  | succ fuel ih =>
    obtain ⟨h1, h2⟩ := h.step hf
    unfold Merge.collect
    rcases hm : m.step with ⟨x, m'⟩
    rcases hk : k.step with ⟨y, k'⟩
    rw [hm, hk] at h1 h2
    simp only at h1 h2
    subst h1
    cases x with
    | more => exact ih h2
    | pending => exact ih h2
    | batch rows =>
      simp only [Out.choose]
      rw [ih h2]
      cases m'.collect fuel <;> rfl
    | finished => rfl
    | failed => rfl

/-- Choosing columns and merging commute. -/
theorem collect_choose (hf : FsOk n fs) (size fuel : Nat) (inputs : List (Input α)) :
    (Merge.new fs.length size (inputs.map (List.map (Item.choose fs)))).collect fuel =
      ((Merge.new n size inputs).collect fuel).map (List.map (List.map (Row.choose fs))) := by
  have h : SimM n fs (Merge.new n size inputs) (Merge.new fs.length size (inputs.map (List.map (Item.choose fs)))) := by
    refine ⟨?_, rfl, rfl, rfl, rfl, ?_⟩
    · simpa [Merge.new] using SimB.new n fs hf inputs.length
    · simp [Merge.new]
  exact h.collect hf fuel

end Verif.Reader
