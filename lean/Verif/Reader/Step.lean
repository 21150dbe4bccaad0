import Verif.Reader.Merge
/-!
# The merge: a whole step, and all steps
-/
namespace Verif.Reader

open Verif.Sort

variable {α : Type}

/-- The row that a step takes, if it takes one (sort_merge.rs:268-276). -/
def Merge.pulled (m : Merge α) : Option (Row α) :=
  match m.prepare with
  | (false, _) => none
  | (true, m) =>
    match m.adjust with
    | (false, _) => none
    | (true, m) =>
      match cursorAt m.cursors m.winner with
      | none => none
      | some _ => m.builder.row (m.builder.cursors.getD m.winner (0, 0))

/-- The builder after `build_record_batch`. -/
theorem clear_spec {cols : Nat} {b : Builder α} (h : Idx cols b) :
    Idx cols { b with indices := b.indices.map fun _ => [] } ∧ ({ b with indices := b.indices.map fun _ => [] } : Builder α).len = 0 ∧
      ({ b with indices := b.indices.map fun _ => [] } : Builder α).rows = [] := by
  have hl : ({ b with indices := b.indices.map fun _ => [] } : Builder α).len = 0 := by
    unfold Builder.len
    cases b.indices <;> rfl
  refine ⟨⟨by simp [h.width], ?_, ?_⟩, hl, ?_⟩
  · intro l hl'
    rw [hl]
    obtain ⟨_, _, rfl⟩ := List.mem_map.1 hl'
    rfl
  · intro l hl' p hp
    obtain ⟨_, _, rfl⟩ := List.mem_map.1 hl'
    cases hp
  · unfold Builder.rows
    rw [hl]; rfl

theorem rows_length (b : Builder α) : b.rows.length = b.len := by simp [Builder.rows]

/-- The row of the winner is the first one of the rows that are left, in stable order. -/
theorem Core.take {cols n : Nat} {S em pulled : List (Row α)} {m : Merge α} (h : Core cols n S em pulled m)
    {W : Nat → Nat} (hf : Fresh n m W) (hn : 1 ≤ n) {c : Cursor} (hc : cursorAt m.cursors (W 1) = some c) :
    ∃ x xs, m.builder.row (m.builder.cursors.getD (W 1) (0, 0)) = some x ∧ m.lefts[W 1]? = some (x :: xs) ∧
      sortBy leTs m.lefts.flatten = x :: sortBy leTs (m.lefts.set (W 1) xs).flatten ∧
      xs = (m.builder.batches.getD (m.builder.cursors.getD (W 1) (0, 0)).1 []).drop (c.offset + 1) ++ rowsOf (m.inputs.getD (W 1) []) ∧
      (m.builder.batches.getD (m.builder.cursors.getD (W 1) (0, 0)).1 []).map Row.ts = c.values := by
  have hwn : W 1 < n := (hf.good.anc _ 1 rfl (by omega) (by omega)).1
  obtain ⟨rows, h1, h2, h3, h4⟩ := h.coh _ c hc
  have hrow : m.builder.row (m.builder.cursors.getD (W 1) (0, 0)) = some rows[c.offset] := by
    unfold Builder.row
    rw [h1, h3]
    simp [List.getElem?_eq_getElem h4]
  have hb : m.builder.batches.getD (m.builder.cursors.getD (W 1) (0, 0)).1 [] = rows := by
    rw [List.getD_eq_getElem?_getD, h1]; rfl
  have hleft : m.left (W 1) = rows[c.offset] :: (rows.drop (c.offset + 1) ++ rowsOf (m.inputs.getD (W 1) [])) := by
    unfold Merge.left
    rw [hc]
    simp only
    rw [hb, List.drop_eq_getElem_cons h4, List.cons_append]
  have hat : ∀ i, i < n → m.lefts[i]? = some (m.left i) := by
    intro i hi
    unfold Merge.lefts
    rw [List.getElem?_map, List.getElem?_range (by rw [h.ninp]; exact hi)]
    rfl
  have hw : m.lefts[W 1]? = some (rows[c.offset] :: (rows.drop (c.offset + 1) ++ rowsOf (m.inputs.getD (W 1) []))) := by
    rw [hat _ hwn, hleft]
  have hhd : hd m.cursors (W 1) = some rows[c.offset].ts := by
    unfold hd
    rw [hc]
    simp only [Option.bind_some]
    rw [← h2, List.getElem?_map, List.getElem?_eq_getElem h4]
    rfl
  refine ⟨_, _, hrow, hw, sort_take hw h.sorted ?_, by rw [hb], by rw [hb]; exact h2⟩
  intro i y ys hi
  have hin : i < n := by
    obtain ⟨h5, _⟩ := List.getElem?_eq_some_iff.1 hi
    simpa [Merge.lefts, h.ninp] using h5
  have hle := hf.good.least (cle_refl _) (cle_trans _) hin
  unfold cle at hle
  rw [hhd] at hle
  rw [hat i hin] at hi
  simp only [Option.some.injEq] at hi
  cases hic : cursorAt m.cursors i with
  | none =>
    have := hf.ended i hin hic
    unfold Merge.left at hi
    rw [hic, this] at hi
    simp [rowsOf] at hi
  | some d =>
    obtain ⟨rs, k1, k2, k3, k4⟩ := h.coh i d hic
    have hdi : hd m.cursors i = some rs[d.offset].ts := by
      unfold hd
      rw [hic]
      simp only [Option.bind_some]
      rw [← k2, List.getElem?_map, List.getElem?_eq_getElem k4]
      rfl
    rw [hdi] at hle
    unfold Merge.left at hi
    rw [hic] at hi
    simp only at hi
    rw [List.getD_eq_getElem?_getD, k1, Option.getD_some, List.drop_eq_getElem_cons k4, List.cons_append] at hi
    simp only [List.cons.injEq] at hi
    rw [← hi.1]
    exact hle

theorem flatten_set_length {L : List (List (Row α))} {w : Nat} {x : Row α} {xs : List (Row α)} (h : L[w]? = some (x :: xs)) :
    (L.set w xs).flatten.length + 1 = L.flatten.length := by
  obtain ⟨hlt, he⟩ := List.getElem?_eq_some_iff.1 h
  have e1 : L = L.take w ++ (x :: xs) :: L.drop (w + 1) := by
    rw [← he, List.getElem_cons_drop, List.take_append_drop]
  have e2 : L.set w xs = L.take w ++ xs :: L.drop (w + 1) := by
    rw [List.set_eq_take_append_cons_drop, if_pos hlt]
  rw [e2]
  conv => rhs; rw [e1]
  simp
  omega

theorem Core.ended {cols n : Nat} {S em pulled : List (Row α)} {m : Merge α} (h : Core cols n S em pulled m)
    {W : Nat → Nat} (hf : Fresh n m W) (hc : cursorAt m.cursors (W 1) = none) : m.lefts.flatten = [] := by
  rw [List.flatten_eq_nil_iff]
  intro l hl
  obtain ⟨i, hi, rfl⟩ := List.mem_map.1 hl
  have hin : i < n := by rw [← h.ninp]; exact List.mem_range.1 hi
  have hle := hf.good.least (cle_refl _) (cle_trans _) hin
  have hnone : cursorAt m.cursors i = none := by
    cases hic : cursorAt m.cursors i with
    | none => rfl
    | some d =>
      obtain ⟨rs, k1, k2, k3, k4⟩ := h.coh i d hic
      unfold cle hd at hle
      rw [hc, hic] at hle
      simp only [Option.bind_none, Option.bind_some] at hle
      rw [← k2, List.getElem?_map, List.getElem?_eq_getElem k4] at hle
      simp at hle
  unfold Merge.left
  rw [hnone, hf.ended i hin hnone]
  rfl

/-- Work left, with the batch at the end. -/
def Merge.todo (m : Merge α) : Nat := 2 * m.work + if m.builder.same = [] ∧ m.builder.len = 0 then 0 else 1

theorem todo_le {m m' : Merge α} (h1 : m'.work ≤ m.work) (h2 : m'.builder.len = m.builder.len) (h3 : m'.builder.same = m.builder.same) :
    m'.todo ≤ m.todo := by
  unfold Merge.todo
  rw [h2, h3]
  omega

/-- What a step from a state with rows `pulled` taken and `em` put out may do. -/
def StepOk (cols n : Nat) (S em pulled : List (Row α)) (m : Merge α) : Out α × Merge α → Prop
  | (.more, m') => ∃ x, Merge.pulled m = some x ∧ Inv cols n S em (pulled ++ [x]) m' ∧ m'.todo < m.todo ∧
      m'.builder.len < m'.batchSize ∧ m'.batchSize = m.batchSize
  | (.pending, m') => Merge.pulled m = none ∧ Inv cols n S em pulled m' ∧ m'.todo < m.todo ∧ m'.builder.len < m'.batchSize ∧
      m'.batchSize = m.batchSize
  | (.batch rows, m') => Inv cols n S (em ++ rows) (pulled ++ (Merge.pulled m).toList) m' ∧ m'.todo < m.todo ∧
      m'.builder.len < m'.batchSize ∧ rows ≠ [] ∧ rows.length ≤ m.batchSize ∧ m'.batchSize = m.batchSize
  | (.finished, _) => Merge.pulled m = none ∧ pulled = S ∧ em = finish cols (S.foldl (push cols) ([], []))
  | (.failed, _) => False

theorem Inv.step {cols n : Nat} (hn : 1 ≤ n) {S em pulled : List (Row α)} (hS : S.Pairwise fun a b => a.ts ≤ b.ts) {m : Merge α}
    (h : Inv cols n S em pulled m) (hlen : m.builder.len < m.batchSize) : StepOk cols n S em pulled m m.step := by
  rcases h.ready hn with ⟨m1, W, h1, m2, h2, core, hf, hbs, hbl, hwork, hadj, hsame⟩ | ⟨m1, h1, hinv, hbs, hbl, hwork, hsame⟩ |
      ⟨h1, h2, hadj, htop, hsame, hl0, hall, hem⟩
  · -- a row is taken, or everything is at its end
    have hstep : m.step = m2.emit := by unfold Merge.step; rw [h1]; simp only; rw [h2]
    have hw := winner_eq hf.good
    have hwn : W 1 < n := (hf.good.anc _ 1 rfl (by omega) (by omega)).1
    rw [hstep]
    cases hc : cursorAt m2.cursors (W 1) with
    | some c =>
      obtain ⟨x, xs, k1, k2, k3, k4, k5⟩ := core.take hf hn hc
      have hpulled : Merge.pulled m = some x := by
        unfold Merge.pulled
        rw [h1]; simp only; rw [h2]; simp only; rw [hw, hc]; exact k1
      have hsplit : pulled ++ x :: sortBy leTs (m2.lefts.set (W 1) xs).flatten = S := by
        rw [← k3]; exact core.split
      have hle : ∀ y ∈ m2.builder.pend, y.ts ≤ x.ts := by
        intro y hy
        have hy' : y ∈ pulled := by
          have := fold_pend_mem (cols := cols) pulled ([], []) y (by rw [core.out]; exact hy)
          simpa using this
        rw [← hsplit, List.pairwise_append] at hS
        exact hS.2.2 y hy' x List.mem_cons_self
      obtain ⟨b', p1, p2, p3, p4, p5, p6, ⟨g, p7, p8⟩, p9⟩ := pushRow_spec core.idx core.same k1 core.last hle
      let slot := if c.offset + 1 = c.values.length then none else some { c with offset := c.offset + 1 }
      let m3 : Merge α := { m2 with cursors := m2.cursors.set (W 1) slot, adjusted := false, builder := b' }
      have hcl : W 1 < m2.cursors.length := by rw [core.ncur]; exact hwn
      have hbl' : W 1 < m2.builder.cursors.length := by rw [core.nb]; exact hwn
      have hrow' : b'.row = m2.builder.row := by funext p; unfold Builder.row; rw [p4]
      have hb'w : b'.cursors.getD (W 1) (0, 0) =
          ((m2.builder.cursors.getD (W 1) (0, 0)).1, (m2.builder.cursors.getD (W 1) (0, 0)).2 + 1) := by
        rw [p5, getD_set_self hbl']
      have hb'ne : ∀ j, j ≠ W 1 → b'.cursors.getD j (0, 0) = m2.builder.cursors.getD j (0, 0) := by
        intro j hj; rw [p5, getD_set_ne hj]
      obtain ⟨rows, c1, c2, c3, c4⟩ := core.coh _ c hc
      have hvl : c.values.length = rows.length := by rw [← c2, List.length_map]
      have hbrows : m2.builder.batches.getD (m2.builder.cursors.getD (W 1) (0, 0)).1 [] = rows := by
        rw [List.getD_eq_getElem?_getD, c1]; rfl
      have hlefts : m3.lefts = m2.lefts.set (W 1) xs := by
        apply List.ext_getElem?
        intro i
        by_cases hin : i < n
        · have e1 : m3.lefts[i]? = some (m3.left i) := by
            unfold Merge.lefts
            rw [List.getElem?_map, List.getElem?_range (show i < m2.inputs.length by rw [core.ninp]; exact hin)]
            rfl
          have e2 : m2.lefts[i]? = some (m2.left i) := by
            unfold Merge.lefts
            rw [List.getElem?_map, List.getElem?_range (show i < m2.inputs.length by rw [core.ninp]; exact hin)]
            rfl
          rw [e1]
          by_cases hiw : i = W 1
          · subst hiw
            have hll : W 1 < m2.lefts.length := by simp [Merge.lefts, core.ninp, hwn]
            rw [List.getElem?_set_self hll]
            congr 1
            rw [k4, hbrows]
            unfold Merge.left
            have e3 : cursorAt m3.cursors (W 1) = slot := cursorAt_set_self hcl _
            rw [e3]
            show _ ++ rowsOf (m2.inputs.getD (W 1) []) = _
            congr 1
            by_cases hend : c.offset + 1 = c.values.length
            · have : slot = none := if_pos hend
              rw [this]
              simp only
              rw [List.drop_eq_nil_of_le (by omega)]
            · have : slot = some { c with offset := c.offset + 1 } := if_neg hend
              rw [this]
              simp only
              congr 1
              show b'.batches.getD (b'.cursors.getD (W 1) (0, 0)).1 [] = rows
              rw [hb'w, p4]
              exact hbrows
          · rw [List.getElem?_set_ne (Ne.symm hiw), e2]
            congr 1
            unfold Merge.left
            have e3 : cursorAt m3.cursors i = cursorAt m2.cursors i := cursorAt_set_ne hiw _
            rw [e3]
            show (match cursorAt m2.cursors i with | none => [] | some c => (b'.batches.getD (b'.cursors.getD i (0, 0)).1 []).drop c.offset) ++ _ = _
            rw [hb'ne i hiw, p4]
            rfl
        · have e1 : m3.lefts.length = n := by simp only [Merge.lefts, List.length_map, List.length_range]; exact core.ninp
          have e2 : (m2.lefts.set (W 1) xs).length = n := by simp only [Merge.lefts, List.length_set, List.length_map, List.length_range]; exact core.ninp
          rw [List.getElem?_eq_none (by omega), List.getElem?_eq_none (by omega)]
      have hwork3 : m3.work + 1 = m2.work := by
        unfold Merge.work
        rw [hlefts]
        have := flatten_set_length k2
        show (m2.inputs.map List.length).sum + _ + 1 = _
        omega
      have hcore3 : Core cols n S em (pulled ++ [x]) m3 := by
        refine ⟨core.ninp, ?_, ?_, p2, p3, ?_, ?_, ?_, ?_, .inr p6⟩
        · show (m2.cursors.set (W 1) slot).length = n
          rw [List.length_set]; exact core.ncur
        · show b'.cursors.length = n
          rw [p5, List.length_set]; exact core.nb
        · intro i d hd'
          by_cases hiw : i = W 1
          · subst hiw
            have e3 : cursorAt m3.cursors (W 1) = slot := cursorAt_set_self hcl _
            rw [e3] at hd'
            by_cases hend : c.offset + 1 = c.values.length
            · have : slot = none := if_pos hend
              rw [this] at hd'; cases hd'
            · have : slot = some { c with offset := c.offset + 1 } := if_neg hend
              rw [this] at hd'
              simp only [Option.some.injEq] at hd'
              subst hd'
              refine ⟨rows, ?_, c2, ?_, by simp only; omega⟩
              · show b'.batches[(b'.cursors.getD (W 1) (0, 0)).1]? = some rows
                rw [hb'w, p4]; exact c1
              · show (b'.cursors.getD (W 1) (0, 0)).2 = c.offset + 1
                rw [hb'w, c3]
          · have e3 : cursorAt m3.cursors i = cursorAt m2.cursors i := cursorAt_set_ne hiw _
            rw [e3] at hd'
            obtain ⟨rs, d1, d2, d3, d4⟩ := core.coh i d hd'
            refine ⟨rs, ?_, d2, ?_, d4⟩
            · show b'.batches[(b'.cursors.getD i (0, 0)).1]? = some rs
              rw [hb'ne i hiw, p4]; exact d1
            · show (b'.cursors.getD i (0, 0)).2 = d.offset
              rw [hb'ne i hiw]; exact d3
        · rw [hlefts]
          intro l hl
          rcases List.mem_or_eq_of_mem_set hl with hl | hl
          · exact core.sorted l hl
          · subst hl
            have := core.sorted _ (List.mem_of_getElem? k2)
            rw [List.pairwise_cons] at this
            exact this.2
        · rw [hlefts, List.append_assoc]; exact hsplit
        · rw [List.foldl_append, core.out]
          show push cols (em ++ m2.builder.rows, m2.builder.pend) x = (em ++ b'.rows, b'.pend)
          have : push cols (em ++ m2.builder.rows, m2.builder.pend) x =
              (em ++ (push cols (m2.builder.rows, m2.builder.pend) x).1, (push cols (m2.builder.rows, m2.builder.pend) x).2) := by
            unfold push
            simp only
            split
            · rfl
            · split
              · rfl
              · simp
          rw [this, ← p8]
      have htree3 : Tree n m3 W m2.cursors := by
        refine ⟨hf.good, ?_, ?_⟩
        · intro i hi
          exact (cursorAt_set_ne hi _).symm
        · intro i hi hne hci
          have e3 : cursorAt m3.cursors i = cursorAt m2.cursors i := cursorAt_set_ne hne _
          rw [e3] at hci
          exact hf.ended i hi hci
      have hemit : m2.emit = if b'.len < m2.batchSize then (.more, m3) else m3.flush := by
        unfold Merge.emit
        rw [hw]
        simp only
        have : m2.advance (W 1) = some { m2 with cursors := m2.cursors.set (W 1) slot } := by
          unfold Merge.advance
          rw [hc]
        rw [this]
        simp only
        rw [p1]
      rw [hemit]
      by_cases hlt : b'.len < m2.batchSize
      · rw [if_pos hlt]
        refine ⟨x, hpulled, .taken hcore3 W m2.cursors htree3 rfl, ?_, hlt, hbs⟩
        unfold Merge.todo
        split <;> split <;> omega
      · rw [if_neg hlt]
        have hne : b'.len ≠ 0 := by omega
        have hfl : m3.flush = (.batch b'.rows, { m3 with builder := { b' with indices := b'.indices.map fun _ => [] } }) := by
          unfold Merge.flush Builder.build
          show (match (if b'.len = 0 then (none, b') else (some b'.rows, { b' with indices := b'.indices.map fun _ => [] })) with
            | (none, b) => _ | (some rows, b) => _) = _
          rw [if_neg hne]
        rw [hfl]
        obtain ⟨q1, q2, q3⟩ := clear_spec p2
        refine ⟨.taken ?_ W m2.cursors ⟨htree3.good, htree3.agree, htree3.ended⟩ rfl, ?_, ?_, ?_, ?_, hbs⟩
        · rw [hpulled]
          refine ⟨hcore3.ninp, hcore3.ncur, hcore3.nb, q1, hcore3.same, hcore3.coh, hcore3.sorted, hcore3.split, ?_, hcore3.last⟩
          rw [Option.toList_some, hcore3.out]
          show (em ++ b'.rows, b'.pend) = (em ++ b'.rows ++ ({ b' with indices := b'.indices.map fun _ => [] } : Builder α).rows, _)
          rw [q3, List.append_nil]
          rfl
        · have hwk : ({ m3 with builder := { b' with indices := b'.indices.map fun _ => [] } } : Merge α).work = m3.work := rfl
          unfold Merge.todo
          rw [hwk]
          split <;> split <;> omega
        · show ({ b' with indices := b'.indices.map fun _ => [] } : Builder α).len < m2.batchSize
          rw [q2]; omega
        · intro e
          have := rows_length b'
          rw [e] at this
          exact hne this.symm
        · rw [rows_length]; omega
    | none =>
      have hpulled : Merge.pulled m = none := by
        unfold Merge.pulled
        rw [h1]; simp only; rw [h2]; simp only; rw [hw, hc]
      have hleft := core.ended hf hc
      have hall : pulled = S := by
        have := core.split
        rw [hleft] at this
        simpa [sortBy] using this
      have hemit : m2.emit = ({ m2 with builder := m2.builder.takeLast } : Merge α).flush := by
        unfold Merge.emit
        rw [hw]
        simp only
        have : m2.advance (W 1) = none := by
          unfold Merge.advance
          rw [hc]
        rw [this]
      rw [hemit]
      have hout := core.out
      rw [hall] at hout
      -- the builder after the last merge
      have hT : Idx cols m2.builder.takeLast ∧ m2.builder.takeLast.same = [] ∧
          em ++ m2.builder.takeLast.rows = finish cols (S.foldl (push cols) ([], [])) ∧ m2.builder.takeLast.len ≤ m2.builder.len + 1 ∧
          (m2.builder.same = [] → m2.builder.takeLast.len = m2.builder.len) ∧
          m2.builder.takeLast.batches = m2.builder.batches ∧ m2.builder.takeLast.cursors = m2.builder.cursors := by
        by_cases hs : m2.builder.same = []
        · have e : m2.builder.takeLast = m2.builder := by unfold Builder.takeLast; rw [hs]
          rw [e, hout]
          refine ⟨core.idx, hs, ?_, Nat.le_succ _, fun _ => rfl, rfl, rfl⟩
          have : m2.builder.pend = [] := by unfold Builder.pend; rw [hs]; rfl
          simp [finish, this]
        · obtain ⟨t1, t2, t3, t4, t5, t6, t7⟩ := takeLast_spec core.idx core.same hs
          refine ⟨t1, t2, ?_, by omega, fun h0 => absurd h0 hs, t3, t4⟩
          have hne : m2.builder.pend ≠ [] := by
            intro e
            have := getLast?_filterMap_row core.same
            unfold Builder.pend at e
            rw [e] at this
            cases hg : m2.builder.same.getLast? with
            | none => exact hs (by simpa using hg)
            | some p =>
              rw [hg] at this
              have hv := core.same p (List.mem_of_getLast? hg)
              simp only [Option.bind_some, List.getLast?_nil] at this
              rw [← this] at hv; cases hv
          rw [t7, hout]
          simp [finish, hne]
      obtain ⟨t1, t2, t3, t4, t5, t6, t7⟩ := hT
      by_cases h0 : m2.builder.takeLast.len = 0
      · have hfl : ({ m2 with builder := m2.builder.takeLast } : Merge α).flush = (.finished, { m2 with builder := m2.builder.takeLast }) := by
          unfold Merge.flush Builder.build
          simp only [if_pos h0]
        rw [hfl]
        refine ⟨hpulled, hall, ?_⟩
        have : m2.builder.takeLast.rows = [] := List.length_eq_zero_iff.1 (by rw [rows_length]; exact h0)
        rw [this, List.append_nil] at t3
        exact t3
      · let b' := m2.builder.takeLast
        have hfl : ({ m2 with builder := m2.builder.takeLast } : Merge α).flush =
            (.batch b'.rows, { m2 with builder := { b' with indices := b'.indices.map fun _ => [] } }) := by
          unfold Merge.flush Builder.build
          show (match (if b'.len = 0 then (none, b') else (some b'.rows, { b' with indices := b'.indices.map fun _ => [] })) with
            | (none, b) => _ | (some rows, b) => _) = _
          rw [if_neg h0]
        rw [hfl]
        obtain ⟨q1, q2, q3⟩ := clear_spec t1
        refine ⟨.done (tree_ne hn hf.good) hadj ?_ t2 q2 ?_ t3, ?_, ?_, ?_, ?_, hbs⟩
        · show cursorAt m2.cursors m2.winner = none
          rw [hw]; exact hc
        · rw [hpulled]; simpa using hall
        · have hwk : ({ m2 with builder := { b' with indices := b'.indices.map fun _ => [] } } : Merge α).work = m2.work := by
            unfold Merge.work
            congr 3
            refine lefts_congr rfl ?_
            intro i _
            unfold Merge.left
            show (match cursorAt m2.cursors i with | none => [] | some c => (b'.batches.getD (b'.cursors.getD i (0, 0)).1 []).drop c.offset) ++ _ = _
            rw [t6, t7]
            rfl
          unfold Merge.todo
          rw [hwk, if_pos ⟨t2, q2⟩, if_neg]
          · omega
          · rintro ⟨e1, e2⟩
            rw [← hsame] at e1
            exact h0 ((t5 e1).trans (hbl.trans e2))
        · show ({ b' with indices := b'.indices.map fun _ => [] } : Builder α).len < m2.batchSize
          rw [q2]; omega
        · intro e
          have := rows_length b'
          rw [e] at this
          exact h0 this.symm
        · rw [rows_length]
          show m2.builder.takeLast.len ≤ m.batchSize
          omega
  · -- waiting
    have hstep : m.step = (.pending, m1) ∧ Merge.pulled m = none := by
      rcases h1 with h1 | ⟨m0, h1, h2⟩
      · constructor
        · unfold Merge.step; rw [h1]
        · unfold Merge.pulled; rw [h1]
      · constructor
        · unfold Merge.step; rw [h1]; simp only; rw [h2]
        · unfold Merge.pulled; rw [h1]; simp only; rw [h2]
    rw [hstep.1]
    refine ⟨hstep.2, hinv, ?_, by omega, hbs⟩
    unfold Merge.todo
    rw [hbl, hsame]
    omega
  · -- at the end
    have hemit : m.emit = ({ m with builder := m.builder.takeLast } : Merge α).flush := by
      unfold Merge.emit
      simp only
      have : m.advance m.winner = none := by
        unfold Merge.advance
        rw [htop]
      rw [this]
    have e : m.builder.takeLast = m.builder := by unfold Builder.takeLast; rw [hsame]
    have hstep : m.step = (.finished, m) := by
      unfold Merge.step
      rw [h1]; simp only; rw [h2]; simp only
      rw [hemit, e]
      unfold Merge.flush Builder.build
      simp only [if_pos hl0]
    rw [hstep]
    refine ⟨?_, hall, hem⟩
    unfold Merge.pulled
    rw [h1]; simp only; rw [h2]; simp only; rw [htop]

end Verif.Reader
