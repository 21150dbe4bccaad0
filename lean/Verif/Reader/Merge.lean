import Verif.Reader.Build
/-!
# The merge: every step takes the least row
-/
namespace Verif.Reader

open Verif.Sort

variable {α : Type}

/-- The cursor of an input points to the row that the builder takes next from it. -/
def Coh (b : Builder α) (i : Nat) (c : Cursor) : Prop :=
  ∃ rows, b.batches[(b.cursors.getD i (0, 0)).1]? = some rows ∧ rows.map Row.ts = c.values ∧
    (b.cursors.getD i (0, 0)).2 = c.offset ∧ c.offset < rows.length

/-- The rows of an input that are still to be taken. -/
def Merge.left (m : Merge α) (i : Nat) : List (Row α) :=
  (match cursorAt m.cursors i with
    | none => []
    | some c => (m.builder.batches.getD (m.builder.cursors.getD i (0, 0)).1 []).drop c.offset) ++ rowsOf (m.inputs.getD i [])

/-- The same for all inputs. -/
def Merge.lefts (m : Merge α) : List (List (Row α)) := (List.range m.inputs.length).map m.left

/-- What holds between the steps, apart from the tree. -/
structure Core (cols n : Nat) (S em pulled : List (Row α)) (m : Merge α) : Prop where
  ninp : m.inputs.length = n
  ncur : m.cursors.length = n
  nb : m.builder.cursors.length = n
  idx : Idx cols m.builder
  same : ∀ p ∈ m.builder.same, (m.builder.row p).isSome
  coh : ∀ i c, cursorAt m.cursors i = some c → Coh m.builder i c
  sorted : ∀ l ∈ m.lefts, l.Pairwise fun a b => a.ts ≤ b.ts
  split : pulled ++ sortBy leTs m.lefts.flatten = S
  out : pulled.foldl (push cols) ([], []) = (em ++ m.builder.rows, m.builder.pend)
  last : (m.builder.last = none ∧ m.builder.same = []) ∨ ∃ p, m.builder.last = some p ∧ m.builder.same.getLast? = some p

theorem cursorAt_set_self {cs : List (Option Cursor)} {i : Nat} (h : i < cs.length) (v : Option Cursor) : cursorAt (cs.set i v) i = v := by
  simp [cursorAt, h]

theorem cursorAt_set_ne {cs : List (Option Cursor)} {i j : Nat} (h : j ≠ i) (v : Option Cursor) :
    cursorAt (cs.set i v) j = cursorAt cs j := by
  simp [cursorAt, List.getElem?_set_ne (Ne.symm h)]

theorem getD_set_ne {β : Type} {l : List β} {i j : Nat} {d v : β} (h : j ≠ i) : (l.set i v).getD j d = l.getD j d := by
  simp [List.getD_eq_getElem?_getD, List.getElem?_set_ne (Ne.symm h)]

theorem getD_set_self {β : Type} {l : List β} {i : Nat} {d v : β} (h : i < l.length) : (l.set i v).getD i d = v := by
  simp [List.getD_eq_getElem?_getD, h]

theorem rowsOf_poll (inp : Input α) :
    match pollInput inp with
    | (none, r) => rowsOf inp = rowsOf r ∧ r.length < inp.length
    | (some none, r) => rowsOf inp = [] ∧ r = []
    | (some (some rows), r) => rowsOf inp = rows ++ rowsOf r ∧ rows ≠ [] ∧ r.length < inp.length := by
  induction inp with
  | nil => simp [pollInput, rowsOf]
  | cons x r ih =>
    cases x with
    | pending => simp [pollInput, rowsOf]
    | batch b =>
      cases b with
      | nil =>
        rw [pollInput]
        have e : rowsOf (Item.batch [] :: r) = rowsOf r := by simp [rowsOf]
        generalize pollInput r = z at ih ⊢
        obtain ⟨_ | _ | rows, r'⟩ := z
        · simp only at ih ⊢; rw [e]; exact ⟨ih.1, by simp; omega⟩
        · simp only at ih ⊢; rw [e]; exact ih
        · simp only at ih ⊢; rw [e]; exact ⟨ih.1, ih.2.1, by simp; omega⟩
      | cons y b => simp [pollInput, rowsOf]

/-- Work left: items of the inputs, and rows. -/
def Merge.work (m : Merge α) : Nat := (m.inputs.map List.length).sum + m.lefts.flatten.length

theorem sum_set_le {l : List Nat} {i v : Nat} (h : v ≤ l.getD i 0) : (l.set i v).sum ≤ l.sum := by
  induction l generalizing i with
  | nil => simp
  | cons a l ih =>
    cases i with
    | zero => simp at h ⊢; omega
    | succ i => simp at h ⊢; exact ih (by simpa using h)

theorem sum_set_lt {l : List Nat} {i v : Nat} (h : v < l.getD i 0) : (l.set i v).sum < l.sum := by
  induction l generalizing i with
  | nil => simp at h
  | cons a l ih =>
    cases i with
    | zero => simp at h ⊢; omega
    | succ i => simp at h ⊢; exact ih (by simpa using h)

theorem lefts_congr {m m' : Merge α} (hl : m'.inputs.length = m.inputs.length) (h : ∀ i, i < m.inputs.length → m'.left i = m.left i) :
    m'.lefts = m.lefts := by
  unfold Merge.lefts
  rw [hl]
  exact List.map_congr_left fun i hi => h i (List.mem_range.1 hi)

theorem map_length_set (l : List (Input α)) (i : Nat) (r : Input α) : (l.set i r).map List.length = (l.map List.length).set i r.length := by
  rw [List.map_set]

theorem getD_map_length (l : List (Input α)) (i : Nat) : (l.map List.length).getD i 0 = (l.getD i []).length := by
  simp only [List.getD_eq_getElem?_getD, List.getElem?_map]
  cases l[i]? <;> rfl

/-- `maybe_poll_stream` keeps all rows; when it is ready, the input has a cursor or is at its end. -/
theorem Core.poll {cols n : Nat} {S em pulled : List (Row α)} {m : Merge α} (h : Core cols n S em pulled m) {i : Nat} (hi : i < n) :
    Core cols n S em pulled (m.maybePoll i).2 ∧ (m.maybePoll i).2.tree = m.tree ∧ (m.maybePoll i).2.adjusted = m.adjusted ∧
    (m.maybePoll i).2.batchSize = m.batchSize ∧ (m.maybePoll i).2.builder.len = m.builder.len ∧
    (m.maybePoll i).2.builder.same = m.builder.same ∧
    (∀ j, j ≠ i → cursorAt (m.maybePoll i).2.cursors j = cursorAt m.cursors j ∧
      (m.maybePoll i).2.inputs.getD j [] = m.inputs.getD j []) ∧
    (m.maybePoll i).2.work ≤ m.work ∧ ((m.maybePoll i).1 = false → (m.maybePoll i).2.work < m.work) ∧
    ((m.maybePoll i).1 = true → cursorAt (m.maybePoll i).2.cursors i = none → (m.maybePoll i).2.inputs.getD i [] = []) ∧
    (∀ c, cursorAt m.cursors i = some c → (m.maybePoll i).2.cursors = m.cursors) := by
  unfold Merge.maybePoll
  cases hc : cursorAt m.cursors i with
  | some c =>
    simp only
    exact ⟨h, by simp [hc]⟩
  | none =>
    simp only
    have hp := rowsOf_poll (m.inputs.getD i [])
    have hin : i < m.inputs.length := by rw [h.ninp]; exact hi
    -- the rows left do not change
    have same : ∀ r, rowsOf (m.inputs.getD i []) = rowsOf r →
        ({ m with inputs := m.inputs.set i r } : Merge α).lefts = m.lefts := by
      intro r hr
      refine lefts_congr (by simp) ?_
      intro j hj
      unfold Merge.left
      by_cases hji : j = i
      · subst hji
        simp only
        rw [getD_set_self hin, hr]
      · simp only
        rw [getD_set_ne hji]
    have samecore : ∀ r, rowsOf (m.inputs.getD i []) = rowsOf r → Core cols n S em pulled { m with inputs := m.inputs.set i r } := by
      intro r hr
      refine ⟨by simp [h.ninp], h.ncur, h.nb, h.idx, h.same, h.coh, ?_, ?_, h.out, h.last⟩
      · rw [same r hr]; exact h.sorted
      · rw [same r hr]; exact h.split
    have samework : ∀ r, rowsOf (m.inputs.getD i []) = rowsOf r →
        ({ m with inputs := m.inputs.set i r } : Merge α).work = ((m.inputs.map List.length).set i r.length).sum + m.lefts.flatten.length := by
      intro r hr
      unfold Merge.work
      rw [same r hr, map_length_set]
    generalize pollInput (m.inputs.getD i []) = z at hp
    obtain ⟨_ | _ | rows, r⟩ := z
    · simp only at hp ⊢
      have hlt := sum_set_lt (l := m.inputs.map List.length) (i := i) (v := r.length) (by rw [getD_map_length]; exact hp.2)
      refine ⟨samecore r hp.1, by simp, by simp, by simp, by simp, by simp, ?_, ?_, ?_, by simp, by simp⟩
      · exact fun j hj => ⟨by simp, getD_set_ne hj⟩
      · rw [samework r hp.1]; unfold Merge.work; omega
      · intro _; rw [samework r hp.1]; unfold Merge.work; omega
    · simp only at hp ⊢
      obtain ⟨hp1, rfl⟩ := hp
      have hp' : rowsOf (m.inputs.getD i []) = rowsOf ([] : Input α) := by rw [hp1]; rfl
      have hle := sum_set_le (l := m.inputs.map List.length) (i := i) (v := 0) (Nat.zero_le _)
      refine ⟨samecore [] hp', by simp, by simp, by simp, by simp, by simp, ?_, ?_, by simp, ?_, by simp⟩
      · exact fun j hj => ⟨by simp, getD_set_ne hj⟩
      · rw [samework [] hp']; unfold Merge.work; simp only [List.length_nil]; omega
      · intro _ _; exact getD_set_self hin
    · simp only at hp ⊢
      obtain ⟨hp1, hp2, hp3⟩ := hp
      let m' : Merge α := { m with inputs := m.inputs.set i r, cursors := m.cursors.set i (some ⟨rows.map Row.ts, 0⟩), builder := m.builder.pushBatch i rows }
      have hcur : i < m.cursors.length := by rw [h.ncur]; exact hi
      have hbc : i < m.builder.cursors.length := by rw [h.nb]; exact hi
      have hcur' : (m.builder.pushBatch i rows).cursors.getD i (0, 0) = (m.builder.batches.length, 0) := getD_set_self hbc
      have hcurne : ∀ j, j ≠ i → (m.builder.pushBatch i rows).cursors.getD j (0, 0) = m.builder.cursors.getD j (0, 0) :=
        fun j hj => getD_set_ne hj
      have hbat : (m.builder.pushBatch i rows).batches = m.builder.batches ++ [rows] := rfl
      have hcoh : ∀ j c, cursorAt m'.cursors j = some c → Coh m'.builder j c := by
        intro j c hjc
        by_cases hji : j = i
        · subst hji
          have : cursorAt m'.cursors j = some ⟨rows.map Row.ts, 0⟩ := cursorAt_set_self hcur _
          rw [this] at hjc
          simp only [Option.some.injEq] at hjc
          subst hjc
          refine ⟨rows, ?_, rfl, ?_, List.length_pos_iff.2 hp2⟩
          · show (m.builder.pushBatch j rows).batches[((m.builder.pushBatch j rows).cursors.getD j (0, 0)).1]? = _
            rw [hcur', hbat]; simp
          · show ((m.builder.pushBatch j rows).cursors.getD j (0, 0)).2 = _
            rw [hcur']
        · have : cursorAt m'.cursors j = cursorAt m.cursors j := cursorAt_set_ne hji _
          rw [this] at hjc
          obtain ⟨rs, h1, h2, h3, h4⟩ := h.coh j c hjc
          refine ⟨rs, ?_, h2, ?_, h4⟩
          · show (m.builder.pushBatch i rows).batches[((m.builder.pushBatch i rows).cursors.getD j (0, 0)).1]? = _
            rw [hcurne j hji, hbat]
            obtain ⟨h5, _⟩ := List.getElem?_eq_some_iff.1 h1
            rw [List.getElem?_append_left h5]; exact h1
          · show ((m.builder.pushBatch i rows).cursors.getD j (0, 0)).2 = _
            rw [hcurne j hji]; exact h3
      have hlefts : m'.lefts = m.lefts := by
        refine lefts_congr (by simp [m']) ?_
        intro j hj
        unfold Merge.left
        by_cases hji : j = i
        · subst hji
          have e1 : cursorAt m'.cursors j = some ⟨rows.map Row.ts, 0⟩ := cursorAt_set_self hcur _
          have e2 : m'.inputs.getD j [] = r := getD_set_self hin
          rw [e1, e2, hc, hp1]
          show (m.builder.pushBatch j rows).batches.getD ((m.builder.pushBatch j rows).cursors.getD j (0, 0)).1 [] ++ _ = _
          rw [hcur', hbat]
          simp [List.getD_eq_getElem?_getD]
        · have e1 : cursorAt m'.cursors j = cursorAt m.cursors j := cursorAt_set_ne hji _
          have e2 : m'.inputs.getD j [] = m.inputs.getD j [] := getD_set_ne hji
          rw [e1, e2]
          cases hjc : cursorAt m.cursors j with
          | none => rfl
          | some c =>
            simp only
            congr 2
            show (m.builder.pushBatch i rows).batches.getD ((m.builder.pushBatch i rows).cursors.getD j (0, 0)).1 [] = _
            rw [hcurne j hji, hbat]
            obtain ⟨rs, h1, _⟩ := h.coh j c hjc
            obtain ⟨h5, _⟩ := List.getElem?_eq_some_iff.1 h1
            rw [List.getD_eq_getElem?_getD, List.getElem?_append_left h5, ← List.getD_eq_getElem?_getD]
      have hrow : ∀ p, (m.builder.row p).isSome → m'.builder.row p = m.builder.row p := fun p hp => row_pushBatch hp
      have hwork : m'.work < m.work := by
        have hlt := sum_set_lt (l := m.inputs.map List.length) (i := i) (v := r.length) (by rw [getD_map_length]; exact hp3)
        unfold Merge.work
        rw [hlefts]
        show ((m.inputs.set i r).map List.length).sum + _ < _
        rw [map_length_set]
        omega
      refine ⟨?_, by simp, by simp, by simp, rfl, rfl, ?_, Nat.le_of_lt hwork, by simp, ?_, by simp⟩
      · refine ⟨?_, ?_, ?_, h.idx.pushBatch i rows, ?_, hcoh, ?_, ?_, ?_, h.last⟩
        · simp [h.ninp]
        · simp [h.ncur]
        · show (m.builder.cursors.set i _).length = n
          rw [List.length_set, h.nb]
        · intro p hp
          have := h.same p hp
          show (m'.builder.row p).isSome
          rw [hrow p this]; exact this
        · rw [show Merge.lefts _ = m.lefts from hlefts]; exact h.sorted
        · rw [show Merge.lefts _ = m.lefts from hlefts]; exact h.split
        · rw [h.out]
          have e1 : m'.builder.rows = m.builder.rows := rows_congr h.idx rfl hrow
          have e2 : m'.builder.pend = m.builder.pend := pend_congr rfl (fun p hp => hrow p (h.same p hp))
          show _ = (em ++ m'.builder.rows, m'.builder.pend)
          rw [e1, e2]
      · exact fun j hj => ⟨cursorAt_set_ne hj _, getD_set_ne hj⟩
      · intro _ hn
        rw [cursorAt_set_self hcur] at hn
        cases hn

/-! ## Comparing cursors -/

/-- The time at a cursor. -/
def hd (cs : List (Option Cursor)) (i : Nat) : Option Int := (cursorAt cs i).bind fun c => c.values[c.offset]?

/-- The order of the inputs by (time, number), with those at their end last. -/
def cle (cs : List (Option Cursor)) (a b : Nat) : Prop :=
  match hd cs a, hd cs b with
  | _, none => True
  | none, some _ => False
  | some u, some v => u < v ∨ u = v ∧ a ≤ b

theorem cle_refl (cs : List (Option Cursor)) (a : Nat) : cle cs a a := by
  unfold cle
  cases hd cs a with
  | none => trivial
  | some u => exact .inr ⟨rfl, Nat.le_refl _⟩

theorem cle_trans (cs : List (Option Cursor)) (a b c : Nat) (h1 : cle cs a b) (h2 : cle cs b c) : cle cs a c := by
  unfold cle at *
  cases h3 : hd cs a <;> cases h4 : hd cs b <;> cases h5 : hd cs c <;> simp only [h3, h4, h5] at h1 h2 ⊢ <;> first | trivial | omega

/-- Cursors that are not finished. -/
def Live (cs : List (Option Cursor)) : Prop := ∀ i c, cursorAt cs i = some c → c.offset < c.values.length

theorem isGt_true {cs : List (Option Cursor)} (hv : Live cs) (a b : Nat) (h : isGt cs a b = true) : cle cs b a := by
  unfold isGt at h
  unfold cle hd
  cases ha : cursorAt cs a with
  | none => simp
  | some x =>
    cases hb : cursorAt cs b with
    | none => rw [ha, hb] at h; simp at h
    | some y =>
      rw [ha, hb] at h
      have h1 := hv a x ha
      have h2 := hv b y hb
      simp only [List.getElem?_eq_getElem h1, List.getElem?_eq_getElem h2, Bool.or_eq_true, Bool.and_eq_true, decide_eq_true_eq] at h
      simp only [Option.bind_some, List.getElem?_eq_getElem h1, List.getElem?_eq_getElem h2]
      omega

theorem isGt_false {cs : List (Option Cursor)} (hv : Live cs) (a b : Nat) (h : isGt cs a b = false) : cle cs a b := by
  unfold isGt at h
  unfold cle hd
  cases ha : cursorAt cs a with
  | none => rw [ha] at h; simp at h
  | some x =>
    cases hb : cursorAt cs b with
    | none => simp
    | some y =>
      rw [ha, hb] at h
      have h1 := hv a x ha
      have h2 := hv b y hb
      simp only [List.getElem?_eq_getElem h1, List.getElem?_eq_getElem h2, Bool.or_eq_false_iff, Bool.and_eq_false_imp, decide_eq_false_iff_not, decide_eq_true_eq] at h
      simp only [Option.bind_some, List.getElem?_eq_getElem h1, List.getElem?_eq_getElem h2]
      have := h.2
      omega

theorem Core.live {cols n : Nat} {S em pulled : List (Row α)} {m : Merge α} (h : Core cols n S em pulled m) : Live m.cursors := by
  intro i c hc
  obtain ⟨rows, _, h2, _, h4⟩ := h.coh i c hc
  rw [← h2, List.length_map]; exact h4

/-- What is known about the tree. -/
structure Tree (n : Nat) (m : Merge α) (W : Nat → Nat) (cs : List (Option Cursor)) : Prop where
  good : Good (cle cs) n m.tree W
  agree : ∀ i, i ≠ W 1 → cursorAt cs i = cursorAt m.cursors i
  ended : ∀ i, i < n → i ≠ W 1 → cursorAt m.cursors i = none → m.inputs.getD i [] = []

/-- The tree is right for the cursors now. -/
structure Fresh (n : Nat) (m : Merge α) (W : Nat → Nat) : Prop where
  good : Good (cle m.cursors) n m.tree W
  ended : ∀ i, i < n → cursorAt m.cursors i = none → m.inputs.getD i [] = []

/-- The state between two steps. -/
inductive Inv (cols n : Nat) (S em : List (Row α)) (pulled : List (Row α)) (m : Merge α) : Prop where
  | start (core : Core cols n S em pulled m) (tree : m.tree = []) (flag : m.adjusted = false)
  | taken (core : Core cols n S em pulled m) (W : Nat → Nat) (cs : List (Option Cursor)) (tree : Tree n m W cs) (flag : m.adjusted = false)
  | done (tree : m.tree ≠ []) (flag : m.adjusted = true) (top : cursorAt m.cursors m.winner = none) (same : m.builder.same = [])
      (len : m.builder.len = 0) (all : pulled = S) (out : em = finish cols (S.foldl (push cols) ([], [])))

theorem winner_eq {n : Nat} {m : Merge α} {W : Nat → Nat} {le : Nat → Nat → Prop} (h : Good le n m.tree W) : m.winner = W 1 := by
  unfold Merge.winner; rw [h.top]; rfl

theorem tree_ne {n : Nat} (hn : 1 ≤ n) {m : Merge α} {W : Nat → Nat} {le : Nat → Nat → Prop} (h : Good le n m.tree W) : m.tree ≠ [] := by
  intro e
  have := h.len
  rw [e] at this; simp at this; omega

theorem core_tree {cols n : Nat} {S em pulled : List (Row α)} {m : Merge α} (h : Core cols n S em pulled m) (t : List (Option Nat)) (f : Bool) :
    Core cols n S em pulled { m with tree := t, adjusted := f } :=
  ⟨h.ninp, h.ncur, h.nb, h.idx, h.same, h.coh, h.sorted, h.split, h.out, h.last⟩

/-- Polling all inputs. -/
theorem Core.pollAll {cols n : Nat} {S em pulled : List (Row α)} (is : List Nat) :
    ∀ {m : Merge α}, Core cols n S em pulled m → (∀ i ∈ is, i < n) →
    Core cols n S em pulled (m.pollAll is).2 ∧ (m.pollAll is).2.tree = m.tree ∧ (m.pollAll is).2.adjusted = m.adjusted ∧
    (m.pollAll is).2.batchSize = m.batchSize ∧ (m.pollAll is).2.builder.len = m.builder.len ∧
    (m.pollAll is).2.work ≤ m.work ∧ ((m.pollAll is).1 = false → (m.pollAll is).2.work < m.work) ∧
    ((m.pollAll is).2.builder.same = m.builder.same) ∧
    ((m.pollAll is).1 = true → ∀ i < n, (i ∈ is ∨ (cursorAt m.cursors i = none → m.inputs.getD i [] = [])) →
      cursorAt (m.pollAll is).2.cursors i = none → (m.pollAll is).2.inputs.getD i [] = []) := by
  induction is with
  | nil =>
    intro m h _
    simp only [Merge.pollAll]
    exact ⟨h, trivial, trivial, trivial, trivial, Nat.le_refl _, by simp, trivial, fun _ i _ hi => hi.resolve_left (by simp)⟩
  | cons i is ih =>
    intro m h hi
    have hin := hi i List.mem_cons_self
    obtain ⟨p1, p2, p3, p4, p5, p11, p6, p7, p8, p9, p10⟩ := h.poll hin
    rw [Merge.pollAll]
    generalize hz : m.maybePoll i = z at *
    obtain ⟨b, m1⟩ := z
    cases b with
    | false =>
      simp only at *
      exact ⟨p1, p2, p3, p4, p5, p7, fun _ => p8 trivial, p11, by simp⟩
    | true =>
      simp only at *
      obtain ⟨q1, q2, q3, q4, q5, q6, q7, q8, q9⟩ := ih p1 (fun j hj => hi j (List.mem_cons_of_mem _ hj))
      refine ⟨q1, q2.trans p2, q3.trans p3, q4.trans p4, q5.trans p5, Nat.le_trans q6 p7, fun hb => Nat.lt_of_lt_of_le (q7 hb) p7, q8.trans p11, ?_⟩
      intro hb j hj hor
      apply q9 hb j hj
      by_cases hji : j = i
      · subst hji; exact .inr (p9 trivial)
      · rcases hor with hor | hor
        · rcases List.mem_cons.1 hor with e | hor
          · exact absurd e hji
          · exact .inl hor
        · refine .inr ?_
          rw [(p6 j hji).1, (p6 j hji).2]
          exact hor

/-- `prepare` and `adjust` leave a tree that is right for the cursors, or wait for an input. -/
theorem Inv.ready {cols n : Nat} (hn : 1 ≤ n) {S em pulled : List (Row α)} {m : Merge α} (h : Inv cols n S em pulled m) :
    (∃ m1 W, m.prepare = (true, m1) ∧ ∃ m2, m1.adjust = (true, m2) ∧ Core cols n S em pulled m2 ∧ Fresh n m2 W ∧
        m2.batchSize = m.batchSize ∧ m2.builder.len = m.builder.len ∧ m2.work ≤ m.work ∧ m2.adjusted = true ∧ m2.builder.same = m.builder.same) ∨
    (∃ m1, (m.prepare = (false, m1) ∨ ∃ m0, m.prepare = (true, m0) ∧ m0.adjust = (false, m1)) ∧ Inv cols n S em pulled m1 ∧
        m1.batchSize = m.batchSize ∧ m1.builder.len = m.builder.len ∧ m1.work < m.work ∧ m1.builder.same = m.builder.same) ∨
    (m.prepare = (true, m) ∧ m.adjust = (true, m) ∧ m.adjusted = true ∧ cursorAt m.cursors m.winner = none ∧
      m.builder.same = [] ∧ m.builder.len = 0 ∧ pulled = S ∧ em = finish cols (S.foldl (push cols) ([], []))) := by
  cases h with
  | done tree flag top same len all out =>
    right; right
    refine ⟨?_, ?_, flag, top, same, len, all, out⟩
    · unfold Merge.prepare
      rw [if_neg (by simpa using tree)]
    · unfold Merge.adjust
      rw [if_pos flag]
  | start core tree flag =>
    obtain ⟨q1, q2, q3, q4, q5, q6, q7, q8, q9⟩ := core.pollAll (List.range m.inputs.length) (fun i hi => by
      rw [← core.ninp]; exact List.mem_range.1 hi)
    have hprep : m.prepare = match m.pollAll (List.range m.inputs.length) with
        | (false, m) => (false, m)
        | (true, m) => (true, { m with tree := initTree (isGt m.cursors) m.cursors.length, adjusted := true }) := by
      unfold Merge.prepare
      rw [if_pos (by simp [tree])]
      rfl
    generalize hz : m.pollAll (List.range m.inputs.length) = z at *
    obtain ⟨b, m1⟩ := z
    cases b with
    | false =>
      right; left
      simp only at *
      exact ⟨m1, .inl hprep, .start q1 (q2.trans tree) (q3.trans flag), q4, q5, q7 trivial, q8⟩
    | true =>
      left
      simp only at *
      obtain ⟨W, hW⟩ := initTree_good (isGt_true q1.live) (isGt_false q1.live) (n := m1.cursors.length) (by rw [q1.ncur]; exact hn)
      refine ⟨_, W, hprep, _, ?_, core_tree q1 (initTree (isGt m1.cursors) m1.cursors.length) true, ⟨?_, ?_⟩, q4, q5, ?_, rfl, q8⟩
      · unfold Merge.adjust
        rw [if_pos rfl]
      · rw [q1.ncur] at hW
        show Good (cle m1.cursors) n (initTree (isGt m1.cursors) m1.cursors.length) W
        rw [q1.ncur]
        exact hW
      · intro i hi hc
        exact q9 trivial i hi (.inl (List.mem_range.2 (by rw [core.ninp]; exact hi))) hc
      · exact q6
  | taken core W cs tree flag =>
    have hprep : m.prepare = (true, m) := by
      unfold Merge.prepare
      rw [if_neg (by simpa using tree_ne hn tree.good)]
    have hw := winner_eq tree.good
    have hwn : W 1 < n := (tree.good.anc _ 1 rfl (by omega) (by omega)).1
    obtain ⟨p1, p2, p3, p4, p5, p11, p6, p7, p8, p9, p10⟩ := core.poll hwn
    have hadj : m.adjust = match m.maybePoll (W 1) with
        | (false, m) => (false, m)
        | (true, m) =>
          (true, { m with tree := climbUpdate (isGt m.cursors) m.tree (leafNode m.cursors.length m.winner) m.winner, adjusted := true }) := by
      unfold Merge.adjust
      rw [flag, hw]
      rfl
    generalize hz : m.maybePoll (W 1) = z at *
    obtain ⟨b, m1⟩ := z
    cases b with
    | false =>
      right; left
      simp only at *
      refine ⟨m1, .inr ⟨m, hprep, hadj⟩, .taken p1 W cs ⟨by rw [p2]; exact tree.good, ?_, ?_⟩ (p3.trans flag), p4, p5, p8 trivial, p11⟩
      · intro i hi; rw [(p6 i hi).1]; exact tree.agree i hi
      · intro i hi hne; rw [(p6 i hne).1, (p6 i hne).2]; exact tree.ended i hi hne
    | true =>
      left
      simp only at *
      have hagree : ∀ i, i ≠ W 1 → cursorAt cs i = cursorAt m1.cursors i := fun i hi => by rw [(p6 i hi).1]; exact tree.agree i hi
      obtain ⟨W', hW'⟩ := Good.update (le' := cle m1.cursors) (gt := isGt m1.cursors) (isGt_true p1.live) (isGt_false p1.live) hn tree.good (by
        intro a b ha hb hab
        unfold cle hd at *
        rw [hagree a ha, hagree b hb] at hab
        exact hab)
      have hw1 : m1.winner = W 1 := by unfold Merge.winner at *; rw [p2]; exact hw
      refine ⟨m, W', hprep, _, hadj, core_tree p1 _ true, ⟨?_, ?_⟩, p4, p5, p7, rfl, p11⟩
      · show Good (cle m1.cursors) n (climbUpdate (isGt m1.cursors) m1.tree (leafNode m1.cursors.length m1.winner) m1.winner) W'
        rw [hw1, p1.ncur, p2]
        exact hW'
      · intro i hi hc
        by_cases hne : i = W 1
        · rw [hne] at hc ⊢; exact p9 trivial hc
        · have := (p6 i hne)
          show m1.inputs.getD i [] = []
          rw [this.2]
          refine tree.ended i hi hne ?_
          rw [← this.1]; exact hc

end Verif.Reader
