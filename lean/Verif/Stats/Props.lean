import Verif.Stats.Order
/-!
# C75: filters rewritten for a file that lacks columns;  C77: skipping column groups
-/
namespace Verif.Stats

/-! ## Three-valued logic -/

theorem and3_true {a b : Option Bool} : and3 a b = some true ↔ a = some true ∧ b = some true := by
  rcases a with _ | _ | _ <;> rcases b with _ | _ | _ <;> simp [and3]

theorem or3_true {a b : Option Bool} : or3 a b = some true ↔ a = some true ∨ b = some true := by
  rcases a with _ | _ | _ <;> rcases b with _ | _ | _ <;> simp [or3]

theorem and3_false {a b : Option Bool} : and3 a b = some false ↔ a = some false ∨ b = some false := by
  rcases a with _ | _ | _ <;> rcases b with _ | _ | _ <;> simp [and3]

theorem or3_false {a b : Option Bool} : or3 a b = some false ↔ a = some false ∧ b = some false := by
  rcases a with _ | _ | _ <;> rcases b with _ | _ | _ <;> simp [or3]

/-! ## C75 -/

/-- Nothing is rewritten inside a function other than `AND` and `OR`. -/
def Tame (file : List Name) : Expr → Prop
  | .and l r => Tame file l ∧ Tame file r
  | .or l r => Tame file l ∧ Tame file r
  | .not e => rewrite file e = e
  | .fn1 _ e => rewrite file e = e
  | .fn2 _ l r => rewrite file l = l ∧ rewrite file r = r
  | _ => True

theorem rewrite_weaker {q : FloatCmp} {file : List Name} {row : Row} :
    ∀ e : Expr, Tame file e → eval q row e = some true → eval q row (rewrite file e) = some true := by
  intro e
  induction e with
  | and l r ihl ihr =>
    intro ht h
    obtain ⟨h1, h2⟩ := and3_true.1 h
    have e1 := ihl ht.1 h1
    have e2 := ihr ht.2 h2
    unfold rewrite mutateAnd
    split
    · exact and3_true.2 ⟨e1, e2⟩
    · rfl
    · exact e2
    · exact e1
  | or l r ihl ihr =>
    intro ht h
    unfold rewrite mutateOr
    split
    · rcases or3_true.1 h with h | h
      · exact or3_true.2 (.inl (ihl ht.1 h))
      · exact or3_true.2 (.inr (ihr ht.2 h))
    · rfl
  | not e _ => intro ht h; unfold rewrite; rw [ht]; exact h
  | fn1 f e _ => intro ht h; unfold rewrite; rw [ht]; exact h
  | fn2 f l r _ _ => intro ht h; unfold rewrite; rw [ht.1, ht.2]; exact h
  | lit b => intro _ h; exact h
  | col c => intro _ h; exact h
  | cmp op c v => intro _ h; exact h
  | inList n c vs => intro _ h; exact h
  | leaf cs f => intro _ h; exact h

theorem lacks_false {file : List Name} {e : Expr} : lacks file e = false ↔ ∀ c ∈ e.cols, c ∈ file := by
  simp [lacks]

theorem rewrite_cols (file : List Name) : ∀ e : Expr, ∀ c ∈ (rewrite file e).cols, c ∈ e.cols := by
  intro e
  induction e with
  | and l r ihl ihr =>
    intro c hc
    unfold rewrite mutateAnd at hc
    simp only [Expr.cols, List.mem_append]
    split at hc
    · rcases List.mem_append.1 hc with hc | hc
      · exact .inl (ihl c hc)
      · exact .inr (ihr c hc)
    · cases hc
    · exact .inr (ihr c hc)
    · exact .inl (ihl c hc)
  | or l r ihl ihr =>
    intro c hc
    unfold rewrite mutateOr at hc
    simp only [Expr.cols, List.mem_append]
    split at hc
    · rcases List.mem_append.1 hc with hc | hc
      · exact .inl (ihl c hc)
      · exact .inr (ihr c hc)
    · cases hc
  | not e ih => exact ih
  | fn1 f e ih => exact ih
  | fn2 f l r ihl ihr =>
    intro c hc
    simp only [rewrite, Expr.cols, List.mem_append] at hc ⊢
    rcases hc with hc | hc
    · exact .inl (ihl c hc)
    · exact .inr (ihr c hc)
  | lit b => intro c hc; exact hc
  | col c => intro c hc; exact hc
  | cmp op c v => intro c hc; exact hc
  | inList n c vs => intro c hc; exact hc
  | leaf cs f => intro c hc; exact hc

/-- The value of a filter depends on its columns only. -/
theorem eval_congr {q : FloatCmp} {r r' : Row} : ∀ e : Expr, (∀ c ∈ e.cols, r c = r' c) → eval q r e = eval q r' e := by
  intro e
  induction e with
  | lit b => intro _; rfl
  | col c => intro h; simp only [eval, h c (by simp [Expr.cols])]
  | cmp op c v => intro h; simp only [eval, h c (by simp [Expr.cols])]
  | inList n c vs => intro h; simp only [eval, h c (by simp [Expr.cols])]
  | leaf cs f =>
    intro h
    simp only [eval]
    refine congrArg f (funext fun c => ?_)
    by_cases hc : c ∈ cs
    · rw [if_pos hc, if_pos hc, h c hc]
    · rw [if_neg hc, if_neg hc]
  | and l r ihl ihr =>
    intro h
    simp only [eval, ihl fun c hc => h c (List.mem_append_left _ hc), ihr fun c hc => h c (List.mem_append_right _ hc)]
  | or l r ihl ihr =>
    intro h
    simp only [eval, ihl fun c hc => h c (List.mem_append_left _ hc), ihr fun c hc => h c (List.mem_append_right _ hc)]
  | not e ih => intro h; simp only [eval, ih h]
  | fn1 f e ih => intro h; simp only [eval, ih h]
  | fn2 f l r ihl ihr =>
    intro h
    simp only [eval, ihl fun c hc => h c (List.mem_append_left _ hc), ihr fun c hc => h c (List.mem_append_right _ hc)]

/-- **C75** (the rewritten filter can be evaluated): it only mentions columns of the file, so that its
value for a row is determined by the columns read from the file. -/
theorem C75_columns (q : FloatCmp) (full file : List Name) (pred e' : Expr) (h : reassign full file (some pred) = some (some e')) :
    (∀ c ∈ e'.cols, c ∈ file) ∧ ∀ row : Row, eval q row e' = eval q (fun c => if c ∈ file then row c else none) e' := by
  have h1 : ∀ c ∈ e'.cols, c ∈ file := by
    simp only [reassign] at h
    split at h
    · cases h
    · simp only [Option.some.injEq] at h
      split at h
      · cases h
      · rename_i h2
        cases h
        exact lacks_false.1 (by simpa using h2)
  refine ⟨h1, fun row => eval_congr e' fun c hc => ?_⟩
  simp [h1 c hc]

/-- **C75**, for filters in which nothing is rewritten inside a function other than `AND` and `OR`: every
row of a file for which the filter is true passes the filter as rewritten for the file.  (Without the
condition this is false, `C75_function_refuted`.) -/
theorem C75_no_row_lost_partial (q : FloatCmp) (full file : List Name) (pred : Expr) (ht : Tame file pred)
    (hc : ∀ c ∈ pred.cols, c ∈ full) (rows : List Row) :
    ∃ out, dataFilter q full file pred rows = some out ∧ out.Sublist rows ∧ ∀ r ∈ rows, eval q r pred = some true → r ∈ out := by
  have h0 : lacks (file ++ full) pred = false := lacks_false.2 fun c h => List.mem_append_right _ (hc c h)
  unfold dataFilter reassign
  dsimp only
  rw [if_neg (by simp [h0])]
  by_cases h1 : lacks file (rewrite file pred) = true
  · rw [if_pos h1]
    exact ⟨rows, rfl, List.Sublist.refl _, fun r hr _ => hr⟩
  · rw [if_neg h1]
    refine ⟨_, rfl, List.filter_sublist, fun r hr he => List.mem_filter.2 ⟨hr, ?_⟩⟩
    simp [rewrite_weaker pred ht he]

/-- **C75**: when the file has all the columns, the filter is unchanged. -/
theorem C75_all_columns (q : FloatCmp) (full file : List Name) (pred : Expr) (hc : ∀ c ∈ pred.cols, c ∈ file) (rows : List Row) :
    dataFilter q full file pred rows = some (rows.filter fun r => decide (eval q r pred = some true)) := by
  have hrw : ∀ e : Expr, (∀ c ∈ e.cols, c ∈ file) → rewrite file e = e := by
    intro e
    induction e with
    | and l r ihl ihr =>
      intro h
      have a := ihl fun c hc => h c (List.mem_append_left _ hc)
      have b := ihr fun c hc => h c (List.mem_append_right _ hc)
      have a' := lacks_false.2 fun c hc => h c (List.mem_append_left _ hc)
      have b' := lacks_false.2 fun c hc => h c (List.mem_append_right _ hc)
      simp only [rewrite, a, b, mutateAnd, a', b']
    | or l r ihl ihr =>
      intro h
      have a := ihl fun c hc => h c (List.mem_append_left _ hc)
      have b := ihr fun c hc => h c (List.mem_append_right _ hc)
      have a' := lacks_false.2 fun c hc => h c (List.mem_append_left _ hc)
      have b' := lacks_false.2 fun c hc => h c (List.mem_append_right _ hc)
      simp only [rewrite, a, b, mutateOr, a', b']
    | not e ih => intro h; simp only [rewrite, ih h]
    | fn1 f e ih => intro h; simp only [rewrite, ih h]
    | fn2 f l r ihl ihr =>
      intro h
      simp only [rewrite, ihl fun c hc => h c (List.mem_append_left _ hc), ihr fun c hc => h c (List.mem_append_right _ hc)]
    | lit b => intro _; rfl
    | col c => intro _; rfl
    | cmp op c v => intro _; rfl
    | inList n c vs => intro _; rfl
    | leaf cs f => intro _; rfl
  have h0 : lacks (file ++ full) pred = false := lacks_false.2 fun c h => List.mem_append_left _ (hc c h)
  simp only [dataFilter, reassign, h0, hrw pred hc, lacks_false.2 hc]
  rfl

/-- Columns `time`, `a`, `c` (the last one not in the file). -/
def nTime : Name := [116]
def nA : Name := [97]
def nC : Name := [99]

/-- `c = 1 AND a > 5` and `a > 5 OR c = 1`. -/
def exAnd : Expr := .and (.cmp .eq nC (some (.int 1))) (.cmp .gt nA (some (.int 5)))

/-- Witness for `C75_no_row_lost_partial`: the filter is rewritten to `a > 5`, the file has a row that passes. -/
example : Tame [nTime, nA] exAnd ∧ rewrite [nTime, nA] exAnd = .cmp .gt nA (some (.int 5)) ∧
    eval .ieee (fun c => if c = nA then some (.int 7) else if c = nC then some (.int 1) else none) exAnd = some true :=
  ⟨⟨trivial, trivial⟩, rfl, by decide⟩

/-- `x IS NOT TRUE`. -/
def isNotTrue (x : Option Bool) : Option Bool := some (decide (x ≠ some true))

/-- `(c IS NOT NULL AND a > 5) IS NOT TRUE`. -/
def exNot : Expr := .fn1 isNotTrue (.and (.leaf [nC] fun r => some (r nC).isSome) (.cmp .gt nA (some (.int 5))))

/-- A row of a file without column `c`. -/
def exRow : Row := fun c => if c = nA then some (.int 7) else if c = nTime then some (.int 1) else none

/-- **C75 is false**: in a file without column `c` the filter `(c IS NOT NULL AND a > 5) IS NOT TRUE`, true for
every row of the file, is rewritten to `(a > 5) IS NOT TRUE`, and the rows with `a > 5` are lost. -/
theorem C75_function_refuted (q : FloatCmp) :
    (∀ c, c ∉ [nTime, nA] → exRow c = none) ∧ eval q exRow exNot = some true ∧
      dataFilter q [nTime, nA, nC] [nTime, nA] exNot [exRow] = some [] := by
  refine ⟨?_, ?_, ?_⟩
  · intro c hc
    simp at hc
    simp [exRow, hc]
  · cases q <;> decide
  · have : eval q exRow (.fn1 isNotTrue (.cmp .gt nA (some (.int 5)))) = some false := by cases q <;> decide
    have e : reassign [nTime, nA, nC] [nTime, nA] (some exNot) = some (some (.fn1 isNotTrue (.cmp .gt nA (some (.int 5))))) := by
      rfl
    simp only [dataFilter, e, Option.map_some, List.filter, this]
    rfl

/-! ## C77 -/

section
variable {q : FloatCmp} {v l : Val} {lo hi : Option Val}

theorem compare_true {op : Op} {a : Val} {w : Option Val} (h : compare q op (some a) w = some true) :
    ∃ b, w = some b ∧ sameKind a b = true ∧ op.on q a b = true := by
  cases w with
  | none => cases h
  | some b =>
    refine ⟨b, rfl, ?_⟩
    unfold compare at h
    dsimp only at h
    split at h
    · rename_i hs; exact ⟨hs, by simpa using h⟩
    · cases h

theorem compare_false {op : Op} {x y : Option Val} (h : compare q op x y = some false) :
    ∃ a b, x = some a ∧ y = some b ∧ op.on q a b = false := by
  cases x with
  | none => cases h
  | some a =>
    cases y with
    | none => cases h
    | some b =>
      refine ⟨a, b, rfl, rfl, ?_⟩
      unfold compare at h
      dsimp only at h
      split at h
      · simpa using h
      · cases h

/-- The pruning condition of a comparison that is true for a value within the bounds is not false. -/
theorem pruneCmp_sound {op : Op} {w : Option Val} (hlo : ∀ m, lo = some m → le q m v = true) (hhi : ∀ m, hi = some m → le q v m = true)
    (h : compare q op (some v) w = some true) : pruneCmp q op lo hi w ≠ some false := by
  obtain ⟨b, rfl, hs, hb⟩ := compare_true h
  intro hf
  cases op <;> simp only [pruneCmp, Op.on] at hf hb
  · rcases and3_false.1 hf with hf | hf <;> obtain ⟨x, y, e1, e2, hxy⟩ := compare_false hf
    · cases e2
      have := le_trans (hlo x e1) (le_of_eq hb)
      simp_all [Op.on]
    · cases e1
      have := le_trans (le_of_eq' hb) (hhi y e2)
      simp_all [Op.on]
  · obtain ⟨h1, h2⟩ := or3_false.1 hf
    obtain ⟨x, y, e1, e2, hxy⟩ := compare_false h1
    obtain ⟨x', y', e1', e2', hxy'⟩ := compare_false h2
    cases e2; cases e1'
    simp only [Op.on, Bool.not_eq_false'] at hxy hxy'
    have a := le_trans (le_of_eq' hxy) (hlo x e1)
    have c := le_trans (hhi y' e2') (le_of_eq' hxy')
    rw [le_antisymm c a] at hb
    cases hb
  · obtain ⟨x, y, e1, e2, hxy⟩ := compare_false hf
    cases e2
    have := le_lt_trans (hlo x e1) hb
    simp_all [Op.on]
  · obtain ⟨x, y, e1, e2, hxy⟩ := compare_false hf
    cases e2
    have := le_trans (hlo x e1) hb
    simp_all [Op.on]
  · obtain ⟨x, y, e1, e2, hxy⟩ := compare_false hf
    cases e2
    have := lt_le_trans hb (hhi x e1)
    simp_all [Op.on]
  · obtain ⟨x, y, e1, e2, hxy⟩ := compare_false hf
    cases e2
    have := le_trans hb (hhi x e1)
    simp_all [Op.on]

end

/-- The statistics say nothing about booleans. -/
def Loose (lo hi : Name → Option Val) : Prop :=
  ∀ c, (lo c = none ∨ ∀ b, lo c = some (.bool b) → b = false) ∧ (hi c = none ∨ ∀ b, hi c = some (.bool b) → b = true)

/-- The row is within the bounds. -/
def RowWithin (q : FloatCmp) (lo hi : Name → Option Val) (row : Row) : Prop :=
  ∀ c v, row c = some v → (∀ m, lo c = some m → le q m v = true) ∧ (∀ m, hi c = some m → le q v m = true)

theorem foldl_or3_not_false {l : List (Option Bool)} {a : Option Bool} (h : a ≠ some false ∨ ∃ x ∈ l, x ≠ some false) :
    l.foldl or3 a ≠ some false := by
  induction l generalizing a with
  | nil => rcases h with h | ⟨x, hx, _⟩; · exact h
           · cases hx
  | cons y ys ih =>
    apply ih
    rcases h with h | ⟨x, hx, hn⟩
    · left; intro hf; exact h (or3_false.1 hf).1
    · rcases List.mem_cons.1 hx with rfl | hx
      · left; intro hf; exact hn (or3_false.1 hf).2
      · exact .inr ⟨x, hx, hn⟩

theorem foldl_and3_not_false {l : List (Option Bool)} {a : Option Bool} (ha : a ≠ some false) (h : ∀ x ∈ l, x ≠ some false) :
    l.foldl and3 a ≠ some false := by
  induction l generalizing a with
  | nil => exact ha
  | cons y ys ih =>
    apply ih
    · intro hf
      rcases and3_false.1 hf with hf | hf
      · exact ha hf
      · exact h y (List.mem_cons_self ..) hf
    · exact fun x hx => h x (List.mem_cons_of_mem _ hx)

theorem prune_rewrite {q : FloatCmp} {lo hi : Name → Option Val} {row : Row} {file : List Name}
    (hl : Loose lo hi) (hw : RowWithin q lo hi row) :
    ∀ e : Expr, eval q row e = some true → prune q lo hi (rewrite file e) ≠ some false := by
  intro e
  induction e with
  | lit b => intro h hf; simp [rewrite, prune] at hf
  | col c =>
    intro h hf
    simp only [rewrite, prune] at hf
    obtain ⟨_, h2⟩ := or3_false.1 hf
    rcases (hl c).2 with h3 | h3
    · rw [h3] at h2; cases h2
    · cases he : hi c with
      | none => rw [he] at h2; cases h2
      | some x => cases x <;> rw [he] at h2 <;> simp [asBool] at h2
                  subst h2; exact absurd (h3 _ he) (by decide)
  | cmp op c v =>
    intro h
    simp only [rewrite, prune, eval] at h ⊢
    cases he : row c with
    | none => rw [he] at h; cases v <;> cases h
    | some x => rw [he] at h; exact pruneCmp_sound (hw c x he).1 (hw c x he).2 h
  | inList n c vs =>
    intro h
    simp only [rewrite, prune, eval] at h ⊢
    cases he : row c with
    | none => rw [he] at h; cases h
    | some x =>
      rw [he] at h
      simp only [Option.bind_some] at h
      split at h
      · rename_i hs
        have hs' : ∀ v ∈ vs, sameKind x v = true := by simpa using hs
        split
        · simp
        · cases n with
          | true =>
            simp only [if_true] at h ⊢
            have hn : ∀ v ∈ vs, eq q x v = false := by simpa using h
            refine foldl_and3_not_false (by simp) ?_
            intro y hy
            obtain ⟨v, hv, rfl⟩ := List.mem_map.1 hy
            refine pruneCmp_sound (hw c x he).1 (hw c x he).2 ?_
            simp [compare, Op.on, hs' v hv, hn v hv]
          | false =>
            simp only [Bool.false_eq_true, if_false] at h ⊢
            have hn : ∃ v ∈ vs, eq q x v = true := by simpa using h
            obtain ⟨v, hv, hev⟩ := hn
            refine foldl_or3_not_false (.inr ⟨_, List.mem_map.2 ⟨v, hv, rfl⟩, ?_⟩)
            refine pruneCmp_sound (hw c x he).1 (hw c x he).2 ?_
            simp [compare, Op.on, hs' v hv, hev]
      · cases h
  | leaf cs f => intro h hf; simp [rewrite, prune] at hf
  | and l r ihl ihr =>
    intro h
    obtain ⟨h1, h2⟩ := and3_true.1 h
    unfold rewrite mutateAnd
    split
    · intro hf
      rcases and3_false.1 hf with hf | hf
      · exact ihl h1 hf
      · exact ihr h2 hf
    · simp [prune]
    · exact ihr h2
    · exact ihl h1
  | or l r ihl ihr =>
    intro h
    unfold rewrite mutateOr
    split
    · intro hf
      obtain ⟨h3, h4⟩ := or3_false.1 hf
      rcases or3_true.1 h with h | h
      · exact ihl h h3
      · exact ihr h h4
    · simp [prune]
  | not e _ =>
    intro _
    unfold rewrite
    generalize rewrite file e = e'
    cases e' with
    | col c =>
      intro hf
      simp only [prune, not3, Option.map_eq_some_iff] at hf
      obtain ⟨b, hb, hb'⟩ := hf
      have : b = true := by simpa using hb'
      subst this
      obtain ⟨h1, _⟩ := and3_true.1 hb
      rcases (hl c).1 with h3 | h3
      · rw [h3] at h1; cases h1
      · cases he : lo c with
        | none => rw [he] at h1; cases h1
        | some x => cases x <;> rw [he] at h1 <;> simp [asBool] at h1
                    subst h1; exact absurd (h3 _ he) (by decide)
    | _ => simp [prune]
  | fn1 f e _ => intro _ hf; simp [rewrite, prune] at hf
  | fn2 f l r _ _ => intro _ hf; simp [rewrite, prune] at hf

/-- A page with its values, written by a flush or a compaction. -/
structure PageData where
  name : Name
  kind : Page.Kind
  vals : List kind.Val
  compacted : Bool

/-- What is known of the page. -/
def PageData.meta (p : PageData) : PageMeta :=
  ⟨p.name, p.kind, if p.compacted then compactStat p.kind p.vals else flushStat p.kind p.vals⟩

/-- The float values are such that statistics can be trusted: no NaN, and no negative zero if the query
engine tells the zeros apart. -/
def Trusted (q : FloatCmp) : (k : Page.Kind) → List k.Val → Prop
  | .float, vals => ∀ v ∈ vals, PlainOne q v
  | _, _ => True

/-- A row of a column group: each value is in the page of its column (a deleted value is NULL). -/
def RowOf (cg : List PageData) (row : Row) : Prop :=
  ∀ c v, row c = some v → ∃ p ∈ cg, p.name = c ∧ ∃ x ∈ p.vals, v = cell p.kind x

theorem within_page {q : FloatCmp} (utf8 : List Byte → Bool) (p : PageData) (ht : Trusted q p.kind p.vals) :
    ∀ x ∈ p.vals, Within q utf8 p.meta.stat (cell p.kind x) := by
  obtain ⟨n, k, vals, comp⟩ := p
  intro x hx
  unfold PageData.meta
  cases comp <;> cases k
  · exact within_int q utf8 vals x hx
  · exact within_int q utf8 vals x hx
  · exact within_uint q utf8 vals x hx
  · exact within_float utf8 ht x hx
  · exact within_bool_flush q utf8 vals x
  · exact within_str_flush q utf8 vals x hx
  · exact within_int q utf8 vals x hx
  · exact within_int q utf8 vals x hx
  · exact within_uint q utf8 vals x hx
  · exact within_float utf8 ht x hx
  · exact ⟨fun m hm => (by cases hm), fun m hm => (by cases hm)⟩
  · exact within_str_compact q utf8 vals x hx

theorem loose_page (utf8 : List Byte → Bool) (p : PageData) :
    (∀ b, p.meta.stat.lower utf8 = some (.bool b) → b = false) ∧ (∀ b, p.meta.stat.upper utf8 = some (.bool b) → b = true) := by
  obtain ⟨n, k, vals, comp⟩ := p
  unfold PageData.meta
  cases comp <;> cases k <;> constructor <;> intro b hb <;>
    simp [flushStat, compactStat, PageStat.lower, PageStat.upper, bounds] at hb
  · have := foldl_bump_bool vals
    rw [← hb, this]
  · have := foldl_bump_bool vals
    rw [← hb, this]

theorem statAt_some {get : PageStat → Option Val} {cgs : List (List PageMeta)} {i : Nat} {c : Name} {m : Val}
    (h : statAt get cgs i c = some m) : ∃ cg p, cgs[i]? = some cg ∧ findPage cg c = some p ∧ get p.stat = some m := by
  unfold statAt at h
  cases hs : statValues get cgs c with
  | none => rw [hs] at h; cases h
  | some vs =>
    rw [hs] at h
    dsimp only at h
    unfold statValues at hs
    split at hs
    · cases hs
    · rename_i p hp
      dsimp only at hs
      split at hs
      · cases hs
        rw [List.getElem?_map] at h
        cases hi : cgs[i]? with
        | none => rw [hi] at h; cases h
        | some cg =>
          rw [hi] at h
          simp only [Option.map_some, Option.join_some] at h
          cases hf : findPage cg c with
          | none => rw [hf] at h; cases h
          | some p' => rw [hf] at h; exact ⟨cg, p', rfl, hf, h⟩
      · cases hs

/-- Finding the page of a column. -/
theorem findPage_unique {cg : List PageData} (hn : (cg.map (·.name)).Nodup) {p : PageData} (hp : p ∈ cg) {m : PageMeta}
    (h : findPage (cg.map PageData.meta) p.name = some m) : m = p.meta := by
  induction cg with
  | nil => cases hp
  | cons x xs ih =>
    simp only [List.map_cons, List.nodup_cons] at hn
    unfold findPage at h ih
    rw [List.map_cons, List.find?_cons] at h
    by_cases he : x.name = p.name
    · have : x = p := by
        rcases List.mem_cons.1 hp with rfl | hp
        · rfl
        · exact absurd (List.mem_map.2 ⟨p, hp, he.symm⟩) hn.1
      subst this
      simp [PageData.meta] at h
      exact h.symm
    · rcases List.mem_cons.1 hp with rfl | hp
      · exact absurd rfl he
      · have e : decide (x.meta.name = p.name) = false := decide_eq_false he
        rw [e] at h
        exact ih hn.2 hp h

theorem findPage_mem {cg : List PageData} {c : Name} {m : PageMeta} (h : findPage (cg.map PageData.meta) c = some m) :
    ∃ p ∈ cg, p.meta = m ∧ p.name = c := by
  have h1 := List.mem_of_find?_eq_some h
  have h2 := List.find?_some h
  obtain ⟨p, hp, rfl⟩ := List.mem_map.1 h1
  exact ⟨p, hp, rfl, of_decide_eq_true h2⟩

/-- **C77** (indices), for columns whose float values have no NaN: a column group that holds a row for
which the filter is true is kept. -/
theorem C77_kept_partial (q : FloatCmp) (utf8 : List Byte → Bool) (full : List Name) (cgs : List (List PageData)) (pred : Expr)
    (hn : ∀ cg ∈ cgs, (cg.map (·.name)).Nodup) (ht : ∀ cg ∈ cgs, ∀ p ∈ cg, Trusted q p.kind p.vals)
    (hc : ∀ c ∈ pred.cols, c ∈ full) :
    ∃ ks, keepIndices q utf8 full (cgs.map (·.map PageData.meta)) (some pred) = some ks ∧
      ∀ ks' : List Bool, ks = some ks' → ks'.length = cgs.length ∧
        ∀ (i : Nat) cg row, cgs[i]? = some cg → RowOf cg row → eval q row pred = some true → ks'[i]? = some true := by
  have h0 : lacks (chunkSchema (cgs.map (·.map PageData.meta)) ++ full) pred = false :=
    lacks_false.2 fun c h => List.mem_append_right _ (hc c h)
  unfold keepIndices reassign
  dsimp only
  rw [if_neg (by simp [h0])]
  refine ⟨_, rfl, ?_⟩
  intro ks' hk
  split at hk
  · cases hk
  · simp only [Option.map_some, Option.some.injEq] at hk
    subst hk
    refine ⟨by simp, ?_⟩
    intro i cg row hi hrow he
    have hlt : i < cgs.length := by
      rcases Nat.lt_or_ge i cgs.length with h | h
      · exact h
      · rw [List.getElem?_eq_none h] at hi; cases hi
    have hcg : cg ∈ cgs := List.mem_of_getElem? hi
    rw [List.getElem?_map, List.getElem?_range (by simpa using hlt)]
    simp only [Option.map_some, Option.some.injEq, Bool.not_eq_true', decide_eq_false_iff_not]
    refine prune_rewrite ?_ ?_ pred he
    · intro c
      constructor <;> right <;> intro b hb <;> obtain ⟨cg', m, h1, h2, h3⟩ := statAt_some hb <;>
        rw [List.getElem?_map, hi] at h1 <;> cases h1 <;> obtain ⟨p, _, rfl, _⟩ := findPage_mem h2
      · exact (loose_page utf8 p).1 b h3
      · exact (loose_page utf8 p).2 b h3
    · intro c v hv
      obtain ⟨p, hp, rfl, x, hx, rfl⟩ := hrow c v hv
      have hwi := within_page utf8 p (ht cg hcg p hp) x hx
      constructor <;> intro m hm <;> obtain ⟨cg', pm, h1, h2, h3⟩ := statAt_some hm <;>
        rw [List.getElem?_map, hi] at h1 <;> cases h1 <;> rw [findPage_unique (hn cg hcg) hp h2] at h3
      · exact hwi.1 m h3
      · exact hwi.2 m h3

theorem mem_zip_filter {α : Type} {ks : List Bool} {l : List α} {i : Nat} {a : α} (h1 : ks[i]? = some true) (h2 : l[i]? = some a) :
    a ∈ ((ks.zip l).filter (·.1)).map (·.2) := by
  refine List.mem_map.2 ⟨(true, a), List.mem_filter.2 ⟨?_, rfl⟩, rfl⟩
  apply List.mem_of_getElem? (i := i)
  rw [List.getElem?_zip_eq_some]
  exact ⟨h1, h2⟩

theorem zip_filter_sublist {α : Type} (ks : List Bool) (l : List α) : (((ks.zip l).filter (·.1)).map (·.2)).Sublist l := by
  induction l generalizing ks with
  | nil => simp
  | cons a l ih =>
    cases ks with
    | nil => simp
    | cons k ks =>
      cases k
      · simpa using (ih ks).cons a
      · simpa using (ih ks)

/-- **C77**, for columns whose float values have no NaN: skipping column groups by their statistics never
skips a column group that holds a row for which the filter is true. -/
theorem C77_no_row_skipped_partial (q : FloatCmp) (utf8 : List Byte → Bool) (full : List Name) (cgs : List (List PageData))
    (pred : Expr) (hn : ∀ cg ∈ cgs, (cg.map (·.name)).Nodup) (ht : ∀ cg ∈ cgs, ∀ p ∈ cg, Trusted q p.kind p.vals)
    (hc : ∀ c ∈ pred.cols, c ∈ full) :
    ∃ out, filterGroups q utf8 full (cgs.map (·.map PageData.meta)) (some pred) = some out ∧
      out.Sublist (cgs.map (·.map PageData.meta)) ∧
      ∀ cg ∈ cgs, ∀ row, RowOf cg row → eval q row pred = some true → cg.map PageData.meta ∈ out := by
  obtain ⟨ks, h1, h2⟩ := C77_kept_partial q utf8 full cgs pred hn ht hc
  unfold filterGroups
  rw [h1]
  cases ks with
  | none => exact ⟨_, rfl, List.Sublist.refl _, fun cg hcg _ _ _ => List.mem_map.2 ⟨cg, hcg, rfl⟩⟩
  | some ks' =>
    refine ⟨_, rfl, zip_filter_sublist _ _, ?_⟩
    intro cg hcg row hrow he
    obtain ⟨i, hi⟩ := List.mem_iff_getElem?.1 hcg
    refine mem_zip_filter ((h2 ks' rfl).2 i cg row hi hrow he) ?_
    rw [List.getElem?_map, hi]; rfl

/-- Two column groups: `a` is 1 and 2 in the first, 8 and 9 in the second. -/
def exGroups : List (List PageData) :=
  [[⟨nTime, .time, [1#64, 2#64], false⟩, ⟨nA, .int, [1#64, 2#64], false⟩],
   [⟨nTime, .time, [3#64, 4#64], true⟩, ⟨nA, .int, [8#64, 9#64], true⟩]]

/-- Witness for `C77_no_row_skipped_partial`: for `a > 5` the first column group is skipped, the second, which
holds a row with `a = 8`, is kept. -/
example : (∀ cg ∈ exGroups, (cg.map (·.name)).Nodup) ∧
    (keepIndices .ieee (fun _ => true) [nTime, nA] (exGroups.map (·.map PageData.meta)) (some (.cmp .gt nA (some (.int 5#64)))) =
      some (some [false, true])) ∧
    RowOf (exGroups.getD 1 []) (fun c => if c = nA then some (.int 8#64) else none) ∧
    eval .ieee (fun c => if c = nA then some (.int 8#64) else none) (.cmp .gt nA (some (.int 5#64))) = some true := by
  refine ⟨by decide +kernel, by decide +kernel, ?_, by decide +kernel⟩
  intro c v h
  dsimp only at h
  by_cases hc : c = nA
  · rw [if_pos hc] at h
    cases h
    exact ⟨⟨nA, .int, [8#64, 9#64], true⟩, by simp [exGroups], hc.symm, 8#64, List.mem_cons_self .., rfl⟩
  · rw [if_neg hc] at h; cases h

/-- A column group whose column `a` holds 1.0 and NaN. -/
def exNan (compacted : Bool) : List PageData :=
  [⟨nTime, .time, [1#64, 2#64], compacted⟩, ⟨nA, .float, [0x3ff0000000000000#64, 0x7ff8000000000000#64], compacted⟩]

/-- The second row of that column group. -/
def exNanRow : Row := fun c => if c = nTime then some (.int 2#64) else if c = nA then some (.float 0x7ff8000000000000#64) else none

/-- **C77 is false** for NaN: by the statistics all values of `a` are 1.0, hence the column group is skipped for
the filter `a != 1.0`, although it is true for the row with NaN, whichever way the query engine compares floats. -/
theorem C77_nan_refuted (q : FloatCmp) (utf8 : List Byte → Bool) (compacted : Bool) :
    RowOf (exNan compacted) exNanRow ∧ eval q exNanRow (.cmp .ne nA (some (.float 0x3ff0000000000000#64))) = some true ∧
      filterGroups q utf8 [nTime, nA] [(exNan compacted).map PageData.meta] (some (.cmp .ne nA (some (.float 0x3ff0000000000000#64)))) =
        some [] := by
  refine ⟨?_, ?_, ?_⟩
  · intro c v h
    unfold exNanRow at h
    split at h
    · rename_i hc
      cases h
      exact ⟨⟨nTime, .time, [1#64, 2#64], compacted⟩, by simp [exNan], hc.symm, 2#64, List.mem_cons_of_mem _ (List.mem_cons_self ..), rfl⟩
    · split at h
      · rename_i hc
        cases h
        exact ⟨⟨nA, .float, [0x3ff0000000000000#64, 0x7ff8000000000000#64], compacted⟩, by simp [exNan], hc.symm,
          0x7ff8000000000000#64, List.mem_cons_of_mem _ (List.mem_cons_self ..), rfl⟩
      · cases h
  · cases q <;> decide +kernel
  · cases q <;> cases compacted <;> rfl

/-- **C77 is false** for the negative zero, if the query engine compares floats by their total order: the statistics
of -0.0, 0.0 are -0.0 and -0.0, and the column group is skipped for `a > -0.0`. -/
theorem C77_zero_refuted (utf8 : List Byte → Bool) :
    let cg : List PageData := [⟨nTime, .time, [1#64, 2#64], false⟩, ⟨nA, .float, [0x8000000000000000#64, 0#64], false⟩]
    let row : Row := fun c => if c = nA then some (.float 0#64) else none
    RowOf cg row ∧ eval .total row (.cmp .gt nA (some (.float 0x8000000000000000#64))) = some true ∧
      filterGroups .total utf8 [nTime, nA] [cg.map PageData.meta] (some (.cmp .gt nA (some (.float 0x8000000000000000#64)))) =
        some [] := by
  refine ⟨?_, by decide +kernel, rfl⟩
  intro c v h
  dsimp only at h
  by_cases hc : c = nA
  · rw [if_pos hc] at h
    cases h
    exact ⟨⟨nA, .float, [0x8000000000000000#64, 0#64], false⟩, by simp, hc.symm, 0#64, List.mem_cons_of_mem _ (List.mem_cons_self ..), rfl⟩
  · rw [if_neg hc] at h; cases h

end Verif.Stats
