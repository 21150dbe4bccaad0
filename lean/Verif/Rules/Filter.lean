import Verif.Rules.Model
/-!
# Filters that are given to the scan

Property C152: a query returns exactly the rows for which its filters hold.
-/
namespace Verif.Rules

/-! ## Helpers -/

theorem and3_true {a b : Val} : and3 a b = .bool true ↔ a = .bool true ∧ b = .bool true := by
  cases a with
  | null => cases b with
    | null => simp [and3]
    | bool y => cases y <;> simp [and3]
    | int i => simp [and3]
  | bool x => cases x with
    | false => simp [and3]
    | true => cases b with
      | null => simp [and3]
      | bool y => cases y <;> simp [and3]
      | int i => simp [and3]
  | int i => cases b with
    | null => simp [and3]
    | bool y => cases y <;> simp [and3]
    | int i => simp [and3]

theorem or3_true {a b : Val} : or3 a b = .bool true ↔ a = .bool true ∨ b = .bool true := by
  cases a with
  | null => cases b with
    | null => simp [or3]
    | bool y => cases y <;> simp [or3]
    | int i => simp [or3]
  | bool x => cases x with
    | true => simp [or3]
    | false => cases b with
      | null => simp [or3]
      | bool y => cases y <;> simp [or3]
      | int i => simp [or3]
  | int i => cases b with
    | null => simp [or3]
    | bool y => cases y <;> simp [or3]
    | int i => simp [or3]

variable {s : Sem} {row : String → Val}

theorem passes_and {a b : Expr} : passes s row (.and a b) = true ↔ passes s row a = true ∧ passes s row b = true := by
  simp only [passes, decide_eq_true_eq, Expr.eval, and3_true]

theorem passes_or {a b : Expr} : passes s row (.or a b) = true ↔ passes s row a = true ∨ passes s row b = true := by
  simp only [passes, decide_eq_true_eq, Expr.eval, or3_true]

theorem passes_lit : passes s row (.lit (.bool true)) = true := by simp [passes, Expr.eval]

/-- An expression passes if all parts of its conjunction do. -/
theorem passes_split (e : Expr) : passes s row e = true ↔ ∀ m ∈ splitAnd e, passes s row m = true := by
  induction e with
  | and a b iha ihb =>
    rw [passes_and, iha, ihb, splitAnd]
    simp only [List.mem_append]
    exact ⟨fun h m hm => hm.elim (h.1 m) (h.2 m), fun h => ⟨fun m hm => h m (.inl hm), fun m hm => h m (.inr hm)⟩⟩
  | _ => simp [splitAnd]

theorem split_noUdf {e : Expr} (h : e.hasUdf = false) : ∀ m ∈ splitAnd e, m.hasUdf = false := by
  induction e with
  | and a b iha ihb =>
    simp only [Expr.hasUdf, Bool.or_eq_false_iff] at h
    intro m hm
    rw [splitAnd, List.mem_append] at hm
    exact hm.elim (iha h.1 m) (ihb h.2 m)
  | _ => simpa [splitAnd] using h

/-- Without user functions nothing is rewritten. -/
theorem rewrite_noUdf {e : Expr} (h : e.hasUdf = false) : e.rewrite = e := by
  induction e with
  | col n => rfl
  | lit v => rfl
  | udf n a b _ _ => simp [Expr.hasUdf] at h
  | un o a ih => simp only [Expr.hasUdf] at h; rw [Expr.rewrite, ih h]; rfl
  | bin o a b iha ihb =>
    simp only [Expr.hasUdf, Bool.or_eq_false_iff] at h
    rw [Expr.rewrite, iha h.1, ihb h.2]; rfl
  | and a b iha ihb =>
    simp only [Expr.hasUdf, Bool.or_eq_false_iff] at h
    rw [Expr.rewrite, iha h.1, ihb h.2]; simp only [mutate, h.1, h.2]
  | or a b iha ihb =>
    simp only [Expr.hasUdf, Bool.or_eq_false_iff] at h
    rw [Expr.rewrite, iha h.1, ihb h.2]; simp only [mutate, h.1, h.2]

/-- A rewritten conjunction has no user function. -/
theorem mutate_and_noUdf (a b : Expr) : (mutate (.and a b)).hasUdf = false := by
  cases ha : a.hasUdf <;> cases hb : b.hasUdf <;> simp [mutate, Expr.hasUdf, ha, hb]

theorem rewrite_udf {e : Expr} (h : e.rewrite.hasUdf = true) : ∀ m ∈ splitAnd e, m.hasUdf = true := by
  have key : ∀ x : Expr, x.rewrite.hasUdf = true → x.hasUdf = true := by
    intro x hx
    cases hh : x.hasUdf with
    | true => rfl
    | false => rw [rewrite_noUdf hh, hh] at hx; cases hx
  cases e with
  | and a b => rw [Expr.rewrite, mutate_and_noUdf] at h; cases h
  | _ => intro m hm; simp only [splitAnd, List.mem_singleton] at hm; rw [hm]; exact key _ h

/-- A row that passes the rewritten filter passes all parts without user functions. -/
theorem rewrite_keeps {e : Expr} (h : passes s row e.rewrite = true) : ∀ m ∈ splitAnd e, m.hasUdf = false → passes s row m = true := by
  induction e with
  | and a b iha ihb =>
    intro m hm hu
    rw [splitAnd, List.mem_append] at hm
    rw [Expr.rewrite] at h
    cases ha : a.rewrite.hasUdf with
    | false =>
      cases hb : b.rewrite.hasUdf with
      | false =>
        simp only [mutate, ha, hb, passes_and] at h
        exact hm.elim (fun x => iha h.1 m x hu) (fun x => ihb h.2 m x hu)
      | true =>
        simp only [mutate, ha, hb] at h
        refine hm.elim (fun x => iha h m x hu) (fun x => ?_)
        rw [rewrite_udf hb m x] at hu; cases hu
    | true =>
      have hno : m ∉ splitAnd a := fun x => by rw [rewrite_udf ha m x] at hu; cases hu
      cases hb : b.rewrite.hasUdf with
      | false =>
        simp only [mutate, ha, hb] at h
        exact hm.elim (fun x => absurd x hno) (fun x => ihb h m x hu)
      | true =>
        refine hm.elim (fun x => absurd x hno) (fun x => ?_)
        rw [rewrite_udf hb m x] at hu; cases hu
  | _ =>
    intro m hm hu
    simp only [splitAnd, List.mem_singleton] at hm
    subst hm
    rwa [rewrite_noUdf hu] at h

/-! ## The property -/

/-- No `AND` or `OR` within has a user function. -/
def Expr.calm : Expr → Bool
  | .col _ => true
  | .lit _ => true
  | .udf _ a b => a.calm && b.calm
  | .un _ a => a.calm
  | .bin _ a b => a.calm && b.calm
  | .and a b => !a.hasUdf && !b.hasUdf
  | .or a b => !a.hasUdf && !b.hasUdf

/-- `AND` and `OR` with user functions stand only below `AND` and `OR`: not below `IS NOT TRUE`, `NOT`, a comparison, a function. -/
def Expr.plain : Expr → Bool
  | .and a b => a.plain && b.plain
  | .or a b => a.plain && b.plain
  | e => e.calm

theorem rewrite_calm {e : Expr} (h : e.calm = true) : e.rewrite = e := by
  induction e with
  | col n => rfl
  | lit v => rfl
  | udf n a b iha ihb =>
    simp only [Expr.calm, Bool.and_eq_true] at h
    rw [Expr.rewrite, iha h.1, ihb h.2]; rfl
  | un o a ih => rw [Expr.rewrite, ih h]; rfl
  | bin o a b iha ihb =>
    simp only [Expr.calm, Bool.and_eq_true] at h
    rw [Expr.rewrite, iha h.1, ihb h.2]; rfl
  | and a b _ _ => simp only [Expr.calm, Bool.and_eq_true, Bool.not_eq_true'] at h; exact rewrite_noUdf (by simp [Expr.hasUdf, h])
  | or a b _ _ => simp only [Expr.calm, Bool.and_eq_true, Bool.not_eq_true'] at h; exact rewrite_noUdf (by simp [Expr.hasUdf, h])

/-- A row that passes a plain filter passes the rewritten one. -/
theorem rewrite_weaker {e : Expr} (hp : e.plain = true) (h : passes s row e = true) : passes s row e.rewrite = true := by
  induction e with
  | and a b iha ihb =>
    simp only [Expr.plain, Bool.and_eq_true] at hp
    rw [passes_and] at h
    have h1 := iha hp.1 h.1
    have h2 := ihb hp.2 h.2
    rw [Expr.rewrite]
    cases ha : a.rewrite.hasUdf <;> cases hb : b.rewrite.hasUdf <;> simp only [mutate, ha, hb, passes_lit, passes_and, h1, h2, and_self]
  | or a b iha ihb =>
    simp only [Expr.plain, Bool.and_eq_true] at hp
    rw [passes_or] at h
    rw [Expr.rewrite]
    cases ha : a.rewrite.hasUdf <;> cases hb : b.rewrite.hasUdf <;> simp only [mutate, ha, hb, passes_lit]
    rw [passes_or]
    exact h.elim (fun x => .inl (iha hp.1 x)) (fun x => .inr (ihb hp.2 x))
  | _ => rw [rewrite_calm hp]; exact h

/-- What is known of the simplifier of DataFusion: it keeps values, and adds no user functions. -/
structure Simplifies (s : Sem) (simplify : Expr → Expr) : Prop where
  eval : ∀ e row, (simplify e).eval s row = e.eval s row
  udf : ∀ e, (simplify e).hasUdf = true → e.hasUdf = true

/-- Property C152: a query returns exactly the rows for which its filters hold. -/
def C152Full : Prop := ∀ (s : Sem) (cols : List String) (simplify : Expr → Expr) (filters : List Expr) (rows : List (String → Val)),
  Simplifies s simplify → answer s cols simplify filters rows = rows.filter fun r => filters.all (passes s r)

theorem split_conj (l : List Expr) (e : Expr) : splitAnd (l.foldl .and e) = (e :: l).flatMap splitAnd := by
  induction l generalizing e with
  | nil => simp
  | cons x l ih => rw [List.foldl_cons, ih]; simp [splitAnd]

theorem plain_conj (l : List Expr) (e : Expr) (h : ∀ x ∈ e :: l, x.plain = true) : (l.foldl Expr.and e).plain = true := by
  induction l generalizing e with
  | nil => exact h e List.mem_cons_self
  | cons x l ih =>
    rw [List.foldl_cons]
    apply ih
    intro y hy
    rcases List.mem_cons.1 hy with rfl | hy
    · simp only [Expr.plain, Bool.and_eq_true]
      exact ⟨h e (by simp), h x (by simp)⟩
    · exact h y (by simp [hy])

theorem exact_noUdf {cols : List String} {e : Expr} (h : exact cols e = true) : e.hasUdf = false := by
  simp only [exact, Bool.and_eq_true, Bool.not_eq_true'] at h
  exact h.1

theorem splitAnd_some (f : Expr) : ∃ m, m ∈ splitAnd f := by
  induction f with
  | and a b ih _ =>
    obtain ⟨m, hm⟩ := ih
    exact ⟨m, by rw [splitAnd]; exact List.mem_append_left _ hm⟩
  | _ => exact ⟨_, List.mem_singleton.2 rfl⟩

/-- The rows that the scan returns. -/
def scanned (s : Sem) (simplify : Expr → Expr) (filters : List Expr) (rows : List (String → Val)) : List (String → Val) :=
  match rewriteFilters simplify filters with
  | none => rows
  | some e => rows.filter fun r => passes s r e

/-- Rows that the scan returns pass the filters that are left to it. -/
theorem scanned_exact {cols : List String} {simplify : Expr → Expr} {filters : List Expr} {rows : List (String → Val)}
    (hs : Simplifies s simplify) {r : String → Val} (hr : r ∈ scanned s simplify filters rows) :
    r ∈ rows ∧ ∀ f ∈ filters, exact cols f = true → passes s r f = true := by
  cases filters with
  | nil => exact ⟨by simpa [scanned, rewriteFilters, conjunction] using hr, fun f hf => nomatch hf⟩
  | cons e l =>
    have hsimp : ∀ r x, passes s r (simplify x) = passes s r x := fun r x => by simp only [passes, hs.eval]
    have hkeep : passes s r (simplify (l.foldl Expr.and e).rewrite) = true → ∀ f ∈ e :: l, exact cols f = true → passes s r f = true := by
      intro h f hf hx
      rw [hsimp] at h
      rw [passes_split]
      intro m hm
      refine rewrite_keeps h m ?_ (split_noUdf (exact_noUdf hx) m hm)
      rw [split_conj]
      exact List.mem_flatMap.2 ⟨f, hf, hm⟩
    simp only [scanned, rewriteFilters, conjunction] at hr
    by_cases hu : (simplify (l.foldl Expr.and e).rewrite).hasUdf = true
    · rw [if_pos hu] at hr
      refine ⟨hr, fun f hf hx => ?_⟩
      obtain ⟨m, hm⟩ := splitAnd_some f
      have h1 := rewrite_udf (hs.udf _ hu) m (by rw [split_conj]; exact List.mem_flatMap.2 ⟨f, hf, hm⟩)
      rw [split_noUdf (exact_noUdf hx) m hm] at h1
      cases h1
    · rw [if_neg hu] at hr
      by_cases ht : simplify (l.foldl Expr.and e).rewrite = .lit (.bool true)
      · rw [if_pos ht] at hr
        exact ⟨hr, hkeep (by rw [ht]; exact passes_lit)⟩
      · rw [if_neg ht] at hr
        rw [List.mem_filter] at hr
        exact ⟨hr.1, hkeep hr.2⟩

/-- Property C152: whatever the filters, no row is returned for which one of them does not hold. -/
theorem C152_no_more (s : Sem) (cols : List String) (simplify : Expr → Expr) (filters : List Expr) (rows : List (String → Val))
    (hs : Simplifies s simplify) : ∀ r ∈ answer s cols simplify filters rows, r ∈ rows ∧ ∀ f ∈ filters, passes s r f = true := by
  intro r hr
  have hr : r ∈ (scanned s simplify filters rows).filter fun r => filters.all fun e => exact cols e || passes s r e := hr
  rw [List.mem_filter] at hr
  have h := scanned_exact (cols := cols) hs hr.1
  refine ⟨h.1, fun f hf => ?_⟩
  have h2 := List.all_eq_true.1 hr.2 f hf
  rw [Bool.or_eq_true] at h2
  exact h2.elim (h.2 f hf) id

/-- Property C152, partial: if no `AND` or `OR` with a user function stands below something else than `AND` and `OR`, a query returns
exactly the rows for which its filters hold.  Missing: filters in which it does, see `C152_lost_refuted`. -/
theorem C152_rows_partial (s : Sem) (cols : List String) (simplify : Expr → Expr) (filters : List Expr) (rows : List (String → Val))
    (hs : Simplifies s simplify) (hp : ∀ f ∈ filters, f.plain = true) :
    answer s cols simplify filters rows = rows.filter fun r => filters.all (passes s r) := by
  have hweak : ∀ r ∈ rows, (∀ f ∈ filters, passes s r f = true) → ∀ e, rewriteFilters simplify filters = some e → passes s r e = true := by
    intro r _ h x hx
    cases filters with
    | nil => simp [rewriteFilters, conjunction] at hx
    | cons e l =>
      have hpass : passes s r (l.foldl .and e) = true := by
        rw [passes_split, split_conj]
        intro m hm
        obtain ⟨f, hf, hm⟩ := List.mem_flatMap.1 hm
        exact (passes_split f).1 (h f hf) m hm
      have := rewrite_weaker (plain_conj l e hp) hpass
      simp only [rewriteFilters, conjunction] at hx
      split at hx
      · cases hx
      · split at hx
        · cases hx
        · cases hx
          simpa only [passes, hs.eval] using this
  have hans : answer s cols simplify filters rows = (scanned s simplify filters rows).filter fun r => filters.all fun e => exact cols e || passes s r e := rfl
  have hex : ∀ r ∈ scanned s simplify filters rows,
      (filters.all fun e => exact cols e || passes s r e) = filters.all (passes s r) := by
    intro r hr
    rw [Bool.eq_iff_iff, List.all_eq_true, List.all_eq_true]
    refine ⟨fun h f hf => ?_, fun h f hf => by rw [h f hf, Bool.or_true]⟩
    have h2 := h f hf
    rw [Bool.or_eq_true] at h2
    exact h2.elim ((scanned_exact (cols := cols) hs hr).2 f hf) id
  rw [hans, List.filter_congr hex]
  cases hrw : rewriteFilters simplify filters with
  | none => rw [scanned, hrw]
  | some e =>
    rw [scanned, hrw, List.filter_filter]
    apply List.filter_congr
    intro r hr
    rw [Bool.eq_iff_iff, Bool.and_eq_true]
    exact ⟨fun h => h.1, fun h => ⟨h, hweak r hr (fun f hf => List.all_eq_true.1 h f hf) e hrw⟩⟩

/-- Property C152: the filter that the scan gets has no user functions, which the nodes with the data do not know. -/
theorem C152_no_functions {simplify : Expr → Expr} {filters : List Expr} {e : Expr} (h : rewriteFilters simplify filters = some e) :
    e.hasUdf = false := by
  simp only [rewriteFilters] at h
  cases hc : conjunction filters with
  | none => rw [hc] at h; cases h
  | some c =>
    simp only [hc] at h
    split at h
    · cases h
    · rename_i hu
      split at h
      · cases h
      · cases h; simpa using hu

/-- A column of the table, or a column that is cast. -/
inductive Column (cols : List String) : Expr → Prop
  | plain {n : String} (h : n ∈ cols) : Column cols (.col n)
  | cast {n : String} {t : Nat} (h : n ∈ cols) : Column cols (.un (.cast t) (.col n))

/-- Expressions that are left to the scan: comparisons of a column with a constant, except `<>`, and conjunctions of them. -/
inductive Left (cols : List String) : Expr → Prop
  | cmp {o : Bin} {c : Expr} {v : Val} (hc : Column cols c) (ho : o ∈ [Bin.eq, .lt, .le, .gt, .ge]) : Left cols (.bin o c (.lit v))
  | flip {o : Bin} {c : Expr} {v : Val} (hc : Column cols c) (ho : o ∈ [Bin.eq, .lt, .le, .gt, .ge]) : Left cols (.bin o (.lit v) c)
  | and {a b : Expr} (ha : Left cols a) (hb : Left cols b) : Left cols (.and a b)

theorem isColumn_iff {cols : List String} {e : Expr} : isColumn cols e = true ↔ Column cols e := by
  constructor
  · intro h
    unfold isColumn at h
    split at h
    · exact .plain (by simpa using h)
    · exact .cast (by simpa using h)
    · cases h
  · intro h
    cases h with
    | plain h => simpa [isColumn] using h
    | cast h => simpa [isColumn] using h

theorem Column.noUdf {cols : List String} {e : Expr} (h : Column cols e) : e.hasUdf = false := by
  cases h <;> rfl

theorem Left.noUdf {cols : List String} {e : Expr} (h : Left cols e) : e.hasUdf = false := by
  induction h with
  | cmp hc _ => simp [Expr.hasUdf, hc.noUdf]
  | flip hc _ => simp [Expr.hasUdf, hc.noUdf]
  | and _ _ ha hb => simp [Expr.hasUdf, ha, hb]

theorem canExact_left {cols : List String} {e : Expr} (h : canExact cols e = true) : Left cols e := by
  unfold canExact at h
  split at h
  · rename_i o a b
    rw [Bool.and_eq_true, Bool.or_eq_true, Bool.and_eq_true, Bool.and_eq_true] at h
    have ho : o ∈ [Bin.eq, .lt, .le, .gt, .ge] := by
      have := h.2
      cases o <;> simp at this ⊢
    rcases h.1 with h1 | h1
    · cases b with
      | lit v => exact .cmp (isColumn_iff.1 h1.1) ho
      | _ => simp [isLiteral] at h1
    · cases a with
      | lit v => exact .flip (isColumn_iff.1 h1.1) ho
      | _ => simp [isLiteral] at h1
  · cases h

theorem canExact_bin {cols : List String} {o : Bin} {a b : Expr} (ho : o ∈ [Bin.eq, .lt, .le, .gt, .ge])
    (h : (isColumn cols a && isLiteral b || isColumn cols b && isLiteral a) = true) : canExact cols (.bin o a b) = true := by
  simp only [canExact]
  rw [h, Bool.true_and]
  cases o <;> simp at ho ⊢

/-- Property C152: the scan answers for exactly the conjunctions of comparisons of a column with a constant; everything else is
applied again to the rows that it returns. -/
theorem C152_left (cols : List String) (e : Expr) : exact cols e = true ↔ Left cols e := by
  have split : ∀ e : Expr, (splitAnd e).all (canExact cols) = true ↔ Left cols e := by
    intro e
    induction e with
    | and a b iha ihb =>
      rw [splitAnd, List.all_append, Bool.and_eq_true, iha, ihb]
      exact ⟨fun h => .and h.1 h.2, fun h => by cases h with | and h1 h2 => exact ⟨h1, h2⟩⟩
    | bin o a b _ _ =>
      constructor
      · intro h; exact canExact_left (by simpa [splitAnd] using h)
      · intro h
        have : canExact cols (.bin o a b) = true := by
          cases h with
          | cmp hc ho => exact canExact_bin ho (by simp [isColumn_iff.2 hc, isLiteral])
          | flip hc ho => exact canExact_bin ho (by simp [isColumn_iff.2 hc, isLiteral])
        simpa [splitAnd] using this
    | _ =>
      constructor
      · intro h; exact canExact_left (by simpa [splitAnd] using h)
      · intro h; cases h
  unfold exact
  rw [Bool.and_eq_true, split]
  exact ⟨fun h => h.2, fun h => ⟨by rw [h.noUdf]; rfl, h⟩⟩

example : Left ["a", "b"] (.and (.bin .ge (.un (.cast 0) (.col "a")) (.lit (.int 3))) (.bin .eq (.lit (.int 1)) (.col "b"))) :=
  .and (.cmp (.cast (by decide)) (by decide)) (.flip (.plain (by decide)) (by decide))

/-! ## Refutation -/

/-- A user function that says no. -/
def sem : Sem := ⟨fun _ _ _ => .bool false, fun _ v => v, fun _ _ _ => .null⟩

/-- `(f(a) AND b = 1) IS NOT TRUE`. -/
def lostFilter : Expr := .un .isNotTrue (.and (.udf "f" (.col "a") (.col "a")) (.bin .eq (.col "b") (.lit (.int 1))))

/-- A row with `b = 1`. -/
def lostRow : String → Val := fun n => if n = "b" then .int 1 else .int 0

/-- Property C152 does not hold: of a conjunction with a user function the rest is kept, also where that makes the filter stronger:
`(f(a) AND b = 1) IS NOT TRUE` becomes `b = 1 IS NOT TRUE`, and rows with `b = 1` are lost. -/
theorem C152_lost_refuted : ¬ C152Full := by
  intro h
  have := h sem ["a", "b"] id [lostFilter] [lostRow] ⟨fun _ _ => rfl, fun _ h => h⟩
  revert this
  have h1 : ([lostRow].filter fun r => [lostFilter].all (passes sem r)) = [lostRow] := by
    rw [List.filter_cons_of_pos (by decide)]; rfl
  have h2 : answer sem ["a", "b"] id [lostFilter] [lostRow] = [] := by
    have : rewriteFilters id [lostFilter] = some (.un .isNotTrue (.bin .eq (.col "b") (.lit (.int 1)))) := by decide
    simp only [answer, this]
    rw [List.filter_cons_of_neg (by decide)]; rfl
  rw [h1, h2]
  exact fun x => nomatch x

/-- Filters with a user function that are plain (`C152_rows_partial`): `b = 1 AND (f(a) OR a < 0)`. -/
example : ([lostRow, fun _ => .int 1, fun _ => .int (-1)].filter fun r =>
      [Expr.and (.bin .eq (.col "b") (.lit (.int 1))) (.or (.udf "f" (.col "a") (.col "a")) (.bin .eq (.col "a") (.lit (.int 0))))].all (passes sem r)).length = 1 ∧
    (Expr.and (.bin .eq (.col "b") (.lit (.int 1))) (.or (.udf "f" (.col "a") (.col "a")) (.bin .eq (.col "a") (.lit (.int 0))))).plain = true := by
  decide

end Verif.Rules
