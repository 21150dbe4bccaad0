import Verif.Predicate.VisitorLemmas
import Mathlib.Data.List.Induction
/-!
# Properties of value filters and filter push-down (C13, C14, C56)

`Filt.Holds`, `eval`/`Sat`, `Domain.Mem` and `Accepts` (all in `Visitor`) are the specification.
-/
namespace Verif.Predicate

variable {α : Type} [LinearOrder α]

/-! ## C13 -/

/-- All compared values have type `t`, and booleans are compared with `=` or `<>` only. -/
def Filt.Typed (t : CTy) : Filt α → Prop
  | .cmp op v => v.ty = t ∧ opFits op v
  | .and l r => l.Typed t ∧ r.Typed t
  | .or l r => l.Typed t ∧ r.Typed t

def Filt.OrFree : Filt α → Prop
  | .cmp _ _ => True
  | .and l r => l.OrFree ∧ r.OrFree
  | .or _ _ => False

/-- No value is compared both strictly (`<`, `>`, `<>`) and inclusively (`<=`, `>=`, `=`): `K` tells
which values are compared strictly. -/
def Filt.Consistent (K : α → Prop) : Filt α → Prop
  | .cmp op v => opCons K op v
  | .and l r => l.Consistent K ∧ r.Consistent K
  | .or l r => l.Consistent K ∧ r.Consistent K

theorem Filt.domain_ok {t : CTy} (f : Filt α) (h : f.Typed t) : DomOk t f.domain := by
  induction f with
  | cmp op v => rw [← h.1]; exact domOf_ok op v
  | and l r ihl ihr => exact Domain.inter_ok (ihr h.2) (ihl h.1)
  | or l r ihl ihr => exact Domain.union_ok (ihr h.2) (ihl h.1)

theorem Filt.domain_cons {t : CTy} {K : α → Prop} (f : Filt α) (h : f.Typed t)
    (hc : f.Consistent K) : DomCons K f.domain := by
  induction f with
  | cmp op v => exact domOf_cons op v hc
  | and l r ihl ihr =>
    exact Domain.inter_cons (r.domain_ok h.2) (l.domain_ok h.1) (ihr h.2 hc.2) (ihl h.1 hc.1)
  | or l r ihl ihr =>
    exact Domain.union_cons (r.domain_ok h.2) (l.domain_ok h.1) (ihr h.2 hc.2) (ihl h.1 hc.1)

/-- C13 is false as stated: `x < 5 OR x <= 5` holds for 5, but its domain does not contain 5. -/
theorem C13_filter_sound_refuted :
    ∃ (f : Filt Nat) (x : Sc Nat), f.Typed x.ty ∧ f.Holds x ∧ ¬ f.domain.Mem (some x) := by
  refine ⟨.or (.cmp .lt (.ord 0 5)) (.cmp .le (.ord 0 5)), .ord 0 5, ?_, ?_, ?_⟩
  · exact ⟨⟨rfl, trivial⟩, ⟨rfl, trivial⟩⟩
  · right; show scCmp _ _ _ = some true; decide
  · have : Filt.domain (.or (.cmp .lt (.ord 0 5)) (.cmp .le (.ord 0 5)) : Filt Nat) =
        .range 0 [⟨.neg, .at 5 .below⟩] := by decide +kernel
    rw [this]
    simp [Domain.Mem, Range.Mem, Marker.admitsAbove, Marker.admitsBelow]

/-- … and booleans lose values as well: `b <= true` holds for `true`. -/
theorem C13_boolean_order_refuted :
    ∃ (f : Filt Nat) (b : Bool), f.Holds (.bool b) ∧ ¬ f.domain.Mem (some (.bool b)) :=
  ⟨.cmp .le (.bool true), true, by simp [Filt.Holds, scCmp], by simp [Filt.domain, domOf, Domain.Mem]⟩

/-- **C13, part proved (1)**: without OR, every value satisfying the condition is in the domain. -/
theorem C13_and_sound_partial {t : CTy} (f : Filt α) (h : f.Typed t) (hf : f.OrFree) (x : Sc α)
    (hx : f.Holds x) : f.domain.Mem (some x) := by
  induction f with
  | cmp op v => exact (domOf_mem op v x h.2).2 hx
  | and l r ihl ihr =>
    exact Domain.inter_sound (r.domain_ok h.2) (l.domain_ok h.1) (ihr h.2 hf.2 hx.2)
      (ihl h.1 hf.1 hx.1)
  | or l r ihl ihr => exact hf.elim

/-- **C13, part proved (2)**: with AND and OR, if no value is compared both strictly and inclusively,
the domain contains exactly the values satisfying the condition.  Missing: conditions that mix the
two, where the claim is false. -/
theorem C13_filter_exact_partial {t : CTy} {K : α → Prop} (f : Filt α) (h : f.Typed t)
    (hc : f.Consistent K) (x : Sc α) : f.domain.Mem (some x) ↔ f.Holds x := by
  induction f with
  | cmp op v => exact domOf_mem op v x h.2
  | and l r ihl ihr =>
    have h1 := l.domain_ok h.1
    have h2 := r.domain_ok h.2
    simp only [Filt.domain, Filt.Holds, ← ihl h.1 hc.1, ← ihr h.2 hc.2]
    constructor
    · intro hm
      exact (Domain.inter_upper h2 h1 (r.domain_cons h.2 hc.2) (l.domain_cons h.1 hc.1) hm).symm
    · intro hm
      exact Domain.inter_sound h2 h1 hm.2 hm.1
  | or l r ihl ihr =>
    have h1 := l.domain_ok h.1
    have h2 := r.domain_ok h.2
    simp only [Filt.domain, Filt.Holds, ← ihl h.1 hc.1, ← ihr h.2 hc.2]
    rw [Domain.union_exact h2 h1 (r.domain_cons h.2 hc.2) (l.domain_cons h.1 hc.1)]
    exact Or.comm

/-- `(x > 3 AND x < 8) OR x = 10`. -/
example : (Filt.or (.and (.cmp .gt (.ord 0 3)) (.cmp .lt (.ord 0 8))) (.cmp .eq (.ord 0 10)) :
    Filt Nat).Typed (.ord 0) ∧
    (Filt.or (.and (.cmp .gt (.ord 0 3)) (.cmp .lt (.ord 0 8))) (.cmp .eq (.ord 0 10)) :
    Filt Nat).Consistent (fun v => v = 3 ∨ v = 8) := by
  simp [Filt.Typed, Filt.Consistent, Sc.ty, opFits, opCons, CmpOp.strict]

/-! ## C14 -/

/-- Comparison operands the visitor does not turn into stack entries. -/
def Operand : Expr α → Prop
  | .col _ | .lit _ | .cast _ _ | .silent _ => True
  | _ => False

/-- A cast around a column keeps the column's type. -/
def CastFits (T : Nat → CTy) : Expr α → Prop
  | .cast ty (.col c) => T c = .ord ty
  | _ => True

/-- The WHERE clauses of the positive part: comparison operands are columns, literals, casts or
functions, a column is compared with literals of its own type. -/
def WhereOk (T : Nat → CTy) : Expr α → Prop
  | .cmp op l r => Operand l ∧ Operand r ∧ CastFits T l ∧ CastFits T r ∧
      ∀ c op' v, nscOf l op r = some (c, op', v) → v.ty = T c ∧ opFits op' v
  | .and l r => WhereOk T l ∧ WhereOk T r
  | .or l r => WhereOk T l ∧ WhereOk T r
  | _ => True

def OrFree : Expr α → Prop
  | .and l r => OrFree l ∧ OrFree r
  | .or _ _ => False
  | _ => True

/-- Per column, no value is compared both strictly and inclusively. -/
def Consistent (K : Nat → α → Prop) : Expr α → Prop
  | .cmp op l r => ∀ c op' v, nscOf l op r = some (c, op', v) → opCons (K c) op' v
  | .and l r => Consistent K l ∧ Consistent K r
  | .or l r => Consistent K l ∧ Consistent K r
  | _ => True

/-- Column values have the column's type; casting a value to its own type changes nothing. -/
structure RowOk (T : Nat → CTy) (ρ : Row α) : Prop where
  col : ∀ c v, ρ.col c = some v → v.ty = T c
  cast : ∀ ty v, v.ty = .ord ty → ρ.cast ty v = some v

/-- Every leaf of the AND/OR tree pushes one entry. -/
def Full : Expr α → Bool
  | .cmp _ _ _ | .not _ | .arith _ | .unsup _ => true
  | .and l r => Full l && Full r
  | .or l r => Full l && Full r
  | _ => false

/-- The domain of a tree all of whose leaves push. -/
def domFull : Expr α → ColumnDomains α
  | .cmp op l r => cmpDomains l op r
  | .and l r => ColumnDomains.inter (domFull r) (domFull l)
  | .or l r => ColumnDomains.union (domFull r) (domFull l)
  | _ => ColumnDomains.all

theorem visit_operand {e : Expr α} (h : Operand e) (s : List (ColumnDomains α)) : visit e s = s := by
  cases e <;> first | rfl | exact h.elim

theorem visit_full {T : Nat → CTy} (e : Expr α) (h : WhereOk T e) (hf : Full e = true)
    (s : List (ColumnDomains α)) : visit e s = domFull e :: s := by
  induction e generalizing s with
  | cmp op l r => simp only [visit, visit_operand h.1, visit_operand h.2.1, domFull]
  | and l r ihl ihr =>
    simp only [Full, Bool.and_eq_true] at hf
    simp only [visit, ihl h.1 hf.1, ihr h.2 hf.2, domFull]
  | or l r ihl ihr =>
    simp only [Full, Bool.and_eq_true] at hf
    simp only [visit, ihl h.1 hf.1, ihr h.2 hf.2, domFull]
  | not e _ => rfl
  | arith k => rfl
  | unsup k => rfl
  | _ => cases hf

theorem visit_len_le {T : Nat → CTy} (e : Expr α) (h : WhereOk T e) (hf : ¬ Full e = true)
    (s : List (ColumnDomains α)) : (visit e s).length ≤ s.length := by
  induction e generalizing s with
  | cmp op l r => exact absurd rfl hf
  | not e _ => exact absurd rfl hf
  | arith k => exact absurd rfl hf
  | unsup k => exact absurd rfl hf
  | col c => exact le_refl _
  | lit c => exact le_refl _
  | cast c e _ => exact le_refl _
  | silent c => exact le_refl _
  | and l r ihl ihr =>
    have key : (visit r (visit l s)).length ≤ s.length + 1 := by
      by_cases hl : Full l = true
      · rw [visit_full l h.1 hl]
        have hr : ¬ Full r = true := by intro hr; exact hf (by simp [Full, hl, hr])
        exact ihr h.2 hr _
      · have h1 := ihl h.1 hl s
        by_cases hr : Full r = true
        · rw [visit_full r h.2 hr]; simpa using h1
        · have := ihr h.2 hr (visit l s)
          omega
    simp only [visit]
    split
    · rename_i d1 d2 t heq
      rw [heq] at key
      simp only [List.length_cons] at key ⊢
      omega
    · simp
  | or l r ihl ihr =>
    have key : (visit r (visit l s)).length ≤ s.length + 1 := by
      by_cases hl : Full l = true
      · rw [visit_full l h.1 hl]
        have hr : ¬ Full r = true := by intro hr; exact hf (by simp [Full, hl, hr])
        exact ihr h.2 hr _
      · have h1 := ihl h.1 hl s
        by_cases hr : Full r = true
        · rw [visit_full r h.2 hr]; simpa using h1
        · have := ihr h.2 hr (visit l s)
          omega
    simp only [visit]
    split
    · rename_i d1 d2 t heq
      rw [heq] at key
      simp only [List.length_cons] at key ⊢
      omega
    · simp

theorem scCmp_reverse (op : CmpOp) (x y : Sc α) : scCmp op x y = scCmp (reverseOp op) y x := by
  cases x with
  | ord t x =>
    cases y with
    | ord t' y =>
      simp only [scCmp]
      by_cases h : t = t'
      · rw [if_pos h, if_pos h.symm]
        cases op <;> simp [ordCmp, reverseOp, eq_comm]
      · rw [if_neg h, if_neg (fun h' => h h'.symm)]
    | bool b => rfl
  | bool a =>
    cases y with
    | ord t y => rfl
    | bool b => cases op <;> cases a <;> cases b <;> rfl

/-- What a true comparison says about its column. -/
theorem nsc_sat {T : Nat → CTy} {ρ : Row α} (hρ : RowOk T ρ) {l r : Expr α} {op : CmpOp}
    (hl : CastFits T l) (hr : CastFits T r) {c : Nat} {op' : CmpOp} {v : Sc α}
    (h : nscOf l op r = some (c, op', v)) :
    Sat ρ (.cmp op l r) ↔ ∃ x, ρ.col c = some x ∧ scCmp op' x v = some true := by
  have unc : ∀ ty c, T c = .ord ty → (ρ.col c).bind (ρ.cast ty) = ρ.col c := by
    intro ty c hc
    cases hx : ρ.col c with
    | none => rfl
    | some x => exact hρ.cast ty x (by rw [hρ.col c x hx, hc])
  have fwd : ∀ (o : Option (Sc α)) (op : CmpOp) (v : Sc α),
      (o.bind fun x => (some v).bind fun y => (scCmp op x y).map (Sc.bool (α := α))) =
        some (Sc.bool true) ↔ ∃ x, o = some x ∧ scCmp op x v = some true := by
    intro o op v
    cases o with
    | none => simp
    | some x =>
      simp only [Option.bind_some, Option.map_eq_some_iff, Sc.bool.injEq, exists_eq_right,
        Option.some.injEq, exists_eq_left']
  have bwd : ∀ (o : Option (Sc α)) (op : CmpOp) (v : Sc α),
      ((some v).bind fun x => o.bind fun y => (scCmp op x y).map (Sc.bool (α := α))) =
        some (Sc.bool true) ↔ ∃ x, o = some x ∧ scCmp (reverseOp op) x v = some true := by
    intro o op v
    cases o with
    | none => simp
    | some x =>
      simp only [Option.bind_some, Option.map_eq_some_iff, Sc.bool.injEq, exists_eq_right,
        Option.some.injEq, exists_eq_left', scCmp_reverse op v x]
  unfold nscOf at h
  unfold Sat
  split at h
  · cases h; simp only [eval]; exact fwd _ _ _
  · cases h; simp only [eval]; exact bwd _ _ _
  · cases h; simp only [eval]; rw [unc _ _ hl]; exact fwd _ _ _
  · cases h; simp only [eval]; rw [unc _ _ hr]; exact bwd _ _ _
  · cases h

theorem cmpDomains_ok {T : Nat → CTy} {op : CmpOp} {l r : Expr α} (h : WhereOk T (.cmp op l r)) :
    CdOk T (cmpDomains l op r) := by
  unfold cmpDomains
  split
  · rename_i c op' v hn
    intro m hm e he
    cases hm
    rw [List.mem_singleton.1 he]
    show DomOk (T c) _
    rw [← (h.2.2.2.2 c op' v hn).1]
    exact domOf_ok op' v
  · exact cdAll_ok T

theorem cmpDomains_cons {K : Nat → α → Prop} {op : CmpOp} {l r : Expr α}
    (h : Consistent K (.cmp op l r)) : CdCons K (cmpDomains l op r) := by
  unfold cmpDomains
  split
  · rename_i c op' v hn
    intro m hm e he
    cases hm
    rw [List.mem_singleton.1 he]
    exact domOf_cons op' v (h c op' v hn)
  · exact cdAll_cons K

theorem of_accepts {ρ : Row α} {c : Nat} {op : CmpOp} {v : Sc α} (hf : opFits op v) :
    Accepts (ColumnDomains.of c (domOf op v)) ρ ↔
      ∃ x, ρ.col c = some x ∧ scCmp op x v = some true := by
  have : Accepts (ColumnDomains.of c (domOf op v)) ρ ↔ (domOf op v).Mem (ρ.col c) := by
    unfold Accepts ColumnDomains.of
    simp
  rw [this]
  cases hx : ρ.col c with
  | none =>
    simp only [reduceCtorEq, false_and, exists_false, iff_false]
    cases v with
    | ord ty v =>
      unfold domOf
      rw [ofRangeList_mem, range_mem]
      simp
    | bool b => simp [domOf, Domain.Mem]
  | some x =>
    rw [domOf_mem op v x hf]
    simp

theorem cmpDomains_sound {T : Nat → CTy} {ρ : Row α} (hρ : RowOk T ρ) {op : CmpOp} {l r : Expr α}
    (h : WhereOk T (.cmp op l r)) (hs : Sat ρ (.cmp op l r)) : Accepts (cmpDomains l op r) ρ := by
  unfold cmpDomains
  split
  · rename_i c op' v hn
    rw [of_accepts (h.2.2.2.2 c op' v hn).2]
    exact (nsc_sat hρ h.2.2.1 h.2.2.2.1 hn).1 hs
  · exact cdAll_accepts ρ

theorem sat_and {ρ : Row α} {l r : Expr α} : Sat ρ (.and l r) ↔ Sat ρ l ∧ Sat ρ r := by
  unfold Sat
  simp only [eval, Option.map_eq_some_iff, Sc.bool.injEq, exists_eq_right]
  have hb : ∀ o : Option (Sc α), asBool o = some true ↔ o = some (.bool true) := by
    intro o
    rcases o with _ | o
    · simp [asBool]
    · cases o <;> simp [asBool]
  rw [← hb, ← hb]
  rcases asBool (eval ρ l) with _ | a <;> rcases asBool (eval ρ r) with _ | b <;>
    (try cases a) <;> (try cases b) <;> simp [and3]

theorem sat_or {ρ : Row α} {l r : Expr α} : Sat ρ (.or l r) ↔ Sat ρ l ∨ Sat ρ r := by
  unfold Sat
  simp only [eval, Option.map_eq_some_iff, Sc.bool.injEq, exists_eq_right]
  have hb : ∀ o : Option (Sc α), asBool o = some true ↔ o = some (.bool true) := by
    intro o
    rcases o with _ | o
    · simp [asBool]
    · cases o <;> simp [asBool]
  rw [← hb, ← hb]
  rcases asBool (eval ρ l) with _ | a <;> rcases asBool (eval ρ r) with _ | b <;>
    (try cases a) <;> (try cases b) <;> simp [or3]

theorem domFull_ok {T : Nat → CTy} (e : Expr α) (h : WhereOk T e) : CdOk T (domFull e) := by
  induction e with
  | cmp op l r => exact cmpDomains_ok h
  | and l r ihl ihr => exact cdInter_ok (ihr h.2) (ihl h.1)
  | or l r ihl ihr => exact cdUnion_ok (ihr h.2) (ihl h.1)
  | _ => exact cdAll_ok T

theorem domFull_cons {T : Nat → CTy} {K : Nat → α → Prop} (e : Expr α) (h : WhereOk T e)
    (hc : Consistent K e) : CdCons K (domFull e) := by
  induction e with
  | cmp op l r => exact cmpDomains_cons hc
  | and l r ihl ihr =>
    exact cdInter_cons (domFull_ok r h.2) (domFull_ok l h.1) (ihr h.2 hc.2) (ihl h.1 hc.1)
  | or l r ihl ihr =>
    exact cdUnion_cons (domFull_ok r h.2) (domFull_ok l h.1) (ihr h.2 hc.2) (ihl h.1 hc.1)
  | _ => exact cdAll_cons K

theorem domFull_sound {T : Nat → CTy} {K : Nat → α → Prop} {ρ : Row α} (hρ : RowOk T ρ)
    (e : Expr α) (h : WhereOk T e) (hc : OrFree e ∨ Consistent K e) (hs : Sat ρ e) :
    Accepts (domFull e) ρ := by
  induction e with
  | cmp op l r => exact cmpDomains_sound hρ h hs
  | and l r ihl ihr =>
    rw [sat_and] at hs
    refine cdInter_sound (domFull_ok r h.2) (domFull_ok l h.1) (ihr h.2 ?_ hs.2) (ihl h.1 ?_ hs.1)
    · exact hc.imp (fun h => h.2) (fun h => h.2)
    · exact hc.imp (fun h => h.1) (fun h => h.1)
  | or l r ihl ihr =>
    rcases hc with hc | hc
    · exact hc.elim
    · rw [sat_or] at hs
      refine cdUnion_sound (domFull_ok r h.2) (domFull_ok l h.1) (domFull_cons r h.2 hc.2)
        (domFull_cons l h.1 hc.1) ?_
      rcases hs with hs | hs
      · exact Or.inr (ihl h.1 (Or.inr hc.1) hs)
      · exact Or.inl (ihr h.2 (Or.inr hc.2) hs)
  | _ => exact cdAll_accepts ρ

/-- **C14, part proved**: if comparison operands are columns, literals, casts or functions, each
column is compared with literals of its own type (booleans by `=`, `<>`), and either there is no OR or
no column is compared with the same value both strictly and inclusively, then every row satisfying the
WHERE clause passes the extracted filter.  NOT, LIKE, IN, … and functions may appear anywhere in the
AND/OR tree.  Missing: the cases refuted below. -/
theorem C14_pushdown_sound_partial {T : Nat → CTy} {K : Nat → α → Prop} {ρ : Row α}
    (hρ : RowOk T ρ) (e : Expr α) (h : WhereOk T e) (hc : OrFree e ∨ Consistent K e)
    (hs : Sat ρ e) : Accepts (exprToDomains e) ρ := by
  unfold exprToDomains
  by_cases hf : Full e = true
  · rw [visit_full e h hf]
    exact domFull_sound hρ e h hc hs
  · have := visit_len_le e h hf []
    have : visit e [] = [] := List.eq_nil_of_length_eq_zero (by simpa using this)
    rw [this]
    exact cdAll_accepts ρ

/-- `(c1 < 5 AND NOT f) OR (CAST(c1) >= 9 AND LIKE)`: hypotheses are satisfiable. -/
example :
    let e : Expr Nat := .or (.and (.cmp .lt (.col 1) (.lit (some (.ord 0 5)))) (.not (.silent 3)))
      (.and (.cmp .le (.lit (some (.ord 0 9))) (.cast 0 (.col 1))) (.unsup 4))
    WhereOk (fun _ => .ord 0) e ∧ Consistent (fun _ v => v = 5) e ∧ Full e = true := by
  refine ⟨?_, ?_, rfl⟩
  · simp [WhereOk, Operand, CastFits, nscOf, Sc.ty, opFits]
  · simp [Consistent, nscOf, opCons, CmpOp.strict, reverseOp]

def row1 (f : Nat → Option (Sc Nat)) : Row Nat :=
  ⟨f, fun ty v => match v with
      | .ord t x => if t = ty then some v else some (.ord ty x)
      | v => some v,
    fun _ => some (.ord 0 9), fun _ => none, fun _ => none⟩

/-- C14 is false as stated (1): `c1 < 5 OR c1 <= 5` with `c1 = 5`. -/
theorem C14_mixed_bounds_refuted : ∃ (e : Expr Nat) (ρ : Row Nat),
    RowOk (fun _ => .ord 0) ρ ∧ WhereOk (fun _ => .ord 0) e ∧ Sat ρ e ∧
    ¬ Accepts (exprToDomains e) ρ := by
  refine ⟨.or (.cmp .lt (.col 1) (.lit (some (.ord 0 5)))) (.cmp .le (.col 1) (.lit (some (.ord 0 5)))),
    row1 (fun _ => some (.ord 0 5)), ⟨?_, ?_⟩, ?_, ?_, ?_⟩
  · rintro c v h; cases h; rfl
  · rintro ty v h; cases v with
    | ord t x => cases h; simp [row1]
    | bool b => cases h
  · simp [WhereOk, Operand, CastFits, nscOf, Sc.ty, opFits]
  · unfold Sat; decide
  · have : exprToDomains (.or (.cmp .lt (.col 1) (.lit (some (.ord 0 5))))
        (.cmp .le (.col 1) (.lit (some (.ord 0 5)))) : Expr Nat) =
        some [(1, .range 0 [⟨.neg, .at 5 .below⟩])] := by decide +kernel
    rw [this]
    simp [Accepts, Domain.Mem, Range.Mem, Marker.admitsAbove, Marker.admitsBelow, row1]

/-- C14 is false as stated (2): an arithmetic operand inside a comparison leaves a stray entry on the
stack, and the operands of the enclosing AND/OR are misaligned:
`c1 < 3 OR (c1 > 10 AND (a + 1 > 5 AND c1 > 5))` with `c1 = 1`. -/
theorem C14_arithmetic_refuted : ∃ (e : Expr Nat) (ρ : Row Nat),
    Sat ρ e ∧ ¬ Accepts (exprToDomains e) ρ := by
  refine ⟨.or (.cmp .lt (.col 1) (.lit (some (.ord 0 3))))
    (.and (.cmp .gt (.col 1) (.lit (some (.ord 0 10))))
      (.and (.cmp .gt (.arith 0) (.lit (some (.ord 0 5))))
        (.cmp .gt (.col 1) (.lit (some (.ord 0 5)))))),
    row1 (fun _ => some (.ord 0 1)), by unfold Sat; decide, ?_⟩
  have : exprToDomains (.or (.cmp .lt (.col 1) (.lit (some (.ord 0 3))))
    (.and (.cmp .gt (.col 1) (.lit (some (.ord 0 10))))
      (.and (.cmp .gt (.arith 0) (.lit (some (.ord 0 5))))
        (.cmp .gt (.col 1) (.lit (some (.ord 0 5)))))) : Expr Nat) =
      some [(1, .range 0 [⟨.at 5 .above, .pos⟩])] := by decide +kernel
  rw [this]
  simp [Accepts, Domain.Mem, Range.Mem, Marker.admitsAbove, Marker.admitsBelow, row1]

/-- C14 is false as stated (3): comparing two comparisons: `(c1 > 5) = (c2 > 3)` with both false. -/
theorem C14_nested_comparison_refuted : ∃ (e : Expr Nat) (ρ : Row Nat),
    Sat ρ e ∧ ¬ Accepts (exprToDomains e) ρ := by
  refine ⟨.and (.cmp .ge (.col 3) (.lit (some (.ord 0 0))))
      (.cmp .eq (.cmp .gt (.col 1) (.lit (some (.ord 0 5)))) (.cmp .gt (.col 2) (.lit (some (.ord 0 3))))),
    row1 (fun _ => some (.ord 0 1)), by unfold Sat; decide, ?_⟩
  have : exprToDomains (.and (.cmp .ge (.col 3) (.lit (some (.ord 0 0))))
      (.cmp .eq (.cmp .gt (.col 1) (.lit (some (.ord 0 5))))
        (.cmp .gt (.col 2) (.lit (some (.ord 0 3))))) : Expr Nat) =
      some [(2, .range 0 [⟨.at 3 .above, .pos⟩])] := by decide +kernel
  rw [this]
  simp [Accepts, Domain.Mem, Range.Mem, Marker.admitsAbove, Marker.admitsBelow, row1]

/-- C14 is false as stated (4): a cast to another type: `CAST(c1 AS t1) > 1 AND c1 < 10`. -/
theorem C14_cast_refuted : ∃ (e : Expr Nat) (ρ : Row Nat),
    Sat ρ e ∧ ¬ Accepts (exprToDomains e) ρ := by
  refine ⟨.and (.cmp .gt (.cast 1 (.col 1)) (.lit (some (.ord 1 1))))
      (.cmp .lt (.col 1) (.lit (some (.ord 0 10)))),
    row1 (fun _ => some (.ord 0 5)), by unfold Sat; decide, ?_⟩
  have : exprToDomains (.and (.cmp .gt (.cast 1 (.col 1)) (.lit (some (.ord 1 1))))
      (.cmp .lt (.col 1) (.lit (some (.ord 0 10)))) : Expr Nat) = some [(1, .none)] := by
    decide +kernel
  rw [this]
  simp [Accepts, Domain.Mem]

/-! ## C56: DELETE … WHERE -/

/-- The rows a DELETE removes: those passing both the tag and the time domains. -/
def Deletes (e : Expr α) (ρ : Row α) : Prop :=
  ∃ tg tm, delDomains e = some (tg, tm) ∧ Accepts tg ρ ∧ Accepts tm ρ

/-- All entries on the stacks are well typed and accept the row. -/
def StackOk (T : Nat → CTy) (ρ : Row α) (s : DelCtx α) : Prop :=
  (∀ d ∈ s.tag, CdOk T d ∧ Accepts d ρ) ∧ (∀ d ∈ s.time, CdOk T d ∧ Accepts d ρ)

/-- Literal types of all comparisons in a DELETE condition fit; casts occur around columns only. -/
def DelOk (T : Nat → CTy) : Expr α → Prop
  | .cmp op l r => CastFits T l ∧ CastFits T r ∧
      ∀ c op' v, nscOf l op r = some (c, op', v) → v.ty = T c ∧ opFits op' v
  | .and l r => DelOk T l ∧ DelOk T r
  | .cast _ (.col _) => True
  | .cast _ _ => False
  | _ => True

theorem inter2_ok {T : Nat → CTy} {ρ : Row α} {l l' : List (ColumnDomains α)}
    (h : ∀ d ∈ l, CdOk T d ∧ Accepts d ρ) (hl : inter2 l = some l') :
    ∀ d ∈ l', CdOk T d ∧ Accepts d ρ := by
  match l, hl with
  | d1 :: d2 :: t, hl =>
    cases hl
    intro d hd
    have h1 := h d1 (by simp)
    have h2 := h d2 (by simp)
    rcases List.mem_cons.1 hd with rfl | hd
    · exact ⟨cdInter_ok h1.1 h2.1, cdInter_sound h1.1 h2.1 h1.2 h2.2⟩
    · exact h d (by simp [hd])

theorem top2_ok {T : Nat → CTy} {ρ : Row α} {s s' : DelCtx α} (h : StackOk T ρ s)
    (hs : s.top2 = some s') : StackOk T ρ s' := by
  unfold DelCtx.top2 at hs
  split at hs
  · split at hs
    · split at hs
      · obtain ⟨l, hl, rfl⟩ := Option.map_eq_some_iff.1 hs
        exact ⟨h.1, inter2_ok h.2 hl⟩
      · obtain ⟨l, hl, rfl⟩ := Option.map_eq_some_iff.1 hs
        exact ⟨inter2_ok h.1 hl, h.2⟩
    · cases hs; exact h
  · cases hs; exact h

theorem push_ok {T : Nat → CTy} {ρ : Row α} {s : DelCtx α} (h : StackOk T ρ s)
    {d : ColumnDomains α} (hd : CdOk T d ∧ Accepts d ρ) (t : Bool) : StackOk T ρ (s.push d t) := by
  unfold DelCtx.push
  split
  · refine ⟨h.1, ?_⟩
    intro x hx
    rcases List.mem_cons.1 hx with rfl | hx
    · exact hd
    · exact h.2 x hx
  · refine ⟨?_, h.2⟩
    intro x hx
    rcases List.mem_cons.1 hx with rfl | hx
    · exact hd
    · exact h.1 x hx

/-- An accepted comparison leaves its operands' stack alone and pushes at most its own domain. -/
theorem delVisit_cmp {op : CmpOp} {l r : Expr α} {s s' : DelCtx α}
    (hv : delVisit (.cmp op l r) s = some s') :
    match nscOf l op r with
    | some (c, op', v) => s' = s.push (ColumnDomains.of c (domOf op' v)) (decide (c = 0))
    | none => s' = s := by
  simp only [delVisit, Option.bind_eq_some_iff] at hv
  obtain ⟨s1, h1, s2, h2, hv⟩ := hv
  have fin : s2 = s → ∀ b : Bool, (if b = true then
        (match nscOf l op r with
        | some (c, op', v) => some (s2.push (ColumnDomains.of c (domOf op' v)) (decide (c = 0)))
        | none => some s2)
      else none) = some s' → (match nscOf l op r with
    | some (c, op', v) => s' = s.push (ColumnDomains.of c (domOf op' v)) (decide (c = 0))
    | none => s' = s) := by
    rintro rfl b hb
    cases b
    · cases hb
    · rw [if_pos rfl] at hb
      revert hb
      cases nscOf l op r with
      | none => intro h; cases h; rfl
      | some p => obtain ⟨c, op', v⟩ := p; intro h; cases h; rfl
  split at hv
  · cases h1; cases h2; exact fin rfl true hv
  · cases h1; cases h2; exact fin rfl true hv
  · cases h1; cases h2; exact fin rfl true hv
  · cases h1; cases h2; exact fin rfl true hv
  · cases hv

theorem delVisit_ok {T : Nat → CTy} {ρ : Row α} (hρ : RowOk T ρ) (e : Expr α) (h : DelOk T e)
    (he : Sat ρ e) {s s' : DelCtx α}
    (hs : StackOk T ρ s) (hv : delVisit e s = some s') : StackOk T ρ s' := by
  induction e generalizing s s' with
  | col c => cases hv; exact hs
  | lit v => cases hv; exact hs
  | cast ty e ih =>
    cases e with
    | col c => cases hv; exact hs
    | _ => exact h.elim
  | cmp op l r ihl ihr =>
    have := delVisit_cmp hv
    obtain ⟨h1, h2, h3⟩ := h
    revert this
    cases hn : nscOf l op r with
    | none => intro h; rw [h]; exact hs
    | some p =>
      obtain ⟨c, op', v⟩ := p
      intro h
      simp only at h
      rw [h]
      have h4 := h3 c op' v hn
      refine push_ok hs ⟨?_, ?_⟩ _
      · intro m hm e he
        cases hm
        rw [List.mem_singleton.1 he]
        show DomOk (T c) _
        rw [← h4.1]
        exact domOf_ok op' v
      · rw [of_accepts h4.2]
        exact (nsc_sat hρ h1 h2 hn).1 he
  | and l r ihl ihr =>
    have hsat := sat_and.1 he
    simp only [delVisit, Option.bind_eq_some_iff] at hv
    obtain ⟨s1, h1, s2, h2, h3⟩ := hv
    refine top2_ok ?_ h3
    exact ihr h.2 hsat.2 (ihl h.1 hsat.1 hs h1) h2
  | or l r _ _ => cases hv
  | not e _ => cases hv
  | arith k => cases hv
  | unsup k => cases hv
  | silent k => cases hv

/-- **C56, first half**: a DELETE that is accepted removes every row its condition holds for. -/
theorem C56_delete_removes_matching {T : Nat → CTy} {ρ : Row α} (hρ : RowOk T ρ) (e : Expr α)
    (h : DelOk T e) {tg tm : ColumnDomains α} (hd : delDomains e = some (tg, tm)) (hs : Sat ρ e) :
    Accepts tg ρ ∧ Accepts tm ρ := by
  unfold delDomains at hd
  obtain ⟨s, hv, hp⟩ := Option.map_eq_some_iff.1 hd
  have hok := delVisit_ok hρ e h hs (s := ⟨[], [], []⟩) ⟨by simp, by simp⟩ hv
  cases hp
  constructor
  · cases ht : s.tag with
    | nil => exact cdAll_accepts ρ
    | cons d l => exact (hok.1 d (by rw [ht]; simp)).2
  · cases ht : s.time with
    | nil => exact cdAll_accepts ρ
    | cons d l => exact (hok.2 d (by rw [ht]; simp)).2

/-- A comparison of a column with a literal. -/
structure Atom (α : Type) where
  c : Nat
  op : CmpOp
  v : Sc α

def Atom.expr (a : Atom α) : Expr α := .cmp a.op (.col a.c) (.lit (some a.v))
def Atom.isTime (a : Atom α) : Bool := decide (a.c = 0)
def Atom.dom (a : Atom α) : ColumnDomains α := ColumnDomains.of a.c (domOf a.op a.v)
/-- The row satisfies the comparison. -/
def Atom.Holds (ρ : Row α) (a : Atom α) : Prop := ∃ x, ρ.col a.c = some x ∧ scCmp a.op x a.v = some true

/-- `a AND b1 AND b2 AND …` as the SQL parser groups it. -/
def chain (a : Atom α) (bs : List (Atom α)) : Expr α := bs.foldl (fun e b => .and e b.expr) a.expr

/-- The comparison is typed and consistent. -/
def Atom.Ok (T : Nat → CTy) (K : Nat → α → Prop) (a : Atom α) : Prop :=
  a.v.ty = T a.c ∧ opFits a.op a.v ∧ opCons (K a.c) a.op a.v

def stOf (k : Bool) (D : ColumnDomains α) (os : List (ColumnDomains α)) : DelCtx α :=
  if k then ⟨[k], os, [D]⟩ else ⟨[k], [D], os⟩

theorem delVisit_atom (a : Atom α) (s : DelCtx α) :
    delVisit a.expr s = some (s.push a.dom a.isTime) := rfl

theorem chain_state (a : Atom α) (bs : List (Atom α)) :
    delVisit (chain a bs) ⟨[], [], []⟩ = some (stOf a.isTime
      ((bs.filter (fun b => b.isTime = a.isTime)).foldl (fun D b => ColumnDomains.inter b.dom D) a.dom)
      ((bs.filter (fun b => b.isTime ≠ a.isTime)).map Atom.dom).reverse) := by
  unfold chain
  induction bs using List.reverseRecOn with
  | nil =>
    simp only [List.foldl_nil, List.filter_nil, List.map_nil, List.reverse_nil, delVisit_atom]
    cases h : a.isTime <;> simp [stOf, DelCtx.push]
  | append_singleton bs b ih =>
    simp only [List.foldl_append, List.foldl_cons, List.foldl_nil, delVisit, ih, Option.bind_some,
      delVisit_atom, List.filter_append, List.map_append, List.reverse_append]
    generalize (bs.filter (fun b => b.isTime = a.isTime)).foldl
      (fun D b => ColumnDomains.inter b.dom D) a.dom = D
    generalize ((bs.filter (fun b => b.isTime ≠ a.isTime)).map Atom.dom).reverse = os
    cases ha : a.isTime <;> cases hb : b.isTime <;>
      simp [stOf, DelCtx.push, DelCtx.top2, inter2, ha, hb]

theorem atom_dom_ok {T : Nat → CTy} {K : Nat → α → Prop} {a : Atom α} (h : a.Ok T K) :
    CdOk T a.dom ∧ CdCons K a.dom := by
  constructor
  · intro m hm e he
    cases hm
    rw [List.mem_singleton.1 he]
    show DomOk (T a.c) _
    rw [← h.1]
    exact domOf_ok _ _
  · intro m hm e he
    cases hm
    rw [List.mem_singleton.1 he]
    exact domOf_cons _ _ h.2.2

theorem foldl_inter_accepts {T : Nat → CTy} {K : Nat → α → Prop} {ρ : Row α} (bs : List (Atom α))
    (hb : ∀ b ∈ bs, b.Ok T K) (D : ColumnDomains α) (h1 : CdOk T D) (h2 : CdCons K D) :
    Accepts (bs.foldl (fun D b => ColumnDomains.inter b.dom D) D) ρ ↔
      Accepts D ρ ∧ ∀ b ∈ bs, b.Holds ρ := by
  induction bs generalizing D with
  | nil => simp
  | cons b bs ih =>
    have hbo := hb b (by simp)
    obtain ⟨k1, k2⟩ := atom_dom_ok hbo
    rw [List.foldl_cons, ih (fun b hb' => hb b (by simp [hb'])) _ (cdInter_ok k1 h1)
      (cdInter_cons k1 h1 k2 h2)]
    have : Accepts b.dom ρ ↔ b.Holds ρ := of_accepts hbo.2.1
    simp only [List.mem_cons, forall_eq_or_imp, ← this]
    constructor
    · rintro ⟨h, h'⟩
      have := cdInter_upper k1 h1 k2 h2 h
      exact ⟨this.2, this.1, h'⟩
    · rintro ⟨h, h', h''⟩
      exact ⟨cdInter_sound k1 h1 h' h, h''⟩

/-- What a DELETE with a chain of comparisons really removes: the rows satisfying every comparison of
the first one's kind (time or tag) and the *last* comparison of the other kind. -/
theorem C56_delete_chain {T : Nat → CTy} {K : Nat → α → Prop} {ρ : Row α} (a : Atom α)
    (bs : List (Atom α)) (hok : ∀ b ∈ a :: bs, b.Ok T K) :
    Deletes (chain a bs) ρ ↔ (∀ b ∈ a :: bs, b.isTime = a.isTime → b.Holds ρ) ∧
      (∀ b, ((a :: bs).filter (fun b => b.isTime ≠ a.isTime)).getLast? = some b → b.Holds ρ) := by
  have hD : Accepts ((bs.filter (fun b => b.isTime = a.isTime)).foldl
      (fun D b => ColumnDomains.inter b.dom D) a.dom) ρ ↔
      ∀ b ∈ a :: bs, b.isTime = a.isTime → b.Holds ρ := by
    have ha := hok a (by simp)
    obtain ⟨k1, k2⟩ := atom_dom_ok ha
    rw [foldl_inter_accepts _ (fun b hb => hok b (by simp [List.mem_of_mem_filter hb])) _ k1 k2]
    have : Accepts a.dom ρ ↔ a.Holds ρ := of_accepts ha.2.1
    rw [this]
    simp only [List.mem_filter, decide_eq_true_eq, and_imp, List.mem_cons, forall_eq_or_imp,
      forall_const]
  have hO : Accepts (((bs.filter (fun b => b.isTime ≠ a.isTime)).map Atom.dom).reverse.headD
      ColumnDomains.all) ρ ↔
      ∀ b, ((a :: bs).filter (fun b => b.isTime ≠ a.isTime)).getLast? = some b → b.Holds ρ := by
    have e : (a :: bs).filter (fun b => b.isTime ≠ a.isTime) =
        bs.filter (fun b => b.isTime ≠ a.isTime) := by simp
    rw [e]
    rcases List.eq_nil_or_concat' (bs.filter (fun b => b.isTime ≠ a.isTime)) with h | ⟨L, b, h⟩
    · rw [h]; simp only [List.map_nil, List.reverse_nil, List.headD_nil, List.getLast?_nil,
        reduceCtorEq, false_implies, implies_true, iff_true]; exact cdAll_accepts ρ
    · rw [h]
      have hb : b ∈ bs := List.mem_of_mem_filter (by rw [h]; simp)
      have : Accepts b.dom ρ ↔ b.Holds ρ := of_accepts (hok b (by simp [hb])).2.1
      simp [this]
  unfold Deletes delDomains
  rw [chain_state]
  simp only [Option.map_some, Option.some.injEq, Prod.mk.injEq]
  rw [← hD, ← hO]
  cases ha : a.isTime
  · simp only [stOf, Bool.false_eq_true, if_false, List.headD_cons]
    constructor
    · rintro ⟨tg, tm, ⟨rfl, rfl⟩, h1, h2⟩; exact ⟨h1, h2⟩
    · rintro ⟨h1, h2⟩; exact ⟨_, _, ⟨rfl, rfl⟩, h1, h2⟩
  · simp only [stOf, if_true, List.headD_cons]
    constructor
    · rintro ⟨tg, tm, ⟨rfl, rfl⟩, h1, h2⟩; exact ⟨h2, h1⟩
    · rintro ⟨h1, h2⟩; exact ⟨_, _, ⟨rfl, rfl⟩, h2, h1⟩

theorem sat_atom {ρ : Row α} (a : Atom α) : Sat ρ a.expr ↔ a.Holds ρ := by
  unfold Sat Atom.expr Atom.Holds
  simp only [eval]
  cases ρ.col a.c with
  | none => simp
  | some x => simp [Option.map_eq_some_iff]

theorem sat_chain {ρ : Row α} (a : Atom α) (bs : List (Atom α)) :
    Sat ρ (chain a bs) ↔ ∀ b ∈ a :: bs, b.Holds ρ := by
  unfold chain
  induction bs using List.reverseRecOn with
  | nil => simp [sat_atom]
  | append_singleton bs b ih =>
    rw [List.foldl_append, List.foldl_cons, List.foldl_nil, sat_and, ih, sat_atom]
    simp only [List.mem_cons, List.mem_append, List.not_mem_nil, or_false, forall_eq_or_imp]
    constructor
    · rintro ⟨⟨h1, h2⟩, h3⟩
      refine ⟨h1, ?_⟩
      rintro x (hx | rfl)
      · exact h2 x hx
      · exact h3
    · rintro ⟨h1, h2⟩
      exact ⟨⟨h1, fun x hx => h2 x (Or.inl hx)⟩, h2 b (Or.inr rfl)⟩

/-- **C56, part proved**: for a chain of comparisons joined by AND in which the kind (time or tag)
other than the first comparison's kind occurs at most once, the DELETE removes exactly the rows for
which the condition holds.  Missing: conditions where it occurs more often; see the refutation. -/
theorem C56_delete_exact_partial {T : Nat → CTy} {K : Nat → α → Prop} {ρ : Row α} (a : Atom α)
    (bs : List (Atom α)) (hok : ∀ b ∈ a :: bs, b.Ok T K)
    (hone : ((a :: bs).filter (fun b => b.isTime ≠ a.isTime)).length ≤ 1) :
    Deletes (chain a bs) ρ ↔ Sat ρ (chain a bs) := by
  rw [C56_delete_chain a bs hok, sat_chain]
  constructor
  · rintro ⟨h1, h2⟩ b hb
    by_cases hk : b.isTime = a.isTime
    · exact h1 b hb hk
    · apply h2 b
      have hm : b ∈ (a :: bs).filter (fun b => b.isTime ≠ a.isTime) :=
        List.mem_filter.2 ⟨hb, by simpa using hk⟩
      revert hm hone
      generalize (a :: bs).filter (fun b => b.isTime ≠ a.isTime) = l
      intro hone hm
      match l, hm, hone with
      | [c], hm, _ => rw [List.mem_singleton.1 hm]; rfl
      | _ :: _ :: _, _, hone => simp at hone
  · intro h
    refine ⟨fun b hb _ => h b hb, ?_⟩
    intro b hb
    exact h b (List.mem_of_mem_filter (List.mem_of_getLast? hb))

/-- `tag1 = 7 AND tag2 < 3 AND time > 5` has the shape. -/
example : ∀ b ∈ [(⟨1, .eq, .ord 0 7⟩ : Atom Nat), ⟨2, .lt, .ord 0 3⟩, ⟨0, .gt, .ord 1 5⟩],
    b.Ok (fun c => if c = 0 then .ord 1 else .ord 0) (fun c _ => c ≠ 1) := by
  simp [Atom.Ok, Sc.ty, opFits, opCons, CmpOp.strict]

/-- C56 is false as stated (1): `tag1 = 7 AND time > 1 AND time < 5` also removes the row at time 0. -/
theorem C56_delete_exact_refuted : ∃ (e : Expr Nat) (ρ : Row Nat), Deletes e ρ ∧ ¬ Sat ρ e := by
  refine ⟨chain ⟨1, .eq, .ord 0 7⟩ [⟨0, .gt, .ord 0 1⟩, ⟨0, .lt, .ord 0 5⟩],
    row1 (fun c => if c = 0 then some (.ord 0 0) else some (.ord 0 7)), ?_, ?_⟩
  · rw [C56_delete_chain (T := fun _ => .ord 0) (K := fun c _ => c = 0)]
    · simp [Atom.isTime, Atom.Holds, row1, scCmp, ordCmp]
    · simp [Atom.Ok, Sc.ty, opFits, opCons, CmpOp.strict]
  · rw [sat_chain]
    simp [Atom.Holds, row1, scCmp, ordCmp]

/-- C56 is false as stated (2): `tag1 = NULL`, which no row satisfies, removes every row. -/
theorem C56_delete_null_refuted : ∃ e : Expr Nat, ∀ ρ : Row Nat, Deletes e ρ ∧ ¬ Sat ρ e := by
  refine ⟨.cmp .eq (.col 1) (.lit none), fun ρ => ⟨⟨_, _, rfl, cdAll_accepts ρ, cdAll_accepts ρ⟩, ?_⟩⟩
  unfold Sat
  simp [eval]

/-- The conditions DELETE is documented to support: comparisons of a column, possibly under casts, with a
literal, joined by AND; and bare columns and literals, possibly under casts. -/
inductive Leaf : Expr α → Prop where
  | col (c : Nat) : Leaf (.col c)
  | lit (v : Option (Sc α)) : Leaf (.lit v)

inductive Supported : Expr α → Prop where
  | leaf (e : Expr α) : Leaf e → Supported e
  | cast (ty : Nat) (e : Expr α) : Supported e → Supported (.cast ty e)
  | colLit (op : CmpOp) (c : Nat) (v : Option (Sc α)) : Supported (.cmp op (.col c) (.lit v))
  | litCol (op : CmpOp) (c : Nat) (v : Option (Sc α)) : Supported (.cmp op (.lit v) (.col c))
  | castLit (op : CmpOp) (ty c : Nat) (v : Option (Sc α)) : Supported (.cmp op (.cast ty (.col c)) (.lit v))
  | litCast (op : CmpOp) (ty c : Nat) (v : Option (Sc α)) : Supported (.cmp op (.lit v) (.cast ty (.col c)))
  | and (l r : Expr α) : Supported l → Supported r → Supported (.and l r)

/-- **C56**: a DELETE with any other condition (OR, NOT, functions, arithmetic, comparison of two columns)
is refused, so nothing is removed. -/
theorem C56_unsupported_refused (e : Expr α) (h : ¬ Supported e) : delDomains e = none := by
  have key : ∀ (e : Expr α) (s s' : DelCtx α), delVisit e s = some s' → Supported e := by
    intro e
    induction e with
    | col c => exact fun _ _ _ => .leaf _ (.col c)
    | lit v => exact fun _ _ _ => .leaf _ (.lit v)
    | cast ty e ih => exact fun s s' h => .cast ty e (ih s s' h)
    | cmp op l r _ _ =>
      intro s s' h
      simp only [delVisit, Option.bind_eq_some_iff] at h
      obtain ⟨s1, _, s2, _, h⟩ := h
      split at h
      · exact .colLit ..
      · exact .litCol ..
      · exact .litCast ..
      · exact .castLit ..
      · cases h
    | and l r ihl ihr =>
      intro s s' h
      simp only [delVisit, Option.bind_eq_some_iff] at h
      obtain ⟨s1, h1, s2, h2, _⟩ := h
      exact .and l r (ihl _ _ h1) (ihr _ _ h2)
    | or l r _ _ => intro s s' h; cases h
    | not e _ => intro s s' h; cases h
    | arith k => intro s s' h; cases h
    | unsup k => intro s s' h; cases h
    | silent k => intro s s' h; cases h
  unfold delDomains
  cases hv : delVisit e ⟨[], [], []⟩ with
  | none => rfl
  | some s => exact absurd (key e _ _ hv) h

/-- C56 is false for a bare literal: `DELETE … WHERE false` removes every row. -/
theorem C56_delete_false_refuted : ∃ e : Expr Nat, ∀ ρ : Row Nat, Deletes e ρ ∧ ¬ Sat ρ e := by
  refine ⟨.lit (some (.bool false)), fun ρ => ⟨⟨_, _, rfl, cdAll_accepts ρ, cdAll_accepts ρ⟩, ?_⟩⟩
  unfold Sat
  simp [eval]

end Verif.Predicate
