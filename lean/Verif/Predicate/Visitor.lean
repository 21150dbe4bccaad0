import Verif.Predicate.Domain
/-!
# Model: from WHERE clauses to column domains — `common/models/src/predicate/transformation.rs`

Columns are numbers; column `0` is the time column (`TIME_FIELD_NAME`).
-/
namespace Verif.Predicate

variable {α : Type} [LinearOrder α]

/-- A non-null `ScalarValue`: a value of an ordered data type `ty`, or a boolean (the only type with
`is_orderable() = false` modelled, transformation.rs:80-116). -/
inductive Sc (α : Type) where
  | ord (ty : Nat) (v : α)
  | bool (b : Bool)
deriving DecidableEq

/-- The domain of one comparison: `nsc_to_column_domains_with_range` / `nsc_to_domains_with_equtable`
(transformation.rs:298-327); `of_values` is domain.rs:1185-1199. -/
def domOf (op : CmpOp) : Sc α → Domain α
  | .ord ty v => Domain.ofRangeList ty (rangesOf op v)
  | .bool b => .equ (decide (op = .eq)) [b]

/-- `NormalizedSimpleComparison::reverse_op` (transformation.rs:29-37). -/
def reverseOp : CmpOp → CmpOp
  | .lt => .gt
  | .le => .ge
  | .gt => .lt
  | .ge => .le
  | op => op

/-- `Expr` (DataFusion).  `lit none` is the null literal.  `arith`: `BinaryExpr` with any operator
other than comparisons, AND, OR; `unsup`: LIKE, IS NULL, BETWEEN, IN, … (pushed as "all");
`silent`: functions, CASE, … (nothing pushed).  The visitor never looks inside these three, so they
carry only a number. -/
inductive Expr (α : Type) where
  | col (c : Nat)
  | lit (v : Option (Sc α))
  | cast (ty : Nat) (e : Expr α)
  | cmp (op : CmpOp) (l r : Expr α)
  | and (l r : Expr α)
  | or (l r : Expr α)
  | not (e : Expr α)
  | arith (k : Nat)
  | unsup (k : Nat)
  | silent (k : Nat)

/-- `NormalizedSimpleComparison::of` (transformation.rs:40-78): column, operator, value. -/
def nscOf (l : Expr α) (op : CmpOp) (r : Expr α) : Option (Nat × CmpOp × Sc α) :=
  match l, r with
  | .col c, .lit (some v) => some (c, op, v)
  | .lit (some v), .col c => some (c, reverseOp op, v)
  | .cast _ (.col c), .lit (some v) => some (c, op, v)
  | .lit (some v), .cast _ (.col c) => some (c, reverseOp op, v)
  | _, _ => none

/-- `construct_value_set_and_push_current_domain_stack` (transformation.rs:334-351). -/
def cmpDomains (l : Expr α) (op : CmpOp) (r : Expr α) : ColumnDomains α :=
  match nscOf l op r with
  | some (c, op', v) => ColumnDomains.of c (domOf op' v)
  | none => ColumnDomains.all

/-- `TreeNode::visit` with `RowExpressionToDomainsVisitor` (transformation.rs:163-286); the stack has
its top at the head.  `Skip` from `pre_visit` skips the children and `post_visit`. -/
def visit : Expr α → List (ColumnDomains α) → List (ColumnDomains α)
  | .col _, s => s
  | .lit _, s => s
  | .cast _ _, s => s
  | .silent _, s => s
  | .not _, s => ColumnDomains.all :: s
  | .arith _, s => ColumnDomains.all :: s
  | .unsup _, s => ColumnDomains.all :: s
  | .cmp op l r, s => cmpDomains l op r :: visit r (visit l s)
  | .and l r, s =>
    match visit r (visit l s) with
    | d1 :: d2 :: t => ColumnDomains.inter d1 d2 :: t
    | _ => []
  | .or l r, s =>
    match visit r (visit l s) with
    | d1 :: d2 :: t => ColumnDomains.union d1 d2 :: t
    | _ => []

/-- `expr_to_column_domains` (transformation.rs:289-296). -/
def exprToDomains (e : Expr α) : ColumnDomains α := (visit e []).headD ColumnDomains.all

/-! ## DELETE -/

/-- `DeleteSelectionExpressionToDomainsVisitorContext` (transformation.rs:353-358), tops at heads. -/
structure DelCtx (α : Type) where
  isTime : List Bool
  tag : List (ColumnDomains α)
  time : List (ColumnDomains α)

/-- `push_back` (transformation.rs:361-370). -/
def DelCtx.push (s : DelCtx α) (d : ColumnDomains α) (t : Bool) : DelCtx α :=
  if t then { s with isTime := t :: s.isTime, time := d :: s.time }
  else { s with isTime := t :: s.isTime, tag := d :: s.tag }

/-- Replace the two topmost domains by their intersection.  `none` is the panic of `unwrap` on an
empty stack. -/
def inter2 : List (ColumnDomains α) → Option (List (ColumnDomains α))
  | d1 :: d2 :: t => some (ColumnDomains.inter d1 d2 :: t)
  | _ => none

/-- `try_intersect_top2_domains` (transformation.rs:372-401). -/
def DelCtx.top2 (s : DelCtx α) : Option (DelCtx α) :=
  match s.isTime with
  | t1 :: t2 :: rest =>
    if t1 = t2 then
      if t1 then (inter2 s.time).map (fun l => ⟨t2 :: rest, s.tag, l⟩)
      else (inter2 s.tag).map (fun l => ⟨t2 :: rest, l, s.time⟩)
    else some { s with isTime := t2 :: rest }
  | _ => some s

/-- `DeleteSelectionExpressionToDomainsVisitor` (transformation.rs:423-522, 568-588).  `none`: the
statement is refused (`NotImplemented`). -/
def delVisit : Expr α → DelCtx α → Option (DelCtx α)
  | .col _, s => some s
  | .lit _, s => some s
  | .cast _ e, s => delVisit e s
  | .cmp op l r, s =>
    (delVisit l s).bind fun s1 => (delVisit r s1).bind fun s2 =>
      let ok : Bool := match l, r with
        | .col _, .lit _ => true
        | .lit _, .col _ => true
        | .lit _, .cast _ (.col _) => true
        | .cast _ (.col _), .lit _ => true
        | _, _ => false
      if ok then
        match nscOf l op r with
        | some (c, op', v) => some (s2.push (ColumnDomains.of c (domOf op' v)) (decide (c = 0)))
        | none => some s2
      else none
  | .and l r, s => (delVisit l s).bind fun s1 => (delVisit r s1).bind fun s2 => s2.top2
  | .or _ _, _ => none
  | .not _, _ => none
  | .arith _, _ => none
  | .unsup _, _ => none
  | .silent _, _ => none

/-- `expr_to_tag_and_time_domains` with `into_tag_and_time_domains` (transformation.rs:404-414,
525-531): tag domains, then time domains. -/
def delDomains (e : Expr α) : Option (ColumnDomains α × ColumnDomains α) :=
  (delVisit e ⟨[], [], []⟩).map fun s =>
    (s.tag.headD ColumnDomains.all, s.time.headD ColumnDomains.all)

/-! ## Meaning -/

/-- A row: column values (null = `none`), what `CAST` does to a value, and the values of the
subexpressions the visitor does not look at. -/
structure Row (α : Type) where
  col : Nat → Option (Sc α)
  cast : Nat → Sc α → Option (Sc α)
  arith : Nat → Option (Sc α)
  unsup : Nat → Option (Sc α)
  silent : Nat → Option (Sc α)

def ordCmp (op : CmpOp) (x v : α) : Bool :=
  match op with
  | .eq => decide (x = v)
  | .ne => decide (x ≠ v)
  | .lt => decide (x < v)
  | .le => decide (x ≤ v)
  | .gt => decide (v < x)
  | .ge => decide (v ≤ x)

/-- SQL comparison of two values; null for values of different types (never produced by the planner,
which inserts casts). -/
def scCmp (op : CmpOp) : Sc α → Sc α → Option Bool
  | .ord t x, .ord t' y => if t = t' then some (ordCmp op x y) else none
  | .bool x, .bool y => some (match op with
      | .eq => x == y
      | .ne => x != y
      | .lt => !x && y
      | .le => !x || y
      | .gt => x && !y
      | .ge => x || !y)
  | _, _ => none

/-- Three-valued AND, OR, NOT. -/
def and3 : Option Bool → Option Bool → Option Bool
  | some false, _ => some false
  | _, some false => some false
  | some true, some true => some true
  | _, _ => none
def or3 : Option Bool → Option Bool → Option Bool
  | some true, _ => some true
  | _, some true => some true
  | some false, some false => some false
  | _, _ => none

def asBool : Option (Sc α) → Option Bool
  | some (.bool b) => some b
  | _ => none

/-- SQL value of an expression. -/
def eval (ρ : Row α) : Expr α → Option (Sc α)
  | .col c => ρ.col c
  | .lit v => v
  | .cast ty e => (eval ρ e).bind (ρ.cast ty)
  | .cmp op l r => (eval ρ l).bind fun x => (eval ρ r).bind fun y => (scCmp op x y).map .bool
  | .and l r => (and3 (asBool (eval ρ l)) (asBool (eval ρ r))).map .bool
  | .or l r => (or3 (asBool (eval ρ l)) (asBool (eval ρ r))).map .bool
  | .not e => (asBool (eval ρ e)).map (fun b => .bool (!b))
  | .arith k => ρ.arith k
  | .unsup k => ρ.unsup k
  | .silent k => ρ.silent k

/-- The row satisfies the WHERE clause: its value is true (not false, not null). -/
def Sat (ρ : Row α) (e : Expr α) : Prop := eval ρ e = some (.bool true)

/-- What a domain describes: `low_indexed_ranges` of ranges read through `RangeBounds`, or a white or
black list. -/
def Domain.Mem : Domain α → Option (Sc α) → Prop
  | .all, _ => True
  | .none, _ => False
  | .range ty rs, some (.ord ty' x) => ty = ty' ∧ ∃ r ∈ rs, r.Mem x
  | .equ wl es, some (.bool b) => if wl then b ∈ es else b ∉ es
  | _, _ => False

/-- The row passes every column's filter. -/
def Accepts (cd : ColumnDomains α) (ρ : Row α) : Prop :=
  match cd with
  | none => False
  | some m => ∀ e ∈ m, e.2.Mem (ρ.col e.1)

/-! ## Single-column filters -/

/-- A condition on one column. -/
inductive Filt (α : Type) where
  | cmp (op : CmpOp) (v : Sc α)
  | and (l r : Filt α)
  | or (l r : Filt α)

/-- The domain the code builds: the right operand is the receiver of `intersect` / `union`
(transformation.rs:256-279). -/
def Filt.domain : Filt α → Domain α
  | .cmp op v => domOf op v
  | .and l r => r.domain.inter l.domain
  | .or l r => r.domain.union l.domain

/-- What the condition means. -/
def Filt.Holds : Filt α → Sc α → Prop
  | .cmp op v, x => scCmp op x v = some true
  | .and l r, x => l.Holds x ∧ r.Holds x
  | .or l r, x => l.Holds x ∨ r.Holds x

end Verif.Predicate
