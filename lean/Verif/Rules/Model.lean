/-!
# Model: rules that rewrite queries

* `query_server/query/src/data_source/batch/filter_expr_rewriter.rs` — the filter that the nodes with the data get
* `query_server/query/src/data_source/batch/tskv.rs:328-371` (`scan`, `supports_filter_pushdown`),
  `extension/expr/expr_utils.rs:47-85` — which filters are left to them
* `query_server/query/src/extension/analyse/transform_count_gen_time_col.rs`
* `query_server/query/src/extension/analyse/transform_exact_count_to_count.rs`
* `query_server/query/src/extension/analyse/transform_{topk,bottom}_func_to_topk_node.rs`

Simplifications: expressions have at most two arguments, and of the operators there are those below; user functions and casts are
parameters.  `ExprSimplifier` of DataFusion is a parameter, `TreeNode::rewrite` goes from the leaves up, `with_new_inputs`
takes the inputs it is given.  The columns that a scan reads are left out of the plans: they are chosen again by
`PushDownProjection` of DataFusion.
-/
namespace Verif.Rules

/-! ## Expressions -/

/-- Values, null among them. -/
inductive Val where
  | null
  | bool (b : Bool)
  | int (i : Int)
deriving DecidableEq, Repr

/-- Operators with one argument. -/
inductive Un where
  | not | isTrue | isNotTrue | isFalse | isNotFalse | isNull | isNotNull
  | cast (ty : Nat)
deriving DecidableEq, Repr

/-- Operators with two arguments but `AND` and `OR`. -/
inductive Bin where
  | eq | ne | lt | le | gt | ge
  | other (n : Nat)
deriving DecidableEq, Repr

/-- `Expr` of DataFusion. -/
inductive Expr where
  | col (name : String)
  | lit (v : Val)
  | udf (name : String) (a b : Expr)
  | un (o : Un) (a : Expr)
  | bin (o : Bin) (a b : Expr)
  | and (a b : Expr)
  | or (a b : Expr)
deriving DecidableEq, Repr

/-- What user functions, casts and other operators give. -/
structure Sem where
  udf : String → Val → Val → Val
  cast : Nat → Val → Val
  other : Nat → Val → Val → Val

/-- `AND` of SQL. -/
def and3 : Val → Val → Val
  | .bool false, _ => .bool false
  | _, .bool false => .bool false
  | .bool true, .bool true => .bool true
  | _, _ => .null

/-- `OR` of SQL. -/
def or3 : Val → Val → Val
  | .bool true, _ => .bool true
  | _, .bool true => .bool true
  | .bool false, .bool false => .bool false
  | _, _ => .null

/-- The operators with one argument. -/
def Un.eval (s : Sem) : Un → Val → Val
  | .not, .bool b => .bool !b
  | .not, _ => .null
  | .isTrue, v => .bool (decide (v = .bool true))
  | .isNotTrue, v => .bool (decide (v ≠ .bool true))
  | .isFalse, v => .bool (decide (v = .bool false))
  | .isNotFalse, v => .bool (decide (v ≠ .bool false))
  | .isNull, v => .bool (decide (v = .null))
  | .isNotNull, v => .bool (decide (v ≠ .null))
  | .cast n, v => s.cast n v

/-- A comparison: null if one of the values is. -/
def cmp (f : Int → Int → Bool) : Val → Val → Val
  | .int a, .int b => .bool (f a b)
  | .bool a, .bool b => .bool (f a.toNat b.toNat)
  | _, _ => .null

/-- The operators with two arguments. -/
def Bin.eval (s : Sem) : Bin → Val → Val → Val
  | .eq => cmp fun a b => decide (a = b)
  | .ne => cmp fun a b => decide (a ≠ b)
  | .lt => cmp fun a b => decide (a < b)
  | .le => cmp fun a b => decide (a ≤ b)
  | .gt => cmp fun a b => decide (a > b)
  | .ge => cmp fun a b => decide (a ≥ b)
  | .other n => s.other n

/-- The value of an expression on a row. -/
def Expr.eval (s : Sem) (row : String → Val) : Expr → Val
  | .col n => row n
  | .lit v => v
  | .udf n a b => s.udf n (a.eval s row) (b.eval s row)
  | .un o a => o.eval s (a.eval s row)
  | .bin o a b => o.eval s (a.eval s row) (b.eval s row)
  | .and a b => and3 (a.eval s row) (b.eval s row)
  | .or a b => or3 (a.eval s row) (b.eval s row)

/-! ## Filters -/

/-- `UDFVisitor` (filter_expr_rewriter.rs:45-68). -/
def Expr.hasUdf : Expr → Bool
  | .col _ => false
  | .lit _ => false
  | .udf _ _ _ => true
  | .un _ a => a.hasUdf
  | .bin _ a b => a.hasUdf || b.hasUdf
  | .and a b => a.hasUdf || b.hasUdf
  | .or a b => a.hasUdf || b.hasUdf

/-- `FilterExprRewriter::mutate` (filter_expr_rewriter.rs:75-108). -/
def mutate : Expr → Expr
  | .and a b => match a.hasUdf, b.hasUdf with
    | false, false => .and a b
    | true, true => .lit (.bool true)
    | true, _ => b
    | _, true => a
  | .or a b => match a.hasUdf, b.hasUdf with
    | false, false => .or a b
    | _, _ => .lit (.bool true)
  | e => e

/-- `e.rewrite(&mut filter_expr_rewriter)` (filter_expr_rewriter.rs:26-29): from the leaves up, everywhere. -/
def Expr.rewrite : Expr → Expr
  | .col n => mutate (.col n)
  | .lit v => mutate (.lit v)
  | .udf n a b => mutate (.udf n a.rewrite b.rewrite)
  | .un o a => mutate (.un o a.rewrite)
  | .bin o a b => mutate (.bin o a.rewrite b.rewrite)
  | .and a b => mutate (.and a.rewrite b.rewrite)
  | .or a b => mutate (.or a.rewrite b.rewrite)

/-- `conjunction` of DataFusion. -/
def conjunction : List Expr → Option Expr
  | [] => none
  | e :: l => some (l.foldl .and e)

/-- `rewrite_filters` (filter_expr_rewriter.rs:19-42). -/
def rewriteFilters (simplify : Expr → Expr) (filters : List Expr) : Option Expr :=
  match conjunction filters with
  | none => none
  | some e =>
    let e := simplify e.rewrite
    if e.hasUdf then none else if e = .lit (.bool true) then none else some e

/-- `is_column` (expr_utils.rs:63-81). -/
def isColumn (cols : List String) : Expr → Bool
  | .col n => decide (n ∈ cols)
  | .un (.cast _) (.col n) => decide (n ∈ cols)
  | _ => false

/-- `is_literal` (expr_utils.rs:83-85). -/
def isLiteral : Expr → Bool
  | .lit _ => true
  | _ => false

/-- `can_exact_filter` (expr_utils.rs:47-61). -/
def canExact (cols : List String) : Expr → Bool
  | .bin o a b => ((isColumn cols a && isLiteral b) || (isColumn cols b && isLiteral a)) &&
    (match o with | .eq | .lt | .le | .gt | .ge => true | _ => false)
  | _ => false

/-- `split_conjunction` of DataFusion. -/
def splitAnd : Expr → List Expr
  | .and a b => splitAnd a ++ splitAnd b
  | e => [e]

/-- `supports_filter_pushdown` (tskv.rs:352-371): whether the filter is left to the scan. -/
def exact (cols : List String) (e : Expr) : Bool := !e.hasUdf && (splitAnd e).all (canExact cols)

/-- Whether a filter lets a row pass. -/
def passes (s : Sem) (row : String → Val) (e : Expr) : Bool := decide (e.eval s row = .bool true)

/-- `scan` (tskv.rs:310-350) with the rule `PushDownFilter` of DataFusion: the scan gets all filters, and those that are not left
to it are applied to the rows it returns. -/
def answer (s : Sem) (cols : List String) (simplify : Expr → Expr) (filters : List Expr) (rows : List (String → Val)) :
    List (String → Val) :=
  let scanned := match rewriteFilters simplify filters with
    | none => rows
    | some e => rows.filter fun r => passes s r e
  scanned.filter fun r => filters.all fun e => exact cols e || passes s r e

/-! ## Plans: `count` of literals -/

/-- `LogicalPlan`.  `one` is any node with one input, `agg` an aggregation with whether it counts literals only (`count(*)` is
`count(1)`), `leaf` a relation that is not a table (no row, one row, `VALUES`), `single` a union of which one input is left. -/
inductive Plan (R : Type) where
  | scan (cluster : Bool) (table : Nat)
  | leaf (rows : List R)
  | one (f : List R → List R) (input : Plan R)
  | agg (literals : Bool) (f : List R → List R) (input : Plan R)
  | union (a b : Plan R)
  | single (a : Plan R)
  | join (f : List R → List R → List R) (a b : Plan R)

/-- The rows of a plan. -/
def Plan.eval {R : Type} (db : Nat → List R) : Plan R → List R
  | .scan _ t => db t
  | .leaf rows => rows
  | .one f p => f (p.eval db)
  | .agg _ f p => f (p.eval db)
  | .union a b => a.eval db ++ b.eval db
  | .single a => a.eval db
  | .join f a b => f (a.eval db) (b.eval db)

/-- What the descent of a rule finds. -/
inductive Found (α : Type) where
  | yes (a : α)
  | no
  | panic
deriving DecidableEq, Repr

/-- What is done with what is found. -/
def Found.map {α β : Type} (f : α → β) : Found α → Found β
  | .yes a => .yes (f a)
  | .no => .no
  | .panic => .panic

/-- The loop (transform_count_gen_time_col.rs:43-77): always to the first input, up to a table, or a join; `inputs()[0]` of a
node without inputs panics.  Then every node on the way gets the one new input. -/
def descend {R : Type} : Plan R → Found (Plan R)
  | .scan true t => .yes (.scan true t)
  | .scan false _ => .no
  | .leaf _ => .panic
  | .one f p => (descend p).map (.one f)
  | .agg l f p => (descend p).map (.agg l f)
  | .union a _ => (descend a).map .single
  | .single a => (descend a).map .single
  | .join _ _ _ => .no

/-- `analyze_internal` (transform_count_gen_time_col.rs:27-83); `none` is a panic. -/
def countNode {R : Type} : Plan R → Option (Plan R)
  | .agg true f p => match descend (.agg true f p) with
    | .yes q => some q
    | .no => some (.agg true f p)
    | .panic => none
  | p => some p

/-- `plan.transform_up(&analyze_internal)` (transform_count_gen_time_col.rs:15-18). -/
def countRule {R : Type} : Plan R → Option (Plan R)
  | .scan c t => countNode (.scan c t)
  | .leaf rows => countNode (.leaf rows)
  | .one f p => (countRule p).bind fun q => countNode (.one f q)
  | .agg l f p => (countRule p).bind fun q => countNode (.agg l f q)
  | .union a b => (countRule a).bind fun x => (countRule b).bind fun y => countNode (.union x y)
  | .single a => (countRule a).bind fun q => countNode (.single q)
  | .join f a b => (countRule a).bind fun x => (countRule b).bind fun y => countNode (.join f x y)

/-! ## `exact_count` -/

/-- Aggregates of one column. -/
inductive Fn where
  | exactCount
  | count (pushable : Bool)
  | other (name : String)
deriving DecidableEq, Repr

/-- An aggregate and the text of its argument. -/
structure Agg where
  fn : Fn
  arg : String
deriving DecidableEq, Repr

/-- The name of the column of an aggregate. -/
def Agg.name (a : Agg) : String :=
  (match a.fn with | .exactCount => "exact_count" | .count _ => "COUNT" | .other n => n) ++ ("(" ++ a.arg ++ ")")

/-- An item of the select list above an aggregation: a column of it, a column with another name, or something computed of it. -/
inductive Item where
  | col (n : String)
  | alias (n : String) (as : String)
  | expr (n : String)
deriving DecidableEq, Repr

/-- A projection above an aggregation. -/
structure Query where
  items : List Item
  groups : List String
  aggs : List Agg
deriving DecidableEq, Repr

/-- `strip_prefix("exact_count")`, then `COUNT` before the rest (transform_exact_count_to_count.rs:47-50). -/
def renamed (n : String) : Option String :=
  if "exact_count".toList.isPrefixOf n.toList then some ("COUNT" ++ String.ofList (n.toList.drop 11)) else none

/-- `transform_expressions` (transform_exact_count_to_count.rs:42-56) for an item: only columns are looked at. -/
def Item.renamed : Item → Option Item
  | .col n => (Verif.Rules.renamed n).map .col
  | _ => none

/-- `transform_aggregation` (transform_exact_count_to_count.rs:58-82) for an aggregate. -/
def Agg.counted (a : Agg) : Agg := match a.fn with
  | .exactCount => { a with fn := .count false }
  | _ => a

/-- A column that the aggregation has. -/
def Item.src : Item → String
  | .col n => n
  | .alias n _ => n
  | .expr n => n

/-- What DataFusion checks: the columns of an aggregation have different names, and the projection uses columns there are. -/
def Query.valid (q : Query) : Bool :=
  decide ((q.groups ++ q.aggs.map Agg.name).Nodup) && q.items.all fun i => decide (i.src ∈ q.groups ++ q.aggs.map Agg.name)

/-- `analyze_internal` (transform_exact_count_to_count.rs:25-39). -/
def exactRule (q : Query) : Except Unit Query :=
  if q.items.any fun i => i.renamed.isSome then
    let r := { q with items := q.items.map fun i => i.renamed.getD i, aggs := q.aggs.map Agg.counted }
    if r.valid then .ok r else .error ()
  else .ok q

/-! ## `topk` and `bottom` -/

/-- `ScalarValue`: the numbers that can stand for `k`, signed or not. -/
inductive Lit where
  | unsigned (v : Nat)
  | signed (v : Int)
  | other
deriving DecidableEq, Repr

/-- `extract_args_k` (transform_topk_func_to_topk_node.rs:135-156). -/
def argK : Lit → Option Nat
  | .unsigned v => if v < 256 then some v else none
  | .signed v => if 0 < v ∧ v < 256 then some v.toNat else none
  | .other => none

/-- The two selector functions. -/
inductive Sel where
  | topk | bottom
deriving DecidableEq, Repr

/-- Whether a value comes before another (`nulls_first: false` for both functions, transform_topk_func_to_topk_node.rs:45-52,
transform_bottom_func_to_topk_node.rs:47-54). -/
def Sel.le (s : Sel) : Option Int → Option Int → Bool
  | _, none => true
  | none, some _ => false
  | some a, some b => match s with | .topk => decide (b ≤ a) | .bottom => decide (a ≤ b)

/-- A row is put before the rows that do not come before it. -/
def put {R : Type} (le : R → R → Bool) (x : R) : List R → List R
  | [] => [x]
  | y :: l => if le x y then x :: y :: l else y :: put le x l

/-- The sort. -/
def sort {R : Type} (le : R → R → Bool) (l : List R) : List R := l.foldr (put le) []

/-- `do_transform` (transform_topk_func_to_topk_node.rs:40-72): sorted, and the first `k`. -/
def Sel.rows {R : Type} (s : Sel) (value : R → Option Int) (k : Nat) (rows : List R) : List R :=
  (sort (fun a b => s.le (value a) (value b)) rows).take k

end Verif.Rules
