import Verif.Common.Sort

/-!
# Model: what plan nodes promise about the order of their rows, and limits of scans

* `query_server/query/src/extension/physical/plan_node/expand.rs` (`ExpandExec`: `try_new`, `output_ordering`,
  `maintains_input_order`, `ExpandStream`)
* `query_server/query/src/extension/physical/plan_node/tskv_exec.rs` (`output_ordering`, `TableScanStream`)
* `query_server/query/src/extension/physical/plan_node/{assert/mod,watermark,traced_proxy}.rs` (`output_ordering`, streams)
* `query_server/query/src/extension/analyse/transform_time_window.rs` (`build_sliding_window_plan`)
* `common/models/src/datafusion/limit_record_batch.rs`, used in `tskv_exec.rs`, `tskv/src/reader/series.rs` and
  `tskv/src/reader/paralle_merge.rs`
* of DataFusion: `SortExec`, `FilterExec`, `GlobalLimitExec`, and the rule `EnforceSorting`, which leaves out a sort of rows
  that are promised to be in this order

One partition is modelled, rows are lists of integers, and an order is ascending by one column.
-/
namespace Verif.Order

abbrev Name := List Char
abbrev Row := List Int
abbrev Batch := List Row

/-- `PhysicalExpr`: a column of the input, or anything else. -/
inductive Expr where
  | col (i : Nat)
  | other (f : Row → Int)

def Expr.eval (r : Row) : Expr → Int
  | .col i => r.getD i 0
  | .other f => f r

/-- `Column` is told apart by name and place. -/
abbrev Column := Name × Nat

inductive Plan where
  /-- `TskvExec` and other scans: nothing is promised (tskv_exec.rs:86-88) -/
  | scan (names : List Name) (batches : List Batch)
  | sort (c : Nat) (p : Plan)
  | filter (f : Row → Bool) (p : Plan)
  | limit (n : Nat) (p : Plan)
  | expand (names : List Name) (projections : List (List Expr)) (p : Plan)
  | assert (ok : Batch → Bool) (p : Plan)
  | watermark (p : Plan)
  | traced (p : Plan)

/-- The names of the columns. -/
def Plan.names : Plan → List Name
  | .scan n _ => n
  | .sort _ p => p.names
  | .filter _ p => p.names
  | .limit _ p => p.names
  | .expand n _ _ => n
  | .assert _ p => p.names
  | .watermark p => p.names
  | .traced p => p.names

/-- The names under which a column of the input is in the output at another place or under another name (`alias_map`,
expand.rs:70-81): the first of them, if any.  `j` is the place of the first expression. -/
def alias (out : List Name) (c : Column) : List Name → List Expr → Option Column
  | n :: ns, .col i :: es =>
    if i = c.2 ∧ (c.1 ≠ n ∨ c.2 ≠ out.idxOf n) then some (n, out.idxOf n) else alias out c ns es
  | _ :: ns, .other _ :: es => alias out c ns es
  | _, _ => none

/-- `normalize_out_expr_with_columns_map` for a column (expand.rs:84-103). -/
def renamed (out : List Name) (es : List Expr) (c : Column) : Column := (alias out c out es).getD c

/-- `output_ordering`. -/
def Plan.promise : Plan → Option Column
  | .scan _ _ => none
  | .sort c p => some (p.names.getD c [], c)
  | .filter _ p => p.promise
  | .limit _ p => p.promise
  | .expand out es p => p.promise.map (renamed out (es.headD []))
  | .assert _ p => p.promise
  | .watermark p => p.promise
  | .traced p => p.promise

/-- Order of rows by a column. -/
def rowLe (c : Nat) (a b : Row) : Bool := decide (a.getD c 0 ≤ b.getD c 0)

/-- `batch_project` for a row (expand.rs:303-325). -/
def project (es : List Expr) (r : Row) : Row := es.map (Expr.eval r)

/-- `ExpandStream::poll_next` for a batch: the rows of the first projection, then those of the next (expand.rs:339-355). -/
def expandBatch (projections : List (List Expr)) (b : Batch) : Batch := projections.flatMap fun es => b.map (project es)

/-- The batches that a plan gives; `none` is an error. -/
def Plan.run : Plan → Option (List Batch)
  | .scan _ bs => some bs
  | .sort c p => p.run.map fun bs => [Sort.sortBy (rowLe c) bs.flatten]
  | .filter f p => p.run.map fun bs => bs.map (List.filter f)
  | .limit n p => p.run.map fun bs => [bs.flatten.take n]
  | .expand _ es p => p.run.map fun bs => bs.map (expandBatch es)
  | .assert ok p => match p.run with
    | some bs => if bs.all ok then some bs else none
    | none => none
  | .watermark p => p.run
  | .traced p => p.run

/-- `ORDER BY` a column of a plan: a sort that is already promised is left out. -/
def orderBy (c : Nat) (p : Plan) : Plan :=
  if p.promise = some (p.names.getD c [], c) then p else .sort c p

/-- `build_sliding_window_plan` (transform_time_window.rs:327-386), without the filter: one projection for each window, the
window first and then all columns. -/
def slidingWindow (window : Name) (windows : List (Row → Int)) (p : Plan) : Plan :=
  .expand (window :: p.names) (windows.map fun w => .other w :: (List.range p.names.length).map .col) p

/-- `limit_record_batch` (limit_record_batch.rs:3-19): what is left of the limit, and the batch; no batch ends the stream. -/
def limitBatch : Option Nat → Batch → Option Nat × Option Batch
  | none, b => (none, some b)
  | some n, b =>
    if n = 0 then (some n, none)
    else if b.length < n then (some (n - b.length), some b)
    else (some 0, some (b.take n))

/-- `TableScanStream::poll_next` until it ends (tskv_exec.rs:320-346). -/
def scanLimit : Option Nat → List Batch → List Batch
  | _, [] => []
  | n, b :: bs => match limitBatch n b with
    | (m, some x) => x :: scanLimit m bs
    | (_, none) => []

end Verif.Order
