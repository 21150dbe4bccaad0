import Verif.Common.Int64
/-!
# Model of `time_window`

`query_server/query/src/extension/analyse/transform_time_window.rs` and
`query_server/query/src/extension/expr/window/time_window.rs`.

Times are nanoseconds. The time column is taken to be of that unit already (`cast(time_column, ns_type)`, line 254, changes
nothing then). Arithmetic on `Int64` columns wraps, as in Rust release builds; `%` is the truncated remainder.
-/
namespace Verif.Window

/-- A window, from its start (inclusive) to its end (exclusive). -/
abbrev Win := Int × Int

/-- Errors of `time_window`: `InvalidTimeWindowParam` and "Too many overlapping windows". -/
inductive Err | duration | overlapping
  deriving DecidableEq, Repr

/-- `models::duration::DAY`, in milliseconds (`common/models/src/duration.rs:11`). -/
def day : Nat := 86400000

/-- `parse_duration_arg`, from the nanoseconds of the interval on: `Duration::from_nanos(duration as u64)`
(`transform_time_window.rs:149-168`). -/
def durationArg (nano : Int) : Nat := (nano % 18446744073709551616).toNat

/-- `valid_duration` (`transform_time_window.rs:137-145`): whole milliseconds decide. -/
def validDuration (ns : Nat) : Except Err Nat :=
  if ns / 1000000 > 365 * day ∨ ns / 1000000 = 0 then .error .duration else .ok ns

/-- `make_window_expr` (`transform_time_window.rs:239-290`): the start of the latest window of time `t`. -/
def lastStart (w s : Nat) (start t : Int) : Int :=
  wrap64 (t - (wrap64 (wrap64 (t - start.tmod w) + s)).tmod s)

/-- `make_window_expr` (`transform_time_window.rs:239-290`), and `sliding_window` (`time_window.rs:185-199`), which computes the
same and is used by tests only: the window `i` slides before the latest one. -/
def window (w s : Nat) (start t : Int) (i : Nat) : Win :=
  let a := wrap64 (lastStart w s start t - wrap64 (i * s))
  (a, wrap64 (a + w))

/-- The number of windows computed for each row (`transform_time_window.rs:341`). -/
def overlapping (w s : Nat) : Nat := (w + s - 1) / s

/-- `build_tumbling_window_plan` (`transform_time_window.rs:297-317`) for one row: rows without time are dropped. -/
def tumbling (w : Nat) (start : Int) : Option Int → List Win
  | none => []
  | some t => [window w w start t 0]

/-- The condition of the filter above the expansion (`transform_time_window.rs:355-373`). The second form looks at the first of the
windows of the row, whichever window the expanded row has. -/
def keeps (w s : Nat) (start t : Int) : Bool :=
  if w % s = 0 then true
  else
    let f := window w s start t 0
    decide (f.1 ≤ t) && decide (t < f.2)

/-- `build_sliding_window_plan` (`transform_time_window.rs:324-395`) for one row: the row is repeated for each window, then filtered. -/
def sliding (w s : Nat) (start : Int) : Option Int → List Win
  | none => []
  | some t => if keeps w s start t then (List.range (overlapping w s)).map (window w s start t) else []

/-- `analyze_internal` and `make_time_window` (`transform_time_window.rs:41-135`): arguments, checks, and the plan for a table. The
slide is the window if it is not given, the start the epoch. -/
def timeWindow {α : Type} (wArg : Int) (sArg : Option Int) (start : Option Int) (rows : List (Option Int × α)) :
    Except Err (List (Win × (Option Int × α))) :=
  (validDuration (durationArg wArg)).bind fun w =>
  ((match sArg with
    | none => .ok w
    | some x => validDuration (durationArg x) : Except Err Nat)).bind fun s =>
  let st := start.getD 0
  if w = s then .ok (rows.flatMap fun r => (tumbling w st r.1).map fun x => (x, r))
  else if overlapping w s > 100 then .error .overlapping
  else .ok (rows.flatMap fun r => (sliding w s st r.1).map fun x => (x, r))

end Verif.Window
