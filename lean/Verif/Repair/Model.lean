import Verif.Common.Sort
/-!
# Model: repair and quality of series in queries

* `query_server/query/src/extension/expr/ts_gen_func/data_repair/value_fill.rs` — `value_fill`
* `…/data_repair/timestamp_repair.rs` — `timestamp_repair`
* `…/data_repair/value_repair.rs` — `value_repair`, method `screen`
* `query_server/query/src/extension/physical/plan_node/ts_gen_func/stream.rs`, `extension/utils.rs:71-220` — the rows they get
  and the columns they make
* `query_server/query/src/extension/expr/aggregate_function/data_quality/{accumulator,common}.rs` — `completeness`,
  `consistency`, `timeliness`, `validity`

Simplifications: numbers are exact rationals and not doubles, except where an integer becomes a double (`f64OfInt`), so that
nothing is rounded and nothing overflows.  Times are integers that do not wrap.  A value that is null or not finite is `none`.
Left out: parsing of the argument, the methods `cluster` and `lsgreedy`, the plan nodes; the rows come sorted by time
(`transform_ts_gen_func.rs:99-107`).  Counters of `u32` do not wrap.
-/
namespace Verif.Repair
open Verif.Sort (sortBy)

/-- How a call can fail: an answer to the client, or a panic. -/
inductive Err where
  | error | panic
deriving DecidableEq

/-- A value, `none` for null, NaN and the infinities. -/
abbrev Val := Option Rat

/-- What is in a cell of a result: a number, NaN, or memory that was never written. -/
inductive Cell where
  | num (q : Rat) | nan | junk
deriving DecidableEq

/-- A value as a cell. -/
def Cell.ofVal : Val → Cell
  | some q => .num q
  | none => .nan

/-- The value at an index. -/
def at' (l : List Val) (i : Nat) : Val := (l[i]?).join

/-- The number at an index that is known to hold one. -/
def numAt (l : List Val) (i : Nat) : Rat := (at' l i).getD 0

/-! ## `value_fill` -/

/-- `FillMethod` (value_fill.rs:25-31). -/
inductive FillMethod where
  | mean | previous | linear | ar | ma
deriving DecidableEq

/-- The known numbers. -/
def known (l : List Val) : List Rat := l.filterMap id

/-- Their mean (value_fill.rs:103-104). -/
def mean (l : List Val) : Rat := (known l).sum / ((known l).length : Rat)

/-- `fill_mean` (value_fill.rs:102-112). -/
def fillMean (l : List Val) : List Cell := l.map fun v => .num (v.getD (mean l))

/-- `fill_previous` (value_fill.rs:114-122), with the last number seen. -/
def fillPrevious (last : Val) : List Val → List Cell
  | [] => []
  | some q :: l => .num q :: fillPrevious (some q) l
  | none :: l => Cell.ofVal last :: fillPrevious last l

/-- A row of the loop of `fill_linear` (value_fill.rs:127-142): a number fills the gap before it. -/
def linearStep (o : List Val) (s : Option Nat × List Cell) (i : Nat) : Option Nat × List Cell :=
  match at' o i with
  | none => s
  | some v =>
    let k : Rat := match s.1 with
      | none => 0
      | some p => (v - numAt o p) / ((i : Rat) - (p : Rat))
    let first := match s.1 with
      | none => 0
      | some p => p + 1
    (some i, s.2.mapIdx fun t c =>
      if t = i then .num v else if first ≤ t ∧ t < i then .num (v + k * ((t : Rat) - (i : Rat))) else c)

/-- The gap at the end (value_fill.rs:143-149): `t` goes from the last number to the last but one cell. -/
def linearTail (o : List Val) (s : Option Nat × List Cell) : List Cell :=
  match s.1 with
  | none => s.2
  | some p => s.2.mapIdx fun t c => if p ≤ t ∧ t < o.length - 1 then .num (numAt o p) else c

/-- `fill_linear` (value_fill.rs:124-151): the vector has its length set without being written. -/
def fillLinear (o : List Val) : List Cell :=
  linearTail o ((List.range o.length).foldl (linearStep o) (none, o.map fun _ => .junk))

/-- The neighbours in a list (`windows(2)`). -/
def windows (l : List Val) : List (Val × Val) := l.zip l.tail

/-- The pairs of neighbours that are both known. -/
def pairs (l : List Val) : List (Rat × Rat) :=
  (windows l).filterMap fun w => match w with | (some a, some b) => some (a, b) | _ => none

/-- The sum of the squares of all but the last value (value_fill.rs:159-169). -/
def factor (l : List Val) : Rat := ((windows l).map fun w => w.1.getD 0 * w.1.getD 0).sum

/-- The coefficient of the model (value_fill.rs:159-176). -/
def theta (l : List Val) : Rat := ((windows l).map fun w => w.1.getD 0 * w.2.getD 0).sum / factor l

/-- The mean error of the model (value_fill.rs:177-193). -/
def meanEpsilon (l : List Val) : Rat :=
  ((pairs l).map fun p => p.2 - theta l * p.1).sum / ((pairs l).length : Rat)

/-- The rows of `fill_ar` (value_fill.rs:194-204), with the value of the row before. -/
def arRows (m th ep : Rat) (prev : Option Rat) : List Val → List Cell
  | [] => []
  | v :: l =>
    let q := match v with
      | some q => q
      | none => match prev with
        | some p => th * p + ep
        | none => m
    .num q :: arRows m th ep (some q) l

/-- `fill_ar` (value_fill.rs:153-207). -/
def fillAr (l : List Val) : Except Err (List Cell) :=
  if factor l = 0 ∨ pairs l = [] then .error .error
  else .ok (arRows (mean l) (theta l) (meanEpsilon l) none l)

/-- The window of `fill_ma`: sum, count and right end. -/
structure Win where
  sum : Rat
  cnt : Nat
  r : Nat

/-- A value enters the window. -/
def Win.add (w : Win) (v : Val) : Win := match v with
  | some q => { w with sum := w.sum + q, cnt := w.cnt + 1 }
  | none => w

/-- The first window (value_fill.rs:210-221). -/
def firstWin (l : List Val) : Win := (l.take 4).foldl Win.add ⟨0, 0, 4⟩

/-- The mean of a window: `0 / 0` is NaN. -/
def Win.mean (w : Win) : Cell := if w.cnt = 0 then .nan else .num (w.sum / (w.cnt : Rat))

/-- The rows of `fill_ma` (value_fill.rs:222-237).  What is left of the window stays in the sum. -/
def maRows (o : List Val) (w : Win) (i : Nat) : List Val → List Cell
  | [] => []
  | v :: l =>
    (match v with | some q => .num q | none => w.mean) ::
      maRows o (if i ≤ 2 ∨ o.length ≤ i + 3 then w else { w.add (at' o w.r) with r := w.r + 1 }) (i + 1) l

/-- `fill_ma` (value_fill.rs:209-238). -/
def fillMa (l : List Val) : List Cell := maRows l (firstWin l) 0 l

/-- `ValueFill` (value_fill.rs:63-100): nothing known is an error. -/
def fill (m : FillMethod) (l : List Val) : Except Err (List Cell) :=
  if known l = [] then .error .error
  else match m with
    | .mean => .ok (fillMean l)
    | .previous => .ok (fillPrevious none l)
    | .linear => .ok (fillLinear l)
    | .ar => fillAr l
    | .ma => .ok (fillMa l)

/-! ## `timestamp_repair` -/

/-- The distances of neighbours. -/
def gaps (ts : List Int) : List Int := (ts.zip ts.tail).map fun p => p.2 - p.1

/-- Ascending integers. -/
def sortInt (l : List Int) : List Int := sortBy (fun a b => decide (a ≤ b)) l

/-- `get_interval_median` (timestamp_repair.rs:335-347) and `interval_median` (value_repair.rs:79-91): the choice is made by
the number of times, and not by the number of intervals.  No times: `with_capacity(usize::MAX)`. -/
def intervalMedian (ts : List Int) : Except Err Int :=
  let g := sortInt (gaps ts)
  let n := ts.length
  if n = 0 then .error .panic
  else if n % 2 = 0 then match g[n / 2 - 1]?, g[n / 2]? with
    | some a, some b => .ok ((a + b).tdiv 2)
    | _, _ => .error .panic
  else match g[n / 2]? with
    | some a => .ok a
    | none => .error .panic

/-- How often every number is in a list, in the order of first occurrence; the code has a hash map. -/
def counts (l : List Int) : List (Int × Nat) := l.eraseDups.map fun x => (x, l.count x)

/-- The first key with the largest count, from a pass over the map in some order (timestamp_repair.rs:231-238, 324-331). -/
def maxKey (l : List (Int × Nat)) : Int :=
  (l.foldl (fun s e => if s.2 < e.2 then e else s) (0, 0)).1

/-- `get_interval_mode` (timestamp_repair.rs:317-333); `order` is the order of the hash map.  No times: the loop runs into an
index that is not there. -/
def intervalMode (order : List (Int × Nat) → List (Int × Nat)) (ts : List Int) : Except Err Int :=
  if ts = [] then .error .panic else .ok (maxKey (order (counts (gaps ts))))

/-- `getstart_linear` (timestamp_repair.rs:212-219). -/
def startLinear (ts : List Int) (d : Int) : Int :=
  ((ts.zipIdx.map fun e => e.1 - (e.2 : Int) * d).sum).tdiv (ts.length : Int)

/-- `while result > first_item { result -= delta }` (timestamp_repair.rs:246-248). -/
def stepDown (first d : Int) (r : Int) : Int :=
  if _h : first < r ∧ 0 < d then stepDown first d (r - d) else r
termination_by (r - first).toNat
decreasing_by omega

/-- The last time with a remainder (timestamp_repair.rs:239-244). -/
def lastWith (ts : List Int) (d key : Int) : Int :=
  ts.foldl (fun r t => if t.tmod d = key then t else r) 0

/-- `getstart_mode` (timestamp_repair.rs:221-250). -/
def startMode (order : List (Int × Nat) → List (Int × Nat)) (ts : List Int) (d : Int) : Int :=
  stepDown (ts.headD 0) d (lastWith ts d (maxKey (order (counts (ts.map fun t => t.tmod d)))))

/-- `Op` (timestamp_repair.rs:84-89). -/
inductive Op where
  | nothing | insert | remove
deriving DecidableEq

/-- `addcost` (timestamp_repair.rs:134). -/
def addCost : Int := 100000000000

/-- An entry of the tables `f` and `steps` (timestamp_repair.rs:147-169) for a time, a point of the grid and the three entries
before it. -/
def entry (t p diag up left : Int) : Int × Op :=
  if t = p then (diag, .nothing)
  else
    let best : Int × Op := if up < left then (up + addCost, .insert) else (left + addCost, .remove)
    if diag + (t - p).natAbs < best.1 then (diag + (t - p).natAbs, .nothing) else best

/-- The tables `f` and `steps` (timestamp_repair.rs:135-170) for the first `i` points of the grid and the first `j` times. -/
def table (start d : Int) (ts : List Int) : Nat → Nat → Int × Op
  | 0, j => (addCost * (j : Int), .remove)
  | i + 1, 0 => (addCost * ((i : Int) + 1), .insert)
  | i + 1, j + 1 => entry (ts.getD j 0) (start + d * (i : Int)) (table start d ts i j).1 (table start d ts i (j + 1)).1
      (table start d ts (i + 1) j).1
termination_by i j => i + j

/-- The walk back through the table (timestamp_repair.rs:171-189): rows that are not reached keep time 0 and value 0
(lines 131-132). -/
def walk (start d : Int) (ts : List Int) (vs : List Val) : Nat → Nat → List (Int × Cell)
  | 0, _ => []
  | i + 1, 0 => List.replicate (i + 1) (0, .num 0)
  | i + 1, j + 1 => match (table start d ts (i + 1) (j + 1)).2 with
    | .nothing => walk start d ts vs i j ++ [(start + d * (i : Int), Cell.ofVal (at' vs j))]
    | .insert => walk start d ts vs i (j + 1) ++ [(start + d * (i : Int), .nan)]
    | .remove => walk start d ts vs (i + 1) j
termination_by i j => i + j

/-- The number of points of the grid (timestamp_repair.rs:128-130), in exact arithmetic. -/
def gridSize (start d last : Int) : Nat := ((last - start + d - 1) / d + 1).toNat

/-- `dp_repair` (timestamp_repair.rs:119-192). -/
def dpRepair (start d : Int) (ts : List Int) (vs : List Val) : List (Int × Cell) :=
  if ts.length ≤ 2 then ts.zip (vs.map Cell.ofVal)
  else walk start d ts vs (gridSize start d (ts.getLastD 0)) ts.length

/-- `IntervalMode` (timestamp_repair.rs:28-33) without `cluster`. -/
inductive IntervalBy where
  | mode | median | given (ms : Int)

/-- `StartMode` (timestamp_repair.rs:46-49). -/
inductive StartBy where
  | linear | mode

/-- The interval (timestamp_repair.rs:57-82, 103-108). -/
def intervalOf (order : List (Int × Nat) → List (Int × Nat)) (ts : List Int) : IntervalBy → Except Err Int
  | .mode => intervalMode order ts
  | .median => intervalMedian ts
  | .given ms => if ms < 0 then .error .error else .ok (ms * 1000000)

/-- The start (timestamp_repair.rs:109-112). -/
def startOf (order : List (Int × Nat) → List (Int × Nat)) (ts : List Int) (d : Int) : StartBy → Int
  | .linear => startLinear ts d
  | .mode => startMode order ts d

/-- `timestamps_repair` (timestamp_repair.rs:91-117).  An interval of zero panics: `v % 0`, or a grid without end; with no
times, `sum / 0` or `timestamps[0]`. -/
def timestampRepair (order : List (Int × Nat) → List (Int × Nat)) (iv : IntervalBy) (sm : StartBy) (ts : List Int)
    (vs : List Val) : Except Err (List (Int × Cell)) :=
  match intervalOf order ts iv with
  | .error e => .error e
  | .ok d => if d = 0 ∨ ts = [] then .error .panic else .ok (dpRepair (startOf order ts d sm) d ts vs)

/-! ## `value_repair` -/

/-- The first index at or after `i` that holds a number, the length if there is none (value_repair.rs:120-127). -/
def nextKnown (l : List Val) (i : Nat) : Nat := if i < l.length ∧ at' l i = none then nextKnown l (i + 1) else i
termination_by l.length - i

/-- The line through the values at two indices, at the time of a third (value_repair.rs:134-137). -/
def line (ts : List Int) (l : List Val) (a b i : Nat) : Rat :=
  numAt l a + (numAt l b - numAt l a) * (((ts.getD i 0 - ts.getD a 0 : Int) : Rat) / ((ts.getD b 0 - ts.getD a 0 : Int) : Rat))

/-- Values between two indices are put on a line (value_repair.rs:133-138, 143-148, 151-156). -/
def putLine (ts : List Int) (l : List Val) (a b i j : Nat) : List Val :=
  l.mapIdx fun t v => if i ≤ t ∧ t < j then some (line ts l a b t) else v

/-- The loop over the rest (value_repair.rs:139-150): the last two numbers and the values so far. -/
def nanStep (ts : List Int) (s : Nat × Nat × List Val) (i : Nat) : Nat × Nat × List Val :=
  if at' s.2.2 i = none then s else (s.2.1, i, putLine ts s.2.2 s.2.1 i (s.2.1 + 1) i)

/-- `process_nan` (value_repair.rs:117-158). -/
def processNan (ts : List Int) (l : List Val) : Except Err (List Val) :=
  let n := l.length
  let i1 := nextKnown l 0
  let i2 := nextKnown l (i1 + 1)
  if n < i2 then .error .error
  else if i2 = n then .error .panic
  else
    let s := ((List.range n).filter fun i => decide (i2 < i)).foldl (nanStep ts) (i1, i2, putLine ts l i1 i2 0 i2)
    .ok (putLine ts s.2.2 s.1 s.2.1 (s.2.1 + 1) n)

/-- Ascending rationals. -/
def sortRat (l : List Rat) : List Rat := sortBy (fun a b => decide (a ≤ b)) l

/-- `f64_median` (value_repair.rs:93-102), `median` (data_quality/common.rs:220-233): no numbers at all panic. -/
def median (l : List Rat) : Except Err Rat :=
  let s := sortRat l
  let n := l.length
  if n = 0 then .error .panic
  else if n % 2 = 0 then .ok ((s.getD (n / 2 - 1) 0 + s.getD (n / 2) 0) / 2)
  else .ok (s.getD (n / 2) 0)

/-- The absolute value. -/
def absR (q : Rat) : Rat := if q < 0 then -q else q

/-- `mad` (value_repair.rs:104-111; data_quality/common.rs:235-242). -/
def mad (l : List Rat) : Except Err Rat :=
  match median l with
  | .error e => .error e
  | .ok m => (median (l.map fun v => absR (v - m))).map fun x => 14826 / 10000 * x

/-- `speed` (value_repair.rs:113-120). -/
def speeds (ts : List Int) (vs : List Rat) : List Rat :=
  ((ts.zip vs).zip (ts.zip vs).tail).map fun p => (p.2.2 - p.1.2) / ((p.2.1 - p.1.1 : Int) : Rat)

/-- How many of the following points are within the window (`get_median`, value_repair.rs:207-210). -/
def within (limit : Int) (rest : List (Int × Rat)) : List (Int × Rat) := rest.takeWhile fun p => decide (p.1 ≤ limit)

/-- `get_median` (value_repair.rs:206-220) for a point and the points pushed after it. -/
def getMedian (w : Int) (smin smax : Rat) (p : Int × Rat) (rest : List (Int × Rat)) : Rat :=
  let near := within (p.1 + w) rest
  let x := p.2 :: near.map (fun q => q.2 + smin * ((p.1 - q.1 : Int) : Rat)) ++
    near.map (fun q => q.2 + smax * ((p.1 - q.1 : Int) : Rat))
  (sortRat x).getD near.length 0

/-- `get_repaired_value` (value_repair.rs:222-239). -/
def clamp (smin smax : Rat) (prev p : Int × Rat) (mid : Rat) : Rat :=
  let xmin := prev.2 + smin * ((p.1 - prev.1 : Int) : Rat)
  let xmax := prev.2 + smax * ((p.1 - prev.1 : Int) : Rat)
  max xmin (min xmax mid)

/-- `local` (value_repair.rs:196-204): the first point is not clamped. -/
def repaired (smin smax : Rat) (prev : Option (Int × Rat)) (p : Int × Rat) (mid : Rat) : Rat :=
  match prev with
  | none => mid
  | some q => clamp smin smax q p mid

/-- `screen` (value_repair.rs:173-204) from some point on; `prev` is the point before as repaired.  In the code the points are
pushed one by one, and a point is repaired when the first point outside its window has been pushed or when there are no
more: `getMedian` sees the same points within the window. -/
def screenFrom (w : Int) (smin smax : Rat) : Option (Int × Rat) → List (Int × Rat) → List Rat
  | _, [] => []
  | prev, p :: rest =>
    let v := repaired smin smax prev p (getMedian w smin smax p rest)
    v :: screenFrom w smin smax (some (p.1, v)) rest

/-- `screen` (value_repair.rs:160-204). -/
def screen (smin smax : Option Rat) (ts : List Int) (vs : List Rat) : Except Err (List Rat) :=
  match intervalMedian ts, mad (speeds ts vs), median (speeds ts vs) with
  | .ok iv, .ok sigma, .ok mid =>
    .ok (screenFrom (5 * iv) (smin.getD (mid - 3 * sigma)) (smax.getD (mid + 3 * sigma)) none (ts.zip vs))
  | _, _, _ => .error .panic

/-- `value_repair` with `method=screen` (value_repair.rs:63-77). -/
def valueRepair (smin smax : Option Rat) (ts : List Int) (l : List Val) : Except Err (List Rat) :=
  match processNan ts l with
  | .error e => .error e
  | .ok vs => screen smin smax ts (vs.map fun v => v.getD 0)

/-! ## Columns -/

/-- A value of a numeric column. -/
inductive Num where
  | int (v : Int) | uint (v : Nat) | float (v : Val)
deriving DecidableEq

/-- The types of numeric columns. -/
inductive NumTy where
  | int | uint | float
deriving DecidableEq

/-- A number of bits `n` as the nearest double, ties to even (`as f64`). -/
def f64OfNat (n : Nat) : Nat :=
  if n < 2 ^ 53 then n
  else
    let s := n.log2 - 52
    let q := n / 2 ^ s
    let r := n % 2 ^ s
    let h := 2 ^ (s - 1)
    if r < h ∨ (r = h ∧ q % 2 = 0) then q * 2 ^ s else (q + 1) * 2 ^ s

/-- An integer as a double. -/
def f64OfInt (x : Int) : Int := if x < 0 then -(f64OfNat x.natAbs : Int) else f64OfNat x.natAbs

/-- A cell of a column as a double (utils.rs:84, 97). -/
def numVal : Option Num → Val
  | some (.int v) => some (f64OfInt v : Rat)
  | some (.float v) => v
  | _ => none

/-- A column as `numeric_arr_as_f64_iter` (utils.rs:71-115) reads it: unsigned columns are taken for signed ones. -/
def readNum (ty : NumTy) (l : List (Option Num)) : Except Err (List Val) :=
  match ty with
  | .uint => .error .error
  | _ => .ok (l.map numVal)

/-- `x as i64` of a double (utils.rs:190-192): towards zero, NaN is zero. -/
def toI64 (c : Cell) : Option Int := match c with
  | .num q => some (max (-(2 : Int) ^ 63) (min ((2 : Int) ^ 63 - 1) (q.num.tdiv q.den)))
  | .nan => some 0
  | .junk => none

/-- `f64_vec_to_numeric_arr` (utils.rs:187-201) for a signed column. -/
def writeInt (l : List Cell) : List (Option Int) := l.map toI64

/-- `value_fill` of a column of `BIGINT` (stream.rs:55-72, 130-147). -/
def fillInts (m : FillMethod) (l : List (Option Int)) : Except Err (List (Option Int)) :=
  match readNum .int (l.map fun x => x.map Num.int) with
  | .error e => .error e
  | .ok vs => (fill m vs).map writeInt

/-! ## Quality -/

/-- `scalar_to_f64` (accumulator.rs:181-193): there is no case for unsigned values. -/
def scalarToF64 : Option Num → Val
  | some (.int v) => some (f64OfInt v : Rat)
  | some (.float v) => v
  | _ => none

/-- A row for the quality functions. -/
abbrev Pt := Rat × Val

/-- `update_batch` (accumulator.rs:53-76): the series is assigned, not extended. -/
def updateBatch (_series batch : List Pt) : List Pt := batch

/-- `merge_batch` (accumulator.rs:131-178) of the states of the partitions. -/
def mergeStates (states : List (List Pt)) : List Pt := states.flatten

/-- A series as gathered: every partition gets its batches, then the states are merged. -/
def gather (parts : List (List (List Pt))) : List Pt := mergeStates (parts.map fun bs => bs.foldl updateBatch [])

/-- The ratio of two distances; a division by zero gives NaN or an infinity, which no test here accepts. -/
def ratio (a base : Rat) : Option Rat := if base = 0 then none else some (a / base)

/-- The counters of `DataSeriesQuality` that `time_detect` changes (common.rs:31-43). -/
structure Cnt where
  miss : Nat := 0
  late : Nat := 0
  redundant : Nat := 0
deriving DecidableEq

/-- `f64::round` of a number that is not negative. -/
def roundR (q : Rat) : Nat := (q + 1 / 2).floor.toNat

/-- The inner loop of `time_detect` (common.rs:138-153): from the element before `j` and the rest of the window; how many were
late, and what is left of the window. -/
def lateLoop (base : Rat) (target : Nat) (prev : Rat) (temp : Nat) : List Rat → Nat × List Rat
  | [] => (temp, [])
  | x :: xs =>
    match ratio (x - prev) base with
    | none => let s := lateLoop base target x temp xs; (s.1, x :: s.2)
    | some r =>
      if 2 ≤ r then (temp, x :: xs)
      else if r ≤ 1 / 2 then
        if temp + 1 = target then (temp + 1, xs) else lateLoop base target prev (temp + 1) xs
      else let s := lateLoop base target x temp xs; (s.1, x :: s.2)

/-- A round of the outer loop (common.rs:130-157) on a window of `a`, `b` and more: the counters, and the window without its
first element. -/
def detectStep (base a b : Rat) (win : List Rat) (c : Cnt) : Cnt × List Rat :=
  match ratio (b - a) base with
  | none => (c, b :: win)
  | some r =>
    if r ≤ 1 / 2 then ({ c with redundant := c.redundant + 1 }, win)
    else if 2 ≤ r ∧ r ≤ 9 then
      let s := lateLoop base (roundR (r - 1)) b 0 win
      ({ c with late := c.late + s.1, miss := c.miss + (roundR (r - 1) - s.1) }, b :: s.2)
    else (c, b :: win)

theorem lateLoop_length (base : Rat) (target : Nat) (win : List Rat) (prev : Rat) (temp : Nat) :
    (lateLoop base target prev temp win).2.length + (lateLoop base target prev temp win).1 = win.length + temp := by
  induction win generalizing prev temp with
  | nil => rw [lateLoop]
  | cons x xs ih =>
    rw [lateLoop]
    split
    · have := ih x temp; simp only [List.length_cons]; omega
    · rename_i r _
      by_cases h1 : 2 ≤ r
      · rw [if_pos h1]
      · rw [if_neg h1]
        by_cases h2 : r ≤ 1 / 2
        · rw [if_pos h2]
          by_cases h3 : temp + 1 = target
          · rw [if_pos h3]; simp only [List.length_cons]; omega
          · rw [if_neg h3]; have := ih prev (temp + 1); simp only [List.length_cons]; omega
        · rw [if_neg h2]; have := ih x temp; simp only [List.length_cons]; omega

theorem detectStep_length (base a b : Rat) (win : List Rat) (c : Cnt) :
    (detectStep base a b win c).2.length ≤ win.length + 1 := by
  rw [detectStep]
  split
  · simp
  · rename_i r _
    by_cases h1 : r ≤ 1 / 2
    · rw [if_pos h1]; simp
    · rw [if_neg h1]
      by_cases h2 : 2 ≤ r ∧ r ≤ 9
      · rw [if_pos h2]
        have := lateLoop_length base (roundR (r - 1)) win b 0
        simp only [List.length_cons]; omega
      · rw [if_neg h2]; simp

/-- The outer loop of `time_detect` (common.rs:130-163): the window is filled up to ten from what has not been looked at. -/
def detect (base : Rat) (win rest : List Rat) (c : Cnt) : Cnt :=
  match win with
  | a :: b :: more =>
    let s := detectStep base a b more c
    detect base (s.2 ++ rest.take (10 - s.2.length)) (rest.drop (10 - s.2.length)) s.1
  | _ => c
termination_by win.length + rest.length
decreasing_by
  have := detectStep_length base a b more c
  simp only [List.length_append, List.length_cons, List.length_take, List.length_drop]
  omega

/-- The distances of neighbours. -/
def gapsR (ts : List Rat) : List Rat := (ts.zip ts.tail).map fun p => p.2 - p.1

/-- `time_detect` (common.rs:113-164). -/
def timeDetect (ts : List Rat) : Except Err Cnt :=
  (median (gapsR ts)).map fun base => detect base (ts.take 10) (ts.drop 10) {}

/-- `findoutliers` (common.rs:166-176). -/
def outliers (l : List Rat) : Except Err Nat :=
  match median l, mad l with
  | .ok m, .ok s => .ok (l.countP fun v => decide (3 * s < absR (v - m)))
  | _, _ => .error .panic

/-- `nan_process` (common.rs:70-111): an error with less than two numbers; otherwise the values on the lines between the
nearest numbers, which is `processNan` on the times. -/
def enough (pts : List Pt) : Bool := decide (2 ≤ (known (pts.map (·.2))).length)

/-- Rows by time (accumulator.rs:80-81). -/
def sortPts (pts : List Pt) : List Pt := sortBy (fun a b => decide (a.1 ≤ b.1)) pts

/-- `completeness` (common.rs:200-202), with the counters of the times and the number of values that were not finite. -/
def completenessOf (pts : List Pt) (c : Cnt) : Rat :=
  1 - ((c.miss + (pts.countP fun p => p.2.isNone) : Nat) : Rat) / ((pts.length + c.miss : Nat) : Rat)

/-- The three scores of the times (accumulator.rs:83-100; common.rs:200-210). -/
inductive Score where
  | completeness | consistency | timeliness
deriving DecidableEq

/-- A score of a series (accumulator.rs:78-107). -/
def score (s : Score) (pts : List Pt) : Except Err Rat :=
  if enough pts then
    (timeDetect ((sortPts pts).map (·.1))).map fun c => match s with
      | .completeness => completenessOf pts c
      | .consistency => 1 - (c.redundant : Rat) / (pts.length : Rat)
      | .timeliness => 1 - (c.late : Rat) / (pts.length : Rat)
  else .error .error

/-- The distances of neighbouring values. -/
def variation (l : List Rat) : List Rat := (l.zip l.tail).map fun p => p.2 - p.1

/-- `value_detect` (common.rs:187-198) and `validity` (common.rs:212-216), of a series whose values are all numbers, sorted by
strictly ascending times. -/
def validityOf (ts vs : List Rat) : Except Err Rat :=
  let sp := ((ts.zip vs).zip (ts.zip vs).tail).map fun p => (p.2.2 - p.1.2) / (p.2.1 - p.1.1)
  match outliers vs, outliers (variation vs), outliers sp, outliers (variation sp) with
  | .ok a, .ok b, .ok c, .ok d => .ok (1 - 1 / 4 * ((a + b + c + d : Nat) : Rat) / (vs.length : Rat))
  | _, _, _, _ => .error .panic

end Verif.Repair
