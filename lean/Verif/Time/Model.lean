import Verif.Common.Int64
/-!
# Model: `TimeRange` and `TimeRanges` — `common/models/src/predicate/domain.rs`

`i64` is `Int` with wrapping (`wrap64`) at the places where the code adds or subtracts.
`BTreeMap<i64, i64>` is a list of pairs in ascending key order.
-/
namespace Verif.Time

/-- `struct TimeRange` (domain.rs:36-39): a closed interval. -/
structure TimeRange where
  minTs : Int
  maxTs : Int
deriving DecidableEq, Repr

/-- `std::ops::Bound<i64>`. -/
inductive Bound where
  | included (v : Int)
  | excluded (v : Int)
  | unbounded
deriving DecidableEq

namespace TimeRange

/-- `From<(Bound<i64>, Bound<i64>)> for TimeRange` (domain.rs:41-58). -/
def ofBounds (lo hi : Bound) : TimeRange where
  minTs := match lo with
    | .excluded v => wrap64 (v + 1)
    | .included v => v
    | .unbounded => i64Min
  maxTs := match hi with
    | .excluded v => wrap64 (v - 1)
    | .included v => v
    | .unbounded => i64Max

/-- `TimeRange::is_boundless` (domain.rs:81-83). -/
def isBoundless (r : TimeRange) : Bool := r.minTs = i64Min ∧ r.maxTs = i64Max

/-- `TimeRange::overlaps` (domain.rs:86-88). -/
def overlaps (a b : TimeRange) : Bool := !(decide (a.minTs > b.maxTs) || decide (a.maxTs < b.minTs))

/-- `TimeRange::includes` (domain.rs:91-93). -/
def includes (a b : TimeRange) : Bool := decide (a.minTs ≤ b.minTs) && decide (a.maxTs ≥ b.maxTs)

/-- `TimeRange::contains` (domain.rs:96-98). -/
def contains (a : TimeRange) (t : Int) : Bool := decide (t ≥ a.minTs) && decide (t ≤ a.maxTs)

/-- `TimeRange::intersect` (domain.rs:100-110). -/
def intersect (a b : TimeRange) : Option TimeRange :=
  if a.overlaps b then some ⟨max a.minTs b.minTs, min a.maxTs b.maxTs⟩ else none

/-- `TimeRange::total_time` (domain.rs:112-117): `i128` difference cast to `u64`, plus one (wrapping). -/
def totalTime (a : TimeRange) : Int :=
  if a.maxTs < a.minTs then 0
  else ((a.maxTs - a.minTs) % 18446744073709551616 + 1) % 18446744073709551616

/-- `TimeRange::merge` (domain.rs:120-123). -/
def merge (a b : TimeRange) : TimeRange := ⟨min a.minTs b.minTs, max a.maxTs b.maxTs⟩

/-- `TimeRange::is_none` (domain.rs:186-188). -/
def isNone (a : TimeRange) : Bool := decide (a.minTs > a.maxTs)

/-- `TimeRange::exclude` (domain.rs:125-151). -/
def exclude (a b : TimeRange) : Option TimeRange × Option TimeRange :=
  ( if a.minTs < b.minTs then some ⟨a.minTs, min a.maxTs (wrap64 (b.minTs - 1))⟩ else none,
    if a.maxTs > b.maxTs then some ⟨max a.minTs (wrap64 (b.maxTs + 1)), a.maxTs⟩ else none )

end TimeRange

/-- `struct TimeRanges` (domain.rs:228-233); `inner` ascending by key. -/
structure TimeRanges where
  inner : List (Int × Int)
  minTs : Int
  maxTs : Int
deriving DecidableEq

namespace TimeRanges

/-- `BTreeMap::insert` on an ascending list. -/
def btInsert (k v : Int) : List (Int × Int) → List (Int × Int)
  | [] => [(k, v)]
  | e :: l => if k < e.1 then (k, v) :: e :: l
              else if k = e.1 then (k, v) :: l
              else e :: btInsert k v l

/-- `TimeRanges::add_time_range` (domain.rs:236-266). -/
def addTimeRange (s : TimeRanges) (r : TimeRange) : TimeRanges :=
  let cands := ((s.inner.filter (fun e => e.1 ≤ satSucc r.maxTs)).reverse.takeWhile
    (fun e => satPred r.minTs ≤ e.2))
  let keys := cands.map Prod.fst
  let lo := match keys.getLast? with
    | none => r.minTs
    | some k => min r.minTs k
  let hi := match cands.head? with
    | none => r.maxTs
    | some e => max r.maxTs e.2
  { inner := btInsert lo hi (s.inner.filter (fun e => !keys.contains e.1))
    minTs := min s.minTs r.minTs
    maxTs := max s.maxTs r.maxTs }

/-- `TimeRanges::empty` (domain.rs:290-296). -/
def empty : TimeRanges := ⟨[], i64Max, i64Min⟩

/-- `TimeRanges::is_boundless` (domain.rs:344-346). -/
def isBoundless (s : TimeRanges) : Bool := s.minTs = i64Min ∧ s.maxTs = i64Max

/-- `TimeRanges::push` (domain.rs:299-304). -/
def push (s : TimeRanges) (r : TimeRange) : TimeRanges :=
  if s.isBoundless then s else s.addTimeRange r

/-- `TimeRanges::extend_from_slice` (domain.rs:307-314). -/
def extend (s : TimeRanges) (rs : List TimeRange) : TimeRanges :=
  if s.isBoundless then s else rs.foldl addTimeRange s

/-- `TimeRanges::new` (domain.rs:268-272). -/
def new (rs : List TimeRange) : TimeRanges := empty.extend rs

/-- `TimeRanges::with_inclusive_bounds` (domain.rs:274-280), also `From<(i64, i64)>`. -/
def withBounds (lo hi : Int) : TimeRanges := ⟨[(lo, hi)], lo, hi⟩

/-- `TimeRanges::all` (domain.rs:282-288). -/
def all : TimeRanges := ⟨[(i64Min, i64Max)], i64Min, i64Max⟩

/-- `TimeRanges::includes` (domain.rs:353-358). -/
def includes (s : TimeRanges) (r : TimeRange) : Bool :=
  match (s.inner.filter (fun e => e.1 ≤ r.maxTs)).getLast? with
  | some e => decide (r.maxTs ≤ e.2) && decide (r.minTs ≥ e.1)
  | none => false

/-- `TimeRanges::contains` (domain.rs:360-362). -/
def contains (s : TimeRanges) (t : Int) : Bool := s.includes ⟨t, t⟩

/-- `TimeRanges::time_ranges` (domain.rs:326-330). -/
def ranges (s : TimeRanges) : List TimeRange := s.inner.map fun e => ⟨e.1, e.2⟩

/-- `TimeRanges::overlaps` (domain.rs:348-351). -/
def overlaps (s : TimeRanges) (r : TimeRange) : Bool :=
  TimeRange.overlaps ⟨s.minTs, s.maxTs⟩ r && s.ranges.any (fun tr => tr.overlaps r)

/-- `TimeRanges::intersect` (domain.rs:364-380). -/
def intersect (s : TimeRanges) (r : TimeRange) : Option TimeRanges :=
  if s.overlaps r then
    let l := s.ranges.filterMap (fun tr => tr.intersect r)
    if l = [] then none else some (new l)
  else none

/-- `TimeRanges::exclude` (domain.rs:386-399). -/
def exclude (s : TimeRanges) (r : TimeRange) : TimeRanges :=
  new (s.ranges.flatMap fun tr =>
    let p := tr.exclude r
    p.1.toList ++ p.2.toList)

/-- `TimeRanges::exclude_time_ranges` (domain.rs:401-405). -/
def excludeAll (s : TimeRanges) (rs : List TimeRange) : TimeRanges := rs.foldl exclude s

end TimeRanges

/-- The loop of `TimeRange::exclude_time_ranges` (domain.rs:162-176) over the remaining ranges.
`none` is the early `return None` for an all-covering range. -/
def TimeRange.excludeLoop (self : TimeRange) :
    List (Int × Int) → Int → List TimeRange → Option (Int × List TimeRange)
  | [], tmp, acc => some (tmp, acc)
  | e :: es, tmp, acc =>
    if e.1 = i64Min ∧ e.2 = i64Max then none
    else if tmp > self.maxTs then some (tmp, acc)
    else if tmp ≤ e.2 ∧ self.maxTs ≥ e.1 then
      excludeLoop self es (satSucc e.2)
        (if e.1 > tmp then acc ++ [⟨tmp, wrap64 (e.1 - 1)⟩] else acc)
    else excludeLoop self es tmp acc

/-- `TimeRange::exclude_time_ranges` (domain.rs:153-184). -/
def TimeRange.excludeTimeRanges (self : TimeRange) (rs : TimeRanges) : Option TimeRanges :=
  if self.isNone then none
  else if rs.inner = [] then some (TimeRanges.new [self])
  else match self.excludeLoop rs.inner self.minTs [] with
    | none => none
    | some (tmp, acc) =>
      let acc := if tmp ≤ self.maxTs then acc ++ [⟨tmp, self.maxTs⟩] else acc
      if acc = [] then none else some (TimeRanges.new acc)

end Verif.Time
