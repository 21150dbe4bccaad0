import Verif.Common.Sort
import Mathlib.Order.WithBot
import Mathlib.Order.Basic
/-!
# Model: value ranges and domains — `common/models/src/predicate/domain.rs`

`α` stands for the values of one ordered data type (integers, strings, timestamps, floats in total
order).  The Arrow data type of a marker is a number `ty`; since `of_ranges` refuses to mix types, it
is stored once per range set instead of in every marker.
-/
namespace Verif.Predicate

variable {α : Type} [LinearOrder α]

/-- `enum Bound` (domain.rs:425-433). -/
inductive Bd where
  | below | exactly | above
deriving DecidableEq

/-- `struct Marker` (domain.rs:447-452).  `neg` is `(None, Above)`, `pos` is `(None, Below)`;
`(None, Exactly)` is never constructed and has no counterpart. -/
inductive Marker (α : Type) where
  | neg
  | pos
  | at (v : α) (b : Bd)
deriving DecidableEq

/-- `Marker::cmp` (domain.rs:625-666).  The bound kind takes no part. -/
def Marker.cmp : Marker α → Marker α → Ordering
  | .pos, .pos => .eq
  | .pos, _ => .gt
  | .neg, .neg => .eq
  | .neg, _ => .lt
  | .at _ _, .pos => .lt
  | .at _ _, .neg => .gt
  | .at v _, .at w _ => if v < w then .lt else if v = w then .eq else .gt

/-- `cmp::max` on markers: the second argument when they compare equal. -/
def Marker.max (a b : Marker α) : Marker α := if a.cmp b = .gt then a else b
/-- `cmp::min` on markers: the first argument when they compare equal. -/
def Marker.min (a b : Marker α) : Marker α := if a.cmp b = .gt then b else a

/-- The field `bound`. -/
def Marker.bound : Marker α → Bd
  | .neg => .above
  | .pos => .below
  | .at _ b => b

/-- `struct Range` (domain.rs:687-691). -/
structure Range (α : Type) where
  low : Marker α
  high : Marker α
deriving DecidableEq

/-- `Operator` of a comparison. -/
inductive CmpOp where
  | eq | ne | lt | le | gt | ge
deriving DecidableEq

/-- `Range::{eq,ne,lt,le,gt,ge}` (domain.rs:803-849) as selected by `get_range_fn`
(transformation.rs:144-158). -/
def rangesOf (op : CmpOp) (v : α) : List (Range α) :=
  match op with
  | .eq => [⟨.at v .exactly, .at v .exactly⟩]
  | .ne => [⟨.neg, .at v .below⟩, ⟨.at v .above, .pos⟩]
  | .lt => [⟨.neg, .at v .below⟩]
  | .le => [⟨.neg, .at v .exactly⟩]
  | .gt => [⟨.at v .above, .pos⟩]
  | .ge => [⟨.at v .exactly, .pos⟩]

/-- `Range::overlaps` for equal data types (domain.rs:886-899). -/
def Range.overlaps (a b : Range α) : Bool :=
  if a.low.cmp b.high ≠ .gt ∧ b.low.cmp a.high ≠ .gt then
    !(a.high.cmp b.low = .eq ∧ a.high.bound = .below ∧ b.low.bound = .above)
  else false

/-- The range built by `Range::intersect` once `overlaps` holds (domain.rs:903-921). -/
def Range.inter (a b : Range α) : Range α := ⟨Marker.max a.low b.low, Marker.min a.high b.high⟩

/-- The range built by `Range::span` once `overlaps` holds (domain.rs:927-945). -/
def Range.span (a b : Range α) : Range α := ⟨Marker.min a.low b.low, Marker.max a.high b.high⟩

/-- `BTreeMap::insert` keyed by the low marker, on the ascending list of values. -/
def btInsert (r : Range α) : List (Range α) → List (Range α)
  | [] => [r]
  | e :: l => match r.low.cmp e.low with
    | .lt => r :: e :: l
    | .eq => r :: l
    | .gt => e :: btInsert r l

/-- The loop of `Domain::of_ranges` (domain.rs:1152-1176). -/
def ofRangesLoop : Range α → List (Range α) → List (Range α) → List (Range α)
  | cur, [], acc => btInsert cur acc
  | cur, next :: rest, acc =>
    if cur.overlaps next then ofRangesLoop (cur.span next) rest acc
    else ofRangesLoop next rest (btInsert cur acc)

/-- Stable `sort_by` on the low marker (domain.rs:1145). -/
def sortByLow (l : List (Range α)) : List (Range α) :=
  Sort.sortBy (fun a b => decide (a.low.cmp b.low ≠ .gt)) l

/-- `Domain::of_ranges` for one data type (domain.rs:1139-1179): the coalesced ranges, in ascending
order.  The empty list stands for `Domain::None`. -/
def ofRanges (rs : List (Range α)) : List (Range α) :=
  match sortByLow rs with
  | [] => []
  | cur :: rest => ofRangesLoop cur rest []

/-- The loop of `Domain::range_intersect` (domain.rs:1254-1278), with the current ranges at the heads. -/
def rangeIntersectLoop : List (Range α) → List (Range α) → List (Range α)
  | [], _ => []
  | _ :: _, [] => []
  | f :: fs, o :: os =>
    let rest := if f.high.cmp o.high ≠ .gt then rangeIntersectLoop fs (o :: os)
      else rangeIntersectLoop (f :: fs) os
    if f.overlaps o then f.inter o :: rest else rest
termination_by fs os => fs.length + os.length

/-- `enum Domain` (domain.rs:1125-1131).  `range ty rs`: ranges of values of data type `ty`;
`equ wl es`: a white or black list of boolean values (the only unordered type modelled). -/
inductive Domain (α : Type) where
  | range (ty : Nat) (rs : List (Range α))
  | equ (wl : Bool) (es : List Bool)
  | none
  | all
deriving DecidableEq

/-- Wrapping the result of `of_ranges`. -/
def Domain.ofRangeList (ty : Nat) (rs : List (Range α)) : Domain α :=
  match ofRanges rs with
  | [] => .none
  | l => .range ty l

/-- `Domain::value_intersect` (domain.rs:1293-1363); `HashSet` as list. -/
def valueIntersect (w1 : Bool) (e1 : List Bool) (w2 : Bool) (e2 : List Bool) : Domain α :=
  match w1, w2 with
  | true, true => .equ true (e1.filter (fun e => e2.contains e))
  | true, false => .equ true (e1.filter (fun e => !e2.contains e))
  | false, true => .equ true (e2.filter (fun e => !e1.contains e))
  | false, false => .equ false (e2 ++ e1)

/-- `Domain::value_union` (domain.rs:1380-1428). -/
def valueUnion (w1 : Bool) (e1 : List Bool) (w2 : Bool) (e2 : List Bool) : Domain α :=
  match w1, w2 with
  | true, true => .equ true (e1 ++ e2)
  | true, false => .equ false (e2.filter (fun e => !e1.contains e))
  | false, true => .equ false (e1.filter (fun e => !e2.contains e))
  | false, false => .equ false (e2.filter (fun e => e1.contains e))

/-- `Domain::intersect(..).unwrap_or(Domain::None)` (domain.rs:1199-1217, 1528).  Every error of
`intersect` (different data types, ordered against unordered) is turned into `None` by the caller. -/
def Domain.inter : Domain α → Domain α → Domain α
  | .range t1 r1, .range t2 r2 =>
    if t1 = t2 then Domain.ofRangeList t1 (rangeIntersectLoop r1 r2) else .none
  | .equ w1 e1, .equ w2 e2 => valueIntersect w1 e1 w2 e2
  | .none, _ => .none
  | _, .none => .none
  | .all, o => o
  | s, .all => s
  | _, _ => .none

/-- `Domain::union(..).unwrap_or(Domain::All)` (domain.rs:1223-1241, 1554).  Simplified: for two
different data types the code sorts before checking types and may panic instead. -/
def Domain.union : Domain α → Domain α → Domain α
  | .range t1 r1, .range t2 r2 =>
    if t1 = t2 then Domain.ofRangeList t1 (r1 ++ r2) else .all
  | .equ w1 e1, .equ w2 e2 => valueUnion w1 e1 w2 e2
  | .none, o => o
  | s, .none => s
  | .all, _ => .all
  | _, .all => .all
  | _, _ => .all

/-- `ColumnDomains` (domain.rs:1443-1450): `none` matches nothing; otherwise a map from columns to
domains, absent columns being unrestricted. -/
abbrev ColumnDomains (α : Type) := Option (List (Nat × Domain α))

namespace ColumnDomains

/-- `ColumnDomains::all` (domain.rs:1460-1464). -/
def all : ColumnDomains α := some []

/-- `ColumnDomains::of` (domain.rs:1470-1477). -/
def of (c : Nat) (d : Domain α) : ColumnDomains α := some [(c, d)]

/-- `HashMap::get`. -/
def get (m : List (Nat × Domain α)) (c : Nat) : Option (Domain α) :=
  (m.find? (fun e => e.1 = c)).map Prod.snd

/-- One step of the `for_each` of `intersect`: `and_modify … or_insert` (domain.rs:1525-1531). -/
def interStep (m : List (Nat × Domain α)) (e : Nat × Domain α) : List (Nat × Domain α) :=
  match get m e.1 with
  | some _ => m.map (fun x => if x.1 = e.1 then (x.1, x.2.inter e.2) else x)
  | none => m ++ [e]

/-- `ColumnDomains::intersect` (domain.rs:1518-1539). -/
def inter : ColumnDomains α → ColumnDomains α → ColumnDomains α
  | some m1, some m2 => some (m2.foldl interStep m1)
  | _, none => none
  | none, _ => none

/-- `ColumnDomains::column_wise_union` (domain.rs:1545-1567): only columns restricted on both sides
stay restricted. -/
def union : ColumnDomains α → ColumnDomains α → ColumnDomains α
  | some m1, some m2 =>
    some (m2.filterMap (fun e => (get m1 e.1).map (fun v1 => (e.1, v1.union e.2))))
  | s, none => s
  | none, o => o

end ColumnDomains

/-! ## What the consumers read out of a domain -/

/-- `From<&Marker> for Bound` (domain.rs:511-529) as a lower bound on `x`. -/
def Marker.admitsAbove : Marker α → α → Prop
  | .neg, _ => True
  | .pos, _ => True
  | .at v .exactly, x => v ≤ x
  | .at v _, x => v < x

/-- `From<&Marker> for Bound` (domain.rs:511-529) as an upper bound on `x`. -/
def Marker.admitsBelow : Marker α → α → Prop
  | .neg, _ => True
  | .pos, _ => True
  | .at v .exactly, x => x ≤ v
  | .at v _, x => x < v

/-- The values a range describes (`RangeBounds for Range`, domain.rs:693-701). -/
def Range.Mem (r : Range α) (x : α) : Prop := r.low.admitsAbove x ∧ r.high.admitsBelow x

end Verif.Predicate
