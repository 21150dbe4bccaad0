import Verif.Utils.Model
import Verif.Page.Model
import Verif.Common.Sort
/-!
# Model: page statistics, skipping of column groups, rewriting of filters, reading of pages in batches

`tskv/src/tsm/page.rs`, `common/models/src/column_data_ref.rs`, `tskv/src/reader/chunk.rs`,
`tskv/src/reader/column_group/{statistics,mod}.rs`, `tskv/src/reader/utils.rs`,
`tskv/src/reader/filter.rs`.

DataFusion is an external crate whose source is not in the repository.  Its `PruningPredicate`
(`prune`, `skipping.lean` part below) is modelled after its documentation: a filter is rewritten
into a condition on the smallest and greatest values, which is evaluated for each column group; a
column group is skipped if the condition is false, and kept if it is true or NULL.
-/
namespace Verif.Stats

abbrev Name := List Byte

/-! ## Values and their comparison -/

/-- The value of a cell.  Times are `int`. -/
inductive Val where
  | int (x : U64) | uint (x : U64) | float (x : U64) | str (x : List Byte) | bool (x : Bool)
deriving DecidableEq

/-- `f64::is_nan` on the bits. -/
def isNan (x : U64) : Bool := decide (0x7ff0000000000000 < (x &&& 0x7fffffffffffffff#64).toNat)

/-- A number with the order of the floats that are not NaN; the two zeros have the same. -/
def fkey (x : U64) : Int := if x.msb then -((x &&& 0x7fffffffffffffff#64).toNat : Int) else x.toNat

/-- A number with the order of `f64::total_cmp`. -/
def tkey (x : U64) : Int := if x.msb then -((x &&& 0x7fffffffffffffff#64).toNat : Int) - 1 else x.toNat

/-- `<` of the statistics code on `f64` (IEEE 754). -/
def fltLt (x y : U64) : Bool := !isNan x && !isNan y && decide (fkey x < fkey y)

/-- The comparison of floats used by the query engine: that of IEEE 754, or its total order
(`f64::total_cmp`; the arrow kernels). -/
inductive FloatCmp where
  | ieee | total
deriving DecidableEq

/-- `a <= b` in the query engine. -/
def le (q : FloatCmp) : Val → Val → Bool
  | .int a, .int b => decide (a.toInt ≤ b.toInt)
  | .uint a, .uint b => decide (a.toNat ≤ b.toNat)
  | .float a, .float b => match q with
    | .ieee => !isNan a && !isNan b && decide (fkey a ≤ fkey b)
    | .total => decide (tkey a ≤ tkey b)
  | .str a, .str b => Utils.bytesLe a b
  | .bool a, .bool b => !a || b
  | _, _ => false

/-- `a < b` in the query engine. -/
def lt (q : FloatCmp) : Val → Val → Bool
  | .int a, .int b => decide (a.toInt < b.toInt)
  | .uint a, .uint b => decide (a.toNat < b.toNat)
  | .float a, .float b => match q with
    | .ieee => fltLt a b
    | .total => decide (tkey a < tkey b)
  | .str a, .str b => !Utils.bytesLe b a
  | .bool a, .bool b => !a && b
  | _, _ => false

/-- `a = b` in the query engine. -/
def eq (q : FloatCmp) : Val → Val → Bool
  | .float a, .float b => match q with
    | .ieee => !isNan a && !isNan b && decide (fkey a = fkey b)
    | .total => decide (a = b)
  | a, b => decide (a = b)

/-- Values of the same type. -/
def sameKind : Val → Val → Bool
  | .int _, .int _ | .uint _, .uint _ | .float _, .float _ | .str _, .str _ | .bool _, .bool _ => true
  | _, _ => false

/-- Comparison operators. -/
inductive Op where
  | eq | ne | lt | le | gt | ge
deriving DecidableEq

/-- The comparison operators on values of the same type. -/
def Op.on (q : FloatCmp) (a b : Val) : Op → Bool
  | .eq => Stats.eq q a b
  | .ne => !Stats.eq q a b
  | .lt => Stats.lt q a b
  | .le => Stats.le q a b
  | .gt => Stats.lt q b a
  | .ge => Stats.le q b a

/-- A comparison; NULL if one side is NULL.  (Sides of different types do not get here: the planner
inserts casts.) -/
def compare (q : FloatCmp) (op : Op) : Option Val → Option Val → Option Bool
  | some a, some b => if sameKind a b then some (op.on q a b) else none
  | _, _ => none

/-! ## Statistics of a page -/

/-- `ValueStatistics` (tsm/statistics.rs) without the distinct and null counts, which nothing reads. -/
structure Stat (α : Type) where
  min : Option α
  max : Option α
deriving DecidableEq

/-- `PageStatistics` (page.rs:606-613). -/
inductive PageStat where
  | bool (s : Stat Bool) | float (s : Stat U64) | int (s : Stat U64) | uint (s : Stat U64) | str (s : Stat (List Byte))
deriving DecidableEq

/-- `f64::MAX`, `f64::MIN`, `i64::MAX`, `i64::MIN`, `u64::MAX`. -/
def f64Max : U64 := 0x7fefffffffffffff#64
def f64Min : U64 := 0xffefffffffffffff#64
def i64MaxBits : U64 := 0x7fffffffffffffff#64
def i64MinBits : U64 := 0x8000000000000000#64
def u64MaxBits : U64 := 0xffffffffffffffff#64

/-- One value: `if *max < val { *max = val }; if *min > val { *min = val }`
(column_data_ref.rs:64-69, 84-89, 97-102, 113-118, 129-134; page.rs:141-146, 217-222, 247-252,
280-285). -/
def bump {α : Type} (lt : α → α → Bool) (s : α × α) (v : α) : α × α :=
  (if lt v s.1 then v else s.1, if lt s.2 v then v else s.2)

/-- `i64` comparison. -/
def ltI (a b : U64) : Bool := decide (a.toInt < b.toInt)
/-- `u64` comparison. -/
def ltU (a b : U64) : Bool := decide (a.toNat < b.toNat)
/-- `[u8]` comparison. -/
def ltS (a b : List Byte) : Bool := !Utils.bytesLe b a
/-- `bool` comparison: `*min & !val`, `!(*max) & val` (column_data_ref.rs:146-151). -/
def ltB (a b : Bool) : Bool := !a && b

/-- Smallest and greatest value, starting from given ones. -/
def bounds {α : Type} (lt : α → α → Bool) (start : α × α) (vals : List α) : Stat α :=
  let s := vals.foldl (bump lt) start
  ⟨some s.1, some s.2⟩

/-- The statistics of a page written by a flush: `ColumnDataRef::new`, `push`, `push_ts`
(column_data_ref.rs:37-158), `colref_to_page` (page.rs:512-575). -/
def flushStat : (k : Page.Kind) → List k.Val → PageStat
  | .time, vals => .int (bounds ltI (i64MaxBits, i64MinBits) vals)
  | .int, vals => .int (bounds ltI (i64MaxBits, i64MinBits) vals)
  | .uint, vals => .uint (bounds ltU (u64MaxBits, 0#64) vals)
  | .float, vals => .float (bounds fltLt (f64Max, f64Min) vals)
  | .bool, vals => .bool (bounds ltB (false, true) vals)
  | .str, vals => .str (bounds ltS ([], []) vals)

/-- `iter().min()` and `iter().max()` on byte strings. -/
def strBounds : List (List Byte) → Stat (List Byte)
  | [] => ⟨none, none⟩
  | v :: vs => bounds ltS (v, v) vs

/-- The statistics of a page written by a compaction: `arrow_array_to_page` (page.rs:107-331). -/
def compactStat : (k : Page.Kind) → List k.Val → PageStat
  | .time, vals => .int (bounds ltI (i64MaxBits, i64MinBits) vals)
  | .int, vals => .int (bounds ltI (i64MaxBits, i64MinBits) vals)
  | .uint, vals => .uint (bounds ltU (u64MaxBits, 0#64) vals)
  | .float, vals => .float (bounds fltLt (f64Max, f64Min) vals)
  | .bool, _ => .bool ⟨none, none⟩
  | .str, vals => .str (strBounds vals)

/-- The value of a page as a cell. -/
def cell : (k : Page.Kind) → k.Val → Val
  | .time, v => .int v
  | .int, v => .int v
  | .uint, v => .uint v
  | .float, v => .float v
  | .bool, v => .bool v
  | .str, v => .str v

/-- What is kept in memory of a page: name and type of the column, statistics. -/
structure PageMeta where
  name : Name
  kind : Page.Kind
  stat : PageStat

/-! ## Statistics of the column groups of a chunk -/

/-- The type of a scalar of the query engine. -/
inductive ScalarKind where
  | timestamp | int | uint | float | str | bool
deriving DecidableEq

/-- `DataType::from(column_type)` and `ScalarValue::try_from`: the type of the NULL used for a column
group without the column (statistics.rs:13-21). -/
def nullKind : Page.Kind → ScalarKind
  | .time => .timestamp | .int => .int | .uint => .uint | .float => .float | .bool => .bool | .str => .str

/-- The type of the scalars made from statistics (statistics.rs:28-37). -/
def PageStat.kind : PageStat → ScalarKind
  | .bool _ => .bool | .float _ => .float | .int _ => .int | .uint _ => .uint | .str _ => .str

/-- The scalar for the smallest value (statistics.rs:28-37). -/
def PageStat.lower (utf8 : List Byte → Bool) : PageStat → Option Val
  | .bool s => s.min.map .bool
  | .float s => s.min.map .float
  | .int s => s.min.map .int
  | .uint s => s.min.map .uint
  | .str s => (s.min.filter utf8).map .str

/-- The scalar for the greatest value (statistics.rs:60-69). -/
def PageStat.upper (utf8 : List Byte → Bool) : PageStat → Option Val
  | .bool s => s.max.map .bool
  | .float s => s.max.map .float
  | .int s => s.max.map .int
  | .uint s => s.max.map .uint
  | .str s => (s.max.filter utf8).map .str

/-- `pages().iter().find(|e| e.meta.column.name == column.name)` (statistics.rs:15-17, 24-27). -/
def findPage (cg : List PageMeta) (c : Name) : Option PageMeta := cg.find? fun p => decide (p.name = c)

/-- `min_values`, `max_values` (statistics.rs:12-73): one scalar for each column group, or nothing if
the first group has no such column or the scalars are not all of the type of the first
(`ScalarValue::iter_to_array`). -/
def statValues (get : PageStat → Option Val) (cgs : List (List PageMeta)) (c : Name) : Option (List (Option Val)) :=
  match cgs.head?.bind (findPage · c) with
  | none => none
  | some p =>
    let scalar (cg : List PageMeta) : ScalarKind × Option Val :=
      match findPage cg c with
      | none => (nullKind p.kind, none)
      | some p' => (p'.stat.kind, get p'.stat)
    if cgs.all fun cg => decide ((scalar cg).1 = p.stat.kind) then some (cgs.map fun cg => (scalar cg).2) else none

/-- The statistics of column group `i` as the pruning condition sees them: NULL when there are none. -/
def statAt (get : PageStat → Option Val) (cgs : List (List PageMeta)) (i : Nat) (c : Name) : Option Val :=
  match statValues get cgs c with
  | none => none
  | some vs => (vs[i]?).join

/-! ## Filters -/

/-- A row: the value of each column. -/
abbrev Row := Name → Option Val

/-- A filter (`PhysicalExpr` of type boolean).  `leaf`: any other expression without boolean
subexpressions, over some columns.  `fn1`, `fn2`: any other function of one or two boolean
expressions (`NOT`, `IS NULL`, `IS TRUE`, `=`, `CASE WHEN … `). -/
inductive Expr where
  | lit (b : Bool)
  | col (c : Name)
  | cmp (op : Op) (c : Name) (v : Option Val)
  | inList (neg : Bool) (c : Name) (vs : List Val)
  | leaf (cols : List Name) (f : Row → Option Bool)
  | and (l r : Expr)
  | or (l r : Expr)
  | not (e : Expr)
  | fn1 (f : Option Bool → Option Bool) (e : Expr)
  | fn2 (f : Option Bool → Option Bool → Option Bool) (l r : Expr)

/-- `AND` of SQL. -/
def and3 : Option Bool → Option Bool → Option Bool
  | some false, _ => some false
  | _, some false => some false
  | some true, some true => some true
  | _, _ => none

/-- `OR` of SQL. -/
def or3 : Option Bool → Option Bool → Option Bool
  | some true, _ => some true
  | _, some true => some true
  | some false, some false => some false
  | _, _ => none

/-- `NOT` of SQL. -/
def not3 (a : Option Bool) : Option Bool := a.map (!·)

/-- A boolean cell. -/
def asBool : Option Val → Option Bool
  | some (.bool b) => some b
  | _ => none

/-- The value of a filter for a row. -/
def eval (q : FloatCmp) (row : Row) : Expr → Option Bool
  | .lit b => some b
  | .col c => asBool (row c)
  | .cmp op c v => compare q op (row c) v
  | .inList neg c vs =>
    (row c).bind fun a =>
      if vs.all (sameKind a) then some (if neg then !vs.any (eq q a) else vs.any (eq q a)) else none
  | .leaf cols f => f fun c => if c ∈ cols then row c else none
  | .and l r => and3 (eval q row l) (eval q row r)
  | .or l r => or3 (eval q row l) (eval q row r)
  | .not e => not3 (eval q row e)
  | .fn1 f e => f (eval q row e)
  | .fn2 f l r => f (eval q row l) (eval q row r)

/-- The columns of a filter. -/
def Expr.cols : Expr → List Name
  | .lit _ => []
  | .col c => [c]
  | .cmp _ c _ => [c]
  | .inList _ c _ => [c]
  | .leaf cs _ => cs
  | .and l r => l.cols ++ r.cols
  | .or l r => l.cols ++ r.cols
  | .not e => e.cols
  | .fn1 _ e => e.cols
  | .fn2 _ l r => l.cols ++ r.cols

/-- `ColumnVistor`: is there a column that the file lacks? (utils.rs:233-248) -/
def lacks (file : List Name) (e : Expr) : Bool := e.cols.any fun c => !decide (c ∈ file)

/-- The `AND` and `OR` cases of `PredicateColumnsReassigner::mutate`, whose arguments are already
rewritten (utils.rs:271-299). -/
def mutateAnd (file : List Name) (l r : Expr) : Expr :=
  match lacks file l, lacks file r with
  | false, false => .and l r
  | true, true => .lit true
  | true, false => r
  | false, true => l

@[inherit_doc mutateAnd]
def mutateOr (file : List Name) (l r : Expr) : Expr :=
  match lacks file l, lacks file r with
  | false, false => .or l r
  | _, _ => .lit true

/-- `TreeNode::rewrite` with `PredicateColumnsReassigner` (utils.rs:250-300): children first. -/
def rewrite (file : List Name) : Expr → Expr
  | .and l r => mutateAnd file (rewrite file l) (rewrite file r)
  | .or l r => mutateOr file (rewrite file l) (rewrite file r)
  | .not e => .not (rewrite file e)
  | .fn1 f e => .fn1 f (rewrite file e)
  | .fn2 f l r => .fn2 f (rewrite file l) (rewrite file r)
  | e => e

/-- `reassign_predicate_columns` (utils.rs:197-226): outer `none` is an error (a column that is not
even in the full schema), inner `none` no filter. -/
def reassign (full file : List Name) (pred : Option Expr) : Option (Option Expr) :=
  match pred with
  | none => some none
  | some e =>
    if lacks (file ++ full) e then none
    else
      let e' := rewrite file e
      some (if lacks file e' then none else some e')

/-- `DataFilter` on the rows of one source (filter.rs:41-58, 86-118): the rows for which the rewritten
filter is true; `none` is an error. -/
def dataFilter (q : FloatCmp) (full file : List Name) (pred : Expr) (rows : List Row) : Option (List Row) :=
  (reassign full file (some pred)).map fun e =>
    match e with
    | none => rows
    | some e' => rows.filter fun r => decide (eval q r e' = some true)

/-! ## Skipping -/

/-- The condition on smallest and greatest value for a comparison (DataFusion
`build_statistics_expr`). -/
def pruneCmp (q : FloatCmp) (op : Op) (lo hi v : Option Val) : Option Bool :=
  match op with
  | .eq => and3 (compare q .le lo v) (compare q .le v hi)
  | .ne => or3 (compare q .ne lo v) (compare q .ne v hi)
  | .lt => compare q .lt lo v
  | .le => compare q .le lo v
  | .gt => compare q .gt hi v
  | .ge => compare q .ge hi v

/-- The pruning condition for one column group (DataFusion `build_predicate_expression`, evaluated):
what is not understood counts as true. -/
def prune (q : FloatCmp) (lo hi : Name → Option Val) : Expr → Option Bool
  | .col c => or3 (asBool (lo c)) (asBool (hi c))
  | .not (.col c) => not3 (and3 (asBool (lo c)) (asBool (hi c)))
  | .cmp op c v => pruneCmp q op (lo c) (hi c) v
  | .inList neg c vs =>
    if vs.isEmpty || decide (20 ≤ vs.length) then some true
    else if neg then (vs.map fun v => pruneCmp q .ne (lo c) (hi c) (some v)).foldl and3 (some true)
    else (vs.map fun v => pruneCmp q .eq (lo c) (hi c) (some v)).foldl or3 (some false)
  | .and l r => and3 (prune q lo hi l) (prune q lo hi r)
  | .or l r => or3 (prune q lo hi l) (prune q lo hi r)
  | _ => some true

/-- `Chunk::schema_with_metadata` (tsm/chunk.rs:134-145): the columns of the first column group. -/
def chunkSchema (cgs : List (List PageMeta)) : List Name :=
  match cgs with
  | [] => []
  | cg :: _ => cg.map (·.name)

/-- `filter_column_groups_indices` (reader/chunk.rs:30-50): which column groups are kept; `none` is an
error, `some none` means all. -/
def keepIndices (q : FloatCmp) (utf8 : List Byte → Bool) (full : List Name) (cgs : List (List PageMeta)) (pred : Option Expr) :
    Option (Option (List Bool)) :=
  (reassign full (chunkSchema cgs) pred).map fun e => e.map fun e' =>
    (List.range cgs.length).map fun i =>
      !decide (prune q (statAt (PageStat.lower utf8) cgs i) (statAt (PageStat.upper utf8) cgs i) e' = some false)

/-- `filter_column_groups` (reader/chunk.rs:12-28). -/
def filterGroups (q : FloatCmp) (utf8 : List Byte → Bool) (full : List Name) (cgs : List (List PageMeta)) (pred : Option Expr) :
    Option (List (List PageMeta)) :=
  (keepIndices q utf8 full cgs pred).map fun ks =>
    match ks with
    | none => cgs
    | some ks => ((ks.zip cgs).filter (·.1)).map (·.2)

/-! ## Reading the pages of a column group -/

/-- Where a page is (`PageWriteSpec`, page.rs:25-30). -/
structure Spec where
  id : Nat
  offset : Nat
  size : Nat
deriving DecidableEq

/-- One step of the loop of `merge_adjacent_pages` (column_group/mod.rs:227-236): finished batches, the
current batch, the end of its last page. -/
def mergeStep (s : List (List Spec) × List Spec × Nat) (p : Spec) : List (List Spec) × List Spec × Nat :=
  if s.2.1.isEmpty || decide (p.offset = s.2.2) then (s.1, s.2.1 ++ [p], p.offset + p.size)
  else (s.1 ++ [s.2.1], [p], p.offset + p.size)

/-- `merge_adjacent_pages` (column_group/mod.rs:222-243). -/
def mergeAdjacent (pages : List Spec) : List (List Spec) :=
  let s := pages.foldl mergeStep ([], [], 0)
  if s.2.1.isEmpty then s.1 else s.1 ++ [s.2.1]

/-- `read_at` into a buffer of zeros (file_system/file/raw_file.rs:21-46): behind the end of the file the
buffer stays as it is, and the number of bytes read is ignored. -/
def readAt (file : List Byte) (pos len : Nat) : List Byte := (List.range len).map fun i => file.getD (pos + i) 0#8

/-- The loop of `read_adjacent_pages` that cuts the buffer (reader.rs:250-264). -/
def cut (buf : List Byte) : Nat → List Spec → Option (List (Spec × List Byte))
  | _, [] => some []
  | off, p :: ps =>
    (Page.slice buf off (off + p.size)).bind fun b =>
      (Page.crcValidation b).bind fun ok =>
        if ok then (cut buf (off + p.size) ps).map ((p, b) :: ·) else none

/-- `TsmReader::read_adjacent_pages` (reader.rs:235-266): `pages_specs[0]` panics if there is none. -/
def readAdjacent (file : List Byte) (ps : List Spec) : Option (List (Spec × List Byte)) :=
  match ps with
  | [] => none
  | p :: _ => cut (readAt file p.offset (ps.map (·.size)).sum) 0 ps

/-- The pages of the projected columns: `ColumnGroupReader::try_new` (column_group/mod.rs:43-52). -/
def project (pages : List Spec) (projection : List Nat) : List Spec :=
  projection.filterMap fun c => pages.find? fun p => decide (p.id = c)

/-- The reading half of `read` (column_group/mod.rs:192-216). -/
def readPages (file : List Byte) (pages : List Spec) : Option (List (Spec × List Byte)) :=
  ((mergeAdjacent (Sort.sortBy (fun a b => decide (a.offset ≤ b.offset)) pages)).mapM (readAdjacent file)).map List.flatten

/-- Reading one page by itself: `read_page` (reader.rs:476-493). -/
def readOne (file : List Byte) (p : Spec) : Option (Spec × List Byte) :=
  let b := readAt file p.offset p.size
  (Page.crcValidation b).bind fun ok => if ok then some (p, b) else none

end Verif.Stats
