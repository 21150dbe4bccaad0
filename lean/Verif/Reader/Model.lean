import Verif.Time.Model
/-!
# Model: merging overlapping sources of a series

* `tskv/src/reader/sort_merge.rs:60-390` — `ColumnCursor`, `SortPreservingMergeStream` with its tree of losers
* `tskv/src/reader/batch_builder.rs` — `BatchMergeBuilder`
* `tskv/src/reader/partitioned_stream.rs` — `FusedStreams`, `ColumnCursorStream`

Simplifications: the time column is the first column, it has no nulls; a batch is the list of its rows, a row has its time and the
cells of the other columns; an input never yields an error (an error is passed on and ends the query); an index `usize::MAX` in
the tree is `none`; an index out of bounds is a failure of `push_row` or has no effect (the tree only has nodes below the number of
inputs).  An input may be not ready (`Poll::Pending`) any number of times at any place.
-/
namespace Verif.Reader

variable {α : Type}

/-- A row of a `RecordBatch`. -/
structure Row (α : Type) where
  ts : Int
  cells : List (Option α)
deriving DecidableEq, Repr

/-- What polling an input once gives: nothing yet, or a batch. -/
inductive Item (α : Type) where
  | pending
  | batch (rows : List (Row α))

/-- The rest of an input; when it is empty, `poll_next` gives `None` again and again (`Fuse`). -/
abbrev Input (α : Type) := List (Item α)

/-- `FusedStreams::poll_next` (partitioned_stream.rs:41-53): empty batches are skipped.  The outer `none` is `Pending`. -/
def pollInput : Input α → Option (Option (List (Row α))) × Input α
  | [] => (some none, [])
  | .pending :: r => (none, r)
  | .batch [] :: r => pollInput r
  | .batch (x :: b) :: r => (some (some (x :: b)), r)

/-- `struct ColumnCursor` (sort_merge.rs:60-69): the times of a batch and a position. -/
structure Cursor where
  values : List Int
  offset : Nat
deriving DecidableEq

/-! ## The builder -/

/-- `struct BatchMergeBuilder` (batch_builder.rs:22-44).  `cursors` is the position (batch, row) of each input, `indices` has one list
for the time column and one for each other column. -/
structure Builder (α : Type) where
  batches : List (List (Row α))
  cursors : List (Nat × Nat)
  indices : List (List (Nat × Nat))
  last : Option (Nat × Nat)
  same : List (Nat × Nat)

/-- `BatchMergeBuilder::new` (batch_builder.rs:48-61) for `cols` columns besides the time. -/
def Builder.new (cols inputs : Nat) : Builder α :=
  ⟨[], List.replicate inputs (0, 0), List.replicate (cols + 1) [], none, []⟩

/-- `push_batch` (batch_builder.rs:64-71). -/
def Builder.pushBatch (i : Nat) (rows : List (Row α)) (b : Builder α) : Builder α :=
  { b with batches := b.batches ++ [rows], cursors := b.cursors.set i (b.batches.length, 0) }

/-- The row at a position. -/
def Builder.row (b : Builder α) (p : Nat × Nat) : Option (Row α) := (b.batches[p.1]?).bind fun rows => rows[p.2]?

/-- `is_valid` of column `c` at a position; column 0 is the time. -/
def Builder.valid (b : Builder α) (c : Nat) (p : Nat × Nat) : Bool :=
  match c with
  | 0 => true
  | c + 1 => (((b.row p).bind fun r => r.cells[c]?).join).isSome

/-- The inner loop of `take_last_and_merge` (batch_builder.rs:133-142) on the positions from the last to the first. -/
def Builder.pick (b : Builder α) (c : Nat) : List (Nat × Nat) → List (Nat × Nat)
  | [] => []
  | p :: ps => if b.valid c p || ps.isEmpty then [p] else b.pick c ps

/-- `take_last_and_merge` (batch_builder.rs:124-147). -/
def Builder.takeLast (b : Builder α) : Builder α :=
  match b.same with
  | [] => b
  | [p] => { b with indices := b.indices.map (· ++ [p]), same := [] }
  | ps => { b with indices := b.indices.mapIdx fun c l => l ++ b.pick c ps.reverse, same := [] }

/-- `push_row` (batch_builder.rs:74-122); `none` is the error "data in stream is not sorted" (or a panic). -/
def Builder.pushRow (i : Nat) (b : Builder α) : Option (Builder α) :=
  let p := b.cursors.getD i (0, 0)
  let b := { b with cursors := b.cursors.set i (p.1, p.2 + 1) }
  match b.last with
  | none => some { b with last := some p, same := b.same ++ [p] }
  | some l =>
    match b.row l, b.row p with
    | some x, some y =>
      if x.ts = y.ts then some { b with last := some p, same := b.same ++ [p] }
      else if x.ts < y.ts then
        let b := { b with last := some p }.takeLast
        some { b with same := b.same ++ [p] }
      else none
    | _, _ => none

/-- `len` (batch_builder.rs:150-152). -/
def Builder.len (b : Builder α) : Nat := (b.indices.headD []).length

/-- The cell of column `c` (not the time) at a position. -/
def Builder.cell (b : Builder α) (c : Nat) (p : Nat × Nat) : Option α := ((b.row p).bind fun r => r.cells[c]?).join

/-- The rows that `interleave` makes of the indices (batch_builder.rs:175-188). -/
def Builder.rows (b : Builder α) : List (Row α) :=
  (List.range b.len).map fun j =>
    ⟨(((b.indices.headD [])[j]?).bind b.row).elim 0 Row.ts,
     b.indices.tail.mapIdx fun c l => (l[j]?).bind (b.cell c)⟩

/-- `build_record_batch` (batch_builder.rs:170-198). -/
def Builder.build (b : Builder α) : Option (List (Row α)) × Builder α :=
  if b.len = 0 then (none, b) else (some b.rows, { b with indices := b.indices.map fun _ => [] })

/-! ## The tree -/

/-- `self.loser_tree[node]`. -/
def nodeAt (t : List (Option Nat)) (k : Nat) : Option Nat := (t[k]?).join

/-- `lt_leaf_node_index` (sort_merge.rs:345-348). -/
def leafNode (n i : Nat) : Nat := (n + i) / 2

/-- The inner loop of `init_loser_tree` (sort_merge.rs:362-374) and the assignment after it. -/
def climbInit (gt : Nat → Nat → Bool) (t : List (Option Nat)) (node w : Nat) : List (Option Nat) :=
  if node = 0 then t.set 0 (some w)
  else
    match nodeAt t node with
    | none => t.set node (some w)
    | some ch =>
      if gt w ch then climbInit gt (t.set node (some w)) (node / 2) ch else climbInit gt t (node / 2) w
termination_by node
decreasing_by all_goals omega

/-- `init_loser_tree` (sort_merge.rs:358-377). -/
def initTree (gt : Nat → Nat → Bool) (n : Nat) : List (Option Nat) :=
  (List.range n).foldl (fun t i => climbInit gt t (leafNode n i) i) (List.replicate n none)

/-- The loop of `update_loser_tree` (sort_merge.rs:382-393). -/
def climbUpdate (gt : Nat → Nat → Bool) (t : List (Option Nat)) (node w : Nat) : List (Option Nat) :=
  if node = 0 then t.set 0 (some w)
  else
    match nodeAt t node with
    | none => t
    | some ch =>
      if gt w ch then climbUpdate gt (t.set node (some w)) (node / 2) ch else climbUpdate gt t (node / 2) w
termination_by node
decreasing_by all_goals omega

/-! ## The stream -/

/-- `struct SortPreservingMergeStream` (sort_merge.rs:149-201). -/
structure Merge (α : Type) where
  builder : Builder α
  inputs : List (Input α)
  tree : List (Option Nat)
  adjusted : Bool
  batchSize : Nat
  cursors : List (Option Cursor)

/-- `SortPreservingMergeStream::new` (sort_merge.rs:204-221). -/
def Merge.new (cols batchSize : Nat) (inputs : List (Input α)) : Merge α :=
  ⟨Builder.new cols inputs.length, inputs, [], false, batchSize, List.replicate inputs.length none⟩

/-- `self.cursors[i]`. -/
def cursorAt (cs : List (Option Cursor)) (i : Nat) : Option Cursor := (cs[i]?).join

/-- `is_gt` (sort_merge.rs:312-318). -/
def isGt (cs : List (Option Cursor)) (a b : Nat) : Bool :=
  match cursorAt cs a, cursorAt cs b with
  | none, _ => true
  | _, none => false
  | some x, some y =>
    match x.values[x.offset]?, y.values[y.offset]? with
    | some u, some v => decide (v < u) || decide (u = v) && decide (b < a)
    | _, _ => false

/-- `maybe_poll_stream` (sort_merge.rs:223-240); `false` is `Pending`. -/
def Merge.maybePoll (i : Nat) (m : Merge α) : Bool × Merge α :=
  match cursorAt m.cursors i with
  | some _ => (true, m)
  | none =>
    match pollInput (m.inputs.getD i []) with
    | (none, r) => (false, { m with inputs := m.inputs.set i r })
    | (some none, r) => (true, { m with inputs := m.inputs.set i r })
    | (some (some rows), r) =>
      (true, { m with inputs := m.inputs.set i r, cursors := m.cursors.set i (some ⟨rows.map Row.ts, 0⟩),
                      builder := m.builder.pushBatch i rows })

/-- The loop over the inputs (sort_merge.rs:247-251). -/
def Merge.pollAll : List Nat → Merge α → Bool × Merge α
  | [], m => (true, m)
  | i :: is, m =>
    match m.maybePoll i with
    | (false, m) => (false, m)
    | (true, m) => pollAll is m

/-- The first part of `poll_next_inner` (sort_merge.rs:244-253). -/
def Merge.prepare (m : Merge α) : Bool × Merge α :=
  if m.tree.isEmpty then
    match m.pollAll (List.range m.inputs.length) with
    | (false, m) => (false, m)
    | (true, m) => (true, { m with tree := initTree (isGt m.cursors) m.cursors.length, adjusted := true })
  else (true, m)

/-- `self.loser_tree[0]`. -/
def Merge.winner (m : Merge α) : Nat := (nodeAt m.tree 0).getD 0

/-- The start of the loop (sort_merge.rs:260-266) with `update_loser_tree`. -/
def Merge.adjust (m : Merge α) : Bool × Merge α :=
  if m.adjusted then (true, m)
  else
    match m.maybePoll m.winner with
    | (false, m) => (false, m)
    | (true, m) =>
      (true, { m with tree := climbUpdate (isGt m.cursors) m.tree (leafNode m.cursors.length m.winner) m.winner, adjusted := true })

/-- `advance` (sort_merge.rs:295-307). -/
def Merge.advance (i : Nat) (m : Merge α) : Option (Merge α) :=
  match cursorAt m.cursors i with
  | none => none
  | some c =>
    let slot := if c.offset + 1 = c.values.length then none else some { c with offset := c.offset + 1 }
    some { m with cursors := m.cursors.set i slot }

/-- How one turn of the loop ends: it goes on, or `poll_next` returns. -/
inductive Out (α : Type) where
  | more
  | pending
  | batch (rows : List (Row α))
  | finished
  | failed

/-- `build_record_batch().transpose()` (sort_merge.rs:291). -/
def Merge.flush (m : Merge α) : Out α × Merge α :=
  match m.builder.build with
  | (none, b) => (.finished, { m with builder := b })
  | (some rows, b) => (.batch rows, { m with builder := b })

/-- The rest of the loop (sort_merge.rs:268-291). -/
def Merge.emit (m : Merge α) : Out α × Merge α :=
  let i := m.winner
  match m.advance i with
  | some m =>
    match m.builder.pushRow i with
    | none => (.failed, { m with adjusted := false })
    | some b =>
      let m := { m with adjusted := false, builder := b }
      if b.len < m.batchSize then (.more, m) else m.flush
  | none => { m with builder := m.builder.takeLast }.flush

/-- One turn of the loop of `poll_next_inner` (sort_merge.rs:242-293). -/
def Merge.step (m : Merge α) : Out α × Merge α :=
  match m.prepare with
  | (false, m) => (.pending, m)
  | (true, m) =>
    match m.adjust with
    | (false, m) => (.pending, m)
    | (true, m) => m.emit

/-- The batches that a consumer gets until the stream ends, if it ends without an error after at most `fuel` turns. -/
def Merge.collect : Nat → Merge α → Option (List (List (Row α)))
  | 0, _ => none
  | fuel + 1, m =>
    match m.step with
    | (.more, m) => collect fuel m
    | (.pending, m) => collect fuel m
    | (.batch rows, m) => (collect fuel m).map (rows :: ·)
    | (.finished, _) => some []
    | (.failed, _) => none

end Verif.Reader
