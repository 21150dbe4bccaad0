import Verif.Reader.Series
/-!
# Model: compaction of files

* `tskv/src/compaction/compact.rs:146-505, 608-694` — `CompactingFile`, `CompactState`, `compact_files`
* `tskv/src/compaction/comapcting_block_meta_group.rs` — `CompactingBlockMetaGroup`
* `tskv/src/compaction/compacting_block_meta.rs` — `CompactingBlockMeta`
* `tskv/src/compaction/writer_wrapper.rs`, `tskv/src/tsm/writer.rs:262-460`, `tskv/src/tsm/chunk.rs:98-127` — writing the blocks

Simplifications: a column group is its time range and its rows, aligned to one schema with `cols` columns besides the time
(`schema_adapt_record_batches` is modelled in `Columns.lean`), once as in its pages and once without the rows that tombstones remove; reading never
fails; metrics and the footer are left out.  A time range to compact to (`out_time_range`) that is boundless is `none`.
-/
namespace Verif.Compact

open Verif.Sort Verif.Reader

variable {α : Type}

/-- A column group of a chunk (`tskv/src/tsm/column_group.rs:10-18`): the rows in its pages, and the rows that are left after the
tombstones of the file. -/
structure Piece (α : Type) where
  lo : Int
  hi : Int
  raw : List (Row α)
  rows : List (Row α)

/-- An input file: whether it has a tombstone, and the column groups of each series. -/
structure File (α : Type) where
  tomb : Bool
  chunks : List (Nat × List (Piece α))

/-- `struct CompactingBlockMeta` (compacting_block_meta.rs:14-21); `idx` is `reader_idx`. -/
structure Block (α : Type) where
  idx : Nat
  tomb : Bool
  lo : Int
  hi : Int
  raw : List (Row α)
  rows : List (Row α)

/-- `column_group.time_range().overlaps(&time_range)` for the range to compact (compact.rs:384-402). -/
def overlapsOut (out : Option (Int × Int)) (lo hi : Int) : Bool :=
  match out with
  | none => true
  | some (a, b) => !(decide (b < lo) || decide (hi < a))

/-- Whether a time is in the range to compact. -/
def inOut (out : Option (Int × Int)) (t : Int) : Bool :=
  match out with
  | none => true
  | some (a, b) => decide (a ≤ t) && decide (t ≤ b)

/-! ## Going through the series -/

/-- `struct CompactingFile` (compact.rs:146-152): the series that are not visited yet; `alive` is whether
`tsm_reader_to_compacting_file_map` has an entry for it. -/
structure CFile where
  idx : Nat
  sids : List Nat
  alive : Bool
deriving DecidableEq, Repr

/-- `CompactingFile::new` (compact.rs:155-181): the series ids are sorted. -/
def CFile.new (idx : Nat) (f : File α) : CFile := ⟨idx, sortBy (fun a b => decide (a ≤ b)) (f.chunks.map Prod.fst), true⟩

/-- `impl Ord for CompactingFile` (compact.rs:254-263): by the next series, finished files last. -/
def leC (a b : CFile) : Bool :=
  match a.sids.head?, b.sids.head? with
  | some x, some y => decide (x ≤ y)
  | some _, none => true
  | none, some _ => false
  | none, none => true

/-- The loop over the files in `next_series_id` (compact.rs:354-410): the indices of the files with blocks of the series, and the files
afterwards. -/
def walk (sid : Nat) : List CFile → List Nat × List CFile
  | [] => ([], [])
  | f :: fs =>
    if f.alive then
      match f.sids with
      | [] => ((walk sid fs).1, { f with alive := false } :: (walk sid fs).2)
      | s :: rest =>
        if sid = s then (f.idx :: (walk sid fs).1, { f with sids := rest } :: (walk sid fs).2)
        else ([], f :: fs)
    else ((walk sid fs).1, f :: (walk sid fs).2)

/-- The column groups of a series in a file. -/
def File.pieces (f : File α) (sid : Nat) : List (Piece α) := ((f.chunks.find? fun c => decide (c.1 = sid)).map Prod.snd).getD []

/-- The blocks of a series in a file that overlap the range to compact (compact.rs:366-405, 446-458).  The file has its entry in
`tsm_reader_to_compacting_file_map`, since `walk` only takes files that have it. -/
def blocksOf (files : List (File α)) (out : Option (Int × Int)) (sid idx : Nat) : List (Block α) :=
  match files[idx]? with
  | none => []
  | some f => ((f.pieces sid).filter fun p => overlapsOut out p.lo p.hi).map fun p => ⟨idx, f.tomb, p.lo, p.hi, p.raw, p.rows⟩

/-- `next_series_id` (compact.rs:338-431) with the blocks that it collects; the loop goes on while a series has no blocks in the range. -/
def nextSeries (files : List (File α)) (out : Option (Int × Int)) : Nat → List CFile → Option (Nat × List (Block α) × List CFile)
  | 0, _ => none
  | fuel + 1, cs =>
    match cs.head?.bind fun c => c.sids.head? with
    | none => none
    | some sid =>
      let w := walk sid cs
      let blocks := w.1.flatMap (blocksOf files out sid)
      if blocks.isEmpty then nextSeries files out fuel (sortBy leC w.2) else some (sid, blocks, sortBy leC w.2)

/-- How many series are left, over all files. -/
def left (cs : List CFile) : Nat := (cs.map fun c => c.sids.length).sum

/-- The visits of `compact_files` (compact.rs:623-628), at most `fuel`. -/
def visits (files : List (File α)) (out : Option (Int × Int)) : Nat → List CFile → List (Nat × List (Block α))
  | 0, _ => []
  | fuel + 1, cs =>
    match nextSeries files out (left cs + 1) cs with
    | none => []
    | some (sid, blocks, cs) => (sid, blocks) :: visits files out fuel cs

/-- `CompactState::new` (compact.rs:287-319): the files in the order of the request. -/
def start (files : List (File α)) : List CFile := files.mapIdx CFile.new

/-- All visits. -/
def allVisits (files : List (File α)) (out : Option (Int × Int)) : List (Nat × List (Block α)) :=
  visits files out (left (start files) + 1) (start files)

/-! ## Groups of overlapping blocks -/

/-- `struct CompactingBlockMetaGroup` (comapcting_block_meta_group.rs:25-31). -/
structure Grp (α : Type) where
  blocks : List (Block α)
  lo : Int
  hi : Int

/-- `CompactingBlockMetaGroup::new` (comapcting_block_meta_group.rs:33-41). -/
def Grp.new (b : Block α) : Grp α := ⟨[b], b.lo, b.hi⟩

/-- `overlaps` (comapcting_block_meta_group.rs:43-45). -/
def Grp.overlaps (g h : Grp α) : Bool := !(decide (h.hi < g.lo) || decide (g.hi < h.lo))

/-- The inner loop of `fill_compacting_block_meta_groups` (compact.rs:488-495) with `append`
(comapcting_block_meta_group.rs:47-50): the head takes the blocks of the groups it overlaps. -/
def absorb : Grp α → List (Grp α) → Grp α × List (Grp α)
  | g, [] => (g, [])
  | g, h :: hs =>
    if h.blocks.isEmpty then ((absorb g hs).1, h :: (absorb g hs).2)
    else if g.overlaps h then
      let g := ⟨g.blocks ++ h.blocks, min g.lo h.lo, max g.hi h.hi⟩
      ((absorb g hs).1, { h with blocks := [] } :: (absorb g hs).2)
    else ((absorb g hs).1, h :: (absorb g hs).2)

theorem absorb_length (g : Grp α) (hs : List (Grp α)) : (absorb g hs).2.length = hs.length := by
  induction hs generalizing g with
  | nil => rfl
  | cons h hs ih =>
    unfold absorb
    split
    · simp [ih]
    · split
      · simp [ih]
      · simp [ih]

/-- The outer loop of `fill_compacting_block_meta_groups` (compact.rs:471-497); an empty group is no head, the last group has nothing
to take. -/
def groupLoop : List (Grp α) → List (Grp α)
  | [] => []
  | g :: gs =>
    if g.blocks.isEmpty then g :: groupLoop gs
    else (absorb g gs).1 :: groupLoop (absorb g gs).2
termination_by gs => gs.length
decreasing_by
  · simp
  · rw [absorb_length]; simp

/-- `impl Ord for CompactingBlockMeta` within a series (compacting_block_meta.rs:40-57). -/
def leB (a b : Block α) : Bool := decide (a.lo < b.lo) || decide (a.lo = b.lo) && decide (a.hi ≤ b.hi)

/-- `fill_compacting_block_meta_groups` (compact.rs:434-505). -/
def groupsOf (blocks : List (Block α)) : List (Grp α) :=
  (groupLoop ((sortBy leB blocks).map Grp.new)).filter fun g => !g.blocks.isEmpty

/-! ## Merging a group -/

/-- A block to write (`enum CompactingBlock`, compact.rs:37-56), with its time range. -/
structure Done (α : Type) where
  sid : Nat
  lo : Int
  hi : Int
  rows : List (Row α)

/-- The time range of a decoded block (`tsm/writer.rs:286-316`): that of its rows. -/
def Done.ofRows (sid : Nat) (rows : List (Row α)) : Done α :=
  ⟨sid, (rows.head?.map Row.ts).getD 0, (rows.getLast?.map Row.ts).getD 0, rows⟩

/-- `merge_record_batches` (comapcting_block_meta_group.rs:181-207); without batches there is no schema, which is an error. -/
def mergeRows (cols size fuel sid : Nat) (batches : List (List (Row α))) : Option (List (Done α)) :=
  if batches.isEmpty then none
  else ((Merge.new cols size (batches.map fun rows => [Item.batch rows])).collect fuel).map (List.map (Done.ofRows sid))

/-- `get_record_batch` (compact.rs:191-220): rows outside the range are left out unless the block is in it. -/
def Block.get (out : Option (Int × Int)) (b : Block α) : Option (List (Row α)) :=
  match out with
  | none => some b.rows
  | some (x, y) =>
    if overlapsOut out b.lo b.hi then
      some (if x ≤ b.lo ∧ b.hi ≤ y then b.rows else b.rows.filter fun r => inOut out r.ts)
    else none

/-- `included_in_time_range` (compacting_block_meta.rs:90-103). -/
def Block.included (out : Option (Int × Int)) (b : Block α) : Bool :=
  match out with
  | none => true
  | some (x, y) => decide (x ≤ b.lo) && decide (b.hi ≤ y)

/-- Order by `reader_idx` (comapcting_block_meta_group.rs:63). -/
def leI (a b : Block α) : Bool := decide (a.idx ≤ b.idx)

/-- `decode_opt` (compact.rs:122-125). -/
def Done.decode (out : Option (Int × Int)) (d : Done α) : List (Row α) := d.rows.filter fun r => inOut out r.ts

/-- `merge_with_previous_block` (comapcting_block_meta_group.rs:52-179). -/
def mergeGroup (cols size fuel : Nat) (out : Option (Int × Int)) (sid : Nat) (blocks : List (Block α)) (prev : Option (Done α)) :
    Option (List (Done α)) :=
  let all := fun (bs : List (Block α)) => mergeRows cols size fuel sid (bs.filterMap (Block.get out) ++ prev.toList.map (Done.decode out))
  match sortBy leI blocks with
  | [] => some []
  | [b] =>
    if !b.tomb && b.included out then
      if size ≤ b.raw.length then some (prev.toList ++ [⟨sid, b.lo, b.hi, b.raw⟩])
      else
        match prev with
        | some p => mergeRows cols size fuel sid [b.raw, p.decode out]
        | none => some [⟨sid, b.lo, b.hi, b.raw⟩]
    else all [b]
  | bs => all bs

/-! ## Writing -/

/-- What `compact_files` keeps: the written blocks, the block that waits for more rows, and the current series (compact.rs:618-620). -/
structure St (α : Type) where
  written : List (Done α)
  prev : Option (Done α)
  cur : Option Nat

/-- `writer_wrapper.write` down to `Chunk::push` (chunk.rs:98-127): the ranges of a chunk have to go up. -/
def write (w : List (Done α)) (d : Done α) : Option (List (Done α)) :=
  if w.any fun x => decide (x.sid = d.sid) && decide (d.lo < x.hi) then none else some (w ++ [d])

/-- Several writes. -/
def writeAll : List (Done α) → List (Done α) → Option (List (Done α))
  | w, [] => some w
  | w, d :: ds =>
    match write w d with
    | none => none
    | some w => writeAll w ds

/-- Before a block of another series the waiting block is written (compact.rs:629-644). -/
def St.turn (sid : Nat) (s : St α) : Option (St α) :=
  match s.cur, s.prev with
  | some c, some p => if c ≠ sid then (write s.written p).map fun w => ⟨w, none, some sid⟩ else some s
  | _, _ => some { s with cur := some sid }

/-- The blocks of a merged group (compact.rs:655-676): they are written, but a last one that is too small waits. -/
def St.take (size : Nat) (s : St α) (ds : List (Done α)) : Option (St α) :=
  match ds.getLast? with
  | none => some { s with prev := none }
  | some d =>
    if d.rows.length < size then (writeAll s.written ds.dropLast).map fun w => { s with written := w, prev := some d }
    else (writeAll s.written ds).map fun w => { s with written := w, prev := none }

/-- One group (compact.rs:628-677). -/
def St.group (cols size fuel : Nat) (out : Option (Int × Int)) (sid : Nat) (s : St α) (g : Grp α) : Option (St α) :=
  match s.turn sid with
  | none => none
  | some s =>
    match mergeGroup cols size fuel out sid g.blocks s.prev with
    | none => none
    | some ds => { s with cur := some sid }.take size ds

/-- The groups of a series. -/
def St.groups (cols size fuel : Nat) (out : Option (Int × Int)) (sid : Nat) : St α → List (Grp α) → Option (St α)
  | s, [] => some s
  | s, g :: gs =>
    match s.group cols size fuel out sid g with
    | none => none
    | some s => St.groups cols size fuel out sid s gs

/-- All visits (compact.rs:623-678). -/
def St.run (cols size fuel : Nat) (out : Option (Int × Int)) : St α → List (Nat × List (Block α)) → Option (St α)
  | s, [] => some s
  | s, v :: vs =>
    match s.groups cols size fuel out v.1 (groupsOf v.2) with
    | none => none
    | some s => St.run cols size fuel out s vs

/-- `compact_files` (compact.rs:608-694): the blocks of the output file. -/
def compact (cols size fuel : Nat) (out : Option (Int × Int)) (files : List (File α)) : Option (List (Done α)) :=
  match St.run cols size fuel out ⟨[], none, none⟩ (allVisits files out) with
  | none => none
  | some s =>
    match s.prev with
    | none => some s.written
    | some p => write s.written p

end Verif.Compact
