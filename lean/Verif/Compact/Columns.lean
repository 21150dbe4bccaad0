import Verif.Compact.Model
import Verif.Reader.Natural
/-!
# Model: compaction of files whose column groups have different columns

* `tskv/src/compaction/comapcting_block_meta_group.rs:52-292` — `merge_with_previous_block`, `schema_adapt_record_batches`,
  `record_batch_project_schema`
* `tskv/src/compaction/compact.rs:37-125, 608-694` — `CompactingBlock`, `compact_files`
* `tskv/src/tsm/writer.rs:262-407`, `tskv/src/tsm/reader.rs:600-670` — the table schema of a file

`Verif.Compact.Model` has the rows aligned to one schema; here a column group has the ids of its columns besides the time, and a file has
one version of the table schema for all its column groups of the table.  `Row.cells` are the cells of these columns in this order.
Simplifications: one table; the type, the name and the encoding of a column are left out (a column keeps its id and its type); the
output is one file.
-/
namespace Verif.Compact.Cols

open Verif.Sort Verif.Reader

variable {α : Type}

/-- A record batch: the version in the metadata of its schema, the ids of its columns besides the time, the rows. -/
structure Tab (α : Type) where
  ver : Nat
  ids : List Nat
  rows : List (Row α)

/-- A column group: `Compact.Piece` with the ids of its columns. -/
structure Piece (α : Type) where
  lo : Int
  hi : Int
  ids : List Nat
  raw : List (Row α)
  rows : List (Row α)

/-- An input file: `Compact.File` with the version of the table schema in its footer (`table_schema`, tsm/reader.rs). -/
structure File (α : Type) where
  ver : Nat
  tomb : Bool
  chunks : List (Nat × List (Piece α))

/-- `struct CompactingBlockMeta` (compacting_block_meta.rs:14-21); `ver` is the version of the table schema of the *file*
(compacting_block_meta.rs:137-139), which is also in the batches that are decoded from the block (tsm/reader.rs:600-632). -/
structure Block (α : Type) where
  idx : Nat
  tomb : Bool
  lo : Int
  hi : Int
  ver : Nat
  ids : List Nat
  raw : List (Row α)
  rows : List (Row α)

/-- The block without its columns. -/
def Block.plain (b : Block α) : Compact.Block α := ⟨b.idx, b.tomb, b.lo, b.hi, b.raw, b.rows⟩

/-- A block to write (`enum CompactingBlock`, compact.rs:37-56).  `label` is the version of its `table_schema`, `ver` the version that the
batch decoded from it has; they differ for a decoded block whose first input has not the newest schema. -/
structure Done (α : Type) where
  sid : Nat
  lo : Int
  hi : Int
  label : Nat
  ver : Nat
  ids : List Nat
  rows : List (Row α)

/-! ## Adapting batches to one schema -/

/-- `max_by_key` over the versions (comapcting_block_meta_group.rs:213-241): of several batches with the largest version the last one. -/
def target : List (Tab α) → Option (Nat × List Nat)
  | [] => none
  | b :: bs =>
    match target bs with
    | none => some (b.ver, b.ids)
    | some t => if t.1 < b.ver then some (b.ver, b.ids) else some t

/-- `record_batch_project_schema` (comapcting_block_meta_group.rs:250-292) for a row: the columns of the target by their ids, nulls for a
column that the batch has not. -/
def project (ids to : List Nat) (r : Row α) : Row α := r.choose (to.map fun id => ids.idxOf? id)

/-- `merge_record_batches` (comapcting_block_meta_group.rs:181-207) and `CompactingBlock::decoded` with the given table schema. -/
def mergeTabs (size fuel sid label : Nat) (tabs : List (Tab α)) : Option (List (Done α)) :=
  match target tabs with
  | none => none
  | some t =>
    (mergeRows t.2.length size fuel sid (tabs.map fun b => b.rows.map (project b.ids t.2))).map
      (List.map fun d => ⟨sid, d.lo, d.hi, label, t.1, t.2, d.rows⟩)

/-- `get_record_batch` (compact.rs:191-220). -/
def Block.get (out : Option (Int × Int)) (b : Block α) : Option (Tab α) := (b.plain.get out).map fun rows => ⟨b.ver, b.ids, rows⟩

/-- `decode_opt` (compact.rs:96-125). -/
def Done.decode (out : Option (Int × Int)) (d : Done α) : Tab α := ⟨d.ver, d.ids, d.rows.filter fun r => inOut out r.ts⟩

/-- `CompactingBlock::raw` (compact.rs:84-94). -/
def Block.asRaw (sid : Nat) (b : Block α) : Done α := ⟨sid, b.lo, b.hi, b.ver, b.ver, b.ids, b.raw⟩

/-- Order by `reader_idx` (comapcting_block_meta_group.rs:63). -/
def leI (a b : Block α) : Bool := Compact.leI a.plain b.plain

/-- `merge_with_previous_block` (comapcting_block_meta_group.rs:52-179); the table schema of what is merged is that of the first block. -/
def mergeGroup (size fuel : Nat) (out : Option (Int × Int)) (sid : Nat) (blocks : List (Block α)) (prev : Option (Done α)) :
    Option (List (Done α)) :=
  match sortBy leI blocks with
  | [] => some []
  | b :: bs =>
    if bs.isEmpty && (!b.tomb && b.plain.included out) then
      if size ≤ b.raw.length then some (prev.toList ++ [b.asRaw sid])
      else
        match prev with
        | some p => mergeTabs size fuel sid b.ver [⟨b.ver, b.ids, b.raw⟩, p.decode out]
        | none => some [b.asRaw sid]
    else mergeTabs size fuel sid b.ver ((b :: bs).filterMap (Block.get out) ++ prev.toList.map (Done.decode out))

/-! ## The blocks of the series and their groups (as in `Verif.Compact.Model`) -/

/-- The column groups of a series in a file. -/
def File.pieces (f : File α) (sid : Nat) : List (Piece α) := ((f.chunks.find? fun c => decide (c.1 = sid)).map Prod.snd).getD []

/-- The blocks of a series in a file that overlap the range to compact (compact.rs:366-405, 446-458). -/
def blocksOf (files : List (File α)) (out : Option (Int × Int)) (sid idx : Nat) : List (Block α) :=
  match files[idx]? with
  | none => []
  | some f => ((f.pieces sid).filter fun p => overlapsOut out p.lo p.hi).map fun p => ⟨idx, f.tomb, p.lo, p.hi, f.ver, p.ids, p.raw, p.rows⟩

/-- `next_series_id` (compact.rs:338-431). -/
def nextSeries (files : List (File α)) (out : Option (Int × Int)) : Nat → List CFile → Option (Nat × List (Block α) × List CFile)
  | 0, _ => none
  | fuel + 1, cs =>
    match cs.head?.bind fun c => c.sids.head? with
    | none => none
    | some sid =>
      let w := walk sid cs
      let blocks := w.1.flatMap (blocksOf files out sid)
      if blocks.isEmpty then nextSeries files out fuel (sortBy leC w.2) else some (sid, blocks, sortBy leC w.2)

/-- The visits of `compact_files` (compact.rs:623-628). -/
def visits (files : List (File α)) (out : Option (Int × Int)) : Nat → List CFile → List (Nat × List (Block α))
  | 0, _ => []
  | fuel + 1, cs =>
    match nextSeries files out (left cs + 1) cs with
    | none => []
    | some (sid, blocks, cs) => (sid, blocks) :: visits files out fuel cs

/-- `CompactState::new` (compact.rs:155-181, 287-319). -/
def start (files : List (File α)) : List CFile :=
  files.mapIdx fun i f => ⟨i, sortBy (fun a b => decide (a ≤ b)) (f.chunks.map Prod.fst), true⟩

/-- All visits. -/
def allVisits (files : List (File α)) (out : Option (Int × Int)) : List (Nat × List (Block α)) :=
  visits files out (left (start files) + 1) (start files)

/-- `struct CompactingBlockMetaGroup` (comapcting_block_meta_group.rs:25-31). -/
structure Grp (α : Type) where
  blocks : List (Block α)
  lo : Int
  hi : Int

/-- `overlaps` (comapcting_block_meta_group.rs:43-45). -/
def Grp.overlaps (g h : Grp α) : Bool := !(decide (h.hi < g.lo) || decide (g.hi < h.lo))

/-- The inner loop of `fill_compacting_block_meta_groups` (compact.rs:488-495). -/
def absorb : Grp α → List (Grp α) → Grp α × List (Grp α)
  | g, [] => (g, [])
  | g, h :: hs =>
    if h.blocks.isEmpty then ((absorb g hs).1, h :: (absorb g hs).2)
    else if g.overlaps h then
      let g := ⟨g.blocks ++ h.blocks, min g.lo h.lo, max g.hi h.hi⟩
      ((absorb g hs).1, { h with blocks := [] } :: (absorb g hs).2)
    else ((absorb g hs).1, h :: (absorb g hs).2)

theorem absorb_length (g : Grp α) (hs : List (Grp α)) : (absorb g hs).2.length = hs.length := by
  induction hs generalizing g with
  | nil => rfl
  | cons h hs ih =>
    unfold absorb
    split
    · simp [ih]
    · split
      · simp [ih]
      · simp [ih]

/-- The outer loop of `fill_compacting_block_meta_groups` (compact.rs:471-497). -/
def groupLoop : List (Grp α) → List (Grp α)
  | [] => []
  | g :: gs =>
    if g.blocks.isEmpty then g :: groupLoop gs
    else (absorb g gs).1 :: groupLoop (absorb g gs).2
termination_by gs => gs.length
decreasing_by
  · simp
  · rw [absorb_length]; simp

/-- `fill_compacting_block_meta_groups` (compact.rs:434-505). -/
def groupsOf (blocks : List (Block α)) : List (Grp α) :=
  (groupLoop ((sortBy (fun a b => leB a.plain b.plain) blocks).map fun b => ⟨[b], b.lo, b.hi⟩)).filter fun g => !g.blocks.isEmpty

/-! ## Writing -/

/-- What `compact_files` keeps (compact.rs:618-620). -/
structure St (α : Type) where
  written : List (Done α)
  prev : Option (Done α)
  cur : Option Nat

/-- `writer_wrapper.write` down to `Chunk::push` (chunk.rs:98-127). -/
def write (w : List (Done α)) (d : Done α) : Option (List (Done α)) :=
  if w.any fun x => decide (x.sid = d.sid) && decide (d.lo < x.hi) then none else some (w ++ [d])

/-- Several writes. -/
def writeAll : List (Done α) → List (Done α) → Option (List (Done α))
  | w, [] => some w
  | w, d :: ds =>
    match write w d with
    | none => none
    | some w => writeAll w ds

/-- Before a block of another series the waiting block is written (compact.rs:629-644). -/
def St.turn (sid : Nat) (s : St α) : Option (St α) :=
  match s.cur, s.prev with
  | some c, some p => if c ≠ sid then (write s.written p).map fun w => ⟨w, none, some sid⟩ else some s
  | _, _ => some { s with cur := some sid }

/-- The blocks of a merged group (compact.rs:655-676). -/
def St.take (size : Nat) (s : St α) (ds : List (Done α)) : Option (St α) :=
  match ds.getLast? with
  | none => some { s with prev := none }
  | some d =>
    if d.rows.length < size then (writeAll s.written ds.dropLast).map fun w => { s with written := w, prev := some d }
    else (writeAll s.written ds).map fun w => { s with written := w, prev := none }

/-- One group (compact.rs:628-677). -/
def St.group (size fuel : Nat) (out : Option (Int × Int)) (sid : Nat) (s : St α) (g : Grp α) : Option (St α) :=
  match s.turn sid with
  | none => none
  | some s =>
    match mergeGroup size fuel out sid g.blocks s.prev with
    | none => none
    | some ds => { s with cur := some sid }.take size ds

/-- The groups of a series. -/
def St.groups (size fuel : Nat) (out : Option (Int × Int)) (sid : Nat) : St α → List (Grp α) → Option (St α)
  | s, [] => some s
  | s, g :: gs =>
    match s.group size fuel out sid g with
    | none => none
    | some s => St.groups size fuel out sid s gs

/-- All visits (compact.rs:623-678). -/
def St.run (size fuel : Nat) (out : Option (Int × Int)) : St α → List (Nat × List (Block α)) → Option (St α)
  | s, [] => some s
  | s, v :: vs =>
    match s.groups size fuel out v.1 (groupsOf v.2) with
    | none => none
    | some s => St.run size fuel out s vs

/-- `compact_files` (compact.rs:608-694): the blocks of the output file. -/
def compact (size fuel : Nat) (out : Option (Int × Int)) (files : List (File α)) : Option (List (Done α)) :=
  match St.run size fuel out ⟨[], none, none⟩ (allVisits files out) with
  | none => none
  | some s =>
    match s.prev with
    | none => some s.written
    | some p => write s.written p

/-! ## The files that are written -/

/-- `insert_schema` for each block (tsm/writer.rs:399-407): the version of a file is the largest one. -/
def fileVer (l : List Nat) : Nat := l.foldl max 0

/-- The output file: its version is that of the newest table schema of its blocks, its chunks have the blocks in the order of writing
(tsm/writer.rs:312-397). -/
def outFile (ds : List (Done α)) : File α :=
  ⟨fileVer (ds.map Done.label), false,
   (ds.map Done.sid).eraseDups.map fun s => (s, (ds.filter fun d => decide (d.sid = s)).map fun d => ⟨d.lo, d.hi, d.ids, d.rows, d.rows⟩)⟩

/-- What a flush gives to the writer for a series (`convert_to_page`, `tskv/src/mem_cache/series_data.rs:217-265`): the schema of the
last group of rows of *this series*, and the rows with the columns of this schema. -/
structure Part (α : Type) where
  sid : Nat
  ver : Nat
  ids : List Nat
  rows : List (Row α)

/-- A flushed file (`tskv/src/compaction/flush.rs:54-133`, tsm/writer.rs:312-350); each series has one column group. -/
def flushFile (ps : List (Part α)) : File α :=
  ⟨fileVer (ps.map Part.ver), false, ps.map fun p =>
    (p.sid, [⟨(p.rows.head?.map Row.ts).getD 0, (p.rows.getLast?.map Row.ts).getD 0, p.ids, p.rows, p.rows⟩])⟩

/-! ## Columns that are looked at -/

/-- The cells of the columns `F` of a row with the columns `ids`. -/
def see (F ids : List Nat) (r : Row α) : Row α := r.choose (F.map fun id => ids.idxOf? id)

/-- A file as it is seen by a reader of the columns `F`. -/
def File.see (F : List Nat) (f : File α) : Compact.File α :=
  ⟨f.tomb, f.chunks.map fun c => (c.1, c.2.map fun p => ⟨p.lo, p.hi, p.raw.map (Cols.see F p.ids), p.rows.map (Cols.see F p.ids)⟩)⟩

/-- A written block as it is seen by a reader of the columns `F`. -/
def Done.see (F : List Nat) (d : Done α) : Compact.Done α := ⟨d.sid, d.lo, d.hi, d.rows.map (Cols.see F d.ids)⟩

end Verif.Compact.Cols
