import Verif.Compact.Props
import Verif.Tomb.Ranges
/-!
# Model: choosing files for a compaction, running it and installing its result

* `tskv/src/compaction/picker.rs` — `LevelCompactionPicker`, `advise_out_level`, `DeltaCompactionPicker`
* `tskv/src/compaction/mod.rs:81-107, 148-158` — `CompactReq`
* `tskv/src/compaction/compact.rs:507-606` — `run_normal_compaction_job`, `run_delta_compaction_job`
* `tskv/src/compaction/writer_wrapper.rs:51-84` — the entry of the output file
* `tskv/src/tsfamily/summary.rs:134-195`, `tskv/src/tsfamily/version.rs:60-125, 211-224` — installing the result

Simplifications: files are read and written without errors.  The scores of the levels are compared as integers (tenths); the
products of a count of files and 0.8, 0.4, 0.2, 0.1 have the same order.  The rows of a file are the ones that its tombstone leaves, and
`all` are the ranges that compactions have taken out of it (`all_excluded`).
-/
namespace Verif.Pick

open Verif.Sort Verif.Reader Verif.Compact Verif.Time

variable {α : Type}

/-- `struct ColumnFile` (column_file.rs:24-37) with the contents of the file and its tombstone. -/
structure DFile (α : Type) where
  id : Nat
  level : Nat
  range : TimeRange
  size : Nat
  busy : Bool
  all : TimeRanges
  body : File α

/-- The files of a version, in ascending order of their ids within a level (level_info.rs:86-104, 118-121). -/
abbrev Levels (α : Type) := List (DFile α)

/-- The files of a level. -/
def ofLevel (s : Levels α) (k : Nat) : List (DFile α) := s.filter fun f => decide (f.level = k)

/-- `TimeRange::none` (domain.rs:74-79). -/
def noRange : TimeRange := ⟨i64Max, i64Min⟩

/-- `LevelInfo::update_time_range` (level_info.rs:108-116). -/
def rangeOf (s : Levels α) (k : Nat) : TimeRange :=
  ⟨((ofLevel s k).map fun f => f.range.minTs).foldl min i64Max, ((ofLevel s k).map fun f => f.range.maxTs).foldl max i64Min⟩

/-- `struct CompactReq` (mod.rs:81-90), with the ids of the files that were marked for it. -/
structure Req (α : Type) where
  files : List (DFile α)
  inLevel : Nat
  outLevel : Nat
  out : TimeRange
  marked : List Nat

/-! ## Level compaction -/

/-- `level_weight_file_num` (picker.rs:106-115), in tenths. -/
def weight : Nat → Nat
  | 0 => 10
  | 1 => 8
  | 2 => 4
  | 3 => 2
  | 4 => 1
  | _ => 0

/-- The score of a level (picker.rs:143-166); `none` if it is left out. -/
def score (s : Levels α) (k : Nat) : Option Nat :=
  if k = 0 ∨ ((ofLevel s k).map DFile.size).sum = 0 ∨ (ofLevel s k).length ≤ 1 then none
  else some (((ofLevel s k).length - ((ofLevel s k).filter DFile.busy).length) * weight k)

/-- The first entry with the largest score (the stable sort of picker.rs:172-174). -/
def best : List (Nat × Nat) → Option (Nat × Nat)
  | [] => none
  | e :: es => match best es with
    | none => some e
    | some b => if e.2 < b.2 then some b else some e

/-- `pick_level` (picker.rs:124-192). -/
def pickLevel (s : Levels α) : Option (Nat × Nat) :=
  (best ([0, 1, 2, 3, 4].filterMap fun k => (score s k).map fun x => (k, x))).map fun b => (b.1, if b.1 = 4 then 4 else b.1 + 1)

/-- `compare_column_file` (picker.rs:117-122). -/
def leFile (a b : DFile α) : Bool :=
  decide (a.range.minTs < b.range.minTs) || decide (a.range.minTs = b.range.minTs) && decide (a.size ≤ b.size)

/-- `pick_files` (picker.rs:194-215). -/
def takeFiles (max : Nat) : Nat → List (DFile α) → List (DFile α)
  | _, [] => []
  | n, f :: fs =>
    if f.busy then takeFiles max n fs
    else if max ≤ n + f.size then [f] else f :: takeFiles max (n + f.size) fs

/-- `LevelCompactionPicker::pick_compaction` (picker.rs:46-103). -/
def pickNormal (max : Nat) (s : Levels α) : Option (Req α) :=
  match pickLevel s with
  | none => none
  | some (k, o) =>
    match takeFiles max 0 (sortBy leFile (ofLevel s k)) with
    | [] => none
    | fs => some ⟨fs, k, o, ⟨i64Min, i64Max⟩, fs.map DFile.id⟩

/-! ## Delta compaction -/

/-- `advise_out_level` (picker.rs:221-262). -/
def advise (s : Levels α) (r : TimeRange) : Nat :=
  if r.minTs > (rangeOf s 1).maxTs ∨ (rangeOf s 1).isNone then 0
  else if r.minTs > (rangeOf s 1).minTs then 1
  else if r.maxTs ≤ (rangeOf s 1).minTs ∧ r.minTs ≥ (rangeOf s 3).maxTs ∨ (rangeOf s 2).isNone then 2
  else if r.maxTs ≤ (rangeOf s 2).minTs ∧ r.minTs ≥ (rangeOf s 4).maxTs ∨ (rangeOf s 3).isNone then 3
  else if r.maxTs ≤ (rangeOf s 3).minTs ∨ (rangeOf s 4).isNone then 4
  else (([1, 2, 3, 4] : List Nat).find? fun k => (rangeOf s k).overlaps r).getD 4

/-- `delta_file_first_remained_time_range` (picker.rs:277-310). -/
def DFile.remained (f : DFile α) : TimeRange :=
  match f.range.excludeTimeRanges f.all with
  | none => noRange
  | some rs => rs.ranges.head?.getD noRange

/-- What the loop of `pick_compaction` keeps (picker.rs:337-346). -/
structure PickSt (α : Type) where
  picked : List (DFile α)
  range : TimeRange
  other : Option (DFile α × Nat × TimeRange)

/-- One turn of the loop for a file that is not compacted (picker.rs:360-416); the request if the loop returns. -/
def deltaStep (trigger : Nat) (s : Levels α) (p : PickSt α) (f : DFile α) : Req α ⊕ PickSt α :=
  let r := f.remained
  let adv := advise s r
  let range := if p.range.isNone then r else p.range
  if adv = 0 then
    let picked := p.picked ++ [f]
    let range := range.merge r
    if trigger ≤ picked.length then .inl ⟨picked, 0, 1, range, picked.map DFile.id⟩ else .inr ⟨picked, range, p.other⟩
  else .inr ⟨[], noRange, match p.other with | none => some (f, adv, r) | some o => some o⟩

/-- The loop over the files of level 0 (picker.rs:347-418). -/
def deltaLoop (trigger : Nat) (s : Levels α) : PickSt α → List (DFile α) → Req α ⊕ PickSt α
  | p, [] => .inr p
  | p, f :: fs =>
    if f.busy then deltaLoop trigger s p fs
    else match deltaStep trigger s p f with
      | .inl q => .inl q
      | .inr p => deltaLoop trigger s p fs

/-- The file that was not picked (picker.rs:425-489): with the first file of the first level it overlaps; alone if that level has no such
file, without being marked then; else alone to the level advised. -/
def pickOther (s : Levels α) (f : DFile α) (adv : Nat) (r : TimeRange) : Option (Req α) :=
  match ([1, 2, 3, 4] : List Nat).find? fun k => (rangeOf s k).overlaps r with
  | some k =>
    match (ofLevel s k).find? fun g => !g.busy && g.range.overlaps r with
    | some g => some ⟨[f, g], 0, k, g.range, [f.id, g.id]⟩
    | none => (r.intersect (rangeOf s k)).map fun o => ⟨[f], 0, k, o, []⟩
  | none => if 1 < adv then some ⟨[f], 0, adv, r, [f.id]⟩ else none

/-- `DeltaCompactionPicker::pick_compaction` (picker.rs:312-499). -/
def pickDelta (trigger : Nat) (s : Levels α) : Option (Req α) :=
  if (ofLevel s 0).length < trigger then none
  else match deltaLoop trigger s ⟨[], noRange, none⟩ (ofLevel s 0) with
    | .inl q => some q
    | .inr p => match p.other with
      | none => none
      | some (f, adv, r) => pickOther s f adv r

/-! ## The job -/

/-- A range to compact that is boundless is none (compact.rs:288-292). -/
def outOf (r : TimeRange) : Option (Int × Int) := if r.isBoundless then none else some (r.minTs, r.maxTs)

/-- `split_delta_and_level_files` (mod.rs:95-106) and the readers of the job (compact.rs:517-524, 563-590): the first file of a level,
then the delta files. -/
def Req.inputs (q : Req α) : List (DFile α) :=
  if q.inLevel = 0 then (q.files.find? fun f => decide (f.level ≠ 0)).toList ++ q.files.filter fun f => decide (f.level = 0) else q.files

/-- The ranges taken out of a delta file after the job (`add_range_and_compact_to_tmp`, tombstone.rs:275-294, 440-461). -/
def DFile.excluded (f : DFile α) (out : TimeRange) : TimeRanges := if out.isNone then f.all else f.all.push out

/-- `VersionEdit` of a compaction: the files to delete, the files of which a part is deleted with their new tombstones, and the output. -/
structure Edit (α : Type) where
  del : List Nat
  part : List (DFile α)
  add : Option (DFile α)

/-- The contents of an output file. -/
def bodyOf (ds : List (Done α)) : File α :=
  ⟨false, (ds.map Done.sid).eraseDups.map fun s => (s, (ofSid s ds).map fun d => ⟨d.lo, d.hi, d.rows, d.rows⟩)⟩

/-- `WriterWrapper::close` (writer_wrapper.rs:51-84): there is an output file only if a block was written. -/
def output (id level size : Nat) (ds : List (Done α)) : Option (DFile α) :=
  if ds.isEmpty then none
  else some ⟨id, level, ⟨(ds.map Done.lo).foldl min i64Max, (ds.map Done.hi).foldl max i64Min⟩, size, false, .empty, bodyOf ds⟩

/-- The rows that are left when times are taken out of a file. -/
def cut (f : File α) (gone : Int → Bool) : File α :=
  ⟨true, f.chunks.map fun c => (c.1, c.2.map fun p => { p with rows := p.rows.filter fun r => !gone r.ts })⟩

/-- The part of a delta file that stays: the tombstone written by the job, with the rows that the file had when the job began. -/
def DFile.part (f : DFile α) (out : TimeRange) : DFile α :=
  { f with all := f.excluded out, body := cut f.body (f.excluded out).contains, busy := false }

/-- `run_compaction_job` (mod.rs:148-158; compact.rs:507-606): `id` and `size` are those of the output file. -/
def Req.job (cols block fuel id size : Nat) (q : Req α) : Option (Edit α) :=
  (compact cols block fuel (outOf q.out) (q.inputs.map DFile.body)).map fun ds =>
    let ends := fun (f : DFile α) => (f.excluded q.out).includes f.range
    { del := (q.inputs.filter fun f => decide (q.inLevel ≠ 0) || decide (f.level ≠ 0) || ends f).map DFile.id
      part := (q.inputs.filter fun f => decide (q.inLevel = 0) && decide (f.level = 0) && !ends f).map fun f => f.part q.out
      add := output id q.outLevel size ds }

/-- `apply_version_edit` (summary.rs:134-195) for a compaction: files are deleted, the tombstones of parts are replaced, the output is
added. -/
def install (s : Levels α) (e : Edit α) : Levels α :=
  ((s.filter fun f => !e.del.contains f.id).map fun f => match e.part.find? fun g => decide (g.id = f.id) with
    | some g => { f with all := g.all, body := g.body, busy := g.busy }
    | none => f) ++ e.add.toList

/-- The files after a picker has marked the files of its request. -/
def mark (s : Levels α) (ids : List Nat) : Levels α := s.map fun f => if ids.contains f.id then { f with busy := true } else f

/-- The rows of a series in all files, with the ids of the files. -/
def rowsIn (s : Levels α) (sid : Nat) : List (Nat × Row α) := s.flatMap fun f => tag f.id (f.body.rows sid)

end Verif.Pick
