import Verif.Common.AMap
import Verif.Common.Sort
import Verif.Common.Int64
import Verif.Time.Model
import Verif.Wal.Record
/-!
# Model: the set of live data files and its manifest

* `tskv/src/tsfamily/version.rs` — `Version`, `CompactMeta`, `VersionEdit`
* `tskv/src/tsfamily/level_info.rs` — `LevelInfo`
* `tskv/src/tsfamily/summary.rs` — `Summary`: writing edits, rewriting the manifest, recovery
* `tskv/src/tsfamily/tseries_family.rs:273-289` — `build_version_edit`
* `tskv/src/database.rs:79-186` — `create_tsfamily`, `add_tsfamily`, `tskv/src/version_set.rs:75-138` — `split_to_tsfamily`

Simplifications: bloom filters, reader caches, the flags `deleted` and `compacting` and directory names are left out; a path
is whether it is a delta file, the vnode and the number.  Numbers are natural numbers (file and sequence numbers of 64 bits do
not run out).  The order in which a `HashMap` is walked is a parameter.
-/
namespace Verif.Version
open Verif.Time Verif.Wal

/-- `struct CompactMeta` (version.rs:244-253). -/
structure Meta where
  id : Nat
  size : Nat
  vnode : Nat
  level : Nat
  minTs : Int
  maxTs : Int
  delta : Bool
deriving DecidableEq

/-- `enum VnodeAction` (version.rs:534-539). -/
inductive Action where
  | add | delete | update
deriving DecidableEq

/-- `struct VersionEdit` (version.rs:374-389).  `part` is not written to the manifest. -/
structure Edit where
  seq : Nat
  fileId : Nat
  maxLevelTs : Int
  add : List Meta
  del : List Meta
  part : List Meta
  act : Action
  vnode : Nat
  name : Bytes
deriving DecidableEq

/-- `VersionEdit::default` with a vnode id (version.rs:390-412). -/
def Edit.new (vnode : Nat) : Edit := ⟨0, 0, i64Min, [], [], [], .update, vnode, []⟩

/-- `new_update_vnode` (version.rs:414-422). -/
def Edit.newUpdate (vnode : Nat) (owner : Bytes) (seq : Nat) : Edit := { Edit.new vnode with seq := seq, name := owner }

/-- `new_add_vnode` (version.rs:424-433). -/
def Edit.newAdd (vnode : Nat) (owner : Bytes) (seq : Nat) : Edit :=
  { Edit.new vnode with seq := seq, name := owner, act := .add }

/-- `VersionEdit::add_file` (version.rs:499-503). -/
def Edit.addFile (m : Meta) (maxLevelTs : Int) (e : Edit) : Edit :=
  { e with fileId := max e.fileId m.id, maxLevelTs := max e.maxLevelTs maxLevelTs, add := e.add ++ [m] }

/-- Where a file lies (level_info.rs:73-79). -/
structure Path where
  delta : Bool
  vnode : Nat
  id : Nat
deriving DecidableEq

/-- `struct ColumnFile` (column_file.rs:24-36), the part that describes the file. -/
structure File where
  id : Nat
  level : Nat
  range : TimeRange
  size : Nat
  path : Path
deriving DecidableEq

/-- `struct LevelInfo` (level_info.rs:16-28). -/
structure Level where
  level : Nat
  vnode : Nat
  files : List File
  curSize : Nat
  range : TimeRange
deriving DecidableEq

/-- `LevelInfo::init` (level_info.rs:31-51). -/
def Level.init (vnode l : Nat) : Level := ⟨l, vnode, [], 0, ⟨i64Max, i64Min⟩⟩

/-- `init_levels` (level_info.rs:53-65). -/
def initLevels (vnode : Nat) : List Level := (List.range 5).map (Level.init vnode)

/-- `sort_file_asc` (level_info.rs:115-118). -/
def sortFiles (l : List File) : List File := Sort.sortBy (fun a b => decide (a.id ≤ b.id)) l

/-- `push_column_file` (level_info.rs:94-101). -/
def Level.pushFile (f : File) (l : Level) : Level :=
  { l with files := sortFiles (l.files ++ [f]), curSize := l.curSize + f.size,
           range := ⟨min l.range.minTs f.range.minTs, max l.range.maxTs f.range.maxTs⟩ }

/-- `ColumnFile::with_compact_data` (column_file.rs:39-56) with the path of `push_compact_meta`. -/
def Meta.file (m : Meta) (vnode : Nat) : File := ⟨m.id, m.level, ⟨m.minTs, m.maxTs⟩, m.size, ⟨m.delta, vnode, m.id⟩⟩

/-- `push_compact_meta` (level_info.rs:67-92). -/
def Level.pushMeta (m : Meta) (l : Level) : Level :=
  { l with files := sortFiles (l.files ++ [m.file l.vnode]), vnode := m.vnode, curSize := l.curSize + m.size,
           range := ⟨min l.range.minTs m.minTs, max l.range.maxTs m.maxTs⟩ }

/-- `update_time_range` (level_info.rs:105-113). -/
def Level.updateRange (l : Level) : Level :=
  { l with range := ⟨l.files.foldl (fun t f => min t f.range.minTs) i64Max,
                     l.files.foldl (fun t f => max t f.range.maxTs) i64Min⟩ }

/-- `struct Version` (version.rs:26-37). -/
structure Ver where
  vnode : Nat
  lastSeq : Nat
  maxLevelTs : Int
  levels : List Level
deriving DecidableEq

/-- The loop over one level (version.rs:84-104). -/
def applyLevel (vnode : Nat) (e : Edit) (l : Level) : Level :=
  let kept := l.files.filter fun f => !(e.del.any fun d => decide (d.level = f.level) && decide (d.id = f.id))
  let new := kept.foldl (fun l f => l.pushFile f) (Level.init vnode l.level)
  let new := (e.add.filter fun m => decide (m.level = l.level)).foldl (fun l m => l.pushMeta m) new
  new.updateRange

/-- `copy_apply_version_edits` (version.rs:60-118) with `update_max_level_ts` (version.rs:120-135).  `none` is the index out
of bounds for a level above 4. -/
def Ver.apply (e : Edit) (v : Ver) : Option Ver :=
  if (e.add ++ e.del).all fun m => decide (m.level < 5) then
    let levels := v.levels.map (applyLevel v.vnode e)
    some { vnode := v.vnode, lastSeq := max v.lastSeq e.seq, levels := levels,
           maxLevelTs := (levels.flatMap Level.files).foldl (fun t f => max f.range.maxTs t) i64Min }
  else none

/-- `build_version_edit` (tseries_family.rs:273-289). -/
def Ver.build (owner : Bytes) (v : Ver) : Edit :=
  v.levels.foldl (fun e l => l.files.foldl (fun e f =>
      e.addFile ⟨f.id, f.size, l.vnode, f.level, f.range.minTs, f.range.maxTs, decide (f.level = 0)⟩ v.maxLevelTs) e)
    (Edit.newAdd v.vnode owner v.lastSeq)

/-! ## Recovery -/

/-- The edits that count (summary.rs:63-83): an addition of the vnode starts anew, a removal forgets all. -/
def current (es : List Edit) : List Edit := es.foldl (fun acc e => match e.act with
  | .add => [e]
  | .delete => []
  | .update => acc ++ [e]) []

/-- The files after one edit (summary.rs:97-102). -/
def applyFiles (m : AMap Nat Meta) (e : Edit) : AMap Nat Meta :=
  e.add.foldl (fun m f => m.set f.id f) (e.del.foldl (fun m f => m.del f.id) m)

/-- `levels[meta.level].push_compact_meta(…)` (summary.rs:114-120). -/
def pushTo (ls : List Level) (m : Meta) : List Level := ls.modify m.level (Level.pushMeta m)

/-- `Summary::recover` after the records were decoded (summary.rs:85-130): the version and the next file number; `order` is the
order in which the files are walked.  The outer `none` is the index out of bounds, the inner one is "no such vnode". -/
def recover (vnode : Nat) (order : List (Nat × Meta) → List (Nat × Meta)) (es : List Edit) : Option (Option (Ver × Nat)) :=
  match current es with
  | [] => some none
  | es =>
    let files := (order (es.foldl applyFiles AMap.empty).entries).map Prod.snd
    if files.all fun m => decide (m.level < 5) then
      some (some
        ({ vnode := vnode, lastSeq := es.foldl (fun s e => max s e.seq) 0,
           maxLevelTs := es.foldl (fun s e => max s e.maxLevelTs) i64Min,
           levels := files.foldl pushTo (initLevels vnode) },
         es.foldl (fun s e => max s e.fileId) 0 + 1))
    else none

/-! ## The running system -/

/-- A vnode: the records of its manifest, its version, its generator of file numbers, and the numbers handed out for files that
are not in the version yet (write buffers, running compactions). -/
structure Sys where
  manifest : List Edit
  ver : Ver
  gen : Nat
  taken : List Nat
deriving DecidableEq

/-- What the manifest keeps of an edit (`serde(skip)`, version.rs:382-383). -/
def Edit.stored (e : Edit) : Edit := { e with part := [] }

/-- `apply_version_edit` (summary.rs:133-192) with `rewrite_summary_file` (summary.rs:194-216); `full` is the decision to
rewrite the manifest (the file has grown too large). -/
def Sys.apply (owner : Bytes) (full : Bool) (e : Edit) (s : Sys) : Option Sys :=
  (s.ver.apply e).map fun v =>
    { s with manifest := if full then [(v.build owner).stored] else s.manifest ++ [e.stored], ver := v }

/-- `create_tsfamily` for a new vnode (database.rs:100-127, tseries_family.rs:47-60): the generator starts at 1 and the active
write buffer takes the first number. -/
def Sys.create (vnode : Nat) (owner : Bytes) (full : Bool) : Option Sys :=
  Sys.apply owner full (Edit.newAdd vnode owner 0) ⟨[], ⟨vnode, 0, i64Min, initLevels vnode⟩, 2, [1]⟩

/-- The numbers that `add_tsfamily` gives (database.rs:140-156). -/
def renumber (start : Nat) (l : List Meta) : List Meta := (l.zipIdx start).map fun p => { p.1 with id := p.2 }

/-- `update_vnode_id` (version.rs:446-456). -/
def Edit.setVnode (vnode : Nat) (e : Edit) : Edit :=
  { e with vnode := vnode, add := e.add.map fun m => { m with vnode := vnode },
           del := e.del.map fun m => { m with vnode := vnode } }

/-- `apply_snapshot` (vnode_store.rs:174-212) and `add_tsfamily` (database.rs:130-186): a vnode made from the edit of a
snapshot; the directory and with it the old manifest are removed, the files get numbers from a new generator. -/
def Sys.install (vnode : Nat) (owner : Bytes) (full : Bool) (e : Edit) : Option Sys :=
  let e := e.setVnode vnode
  let e := { e with add := renumber 1 e.add, del := renumber (1 + e.add.length) e.del }
  let n := 1 + e.add.length + e.del.length
  Sys.apply owner full e ⟨[], ⟨vnode, e.seq, e.maxLevelTs, initLevels vnode⟩, n + 1, [n]⟩

/-- What happens to a vnode. -/
inductive Op where
  /-- A write buffer is made or a compaction opens a file: `next_id` (id_generator.rs:20-22). -/
  | take
  /-- A flush (flush.rs:61-134) or a compaction (writer_wrapper.rs:52-88) is recorded: new files with `add_file`, files to
  delete, files deleted in part. -/
  | commit (seq : Nat) (name : Bytes) (adds : List (Meta × Int)) (dels part : List Meta) (full : Bool)
  /-- The process stops and starts: `recover`, and a write buffer takes a number (database.rs:84-98); `order` is the order of
  the `HashMap`. -/
  | restart (order : List (Nat × Meta) → List (Nat × Meta))

/-- The edit of a flush or a compaction. -/
def commitEdit (vnode seq : Nat) (name : Bytes) (adds : List (Meta × Int)) (dels part : List Meta) : Edit :=
  { adds.foldl (fun e p => e.addFile p.1 p.2) (Edit.newUpdate vnode name seq) with del := dels, part := part }

/-- One step; `none` is a panic or an error of recovery. -/
def step (owner : Bytes) (op : Op) (s : Sys) : Option Sys :=
  match op with
  | .take => some { s with gen := s.gen + 1, taken := s.taken ++ [s.gen] }
  | .commit seq name adds dels part full =>
    (s.apply owner full (commitEdit s.ver.vnode seq name adds dels part)).map fun s' =>
      { s' with taken := s'.taken.filter fun i => !(adds.any fun p => decide (p.1.id = i)) }
  | .restart order =>
    match recover s.ver.vnode order s.manifest with
    | some (some (v, n)) => some ⟨s.manifest, v, n + 1, [n]⟩
    | _ => none

/-- Several steps. -/
def run (owner : Bytes) : List Op → Sys → Option Sys
  | [], s => some s
  | op :: ops, s => (step owner op s).bind (run owner ops)

/-- `split_to_tsfamily` (version_set.rs:75-138) for one vnode: the edits of a common manifest become one edit. -/
def split (vnode : Nat) (order : List (Nat × Meta) → List (Nat × Meta)) (es : List Edit) : List Edit :=
  let es := es.foldl (fun acc e => if e.vnode = vnode then match e.act with
      | .add => some [e]
      | .delete => none
      | .update => acc.map (· ++ [e]) else acc) (none : Option (List Edit))
  match es with
  | none | some [] => []
  | some (e :: es') =>
    let es := e :: es'
    [{ Edit.newAdd vnode e.name (es.foldl (fun s e => max s e.seq) 0) with
        fileId := es.foldl (fun s e => max s e.fileId) 1
        maxLevelTs := es.foldl (fun s e => max s e.maxLevelTs) i64Min
        add := (order (es.foldl applyFiles AMap.empty).entries).map Prod.snd }]

end Verif.Version
