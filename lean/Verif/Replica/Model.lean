import Verif.Common.AMap
/-!
# Model: one replica of a vnode, from commands to what queries see

* `tskv/src/vnode_store.rs` (`apply`, `write`, `update_tags_value`, `delete`, `create_snapshot`, `apply_snapshot`)
* `tskv/src/database.rs` (`build_index`, `add_tsfamily`, `rebuild_tsfamily_index`)
* `tskv/src/index/ts_index.rs` (`add_series_if_not_exists`, `update_series_key`, `del_series_info`, `prepare_update_tags_value`,
  `add_series_for_rebuild`, `check_to_flush`)
* `tskv/src/tsfamily/tseries_family.rs`, `tskv/src/compaction/{job,flush}.rs` (switching and flushing)
* `tskv/src/wal/wal_store.rs` (`recover`), `coordinator/src/raft/{manager,mod}.rs`, `replication/src/node_store.rs`

Simplifications.  A series key is a number, a row has one field (different fields do not affect each other), the schema does not
change (see C103).  Commands, and the steps of a flush, are atomic; one flush runs at a time (see C74); the parts of the
index cache that are written to disk by themselves (every 10000 changes) are the step `sync`.  A restart happens
between two commands.  Compaction is one step that merges the files of level 0.
-/
namespace Verif.Replica

/-- A stored value: series id, time, value. -/
structure Cell where
  sid : Nat
  ts : Int
  val : Nat
deriving DecidableEq

/-! ## The index -/

/-- `TSIndex`: the maps between keys and ids and the last id given. -/
structure Index where
  fwd : AMap Nat Nat
  key : AMap Nat Nat
  incr : Nat

def Index.empty : Index := ⟨.empty, .empty, 0⟩

/-- `cache.write` (index/cache.rs). -/
def Index.put (x : Index) (sid k : Nat) : Index := { x with fwd := x.fwd.set k sid, key := x.key.set sid k }

/-- `del_series_info` (ts_index.rs:240-262) on one of the two copies; `k` is the key of the id, if it has one. -/
def Index.drop (x : Index) (sid : Nat) (k : Option Nat) : Index :=
  { x with key := x.key.del sid, fwd := match k with | some k => x.fwd.del k | none => x.fwd }

/-- One series of `add_series_if_not_exists` (ts_index.rs:148-176). -/
def Index.add (x : Index) (k : Nat) : Index × Nat :=
  match x.fwd.get k with
  | some sid => (x, sid)
  | none => ({ x.put (x.incr + 1) k with incr := x.incr + 1 }, x.incr + 1)

/-- The ids of the series whose keys satisfy a condition (`get_series_ids_by_domains`, ts_index.rs:397-449; see C44, C65). -/
def Index.select (x : Index) (p : Nat → Bool) : List Nat := (x.key.entries.filter fun e => p e.2).map Prod.fst

/-! ## Caches and files -/

/-- `MemCache`: the rows, the newest first; the keys of its series; the number of the last write. -/
structure Cache where
  id : Nat
  seq : Nat
  wrote : Bool
  rows : List Cell
  keys : AMap Nat Nat

/-- A data file with its tombstone file.  `keys` are the keys of the chunks. -/
structure File where
  id : Nat
  level : Nat
  rows : List Cell
  keys : AMap Nat Nat
  tombs : List (List Nat × Int × Int)

/-- The value of a cell in a list with the newest row first. -/
def look (rows : List Cell) (sid : Nat) (ts : Int) : Option Nat :=
  (rows.find? fun c => decide (c.sid = sid) && decide (c.ts = ts)).map Cell.val

/-- Whether a tombstone covers a cell. -/
def covers (d : List Nat × Int × Int) (sid : Nat) (ts : Int) : Bool :=
  d.1.contains sid && decide (d.2.1 ≤ ts) && decide (ts ≤ d.2.2)

/-- The value of a cell in a file (C17). -/
def File.look (f : File) (sid : Nat) (ts : Int) : Option Nat :=
  if f.tombs.any fun d => covers d sid ts then none else Replica.look f.rows sid ts

/-- The value from the source with the greatest id (`DataReference::cmp`, reader/mod.rs:307-311; C34). -/
def pick : List (Nat × Option Nat) → Option (Nat × Nat)
  | [] => none
  | (_, none) :: l => pick l
  | (i, some v) :: l =>
    match pick l with
    | some (j, w) => if i ≤ j then some (j, w) else some (i, v)
    | none => some (i, v)

/-- A flush under way: a cache and the file that will be installed (`SummaryTask`). -/
structure Pend where
  cache : Nat
  seq : Nat
  file : File

/-- A vnode.  `caches` are the immutable caches, the oldest first, and the mutable one at the end. -/
structure Vnode where
  live : Index
  disk : Index
  /-- the tombstones of the index: old keys of series that got new ones; on disk -/
  old : AMap Nat Nat
  files : List File
  caches : List Cache
  pend : List Pend
  /-- `IDGenerator` of the summary -/
  nextFile : Nat
  /-- the greatest file id in the manifest -/
  maxFile : Nat
  /-- `Version::last_seq` -/
  flushed : Nat

def Cache.new (id seq : Nat) : Cache := ⟨id, seq, false, [], .empty⟩

/-- A new vnode. -/
def Vnode.init : Vnode := ⟨.empty, .empty, .empty, [], [Cache.new 1 0], [], 2, 0, 0⟩

/-- The sources for a cell. -/
def Vnode.sources (v : Vnode) (sid : Nat) (ts : Int) : List (Nat × Option Nat) :=
  v.files.map (fun f => (f.id, f.look sid ts)) ++ v.caches.map fun c => (c.id, look c.rows sid ts)

/-- The value of a cell. -/
def Vnode.read (v : Vnode) (sid : Nat) (ts : Int) : Option Nat := (pick (v.sources sid ts)).map Prod.snd

/-- What a query sees: for each series in the index its key and the values found for its id. -/
def Vnode.Shows (v : Vnode) (k : Nat) (ts : Int) (val : Nat) : Prop :=
  ∃ sid, v.live.key.get sid = some k ∧ v.read sid ts = some val

/-! ## Commands -/

/-- `raft_write_command::Command`, and entries of the log that are not for the vnode. -/
inductive Cmd where
  | blank
  | write (rows : List (Nat × Int × Nat))
  | delete (p : Nat → Bool) (lo hi : Int)
  | rename (f : Nat → Nat) (matched : List Nat)

/-- The series id of one row (`build_index`, database.rs:287-350). -/
def Vnode.resolve (v : Vnode) (wal : Bool) (k : Nat) : Vnode × Nat :=
  match v.live.fwd.get k with
  | some sid => (v, sid)
  | none =>
    match (if wal then v.old.get k else none) with
    | some sid => (v, sid)
    | none => let r := v.live.add k; ({ v with live := r.1 }, r.2)

/-- The ids of all rows of a request. -/
def Vnode.resolveAll (wal : Bool) : Vnode → List (Nat × Int × Nat) → Vnode × List (Nat × Cell)
  | v, [] => (v, [])
  | v, (k, ts, x) :: rows =>
    let r := v.resolve wal k
    let q := Vnode.resolveAll wal r.1 rows
    (q.1, (k, ⟨r.2, ts, x⟩) :: q.2)

/-- `write_group` for one row (memcache.rs:118-143). -/
def Cache.put (c : Cache) (seq : Nat) (k : Nat) (cell : Cell) : Cache :=
  { c with
    seq := seq
    wrote := true
    rows := cell :: c.rows
    keys := if (c.keys.get cell.sid).isSome then c.keys else c.keys.set cell.sid k }

/-- `put_points` (tseries_family.rs:178-196). -/
def Cache.putAll (c : Cache) (seq : Nat) (cells : List (Nat × Cell)) : Cache := cells.foldl (fun c e => c.put seq e.1 e.2) c

/-- Changing the last element of a list: the mutable cache. -/
def onLast (f : Cache → Cache) : List Cache → List Cache
  | [] => []
  | [c] => [f c]
  | c :: cs => c :: onLast f cs

/-- `delete_range` in a cache. -/
def Cache.delete (c : Cache) (d : List Nat × Int × Int) : Cache :=
  { c with rows := c.rows.filter fun x => !covers d x.sid x.ts }

/-- `VnodeStorage::delete` (vnode_store.rs:567-608): the caches and the files of the version. -/
def Vnode.delete (v : Vnode) (d : List Nat × Int × Int) : Vnode :=
  { v with
    caches := v.caches.map fun c => c.delete d
    files := v.files.map fun f => { f with tombs := f.tombs ++ [d] } }

/-- One series in `update_series_key` (ts_index.rs:265-291) and in `update_tag_value` (tseries_family.rs:249-270). -/
def Vnode.renameOne (v : Vnode) (sid new : Nat) (oldKey : Nat) : Vnode :=
  let k := v.live.key.get sid
  { v with
    live := (v.live.drop sid k).put sid new
    disk := v.disk.drop sid k
    old := v.old.set oldKey sid
    caches := v.caches.map fun c => { c with keys := if (c.keys.get sid).isSome then c.keys.set sid new else c.keys }
    files := v.files.map fun f => { f with keys := if (f.keys.get sid).isSome then f.keys.set sid new else f.keys } }

/-- The series found in `prepare_update_tags_value`, with their ids (ts_index.rs:336-343). -/
def Index.matched (x : Index) (ms : List Nat) : List (Nat × Nat) := ms.filterMap fun k => (x.fwd.get k).map fun sid => (k, sid)

/-- The checks of `prepare_update_tags_value` (ts_index.rs:376-396). -/
def Index.renameOk (x : Index) (wal : Bool) (f : Nat → Nat) (ms : List (Nat × Nat)) : Bool :=
  (wal || ms.all fun m => (x.fwd.get (f m.1)).isNone) && decide ((ms.map fun m => f m.1).Nodup)

/-- `VnodeStorage::apply` (vnode_store.rs:82-126).  `wal` is set when a command is replayed from the log. -/
def Vnode.apply (v : Vnode) (wal : Bool) (seq : Nat) : Cmd → Vnode
  | .blank => v
  | .write rows =>
    let r := Vnode.resolveAll wal v rows
    { r.1 with caches := onLast (fun c => c.putAll seq r.2) r.1.caches }
  | .delete p lo hi => v.delete (v.live.select p, lo, hi)
  | .rename f ms =>
    let found := v.live.matched ms
    if v.live.renameOk wal f found then found.foldl (fun v m => v.renameOne m.2 (f m.1) m.1) v else v

/-! ## Background steps -/

/-- `check_to_flush` of the index (ts_index.rs:294-308). -/
def Vnode.sync (v : Vnode) : Vnode := { v with disk := v.live }

/-- `switch_to_immutable` (tseries_family.rs:158-176). -/
def Vnode.switch (v : Vnode) : Vnode :=
  match v.caches.getLast? with
  | some c => if c.wrote then { v with caches := v.caches ++ [Cache.new v.nextFile c.seq], nextFile := v.nextFile + 1 } else v
  | none => v

/-- The keys that go into the file: a series whose rows are all deleted has no pages and gets no chunk (flush.rs:87-101,
mem_cache/series_data.rs:218-262). -/
def Cache.kept (c : Cache) : AMap Nat Nat where
  entries := c.keys.entries.filter fun e => c.rows.any fun r => decide (r.sid = e.1)
  nodup := c.keys.nodup.sublist (List.filter_sublist.map _)

/-- The file that a flush writes for a cache (compaction/flush.rs:55-128). A file without chunks is removed again, which makes no
difference to what is shown. -/
def Cache.file (c : Cache) : File := ⟨c.id, 0, c.rows, c.kept, []⟩

/-- The second part of `FlushJob::run`: the caches are taken and the files written (job.rs:353-381). -/
def Vnode.take (v : Vnode) : Vnode :=
  if v.pend.isEmpty then { v with pend := v.caches.dropLast.map fun c => ⟨c.id, c.seq, c.file⟩ } else v

/-- The start of `FlushJob::run` (job.rs:342-352) together with the second part. -/
def Vnode.begin (v : Vnode) : Vnode := v.sync.take

/-- `process_summary_tasks` for one task (job.rs:295-323); after the last one the tombstones of the index are cleared
(job.rs:391-397).  A cache without rows gives no file. -/
def Vnode.install (v : Vnode) : Vnode :=
  match v.pend with
  | [] => v
  | p :: ps =>
    { v with
      pend := ps
      caches := v.caches.filter fun c => decide (c.id ≠ p.cache)
      files := if p.file.rows.isEmpty then v.files else v.files ++ [p.file]
      maxFile := if p.file.rows.isEmpty then v.maxFile else max v.maxFile p.file.id
      flushed := max v.flushed p.seq
      old := if ps.isEmpty then .empty else v.old }

/-- A compaction of the files of level 0 into one of level 1 (C104); its id is a new one. -/
def Vnode.compact (v : Vnode) : Vnode :=
  let zero := v.files.filter fun f => decide (f.level = 0)
  let rest := v.files.filter fun f => decide (f.level ≠ 0)
  if zero.isEmpty then v else
    { v with
      files := rest ++ [⟨v.nextFile, 1, zero.reverse.flatMap (fun f => f.rows.filter fun c => !f.tombs.any fun d => covers d c.sid c.ts),
        zero.foldl (fun m f => f.keys.entries.foldl (fun m e => m.set e.1 e.2) m) .empty, []⟩]
      nextFile := v.nextFile + 1
      maxFile := max v.maxFile v.nextFile }

/-- What is left after the process ends: the files with their tombstones, the manifest and the index on disk.  The vnode is opened
again with an empty cache (summary.rs:54-131, tseries_family.rs:47-92). -/
def Vnode.reopen (v : Vnode) : Vnode :=
  { v with
    live := v.disk
    caches := [Cache.new (v.maxFile + 1) v.flushed]
    pend := []
    nextFile := v.maxFile + 2 }

/-- Whether a command gives an error.  Of the commands of this model only a change of tags can be refused. -/
def Vnode.fails (v : Vnode) (wal : Bool) : Cmd → Bool
  | .rename f ms => !v.live.renameOk wal f (v.live.matched ms)
  | _ => false

/-- Replaying entries, of which the first has the number `n + 1`: those after the flushed-up-to mark (`recover`, `recover_record`,
wal_store.rs:429-520).  The mark does not change while this runs, because a flush is a step of its own.  At the first error the rest of
the log is left alone, and the vnode opens. -/
def Vnode.replay (v : Vnode) : Nat → List Cmd → Vnode
  | _, [] => v
  | n, c :: cs =>
    if v.flushed < n + 1 then
      if v.fails true c then v else Vnode.replay (v.apply true (n + 1) c) (n + 1) cs
    else Vnode.replay v (n + 1) cs

/-! ## A replica and its log -/

/-- A vnode with the log of its raft group. -/
structure Sys where
  v : Vnode
  log : List Cmd

def Sys.init : Sys := ⟨.init, []⟩

/-- Steps of a replica. -/
inductive Step where
  | apply (c : Cmd)
  | sync
  | switch
  | begin
  | install
  | compact
  | crash

def Sys.step (s : Sys) : Step → Sys
  | .apply c => ⟨s.v.apply false (s.log.length + 1) c, s.log ++ [c]⟩
  | .sync => { s with v := s.v.sync }
  | .switch => { s with v := s.v.switch }
  | .begin => { s with v := s.v.begin }
  | .install => { s with v := s.v.install }
  | .compact => { s with v := s.v.compact }
  | .crash => { s with v := s.v.reopen.replay 0 s.log }

def Sys.run (s : Sys) (l : List Step) : Sys := l.foldl Sys.step s

/-! ## Snapshots -/

/-- `VnodeSnapshot`: the files and the mark at the time when it is made (vnode_store.rs:139-172, tseries_family.rs:273-289), by level. -/
def Vnode.snapshot (v : Vnode) : List File × Nat :=
  ((List.range 5).flatMap fun l => v.files.filter fun f => decide (f.level = l), v.flushed)

/-- Giving new ids to the files, in the order of the snapshot (`add_tsfamily`, database.rs:131-179).  Only the data files are
downloaded, without their tombstone files (coordinator/src/raft/mod.rs:92-131). -/
def renumber : Nat → List File → List File
  | _, [] => []
  | n, f :: fs => { f with id := n, tombs := [] } :: renumber (n + 1) fs

/-- `rebuild_index` (tseries_family.rs:306-348). -/
def rebuildIndex (fs : List File) : Index :=
  (fs.flatMap fun f => f.keys.entries).foldl
    (fun x e => { x.put e.1 e.2 with incr := if x.incr ≤ e.1 then e.1 + 1 else x.incr }) .empty

/-- `apply_snapshot` (vnode_store.rs:176-213). -/
def restore (snap : List File × Nat) : Vnode :=
  let fs := renumber 1 snap.1
  let x := rebuildIndex fs
  ⟨x, x, .empty, fs, [Cache.new (fs.length + 1) snap.2], [], fs.length + 2, fs.length, snap.2⟩

/-- A new replica: the snapshot, and then the entries of the log after it. -/
def Vnode.applyAll (v : Vnode) : Nat → List Cmd → Vnode
  | _, [] => v
  | n, c :: cs => Vnode.applyAll (v.apply false (n + 1) c) (n + 1) cs

/-- The replica that is made from another one: it takes the snapshot and applies the rest of the log. -/
def Sys.clone (s : Sys) : Sys :=
  ⟨(restore s.v.snapshot).applyAll s.v.snapshot.2 (s.log.drop s.v.snapshot.2), s.log⟩

end Verif.Replica
