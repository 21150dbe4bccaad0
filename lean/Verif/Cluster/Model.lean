import Verif.Meta.BucketProps
import Verif.Utils.Model
/-!
# Model: writes, deletes and queries of a database that is spread over replication sets

* `coordinator/src/service.rs` (`write_lines`, `write_record_batch`, `delete_from_table`, `prune_shards`,
  `table_vnodes`, `push_points_to_requests`)
* `coordinator/src/raft/writer.rs`, `coordinator/src/tskv_executor.rs` (a command is executed by the leader of its set)
* `meta/src/model/meta_tenant.rs` (`locate_replication_set_for_write`, `create_bucket`)
* `tskv/src/mem_cache/row_data.rs` (time of a row in the vnode)

The catalogue of buckets and replication sets is the one of `Verif.Meta`.  What happens inside one replication set is the subject of
`Verif.Raft` (the replicas execute the same commands in the same order) and `Verif.Replica` (a replica shows what the commands it executed
say); here a set is its log of commands, and a replica of it is a number of commands that it has executed.

Simplifications: one database; values are numbers, columns are names; the condition of a DELETE on tags is a function of the series (see
C56 for how it is computed); the node that runs the coordinator knows the catalogue as it is stored (C109); routing of one request is
not interleaved with changes of the catalogue by others (everything after the routing is); limiters never refuse.
-/
namespace Verif.Cluster
open Meta (Db Bucket ReplSet)

abbrev Bytes := Utils.Bytes
abbrev Precision := Utils.Precision

/-- Table and tags, the tags sorted by name (`SeriesKey`, common/models/src/series_info.rs:20-24). -/
structure Series where
  table : Bytes
  tags : List (Bytes × Bytes)
deriving DecidableEq

/-- One value in a table: series, time in the precision of the database, column. -/
structure Cell where
  series : Series
  time : Int
  field : Bytes
deriving DecidableEq

abbrev Val := Nat
abbrev Content := Cell → Option Val

/-- The interface by which a row comes: line protocol (also OpenTSDB and Prometheus, which use the same parser types and hash), JSON
lines, or INSERT with the tag columns of the record batch in their order. -/
inductive Src where
  | text
  | json
  | sql (cols : List (Bytes × Option Bytes))

/-- `struct Line` (common/protocol_parser/src/lib.rs:35-42) or a row of a record batch. -/
structure Line where
  series : Series
  time : Int
  fields : List (Bytes × Val)
  src : Src

/-- `line.hash_id`, or the hash of a row (service.rs:674-714). -/
def Line.hash (l : Line) : Nat :=
  match l.src with
  | .text => (Utils.lineHash l.series.table l.series.tags).toNat
  | .json => (Utils.jsonHash l.series.table l.series.tags).toNat
  | .sql cols => (Utils.insertHash l.series.table cols).toNat

/-- A request to the database, and also a command to one replication set (`RaftWriteCommand`: `WriteData`, `DeleteFromTable`). -/
inductive Req where
  | write (prec : Precision) (lines : List Line)
  | delete (table : Bytes) (ranges : List (Int × Int)) (sel : Series → Bool)

def Content.set (m : Content) (c : Cell) (v : Val) : Content := fun x => if x = c then some v else m x

/-- A row in a vnode: its time is converted to the precision of the table (row_data.rs:170-190); the newest value of a column wins (C25). -/
def applyLine (p dbp : Precision) (m : Content) (l : Line) : Content :=
  match Utils.timestampConvert p dbp l.time with
  | none => m
  | some t => l.fields.foldl (fun m f => m.set ⟨l.series, t, f.1⟩ f.2) m

def inRanges (ranges : List (Int × Int)) (t : Int) : Bool :=
  ranges.any fun r => decide (r.1 ≤ t) && decide (t ≤ r.2)

/-- Does a DELETE name this cell? -/
def selects (table : Bytes) (ranges : List (Int × Int)) (sel : Series → Bool) (c : Cell) : Bool :=
  decide (c.series.table = table) && inRanges ranges c.time && sel c.series

/-- What a command does to the contents of a vnode. -/
def Req.run (dbp : Precision) (m : Content) : Req → Content
  | .write p lines => lines.foldl (applyLine p dbp) m
  | .delete table ranges sel => fun c => if selects table ranges sel c then none else m c

/-- What a replica shows that executed these commands. -/
def content (dbp : Precision) (log : List Req) : Content := log.foldl (Req.run dbp) fun _ => none

/-- What the meta server uses when it is asked for a bucket: the data nodes it knows and the oldest time that is still kept. -/
structure Env where
  nodes : List Nat
  expired : Int

/-- `locate_replication_set_for_write` (meta_tenant.rs:716-729) with `create_bucket` (562-579). -/
def locate (word : Nat) (db : Db) (hash : Nat) (ts : Int) (e : Env) : Db × Option ReplSet :=
  match Meta.bucketByTimestamp db.buckets ts with
  | some b => (db, b.vnodeFor hash)
  | none =>
    let db' := db.create word ts e.nodes e.expired
    (db', (Meta.bucketByTimestamp db'.buckets ts).bind fun b => b.vnodeFor hash)

/-- `map_lines.entry(info.id).or_insert(..).add_line(line)` (service.rs:606-607). -/
def addTo : List (Nat × List Line) → Nat → Line → List (Nat × List Line)
  | [], i, l => [(i, [l])]
  | g :: gs, i, l => if g.1 = i then (g.1, g.2 ++ [l]) :: gs else g :: addTo gs i l

/-- The loop over the lines of a request (service.rs:594-608; the one of `write_record_batch`, 675-748, does the same with the hash of
the row).  `none`: the request is refused; buckets that were made stay. -/
def route (word : Nat) (p dbp : Precision) : Db → List (Nat × List Line) → List (Line × Env) → Db × Option (List (Nat × List Line))
  | db, acc, [] => (db, some acc)
  | db, acc, (l, e) :: rest =>
    match Utils.timestampConvert p dbp l.time with
    | none => (db, none)
    | some ts =>
      match locate word db l.hash ts e with
      | (db', none) => (db', none)
      | (db', some r) => route word p dbp db' (addTo acc r.id l) rest

/-- `TimeRanges::min_ts`, `max_ts`: the ends of all ranges (`Verif.Time`). -/
def hull : List (Int × Int) → Int × Int
  | [] => (i64Max, i64Min)
  | [r] => r
  | r :: rs => (min r.1 (hull rs).1, max r.2 (hull rs).2)

/-- `prune_shards` (service.rs:307-326): all sets of the buckets that meet the time span. -/
def prune (db : Db) (lo hi : Int) : List ReplSet := (Meta.mappingBucket db.buckets lo hi).flatMap (·.shards)

/-- A replication set: the commands committed, how many of them each replica has executed, and how many there were when the last
command was acknowledged. -/
structure Group where
  log : List Req := []
  applied : Nat → Nat := fun _ => 0
  acked : Nat := 0

/-- The database: catalogue, sets by id, and all commands ever sent to a set. -/
structure State where
  db : Db
  group : Nat → Group := fun _ => {}
  issued : List (Nat × Req) := []

/-- The recorded leader of a set (`update_new_leader_to_meta`, tskv_executor.rs:131-149); an unknown vnode changes nothing. -/
def ReplSet.lead (r : ReplSet) (set vnode : Nat) : ReplSet :=
  if r.id = set then
    match r.vnodes.find? (fun v => decide (v.id = vnode)) with
    | some v => { r with leaderVnode := v.id, leaderNode := v.node }
    | none => r
  else r

def setLeader (db : Db) (set vnode : Nat) : Db :=
  { db with buckets := db.buckets.map fun b => { b with shards := b.shards.map fun r => ReplSet.lead r set vnode } }

/-- What happens in the cluster. -/
inductive Op where
  /-- a command of the meta server: buckets made in advance, expired buckets removed, replicas moved -/
  | catalog (c : Meta.Cmd)
  /-- `write_lines`/`write_record_batch` up to sending the commands to the sets -/
  | write (p : Precision) (lines : List (Line × Env))
  /-- `delete_from_table` (service.rs:845-886) up to sending the commands -/
  | delete (table : Bytes) (ranges : List (Int × Int)) (sel : Series → Bool)
  /-- The `i`-th command sent is committed in its set.  `some v`: replica `v`, the leader, executes it and it is acknowledged, after which
  `v` is the recorded leader.  `none`: nobody hears of it.  A command can be committed late, never, or more than once (repeated requests). -/
  | commit (i : Nat) (ack : Option Nat)
  /-- a replica executes commands up to the `n`-th -/
  | apply (set vnode n : Nat)

def State.setGroup (s : State) (i : Nat) (g : Group) : State := { s with group := fun j => if j = i then g else s.group j }

/-- One step. -/
def State.step (word : Nat) (dbp : Precision) (s : State) : Op → State
  | .catalog c => { s with db := s.db.step word c }
  | .write p lines =>
    let r := route word p dbp s.db [] lines
    match r.2 with
    | none => { s with db := r.1 }
    | some gs => { s with db := r.1, issued := s.issued ++ gs.map fun g => (g.1, .write p g.2) }
  | .delete table ranges sel =>
    { s with issued := s.issued ++ (prune s.db (hull ranges).1 (hull ranges).2).map fun r => (r.id, .delete table ranges sel) }
  | .commit i ack =>
    match s.issued[i]? with
    | none => s
    | some (set, cmd) =>
      let g := s.group set
      match ack with
      | none => s.setGroup set { g with log := g.log ++ [cmd] }
      | some v =>
        { s.setGroup set { log := g.log ++ [cmd]
                           applied := fun x => if x = v then g.log.length + 1 else g.applied x
                           acked := g.log.length + 1 } with
          db := setLeader s.db set v }
  | .apply set v n =>
    let g := s.group set
    s.setGroup set { g with applied := fun x => if x = v then max (g.applied v) (min n g.log.length) else g.applied x }

def State.run (word : Nat) (dbp : Precision) (s : State) (ops : List Op) : State := ops.foldl (State.step word dbp) s

/-- What replica `v` of a set shows. -/
def Group.shows (dbp : Precision) (g : Group) (v : Nat) : Content := content dbp (g.log.take (g.applied v))

/-- `VnodeStatus` (meta_data.rs:141-146). -/
inductive Status where
  | running | copying | broken
deriving DecidableEq

/-- The key by which `table_vnodes` sorts the replicas (service.rs:527-537). -/
def readKey (r : ReplSet) (status : Nat → Status) (v : Meta.Vnode) : Nat :=
  if v.id = r.leaderVnode then 0
  else match status v.id with
    | .running => 1
    | .copying => 2
    | .broken => 2147483647

/-- The replicas of a set that a query may read, in the order in which it tries them (service.rs:525-545). -/
def candidates (r : ReplSet) (status : Nat → Status) : List Meta.Vnode :=
  ((Sort.sortBy (fun a b => decide (readKey r status a ≤ readKey r status b)) r.vnodes).filter
    fun v => decide (status v.id ≠ .broken)).take 2

/-- A query over a time span, `pick r` being the replica that is read of set `r`: what each set answers. -/
def State.query (dbp : Precision) (s : State) (lo hi : Int) (pick : ReplSet → Nat) : List Content :=
  (prune s.db lo hi).map fun r => (s.group r.id).shows dbp (pick r)

end Verif.Cluster
