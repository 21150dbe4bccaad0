import Verif.Common.Int64
/-!
# Model: time buckets, replica placement and the bucket part of the meta store

* `common/models/src/meta_data.rs`
* `common/models/src/schema/database_schema.rs` (`time_to_expired`)
* `meta/src/store/storage.rs` (`process_create_bucket` and friends)
* `meta/src/model/meta_tenant.rs` (`expired_bucket`, `locate_replication_set_for_write`)
-/
namespace Verif.Meta

/-- `i64::saturating_add` of in-range values. -/
def satAdd (a b : Int) : Int := if a + b > i64Max then i64Max else if a + b < i64Min then i64Min else a + b
/-- `i64::saturating_sub`. -/
def satSub (a b : Int) : Int := if a - b > i64Max then i64Max else if a - b < i64Min then i64Min else a - b

/-- `get_time_range` (meta_data.rs:308-324).  `/` truncates towards zero. -/
def getTimeRange (ts duration : Int) : Int × Int :=
  if duration ≤ 0 then (i64Min, i64Max)
  else if ts ≥ 0 then
    let floor := ts.tdiv duration
    (floor * duration, satAdd (floor * duration) duration)
  else
    let floor := (ts + 1).tdiv duration
    (satSub (floor * duration) duration, floor * duration)

/-- `VnodeInfo` (meta_data.rs:133-138) without the status. -/
structure Vnode where
  id : Nat
  node : Nat
deriving DecidableEq

/-- `ReplicationSet` (meta_data.rs:89-94). -/
structure ReplSet where
  id : Nat
  leaderNode : Nat
  leaderVnode : Nat
  vnodes : List Vnode
deriving DecidableEq

/-- `BucketInfo` (meta_data.rs:73-78). -/
structure Bucket where
  id : Nat
  start : Int
  stop : Int
  shards : List ReplSet
deriving DecidableEq

/-- Test used by `bucket_by_timestamp` and `process_create_bucket` (meta_data.rs:281, storage.rs:1191). -/
def Bucket.contains (b : Bucket) (ts : Int) : Bool := decide (ts ≥ b.start) && decide (ts < b.stop)

/-- `bucket_by_timestamp` (meta_data.rs:276-288). -/
def bucketByTimestamp (bs : List Bucket) (ts : Int) : Option Bucket := bs.find? (·.contains ts)

/-- `mapping_bucket` (meta_data.rs:290-305). -/
def mappingBucket (bs : List Bucket) (start stop : Int) : List Bucket :=
  bs.filter fun b => !(decide (stop < b.start) || decide (start > b.stop))

/-- `time_to_expired` (database_schema.rs:69-85): `now - ttl`, both `i64` in the database's precision;
`INF` is `i64::MAX`.  `now` is not negative, so the difference does not wrap. -/
def timeToExpired (now ttl : Int) : Int := now - ttl

/-- `expired_bucket` for one database (meta_tenant.rs:596-613). -/
def expiredBuckets (bs : List Bucket) (now ttl : Int) : List Bucket :=
  bs.filter fun b => decide (b.stop < timeToExpired now ttl)

/-- The inner loop of `allocation_replication_set` (meta_data.rs:353-360); `none` is the panic of
`unwrap` or of `% 0`.  Returns the replicas and the new `incr_id`, `index`.  `word` is 2^32, the
number of values of a `u32`. -/
def allocVnodes (word : Nat) (nodes : List Nat) : Nat → Nat → Nat → Option (List Vnode × Nat × Nat)
  | 0, incr, index => some ([], incr, index)
  | k + 1, incr, index =>
    if nodes.length = 0 then none
    else
      match nodes[index % nodes.length]? with
      | none => none
      | some n =>
        match allocVnodes word nodes k ((incr + 1) % word) ((index + 1) % word) with
        | none => none
        | some (vs, i, x) => some (⟨incr, n⟩ :: vs, i, x)

/-- The outer loop (meta_data.rs:344-365); `vnodes[0]` panics without replicas. -/
def allocSets (word : Nat) (nodes : List Nat) (replica : Nat) : Nat → Nat → Nat → Option (List ReplSet × Nat)
  | 0, incr, _ => some ([], incr)
  | k + 1, incr, index =>
    match allocVnodes word nodes replica ((incr + 1) % word) index with
    | some (v :: vs, i, x) =>
      match allocSets word nodes replica k i x with
      | some (sets, i') => some (⟨incr, v.node, v.id, v :: vs⟩ :: sets, i')
      | none => none
    | _ => none

/-- The number of replicas actually placed (meta_data.rs:332-338). -/
def effReplica (nodes : List Nat) (replica : Nat) : Nat :=
  if replica = 0 then 1 else if replica > nodes.length then nodes.length else replica

/-- `allocation_replication_set` (meta_data.rs:326-368). -/
def allocationReplicationSet (word : Nat) (nodes : List Nat) (shards replica beginSeq : Nat) :
    Option (List ReplSet × Nat) :=
  (allocSets word nodes (effReplica nodes replica) shards beginSeq 0).map
    fun r => (r.1, (r.2 + word - beginSeq) % word)

/-- The part of the meta store about one database: the id counter (shared by the cluster), the bucket
duration in database precision, the options and the buckets. -/
structure Db where
  incr : Nat
  duration : Int
  shardNum : Nat
  replica : Nat
  buckets : List Bucket

/-- Commands of the replicated state machine that touch buckets. -/
inductive Cmd where
  /-- `CreateBucket` with the reachable nodes and the value of `time_to_expired()` -/
  | create (ts : Int) (nodes : List Nat) (expired : Int)
  | delete (id : Nat)
  | retainId (count : Nat)
  /-- `AlterDB` -/
  | alter (duration : Int) (shardNum replica : Nat)
  | updateReplSet (bucket repl : Nat) (del add : List Vnode)

/-- `process_create_bucket` (storage.rs:1181-1244) with `fetch_and_add_incr_id` (storage.rs:217-228).
Errors leave the buckets unchanged. -/
def Db.create (word : Nat) (s : Db) (ts : Int) (nodes : List Nat) (expired : Int) : Db :=
  if s.buckets.any (·.contains ts) then s
  else if s.replica > nodes.length then s
  else if s.shardNum = 0 then s
  else if ts < expired then s
  else
    let id := s.incr
    let r := getTimeRange ts s.duration
    match allocationReplicationSet word nodes s.shardNum s.replica (id + 1) with
    | none => s
    | some (group, used) =>
      { s with
        incr := ((id + 1) % word + used) % word
        buckets := s.buckets ++ [⟨id, r.1, r.2, group⟩] }

/-- The update of one replication set (storage.rs:904-917). -/
def ReplSet.update (r : ReplSet) (del add : List Vnode) : ReplSet :=
  let vs := r.vnodes.filter (fun v => !del.any fun d => decide (v.id = d.id) && decide (v.node = d.node)) ++ add
  if vs.any (fun v => decide (v.id = r.leaderVnode)) then { r with vnodes := vs }
  else match vs with
    | [] => { r with vnodes := [] }
    | v :: _ => { r with vnodes := vs, leaderVnode := v.id, leaderNode := v.node }

/-- `process_update_vnode_repl_set` on one bucket (storage.rs:899-930); `none` removes the bucket. -/
def Bucket.update (b : Bucket) (repl : Nat) (del add : List Vnode) : Option Bucket :=
  let sh := (b.shards.map fun r => if r.id ≠ repl then r else r.update del add).filter
    fun r => !r.vnodes.isEmpty
  if sh.isEmpty then none else some { b with shards := sh }

/-- One command. -/
def Db.step (word : Nat) (s : Db) : Cmd → Db
  | .create ts nodes expired => s.create word ts nodes expired
  | .delete id => { s with buckets := s.buckets.filter fun b => decide (b.id ≠ id) }
  | .retainId n => { s with incr := (s.incr + n) % word }
  | .alter d sh r => { s with duration := d, shardNum := sh, replica := r }
  | .updateReplSet bid repl del add =>
    { s with buckets := s.buckets.filterMap fun b => if b.id = bid then b.update repl del add else some b }

/-- A history of commands. -/
def Db.run (word : Nat) (s : Db) (cs : List Cmd) : Db := cs.foldl (Db.step word) s

/-- `vnode_for` (meta_data.rs:81-85); `none` is the panic of `% 0`. -/
def Bucket.vnodeFor (b : Bucket) (hash : Nat) : Option ReplSet :=
  if b.shards.length = 0 then none else b.shards[hash % b.shards.length]?

end Verif.Meta
