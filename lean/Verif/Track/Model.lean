import Verif.Common.AMap
/-!
# Model: the queries that a node runs

* `query_server/query/src/dispatcher/query_tracker.rs` (`QueryTracker`, `QueryExecutionTrackedProxy`, `TrackedRecordBatchStream`)
* `query_server/query/src/dispatcher/persister.rs` and `meta/src/store/storage.rs:479-491,814-847` (the queries that are stored)
* `query_server/query/src/dispatcher/manager.rs:204-238,328-455,495-511` (`cancel_query`, `execute_persister_query`, the takeover)
* `query_server/query/src/execution/query.rs:66-102`, `execution/stream/mod.rs:130-246` (`start`, `cancel`)
* `query_server/query/src/execution/sys/kill_query.rs`, `sql/planner.rs:310-317` (KILL)
* `query_server/query/src/metadata/information_schema_provider/factory/queries.rs:139-165` (who sees which queries)

Simplifications.  A query is its id, tenant, user, node and kind.  Work on a query is a phase; that the handle for cancelling is
there as soon as a query starts is assumed.  What a query computes, its state and its times are left out, and so is the record of slow
queries.
-/
namespace Verif.Track

/-- `QueryInfo` (common/models/src/schema/query_info.rs) and the kind of the query; the queries of a stream are those that need to
persist (stream/mod.rs:272-274). -/
structure Info where
  id : Nat
  tenant : Nat
  user : Nat
  node : Nat
  stream : Bool
deriving DecidableEq

/-- The work on a query. -/
inductive Phase where
  /-- inside of `start` -/
  | starting (stream : Bool)
  /-- the batches of the result are being read -/
  | reading
  /-- the job of a stream runs -/
  | job
deriving DecidableEq

/-- A node: its tracker (query_tracker.rs:32-37), the queries stored in the meta service, and the work that is going on. -/
structure State where
  node : Nat
  limit : Nat
  queries : AMap Nat Info
  stored : AMap Nat Info
  alive : AMap Nat Phase

/-- `expire_query` (query_tracker.rs:122-220).  `gone` tells whether the removal from the meta service, which is done apart, succeeds. -/
def State.expire (s : State) (id : Nat) (gone : Bool) : State × Option Info :=
  match s.queries.get id with
  | none => (s, none)
  | some q => ({ s with queries := s.queries.del id, stored := if q.stream && gone then s.stored.del id else s.stored }, some q)

/-- `try_track_query` (query_tracker.rs:61-97) with `save_query` (query_tracker.rs:222-249), and the entry into `start`
(manager.rs:505-510).  `saved` tells whether the query could be stored. -/
def State.track (s : State) (q : Info) (saved : Bool) : State × Bool :=
  if s.limit ≤ s.queries.entries.length then (s, false)
  else if q.stream && !saved then ({ s with queries := s.queries.set q.id q }, false)
  else ({ s with
      queries := s.queries.set q.id q
      stored := if q.stream then s.stored.set q.id { q with node := s.node } else s.stored
      alive := s.alive.set q.id (.starting q.stream) }, true)

/-- How `start` ends. -/
inductive Out where
  | data
  | nil
  | err
deriving DecidableEq

/-- `start` ends: of the proxy of a query that is not a stream (query_tracker.rs:270-297), or of a stream, which has no proxy
(query_tracker.rs:82-95, stream/mod.rs:205-223). -/
def State.started (s : State) (id : Nat) (out : Out) : State :=
  match s.alive.get id with
  | some (.starting true) => match out with
    | .err => { s with alive := s.alive.del id }
    | _ => { s with alive := s.alive.set id .job }
  | some (.starting false) => match out with
    | .data => { s with alive := s.alive.set id .reading }
    | _ => ({ s with alive := s.alive.del id }.expire id true).1
  | _ => s

/-- The result of a query is dropped, read to the end or not (query_tracker.rs:335-340). -/
def State.finish (s : State) (id : Nat) : State :=
  match s.alive.get id with
  | some .reading => ({ s with alive := s.alive.del id }.expire id true).1
  | _ => s

/-- The one who asked goes away: inside of `start` its future is dropped, which tells the tracker nothing; afterwards the result is
dropped. -/
def State.abandon (s : State) (id : Nat) : State :=
  match s.alive.get id with
  | some (.starting _) => { s with alive := s.alive.del id }
  | _ => s.finish id

/-- `KillQueryTask::execute` (kill_query.rs:27-39) with `cancel` of the query (query.rs:79-101, stream/mod.rs:225-246): it stops a `start`
that has not ended, and the job of a stream.  The batches of a result are read without the handle. -/
def State.kill (s : State) (id : Nat) (gone : Bool) : State × Bool :=
  match s.expire id gone with
  | (s, none) => (s, false)
  | (s, some _) => match s.alive.get id with
    | some (.starting false) => ({ s with alive := s.alive.del id }, true)
    | some .job => ({ s with alive := s.alive.del id }, true)
    | _ => (s, true)

/-- The statement KILL is a query itself (planner.rs:310-317): tracked, carried out, removed. -/
def State.killStmt (s : State) (q : Info) (id : Nat) (gone : Bool) : State × Bool :=
  match s.track { q with stream := false } true with
  | (s, false) => (s, false)
  | (s, true) => let r := s.kill id gone; (r.1.started q.id .nil, r.2)

/-- One query of `execute_persister_query` (manager.rs:217-238); `ok` tells whether it can be planned. -/
def State.resume (ok : Nat → Bool) (s : State) (q : Info) : State :=
  if ok q.id then match s.track q true with
    | (s, true) => s.started q.id .data
    | (s, false) => s
  else s

/-- `execute_persister_query` (manager.rs:209-241) with `process_read_queries` (storage.rs:479-491). -/
def State.resumeAll (s : State) (node : Nat) (ok : Nat → Bool) : State :=
  (s.stored.entries.filterMap fun e => if e.2.node = node then some e.2 else none).foldl (State.resume ok) s

/-- The node is started again (manager.rs:71-73). -/
def State.restart (s : State) (ok : Nat → Bool) : State :=
  ({ s with queries := .empty, alive := .empty } : State).resumeAll s.node ok

/-- `process_move_queryinfo` (storage.rs:814-832). -/
def State.move (s : State) (source : Nat) : State :=
  let moved := s.stored.entries.filterMap fun e => if e.2.node = source then some e.2 else none
  { s with stored := moved.foldl (fun m q => m.set q.id { q with node := s.node }) s.stored }

/-- The takeover of the queries of a node that is taken for dead (manager.rs:437-453). -/
def State.takeover (s : State) (dead : Nat) (ok : Nat → Bool) : State := (s.resumeAll dead ok).move dead

/-- What happens on a node. -/
inductive Ev where
  | track (q : Info) (saved : Bool)
  | started (id : Nat) (out : Out)
  | finish (id : Nat)
  | abandon (id : Nat)
  | kill (q : Info) (id : Nat) (gone : Bool)
  | restart (ok : Nat → Bool)
  | takeover (dead : Nat) (ok : Nat → Bool)

def State.step (s : State) : Ev → State
  | .track q saved => (s.track q saved).1
  | .started id out => s.started id out
  | .finish id => s.finish id
  | .abandon id => s.abandon id
  | .kill q id gone => (s.killStmt q id gone).1
  | .restart ok => s.restart ok
  | .takeover d ok => s.takeover d ok

def State.run (s : State) (es : List Ev) : State := es.foldl State.step s

/-- A node that has just been set up. -/
def State.init (node limit : Nat) : State := ⟨node, limit, .empty, .empty, .empty⟩

/-! ## Who sees which queries -/

/-- A user in a session: id, whether an administrator, the tenants whose system tables they may read. -/
structure User where
  id : Nat
  admin : Bool
  system : Nat → Bool

/-- `filter_running_queries` (queries.rs:139-165). -/
def visible (u : User) (tenant : Nat) (qs : List Info) : List Info :=
  if u.admin then qs
  else if u.system tenant then qs.filter fun q => decide (q.tenant = tenant)
  else (qs.filter fun q => decide (q.tenant = tenant)).filter fun q => decide (q.user = u.id)

end Verif.Track
