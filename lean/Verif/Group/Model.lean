/-!
# The replicas of a group: ADD, REMOVE, PROMOTE and DESTORY

Code read:

* `coordinator/src/raft/manager.rs:142-213,297-565` (`get_node_or_build`, `exec_open_raft_node`, `exec_drop_raft_node`,
  `assert_leader_node`, `promote_follower_to_leader`, `learner_to_follower`, `destory_replica_group`, `add_follower_to_group`,
  `remove_node_from_group`)
* `coordinator/src/service.rs:417-475,888-971` (`admin_command_on_leader`, `check_remove_vnode_and_promote`, `replication_manager`)
* `coordinator/src/tskv_executor.rs:21-150` (`TskvAdminRequest`, `TskvLeaderExecutor`)
* `coordinator/src/lib.rs:137-219` (`get_replica_all_info`, `get_replica_by_meta`, `update_replication_set`)
* `meta/src/store/storage.rs:885-931` (`process_update_vnode_repl_set`), `933-955` (`process_change_repl_set_leader`)
* `meta/src/model/meta_tenant.rs:638-686,800-850` (what a node keeps of the listing, `replica_new_leader`)
* `coordinator/src/raft/writer.rs:108-152` (a write at the leader)
* `replication/src/multi_raft.rs` (`add_node`, `shutdown`, `get_node`), `replication/src/raft_node.rs:126-171`

The state is that of one group: what the meta service lists, the raft nodes of the group on the data nodes, and the membership that the
raft library has committed.  A vnode is placed on one node when its number is given out (`home`).

Raft itself is the openraft library, which is not part of the repository; of it is written out, from its documentation: a change of the
membership needs majorities of the old and of the new voters, those who took part hold all acknowledged entries afterwards, a voter that
is not kept becomes nothing or (with `retain`) a learner, and the leader is always one of the voters.  A change that does not get its
majorities is an error that changes nothing (in openraft it can also stay in the joint configuration or wait for longer).

Left out: building a group that does not exist yet (a node without a raft node of the group answers with an error), the status of
vnodes, shut down nodes being forgotten after one to three minutes, other groups of the bucket.
-/
namespace Verif.Group

/-- `VnodeInfo` without its status (common/models/src/meta_data.rs:132-138). -/
structure Vnode where
  id : Nat
  node : Nat
  deriving DecidableEq, Repr

/-- `ReplicationSet` (common/models/src/meta_data.rs:89-94). -/
structure Listing where
  leaderV : Nat
  leaderN : Nat
  vnodes : List Vnode
  deriving DecidableEq, Repr

/-- The raft node of the group on a data node: `RaftNodeWrapper` with its `Status` (replication/src/multi_raft.rs:13-24) and the
acknowledged writes that its log holds.  A raft node that was shut down has destroyed its log (replication/src/raft_node.rs:160-171). -/
inductive Slot where
  | running (vnode : Nat) (log : List Nat)
  | shut
  deriving DecidableEq, Repr

/-- The group: the listing of the meta service (`none` when the set is gone), the next number that `retain_id` gives, the raft nodes,
the node of each vnode, the committed membership, the leader, and the acknowledged writes. -/
structure State where
  listed : Option Listing
  nextId : Nat
  nodes : Nat → Option Slot
  home : Nat → Nat
  voters : List Nat
  learners : List Nat
  leader : Nat
  acked : List Nat

/-- Errors of `CoordinatorError` as far as the caller tells them apart. -/
inductive Err where
  /-- `PreExecution`: no connection to the node -/
  | pre
  /-- `RaftForwardToLeader` -/
  | forward (vnode : Nat)
  /-- `ReplicationSetNotFound` -/
  | noSet
  /-- `VnodeNotFound`, `RaftNodeNotFound` -/
  | noVnode
  /-- `AlreadyShutdown` -/
  | shutdown
  /-- `LeaderIsWrong`, or a group that would have to be built -/
  | notBuilt
  /-- "raft node already exit", "A Replication Already in" -/
  | already
  /-- `ReplicaCannotRemove` -/
  | lastOne
  /-- `NoValidReplica` -/
  | noReplica
  /-- any error of a step: raft, another node, the meta service -/
  | failed
  deriving DecidableEq, Repr

/-- What a command leaves and answers. -/
abbrev Res := State × Except Err Unit

/-- A set of numbers (`BTreeSet`), as a list without repetition. -/
def setOf : List Nat → List Nat
  | [] => []
  | a :: l => if a ∈ setOf l then setOf l else a :: setOf l

/-- The vnode runs on its node. -/
def alive (s : State) (v : Nat) : Bool :=
  match s.nodes (s.home v) with
  | some (.running u _) => u == v
  | _ => false

/-- The vnode runs on its node and holds all acknowledged writes. -/
def holds (s : State) (v : Nat) : Bool := s.nodes (s.home v) == some (.running v s.acked)

/-- The acknowledged writes are on a majority of the voters. -/
def durable (s : State) : Bool := decide (s.voters.length < 2 * (s.voters.filter (holds s)).length)

/-- A majority of `vs` takes part and runs. -/
def majority (s : State) (q vs : List Nat) : Bool :=
  decide (vs.length < 2 * (vs.filter fun v => decide (v ∈ q) && alive s v).length)

/-- Those who take part get all acknowledged writes. -/
def sync (s : State) (q : List Nat) : State :=
  { s with nodes := fun n => match s.nodes n with
      | some (.running v log) => some (.running v (if v ∈ q ∧ s.home v = n then s.acked else log))
      | x => x }

/-- An acknowledged write: a majority of the voters took part. -/
def write (s : State) (w : Nat) (q : List Nat) : State :=
  if majority s q s.voters then sync { s with acked := s.acked ++ [w] } q else s

/-- Another leader: a voter that holds all acknowledged writes (leader completeness of raft). -/
def elect (s : State) (v : Nat) : State := if v ∈ s.voters ∧ holds s v then { s with leader := v } else s

/-- `raft_change_membership` (replication/src/raft_node.rs:142-158; openraft `Raft::change_membership`): an empty goal and a vnode that is
neither voter nor learner are refused.  `next` leads if the leader is no voter any more. -/
def change (goal : List Nat) (retain : Bool) (q : List Nat) (next : Nat) (s : State) : Option State :=
  if goal = [] then none
  else if (goal.all fun v => decide (v ∈ s.voters ∨ v ∈ s.learners)) = false then none
  else if majority s q s.voters = false then none
  else if majority s q goal = false then none
  else
    let t := sync s q
    let lead := if s.leader ∈ goal then s.leader else next
    if lead ∈ goal then
      some { t with
        voters := goal
        learners := (s.learners ++ if retain then s.voters else []).filter fun v => decide (v ∉ goal)
        leader := lead }
    else none

/-- `raft_add_learner` (replication/src/raft_node.rs:126-139). -/
def addLearner (v : Nat) (s : State) : Option State :=
  if v ∈ s.voters then some s else some { s with learners := v :: s.learners }

/-- `exec_open_raft_node` (manager.rs:168-195): another vnode of the group on the node is an error, a node that was shut down opens anew. -/
def openNode (n v : Nat) (s : State) : Option State :=
  match s.nodes n with
  | some (.running u _) => if u = v then some s else none
  | _ => some { s with nodes := fun m => if m = n then some (.running v []) else s.nodes m }

/-- `exec_drop_raft_node` (manager.rs:197-213) with `MultiRaft::shutdown` (multi_raft.rs:58-69): whatever vnode of the group runs on the
node is destroyed, the number in the request is not looked at. -/
def dropNode (n : Nat) (s : State) : Option State :=
  match s.nodes n with
  | some (.running _ _) => some { s with nodes := fun m => if m = n then some .shut else s.nodes m }
  | _ => some s

/-- The vnodes that are left after a deletion (storage.rs:904-907). -/
def without (del vs : List Vnode) : List Vnode := vs.filter fun v => decide (v ∉ del)

/-- `process_update_vnode_repl_set` (storage.rs:885-931) for the set: deletions, additions, a leader that is gone is replaced by the first
vnode, a set without vnodes is removed. -/
def relist (del add : List Vnode) (s : State) : Option State :=
  match s.listed with
  | none => none
  | some l =>
    match without del l.vnodes ++ add with
    | [] => some { s with listed := none }
    | v :: vs =>
      if (v :: vs).any fun x => x.id == l.leaderV then some { s with listed := some { l with vnodes := v :: vs } }
      else some { s with listed := some { leaderV := v.id, leaderN := v.node, vnodes := v :: vs } }

/-- `replica_new_leader` (meta_tenant.rs:821-850) with `process_change_repl_set_leader` (storage.rs:933-955): the vnode is looked up in
what the node keeps of the listing. -/
def newLeader (view : State → Option Listing) (v : Nat) (s : State) : Option (State × Nat) :=
  match (view s).bind fun l => l.vnodes.find? fun x => x.id == v with
  | none => none
  | some x =>
    match s.listed with
    | none => none
    | some l => some ({ s with listed := some { l with leaderV := x.id, leaderN := x.node } }, x.node)

/-- How a step of a command goes: it is done; it is not done and an error; it is done, but the answer gets lost and the caller sees an
error. -/
inductive Out where
  | done
  | failed
  | lost
  deriving DecidableEq, Repr

/-- The steps of the commands. -/
inductive Step where
  | check
  | number
  | openRemote
  | learner
  | member
  | drop (node : Nat)
  | close
  | list
  deriving DecidableEq, Repr

/-- What happens while a command runs at a node: how its steps go, who takes part in the change of the membership, and who leads then. -/
structure Env where
  out : Step → Out
  q : List Nat
  next : Nat

/-- A step and the rest of the command. -/
def step (o : Out) (act : State → Option State) (e : Err) (s : State) (k : State → Res) : Res :=
  match o with
  | .failed => (s, .error .failed)
  | .lost => ((act s).getD s, .error .failed)
  | .done =>
    match act s with
    | none => (s, .error e)
    | some t => k t

/-- `get_node_or_build` and `assert_leader_node` (manager.rs:142-166,297-321): the vnode that runs on the node, if it leads. -/
def lead (env : Env) (n : Nat) (s : State) : Except Err Nat :=
  match s.nodes n with
  | some (.running v _) =>
    if env.out .check = .done then if v = s.leader then .ok v else .error (.forward s.leader) else .error .failed
  | some .shut => .error .shutdown
  | none => .error .notBuilt

/-- The numbers of the vnodes. -/
def ids (vs : List Vnode) : List Nat := vs.map Vnode.id

/-- `retain_id` (manager.rs:478): a number that was never given out, for a vnode on that node. -/
def takeId (nid : Nat) (s : State) : Option State :=
  some { s with nextId := s.nextId + 1, home := fun v => if v = s.nextId then nid else s.home v }

/-- `add_follower_to_group` (manager.rs:459-518), run by node `n`. -/
def add (env : Env) (view : State → Option Listing) (n nid : Nat) (s : State) : Res :=
  match view s with
  | none => (s, .error .noSet)
  | some l =>
    match lead env n s with
    | .error e => (s, .error e)
    | .ok _ =>
      step (env.out .number) (takeId nid) .failed s fun s1 =>
      step (env.out .openRemote) (openNode nid s.nextId) .already s1 fun s2 =>
      step (env.out .learner) (addLearner s.nextId) .failed s2 fun s3 =>
      step (env.out .member) (change (setOf (s.nextId :: ids l.vnodes)) false env.q env.next) .failed s3 fun s4 =>
      step (env.out .list) (relist [] [⟨s.nextId, nid⟩]) .failed s4 fun s5 => (s5, .ok ())

/-- `remove_node_from_group` (manager.rs:520-565), run by node `n`. -/
def remove (env : Env) (view : State → Option Listing) (n v : Nat) (s : State) : Res :=
  match view s with
  | none => (s, .error .noSet)
  | some l =>
    match l.vnodes.find? fun x => x.id == v with
    | none => (s, .ok ())
    | some x =>
      match lead env n s with
      | .error e => (s, .error e)
      | .ok _ =>
        step (env.out .member) (change (setOf (ids (l.vnodes.filter fun y => y.id != v))) false env.q env.next) .failed s fun s1 =>
        step (env.out (.drop x.node)) (dropNode x.node) .failed s1 fun s2 =>
        step (env.out .list) (relist [x] []) .failed s2 fun s3 => (s3, .ok ())

/-- The loop over the other replicas (manager.rs:430-437). -/
def dropAll (env : Env) (n : Nat) : List Vnode → State → (State → Res) → Res
  | [], s, k => k s
  | x :: xs, s, k =>
    if x.node = n then dropAll env n xs s k
    else step (env.out (.drop x.node)) (dropNode x.node) .failed s fun t => dropAll env n xs t k

/-- `destory_replica_group` (manager.rs:410-457), run by node `n`. -/
def destroy (env : Env) (view : State → Option Listing) (n : Nat) (s : State) : Res :=
  match view s with
  | none => (s, .error .noSet)
  | some l =>
    match lead env n s with
    | .error e => (s, .error e)
    | .ok me =>
      step (env.out .member) (change [me] false env.q env.next) .failed s fun s1 =>
      dropAll env n l.vnodes s1 fun s2 =>
      step (env.out .close) (dropNode n) .failed s2 fun s3 =>
      step (env.out .list) (relist l.vnodes []) .failed s3 fun s4 => (s4, .ok ())

/-- `learner_to_follower` (manager.rs:386-408), run by node `n`. -/
def follow (env : Env) (view : State → Option Listing) (n : Nat) (s : State) : Res :=
  match view s with
  | none => (s, .error .noSet)
  | some l =>
    match lead env n s with
    | .error e => (s, .error e)
    | .ok _ =>
      step (env.out .member) (change (setOf (ids l.vnodes)) true env.q env.next) .failed s fun s1 => (s1, .ok ())

/-- A request to a node: the number of the attempt, the node, the state. -/
abbrev Call := Nat → Nat → State → Res

/-- `redirect_request` (tskv_executor.rs:116-130). -/
def redirect (call : Call) (view : State → Option Listing) (k v : Nat) (s : State) : Res :=
  match newLeader view v s with
  | none => (s, .error .noVnode)
  | some (t, n) => call k n t

/-- The loop of `do_request` (tskv_executor.rs:83-113): the attempts are numbered, `r` is the last answer. -/
def loop (call : Call) (view : State → Option Listing) (leaderN : Nat) : Nat → List Vnode → Except Err Unit → State → Res
  | _, [], r, s => (s, r)
  | k, x :: xs, _, s =>
    match call k x.node s with
    | (t, .error .pre) => loop call view leaderN (k + 2) xs (.error .pre) t
    | (t, .error (.forward v)) =>
      match redirect call view (k + 1) v t with
      | (u, .ok _) => (u, .ok ())
      | (u, .error e) => loop call view leaderN (k + 2) xs (.error e) u
    | (t, .ok _) =>
      if x.node = leaderN then (t, .ok ()) else ((((newLeader view x.id t).map Prod.fst).getD t), .ok ())
    | (t, .error e) => (t, .error e)

/-- `TskvLeaderExecutor::do_request` (tskv_executor.rs:72-114): the node of the recorded leader is asked first. -/
def exec (call : Call) (view : State → Option Listing) (l : Listing) (s : State) : Res :=
  loop call view l.leaderN 0 ((l.vnodes.filter fun x => x.node == l.leaderN) ++ l.vnodes.filter fun x => x.node != l.leaderN)
    (.error .noReplica) s

/-- A request over the network (tskv_executor.rs:40-57): a node that is not reached is `PreExecution`. -/
def reach (up : Nat → Bool) (run : Nat → Nat → State → Res) : Call := fun k n s =>
  if up n then run k n s else (s, .error .pre)

/-- `promote_follower_to_leader` (manager.rs:323-384), run by node `n`; `env2` and `up` are for the request that makes the learners
followers again. -/
def promote (env : Env) (env2 : Nat → Env) (up : Nat → Bool) (view : State → Option Listing) (n v : Nat) (s : State) : Res :=
  match view s with
  | none => (s, .error .noSet)
  | some l =>
    if l.leaderV = v then (s, .ok ())
    else if (l.vnodes.any fun x => x.id == v) = false then (s, .error .noVnode)
    else
      match lead env n s with
      | .error e => (s, .error e)
      | .ok _ =>
        step (env.out .member) (change [v] true env.q env.next) .failed s fun s1 =>
        exec (reach up fun k m t => follow (env2 k) view m t) view l s1

/-- What happens during a command given to any node. -/
structure Run where
  /-- what the nodes keep of the listing -/
  view : State → Option Listing
  /-- the nodes that are reached -/
  up : Nat → Bool
  /-- what happens in the attempts -/
  env : Nat → Env
  /-- … in the second half of PROMOTE -/
  env2 : Nat → Nat → Env
  /-- … in a PROMOTE that a REMOVE starts -/
  env3 : Nat → Env

/-- REPLICA ADD (service.rs:893-912). -/
def addCmd (r : Run) (nid : Nat) (s : State) : Res :=
  match r.view s with
  | none => (s, .error .noSet)
  | some l =>
    if l.vnodes.any fun x => x.node == nid then (s, .error .already)
    else exec (reach r.up fun k n t => add (r.env k) r.view n nid t) r.view l s

/-- REPLICA PROMOTE (service.rs:951-966). -/
def promoteCmd (r : Run) (env : Nat → Env) (v : Nat) (s : State) : Res :=
  match r.view s with
  | none => (s, .error .noSet)
  | some l => exec (reach r.up fun k n t => promote (env k) (r.env2 k) r.up r.view n v t) r.view l s

/-- `check_remove_vnode_and_promote` (service.rs:451-475): the listing is read from the meta service. -/
def checkRemove (r : Run) (v : Nat) (s : State) : Res :=
  match s.listed with
  | none => (s, .error .noSet)
  | some l =>
    if l.leaderV = v then
      match l.vnodes.filter fun x => x.id != v with
      | [] => (s, .error .lastOne)
      | x :: _ => promoteCmd r r.env3 x.id s
    else (s, .ok ())

/-- REPLICA REMOVE (service.rs:914-936). -/
def removeCmd (r : Run) (v : Nat) (s : State) : Res :=
  match r.view s with
  | none => (s, .error .noVnode)
  | some l0 =>
    if (l0.vnodes.any fun x => x.id == v) = false then (s, .error .noVnode)
    else
      match checkRemove r v s with
      | (t, .error e) => (t, .error e)
      | (t, .ok _) =>
        match r.view t with
        | none => (t, .error .noSet)
        | some l => exec (reach r.up fun k n u => remove (r.env k) r.view n v u) r.view l t

/-- REPLICA DESTORY (service.rs:938-949). -/
def destroyCmd (r : Run) (s : State) : Res :=
  match r.view s with
  | none => (s, .error .noSet)
  | some l => exec (reach r.up fun k n t => destroy (r.env k) r.view n t) r.view l s

/-- A write at a node (raft/writer.rs:108-152, seen as one entry of the log): `client_write` of the raft library, which a majority of the
voters has to take. -/
def writeAt (env : Env) (n w : Nat) (s : State) : Res :=
  match lead env n s with
  | .error e => (s, .error e)
  | .ok _ => if majority s env.q s.voters then (write s w env.q, .ok ()) else (s, .error .failed)

/-- A write to the group (service.rs:548-563). -/
def writeCmd (r : Run) (w : Nat) (s : State) : Res :=
  match r.view s with
  | none => (s, .error .noSet)
  | some l => exec (reach r.up fun k n t => writeAt (r.env k) n w t) r.view l s

/-- What can happen to a group. -/
inductive Event where
  | write (r : Run) (w : Nat)
  | elect (v : Nat)
  | add (r : Run) (nid : Nat)
  | remove (r : Run) (v : Nat)
  | promote (r : Run) (v : Nat)

/-- One event. -/
def apply (s : State) : Event → State
  | .write r w => (writeCmd r w s).1
  | .elect v => elect s v
  | .add r nid => (addCmd r nid s).1
  | .remove r v => (removeCmd r v s).1
  | .promote r v => (promoteCmd r r.env v s).1

/-- The nodes know what the meta service lists. -/
def fresh : State → Option Listing := State.listed

/-- The commands of the event are run by nodes that know what the meta service lists. -/
def Event.Fresh : Event → Prop
  | .write r _ => r.view = fresh
  | .elect _ => True
  | .add r _ => r.view = fresh
  | .remove r _ => r.view = fresh
  | .promote r _ => r.view = fresh

end Verif.Group
