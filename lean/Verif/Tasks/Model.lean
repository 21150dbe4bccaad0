/-!
# Dropping and recovering: the tasks of the cluster

`DROP DATABASE d AFTER '7d'` hides the database and leaves a *task* that will remove it; `RECOVER DATABASE d`
cancels the task.  Tasks are kept by the meta server; one data node, the holder of the mark, is told of them by
its watch of the meta server, sleeps, and does them.

Modelled code (paths below are relative to /repo):
* coordinator/src/resource_manager.rs:22-186 and 315-391;
* common/models/src/schema/resource_info.rs, the whole file;
* query_server/query/src/dispatcher/manager.rs:242-475;
* query_server/query/src/execution/ddl/{drop_tenant_object,drop_database_object,drop_global_object,
  recover_database,recover_tenant}.rs;
* meta/src/store/storage.rs:543-560, 606-648, 985-993, 1004-1055, 1076-1130, 1341-1356, 1391-1448, 1652-1677;
* meta/src/model/meta_admin.rs:365-462, 627-692, 803-838 and 871-910; meta_tenant.rs:409-460;
* meta/src/service/server.rs:122-165 (a late node is reported to be unreachable).

Simplifications.  One cluster.  A statement, the handling of one event, and one attempt of a task are single
steps, except that the process of a node may end between the record `Executing` and the operator
(`Outcome.crash`).  An operator that fails for a reason outside of the meta server leaves the meta data as it is,
but a failed `DropTenant` may have dropped some databases already (`Outcome.fail`).  The data of the vnodes is not
modelled: a database is its list of tables.  The meta data that a node has cached of a tenant is up to date;
which tenants are cached is modelled.  The default of `AFTER` of a tenant (`drop_after`) is the argument of the
statement.  Times are integers (nanoseconds) and do not wrap.  Tasks of columns and tags, comments, persistent
queries and the reports of `information_schema` are left out.
-/
namespace Verif.Tasks

/-- Names are lists of characters. -/
abbrev Str := List Char

/-- `ResourceOperator` (resource_info.rs:11-39). -/
inductive Op
  | dropTenant (t : Str)
  | dropDb (t d : Str)
  | dropTable (t d b : Str)
  deriving DecidableEq

/-- `ResourceStatus` (resource_info.rs:55-63). -/
inductive Status
  | schedule | executing | successed | failed | cancel | fatal
  deriving DecidableEq

/-- `ResourceInfo` (resource_info.rs:78-92). -/
structure Info where
  time : Int
  name : Str
  op : Op
  tries : Nat
  status : Status
  node : Nat
  isNew : Bool
  deriving DecidableEq

/-- The name of the task of an operator (drop_global_object.rs:89, drop_tenant_object.rs:96,
    drop_database_object.rs:65-69). -/
def Op.name : Op → Str
  | .dropTenant t => t
  | .dropDb t d => t ++ '-' :: d
  | .dropTable t d b => t ++ '-' :: (d ++ '-' :: b)

/-- `ResourceInfo::new` (resource_info.rs:94-122), at time `now`. -/
def Info.mk' (now : Int) (op : Op) (after : Option Int) (node : Nat) : Info :=
  { time := match after with
      | some a => if a > 0 then now + a else now
      | none => now
    name := op.name
    op := op
    tries := 0
    status := match after with
      | some a => if a > 0 then .schedule else .executing
      | none => .executing
    node := node
    isNew := true }

/-- What a data node is told by its watch: `MetaModifyType` (meta_admin.rs:427-460). -/
inductive Event
  | info (i : Info)
  | dead (m : Nat)

/-- A task that sleeps on a node: an entry of `async_task_joinhandle` or of `failed_task_joinhandle`.  `over`: the
    task has ended (the entry stays in the map).  `again`: the task reads its record before it goes on. -/
structure Handle where
  info : Info
  wake : Int
  over : Bool
  again : Bool

/-- A data node. -/
structure Node where
  /-- the tenants in `AdminMeta::tenants` -/
  cached : List Str
  /-- `async_task_joinhandle` -/
  sched : List Handle
  /-- `failed_task_joinhandle` -/
  failed : List Handle
  /-- what the watch has received -/
  queue : List Event

/-- A process that has just started. -/
def Node.empty : Node := { cached := [], sched := [], failed := [], queue := [] }

/-- A database. -/
structure Db where
  hidden : Bool
  tables : List Str
  deriving DecidableEq

/-- The cluster. -/
structure State where
  clock : Int
  /-- the tenants; `true`: hidden -/
  tenant : Str → Option Bool
  db : Str → Str → Option Db
  infos : List Info
  /-- the node that does the tasks, and whether the mark is taken -/
  mark : Nat × Bool
  node : Nat → Node

/-- The first node that is added takes the mark (storage.rs:985-993). -/
def State.init (h : Nat) : State :=
  { clock := 0, tenant := fun _ => none, db := fun _ _ => none, infos := [], mark := (h, true)
    node := fun _ => Node.empty }

/-- What happens to an operator. -/
inductive Outcome
  | ok
  | fail (gone : List Str)
  | crash

/-- Change node `n`. -/
def State.upd (s : State) (n : Nat) (f : Node → Node) : State :=
  { s with node := fun k => if k = n then f (s.node k) else s.node k }

/-- The process of node `n` ends and is started again: the maps are empty, and the watch begins at the present
    version of the meta server. -/
def State.restart (s : State) (n : Nat) : State := s.upd n fun _ => Node.empty

/-- `process_full_sync` (meta_admin.rs:366-376): the watch goes on from the present version, and no tenant is
    cached. -/
def State.resync (s : State) (n : Nat) : State := s.upd n fun x => { x with cached := [], queue := [] }

/-- `AdminMeta::tenant_meta` (meta_admin.rs:829-839), with `tenant` (674-682) and `process_read_tenant`
    (storage.rs:543-554). -/
def State.tenantMeta (s : State) (n : Nat) (t : Str) : State × Bool :=
  if t ∈ (s.node n).cached then (s, true)
  else if s.tenant t = some false then (s.upd n fun x => { x with cached := t :: x.cached }, true)
  else (s, false)

/-- Which records are told to the data nodes (meta_admin.rs:431-447). -/
def Status.told : Status → Bool
  | .schedule | .executing | .failed | .cancel => true
  | .successed | .fatal => false

/-- `write_resourceinfo` (storage.rs:1652-1660), and what the watch of every node gets of it. -/
def State.write (s : State) (i : Info) : State :=
  { s with
    infos := i :: s.infos.filter fun j => j.name ≠ i.name
    node := fun k =>
      if i.status.told then { s.node k with queue := (s.node k).queue ++ [.info i] } else s.node k }

/-- `process_read_resourceinfo_by_name` (storage.rs:606-615). -/
def State.read (s : State) (name : Str) : Option Info := s.infos.find? fun i => i.name = name

/-- `set_db_is_hidden` (storage.rs:1076-1093). -/
def State.hideDb (s : State) (t d : Str) (v : Bool) : State :=
  { s with db := fun t' d' =>
      if t' = t ∧ d' = d then (s.db t d).map fun x => { x with hidden := v } else s.db t' d' }

/-- `process_drop_db` (storage.rs:1004-1019). -/
def State.removeDb (s : State) (t d : Str) : State :=
  { s with db := fun t' d' => if t' = t ∧ d' = d then none else s.db t' d' }

/-- Drop the databases of `gone` of the tenant. -/
def State.removeDbs (s : State) (t : Str) (gone : List Str) : State :=
  { s with db := fun t' d' => if t' = t ∧ d' ∈ gone then none else s.db t' d' }

/-- `drop_tenant` (resource_manager.rs:79-106): all databases, and the tenant. -/
def State.removeTenant (s : State) (n : Nat) (t : Str) : State :=
  { s.upd n (fun x => { x with cached := x.cached.filter fun c => c ≠ t }) with
    db := fun t' d' => if t' = t then none else s.db t' d'
    tenant := fun t' => if t' = t then none else s.tenant t' }

/-- `process_drop_table` (storage.rs:1021-1036). -/
def State.removeTable (s : State) (t d b : Str) : State :=
  { s with db := fun t' d' =>
      if t' = t ∧ d' = d then (s.db t d).map fun x => { x with tables := x.tables.filter fun c => c ≠ b }
      else s.db t' d' }

/-- The operator of a task (resource_manager.rs:26-59, 79-186) on node `n`: the state, and whether it succeeded. -/
def State.operate (s : State) (n : Nat) (out : Outcome) : Op → State × Bool
  | .dropTenant t =>
    let r := s.tenantMeta n t
    if r.2 then
      match out with
      | .ok => (r.1.removeTenant n t, true)
      | .fail gone => (r.1.removeDbs t gone, false)
      | .crash => (r.1, false)
    else (r.1, false)
  | .dropDb t d =>
    let r := s.tenantMeta n t
    if r.2 then
      match out with
      | .ok => (r.1.removeDb t d, true)
      | _ => (r.1, false)
    else (r.1, false)
  | .dropTable t d b =>
    let r := s.tenantMeta n t
    if r.2 then
      match out, r.1.db t d with
      | .ok, some x => if b ∈ x.tables then (r.1.removeTable t d b, true) else (r.1, false)
      | _, _ => (r.1, false)
    else (r.1, false)

/-- The record after an attempt (resource_manager.rs:60-69). -/
def Info.after (i : Info) (ok : Bool) : Info :=
  { i with isNew := !ok, tries := i.tries + 1, status := if ok then .successed else .failed }

/-- `do_operator` (resource_manager.rs:22-77). -/
def State.doOp (s : State) (n : Nat) (out : Outcome) (i : Info) : State × Bool :=
  match out with
  | .crash => (s.restart n, false)
  | _ =>
    let r := s.operate n out i.op
    (r.1.write (i.after r.2), r.2)

/-- A task of this name is under way: a further one is ignored (resource_manager.rs:324-331). -/
def State.busy (s : State) (name : Str) : Bool :=
  match s.read name with
  | none => false
  | some i => i.status = .executing || i.status = .failed

/-- `add_resource_task` (resource_manager.rs:315-356).  The answer of an ignored task is `Ok(false)`, which the
    statements take for success. -/
def State.add (s : State) (n : Nat) (out : Outcome) (i : Info) : State × Bool :=
  if s.busy i.name then (s, true)
  else
    let i := if i.status = .schedule ∧ s.mark.2 then { i with node := s.mark.1 } else i
    let s := s.write i
    if i.status = .executing then s.doOp n out i else (s, true)

/-- `DROP DATABASE` (drop_tenant_object.rs:73-110). -/
def State.dropDb (s : State) (n : Nat) (t d : Str) (after : Option Int) (ifExists : Bool) (out : Outcome) :
    State × Bool :=
  let r := s.tenantMeta n t
  if r.2 then
    if r.1.db t d = none then (r.1, ifExists)
    else (r.1.hideDb t d true).add n out (Info.mk' s.clock (.dropDb t d) after n)
  else (r.1, false)

/-- `DROP TABLE` (drop_database_object.rs:35-86). -/
def State.dropTable (s : State) (n : Nat) (t d b : Str) (ifExists : Bool) (out : Outcome) : State × Bool :=
  let r := s.tenantMeta n t
  if r.2 then
    match r.1.db t d with
    | none => (r.1, ifExists)
    | some x =>
      if b ∈ x.tables then r.1.add n out (Info.mk' s.clock (.dropTable t d b) none n) else (r.1, ifExists)
  else (r.1, false)

/-- `set_tenant_is_hidden` (meta_admin.rs:803-813, storage.rs:1391-1412). -/
def State.hideTenant (s : State) (n : Nat) (t : Str) (v : Bool) : State :=
  { s.upd n (fun x => { x with cached := t :: x.cached }) with
    tenant := fun t' => if t' = t then some v else s.tenant t' }

/-- `DROP TENANT` (drop_global_object.rs:67-125). -/
def State.dropTenant (s : State) (n : Nat) (t : Str) (after : Option Int) (ifExists : Bool) (out : Outcome) :
    State × Bool :=
  if t ∈ (s.node n).cached ∨ s.tenant t = some false then
    if s.tenant t = none then (s, false)
    else (s.hideTenant n t true).add n out (Info.mk' s.clock (.dropTenant t) after n)
  else (s, ifExists)

/-- The record that cancels a task (recover_database.rs:42-52, recover_tenant.rs:43-52). -/
def Info.canceled (now : Int) (op : Op) (n : Nat) : Info := { Info.mk' now op none n with status := .cancel }

/-- `RECOVER DATABASE` (recover_database.rs:25-69). -/
def State.recoverDb (s : State) (n : Nat) (t d : Str) (ifExists : Bool) : State × Bool :=
  let r := s.tenantMeta n t
  if r.2 then
    let s := r.1.write (Info.canceled s.clock (.dropDb t d) n)
    if s.db t d = none then (s, ifExists) else (s.hideDb t d false, true)
  else (r.1, false)

/-- `RECOVER TENANT` (recover_tenant.rs:25-70). -/
def State.recoverTenant (s : State) (n : Nat) (t : Str) (ifExists : Bool) : State × Bool :=
  let r := s.tenantMeta n t
  if r.2 then
    let s := r.1.write (Info.canceled s.clock (.dropTenant t) n)
    if s.tenant t = none then (s, ifExists) else (s.hideTenant n t false, true)
  else (r.1, false)

/-- `CREATE TENANT` (meta_admin.rs:658-672, storage.rs:1341-1356). -/
def State.createTenant (s : State) (n : Nat) (t : Str) : State × Bool :=
  if s.tenant t = none then (s.hideTenant n t false, true) else (s, false)

/-- `CREATE DATABASE` (create_database.rs:38-65, storage.rs:1038-1055). -/
def State.createDb (s : State) (n : Nat) (t d : Str) : State × Bool :=
  let r := s.tenantMeta n t
  if r.2 then
    if r.1.db t d = none then
      ({ r.1 with db := fun t' d' =>
          if t' = t ∧ d' = d then some { hidden := false, tables := [] } else r.1.db t' d' }, true)
    else (r.1, false)
  else (r.1, false)

/-- `CREATE TABLE` (storage.rs:1108-1130; mod.rs:225-235: the database must not be hidden). -/
def State.createTable (s : State) (n : Nat) (t d b : Str) : State × Bool :=
  let r := s.tenantMeta n t
  if r.2 then
    match r.1.db t d with
    | some x =>
      if x.hidden = false ∧ b ∉ x.tables then
        ({ r.1 with db := fun t' d' =>
            if t' = t ∧ d' = d then some { x with tables := b :: x.tables } else r.1.db t' d' }, true)
      else (r.1, false)
    | none => (r.1, false)
  else (r.1, false)

/-- When a scheduled task wakes (manager.rs:459-461): a negative interval becomes a large one by `as u64`. -/
def wakeAt (now time : Int) : Int := now + (time - now) % 2 ^ 64

/-- The sleep before an attempt of a failed task: `2 ^ try_count` seconds (resource_manager.rs:359-363). -/
def pause (tries : Nat) : Int := 2 ^ tries * 1000000000

/-- Insertion in a map of handles. -/
def put (l : List Handle) (h : Handle) : List Handle := h :: l.filter fun x => x.info.name ≠ h.info.name

/-- `contains_key`. -/
def has (l : List Handle) (name : Str) : Bool := l.any fun x => x.info.name = name

/-- `tokio::spawn(exec_async_task(…))`. -/
def State.spawn (s : State) (n : Nat) (i : Info) : State :=
  s.upd n fun x =>
    { x with sched := put x.sched (⟨i, wakeAt s.clock i.time, false, false⟩ : Handle) }

/-- `tokio::spawn(retry_failed_task(…))`; it sets the node (resource_manager.rs:365). -/
def State.spawnFailed (s : State) (n : Nat) (i : Info) : State :=
  s.upd n fun x =>
    { x with failed := put x.failed (⟨{ i with node := n }, s.clock + pause i.tries, false, false⟩ : Handle) }

/-- `handle_meta_modify` of a record (manager.rs:271-329) on node `n`. -/
def State.onInfo (s : State) (n : Nat) (i : Info) : State :=
  if i.isNew = true ∧ s.mark = (n, true) then
    match i.status with
    | .schedule => s.spawn n i
    | .failed => if has (s.node n).failed i.name then s else s.spawnFailed n i
    | .cancel => s.upd n fun x => { x with sched := x.sched.filter fun h => h.info.name ≠ i.name }
    | _ => s
  else s

/-- A record that moves to node `n` (manager.rs:388-389). -/
def Info.moved (i : Info) (n : Nat) : Info := { i with node := n, isNew := false }

/-- The tasks of the dead node (manager.rs:387-438) move to node `n`.  A handle of the same name ends the
    whole loop (`return Ok(())`). -/
def State.take (s : State) (n : Nat) : List Info → State
  | [] => s
  | i :: is =>
    let i := i.moved n
    let s := s.write i
    match i.status with
    | .schedule =>
      if has (s.node n).sched i.name then s else (s.spawn n i).take n is
    | .executing => (s.add n .ok i).1.take n is
    | .failed =>
      if has (s.node n).failed i.name then s else (s.spawnFailed n i).take n is
    | _ => s.take n is

/-- `handle_meta_modify` of a node that is unreachable (manager.rs:330-450) on node `n`: the mark is released and
    taken (storage.rs:1662-1677), and its tasks are taken over. -/
def State.onDead (s : State) (n m : Nat) : State :=
  let s := if s.mark = (m, true) then { s with mark := (n, true) } else s
  if s.mark = (n, true) then s.take n (s.infos.filter fun i => i.node = m) else s

/-- The next event of node `n` is handled. -/
def State.deliver (s : State) (n : Nat) : State :=
  match (s.node n).queue with
  | [] => s
  | e :: q =>
    let s := s.upd n fun x => { x with queue := q }
    match e with
    | .info i => s.onInfo n i
    | .dead m => s.onDead n m

/-- The task of a handle has ended. -/
def finish (l : List Handle) (name : Str) : List Handle :=
  l.map fun h => if h.info.name = name then { h with over := true } else h

/-- The live handle of a name that may wake. -/
def ready (l : List Handle) (name : Str) (clock : Int) : Option Handle :=
  l.find? fun h => h.info.name = name ∧ h.over = false ∧ h.wake ≤ clock

/-- `exec_async_task` (manager.rs:458-475) after its sleep. -/
def State.fire (s : State) (n : Nat) (name : Str) (out : Outcome) : State :=
  match ready (s.node n).sched name s.clock with
  | none => s
  | some h =>
    let i := { h.info with status := .executing, isNew := false }
    let s := (s.upd n fun x => { x with sched := finish x.sched name }).write i
    (s.doOp n out i).1

/-- What `retry_failed_task` runs: the record it began with, or the one it has read again (none: it ends). -/
def State.reread (s : State) (h : Handle) : Option Info :=
  if h.again then s.read h.info.name else some h.info

/-- A failed attempt: sleep, and read again (resource_manager.rs:370-386). -/
def later (l : List Handle) (name : Str) (i : Info) (clock : Int) : List Handle :=
  l.map fun h => if h.info.name = name then { h with info := i, wake := clock + pause i.tries, again := true } else h

/-- One attempt of `retry_failed_task` (resource_manager.rs:358-391). -/
def State.retry (s : State) (n : Nat) (name : Str) (out : Outcome) : State :=
  match ready (s.node n).failed name s.clock with
  | none => s
  | some h =>
    match s.reread h with
    | none => s.upd n fun x => { x with failed := finish x.failed name }
    | some i =>
      let r := s.doOp n out i
      r.1.upd n fun x =>
        { x with failed := if r.2 then finish x.failed name else later x.failed name i s.clock }

/-- The meta server reports that node `m` is late (server.rs:122-165): every watch gets it. -/
def State.unreachable (s : State) (m : Nat) : State :=
  { s with node := fun k => { s.node k with queue := (s.node k).queue ++ [.dead m] } }

/-- What may happen. -/
inductive Step
  | createTenant (n : Nat) (t : Str)
  | createDb (n : Nat) (t d : Str)
  | createTable (n : Nat) (t d b : Str)
  | dropTenant (n : Nat) (t : Str) (after : Option Int) (ifExists : Bool) (out : Outcome)
  | dropDb (n : Nat) (t d : Str) (after : Option Int) (ifExists : Bool) (out : Outcome)
  | dropTable (n : Nat) (t d b : Str) (ifExists : Bool) (out : Outcome)
  | recoverDb (n : Nat) (t d : Str) (ifExists : Bool)
  | recoverTenant (n : Nat) (t : Str) (ifExists : Bool)
  | tick (dt : Nat)
  | deliver (n : Nat)
  | fire (n : Nat) (name : Str) (out : Outcome)
  | retry (n : Nat) (name : Str) (out : Outcome)
  | unreachable (m : Nat)
  | restart (n : Nat)
  | resync (n : Nat)

/-- One step: the state, and what a statement answers. -/
def State.step (s : State) : Step → State × Bool
  | .createTenant n t => s.createTenant n t
  | .createDb n t d => s.createDb n t d
  | .createTable n t d b => s.createTable n t d b
  | .dropTenant n t a e o => s.dropTenant n t a e o
  | .dropDb n t d a e o => s.dropDb n t d a e o
  | .dropTable n t d b e o => s.dropTable n t d b e o
  | .recoverDb n t d e => s.recoverDb n t d e
  | .recoverTenant n t e => s.recoverTenant n t e
  | .tick dt => ({ s with clock := s.clock + dt }, true)
  | .deliver n => (s.deliver n, true)
  | .fire n name o => (s.fire n name o, true)
  | .retry n name o => (s.retry n name o, true)
  | .unreachable m => (s.unreachable m, true)
  | .restart n => (s.restart n, true)
  | .resync n => (s.resync n, true)

/-- An execution. -/
def State.run (s : State) : List Step → State
  | [] => s
  | e :: es => (s.step e).1.run es

/-- A statement can see the database: it exists, and it is not hidden (query_server/query/src/metadata/mod.rs:
    225-235; coordinator/src/service.rs:580-594). -/
def State.visible (s : State) (t d : Str) : Prop := ∃ x, s.db t d = some x ∧ x.hidden = false

end Verif.Tasks
