import Verif.Watch.Log
import Verif.Common.Sort
/-!
# Model: the commands of the meta store

* `meta/src/store/storage.rs` (`process_write_command`)

A command is modelled by the writes it makes; each write is a transaction of its own.  What a command reads it
reads before its own writes, except where its own writes do not touch it.  What is outside of the state and
the command is the `Env`: the id that is drawn, the clock, which servers answer, the order of a hash map.

Simplifications.  The query infos and the resource infos are not modelled.  A command that panics
(`allocation_replication_set` without nodes) makes the writes up to there.
-/
namespace Verif.Watch

/-- The decimal digits of a number (`to_string`). -/
def decName (n : Nat) : Name :=
  if n < 10 then [Char.ofNat (48 + n)] else decName (n / 10) ++ [Char.ofNat (48 + n % 10)]

/-- What a command uses besides the state and its arguments. -/
structure Env where
  /-- `UuidGenerator::next_id` -/
  uuid : Nat
  /-- the time, in the precision of the database -/
  now : Int
  /-- `ping_servers`: the nodes that answer -/
  alive : Nat → Bool
  /-- the order of a hash map of nodes with their free space -/
  order : List (Nat × Nat) → List (Nat × Nat)
  /-- what is left of the tokens of a limiter after a request at this time -/
  acquire : Nat → Nat

/-- `WriteCommand` (meta/src/store/command.rs:21-160). -/
inductive Cmd where
  | set (k : Key) (v : Name)
  | addNode (c : Name) (id addr : Nat)
  | metrics (c : Name) (id : Nat) (healthy : Bool) (free : Nat)
  | createDb (c t d : Name) (o : DbOpts)
  | alterDb (c t d : Name) (o : DbOpts)
  | dbHidden (c t d : Name) (hidden : Bool)
  | dropDb (c t d : Name)
  | createTable (c t d n : Name) (external : Bool) (ver cols : Nat)
  | updateTable (c t d n : Name) (external : Bool) (ver cols : Nat)
  | dropTable (c t d n : Name)
  | createBucket (c t d : Name) (ts : Int)
  | deleteBucket (c t d : Name) (id : Nat)
  | updateReplSet (c t d : Name) (id repl : Nat) (del add : List Meta.Vnode)
  | createUser (c u id : Name) (opts : Nat)
  | alterUser (c u : Name) (opts : Nat)
  | dropUser (c u : Name)
  | createTenant (c t : Name) (hidden : Bool) (opts : Nat) (lim : Option Nat)
  | alterTenant (c t : Name) (hidden : Bool) (opts : Nat) (lim : Option Nat)
  | tenantHidden (c t : Name) (hidden : Bool)
  | dropTenant (c t : Name)
  | addMember (c t u r : Name)
  | removeMember (c t u : Name)
  | reassign (c t u r : Name)
  | createRole (c t r : Name) (privs : Nat)
  | dropRole (c t r : Name)
  | grant (c t r : Name) (dbs : List Name) (privs : Nat)
  | retainId (c : Name) (n : Nat)
  | limiterRequest (c t : Name)

/-- The names of the roles of the system (`SystemTenantRole::try_from`, common/models/src/auth/role.rs). -/
def systemRole (r : Name) : Bool := r = "owner".toList || r = "member".toList

/-- `fetch_and_add_incr_id`: the id (storage.rs:217-228). -/
def Store.nextId (s : Store) (c : Name) : Nat :=
  match s.db.get (KeyPath.incrId c) with
  | some (.num n) => n
  | _ => 1

/-- `get_valid_node_list` (storage.rs:1155-1179). -/
def Store.validNodes (env : Env) (s : Store) (c : Name) : Option (List Nat) :=
  match s.childrenData Val.isNode (KeyPath.nodes c), s.childrenData Val.isMetrics (KeyPath.nodesMetrics c) with
  | some ns, some ms =>
    let l := ns.entries.filterMap fun e => match e.2 with
      | .node id _ => (ms.entries.findSome? fun m => match m.2 with
        | .metrics mid true free => if mid = id then some free else none
        | _ => none).map fun free => (id, free)
      | _ => none
    some ((Sort.sortBy (fun a b => decide (b.2 ≤ a.2)) (env.order l)).map Prod.fst)
  | _, _ => none

/-- `check_db_schema_valid` (storage.rs:1092-1103). -/
def Store.dbValid (env : Env) (s : Store) (c : Name) (o : DbOpts) : Bool :=
  match s.validNodes env c with
  | none => false
  | some ns => decide (o.replica ≤ ns.length) && o.shardNum != 0

/-- `set_tenant_limiter` (storage.rs:1325-1342). -/
def limiterOp (c t : Name) : Option Nat → Event
  | some n => .op (.insert (KeyPath.limiter c t) (.limiter n))
  | none => .op (.remove (KeyPath.limiter c t))

/-- The values of the children of a path. -/
def Store.values (s : Store) (kind : Val → Bool) (p : Key) : Option (List Val) :=
  (s.childrenData kind p).map fun m => m.entries.map Prod.snd

/-- The ids and names of the users (`process_read_users`, storage.rs:533-541). -/
def Store.readUsers (s : Store) (c : Name) : Option (List (Name × Name)) :=
  (s.values Val.isUser (KeyPath.users c)).map fun l => l.filterMap fun v => match v with
    | .user id n _ => some (id, n)
    | _ => none

/-- The names of the members of a tenant that are users (`process_read_members`, storage.rs:579-604). -/
def Store.readMembers (s : Store) (c t : Name) : Option (List Name) :=
  match s.childrenData Val.isMember (KeyPath.members c t), s.readUsers c with
  | some ms, some us => some ((us.filter fun u => (ms.get u.1).isSome).map Prod.snd)
  | _, _ => none

/-- The names of the roles of a tenant (`process_read_roles`, storage.rs:564-577). -/
def Store.readRoles (s : Store) (c t : Name) : Option (List Name) :=
  (s.values Val.isRole (KeyPath.roles c t)).map fun l => l.filterMap fun v => match v with
    | .role _ n _ => some n
    | _ => none

/-- Removing keys that must exist; the first that does not ends the command. -/
def Store.removeAll (s : Store) : List Key → List Event × Bool
  | [] => ([], true)
  | k :: ks => if s.contains k then let r := s.removeAll ks; (.op (.remove k) :: r.1, r.2) else ([], false)

/-- `process_create_bucket` (storage.rs:1181-1244). -/
def Store.createBucket (env : Env) (s : Store) (c t d : Name) (ts : Int) : List Event × Bool :=
  match s.values Val.isBucket (KeyPath.buckets c t d) with
  | none => ([], false)
  | some bs =>
    if bs.any fun b => match b with | .bucket b => b.contains ts | _ => false then ([], true)
    else match s.db.get (KeyPath.db c t d), s.validNodes env c with
      | some (.db _ o), some nodes =>
        let nodes := nodes.filter env.alive
        if o.replica > nodes.length then ([], false)
        else if o.shardNum = 0 then ([], false)
        else if ts < Meta.timeToExpired env.now o.ttl then ([], false)
        else
          let id := s.nextId c
          let r := Meta.getTimeRange ts o.duration
          match Meta.allocationReplicationSet (2 ^ 32) nodes o.shardNum o.replica ((id + 1) % 2 ^ 32) with
          | none => ([.retain c ((id + 1) % 2 ^ 32)], false)
          | some (group, used) =>
            ([.retain c ((id + 1) % 2 ^ 32), .retain c (((id + 1) % 2 ^ 32 + used) % 2 ^ 32),
              .op (.insert (KeyPath.bucket c t d (decName id)) (.bucket ⟨id, r.1, r.2, group⟩))], true)
      | _, _ => ([], false)

/-- The name in the record of a tenant. -/
def tenantName : Val → List Name
  | .tenant n _ _ _ => [n]
  | _ => []

/-- `process_write_command` (storage.rs:669-813): the writes of a command and whether it succeeds. -/
def Store.exec (env : Env) (s : Store) : Cmd → List Event × Bool
  | .set k v => ([.op (.insert k (.raw v))], true)
  | .addNode c id addr =>
    -- storage.rs:959-990
    match s.values Val.isNode (KeyPath.nodes c) with
    | none => ([], false)
    | some l =>
      if l.any fun v => match v with | .node i a => decide (i ≠ id) && decide (a = addr) | _ => false then ([], false)
      else
        let m := match s.db.get (KeyPath.mark c) with | some (.mark _ true) => [] | _ => [Event.op (.insert (KeyPath.mark c) (.mark id true))]
        (.op (.insert (KeyPath.node c (decName id)) (.node id addr)) :: m, true)
  | .metrics c id h f => ([.op (.insert (KeyPath.nodeMetrics c (decName id)) (.metrics id h f))], true)
  | .createDb c t d o =>
    -- storage.rs:1037-1054
    if s.contains (KeyPath.db c t d) then ([], false)
    else if s.dbValid env c o then ([.op (.insert (KeyPath.db c t d) (.db d o))], true) else ([], false)
  | .alterDb c t d o =>
    -- storage.rs:1056-1073
    if s.contains (KeyPath.db c t d) then
      if s.dbValid env c o then ([.op (.insert (KeyPath.db c t d) (.db d o))], true) else ([], false)
    else ([], false)
  | .dbHidden c t d h =>
    -- storage.rs:1075-1090
    match s.db.get (KeyPath.db c t d) with
    | some (.db n o) => ([.op (.insert (KeyPath.db c t d) (.db n { o with hidden := h }))], true)
    | _ => ([], false)
  | .dropDb c t d =>
    -- storage.rs:1004-1019
    (.op (.remove (KeyPath.db c t d)) :: (s.childrenFullpath (KeyPath.buckets c t d)).map (fun k => .op (.remove k)) ++
      (s.childrenFullpath (KeyPath.schemas c t d)).map (fun k => .op (.remove k)), true)
  | .createTable c t d n e v cols =>
    -- storage.rs:1105-1127
    if !s.contains (KeyPath.db c t d) then ([], false)
    else if s.contains (KeyPath.table c t d n) then ([], false)
    else ([.op (.insert (KeyPath.table c t d n) (.table d n e v cols))], true)
  | .updateTable c t d n e v cols =>
    -- storage.rs:1129-1153
    match s.db.get (KeyPath.table c t d n) with
    | some (.table _ _ e' v' _) =>
      if e' || e then ([], false)
      else if v' + 1 ≠ v then ([], false)
      else ([.op (.insert (KeyPath.table c t d n) (.table d n e v cols))], true)
    | some _ => ([], false)
    | none => ([.op (.insert (KeyPath.table c t d n) (.table d n e v cols))], true)
  | .dropTable c t d n =>
    -- storage.rs:1021-1035
    if s.contains (KeyPath.table c t d n) then ([.op (.remove (KeyPath.table c t d n))], true) else ([], false)
  | .createBucket c t d ts => s.createBucket env c t d ts
  | .deleteBucket c t d id => ([.op (.remove (KeyPath.bucket c t d (decName id)))], true)
  | .updateReplSet c t d id repl del add =>
    -- storage.rs:884-930
    match s.db.get (KeyPath.bucket c t d (decName id)) with
    | some (.bucket b) =>
      match b.update repl del add with
      | some b' => ([.op (.insert (KeyPath.bucket c t d (decName id)) (.bucket b'))], true)
      | none => ([.op (.remove (KeyPath.bucket c t d (decName id)))], true)
    | _ => ([], false)
  | .createUser c u id o =>
    -- storage.rs:1257-1268
    if s.contains (KeyPath.user c u) then ([], false) else ([.op (.insert (KeyPath.user c u) (.user id u o))], true)
  | .alterUser c u o =>
    -- storage.rs:1270-1295
    match s.db.get (KeyPath.user c u) with
    | some (.user id _ _) => ([.op (.insert (KeyPath.user c u) (.user id u o))], true)
    | _ => ([], false)
  | .dropUser c u =>
    -- storage.rs:1308-1323; the first argument of the key of a member is the name of the tenant
    match s.db.get (KeyPath.user c u) with
    | some (.user id _ _) =>
      match s.values Val.isTenant (KeyPath.tenants c) with
      | none => ([], false)
      | some ts =>
        ((ts.flatMap tenantName).map (fun n => .op (.remove (KeyPath.member n n id))) ++ [.op (.remove (KeyPath.user c u))], true)
    | some _ => ([], false)
    | none => ([], true)
  | .createTenant c t h o l =>
    -- storage.rs:1344-1363
    if s.contains (KeyPath.tenant c t) then ([], false)
    else ([limiterOp c t l, .op (.insert (KeyPath.tenant c t) (.tenant t h o l))], true)
  | .alterTenant c t h o l =>
    -- storage.rs:1365-1392
    match s.db.get (KeyPath.tenant c t) with
    | some (.tenant _ false _ _) => ([.op (.insert (KeyPath.tenant c t) (.tenant t h o l)), limiterOp c t l], true)
    | _ => ([], false)
  | .tenantHidden c t h =>
    -- storage.rs:1394-1414
    match s.db.get (KeyPath.tenant c t) with
    | some (.tenant _ _ o l) => ([.op (.insert (KeyPath.tenant c t) (.tenant t h o l)), limiterOp c t l], true)
    | _ => ([], false)
  | .dropTenant c t =>
    -- storage.rs:1427-1450
    match s.readMembers c t, s.readUsers c with
    | some ms, some us =>
      let r := s.removeAll ((us.filter fun u => ms.contains u.2).map fun u => KeyPath.member c t u.1)
      if r.2 then
        match s.readRoles c t with
        | some roles =>
          let q := s.removeAll (roles.map fun n => KeyPath.role c t n)
          if q.2 then (r.1 ++ q.1 ++ [.op (.remove (KeyPath.tenant c t)), .op (.remove (KeyPath.limiter c t))], true)
          else (r.1 ++ q.1, false)
        | none => (r.1, false)
      else (r.1, false)
    | _, _ => ([], false)
  | .addMember c t u r =>
    -- storage.rs:1452-1475
    if s.contains (KeyPath.member c t u) then ([], false)
    else if s.contains (KeyPath.role c t r) || systemRole r then ([.op (.insert (KeyPath.member c t u) (.member r))], true)
    else ([], false)
  | .removeMember c t u =>
    -- storage.rs:1477-1494
    if s.contains (KeyPath.member c t u) then ([.op (.remove (KeyPath.member c t u))], true) else ([], false)
  | .reassign c t u r =>
    -- storage.rs:1496-1519
    if !s.contains (KeyPath.member c t u) then ([], false)
    else if s.contains (KeyPath.role c t r) || systemRole r then ([.op (.insert (KeyPath.member c t u) (.member r))], true)
    else ([], false)
  | .createRole c t r p =>
    -- storage.rs:1521-1546
    if s.contains (KeyPath.role c t r) then ([], false)
    else ([.op (.insert (KeyPath.role c t r) (.role env.uuid r p))], true)
  | .dropRole c t r =>
    -- storage.rs:1548-1564
    if s.contains (KeyPath.role c t r) then ([.op (.remove (KeyPath.role c t r))], true) else ([], false)
  | .grant c t r dbs p =>
    -- storage.rs:1566-1590; `p` are the privileges after the change
    match s.db.get (KeyPath.role c t r) with
    | some (.role oid n _) =>
      if dbs.all fun d => s.contains (KeyPath.db c t d) then ([.op (.insert (KeyPath.role c t r) (.role oid n p))], true)
      else ([], false)
    | _ => ([], false)
  | .retainId c n => ([.retain c ((s.nextId c + n) % 2 ^ 32)], true)
  | .limiterRequest c t =>
    -- storage.rs:1618-1650
    match s.db.get (KeyPath.limiter c t) with
    | some (.limiter n) => ([.op (.insert (KeyPath.limiter c t) (.limiter (env.acquire n)))], true)
    | some _ => ([], false)
    | none => ([], true)

/-- Applying a command. -/
def Store.command (s : Store) (env : Env) (cmd : Cmd) : Store := (s.exec env cmd).1.foldl Store.event s

/-- Applying commands, each with what it finds around it. -/
def Store.commands (s : Store) (l : List (Env × Cmd)) : Store := l.foldl (fun s e => s.command e.1 e.2) s

end Verif.Watch
