import Verif.Common.AMap
/-!
# Limits on the objects of a tenant, and members as a data node knows them

* `config/src/common/limiter_config.rs:9-18` — the limits of a tenant on its objects
* `common/utils/src/duration.rs:28-81` — durations
* `meta/src/model/meta_tenant.rs:60-190, 230-275, 370-410, 856-950` — the copy of the metadata of a tenant on a data node
  (`TenantMeta`), its checks before a command is sent, and the roles of members that it remembers
* `meta/src/model/meta_admin.rs:624-760` — `create_tenant_meta`, `alter_tenant`, `merge_object_config`
* `meta/src/store/storage.rs:1004-1107, 1450-1515` — the commands on databases and members
* `query_server/query/src/execution/ddl/{create_database,alter_database,alter_tenant}.rs` — the statements

One tenant.  The metadata are the list of all changes so far; a copy on a node is what comes of the first `seen` changes (that a
copy is always what was stored at one version is in `Watch/`, C108), save for the members, which `member_role` also enters from
answers to single questions.  A question and the arrival of its answer are two steps.  A command to the meta store and its answer
are one step.  Databases that are hidden while a drop is waiting count like others.  The roles of members are those of the system,
so that they are there.  What is in databases, and changes of other tenants, are left out; `sync` is any other command that answers
with all metadata of the tenant.
-/
namespace Verif.Quota

abbrev Name := List Char

/-- `TenantObjectLimiterConfig` (limiter_config.rs:10-18). -/
structure Limits where
  users : Option Nat := none
  databases : Option Nat := none
  shards : Option Nat := none
  replicas : Option Nat := none
  days : Option Nat := none
deriving DecidableEq

/-- `merge_object_config` (meta_admin.rs:747-770). -/
def Limits.merge (old new : Limits) : Limits :=
  ⟨new.users.or old.users, new.databases.or old.databases, new.shards.or old.shards, new.replicas.or old.replicas,
    new.days.or old.days⟩

/-- `CnosDuration` (duration.rs:10-16). -/
inductive Ttl where
  | inf
  | nanos (n : Nat)
deriving DecidableEq

def i64Max : Nat := 9223372036854775807
def u64Max : Nat := 18446744073709551615

/-- `to_nanoseconds` (duration.rs:75-81). -/
def Ttl.ns : Ttl → Nat
  | .inf => i64Max
  | .nanos n => min n i64Max

/-- `new_with_day` (duration.rs:29-37). -/
def ofDays (d : Nat) : Ttl := if u64Max / 24 / 60 / 60 < d then .inf else .nanos (d * 24 * 60 * 60 * 1000000000)

/-- `DatabaseOptions` (database_schema.rs) as far as they are limited. -/
structure Options where
  replica : Nat
  shards : Nat
  ttl : Ttl
deriving DecidableEq

/-- `DatabaseOptionsBuilder`: the options that ALTER DATABASE names. -/
structure Builder where
  replica : Option Nat := none
  shards : Option Nat := none
  ttl : Option Ttl := none

/-- `apply_builder` (database_schema.rs:223-236). -/
def Builder.apply (b : Builder) (o : Options) : Options := ⟨b.replica.getD o.replica, b.shards.getD o.shards, b.ttl.getD o.ttl⟩

/-- A change of the metadata of the tenant. -/
inductive Event where
  | setDb (d : Name) (o : Options)
  | delDb (d : Name)
  | setMember (u : Nat) (role : Name)
  | delMember (u : Nat)
deriving DecidableEq

/-- `TenantMetaData`: databases and members. -/
structure Data where
  dbs : AMap Name Options
  members : AMap Nat Name

def Data.empty : Data := ⟨.empty, .empty⟩

/-- `process_watch_log` (meta_tenant.rs:905-950) and the store. -/
def Data.apply (d : Data) : Event → Data
  | .setDb n o => { d with dbs := d.dbs.set n o }
  | .delDb n => { d with dbs := d.dbs.del n }
  | .setMember u r => { d with members := d.members.set u r }
  | .delMember u => { d with members := d.members.del u }

def replay (es : List Event) : Data := es.foldl Data.apply Data.empty

/-- `TenantMeta` (meta_tenant.rs:40-56): the limits are those of the time when it was made. -/
structure Copy where
  limits : Limits
  seen : Nat
  members : AMap Nat Name
  /-- questions of `member_role` that were answered by the store; the answers are under way -/
  answers : List (Nat × Option Name)

/-- The limits in the metadata, all changes so far, the number of data nodes that can be used, and the copies. -/
structure Cluster where
  limits : Limits
  log : List Event
  alive : Nat
  copy : Nat → Copy

def Cluster.data (c : Cluster) : Data := replay c.log

/-- The databases that node `n` knows. -/
def Cluster.dbsAt (c : Cluster) (n : Nat) : AMap Name Options := (replay (c.log.take (c.copy n).seen)).dbs

def Cluster.setCopy (c : Cluster) (n : Nat) (x : Copy) : Cluster := { c with copy := fun m => if m = n then x else c.copy m }

/-- `TenantMeta::new` with `sync_all_tenant_metadata` (meta_tenant.rs:44-82). -/
def Cluster.fresh (c : Cluster) : Copy := ⟨c.limits, c.log.length, c.data.members, []⟩

/-- `write_with_data` (meta_tenant.rs:371-380): an answer with all metadata replaces older ones. -/
def Cluster.sync (c : Cluster) (n : Nat) : Cluster :=
  if c.log.length > (c.copy n).seen then c.setCopy n { c.copy n with seen := c.log.length, members := c.data.members } else c

/-- One change arrives at a node (`process_watch_log`, meta_tenant.rs:856-950). -/
def Cluster.deliver (c : Cluster) (n : Nat) : Cluster :=
  match c.log[(c.copy n).seen]? with
  | none => c
  | some e => c.setCopy n { c.copy n with
      seen := (c.copy n).seen + 1
      members := match e with
        | .setMember u r => (c.copy n).members.set u r
        | .delMember u => (c.copy n).members.del u
        | _ => (c.copy n).members }

/-- No limit, or one that is met. -/
def below (x : Nat) (max : Option Nat) : Bool := match max with | none => true | some m => decide (x < m)
def within (x : Nat) (max : Option Nat) : Bool := match max with | none => true | some m => decide (x ≤ m)

/-- What `check_create_db` asks of the options. -/
def Limits.allow (l : Limits) (o : Options) : Bool :=
  within o.replica l.replicas && within o.shards l.shards &&
    (match l.days with | none => true | some d => decide (o.ttl.ns ≤ (ofDays d).ns))

/-- `check_create_db` (meta_tenant.rs:84-144). -/
def Cluster.checkCreate (c : Cluster) (n : Nat) (o : Options) : Bool :=
  below (c.dbsAt n).entries.length (c.copy n).limits.databases && (c.copy n).limits.allow o

/-- `check_add_user` (meta_tenant.rs:146-168). -/
def Cluster.checkAdd (c : Cluster) (n : Nat) : Bool := below (c.copy n).members.entries.length (c.copy n).limits.users

/-- `check_db_schema_valid` (storage.rs:1095-1106). -/
def Cluster.valid (c : Cluster) (o : Options) : Bool := decide (o.replica ≤ c.alive) && decide (o.shards ≠ 0)

inductive Answer where
  | ok
  | limit
  | exists'
  | missing
  | invalid
deriving DecidableEq

inductive Op where
  | createDb (n : Nat) (d : Name) (o : Options) (ifNotExists : Bool)
  | alterDb (n : Nat) (d : Name) (b : Builder)
  | dropDb (d : Name)
  | addMember (n : Nat) (u : Nat) (role : Name)
  | setRole (u : Nat) (role : Name)
  | removeMember (u : Nat)
  /-- ALTER TENANT SET or UNSET of the limits on node `n` -/
  | alterTenant (n : Nat) (l : Option Limits)
  | ask (n : Nat) (u : Nat)
  | answer (n : Nat)
  | deliver (n : Nat)
  | sync (n : Nat)
  /-- a node starts, or has lost track (`process_full_sync`, meta_admin.rs:364-377) -/
  | reopen (n : Nat)

/-- CREATE DATABASE (create_database.rs:22-67, meta_tenant.rs:383-396, storage.rs:1038-1055). -/
def Cluster.createDb (c : Cluster) (n : Nat) (d : Name) (o : Options) (ifNotExists : Bool) : Cluster × Answer :=
  if !c.checkCreate n o then (c, .limit)
  else if (c.data.dbs.get d).isSome then (c, if ifNotExists then .ok else .exists')
  else if !c.valid o then (c, .invalid)
  else (({ c with log := c.log ++ [.setDb d o] } : Cluster).sync n, .ok)

/-- ALTER DATABASE (alter_database.rs:22-53, meta_tenant.rs:398-408, storage.rs:1057-1074). -/
def Cluster.alterDb (c : Cluster) (n : Nat) (d : Name) (b : Builder) : Cluster × Answer :=
  match (c.dbsAt n).get d with
  | none => (c, .missing)
  | some o =>
    if (c.data.dbs.get d).isNone then (c, .missing)
    else if !c.valid (b.apply o) then (c, .invalid)
    else (({ c with log := c.log ++ [.setDb d (b.apply o)] } : Cluster).sync n, .ok)

/-- ALTER TENANT ADD USER (meta_tenant.rs:176-190, storage.rs:1450-1472). -/
def Cluster.addMember (c : Cluster) (n : Nat) (u : Nat) (role : Name) : Cluster × Answer :=
  if !c.checkAdd n then (c, .limit)
  else if (c.data.members.get u).isSome then (c, .exists')
  else ({ c with log := c.log ++ [.setMember u role] }, .ok)

/-- ALTER TENANT SET and UNSET (meta_admin.rs:699-730): the node that is asked makes a new copy. -/
def Cluster.alterTenant (c : Cluster) (n : Nat) (l : Option Limits) : Cluster :=
  let c := { c with limits := match l with | some l => c.limits.merge l | none => {} }
  c.setCopy n c.fresh

/-- `member_role` with the cache (meta_tenant.rs:230-251): members that are not in the copy are asked for. -/
def Cluster.ask (c : Cluster) (n u : Nat) : Cluster :=
  match (c.copy n).members.get u with
  | some _ => c
  | none => c.setCopy n { c.copy n with answers := (c.copy n).answers ++ [(u, c.data.members.get u)] }

/-- The answer arrives (meta_tenant.rs:246-250). -/
def Cluster.answer (c : Cluster) (n : Nat) : Cluster :=
  match (c.copy n).answers with
  | [] => c
  | (u, r) :: rest => c.setCopy n { c.copy n with
      answers := rest
      members := match r with | some r => (c.copy n).members.set u r | none => (c.copy n).members }

def Cluster.step (c : Cluster) : Op → Cluster × Answer
  | .createDb n d o e => c.createDb n d o e
  | .alterDb n d b => c.alterDb n d b
  | .dropDb d => ({ c with log := c.log ++ [.delDb d] }, .ok)
  | .addMember n u r => c.addMember n u r
  | .setRole u r => if (c.data.members.get u).isNone then (c, .missing) else ({ c with log := c.log ++ [.setMember u r] }, .ok)
  | .removeMember u => if (c.data.members.get u).isNone then (c, .missing) else ({ c with log := c.log ++ [.delMember u] }, .ok)
  | .alterTenant n l => (c.alterTenant n l, .ok)
  | .ask n u => (c.ask n u, .ok)
  | .answer n => (c.answer n, .ok)
  | .deliver n => (c.deliver n, .ok)
  | .sync n => (c.sync n, .ok)
  | .reopen n => (c.setCopy n c.fresh, .ok)

def Cluster.run (c : Cluster) (ops : List Op) : Cluster := ops.foldl (fun c op => (c.step op).1) c

/-- A new tenant with its limits, known to all nodes. -/
def start (l : Limits) (alive : Nat) : Cluster := ⟨l, [], alive, fun _ => ⟨l, 0, .empty, []⟩⟩

/-- The role that a node takes a user for in the tenant, if it knows it without asking. -/
def Cluster.roleAt (c : Cluster) (n u : Nat) : Option Name := (c.copy n).members.get u

end Verif.Quota
