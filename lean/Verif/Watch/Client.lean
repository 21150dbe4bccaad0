import Verif.Watch.Log
/-!
# Model: what a data node keeps of the meta store

* `meta/src/model/meta_tenant.rs` (`process_watch_log`, `member_role`)
* `meta/src/model/meta_admin.rs` (`watch_task_manager`, `watch_data_task`, `process_full_sync`, `process_watch_data`,
  `process_watch_log`, `create_tenant_meta`)

Simplifications.  Of the maps of the whole cluster only the users are kept; the data nodes are handled in the same way.
A full sync reads everything at one moment.  A request is answered from one state of the store; that this is the same as
waiting is `C107_watch_partial`.  Requests that fail are repeated and change nothing.
-/
namespace Verif.Watch

/-- `DatabaseInfo` of `or_default()`. -/
def DbInfo.default : DbInfo := ⟨.raw [], .empty, .empty⟩

/-- Storing or removing one entry of a map. -/
def putOrDel (m : AMap Name Val) (kind : Val → Bool) (x : Name) (e : Entry) : AMap Name Val :=
  if e.set then (if kind e.val then m.set x e.val else m) else m.del x

/-- `TenantMeta::process_watch_log` after the check of the version (meta_tenant.rs:864-947). -/
def TenantData.change (d : TenantData) (e : Entry) : TenantData :=
  match splitSlash e.key with
  | [_, _, s2, _, s4, db, s6, x] =>
    if s6 = sSchemas ∧ s4 = sDbs ∧ s2 = sTenants then
      match d.dbs.get db with
      | none => d
      | some i => { d with dbs := d.dbs.set db { i with tables := putOrDel i.tables Val.isTable x e } }
    else if s6 = sBuckets ∧ s4 = sDbs ∧ s2 = sTenants then
      match d.dbs.get db with
      | none => d
      | some i => { d with dbs := d.dbs.set db { i with buckets := putOrDel i.buckets Val.isBucket x e } }
    else d
  | [_, _, s2, _, s4, x] =>
    if s4 = sDbs ∧ s2 = sTenants then
      if e.set then
        if e.val.isDb then { d with dbs := d.dbs.set x { (d.dbs.get x).getD DbInfo.default with schema := e.val } } else d
      else { d with dbs := d.dbs.del x }
    else if s4 = sMembers ∧ s2 = sTenants then { d with members := putOrDel d.members Val.isMember x e }
    else if s4 = sRoles ∧ s2 = sTenants then { d with roles := putOrDel d.roles Val.isRole x e }
    else d
  | _ => d

/-- `TenantMeta::process_watch_log` (meta_tenant.rs:856-950). -/
def TenantData.processLog (d : TenantData) (e : Entry) : TenantData :=
  if d.version ≥ e.ver then d else ({ d with version := e.ver } : TenantData).change e

/-- `AdminMeta` (meta_admin.rs:53-71): the state that changes.  A tenant has its record, which is read once, and its cache. -/
structure Node where
  watchVer : Nat
  watchTenants : List Name
  users : AMap Name Val
  tenants : AMap Name (Val × TenantData)
  /-- the channel `watch_notify`: tenants to watch -/
  pending : List (Name × Nat)

/-- One entry in `process_watch_data` and `AdminMeta::process_watch_log` (meta_admin.rs:368-431). -/
def Node.processEntry (cluster : Name) (n : Node) (e : Entry) : Node :=
  match splitSlash e.key with
  | _ :: c :: s2 :: x :: rest =>
    if c ≠ cluster then n
    else if s2 = sTenants then
      match n.tenants.get x with
      | none => n
      | some (r, d) => { n with tenants := n.tenants.set x (r, d.processLog e) }
    else if rest = [] ∧ s2 = sUsers then { n with users := putOrDel n.users Val.isUser x e }
    else n
  | _ => n

/-- `process_full_sync` and `sync_global_info` (meta_admin.rs:217-241, 356-366); a failing read is repeated later. -/
def Node.fullSync (cluster : Name) (n : Node) (s : Store) : Node :=
  match s.childrenData Val.isUser (KeyPath.users cluster) with
  | none => n
  | some users => { n with users := users, tenants := .empty, watchVer := s.ver }

/-- One round of `watch_data_task` (meta_admin.rs:331-354). -/
def Node.poll (cluster : Name) (n : Node) (s : Store) : Node :=
  let w := s.readChangeLogs cluster n.watchTenants n.watchVer
  if w.fullSync then n.fullSync cluster s
  else { w.logs.foldl (Node.processEntry cluster) n with watchVer := w.maxVer }

/-- `tenant_meta` and `create_tenant_meta` (meta_admin.rs:837-847, 631-659): a tenant that is not yet open is read. -/
def Node.openTenant (cluster : Name) (n : Node) (s : Store) (t : Name) : Node :=
  if (n.tenants.get t).isSome then n
  else match s.db.get (KeyPath.tenant cluster t) with
    | some (.tenant nm false o l) =>
      match s.toTenantData cluster t with
      | some d => { n with tenants := n.tenants.set t (.tenant nm false o l, d), pending := n.pending ++ [(t, d.version)] }
      | none => n
    | _ => n

/-- One message in `watch_task_manager` (meta_admin.rs:299-329).  `fetch_min` returns the version from before, and that is
stored again, so the version of the message has no effect. -/
def Node.manage (n : Node) : Node :=
  match n.pending with
  | [] => n
  | (t, _) :: rest =>
    { n with
      pending := rest
      watchTenants := t :: (if t = [] then [] else n.watchTenants) }

/-- A new node (`AdminMeta::new`, meta_admin.rs:99-146). -/
def Node.start (cluster : Name) (s : Store) : Node := Node.fullSync cluster ⟨0, [], .empty, .empty, []⟩ s

/-! ## What can be seen -/

/-- The objects of a tenant. -/
inductive Item where
  | member (u : Name)
  | role (r : Name)
  | db (d : Name)
  | table (d n : Name)
  | bucket (d id : Name)
deriving DecidableEq

/-- The key of an object. -/
def Item.key (c t : Name) : Item → Key
  | .member u => KeyPath.member c t u
  | .role r => KeyPath.role c t r
  | .db d => KeyPath.db c t d
  | .table d n => KeyPath.table c t d n
  | .bucket d id => KeyPath.bucket c t d id

/-- The type of the value of an object. -/
def Item.kind : Item → Val → Bool
  | .member _ => Val.isMember
  | .role _ => Val.isRole
  | .db _ => Val.isDb
  | .table _ _ => Val.isTable
  | .bucket _ _ => Val.isBucket

/-- A name that can be found again: not empty and without a slash. -/
def GoodName (n : Name) : Prop := n ≠ [] ∧ Plain n

instance (n : Name) : Decidable (GoodName n) := inferInstanceAs (Decidable (_ ∧ _))

/-- The names in an object are good. -/
def Item.Good : Item → Prop
  | .member u => GoodName u
  | .role r => GoodName r
  | .db d => GoodName d
  | .table d n => GoodName d ∧ GoodName n
  | .bucket d id => GoodName d ∧ GoodName id

instance (i : Item) : Decidable i.Good := by cases i <;> (simp only [Item.Good]; infer_instance)

/-- What a node sees in the cache of a tenant. -/
def TenantData.obs (d : TenantData) : Item → Option Val
  | .member u => d.members.get u
  | .role r => d.roles.get r
  | .db x => (d.dbs.get x).map DbInfo.schema
  | .table x n => (d.dbs.get x).bind fun i => i.tables.get n
  | .bucket x id => (d.dbs.get x).bind fun i => i.buckets.get id

/-- What is stored about a tenant: the values of its keys; the tables and buckets of a database that exists. -/
def Store.raw (s : Store) (c t : Name) : Item → Option Val
  | .member u => s.db.get (KeyPath.member c t u)
  | .role r => s.db.get (KeyPath.role c t r)
  | .db x => s.db.get (KeyPath.db c t x)
  | .table x n => if (s.db.get (KeyPath.db c t x)).isSome then s.db.get (KeyPath.table c t x n) else none
  | .bucket x id => if (s.db.get (KeyPath.db c t x)).isSome then s.db.get (KeyPath.bucket c t x id) else none

/-- The objects of a tenant that can be found. -/
def Store.obs (s : Store) (c t : Name) (i : Item) : Option Val := if i.Good then s.raw c t i else none

end Verif.Watch
