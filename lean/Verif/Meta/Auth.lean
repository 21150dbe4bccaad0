/-!
# Model: privileges, roles, users and the login cache

* `common/models/src/auth/privilege.rs`
* `common/models/src/auth/role.rs`
* `common/models/src/auth/user.rs`
* `common/models/src/auth/auth_cache.rs`
* `query_server/query/src/instance.rs` (`authenticate`)
* `query_server/spi/src/query/execution.rs` (cache invalidation)

Tenant and user ids are values of an arbitrary type `T`, database names of an arbitrary type `S`.
-/
namespace Verif.Auth

variable {T S : Type} [DecidableEq T] [DecidableEq S]

/-- `DatabasePrivilege` (privilege.rs:165-169). -/
inductive DbPriv where
  | read | write | full
deriving DecidableEq

/-- `TenantObjectPrivilege` (privilege.rs:110-123). -/
inductive TenPriv (S : Type) where
  | system | memberFull | roleFull
  | database (p : DbPriv) (db : Option S)
deriving DecidableEq

/-- `GlobalPrivilege` (privilege.rs:55-63). -/
inductive GlobPriv (T : Type) where
  | system
  | user (u : Option T)
  | tenant (t : Option T)
deriving DecidableEq

/-- `Privilege` (privilege.rs:13-18). -/
inductive Priv (T S : Type) where
  | global (g : GlobPriv T)
  | tenantObject (p : TenPriv S) (t : Option T)
deriving DecidableEq

/-- `DatabasePrivilege::check_privilege` (privilege.rs:182-189). -/
def DbPriv.check : DbPriv → DbPriv → Bool
  | .full, _ => true
  | .write, .write => true
  | .write, .read => true
  | .read, .read => true
  | l, r => decide (l = r)

/-- `TenantObjectPrivilege::check_privilege` (privilege.rs:150-161). -/
def TenPriv.check : TenPriv S → TenPriv S → Bool
  | .system, .system => true
  | .memberFull, .memberFull => true
  | .roleFull, .roleFull => true
  | .database s none, .database o _ => s.check o
  | .database s (some a), .database o (some b) => decide (a = b) && s.check o
  | l, r => decide (l = r)

/-- `GlobalPrivilege::check_privilege` (privilege.rs:98-106). -/
def GlobPriv.check : GlobPriv T → GlobPriv T → Bool
  | .user none, .user _ => true
  | .user (some a), .user (some b) => decide (a = b)
  | .tenant none, .tenant _ => true
  | .tenant (some a), .tenant (some b) => decide (a = b)
  | l, r => decide (l = r)

/-- `Privilege::check_privilege` (privilege.rs:42-51). -/
def Priv.check : Priv T S → Priv T S → Bool
  | .global s, .global o => s.check o
  | .tenantObject s none, .tenantObject o _ => s.check o
  | .tenantObject s (some a), .tenantObject o (some b) => decide (a = b) && s.check o
  | _, _ => false

/-- `SystemTenantRole` (role.rs:93-96). -/
inductive SysRole where
  | owner | member
deriving DecidableEq

/-- `SystemTenantRole::to_privileges` (role.rs:120-144). -/
def SysRole.privs (t : T) : SysRole → List (Priv T S)
  | .owner => [.global (.tenant (some t)), .tenantObject .system (some t), .tenantObject .memberFull (some t),
      .tenantObject .roleFull (some t), .tenantObject (.database .full none) (some t)]
  | .member => [.tenantObject (.database .read none) (some t)]

/-- `CustomTenantRole` (role.rs:157-164); the map from databases as a list of entries. -/
structure Role (S : Type) where
  sys : Option SysRole
  additional : List (S × DbPriv)

/-- `CustomTenantRole::to_privileges` (role.rs:193-211). -/
def Role.privs (t : T) (r : Role S) : List (Priv T S) :=
  (match r.sys with | some s => s.privs t | none => []) ++
    r.additional.map fun e => .tenantObject (.database e.2 (some e.1)) (some t)

/-- `HashMap::get`. -/
def Role.get (r : Role S) (db : S) : Option DbPriv := (r.additional.find? fun e => decide (e.1 = db)).map (·.2)

/-- `grant_privilege` (role.rs:213-221): `HashMap::insert`. -/
def Role.grant (r : Role S) (db : S) (p : DbPriv) : Role S :=
  { r with additional := (db, p) :: r.additional.filter fun e => decide (e.1 ≠ db) }

/-- `revoke_privilege` (role.rs:223-245); `none` is the error. -/
def Role.revoke (r : Role S) (db : S) (p : DbPriv) : Option (Role S) :=
  match r.get db with
  | some q => if q = p then some { r with additional := r.additional.filter fun e => decide (e.1 ≠ db) } else none
  | none => none

/-- `process_revoke_privileges` / `process_grant_privileges` (storage.rs:1562-1615): all or nothing.
`exists_` tells whether the database exists. -/
def Role.grantAll (exists_ : S → Bool) : Role S → List (DbPriv × S) → Option (Role S)
  | r, [] => some r
  | r, (p, db) :: l => if exists_ db then (r.grant db p).grantAll exists_ l else none

def Role.revokeAll : Role S → List (DbPriv × S) → Option (Role S)
  | r, [] => some r
  | r, (p, db) :: l => match r.revoke db p with
    | some r' => r'.revokeAll l
    | none => none

/-- `UserRole::Dba` (role.rs:24-37). -/
def dbaPrivs : List (Priv T S) :=
  [.global .system, .global (.tenant none), .global (.user none), .tenantObject .system none,
    .tenantObject .memberFull none, .tenantObject .roleFull none, .tenantObject (.database .full none) none]

/-- `User::new` (user.rs:27-40): adds the right to administer oneself. -/
def userPrivs (id : T) (ps : List (Priv T S)) : List (Priv T S) := .global (.user (some id)) :: ps

/-- `User::check_privilege` (user.rs:50-52). -/
def userCheck (ps : List (Priv T S)) (p : Priv T S) : Bool := ps.any (·.check p)

/-! ## Login cache -/

/-- `UserInfo` (user.rs:286-290). -/
structure Login (α : Type) where
  user : List α
  password : List α
  privateKey : Option (List α)
deriving DecidableEq

/-- `to_authorization` (user.rs:293-299): `user:password`.  The base64 step is injective and left out.
`colon` is the separator character. -/
def Login.authorization {α : Type} (colon : α) (l : Login α) : List α := l.user ++ colon :: l.password

/-- An entry of `AuthCache` (auth_cache.rs:33-36) with key authorization and tenant. -/
structure Entry (α U : Type) where
  auth : List α
  tenant : List α
  user : U
  expires : Nat

/-- Events at one server.  The least-recently-used eviction may drop any entries: it is an event that
keeps an arbitrary subset. -/
inductive Event (α U : Type) where
  | login (now : Nat) (l : Login α) (tenant : List α)
  | evict (keep : Entry α U → Bool)
  /-- `remove_user_from_cache_by_user_name` (execution.rs:328-342) and the variant by id -/
  | removeUser (now : Nat) (which : U → Bool)
  | clear

variable {α U : Type} [DecidableEq α]

/-- `authenticate` (instance.rs:66-80): new cache and answer.  `check` is the real access check, which may
change over time with the meta data; `ttl` is the life time of entries (one hour, instance.rs:266-267). -/
def authenticate (colon : α) (ttl : Nat) (check : Nat → Login α → List α → Option U)
    (c : List (Entry α U)) (now : Nat) (l : Login α) (tenant : List α) : List (Entry α U) × Option U :=
  match c.find? (fun e => decide (e.auth = l.authorization colon) && decide (e.tenant = tenant)) with
  | some e =>
    if ¬ e.expires ≤ now then (c, some e.user)
    else match check now l tenant with
      | some u => (⟨l.authorization colon, tenant, u, now + ttl⟩ ::
          c.filter (fun e => !(decide (e.auth = l.authorization colon) && decide (e.tenant = tenant))), some u)
      | none => (c, none)
  | none => match check now l tenant with
    | some u => (⟨l.authorization colon, tenant, u, now + ttl⟩ :: c, some u)
    | none => (c, none)

/-- The cache after an event. -/
def cacheStep (colon : α) (ttl : Nat) (check : Nat → Login α → List α → Option U)
    (c : List (Entry α U)) : Event α U → List (Entry α U)
  | .login now l t => (authenticate colon ttl check c now l t).1
  | .evict keep => c.filter keep
  | .removeUser now which => c.filter fun e => !(which e.user && !decide (e.expires ≤ now))
  | .clear => []

def cacheRun (colon : α) (ttl : Nat) (check : Nat → Login α → List α → Option U)
    (c : List (Entry α U)) (es : List (Event α U)) : List (Entry α U) :=
  es.foldl (cacheStep colon ttl check) c

end Verif.Auth
