import Verif.Utils.Props

/-!
# Limits of requests of tenants

A tenant may be limited: eight kinds of requests and bytes are counted.  Every data node has a local bucket of
each kind (a counter), and the meta server has one bucket of each kind that is refilled as time passes.

Modelled code (paths below are relative to /repo):
* meta/src/limiter/local_request_limiter.rs, the whole file;
* meta/src/limiter/{remote_request_limiter,limiter_manager,limiter_factory,limiter_kind}.rs;
* common/limiter_bucket/src/count_bucket.rs, and `acquire_closed`, `build` of rate_bucket.rs;
* meta/src/store/storage.rs:543-554, 1323-1448, 1617-1650;
* meta/src/model/meta_admin.rs:365-411, 627-645, 699-830 and 864-867;
* query_server/spi/src/query/logical_planner.rs:377-460 (the options of the altered tenant);
* main/src/http/http_service.rs:2964-2990 and coordinator/src/service.rs:374-384.

Simplifications.  One cluster.  The name of a tenant stands for the key of its limiter (C113 shows that keys
of different tenants differ, for names without `/`).  A check of a bucket is one step: the code holds the
lock of the bucket over the request to the meta server, and the meta server applies commands one after
another.  The clock of the meta server is an input of every step.  The other options of a tenant (comment,
`drop_after`) are strings.  `object_config` is not part of this model.
-/
namespace Verif.Limit

/-- `i64` arithmetic of a release build wraps (`overflow-checks = false`). -/
def w64 (x : Int) : Int := (x + 2 ^ 63) % 2 ^ 64 - 2 ^ 63

/-- `as usize` of an `i64`. -/
def usize (x : Int) : Nat := (x % 2 ^ 64).toNat

/-- `RequestLimiterKind` (limiter_kind.rs:5-15). -/
inductive Kind
  | coordDataIn | coordDataOut | coordQueries | coordWrites
  | httpDataIn | httpDataOut | httpQueries | httpWrites
  deriving DecidableEq

/-- `RateBucketConfig` (config/src/common/limiter_config.rs:20-27). -/
structure RateSet where
  max : Option Nat
  initial : Nat
  refill : Nat
  interval : Int

/-- `CountBucketConfig` (limiter_config.rs:29-33). -/
structure CountSet where
  max : Option Int
  initial : Int

/-- `Bucket` (limiter_config.rs:35-39). -/
structure BucketSet where
  remote : RateSet
  here : CountSet

/-- `RequestLimiterConfig` (limiter_config.rs:41-51). -/
structure RequestSet where
  coordDataIn : Option BucketSet
  coordDataOut : Option BucketSet
  coordQueries : Option BucketSet
  coordWrites : Option BucketSet
  httpDataIn : Option BucketSet
  httpDataOut : Option BucketSet
  httpQueries : Option BucketSet
  httpWrites : Option BucketSet

/-- `TenantLimiterConfig` (limiter_config.rs:3-7) without `object_config`. -/
structure LimiterSet where
  request : Option RequestSet

/-- `TenantOptions` (common/models/src/schema/tenant.rs:41-48). -/
structure Options where
  comment : Option String
  limiter : Option LimiterSet
  dropAfter : Option String
  hidden : Bool

/-- `request_config` (tenant.rs:87-92). -/
def Options.request (o : Options) : Option RequestSet :=
  match o.limiter with
  | some l => l.request
  | none => none

/-- `CountBucket` (count_bucket.rs:34-38). -/
structure Count where
  count : Int
  max : Option Int
  deriving DecidableEq

/-- `From<&CountBucketConfig> for CountBucket` (count_bucket.rs:25-32). -/
def Count.of (s : CountSet) : Count := ⟨s.initial, s.max⟩

/-- `CountBucket::inc` (count_bucket.rs:55-57). -/
def Count.inc (b : Count) (v : Int) : Count := { b with count := w64 (b.count + v) }

/-- `CountBucket::dec` (count_bucket.rs:59-61). -/
def Count.dec (b : Count) (v : Int) : Count := { b with count := w64 (b.count - v) }

/-- `RateBucket` with its `Critical` (rate_bucket.rs:12-21, 192-198): `interval` in milliseconds, the clock
in nanoseconds. -/
structure Rate where
  refill : Nat
  interval : Int
  max : Nat
  balance : Nat
  deadline : Int
  deriving DecidableEq

/-- `RateBucketBuilder::build` (rate_bucket.rs:343-364), after `From<&RateBucketConfig>` (40-45, 290-305).
The checks of the setters `interval` and `refill` are not run. -/
def Rate.of (s : RateSet) (now : Int) : Rate :=
  let m := match s.max with
    | some m => m
    | none => Nat.min (Nat.max s.refill s.initial * 10) Verif.Utils.usizeMax
  ⟨s.refill, s.interval, m, Nat.min s.initial m, now + s.interval * 1000000⟩

/-- `update_critical` with `calculate_drain` (rate_bucket.rs:231-240, 378-398).  `none` is the panic of the
division by an interval of zero. -/
def Rate.update (b : Rate) (now : Int) : Option Rate :=
  if now < b.deadline then some b
  else if b.interval = 0 then none
  else
    let since : Int := (now - b.deadline) / 1000000
    let t := since.tdiv b.interval + 1
    let tokens := if t < 0 then Verif.Utils.usizeMax else Nat.min t.toNat Verif.Utils.usizeMax
    let x := Nat.min (b.balance + tokens * b.refill % 2 ^ 64) Verif.Utils.usizeMax
    some { b with
      balance := if x > b.max then b.max else x
      deadline := now + (b.interval - since.tmod b.interval) * 1000000 }

/-- `acquire_closed` (rate_bucket.rs:242-258): the bucket afterwards and the tokens given; `none` is a panic. -/
def Rate.take (b : Rate) (now : Int) (permits : Nat) : Option (Rate × Nat) :=
  if permits = 0 then some (b, 0)
  else
    match b.update now with
    | none => none
    | some b =>
      if b.balance ≥ permits then some ({ b with balance := b.balance - permits }, permits)
      else some ({ b with balance := 0 }, b.balance)

/-- The buckets of a node for a tenant: `LocalRequestLimiter::buckets`. -/
abbrev Local := Kind → Option Count

/-- The buckets of the meta server for a tenant: `RemoteRequestLimiter::buckets`. -/
abbrev Remote := Kind → Option Rate

/-- The setting of a kind: which field `load_config` reads for it (local_request_limiter.rs:66-84,
remote_request_limiter.rs:15-34). -/
def RequestSet.get (s : RequestSet) : Kind → Option BucketSet
  | .coordDataIn => s.coordDataIn
  | .coordDataOut => s.coordDataOut
  | .coordQueries => s.coordQueries
  | .coordWrites => s.coordWrites
  | .httpDataIn => s.httpDataIn
  | .httpDataOut => s.httpDataOut
  | .httpQueries => s.httpQueries
  | .httpWrites => s.httpWrites

/-- `LocalRequestLimiter::load_config` (local_request_limiter.rs:66-84) with `insert_local_bucket`
(264-275). -/
def Local.load : Option RequestSet → Local
  | some s => fun k => (s.get k).map fun b => Count.of b.here
  | none => fun _ => none

/-- `RemoteRequestLimiter::load_config` (remote_request_limiter.rs:15-34) with `insert_remote_bucket`
(42-50). -/
def Remote.load (s : RequestSet) (now : Int) : Remote :=
  fun k => (s.get k).map fun b => Rate.of b.remote now

/-- The cluster: what the meta store holds of the tenants and their limiters, and the limiters of the data
nodes (`LimiterManager::limiters`). -/
structure World where
  tenants : String → Option Options
  remote : String → Option Remote
  nodes : Nat → String → Option Local

/-- An entry of a map is set. -/
def put {α : Type} [DecidableEq α] {β : Type} (f : α → β) (a : α) (b : β) : α → β :=
  fun x => if x = a then b else f x

/-- The bucket of a kind is put back after a step. -/
def World.setCount (w : World) (i : Nat) (t : String) (k : Kind) (b : Count) : World :=
  { w with nodes := put w.nodes i (put (w.nodes i) t ((w.nodes i t).map fun l => put l k (some b))) }

/-- `RequireResult` (local_request_limiter.rs:17-21). -/
inductive Require
  | fail
  | success
  | remote (min max : Int)

/-- `require` (local_request_limiter.rs:87-122): the bucket afterwards and what to do. -/
def require (b : Count) (n : Int) : Count × Require :=
  if n < 0 then (b, .fail)
  else if b.count > n then (b.dec n, .success)
  else
    match b.max with
    | none => (b, .remote n n)
    | some m =>
      let a := w64 (b.count.natAbs : Int)
      if b.count ≤ 0 ∧ n ≤ m then (b, .remote (w64 (a + n)) (w64 (a + m)))
      else if b.count > 0 ∧ w64 (b.count + m) > n then (b.dec n, .success)
      else (b, .fail)

/-- What happens to a request to the meta server: it is served, it does not arrive, its answer is lost. -/
inductive Net
  | ok | down | lost
  deriving DecidableEq

/-- The answer to a check: passed, refused for the limit, another error, or the meta server panics while it
applies the command. -/
inductive Answer
  | pass | limited | error | crash
  deriving DecidableEq

/-- `process_limiter_request` (storage.rs:1617-1650): the store afterwards and the tokens given. -/
def World.give (w : World) (t : String) (k : Kind) (max : Int) (now : Int) : Option (World × Int) :=
  match w.remote t with
  | none => some (w, max)
  | some r =>
    match r k with
    | none => some (w, max)
    | some b =>
      match b.take now (usize max) with
      | none => none
      | some (b', a) => some ({ w with remote := put w.remote t (some (put r k (some b'))) }, w64 a)

/-- `remote_requre` (local_request_limiter.rs:124-160). -/
def World.ask (w : World) (i : Nat) (t : String) (k : Kind) (b : Count) (n max : Int) (now : Int) (net : Net) :
    World × Answer :=
  match net with
  | .down => (w, .error)
  | .lost =>
    match w.give t k max now with
    | none => (w, .crash)
    | some (w', _) => (w', .error)
  | .ok =>
    match w.give t k max now with
    | none => (w, .crash)
    | some (w', a) =>
      let b := b.inc a
      if b.count > n then (w'.setCount i t k (b.dec n), .pass) else (w'.setCount i t k b, .limited)

/-- `check_bucket` (local_request_limiter.rs:166-193) after the bucket has been locked. -/
def World.act (w : World) (i : Nat) (t : String) (k : Kind) (b : Count) (n : Int) (now : Int) (net : Net) :
    World × Answer :=
  match require b n with
  | (b', .success) => (w.setCount i t k b', .pass)
  | (b', .remote _ max) => w.ask i t k b' n max now net
  | (_, .fail) => (w, .limited)

/-- `check_bucket` (local_request_limiter.rs:166-193). -/
def World.bucket (w : World) (i : Nat) (t : String) (l : Local) (k : Kind) (n : Nat) (now : Int) (net : Net) :
    World × Answer :=
  match l k with
  | none => (w, .pass)
  | some b => w.act i t k b (w64 n) now net

/-- `process_read_tenant` with `is_need_hidden` (storage.rs:543-554). -/
def World.tenant (w : World) (t : String) : Option Options :=
  match w.tenants t with
  | some o => if o.hidden then none else some o
  | none => none

/-- `get_limiter_or_create` (limiter_manager.rs:65-83) with `create_default` (limiter_factory.rs:42-58): the
world with the limiter, and the limiter. -/
def World.limiter (w : World) (i : Nat) (t : String) (net : Net) : Option (World × Local) :=
  match w.nodes i t with
  | some l => some (w, l)
  | none =>
    if net = .ok then
      match w.tenant t with
      | none => none
      | some o =>
        let l := Local.load o.request
        some ({ w with nodes := put w.nodes i (put (w.nodes i) t (some l)) }, l)
    else none

/-- The eight checks of `RequestLimiter` (local_request_limiter.rs:208-243). -/
inductive Check
  | coordDataIn (n : Nat) | coordDataOut (n : Nat) | coordQuery | coordWrite
  | httpDataIn (n : Nat) | httpDataOut (n : Nat) | httpQuery | httpWrite
  deriving DecidableEq

/-- The kind of bucket that a check uses. -/
def Check.kind : Check → Kind
  | .coordDataIn _ => .coordDataIn
  | .coordDataOut _ => .coordDataOut
  | .coordQuery => .coordQueries
  | .coordWrite => .coordWrites
  | .httpDataIn _ => .httpDataIn
  | .httpDataOut _ => .httpDataOut
  | .httpQuery => .httpQueries
  | .httpWrite => .httpWrites

/-- The tokens that a check needs. -/
def Check.size : Check → Nat
  | .coordDataIn n => n
  | .coordDataOut n => n
  | .coordQuery => 1
  | .coordWrite => 1
  | .httpDataIn n => n
  | .httpDataOut n => n
  | .httpQuery => 1
  | .httpWrite => 1

/-- `meta.limiter(tenant).await?` and then a check (for instance coordinator/src/service.rs:376-384). -/
def World.check (w : World) (i : Nat) (t : String) (c : Check) (now : Int) (net : Net) : World × Answer :=
  match w.limiter i t net with
  | none => (w, .error)
  | some (w, l) => w.bucket i t l c.kind c.size now net

/-- Checks one after another, until one does not pass. -/
def World.checks (w : World) (i : Nat) (t : String) (now : Int) (net : Net) : List Check → World × Answer
  | [] => (w, .pass)
  | c :: cs =>
    match w.check i t c now net with
    | (w, .pass) => w.checks i t now net cs
    | r => r

/-- The checks of a write by HTTP: `http_limiter_check_write` (http_service.rs:2979-2990). -/
def httpWriteChecks (n : Nat) : List Check := [.httpWrite, .httpDataIn n]

/-- The checks of a query by HTTP: `http_limiter_check_query` (http_service.rs:2964-2977). -/
def httpQueryChecks (n : Nat) : List Check := [.httpQuery, .httpDataIn n]

/-- The checks of a write by the coordinator (service.rs:374-384). -/
def writeChecks (n : Nat) : List Check := [.coordWrite, .coordDataIn n]

/-! ## Settings -/

/-- `set_tenant_limiter` of a fresh limiter (storage.rs:1323-1339). -/
def World.fresh (w : World) (t : String) (o : Options) (now : Int) : World :=
  { w with remote := put w.remote t (o.request.map fun s => Remote.load s now) }

/-- `process_create_tenant` (storage.rs:1341-1359). -/
def World.createTenant (w : World) (t : String) (o : Options) (now : Int) : Option World :=
  match w.tenants t with
  | some _ => none
  | none => some { w.fresh t o now with tenants := put w.tenants t (some o) }

/-- `process_alter_tenant` (storage.rs:1361-1389). -/
def World.setOptions (w : World) (t : String) (o : Options) (now : Int) : Option World :=
  match w.tenants t with
  | some old =>
    if old.hidden then none
    else some { w.fresh t o now with tenants := put w.tenants t (some o) }
  | none => none

/-- `process_drop_tenant` (storage.rs:1425-1448), only the tenant and its limiter. -/
def World.dropTenant (w : World) (t : String) : World :=
  { w with tenants := put w.tenants t none, remote := put w.remote t none }

/-- `merge_request_config` (meta_admin.rs:771-801); the result is always a configuration. -/
def mergeRequest (old new : Option RequestSet) : RequestSet where
  coordDataIn := (new.bind (·.coordDataIn)).or (old.bind (·.coordDataIn))
  coordDataOut := (new.bind (·.coordDataOut)).or (old.bind (·.coordDataOut))
  coordQueries := (new.bind (·.coordQueries)).or (old.bind (·.coordQueries))
  coordWrites := (new.bind (·.coordWrites)).or (old.bind (·.coordWrites))
  httpDataIn := (new.bind (·.httpDataIn)).or (old.bind (·.httpDataIn))
  httpDataOut := (new.bind (·.httpDataOut)).or (old.bind (·.httpDataOut))
  httpQueries := (new.bind (·.httpQueries)).or (old.bind (·.httpQueries))
  httpWrites := (new.bind (·.httpWrites)).or (old.bind (·.httpWrites))

/-- `merge_limiter_config` (meta_admin.rs:732-745). -/
def mergeLimiter : Option LimiterSet → Option LimiterSet → Option LimiterSet
  | some o, some n => some ⟨some (mergeRequest o.request n.request)⟩
  | some o, none => some o
  | none, some n => some n
  | none, none => none

/-- The options that `alter_tenant` writes (meta_admin.rs:704-721). -/
def mergeOptions (old new : Options) : Options where
  comment := new.comment
  dropAfter := new.dropAfter
  hidden := new.hidden
  limiter := match new.limiter with
    | some _ => mergeLimiter old.limiter new.limiter
    | none => none

/-- What `ALTER TENANT` says: `SET` or `UNSET` of an option. -/
inductive Change
  | setComment (s : String) | setLimiter (l : LimiterSet) | setDropAfter (s : String)
  | unsetComment | unsetLimiter | unsetDropAfter

/-- `TenantOptionsBuilder::from` of the options of the tenant, the change, and `build`
(logical_planner.rs:377-460, tenant.rs:50-77). -/
def Change.apply (o : Options) : Change → Options
  | .setComment s => { o with comment := some s, hidden := false }
  | .setLimiter l => { o with limiter := some l, hidden := false }
  | .setDropAfter s => { o with dropAfter := some s, hidden := false }
  | .unsetComment => { o with comment := none, hidden := false }
  | .unsetLimiter => { o with limiter := none, hidden := false }
  | .unsetDropAfter => { o with dropAfter := none, hidden := false }

/-- `create_tenant_meta` (meta_admin.rs:627-637) with `create_limiter` (limiter_manager.rs:36-51): the node that
runs the statement makes a new limiter. -/
def World.hear (w : World) (i : Nat) (t : String) (o : Options) : World :=
  { w with nodes := put w.nodes i (put (w.nodes i) t (some (Local.load o.request))) }

/-- `ALTER TENANT t …` run on node `i`: `alter_tenant` (meta_admin.rs:699-729). -/
def World.alter (w : World) (i : Nat) (t : String) (c : Change) (now : Int) : Option World :=
  match w.tenant t with
  | none => none
  | some old =>
    let o := mergeOptions old (c.apply old)
    match w.setOptions t o now with
    | none => none
    | some w => some (w.hear i t o)

/-- An entry of the watch log under the key of a tenant: a new value, or its removal (with an empty value,
storage.rs:262-282). -/
inductive Entry
  | set (o : Options)
  | del

/-- `LimiterManager::process_watch_log` (limiter_manager.rs:85-118).  The value is parsed before the type of
the entry is looked at; the empty value of a removal is an error, which the caller ignores
(meta_admin.rs:394). -/
def World.watch (w : World) (i : Nat) (t : String) : Entry → World
  | .set o => w.hear i t o
  | .del => w

/-- `process_full_sync` (meta_admin.rs:367-377): users, data nodes and tenants are read again, the limiters
are left as they are. -/
def World.fullSync (w : World) (_i : Nat) : World := w

end Verif.Limit
