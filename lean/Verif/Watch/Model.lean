import Verif.Watch.Key
import Verif.Meta.Bucket
/-!
# Model: the meta store, its log of changes, and its commands

* `meta/src/store/command.rs` (`EntryLog`, `WatchData`, `CircleBuf`, `Watch`)
* `meta/src/store/storage.rs` (`StateMachine`)
* `meta/src/service/http.rs` (`process_watch`)

Simplifications.  Values are kept as typed data and not as JSON text; text of one type is assumed not to
parse as another type.  The contents of tables, options and privileges are numbers that nothing inspects.
The version is a natural number next to the map: nothing can be stored under its key, because `insert`
writes the version after the value.  The order in which the children of a path are listed is the order of
the model's map, not the order of the keys.  Failures of the embedded database are not modelled.
-/
namespace Verif.Watch

/-- `DatabaseSchema` (common/models/src/schema/database_schema.rs): what the commands look at. -/
structure DbOpts where
  shardNum : Nat
  replica : Nat
  duration : Int
  ttl : Int
  hidden : Bool
  other : Nat
deriving DecidableEq

/-- A stored value: the struct whose JSON text is stored. -/
inductive Val where
  | tenant (name : Name) (hidden : Bool) (opts : Nat) (limiter : Option Nat)
  | user (id name : Name) (opts : Nat)
  | db (name : Name) (opts : DbOpts)
  | table (db name : Name) (external : Bool) (ver : Nat) (cols : Nat)
  | bucket (b : Meta.Bucket)
  | role (oid : Nat) (name : Name) (privs : Nat)
  | member (role : Name)
  | node (id : Nat) (addr : Nat)
  | metrics (id : Nat) (healthy : Bool) (free : Nat)
  | limiter (n : Nat)
  /-- the lock of the resource infos -/
  | mark (node : Nat) (lock : Bool)
  /-- the id counter -/
  | num (n : Nat)
  /-- anything else -/
  | raw (s : Name)
deriving DecidableEq

/-- `EntryLog` (command.rs:209-218); `tye` is set or delete. -/
structure Entry where
  set : Bool
  ver : Nat
  key : Key
  val : Val
deriving DecidableEq

/-- `EntryLog::default()`. -/
def Entry.default : Entry := ⟨false, 0, [], .raw []⟩

/-! ## The log of changes -/

/-- `CircleBuf` (command.rs:246-253). -/
structure CircleBuf where
  count : Nat
  writer : Nat
  capacity : Nat
  buf : List Entry
deriving DecidableEq

/-- `CircleBuf::new` (command.rs:256-266). -/
def CircleBuf.new (cap : Nat) : CircleBuf := ⟨0, 0, cap, List.replicate cap Entry.default⟩

/-- `append` (command.rs:268-279). -/
def CircleBuf.append (b : CircleBuf) (e : Entry) : CircleBuf :=
  { b with
    buf := b.buf.set b.writer e
    writer := if b.writer + 1 = b.capacity then 0 else b.writer + 1
    count := if b.count < b.capacity then b.count + 1 else b.count }

/-- `self.buf[index]`; the default stands for the panic, which the proofs exclude. -/
def CircleBuf.at (b : CircleBuf) (i : Nat) : Entry := b.buf.getD i Entry.default

/-- `min_version` (command.rs:289-301). -/
def CircleBuf.minVersion (b : CircleBuf) : Option Nat :=
  if b.count = 0 then none else some (b.at (if b.count = b.capacity then b.writer else 0)).ver

/-- `max_version` (command.rs:303-315). -/
def CircleBuf.maxVersion (b : CircleBuf) : Option Nat :=
  if b.count = 0 then none else some (b.at (if b.writer = 0 then b.capacity - 1 else b.writer - 1)).ver

/-- The loop of `find_index` (command.rs:324-335). -/
def CircleBuf.findLoop (b : CircleBuf) (ver : Nat) : Nat → Nat → Option Nat
  | 0, _ => none
  | n + 1, index =>
    let i := if index = 0 then b.capacity - 1 else index - 1
    if (b.at i).ver ≤ ver then some i else b.findLoop ver n i

/-- `find_index` (command.rs:319-338); `none` for the negative results. -/
def CircleBuf.findIndex (b : CircleBuf) (ver : Nat) : Option Nat :=
  if b.count = 0 then none else b.findLoop ver b.count b.writer

/-- The loop of `read_entrys` (command.rs:346-356).  The fuel is the capacity; the loop ends before. -/
def CircleBuf.readLoop (b : CircleBuf) (f : Entry → Bool) : Nat → Nat → List Entry
  | 0, _ => []
  | n + 1, index =>
    if index = b.writer then []
    else
      let rest := b.readLoop f n ((index + 1) % b.capacity)
      if f (b.at index) then b.at index :: rest else rest

/-- `read_entrys` (command.rs:340-357). -/
def CircleBuf.readEntrys (b : CircleBuf) (f : Entry → Bool) (index : Nat) : List Entry :=
  b.readLoop f b.capacity ((index + 1) % b.capacity)

/-- The filter of `read_entry_logs` (command.rs:401-434). -/
def interested (cluster : Name) (tenants : List Name) (e : Entry) : Bool :=
  if e.key = KeyPath.version ∨ e.key = KeyPath.alreadyInit ∨ e.key = KeyPath.incrId cluster then false
  else if !startsWith (KeyPath.clusterPrefix cluster) e.key then false
  else if !startsWith (KeyPath.tenants cluster) e.key then true
  else if tenants.isEmpty then false
  else if tenants.contains [] then true
  else match stripPrefix (KeyPath.tenants cluster) e.key with
    | none => false
    | some sub => match splitOnce sub with
      | none => false
      | some t => tenants.contains t

/-- `read_entry_logs` and `read_start_version` (command.rs:395-451); `none` for a negative status. -/
def CircleBuf.readEntryLogs (b : CircleBuf) (cluster : Name) (tenants : List Name) (base : Nat) : Option (List Entry) :=
  match b.findIndex base with
  | none => none
  | some i => some (b.readEntrys (interested cluster tenants) i)

/-- `WatchData` (command.rs:220-226). -/
structure WatchData where
  fullSync : Bool
  minVer : Nat
  maxVer : Nat
  logs : List Entry
deriving DecidableEq

/-- `need_return` (command.rs:229-243). -/
def WatchData.needReturn (w : WatchData) (base : Nat) : Bool :=
  w.fullSync || !w.logs.isEmpty || decide (base + 100 < w.maxVer)

/-! ## The store -/

/-- `StateMachine` (storage.rs:54-59) without the raft snapshot. -/
structure Store where
  db : AMap Key Val
  ver : Nat
  log : CircleBuf

/-- A store with an empty map (`open`, storage.rs:131-156). -/
def Store.init (cap : Nat) : Store := ⟨.empty, 0, .new cap⟩

/-- `open` of an existing database: the map is kept, the log starts empty (storage.rs:148-153). -/
def Store.reopen (s : Store) : Store := { s with log := .new s.log.capacity }

/-- `restore` of a snapshot (storage.rs:95-108): the map with its version is replaced, the log is kept. -/
def Store.restore (s : Store) (db : AMap Key Val) (ver : Nat) : Store := { s with db := db, ver := ver }

/-- `insert` (storage.rs:230-263). -/
def Store.insert (s : Store) (k : Key) (v : Val) : Store where
  db := if k = KeyPath.version then s.db else s.db.set k v
  ver := s.ver + 1
  log := s.log.append ⟨true, s.ver + 1, k, v⟩

/-- `remove` (storage.rs:265-285). -/
def Store.remove (s : Store) (k : Key) : Store where
  db := if k = KeyPath.version then s.db else s.db.del k
  ver := s.ver + 1
  log := s.log.append ⟨false, s.ver + 1, k, .raw []⟩

/-- `read_change_logs` (storage.rs:361-388). -/
def Store.readChangeLogs (s : Store) (cluster : Name) (tenants : List Name) (base : Nat) : WatchData :=
  let min := s.log.minVersion.getD 0
  let max := s.log.maxVersion.getD 0
  if base = s.ver then ⟨false, min, max, []⟩
  else match s.log.readEntryLogs cluster tenants base with
    | none => ⟨true, min, max, []⟩
    | some logs => ⟨false, min, max, logs⟩

/-- The loop of `process_watch` (http.rs:354-372) over the states of the store at which it looks; the last
one is where 30 seconds are over. -/
def processWatchLoop (cluster : Name) (tenants : List Name) (base : Nat) : Nat → Store → List Store → WatchData
  | follow, s, [] => s.readChangeLogs cluster tenants follow
  | follow, s, s' :: ss =>
    let w := s.readChangeLogs cluster tenants follow
    if w.needReturn base then w
    else processWatchLoop cluster tenants base (if follow < w.maxVer then w.maxVer else follow) s' ss

/-- `process_watch` (http.rs:332-373). -/
def processWatch (cluster : Name) (tenants : List Name) (base : Nat) (s : Store) (s' : Store) (ss : List Store) : WatchData :=
  let w := s.readChangeLogs cluster tenants base
  if w.needReturn base then w else processWatchLoop cluster tenants base base s' ss

/-! ## Reading -/

/-- The children of a path: the keys one level below (storage.rs:297-327 and 329-359). -/
def childName (p : Key) (k : Key) : Option Name :=
  let p := if p.getLast? = some '/' then p else p ++ ['/']
  match stripPrefix p k with
  | none => none
  | some sub => if sub.contains '/' || sub.isEmpty then none else some sub

/-- `children_fullpath` (storage.rs:297-327). -/
def Store.childrenFullpath (s : Store) (p : Key) : List Key :=
  (s.db.entries.filter fun e => (childName p e.1).isSome).map Prod.fst

/-- The list behind `children_data` (storage.rs:329-359), before parsing. -/
def Store.childrenList (s : Store) (p : Key) : List (Name × Val) :=
  s.db.entries.filterMap fun e => (childName p e.1).map fun n => (n, e.2)

/-- `children_data` (storage.rs:329-359); `none` is the error for a value that does not parse. -/
def Store.childrenData (s : Store) (kind : Val → Bool) (p : Key) : Option (AMap Name Val) :=
  let l := s.childrenList p
  if l.all fun e => kind e.2 then some (l.foldl (fun m e => m.set e.1 e.2) .empty) else none

/-- Which values parse as which type. -/
def Val.isTenant : Val → Bool | .tenant .. => true | _ => false
def Val.isUser : Val → Bool | .user .. => true | _ => false
def Val.isDb : Val → Bool | .db .. => true | _ => false
def Val.isTable : Val → Bool | .table .. => true | _ => false
def Val.isBucket : Val → Bool | .bucket .. => true | _ => false
def Val.isRole : Val → Bool | .role .. => true | _ => false
def Val.isMember : Val → Bool | .member .. => true | _ => false
def Val.isNode : Val → Bool | .node .. => true | _ => false
def Val.isMetrics : Val → Bool | .metrics .. => true | _ => false

/-- `contains_key` (storage.rs:200-206). -/
def Store.contains (s : Store) (k : Key) : Bool := (s.db.get k).isSome

/-- `DatabaseInfo` (common/models/src/meta_data.rs:198-203).  The buckets are kept by the number in their
key, which is their id. -/
structure DbInfo where
  schema : Val
  buckets : AMap Name Val
  tables : AMap Name Val

/-- `TenantMetaData` (common/models/src/meta_data.rs:213-219). -/
structure TenantData where
  version : Nat
  members : AMap Name Val
  roles : AMap Name Val
  dbs : AMap Name DbInfo

/-- The loop of `to_tenant_meta_data` (storage.rs:400-414). -/
def Store.dbInfos (s : Store) (c t : Name) : List (Name × Val) → Option (List (Name × DbInfo))
  | [] => some []
  | (d, schema) :: rest =>
    match s.childrenData Val.isBucket (KeyPath.buckets c t d), s.childrenData Val.isTable (KeyPath.schemas c t d),
        s.dbInfos c t rest with
    | some bs, some ts, some r => some ((d, ⟨schema, bs, ts⟩) :: r)
    | _, _, _ => none

/-- `to_tenant_meta_data` (storage.rs:390-417). -/
def Store.toTenantData (s : Store) (c t : Name) : Option TenantData :=
  match s.childrenData Val.isRole (KeyPath.roles c t), s.childrenData Val.isMember (KeyPath.members c t),
      s.childrenData Val.isDb (KeyPath.dbs c t) with
  | some roles, some members, some schemas =>
    match s.dbInfos c t schemas.entries with
    | some infos => some ⟨s.ver, members, roles, infos.foldl (fun m e => m.set e.1 e.2) .empty⟩
    | none => none
  | _, _, _ => none

end Verif.Watch
