import Verif.Common.AMap
import Verif.Raft.StoreProps

/-!
# Model: the databases and vnodes that a data node has open

* `tskv/src/kvcore.rs` (`get_db_or_else_create`, `open_tsfamily`, `remove_tsfamily`)
* `tskv/src/version_set.rs` (`create_db`, `get_db`, `add_vnode`, `remove_vnode`)
* `tskv/src/database.rs` (`new`, `get_tsfamily_or_create`, `del_tsfamily_index`, `build_write_group`: which schema is asked)
* `tskv/src/schema/schemas.rs` (`DBschemas`: which tenant and database are asked)
* `tskv/src/kv_option.rs` (directories), `common/models/src/schema/database_schema.rs:92-106` (`make_owner`, `split_owner`)
* `coordinator/src/raft/manager.rs:617-667`, `coordinator/src/raft/mod.rs:264-275` (a vnode is opened and removed)
* `query_server/query/src/sql/parser.rs:2180-2202` (names that are accepted)

The contents of a vnode are the points written to it; that they survive a restart is shown in `Replica`, here they are on the
disk at once.  Columns of a point are added to the table as in `Schema`; types of columns are left out.
-/
namespace Verif.Home

abbrev Name := List Char

/-- `make_owner` (database_schema.rs:92-94). -/
def makeOwner (tenant db : Name) : Name := tenant ++ '.' :: db

/-- The text before and behind the first dot. -/
def cut : Name → Option (Name × Name)
  | [] => none
  | c :: l => if c = '.' then some ([], l) else (cut l).map fun p => (c :: p.1, p.2)

/-- `split_owner` (database_schema.rs:97-106). -/
def splitOwner (o : Name) : Name × Name := (cut o).getD ([], [])

/-- `check_name_not_contain_illegal_character` for one name (parser.rs:2180-2202); white space is that of ASCII. -/
def nameOk (n : Name) : Bool := !n.contains '/' && n.any fun c => !c.isWhitespace

/-- `StorageOptions::owner_dir` (kv_option.rs:69-71); the owner has no slash in it, so that `join` appends. -/
def ownerDir (root owner : Name) : Name := root ++ "/data/".toList ++ owner

/-- `StorageOptions::ts_family_dir` (kv_option.rs:73-75). -/
def vnodeDir (root owner : Name) (id : Nat) : Name := ownerDir root owner ++ '/' :: (Raft.dec id)

/-- `DatabaseConfig` (of its settings: `strict_write` and the size of the write buffer). -/
structure Config where
  strict : Bool
  cache : Nat
deriving DecidableEq

/-- A database in the metadata: its settings, and the columns of its tables. -/
structure Entry where
  config : Config
  tables : AMap Name (List Name)

/-- `struct Database` (database.rs:34-46) with `DBschemas` (schemas.rs:17-23). -/
structure Db where
  tenant : Name
  name : Name
  config : Config
deriving DecidableEq

structure Point where
  table : Name
  cols : List Name
  value : Nat
deriving DecidableEq

/-- `struct VnodeStorage` with the tenant and the database for which it was opened (raft/mod.rs); the database that it uses is
given by its owner, as databases are never removed from `VersionSet::dbs`. -/
structure Vnode where
  tenant : Name
  db : Name
  owner : Name
deriving DecidableEq

/-- The metadata that the node sees, `VersionSet` (version_set.rs:16-20), and the directories of vnodes. -/
structure Node where
  cat : AMap (Name × Name) Entry
  dbs : AMap Name Db
  vnodes : AMap Nat Vnode
  disk : AMap (Name × Nat) (List Point)

/-- `get_db_or_else_create` (kvcore.rs:141-170) with `create_db` (version_set.rs:31-40). -/
def Node.getDb (n : Node) (tenant db : Name) : Option Node :=
  match n.dbs.get (makeOwner tenant db) with
  | some _ => some n
  | none => match n.cat.get (tenant, db) with
    | none => none
    | some e => some { n with dbs := n.dbs.set (makeOwner tenant db) ⟨tenant, db, e.config⟩ }

/-- `open_tsfamily` (kvcore.rs:175-219): what is on the disk is recovered, or an empty vnode is made. -/
def Node.open' (n : Node) (tenant db : Name) (id : Nat) : Option Node :=
  match n.vnodes.get id with
  | some _ => some n
  | none => (n.getDb tenant db).map fun n =>
    { n with vnodes := n.vnodes.set id ⟨tenant, db, makeOwner tenant db⟩,
             disk := match n.disk.get (makeOwner tenant db, id) with
               | some _ => n.disk
               | none => n.disk.set (makeOwner tenant db, id) [] }

/-- Columns that are not there yet are appended (schemas.rs:100-150). -/
def addCols (old new : List Name) : List Name := old ++ new.filter fun c => !old.contains c

/-- The schemas after a write (database.rs:218-233, schemas.rs:70-190): of the database that the vnode uses.  `none` is a write
that is refused. -/
def Node.schemas (n : Node) (db : Db) (p : Point) : Option (AMap (Name × Name) Entry) :=
  match n.cat.get (db.tenant, db.name) with
  | none => none
  | some e =>
    if db.config.strict then
      match e.tables.get p.table with
      | none => none
      | some _ => some n.cat
    else some (n.cat.set (db.tenant, db.name)
      { e with tables := e.tables.set p.table (addCols ((e.tables.get p.table).getD []) p.cols) })

/-- `VnodeStorage::write` (vnode_store.rs:260-320). -/
def Node.write (n : Node) (id : Nat) (p : Point) : Option Node :=
  match n.vnodes.get id with
  | none => none
  | some v => match n.dbs.get v.owner with
    | none => none
    | some db => (n.schemas db p).map fun cat =>
      { n with cat := cat, disk := n.disk.set (v.owner, id) ((n.disk.get (v.owner, id)).getD [] ++ [p]) }

/-- `remove_tsfamily` (kvcore.rs:221-232) with `del_tsfamily_index` (database.rs:188-197). -/
def Node.remove (n : Node) (id : Nat) : Node :=
  match n.vnodes.get id with
  | none => n
  | some v => { n with vnodes := n.vnodes.del id,
                       disk := match n.dbs.get v.owner with
                         | some _ => n.disk.del (v.owner, id)
                         | none => n.disk }

/-- What happens to a node. -/
inductive Op where
  | createDb (tenant db : Name) (config : Config)
  | dropDb (tenant db : Name)
  | openVnode (tenant db : Name) (id : Nat)
  | write (id : Nat) (p : Point)
  | remove (id : Nat)
  | restart

/-- Requests that are refused change nothing. -/
def Node.step (n : Node) : Op → Node
  | .createDb t d c => match n.cat.get (t, d) with
    | some _ => n
    | none => { n with cat := n.cat.set (t, d) ⟨c, .empty⟩ }
  | .dropDb t d => { n with cat := n.cat.del (t, d) }
  | .openVnode t d id => (n.open' t d id).getD n
  | .write id p => (n.write id p).getD n
  | .remove id => n.remove id
  | .restart => { n with dbs := .empty, vnodes := .empty }

def Node.run (n : Node) (ops : List Op) : Node := ops.foldl Node.step n

/-- A node that is started. -/
def start (cat : AMap (Name × Name) Entry) (disk : AMap (Name × Nat) (List Point)) : Node := ⟨cat, .empty, .empty, disk⟩

/-- What a query of a vnode gets. -/
def Node.read (n : Node) (id : Nat) : Option (List Point) :=
  (n.vnodes.get id).bind fun v => n.disk.get (v.owner, id)

end Verif.Home
