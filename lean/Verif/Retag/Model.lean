import Verif.Common.Sort

/-!
# UPDATE of tags

`UPDATE t SET tag = 'value' WHERE …` reads the series that the condition names, asks every replication set whether the
change is possible (a *dry run*), and then has every set change the keys of its series.

Modelled code (paths relative to /repo):
* query_server/query/src/extension/analyse/transform_update.rs:118-187 (`update_tag`);
* query_server/query/src/extension/physical/plan_node/update_tag.rs:190-245 (`do_update`);
* query_server/query/src/data_source/batch/tskv.rs:426-446 and extension/logical/optimizer_rule/rewrite_tag_scan.rs
  (what the scan reads);
* coordinator/src/service.rs:1042-1176 (`update_tags_value`), coordinator/src/resource_manager.rs:272-313;
* tskv/src/vnode_store.rs:436-498, tskv/src/index/ts_index.rs:327-391 (`prepare_update_tags_value`);
* common/models/src/tag.rs:9-11 (`sort_tags`) and common/models/src/series_info.rs:86-127 (`build_series_key`).

Simplifications.  One table of one database, whose columns do not change.  Values of tags and fields are numbers; a row
has one field.  A replication set is what its leader shows (C114, C117): a list of series with their rows; that the index
finds a series exactly by its key, and that changing a key keeps the id and so the rows, is C43, C44, C46 and C88.  The
condition is a function of the tags (C65).  An update that is replayed from the log is the subject of C46.
-/
namespace Verif.Retag

abbrev Val := Nat

/-- `Vec<Tag>` of a `SeriesKey`: column ids and values (series_info.rs:14-18). -/
abbrev Key := List (Nat × Val)

/-- The value of a tag (`tag_val`, series_info.rs:33-40). -/
def get (k : Key) (c : Nat) : Option Val := (k.find? fun t => t.1 == c).map fun t => t.2

/-- The order of `sort_tags` (tag.rs:9-11): the keys of tags are the decimal texts of the column ids. -/
def leId (a b : Nat) : Bool := decide (Nat.toDigits 10 a ≤ Nat.toDigits 10 b)

/-- The tags of the columns `cs`, in this order. -/
def pick (cs : List Nat) (f : Nat → Option Val) : Key := cs.filterMap fun c => (f c).map fun v => (c, v)

/-- A series key as a write or an update makes it (series_info.rs:86-127, ts_index.rs:347-371): the tags that are not
    null, sorted.  `cols`: the ids of the tag columns in the order of the table.  Ids are different, so that sorting the
    tags is the same as taking them in the order of the sorted ids. -/
def mk (cols : List Nat) (f : Nat → Option Val) : Key := pick (Sort.sortBy leId cols) f

/-- The new value of a tag (ts_index.rs:353-362): `HashMap::insert` keeps the last value; `None` removes the tag. -/
def assign (sets : List (Nat × Option Val)) (f : Nat → Option Val) (c : Nat) : Option Val :=
  match sets.reverse.find? fun t => t.1 == c with
  | some t => t.2
  | none => f c

/-- The key of a series after the update. -/
def newKey (cols : List Nat) (sets : List (Nat × Option Val)) (k : Key) : Key := mk cols (assign sets (get k))

/-- A series with its rows: times and values. -/
abbrev Series := Key × List (Int × Val)

/-- The series of a replication set. -/
abbrev Vnode := List Series

/-- A series with this key exists (`get_series_id`, ts_index.rs:178-192). -/
def Vnode.has (v : Vnode) (k : Key) : Bool := v.any fun s => s.1 == k

/-- `prepare_update_tags_value` (ts_index.rs:329-391): which of the keys are changed, or an error. -/
def Vnode.prepare (v : Vnode) (cols : List Nat) (sets : List (Nat × Option Val)) (m : List Key) : Option (List Key) :=
  let olds := m.filter v.has
  let news := olds.map (newKey cols sets)
  if news.any v.has then none
  else if decide news.Nodup then some olds else none

/-- `update_tags_value` of a vnode (vnode_store.rs:436-498). -/
def Vnode.update (v : Vnode) (cols : List Nat) (sets : List (Nat × Option Val)) (m : List Key) : Option Vnode :=
  (v.prepare cols sets m).map fun olds => v.map fun s => if s.1 ∈ olds then (newKey cols sets s.1, s.2) else s

/-- The replication sets of the database. -/
abbrev Cluster := List Vnode

/-- All rows of the table. -/
def Cluster.rows (c : Cluster) : List (Key × Int × Val) :=
  c.flatMap fun v => v.flatMap fun s => s.2.map fun r => (s.1, r)

/-- The keys of the series that the condition names, as the statement reads them: the tags in the order of the table
    (transform_update.rs:150-160, service.rs:1070-1122).  `perRow`: the scan reads rows, one key for each (the time column is added
    to the columns of a statement that is not a tag scan, tskv.rs:426-446, and UPDATE is planned with `is_tag_scan: false`,
    planner.rs:403-406); otherwise it is a tag scan, which reads each series once (rewrite_tag_scan.rs:58-75).  Which of them the
    changed DataFusion does is not part of the repository, so that both are modelled. -/
def Cluster.scan (c : Cluster) (cols : List Nat) (perRow : Bool) (p : Key → Bool) : List Key :=
  let l := c.flatMap fun v => v.filter fun s => p s.1
  if perRow then l.flatMap fun s => s.2.map fun _ => pick cols (get s.1)
  else (l.map fun s => pick cols (get s.1)).eraseDups

/-- The greatest number of rows of an UPDATE of tags (update_tag.rs:233-237). -/
def limit : Nat := 10000

/-- The dry run: every set checks the update (service.rs:1129-1153). -/
def Cluster.dry (c : Cluster) (cols : List Nat) (sets : List (Nat × Option Val)) (m : List Key) : Bool :=
  c.all fun v => (v.prepare cols sets m).isSome

/-- The update in every set that can be reached (resource_manager.rs:272-313), and whether all have succeeded.  The requests
    are sent at once; what one set answers does not stop the others (`join_all`). -/
def Cluster.apply (c : Cluster) (cols : List Nat) (sets : List (Nat × Option Val)) (m : List Key) (up : Nat → Bool) :
    Cluster × Bool :=
  (c.mapIdx fun i v => if up i then (v.update cols sets m).getD v else v,
    (c.mapIdx fun i v => up i && (v.prepare cols sets m).isSome).all id)

/-- What the surroundings of the statement do: sets that cannot be reached when the update is done, and whether an earlier
    UPDATE of tags of this table has failed or is under way (then the task is ignored, resource_manager.rs:324-331). -/
structure World where
  up : Nat → Bool := fun _ => true
  busy : Bool := false

/-- The statement: the cluster, and the number of rows that is answered (`none`: an error). -/
def Cluster.updateTags (c : Cluster) (cols : List Nat) (perRow : Bool) (p : Key → Bool) (sets : List (Nat × Option Val))
    (w : World) : Cluster × Option Nat :=
  let m := c.scan cols perRow p
  if limit < m.length then (c, none)
  else if c.dry cols sets m = false then (c, none)
  else if w.busy then (c, some m.length)
  else
    let r := c.apply cols sets m w.up
    (r.1, if r.2 then some m.length else none)

/-- A row is written to a vnode: the last value for a time counts. -/
def Vnode.put (v : Vnode) (k : Key) (t : Int) (x : Val) : Vnode :=
  if v.has k then v.map fun s => if s.1 = k then (k, (t, x) :: s.2.filter fun r => r.1 ≠ t) else s
  else v ++ [(k, [(t, x)])]

/-- A row is written.  `route`: the set by the hash of the tags and the time (C57). -/
def Cluster.write (c : Cluster) (route : Key → Int → Nat) (cols : List Nat) (f : Nat → Option Val) (t : Int) (x : Val) :
    Cluster :=
  c.modify (route (mk cols f) t) fun v => v.put (mk cols f) t x

/-- What happens to the table. -/
inductive Step
  | write (f : Nat → Option Val) (t : Int) (x : Val)
  | update (p : Key → Bool) (sets : List (Nat × Option Val)) (w : World)

/-- One step. -/
def Cluster.step (route : Key → Int → Nat) (cols : List Nat) (perRow : Bool) (c : Cluster) : Step → Cluster
  | .write f t x => c.write route cols f t x
  | .update p sets w => (c.updateTags cols perRow p sets w).1

/-- An execution. -/
def Cluster.run (route : Key → Int → Nat) (cols : List Nat) (perRow : Bool) (c : Cluster) (es : List Step) : Cluster :=
  es.foldl (Cluster.step route cols perRow) c

/-- The database has `n` replication sets without data. -/
def Cluster.empty (n : Nat) : Cluster := List.replicate n []

end Verif.Retag
