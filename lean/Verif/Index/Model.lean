import Verif.Common.AMap
import Verif.Index.Keys
/-!
# Model: the series index

* `tskv/src/index/ts_index.rs` — registering, looking up, deleting and renaming series; flushing
* `tskv/src/index/cache.rs` — the write cache and the read cache in front of the storage
* `tskv/src/index/engine2.rs` — the storage (an ordered byte map, LMDB)

Simplifications.  The storage is split by key family (`_key_`, `_id_`, `_tomb_`, inverted, counter);
`C42_families_disjoint` is the justification.  Bitmaps are lists of ids, read only through membership.
`SeriesKey::encode`/`decode` is taken as a faithful round trip.  The storage never fails (LMDB limits the
key size; a longer key makes `txn_write` return an error and `txn_merge_rb` panic, which is not modelled).
The LRU read cache can lose any entries at any time (`Op.evict`).
-/
namespace Verif.Index
open Verif.Utils (Bytes bytesLe)

/-- Parameters: the 64-bit hash of a series (arbitrary, so collisions are covered) and the number of
32-bit ids. -/
structure Cfg where
  hash : SKey → Nat
  idLimit : Nat

/-- The write cache, `struct IndexMemCache` (cache.rs:120-129).  The nested maps
`table → tag → value → bitmap` are one map on triples. -/
structure WCache where
  idMap : AMap Nat SKey
  keyMap : AMap Bytes Nat
  inv : AMap (Bytes × Bytes × Bytes) (List Nat)

def WCache.empty : WCache := ⟨.empty, .empty, .empty⟩

/-- The read cache, `struct ForwardCache` (cache.rs:72-76). -/
structure RCache where
  idMap : AMap Nat SKey
  hashMap : AMap Nat (SKey × Nat)

def RCache.empty : RCache := ⟨.empty, .empty⟩

/-- The storage by key family. -/
structure Store where
  keyId : AMap Bytes Nat
  idKey : AMap Nat SKey
  tomb : AMap Bytes Nat
  inv : AMap Bytes (List Nat)
  auto : Nat

def Store.empty : Store := ⟨.empty, .empty, .empty, .empty, 0⟩

/-- `struct TSIndex` (ts_index.rs:83-91). -/
structure Idx where
  incr : Nat
  count : Nat
  w : WCache
  r : RCache
  st : Store

/-- `TSIndex::new` on a given storage (ts_index.rs:94-128). -/
def openOn (st : Store) : Idx := ⟨st.auto, 0, .empty, .empty, st⟩

def Idx.fresh : Idx := openOn .empty

/-- The inverted entries of a series: its tags, or one empty entry if it has none
(cache.rs:176-183, 192-199; ts_index.rs:248-256). -/
def invPairs (k : SKey) : List (Bytes × Bytes) := if k.tags = [] then [([], [])] else k.tags

variable {κ : Type} [DecidableEq κ]

/-- The bitmap stored under a key, empty if there is none. -/
def bm (m : AMap κ (List Nat)) (k : κ) : List Nat := (m.get k).getD []

/-- `add_inverted` (cache.rs:140-164). -/
def WCache.addInv (w : WCache) (t : Bytes) (p : Bytes × Bytes) (id : Nat) : WCache :=
  { w with inv := w.inv.set (t, p.1, p.2) (id :: bm w.inv (t, p.1, p.2)) }

/-- `del_inverted` (cache.rs:166-174): an emptied bitmap stays in the map. -/
def WCache.delInv (w : WCache) (t : Bytes) (p : Bytes × Bytes) (id : Nat) : WCache :=
  match w.inv.get (t, p.1, p.2) with
  | some b => { w with inv := w.inv.set (t, p.1, p.2) (b.filter (· ≠ id)) }
  | none => w

/-- `IndexMemCache::add` (cache.rs:176-190). -/
def WCache.add (w : WCache) (id : Nat) (k : SKey) : WCache :=
  let w := (invPairs k).foldl (fun w p => w.addInv k.table p id) w
  { w with idMap := w.idMap.set id k, keyMap := w.keyMap.set (encKey k) id }

/-- `IndexMemCache::del` (cache.rs:192-204). -/
def WCache.del (w : WCache) (id : Nat) (k : SKey) : WCache :=
  let w := (invPairs k).foldl (fun w p => w.delInv k.table p id) w
  { w with idMap := w.idMap.del id, keyMap := w.keyMap.del (encKey k) }

/-- `ForwardCache::add` (cache.rs:86-97). -/
def RCache.add (c : Cfg) (r : RCache) (id : Nat) (k : SKey) : RCache :=
  ⟨r.idMap.set id k, r.hashMap.set (c.hash k) (k, id)⟩

/-- `ForwardCache::del` (cache.rs:99-102). -/
def RCache.del (c : Cfg) (r : RCache) (id : Nat) (k : SKey) : RCache :=
  ⟨r.idMap.del id, r.hashMap.del (c.hash k)⟩

/-- `ForwardCache::get_series_id_by_key` (cache.rs:104-114). -/
def RCache.getId (c : Cfg) (r : RCache) (k : SKey) : Option Nat :=
  match r.hashMap.get (c.hash k) with
  | some (k', id) => if k' = k then some id else none
  | none => none

/-- `IndexMemCache::flush` (cache.rs:276-309), the part writing to the storage. -/
def flushTo (w : WCache) (st : Store) : Store :=
  { st with
    keyId := w.idMap.entries.foldl (fun m e => m.set (encKey e.2) e.1) st.keyId
    idKey := w.idMap.entries.foldl (fun m e => m.set e.1 e.2) st.idKey
    inv := w.inv.entries.foldl
      (fun m e => m.set (invKey e.1.1 e.1.2.1 e.1.2.2) (bm m (invKey e.1.1 e.1.2.1 e.1.2.2) ++ e.2)) st.inv }

/-- `TSIndex::flush`, that is `check_to_flush(true)` (ts_index.rs:294-307, 510-514). -/
def Idx.flush (s : Idx) : Idx :=
  { s with st := flushTo s.w { s.st with auto := s.incr }, w := .empty, count := 0 }

/-- `check_to_flush(false)` (ts_index.rs:294-307). -/
def Idx.check (s : Idx) : Idx :=
  if s.count < 10000 then { s with count := s.count + 1 } else s.flush

/-- `get_series_id` (ts_index.rs:178-192). -/
def Idx.getId (c : Cfg) (s : Idx) (k : SKey) : Idx × Option Nat :=
  match s.w.keyMap.get (encKey k) with
  | some id => (s, some id)
  | none =>
    match s.r.getId c k with
    | some id => (s, some id)
    | none =>
      match s.st.keyId.get (encKey k) with
      | some id => ({ s with r := s.r.add c id k }, some id)
      | none => (s, none)

/-- `get_series_key` (ts_index.rs:194-210). -/
def Idx.getKey (c : Cfg) (s : Idx) (id : Nat) : Idx × Option SKey :=
  match s.w.idMap.get id with
  | some k => (s, some k)
  | none =>
    match s.r.idMap.get id with
    | some k => (s, some k)
    | none =>
      match s.st.idKey.get id with
      | some k => ({ s with r := s.r.add c id k }, some k)
      | none => (s, none)

/-- One round of `add_series_if_not_exists` (ts_index.rs:153-173). -/
def Idx.add (c : Cfg) (s : Idx) (k : SKey) : Idx × Nat :=
  match s.w.keyMap.get (encKey k) with
  | some id => (s, id)
  | none =>
    match s.r.getId c k with
    | some id => (s, id)
    | none =>
      match s.st.keyId.get (encKey k) with
      | some id => ({ s with r := s.r.add c id k }, id)
      | none =>
        let id := (s.incr + 1) % c.idLimit
        (Idx.check { s with incr := id, w := s.w.add id k }, id)

/-- `IndexEngine2::modify(key, id, false)` (engine2.rs:193-206). -/
def invRemove (m : AMap Bytes (List Nat)) (b : Bytes) (id : Nat) : AMap Bytes (List Nat) :=
  m.set b ((bm m b).filter (· ≠ id))

/-- `del_series_info` (ts_index.rs:240-262). -/
def Idx.del (c : Cfg) (s : Idx) (id : Nat) : Idx :=
  match s.getKey c id with
  | (s, none) => Idx.check { s with st := { s.st with idKey := s.st.idKey.del id } }
  | (s, some k) => Idx.check
    { s with
      w := s.w.del id k
      r := s.r.del c id k
      st := { s.st with
        idKey := s.st.idKey.del id
        keyId := s.st.keyId.del (encKey k)
        inv := (invPairs k).foldl (fun m p => invRemove m (invKey k.table p.1 p.2) id) s.st.inv } }

/-- One round of `update_series_key` (ts_index.rs:272-289). -/
def Idx.rename (c : Cfg) (s : Idx) (e : SKey × SKey × Nat) : Idx :=
  let s := s.del c e.2.2
  Idx.check { s with st := { s.st with tomb := s.st.tomb.set (encTomb e.1) e.2.2 },
                     w := s.w.add e.2.2 e.2.1 }

/-- The tag map of `prepare_update_tags_value` (ts_index.rs:345-356): the old tags collected in a map,
then the assignments inserted. -/
def tagMap (sets : List (Bytes × Option Bytes)) (tags : List (Bytes × Bytes)) : AMap Bytes (Option Bytes) :=
  sets.foldl (fun m e => m.set e.1 e.2) (tags.foldl (fun m e => m.set e.1 (some e.2)) .empty)

/-- The new key of a series (ts_index.rs:345-368): tags set to null disappear, the rest is sorted by key.
The iteration order of the hash map does not matter because its keys are different. -/
def newKey (sets : List (Bytes × Option Bytes)) (k : SKey) : SKey :=
  ⟨k.table, Sort.sortBy (fun a b => bytesLe a.1 b.1)
    ((tagMap sets k.tags).entries.filterMap fun e => e.2.map fun v => (e.1, v))⟩

/-- First loop of `prepare_update_tags_value` (ts_index.rs:335-342). -/
def matchIds (c : Cfg) : Idx → List SKey → Idx × List (SKey × Nat)
  | s, [] => (s, [])
  | s, k :: ks =>
    match s.getId c k with
    | (s, some id) => let (s, l) := matchIds c s ks; (s, (k, id) :: l)
    | (s, none) => matchIds c s ks

/-- Second loop (ts_index.rs:344-378); `none` is `SeriesAlreadyExists`. -/
def newKeys (c : Cfg) (sets : List (Bytes × Option Bytes)) (chk : Bool) :
    Idx → List (SKey × Nat) → Idx × Option (List (SKey × SKey × Nat))
  | s, [] => (s, some [])
  | s, (k, id) :: l =>
    match (if chk then s.getId c (newKey sets k) else (s, none)) with
    | (s, some _) => (s, none)
    | (s, none) =>
      match newKeys c sets chk s l with
      | (s, none) => (s, none)
      | (s, some es) => (s, some ((k, newKey sets k, id) :: es))

/-- `prepare_update_tags_value` (ts_index.rs:329-395). -/
def Idx.prepare (c : Cfg) (s : Idx) (sets : List (Bytes × Option Bytes)) (matched : List SKey) (chk : Bool) :
    Idx × Option (List (SKey × SKey × Nat)) :=
  let (s, ids) := matchIds c s matched
  match newKeys c sets chk s ids with
  | (s, none) => (s, none)
  | (s, some es) => if (es.map fun e => e.2.1).Nodup then (s, some es) else (s, none)

/-- `update_tags_value` of a vnode (tskv/src/vnode_store.rs:461-495): prepare, then rename. -/
def Idx.update (c : Cfg) (s : Idx) (sets : List (Bytes × Option Bytes)) (matched : List SKey) (chk : Bool) :
    Idx × Bool :=
  match s.prepare c sets matched chk with
  | (s, none) => (s, false)
  | (s, some es) => (es.foldl (fun s e => s.rename c e) s, true)

/-! ## Looking up by tags -/

/-- The loop of `get_inverted_by_tags` (cache.rs:254-273): an empty running bitmap is replaced instead of
intersected. -/
def wTagLoop (w : WCache) (t : Bytes) : List Nat → List (Bytes × Bytes) → List Nat
  | b, [] => b
  | b, p :: ps =>
    match w.inv.get (t, p.1, p.2) with
    | some rb => wTagLoop w t (if b = [] then rb else b.filter (· ∈ rb)) ps
    | none => []

/-- `get_inverted_by_tags` (cache.rs:239-274). -/
def WCache.byTags (w : WCache) (t : Bytes) (tags : List (Bytes × Bytes)) : List Nat :=
  match tags with
  | [] => (w.inv.entries.map fun e => if e.1.1 = t then e.2 else []).flatten
  | _ => wTagLoop w t [] tags

/-- Loop of `get_series_id_by_tags` (engine2.rs:276-284). -/
def sTagLoop (st : Store) (t : Bytes) : List Nat → List (Bytes × Bytes) → List Nat
  | b, [] => b
  | b, p :: ps =>
    match st.inv.get (invKey t p.1 p.2) with
    | some rb => sTagLoop st t (b.filter (· ∈ rb)) ps
    | none => []

/-- `get_series_id_by_tags` (engine2.rs:254-289): without tags it scans the key prefix `table.`. -/
def Store.byTags (st : Store) (t : Bytes) (tags : List (Bytes × Bytes)) : List Nat :=
  match tags with
  | [] => (st.inv.entries.map fun e => if (t ++ [0x2e#8]).isPrefixOf e.1 then e.2 else []).flatten
  | p :: ps => sTagLoop st t (bm st.inv (invKey t p.1 p.2)) ps

/-- `get_series_id_bitmap` (ts_index.rs:316-325). -/
def Idx.byTags (s : Idx) (t : Bytes) (tags : List (Bytes × Bytes)) : List Nat :=
  s.w.byTags t tags ++ s.st.byTags t tags

/-- `BTreeMap::range` panics when the start is after the end or both are the same excluded key. -/
def rangePanics : Bnd → Bnd → Bool
  | .incl a, .incl b | .incl a, .excl b | .excl a, .incl b => !bytesLe a b
  | .excl a, .excl b => !bytesLe a b || decide (a = b)
  | _, _ => false

/-- `get_inverted_by_range` (cache.rs:219-237); `none` is the panic of `BTreeMap::range`, reached only if the
table has entries of that tag. -/
def WCache.byRange (w : WCache) (t k : Bytes) (lo hi : Bnd) : Option (List Nat) :=
  let es := w.inv.entries.filter fun e => decide (e.1.1 = t ∧ e.1.2.1 = k)
  if es = [] then some []
  else if rangePanics lo hi then none
  else some ((es.map fun e => if inRange lo hi e.1.2.2 then e.2 else []).flatten)

/-- `get_series_id_by_range` (engine2.rs:219-252) on the translated bounds. -/
def Store.byRange (st : Store) (lo hi : Bnd) : List Nat :=
  match lo, hi with
  | .incl a, .incl b =>
    if a = b then bm st.inv a
    else (st.inv.entries.map fun e => if inRange lo hi e.1 then e.2 else []).flatten
  | _, _ => (st.inv.entries.map fun e => if inRange lo hi e.1 then e.2 else []).flatten

/-- The range arm of `get_series_ids_by_domain` (ts_index.rs:459-473) for one range. -/
def Idx.byRange (s : Idx) (t k : Bytes) (lo hi : Bnd) : Option (List Nat) :=
  (s.w.byRange t k lo hi).map fun l => l ++ s.st.byRange (keyLo t k lo) (keyHi t k hi)

/-! ## Histories -/

/-- What can happen to an index. -/
inductive Op where
  /-- Register a series. -/
  | add (k : SKey)
  /-- Look a series up. -/
  | lookup (k : SKey)
  /-- Look an id up. -/
  | lookupId (id : Nat)
  /-- Delete a series (dropping a table). -/
  | del (id : Nat)
  /-- `UPDATE ... SET tag = ...`. -/
  | update (sets : List (Bytes × Option Bytes)) (matched : List SKey)
  | flush
  /-- Stop after a flush and start again. -/
  | restart
  /-- Compaction clears the tombstones (compaction/job.rs:397). -/
  | clearTomb
  /-- The LRU caches drop entries. -/
  | evict (ids : List Nat) (hashes : List Nat)

def step (c : Cfg) (s : Idx) : Op → Idx
  | .add k => (s.add c k).1
  | .lookup k => (s.getId c k).1
  | .lookupId id => (s.getKey c id).1
  | .del id => s.del c id
  | .update sets m => (s.update c sets m true).1
  | .flush => s.flush
  | .restart => openOn s.flush.st
  | .clearTomb => { s with st := { s.st with tomb := .empty } }
  | .evict ids hs => { s with r := ⟨ids.foldl AMap.del s.r.idMap, hs.foldl AMap.del s.r.hashMap⟩ }

def run (c : Cfg) (s : Idx) (ops : List Op) : Idx := ops.foldl (step c) s

end Verif.Index
