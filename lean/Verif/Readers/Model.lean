import Mathlib.Data.List.Nodup

/-!
The cache of readers of data files of a vnode.

Modelled: `common/cache/src/lib.rs:24-41` (`per_shard`, `shard`), `common/cache/src/lru_cache/mod.rs`,
`common/cache/src/sharded_async_cache.rs`, `tskv/src/tsfamily/version.rs:158-173, 206-209` (`get_tsm_reader`,
`remove_tsm_reader_cache`), `tskv/src/tsfamily/column_file.rs:150-184, 211-226` (UPDATE of tags, removal of a file),
`tskv/src/tsfamily/tseries_family.rs:249-267`, `tskv/src/tsfamily/super_version.rs:114-130` (DELETE).

Simplifications: `LruCache` of the crate `lru` is written out from its documentation as a list, the most recently used entry
first.  What a reader remembers of its file when it is opened (series, schemas, tombstones) is one value `C`; the pages, which
are read later, are left out.  A change is a function on such values.  Readers that did not fit into the cache but are still
held by queries stay in `mem`.  A file is removed in one step with its entry in the cache (the code removes the entry in a
task of its own; numbers of files are not used again).
-/

namespace Verif.Readers

variable {K V C : Type} [DecidableEq K]

/-- `LruWrap` (lru_cache/mod.rs:11-18): the most recently used entry first. -/
structure Lru (K V : Type) where
  cap : Nat
  items : List (K × V)

/-- The value stored under a key. -/
def Lru.find (c : Lru K V) (k : K) : Option V := (c.items.find? (fun x => decide (x.1 = k))).map Prod.snd

/-- The entries of other keys. -/
def Lru.others (c : Lru K V) (k : K) : List (K × V) := c.items.filter (fun x => decide (x.1 ≠ k))

/-- `insert`, `LruCache::put` (lru_cache/mod.rs:39-41): the oldest entry goes when the cache is full. -/
def Lru.put (c : Lru K V) (k : K) (v : V) : Lru K V :=
  match c.find k with
  | some _ => { c with items := (k, v) :: c.others k }
  | none => { c with items := (k, v) :: (if c.items.length = c.cap then c.items.dropLast else c.items) }

/-- `get` (lru_cache/mod.rs:43-45): the entry becomes the most recently used one. -/
def Lru.touch (c : Lru K V) (k : K) : Lru K V :=
  match c.find k with
  | some v => { c with items := (k, v) :: c.others k }
  | none => c

/-- `remove` (lru_cache/mod.rs:47-49). -/
def Lru.remove (c : Lru K V) (k : K) : Lru K V := { c with items := c.others k }

/-- `set_capacity` (lru_cache/mod.rs:55-57): the oldest entries go. -/
def Lru.resize (c : Lru K V) (n : Nat) : Lru K V := { cap := n, items := c.items.take n }

/-- `NUM_SHARDS` (lib.rs:24-25). -/
def shards : Nat := 16

/-- `per_shard` (lib.rs:27-31). -/
def perShard (capacity : Nat) : Nat :=
  let n := (capacity + (shards - 1)) / shards
  if n = 0 then 1 else n

/-- `shard` (lib.rs:33-39); the hash is a parameter. -/
def place (hash : K → Nat) (k : K) : Nat := hash k % shards

/-- `ShardedAsyncCache`: shards by number. -/
abbrev Cache (K V : Type) := Nat → Lru K V

/-- `create_lru_sharded_cache` (sharded_async_cache.rs:26-32). -/
def empty (capacity : Nat) : Cache K V := fun _ => { cap := perShard capacity, items := [] }

/-- Change one shard. -/
def Cache.at (c : Cache K V) (i : Nat) (f : Lru K V → Lru K V) : Cache K V := fun j => if j = i then f (c j) else c j

/-- `insert` (sharded_async_cache.rs:60-63). -/
def Cache.insert (hash : K → Nat) (c : Cache K V) (k : K) (v : V) : Cache K V := c.at (place hash k) (·.put k v)

/-- The answer of `get` (sharded_async_cache.rs:65-68). -/
def Cache.find (hash : K → Nat) (c : Cache K V) (k : K) : Option V := (c (place hash k)).find k

/-- The effect of `get` on the cache. -/
def Cache.touch (hash : K → Nat) (c : Cache K V) (k : K) : Cache K V := c.at (place hash k) (·.touch k)

/-- `remove` (sharded_async_cache.rs:70-73). -/
def Cache.remove (hash : K → Nat) (c : Cache K V) (k : K) : Cache K V := c.at (place hash k) (·.remove k)

/-- `set_capacity` (sharded_async_cache.rs:80-87). -/
def Cache.resize (c : Cache K V) (n : Nat) : Cache K V := fun i => (c i).resize (perShard n)

/-- `get_usage` (sharded_async_cache.rs:97-103). -/
def Cache.usage (c : Cache K V) : Nat := ((List.range shards).map (fun i => (c i).items.length)).sum

/-- Files, readers (by number) and the cache of a vnode. -/
structure Sys (K C : Type) where
  disk : K → Option C
  mem : Nat → Option C
  next : Nat
  cache : Cache K Nat

/-- A vnode without files. -/
def Sys.init (capacity : Nat) : Sys K C := { disk := fun _ => none, mem := fun _ => none, next := 0, cache := empty capacity }

/-- `TsmReader::open` (reader.rs:121-168): a new reader with what the file says now. -/
def Sys.openFile (s : Sys K C) (p : K) : Option Nat × Sys K C :=
  match s.disk p with
  | none => (none, s)
  | some c => (some s.next, { s with mem := fun i => if i = s.next then some c else s.mem i, next := s.next + 1 })

/-- First part of `get_tsm_reader` (version.rs:160-163): look into the cache. -/
def Sys.look (hash : K → Nat) (s : Sys K C) (p : K) : Option Nat × Sys K C :=
  (s.cache.find hash p, { s with cache := s.cache.touch hash p })

/-- Last part of `get_tsm_reader` (version.rs:166): put the new reader into the cache. -/
def Sys.keep (hash : K → Nat) (s : Sys K C) (p : K) (h : Nat) : Sys K C := { s with cache := s.cache.insert hash p h }

/-- `get_tsm_reader` (version.rs:158-173) with nothing in between. -/
def Sys.get (hash : K → Nat) (s : Sys K C) (p : K) : Option Nat × Sys K C :=
  match s.look hash p with
  | (some h, s') => (some h, s')
  | (none, s') =>
    match s'.openFile p with
    | (none, s'') => (none, s'')
    | (some h, s'') => (some h, s''.keep hash p h)

/-- A change through a reader: in its memory and in the file of tombstones (super_version.rs:114-130). -/
def Sys.through (s : Sys K C) (p : K) (h : Nat) (f : C → C) : Sys K C :=
  { s with mem := fun i => if i = h then (s.mem i).map f else s.mem i,
           disk := fun q => if q = p then (s.disk q).map f else s.disk q }

/-- DELETE in a file. -/
def Sys.delete (hash : K → Nat) (s : Sys K C) (p : K) (f : C → C) : Sys K C :=
  match s.get hash p with
  | (none, s') => s'
  | (some h, s') => s'.through p h f

/-- UPDATE of tags in a file: the file is written anew, then its reader leaves the cache (tseries_family.rs:262-266). -/
def Sys.retag (hash : K → Nat) (s : Sys K C) (p : K) (f : C → C) : Sys K C :=
  { s with disk := fun q => if q = p then (s.disk q).map f else s.disk q, cache := s.cache.remove hash p }

/-- A file that is no longer needed (column_file.rs:211-226). -/
def Sys.drop (hash : K → Nat) (s : Sys K C) (p : K) : Sys K C :=
  { s with disk := fun q => if q = p then none else s.disk q, cache := s.cache.remove hash p }

/-- A flush or a compaction writes a file that was not there. -/
def Sys.create (s : Sys K C) (p : K) (c : C) : Sys K C :=
  match s.disk p with
  | none => { s with disk := fun q => if q = p then some c else s.disk q }
  | some _ => s

/-- What happens to the files of a vnode, each with nothing in between. -/
inductive Op (K C : Type) where
  | get (p : K)
  | delete (p : K) (f : C → C)
  | retag (p : K) (f : C → C)
  | drop (p : K)
  | create (p : K) (c : C)
  | resize (n : Nat)

/-- One of them. -/
def Sys.step (hash : K → Nat) (s : Sys K C) : Op K C → Sys K C
  | .get p => (s.get hash p).2
  | .delete p f => s.delete hash p f
  | .retag p f => s.retag hash p f
  | .drop p => s.drop hash p
  | .create p c => s.create p c
  | .resize n => { s with cache := s.cache.resize n }

/-- Many of them. -/
def Sys.run (hash : K → Nat) (s : Sys K C) (ops : List (Op K C)) : Sys K C := ops.foldl (·.step hash ·) s

end Verif.Readers
