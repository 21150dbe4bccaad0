import Verif.Wal.Ring
/-!
# Model: the replicated log of a vnode — `tskv/src/wal/wal_store.rs`, `tskv/src/wal/mod.rs`

A log file is the list of its entries with their positions; how entries become bytes and are found again at a
position is in `Record.lean` and `Entry.lean`.  Files are in ascending order of their ids; the last one is open for
writing.  Not modelled here: I/O errors, and readers that still hold bytes from before a truncation (see
`C21_stale_reader_refuted`).
-/
namespace Verif.Wal.Log

open Verif.Wal.Ring (Cache)

variable {E : Type} (idx : E → Nat) (len : E → Nat)

/-- A log file: the entries with their positions, and the size (`WalWriter`, writer.rs:11-17). -/
structure DFile (E : Type) where
  id : Nat
  items : List (Nat × E)
  size : Nat

/-- `struct WalFileMeta` (wal_store.rs:158-164) without the reader. -/
structure Meta where
  id : Nat
  min : Nat
  max : Nat
  index : List (Nat × Nat)
deriving DecidableEq

/-- `RaftEntryStorageInner` with `VnodeWal` (wal_store.rs:263-267, mod.rs:94-100). -/
structure Store (E : Type) where
  old : List (DFile E)
  cur : DFile E
  metas : List Meta
  cache : Cache E

/-- `u64::MAX`, the sentinel of `min_seq` and `max_seq`. -/
def u64Max : Nat := 2 ^ 64 - 1

/-- All log files. -/
def Store.all (s : Store E) : List (DFile E) := s.old ++ [s.cur]

/-- A new log (`RaftEntryStorage::new`, wal_store.rs:40-52, with the file created by `open_writer`); the cache has
room for 256 entries. -/
def Store.new : Store E := ⟨[], ⟨1, [], 4⟩, [], Cache.new 256⟩

/-- `WalWriter::truncate` (writer.rs:84-92). -/
def DFile.cut (f : DFile E) (pos : Nat) : DFile E :=
  if f.size ≤ pos then f else ⟨f.id, f.items.filter (fun x => decide (x.1 < pos)), pos⟩

/-- `VnodeWal::truncate_wal_file` (mod.rs:148-161). -/
def Store.truncate (s : Store E) (id pos : Nat) : Store E :=
  if s.cur.id = id then { s with cur := s.cur.cut pos }
  else { s with old := s.old.map (fun f => if f.id = id then f.cut pos else f) }

/-- `VnodeWal::rollback_wal_writer` with `open_writer` (mod.rs:118-131, 163-176): remove files, then write to the
file with the largest id, or to file 1 if there is none. -/
def Store.rollback (s : Store E) (del : List Nat) : Store E :=
  let fs := s.all.filter (fun f => decide (f.id ∉ del))
  match fs.getLast? with
  | none => { s with old := [], cur := ⟨1, [], 4⟩ }
  | some c => { s with old := fs.dropLast, cur := c }

/-- `write_raft_entry` with `roll_wal_file` (mod.rs:133-146, 178-193). -/
def Store.write (maxSize : Nat) (s : Store E) (e : E) : Store E × Nat × Nat :=
  let s := if s.cur.size > maxSize then { s with old := s.old ++ [s.cur], cur := ⟨s.cur.id + 1, [], 4⟩ } else s
  let pos := s.cur.size
  ({ s with cur := ⟨s.cur.id, s.cur.items ++ [(pos, e)], pos + len e⟩ }, s.cur.id, pos)

/-- `mark_entry` (wal_store.rs:186-196). -/
def Meta.mark (m : Meta) (i pos : Nat) : Meta :=
  ⟨m.id, if m.min = u64Max ∨ m.min > i then i else m.min, if m.max = u64Max ∨ m.max < i then i else m.max,
    m.index ++ [(i, pos)]⟩

/-- Where `binary_search_by` on the entry index ends, found or not: the index is in ascending order. -/
def lowerBound (l : List (Nat × Nat)) (i : Nat) : Nat := (l.takeWhile (fun x => decide (x.1 < i))).length

/-- `WalFileMeta::del_before` (wal_store.rs:198-210). -/
def Meta.delBefore (m : Meta) (i : Nat) : Meta :=
  if m.min = u64Max ∨ m.min ≥ i then m
  else { m with min := i, index := m.index.drop (lowerBound m.index i) }

/-- `WalFileMeta::del_after` (wal_store.rs:212-237): the position from which the file is to be cut. -/
def Meta.delAfter (m : Meta) (i : Nat) : Meta × Nat :=
  if m.max = u64Max ∨ m.max < i then (m, 0)
  else if i = 0 then ({ m with min := u64Max, max := u64Max, index := [] }, 0)
  else
    let k := lowerBound m.index i
    ({ m with max := i - 1, index := m.index.take k }, (m.index[k]?.map Prod.snd).getD 0)

/-- `mark_write_wal` (wal_store.rs:270-296). -/
def Store.mark (s : Store E) (e : E) (id pos : Nat) : Store E :=
  { s with
    metas := if s.metas.any (fun m => decide (m.id = id))
      then s.metas.map (fun m => if m.id = id then m.mark (idx e) pos else m)
      else s.metas ++ [(⟨id, u64Max, u64Max, []⟩ : Meta).mark (idx e) pos]
    cache := s.cache.put (idx e) e }

/-- `append` of one entry (wal_store.rs:79-104). -/
def Store.append (maxSize : Nat) (s : Store E) (e : E) : Store E :=
  let (s, id, pos) := s.write len maxSize e
  s.mark idx e id pos

/-- `min_sequence`, `max_sequence` (wal_store.rs:374-388). -/
def Store.minSeq (s : Store E) : Nat := (s.metas.head?.map Meta.min).getD u64Max
def Store.maxSeq (s : Store E) : Nat := (s.metas.getLast?.map Meta.max).getD u64Max

/-- The loop of `mark_delete_before` (wal_store.rs:303-315): the files' metadata and the ids to delete. -/
def delBeforeLoop (seq : Nat) : List Meta → List Meta × List Nat
  | [] => ([], [])
  | m :: ms =>
    if m.max < seq then
      let (ms', del) := delBeforeLoop seq ms
      (m :: ms', m.id :: del)
    else if m.min < seq then
      let (ms', del) := delBeforeLoop seq ms
      (m.delBefore seq :: ms', del)
    else (m :: ms, [])

/-- `mark_delete_before` (wal_store.rs:298-327). -/
def Store.delBefore (s : Store E) (seq : Nat) : Store E :=
  if s.minSeq ≥ seq then s else
  let (ms, del) := delBeforeLoop seq s.metas
  ({ s with metas := ms.filter (fun m => decide (m.id ∉ del)), cache := s.cache.delBefore seq } : Store E).rollback del

/-- The loop of `mark_delete_after` (wal_store.rs:334-350), on the metadata in reverse order: the metadata, the ids
to delete, and the file to cut with the position. -/
def delAfterLoop (seq : Nat) : List Meta → List Meta × List Nat × Option (Nat × Nat)
  | [] => ([], [], none)
  | m :: ms =>
    if m.min ≥ seq then
      let (ms', del, c) := delAfterLoop seq ms
      (m :: ms', m.id :: del, c)
    else if m.max ≥ seq then
      let (m', pos) := m.delAfter seq
      (m' :: ms, [], if pos > 0 then some (m.id, pos) else none)
    else (m :: ms, [], none)

/-- `mark_delete_after` (wal_store.rs:329-361). -/
def Store.delAfter (s : Store E) (seq : Nat) : Store E :=
  if s.maxSeq < seq ∨ s.maxSeq = u64Max then s else
  let (ms, del, c) := delAfterLoop seq s.metas.reverse
  let s := match c with
    | some (id, pos) => s.truncate id pos
    | none => s
  ({ s with metas := ms.reverse.filter (fun m => decide (m.id ∉ del)), cache := s.cache.delAfter seq } : Store E).rollback del

/-- Reading the entry at a position of a file. -/
def readAt (fs : List (DFile E)) (id pos : Nat) : Option E :=
  (fs.find? (fun f => decide (f.id = id))).bind fun f =>
    (f.items.find? (fun x => decide (x.1 = pos))).map Prod.snd

/-- `get_entry_by_index` (wal_store.rs:239-246). -/
def Meta.get (fs : List (DFile E)) (m : Meta) (i : Nat) : Option E :=
  (m.index.find? (fun x => decide (x.1 = i))).bind fun x => readAt fs m.id x.2

/-- `read_raft_entry` (wal_store.rs:420-437). -/
def Store.entry (s : Store E) (i : Nat) : Option E :=
  match s.cache.get i with
  | some e => some e
  | none => (s.metas.reverse.find? (fun m => decide (m.min ≤ i ∧ i ≤ m.max))).bind fun m => m.get s.all i

/-- `entries_from_cache` (wal_store.rs:363-372) for `n` indexes from `a`. -/
def fromCache (c : Cache E) : Nat → Nat → Option (List E)
  | _, 0 => some []
  | a, n + 1 => (c.get a).bind fun e => (fromCache c (a + 1) n).map (e :: ·)

/-- `intersection` (wal_store.rs:171-184). -/
def Meta.inter (m : Meta) (a b : Nat) : Option (Nat × Nat) :=
  if m.min = u64Max ∨ m.max = u64Max then none
  else
    let a := Nat.max m.min a
    let b := Nat.min (m.max + 1) b
    if a ≤ b then some (a, b) else none

/-- `read_raft_entry_range` (wal_store.rs:398-418). -/
def Store.entries (s : Store E) (a b : Nat) : List E :=
  match fromCache s.cache a (b - a) with
  | some l => l
  | none => s.metas.flatMap fun m =>
    match m.inter a b with
    | some (a', b') => (List.range' a' (b' - a')).filterMap (m.get s.all)
    | none => []

/-- `wal_last_entry` (wal_store.rs:390-396). -/
def Store.lastEntry (s : Store E) : Option E := s.cache.last

/-! ## Histories -/

inductive Op (E : Type) where
  | append (e : E)
  | before (i : Nat)
  | after (i : Nat)

def Store.step (maxSize : Nat) (s : Store E) : Op E → Store E
  | .append e => s.append idx len maxSize e
  | .before i => s.delBefore i
  | .after i => s.delAfter i

/-- The log as one sequence. -/
def specStep (es : List E) : Op E → List E
  | .append e => es ++ [e]
  | .before i => es.filter (fun e => decide (i ≤ idx e))
  | .after i => es.filter (fun e => decide (idx e < i))

/-- Appends continue the sequence without a gap (the contract of the Raft library), with indexes below `u64::MAX`. -/
def Ordered (es : List E) : List (Op E) → Prop
  | [] => True
  | op :: ops => (match op with
      | .append e => idx e < u64Max ∧ ∀ l, es.getLast? = some l → idx e = idx l + 1
      | _ => True) ∧ Ordered (specStep idx es op) ops

end Verif.Wal.Log
