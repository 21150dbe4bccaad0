/-!
# Model: the order in which flushes are recorded

* `tskv/src/compaction/job.rs:281-447` — `FlushJob`: the queue of flushes
* `tskv/src/compaction/flush.rs:137-181` — `flush_memtable`: the sequence number of the edit
* `tskv/src/tsfamily/tseries_family.rs:133-196` — `new_version`, `switch_to_immutable`, `put_points`
* `tskv/src/mem_cache/memcache.rs:118-125, 275-309` — sequence numbers and the flag `flushing`

A write is known by its sequence number, a write buffer by the numbers of the writes in it.  Simplifications: deletes in the write
buffer, metrics, the index and compaction are left out; the steps are interleaved arbitrarily, and each holds the locks that the
code holds (`process_summary_tasks` holds the lock of the queue during its loop).
-/
namespace Verif.Flush

/-- `struct MemCache` (memcache.rs:29-45); `cid` is the address of the buffer. -/
structure Cache where
  cid : Nat
  minSeq : Nat
  seqNo : Nat
  seqs : List Nat
  flushing : Bool
deriving DecidableEq

/-- `SummaryTask` with the flag `completion` of its request (job.rs:366-382): which buffer, and when complete the sequence number of
the edit and the writes that are in its file. -/
structure Task where
  cid : Nat
  complete : Bool
  high : Nat
  seqs : List Nat
deriving DecidableEq

/-- A vnode: the active and the immutable buffers, the queue (a `BTreeMap`, here a list sorted by the key), the flushed-up-to mark
and the writes in files of the version. -/
structure St where
  active : Cache
  immut : List Cache
  queue : List (Nat × Task)
  mark : Nat
  stored : List Nat
  nextCid : Nat
deriving DecidableEq

/-- A vnode after it was opened with the mark `m` (tseries_family.rs:47-60). -/
def St.opened (m : Nat) (stored : List Nat) : St := ⟨⟨0, m, m, [], false⟩, [], [], m, stored, 1⟩

/-- `BTreeMap::insert`. -/
def ins (k : Nat) (t : Task) : List (Nat × Task) → List (Nat × Task)
  | [] => [(k, t)]
  | (k', t') :: q => if k < k' then (k, t) :: (k', t') :: q else if k = k' then (k, t) :: q else (k', t') :: ins k t q

/-- `put_points` with `write_group` (tseries_family.rs:178-196, memcache.rs:118-160); `ok` is false if there is no memory left, then
only the sequence number is kept. -/
def St.write (seq : Nat) (ok : Bool) (s : St) : St :=
  { s with active := { s.active with seqNo := seq, seqs := if ok then s.active.seqs ++ [seq] else s.active.seqs } }

/-- `switch_to_immutable` (tseries_family.rs:158-176). -/
def St.switch (s : St) : St :=
  if s.active.seqs = [] then s
  else { s with immut := s.immut ++ [s.active], active := ⟨s.nextCid, s.active.seqNo, s.active.seqNo, [], false⟩,
                nextCid := s.nextCid + 1 }

/-- The first part of `FlushJob::run` (job.rs:357-383): the buffers that are not being flushed enter the queue. -/
def St.begin (s : St) : St :=
  { s with immut := s.immut.map fun c => { c with flushing := true },
           queue := (s.immut.filter fun c => !c.flushing).foldl (fun q c => ins c.minSeq ⟨c.cid, false, 0, []⟩ q) s.queue }

/-- `process_summary_tasks` (job.rs:296-324): complete flushes are recorded from the smallest key on; `oks` tells which calls of
`apply_version_edit` succeed. -/
def process : List Bool → List (Nat × Task) → St → St
  | _, [], s => { s with queue := [] }
  | oks, (k, t) :: q, s =>
    if !t.complete then { s with queue := (k, t) :: q }
    else if oks.headD true then
      process oks.tail q { s with mark := max s.mark t.high, stored := s.stored ++ t.seqs,
                                  immut := s.immut.filter fun c => decide (c.cid ≠ t.cid) }
    else process oks.tail q s

/-- The file of a buffer is written (job.rs:418-428): its task becomes complete and the queue is processed. -/
def St.finish (cid : Nat) (oks : List Bool) (s : St) : St :=
  match s.immut.find? fun c => decide (c.cid = cid) && c.flushing with
  | none => s
  | some c =>
    process oks (s.queue.map fun p => if p.1 = c.minSeq then (p.1, { p.2 with complete := true, high := c.seqNo, seqs := c.seqs }) else p) s

/-- A flush fails (job.rs:385-391): the flag of its buffers is cleared. -/
def St.abort (cids : List Nat) (s : St) : St :=
  { s with immut := s.immut.map fun c => if c.cid ∈ cids then { c with flushing := false } else c }

inductive Op where
  | write (seq : Nat) (ok : Bool)
  | switch
  | begin
  | finish (cid : Nat) (oks : List Bool)
  | abort (cids : List Nat)

def step (s : St) : Op → St
  | .write seq ok => s.write seq ok
  | .switch => s.switch
  | .begin => s.begin
  | .finish cid oks => s.finish cid oks
  | .abort cids => s.abort cids

/-- Several steps. -/
def run (ops : List Op) (s : St) : St := ops.foldl step s

/-- The writes that were accepted. -/
def accepted (ops : List Op) : List Nat := ops.filterMap fun
  | .write seq true => some seq
  | _ => none

/-- Sequence numbers increase: each write has a number above `m` and above those before it. -/
def Increasing : Nat → List Op → Prop
  | _, [] => True
  | m, .write seq _ :: ops => m < seq ∧ Increasing seq ops
  | m, _ :: ops => Increasing m ops

/-- Every edit that is written to the manifest is written without an error. -/
def NoError (ops : List Op) : Prop := ∀ op ∈ ops, ∀ cid oks, op = .finish cid oks → ∀ b ∈ oks, b = true

end Verif.Flush
