import Verif.Wal.LogInv
/-!
# Model: opening a log after a restart — `tskv/src/wal/wal_store.rs:38-71, 439-533`

The engine is a state `σ` with a function applying one entry (`VnodeStorage::apply` with `APPLY_TYPE_WAL`, and nothing
for entries that are not writes) and the index up to which its contents are flushed (`version().last_seq()`).  The
records of the files are read in order; damaged files are the subject of `RecordProps.lean`.  A file is read as it was
when the recovery began: after it is cut, all further entries have indexes after the cut, so reading them or not makes
no difference.
-/
namespace Verif.Wal.Log

open Verif.Wal.Ring (Cache)

variable {E σ : Type} (idx : E → Nat) (app : σ → E → Option σ) (flushed : σ → Nat)

/-- `recover_record` (wal_store.rs:494-533); `none` if applying the entry fails. -/
def recoverRec (apply : Option Nat) (s : Store E) (st : σ) (id pos : Nat) (e : E) : Option (Store E × σ) :=
  match apply with
  | none => some (s.mark idx e id pos, st)
  | some a =>
    let st? := if flushed st < idx e ∧ idx e ≤ a then app st e else some st
    st?.map fun st => if a < idx e then (s.truncate id pos, st) else (s.mark idx e id pos, st)

/-- The loops of `RaftEntryStorageInner::recover` (wal_store.rs:439-492): an error ends the recovery, which is still
reported as a success. -/
def recoverLoop (apply : Option Nat) : List (Nat × Nat × E) → Store E × σ → Store E × σ
  | [], x => x
  | (id, pos, e) :: l, (s, st) =>
    match recoverRec idx app flushed apply s st id pos e with
    | some x => recoverLoop apply l x
    | none => (s, st)

/-- The records of the files, in order. -/
def recordsOf (fs : List (DFile E)) : List (Nat × Nat × E) := fs.flatMap fun f => f.items.map fun x => (f.id, x.1, x.2)

/-- Opening the files of a log (`RaftEntryStorage::new`, `open_writer`: the last file is written to). -/
def Store.reopen (s : Store E) : Store E := ⟨s.old, s.cur, [], Cache.new 256⟩

/-- `RaftEntryStorage::recover` (wal_store.rs:38-71) after a restart, with the last applied index `apply`. -/
def Store.recover (apply : Option Nat) (s : Store E) (st : σ) : Store E × σ :=
  let (s', st') := recoverLoop idx app flushed apply (recordsOf s.all) (s.reopen, st)
  match apply with
  | some a => (s'.delAfter (a + 1), st')
  | none => (s', st')

end Verif.Wal.Log
