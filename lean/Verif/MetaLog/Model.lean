import Verif.Common.BMap
import Verif.Raft.Store
/-!
# Model: what a meta server keeps of its Raft log

* `replication/src/entry_store.rs` (`HeedEntryStorage`: the log in LMDB)
* `replication/src/node_store.rs:330-525` (`NodeStorage` as storage of the Raft library: `get_log_state`, `append_to_log`,
  `delete_conflict_logs_since`, `purge_logs_upto`, `apply_to_state_machine`, `try_get_log_entries`)
* `meta/src/store/storage.rs:62-74` (`StateMachine::apply`)

A meta server has three LMDB environments: for the log, for the state of the group and for the data of the cluster (server.rs:43-45).
Every transaction is done or not; between two of them the server may stop.  Not modelled: errors of LMDB, a full map; a loss of power (the
environment of the state is opened with `NO_SYNC`); a command is one transaction on the data.
-/
namespace Verif.MetaLog
open Verif.Raft (LogId)

/-- `openraft::Entry`: its log id, and the command, given by a number; blank entries and memberships have none. -/
structure Entry where
  id : LogId
  req : Option Nat
deriving DecidableEq

/-- The database of entries: keys are indexes as big endian numbers, so LMDB keeps them by index (entry_store.rs:15-20). -/
abbrev Log := List (Nat × Entry)

/-- `append` (entry_store.rs:60-76): one transaction. -/
def put (es : List Entry) (l : Log) : Log := es.foldl (fun l e => BMap.insert BMap.natLt e.id.index e l) l

/-- `del_after` (entry_store.rs:116-125). -/
def delAfter (i : Nat) (l : Log) : Log := l.filter fun x => decide (x.1 < i)

/-- `del_before` (entry_store.rs:127-136). -/
def delBefore (i : Nat) (l : Log) : Log := l.filter fun x => decide (i ≤ x.1)

/-- `entry` (entry_store.rs:89-98). -/
def entry (i : Nat) (l : Log) : Option Entry := BMap.get l i

/-- `entries` (entry_store.rs:100-114). -/
def entries (a b : Nat) (l : Log) : List Entry := (l.filter fun x => decide (a ≤ x.1 ∧ x.1 < b)).map Prod.snd

/-- `last_entry` (entry_store.rs:78-87). -/
def lastEntry (l : Log) : Option Entry := l.getLast?.map Prod.snd

/-- `metrics` (entry_store.rs:143-152): the least and the greatest index, 0 without entries (`Entry::default`). -/
def minSeq (l : Log) : Nat := (l.head?.map fun x => x.2.id.index).getD 0
def maxSeq (l : Log) : Nat := ((lastEntry l).map fun e => e.id.index).getD 0

/-- What a meta server has stored: the log, the log id up to which it is purged, the log id applied last, and the commands that its data has
seen. -/
structure State where
  log : Log
  purged : Option LogId
  applied : Option LogId
  machine : List Nat
deriving DecidableEq

def State.new : State := ⟨[], none, none, []⟩

/-- The transactions. -/
inductive Tx where
  | delAfter (i : Nat)
  | put (es : List Entry)
  | delBefore (i : Nat)
  | purged (l : LogId)
  | applied (l : LogId)
  | command (r : Nat)

def Tx.run (s : State) : Tx → State
  | .delAfter i => { s with log := MetaLog.delAfter i s.log }
  | .put es => { s with log := MetaLog.put es s.log }
  | .delBefore i => { s with log := MetaLog.delBefore i s.log }
  | .purged l => { s with purged := some l }
  | .applied l => { s with applied := some l }
  | .command r => { s with machine := s.machine ++ [r] }

/-- What the Raft library asks for. -/
inductive Op where
  | append (es : List Entry)
  | truncate (i : Nat)
  | purge (l : LogId)
  | apply (es : List Entry)

/-- An entry is noted as applied, then its command is carried out (node_store.rs:483-510). -/
def applyTxs (e : Entry) : List Tx := .applied e.id :: e.req.toList.map .command

/-- The transactions of a request: `append_to_log` (node_store.rs:384-407), `delete_conflict_logs_since` (410-424), `purge_logs_upto`
(427-445), `apply_to_state_machine` (472-525). -/
def Op.txs : Op → List Tx
  | .append [] => []
  | .append (e :: es) => [.delAfter e.id.index, .put (e :: es)]
  | .truncate i => [.delAfter i]
  | .purge l => [.purged l, .delBefore (l.index + 1)]
  | .apply es => es.flatMap applyTxs

/-- A request that is finished, or one during which the server stops: only so many transactions are done.  Then it starts again. -/
inductive Event where
  | done (op : Op)
  | crash (op : Op) (k : Nat)

def Event.txs : Event → List Tx
  | .done op => op.txs
  | .crash op k => op.txs.take k

def State.step (s : State) (e : Event) : State := e.txs.foldl Tx.run s

def State.run (s : State) (es : List Event) : State := es.foldl State.step s

/-- `last_log_id` of `get_log_state` (node_store.rs:330-356). -/
def State.lastId (s : State) : Option LogId :=
  match lastEntry s.log with
  | none => s.purged
  | some e => some e.id

/-- The index after that of a log id, 0 without one. -/
def after (l : Option LogId) : Nat := match l with | none => 0 | some l => l.index + 1

end Verif.MetaLog
