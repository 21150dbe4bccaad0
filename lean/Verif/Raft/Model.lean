/-!
# Model: the replicas of one replication set and their raft group

What raft does (votes, appending, committing) is the code of the library openraft and is written out from its documentation; what a
replica keeps in its log and after a restart is the code of the repository: `replication/src/node_store.rs`,
`replication/src/state_store.rs`, `tskv/src/wal/wal_store.rs`, `coordinator/src/raft/manager.rs`.

Messages may be late, lost, repeated and out of order: what was sent is kept in the state for ever (`cands`, `leaders`, `votes`, `acks`,
`committed`), and a replica may act on it at any time.  The numbers of terms stand for openraft's `LeaderId`s, which are in linear
order.  Simplified: the set of replicas does not change, no snapshots (the log is kept), disks do not lose what was written.
-/
namespace Verif.Raft

/-- An entry of the log; its index is its position. -/
structure Entry where
  term : Nat
  cmd : Nat
deriving DecidableEq

/-- What a replica stores: the vote (`save_vote`, node_store.rs:350-361), the log (`append_to_log`, node_store.rs:376-403) and how many
entries were applied (`set_last_applied_log`, node_store.rs:471-473). -/
structure Node where
  term : Nat
  vote : Option Nat
  log : List Entry
  applied : Nat

/-- The replicas and everything that was ever sent. -/
structure State where
  nodes : Nat → Node
  /-- requests for votes: term, replica, its log -/
  cands : List (Nat × Nat × List Entry)
  /-- voter, term, replica voted for -/
  votes : List (Nat × Nat × Nat)
  /-- the leader of a term with its log; it only grows, so what was sent at some time is a part of it -/
  leaders : Nat → Option (Nat × List Entry)
  /-- replica, term, number of entries: it has the first so many entries of the leader of the term -/
  acks : List (Nat × Nat × Nat)
  /-- term, number of entries that the leader of the term has committed -/
  committed : List (Nat × Nat)
  /-- term, index, command of the writes that a client was told to be successful -/
  answered : List (Nat × Nat × Nat)

def State.init : State := ⟨fun _ => ⟨0, none, [], 0⟩, [], [], fun _ => none, [], [], []⟩

/-- Changing one replica. -/
def State.setNode (s : State) (i : Nat) (n : Node) : State := { s with nodes := fun k => if k = i then n else s.nodes k }

/-- Term of the last entry. -/
def lastTerm (l : List Entry) : Nat := (l.getLast?.map Entry.term).getD 0

/-- Whether the second log is at least as new as the first one: the order of the ids of the last entries, which is how openraft compares
logs before a vote. -/
def UpToDate (l c : List Entry) : Prop := lastTerm l < lastTerm c ∨ lastTerm l = lastTerm c ∧ l.length ≤ c.length

instance (l c : List Entry) : Decidable (UpToDate l c) := by unfold UpToDate; infer_instance

/-- More than half of `N` replicas. -/
def Quorum (N : Nat) (q : List Nat) : Prop := q.Nodup ∧ (∀ j ∈ q, j < N) ∧ N < 2 * q.length

instance (N : Nat) (q : List Nat) : Decidable (Quorum N q) := by unfold Quorum; infer_instance

/-- Whether the log has entries of the same terms as `new` from index `p` on. -/
def agrees (log : List Entry) (p : Nat) (new : List Entry) : Prop := ((log.drop p).take new.length).map Entry.term = new.map Entry.term

instance (log : List Entry) (p : Nat) (new : List Entry) : Decidable (agrees log p new) := by unfold agrees; infer_instance

/-- Entries from a leader: nothing is done if they are there; otherwise entries that contradict them are removed
(`delete_conflict_logs_since`, node_store.rs:405-421) and the new ones appended (`append_to_log` with `del_after`). -/
def accept (log : List Entry) (p : Nat) (new : List Entry) : List Entry := if agrees log p new then log else log.take p ++ new

/-- Steps. -/
inductive Act where
  /-- a replica asks for votes in a new term -/
  | campaign (i t : Nat)
  /-- `j` votes for `i` -/
  | vote (j t i : Nat)
  /-- `i` has got votes from `q` -/
  | win (i t : Nat) (q : List Nat)
  /-- the leader of `t` gets a command -/
  | append (t c : Nat)
  /-- `j` gets the entries of the leader of `t` from index `p` up to `n` -/
  | accept (j t p n : Nat)
  /-- the leader of `t` has got acknowledgements for `n` entries from `q` -/
  | commit (t n : Nat) (q : List Nat)
  /-- `j` applies entries up to `n`, because the leader of `t` said that they are committed -/
  | apply (j t n : Nat)
  /-- the leader of `t` tells the client that the command at index `k` was carried out -/
  | answer (t k : Nat)
  /-- the process of `j` ends and is started again -/
  | restart (j : Nat)

/-- The log after a restart: `recover` removes the entries after the last applied one (wal_store.rs:38-71, 494-533; proved of the log
files in `C23_log_after_recovery`); if nothing was applied it keeps everything. -/
def Node.restart (n : Node) : Node := if n.applied = 0 then n else { n with log := n.log.take n.applied }

/-- One step of `N` replicas; nothing happens if the step is not possible. -/
def State.next (N : Nat) (s : State) : Act → State
  | .campaign i t =>
    if i < N ∧ (s.nodes i).term < t then
      { s.setNode i { s.nodes i with term := t, vote := some i } with
        cands := (t, i, (s.nodes i).log) :: s.cands
        votes := (i, t, i) :: s.votes }
    else s
  | .vote j t i =>
    match s.cands.find? fun c => decide (c.1 = t) && decide (c.2.1 = i) with
    | some (_, _, log) =>
      if j < N ∧ (s.nodes j).term < t ∧ UpToDate (s.nodes j).log log then
        { s.setNode j { s.nodes j with term := t, vote := some i } with votes := (j, t, i) :: s.votes }
      else s
    | none => s
  | .win i t q =>
    match s.cands.find? fun c => decide (c.1 = t) && decide (c.2.1 = i) with
    | some (_, _, log) =>
      if Quorum N q ∧ (∀ j ∈ q, (j, t, i) ∈ s.votes) ∧ (s.leaders t).map Prod.fst ≠ some i then
        { s with leaders := fun k => if k = t then some (i, log) else s.leaders k }
      else s
    | none => s
  | .append t c =>
    match s.leaders t with
    | some (i, log) =>
      if (s.nodes i).term = t ∧ (s.nodes i).log = log then
        { s.setNode i { s.nodes i with log := log ++ [⟨t, c⟩] } with
          leaders := fun k => if k = t then some (i, log ++ [⟨t, c⟩]) else s.leaders k
          acks := (i, t, log.length + 1) :: s.acks }
      else s
    | none => s
  | .accept j t p n =>
    match s.leaders t with
    | some (i, log) =>
      if j < N ∧ j ≠ i ∧ (s.nodes j).term ≤ t ∧ p ≤ n ∧ n ≤ log.length ∧
          (p = 0 ∨ ((s.nodes j).log[p - 1]?).map Entry.term = (log[p - 1]?).map Entry.term) then
        { s.setNode j { s.nodes j with
            term := t
            vote := if (s.nodes j).term < t then some i else (s.nodes j).vote
            log := Raft.accept (s.nodes j).log p ((log.take n).drop p) } with
          acks := (j, t, n) :: s.acks }
      else s
    | none => s
  | .commit t n q =>
    match s.leaders t with
    | some (_, log) =>
      if Quorum N q ∧ 0 < n ∧ (log[n - 1]?).map Entry.term = some t ∧ (∀ j ∈ q, ∃ a ∈ s.acks, a.1 = j ∧ a.2.1 = t ∧ n ≤ a.2.2) then
        { s with committed := (t, n) :: s.committed }
      else s
    | none => s
  | .apply j t n =>
    if (∃ c ∈ s.committed, c.1 = t ∧ n ≤ c.2) ∧ (∃ a ∈ s.acks, a.1 = j ∧ a.2.1 = t ∧ n ≤ a.2.2) ∧ (s.nodes j).term = t ∧
        n ≤ (s.nodes j).log.length ∧ (s.nodes j).applied < n then
      s.setNode j { s.nodes j with applied := n }
    else s
  | .answer t k =>
    match s.leaders t with
    | some (i, _) =>
      match (s.nodes i).log[k]? with
      | some e =>
        if (s.nodes i).term = t ∧ e.term = t ∧ k < (s.nodes i).applied then { s with answered := (t, k, e.cmd) :: s.answered } else s
      | none => s
    | none => s
  | .restart j => s.setNode j (s.nodes j).restart

def State.run (N : Nat) (s : State) (l : List Act) : State := l.foldl (State.next N) s

end Verif.Raft
