import Verif.Common.AMap
import Verif.Common.Sort
/-!
# Model: the store of the state of all raft groups of a process

`replication/src/state_store.rs`: one LMDB database with string keys for all groups, and the parts of `replication/src/node_store.rs` that
find the membership and the log id of a snapshot.  Values are kept as values, not as JSON.  Log ids are (index, term).
-/
namespace Verif.Raft

abbrev Key := List Char

/-- The decimal digits of a number (`format!("{}")`). -/
def dec (n : Nat) : Key := if n < 10 then [Char.ofNat (48 + n)] else dec (n / 10) ++ [Char.ofNat (48 + n % 10)]

structure LogId where
  index : Nat
  term : Nat
deriving DecidableEq

/-- A membership with the log id of the entry that set it (`StoredMembership`); the replicas are given by a number. -/
structure Member where
  logId : Option LogId
  nodes : Nat
deriving DecidableEq

/-- `StoredMembership::default()`. -/
def Member.default : Member := ⟨none, 0⟩

/-- `log_id().unwrap_or_default().index`. -/
def Member.index (m : Member) : Nat := (m.logId.getD ⟨0, 0⟩).index

inductive Val where
  | log (l : LogId)
  | num (n : Nat)
  | mem (m : Member)
deriving DecidableEq

/-! The keys (`Key`, state_store.rs:15-60). -/
def sSummary : Key := "node_summary_".toList
def sApplied : Key := "applied_log_".toList
def sSnapApplied : Key := "snapshot_applied_log_".toList
def sMember : Key := "membership_".toList
def sPurged : Key := "purged_log_id_".toList
def sSnapIndex : Key := "snapshot_index_".toList
def sVote : Key := "vote_".toList
def sSnapshot : Key := "snapshot_".toList
def sInit : Key := "already_init_".toList

def kSummary (g : Nat) : Key := sSummary ++ dec g
def kApplied (g : Nat) : Key := sApplied ++ dec g
def kSnapApplied (g : Nat) : Key := sSnapApplied ++ dec g
def kMember (g : Nat) : Key := sMember ++ dec g
def kMemberPrefix (g : Nat) : Key := sMember ++ (dec g ++ ['_'])
def kMemberAt (g i : Nat) : Key := sMember ++ (dec g ++ '_' :: dec i)
def kPurged (g : Nat) : Key := sPurged ++ dec g
def kSnapIndex (g : Nat) : Key := sSnapIndex ++ dec g
def kVote (g : Nat) : Key := sVote ++ dec g
def kSnapshot (g : Nat) : Key := sSnapshot ++ dec g
def kInit (g : Nat) : Key := sInit ++ dec g

abbrev Db := AMap Key Val

/-- `get` of a log id; a value of another kind would be an error of the JSON parser. -/
def Db.log (db : Db) (k : Key) : Option LogId := match db.get k with | some (.log l) => some l | _ => none
def Db.num (db : Db) (k : Key) : Option Nat := match db.get k with | some (.num n) => some n | _ => none
def Db.mem (db : Db) (k : Key) : Option Member := match db.get k with | some (.mem m) => some m | _ => none

/-- `get_last_membership` (state_store.rs:161-171). -/
def Db.lastMembership (db : Db) (g : Nat) : Member := (db.mem (kMember g)).getD .default

/-- `set_last_membership` (state_store.rs:173-193): as the last one and, by its index, into the list. -/
def Db.setMembership (db : Db) (g : Nat) (m : Member) : Db :=
  match m.logId with
  | some l => (db.set (kMember g) (.mem m)).set (kMemberAt g l.index) (.mem m)
  | none => db.set (kMember g) (.mem m)

/-- `get_membership_list` (state_store.rs:195-212): all keys with the prefix. -/
def Db.membershipList (db : Db) (g : Nat) : List (Key × Member) :=
  db.entries.filterMap fun e => if (kMemberPrefix g).isPrefixOf e.1 then (match e.2 with | .mem m => some (e.1, m) | _ => none) else none

/-- The memberships up to an index, in the order of their indexes (state_store.rs:216-220 and node_store.rs:113-117). -/
def Db.membershipsUpTo (db : Db) (g index : Nat) : List (Key × Member) :=
  (Sort.sortBy (fun a b => decide (a.2.index ≤ b.2.index)) (db.membershipList g)).filter fun x => decide (x.2.index ≤ index)

def Db.delKeys (db : Db) (ks : List Key) : Db := ks.foldl AMap.del db

/-- `clear_memberships` (state_store.rs:214-227): all but the last one of them are removed. -/
def Db.clearMemberships (db : Db) (g index : Nat) : Db := db.delKeys ((db.membershipsUpTo g index).dropLast.map Prod.fst)

/-- `get_snapshot_membership` (node_store.rs:103-122). -/
def Db.snapshotMembership (db : Db) (g index : Nat) : Member :=
  match (db.membershipsUpTo g index).getLast? with
  | some (_, m) => m
  | none => db.lastMembership g

/-- `del_group` (state_store.rs:401-420). -/
def Db.delGroup (db : Db) (g : Nat) : Db :=
  db.delKeys ([kApplied g, kMember g, kPurged g, kSnapIndex g, kVote g, kSnapshot g, kInit g, kSummary g, kSnapApplied g] ++
    (db.membershipList g).map Prod.fst)

/-- `all_nodes_summary` (state_store.rs:383-399). -/
def Db.allSummaries (db : Db) : List Nat :=
  db.entries.filterMap fun e => if sSummary.isPrefixOf e.1 then (match e.2 with | .num n => some n | _ => none) else none

/-- The writes of one group. -/
inductive Write where
  | setInit
  | membership (m : Member)
  | clear (index : Nat)
  | applied (l : LogId)
  | snapApplied (l : LogId)
  | purged (l : LogId)
  | snapIndex (n : Nat)
  | incrSnapIndex (n : Nat)
  | vote (n : Nat)
  | snapshot (n : Nat)
  | summary (n : Nat)
  | delGroup

/-- A write of group `g` (state_store.rs:149-420). -/
def Db.write (db : Db) (g : Nat) : Write → Db
  | .setInit => db.set (kInit g) (.num 1)
  | .membership m => db.setMembership g m
  | .clear i => db.clearMemberships g i
  | .applied l => db.set (kApplied g) (.log l)
  | .snapApplied l => db.set (kSnapApplied g) (.log l)
  | .purged l => db.set (kPurged g) (.log l)
  | .snapIndex n => db.set (kSnapIndex g) (.num n)
  | .incrSnapIndex n => db.set (kSnapIndex g) (.num ((db.num (kSnapIndex g)).getD 0 + n))
  | .vote n => db.set (kVote g) (.num n)
  | .snapshot n => db.set (kSnapshot g) (.num n)
  | .summary n => db.set (kSummary g) (.num n)
  | .delGroup => db.delGroup g

/-- Writes of any groups, one after the other: each is one transaction. -/
def Db.run (db : Db) (l : List (Nat × Write)) : Db := l.foldl (fun db w => db.write w.1 w.2) db

/-- What the functions that read can tell of a group: the values under its keys, and those that the prefix finds. -/
structure View where
  init : Option Val
  member : Option Val
  list : Nat → Option Val
  applied : Option Val
  snapApplied : Option Val
  purged : Option Val
  snapIndex : Option Val
  vote : Option Val
  snapshot : Option Val
  summary : Option Val

def Db.view (db : Db) (g : Nat) : View :=
  ⟨db.get (kInit g), db.get (kMember g), fun i => db.get (kMemberAt g i), db.get (kApplied g), db.get (kSnapApplied g), db.get (kPurged g),
   db.get (kSnapIndex g), db.get (kVote g), db.get (kSnapshot g), db.get (kSummary g)⟩

/-- A group of which nothing is stored. -/
def View.none : View :=
  ⟨Option.none, Option.none, fun _ => Option.none, Option.none, Option.none, Option.none, Option.none, Option.none, Option.none, Option.none⟩

/-! ## Snapshots -/

/-- `get_snapshot_log_id` (node_store.rs:81-101): from the log, then from the snapshot applied last, then the last applied entry. -/
def snapshotLogId (log : List LogId) (db : Db) (g index : Nat) : Option LogId :=
  match log.find? fun l => decide (l.index = index) with
  | some l => some l
  | none =>
    match db.log (kSnapApplied g) with
    | some l => if l.index = index then some l else
      match db.log (kApplied g) with
      | some l => if l.index = index then some l else none
      | none => none
    | none =>
      match db.log (kApplied g) with
      | some l => if l.index = index then some l else none
      | none => none

end Verif.Raft
