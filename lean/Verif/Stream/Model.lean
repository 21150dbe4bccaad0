import Verif.Common.AMap
/-!
# Model: stream queries

* `query_server/query/src/execution/stream/mod.rs` — a run: new offsets, the plan, the watermark behind it, commit
* `query_server/query/src/stream/{offset_tracker/mod,watermark_tracker,state_store/memory}.rs`
* `query_server/query/src/data_source/stream/tskv/provider.rs` — the rows of a range of offsets
* `query_server/query/src/extension/physical/plan_node/{watermark,state_save,state_restore}.rs`
* `query_server/query/src/extension/physical/optimizer_rule/add_state_store.rs` — where states are kept

Simplifications: an aggregate is some function of the values of a group, so the state of a group is the list of its values
and merging is appending.  The state store keeps rows instead of batches of rows, and is one for all partitions (the groups
are spread by a hash, always the same way).  A row of the source has a group (what the query groups by, windows included)
and a value; the filter of the query is left out.  How the rows of a run are spread over partitions and batches, in which
order the partitions come to their end, and where a run fails, is up to the environment.  The configured delay does not
occur: `update_watermark` ignores it (watermark_tracker.rs:163-169).
-/
namespace Verif.Stream

/-- `i64::MIN`, `i64::MAX`. -/
def minOffset : Int := -9223372036854775808
def maxOffset : Int := 9223372036854775807

/-- A row of a source: the table it is in, the event time as stored, the group, the value. -/
structure Row (K V : Type) where
  src : Nat
  time : Int
  key : K
  val : V
deriving DecidableEq, Repr

/-- A group with the values merged so far. -/
abbrev Group (K V : Type) := K × List V

/-- A stream query: its sources, how many nanoseconds the unit of the event time of a source has, and the columns of type
`Timestamp(Nanosecond)` in the states (group columns and states of aggregates). -/
structure Query (K V : Type) where
  srcs : List Nat
  unit : Nat → Nat
  cols : List (Group K V → Int)

variable {K V : Type} [DecidableEq K]

/-! ## What is read -/

/-- `OffsetTracker` (offset_tracker/mod.rs:10-14), `WatermarkTracker`, `MemoryStateStore` (memory.rs:40-48), and the watermark
in the table `sql_watermark_persister`. -/
structure St (K V : Type) where
  done : AMap Nat Int
  avail : AMap Nat Int
  mark : Int
  committed : List (Group K V)
  uncommitted : List (Group K V)
  saved : Option Int

/-- A query that was never run (watermark_tracker.rs:48-49, execution/stream/mod.rs:118-130). -/
def St.new : St K V := ⟨.empty, .empty, minOffset, [], [], none⟩

/-- `update_available_offset` (offset_tracker/mod.rs:29-41). -/
def St.offer (s : St K V) (src : Nat) (offset : Int) : St K V :=
  if offset > (s.done.get src).getD minOffset then { s with avail := s.avail.set src offset } else s

/-- `update_available_offsets` (execution/stream/mod.rs:188-200) with `latest_available_offset` (provider.rs:72-80), which is
always `i64::MAX`. -/
def St.offerAll (q : Query K V) (s : St K V) : St K V := q.srcs.foldl (fun s src => s.offer src maxOffset) s

/-- `available_offsets` (offset_tracker/mod.rs:43-60): where the range of a source begins. -/
def St.start (s : St K V) (src : Nat) : Option Int := (s.done.get src).map (· + 1)

/-- `construct_filters` (provider.rs:36-56): both bounds are taken for nanoseconds.  A source without a range gives no rows
(provider.rs:106-111). -/
def St.wants (q : Query K V) (s : St K V) (r : Row K V) : Bool :=
  match s.avail.get r.src with
  | none => false
  | some stop =>
    let t := r.time * q.unit r.src
    decide (t < stop) && (match s.start r.src with | none => true | some b => decide (b ≤ t))

/-- The rows that a run reads. -/
def St.reads (q : Query K V) (s : St K V) (table : List (Row K V)) : List (Row K V) := table.filter ((s.offerAll q).wants q)

/-! ## The watermark -/

/-- `max_timestamp` (watermark.rs:254-285): as stored, whatever the unit. -/
def maxTime : List (Row K V) → Option Int
  | [] => none
  | r :: rs => match maxTime rs with
    | none => some r.time
    | some t => some (max r.time t)

/-- The batches of a partition: what `max_event_time` is at the end (watermark.rs:187-218, 224-238): every batch with rows
replaces what the batches before it said. -/
def partMark (bs : List (List (Row K V))) : Option Int := bs.foldl (fun m b => (maxTime b).or m) none

/-- `update_watermark` (watermark_tracker.rs:163-169) by the partitions, in the order in which they end. -/
def markAfter (m : Int) (parts : List (List (List (Row K V)))) : Int := parts.foldl (fun m p => (partMark p).getD m) m

/-! ## States -/

/-- Values are added to their group. -/
def addGroup (m : List (Group K V)) (g : Group K V) : List (Group K V) :=
  match m with
  | [] => [g]
  | h :: m => if h.1 = g.1 then (h.1, h.2 ++ g.2) :: m else h :: addGroup m g

/-- The partial merge of the aggregation above `StateRestoreExec` (add_state_store.rs:64-82): the states of the store, and what
the rows give.  `AppendStream` hands out the states from the last to the first (state_restore.rs:131-133). -/
def merged (states : List (Group K V)) (rows : List (Row K V)) : List (Group K V) :=
  (states.reverse ++ rows.map fun r => (r.key, [r.val])).foldl addGroup []

/-- `create_watermark_predicate` with `>` and `OR` (state_save.rs:56-61, 318-365): no such column, no filter. -/
def Query.keeps (q : Query K V) (w : Int) (g : Group K V) : Bool := q.cols.isEmpty || q.cols.any fun c => decide (c g > w)

/-- `create_watermark_predicate` with `<=` and `AND` (state_save.rs:62-67). -/
def Query.expired (q : Query K V) (w : Int) (g : Group K V) : Bool := !q.cols.isEmpty && q.cols.all fun c => decide (c g ≤ w)

/-- `MemoryStateStore::expire` (memory.rs:60-86): what is left, and what is returned (taken from what is left). -/
def expire (p : Group K V → Bool) (l : List (Group K V)) : List (Group K V) × List (Group K V) :=
  let left := l.filter fun g => !p g
  (left, left.filter p)

/-! ## A run -/

/-- How a run ends: well; with an error while the first `n` partitions were read to their end; with an error behind the first
`n` states written to the store; with an error of the sink, behind the commit of the store; with an error when the
watermark is written. -/
inductive Ending where
  | ok
  | reading (n : Nat)
  | saving (n : Nat)
  | writing
  | persisting
deriving DecidableEq, Repr

/-- `OffsetTracker::commit` (offset_tracker/mod.rs:62-73): the same offset for all sources. -/
def St.commit (s : St K V) (offset : Int) : St K V :=
  { s with done := s.avail.entries.foldl (fun d e => d.set e.1 (min offset e.2)) s.done, avail := .empty }

/-- `UpdateStream` (state_save.rs:186-236) up to its end, on the merged states: what is handed on, and the store. -/
def St.save (q : Query K V) (s : St K V) (rows : List (Row K V)) : St K V × List (Group K V) :=
  let out := (merged s.committed rows).filter (q.keeps s.mark)
  let left := (expire (q.expired s.mark) (s.uncommitted ++ out)).1
  ({ s with committed := left, uncommitted := [] }, out)

/-- `execute` (execution/stream/mod.rs:280-373): the state behind the run, and what the sink gets (`none` if the run fails before
that, or there is nothing to do). -/
def St.run (q : Query K V) (s : St K V) (parts : List (List (List (Row K V)))) (e : Ending) : St K V × Option (List (Group K V)) :=
  let s := s.offerAll q
  if s.avail.entries.isEmpty then (s, none)
  else
    let rows := parts.flatten.flatten
    match e with
    | .reading n => ({ s with mark := markAfter s.mark (parts.take n) }, none)
    | .saving n =>
      let out := (merged s.committed rows).filter (q.keeps s.mark)
      ({ s with uncommitted := s.uncommitted ++ out.take n, mark := markAfter s.mark parts }, none)
    | .writing => ({ (s.save q rows).1 with mark := markAfter s.mark parts }, none)
    | e =>
      let (t, out) := s.save q rows
      let m := markAfter s.mark parts
      if m > s.mark then
        let t := { t with mark := m }.commit m
        if e = .persisting then (t, some out) else ({ t with saved := some m }, some out)
      else (t, some out)

/-- A restart (watermark_tracker.rs:41-154 with `is_old`, execution/stream/mod.rs:118-130): all but the saved watermark is new. -/
def St.restart (s : St K V) : St K V := { St.new with mark := s.saved.getD minOffset, saved := s.saved }

/-! ## The table of watermarks -/

/-- A `WatermarkTracker` (watermark_tracker.rs:36-40). -/
structure Tracker where
  mark : Int
  id : Nat
  stamp : Int
deriving DecidableEq, Repr

/-- The table `sql_watermark_persister`: there are no tags, so a row is what was last written with its time. -/
abbrev Marks := AMap Int (Nat × Int)

/-- `WatermarkTracker::commit` (watermark_tracker.rs:173-222). -/
def Tracker.commit (t : Tracker) (m : Marks) : Marks := m.set t.stamp (t.id, t.mark)

/-- `WatermarkTracker::try_new` with `is_old` (watermark_tracker.rs:48-154): the first row of the query. -/
def Tracker.restore (m : Marks) (id : Nat) (now : Int) : Tracker :=
  match m.entries.find? fun e => decide (e.2.1 = id) with
  | some e => ⟨e.2.2, id, e.1⟩
  | none => ⟨minOffset, id, now⟩

/-! ## Histories -/

/-- What happens. -/
inductive Op (K V : Type) where
  | write (rows : List (Row K V))
  | run (parts : List (List (List (Row K V)))) (e : Ending)
  | restart

/-- The query, its sources, the rows that were read by runs with a result (of the last restart and before), and the last
result. -/
structure Sys (K V : Type) where
  st : St K V
  table : List (Row K V)
  read : List (Row K V)
  out : List (Group K V)

/-- The beginning. -/
def Sys.new : Sys K V := ⟨.new, [], [], []⟩

/-- A step. -/
def Sys.step (q : Query K V) (s : Sys K V) : Op K V → Sys K V
  | .write rows => { s with table := s.table ++ rows }
  | .restart => { s with st := s.st.restart }
  | .run parts e =>
    match s.st.run q parts e with
    | (t, none) => { s with st := t }
    | (t, some out) => { s with st := t, read := s.read ++ parts.flatten.flatten, out := out }

/-- The rows of a run are those of its ranges, however spread. -/
def Op.Fits (q : Query K V) (s : Sys K V) : Op K V → Prop
  | .run parts _ => parts.flatten.flatten.Perm (s.st.reads q s.table)
  | _ => True

/-- A history. -/
def Sys.steps (q : Query K V) (s : Sys K V) (ops : List (Op K V)) : Sys K V := ops.foldl (Sys.step q) s

/-- Something holds at every step of a history. -/
def Along (q : Query K V) (P : Sys K V → Op K V → Prop) : Sys K V → List (Op K V) → Prop
  | _, [] => True
  | s, op :: ops => P s op ∧ Along q P (s.step q op) ops

end Verif.Stream
