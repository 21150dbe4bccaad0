import Verif.Stream.Agg
/-!
# What stream queries get wrong, and examples for what they get right
-/
namespace Verif.Stream

/-- One source in nanoseconds, groups without a time. -/
def plain : Query Int Nat := ⟨[0], fun _ => 1, []⟩

/-- Groups are intervals of time, given by their begin (`date_bin`). -/
def binned : Query Int Nat := ⟨[0], fun _ => 1, [fun g => g.1]⟩

/-- A source with an event time in milliseconds. -/
def millis : Query Int Nat := ⟨[0], fun _ => 1000000, []⟩

/-- Two sources (`UNION ALL`). -/
def both : Query Int Nat := ⟨[0, 1], fun _ => 1, []⟩

theorem plain_plain : Plain plain := ⟨rfl, rfl⟩

/-- A row of the first source in the group 0. -/
def row (t : Int) (v : Nat) : Row Int Nat := ⟨0, t, 0, v⟩

/-- Do the rows of all runs fit? -/
def fitsAll (q : Query Int Nat) : Sys Int Nat → List (Op Int Nat) → Bool
  | _, [] => true
  | s, .run parts e :: ops =>
    decide (parts.flatten.flatten.Perm (s.st.reads q s.table)) && fitsAll q (s.step q (.run parts e)) ops
  | s, op :: ops => fitsAll q (s.step q op) ops

/-! ## Rows in order -/

/-- Two writes, two runs; the second run has two partitions. -/
def tidy : List (Op Int Nat) := [.write [row 10 1, row 20 2], .run [[[row 10 1, row 20 2]]] .ok, .write [row 30 3, row 25 4]]

def tidyRun : List (List (List (Row Int Nat))) := [[[row 25 4]], [[], [row 30 3]]]

theorem tidy_good : Along plain (fun s op => op.Fits plain s ∧ InOrder s op ∧ Sorted s op) .new (tidy ++ [.run tidyRun .ok]) := by
  refine ⟨⟨trivial, ?_, trivial⟩, ⟨?_, trivial, rfl, ?_⟩, ⟨trivial, ?_, trivial⟩, ⟨?_, trivial, rfl, ?_⟩, trivial⟩ <;>
    (try simp only [InOrder, Op.Fits]) <;> decide +kernel

example : ((Sys.new : Sys Int Nat).steps plain (tidy ++ [.run tidyRun .ok])).read = [row 10 1, row 20 2, row 25 4, row 30 3] ∧
    ((Sys.new : Sys Int Nat).steps plain (tidy ++ [.run tidyRun .ok])).out = [(0, [1, 2, 4, 3])] := by decide +kernel

example : ((Sys.new : Sys Int Nat).steps plain (tidy ++ [.run tidyRun .ok])).read.Perm
    ((Sys.new : Sys Int Nat).steps plain (tidy ++ [.run tidyRun .ok])).table := C142_once_partial plain_plain tidy_good

example : (vals 0 ((Sys.new : Sys Int Nat).steps plain (tidy ++ [.run tidyRun .ok])).out).Perm
    (rowsOf 0 ((Sys.new : Sys Int Nat).steps plain (tidy ++ [.run tidyRun .ok])).table) :=
  C144_table_partial plain_plain rfl tidy_good 0

/-- A failed run, a restart, batches in any order: all rows are read. -/
example : ∀ r ∈ [row 10 1, row 5 2], r ∈ (((Sys.new : Sys Int Nat).steps plain
    [.write [row 10 1, row 5 2], .run [[[row 10 1], [row 5 2]]] (.reading 1), .restart]).step plain (.run [[[row 10 1], [row 5 2]]] .ok)).read :=
  C143_in_time_partial plain_plain (ops := [.write [row 10 1, row 5 2], .run [[[row 10 1], [row 5 2]]] (.reading 1), .restart])
    (by refine ⟨⟨trivial, ?_⟩, ⟨?_, trivial⟩, ⟨trivial, trivial⟩, trivial⟩
        · intro r hr
          rcases List.mem_cons.1 hr with rfl | hr
          · exact ⟨rfl, by decide, fun d h => by cases h⟩
          · rcases List.mem_cons.1 hr with rfl | hr
            · exact ⟨rfl, by decide, fun d h => by cases h⟩
            · cases hr
        · simp only [Op.Fits]; decide +kernel)
    (by decide +kernel)

/-! ## Rows twice, rows never -/

/-- The batch with the earlier row comes last. -/
def untidy : List (Op Int Nat) := [.write [row 10 1, row 5 2], .run [[[row 10 1], [row 5 2]]] .ok, .run [[[row 10 1]]] .ok]

/-- Property C142 does not hold: if the latest row is not in the last batch, it is read twice and counted twice. -/
theorem C142_order_refuted : fitsAll plain .new untidy = true ∧
    ((Sys.new : Sys Int Nat).steps plain untidy).read.count (row 10 1) = 2 ∧
    ((Sys.new : Sys Int Nat).steps plain untidy).out = [(0, [1, 2, 1])] := by decide +kernel

/-- A row, and two runs. -/
def slow : List (Op Int Nat) := [.write [row 1000 1], .run [[[row 1000 1]]] .ok, .run [[[row 1000 1]]] .ok]

/-- Property C142 does not hold: milliseconds are taken for nanoseconds, and the rows are read in every run. -/
theorem C142_unit_refuted : fitsAll millis .new slow = true ∧ ((Sys.new : Sys Int Nat).steps millis slow).read = [row 1000 1, row 1000 1] ∧
    ((Sys.new : Sys Int Nat).steps millis slow).out = [(0, [1, 1])] := by decide +kernel

/-- A row in each source, a run, and the next row in the second source. -/
def pair : List (Op Int Nat) :=
  [.write [⟨0, 100, 0, 1⟩, ⟨1, 50, 0, 2⟩], .run [[[⟨1, 50, 0, 2⟩]], [[⟨0, 100, 0, 1⟩]]] .ok, .write [⟨1, 60, 0, 3⟩]]

/-- Property C142 does not hold: with two sources, the rows of the one are passed over because of the other's. -/
theorem C142_sources_refuted : fitsAll both .new pair = true ∧
    ((Sys.new : Sys Int Nat).steps both pair).st.reads both ((Sys.new : Sys Int Nat).steps both pair).table = [] := by decide +kernel

/-- A row, a run, and a row that is a nanosecond late. -/
def late : List (Op Int Nat) := [.write [row 10 1], .run [[[row 10 1]]] .ok, .write [row 9 2]]

/-- Property C143 does not hold: the row is not read, whatever delay the table of the stream was created with. -/
theorem C143_delay_refuted : fitsAll plain .new late = true ∧
    ((Sys.new : Sys Int Nat).steps plain late).st.reads plain ((Sys.new : Sys Int Nat).steps plain late).table = [] := by decide +kernel

/-! ## Groups -/

/-- Two rows of the minute from 60 to 120, in two runs. -/
def minute : List (Op Int Nat) :=
  [.write [⟨0, 65, 60, 1⟩], .run [[[⟨0, 65, 60, 1⟩]]] .ok, .write [⟨0, 70, 60, 2⟩], .run [[[⟨0, 70, 60, 2⟩]]] .ok]

/-- Property C144 does not hold: a group of an interval of time is dropped with the first rows of later runs; a row that came in
order is read and is in no result. -/
theorem C144_late_refuted : fitsAll binned .new minute = true ∧
    ((Sys.new : Sys Int Nat).steps binned (minute.take 2)).out = [(60, [1])] ∧
    ((Sys.new : Sys Int Nat).steps binned minute).read = [⟨0, 65, 60, 1⟩, ⟨0, 70, 60, 2⟩] ∧
    ((Sys.new : Sys Int Nat).steps binned minute).out = [] := by decide +kernel

/-- The group of an interval to come is complete. -/
example : (vals 60 ((Sys.new : Sys Int Nat).steps binned [.write [⟨0, 10, 60, 1⟩, ⟨0, 11, 0, 3⟩], .run [[[⟨0, 10, 60, 1⟩, ⟨0, 11, 0, 3⟩]]] .ok,
    .write [⟨0, 70, 60, 2⟩], .run [[[⟨0, 70, 60, 2⟩]]] .ok]).out).Perm [1, 2] := by decide +kernel

/-! ## Failures -/

/-- A row; the sink fails; the next runs end well. -/
def broken : List (Op Int Nat) := [.write [row 10 1], .run [[[row 10 1]]] .writing, .run [[[row 10 1]]] .ok, .run [[[row 10 1]]] .ok]

/-- Property C145 does not hold: behind a failure of the sink the row is counted again in every run. -/
theorem C145_sink_refuted : fitsAll plain .new broken = true ∧ ((Sys.new : Sys Int Nat).steps plain (broken.take 3)).out = [(0, [1, 1])] ∧
    ((Sys.new : Sys Int Nat).steps plain broken).out = [(0, [1, 1, 1])] := by decide +kernel

/-- A row; a run fails behind the first state; the next runs end well. -/
def torn : List (Op Int Nat) := [.write [row 10 1], .run [[[row 10 1]]] (.saving 1), .run [[[row 10 1]]] .ok, .write [row 20 2],
  .run [[[row 10 1, row 20 2]]] .ok]

/-- Property C145 does not hold: the states of a failed run stay in the store. -/
theorem C145_states_refuted : fitsAll plain .new torn = true ∧ ((Sys.new : Sys Int Nat).steps plain torn).out = [(0, [1, 1, 1, 2])] := by
  decide +kernel

/-- A row of a group; a run fails when all is read; the next run ends well. -/
def dropped : List (Op Int Nat) := [.write [⟨0, 65, 60, 1⟩], .run [[[⟨0, 65, 60, 1⟩]]] (.reading 1), .run [[[⟨0, 65, 60, 1⟩]]] .ok]

/-- Property C145 does not hold: the watermark of a failed run stays, and the row is late when it is read again. -/
theorem C145_mark_refuted : fitsAll binned .new dropped = true ∧ ((Sys.new : Sys Int Nat).steps binned dropped).out = [] := by decide +kernel

/-! ## Restarts -/

/-- A row, a run, a restart. -/
def again : List (Op Int Nat) := [.write [row 10 1], .run [[[row 10 1]]] .ok, .restart]

/-- Property C146 does not hold: the watermark is that of before, but all rows are read again. -/
theorem C146_again_refuted : fitsAll plain .new again = true ∧ ((Sys.new : Sys Int Nat).steps plain again).st.mark = 10 ∧
    ((Sys.new : Sys Int Nat).steps plain again).st.reads plain ((Sys.new : Sys Int Nat).steps plain again).table = [row 10 1] := by
  decide +kernel

example : (vals 0 (((Sys.new : Sys Int Nat).steps plain late).step plain .restart |>.step plain (.run [[[row 10 1, row 9 2]]] .ok)).out).Perm [1, 2] :=
  C146_result_partial plain_plain rfl ((Sys.new : Sys Int Nat).steps plain late)
    (by decide +kernel) (by simp only [Op.Fits]; decide +kernel) 0

/-- Property C148 does not hold if two queries were created in the same nanosecond. -/
theorem C148_same_refuted : Tracker.restore (commits .empty [⟨5, 1, 100⟩, ⟨7, 2, 100⟩]) 1 200 = ⟨minOffset, 1, 200⟩ := by decide +kernel

example : Tracker.restore (commits .empty [⟨5, 1, 100⟩, ⟨7, 2, 101⟩, ⟨6, 1, 100⟩, ⟨8, 2, 101⟩]) 1 200 = ⟨6, 1, 100⟩ := by decide +kernel

end Verif.Stream
