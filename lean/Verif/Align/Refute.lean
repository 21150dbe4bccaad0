import Verif.Align.History
import Verif.Compact.ColumnsKeep
/-!
# Reading after changes of the table and compactions: where it fails
-/
namespace Verif.Align

open Verif.Sort Verif.Stats Verif.Schema

/-- The bytes of an ASCII name. -/
def ascii (s : String) : Name := s.toList.map fun c => BitVec.ofNat 8 c.toNat

/-! ## The files of a series, by flushes and a compaction -/

/-- What a flush writes for the series 1 after `k` of the changes. -/
def partOf (t : Table) (l : List Change) (w : Nat × List (Reader.Row Val)) : Compact.Cols.Part Val :=
  ⟨1, (tableAfter t (l.take w.1)).ver, (projOf (tableAfter t (l.take w.1))).filter fun i => decide (i ≠ 0), w.2⟩

/-- The version of the table that a column group has. -/
def versionOf (t : Table) (l : List Change) (v : Nat) : Table :=
  (((List.range (l.length + 1)).map fun k => tableAfter t (l.take k)).find? fun t => decide (t.ver = v)).getD t

/-- A column of the version. -/
def colIn (nm : String → Name) (t : Table) (id : Nat) : Col := toCol nm ((t.cols.find? fun c => decide (c.id = id)).getD ⟨id, "", .time⟩)

/-- A column group that a compaction has written (tsm/writer.rs:352-397, compacted pages keep the columns they had, decoded rows get those
of the newest schema). -/
def groupOf (nm : String → Name) (t : Table) (l : List Change) (d : Compact.Cols.Done Val) : Group :=
  ⟨((0 :: d.ids).map (colIn nm (versionOf t l d.ver))).zipIdx.map fun c => ⟨c.1, c.2⟩,
   d.rows.map fun r => some (.int (BitVec.ofInt 64 r.ts)) :: r.cells⟩

/-- **C99** for files that were flushed with versions of a table and then compacted: a query for all columns of the table can be answered, and
it gets the rows of the compacted file. -/
def C99Full : Prop :=
  ∀ (q : FloatCmp) (nm : String → Name) (t : Table) (l : List Change) (size fuel : Nat) (ws : List (Nat × List (Reader.Row Val)))
    (ds : List (Compact.Cols.Done Val)), Created t → (∀ n, Change.add n .time ∉ l) → ((colsOf nm (tableAfter t l)).map Col.name).Nodup → 1 ≤ size →
    Compact.Cols.Ok (ws.map fun w => Compact.Cols.flushFile [partOf t l w]) →
    Compact.Cols.compact size fuel none (ws.map fun w => Compact.Cols.flushFile [partOf t l w]) = some ds →
    readSeries q none (projOf (tableAfter t l)) (colsOf nm (tableAfter t l)) (colsOf nm (tableAfter t l)) [] [.chunk (ds.map (groupOf nm t l))] =
      some ⟨colsOf nm (tableAfter t l), (Src.chunk (ds.map (groupOf nm t l))).want (colsOf nm (tableAfter t l)) []⟩

/-- A table with the column `a`. -/
def tabA : Table := Table.new [⟨0, "time", .time⟩, ⟨1, "a", .field .integer⟩]

theorem tabA_created : Created tabA := .inr ⟨[("a", .field .integer)], by rfl⟩

/-- ALTER TABLE … ADD FIELD b. -/
def addB : List Change := [.add "b" (.field .integer)]

/-- ALTER TABLE … RENAME COLUMN a TO b. -/
def renameA : List Change := [.rename "a" "b"]

/-- The integer cell. -/
def int (x : Int) : Option Val := some (.int (BitVec.ofInt 64 x))

/-- Two rows before and two rows after the change. -/
def addWs : List (Nat × List (Reader.Row Val)) := [(0, [⟨10, [int 1]⟩, ⟨20, [int 2]⟩]), (1, [⟨30, [int 3, int 4]⟩, ⟨40, [int 5, int 6]⟩])]

/-- Two rows before and two rows after the change. -/
def renameWs : List (Nat × List (Reader.Row Val)) := [(0, [⟨10, [int 1]⟩, ⟨20, [int 2]⟩]), (1, [⟨30, [int 3]⟩, ⟨40, [int 5]⟩])]

/-- What the compaction writes: it copies both column groups. -/
def addDone : List (Compact.Cols.Done Val) :=
  [⟨1, 10, 20, 0, 0, [1], [⟨10, [int 1]⟩, ⟨20, [int 2]⟩]⟩, ⟨1, 30, 40, 1, 1, [1, 2], [⟨30, [int 3, int 4]⟩, ⟨40, [int 5, int 6]⟩]⟩]

/-- What the compaction writes: it copies both column groups. -/
def renameDone : List (Compact.Cols.Done Val) :=
  [⟨1, 10, 20, 0, 0, [1], [⟨10, [int 1]⟩, ⟨20, [int 2]⟩]⟩, ⟨1, 30, 40, 1, 1, [1], [⟨30, [int 3]⟩, ⟨40, [int 5]⟩]⟩]

/-- **C99 is false**: after ALTER TABLE … ADD FIELD and a compaction that copies column groups, no query that asks for the new column
can be answered: the column groups of a chunk have different columns, which is the error `MismatchedSchema`. -/
theorem C99_refuted : ¬ C99Full := by
  intro h
  have := h .ieee ascii tabA addB 2 100 addWs addDone tabA_created (by simp [addB]) (by decide +kernel) (by decide)
    ⟨by decide +kernel, by decide +kernel, by decide +kernel, by decide +kernel, by decide +kernel⟩ (by decide +kernel)
  revert this
  decide +kernel

/-- The same after ALTER TABLE … RENAME COLUMN: the column groups have the same columns, but with different names. -/
theorem C99_rename_refuted : Created tabA ∧
    Compact.Cols.compact 2 100 none (renameWs.map fun w => Compact.Cols.flushFile [partOf tabA renameA w]) = some renameDone ∧
    projOf (tableAfter tabA renameA) = [0, 1] ∧
    readSeries .ieee none [0, 1] (colsOf ascii (tableAfter tabA renameA)) (colsOf ascii (tableAfter tabA renameA)) []
      [.chunk (renameDone.map (groupOf ascii tabA renameA))] = none := by
  refine ⟨tabA_created, ?_, ?_, ?_⟩ <;> decide +kernel

/-- The same file can be read as long as only columns of the first version are asked for. -/
example : readSeries .ieee none [0, 1] (colsOf ascii (tableAfter tabA addB)) ((colsOf ascii (tableAfter tabA addB)).take 2) []
    [.chunk (addDone.map (groupOf ascii tabA addB))] =
      some ⟨(colsOf ascii (tableAfter tabA addB)).take 2, [[int 10, int 1], [int 20, int 2], [int 30, int 3], [int 40, int 5]]⟩ := by decide +kernel

/-! ## An example for the theorems -/

/-- A table with two fields and a tag. -/
def tabH : Table := Table.new [⟨0, "time", .time⟩, ⟨1, "a", .field .integer⟩, ⟨2, "b", .field .integer⟩, ⟨3, "host", .tag⟩]

theorem tabH_created : Created tabH := .inr ⟨[("a", .field .integer), ("b", .field .integer), ("host", .tag)], by rfl⟩

/-- `a` is dropped, `c` is added, `b` becomes `a`. -/
def histH : List Change := [.drop "a", .add "c" (.field .integer), .rename "b" "a"]

/-- The series. -/
def tagH : List (Nat × Val) := [(3, .str (ascii "h1"))]

/-- A file before the changes, a file after two of them, a buffer after all. -/
def writtenH : List Wrote := [⟨0, true, [[int 10, int 1, int 2]]⟩, ⟨2, true, [[int 20, int 3, int 4]]⟩, ⟨3, false, [[int 30, int 5, none, int 6]]⟩]

example : Created tabH ∧ (∀ n, Change.add n .time ∉ histH) ∧ ((colsOf ascii (tableAfter tabH histH)).map Col.name).Nodup ∧
    readSeries .ieee none (projOf (tableAfter tabH histH)) (colsOf ascii (tableAfter tabH histH)) (colsOf ascii (tableAfter tabH histH)) tagH
      (writtenH.map (Wrote.src ascii tabH histH)) =
      some ⟨colsOf ascii (tableAfter tabH histH),
        [[int 10, int 2, some (.str (ascii "h1")), none], [int 20, int 3, some (.str (ascii "h1")), int 4],
         [int 30, int 5, some (.str (ascii "h1")), int 6]]⟩ := by
  refine ⟨tabH_created, by simp [histH], ?_, ?_⟩ <;> decide +kernel

/-! ## Filters -/

/-- **C100**: a filter that is pushed down keeps all rows that match it, whatever was changed. -/
def C100Full : Prop :=
  ∀ (q : FloatCmp) (nm : String → Name) (t : Table) (l : List Change) (tags : List (Nat × Val)) (ws : List Wrote) (e : Expr), Created t →
    (∀ n, Change.add n .time ∉ l) → ((colsOf nm (tableAfter t l)).map Col.name).Nodup → (∀ n ∈ e.cols, n ∈ (colsOf nm (tableAfter t l)).map Col.name) →
    (∀ file, Tame file e) →
    ∃ rows, readSeries q (some e) (projOf (tableAfter t l)) (colsOf nm (tableAfter t l)) (colsOf nm (tableAfter t l)) tags (ws.map (Wrote.src nm t l)) =
        some ⟨colsOf nm (tableAfter t l), rows⟩ ∧
      ∀ r ∈ ws.flatMap fun w => (w.src nm t l).want (colsOf nm (tableAfter t l)) tags, matchesRow q e (colsOf nm (tableAfter t l)) r = true → r ∈ rows

/-- `a` becomes `x`, `b` becomes `a`. -/
def swapH : List Change := [.rename "a" "x", .rename "b" "a"]

/-- `a > 5`. -/
def aOver5 : Expr := .cmp .gt (ascii "a") (int 5)

/-- **C100 is false**: the filter looks for the columns by their names in the schema of the file.  After `a` became `x` and `b` became `a`,
`SELECT … WHERE a > 5` looks at the old column `a` in old files, and loses the row with the value 9. -/
theorem C100_refuted : ¬ C100Full := by
  intro h
  obtain ⟨rows, h1, h2⟩ := h .ieee ascii tabH swapH tagH [⟨0, true, [[int 10, int 1, int 9]]⟩] aOver5 tabH_created (by simp [swapH]) (by decide +kernel)
    (by decide +kernel) (fun _ => trivial)
  have h3 : readSeries .ieee (some aOver5) (projOf (tableAfter tabH swapH)) (colsOf ascii (tableAfter tabH swapH)) (colsOf ascii (tableAfter tabH swapH)) tagH
      ([⟨0, true, [[int 10, int 1, int 9]]⟩].map (Wrote.src ascii tabH swapH)) = some ⟨colsOf ascii (tableAfter tabH swapH), []⟩ := by decide +kernel
  rw [h3] at h1
  simp only [Option.some.injEq, Stream.mk.injEq, true_and] at h1
  subst h1
  have h4 := h2 [int 10, int 1, int 9, some (.str (ascii "h1"))] (by decide +kernel) (by decide +kernel)
  cases h4

/-- Without renaming: `a` is dropped and added again. -/
def againH : List Change := [.drop "a", .add "a" (.field .integer)]

/-- The old values of `a` are not seen, the row with the new value is kept. -/
example : Created tabH ∧ (∀ n, Change.add n .time ∉ againH) ∧ (∀ a b, Change.rename a b ∉ againH) ∧
    ((colsOf ascii (tableAfter tabH againH)).map Col.name).Nodup ∧ (∀ n ∈ aOver5.cols, n ∈ (colsOf ascii (tableAfter tabH againH)).map Col.name) ∧
    (∀ file, Tame file aOver5) ∧
    readSeries .ieee (some aOver5) (projOf (tableAfter tabH againH)) (colsOf ascii (tableAfter tabH againH)) (colsOf ascii (tableAfter tabH againH)) tagH
      ([⟨2, true, [[int 10, int 1, int 9], [int 20, int 1, int 2]]⟩].map (Wrote.src ascii tabH againH)) =
      some ⟨colsOf ascii (tableAfter tabH againH), [[int 10, int 1, some (.str (ascii "h1")), int 9]]⟩ := by
  refine ⟨tabH_created, by simp [againH], by simp [againH], ?_, ?_, fun _ => trivial, ?_⟩ <;> decide +kernel

end Verif.Align
