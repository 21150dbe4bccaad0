import Verif.Write.Replay
/-!
# Where a write stores something else
-/
namespace Verif.Write
open Verif.Schema
open Verif.Stats (Val)
open Verif.Utils (Bytes bytesLe)

/-- The result of a write, as columns and rows. -/
def view (e : Except Err (Table × List (List (Nat × Bytes) × Row))) : Except Err (List Col × List (List (Nat × Bytes) × Row)) :=
  e.map fun p => (p.1.cols, p.2)

/-- The result if there is one. -/
def okD (e : Except Err (Table × List (List (Nat × Bytes) × Row))) : Table × List (List (Nat × Bytes) × Row) :=
  match e with
  | .ok p => p
  | .error _ => (fresh, [])

theorem okD_eq {e : Except Err (Table × List (List (Nat × Bytes) × Row))} {c : List Col} {out : List (List (Nat × Bytes) × Row)}
    (h : view e = .ok (c, out)) : e = .ok ((okD e).1, out) ∧ (okD e).1.cols = c := by
  cases e with
  | error x => cases h
  | ok p => cases h; exact ⟨rfl, rfl⟩

instance : DecidableEq (Except Err (List Col × List (List (Nat × Bytes) × Row))) := fun a b => by
  cases a with
  | error x => cases b with
    | error y => exact if h : x = y then isTrue (by rw [h]) else isFalse (by simp [h])
    | ok y => exact isFalse (by simp)
  | ok x => cases b with
    | error y => exact isFalse (by simp)
    | ok y => exact if h : x = y then isTrue (by rw [h]) else isFalse (by simp [h])

/-- `m,a=x b=1i 5` and `m a="y",b=2i 6`. -/
def mixed : List Line := [⟨"m", [("a", [120#8])], [("b", .int 1#64)], 5#64⟩, ⟨"m", [], [("a", .str [121#8]), ("b", .int 2#64)], 6#64⟩]

/-- The field `a` of the second line has become a tag: the line is stored in the series `a=y`. -/
theorem mixed_out : view (write some false none mixed "m") = .ok ([⟨0, "time", .time⟩, ⟨1, "a", .tag⟩, ⟨2, "b", .field .integer⟩],
    [([(1, [120#8])], ⟨5, [some (.int 1#64)]⟩), ([(1, [121#8])], ⟨6, [some (.int 2#64)]⟩)]) := by decide +kernel

theorem C101_mixed_refuted : ¬ C101Full := by
  intro h
  obtain ⟨h1, h2⟩ := okD_eq mixed_out
  obtain ⟨_, h3⟩ := h some false none mixed "m" _ _ (by simp) (by unfold Distinct; decide) h1
  have := (h3 1 _ _ rfl rfl).allFields ("a", .str [121#8]) (by simp)
  rw [h2] at this
  revert this
  decide

/-- A table with the columns `time` and `a`. -/
def tabA : Table := Table.new [⟨0, "time", .time⟩, ⟨1, "a", .field .integer⟩]

theorem tabA_wf : tabA.WF := by
  have : createTable [("a", .field .integer)] = some tabA := by rfl
  exact createTable_wf this

/-- `m a=1i,b=2i 5`. -/
def twoFields : List Line := [⟨"m", [], [("a", .int 1#64), ("b", .int 2#64)], 5#64⟩]

/-- In strict mode a field the table does not have is dropped without an error. -/
theorem C101_strict_refuted : ¬ (∀ (cur : Table) (ls : List Line) (t : Table) (out : List (List (Nat × Bytes) × Row)), cur.WF →
    Clean (linesOf ls "m") → write some true (some cur) ls "m" = .ok (t, out) →
    ∀ (i : Nat) l p, (linesOf ls "m")[i]? = some l → out[i]? = some p → Stored some t l p) := by
  intro h
  have hv : view (write some true (some tabA) twoFields "m") =
      .ok ([⟨0, "time", .time⟩, ⟨1, "a", .field .integer⟩], [([], ⟨5, [some (.int 1#64)]⟩)]) := by decide +kernel
  obtain ⟨h1, h2⟩ := okD_eq hv
  have := (h tabA twoFields _ _ tabA_wf ⟨by decide, by decide⟩ h1 0 _ _ rfl rfl).allFields ("b", .int 2#64) (by simp)
  rw [h2] at this
  revert this
  decide

/-- `m a="y" 5`. -/
def wrongType : List Line := [⟨"m", [], [("a", .str [121#8])], 5#64⟩]

/-- In strict mode a string is stored in a column of integers. -/
theorem C102_strict_refuted : ¬ C102Full := by
  intro h
  have hv : view (write some true (some tabA) wrongType "m") =
      .ok ([⟨0, "time", .time⟩, ⟨1, "a", .field .integer⟩], [([], ⟨5, [some (.str [121#8])]⟩)]) := by decide +kernel
  obtain ⟨h1, h2⟩ := okD_eq hv
  have := h some true (some tabA) wrongType "m" _ _ (by rintro t ht; cases ht; exact tabA_wf) h1 _ (List.mem_singleton.2 rfl) 0 1 (.str [121#8])
    (by rw [h2]; decide +kernel) rfl
  rw [h2] at this
  revert this
  decide

/-- A table with a tag `a` and a field `b`. -/
def tabTag : Table := Table.new [⟨0, "time", .time⟩, ⟨1, "a", .tag⟩, ⟨2, "b", .field .integer⟩]

theorem tabTag_wf : tabTag.WF := by
  have : createTable [("a", .tag), ("b", .field .integer)] = some tabTag := by rfl
  exact createTable_wf this

/-- In strict mode a field with the name of a tag of the table panics (`unwrap`, row_data.rs:66). -/
theorem C102_strict_panic : view (write some true (some tabTag) wrongType "m") = .error .panic := by decide +kernel

/-- A request that extends the schema never does: the same line is refused. -/
example : view (write some false (some tabTag) wrongType "m") = .error .error := by decide +kernel

/-! ## Replaying -/

/-- `m a=1i 5`. -/
def lineA : List Line := [⟨"m", [], [("a", .int 1#64)], 5#64⟩]

theorem lineA_out : view (write some false none lineA "m") =
    .ok ([⟨0, "time", .time⟩, ⟨1, "a", .field .integer⟩], [([], ⟨5, [some (.int 1#64)]⟩)]) := by decide +kernel

/-- After `RENAME COLUMN a TO b` the write `a=1` is lost: its column is not found, and a row without values is an error. -/
theorem C103_rename_refuted : ¬ C103Full fun x => ∃ a b, x = .rename a b := by
  intro h
  obtain ⟨h1, _⟩ := okD_eq lineA_out
  obtain ⟨out', h2, _⟩ := h some none lineA "m" _ _ [.rename "a" "b"] (by simp) ⟨by decide, by decide⟩ h1 (by simp)
  have : view (write some true (some ([Change.rename "a" "b"].foldl Change.run (okD (write some false none lineA "m")).1)) lineA "m") =
      .error .error := by decide +kernel
  rw [h2] at this
  cases this

/-- After two renamings `a` to `c` and `b` to `a` the value of `a` comes back in the other column. -/
theorem C103_moved : view (write some true (some ([Change.rename "a" "c", .rename "b" "a"].foldl Change.run
      (okD (write some false none twoFields "m")).1)) twoFields "m") =
    .ok ([⟨0, "time", .time⟩, ⟨1, "c", .field .integer⟩, ⟨2, "a", .field .integer⟩], [([], ⟨5, [none, some (.int 1#64)]⟩)]) ∧
    view (write some false none twoFields "m") =
    .ok ([⟨0, "time", .time⟩, ⟨1, "a", .field .integer⟩, ⟨2, "b", .field .integer⟩], [([], ⟨5, [some (.int 1#64), some (.int 2#64)]⟩)]) := by
  decide +kernel

/-- `m a=1i 5` and `m b=2i 6` in one request. -/
def apart : List Line := [⟨"m", [], [("a", .int 1#64)], 5#64⟩, ⟨"m", [], [("b", .int 2#64)], 6#64⟩]

theorem apart_out : view (write some false none apart "m") =
    .ok ([⟨0, "time", .time⟩, ⟨1, "a", .field .integer⟩, ⟨2, "b", .field .integer⟩],
      [([], ⟨5, [some (.int 1#64), none]⟩), ([], ⟨6, [none, some (.int 2#64)]⟩)]) := by decide +kernel

/-- After `DROP a` the whole request is lost, with the values of `b`. -/
theorem C103_drop_refuted : ¬ C103Full fun x => ∃ a, x = .drop a := by
  intro h
  obtain ⟨h1, _⟩ := okD_eq apart_out
  obtain ⟨out', h2, _⟩ := h some none apart "m" _ _ [.drop "a"] (by simp) ⟨by decide, by decide⟩ h1 (by simp)
  have : view (write some true (some ([Change.drop "a"].foldl Change.run (okD (write some false none apart "m")).1)) apart "m") =
      .error .error := by decide +kernel
  rw [h2] at this
  cases this

/-- After `a` is renamed and a new `a` of another type is added, the integer is stored in the new column, of strings. -/
theorem C103_type_refuted : view (write some true (some ([Change.rename "a" "b", .add "a" (.field .string)].foldl Change.run
      (okD (write some false none lineA "m")).1)) lineA "m") =
    .ok ([⟨0, "time", .time⟩, ⟨1, "b", .field .integer⟩, ⟨2, "a", .field .string⟩], [([], ⟨5, [none, some (.int 1#64)]⟩)]) := by
  decide +kernel

/-! ## Examples -/

/-- Two tables, tags in another order, values that are missing in some lines. -/
def several : List Line :=
  [⟨"m", [("t", [120#8]), ("s", [121#8])], [("b", .int 1#64)], 5#64⟩, ⟨"n", [], [("b", .bool true)], 5#64⟩,
    ⟨"m", [("s", [121#8]), ("t", [120#8])], [("a", .float 2#64), ("b", .int 3#64)], 7#64⟩, ⟨"m", [], [("a", .float 4#64)], 6#64⟩]

theorem several_out : Clean (linesOf several "m") ∧ view (write some false none several "m") =
    .ok ([⟨0, "time", .time⟩, ⟨1, "s", .tag⟩, ⟨2, "t", .tag⟩, ⟨3, "a", .field .float⟩, ⟨4, "b", .field .integer⟩],
      [([(1, [121#8]), (2, [120#8])], ⟨5, [none, some (.int 1#64)]⟩),
       ([(1, [121#8]), (2, [120#8])], ⟨7, [some (.float 2#64), some (.int 3#64)]⟩),
       ([], ⟨6, [some (.float 4#64), none]⟩)]) := by
  refine ⟨⟨by decide, by decide⟩, by decide +kernel⟩

/-- The hypotheses of the theorems about replaying: a new column is added, another is renamed, none of the request. -/
example : (∀ n, .drop n ∈ [Change.add "z" .tag, .rename "z" "y"] → ¬ Uses (linesOf several "m") n) ∧
    ∀ n b, .rename n b ∈ [Change.add "z" .tag, .rename "z" "y"] → ¬ Uses (linesOf several "m") n := by
  refine ⟨by simp, ?_⟩
  intro n b h
  simp only [List.mem_cons, reduceCtorEq, Change.rename.injEq, List.not_mem_nil, or_false, false_or] at h
  obtain ⟨rfl, rfl⟩ := h
  unfold Uses
  decide

example : ∀ l ∈ linesOf twoFields "m", ∃ f ∈ l.fields, f.1 ≠ "a" := by decide

end Verif.Write
