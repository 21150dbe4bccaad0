import Verif.Retag.Props

/-!
# UPDATE of tags: examples, and what does not hold
-/
namespace Verif.Retag

/-- Two tags, columns 1 and 2. -/
def tags2 (a b : Option Val) (c : Nat) : Option Val := if c = 1 then a else if c = 2 then b else none

/-- Rows are spread over two sets by the first tag. -/
def byTag (k : Key) (_ : Int) : Nat := match get k 1 with | some 0 => 0 | _ => 1

/-- Two series with one row each, in different sets. -/
def two : Cluster :=
  (Cluster.empty 2).run byTag [1, 2] true [.write (tags2 (some 0) (some 5)) 10 100, .write (tags2 (some 3) (some 5)) 10 200]

instance (cols : List Nat) : Decidable (Ordered cols) := inferInstanceAs (Decidable (List.Pairwise _ _))

/-- `C172_changed_partial`, `C173_distinct_partial`, `C174_accepted_partial`, `C174_retry`: an update that is done. -/
example : Ordered [1, 2] ∧
    (two.updateTags [1, 2] true (fun k => get k 1 == some 0) [(2, some 7), (1, none)] {}).2 = some 1 ∧
    (two.updateTags [1, 2] true (fun k => get k 1 == some 0) [(2, some 7), (1, none)] {}).1.rows =
      [([(2, 7)], 10, 100), ([(1, 3), (2, 5)], 10, 200)] ∧
    two.dry [1, 2] [(2, some 7)] (two.scan [1, 2] true fun _ => true) = true ∧
    (two.scan [1, 2] true fun _ => true) = [[(1, 0), (2, 5)], [(1, 3), (2, 5)]] := by
  decide +kernel

/-- `C173_one_set`: an update in one set that is done, and one that is refused (`C174_refused`). -/
example :
    let c := (Cluster.empty 1).run (fun _ _ => 0) [1, 2] false
      [.write (tags2 (some 0) (some 5)) 10 100, .write (tags2 (some 0) (some 5)) 11 100, .write (tags2 (some 3) (some 5)) 10 200]
    (c.updateTags [1, 2] false (fun k => get k 1 == some 0) [(1, some 9)] {}).2 = some 1 ∧
      (c.updateTags [1, 2] false (fun k => get k 1 == some 0) [(1, some 3)] {}).2 = none := by
  decide +kernel

/-- If the scan reads rows, a series with two rows cannot be changed. -/
theorem C172_rows_refuted :
    let c := (Cluster.empty 1).run (fun _ _ => 0) [1, 2] true
      [.write (tags2 (some 0) (some 5)) 10 100, .write (tags2 (some 0) (some 5)) 11 100]
    (c.updateTags [1, 2] true (fun _ => true) [(1, some 9)] {}).2 = none := by
  decide +kernel

/-- Ten tags, all with the value 0. -/
def tags10 (c : Nat) : Option Val := if 1 ≤ c ∧ c ≤ 10 then some 0 else none

/-- A table with tag columns 1 to 10: success is reported, and nothing has changed. -/
theorem C172_order_refuted :
    let cols := [1, 2, 3, 4, 5, 6, 7, 8, 9, 10]
    let c := (Cluster.empty 1).run (fun _ _ => 0) cols false [.write tags10 10 100]
    let r := c.updateTags cols false (fun _ => true) [(1, some 9)] {}
    r.2 = some 1 ∧ r.1 = c ∧ c.rows.map (fun x => get x.1 1) = [some 0] := by
  decide +kernel

/-- A value that is already there cannot be set. -/
theorem C172_same_refuted :
    (two.updateTags [1, 2] false (fun k => get k 1 == some 0) [(1, some 0)] {}).2 = none := by
  decide +kernel

/-- The new tags exist in another set: two rows of the same tags and time. -/
theorem C173_sets_refuted :
    let r := two.updateTags [1, 2] false (fun k => get k 1 == some 0) [(1, some 3)] {}
    r.2 = some 1 ∧ r.1.rows = [([(1, 3), (2, 5)], 10, 100), ([(1, 3), (2, 5)], 10, 200)] := by
  decide +kernel

/-- A row that is written after the update, to replace one: both are there. -/
theorem C173_write_refuted :
    let r := two.updateTags [1, 2] false (fun k => get k 1 == some 0) [(1, some 4)] {}
    let c := r.1.write byTag [1, 2] (tags2 (some 4) (some 5)) 10 300
    r.2 = some 1 ∧ c.rows.filter (fun x => x.1 == [(1, 4), (2, 5)]) =
      [([(1, 4), (2, 5)], 10, 100), ([(1, 4), (2, 5)], 10, 300)] := by
  decide +kernel

/-- One set cannot be reached: an error is reported, and half of the rows have changed. -/
theorem C174_unreachable_refuted :
    let r := two.updateTags [1, 2] false (fun _ => true) [(2, some 9)] { up := fun i => i == 0 }
    r.2 = none ∧ r.1.rows = [([(1, 0), (2, 9)], 10, 100), ([(1, 3), (2, 5)], 10, 200)] := by
  decide +kernel

/-- After a failure, further updates of the table report success and do nothing. -/
theorem C174_busy_refuted :
    let r := two.updateTags [1, 2] false (fun _ => true) [(2, some 9)] { busy := true }
    r.2 = some 2 ∧ r.1 = two := by
  decide +kernel

/-- A row that is written between the dry run and the update makes one set refuse: half of the rows have changed, and trying
    again does not change the others. -/
theorem C174_race_refuted :
    let m := two.scan [1, 2] false fun _ => true
    let c := two.write byTag [1, 2] (tags2 (some 3) (some 9)) 11 300
    let r := c.apply [1, 2] [(2, some 9)] m fun _ => true
    let r' := r.1.apply [1, 2] [(2, some 9)] m fun _ => true
    two.dry [1, 2] [(2, some 9)] m = true ∧ r.2 = false ∧
      r.1.rows = [([(1, 0), (2, 9)], 10, 100), ([(1, 3), (2, 5)], 10, 200), ([(1, 3), (2, 9)], 11, 300)] ∧ r'.1 = r.1 ∧
      r'.2 = false := by
  decide +kernel

end Verif.Retag
