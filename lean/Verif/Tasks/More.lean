import Verif.Tasks.Witness
/-!
# More properties of resource tasks: who is told, who does them, and when
-/
namespace Verif.Tasks

/-- C170: a record of a task that is done is told to no node, and every other record to all. -/
theorem C170_told (s : State) (i : Info) (k : Nat) :
    ((s.write i).node k).queue = if i.status = .successed ∨ i.status = .fatal then (s.node k).queue else (s.node k).queue ++ [.info i] := by
  unfold State.write
  cases h : i.status <;> simp [Status.told]

/-- C170: a scheduled task is recorded for the node that holds the mark. -/
theorem C170_holder (s : State) (n : Nat) (out : Outcome) (i : Info) (hb : s.busy i.name = false) (hs : i.status = .schedule)
    (hm : s.mark.2 = true) : s.add n out i = (s.write { i with node := s.mark.1 }, true) := by
  unfold State.add
  rw [if_neg (by simp [hb])]
  simp only [hs, hm, and_self, if_true, reduceCtorEq, if_false]

/-- C171: DROP DATABASE of a database that is not there succeeds only with IF EXISTS. -/
theorem C171_drop_missing (s : State) (n : Nat) (t d : Str) (after : Option Int) (ifExists : Bool) (out : Outcome)
    (h : s.db t d = none) (hr : (s.dropDb n t d after ifExists out).2 = true) : ifExists = true := by
  have hdb : (s.tenantMeta n t).1.db t d = none := by
    unfold State.tenantMeta
    split
    · exact h
    · split
      · exact h
      · exact h
  unfold State.dropDb at hr
  simp only [hdb, if_true] at hr
  split at hr
  · exact hr
  · cases hr

/-- C168: no table is made in a database that waits for its removal. -/
theorem C168_no_table (s : State) (n : Nat) (t d b : Str) (x : Db) (h : s.db t d = some x) (hx : x.hidden = true) :
    (s.createTable n t d b).2 = false ∧ (s.createTable n t d b).1.db = s.db := by
  have hdb : (s.tenantMeta n t).1.db = s.db := by
    unfold State.tenantMeta
    split
    · rfl
    · split <;> rfl
  unfold State.createTable
  simp only [hdb, h, hx]
  split
  · simp [hdb]
  · simp [hdb]

/-- C170: the pause before the next attempt of a failed task is doubled each time, from one second on. -/
theorem C170_pause (k : Nat) : pause 0 = 1000000000 ∧ pause (k + 1) = 2 * pause k := by
  unfold pause
  constructor
  · rfl
  · rw [Int.pow_succ]; omega

/-- A database that waits: it is hidden, a second node has heard of its task, and no table can be made in it. -/
example :
    let s := (State.init 0).run (setup ++ [.dropDb 0 ['a'] ['d'] (some 100) false .ok])
    (s.db ['a'] ['d']).map Db.hidden = some true ∧ (s.createTable 1 ['a'] ['d'] ['u']).2 = false ∧
      (s.node 1).queue ≠ [] ∧ s.db ['a'] ['x'] = none ∧ (s.dropDb 0 ['a'] ['x'] none true .ok).2 = true ∧
      (s.dropDb 0 ['a'] ['x'] none false .ok).2 = false := by
  decide +kernel

end Verif.Tasks
