import Verif.Tasks.Model

/-!
# Tasks: what does not hold

Each theorem is one execution.
-/
namespace Verif.Tasks

/-- Tenant `a`, and a database `d` with a table `t` (node 0). -/
def setup : List Step :=
  [.createTenant 0 ['a'], .createDb 0 ['a'] ['d'], .createTable 0 ['a'] ['d'] ['t']]

/-- Ten deliveries to node `n`. -/
def flush (n : Nat) : List Step := List.replicate 10 (.deliver n)

/-- Recovering a database may remove it: a drop of table `c` of database `b` is tried again, and its record has been
    replaced by that of database `b-c`, which has the same name. -/
theorem C168_recover_refuted :
    let s := (State.init 0).run
      ([.createTenant 0 ['a'], .createDb 0 ['a'] ['b'], .createTable 0 ['a'] ['b'] ['c'],
        .createDb 0 ['a'] ['b', '-', 'c'], .dropTable 0 ['a'] ['b'] ['c'] false (.fail [])] ++ flush 0 ++
        [.tick 2000000000, .retry 0 ['a', '-', 'b', '-', 'c'] (.fail [])])
    let es := [.recoverDb 0 ['a'] ['b', '-', 'c'] true, .tick 9000000000, .retry 0 ['a', '-', 'b', '-', 'c'] .ok]
    s.db ['a'] ['b', '-', 'c'] = some ⟨false, []⟩ ∧ (s.run es).db ['a'] ['b', '-', 'c'] = none := by
  decide +kernel

/-- The names of tasks of different objects may be equal. -/
theorem C168_names_refuted :
    ¬ ∀ o p : Op, o.name = p.name → o = p := by
  intro h
  exact absurd (h (.dropDb ['a'] ['b', '-', 'c']) (.dropTable ['a'] ['b'] ['c']) (by decide)) (by decide)

/-- A database that was recovered in time is dropped: the task has not yet heard of it. -/
theorem C169_race_refuted :
    let s := (State.init 0).run (setup ++ [.dropDb 0 ['a'] ['d'] (some 100) false .ok] ++ flush 0 ++ [.tick 99])
    let r := s.step (.recoverDb 0 ['a'] ['d'] false)
    r.2 = true ∧ r.1.db ['a'] ['d'] = some ⟨false, [['t']]⟩ ∧
      (r.1.run [.tick 1, .fire 0 ['a', '-', 'd'] .ok]).db ['a'] ['d'] = none := by
  decide +kernel

/-- A database that was recovered in time is dropped, although all nodes have heard of it: node 0 was late, node 1 has
    taken its tasks over, and node 0 still has its own. -/
theorem C169_handover_refuted :
    let s := (State.init 0).run (setup ++ [.createDb 1 ['a'] ['e'], .dropDb 0 ['a'] ['d'] (some 100) false .ok] ++
      flush 0 ++ [.unreachable 0] ++ flush 1)
    let r := s.step (.recoverDb 1 ['a'] ['d'] false)
    let u := r.1.run (flush 0 ++ flush 1)
    r.2 = true ∧ u.db ['a'] ['d'] = some ⟨false, [['t']]⟩ ∧ (u.node 0).queue.isEmpty ∧ (u.node 1).queue.isEmpty ∧
      (u.run [.tick 100, .fire 0 ['a', '-', 'd'] .ok]).db ['a'] ['d'] = none := by
  decide +kernel

/-- A database is recovered after a failed drop, and is dropped by the next attempt. -/
theorem C169_failed_refuted :
    let s := (State.init 0).run (setup ++ [.dropDb 0 ['a'] ['d'] none false (.fail [])] ++ flush 0)
    let r := s.step (.recoverDb 0 ['a'] ['d'] false)
    r.2 = true ∧ r.1.db ['a'] ['d'] = some ⟨false, [['t']]⟩ ∧
      (r.1.run (flush 0 ++ [.tick 2000000000, .retry 0 ['a', '-', 'd'] .ok])).db ['a'] ['d'] = none := by
  decide +kernel

/-- A tenant cannot be recovered by a node that has not cached it. -/
theorem C169_tenant_refuted :
    let s := (State.init 0).run (setup ++ [.dropTenant 0 ['a'] (some 100) false .ok])
    (s.step (.recoverTenant 1 ['a'] false)).2 = false ∧ s.tenant ['a'] = some true := by
  decide +kernel

/-- A drop that is heard of after its time waits for five hundred years (here: one century). -/
theorem C170_late_refuted :
    ((State.init 0).run (setup ++ [.dropDb 0 ['a'] ['d'] (some 100) false .ok, .tick 101] ++ flush 0 ++
      [.tick 3153600000000000000, .fire 0 ['a', '-', 'd'] .ok])).db ['a'] ['d'] = some ⟨true, [['t']]⟩ := by
  decide +kernel

/-- A drop is lost when the node starts again: no node knows of it. -/
theorem C170_restart_refuted :
    let s := (State.init 0).run (setup ++ [.dropDb 0 ['a'] ['d'] (some 100) false .ok] ++ flush 0 ++ [.restart 0])
    (s.node 0).sched.isEmpty ∧ (s.node 0).queue.isEmpty ∧
      (s.run ([.tick 1000] ++ flush 0 ++ [.fire 0 ['a', '-', 'd'] .ok])).db ['a'] ['d'] = some ⟨true, [['t']]⟩ := by
  decide +kernel

/-- The second failure of a drop is not tried again. -/
theorem C170_second_refuted :
    let s := (State.init 0).run (setup ++ [.dropTable 0 ['a'] ['d'] ['t'] false (.fail [])] ++ flush 0 ++
      [.tick 2000000000, .retry 0 ['a', '-', 'd', '-', 't'] .ok])
    let u := s.run ([.createTable 0 ['a'] ['d'] ['t'], .dropTable 0 ['a'] ['d'] ['t'] false (.fail [])] ++ flush 0 ++
      [.tick 1000000000000, .retry 0 ['a', '-', 'd', '-', 't'] .ok])
    let r := u.step (.dropTable 0 ['a'] ['d'] ['t'] false .ok)
    s.db ['a'] ['d'] = some ⟨false, []⟩ ∧ u.db ['a'] ['d'] = some ⟨false, [['t']]⟩ ∧
      r.2 = true ∧ r.1.db ['a'] ['d'] = some ⟨false, [['t']]⟩ := by
  decide +kernel

/-- A node takes over the tasks of another one, meets a name that it has had before, and leaves out all that follow:
    database `e` is not dropped. -/
theorem C170_takeover_refuted :
    let s := (State.init 1).run (setup ++ [.createDb 0 ['a'] ['e'], .dropDb 1 ['a'] ['d'] (some 10) false .ok] ++ flush 1 ++
      [.tick 10, .fire 1 ['a', '-', 'd'] .ok, .createDb 0 ['a'] ['d'], .unreachable 1] ++ flush 0 ++ flush 1 ++
      [.dropDb 0 ['a'] ['e'] (some 100) false .ok, .dropDb 0 ['a'] ['d'] (some 100) false .ok] ++ flush 0 ++ flush 1 ++
      [.unreachable 0] ++ flush 1)
    s.mark = (1, true) ∧
      (s.run [.restart 0, .tick 100, .fire 1 ['a', '-', 'e'] .ok, .fire 1 ['a', '-', 'd'] .ok]).db ['a'] ['e']
        = some ⟨true, []⟩ := by
  decide +kernel

/-- The node that does the tasks has not cached the tenant, which is hidden: the drop fails. -/
theorem C170_tenant_refuted :
    ((State.init 0).run (setup ++ [.resync 0, .dropTenant 1 ['a'] (some 100) false .ok] ++ flush 0 ++
      [.tick 100, .fire 0 ['a'] .ok])).tenant ['a'] = some true := by
  decide +kernel

/-- An old task drops a new database: the database was dropped at once, and created again. -/
theorem C171_ghost_refuted :
    let s := (State.init 0).run (setup ++ [.dropDb 0 ['a'] ['d'] (some 100) false .ok] ++ flush 0)
    let r := s.step (.dropDb 0 ['a'] ['d'] none false .ok)
    let u := r.1.run (flush 0 ++ [.createDb 0 ['a'] ['d'], .createTable 0 ['a'] ['d'] ['u']])
    r.1.db ['a'] ['d'] = none ∧ u.db ['a'] ['d'] = some ⟨false, [['u']]⟩ ∧
      (u.run [.tick 100, .fire 0 ['a', '-', 'd'] .ok]).db ['a'] ['d'] = none := by
  decide +kernel

/-- A drop is answered with success and has done nothing: an earlier one has failed. -/
theorem C171_silent_refuted :
    let s := (State.init 0).run (setup ++ [.dropDb 0 ['a'] ['d'] none false (.fail [])])
    let r := s.step (.dropDb 0 ['a'] ['d'] none false .ok)
    r.2 = true ∧ r.1.db ['a'] ['d'] = some ⟨true, [['t']]⟩ ∧ r.1.read ['a', '-', 'd'] = s.read ['a', '-', 'd'] := by
  decide +kernel

/-- The process ends in the middle of a drop: nobody goes on with it, and every further drop is answered with success
    and does nothing. -/
theorem C171_crash_refuted :
    let s := (State.init 0).run (setup ++ [.createDb 1 ['a'] ['e'], .dropDb 0 ['a'] ['d'] none false .crash,
      .unreachable 0] ++ flush 1 ++ flush 0)
    let r := s.step (.dropDb 1 ['a'] ['d'] none false .ok)
    s.mark = (1, true) ∧ (s.node 1).sched.isEmpty ∧ (s.node 1).failed.isEmpty ∧
      r.2 = true ∧ r.1.db ['a'] ['d'] = some ⟨true, [['t']]⟩ := by
  decide +kernel

/-- A drop of a database is answered with success and has done nothing but hide it: a drop of a table of another
    database has failed, and its task has the same name. -/
theorem C171_collision_refuted :
    let s := (State.init 0).run
      [.createTenant 0 ['a'], .createDb 0 ['a'] ['b'], .createTable 0 ['a'] ['b'] ['c'],
        .createDb 0 ['a'] ['b', '-', 'c'], .dropTable 0 ['a'] ['b'] ['c'] false (.fail [])]
    let r := s.step (.dropDb 0 ['a'] ['b', '-', 'c'] none false .ok)
    r.2 = true ∧ r.1.db ['a'] ['b', '-', 'c'] = some ⟨true, []⟩ := by
  decide +kernel

end Verif.Tasks
