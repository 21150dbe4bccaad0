import Verif.Tasks.Done
import Verif.Tasks.Witness

/-!
# Tasks: executions that meet the hypotheses
-/
namespace Verif.Tasks

instance (o : Op) (t d : Str) : Decidable (o.hits t d) :=
  match o with
  | .dropTenant t' => inferInstanceAs (Decidable (t' = t))
  | .dropDb t' d' => inferInstanceAs (Decidable (t' = t ∧ d' = d))
  | .dropTable t' d' _ => inferInstanceAs (Decidable (t' = t ∧ d' = d))

instance (o : Op) : Decidable o.plain :=
  match o with
  | .dropTenant t => inferInstanceAs (Decidable ('-' ∉ t))
  | .dropDb t d => inferInstanceAs (Decidable ('-' ∉ t ∧ '-' ∉ d))
  | .dropTable t d b => inferInstanceAs (Decidable ('-' ∉ t ∧ '-' ∉ d ∧ '-' ∉ b))

instance (e : Step) (t d : Str) : Decidable (e.drops t d) :=
  match h : e.dropOp with
  | none => isFalse (by rintro ⟨o, ho, _⟩; rw [h] at ho; cases ho)
  | some o => if hh : o.hits t d then isTrue ⟨o, h, hh⟩
    else isFalse (by rintro ⟨p, hp, hq⟩; rw [h] at hp; cases hp; exact hh hq)

instance (e : Step) (t d : Str) : Decidable (e.recovers t d) :=
  match h : e.recoverOp with
  | none => isFalse (by rintro ⟨o, ho, _⟩; rw [h] at ho; cases ho)
  | some o => if hh : o.hits t d then isTrue ⟨o, h, hh⟩
    else isFalse (by rintro ⟨p, hp, hq⟩; rw [h] at hp; cases hp; exact hh hq)

instance (e : Step) : Decidable e.plain :=
  decidable_of_iff ((∀ o ∈ e.dropOp.toList, o.plain) ∧ ∀ o ∈ e.recoverOp.toList, o.plain) (by
    unfold Step.plain
    simp only [Option.mem_toList, Option.mem_def]
    exact ⟨fun h o ho => ho.elim (h.1 o) (h.2 o), fun h => ⟨fun o ho => h o (Or.inl ho), fun o ho => h o (Or.inr ho)⟩⟩)

instance (e : Step) : Decidable e.calm := by
  cases e <;> first | exact isTrue trivial | exact isFalse id

instance (e : Step) : Decidable e.hears := by
  cases e <;> first | exact isTrue trivial | exact isFalse id

deriving instance DecidableEq for Event

/-- C168_kept: another database is dropped, at once and after a failure, while the nodes start again. -/
example :
    let pre := setup ++ [.createDb 0 ['a'] ['e']]
    let es := [.dropDb 1 ['a'] ['e'] (some 5) false .ok, .dropDb 1 ['a'] ['e'] none false (.fail [])] ++ flush 0 ++
      [.restart 1, .unreachable 0] ++ flush 1 ++ [.tick 7000000000, .retry 1 ['a', '-', 'e'] .ok, .fire 0 ['a', '-', 'e'] .ok]
    (∀ e ∈ pre ++ es, ¬ e.drops ['a'] ['d'] ∧ ¬ e.recovers ['a'] ['d']) ∧
      ((State.init 0).run pre).db ['a'] ['d'] = some ⟨false, [['t']]⟩ ∧
      ((State.init 0).run (pre ++ es)).db ['a'] ['e'] = none := by
  decide +kernel

/-- C169_not_before, C169_recover, C169_stays_partial: dropped after 100 nanoseconds, recovered after 50, and heard of. -/
example :
    let pre := setup
    let es := flush 0 ++ [.tick 50]
    let fs := flush 0 ++ flush 1
    let gs := [.tick 1000, .fire 0 ['a', '-', 'd'] .ok]
    let s := (State.init 0).run pre
    let u := (s.step (.dropDb 0 ['a'] ['d'] (some 100) false .ok)).1.run es
    let r := u.step (.recoverDb 1 ['a'] ['d'] false)
    let v := r.1.run fs
    (∀ e ∈ pre ++ es ++ fs ++ gs, e.plain ∧ ¬ e.drops ['a'] ['d']) ∧ (∀ e ∈ pre ++ es, e.calm) ∧ (∀ e ∈ fs, e.hears) ∧
      u.clock < s.clock + 100 ∧ u.tenant ['a'] = some false ∧ u.db ['a'] ['d'] = some ⟨true, [['t']]⟩ ∧ r.2 = true ∧
      v.clock < s.clock + 100 ∧ (v.node 0).queue = [] ∧ (v.node 1).queue = [] ∧
      (v.run gs).db ['a'] ['d'] = some ⟨false, [['t']]⟩ := by
  decide +kernel

/-- The same without the recovery: the database goes at its time. -/
example :
    let s := (State.init 0).run (setup ++ [.dropDb 0 ['a'] ['d'] (some 100) false .ok])
    let i : Info := Info.mk' 0 (.dropDb ['a'] ['d']) (some 100) 0
    let es : List Step := [.tick 50, .createDb 0 ['a'] ['e'], .restart 1, .dropDb 0 ['a'] ['e'] none false .ok, .tick 50]
    let u := (s.step (.deliver 0)).1.run es
    (s.node 0).queue = [.info i] ∧ s.mark = (0, true) ∧ i.isNew = true ∧ i.status = .schedule ∧ s.clock ≤ i.time ∧
      i.time ≤ u.clock ∧ ['a'] ∈ (u.node 0).cached ∧ u.db ['a'] ['d'] = some ⟨true, [['t']]⟩ ∧
      (u.step (.fire 0 i.name .ok)).1.db ['a'] ['d'] = none := by
  decide +kernel

/-- … and nothing touches the task. -/
example : Spares 0 ['a', '-', 'd']
    (((State.init 0).run (setup ++ [.dropDb 0 ['a'] ['d'] (some 100) false .ok])).step (.deliver 0)).1
    [.tick 50, .createDb 0 ['a'] ['e'], .restart 1, .dropDb 0 ['a'] ['e'] none false .ok, .tick 50] := by
  simp [Spares, Step.spares]

/-- C171: nothing is under way. -/
example :
    let s := (State.init 0).run setup
    (s.tenantMeta 0 ['a']).2 = true ∧ s.db ['a'] ['d'] = some ⟨false, [['t']]⟩ ∧ s.tenant ['a'] = some false ∧
      s.busy (Op.dropDb ['a'] ['d']).name = false ∧ s.busy (Op.dropTable ['a'] ['d'] ['t']).name = false ∧
      s.busy (Op.dropTenant ['a']).name = false := by
  decide +kernel

/-- A recovered database is dropped after all if the node with the mark reads the metadata again before it hears of the
    recovery: the event is lost, and the sleeping task stays. -/
theorem C169_resync_refuted :
    let s := (State.init 0).run (setup ++ [.dropDb 0 ['a'] ['d'] (some 100) false .ok] ++ flush 0 ++ [.tick 50])
    let r := s.step (.recoverDb 1 ['a'] ['d'] false)
    let u := r.1.run ([.resync 0] ++ flush 0 ++ flush 1 ++ [.tick 40])
    r.2 = true ∧ u.db ['a'] ['d'] = some ⟨false, [['t']]⟩ ∧ (u.node 0).queue.isEmpty ∧
      (u.run [.tick 10, .fire 0 ['a', '-', 'd'] .ok]).db ['a'] ['d'] = none := by
  decide +kernel

end Verif.Tasks
