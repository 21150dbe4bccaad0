import Verif.Group.Props
/-!
# Groups of three replicas: what the commands do, and where they go wrong (C186–C189)
-/
namespace Verif.Group.Witness
open Verif.Group

/-- Three replicas, vnode `i` on node `i`. -/
def start : State where
  listed := some ⟨1, 1, [⟨1, 1⟩, ⟨2, 2⟩, ⟨3, 3⟩]⟩
  nextId := 10
  nodes := fun n => if n = 1 then some (.running 1 []) else if n = 2 then some (.running 2 []) else if n = 3 then some (.running 3 [])
    else none
  home := fun v => v
  voters := [1, 2, 3]
  learners := []
  leader := 1
  acked := []

theorem start_inv : Inv start := by
  refine ⟨?_, ?_, ?_, ?_, ?_, by decide, by decide, by decide +kernel⟩
  · intro l hl; injection hl with hl; subst hl; decide
  · intro l hl; injection hl with hl; subst hl; exact ⟨⟨1, 1⟩, by decide, rfl, rfl⟩
  · intro l hl; injection hl with hl; subst hl
    intro x hx
    simp only [List.mem_cons, List.not_mem_nil, or_false] at hx
    rcases hx with rfl | rfl | rfl <;> exact ⟨rfl, by decide⟩
  · intro n v log h
    simp only [start] at h ⊢
    split at h
    · injection h with h; injection h with h1 _; omega
    · split at h
      · injection h with h; injection h with h1 _; omega
      · split at h
        · injection h with h; injection h with h1 _; omega
        · cases h
  · intro v hv
    simp only [start, List.mem_cons, List.not_mem_nil, or_false] at hv ⊢
    omega

/-- Every step is done; these take part in changes, and that one leads after them. -/
def fine (q : List Nat) (next : Nat) : Env := ⟨fun _ => .done, q, next⟩

/-- One step goes otherwise. -/
def but (st : Step) (o : Out) (q : List Nat) (next : Nat) : Env := ⟨fun x => if x = st then o else .done, q, next⟩

/-- All nodes answer, everything goes as `env` says, the nodes see `view`. -/
def going (view : State → Option Listing) (env env2 : Env) : Run :=
  ⟨view, fun _ => true, fun _ => env, fun _ _ => env2, fun _ => env⟩

/-- An ADD of a fourth node. -/
def addFour : Run := going fresh (fine [1, 2, 3, 10] 1) (fine [] 1)

/-- The hypotheses of the theorems about ADD are met: vnode 10 on node 4 is listed and votes. -/
example : (addCmd addFour 4 start).2 = .ok () ∧ (addCmd addFour 4 start).1.voters = [10, 1, 2, 3] ∧
    (addCmd addFour 4 start).1.listed = some ⟨1, 1, [⟨1, 1⟩, ⟨2, 2⟩, ⟨3, 3⟩, ⟨10, 4⟩]⟩ :=
  ⟨rfl, by decide +kernel, by decide +kernel⟩

/-- … about REMOVE, here of the recorded leader: vnode 2 is promoted first. -/
def removeOne : Run := ⟨fresh, fun _ => true, fun _ => fine [2, 3] 2, fun _ _ => fine [1, 2, 3] 2, fun _ => fine [1, 2, 3] 2⟩

example : (removeCmd removeOne 1 start).2 = .ok () ∧ (removeCmd removeOne 1 start).1.voters = [2, 3] ∧
    (removeCmd removeOne 1 start).1.listed = some ⟨2, 2, [⟨2, 2⟩, ⟨3, 3⟩]⟩ ∧ (removeCmd removeOne 1 start).1.nodes 1 = some .shut :=
  ⟨rfl, by decide +kernel, by decide +kernel, by decide +kernel⟩

/-- … about PROMOTE at a node. -/
example : start.listed = some ⟨1, 1, [⟨1, 1⟩, ⟨2, 2⟩, ⟨3, 3⟩]⟩ ∧ (1 : Nat) ≠ 2 ∧
    (promote (fine [1, 2] 2) (fun _ => fine [1, 2, 3] 2) (fun _ => true) fresh 1 2 start).2 = .ok () :=
  ⟨rfl, by decide, rfl⟩

/-- Commands and writes with failures, for the theorem about the acknowledged writes. -/
example : durable ([Event.write (going fresh (fine [1, 2] 1) (fine [] 1)) 7, Event.add (going fresh (but .list .failed [1, 2, 3, 10] 1) (fine [] 1)) 4,
      Event.elect 2, Event.remove (going fresh (fine [2, 3] 2) (fine [] 1)) 1].foldl apply start) = true ∧
    ([Event.write (going fresh (fine [1, 2] 1) (fine [] 1)) 7, Event.add (going fresh (but .list .failed [1, 2, 3, 10] 1) (fine [] 1)) 4,
      Event.elect 2, Event.remove (going fresh (fine [2, 3] 2) (fine [] 1)) 1].foldl apply start).acked = [7] :=
  ⟨by decide +kernel, by decide +kernel⟩

/-! ## C186 -/

/-- The group after the ADD of node 4. -/
def four : State := (addCmd addFour 4 start).1

theorem four_inv : Inv four := addCmd_inv rfl start_inv

/-- A second ADD, by a node that does not know of the first: it read the listing at the same time, or its copy lags behind. -/
def addFive : Run := going (fun _ => start.listed) (fine [1, 2, 3, 11] 1) (fine [] 1)

/-- **C186** does not hold for nodes that do not know the listing: two ADDs at a time both succeed, and the first replica is listed, but it
is no member of the group any more. -/
theorem C186_stale_refuted :
    ¬ ∀ (r : Run) (nid : Nat) (s : State), Inv s → (addCmd r nid s).2 = .ok () → Agree (addCmd r nid s).1 := by
  intro h
  obtain ⟨l, hl, hv⟩ := h addFive 5 four four_inv rfl
  have e : (addCmd addFive 5 four).1.listed = some ⟨1, 1, [⟨1, 1⟩, ⟨2, 2⟩, ⟨3, 3⟩, ⟨10, 4⟩, ⟨11, 5⟩]⟩ := by decide +kernel
  have e2 : (addCmd addFive 5 four).1.voters = [11, 1, 2, 3] := by decide +kernel
  rw [e] at hl
  injection hl with hl; subst hl
  have := (hv 10).2 (by decide)
  rw [e2] at this
  exact absurd this (by decide)

/-- The raft leader is vnode 2, the recorded one is vnode 1. -/
def moved : State := elect start 2

theorem moved_inv : Inv moved := elect_inv 2 start_inv

/-- A PROMOTE whose second half fails. -/
def halfPromote : Run := going fresh (fine [2, 3] 3) (but .member .failed [1, 2, 3] 3)

/-- **C186** does not hold for PROMOTE as a command: its second half fails, the request is tried at the next replica, which sees that the
vnode leads and answers that all is well – the group has one voter. -/
theorem C186_promote_refuted :
    ¬ ∀ (r : Run) (v : Nat) (s : State), r.view = fresh → Inv s → (promoteCmd r r.env v s).2 = .ok () →
      Agree (promoteCmd r r.env v s).1 := by
  intro h
  obtain ⟨l, hl, hv⟩ := h halfPromote 3 moved rfl moved_inv rfl
  have e : (promoteCmd halfPromote halfPromote.env 3 moved).1.listed = some ⟨2, 2, [⟨1, 1⟩, ⟨2, 2⟩, ⟨3, 3⟩]⟩ := by decide +kernel
  have e2 : (promoteCmd halfPromote halfPromote.env 3 moved).1.voters = [3] := by decide +kernel
  rw [e] at hl
  injection hl with hl; subst hl
  have := (hv 1).2 (by decide)
  rw [e2] at this
  exact absurd this (by decide)

/-! ## C187 -/

/-- ADD of node 4; REMOVE of its vnode 10, which does not get as far as the listing; ADD of node 4 by a node that knows of neither; a
write; REMOVE of vnode 10 again. -/
def unlucky : List Event :=
  [.add addFour 4,
   .remove (going fresh (but .list .failed [1, 2, 3] 1) (fine [] 1)) 10,
   .add (going (fun _ => start.listed) (fine [1, 2, 11] 1) (fine [] 1)) 4,
   .write (going fresh (fine [1, 2, 11] 1) (fine [] 1)) 7,
   .remove (going fresh (fine [1, 2, 11] 1) (fine [] 1)) 10]

/-- **C187** does not hold for nodes that do not know the listing: node 4 is listed with two vnodes, removing the one destroys the other, and
an acknowledged write is on two of four voters. -/
theorem C187_stale_refuted : ¬ ∀ (s : State) (es : List Event), Inv s → durable (es.foldl apply s) = true := by
  intro h
  have := h start unlucky start_inv
  revert this
  decide +kernel

/-- What is left: vnode 11 votes and is listed, its node has been shut down. -/
example : (unlucky.foldl apply start).voters = [1, 2, 3, 11] ∧ (unlucky.foldl apply start).nodes 4 = some .shut ∧
    (unlucky.foldl apply start).listed = some ⟨1, 1, [⟨1, 1⟩, ⟨2, 2⟩, ⟨3, 3⟩, ⟨11, 4⟩]⟩ ∧
    (unlucky.foldl apply start).nodes 1 = some (.running 1 [7]) ∧ (unlucky.foldl apply start).nodes 3 = some (.running 3 []) :=
  ⟨by decide +kernel, by decide +kernel, by decide +kernel, by decide +kernel, by decide +kernel⟩

/-! ## C188 -/

/-- An ADD that does not get as far as the listing. -/
def halfAdd : Run := going fresh (but .list .failed [1, 2, 3, 10] 1) (fine [] 1)

/-- The group after it: vnode 10 runs on node 4 and votes, it is not listed. -/
def left : State := (addCmd halfAdd 4 start).1

theorem left_inv : Inv left := addCmd_inv rfl start_inv

theorem left_busy : Busy left 4 := ⟨10, [], by decide +kernel⟩

/-- **C188** does not hold for ADD: it fails, and from then on every ADD of the node fails, whatever goes well – the node has a vnode that
votes and that REMOVE cannot name, because it is not listed. -/
theorem C188_add_refuted :
    (addCmd halfAdd 4 start).2 = .error .failed ∧ (∀ r : Run, r.view = fresh → (addCmd r 4 left).2 ≠ .ok ()) ∧
    left.voters = [10, 1, 2, 3] ∧ left.listed = start.listed ∧
    (∀ r : Run, r.view = fresh → removeCmd r 10 left = (left, .error .noVnode)) := by
  refine ⟨rfl, fun r hr => (C188_add_stuck hr left_inv left_busy).1, by decide +kernel, by decide +kernel, ?_⟩
  intro r hr
  have e : r.view left = some ⟨1, 1, [⟨1, 1⟩, ⟨2, 2⟩, ⟨3, 3⟩]⟩ := by rw [hr]; decide +kernel
  simp only [removeCmd, e]
  rfl

/-- The vnode that is not listed has become the leader. -/
def orphan : State := elect left 10

theorem orphan_orphan : Orphan orphan := by
  intro l hl
  have e : orphan.listed = some ⟨1, 1, [⟨1, 1⟩, ⟨2, 2⟩, ⟨3, 3⟩]⟩ := by decide +kernel
  have e0 : orphan.leader = 10 := by decide +kernel
  have e1 : orphan.nodes 1 = some (.running 1 []) := by decide +kernel
  have e2 : orphan.nodes 2 = some (.running 2 []) := by decide +kernel
  have e3 : orphan.nodes 3 = some (.running 3 []) := by decide +kernel
  rw [e] at hl
  injection hl with hl; subst hl
  intro x hx
  rw [e0]
  simp only [List.mem_cons, List.not_mem_nil, or_false] at hx
  rcases hx with rfl | rfl | rfl
  · refine ⟨by decide, fun log => ?_⟩
    simp only [e1]; simp
  · refine ⟨by decide, fun log => ?_⟩
    simp only [e2]; simp
  · refine ⟨by decide, fun log => ?_⟩
    simp only [e3]; simp

/-- **C188** does not hold for the group either: after an ADD that failed, the vnode that is not listed can be elected; then no write is
taken any more, though all nodes run and answer. -/
theorem C188_orphan_refuted :
    orphan = [Event.add halfAdd 4, Event.elect 10].foldl apply start ∧ (∀ v ∈ orphan.voters, alive orphan v = true) ∧
    ∀ (r : Run) (w : Nat), r.view = fresh → ∃ e, writeCmd r w orphan = (orphan, .error e) := by
  refine ⟨rfl, by decide +kernel, ?_⟩
  intro r w hr
  exact (C188_orphan hr orphan_orphan w 0).1

/-- A PROMOTE of vnode 2 whose second half fails. -/
def halfTwo : Run := going fresh (fine [1, 2] 2) (but .member .failed [1, 2, 3] 2)

/-- Everything goes well. -/
def well : Run := going fresh (fine [1, 2, 3] 2) (fine [1, 2, 3] 2)

/-- **C188** does not hold for PROMOTE: it fails half way with one voter left; repeated when everything goes well, it answers that all is
well and leaves the one voter. -/
theorem C188_promote_refuted :
    (promoteCmd halfTwo halfTwo.env 2 start).2 = .error .failed ∧ (promoteCmd halfTwo halfTwo.env 2 start).1.voters = [2] ∧
    (promoteCmd well well.env 2 (promoteCmd halfTwo halfTwo.env 2 start).1).2 = .ok () ∧
    (promoteCmd well well.env 2 (promoteCmd halfTwo halfTwo.env 2 start).1).1.voters = [2] :=
  ⟨rfl, by decide +kernel, rfl, by decide +kernel⟩

/-- A DESTORY that fails at node 3, and the second one. -/
def halfDestroy : Env := but (.drop 3) .failed [1, 2, 3] 1

/-- The hypotheses of the theorem about repeating DESTORY are met: the second replica is destroyed, the leader is alone, all are listed. -/
example : lead halfDestroy 1 start = .ok 1 ∧ (change [1] false halfDestroy.q halfDestroy.next start).isSome ∧
    (destroy halfDestroy fresh 1 start).1.nodes 1 = some (.running 1 []) ∧ (destroy halfDestroy fresh 1 start).1.nodes 2 = some .shut ∧
    (destroy halfDestroy fresh 1 start).1.listed = start.listed ∧
    (destroy (fine [1] 1) fresh 1 (destroy halfDestroy fresh 1 start).1).2 = .ok () :=
  ⟨rfl, by decide +kernel, by decide +kernel, by decide +kernel, by decide +kernel, rfl⟩

/-! ## C189 -/

/-- **C189** does not hold for nodes that do not know the listing: one node is listed with two replicas. -/
theorem C189_stale_refuted :
    ¬ ∀ (s : State) (es : List Event) (l : Listing), Inv s → (es.foldl apply s).listed = some l →
      ∀ x ∈ l.vnodes, ∀ y ∈ l.vnodes, x.node = y.node → x = y := by
  intro h
  have e : ((unlucky.take 3).foldl apply start).listed = some ⟨1, 1, [⟨1, 1⟩, ⟨2, 2⟩, ⟨3, 3⟩, ⟨10, 4⟩, ⟨11, 4⟩]⟩ := by decide +kernel
  have := h start (unlucky.take 3) _ start_inv e ⟨10, 4⟩ (by decide) ⟨11, 4⟩ (by decide) rfl
  revert this
  decide

end Verif.Group.Witness
