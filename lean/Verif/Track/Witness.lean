import Verif.Track.Kill
/-!
# Queries of a node: where the properties fail, and examples
-/
namespace Verif.Track

/-- A query of tenant 1 and user 1 on node 1. -/
def batch (id : Nat) : Info := ⟨id, 1, 1, 1, false⟩
/-- A stream. -/
def stream (id : Nat) : Info := ⟨id, 1, 1, 1, true⟩

instance : DecidableEq (AMap Nat Info) := fun a b => if h : a.entries = b.entries then .isTrue (by cases a; cases b; cases h; rfl) else .isFalse (by rintro rfl; exact h rfl)

/-- **C178, exact, refuted: KILL.**  KILL frees the slot of a query whose result is being read, but the work goes on: with a limit of one,
two queries are at work. -/
theorem C178_killed_refuted : ¬ ∀ (node limit : Nat) (es : List Ev), ((State.init node limit).run es).alive.entries.length ≤ limit := by
  intro h
  have := h 1 2 [.track (batch 1) true, .started 1 .data, .kill (batch 2) 1 true, .track (batch 3) true, .track (batch 4) true]
  revert this
  decide +kernel

/-- **C178, free slots, refuted.**  A client that goes away while its query starts takes a slot with it for good: without any work going
on, all queries are refused, and KILL as well. -/
theorem C178_abandoned_refuted : ¬ ∀ (node limit : Nat) (es : List Ev), 0 < limit →
    ((State.init node limit).run es).alive.entries = [] → ∀ q, (((State.init node limit).run es).track q true).2 = true := by
  intro h
  have := h 1 1 [.track (batch 1) true, .abandon 1] (by decide) (by decide +kernel) (batch 2)
  revert this
  decide +kernel

/-- **C178, free slots, refuted.**  So does a stream that could not be stored. -/
theorem C178_unsaved_refuted : ¬ ∀ (node limit : Nat) (q q' : Info), 0 < limit →
    ((State.init node limit).track q false).2 = false → (((State.init node limit).track q false).1.track q' true).2 = true := by
  intro h
  have := h 1 1 (stream 1) (batch 2) (by decide) (by decide +kernel)
  revert this
  decide +kernel

/-- **C178, free slots, refuted.**  And a stream whose start fails. -/
theorem C178_failed_refuted : ¬ ∀ (node limit : Nat) (es : List Ev), 0 < limit → (∀ id, Ev.abandon id ∉ es) →
    ((State.init node limit).run es).alive.entries = [] → ∀ q, (((State.init node limit).run es).track q true).2 = true := by
  intro h
  have := h 1 1 [.track (stream 1) true, .started 1 .err] (by decide) (by intro id; simp) (by decide +kernel) (batch 2)
  revert this
  decide +kernel

/-- **C179, refuted: reading.**  KILL of a query whose result is being read succeeds and does not stop it. -/
theorem C179_reading_refuted : ¬ ∀ (node limit : Nat) (es : List Ev) (q : Info) (id : Nat),
    (((State.init node limit).run es).killStmt q id true).2 = true → (((State.init node limit).run es).killStmt q id true).1.alive.get id = none := by
  intro h
  have := h 1 2 [.track (batch 1) true, .started 1 .data] (batch 2) 1 (by decide +kernel)
  revert this
  decide +kernel

/-- **C179, refuted: no slot.**  When all slots are taken, KILL is refused, and so no query can be stopped. -/
theorem C179_full_refuted : ¬ ∀ (node limit : Nat) (es : List Ev) (q : Info) (id : Nat),
    (((State.init node limit).run es).queries.get id).isSome = true → (((State.init node limit).run es).killStmt q id true).2 = true := by
  intro h
  have := h 1 1 [.track (stream 1) true, .started 1 .data] (batch 2) 1 (by decide +kernel)
  revert this
  decide +kernel

/-- **C179, refuted: it comes back.**  If the removal from the meta service fails, KILL succeeds, and the stream runs again after a
restart. -/
theorem C179_returns_refuted : ¬ ∀ (node limit : Nat) (es : List Ev) (q : Info) (id : Nat) (gone : Bool) (ok : Nat → Bool),
    (((State.init node limit).run es).killStmt q id gone).2 = true →
    ((((State.init node limit).run es).killStmt q id gone).1.restart ok).alive.get id = none := by
  intro h
  have := h 1 2 [.track (stream 1) true, .started 1 .data] (batch 2) 1 false (fun _ => true) (by decide +kernel)
  revert this
  decide +kernel

/-- **C180, refuted: KILL.**  A user may kill a query that they cannot see: a query of another tenant and another user. -/
theorem C180_kill_refuted : ¬ ∀ (node limit : Nat) (es : List Ev) (u : User) (tenant kid id : Nat) (q : Info),
    ((State.init node limit).run es).queries.get id = some q → q ∉ visible u tenant [q] →
    (((State.init node limit).run es).killStmt ⟨kid, tenant, u.id, node, false⟩ id true).2 = false := by
  intro h
  have := h 1 4 [.track (batch 1) true] ⟨7, false, fun _ => false⟩ 2 9 1 (batch 1) (by decide +kernel) (by decide +kernel)
  revert this
  decide +kernel

/-- **C181, refuted: restart.**  The streams that a node stored may be more than its slots, for it took over those of another node: after a
restart some do not run. -/
theorem C181_restart_refuted : ¬ ∀ (s : State) (ok : Nat → Bool), Keyed s → (∀ x, ok x = true) →
    ∀ q ∈ s.ofNode s.node, (s.restart ok).alive.get q.id = some .job := by
  intro h
  have := h ⟨1, 1, .empty, (AMap.empty.set 1 (stream 1)).set 2 (stream 2), .empty⟩ (fun _ => true) (by
    intro k q hk
    simp only [AMap.get_set] at hk
    split at hk
    · rename_i e; cases hk; exact ⟨e.symm, rfl⟩
    · split at hk
      · rename_i e; cases hk; exact ⟨e.symm, rfl⟩
      · cases hk) (fun _ => rfl) (stream 1) (by decide +kernel)
  revert this
  decide +kernel

/-- **C181, refuted: takeover.**  Of a node whose streams do not find slots, the streams are taken over and do not run. -/
theorem C181_takeover_refuted : ¬ ∀ (s : State) (d : Nat) (ok : Nat → Bool), (∀ x, ok x = true) →
    ∀ id q, (s.takeover d ok).stored.get id = some q → q.node = s.node → s.stored.get id ≠ some q →
      ((s.takeover d ok).alive.get id).isSome = true := by
  intro h
  have := h ⟨2, 1, .empty, (AMap.empty.set 1 (stream 1)).set 2 (stream 2), .empty⟩ 1 (fun _ => true) (fun _ => rfl) 1
    { stream 1 with node := 2 } (by decide +kernel) (by decide +kernel) (by decide +kernel)
  revert this
  decide +kernel

/-- **C181, refuted: on one node.**  A node that is only taken for dead goes on with its streams, and the one that took them over runs them
too. -/
theorem C181_once_refuted : ¬ ∀ (s t : State) (ok : Nat → Bool), s.stored = t.stored → s.node ≠ t.node →
    (∀ id, s.alive.get id ≠ some .job ∨ t.alive.get id ≠ some .job) →
    ∀ id, (s.takeover t.node ok).alive.get id ≠ some .job ∨ t.alive.get id ≠ some .job := by
  intro h
  have := h ⟨2, 4, .empty, AMap.empty.set 1 (stream 1), .empty⟩
    ⟨1, 4, AMap.empty.set 1 (stream 1), AMap.empty.set 1 (stream 1), AMap.empty.set 1 .job⟩ (fun _ => true) rfl (by decide)
    (fun id => .inl (by simp)) 1
  revert this
  decide +kernel

/-- **C181, refuted: a failure is remembered.**  A stream whose start failed, which its user was told, is started when the node restarts. -/
theorem C181_failed_refuted : ¬ ∀ (node limit : Nat) (q : Info) (ok : Nat → Bool), 0 < limit →
    ((((State.init node limit).track q true).1.started q.id .err).restart ok).alive.get q.id = none := by
  intro h
  have := h 1 1 (stream 1) (fun _ => true) (by decide)
  revert this
  decide +kernel

/-! ## Examples -/

/-- A history with a query that is read to its end, a stream that is killed and a refused query is tame. -/
def sample : List Ev := [.track (stream 1) true, .started 1 .data, .track (batch 2) true, .started 2 .data, .finish 2,
  .kill (batch 3) 1 true, .track (batch 4) true]

example : AllTame (State.init 1 2) sample := by
  refine ⟨fun _ => rfl, fun _ => by simp, fun _ => rfl, ?_, trivial, ⟨by decide, by decide +kernel, by decide +kernel⟩, fun _ => rfl, trivial⟩
  intro h
  simp
example : ((State.init 1 2).run sample).alive.entries = [(4, .starting false)] := by decide +kernel
/-- After a restart a stream runs. -/
example : ((State.init 1 2).run [.track (stream 1) true, .started 1 .data]).ofNode 1 = [stream 1] := by decide +kernel
example : (((State.init 1 2).run [.track (stream 1) true, .started 1 .data]).restart fun _ => true).alive.get 1 = some .job := by decide +kernel
/-- Of three queries a user sees their own one of the tenant. -/
example : visible ⟨1, false, fun _ => false⟩ 1 [⟨1, 1, 1, 1, false⟩, ⟨2, 1, 2, 1, false⟩, ⟨3, 2, 1, 1, false⟩] = [⟨1, 1, 1, 1, false⟩] := by
  decide +kernel

end Verif.Track
