import Verif.Cluster.Model
/-!
# Model and properties: how a request reaches the leader of a set, and how a scan reads one replica

* `coordinator/src/tskv_executor.rs:71-150` (`TskvLeaderExecutor`)
* `coordinator/src/errors.rs:326-340` (statuses of gRPC)
* `coordinator/src/raft/writer.rs:83-150`
* `coordinator/src/reader/mod.rs:71-176` (`CheckedCoordinatorRecordBatchStream`)

Nodes, network and meta server are a state `σ` with two functions that the theorems quantify over.
-/
namespace Verif.Cluster
open Meta (ReplSet Vnode)

/-- The answers that the loop tells apart: `Ok`, `PreExecution`, `RaftForwardToLeader`, any other error. -/
inductive Reply where
  | ok | pre | forward (vnode : Nat) | fail
deriving DecidableEq

/-- The rest of the world: a request to a node, and `update_new_leader_to_meta` (tskv_executor.rs:132-149), which gives the node of a
vnode or an error. -/
structure World (σ : Type) where
  call : σ → Nat → σ × Reply
  newLeader : σ → Nat → σ × Option Nat

/-- `From<tonic::Status>` (errors.rs:326-340): what becomes of a failed call, with the number of the status. -/
def ofStatus (code : Nat) : Reply := if code = 13 then .fail else .pre

/-- `redirect_request` (tskv_executor.rs:116-130). -/
def World.redirect {σ : Type} (w : World σ) (s : σ) (v : Nat) : σ × Reply :=
  match w.newLeader s v with
  | (s', none) => (s', .fail)
  | (s', some n) => w.call s' n

/-- The loop of `do_request` (tskv_executor.rs:83-113). -/
def World.tryAll {σ : Type} (w : World σ) (leaderNode : Nat) : σ → Reply → List Vnode → σ × Reply
  | s, last, [] => (s, last)
  | s, _, v :: rest =>
    match w.call s v.node with
    | (s', .pre) => w.tryAll leaderNode s' .pre rest
    | (s', .forward nv) =>
      let x := w.redirect s' nv
      if x.2 = .ok then (x.1, .ok) else w.tryAll leaderNode x.1 x.2 rest
    | (s', .ok) => if v.node ≠ leaderNode then ((w.newLeader s' v.id).1, .ok) else (s', .ok)
    | (s', .fail) => (s', .fail)

/-- The order in which replicas are asked (tskv_executor.rs:78-81). -/
def askOrder (r : ReplSet) : List Vnode :=
  Sort.sortBy (fun a b => decide ((if a.node = r.leaderNode then 0 else 1 : Nat) ≤ if b.node = r.leaderNode then 0 else 1)) r.vnodes

/-- `do_request`. -/
def World.doRequest {σ : Type} (w : World σ) (s : σ) (r : ReplSet) : σ × Reply := w.tryAll r.leaderNode s .fail (askOrder r)

/-! ## C122 -/

/-- One for a success. -/
def Reply.ones : Reply → Nat
  | .ok => 1
  | _ => 0

theorem Reply.ones_ne {r : Reply} (h : r ≠ .ok) : r.ones = 0 := by cases r <;> first | exact absurd rfl h | rfl

/-- C122: if a request that is answered with an error was not executed, a request to a set is executed exactly once when it succeeds, and
not at all when it fails, whatever the replicas answer. -/
theorem C122_executed_once_partial {σ : Type} (w : World σ) (count : σ → Nat)
    (hok : ∀ s n s', w.call s n = (s', .ok) → count s' = count s + 1)
    (herr : ∀ s n s' r, w.call s n = (s', r) → r ≠ .ok → count s' = count s)
    (hmeta : ∀ s v, count (w.newLeader s v).1 = count s) (s : σ) (r : ReplSet) :
    ((w.doRequest s r).2 = .ok → count (w.doRequest s r).1 = count s + 1) ∧
    ((w.doRequest s r).2 ≠ .ok → count (w.doRequest s r).1 = count s) := by
  have key : ∀ (vs : List Vnode) (s : σ) (last : Reply), last ≠ .ok →
      count (w.tryAll r.leaderNode s last vs).1 = count s + (w.tryAll r.leaderNode s last vs).2.ones := by
    intro vs
    induction vs with
    | nil => intro s last hl; simp [World.tryAll, Reply.ones_ne hl]
    | cons v rest ih =>
      intro s last _
      unfold World.tryAll
      cases hc : w.call s v.node with
      | mk s' rep =>
        cases rep with
        | ok =>
          simp only
          have := hok _ _ _ hc
          split
          · simp [hmeta, this, Reply.ones]
          · simp [this, Reply.ones]
        | pre =>
          simp only
          rw [ih s' .pre (by decide), herr _ _ _ _ hc (by decide)]
        | fail => simp [herr _ _ _ _ hc (by decide), Reply.ones]
        | forward nv =>
          simp only
          have h0 := herr _ _ _ _ hc (by simp)
          have h1 : count (w.redirect s' nv).1 = count s' + (w.redirect s' nv).2.ones := by
            unfold World.redirect
            have hm := hmeta s' nv
            cases hn : w.newLeader s' nv with
            | mk s1 o =>
              rw [hn] at hm
              cases o with
              | none => simpa [Reply.ones] using hm
              | some n =>
                simp only at hm ⊢
                cases hcc : w.call s1 n with
                | mk s2 r2 =>
                  by_cases e : r2 = .ok
                  · subst e; simp only; rw [hok _ _ _ hcc, hm]; rfl
                  · simp only; rw [herr _ _ _ _ hcc e, hm, Reply.ones_ne e]; rfl
          by_cases e : (w.redirect s' nv).2 = .ok
          · rw [if_pos e]; simp only; rw [h1, h0, e]
          · rw [if_neg e, ih _ _ e, h1, h0, Reply.ones_ne e, Nat.add_zero]
  have := key (askOrder r) s .fail (by decide)
  unfold World.doRequest
  refine ⟨fun e => ?_, fun e => ?_⟩
  · rw [this, e]; rfl
  · rw [this, Reply.ones_ne e]; rfl

/-- C122: in any case a request is executed at most twice for each replica. -/
theorem C122_bounded {σ : Type} (w : World σ) (count : σ → Nat) (hcall : ∀ s n, count (w.call s n).1 ≤ count s + 1)
    (hmeta : ∀ s v, count (w.newLeader s v).1 ≤ count s) (s : σ) (r : ReplSet) :
    count (w.doRequest s r).1 ≤ count s + 2 * r.vnodes.length := by
  have hlen : (askOrder r).length = r.vnodes.length := (Sort.sortBy_perm _ _).length_eq
  rw [← hlen]
  unfold World.doRequest
  have : ∀ (vs : List Vnode) (s : σ) (last : Reply), count (w.tryAll r.leaderNode s last vs).1 ≤ count s + 2 * vs.length := by
    intro vs
    induction vs with
    | nil => intro s last; exact Nat.le_refl _
    | cons v rest ih =>
      intro s last
      rw [List.length_cons]
      unfold World.tryAll
      have h1 := hcall s v.node
      cases hc : w.call s v.node with
      | mk s' rep =>
        rw [hc] at h1
        simp only at h1
        cases rep with
        | ok =>
          simp only
          split
          · have := hmeta s' v.id; simp only; omega
          · simp only; omega
        | pre => simp only; have := ih s' .pre; omega
        | fail => simp only; omega
        | forward nv =>
          simp only
          have h2 : count (w.redirect s' nv).1 ≤ count s' + 1 := by
            unfold World.redirect
            have hm := hmeta s' nv
            cases hn : w.newLeader s' nv with
            | mk s1 o =>
              rw [hn] at hm
              cases o with
              | none => simp only at hm ⊢; omega
              | some n => have := hcall s1 n; simp only at hm ⊢; omega
          split
          · simp only; omega
          · have := ih (w.redirect s' nv).1 (w.redirect s' nv).2; omega
  exact this _ _ _

/-- What a node is to a set. -/
inductive Role where
  | down | follower | leader

/-- C122: while the leader of a set is reachable and the meta server knows its node, every request succeeds, whoever the recorded leader is
and whichever other replicas are down: followers send to the leader, unreachable nodes are skipped. -/
theorem C122_leader_up_succeeds {σ : Type} (w : World σ) (role : Nat → Role) (leader : Vnode)
    (hdown : ∀ s n, role n = .down → (w.call s n).2 = .pre)
    (hfollow : ∀ s n, role n = .follower → (w.call s n).2 = .forward leader.id)
    (hlead : ∀ s n, role n = .leader → (w.call s n).2 = .ok)
    (hmeta : ∀ s, (w.newLeader s leader.id).2 = some leader.node) (hup : role leader.node = .leader)
    (s : σ) (r : ReplSet) (hin : leader ∈ r.vnodes) : (w.doRequest s r).2 = .ok := by
  have hin' : leader ∈ askOrder r := (Sort.sortBy_perm _ _).mem_iff.2 hin
  unfold World.doRequest
  generalize askOrder r = vs at hin'
  generalize Reply.fail = last
  induction vs generalizing s last with
  | nil => cases hin'
  | cons v rest ih =>
    unfold World.tryAll
    cases hc : w.call s v.node with
    | mk s' rep =>
      cases hr : role v.node with
      | down =>
        have := hdown s v.node hr
        rw [hc] at this
        simp only at this
        subst this
        simp only
        rcases List.mem_cons.1 hin' with e | h
        · rw [← e, hup] at hr; cases hr
        · exact ih s' h .pre
      | follower =>
        have := hfollow s v.node hr
        rw [hc] at this
        simp only at this
        subst this
        simp only
        have hred : (w.redirect s' leader.id).2 = .ok := by
          unfold World.redirect
          have hm := hmeta s'
          cases hn : w.newLeader s' leader.id with
          | mk s1 o =>
            rw [hn] at hm
            simp only at hm
            subst hm
            exact hlead s1 leader.node hup
        rw [if_pos hred]
      | leader =>
        have := hlead s v.node hr
        rw [hc] at this
        simp only at this
        subst this
        simp only
        split <;> rfl

/-- The recorded leader is asked first. -/
theorem C122_leader_first (r : ReplSet) (h : ∃ v ∈ r.vnodes, v.node = r.leaderNode) :
    ∃ v rest, askOrder r = v :: rest ∧ v.node = r.leaderNode := by
  obtain ⟨v, hv, e⟩ := h
  have hs := Sort.sortBy_sorted (le := fun a b : Vnode => decide ((if a.node = r.leaderNode then 0 else 1 : Nat) ≤ if b.node = r.leaderNode then 0 else 1))
    (by intro a b c; simp only [decide_eq_true_eq]; omega) (by intro a b; simp only [decide_eq_true_eq]; omega) r.vnodes
  have hm : v ∈ askOrder r := (Sort.sortBy_perm _ _).mem_iff.2 hv
  unfold askOrder at hm ⊢
  revert hs hm
  generalize Sort.sortBy _ r.vnodes = l
  intro hs hm
  cases l with
  | nil => cases hm
  | cons x xs =>
    refine ⟨x, xs, rfl, ?_⟩
    rw [List.pairwise_cons] at hs
    rcases List.mem_cons.1 hm with h | h
    · rw [← h, e]
    · have := hs.1 v h
      rw [if_pos e] at this
      by_cases e' : x.node = r.leaderNode
      · exact e'
      · rw [if_neg e'] at this; simp at this

namespace Ex

/-- A leader on node 1 that executes a request and answers too late (deadline exceeded, status 4), and takes the same request again from the
follower on node 2 that sends to it. -/
def slow : World Nat where
  call := fun s n => if n = 1 then (s + 1, if s = 0 then ofStatus 4 else .ok) else (s, .forward 11)
  newLeader := fun s v => (s, if v = 11 then some 1 else none)

def set2 : ReplSet := ⟨10, 1, 11, [⟨11, 1⟩, ⟨12, 2⟩]⟩

end Ex

/-- C122 is false: a request that times out after it was executed is taken for one that was not executed, and is executed again. -/
theorem C122_executed_once_refuted : Ex.slow.doRequest 0 Ex.set2 = (2, .ok) := by decide +kernel

/-- C122 is false for redirected requests that failed, too: any error of the new leader, even one found while executing, makes the loop go on
with the next replica, which sends the request to the same leader.  Here three replicas: the request is executed twice and reported failed. -/
theorem C122_failed_redirect_refuted : ∃ w : World Nat, ∃ r : ReplSet, w.doRequest 0 r = (2, .fail) ∧
    ∀ s n, (w.call s n).2 ≠ .pre :=
  ⟨⟨fun s n => if n = 1 then (s + 1, .fail) else (s, .forward 11), fun s v => (s, if v = 11 then some 1 else none)⟩,
    ⟨10, 5, 15, [⟨12, 2⟩, ⟨13, 3⟩]⟩, by decide +kernel, by
      intro s n
      simp only
      split <;> simp⟩

/-- The hypotheses of the theorems hold of a world with a leader, a follower and a node that is down. -/
example : ∃ w : World Nat, (∀ s n s', w.call s n = (s', .ok) → s' = s + 1) ∧ (∀ s n s' r, w.call s n = (s', r) → r ≠ .ok → s' = s) ∧
    w.doRequest 0 ⟨10, 3, 13, [⟨11, 1⟩, ⟨12, 2⟩, ⟨13, 3⟩]⟩ = (1, .ok) := by
  refine ⟨⟨fun s n => if n = 2 then (s + 1, .ok) else if n = 3 then (s, ofStatus 14) else (s, .forward 12),
    fun s v => (s, if v = 12 then some 2 else none)⟩, ?_, ?_, by decide +kernel⟩
  · intro s n s' h
    simp only at h
    split at h
    · simp only [Prod.mk.injEq] at h; omega
    · split at h
      · simp only [Prod.mk.injEq] at h; exact absurd h.2 (by decide)
      · simp only [Prod.mk.injEq] at h; exact absurd h.2 (by simp)
  · intro s n s' r h hr
    simp only at h
    split at h
    · simp only [Prod.mk.injEq] at h; exact absurd h.2.symm hr
    · split at h <;> (simp only [Prod.mk.injEq] at h; exact h.1.symm)

/-! ## C123: scanning a set -/

/-- What opening a replica gives. -/
inductive Opened (β : Type) where
  | pre
  | fail
  /-- the batches, `none` being an error in the middle -/
  | stream (items : List (Option β))

/-- Items that the consumer gets: batches until the first error (`none`), which ends the query.  A batch that the limiter of outgoing data
refuses is an error (reader/mod.rs:120-139, 161-170). -/
def deliver {β : Type} (limit : β → Bool) : List (Option β) → List (Option β)
  | [] => []
  | none :: _ => [none]
  | some b :: rest => if limit b then some b :: deliver limit rest else [none]

/-- `poll_inner` (reader/mod.rs:71-176) from the check of the query on: the next replica is tried only when opening one fails before it
executes anything. -/
def scan {β : Type} (openAt : Nat → Opened β) (limit : β → Bool) : List Vnode → List (Option β)
  | [] => [none]
  | v :: rest =>
    match openAt v.id with
    | .pre => if rest.isEmpty then [none] else scan openAt limit rest
    | .fail => [none]
    | .stream items => deliver limit items

/-- `table_vnodes` gives the replicas of a set for `scan`. -/
def scanSet {β : Type} (openAt : Nat → Opened β) (limit : β → Bool) (r : ReplSet) (status : Nat → Status) : List (Option β) :=
  scan openAt limit (candidates r status)

theorem deliver_ok {β : Type} {limit : β → Bool} {items : List (Option β)} (h : none ∉ deliver limit items) :
    deliver limit items = items ∧ none ∉ items := by
  induction items with
  | nil => exact ⟨rfl, by simp⟩
  | cons x xs ih =>
    cases x with
    | none => simp [deliver] at h
    | some b =>
      unfold deliver at h ⊢
      by_cases e : limit b = true
      · rw [if_pos e] at h ⊢
        have h' : none ∉ deliver limit xs := fun hc => h (List.mem_cons_of_mem _ hc)
        obtain ⟨i1, i2⟩ := ih h'
        exact ⟨by rw [i1], by simpa using i2⟩
      · rw [if_neg e] at h; simp at h

/-- C123: a scan of a set that ends without an error delivers the whole stream of exactly one replica, that is not marked broken, and every
replica tried before it had executed nothing.  Batches of two replicas are never mixed, and none is left out. -/
theorem C123_one_replica_or_error {β : Type} (openAt : Nat → Opened β) (limit : β → Bool) (r : ReplSet) (status : Nat → Status)
    (h : none ∉ scanSet openAt limit r status) :
    ∃ before v after items, candidates r status = before ++ v :: after ∧ (∀ x ∈ before, openAt x.id = .pre) ∧
      v ∈ r.vnodes ∧ status v.id ≠ .broken ∧ openAt v.id = .stream items ∧ none ∉ items ∧ scanSet openAt limit r status = items := by
  have key : ∀ vs : List Vnode, none ∉ scan openAt limit vs → ∃ before v after items, vs = before ++ v :: after ∧
      (∀ x ∈ before, openAt x.id = .pre) ∧ openAt v.id = .stream items ∧ none ∉ items ∧ scan openAt limit vs = items := by
    intro vs
    induction vs with
    | nil => intro h; simp [scan] at h
    | cons v rest ih =>
      intro h
      unfold scan at h ⊢
      cases ho : openAt v.id with
      | fail => rw [ho] at h; simp at h
      | stream items =>
        rw [ho] at h
        obtain ⟨d1, d2⟩ := deliver_ok h
        exact ⟨[], v, rest, items, rfl, by simp, ho, d2, d1⟩
      | pre =>
        rw [ho] at h
        simp only at h ⊢
        by_cases e : rest.isEmpty = true
        · rw [if_pos e] at h; simp at h
        · rw [if_neg e] at h ⊢
          obtain ⟨before, v', after, items, h1, h2, h3, h4, h5⟩ := ih h
          refine ⟨v :: before, v', after, items, by rw [h1]; rfl, ?_, h3, h4, h5⟩
          intro x hx
          rcases List.mem_cons.1 hx with rfl | hx
          · exact ho
          · exact h2 x hx
  obtain ⟨before, v, after, items, h1, h2, h3, h4, h5⟩ := key _ h
  have hv : v ∈ candidates r status := by rw [h1]; exact List.mem_append_right _ (List.mem_cons_self ..)
  have hv' := List.mem_of_mem_take hv
  obtain ⟨m1, m2⟩ := List.mem_filter.1 hv'
  exact ⟨before, v, after, items, h1, h2, (Sort.sortBy_perm _ _).mem_iff.1 m1, by simpa using m2, h3, h4, h5⟩

/-- C123: while the leader is not marked broken, it is the replica that is read, if it can be opened. -/
theorem C123_leader_is_read {β : Type} (openAt : Nat → Opened β) (limit : β → Bool) (r : ReplSet) (status : Nat → Status)
    (hids : (r.vnodes.map (·.id)).Nodup) (hl : ∃ v ∈ r.vnodes, v.id = r.leaderVnode) (hst : status r.leaderVnode ≠ .broken)
    (items : List (Option β)) (ho : openAt r.leaderVnode = .stream items) (hn : none ∉ scanSet openAt limit r status) :
    scanSet openAt limit r status = items := by
  obtain ⟨v, hv, e⟩ := hl
  have hs := Sort.sortBy_sorted (le := fun a b : Vnode => decide (readKey r status a ≤ readKey r status b))
    (by intro a b c; simp only [decide_eq_true_eq]; omega) (by intro a b; simp only [decide_eq_true_eq]; omega) r.vnodes
  have hm : v ∈ Sort.sortBy (fun a b : Vnode => decide (readKey r status a ≤ readKey r status b)) r.vnodes :=
    (Sort.sortBy_perm _ _).mem_iff.2 hv
  have hk : readKey r status v = 0 := by unfold readKey; rw [if_pos e]
  have hfirst : ∃ rest, Sort.sortBy (fun a b : Vnode => decide (readKey r status a ≤ readKey r status b)) r.vnodes = v :: rest := by
    have hsub : ∀ x ∈ Sort.sortBy (fun a b : Vnode => decide (readKey r status a ≤ readKey r status b)) r.vnodes, x ∈ r.vnodes :=
      fun x hx => (Sort.sortBy_perm _ _).mem_iff.1 hx
    revert hs hm hsub
    generalize Sort.sortBy _ r.vnodes = l
    intro hs hm hsub
    cases l with
    | nil => cases hm
    | cons x xs =>
      rw [List.pairwise_cons] at hs
      rcases List.mem_cons.1 hm with h | h
      · exact ⟨xs, by rw [h]⟩
      · have h1 := hs.1 v h
        rw [hk] at h1
        simp only [decide_eq_true_eq, Nat.le_zero] at h1
        have hx : x.id = r.leaderVnode := by
          unfold readKey at h1
          by_cases e' : x.id = r.leaderVnode
          · exact e'
          · rw [if_neg e'] at h1
            split at h1 <;> cases h1
        have : x = v := by
          have hxm := hsub x (List.mem_cons_self ..)
          have hp := hids
          rw [List.nodup_iff_pairwise_ne, List.pairwise_map] at hp
          by_cases exv : x = v
          · exact exv
          · exfalso
            have gen : ∀ l : List Vnode, l.Pairwise (fun a b => a.id ≠ b.id) → x ∈ l → v ∈ l → False := by
              intro l
              induction l with
              | nil => intro _ h _; cases h
              | cons y ys ih =>
                intro hp hx' hv'
                rw [List.pairwise_cons] at hp
                rcases List.mem_cons.1 hx' with hx1 | hx1 <;> rcases List.mem_cons.1 hv' with hv1 | hv1
                · exact exv (hx1.trans hv1.symm)
                · subst hx1; exact hp.1 v hv1 (hx.trans e.symm)
                · subst hv1; exact hp.1 x hx1 (e.trans hx.symm)
                · exact ih hp.2 hx1 hv1
            exact gen _ hp hxm hv
        exact ⟨xs, by rw [this]⟩
  obtain ⟨rest, hf⟩ := hfirst
  have hc : ∃ rest', candidates r status = v :: rest' := by
    unfold candidates
    rw [hf, List.filter_cons, if_pos (by simp [e, hst])]
    exact ⟨_, rfl⟩
  obtain ⟨rest', hc⟩ := hc
  unfold scanSet at hn ⊢
  rw [hc] at hn ⊢
  unfold scan at hn ⊢
  rw [e, ho] at hn ⊢
  exact (deliver_ok hn).1

namespace Ex

def set3 : ReplSet := ⟨10, 1, 11, [⟨13, 3⟩, ⟨11, 1⟩, ⟨12, 2⟩]⟩

end Ex

/-- The leader cannot be reached: the other running replica is read. -/
example : scanSet (fun v => if v = 11 then .pre else .stream [some v, some 7]) (fun _ => true) Ex.set3
      (fun v => if v = 13 then .copying else .running) = [some 12, some 7] ∧
    scanSet (fun v => .stream [some v, some 7]) (fun _ => true) Ex.set3 (fun _ => .running) = [some 11, some 7] := by
  refine ⟨by decide +kernel, by decide +kernel⟩

/-- C123 says nothing about availability: "a query fails only if no replica of a set can be read" is false, because only two replicas are
tried, and because an error in the middle of a stream is not followed by another try. -/
theorem C123_third_replica_refuted :
    ∃ openAt : Nat → Opened Nat, openAt 12 = .stream [some 1] ∧
      scanSet openAt (fun _ => true) Ex.set3 (fun v => if v = 12 then .copying else .running) = [none] :=
  ⟨fun v => if v = 12 then .stream [some 1] else .pre, by simp, by decide +kernel⟩

theorem C123_mid_stream_refuted :
    ∃ openAt : Nat → Opened Nat, openAt 12 = .stream [some 1] ∧ scanSet openAt (fun _ => true) Ex.set3 (fun _ => .running) = [some 1, none] :=
  ⟨fun v => if v = 11 then .stream [some 1, none] else .stream [some 1], by simp, by decide +kernel⟩

end Verif.Cluster
