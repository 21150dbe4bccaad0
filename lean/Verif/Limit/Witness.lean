import Verif.Limit.Bound

/-!
# Limits of tenants: examples, and what is false (C165, C166, C167)
-/
namespace Verif.Limit

/-- Settings of one kind: bytes written through the coordinator. -/
def only (b : BucketSet) : RequestSet := ⟨some b, none, none, none, none, none, none, none⟩

/-- Options of a tenant that is limited in that kind. -/
def opts (b : BucketSet) : Options := ⟨none, some ⟨some (only b)⟩, none, false⟩

/-- A cluster in which the tenant `t` has just been created, at clock reading 0. -/
def start (b : BucketSet) : World where
  tenants := put (fun _ => none) "t" (some (opts b))
  remote := put (fun _ => none) "t" (some (Remote.load (only b) 0))
  nodes := fun _ _ => none

theorem start_created (b : BucketSet) :
    World.createTenant ⟨fun _ => none, fun _ => none, fun _ _ => none⟩ "t" (opts b) 0 = some (start b) := rfl

theorem start_fresh (b : BucketSet) (ns : List Nat) : Fresh (start b) "t" .coordDataIn b 0 ns :=
  ⟨⟨opts b, only b, rfl, rfl, rfl⟩, rfl, fun _ _ => .inl rfl⟩

/-- 10 tokens at first, 10 every second, at most 10; nodes may overdraw by 100. -/
def b1 : BucketSet := ⟨⟨some 10, 10, 10, 1000⟩, ⟨some 100, 0⟩⟩

def x1 (i : Nat) (n : Nat) (now : Int) : Call := ⟨i, "t", .coordDataIn n, now, .ok⟩

example : Sane b1.here := ⟨by decide, by decide, fun m h => by cases h; decide, fun m h => by cases h; decide⟩

example : used "t" .coordDataIn ((start b1).run [x1 1 5 1, x1 1 100 2, x1 2 3 3, x1 2 3 1000000000]).2 = 108 := by
  decide +kernel

example : ((start b1).run [x1 1 5 1, x1 1 100 2, x1 2 3 3, x1 2 3 1000000000]).2.map (·.2) =
    [.pass, .pass, .limited, .pass] := by decide +kernel

/-- C165 with the tokens that were given out as the limit is false: nodes overdraw.  105 bytes pass, the nodes
had no tokens at first, the meta server had 10, and no time has passed. -/
theorem C165_strict_refuted :
    ∃ (b : BucketSet) (xs : List Call), (∀ x ∈ xs, x.now = 0) ∧ b.here.initial = 0 ∧
      used "t" .coordDataIn ((start b).run xs).2 > b.remote.initial :=
  ⟨b1, [x1 1 5 0, x1 1 100 0], by decide, rfl, by decide +kernel⟩

/-- C165 is false over changes of other options: `ALTER TENANT t SET comment = …` gives all tokens back.  A write
that is refused passes after the comment has been changed, at the same clock reading. -/
theorem C165_comment_refuted :
    ∃ (b : BucketSet) (x : Call) (w' : World),
      (((start b).run [x, x, x]).2.map (·.2)) = [.pass, .pass, .limited] ∧
      ((start b).run [x, x, x]).1.alter x.node "t" (.setComment "c") 0 = some w' ∧
      ((w'.run [x, x, x]).2.map (·.2)) = [.pass, .pass, .limited] :=
  ⟨⟨⟨some 10, 10, 10, 1000⟩, ⟨some 10, 0⟩⟩, x1 1 9 0, _, by decide +kernel, rfl, by decide +kernel⟩

/-- 100 tokens at first, and no others for a long time; nodes may overdraw by 100. -/
def b2 : BucketSet := ⟨⟨some 100, 100, 100, 1000000⟩, ⟨some 100, 0⟩⟩

/-- C166 is false: a request that asks for as much as the overdraft is refused although all its tokens were given to
the node; and they stay there, so that other nodes are refused, too. -/
theorem C166_equal_refuted :
    ∃ (b : BucketSet) (n : Nat), n ≤ b.remote.initial ∧ ((start b).run [x1 1 n 0, x1 2 1 0]).2.map (·.2) = [.limited, .limited] :=
  ⟨b2, 100, by decide, by decide +kernel⟩

/-- C166 is false: without an overdraft, the first request of every size is refused, although its tokens are given
to the node.  (The node then holds them, and the same request passes the next time.) -/
theorem C166_first_refuted :
    ∃ (b : BucketSet) (n : Nat), n ≤ b.remote.initial ∧
      ((start b).run [x1 1 n 0, x1 1 n 0, x1 1 n 0]).2.map (·.2) = [.limited, .pass, .pass] :=
  ⟨⟨⟨some 100, 100, 100, 1000000⟩, ⟨none, 0⟩⟩, 5, by decide, by decide +kernel⟩

/-- C166 is false for an overdraft near the end of `i64`: the sum wraps, a node with one token is refused two. -/
theorem C166_wrap_refuted :
    ∃ (b : BucketSet), b.here.max = some (2 ^ 63 - 1) ∧ ((start b).run [x1 1 2 0]).2.map (·.2) = [.limited] :=
  ⟨⟨⟨some 100, 100, 100, 1000000⟩, ⟨some (2 ^ 63 - 1), 1⟩⟩, rfl, by decide +kernel⟩

/-- A request that is larger than the overdraft (`C166_large_refuted`). -/
example : ((start b2).run [x1 1 1 0, x1 1 150 0]).2.map (·.2) = [.pass, .pass] ∧
    ((start b2).run [x1 1 101 0, x1 1 101 0]).2.map (·.2) = [.limited, .limited] := by decide +kernel

/-- C166: of the two checks of a write, the first uses up its token although the second refuses the write. -/
theorem C166_half_refuted :
    ∃ (w : World) (n : Nat), (w.checks 1 "t" 0 .ok (writeChecks n)).2 = .limited ∧
      (w.check 1 "t" .coordWrite 0 .ok).2 = .pass ∧
      (((w.checks 1 "t" 0 .ok (writeChecks n)).1).check 1 "t" .coordWrite 0 .ok).2 = .limited := by
  refine ⟨⟨put (fun _ => none) "t" (some ⟨none, some ⟨some ⟨some b2, none, none,
      some ⟨⟨some 2, 0, 1, 1000000⟩, ⟨none, 2⟩⟩, none, none, none, none⟩⟩, none, false⟩),
    put (fun _ => none) "t" (some (Remote.load ⟨some b2, none, none,
      some ⟨⟨some 2, 0, 1, 1000000⟩, ⟨none, 2⟩⟩, none, none, none, none⟩ 0)), fun _ _ => none⟩, 101, ?_⟩
  decide +kernel

/-- C167 is false: a limiter with an interval of zero is accepted; the first request for tokens makes the meta
server panic while it applies the command. -/
theorem C167_interval_refuted :
    ∃ (w w' : World) (l : LimiterSet), w.alter 1 "t" (.setLimiter l) 0 = some w' ∧
      (w'.check 1 "t" (.coordDataIn 1) 0 .ok).2 = .crash :=
  ⟨start b1, _, ⟨some (only ⟨⟨some 100, 100, 100, 0⟩, ⟨some 100, 0⟩⟩)⟩, rfl, by decide +kernel⟩

/-- C167 is false for a negative interval: it is accepted, and the bucket of the meta server is full again a few
milliseconds later, whatever the refill is. -/
theorem C167_negative_refuted :
    ∃ (w w' : World) (l : LimiterSet), w.alter 1 "t" (.setLimiter l) 0 = some w' ∧
      used "t" .coordDataIn (w'.run [x1 1 50 5000000, x1 2 50 10000000, x1 3 50 15000000, x1 4 50 20000000,
        x1 5 50 25000000]).2 = 250 :=
  ⟨start b1, _, ⟨some (only ⟨⟨some 100, 100, 1, -1⟩, ⟨some 51, 0⟩⟩)⟩, rfl, by decide +kernel⟩

/-- C167 is false for nodes that missed entries of the watch log: they read everything again, but not the limits.
Node 2 still refuses what the tenant has been allowed. -/
theorem C167_sync_refuted :
    ∃ (w w' : World) (l : Change), w.alter 1 "t" l 0 = some w' ∧ (w'.tenants "t").map (·.get .coordDataIn |>.isSome) = some false ∧
      ((w'.fullSync 2).check 2 "t" (.coordDataIn 200) 0 .ok).2 = .limited :=
  ⟨((start b1).run [x1 2 1 0]).1, _, .unsetLimiter, rfl, rfl, by decide +kernel⟩

/-- C167 is false for dropped tenants: a node that hears of it keeps the limiter, because the entry is parsed
before its type is looked at. -/
theorem C167_drop_refuted :
    ∃ (w : World), (w.dropTenant "t").tenants "t" = none ∧
      ((((w.dropTenant "t").watch 2 "t" .del).check 2 "t" (.coordDataIn 200) 0 .ok).2 = .limited) :=
  ⟨((start b1).run [x1 2 1 0]).1, rfl, by decide +kernel⟩

/-! ## The hypotheses of the theorems are met -/

/-- Node 1 of the cluster has heard of the settings. -/
def heard (b : BucketSet) : World := (start b).watch 1 "t" (.set (opts b))

example : ((heard b2).check 1 "t" (.coordDataIn 7) 0 .ok).2 = .pass :=
  C166_remote_partial (m := 100) (r := Rate.of b2.remote 0) (b := ⟨0, some 100⟩) rfl rfl rfl (by decide) (by decide) (by decide)
    (by decide) rfl (by decide) (by decide +kernel)

example : (heard b2).check 1 "t" (.coordDataIn 101) 0 .ok = (heard b2, .limited) :=
  C166_large_refuted (b := ⟨0, some 100⟩) (m := 100) rfl rfl rfl (by decide) (by decide) (by decide) _ _

example : ((heard ⟨b2.remote, ⟨none, 9⟩⟩).check 1 "t" (.coordDataIn 7) 0 .down).2 = .pass := by
  rw [C166_local (b := ⟨9, none⟩) rfl rfl (by decide) (by decide)]

theorem heard_fresh : Fresh (heard b2) "t" .coordDataIn b2 0 [1, 2] := by
  refine ⟨⟨opts b2, only b2, rfl, rfl, rfl⟩, rfl, ?_⟩
  intro i hi
  rcases List.mem_cons.mp hi with rfl | hi
  · exact .inr rfl
  · cases List.mem_singleton.mp hi; exact .inl rfl

example : used "t" .coordDataIn ((heard b2).run [x1 1 1 0, x1 2 1 0, x1 1 99 5, x1 2 300 5]).2 ≤ 300 := by
  have h := C165_fresh heard_fresh (T := 5) (xs := [x1 1 1 0, x1 2 1 0, x1 1 99 5, x1 2 300 5])
    ⟨by decide, by decide, fun m h => by cases h; decide, fun m h => by cases h; decide⟩ (by decide) (by decide) (by decide)
  exact Int.le_trans h (by decide)

example : ∃ w', (heard b1).alter 2 "t" (.setLimiter ⟨some (only b2)⟩) 7 = some w' := ⟨_, rfl⟩

example : (heard b1).nodes 1 "t" = some (Local.load (some (only b1))) := rfl

end Verif.Limit
