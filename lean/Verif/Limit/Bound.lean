import Verif.Limit.Props

/-!
# Limits of tenants: what passes, what is refused, what a change of the settings does (C165, C166, C167)
-/
namespace Verif.Limit
open Verif.Utils (RateCfg Critical Req rateRun rateStep acquireClosed updateCritical usizeMax rateRun_bound)

theorem refills_bound {K I : Nat} (hI : 0 < I) {D D' T : Int} (h1 : D' ≥ D + (K : Int) * (I : Int))
    (h2 : D' = D ∨ D' ≤ T + I) : K ≤ (T + I - D).toNat / I := by
  rw [Nat.le_div_iff_mul_le hI]
  have e : ((K * I : Nat) : Int) = (K : Int) * (I : Int) := by rw [Int.natCast_mul]
  generalize K * I = z at e
  rw [← e] at h1
  omega

theorem sum_low {ns : List Nat} {f : Nat → Int} {v : Int} (h : ∀ i ∈ ns, v ≤ f i) :
    (ns.length : Int) * v ≤ (ns.map f).sum := by
  induction ns with
  | nil => simp
  | cons a ns ih =>
    simp only [List.map_cons, List.sum_cons, List.length_cons]
    have h1 := h a (by simp)
    have h2 := ih fun i hi => h i (by simp [hi])
    push_cast
    rw [Int.add_mul]
    omega

theorem sum_high {ns : List Nat} {f : Nat → Int} {v : Int} (h : ∀ i ∈ ns, f i ≤ v) :
    (ns.map f).sum ≤ (ns.length : Int) * v := by
  induction ns with
  | nil => simp
  | cons a ns ih =>
    simp only [List.map_cons, List.sum_cons, List.length_cons]
    have h1 := h a (by simp)
    have h2 := ih fun i hi => h i (by simp [hi])
    push_cast
    rw [Int.add_mul]
    omega

/-- C165: whatever is asked on whatever nodes, and whichever answers of the meta server are lost: what passes of
a kind until the clock of the meta server reads `T` is at most what the nodes hold and may overdraw, plus the
balance of the bucket of the meta server, plus one refill for every interval that has passed. -/
theorem C165_limit {w : World} {t : String} {k : Kind} {b : BucketSet} {r : Rate} {ns : List Nat}
    (h : Limited w t k b r ns) (hs : Sane b.here) (hd : ns.Nodup) (hi : 0 < r.interval) {T : Int} {xs : List Call}
    (hx : ∀ x ∈ xs, x.node ∈ ns ∧ x.check.size ≤ 2 ^ 61 ∧ x.now ≤ T) :
    used t k (w.run xs).2 ≤ (ns.map (w.held t k b.here)).sum - ns.length * low b.here + r.balance +
      r.refill * (((T + r.interval * 1000000 - r.deadline).toNat / (r.interval.toNat * 1000000) : Nat) : Int) := by
  obtain ⟨rs, h1, h2, h3⟩ := run_step hs hd T xs h hi hx
  obtain ⟨K, k1, k2, _, k4⟩ := rateRun_bound r.cfg (show 0 < r.interval.toNat by omega) r.crit rs T h1
  have hI : 0 < r.interval.toNat * 1000000 := by omega
  have hIe : ((r.interval.toNat * 1000000 : Nat) : Int) = r.interval * 1000000 := by omega
  have hK : K ≤ (T + r.interval * 1000000 - r.deadline).toNat / (r.interval.toNat * 1000000) := by
    have := refills_bound (K := K) hI (D := r.deadline) (T := T) (D' := (rateRun r.cfg r.crit rs).1.deadline)
      (by rw [Int.natCast_mul]; exact k2) (by rw [Int.natCast_mul]; exact k4)
    rwa [hIe] at this
  generalize (T + r.interval * 1000000 - r.deadline).toNat / (r.interval.toNat * 1000000) = M at hK
  have hlow : (ns.length : Int) * low b.here ≤ (ns.map ((w.run xs).1.held t k b.here)).sum := by
    apply sum_low
    intro i hin
    unfold World.held
    cases hc : (w.run xs).1.count i t k with
    | none => unfold low; dsimp only; omega
    | some o =>
      obtain ⟨c, rfl, hf⟩ := h2.nodes i hin o hc
      exact hf.lo
  have hm : K * r.cfg.refill ≤ M * r.refill := Nat.mul_le_mul_right _ hK
  have hme : ((M * r.refill : Nat) : Int) = r.refill * (M : Int) := by rw [Int.natCast_mul, Int.mul_comm]
  have hb : r.crit.balance = r.balance := rfl
  rw [← hme]
  generalize M * r.refill = Z at hm
  omega

/-- A cluster right after the settings have been made at the clock reading `t₀`: the bucket of the meta server is
new, and so is the bucket of every node that has a limiter. -/
structure Fresh (w : World) (t : String) (k : Kind) (b : BucketSet) (t₀ : Int) (ns : List Nat) : Prop where
  tenant : ∃ o q, w.tenant t = some o ∧ o.request = some q ∧ q.get k = some b
  rate : w.rate t k = some (some (Rate.of b.remote t₀))
  nodes : ∀ i ∈ ns, w.count i t k = none ∨ w.count i t k = some (some (Count.of b.here))

theorem Fresh.limited {w : World} {t : String} {k : Kind} {b : BucketSet} {t₀ : Int} {ns : List Nat}
    (h : Fresh w t k b t₀ ns) (hs : Sane b.here) : Limited w t k b (Rate.of b.remote t₀) ns :=
  ⟨h.tenant, h.rate, fun i hi o ho => by
    rcases h.nodes i hi with e | e
    · rw [e] at ho; cases ho
    · rw [e] at ho; cases ho; exact ⟨_, rfl, Fits.initial hs⟩⟩

/-- C165, in terms of the settings: every node adds its initial tokens and the largest overdraft, the meta server
its initial tokens and a refill for every interval. -/
theorem C165_fresh {w : World} {t : String} {k : Kind} {b : BucketSet} {t₀ : Int} {ns : List Nat}
    (h : Fresh w t k b t₀ ns) (hs : Sane b.here) (hd : ns.Nodup) (hi : 0 < b.remote.interval) {T : Int} {xs : List Call}
    (hx : ∀ x ∈ xs, x.node ∈ ns ∧ x.check.size ≤ 2 ^ 61 ∧ x.now ≤ T) :
    used t k (w.run xs).2 ≤ ns.length * (max 0 b.here.initial + max 0 (b.here.max.getD 0)) + b.remote.initial +
      b.remote.refill * (((T - t₀).toNat / (b.remote.interval.toNat * 1000000) : Nat) : Int) := by
  have hl := C165_limit (h.limited hs) hs hd hi hx
  have e1 : (Rate.of b.remote t₀).refill = b.remote.refill := rfl
  have e2 : (Rate.of b.remote t₀).interval = b.remote.interval := rfl
  have e3 : T + b.remote.interval * 1000000 - (Rate.of b.remote t₀).deadline = T - t₀ := by
    show T + b.remote.interval * 1000000 - (t₀ + b.remote.interval * 1000000) = _
    omega
  have e4 : (Rate.of b.remote t₀).balance ≤ b.remote.initial := by
    unfold Rate.of; exact Nat.min_le_left _ _
  rw [e1, e2, e3] at hl
  have e5 : (ns.map (w.held t k b.here)).sum ≤ (ns.length : Int) * b.here.initial := by
    apply sum_high
    intro i hin
    unfold World.held
    rcases h.nodes i hin with e | e
    · rw [e]
    · rw [e]; exact Int.le_refl _
  have e6 : b.here.initial - low b.here ≤ max 0 b.here.initial + max 0 (b.here.max.getD 0) := by
    unfold low
    cases b.here.max with
    | none => simp only [Option.getD_none]; omega
    | some m => simp only [Option.getD_some]; split <;> omega
  have e7 : (ns.length : Int) * (b.here.initial - low b.here) ≤
      ns.length * (max 0 b.here.initial + max 0 (b.here.max.getD 0)) :=
    Int.mul_le_mul_of_nonneg_left e6 (by omega)
  rw [Int.mul_sub] at e7
  generalize (b.remote.refill : Int) * _ = Z at hl ⊢
  omega

/-! ## Changes of the settings -/

/-- The nodes hear of the options of a tenant. -/
def World.spread (w : World) (t : String) (o : Options) (ns : List Nat) : World :=
  ns.foldl (fun w j => w.watch j t (.set o)) w

theorem count_watch (w : World) (i : Nat) (t : String) (o : Options) (j : Nat) (t' : String) (k : Kind) :
    (w.watch i t (.set o)).count j t' k =
      if j = i ∧ t' = t then some (Local.load o.request k) else w.count j t' k :=
  count_hear w i t _ j t' k

theorem spread_spec (t : String) (o : Options) (ns : List Nat) : ∀ w : World,
    (w.spread t o ns).tenants = w.tenants ∧ (w.spread t o ns).remote = w.remote ∧
    ∀ j k, (w.spread t o ns).count j t k =
      if j ∈ ns then some (Local.load o.request k) else w.count j t k := by
  induction ns with
  | nil => intro w; exact ⟨rfl, rfl, fun j k => by simp [World.spread]⟩
  | cons a ns ih =>
    intro w
    obtain ⟨h1, h2, h3⟩ := ih (w.watch a t (.set o))
    refine ⟨h1, h2, fun j k => ?_⟩
    show ((w.watch a t (.set o)).spread t o ns).count j t k = _
    rw [h3, count_watch]
    by_cases hj : j ∈ ns
    · simp [hj]
    · by_cases ha : j = a
      · simp [ha]
      · simp [hj, ha]

/-- C167: what `ALTER TENANT` leaves: the merged options in the store, a new limiter of the meta server and a new
limiter on the node that ran it, both made from these options.  All other tenants are left alone. -/
theorem C167_alter {w w' : World} {i : Nat} {t : String} {c : Change} {now : Int} (h : w.alter i t c now = some w') :
    ∃ old o, w.tenant t = some old ∧ o = mergeOptions old (c.apply old) ∧ w'.tenants t = some o ∧
      w'.remote t = o.request.map (fun s => Remote.load s now) ∧
      w'.nodes i t = some (Local.load o.request) ∧
      (∀ j, j ≠ i → w'.nodes j = w.nodes j) ∧
      ∀ t', t' ≠ t → w'.tenants t' = w.tenants t' ∧ w'.remote t' = w.remote t' ∧ ∀ j, w'.nodes j t' = w.nodes j t' := by
  unfold World.alter at h
  cases ht : w.tenant t with
  | none => simp [ht] at h
  | some old =>
    simp only [ht] at h
    cases hs : w.setOptions t (mergeOptions old (c.apply old)) now with
    | none => simp [hs] at h
    | some w1 =>
      simp only [hs, Option.some.injEq] at h
      subst h
      have hw1 : w1 = { w.fresh t (mergeOptions old (c.apply old)) now with
          tenants := put w.tenants t (some (mergeOptions old (c.apply old))) } := by
        unfold World.setOptions at hs
        cases hx : w.tenants t with
        | none => simp [hx] at hs
        | some o =>
          simp only [hx] at hs
          by_cases hh : o.hidden = true
          · rw [if_pos hh] at hs; cases hs
          · rw [if_neg hh] at hs; cases hs; rfl
      subst hw1
      refine ⟨old, _, rfl, rfl, ?_, ?_, ?_, ?_, ?_⟩
      · simp [World.hear, put]
      · simp [World.hear, World.fresh, put]
      · simp [World.hear, World.fresh, put]
      · intro j hj; simp [World.hear, World.fresh, put, hj]
      · intro t' ht'
        refine ⟨by simp [World.hear, put, ht'], by simp [World.hear, World.fresh, put, ht'], fun j => ?_⟩
        by_cases hj : j = i <;> simp [World.hear, World.fresh, put, ht', hj]

theorem C167_merge (old new : Option RequestSet) (k : Kind) :
    (mergeRequest old new).get k = (new.bind (·.get k)).or (old.bind (·.get k)) := by
  cases k <;> rfl

/-- The setting of a kind in the options of a tenant. -/
def Options.get (o : Options) (k : Kind) : Option BucketSet := o.request.bind (·.get k)

/-- C167: a change of a limiter sets the kinds that it names and keeps the others. -/
theorem C167_set (o : Options) (l : LimiterSet) (k : Kind) :
    (mergeOptions o (Change.apply o (.setLimiter l))).get k = (l.request.bind (·.get k)).or (o.get k) := by
  cases ho : o.limiter with
  | none =>
    simp [mergeOptions, Change.apply, mergeLimiter, Options.get, Options.request, ho]
  | some lo =>
    simp only [mergeOptions, Change.apply, mergeLimiter, Options.get, Options.request, ho, Option.bind_some, C167_merge]

/-- C167: a change of another option keeps all limits. -/
theorem C167_kept (o : Options) (c : Change) (hc : (∀ l, c ≠ .setLimiter l) ∧ c ≠ .unsetLimiter) (k : Kind) :
    (mergeOptions o (c.apply o)).get k = o.get k := by
  have key : ∀ n : Options, n.limiter = o.limiter → (mergeOptions o n).get k = o.get k := by
    intro n hn
    cases ho : o.limiter with
    | none => simp [mergeOptions, hn, ho, Options.get, Options.request]
    | some lo =>
      simp only [mergeOptions, hn, ho, mergeLimiter, Options.get, Options.request, Option.bind_some, C167_merge]
      cases lo.request with
      | none => rfl
      | some q => simp
  cases c with
  | setLimiter l => exact absurd rfl (hc.1 l)
  | unsetLimiter => exact absurd rfl hc.2
  | setComment s => exact key _ rfl
  | setDropAfter s => exact key _ rfl
  | unsetComment => exact key _ rfl
  | unsetDropAfter => exact key _ rfl

/-- C167: `UNSET _limiter` removes every limit. -/
theorem C167_unset (o : Options) (k : Kind) : (mergeOptions o (Change.apply o .unsetLimiter)).get k = none := rfl

/-- C167: on a node that has heard of options that do not limit a kind, every check of that kind passes, and the
meta server is not asked. -/
theorem C167_unlimited (w : World) (i : Nat) (t : String) (o : Options) (c : Check) (hk : o.get c.kind = none)
    (now : Int) (net : Net) :
    (w.watch i t (.set o)).check i t c now net = (w.watch i t (.set o), .pass) := by
  have hn : (w.watch i t (.set o)).nodes i t = some (Local.load o.request) := by
    simp [World.watch, World.hear, put]
  have hl : Local.load o.request c.kind = none := by
    unfold Options.get at hk
    cases hr : o.request with
    | none => rfl
    | some q =>
      simp only [hr, Option.bind_some] at hk
      simp [Local.load, hk]
  simp only [World.check, World.limiter, hn, World.bucket, hl]

/-- C165 after `ALTER TENANT` on node `i`, when the other nodes have heard of it. -/
theorem C165_after_alter {w w' : World} {i : Nat} {t : String} {c : Change} {t₀ : Int} (h : w.alter i t c t₀ = some w')
    {o : Options} (ho : w'.tenants t = some o) {k : Kind} {b : BucketSet} (hb : o.get k = some b) (hh : o.hidden = false)
    (hs : Sane b.here) (hi : 0 < b.remote.interval) {ns : List Nat} (hd : ns.Nodup) {T : Int} {xs : List Call}
    (hx : ∀ x ∈ xs, x.node ∈ ns ∧ x.check.size ≤ 2 ^ 61 ∧ x.now ≤ T) :
    used t k ((w'.spread t o ns).run xs).2 ≤
      ns.length * (max 0 b.here.initial + max 0 (b.here.max.getD 0)) + b.remote.initial +
      b.remote.refill * (((T - t₀).toNat / (b.remote.interval.toNat * 1000000) : Nat) : Int) := by
  obtain ⟨old, o', _, _, h3, h4, _, _, _⟩ := C167_alter h
  rw [ho] at h3
  cases h3
  obtain ⟨s1, s2, s3⟩ := spread_spec t o ns w'
  unfold Options.get at hb
  cases hq : o.request with
  | none => simp [hq] at hb
  | some q =>
    simp only [hq, Option.bind_some] at hb
    refine C165_fresh (ns := ns) ⟨⟨o, q, ?_, hq, hb⟩, ?_, ?_⟩ hs hd hi hx
    · unfold World.tenant; rw [s1, ho]; simp [hh]
    · unfold World.rate; rw [s2, h4, hq]; simp [Remote.load, hb]
    · intro j hj
      right
      rw [s3, if_pos hj, hq]
      simp [Local.load, hb]

/-- C165: requests of a tenant use up nothing of other tenants, on no node and on the meta server. -/
theorem C165_other (w : World) (i : Nat) (t : String) (c : Check) (now : Int) (net : Net) {t' : String} (ht : t' ≠ t)
    (k : Kind) : Agree t' k w (w.check i t c now net).1 := by
  cases hl : w.limiter i t net with
  | none => simp only [World.check, hl]; exact Agree.refl _ _ _
  | some q =>
    obtain ⟨w1, l⟩ := q
    have h1 : Agree t' k w w1 := by
      unfold World.limiter at hl
      cases hn : w.nodes i t with
      | some l0 => simp only [hn, Option.some.injEq, Prod.mk.injEq] at hl; rw [← hl.1]; exact Agree.refl _ _ _
      | none =>
        simp only [hn] at hl
        by_cases hnet : net = .ok
        · rw [if_pos hnet] at hl
          cases hten : w.tenant t with
          | none => simp [hten] at hl
          | some o =>
            simp only [hten, Option.some.injEq, Prod.mk.injEq] at hl
            rw [← hl.1]
            exact ⟨rfl, rfl, fun j => by rw [count_hear, if_neg (fun h => ht h.2)]⟩
        · rw [if_neg hnet] at hl; cases hl
    simp only [World.check, hl]
    exact h1.trans (bucket_agree _ _ _ _ _ _ (fun h => ht h.1))

/-- C165: a check of a kind uses up nothing of the other kinds. -/
theorem C165_kinds (w : World) (i : Nat) (t : String) (l : Local) (c : Check) (now : Int) (net : Net)
    (hn : w.nodes i t = some l) {k : Kind} (hk : k ≠ c.kind) (t' : String) :
    Agree t' k w (w.check i t c now net).1 := by
  simp only [World.check, World.limiter, hn]
  exact bucket_agree _ _ _ _ _ _ (fun h => hk h.2)

/-! ## What passes -/

theorem check_act {w : World} {i : Nat} {t : String} {l : Local} {c : Check} {b : Count} (hn : w.nodes i t = some l)
    (hl : l c.kind = some b) (h : c.size < 2 ^ 63) (now : Int) (net : Net) :
    w.check i t c now net = w.act i t c.kind b c.size now net := by
  have hw : w64 (c.size : Int) = c.size := w64_id (by omega) (by omega)
  simp only [World.check, World.limiter, hn, World.bucket, hl, hw]

theorem act_success {b b' : Count} {n : Int} (h : require b n = (b', .success)) (w : World) (i : Nat) (t : String)
    (k : Kind) (now : Int) (net : Net) : w.act i t k b n now net = (w.setCount i t k b', .pass) := by
  unfold World.act; rw [h]

theorem act_remote {b b' : Count} {n mn mx : Int} (h : require b n = (b', .remote mn mx)) (w : World) (i : Nat) (t : String)
    (k : Kind) (now : Int) (net : Net) : w.act i t k b n now net = w.ask i t k b' n mx now net := by
  unfold World.act; rw [h]

theorem act_fail {b b' : Count} {n : Int} (h : require b n = (b', .fail)) (w : World) (i : Nat) (t : String)
    (k : Kind) (now : Int) (net : Net) : w.act i t k b n now net = (w, .limited) := by
  unfold World.act; rw [h]

/-- C166: a node that holds more tokens than are needed lets the request pass without the meta server. -/
theorem C166_local {w : World} {i : Nat} {t : String} {l : Local} {c : Check} {b : Count} (hn : w.nodes i t = some l)
    (hl : l c.kind = some b) (h1 : b.count > c.size) (h2 : b.count < 2 ^ 63) (now : Int) (net : Net) :
    w.check i t c now net = (w.setCount i t c.kind ⟨b.count - c.size, b.max⟩, .pass) := by
  have hr : require b c.size = (⟨b.count - c.size, b.max⟩, .success) := by
    unfold require Count.dec
    rw [if_neg (by omega), if_pos h1, w64_id (by omega) (by omega)]
  rw [check_act hn hl (by omega), act_success hr]

theorem require_remote {b : Count} {n m : Int} (hm : b.max = some m) (h0 : b.count ≤ 0) (h1 : -2 ^ 61 ≤ b.count)
    (h2 : m ≤ 2 ^ 61) (hn : 0 ≤ n) (hsz : n ≤ m) :
    require b n = (b, .remote (w64 (-b.count + n)) (m - b.count)) := by
  have e1 : w64 (b.count.natAbs : Int) = -b.count := by rw [w64_id (by omega) (by omega)]; omega
  have e2 : w64 (-b.count + m) = m - b.count := by rw [w64_id (by omega) (by omega)]; omega
  unfold require
  rw [if_neg (by omega), if_neg (by omega)]
  simp only [hm]
  rw [if_pos ⟨h0, hsz⟩, e1, e2]

theorem ask_ok {w w' : World} {t : String} {k : Kind} {mx now a : Int} (hg : w.give t k mx now = some (w', a))
    (i : Nat) {b : Count} {n : Int} (hc : (b.inc a).count > n) :
    w.ask i t k b n mx now .ok = (w'.setCount i t k ((b.inc a).dec n), .pass) := by
  simp only [World.ask, hg, if_pos hc]

/-- C166: a node without tokens lets a request smaller than the largest overdraft pass if the meta server can give
it all it asks for. -/
theorem C166_remote_partial {w : World} {i : Nat} {t : String} {l : Local} {c : Check} {b : Count} {m : Int} {r : Rate}
    (hn : w.nodes i t = some l) (hl : l c.kind = some b) (hm : b.max = some m) (h0 : b.count ≤ 0)
    (h1 : -2 ^ 61 ≤ b.count) (h2 : m ≤ 2 ^ 61) (hsz : (c.size : Int) < m)
    (hr : w.rate t c.kind = some (some r)) (hi : 0 < r.interval) {now : Int}
    (hbal : (updateCritical r.cfg r.crit now).balance ≥ (m - b.count).toNat) :
    (w.check i t c now .ok).2 = .pass := by
  have hreq := require_remote (n := c.size) hm h0 h1 h2 (by omega) (by omega)
  obtain ⟨w', a, g1, _, _, _, g5, _, _⟩ := give_own hr hi (mx := m - b.count) (by omega) (by omega) now
  have ha : a = m - b.count := by
    rw [g5, rateRun_one]
    have hu : usize (m - b.count) = (m - b.count).toNat := by unfold usize; omega
    have hp : ¬ (m - b.count).toNat = 0 := by omega
    have e : (acquireClosed r.cfg r.crit now (m - b.count).toNat).2 = (m - b.count).toNat := by
      unfold acquireClosed
      rw [if_neg hp]
      dsimp only
      rw [if_pos hbal]
    rw [hu, e]
    omega
  have hc : (b.inc a).count > (c.size : Int) := by
    have : (b.inc a).count = w64 (b.count + a) := rfl
    rw [this, w64_id (by omega) (by omega)]; omega
  rw [check_act hn hl (by omega), act_remote hreq, ask_ok g1 _ hc]

/-- C166 is false: a request that is larger than the overdraft is refused by a node without tokens, whatever the
meta server holds, and as often as it is tried: the meta server is never asked, nothing changes. -/
theorem C166_large_refuted {w : World} {i : Nat} {t : String} {l : Local} {c : Check} {b : Count} {m : Int}
    (hn : w.nodes i t = some l) (hl : l c.kind = some b) (hm : b.max = some m) (h0 : b.count ≤ 0)
    (hsz : (c.size : Int) > m) (h1 : c.size < 2 ^ 63) (now : Int) (net : Net) :
    w.check i t c now net = (w, .limited) := by
  have hreq : require b c.size = (b, .fail) := by
    unfold require
    rw [if_neg (by omega), if_neg (by omega)]
    simp only [hm]
    rw [if_neg (by omega), if_neg (by omega)]
  rw [check_act hn hl h1, act_fail hreq]

end Verif.Limit
