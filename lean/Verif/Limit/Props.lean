import Verif.Limit.Model

/-!
# Limits of tenants: they hold over the whole cluster (C165)
-/
namespace Verif.Limit
open Verif.Utils (RateCfg Critical Req rateRun rateStep acquireClosed updateCritical calculateDrain usizeMax)

theorem w64_id {x : Int} (h1 : -2 ^ 63 ≤ x) (h2 : x < 2 ^ 63) : w64 x = x := by
  unfold w64; omega

/-- A check asked for on a node of the cluster. -/
structure Call where
  node : Nat
  tenant : String
  check : Check
  now : Int
  net : Net

/-- Checks on any nodes, one after another; every check with its answer. -/
def World.run (w : World) : List Call → World × List (Call × Answer)
  | [] => (w, [])
  | x :: xs =>
    let s := w.check x.node x.tenant x.check x.now x.net
    let r := s.1.run xs
    (r.1, (x, s.2) :: r.2)

/-- What a check that has been answered used up of the tokens of a tenant and a kind. -/
def usedBy (t : String) (k : Kind) (p : Call × Answer) : Int :=
  if p.1.tenant = t ∧ p.1.check.kind = k ∧ p.2 = .pass then p.1.check.size else 0

/-- The sum of the sizes of the checks of a tenant and kind that passed. -/
def used (t : String) (k : Kind) (out : List (Call × Answer)) : Int := (out.map (usedBy t k)).sum

/-! ## The bucket of the meta server is the bucket of C51 -/

def Rate.cfg (b : Rate) : RateCfg := ⟨b.refill, b.interval.toNat, b.max⟩
def Rate.crit (b : Rate) : Critical := ⟨b.balance, b.deadline⟩
def Rate.with (b : Rate) (c : Critical) : Rate := { b with balance := c.balance, deadline := c.deadline }

theorem Rate.update_eq (b : Rate) (h : 0 < b.interval) (now : Int) :
    b.update now = some (b.with (updateCritical b.cfg b.crit now)) := by
  unfold Rate.update updateCritical calculateDrain
  have hI : ((b.interval.toNat : Nat) : Int) = b.interval := by omega
  by_cases hd : now < b.deadline
  · simp [hd, Rate.with, Rate.crit, Rate.cfg]
  · have hz : b.interval ≠ 0 := by omega
    rw [if_neg hd, if_neg hz]
    simp only [Rate.crit, Rate.cfg, hd, if_false]
    have hs : ((((now - b.deadline).toNat / 1000000 : Nat)) : Int) = (now - b.deadline) / 1000000 := by omega
    generalize (now - b.deadline).toNat / 1000000 = s at hs
    have e1 : ((now - b.deadline) / 1000000).tdiv b.interval = ((s / b.interval.toNat : Nat) : Int) := by
      rw [← hs, ← hI, Int.natCast_tdiv_eq_ediv]; simp
    have e2 : ((now - b.deadline) / 1000000).tmod b.interval = ((s % b.interval.toNat : Nat) : Int) := by
      rw [← hs, ← hI, Int.ofNat_tmod]; simp
    simp only [e1, e2]
    generalize s / b.interval.toNat = d
    generalize s % b.interval.toNat = m
    have e3 : ¬ (d : Int) + 1 < 0 := by omega
    have e4 : ((d : Int) + 1).toNat = d + 1 := by omega
    simp only [e3, e4, if_false, hI, Rate.with]
    rfl

theorem Rate.take_eq (b : Rate) (h : 0 < b.interval) (now : Int) (p : Nat) :
    b.take now p = some (b.with (acquireClosed b.cfg b.crit now p).1, (acquireClosed b.cfg b.crit now p).2) := by
  unfold Rate.take acquireClosed
  by_cases hp : p = 0
  · simp [hp, Rate.with, Rate.crit]
  · simp only [hp, if_false, b.update_eq h]
    by_cases hc : (updateCritical b.cfg b.crit now).balance ≥ p
    · simp [hc, Rate.with]
    · simp [hc, Rate.with]

theorem acquireClosed_le (cfg : RateCfg) (c : Critical) (now : Int) (p : Nat) :
    (acquireClosed cfg c now p).2 ≤ p := by
  unfold acquireClosed
  by_cases hp : p = 0
  · simp [hp]
  · simp only [hp, if_false]
    split <;> simp_all; omega

/-! ## What a step changes -/

/-- The bucket of the meta server of a tenant and kind. -/
def World.rate (w : World) (t : String) (k : Kind) : Option (Option Rate) := (w.remote t).map (· k)

/-- The bucket of a node of a tenant and kind. -/
def World.count (w : World) (i : Nat) (t : String) (k : Kind) : Option (Option Count) := (w.nodes i t).map (· k)

theorem count_setCount (w : World) (i : Nat) (t : String) (k : Kind) (b : Count) (j : Nat) (t' : String) (k' : Kind) :
    (w.setCount i t k b).count j t' k' =
      if j = i ∧ t' = t ∧ k' = k then (w.nodes i t).map (fun _ => some b) else w.count j t' k' := by
  unfold World.setCount World.count put
  by_cases hj : j = i
  · subst hj
    by_cases ht : t' = t
    · subst ht
      by_cases hk : k' = k
      · subst hk; simp [Function.comp_def]
      · simp [hk, Function.comp_def]
    · simp [ht]
  · simp [hj]

theorem rate_setCount (w : World) (i : Nat) (t : String) (k : Kind) (b : Count) (t' : String) (k' : Kind) :
    (w.setCount i t k b).rate t' k' = w.rate t' k' := rfl

theorem tenants_setCount (w : World) (i : Nat) (t : String) (k : Kind) (b : Count) :
    (w.setCount i t k b).tenants = w.tenants := rfl

/-- Two worlds agree on a tenant and kind. -/
def Agree (t : String) (k : Kind) (w w' : World) : Prop :=
  w'.tenants t = w.tenants t ∧ w'.rate t k = w.rate t k ∧ ∀ j, w'.count j t k = w.count j t k

theorem Agree.refl (t : String) (k : Kind) (w : World) : Agree t k w w := ⟨rfl, rfl, fun _ => rfl⟩

theorem Agree.trans {t : String} {k : Kind} {a b c : World} (h1 : Agree t k a b) (h2 : Agree t k b c) :
    Agree t k a c :=
  ⟨h2.1.trans h1.1, h2.2.1.trans h1.2.1, fun j => (h2.2.2 j).trans (h1.2.2 j)⟩

theorem setCount_agree (w : World) (i : Nat) {t : String} {k : Kind} (b : Count) {t' : String} {k' : Kind}
    (h : ¬ (t' = t ∧ k' = k)) : Agree t' k' w (w.setCount i t k b) :=
  ⟨rfl, rfl, fun j => by rw [count_setCount, if_neg (fun hh => h hh.2)]⟩

theorem give_agree {w w' : World} {t : String} {k : Kind} {mx now a : Int} (hg : w.give t k mx now = some (w', a))
    {t' : String} {k' : Kind} (h : ¬ (t' = t ∧ k' = k)) : Agree t' k' w w' := by
  unfold World.give at hg
  cases hr : w.remote t with
  | none => simp only [hr, Option.some.injEq, Prod.mk.injEq] at hg; rw [← hg.1]; exact Agree.refl _ _ _
  | some r =>
    simp only [hr] at hg
    cases hk : r k with
    | none => simp only [hk, Option.some.injEq, Prod.mk.injEq] at hg; rw [← hg.1]; exact Agree.refl _ _ _
    | some b =>
      simp only [hk] at hg
      cases ht : b.take now (usize mx) with
      | none => simp [ht] at hg
      | some q =>
        obtain ⟨b', x⟩ := q
        simp only [ht, Option.some.injEq, Prod.mk.injEq] at hg
        rw [← hg.1]
        refine ⟨rfl, ?_, fun _ => rfl⟩
        unfold World.rate put
        by_cases h1 : t' = t
        · have h2 : k' ≠ k := fun e => h ⟨h1, e⟩
          subst h1
          simp [hr, h2]
        · simp [h1]

theorem ask_agree (w : World) (i : Nat) {t : String} {k : Kind} (b : Count) (n mx now : Int) (net : Net)
    {t' : String} {k' : Kind} (h : ¬ (t' = t ∧ k' = k)) : Agree t' k' w (w.ask i t k b n mx now net).1 := by
  cases net with
  | down => exact Agree.refl _ _ _
  | lost =>
    unfold World.ask
    cases hg : w.give t k mx now with
    | none => exact Agree.refl _ _ _
    | some q => exact give_agree hg h
  | ok =>
    unfold World.ask
    cases hg : w.give t k mx now with
    | none => exact Agree.refl _ _ _
    | some q =>
      obtain ⟨w', a⟩ := q
      have h1 := give_agree hg h
      dsimp only
      split
      · exact h1.trans (setCount_agree _ _ _ h)
      · exact h1.trans (setCount_agree _ _ _ h)

theorem act_agree (w : World) (i : Nat) {t : String} {k : Kind} (b : Count) (n now : Int) (net : Net)
    {t' : String} {k' : Kind} (h : ¬ (t' = t ∧ k' = k)) : Agree t' k' w (w.act i t k b n now net).1 := by
  unfold World.act
  cases hr : require b n with
  | mk b' r =>
    cases r with
    | fail => exact Agree.refl _ _ _
    | success => exact setCount_agree _ _ _ h
    | remote mn mx => exact ask_agree _ _ _ _ _ _ _ h

theorem bucket_agree (w : World) (i : Nat) {t : String} (l : Local) {k : Kind} (n : Nat) (now : Int) (net : Net)
    {t' : String} {k' : Kind} (h : ¬ (t' = t ∧ k' = k)) : Agree t' k' w (w.bucket i t l k n now net).1 := by
  unfold World.bucket
  cases l k with
  | none => exact Agree.refl _ _ _
  | some b => exact act_agree _ _ _ _ _ _ h

/-! ## Bounds of the local buckets -/

/-- What a local bucket never goes below. -/
def low (s : CountSet) : Int :=
  min s.initial (match s.max with | some m => if 0 < m then 1 - m else 0 | none => 0)

/-- Settings that are far from the ends of `i64`. -/
structure Sane (s : CountSet) : Prop where
  i1 : -2 ^ 61 ≤ s.initial
  i2 : s.initial ≤ 2 ^ 61
  m1 : ∀ m, s.max = some m → -2 ^ 61 ≤ m
  m2 : ∀ m, s.max = some m → m ≤ 2 ^ 61

/-- A local bucket of these settings. -/
structure Fits (s : CountSet) (c : Count) : Prop where
  max : c.max = s.max
  lo : low s ≤ c.count
  hi : c.count ≤ 2 ^ 61

theorem low_ge {s : CountSet} (hs : Sane s) : -2 ^ 61 ≤ low s := by
  unfold low
  have h1 := hs.i1
  cases hm : s.max with
  | none => dsimp only; omega
  | some m =>
    have h2 := hs.m2 m hm
    dsimp only
    split <;> omega

theorem low_le_zero {s : CountSet} {m : Int} (hm : s.max = some m) (h : 0 < m) : low s ≤ 1 - m := by
  unfold low
  simp only [hm, if_pos h]; omega

theorem low_le (s : CountSet) : low s ≤ 0 := by
  unfold low
  split
  · split <;> omega
  · omega

theorem Fits.initial {s : CountSet} (hs : Sane s) : Fits s (Count.of s) :=
  ⟨rfl, by unfold low Count.of; dsimp only; omega, hs.i2⟩

theorem Fits.of {s : CountSet} {c : Count} (h : Fits s c) {v : Int} (h1 : low s ≤ v) (h2 : v ≤ 2 ^ 61) :
    Fits s ⟨v, c.max⟩ := ⟨h.max, h1, h2⟩

/-- What `require` does to a bucket that fits. -/
theorem require_spec {s : CountSet} (hs : Sane s) {c : Count} (hc : Fits s c) {n : Int} (h0 : 0 ≤ n) (hn : n ≤ 2 ^ 61) :
    (require c n = (⟨c.count - n, c.max⟩, .success) ∧ Fits s ⟨c.count - n, c.max⟩) ∨
    (∃ mn mx, require c n = (c, .remote mn mx) ∧ 0 ≤ mx ∧ mx ≤ 2 ^ 62 ∧
      ∀ a, 0 ≤ a → a ≤ mx → c.inc a = ⟨c.count + a, c.max⟩ ∧
        (c.count + a > n → (Count.mk (c.count + a) c.max).dec n = ⟨c.count + a - n, c.max⟩ ∧
          Fits s ⟨c.count + a - n, c.max⟩) ∧
        (¬ c.count + a > n → Fits s ⟨c.count + a, c.max⟩)) ∨
    require c n = (c, .fail) := by
  have hl := low_ge hs
  have hl0 := low_le s
  have h1 := hc.lo
  have h2 := hc.hi
  unfold require
  rw [if_neg (by omega : ¬ n < 0)]
  by_cases hcn : c.count > n
  · rw [if_pos hcn]
    left
    refine ⟨?_, hc.of (by omega) (by omega)⟩
    unfold Count.dec
    rw [w64_id (by omega) (by omega)]
  · rw [if_neg hcn]
    cases hm : c.max with
    | none =>
      right; left
      refine ⟨n, n, rfl, h0, by omega, fun a ha hax => ⟨?_, fun hgt => ⟨?_, ?_⟩, fun hgt => ?_⟩⟩
      · unfold Count.inc; rw [w64_id (by omega) (by omega), hm]
      · unfold Count.dec; dsimp only; rw [w64_id (by omega) (by omega)]
      · rw [← hm]; exact hc.of (by omega) (by omega)
      · rw [← hm]; exact hc.of (by omega) (by omega)
    | some m =>
      have hm1 := hs.m1 m (hc.max ▸ hm)
      have hm2 := hs.m2 m (hc.max ▸ hm)
      dsimp only
      by_cases ha : c.count ≤ 0 ∧ n ≤ m
      · rw [if_pos ha]
        right; left
        have e1 : w64 (c.count.natAbs : Int) = -c.count := by rw [w64_id (by omega) (by omega)]; omega
        rw [e1, w64_id (x := -c.count + m) (by omega) (by omega)]
        refine ⟨_, _, rfl, by omega, by omega, fun a ha0 hax => ⟨?_, fun hgt => ⟨?_, ?_⟩, fun hgt => ?_⟩⟩
        · unfold Count.inc; rw [w64_id (by omega) (by omega), hm]
        · unfold Count.dec; dsimp only; rw [w64_id (by omega) (by omega)]
        · rw [← hm]; exact hc.of (by omega) (by omega)
        · rw [← hm]; exact hc.of (by omega) (by omega)
      · rw [if_neg ha]
        by_cases hb : c.count > 0 ∧ w64 (c.count + m) > n
        · rw [if_pos hb]
          left
          rw [w64_id (by omega) (by omega)] at hb
          have := low_le_zero (hc.max ▸ hm) (m := m) (by omega)
          refine ⟨?_, ?_⟩
          · unfold Count.dec; rw [w64_id (by omega) (by omega), hm]
          · rw [← hm]; exact hc.of (by omega) (by omega)
        · rw [if_neg hb]
          right; right; rfl

/-! ## One check -/

/-- One request of the meta server for tokens. -/
def req (now : Int) (mx : Int) : Req := ⟨now, usize mx, true⟩

theorem rateRun_one (cfg : RateCfg) (c : Critical) (now mx : Int) :
    rateRun cfg c [req now mx] = acquireClosed cfg c now (usize mx) := by
  simp [rateRun, rateStep, req]

theorem give_own {w : World} {t : String} {k : Kind} {r : Rate} (hr : w.rate t k = some (some r)) (hi : 0 < r.interval)
    {mx : Int} (h0 : 0 ≤ mx) (h1 : mx ≤ 2 ^ 62) (now : Int) :
    ∃ w' a, w.give t k mx now = some (w', a) ∧ w'.tenants = w.tenants ∧ w'.nodes = w.nodes ∧
      w'.rate t k = some (some (r.with (rateRun r.cfg r.crit [req now mx]).1)) ∧
      a = ((rateRun r.cfg r.crit [req now mx]).2 : Int) ∧ 0 ≤ a ∧ a ≤ mx := by
  rw [rateRun_one]
  unfold World.rate at hr
  cases hw : w.remote t with
  | none => simp [hw] at hr
  | some q =>
    simp only [hw, Option.map_some, Option.some.injEq] at hr
    have hle := acquireClosed_le r.cfg r.crit now (usize mx)
    have hu : (usize mx : Int) = mx := by unfold usize; omega
    refine ⟨{ w with remote := put w.remote t (some (put q k
        (some (r.with (acquireClosed r.cfg r.crit now (usize mx)).1)))) },
      ((acquireClosed r.cfg r.crit now (usize mx)).2 : Int), ?_, rfl, rfl, ?_, rfl, by omega, by omega⟩
    · simp only [World.give, hw, hr, r.take_eq hi]
      rw [w64_id (by omega) (by omega)]
    · simp [World.rate, put]

theorem act_own {w : World} {i : Nat} {t : String} {k : Kind} {l : Local} {c : Count} {s : CountSet} {r : Rate}
    (hs : Sane s) (hn : w.nodes i t = some l) (hl : l k = some c) (hc : Fits s c)
    (hr : w.rate t k = some (some r)) (hi : 0 < r.interval) {n : Int} (h0 : 0 ≤ n) (h1 : n ≤ 2 ^ 61) (now : Int) (net : Net) :
    ∃ rs : List Req, (∀ q ∈ rs, q.now = now) ∧
      (w.act i t k c n now net).1.tenants = w.tenants ∧
      (w.act i t k c n now net).1.rate t k = some (some (r.with (rateRun r.cfg r.crit rs).1)) ∧
      (∀ j, j ≠ i → (w.act i t k c n now net).1.count j t k = w.count j t k) ∧
      ∃ c', (w.act i t k c n now net).1.count i t k = some (some c') ∧ Fits s c' ∧
        (if (w.act i t k c n now net).2 = .pass then n else 0) + c'.count ≤
          c.count + ((rateRun r.cfg r.crit rs).2 : Int) := by
  have hcount : w.count i t k = some (some c) := by simp [World.count, hn, hl]
  have hnone : r.with (rateRun r.cfg r.crit []).1 = r := rfl
  have hset : ∀ (v : World) (b : Count), v.nodes = w.nodes → (v.setCount i t k b).count i t k = some (some b) := by
    intro v b hv
    rw [count_setCount, if_pos ⟨rfl, rfl, rfl⟩, hv, hn]; rfl
  have hset' : ∀ (v : World) (b : Count), v.nodes = w.nodes → ∀ j, j ≠ i →
      (v.setCount i t k b).count j t k = w.count j t k := by
    intro v b hv j hj
    rw [count_setCount, if_neg (fun h => hj h.1)]; unfold World.count; rw [hv]
  rcases require_spec hs hc h0 h1 with ⟨e, hf⟩ | ⟨mn, mx, e, hm0, hm1, hmx⟩ | e
  · have ea : w.act i t k c n now net = (w.setCount i t k ⟨c.count - n, c.max⟩, .pass) := by
      unfold World.act; rw [e]
    rw [ea]
    refine ⟨[], by simp, rfl, by rw [hnone]; exact hr, hset' w _ rfl, _, hset w _ rfl, hf, ?_⟩
    simp only [rateRun, if_true]; omega
  · have ea : w.act i t k c n now net = w.ask i t k c n mx now net := by
      unfold World.act; rw [e]
    rw [ea]
    obtain ⟨w', a, g1, g2, g3, g4, g5, g6, g7⟩ := give_own hr hi hm0 hm1 now
    cases net with
    | down =>
      refine ⟨[], by simp, rfl, by rw [hnone]; exact hr, fun _ _ => rfl, c, hcount, hc, ?_⟩
      simp [World.ask, rateRun]
    | lost =>
      have eb : w.ask i t k c n mx now .lost = (w', .error) := by simp only [World.ask, g1]
      rw [eb]
      refine ⟨[req now mx], by simp [req], g2, g4, fun j _ => by unfold World.count; rw [g3], c,
        by unfold World.count at hcount ⊢; rw [g3]; exact hcount, hc, ?_⟩
      simp only [reduceCtorEq, if_false]; omega
    | ok =>
      obtain ⟨m1, m2, m3⟩ := hmx a g6 g7
      by_cases hgt : c.count + a > n
      · obtain ⟨d1, d2⟩ := m2 hgt
        have eb : w.ask i t k c n mx now .ok = (w'.setCount i t k ⟨c.count + a - n, c.max⟩, .pass) := by
          simp only [World.ask, g1, m1, if_pos hgt, d1]
        rw [eb]
        refine ⟨[req now mx], by simp [req], g2, g4, hset' w' _ g3, _, hset w' _ g3, d2, ?_⟩
        simp only [if_true]; omega
      · have eb : w.ask i t k c n mx now .ok = (w'.setCount i t k ⟨c.count + a, c.max⟩, .limited) := by
          simp only [World.ask, g1, m1, if_neg hgt]
        rw [eb]
        refine ⟨[req now mx], by simp [req], g2, g4, hset' w' _ g3, _, hset w' _ g3, m3 hgt, ?_⟩
        simp; omega
  · have ea : w.act i t k c n now net = (w, .limited) := by
      unfold World.act; rw [e]
    rw [ea]
    refine ⟨[], by simp, rfl, by rw [hnone]; exact hr, fun _ _ => rfl, c, hcount, hc, ?_⟩
    simp [rateRun]

/-- A cluster in which a tenant is limited in a kind: the setting, the bucket of the meta server, and nodes
whose buckets, where they exist, are of that setting. -/
structure Limited (w : World) (t : String) (k : Kind) (b : BucketSet) (r : Rate) (ns : List Nat) : Prop where
  tenant : ∃ o q, w.tenant t = some o ∧ o.request = some q ∧ q.get k = some b
  rate : w.rate t k = some (some r)
  nodes : ∀ i ∈ ns, ∀ o, w.count i t k = some o → ∃ c, o = some c ∧ Fits b.here c

/-- The tokens that a node holds; a node without a limiter will make one with the initial tokens. -/
def World.held (w : World) (t : String) (k : Kind) (s : CountSet) (i : Nat) : Int :=
  match w.count i t k with
  | none => s.initial
  | some none => 0
  | some (some c) => c.count

theorem tenant_congr {w w' : World} {t : String} (h : w'.tenants t = w.tenants t) : w'.tenant t = w.tenant t := by
  unfold World.tenant; rw [h]

theorem Limited.agree {w w' : World} {t : String} {k : Kind} {b : BucketSet} {r : Rate} {ns : List Nat}
    (h : Limited w t k b r ns) (ha : Agree t k w w') : Limited w' t k b r ns :=
  ⟨by rw [tenant_congr ha.1]; exact h.tenant, by rw [ha.2.1]; exact h.rate,
    fun i hi o ho => h.nodes i hi o (by rw [← ha.2.2 i]; exact ho)⟩

theorem held_agree {w w' : World} {t : String} {k : Kind} (ha : Agree t k w w') (s : CountSet) (i : Nat) :
    w'.held t k s i = w.held t k s i := by
  unfold World.held; rw [ha.2.2 i]

theorem count_hear (w : World) (i : Nat) (t : String) (l : Local) (j : Nat) (t' : String) (k : Kind) :
    World.count { w with nodes := put w.nodes i (put (w.nodes i) t (some l)) } j t' k =
      if j = i ∧ t' = t then some (l k) else w.count j t' k := by
  unfold World.count put
  by_cases hj : j = i
  · subst hj
    by_cases ht : t' = t
    · simp [ht]
    · simp [ht]
  · simp [hj]

/-- Making a limiter changes nothing that counts. -/
theorem limiter_keeps {w w1 : World} {t t' : String} {k : Kind} {b : BucketSet} {r : Rate} {ns : List Nat}
    (h : Limited w t k b r ns) (hs : Sane b.here) {i : Nat} {net : Net} {l : Local}
    (hl : w.limiter i t' net = some (w1, l)) :
    Limited w1 t k b r ns ∧ (∀ j, w1.held t k b.here j = w.held t k b.here j) ∧ w1.nodes i t' = some l := by
  unfold World.limiter at hl
  cases hn : w.nodes i t' with
  | some l0 =>
    simp only [hn, Option.some.injEq, Prod.mk.injEq] at hl
    obtain ⟨rfl, rfl⟩ := hl
    exact ⟨h, fun _ => rfl, hn⟩
  | none =>
    simp only [hn] at hl
    by_cases hnet : net = .ok
    · rw [if_pos hnet] at hl
      cases ht : w.tenant t' with
      | none => simp [ht] at hl
      | some o =>
        simp only [ht, Option.some.injEq, Prod.mk.injEq] at hl
        obtain ⟨rfl, rfl⟩ := hl
        have hown : t = t' → Local.load o.request k = some (Count.of b.here) := by
          intro e
          subst e
          obtain ⟨o', q, h1, h2, h3⟩ := h.tenant
          rw [ht] at h1
          cases h1
          simp [h2, Local.load, h3]
        refine ⟨⟨h.tenant, h.rate, ?_⟩, ?_, by simp [put]⟩
        · intro j hj o' ho'
          rw [count_hear] at ho'
          by_cases hc : j = i ∧ t = t'
          · rw [if_pos hc, hown hc.2] at ho'
            cases ho'
            exact ⟨_, rfl, Fits.initial hs⟩
          · rw [if_neg hc] at ho'
            exact h.nodes j hj o' ho'
        · intro j
          unfold World.held
          rw [count_hear]
          by_cases hc : j = i ∧ t = t'
          · rw [if_pos hc, hown hc.2]
            have : w.count j t k = none := by
              obtain ⟨rfl, rfl⟩ := hc
              simp [World.count, hn]
            rw [this]; rfl
          · rw [if_neg hc]
    · rw [if_neg hnet] at hl
      cases hl

theorem check_step {w : World} {t : String} {k : Kind} {b : BucketSet} {r : Rate} {ns : List Nat}
    (h : Limited w t k b r ns) (hs : Sane b.here) (hi : 0 < r.interval) (x : Call) (hx : x.node ∈ ns)
    (hz : x.check.size ≤ 2 ^ 61) :
    ∃ rs : List Req, (∀ q ∈ rs, q.now = x.now) ∧
      Limited (w.check x.node x.tenant x.check x.now x.net).1 t k b (r.with (rateRun r.cfg r.crit rs).1) ns ∧
      (∀ j, j ≠ x.node → (w.check x.node x.tenant x.check x.now x.net).1.held t k b.here j = w.held t k b.here j) ∧
      usedBy t k (x, (w.check x.node x.tenant x.check x.now x.net).2) +
          (w.check x.node x.tenant x.check x.now x.net).1.held t k b.here x.node ≤
        w.held t k b.here x.node + ((rateRun r.cfg r.crit rs).2 : Int) := by
  have hnone : r.with (rateRun r.cfg r.crit []).1 = r := rfl
  cases hl : w.limiter x.node x.tenant x.net with
  | none =>
    have e : w.check x.node x.tenant x.check x.now x.net = (w, .error) := by simp only [World.check, hl]
    rw [e]
    refine ⟨[], by simp, by rw [hnone]; exact h, fun _ _ => rfl, ?_⟩
    simp [usedBy, rateRun]
  | some q =>
    obtain ⟨w1, l⟩ := q
    obtain ⟨h1, hh, hn⟩ := limiter_keeps h hs hl
    have e : w.check x.node x.tenant x.check x.now x.net =
        w1.bucket x.node x.tenant l x.check.kind x.check.size x.now x.net := by simp only [World.check, hl]
    rw [e]
    by_cases hown : t = x.tenant ∧ k = x.check.kind
    · obtain ⟨ht, hk⟩ := hown
      rw [← ht] at hn ⊢
      rw [← hk]
      obtain ⟨c, hc, hf⟩ := h1.nodes x.node hx (l k) (by simp [World.count, hn])
      have hw : w64 (x.check.size : Int) = x.check.size := w64_id (by omega) (by omega)
      have eb : w1.bucket x.node t l k x.check.size x.now x.net = w1.act x.node t k c x.check.size x.now x.net := by
        simp only [World.bucket, hc, hw]
      rw [eb]
      obtain ⟨rs, a1, a2, a3, a4, c', a5, a6, a7⟩ :=
        act_own hs hn hc hf h1.rate hi (n := x.check.size) (by omega) (by omega) x.now x.net
      have hc1 : w1.held t k b.here x.node = c.count := by simp [World.held, World.count, hn, hc]
      refine ⟨rs, a1, ⟨?_, a3, ?_⟩, ?_, ?_⟩
      · rw [tenant_congr (w := w1) (congrFun a2 t)]; exact h1.tenant
      · intro j hj o ho
        by_cases hji : j = x.node
        · subst hji
          rw [a5] at ho
          cases ho
          exact ⟨_, rfl, a6⟩
        · rw [a4 j hji] at ho
          exact h1.nodes j hj o ho
      · intro j hj
        rw [← hh j]
        unfold World.held
        rw [a4 j hj]
      · have hc2 : (w1.act x.node t k c x.check.size x.now x.net).1.held t k b.here x.node = c'.count := by
          unfold World.held; rw [a5]
        rw [hc2, ← hh x.node, hc1]
        have : usedBy t k (x, (w1.act x.node t k c x.check.size x.now x.net).2) =
            if (w1.act x.node t k c x.check.size x.now x.net).2 = .pass then (x.check.size : Int) else 0 := by
          simp [usedBy, ← ht, ← hk]
        rw [this]
        exact a7
    · have ha := bucket_agree w1 x.node l x.check.size x.now x.net (t := x.tenant) (k := x.check.kind) hown
      refine ⟨[], by simp, by rw [hnone]; exact h1.agree ha, fun j _ => by rw [held_agree ha, hh], ?_⟩
      rw [held_agree ha, hh]
      have : ∀ a, usedBy t k (x, a) = 0 := by
        intro a
        unfold usedBy
        rw [if_neg]
        intro hc
        exact hown ⟨hc.1.symm, hc.2.1.symm⟩
      rw [this]
      simp [rateRun]

/-! ## All checks -/

theorem sum_put {ns : List Nat} (hd : ns.Nodup) {i : Nat} (hi : i ∈ ns) {f g : Nat → Int}
    (h : ∀ j, j ≠ i → g j = f j) : (ns.map g).sum = (ns.map f).sum + (g i - f i) := by
  induction ns with
  | nil => cases hi
  | cons a ns ih =>
    simp only [List.map_cons, List.sum_cons]
    rw [List.nodup_cons] at hd
    by_cases ha : a = i
    · subst ha
      have : ns.map g = ns.map f := List.map_congr_left fun j hj => h j (fun e => hd.1 (e ▸ hj))
      rw [this]; omega
    · have hm : i ∈ ns := by
        rcases List.mem_cons.mp hi with e | e
        · exact absurd e.symm ha
        · exact e
      rw [ih hd.2 hm, h a ha]; omega

theorem rateRun_append (cfg : RateCfg) (c : Critical) (a b : List Req) :
    rateRun cfg c (a ++ b) =
      ((rateRun cfg (rateRun cfg c a).1 b).1, (rateRun cfg c a).2 + (rateRun cfg (rateRun cfg c a).1 b).2) := by
  induction a generalizing c with
  | nil => simp [rateRun]
  | cons q a ih => simp only [List.cons_append, rateRun, ih]; rw [Nat.add_assoc]

theorem run_step {t : String} {k : Kind} {b : BucketSet} {ns : List Nat} (hs : Sane b.here) (hd : ns.Nodup) (T : Int)
    (xs : List Call) : ∀ {w : World} {r : Rate}, Limited w t k b r ns → 0 < r.interval →
    (∀ x ∈ xs, x.node ∈ ns ∧ x.check.size ≤ 2 ^ 61 ∧ x.now ≤ T) →
    ∃ rs : List Req, (∀ q ∈ rs, q.now ≤ T) ∧
      Limited (w.run xs).1 t k b (r.with (rateRun r.cfg r.crit rs).1) ns ∧
      used t k (w.run xs).2 + (ns.map ((w.run xs).1.held t k b.here)).sum ≤
        (ns.map (w.held t k b.here)).sum + ((rateRun r.cfg r.crit rs).2 : Int) := by
  induction xs with
  | nil =>
    intro w r h hi _
    exact ⟨[], by simp, h, by simp [World.run, used, rateRun]⟩
  | cons x xs ih =>
    intro w r h hi hx
    obtain ⟨hx1, hx2, hx3⟩ := hx x (by simp)
    obtain ⟨rs1, s1, s2, s3, s4⟩ := check_step h hs hi x hx1 hx2
    obtain ⟨rs2, u1, u2, u3⟩ := ih s2 hi (fun y hy => hx y (by simp [hy]))
    refine ⟨rs1 ++ rs2, ?_, ?_, ?_⟩
    · intro q hq
      rcases List.mem_append.mp hq with hq | hq
      · rw [s1 q hq]; exact hx3
      · exact u1 q hq
    · rw [rateRun_append]; exact u2
    · rw [rateRun_append]
      have hsum := sum_put hd hx1 s3
      simp only [World.run, used, List.map_cons, List.sum_cons]
      unfold used at u3
      have e : ∀ v : Rate, v = r.with (rateRun r.cfg r.crit rs1).1 → v.cfg = r.cfg ∧ v.crit = (rateRun r.cfg r.crit rs1).1 := by
        rintro v rfl; exact ⟨rfl, rfl⟩
      obtain ⟨e1, e2⟩ := e _ rfl
      rw [e1, e2] at u3
      push_cast
      omega

end Verif.Limit
