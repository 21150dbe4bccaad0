import Verif.Utils.Bloom
import Mathlib.Data.List.Sort
/-!
# C51–C54, C57: rate bucket, memory pool, precision, series hash and routing
-/
namespace Verif.Utils

/-! ## C53 precision -/

/-- Nanoseconds per unit. -/
def Precision.unit : Precision → Int
  | .ms => 1000000
  | .us => 1000
  | .ns => 1

/-- C53: to a finer precision, the conversion is the exact product, reported as overflow exactly when
it does not fit; and converting back gives the same timestamp. -/
theorem C53_refine_round_trip (p q : Precision) (hpq : q.unit ≤ p.unit) (ts : Int)
    (hts : i64Min ≤ ts ∧ ts ≤ i64Max) :
    (∀ t, timestampConvert p q ts = some t →
      t * q.unit = ts * p.unit ∧ timestampConvert q p t = some ts ∧ i64Min ≤ t ∧ t ≤ i64Max) ∧
    (timestampConvert p q ts = none → ∀ t, t * q.unit = ts * p.unit → t < i64Min ∨ i64Max < t) := by
  have h1 : ∀ x : Int, (x * 1000).tdiv 1000 = x := fun x => Int.mul_tdiv_cancel x (by decide)
  have h2 : ∀ x : Int, (x * 1000000).tdiv 1000000 = x := fun x => Int.mul_tdiv_cancel x (by decide)
  have same : ∀ r : Precision, (∀ t, some ts = some t →
      t * r.unit = ts * r.unit ∧ some t = some ts ∧ i64Min ≤ t ∧ t ≤ i64Max) := by
    intro r t ht; cases ht; exact ⟨rfl, rfl, hts.1, hts.2⟩
  cases p <;> cases q <;>
    simp only [Precision.unit, timestampConvert, i64Min, i64Max] at * <;>
    first
    | (exact absurd hpq (by decide))
    | (refine ⟨fun t ht => ?_, fun hn => ?_⟩
       · cases ht; exact ⟨rfl, rfl, hts.1, hts.2⟩
       · cases hn)
    | (refine ⟨fun t ht => ?_, fun hn t ht => ?_⟩
       · unfold checkedMul at ht
         split at ht
         · rename_i hr
           simp only [i64Min, i64Max] at hr
           obtain rfl := Option.some.inj ht
           simp only [h1, h2]
           exact ⟨by omega, trivial, hr.1, hr.2⟩
         · cases ht
       · unfold checkedMul at hn
         split at hn
         · cases hn
         · rename_i hr
           simp only [i64Min, i64Max] at hr
           omega)

/-- C53: converting never reorders timestamps. -/
theorem C53_monotone (p q : Precision) (a b a' b' : Int) (hab : a ≤ b)
    (ha : timestampConvert p q a = some a') (hb : timestampConvert p q b = some b') : a' ≤ b' := by
  have m1 : a.tdiv 1000 ≤ b.tdiv 1000 := Int.tdiv_le_tdiv (by decide) hab
  have m2 : a.tdiv 1000000 ≤ b.tdiv 1000000 := Int.tdiv_le_tdiv (by decide) hab
  cases p <;> cases q <;> simp only [timestampConvert, checkedMul] at ha hb <;>
    first
    | (cases ha; cases hb; assumption)
    | (split at ha
       · split at hb
         · cases ha; cases hb; omega
         · cases hb
       · cases ha)

/-- C53: converting to a coarser precision always succeeds, keeps the 64-bit range and loses less than
one coarse unit. -/
theorem C53_coarsen (p q : Precision) (hpq : p.unit ≤ q.unit) (ts : Int)
    (hts : i64Min ≤ ts ∧ ts ≤ i64Max) :
    ∃ t, timestampConvert p q ts = some t ∧ i64Min ≤ t ∧ t ≤ i64Max ∧
      (t * q.unit - ts * p.unit).natAbs < q.unit := by
  have e1 := Int.mul_tdiv_add_tmod ts 1000
  have e2 := Int.mul_tdiv_add_tmod ts 1000000
  have l1 : (ts.tmod 1000).natAbs < 1000 := by rw [Int.natAbs_tmod]; exact Nat.mod_lt _ (by decide)
  have l2 : (ts.tmod 1000000).natAbs < 1000000 := by rw [Int.natAbs_tmod]; exact Nat.mod_lt _ (by decide)
  cases p <;> cases q <;>
    simp only [Precision.unit, timestampConvert, checkedMul, i64Min, i64Max] at * <;>
    first
    | (exact absurd hpq (by decide))
    | (exact ⟨_, rfl, by omega, by omega, by omega⟩)

example : timestampConvert .ms .ns 1700000000123 = some 1700000000123000000 ∧
    timestampConvert .ns .ms 1700000000123999999 = some 1700000000123 ∧
    timestampConvert .ms .ns 9300000000000 = none := by decide

/-! ## C54 series hash -/

/-- C54: hashing in pieces equals hashing the concatenation. -/
theorem C54_write_append (n : BitVec 64) (a b : Bytes) :
    bkdrWrite (bkdrWrite n a) b = bkdrWrite n (a ++ b) := by
  simp [bkdrWrite, List.foldl_append]

theorem C54_write_flatten (n : BitVec 64) (chunks : List Bytes) :
    chunks.foldl bkdrWrite n = bkdrWrite n chunks.flatten := by
  induction chunks generalizing n with
  | nil => rfl
  | cons c cs ih => rw [List.foldl_cons, ih, C54_write_append, List.flatten_cons]

/-- C54: the hash of a series is the hash of its concatenated bytes. -/
theorem C54_series_hash_eq_concat (table : Bytes) (tags : List (Bytes × Bytes)) :
    seriesHash table tags = bkdrWrite 0 (table ++ (tags.map fun t => t.1 ++ t.2).flatten) := by
  rw [seriesHash, ← C54_write_append]
  generalize bkdrWrite 0 table = n
  induction tags generalizing n with
  | nil => rfl
  | cons t ts ih =>
    simp only [hashTags, List.foldl_cons, List.map_cons, List.flatten_cons] at *
    rw [ih, C54_write_append, C54_write_append, List.append_assoc]

example : seriesHash [97#8] [([98#8], [99#8]), ([100#8], [])] = bkdrWrite 0 [97#8, 98#8, 99#8, 100#8] := by
  decide

/-! ## C57 routing -/

theorem bytesLe_total (a b : Bytes) : bytesLe a b = true ∨ bytesLe b a = true := by
  induction a generalizing b with
  | nil => cases b <;> simp [bytesLe]
  | cons x a ih =>
    cases b with
    | nil => simp [bytesLe]
    | cons y b =>
      simp only [bytesLe]
      by_cases h : x.toNat < y.toNat
      · simp [h]
      · by_cases h2 : y.toNat < x.toNat
        · simp [h2]
        · simp only [h, h2, if_false]; exact ih b

theorem bytesLe_antisymm (a b : Bytes) (h1 : bytesLe a b) (h2 : bytesLe b a) : a = b := by
  induction a generalizing b with
  | nil => cases b with
    | nil => rfl
    | cons y b => simp [bytesLe] at h2
  | cons x a ih =>
    cases b with
    | nil => simp [bytesLe] at h1
    | cons y b =>
      simp only [bytesLe] at h1 h2
      by_cases h : x.toNat < y.toNat
      · have : ¬ y.toNat < x.toNat := by omega
        simp [h, this] at h2
      · by_cases h' : y.toNat < x.toNat
        · simp [h, h'] at h1
        · simp only [h, h', if_false] at h1 h2
          have hxy : x = y := BitVec.eq_of_toNat_eq (by omega)
          rw [hxy, ih b h1 h2]

theorem bytesLe_trans (a b c : Bytes) (h1 : bytesLe a b) (h2 : bytesLe b c) : bytesLe a c := by
  induction a generalizing b c with
  | nil => simp [bytesLe]
  | cons x a ih =>
    cases b with
    | nil => simp [bytesLe] at h1
    | cons y b =>
      cases c with
      | nil => simp [bytesLe] at h2
      | cons z c =>
        simp only [bytesLe] at *
        by_cases hxy : x.toNat < y.toNat
        · by_cases hyz : y.toNat < z.toNat
          · have : x.toNat < z.toNat := by omega
            simp [this]
          · by_cases hzy : z.toNat < y.toNat
            · simp [hyz, hzy] at h2
            · have : x.toNat < z.toNat := by omega
              simp [this]
        · by_cases hyx : y.toNat < x.toNat
          · simp [hxy, hyx] at h1
          · simp only [hxy, hyx, if_false] at h1
            by_cases hyz : y.toNat < z.toNat
            · have : x.toNat < z.toNat := by omega
              simp [this]
            · by_cases hzy : z.toNat < y.toNat
              · simp [hyz, hzy] at h2
              · simp only [hyz, hzy, if_false] at h2
                have e1 : ¬ x.toNat < z.toNat := by omega
                have e2 : ¬ z.toNat < x.toNat := by omega
                simp only [e1, e2, if_false]
                exact ih b c h1 h2

theorem dedupKey_of_nodup (l : List (Bytes × Bytes)) (h : (l.map Prod.fst).Nodup) : dedupKey l = l := by
  induction l with
  | nil => rfl
  | cons a l ih =>
    rw [List.map_cons, List.nodup_cons] at h
    simp only [dedupKey, ih h.2]
    cases l with
    | nil => rfl
    | cons b r =>
      have : a.1 ≠ b.1 := fun e => h.1 (by simp [e])
      simp [this]

/-- C57, the part that holds: with distinct tag keys, two parsed lines of the same series hash alike
whatever the order of their tags, namely to the hash of the series key with sorted tags; hence they are
routed to the same replication set of a bucket. -/
theorem C57_same_series_same_shard_partial (table : Bytes) (t₁ t₂ : List (Bytes × Bytes))
    (hp : t₁.Perm t₂) (hn : (t₁.map Prod.fst).Nodup) (shards : Nat) :
    lineHash table t₁ = lineHash table t₂ ∧
    vnodeFor (lineHash table t₁) shards = vnodeFor (lineHash table t₂) shards ∧
    (t₁.Pairwise (fun a b => bytesLe a.1 b.1) → lineHash table t₁ = seriesHash table t₁) ∧
    (t₁.Pairwise (fun a b => bytesLe a.1 b.1) →
      insertHash table (t₁.map fun t => (t.1, some t.2)) = lineHash table t₂) := by
  have hs : Sort.sortBy (fun a b : Bytes × Bytes => bytesLe a.1 b.1) t₁ =
      Sort.sortBy (fun a b => bytesLe a.1 b.1) t₂ := by
    have p1 := Sort.sortBy_perm (fun a b : Bytes × Bytes => bytesLe a.1 b.1) t₁
    have p2 := Sort.sortBy_perm (fun a b : Bytes × Bytes => bytesLe a.1 b.1) t₂
    refine List.Perm.eq_of_pairwise (le := fun a b : Bytes × Bytes => bytesLe a.1 b.1 = true) ?_
      (Sort.sortBy_sorted (le := fun a b : Bytes × Bytes => bytesLe a.1 b.1)
        (fun a b c => bytesLe_trans a.1 b.1 c.1) (fun a b => bytesLe_total a.1 b.1) t₁)
      (Sort.sortBy_sorted (le := fun a b : Bytes × Bytes => bytesLe a.1 b.1)
        (fun a b c => bytesLe_trans a.1 b.1 c.1) (fun a b => bytesLe_total a.1 b.1) t₂)
      (p1.trans (hp.trans p2.symm))
    intro a b ha hb h1 h2
    have e := bytesLe_antisymm _ _ h1 h2
    have ha' := p1.mem_iff.1 ha
    have hb' := hp.mem_iff.2 (p2.mem_iff.1 hb)
    exact List.inj_on_of_nodup_map hn ha' hb' e
  have hl : lineHash table t₁ = lineHash table t₂ := by rw [lineHash, hs, lineHash]
  have hs1 : t₁.Pairwise (fun a b => bytesLe a.1 b.1) → lineHash table t₁ = seriesHash table t₁ := by
    intro h
    rw [lineHash, Sort.sortBy_of_sorted h, dedupKey_of_nodup _ hn]
  refine ⟨hl, by rw [hl], hs1, fun h => ?_⟩
  rw [← hl, hs1 h, insertHash, seriesHash]
  congr 1
  rw [List.map_map]
  conv_rhs => rw [← List.map_id t₁]
  exact List.map_congr_left fun _ _ => rfl

example : lineHash [116#8] [([98#8], [1#8]), ([97#8], [2#8])] =
    seriesHash [116#8] [([97#8], [2#8]), ([98#8], [1#8])] := by decide

/-- C57 is false across protocols: the JSON parser leaves the hash at zero, so the same series goes to
another replication set than through line protocol. -/
theorem C57_json_route_refuted :
    ∃ table tags shards, vnodeFor (jsonHash table tags) shards ≠ vnodeFor (lineHash table tags) shards :=
  ⟨[116#8], [([97#8], [2#8])], 2, by decide⟩

/-- C57 is false for `INSERT` with tag columns in another order. -/
theorem C57_insert_column_order_refuted :
    ∃ table k₁ v₁ k₂ v₂ shards,
      vnodeFor (insertHash table [(k₁, some v₁), (k₂, some v₂)]) shards ≠
      vnodeFor (insertHash table [(k₂, some v₂), (k₁, some v₁)]) shards :=
  ⟨[116#8], [97#8], [1#8], [98#8], [1#8, 1#8], 5, by decide⟩

/-- C57 is false for `INSERT` with a null tag: the column's name is hashed, while line protocol leaves
an absent tag out. -/
theorem C57_insert_null_tag_refuted :
    ∃ table k₁ v₁ k₂ shards,
      vnodeFor (insertHash table [(k₁, some v₁), (k₂, none)]) shards ≠
      vnodeFor (lineHash table [(k₁, v₁)]) shards :=
  ⟨[116#8], [97#8], [1#8], [99#8], 2, by decide⟩

/-! ## C51 rate bucket -/

/-- A request: clock reading, permits asked, and whether through `acquire_closed`. -/
structure Req where
  now : Int
  permits : Nat
  closed : Bool

/-- One request: new state and grant. -/
def rateStep (cfg : RateCfg) (c : Critical) (r : Req) : Critical × Nat :=
  if r.closed then acquireClosed cfg c r.now r.permits else acquire cfg c r.now r.permits

/-- Total granted by a sequence of requests, and the final state. -/
def rateRun (cfg : RateCfg) (c : Critical) : List Req → Critical × Nat
  | [] => (c, 0)
  | r :: rs =>
    let s := rateStep cfg c r
    let t := rateRun cfg s.1 rs
    (t.1, s.2 + t.2)

theorem updateCritical_spec (cfg : RateCfg) (hi : 0 < cfg.interval) (c : Critical) (now : Int) :
    ∃ k : Nat, (updateCritical cfg c now).balance ≤ c.balance + k * cfg.refill ∧
      (updateCritical cfg c now).deadline ≥ c.deadline + k * (cfg.interval * 1000000) ∧
      (c.balance ≤ cfg.max → (updateCritical cfg c now).balance ≤ cfg.max) ∧
      ((updateCritical cfg c now).deadline = c.deadline ∨
        (updateCritical cfg c now).deadline ≤ now + cfg.interval * 1000000) ∧
      now < (updateCritical cfg c now).deadline := by
  unfold updateCritical calculateDrain
  by_cases h : now < c.deadline
  · simp only [h, if_true]
    exact ⟨0, by simp, by simp, fun h => h, Or.inl trivial, trivial⟩
  · simp only [h, if_false]
    generalize hs : (now - c.deadline).toNat / 1000000 = since
    have hle : since * 1000000 ≤ (now - c.deadline).toNat := by rw [← hs]; exact Nat.div_mul_le_self _ _
    have hmod : since % cfg.interval < cfg.interval := Nat.mod_lt _ hi
    have hdm : cfg.interval * (since / cfg.interval) + since % cfg.interval = since := Nat.div_add_mod _ _
    refine ⟨Nat.min (since / cfg.interval + 1) usizeMax, ?_, ?_, ?_, ?_, ?_⟩
    · have hm : Nat.min (since / cfg.interval + 1) usizeMax * cfg.refill % 2 ^ 64 ≤
        Nat.min (since / cfg.interval + 1) usizeMax * cfg.refill := Nat.mod_le _ _
      generalize Nat.min (since / cfg.interval + 1) usizeMax * cfg.refill % 2 ^ 64 = z at hm ⊢
      have : Nat.min (c.balance + z) usizeMax ≤ c.balance + z := Nat.min_le_left _ _
      split <;> omega
    · have hk : Nat.min (since / cfg.interval + 1) usizeMax ≤ since / cfg.interval + 1 := Nat.min_le_left _ _
      have hk2 : Nat.min (since / cfg.interval + 1) usizeMax * cfg.interval ≤
          (since / cfg.interval + 1) * cfg.interval := Nat.mul_le_mul_right _ hk
      have e : (since / cfg.interval + 1) * cfg.interval = cfg.interval * (since / cfg.interval) + cfg.interval := by
        rw [Nat.add_mul, Nat.one_mul, Nat.mul_comm]
      rw [← Int.mul_assoc]
      generalize hz : Nat.min (since / cfg.interval + 1) usizeMax * cfg.interval = z at hk2
      have hz' : ((Nat.min (since / cfg.interval + 1) usizeMax : Nat) : Int) * (cfg.interval : Int) = (z : Int) := by
        rw [← hz]; push_cast; rfl
      rw [hz']
      generalize cfg.interval * (since / cfg.interval) = q at *
      generalize since % cfg.interval = rm at *
      show now + ((cfg.interval : Int) - (rm : Nat)) * 1000000 ≥ c.deadline + (z : Int) * 1000000
      omega
    · intro _
      split <;> omega
    · right
      show now + ((cfg.interval : Int) - ((since % cfg.interval : Nat) : Int)) * 1000000 ≤ _
      omega
    · show now < now + ((cfg.interval : Int) - ((since % cfg.interval : Nat) : Int)) * 1000000
      omega

theorem rateStep_spec (cfg : RateCfg) (c : Critical) (r : Req) (hr : r.permits ≠ 0) :
    (rateStep cfg c r).1.deadline = (updateCritical cfg c r.now).deadline ∧
    (rateStep cfg c r).2 + (rateStep cfg c r).1.balance = (updateCritical cfg c r.now).balance ∧
    (rateStep cfg c r).2 ≤ r.permits := by
  unfold rateStep acquire acquireClosed
  simp only [hr, if_false]
  split <;> split <;> (refine ⟨rfl, ?_, ?_⟩ <;> simp_all <;> omega)

theorem rateRun_bound (cfg : RateCfg) (hi : 0 < cfg.interval) (c : Critical) (rs : List Req) (t : Int)
    (ht : ∀ r ∈ rs, r.now ≤ t) :
    ∃ k : Nat, (rateRun cfg c rs).2 + (rateRun cfg c rs).1.balance ≤ c.balance + k * cfg.refill ∧
      (rateRun cfg c rs).1.deadline ≥ c.deadline + k * (cfg.interval * 1000000) ∧
      (c.balance ≤ cfg.max → (rateRun cfg c rs).1.balance ≤ cfg.max) ∧
      ((rateRun cfg c rs).1.deadline = c.deadline ∨
        (rateRun cfg c rs).1.deadline ≤ t + cfg.interval * 1000000) := by
  induction rs generalizing c with
  | nil => exact ⟨0, by simp [rateRun], by simp [rateRun], fun h => h, Or.inl rfl⟩
  | cons r rs ih =>
    have htr : r.now ≤ t := ht r (by simp)
    simp only [rateRun]
    obtain ⟨k, h1, h2, h3, h4⟩ := ih (rateStep cfg c r).1 (fun x hx => ht x (by simp [hx]))
    by_cases hr : r.permits = 0
    · have : rateStep cfg c r = (c, 0) := by
        unfold rateStep acquire acquireClosed; simp [hr]
      rw [this] at h1 h2 h3 h4 ⊢
      exact ⟨k, by simpa using h1, h2, h3, h4⟩
    · obtain ⟨s1, s2, _⟩ := rateStep_spec cfg c r hr
      obtain ⟨j, u1, u2, u3, u4, _⟩ := updateCritical_spec cfg hi c r.now
      refine ⟨j + k, ?_, ?_, ?_, ?_⟩
      · rw [Nat.add_mul]; omega
      · rw [s1] at h2
        push_cast
        rw [Int.add_mul]; omega
      · intro hb
        exact h3 (by have := u3 hb; omega)
      · rw [s1] at h4
        rcases h4 with h4 | h4
        · rcases u4 with u4 | u4
          · left; rw [h4, u4]
          · right; omega
        · right; exact h4

/-- C51: after a request served at clock reading `t₁`, the permits granted by any later requests whose
clock readings do not exceed `t₂` are at most the maximum burst plus one refill for every started
interval in between.  Clock readings need not be monotone.  Every bucket made by the builder meets the
balance condition (`C51_build`). -/
theorem C51_rate_limit (cfg : RateCfg) (hi : 0 < cfg.interval) (c : Critical) (hb : c.balance ≤ cfg.max)
    (r : Req) (hr : r.permits ≠ 0) (rs : List Req) (t₂ : Int) (ht : ∀ x ∈ rs, x.now ≤ t₂)
    (h12 : r.now ≤ t₂) :
    (rateRun cfg (rateStep cfg c r).1 rs).2 ≤
      cfg.max + cfg.refill * ((t₂ - r.now).toNat / (cfg.interval * 1000000) + 1) := by
  obtain ⟨s1, s2, _⟩ := rateStep_spec cfg c r hr
  obtain ⟨_, _, _, u3, _, u5⟩ := updateCritical_spec cfg hi c r.now
  obtain ⟨k, h1, h2, _, h4⟩ := rateRun_bound cfg hi (rateStep cfg c r).1 rs t₂ ht
  rw [s1] at h2 h4
  have hbal : (rateStep cfg c r).1.balance ≤ cfg.max := by have := u3 hb; omega
  have hk : k ≤ (t₂ - r.now).toNat / (cfg.interval * 1000000) + 1 := by
    have hI : 0 < cfg.interval * 1000000 := by omega
    have hpos : (0 : Int) < (cfg.interval : Int) * 1000000 := by omega
    rcases h4 with h4 | h4
    · have : (k : Int) * ((cfg.interval : Int) * 1000000) ≤ 0 := by omega
      have : k = 0 := by
        by_contra hk
        have : (0 : Int) < (k : Int) * ((cfg.interval : Int) * 1000000) :=
          Int.mul_pos (by omega) hpos
        omega
      rw [this]; exact Nat.zero_le _
    · have h5 : (k : Int) * ((cfg.interval : Int) * 1000000) <
          (t₂ - r.now) + (cfg.interval : Int) * 1000000 := by omega
      cases k with
      | zero => exact Nat.zero_le _
      | succ k =>
        apply Nat.succ_le_succ
        rw [Nat.le_div_iff_mul_le hI]
        have h6 : ((k * (cfg.interval * 1000000) : Nat) : Int) =
            (k : Int) * ((cfg.interval : Int) * 1000000) := by rw [Int.natCast_mul, Int.natCast_mul]; rfl
        rw [Int.natCast_add, Int.natCast_one] at h5
        rw [Int.add_mul, Int.one_mul] at h5
        omega
  have : k * cfg.refill ≤ cfg.refill * ((t₂ - r.now).toNat / (cfg.interval * 1000000) + 1) := by
    rw [Nat.mul_comm]; exact Nat.mul_le_mul_left _ hk
  omega

/-- A built bucket starts within its maximum. -/
theorem C51_build (max : Option Nat) (initial refill interval : Nat) (now : Int) :
    (RateCfg.build max initial refill interval now).2.balance ≤
      (RateCfg.build max initial refill interval now).1.max := by
  unfold RateCfg.build; exact Nat.min_le_right _ _

/-- `acquire` grants all or nothing, and grants whenever the balance suffices. -/
theorem C51_acquire_all_or_nothing (cfg : RateCfg) (c : Critical) (now : Int) (n : Nat) :
    ((acquire cfg c now n).2 = n ∨ (acquire cfg c now n).2 = 0) ∧
    (n ≤ (updateCritical cfg c now).balance → (acquire cfg c now n).2 = n) := by
  unfold acquire
  by_cases h : n = 0
  · simp [h]
  · simp only [h, if_false]
    split <;> simp_all

example : (rateRun ⟨10, 100, 50⟩ ⟨50, 100000000⟩ [⟨0, 40, false⟩, ⟨1, 20, false⟩, ⟨250000000, 25, false⟩,
    ⟨250000000, 10, true⟩]).2 = 40 + 0 + 25 + 5 := by decide +kernel

/-! ## C52 memory pool -/

/-- The state after a schedule. -/
def Pool.run (word : Nat) (p : Pool) (ops : List PoolOp) : Pool := ops.foldl (Pool.step word) p

theorem sum_set (l : List Nat) (i s : Nat) (h : l[i]? = some s) (v : Nat) :
    (l.set i v).sum + s = l.sum + v := by
  induction l generalizing i with
  | nil => simp at h
  | cons a l ih =>
    cases i with
    | zero => simp at h; subst h; simp; omega
    | succ i => simp at h; have := ih i h; simp; omega

theorem le_sum (l : List Nat) (i s : Nat) (h : l[i]? = some s) : s ≤ l.sum := by
  have := sum_set l i s h 0; omega

theorem wrap_sub {word u n : Nat} (h : n ≤ u) (hu : u < word) : (u + word - n) % word = u - n := by
  have : u + word - n = (u - n) + word := by omega
  rw [this, Nat.add_mod_right, Nat.mod_eq_of_lt (by omega)]

/-- C52: with requests that do not overflow the machine word on top of the pool size, the reserved
total equals the sum of the live reservations and stays within the pool, under any schedule. -/
theorem C52_pool_bound_partial (word : Nat) (p : Pool) (hsz : p.size < word) (h0 : p.used = p.live.sum)
    (hb : p.used ≤ p.size) (ops : List PoolOp)
    (hops : ∀ i n, PoolOp.tryGrow i n ∈ ops → p.size + n < word) :
    (p.run word ops).used = (p.run word ops).live.sum ∧ (p.run word ops).used ≤ p.size ∧ (p.run word ops).size = p.size := by
  induction ops generalizing p with
  | nil => exact ⟨h0, hb, rfl⟩
  | cons op ops ih =>
    have key : (p.step word op).used = (p.step word op).live.sum ∧ (p.step word op).used ≤ p.size ∧
        (p.step word op).size = p.size := by
      cases op with
      | register => simp [Pool.step, h0.symm, hb]
      | tryGrow i n =>
        have hn := hops i n (by simp)
        simp only [Pool.step]
        cases hl : p.live[i]? with
        | none => exact ⟨h0, hb, rfl⟩
        | some s =>
          have := sum_set _ _ _ hl (s + n)
          have hm : (p.used + n) % word = p.used + n := Nat.mod_eq_of_lt (by omega)
          simp only [hm]
          split
          · exact ⟨by show p.used + n = (p.live.set i (s + n)).sum; omega, by assumption, rfl⟩
          · exact ⟨h0, hb, rfl⟩
      | shrink i n =>
        simp only [Pool.step]
        cases hl : p.live[i]? with
        | none => exact ⟨h0, hb, rfl⟩
        | some s =>
          have h1 := le_sum _ _ _ hl
          simp only
          split
          · have := sum_set _ _ _ hl (s - n)
            have hm : (p.used + word - n) % word = p.used - n := wrap_sub (by omega) (by omega)
            simp only [hm]
            exact ⟨by omega, by omega, trivial⟩
          · exact ⟨h0, hb, rfl⟩
      | free i =>
        simp only [Pool.step]
        cases hl : p.live[i]? with
        | none => exact ⟨h0, hb, rfl⟩
        | some s =>
          have h1 := le_sum _ _ _ hl
          have := sum_set _ _ _ hl 0
          have hm : (p.used + word - s) % word = p.used - s := wrap_sub (by omega) (by omega)
          simp only [hm]
          exact ⟨by omega, by omega, trivial⟩
    obtain ⟨k1, k2, k3⟩ := key
    have := ih (p.step word op) (by rw [k3]; exact hsz) k1 (by rw [k3]; exact k2)
      (fun i n hin => by rw [k3]; exact hops i n (by simp [hin]))
    rw [k3] at this
    exact this

/-- A request that fits in what is left is granted. -/
theorem C52_fitting_request_granted (word : Nat) (p : Pool) (i s n : Nat) (hl : p.live[i]? = some s)
    (hsz : p.size < word) (hfit : p.used + n ≤ p.size) :
    (p.step word (.tryGrow i n)).live[i]? = some (s + n) := by
  have hi : i < p.live.length := (List.getElem?_eq_some_iff.1 hl).1
  have hm : (p.used + n) % word = p.used + n := Nat.mod_eq_of_lt (by omega)
  simp only [Pool.step, hl, hm, hfit, if_true]
  simp [hi]

example : ((⟨100, 0, []⟩ : Pool).run (2 ^ 64) [.register, .register, .tryGrow 0 60, .tryGrow 1 50, .tryGrow 1 40,
    .shrink 0 10]).live = [50, 40] := by decide +kernel

/-- C52 is false for requests near the word size: the sum wraps and the request is granted. -/
theorem C52_wrapping_request_refuted :
    ∃ (p : Pool) (i n : Nat), p.used = p.live.sum ∧ p.used ≤ p.size ∧ p.size < (2 ^ 64) ∧ n < (2 ^ 64) ∧
      p.size < (p.step (2 ^ 64) (.tryGrow i n)).live.sum ∧
      (p.step (2 ^ 64) (.tryGrow i n)).used ≠ (p.step (2 ^ 64) (.tryGrow i n)).live.sum :=
  ⟨⟨100, 1, [1]⟩, 0, (2 ^ 64) - 1, by decide +kernel, by decide +kernel, by decide +kernel, by decide +kernel, by decide +kernel,
    by decide +kernel⟩

end Verif.Utils
