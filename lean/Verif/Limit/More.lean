import Verif.Limit.Witness
/-!
# More properties of limits: which tokens a request uses, and which settings a kind has
-/
namespace Verif.Limit

/-- C165: checks one after another pass exactly if the first passes and then the others. -/
theorem C165_in_turn (w w' : World) (i : Nat) (t : String) (now : Int) (net : Net) (c : Check) (cs : List Check) :
    w.checks i t now net (c :: cs) = (w', .pass) ↔
      ∃ w₁, w.check i t c now net = (w₁, .pass) ∧ w₁.checks i t now net cs = (w', .pass) := by
  rw [World.checks]
  cases h : w.check i t c now net with
  | mk w₁ a =>
    cases a with
    | pass => simp
    | limited => simp
    | error => simp
    | crash => simp

/-- C165: a write of `n` bytes by HTTP passes exactly if there is a token for a write and then `n` for bytes. -/
theorem C165_http_write (w w' : World) (i : Nat) (t : String) (now : Int) (net : Net) (n : Nat) :
    w.checks i t now net (httpWriteChecks n) = (w', .pass) ↔
      ∃ w₁, w.check i t .httpWrite now net = (w₁, .pass) ∧ w₁.check i t (.httpDataIn n) now net = (w', .pass) := by
  rw [httpWriteChecks, C165_in_turn]
  refine exists_congr fun w₁ => and_congr_right fun _ => ?_
  rw [C165_in_turn]
  constructor
  · rintro ⟨w₂, h1, h2⟩
    cases h2; exact h1
  · intro h; exact ⟨w', h, rfl⟩

/-- C165: a query of `n` bytes by HTTP passes exactly if there is a token for a query and then `n` for bytes. -/
theorem C165_http_query (w w' : World) (i : Nat) (t : String) (now : Int) (net : Net) (n : Nat) :
    w.checks i t now net (httpQueryChecks n) = (w', .pass) ↔
      ∃ w₁, w.check i t .httpQuery now net = (w₁, .pass) ∧ w₁.check i t (.httpDataIn n) now net = (w', .pass) := by
  rw [httpQueryChecks, C165_in_turn]
  refine exists_congr fun w₁ => and_congr_right fun _ => ?_
  rw [C165_in_turn]
  constructor
  · rintro ⟨w₂, h1, h2⟩
    cases h2; exact h1
  · intro h; exact ⟨w', h, rfl⟩

/-- C165: what is counted: bytes for data, one for each request. -/
theorem C165_sizes (n : Nat) :
    (Check.coordDataIn n).size = n ∧ (Check.coordDataOut n).size = n ∧ (Check.httpDataIn n).size = n ∧ (Check.httpDataOut n).size = n ∧
    Check.coordQuery.size = 1 ∧ Check.coordWrite.size = 1 ∧ Check.httpQuery.size = 1 ∧ Check.httpWrite.size = 1 :=
  ⟨rfl, rfl, rfl, rfl, rfl, rfl, rfl, rfl⟩

/-- C167: each kind of request has the setting of its own name, on the nodes and on the meta server. -/
theorem C167_own_setting (s : RequestSet) (now : Int) :
    let here := fun k => Local.load (some s) k
    let there := fun k => Remote.load s now k
    let c := fun b : Option BucketSet => b.map fun b => Count.of b.here
    let r := fun b : Option BucketSet => b.map fun b => Rate.of b.remote now
    here .coordDataIn = c s.coordDataIn ∧ here .coordDataOut = c s.coordDataOut ∧ here .coordQueries = c s.coordQueries ∧
    here .coordWrites = c s.coordWrites ∧ here .httpDataIn = c s.httpDataIn ∧ here .httpDataOut = c s.httpDataOut ∧
    here .httpQueries = c s.httpQueries ∧ here .httpWrites = c s.httpWrites ∧
    there .coordDataIn = r s.coordDataIn ∧ there .coordDataOut = r s.coordDataOut ∧ there .coordQueries = r s.coordQueries ∧
    there .coordWrites = r s.coordWrites ∧ there .httpDataIn = r s.httpDataIn ∧ there .httpDataOut = r s.httpDataOut ∧
    there .httpQueries = r s.httpQueries ∧ there .httpWrites = r s.httpWrites :=
  ⟨rfl, rfl, rfl, rfl, rfl, rfl, rfl, rfl, rfl, rfl, rfl, rfl, rfl, rfl, rfl, rfl⟩

/-- C165: without a maximum the meta server keeps at most ten times the larger of a refill and the first tokens. -/
theorem C165_default_max (s : RateSet) (now : Int) (h : s.max = none) (hs : s.refill * 10 < 2 ^ 64) (hi : s.initial * 10 < 2 ^ 64) :
    (Rate.of s now).max = 10 * max s.refill s.initial ∧ (Rate.of s now).balance = s.initial := by
  unfold Rate.of
  rw [h]
  simp only [Verif.Utils.usizeMax]
  constructor
  · show Nat.min (Nat.max s.refill s.initial * 10) _ = _
    simp only [Nat.min_def, Nat.max_def]
    split <;> split <;> omega
  · show Nat.min s.initial (Nat.min (Nat.max s.refill s.initial * 10) _) = _
    simp only [Nat.min_def, Nat.max_def]
    split <;> split <;> split <;> omega

/-- C166: the meta server gives what is asked for if it has no limiter for the tenant, or none of the kind. -/
theorem C166_no_limiter (w : World) (t : String) (k : Kind) (max now : Int) (h : ∀ r, w.remote t = some r → r k = none) :
    w.give t k max now = some (w, max) := by
  unfold World.give
  cases hr : w.remote t with
  | none => rfl
  | some r => simp only [h r hr]

/-- C165: a negative size is refused. -/
theorem C165_negative (b : Count) (x : Int) (h : x < 0) : require b x = (b, .fail) := by
  unfold require
  exact if_pos h

/-- C167: CREATE TENANT makes a tenant with its limits, once. -/
theorem C167_create (w : World) (t : String) (o : Options) (now : Int) :
    (w.tenants t ≠ none → w.createTenant t o now = none) ∧
    (w.tenants t = none → ∃ w', w.createTenant t o now = some w' ∧ w'.tenants t = some o ∧
      w'.remote t = o.request.map (fun s => Remote.load s now) ∧
      ∀ t', t' ≠ t → w'.tenants t' = w.tenants t' ∧ w'.remote t' = w.remote t') := by
  constructor
  · intro h
    unfold World.createTenant
    cases hx : w.tenants t with
    | none => exact absurd hx h
    | some _ => rfl
  · intro h
    refine ⟨{ w.fresh t o now with tenants := put w.tenants t (some o) }, by unfold World.createTenant; rw [h], ?_, ?_, ?_⟩
    · simp [put]
    · simp [World.fresh, put]
    · intro t' ht; simp [World.fresh, put, ht]


/-- A write by HTTP that uses a token of each kind. -/
example : httpWriteChecks 5 = [.httpWrite, .httpDataIn 5] ∧ (require ⟨3, none⟩ (-1)).1 = ⟨3, none⟩ := by decide +kernel

end Verif.Limit
