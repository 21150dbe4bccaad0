import Verif.Quota.Model
/-!
# Limits of retention, and options that ALTER DATABASE does not name
-/
namespace Verif.Quota

/-- C206: no retention is longer than INF, and a limit of more days than a duration can have is INF. -/
theorem C206_longest (t : Ttl) (d : Nat) (h : 213503982334601 < d) : t.ns ≤ Ttl.inf.ns ∧ ofDays d = .inf := by
  constructor
  · cases t with
    | inf => exact Nat.le_refl _
    | nanos n => exact Nat.min_le_right _ _
  · unfold ofDays
    rw [if_pos]
    have : u64Max / 24 / 60 / 60 = 213503982334601 := by decide
    rw [this]; exact h

/-- C206: more days are no shorter a limit. -/
theorem C206_days_mono (a b : Nat) (h : a ≤ b) : (ofDays a).ns ≤ (ofDays b).ns := by
  unfold ofDays
  have hu : u64Max / 24 / 60 / 60 = 213503982334601 := by decide
  rw [hu]
  by_cases hb : 213503982334601 < b
  · rw [if_pos hb]
    split
    · exact Nat.le_refl _
    · exact Nat.min_le_right _ _
  · rw [if_neg hb, if_neg (by omega)]
    unfold Ttl.ns
    dsimp only
    omega

/-- C206: options that ALTER DATABASE does not name stay, those that it names are set. -/
theorem C206_alter_options (b : Builder) (o : Options) :
    (b.replica = none → (b.apply o).replica = o.replica) ∧ (b.shards = none → (b.apply o).shards = o.shards) ∧
    (b.ttl = none → (b.apply o).ttl = o.ttl) ∧ (∀ n, b.replica = some n → (b.apply o).replica = n) ∧
    (∀ n, b.shards = some n → (b.apply o).shards = n) ∧ (∀ t, b.ttl = some t → (b.apply o).ttl = t) := by
  unfold Builder.apply
  refine ⟨?_, ?_, ?_, ?_, ?_, ?_⟩ <;> intros <;> simp_all

example : (Builder.apply { shards := some 3 } ⟨2, 1, .inf⟩) = ⟨2, 3, .inf⟩ := by decide

end Verif.Quota
