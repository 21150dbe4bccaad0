import Verif.Reader.Model
/-!
# The tree of losers gives the least cursor
-/
namespace Verif.Reader

/-- The other child of the parent of a node. -/
def sib (d : Nat) : Nat := if d % 2 = 0 then d + 1 else d - 1

theorem sib_cases (c : Nat) : (c = 2 * (c / 2) ∧ sib c = 2 * (c / 2) + 1) ∨ (c = 2 * (c / 2) + 1 ∧ sib c = 2 * (c / 2)) := by
  unfold sib; split <;> omega

theorem nodeAt_set_self {t : List (Option Nat)} {k : Nat} (h : k < t.length) (v : Option Nat) : nodeAt (t.set k v) k = v := by
  simp [nodeAt, h]

theorem nodeAt_set_ne {t : List (Option Nat)} {k j : Nat} (h : j ≠ k) (v : Option Nat) : nodeAt (t.set k v) j = nodeAt t j := by
  simp [nodeAt, List.getElem?_set_ne (Ne.symm h)]

/-- At node `k` the winners of the two children met: the lesser one is the winner, the other one stays as the loser. -/
def Local (le : Nat → Nat → Prop) (W : Nat → Nat) (L : Nat → Option Nat) (k : Nat) : Prop :=
  ∃ l, L k = some l ∧ (W k = W (2 * k) ∧ l = W (2 * k + 1) ∨ W k = W (2 * k + 1) ∧ l = W (2 * k)) ∧ le (W k) l

/-- A complete tree for `n` inputs: `W` gives the winner of each node, leaf `n + i` belongs to input `i`. -/
structure Good (le : Nat → Nat → Prop) (n : Nat) (t : List (Option Nat)) (W : Nat → Nat) : Prop where
  len : t.length = n
  leaf : ∀ i < n, W (n + i) = i
  node : ∀ k, 1 ≤ k → k < n → Local le W (nodeAt t) k
  top : nodeAt t 0 = some (W 1)

theorem Good.below {le : Nat → Nat → Prop} {n : Nat} {t : List (Option Nat)} {W : Nat → Nat} (h : Good le n t W)
    (refl : ∀ a, le a a) (trans : ∀ a b c, le a b → le b c → le a c) :
    ∀ k, 1 ≤ k → k < 2 * n → le (W 1) (W k) := by
  intro k
  induction k using Nat.strongRecOn with
  | ind k ih =>
    intro h1 h2
    by_cases hk : k = 1
    · subst hk; exact refl _
    · have h3 := ih (k / 2) (by omega) (by omega) (by omega)
      obtain ⟨l, _, h5, h6⟩ := h.node (k / 2) (by omega) (by omega)
      refine trans _ _ _ h3 ?_
      rcases sib_cases k with ⟨e, _⟩ | ⟨e, _⟩ <;> rcases h5 with ⟨h7, h8⟩ | ⟨h7, h8⟩
      · rw [h7, ← e]; exact refl _
      · rw [h8, ← e] at h6; exact h6
      · rw [h8, ← e] at h6; exact h6
      · rw [h7, ← e]; exact refl _

/-- The winner of a complete tree is the least input. -/
theorem Good.least {le : Nat → Nat → Prop} {n : Nat} {t : List (Option Nat)} {W : Nat → Nat} (h : Good le n t W)
    (refl : ∀ a, le a a) (trans : ∀ a b c, le a b → le b c → le a c) {i : Nat} (hi : i < n) : le (W 1) i := by
  have := h.below refl trans (n + i) (by omega) (by omega)
  rwa [h.leaf i hi] at this

/-- The winner of a node is the input of a leaf below it. -/
theorem Good.anc {le : Nat → Nat → Prop} {n : Nat} {t : List (Option Nat)} {W : Nat → Nat} (h : Good le n t W) :
    ∀ d k, 2 * n - k = d → 1 ≤ k → k < 2 * n → W k < n ∧ ∃ j, (n + W k) / 2 ^ j = k := by
  intro d
  induction d using Nat.strongRecOn with
  | ind d ih =>
    intro k hd h1 h2
    by_cases hk : k < n
    · obtain ⟨l, _, h5, _⟩ := h.node k h1 hk
      have step : ∀ c, (c = 2 * k ∨ c = 2 * k + 1) → W k = W c → W k < n ∧ ∃ j, (n + W k) / 2 ^ j = k := by
        intro c hc he
        obtain ⟨h6, j, h7⟩ := ih (2 * n - c) (by omega) c rfl (by omega) (by omega)
        refine ⟨by omega, j + 1, ?_⟩
        rw [he, Nat.pow_succ, ← Nat.div_div_eq_div_mul, h7]
        omega
      rcases h5 with ⟨h6, _⟩ | ⟨h6, _⟩
      · exact step _ (.inl rfl) h6
      · exact step _ (.inr rfl) h6
    · have := h.leaf (k - n) (by omega)
      rw [show n + (k - n) = k by omega] at this
      exact ⟨by omega, 0, by rw [this]; simp; omega⟩

theorem two_mul_div_pow (k j : Nat) : 2 * (k / 2 ^ (j + 1)) ≤ k / 2 ^ j := by
  rw [Nat.pow_succ, ← Nat.div_div_eq_div_mul]; omega

theorem div_pow_le (k j : Nat) : k / 2 ^ j ≤ k := Nat.div_le_self _ _

/-- Two children of one node are not both above (or equal to) one leaf. -/
theorem not_both {c d j m : Nat} (hd : 2 ≤ d) (h1 : c / 2 ^ j = d) (h2 : c / 2 ^ m = sib d) : False := by
  have hne : sib d ≠ d := by unfold sib; split <;> omega
  have key : ∀ (a b x y : Nat), c / 2 ^ a = x → c / 2 ^ b = y → a < b → 2 * y ≤ x := by
    intro a b x y hx hy hab
    obtain ⟨e, rfl⟩ : ∃ e, b = a + 1 + e := ⟨b - (a + 1), by omega⟩
    have h3 := two_mul_div_pow c a
    have h4 : c / 2 ^ (a + 1 + e) ≤ c / 2 ^ (a + 1) := by
      rw [Nat.pow_add, ← Nat.div_div_eq_div_mul]; exact Nat.div_le_self _ _
    omega
  have hs := sib_cases d
  rcases Nat.lt_trichotomy j m with h | h | h
  · have := key j m _ _ h1 h2 h; omega
  · subst h; omega
  · have := key m j _ _ h2 h1 h; omega

/-! ## Replacing the winner -/

/-- A tree where the walk from node `c` upwards is still to be done, with `r` winning at `c`. -/
structure Hole (le : Nat → Nat → Prop) (n : Nat) (t : List (Option Nat)) (W : Nat → Nat) (c r : Nat) : Prop where
  len : t.length = n
  leaf : ∀ i < n, W (n + i) = i
  pos : 1 ≤ c
  lt : c < 2 * n
  win : W c = r
  off : ∀ k, 1 ≤ k → k < n → (∀ j, c / 2 ^ (j + 1) ≠ k) → Local le W (nodeAt t) k
  on : ∀ j, 1 ≤ c / 2 ^ (j + 1) → nodeAt t (c / 2 ^ (j + 1)) = some (W (sib (c / 2 ^ j)))

/-- One step of the walk. -/
theorem Hole.up {le : Nat → Nat → Prop} {n : Nat} {t t' : List (Option Nat)} {W : Nat → Nat} {c r r' l : Nat}
    (h : Hole le n t W c r) (hk : 1 ≤ c / 2) (hlen : t'.length = n) (hne : ∀ j, j ≠ c / 2 → nodeAt t' j = nodeAt t j)
    (hl : nodeAt t' (c / 2) = some l) (hle : le r' l)
    (har : r' = r ∧ l = W (sib c) ∨ r' = W (sib c) ∧ l = r) :
    Hole le n t' (fun x => if x = c / 2 then r' else W x) (c / 2) r' := by
  have hlt := h.lt
  have hdd : ∀ j, c / 2 / 2 ^ (j + 1) = c / 2 ^ (j + 1 + 1) := by
    intro j; rw [Nat.div_div_eq_div_mul, Nat.pow_succ 2 (j + 1), Nat.mul_comm]
  have hdd0 : ∀ j, c / 2 / 2 ^ j = c / 2 ^ (j + 1) := by
    intro j; rw [Nat.div_div_eq_div_mul, Nat.pow_succ, Nat.mul_comm]
  refine ⟨hlen, ?_, hk, by omega, by simp, ?_, ?_⟩
  · intro i hi
    rw [if_neg (by omega)]
    exact h.leaf i hi
  · intro j hj1 hj2 hj
    by_cases hjk : j = c / 2
    · subst hjk
      have e1 : ¬ 2 * (c / 2) = c / 2 := by omega
      have e2 : ¬ 2 * (c / 2) + 1 = c / 2 := by omega
      refine ⟨l, hl, ?_, by simpa using hle⟩
      simp only [if_true, if_neg e1, if_neg e2]
      have hw := h.win
      rcases sib_cases c with ⟨h1, h2⟩ | ⟨h1, h2⟩ <;> rcases har with ⟨h3, h4⟩ | ⟨h3, h4⟩
      · exact .inl ⟨h3.trans (hw.symm.trans (congrArg W h1)), h4.trans (congrArg W h2)⟩
      · exact .inr ⟨h3.trans (congrArg W h2), h4.trans (hw.symm.trans (congrArg W h1))⟩
      · exact .inr ⟨h3.trans (hw.symm.trans (congrArg W h1)), h4.trans (congrArg W h2)⟩
      · exact .inl ⟨h3.trans (congrArg W h2), h4.trans (hw.symm.trans (congrArg W h1))⟩
    · have h0 := hj 0
      rw [Nat.pow_one] at h0
      obtain ⟨l', h1, h2, h3⟩ := h.off j hj1 hj2 (by
        intro m
        cases m with
        | zero => simpa using fun e => hjk e.symm
        | succ m => rw [← hdd]; exact hj m)
      refine ⟨l', by rw [hne j hjk]; exact h1, ?_, ?_⟩
      · simp only [if_neg hjk]
        rw [if_neg (by omega), if_neg (by omega)]
        exact h2
      · simp only [if_neg hjk]
        exact h3
  · intro j hj
    have hj2 := two_mul_div_pow (c / 2) j
    have hj3 := div_pow_le (c / 2) j
    rw [hne _ (by omega)]
    have := h.on (j + 1) (by rw [← hdd]; exact hj)
    rw [← hdd] at this
    rw [this, ← hdd0 j]
    congr 1
    rw [if_neg]
    cases j with
    | zero =>
      simp only [Nat.pow_zero, Nat.div_one]
      unfold sib; split <;> omega
    | succ j =>
      have h4 := two_mul_div_pow (c / 2) j
      have h5 := div_pow_le (c / 2) j
      have := sib_cases (c / 2 / 2 ^ (j + 1))
      omega

theorem Hole.climb {le : Nat → Nat → Prop} {gt : Nat → Nat → Bool} (h1 : ∀ a b, gt a b = true → le b a)
    (h2 : ∀ a b, gt a b = false → le a b) {n : Nat} :
    ∀ (c : Nat) {t : List (Option Nat)} {W : Nat → Nat} {r : Nat}, Hole le n t W c r →
      ∃ W', Good le n (climbUpdate gt t (c / 2) r) W' := by
  intro c
  induction c using Nat.strongRecOn with
  | ind c ih =>
    intro t W r h
    have hpos := h.pos
    have hlt := h.lt
    unfold climbUpdate
    split
    · rename_i h0
      have hc : c = 1 := by omega
      subst hc
      refine ⟨W, by simp [h.len], h.leaf, ?_, ?_⟩
      · intro k hk1 hk2
        obtain ⟨l, h3, h4⟩ := h.off k hk1 hk2 (by
          intro j; have := two_mul_div_pow 1 j; have := div_pow_le 1 j; omega)
        exact ⟨l, by rw [nodeAt_set_ne (by omega)]; exact h3, h4⟩
      · rw [nodeAt_set_self (by rw [h.len]; omega), h.win]
    · rename_i h0
      have hon := h.on 0 (by simpa using Nat.one_le_iff_ne_zero.2 h0)
      simp only [Nat.zero_add, Nat.pow_one, Nat.pow_zero, Nat.div_one] at hon
      rw [hon]
      simp only
      split
      · rename_i hg
        exact ih (c / 2) (by omega) (h.up (by omega) (by simp [h.len]) (fun j hj => nodeAt_set_ne hj _)
          (nodeAt_set_self (by rw [h.len]; omega) _) (h1 _ _ hg) (.inr ⟨rfl, rfl⟩))
      · rename_i hg
        exact ih (c / 2) (by omega) (h.up (by omega) h.len (fun j _ => rfl) hon
          (h2 _ _ (by simpa using hg)) (.inl ⟨rfl, rfl⟩))

/-- The input of the winner changed: walking up from its leaf repairs the tree. -/
theorem Good.update {le le' : Nat → Nat → Prop} {gt : Nat → Nat → Bool} (h1 : ∀ a b, gt a b = true → le' b a)
    (h2 : ∀ a b, gt a b = false → le' a b) {n : Nat} {t : List (Option Nat)} {W : Nat → Nat} (hn : 1 ≤ n) (h : Good le n t W)
    (hle : ∀ a b, a ≠ W 1 → b ≠ W 1 → le a b → le' a b) :
    ∃ W', Good le' n (climbUpdate gt t (leafNode n (W 1)) (W 1)) W' := by
  obtain ⟨hw, _⟩ := h.anc _ 1 rfl (by omega) (by omega)
  generalize hwd : W 1 = w at *
  have hlf := h.leaf w hw
  -- the winner wins at all nodes above its leaf
  have hpath : ∀ k, 1 ≤ k → ∀ j, (n + w) / 2 ^ j = k → W k = w := by
    intro k
    induction k using Nat.strongRecOn with
    | ind k ih =>
      intro hk j hj
      by_cases hk1 : k = 1
      · subst hk1; exact hwd
      · have hk2 : k / 2 = (n + w) / 2 ^ (j + 1) := by rw [Nat.pow_succ, ← Nat.div_div_eq_div_mul, hj]
        have h3 := ih (k / 2) (by omega) (by omega) (j + 1) hk2.symm
        have hkn : k < 2 * n := by
          have := div_pow_le (n + w) j; omega
        obtain ⟨l, _, h5, _⟩ := h.node (k / 2) (by omega) (by omega)
        have hs : W (sib k) ≠ w := by
          intro he
          have hsc := sib_cases k
          obtain ⟨_, m, h6⟩ := h.anc _ (sib k) rfl (by omega) (by omega)
          rw [he] at h6
          exact not_both (by omega) hj h6
        rcases sib_cases k with ⟨e1, e2⟩ | ⟨e1, e2⟩ <;> rcases h5 with ⟨h7, _⟩ | ⟨h7, _⟩
        · rw [← e1] at h7; rw [← h7]; exact h3
        · rw [← e2] at h7; exact absurd (h7.symm.trans h3) hs
        · rw [← e2] at h7; exact absurd (h7.symm.trans h3) hs
        · rw [← e1] at h7; rw [← h7]; exact h3
  have hnot : ∀ k, 1 ≤ k → k < 2 * n → W k = w → ∃ j, (n + w) / 2 ^ j = k := by
    intro k hk1 hk2 he
    obtain ⟨_, m, h6⟩ := h.anc _ k rfl hk1 hk2
    rw [he] at h6
    exact ⟨m, h6⟩
  refine Hole.climb h1 h2 (n + w) (W := W) ⟨h.len, h.leaf, by omega, by omega, hlf, ?_, ?_⟩
  · intro k hk1 hk2 hk
    obtain ⟨l, h3, h4, h5⟩ := h.node k hk1 hk2
    have hup : ∀ x, (x = 2 * k ∨ x = 2 * k + 1) → W x ≠ w := by
      intro x hx he
      obtain ⟨j, hj⟩ := hnot x (by omega) (by omega) he
      apply hk j
      rw [Nat.pow_succ, ← Nat.div_div_eq_div_mul, hj]
      omega
    refine ⟨l, h3, h4, hle _ _ ?_ ?_ h5⟩
    · rcases h4 with ⟨h6, _⟩ | ⟨h6, _⟩ <;> rw [h6]
      · exact hup _ (.inl rfl)
      · exact hup _ (.inr rfl)
    · rcases h4 with ⟨_, h6⟩ | ⟨_, h6⟩ <;> rw [h6]
      · exact hup _ (.inr rfl)
      · exact hup _ (.inl rfl)
  · intro j hj
    have hkn : (n + w) / 2 ^ (j + 1) < n := by
      have := two_mul_div_pow (n + w) j
      have := div_pow_le (n + w) j
      omega
    have e0 : (n + w) / 2 ^ (j + 1) = (n + w) / 2 ^ j / 2 := by rw [Nat.pow_succ, ← Nat.div_div_eq_div_mul]
    obtain ⟨l, h3, h4, _⟩ := h.node _ hj hkn
    have h5 := hpath _ hj (j + 1) rfl
    have h6 := hpath ((n + w) / 2 ^ j) (by omega) j rfl
    rw [h3]
    congr 1
    rw [e0] at h4 h5
    rcases sib_cases ((n + w) / 2 ^ j) with ⟨e1, e2⟩ | ⟨e1, e2⟩ <;> rcases h4 with ⟨h7, h8⟩ | ⟨h7, h8⟩
    · rw [h8, e2]
    · rw [h8, ← e1, h6, e2, ← h7, h5]
    · rw [h8, ← e1, h6, e2, ← h7, h5]
    · rw [h8, e2]

/-! ## The first tree -/

/-- What is known at an inner node when the nodes in `D` are decided. -/
structure PartAt (le : Nat → Nat → Prop) (t : List (Option Nat)) (W : Nat → Nat) (D : Nat → Prop) (k : Nat) : Prop where
  dn : D k ↔ D (2 * k) ∧ D (2 * k + 1)
  both : D (2 * k) → D (2 * k + 1) → Local le W (nodeAt t) k
  left : D (2 * k) → ¬ D (2 * k + 1) → nodeAt t k = some (W (2 * k))
  right : ¬ D (2 * k) → D (2 * k + 1) → nodeAt t k = some (W (2 * k + 1))
  no : ¬ D (2 * k) → ¬ D (2 * k + 1) → nodeAt t k = none

/-- A tree during `init_loser_tree`. -/
structure Part (le : Nat → Nat → Prop) (n : Nat) (t : List (Option Nat)) (W : Nat → Nat) (D : Nat → Prop) : Prop where
  len : t.length = n
  leaf : ∀ i < n, W (n + i) = i
  node : ∀ k, 1 ≤ k → k < n → PartAt le t W D k
  top : D 1 → nodeAt t 0 = some (W 1)

/-- The same while the winner of node `c` is on its way up. -/
structure PartHole (le : Nat → Nat → Prop) (n : Nat) (t : List (Option Nat)) (W : Nat → Nat) (D : Nat → Prop) (c : Nat) : Prop where
  len : t.length = n
  leaf : ∀ i < n, W (n + i) = i
  pos : 1 ≤ c
  lt : c < 2 * n
  done : D c
  node : ∀ k, 1 ≤ k → k < n → k ≠ c / 2 → PartAt le t W D k
  undone : 1 ≤ c / 2 → ¬ D (c / 2)
  yes : 1 ≤ c / 2 → D (sib c) → nodeAt t (c / 2) = some (W (sib c))
  no : 1 ≤ c / 2 → ¬ D (sib c) → nodeAt t (c / 2) = none
  top : c ≠ 1 → D 1 → nodeAt t 0 = some (W 1)

theorem PartAt.congr {le : Nat → Nat → Prop} {t t' : List (Option Nat)} {W W' : Nat → Nat} {D D' : Nat → Prop} {k : Nat}
    (h : PartAt le t W D k) (hn : nodeAt t' k = nodeAt t k) (hw : ∀ x, x = k ∨ x = 2 * k ∨ x = 2 * k + 1 → W' x = W x)
    (hd : ∀ x, x = k ∨ x = 2 * k ∨ x = 2 * k + 1 → (D' x ↔ D x)) : PartAt le t' W' D' k := by
  have w0 := hw k (.inl rfl)
  have w1 := hw (2 * k) (.inr (.inl rfl))
  have w2 := hw (2 * k + 1) (.inr (.inr rfl))
  have d0 := hd k (.inl rfl)
  have d1 := hd (2 * k) (.inr (.inl rfl))
  have d2 := hd (2 * k + 1) (.inr (.inr rfl))
  refine ⟨by rw [d0, d1, d2]; exact h.dn, ?_, ?_, ?_, ?_⟩
  · rw [d1, d2]; intro a b
    obtain ⟨l, h1, h2, h3⟩ := h.both a b
    exact ⟨l, by rw [hn]; exact h1, by rw [w0, w1, w2]; exact h2, by rw [w0]; exact h3⟩
  · rw [d1, d2, hn, w1]; exact h.left
  · rw [d1, d2, hn, w2]; exact h.right
  · rw [d1, d2, hn]; exact h.no

theorem PartHole.up {le : Nat → Nat → Prop} {n : Nat} {t t' : List (Option Nat)} {W : Nat → Nat} {D : Nat → Prop} {c r' l : Nat}
    (h : PartHole le n t W D c) (hk : 1 ≤ c / 2) (hs : D (sib c)) (hlen : t'.length = n)
    (hne : ∀ j, j ≠ c / 2 → nodeAt t' j = nodeAt t j) (hl : nodeAt t' (c / 2) = some l) (hle : le r' l)
    (har : r' = W c ∧ l = W (sib c) ∨ r' = W (sib c) ∧ l = W c) :
    PartHole le n t' (fun x => if x = c / 2 then r' else W x) (fun x => x = c / 2 ∨ D x) (c / 2) := by
  have hlt := h.lt
  have hself : PartAt le t' (fun x => if x = c / 2 then r' else W x) (fun x => x = c / 2 ∨ D x) (c / 2) := by
    have e1 : ¬ 2 * (c / 2) = c / 2 := by omega
    have e2 : ¬ 2 * (c / 2) + 1 = c / 2 := by omega
    have d1 : D (2 * (c / 2)) := by
      rcases sib_cases c with ⟨h1, h2⟩ | ⟨h1, h2⟩
      · rw [← h1]; exact h.done
      · rw [← h2]; exact hs
    have d2 : D (2 * (c / 2) + 1) := by
      rcases sib_cases c with ⟨h1, h2⟩ | ⟨h1, h2⟩
      · rw [← h2]; exact hs
      · rw [← h1]; exact h.done
    refine ⟨⟨fun _ => ⟨.inr d1, .inr d2⟩, fun _ => .inl rfl⟩, fun _ _ => ?_, fun _ hx => absurd (.inr d2) hx,
      fun hx => absurd (.inr d1) hx, fun hx => absurd (.inr d1) hx⟩
    refine ⟨l, hl, ?_, by simpa using hle⟩
    simp only [if_true, if_neg e1, if_neg e2]
    rcases sib_cases c with ⟨h1, h2⟩ | ⟨h1, h2⟩ <;> rcases har with ⟨h3, h4⟩ | ⟨h3, h4⟩
    · exact .inl ⟨h3.trans (congrArg W h1), h4.trans (congrArg W h2)⟩
    · exact .inr ⟨h3.trans (congrArg W h2), h4.trans (congrArg W h1)⟩
    · exact .inr ⟨h3.trans (congrArg W h1), h4.trans (congrArg W h2)⟩
    · exact .inl ⟨h3.trans (congrArg W h2), h4.trans (congrArg W h1)⟩
  have hpar : 1 ≤ c / 2 / 2 → PartAt le t W D (c / 2 / 2) := by
    intro h2
    exact h.node _ h2 (by omega) (by omega)
  have hsne : sib (c / 2) ≠ c / 2 := by unfold sib; split <;> omega
  refine ⟨hlen, ?_, hk, by omega, .inl rfl, ?_, ?_, ?_, ?_, ?_⟩
  · intro i hi
    rw [if_neg (by omega)]
    exact h.leaf i hi
  · intro k hk1 hk2 hk3
    by_cases hkc : k = c / 2
    · rw [hkc]; exact hself
    · refine (h.node k hk1 hk2 hkc).congr (hne k hkc) ?_ ?_
      · intro x hx
        exact if_neg (by omega)
      · intro x hx
        exact ⟨fun hy => hy.resolve_left (by omega), .inr⟩
  · intro h2 hd
    rcases hd with hd | hd
    · omega
    · have := (hpar h2).dn.1 hd
      apply h.undone hk
      rcases sib_cases (c / 2) with ⟨h3, _⟩ | ⟨h3, _⟩
      · rw [h3]; exact this.1
      · rw [h3]; exact this.2
  · intro h2 hd
    have hd' : D (sib (c / 2)) := hd.resolve_left hsne
    rw [hne _ (by omega), if_neg hsne]
    have hu := h.undone hk
    rcases sib_cases (c / 2) with ⟨h3, h4⟩ | ⟨h3, h4⟩
    · rw [h4] at hd' ⊢; exact (hpar h2).right (by rw [← h3]; exact hu) hd'
    · rw [h4] at hd' ⊢; exact (hpar h2).left hd' (by rw [← h3]; exact hu)
  · intro h2 hd
    have hd' : ¬ D (sib (c / 2)) := fun hx => hd (.inr hx)
    rw [hne _ (by omega)]
    have hu := h.undone hk
    rcases sib_cases (c / 2) with ⟨h3, h4⟩ | ⟨h3, h4⟩
    · rw [h4] at hd'; exact (hpar h2).no (by rw [← h3]; exact hu) hd'
    · rw [h4] at hd'; exact (hpar h2).no hd' (by rw [← h3]; exact hu)
  · intro hc hd
    have hd' : D 1 := hd.resolve_left (fun e => hc e.symm)
    rw [hne 0 (by omega), if_neg (fun e => hc e.symm)]
    exact h.top (by omega) hd'

theorem PartHole.climb {le : Nat → Nat → Prop} {gt : Nat → Nat → Bool} (h1 : ∀ a b, gt a b = true → le b a)
    (h2 : ∀ a b, gt a b = false → le a b) {n : Nat} :
    ∀ (c : Nat) {t : List (Option Nat)} {W : Nat → Nat} {D : Nat → Prop}, PartHole le n t W D c →
      ∃ W' D', Part le n (climbInit gt t (c / 2) (W c)) W' D' ∧ ∀ i < n, D' (n + i) ↔ D (n + i) := by
  intro c
  induction c using Nat.strongRecOn with
  | ind c ih =>
    intro t W D h
    have hpos := h.pos
    have hlt := h.lt
    unfold climbInit
    split
    · rename_i h0
      have hc : c = 1 := by omega
      subst hc
      refine ⟨W, D, ⟨by simp [h.len], h.leaf, ?_, ?_⟩, fun _ _ => Iff.rfl⟩
      · intro k hk1 hk2
        exact (h.node k hk1 hk2 (by omega)).congr (nodeAt_set_ne (by omega) _) (fun _ _ => rfl) (fun _ _ => Iff.rfl)
      · intro _
        rw [nodeAt_set_self (by rw [h.len]; omega)]
    · rename_i h0
      have hk : 1 ≤ c / 2 := by omega
      by_cases hs : D (sib c)
      · have hon := h.yes hk hs
        rw [hon]
        simp only
        split
        · rename_i hg
          obtain ⟨W', D', h3, h4⟩ := ih (c / 2) (by omega) (h.up hk hs (by simp [h.len]) (fun j hj => nodeAt_set_ne hj _)
            (nodeAt_set_self (by rw [h.len]; omega) (some (W c))) (h1 _ _ hg) (.inr ⟨rfl, rfl⟩))
          refine ⟨W', D', by simpa using h3, ?_⟩
          intro i hi
          rw [h4 i hi]
          exact ⟨fun hx => hx.resolve_left (by omega), .inr⟩
        · rename_i hg
          obtain ⟨W', D', h3, h4⟩ := ih (c / 2) (by omega) (h.up hk hs h.len (fun j _ => rfl) hon
            (h2 _ _ (by simpa using hg)) (.inl ⟨rfl, rfl⟩))
          refine ⟨W', D', by simpa using h3, ?_⟩
          intro i hi
          rw [h4 i hi]
          exact ⟨fun hx => hx.resolve_left (by omega), .inr⟩
      · have hon := h.no hk hs
        rw [hon]
        simp only
        refine ⟨W, D, ⟨by simp [h.len], h.leaf, ?_, ?_⟩, fun _ _ => Iff.rfl⟩
        · intro k hk1 hk2
          by_cases hkc : k = c / 2
          · subst hkc
            have hl := nodeAt_set_self (t := t) (k := c / 2) (by rw [h.len]; omega) (some (W c))
            have hu := h.undone hk
            have hd := h.done
            rcases sib_cases c with ⟨e1, e2⟩ | ⟨e1, e2⟩
            · rw [e2] at hs
              have d1 : D (2 * (c / 2)) := e1 ▸ hd
              refine ⟨⟨fun hx => absurd hx hu, fun hx => absurd hx.2 hs⟩, fun _ hx => absurd hx hs, fun _ _ => ?_,
                fun hx => absurd d1 hx, fun hx => absurd d1 hx⟩
              rw [hl, ← e1]
            · rw [e2] at hs
              have d1 : D (2 * (c / 2) + 1) := e1 ▸ hd
              refine ⟨⟨fun hx => absurd hx hu, fun hx => absurd hx.1 hs⟩, fun hx => absurd hx hs, fun hx => absurd hx hs,
                fun _ _ => ?_, fun _ hx => absurd d1 hx⟩
              rw [hl, ← e1]
          · exact (h.node k hk1 hk2 hkc).congr (nodeAt_set_ne hkc _) (fun _ _ => rfl) (fun _ _ => Iff.rfl)
        · intro hd
          rw [nodeAt_set_ne (by omega)]
          exact h.top (by omega) hd

theorem Part.insert {le : Nat → Nat → Prop} {gt : Nat → Nat → Bool} (h1 : ∀ a b, gt a b = true → le b a)
    (h2 : ∀ a b, gt a b = false → le a b) {n m : Nat} (hm : m < n) {t : List (Option Nat)} {W : Nat → Nat} {D : Nat → Prop}
    (h : Part le n t W D) (hD : ∀ i < n, D (n + i) ↔ i < m) :
    ∃ W' D', Part le n (climbInit gt t (leafNode n m) m) W' D' ∧ ∀ i < n, D' (n + i) ↔ i < m + 1 := by
  have hnd : ¬ D (n + m) := fun hx => by have := (hD m hm).1 hx; omega
  have hpar : 1 ≤ (n + m) / 2 → PartAt le t W D ((n + m) / 2) := fun h3 => h.node _ h3 (by omega)
  have hsne : sib (n + m) ≠ n + m := by unfold sib; split <;> omega
  have hh : PartHole le n t W (fun x => x = n + m ∨ D x) (n + m) := by
    refine ⟨h.len, h.leaf, by omega, by omega, .inl rfl, ?_, ?_, ?_, ?_, ?_⟩
    · intro k hk1 hk2 hk3
      refine (h.node k hk1 hk2).congr rfl (fun _ _ => rfl) ?_
      intro x hx
      exact ⟨fun hy => hy.resolve_left (by omega), .inr⟩
    · intro hk hd
      have hd' := hd.resolve_left (by omega)
      have := (hpar hk).dn.1 hd'
      apply hnd
      rcases sib_cases (n + m) with ⟨h3, _⟩ | ⟨h3, _⟩
      · rw [h3]; exact this.1
      · rw [h3]; exact this.2
    · intro hk hd
      have hd' : D (sib (n + m)) := hd.resolve_left hsne
      rcases sib_cases (n + m) with ⟨h3, h4⟩ | ⟨h3, h4⟩
      · rw [h4] at hd' ⊢; exact (hpar hk).right (by rw [← h3]; exact hnd) hd'
      · rw [h4] at hd' ⊢; exact (hpar hk).left hd' (by rw [← h3]; exact hnd)
    · intro hk hd
      have hd' : ¬ D (sib (n + m)) := fun hx => hd (.inr hx)
      rcases sib_cases (n + m) with ⟨h3, h4⟩ | ⟨h3, h4⟩
      · rw [h4] at hd'; exact (hpar hk).no (by rw [← h3]; exact hnd) hd'
      · rw [h4] at hd'; exact (hpar hk).no hd' (by rw [← h3]; exact hnd)
    · intro hc hd
      exact h.top (hd.resolve_left (fun e => hc e.symm))
  obtain ⟨W', D', h3, h4⟩ := PartHole.climb h1 h2 _ hh
  rw [h.leaf m hm] at h3
  refine ⟨W', D', h3, ?_⟩
  intro i hi
  rw [h4 i hi, hD i hi]
  omega

/-- `init_loser_tree` makes a complete tree. -/
theorem initTree_good {le : Nat → Nat → Prop} {gt : Nat → Nat → Bool} (h1 : ∀ a b, gt a b = true → le b a)
    (h2 : ∀ a b, gt a b = false → le a b) {n : Nat} (hn : 1 ≤ n) : ∃ W, Good le n (initTree gt n) W := by
  have key : ∀ m, m ≤ n → ∃ W D, Part le n ((List.range m).foldl (fun t i => climbInit gt t (leafNode n i) i)
      (List.replicate n none)) W D ∧ ∀ i < n, D (n + i) ↔ i < m := by
    intro m
    induction m with
    | zero =>
      intro _
      refine ⟨fun x => x - n, fun _ => False, ⟨by simp, fun i _ => by simp, ?_, fun hx => hx.elim⟩, by simp⟩
      intro k hk1 hk2
      refine ⟨by simp, fun hx => hx.elim, fun hx => hx.elim, fun _ hx => hx.elim, fun _ _ => ?_⟩
      simp [nodeAt, hk2]
    | succ m ih =>
      intro hm
      obtain ⟨W, D, h3, h4⟩ := ih (by omega)
      rw [List.range_succ, List.foldl_append]
      exact h3.insert h1 h2 (by omega) h4
  obtain ⟨W, D, h3, h4⟩ := key n (Nat.le_refl n)
  have hall : ∀ d k, 2 * n - k = d → 1 ≤ k → k < 2 * n → D k := by
    intro d
    induction d using Nat.strongRecOn with
    | ind d ih =>
      intro k hd hk1 hk2
      by_cases hk : k < n
      · exact (h3.node k hk1 hk).dn.2 ⟨ih (2 * n - 2 * k) (by omega) _ rfl (by omega) (by omega),
          ih (2 * n - (2 * k + 1)) (by omega) _ rfl (by omega) (by omega)⟩
      · have := (h4 (k - n) (by omega)).2 (by omega)
        rwa [show n + (k - n) = k by omega] at this
  refine ⟨W, h3.len, h3.leaf, ?_, h3.top (hall _ 1 rfl (by omega) (by omega))⟩
  intro k hk1 hk2
  exact (h3.node k hk1 hk2).both (hall _ _ rfl (by omega) (by omega)) (hall _ _ rfl (by omega) (by omega))

end Verif.Reader
