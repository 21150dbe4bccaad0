import Verif.Agg.Plan
/-!
# C81: `gauge_agg`

`query_server/query/src/extension/expr/aggregate_function/gauge/{gauge_agg,mod}.rs`. The time column is not NULL (it is the time column of
a table); values are of any type. Additions of `num_elements` (`u64`) do not overflow: there are fewer rows.
-/
namespace Verif.Agg.Gauge

/-- A row of the two arguments: time, and value or NULL. -/
abbrev Row (V : Type) := Int × Option V

/-- `TSPoint` with a value. -/
abbrev Point (V : Type) := Int × V

/-- Rows with a value (`gauge_agg.rs:123-128`). -/
def nonNull {V : Type} (rows : List (Row V)) : List (Point V) := rows.filterMap fun r => r.2.map fun v => (r.1, v)

/-- The points that are kept of a batch, sorted by time: all of up to four, otherwise the first two and the last two
(`gauge_agg.rs:131-153`). -/
def save {V : Type} (ps : List (Point V)) : List (Point V) :=
  if ps.length ≤ 4 then ps else [0, 1, ps.length - 2, ps.length - 1].filterMap fun i => ps[i]?

/-- `GaugeDataBuilder` (`gauge_agg.rs:211-218`), and the state of `try_to_state` (`:295-314`). -/
structure Builder (V : Type) where
  /-- The points kept. -/
  container : List (Point V)
  /-- The number of rows with a value. -/
  num : Nat
  deriving DecidableEq, Repr

/-- `update_batch` (`gauge_agg.rs:102-158`). `srt` is `sort_to_indices` on the time column. -/
def update {V : Type} (srt : List (Row V) → List (Row V)) (b : Builder V) (batch : List (Row V)) : Builder V :=
  let ps := nonNull (srt batch)
  ⟨b.container ++ save ps, b.num + ps.length⟩

/-- `merge_batch` with `try_from_arrays` and `merge` (`gauge_agg.rs:160-178`, `:244-255`, `:316-351`). -/
def merge {V : Type} (b : Builder V) (states : List (Builder V)) : Builder V :=
  ⟨b.container ++ (states.map (·.container)).flatten, b.num + (states.map (·.num)).sum⟩

/-- `GaugeData` (`gauge/mod.rs:18-25`). -/
structure Data (V : Type) where
  /-- The earliest point. -/
  first : Point V
  /-- The second point. -/
  second : Point V
  /-- The last but one. -/
  penultimate : Point V
  /-- The latest point. -/
  last : Point V
  /-- The number of points. -/
  num : Nat
  deriving DecidableEq, Repr

/-- `build` (`gauge_agg.rs:257-291`): `srt` is `sort_unstable_by` on the time. -/
def build {V : Type} (srt : List (Point V) → List (Point V)) (b : Builder V) : Option (Data V) :=
  let c := srt b.container
  match c[0]?, c[if c.length > 1 then 1 else 0]?, c[if c.length > 1 then c.length - 2 else 0]?, c[c.length - 1]? with
  | some f, some s, some p, some l => some ⟨f, s, p, l, b.num⟩
  | _, _, _, _ => none

/-- `gauge_agg(time, value)` over a plan. -/
def gaugeAgg {V : Type} (srt : List (Row V) → List (Row V)) (srt' : List (Point V) → List (Point V)) (p : Plan (List (Row V))) :
    Option (Data V) :=
  build srt' (p.run ⟨[], 0⟩ (update srt) id merge)

/-! ## Specification -/

/-- A function that sorts by time (any order among equal times). -/
def Sorts {α : Type} (srt : List (Int × α) → List (Int × α)) : Prop :=
  ∀ l, (srt l).Perm l ∧ (srt l).Pairwise fun a b => a.1 ≤ b.1

/-- The result describes the rows: for some arrangement of the rows with a value by time, it has the first two and last two of them and
their number. -/
def Describes {V : Type} (rows : List (Row V)) : Option (Data V) → Prop
  | none => nonNull rows = []
  | some g => ∃ l : List (Point V), l.Perm (nonNull rows) ∧ (l.Pairwise fun a b => a.1 ≤ b.1) ∧ l[0]? = some g.first ∧
      l[min 1 (l.length - 1)]? = some g.second ∧ l[l.length - 2]? = some g.penultimate ∧ l[l.length - 1]? = some g.last ∧
      g.num = l.length

/-! ## Proofs -/

/-- The points that are not kept. -/
def drop {V : Type} (ps : List (Point V)) : List (Point V) :=
  if ps.length ≤ 4 then [] else (ps.drop 2).take (ps.length - 4)

/-- A list of at least four is its first two, a middle, and its last two. -/
theorem split4 {α : Type} {l : List α} (h : 4 ≤ l.length) : ∃ a b m y z, l = a :: b :: (m ++ [y, z]) := by
  match l, h with
  | a :: b :: t, h =>
    have h2 : 2 ≤ t.length := by simp at h; omega
    refine ⟨a, b, t.take (t.length - 2), t[t.length - 2], t[t.length - 1], ?_⟩
    congr 2
    have e : t.drop (t.length - 2) = [t[t.length - 2], t[t.length - 1]] := by
      rw [List.drop_eq_getElem_cons (by omega), List.drop_eq_getElem_cons (by omega), List.drop_of_length_le (by omega)]
      congr 2
      simp only [show t.length - 2 + 1 = t.length - 1 by omega]
    rw [← e, List.take_append_drop]

theorem save_eq {V : Type} {ps : List (Point V)} (h : ¬ ps.length ≤ 4) : save ps = ps.take 2 ++ ps.drop (ps.length - 2) := by
  unfold save
  rw [if_neg h]
  obtain ⟨a, b, m, y, z, rfl⟩ := split4 (l := ps) (by omega)
  simp only [List.length_cons, List.length_append, List.length_nil]
  rw [show m.length + (0 + 1 + 1) + 1 + 1 - 2 = m.length + 2 by omega, show m.length + (0 + 1 + 1) + 1 + 1 - 1 = m.length + 3 by omega]
  simp

theorem save_drop_perm {V : Type} (ps : List (Point V)) : (save ps ++ drop ps).Perm ps := by
  unfold drop
  by_cases h : ps.length ≤ 4
  · simp [save, h]
  · rw [save_eq h, if_neg h]
    have e : ps = ps.take 2 ++ ((ps.drop 2).take (ps.length - 4) ++ ps.drop (ps.length - 2)) := by
      have h1 : (ps.drop 2).drop (ps.length - 4) = ps.drop (ps.length - 2) := by rw [List.drop_drop]; congr 1; omega
      rw [← h1, List.take_append_drop, List.take_append_drop]
    rw [List.append_assoc]
    conv => rhs; rw [e]
    exact List.Perm.append_left _ List.perm_append_comm

/-- Two points at or before `d`, and two at or after it, four points. -/
def Covered {V : Type} (c : List (Point V)) (d : Point V) : Prop :=
  2 ≤ (c.filter fun x => decide (x.1 ≤ d.1)).length ∧ 2 ≤ (c.filter fun x => decide (d.1 ≤ x.1)).length ∧ 4 ≤ c.length

theorem Covered.mono {V : Type} {c c' : List (Point V)} {d : Point V} (h : Covered c d) (hs : c.Sublist c') : Covered c' d :=
  ⟨Nat.le_trans h.1 (hs.filter _).length_le, Nat.le_trans h.2.1 (hs.filter _).length_le, Nat.le_trans h.2.2 hs.length_le⟩

theorem drop_covered {V : Type} {ps : List (Point V)} (hp : ps.Pairwise fun a b => a.1 ≤ b.1) {d : Point V} (hd : d ∈ drop ps) :
    Covered (save ps) d := by
  unfold drop at hd
  by_cases h : ps.length ≤ 4
  · rw [if_pos h] at hd; cases hd
  · rw [if_neg h] at hd
    rw [save_eq h]
    have e1 : ps.take 2 ++ ps.drop 2 = ps := List.take_append_drop ..
    have h1 : ∀ x ∈ ps.take 2, x.1 ≤ d.1 := by
      intro x hx
      rw [← e1, List.pairwise_append] at hp
      exact hp.2.2 x hx d (List.mem_of_mem_take hd)
    have h2 : ∀ x ∈ ps.drop (ps.length - 2), d.1 ≤ x.1 := by
      intro x hx
      have e2 : ps.take (ps.length - 2) ++ ps.drop (ps.length - 2) = ps := List.take_append_drop ..
      rw [← e2, List.pairwise_append] at hp
      refine hp.2.2 d ?_ x hx
      have e3 : (ps.drop 2).take (ps.length - 4) = (ps.take (ps.length - 2)).drop 2 := by
        rw [List.drop_take]; congr 1
      rw [e3] at hd
      exact List.mem_of_mem_drop hd
    refine ⟨?_, ?_, ?_⟩
    · rw [List.filter_append, List.length_append, List.filter_eq_self.2 (by intro x hx; simpa using h1 x hx), List.length_take]
      omega
    · rw [List.filter_append, List.length_append,
        (List.filter_eq_self (l := ps.drop (ps.length - 2))).2 (by intro x hx; simpa using h2 x hx), List.length_drop]
      omega
    · rw [List.length_append, List.length_take, List.length_drop]; omega

/-- The builder has all the rows but some that cannot be among the first two or last two. -/
def Inv {V : Type} (b : Builder V) (rows : List (Row V)) : Prop :=
  b.num = (nonNull rows).length ∧ ∃ d, (b.container ++ d).Perm (nonNull rows) ∧ ∀ x ∈ d, Covered b.container x

theorem nonNull_append {V : Type} (a b : List (Row V)) : nonNull (a ++ b) = nonNull a ++ nonNull b := List.filterMap_append ..

theorem nonNull_sorted {V : Type} {l : List (Row V)} (h : l.Pairwise fun a b => a.1 ≤ b.1) :
    (nonNull l).Pairwise fun a b => a.1 ≤ b.1 := by
  unfold nonNull
  rw [List.pairwise_filterMap]
  refine h.imp ?_
  intro a b hab x hx y hy
  cases ha : a.2 with
  | none => rw [ha] at hx; cases hx
  | some v =>
    cases hb : b.2 with
    | none => rw [hb] at hy; cases hy
    | some w =>
      rw [ha] at hx; rw [hb] at hy
      simp at hx hy
      rw [← hx, ← hy]; exact hab

theorem update_inv {V : Type} {srt : List (Row V) → List (Row V)} (hs : Sorts srt) {b : Builder V} {rs batch : List (Row V)}
    (h : Inv b rs) : Inv (update srt b batch) (rs ++ batch) := by
  obtain ⟨h1, d, h2, h3⟩ := h
  obtain ⟨hp, hso⟩ := hs batch
  have hpn : (nonNull (srt batch)).Perm (nonNull batch) := hp.filterMap _
  refine ⟨?_, d ++ drop (nonNull (srt batch)), ?_, ?_⟩
  · show b.num + _ = _
    rw [nonNull_append, List.length_append, h1, hpn.length_eq]
  · show (b.container ++ save (nonNull (srt batch)) ++ (d ++ drop (nonNull (srt batch)))).Perm _
    rw [nonNull_append]
    refine List.Perm.trans ?_ (h2.append ((save_drop_perm _).trans hpn))
    rw [List.append_assoc, List.append_assoc]
    refine List.Perm.append_left _ ?_
    rw [← List.append_assoc, ← List.append_assoc]
    exact List.Perm.append_right _ List.perm_append_comm
  · intro x hx
    rcases List.mem_append.1 hx with hx | hx
    · exact (h3 x hx).mono (List.sublist_append_left ..)
    · exact (drop_covered (nonNull_sorted hso) hx).mono (List.sublist_append_right ..)

theorem merge_inv {V : Type} {b : Builder V} {rs : List (Row V)} (h : Inv b rs) (ps : List (Builder V × List (Row V)))
    (hps : ∀ p ∈ ps, Inv p.1 p.2) : Inv (merge b (ps.map (·.1))) (rs ++ (ps.map (·.2)).flatten) := by
  induction ps generalizing b rs with
  | nil => simpa [merge] using h
  | cons p ps ih =>
    have hp := hps p (List.mem_cons_self ..)
    have hstep : Inv ⟨b.container ++ p.1.container, b.num + p.1.num⟩ (rs ++ p.2) := by
      obtain ⟨h1, d, h2, h3⟩ := h
      obtain ⟨g1, e, g2, g3⟩ := hp
      refine ⟨?_, d ++ e, ?_, ?_⟩
      · show b.num + p.1.num = _
        rw [nonNull_append, List.length_append, h1, g1]
      · show (b.container ++ p.1.container ++ (d ++ e)).Perm _
        rw [nonNull_append]
        refine List.Perm.trans ?_ (h2.append g2)
        rw [List.append_assoc, List.append_assoc]
        refine List.Perm.append_left _ ?_
        rw [← List.append_assoc, ← List.append_assoc]
        exact List.Perm.append_right _ List.perm_append_comm
      · intro x hx
        rcases List.mem_append.1 hx with hx | hx
        · exact (h3 x hx).mono (List.sublist_append_left ..)
        · exact (g3 x hx).mono (List.sublist_append_right ..)
    have := ih hstep fun q hq => hps q (List.mem_cons_of_mem _ hq)
    simpa [merge, List.append_assoc, Nat.add_assoc] using this

theorem build_describes {V : Type} {srt' : List (Point V) → List (Point V)} (hs : Sorts srt') {b : Builder V} {rows : List (Row V)}
    (h : Inv b rows) : Describes rows (build srt' b) := by
  obtain ⟨h1, d, h2, h3⟩ := h
  obtain ⟨hp, hso⟩ := hs b.container
  have key : ∃ l : List (Point V), l.Perm (nonNull rows) ∧ (l.Pairwise fun a b => a.1 ≤ b.1) ∧
      (srt' b.container).length ≤ l.length ∧ ((srt' b.container).length = 0 → l.length = 0) ∧
      l[0]? = (srt' b.container)[0]? ∧
      l[min 1 (l.length - 1)]? = (srt' b.container)[min 1 ((srt' b.container).length - 1)]? ∧
      l[l.length - 2]? = (srt' b.container)[(srt' b.container).length - 2]? ∧
      l[l.length - 1]? = (srt' b.container)[(srt' b.container).length - 1]? := by
    by_cases hd : d = []
    · subst hd
      rw [List.append_nil] at h2
      exact ⟨srt' b.container, hp.trans h2, hso, Nat.le_refl _, id, rfl, rfl, rfl, rfl⟩
    · obtain ⟨x0, hx0⟩ := List.exists_mem_of_ne_nil d hd
      have h4 : 4 ≤ (srt' b.container).length := by rw [hp.length_eq]; exact (h3 x0 hx0).2.2
      have hcov : ∀ x ∈ d, Covered (srt' b.container) x := by
        intro x hx
        obtain ⟨c1, c2, c3⟩ := h3 x hx
        exact ⟨by rw [(hp.filter _).length_eq]; exact c1, by rw [(hp.filter _).length_eq]; exact c2, by rw [hp.length_eq]; exact c3⟩
      obtain ⟨a, a', m, y, z, e⟩ := split4 h4
      rw [e] at hp hso hcov ⊢
      have hso' := hso
      rw [List.pairwise_cons, List.pairwise_cons, List.pairwise_append] at hso
      obtain ⟨s1, s2, s3, s4, s5⟩ := hso
      have haa : a.1 ≤ a'.1 := s1 a' (List.mem_cons_self ..)
      have hyz : y.1 ≤ z.1 := by
        rw [List.pairwise_cons] at s4; exact s4.1 z (List.mem_singleton.2 rfl)
      have hlo : ∀ x ∈ d, a'.1 ≤ x.1 := by
        intro x hx
        apply Classical.byContradiction
        intro hc
        have h5 := (hcov x hx).1
        have h6 : (a' :: (m ++ [y, z])).filter (fun q => decide (q.1 ≤ x.1)) = [] := by
          rw [List.filter_eq_nil_iff]
          intro q hq
          have : a'.1 ≤ q.1 := by
            rcases List.mem_cons.1 hq with rfl | hq
            · exact Int.le_refl _
            · exact s2 q hq
          simp; omega
        rw [List.filter_cons, h6] at h5
        split at h5 <;> simp at h5
      have hhi : ∀ x ∈ d, x.1 ≤ y.1 := by
        intro x hx
        apply Classical.byContradiction
        intro hc
        have h5 := (hcov x hx).2.1
        have h6 : (a :: a' :: m ++ [y]).filter (fun q => decide (x.1 ≤ q.1)) = [] := by
          rw [List.filter_eq_nil_iff]
          intro q hq
          have : q.1 ≤ y.1 := by
            rcases List.mem_append.1 hq with hq | hq
            · rcases List.mem_cons.1 hq with rfl | hq
              · exact s1 y (by simp)
              rcases List.mem_cons.1 hq with rfl | hq
              · exact s2 y (by simp)
              · exact s5 q hq y (by simp)
            · rw [List.mem_singleton.1 hq]; exact Int.le_refl _
          simp; omega
        have e2 : a :: a' :: (m ++ [y, z]) = (a :: a' :: m ++ [y]) ++ [z] := by simp
        rw [e2, List.filter_append, h6, List.nil_append] at h5
        have := List.length_filter_le (fun q : Point V => decide (x.1 ≤ q.1)) [z]
        simp at this; omega
      obtain ⟨hmp, hms⟩ := hs (m ++ d)
      have hmid : ∀ q ∈ srt' (m ++ d), a'.1 ≤ q.1 ∧ q.1 ≤ y.1 := by
        intro q hq
        rcases List.mem_append.1 (hmp.mem_iff.1 hq) with hq | hq
        · exact ⟨s2 q (by simp [hq]), s5 q hq y (by simp)⟩
        · exact ⟨hlo q hq, hhi q hq⟩
      have hya : a'.1 ≤ y.1 := s2 y (by simp)
      refine ⟨a :: a' :: (srt' (m ++ d) ++ [y, z]), ?_, ?_, ?_, ?_, ?_, ?_, ?_, ?_⟩
      · refine List.Perm.trans ?_ h2
        refine List.Perm.trans ?_ (hp.append_right d)
        refine List.Perm.cons _ (List.Perm.cons _ ?_)
        refine (hmp.append_right _).trans ?_
        show (m ++ d ++ [y, z]).Perm (m ++ [y, z] ++ d)
        rw [List.append_assoc, List.append_assoc]
        exact List.Perm.append_left _ List.perm_append_comm
      · rw [List.pairwise_cons, List.pairwise_cons, List.pairwise_append]
        refine ⟨?_, ?_, hms, ?_, ?_⟩
        · intro q hq
          rcases List.mem_cons.1 hq with rfl | hq
          · exact haa
          rcases List.mem_append.1 hq with hq | hq
          · have := hmid q hq; omega
          · simp at hq; rcases hq with rfl | rfl <;> omega
        · intro q hq
          rcases List.mem_append.1 hq with hq | hq
          · have := hmid q hq; omega
          · simp at hq; rcases hq with rfl | rfl <;> omega
        · simpa using hyz
        · intro q hq r hr
          have := hmid q hq
          simp at hr; rcases hr with rfl | rfl <;> omega
      · have := hmp.length_eq
        simp at this ⊢; omega
      · simp
      · rfl
      · simp
      · simp
      · simp
  obtain ⟨l, k1, k2, k3, k4, k5, k6, k7, k8⟩ := key
  unfold build
  dsimp only
  generalize srt' b.container = c at *
  by_cases hc : c.length = 0
  · have hl : l = [] := List.length_eq_zero_iff.1 (k4 hc)
    have hcn : c = [] := List.length_eq_zero_iff.1 hc
    subst hl; subst hcn
    exact (List.nil_perm.1 k1)
  · have e1 : (if c.length > 1 then 1 else 0) = min 1 (c.length - 1) := by split <;> omega
    have e2 : (if c.length > 1 then c.length - 2 else 0) = c.length - 2 := by split <;> omega
    rw [e1, e2, List.getElem?_eq_getElem (show 0 < c.length by omega),
      List.getElem?_eq_getElem (show min 1 (c.length - 1) < c.length by omega),
      List.getElem?_eq_getElem (show c.length - 2 < c.length by omega),
      List.getElem?_eq_getElem (show c.length - 1 < c.length by omega)]
    rw [List.getElem?_eq_getElem (show 0 < c.length by omega)] at k5
    rw [List.getElem?_eq_getElem (show min 1 (c.length - 1) < c.length by omega)] at k6
    rw [List.getElem?_eq_getElem (show c.length - 2 < c.length by omega)] at k7
    rw [List.getElem?_eq_getElem (show c.length - 1 < c.length by omega)] at k8
    exact ⟨l, k1, k2, k5, k6, k7, k8, by rw [k1.length_eq]; exact h1⟩

/-- C81: however the rows are cut into batches and partitions, `gauge_agg` has the first two and the last two of the rows with a value, by
time, and their number. -/
theorem C81_gauge {V : Type} {srt : List (Row V) → List (Row V)} {srt' : List (Point V) → List (Point V)} (hs : Sorts srt)
    (hs' : Sorts srt') (p : Plan (List (Row V))) : Describes p.rows (gaugeAgg srt srt' p) := by
  refine build_describes hs' ?_
  exact Plan.run_inv Inv Inv ⟨rfl, [], List.Perm.refl _, fun x hx => by cases hx⟩ (fun a rs b h => update_inv hs h) (fun a rs h => h)
    (fun a rs ps h hps => merge_inv h ps hps) p

/-- C81: with different times the result is determined by the rows, whatever the plan. -/
theorem C81_gauge_unique {V : Type} {srt : List (Row V) → List (Row V)} {srt' : List (Point V) → List (Point V)} (hs : Sorts srt)
    (hs' : Sorts srt') (p q : Plan (List (Row V))) (hr : p.rows.Perm q.rows)
    (hd : ∀ a ∈ nonNull p.rows, ∀ b ∈ nonNull p.rows, a.1 = b.1 → a = b) : gaugeAgg srt srt' p = gaugeAgg srt srt' q := by
  have h1 := C81_gauge hs hs' p
  have h2 := C81_gauge hs hs' q
  have hn : (nonNull p.rows).Perm (nonNull q.rows) := hr.filterMap _
  cases hg : gaugeAgg srt srt' p with
  | none =>
    rw [hg] at h1
    cases hg' : gaugeAgg srt srt' q with
    | none => rfl
    | some g =>
      rw [hg'] at h2
      obtain ⟨l, k1, _, k3, _⟩ := h2
      have : l.length = 0 := by rw [k1.length_eq, ← hn.length_eq, show nonNull p.rows = [] from h1]; rfl
      rw [List.length_eq_zero_iff.1 this] at k3; cases k3
  | some g =>
    rw [hg] at h1
    obtain ⟨l, k1, k2, k3, k4, k5, k6, k7⟩ := h1
    cases hg' : gaugeAgg srt srt' q with
    | none =>
      rw [hg'] at h2
      have : l.length = 0 := by rw [k1.length_eq, hn.length_eq, show nonNull q.rows = [] from h2]; rfl
      rw [List.length_eq_zero_iff.1 this] at k3; cases k3
    | some g' =>
      rw [hg'] at h2
      obtain ⟨l', k1', k2', k3', k4', k5', k6', k7'⟩ := h2
      have hll : l = l' := by
        refine List.Perm.eq_of_pairwise (le := fun a b : Point V => a.1 ≤ b.1) ?_ k2 k2' (k1.trans (hn.trans k1'.symm))
        intro a b ha hb hab hba
        exact hd a (k1.mem_iff.1 ha) b (hn.mem_iff.2 (k1'.mem_iff.1 hb)) (by omega)
      subst hll
      rw [k3] at k3'; rw [k4] at k4'; rw [k5] at k5'; rw [k6] at k6'
      cases g; cases g'
      simp only [Option.some.injEq] at k3' k4' k5' k6'
      dsimp only at *
      subst k3' k4' k5' k6' k7
      rw [k7']

/-- Sorting by insertion, for the example. -/
def isort {α : Type} (l : List (Int × α)) : List (Int × α) :=
  l.foldr (fun x s => (s.takeWhile fun y => decide (y.1 < x.1)) ++ x :: (s.dropWhile fun y => decide (y.1 < x.1))) []

/-- Seven rows, one without a value, in two partitions. -/
example : gaugeAgg (V := Nat) isort isort
    (.twoPhase [[[[(5, some 50), (3, some 30), (1, none), (4, some 40), (9, some 90), (2, some 20)]], [[(7, some 70)]]]]) =
    some ⟨(2, 20), (3, 30), (7, 70), (9, 90), 6⟩ := by decide

end Verif.Agg.Gauge
