import Verif.Window.Model
/-!
# C79: a row is put into the time windows that contain its time
-/
namespace Verif.Window

/-- Specification: `x` is a window of length `w` with time `t` in it, and it starts a multiple of the slide `s` away from `anchor`. -/
def IsWindowOf (w s : Nat) (anchor t : Int) (x : Win) : Prop :=
  x.2 = x.1 + w ∧ (s : Int) ∣ x.1 - anchor ∧ x.1 ≤ t ∧ t < x.2

/-- Durations that `valid_duration` lets pass. -/
def Valid (d : Nat) : Prop := 1000000 ≤ d ∧ d ≤ 31536000000999999

theorem validDuration_ok {d e : Nat} (h : validDuration d = .ok e) : d = e ∧ Valid d := by
  unfold validDuration day at h
  split at h
  · cases h
  · cases h; refine ⟨rfl, ?_⟩; unfold Valid; omega

/-- Times that cannot overflow: from 1823 to 2116. -/
def Near (t : Int) : Prop := -4611686018427387904 ≤ t ∧ t ≤ 4611686018427387904

theorem tmod_bounds (a : Int) {w : Nat} (h : 0 < w) : -(w : Int) < a.tmod w ∧ a.tmod w < w := by
  have h2 := Int.natAbs_tmod a w
  have h3 : (a.tmod w).natAbs < w := by rw [h2]; exact Nat.mod_lt _ (by simpa using h)
  omega

theorem wrap_id {x : Int} (h1 : -9223372036854775808 ≤ x) (h2 : x ≤ 9223372036854775807) : wrap64 x = x :=
  wrap64_of_isI64 ⟨h1, h2⟩

/-- Without overflow, and not too far before the start, the latest window starts at the last grid point not after `t`. -/
theorem lastStart_eq {w s : Nat} {start t : Int} (hw : Valid w) (hs : Valid s) (ht : Near t) (hb : start.tmod w ≤ t + s) :
    lastStart w s start t = t - (t - start.tmod w) % s := by
  have h1 := tmod_bounds start (w := w) (by unfold Valid at hw; omega)
  unfold Near at ht; unfold Valid at hw hs
  unfold lastStart
  rw [wrap_id (x := t - start.tmod w) (by omega) (by omega), wrap_id (x := t - start.tmod w + s) (by omega) (by omega),
    Int.tmod_eq_emod_of_nonneg (by omega)]
  have h3 : (t - start.tmod w + s) % (s : Int) = (t - start.tmod w) % s := by simp
  rw [h3]
  have h4 := Int.emod_nonneg (t - start.tmod w) (b := (s : Int)) (by omega)
  have h5 := Int.emod_lt_of_pos (t - start.tmod w) (b := (s : Int)) (by omega)
  exact wrap_id (by omega) (by omega)

theorem lt_overlapping {w s i : Nat} (hs : 0 < s) : i < overlapping w s ↔ i * s < w := by
  unfold overlapping
  rw [Nat.lt_iff_add_one_le, Nat.le_div_iff_mul_le hs, Nat.succ_mul]; omega

theorem window_eq {w s : Nat} {start t : Int} {i : Nat} (hw : Valid w) (hs : Valid s) (ht : Near t)
    (hb : start.tmod w ≤ t + s) (hi : i * s < w) :
    window w s start t i = (t - (t - start.tmod w) % s - i * s, t - (t - start.tmod w) % s - i * s + w) := by
  unfold window
  rw [lastStart_eq hw hs ht hb]
  unfold Near at ht; unfold Valid at hw hs
  have h4 := Int.emod_nonneg (t - start.tmod w) (b := (s : Int)) (by omega)
  have h5 := Int.emod_lt_of_pos (t - start.tmod w) (b := (s : Int)) (by omega)
  have hi' : (i : Int) * s < w := by exact_mod_cast hi
  have hi0 : (0 : Int) ≤ (i : Int) * s := Int.mul_nonneg (by omega) (by omega)
  show (wrap64 (t - (t - start.tmod w) % s - wrap64 (i * s)), wrap64 (wrap64 (t - (t - start.tmod w) % s - wrap64 (i * s)) + w)) = _
  rw [wrap_id (x := (i : Int) * s) (by omega) (by omega)]
  generalize (t - start.tmod w) % (s : Int) = r at *
  generalize (i : Int) * s = k at *
  rw [wrap_id (x := t - r - k) (by omega) (by omega), wrap_id (by omega) (by omega)]

/-- The computed windows that contain `t` are those of the grid that contain it. -/
theorem mem_windows {w s : Nat} {start t : Int} (hw : Valid w) (hs : Valid s) (ht : Near t) (hb : start.tmod w ≤ t + s) {x : Win}
    (hx : IsWindowOf w s (start.tmod w) t x) : ∃ i, i * s < w ∧ window w s start t i = x := by
  obtain ⟨h1, ⟨k, h2⟩, h3, h4⟩ := hx
  have hs0 : 0 < s := by unfold Valid at hs; omega
  refine ⟨((t - x.1) / s).toNat, ?_⟩
  have h5 := Int.mul_ediv_add_emod (t - x.1) s
  have h6 := Int.emod_nonneg (t - x.1) (b := (s : Int)) (by omega)
  have h7 : 0 ≤ (t - x.1) / (s : Int) := Int.ediv_nonneg (by omega) (by omega)
  have h8 : (t - start.tmod w) % (s : Int) = (t - x.1) % s := by
    have : t - start.tmod w = (t - x.1) + s * k := by omega
    rw [this, Int.add_mul_emod_self_left]
  have h9 : (((t - x.1) / (s : Int)).toNat : Int) * s = (t - x.1) - (t - x.1) % s := by
    rw [Int.toNat_of_nonneg h7, Int.mul_comm]; omega
  have hlt : ((t - x.1) / (s : Int)).toNat * s < w := by
    have : (((t - x.1) / (s : Int)).toNat : Int) * s < w := by omega
    exact_mod_cast this
  refine ⟨hlt, ?_⟩
  rw [window_eq hw hs ht hb hlt, h9, h8]
  refine Prod.ext ?_ ?_
  · show _ = x.1; omega
  · show _ = x.2; omega

/-- A computed window starts on the grid, at or before `t`, and has the length `w`. -/
theorem window_grid {w s : Nat} {start t : Int} (hw : Valid w) (hs : Valid s) (ht : Near t) (hb : start.tmod w ≤ t + s) {i : Nat}
    (hi : i * s < w) : (window w s start t i).2 = (window w s start t i).1 + w ∧ (s : Int) ∣ (window w s start t i).1 - start.tmod w ∧
      (window w s start t i).1 ≤ t ∧ t - (window w s start t i).1 < (i + 1) * s := by
  have hs0 : 0 < s := by unfold Valid at hs; omega
  rw [window_eq hw hs ht hb hi]
  have h4 := Int.emod_nonneg (t - start.tmod w) (b := (s : Int)) (by omega)
  have h5 := Int.emod_lt_of_pos (t - start.tmod w) (b := (s : Int)) (by omega)
  have h6 := Int.mul_ediv_add_emod (t - start.tmod w) s
  have hi0 : (0 : Int) ≤ (i : Int) * s := Int.mul_nonneg (by omega) (by omega)
  refine ⟨rfl, ⟨(t - start.tmod w) / s - i, ?_⟩, ?_, ?_⟩
  · rw [Int.mul_sub, Int.mul_comm (s : Int) i]; dsimp only; omega
  · dsimp only; omega
  · dsimp only; rw [Int.add_mul]; omega

theorem window_inj {w s : Nat} {start t : Int} (hw : Valid w) (hs : Valid s) (ht : Near t) (hb : start.tmod w ≤ t + s) {i j : Nat}
    (hi : i * s < w) (hj : j * s < w) (h : window w s start t i = window w s start t j) : i = j := by
  have hs0 : 0 < s := by unfold Valid at hs; omega
  rw [window_eq hw hs ht hb hi, window_eq hw hs ht hb hj] at h
  have h1 := congrArg Prod.fst h
  dsimp only at h1
  have h2 : (i : Int) * s = j * s := by omega
  have h3 : i * s = j * s := by exact_mod_cast h2
  exact Nat.eq_of_mul_eq_mul_right hs0 h3

theorem nodup_map {α β : Type} {f : α → β} {l : List α} (hf : ∀ a ∈ l, ∀ b ∈ l, f a = f b → a = b) (h : l.Nodup) : (l.map f).Nodup := by
  induction l with
  | nil => simp
  | cons a l ih =>
    rw [List.map_cons, List.nodup_cons]
    rw [List.nodup_cons] at h
    refine ⟨fun hm => ?_, ih (fun x hx y hy => hf x (List.mem_cons_of_mem _ hx) y (List.mem_cons_of_mem _ hy)) h.2⟩
    obtain ⟨b, hb, e⟩ := List.mem_map.1 hm
    rw [hf b (List.mem_cons_of_mem _ hb) a (List.mem_cons_self ..) e] at hb
    exact h.1 hb

/-- The windows of a row, by the form of the plan. -/
def rowWindows (w s : Nat) (start : Int) (t : Option Int) : List Win :=
  if w = s then tumbling w start t else sliding w s start t

theorem timeWindow_ok {α : Type} {wArg : Int} {sArg : Option Int} {start : Option Int} {rows : List (Option Int × α)}
    {out : List (Win × (Option Int × α))} (h : timeWindow wArg sArg start rows = .ok out) :
    Valid (durationArg wArg) ∧ Valid (durationArg (sArg.getD wArg)) ∧
      out = rows.flatMap fun r =>
        (rowWindows (durationArg wArg) (durationArg (sArg.getD wArg)) (start.getD 0) r.1).map fun x => (x, r) := by
  unfold timeWindow at h
  cases h1 : validDuration (durationArg wArg) with
  | error e => rw [h1] at h; cases h
  | ok w =>
    rw [h1] at h
    obtain ⟨rfl, hv⟩ := validDuration_ok h1
    cases sArg with
    | none =>
      simp only [Except.bind, if_pos] at h
      cases h
      exact ⟨hv, hv, by simp [rowWindows]⟩
    | some x =>
      cases h2 : validDuration (durationArg x) with
      | error e => simp only [Except.bind, h2] at h; cases h
      | ok s =>
        obtain ⟨rfl, hv2⟩ := validDuration_ok h2
        simp only [Except.bind, h2] at h
        refine ⟨hv, hv2, ?_⟩
        unfold rowWindows
        simp only [Option.getD_some]
        split at h
        · rename_i hws; cases h; simp only [hws, if_true]
        · rename_i hws
          split at h
          · cases h
          · cases h; simp only [hws, if_false]

theorem rowWindows_of_dvd {w s : Nat} {start t : Int} (hd : w % s = 0) (hs : 0 < s) (hw : 0 < w) :
    rowWindows w s start (some t) = (List.range (overlapping w s)).map (window w s start t) := by
  unfold rowWindows
  split
  · rename_i h; subst h
    have h1 : overlapping w w = 1 := by
      unfold overlapping; rw [Nat.div_eq_of_lt_le] <;> omega
    rw [h1]; rfl
  · simp only [sliding, keeps, if_pos hd, if_true]

/-- C79, windows that are a multiple of the slide (tumbling windows too, which have one slide): the result has every row once for each
window with its time in it, and for no other. The windows are those that start a multiple of the slide after or before the start time.
What is missing: times more than one slide before the start (`start.tmod w`; the epoch, if no start is given), times too far from 1970,
and window lengths that are not a multiple of the slide. -/
theorem C79_windows_partial {α : Type} {wArg : Int} {sArg start : Option Int} {rows : List (Option Int × α)}
    {out : List (Win × (Option Int × α))} (h : timeWindow wArg sArg start rows = .ok out)
    (hd : durationArg (sArg.getD wArg) ∣ durationArg wArg) :
    ∃ f : Option Int → List Win, out = rows.flatMap (fun r => (f r.1).map fun x => (x, r)) ∧ f none = [] ∧
      ∀ t, Near t → (start.getD 0).tmod (durationArg wArg) ≤ t + durationArg (sArg.getD wArg) →
        (f (some t)).Nodup ∧ ∀ x, x ∈ f (some t) ↔ IsWindowOf (durationArg wArg) (durationArg (sArg.getD wArg)) (start.getD 0) t x := by
  obtain ⟨hw, hs, ho⟩ := timeWindow_ok h
  generalize durationArg wArg = w at *
  generalize durationArg (sArg.getD wArg) = s at *
  generalize start.getD 0 = st at *
  have hs0 : 0 < s := by unfold Valid at hs; omega
  have hw0 : 0 < w := by unfold Valid at hw; omega
  refine ⟨rowWindows w s st, ho, ?_, ?_⟩
  · unfold rowWindows tumbling sliding; split <;> rfl
  · intro t ht hb
    rw [rowWindows_of_dvd (Nat.mod_eq_zero_of_dvd hd) hs0 hw0]
    have hanchor : ∀ x, IsWindowOf w s st t x ↔ IsWindowOf w s (st.tmod w) t x := by
      intro x
      unfold IsWindowOf
      have h1 : (s : Int) ∣ st - st.tmod w := by
        have h2 := Int.mul_tdiv_add_tmod st w
        have h3 : (w : Int) ∣ st - st.tmod w := ⟨st.tdiv w, by omega⟩
        exact Int.dvd_trans (by exact_mod_cast hd) h3
      have h4 : (s : Int) ∣ x.1 - st ↔ (s : Int) ∣ x.1 - st.tmod w := by
        have h5 : x.1 - st.tmod w = (x.1 - st) + (st - st.tmod w) := by omega
        rw [h5]; exact (Int.dvd_add_left h1).symm
      rw [h4]
    constructor
    · refine nodup_map ?_ List.nodup_range
      intro i hi j hj hij
      exact window_inj hw hs ht hb ((lt_overlapping hs0).1 (List.mem_range.1 hi)) ((lt_overlapping hs0).1 (List.mem_range.1 hj)) hij
    · intro x
      rw [hanchor, List.mem_map]
      constructor
      · rintro ⟨i, hi, rfl⟩
        rw [List.mem_range] at hi
        obtain ⟨h1, h2, h3, h4⟩ := window_grid hw hs ht hb ((lt_overlapping hs0).1 hi)
        refine ⟨h1, h2, h3, ?_⟩
        rw [h1]
        obtain ⟨n, rfl⟩ := hd
        have h5 : i * s < s * n := (lt_overlapping hs0).1 hi
        rw [Nat.mul_comm s n] at h5
        have h6 : i + 1 ≤ n := Nat.lt_of_mul_lt_mul_right h5
        have h7 : ((i + 1 : Nat) : Int) * s ≤ n * s := Int.mul_le_mul_of_nonneg_right (by exact_mod_cast h6) (by omega)
        push_cast at h7 ⊢
        rw [Int.mul_comm (s : Int) n]
        omega
      · intro hx
        obtain ⟨i, hi, rfl⟩ := mem_windows hw hs ht hb hx
        exact ⟨i, List.mem_range.2 ((lt_overlapping hs0).2 hi), rfl⟩

/-- C79, windows shorter than the slide, with gaps between them: a row in a window gets it, a row in a gap is dropped. The windows are counted
from the start time modulo the window. What is missing: as before, and windows that should be counted from the start time itself. -/
theorem C79_gaps_partial {α : Type} {wArg : Int} {sArg start : Option Int} {rows : List (Option Int × α)}
    {out : List (Win × (Option Int × α))} (h : timeWindow wArg sArg start rows = .ok out)
    (hd : durationArg wArg < durationArg (sArg.getD wArg)) :
    ∃ f : Option Int → List Win, out = rows.flatMap (fun r => (f r.1).map fun x => (x, r)) ∧ f none = [] ∧
      ∀ t, Near t → (start.getD 0).tmod (durationArg wArg) ≤ t + durationArg (sArg.getD wArg) →
        (f (some t)).Nodup ∧ ∀ x, x ∈ f (some t) ↔
          IsWindowOf (durationArg wArg) (durationArg (sArg.getD wArg)) ((start.getD 0).tmod (durationArg wArg)) t x := by
  obtain ⟨hw, hs, ho⟩ := timeWindow_ok h
  generalize durationArg wArg = w at *
  generalize durationArg (sArg.getD wArg) = s at *
  generalize start.getD 0 = st at *
  have hs0 : 0 < s := by unfold Valid at hs; omega
  have hw0 : 0 < w := by unfold Valid at hw; omega
  refine ⟨rowWindows w s st, ho, ?_, ?_⟩
  · unfold rowWindows tumbling sliding; split <;> rfl
  · intro t ht hb
    have h1 : overlapping w s = 1 := by unfold overlapping; rw [Nat.div_eq_of_lt_le] <;> omega
    have h2 : rowWindows w s st (some t) = if keeps w s st t then [window w s st t 0] else [] := by
      unfold rowWindows
      rw [if_neg (by omega)]
      unfold sliding
      rw [h1]; rfl
    have hk : keeps w s st t = true ↔ (window w s st t 0).1 ≤ t ∧ t < (window w s st t 0).2 := by
      unfold keeps
      rw [if_neg (by rw [Nat.mod_eq_of_lt hd]; omega)]
      simp
    have hone : ∀ x, IsWindowOf w s (st.tmod w) t x → x = window w s st t 0 := by
      intro x hx
      obtain ⟨i, hi, rfl⟩ := mem_windows hw hs ht hb hx
      have : i = 0 := by
        rw [← lt_overlapping hs0, h1] at hi; omega
      rw [this]
    rw [h2]
    obtain ⟨g1, g2, g3, g4⟩ := window_grid hw hs ht hb (i := 0) (by omega)
    split
    · rename_i hkt
      refine ⟨by simp, fun x => ⟨?_, fun hx => by rw [hone x hx]; simp⟩⟩
      intro hx
      rw [List.mem_singleton] at hx
      subst hx
      exact ⟨g1, g2, g3, (hk.1 hkt).2⟩
    · rename_i hkf
      refine ⟨List.nodup_nil, fun x => ⟨fun hx => absurd hx (List.not_mem_nil), fun hx => ?_⟩⟩
      exfalso
      rw [hone x hx] at hx
      exact hkf (hk.2 ⟨hx.2.2.1, hx.2.2.2⟩)

/-- C79, any window and slide: no window with the time of a row in it is missed. What is missing: there may be one window more, see
`C79_extra_window_refuted`. -/
theorem C79_none_missed_partial {α : Type} {wArg : Int} {sArg start : Option Int} {rows : List (Option Int × α)}
    {out : List (Win × (Option Int × α))} (h : timeWindow wArg sArg start rows = .ok out) {r : Option Int × α} (hr : r ∈ rows)
    {t : Int} (hrt : r.1 = some t) (ht : Near t) (hb : (start.getD 0).tmod (durationArg wArg) ≤ t + durationArg (sArg.getD wArg))
    {x : Win} (hx : IsWindowOf (durationArg wArg) (durationArg (sArg.getD wArg)) ((start.getD 0).tmod (durationArg wArg)) t x) :
    (x, r) ∈ out := by
  obtain ⟨hw, hs, rfl⟩ := timeWindow_ok h
  generalize durationArg wArg = w at *
  generalize durationArg (sArg.getD wArg) = s at *
  generalize start.getD 0 = st at *
  have hs0 : 0 < s := by unfold Valid at hs; omega
  have hw0 : 0 < w := by unfold Valid at hw; omega
  rw [List.mem_flatMap]
  refine ⟨r, hr, List.mem_map.2 ⟨x, ?_, rfl⟩⟩
  rw [hrt]
  obtain ⟨i, hi, rfl⟩ := mem_windows hw hs ht hb hx
  by_cases hd : w % s = 0
  · rw [rowWindows_of_dvd hd hs0 hw0]
    exact List.mem_map.2 ⟨i, List.mem_range.2 ((lt_overlapping hs0).2 hi), rfl⟩
  · unfold rowWindows
    rw [if_neg (fun he => hd (by rw [he, Nat.mod_self]))]
    have hk : keeps w s st t = true := by
      unfold keeps
      rw [if_neg hd]
      obtain ⟨g1, g2, g3, g4⟩ := window_grid hw hs ht hb (i := 0) (by omega)
      have e0 := window_eq hw hs ht hb (i := 0) (by omega)
      have ei := window_eq hw hs ht hb hi
      have hx4 := hx.2.2.2
      rw [ei] at hx4
      have hi0 : (0 : Int) ≤ (i : Int) * s := Int.mul_nonneg (by omega) (by omega)
      rw [e0] at g3 ⊢
      dsimp only at hx4 g3 ⊢
      simp only [Bool.and_eq_true, decide_eq_true_eq]
      constructor <;> omega
    show _ ∈ if keeps w s st t then (List.range (overlapping w s)).map (window w s st t) else []
    rw [if_pos hk]
    exact List.mem_map.2 ⟨i, List.mem_range.2 ((lt_overlapping hs0).2 hi), rfl⟩

/-- C79, tumbling windows, any times: every row with a time is in the result exactly once, so no row is counted twice or lost. -/
theorem C79_tumbling_once {α : Type} {wArg : Int} {start : Option Int} {rows : List (Option Int × α)}
    {out : List (Win × (Option Int × α))} (h : timeWindow wArg none start rows = .ok out) :
    out.map (·.2) = rows.filter fun r => r.1.isSome := by
  obtain ⟨_, _, rfl⟩ := timeWindow_ok h
  clear h
  induction rows with
  | nil => rfl
  | cons r rs ih =>
    rw [List.flatMap_cons, List.map_append, ih]
    cases hr : r.1 with
    | none => simp [rowWindows, tumbling, hr]
    | some t => simp [rowWindows, tumbling, hr]

/-- The lengths asked for are the lengths used, for positive lengths up to 365 days. -/
theorem C79_length_partial {d : Int} (h0 : 0 < d) (h1 : d ≤ 31536000000000000) : (durationArg d : Int) = d := by
  unfold durationArg; omega

/-- The test data of the repository (`sqllogicaltests/cases/function/time_window.slt:50-60`), in the day of the test: windows of 10 ms
each 5 ms. -/
example : timeWindow 10000000 (some 5000000) none [(some 10000000, 'a'), (none, 'b'), (some 13000000, 'c')] = .ok
    [((10000000, 20000000), (some 10000000, 'a')), ((5000000, 15000000), (some 10000000, 'a')),
     ((10000000, 20000000), (some 13000000, 'c')), ((5000000, 15000000), (some 13000000, 'c'))] := by rfl

/-- Windows of 3 ms each 5 ms: a row at 4 ms is in a gap. -/
example : timeWindow 3000000 (some 5000000) none [(some 2000000, 'a'), (some 4000000, 'b'), (some 5000000, 'c')] = .ok
    [((0, 3000000), (some 2000000, 'a')), ((5000000, 8000000), (some 5000000, 'c'))] := by rfl

/-- C79 fails for times before 1970: 15 ms before, with tumbling windows of 10 ms, is put into the window from −10 ms to 0. -/
theorem C79_before_epoch_refuted :
    timeWindow 10000000 none none [(some (-15000000), ())] = .ok [((-10000000, 0), (some (-15000000), ()))] ∧
      ¬ IsWindowOf 10000000 10000000 0 (-15000000) (-10000000, 0) := by
  refine ⟨by rfl, ?_⟩
  rintro ⟨_, _, h, _⟩
  dsimp only at h; omega

/-- C79 fails for windows that are not a multiple of the slide: the row at 5 ms is put into the window that ends at 4 ms (the expected result
of `time_window.slt:54` has such a row). -/
theorem C79_extra_window_refuted :
    timeWindow 10000000 (some 6000000) none [(some 5000000, ())] = .ok
      [((0, 10000000), (some 5000000, ())), ((-6000000, 4000000), (some 5000000, ()))] ∧
      ¬ IsWindowOf 10000000 6000000 0 5000000 (-6000000, 4000000) := by
  refine ⟨by rfl, ?_⟩
  rintro ⟨_, _, _, h⟩
  dsimp only at h; omega

/-- C79 fails for a start time that is not smaller than the window: with windows of 5 ms each 10 ms, from 7 ms on, a row at 7 ms is in a gap
(the windows start at 2 ms, 12 ms, …). -/
theorem C79_start_refuted :
    timeWindow 5000000 (some 10000000) (some 7000000) [(some 7000000, ())] = .ok [] ∧
      IsWindowOf 5000000 10000000 7000000 7000000 (7000000, 12000000) := by
  refine ⟨by rfl, rfl, by simp, Int.le_refl _, by decide⟩

/-- C79 fails for too long windows: one of 2^64 ns and 6 days (593 years, 30-day months) is accepted as one of 6 days. -/
theorem C79_length_refuted :
    timeWindow (18446744073709551616 + 518400000000000) none none [(some 0, ())] = .ok [((0, 518400000000000), (some 0, ()))] := by rfl

end Verif.Window
