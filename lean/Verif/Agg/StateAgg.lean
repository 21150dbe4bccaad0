import Verif.Agg.Plan
/-!
# C82: `state_agg`, `compact_state_agg`, `state_at`, `duration_in`

`query_server/query/src/extension/expr/aggregate_function/state_agg/` and `scalar_function/{state_at,duration_in}.rs`. Times and
durations are integers without bound; an interval is a number of time units. A state may be anything, NULL too.
-/
namespace Verif.Agg.StateAgg

variable {S : Type} [DecidableEq S]

/-- One row: time, which may be NULL, and state. -/
abbrev Row (S : Type) := Option Int × S

/-- Insert into a hash map the value that `f` makes of the old one. -/
def upsert {V : Type} (s : S) (f : Option V → V) : List (S × V) → List (S × V)
  | [] => [(s, f none)]
  | e :: m => if e.1 = s then (s, f (some e.2)) :: m else e :: upsert s f m

/-- Look up in a hash map. -/
def get {V : Type} (s : S) (m : List (S × V)) : Option V := (m.find? (·.1 = s)).map (·.2)

/-- `StateAggData` (`state_agg_data.rs:32-37`): the duration of each state, the periods of each state, and the last record. -/
structure Data (S : Type) where
  /-- `state_duration`. -/
  durations : List (S × Int)
  /-- `state_periods`. -/
  periods : List (S × List (Int × Int))
  /-- `last`, `last_state`. -/
  last : Option (S × Int)

/-- `handle_record` (`state_agg_data.rs:51-61`, `:219-238`, `:507-528`). -/
def handle (compact : Bool) (d : Data S) (r : Int × S) : Data S :=
  match d.last with
  | none => { d with last := some (r.2, r.1) }
  | some (ls, lt) =>
    { durations := upsert ls (fun o => match o with | none => r.1 - lt | some x => x + (r.1 - lt)) d.durations
      periods := if compact then d.periods else upsert ls (fun o => o.getD [] ++ [(lt, r.1)]) d.periods
      last := some (r.2, r.1) }

/-- `finalize` (`state_agg_data.rs:63-66`, `:532-538`). -/
def finalize (d : Data S) : Data S :=
  match d.last with
  | none => d
  | some (ls, _) => { d with durations := upsert ls (fun o => o.getD 0) d.durations }

/-- `evaluate` (`state_agg_accumulator.rs:54-91`): rows by time, those without time skipped. -/
def evaluate (compact : Bool) (srt : List (Row S) → List (Row S)) (rs : List (Row S)) : Data S :=
  finalize (((srt rs).filterMap fun r => r.1.map fun t => (t, r.2)).foldl (handle compact) ⟨[], [], none⟩)

/-- `[compact_]state_agg(time, state)` over a plan: the rows are collected (`update_batch`, `state`, `merge_batch`,
`state_agg_accumulator.rs:28-52`, `:97-127`). -/
def stateAgg (compact : Bool) (srt : List (Row S) → List (Row S)) (p : Plan (List (Row S))) : Data S :=
  evaluate compact srt (p.run [] (· ++ ·) id (fun a ss => ss.foldl (· ++ ·) a))

/-- `compact` after `TryFrom<ScalarValue>` (`state_agg_data.rs:178-179`). -/
def isCompact (d : Data S) : Bool := d.periods.isEmpty && !d.durations.isEmpty

/-- `state_at` (`state_agg_data.rs:138-152`, `state_at.rs:50-68`); the outer `none` is an error. -/
def stateAt (d : Data S) (t : Int) : Option (Option S) :=
  if isCompact d then none
  else some ((d.periods.find? fun e => e.2.any fun p => p.1 ≤ t ∧ t < p.2).map (·.1))

/-- `duration_in(agg, state)` (`state_agg_data.rs:98-105`, `:81-90`, `duration_in.rs:76-84`). -/
def duration (d : Data S) (s : S) : Int := (get s d.durations).getD 0

/-- The part of a period after `start` and before `stop`, if there is an end (`state_agg_data.rs:108-131`). -/
def part (start : Int) (stop : Option Int) (p : Int × Int) : Int :=
  match stop with
  | some stop =>
    if start < p.2 ∧ p.1 < stop then
      if p.1 < start then if stop < p.2 then stop - start else p.2 - start
      else if stop < p.2 then stop - p.1 else p.2 - p.1
    else 0
  | none => if start < p.2 then if p.1 < start then p.2 - start else p.2 - p.1 else 0

/-- `duration_in(agg, state, start[, interval])` (`state_agg_data.rs:106-136`, `duration_in.rs:86-118`); `none` is an error. -/
def durationIn (d : Data S) (s : S) (start : Int) (interval : Option Int) : Option Int :=
  if isCompact d then none
  else some ((((get s d.periods).getD []).map (part start (interval.map (start + ·)))).sum)

/-! ## The properties -/

/-- `sort_indices` (`state_agg_accumulator.rs:156-160`): an unstable sort by time, NULL first. -/
def Sorts (srt : List (Row S) → List (Row S)) : Prop :=
  ∀ l, (srt l).Perm l ∧ (srt l).Pairwise fun a b => ∀ t ∈ b.1, ∀ u ∈ a.1, u ≤ t

/-- `s` is a state at time `t`: that of a latest row until `t`, and there is a later row. -/
def IsStateAt (rows : List (Row S)) (t : Int) (s : S) : Prop :=
  ∃ t0, (some t0, s) ∈ rows ∧ t0 ≤ t ∧ (∀ r ∈ rows, ∀ u ∈ r.1, u ≤ t → u ≤ t0) ∧ ∃ r ∈ rows, ∃ u ∈ r.1, t < u

/-- All times from `a` until before `b`. -/
def times (a b : Int) : List Int := (List.range (b - a).toNat).map fun (i : Nat) => a + i

/-! ## Proofs -/

/-- The periods of rows in order, with their states. -/
def segs : List (Int × S) → List (S × Int × Int)
  | a :: b :: l => (a.2, a.1, b.1) :: segs (b :: l)
  | _ => []

theorem get_upsert {V : Type} (s s' : S) (f : Option V → V) (m : List (S × V)) :
    get s' (upsert s f m) = if s' = s then some (f (get s m)) else get s' m := by
  induction m with
  | nil =>
    by_cases h : s' = s
    · subst h; simp [upsert, get]
    · simp [upsert, get, h, Ne.symm h]
  | cons e m ih =>
    rw [upsert]
    by_cases he : e.1 = s
    · rw [if_pos he]
      by_cases h : s' = s
      · subst h; simp [get, he]
      · have : ¬ e.1 = s' := fun h' => h (h'.symm.trans he)
        simp [get, h, Ne.symm h, this]
    · rw [if_neg he]
      by_cases h : s' = s
      · subst h
        rw [if_pos rfl]
        rw [if_pos rfl] at ih
        unfold get at ih ⊢
        rw [List.find?_cons_of_neg (by simpa using he), ih, List.find?_cons_of_neg (by simpa using he)]
      · rw [if_neg h]
        rw [if_neg h] at ih
        unfold get at ih ⊢
        by_cases h2 : e.1 = s'
        · rw [List.find?_cons_of_pos (by simpa using h2), List.find?_cons_of_pos (by simpa using h2)]
        · rw [List.find?_cons_of_neg (by simpa using h2), List.find?_cons_of_neg (by simpa using h2), ih]

theorem keys_upsert {V : Type} (s : S) (f : Option V → V) (m : List (S × V)) :
    (upsert s f m).map (·.1) = if s ∈ m.map (·.1) then m.map (·.1) else m.map (·.1) ++ [s] := by
  induction m with
  | nil => simp [upsert]
  | cons e m ih =>
    rw [upsert]
    by_cases he : e.1 = s
    · rw [if_pos he]; simp [he]
    · rw [if_neg he, List.map_cons, ih]
      have : ¬ s = e.1 := fun h => he h.symm
      by_cases hm : s ∈ m.map (·.1)
      · rw [if_pos hm, if_pos (by rw [List.map_cons]; exact List.mem_cons_of_mem _ hm), List.map_cons]
      · rw [if_neg hm, if_neg (by rw [List.map_cons, List.mem_cons]; rintro (h | h) <;> contradiction), List.map_cons,
          List.cons_append]

theorem nodup_upsert {V : Type} (s : S) (f : Option V → V) (m : List (S × V)) (h : (m.map (·.1)).Nodup) :
    ((upsert s f m).map (·.1)).Nodup := by
  rw [keys_upsert]
  split
  · exact h
  · rename_i hn
    rw [List.nodup_append]
    refine ⟨h, by simp, fun a ha b hb e => ?_⟩
    rw [List.mem_singleton.1 hb] at e
    exact hn (e ▸ ha)

/-- The periods of a state. -/
def segsOf (s : S) (l : List (S × Int × Int)) : List (Int × Int) := (l.filter (·.1 = s)).map (·.2)

/-- The sum of durations. -/
def sumDur (l : List (Int × Int)) : Int := (l.map fun p => p.2 - p.1).sum

/-- What the fold over the records keeps: `sg` the periods so far. -/
structure Inv (compact : Bool) (d : Data S) (sg : List (S × Int × Int)) : Prop where
  dur : ∀ s, (get s d.durations).getD 0 = sumDur (segsOf s sg)
  per : compact = false → ∀ s, (get s d.periods).getD [] = segsOf s sg
  nodup : (d.periods.map (·.1)).Nodup
  nonempty : compact = false → ∀ e ∈ d.periods, e.2 ≠ []
  comp : compact = true → d.periods = []
  durSome : sg ≠ [] → d.durations ≠ []
  perEmpty : sg = [] → d.periods = []

theorem segsOf_append (s : S) (a b : List (S × Int × Int)) : segsOf s (a ++ b) = segsOf s a ++ segsOf s b := by
  simp [segsOf]

theorem mem_upsert {V : Type} {s : S} {f : Option V → V} {m : List (S × V)} {e : S × V} (h : e ∈ upsert s f m) :
    e ∈ m ∨ ∃ o, e = (s, f o) := by
  induction m with
  | nil => rw [upsert, List.mem_singleton] at h; exact .inr ⟨none, h⟩
  | cons x m ih =>
    rw [upsert] at h
    split at h
    · rcases List.mem_cons.1 h with h | h
      · exact .inr ⟨_, h⟩
      · exact .inl (List.mem_cons_of_mem _ h)
    · rcases List.mem_cons.1 h with h | h
      · exact .inl (h ▸ List.mem_cons_self ..)
      · rcases ih h with h | h
        · exact .inl (List.mem_cons_of_mem _ h)
        · exact .inr h

theorem upsert_ne_nil {V : Type} (s : S) (f : Option V → V) (m : List (S × V)) : upsert s f m ≠ [] := by
  cases m with
  | nil => simp [upsert]
  | cons e m => rw [upsert]; split <;> simp

theorem handle_inv {compact : Bool} {d : Data S} {sg : List (S × Int × Int)} (h : Inv compact d sg) (ls : S) (lt : Int)
    (hl : d.last = some (ls, lt)) (r : Int × S) : Inv compact (handle compact d r) (sg ++ [(ls, lt, r.1)]) := by
  have e : handle compact d r = { durations := upsert ls (fun o => match o with | none => r.1 - lt | some x => x + (r.1 - lt)) d.durations
                                  periods := if compact then d.periods else upsert ls (fun o => o.getD [] ++ [(lt, r.1)]) d.periods
                                  last := some (r.2, r.1) } := by
    unfold handle; rw [hl]
  rw [e]
  constructor
  · intro s
    show (get s (upsert _ _ _)).getD 0 = _
    rw [get_upsert, segsOf_append]
    have hd := h.dur s
    by_cases hs : s = ls
    · subst hs
      rw [if_pos rfl]
      have : segsOf s [(s, lt, r.1)] = [(lt, r.1)] := by simp [segsOf]
      rw [this]
      cases hg : get s d.durations with
      | none => rw [hg] at hd; simp [sumDur] at hd ⊢; omega
      | some x => rw [hg] at hd; simp [sumDur] at hd ⊢; omega
    · rw [if_neg hs]
      have : segsOf s [(ls, lt, r.1)] = [] := by simp [segsOf, Ne.symm hs]
      rw [this, List.append_nil]; exact hd
  · intro hc s
    subst hc
    show (get s (upsert _ _ _)).getD [] = _
    rw [get_upsert, segsOf_append]
    have hd := h.per rfl s
    by_cases hs : s = ls
    · subst hs
      rw [if_pos rfl]
      have : segsOf s [(s, lt, r.1)] = [(lt, r.1)] := by simp [segsOf]
      rw [this]
      simp [hd]
    · rw [if_neg hs]
      have : segsOf s [(ls, lt, r.1)] = [] := by simp [segsOf, Ne.symm hs]
      rw [this, List.append_nil]; exact hd
  · dsimp only
    split
    · exact h.nodup
    · exact nodup_upsert _ _ _ h.nodup
  · intro hc x hx
    subst hc
    rcases mem_upsert (show x ∈ upsert _ _ _ from hx) with hx | ⟨o, rfl⟩
    · exact h.nonempty rfl x hx
    · simp
  · intro hc
    subst hc
    exact h.comp rfl
  · exact fun _ => upsert_ne_nil _ _ _
  · intro h; simp at h

theorem fold_inv (compact : Bool) : ∀ (l : List (Int × S)) (d : Data S) (sg : List (S × Int × Int)) (x : Int × S),
    Inv compact d sg → d.last = some (x.2, x.1) → Inv compact (l.foldl (handle compact) d) (sg ++ segs (x :: l)) ∧
      (l.foldl (handle compact) d).last ≠ none := by
  intro l
  induction l with
  | nil => intro d sg x h hl; refine ⟨by simpa [segs] using h, by rw [List.foldl_nil, hl]; simp⟩
  | cons y l ih =>
    intro d sg x h hl
    rw [List.foldl_cons, segs, List.append_cons]
    exact ih _ _ _ (handle_inv h x.2 x.1 hl y) (by unfold handle; rw [hl])

/-- The rows with a time, in the order of the sort. -/
def sorted (srt : List (Row S) → List (Row S)) (rs : List (Row S)) : List (Int × S) :=
  (srt rs).filterMap fun r => r.1.map fun t => (t, r.2)

theorem evaluate_inv (compact : Bool) (srt : List (Row S) → List (Row S)) (rs : List (Row S)) :
    Inv compact (evaluate compact srt rs) (segs (sorted srt rs)) := by
  unfold evaluate
  show Inv compact (finalize ((sorted srt rs).foldl (handle compact) ⟨[], [], none⟩)) _
  have h0 : ∀ l, Inv compact (⟨[], [], l⟩ : Data S) [] := fun l =>
    ⟨(fun s => by simp [get, sumDur, segsOf]), (fun _ s => by simp [get, segsOf]), by simp, (fun _ e he => absurd he List.not_mem_nil),
      (fun _ => rfl), (fun h => absurd rfl h), (fun _ => rfl)⟩
  cases hl : sorted srt rs with
  | nil => simpa [finalize, segs] using h0 none
  | cons x l =>
    rw [List.foldl_cons]
    have hx : handle compact ⟨[], [], none⟩ x = (⟨[], [], some (x.2, x.1)⟩ : Data S) := rfl
    rw [hx]
    obtain ⟨h1, h2⟩ := fold_inv compact l _ [] x (h0 (some (x.2, x.1))) rfl
    rw [List.nil_append] at h1
    generalize l.foldl (handle compact) ⟨[], [], some (x.2, x.1)⟩ = d at h1 h2
    have hf : ∃ ls, (finalize d).durations = upsert ls (fun o => o.getD 0) d.durations ∧ (finalize d).periods = d.periods := by
      unfold finalize
      cases hd : d.last with
      | none => exact absurd hd h2
      | some q => exact ⟨q.1, rfl, rfl⟩
    obtain ⟨ls, hf1, hf2⟩ := hf
    refine ⟨?_, ?_, ?_, ?_, ?_, ?_, ?_⟩
    · intro s
      rw [hf1, get_upsert]
      by_cases hs : s = ls
      · subst hs; rw [if_pos rfl, ← h1.dur s]; rfl
      · rw [if_neg hs]; exact h1.dur s
    · rw [hf2]; exact h1.per
    · rw [hf2]; exact h1.nodup
    · rw [hf2]; exact h1.nonempty
    · rw [hf2]; exact h1.comp
    · rw [hf1]; exact fun _ => upsert_ne_nil _ _ _
    · rw [hf2]; exact h1.perEmpty

theorem rows_run (p : Plan (List (Row S))) :
    p.run ([] : List (Row S)) (· ++ ·) id (fun a ss => ss.foldl (· ++ ·) a) = p.rows := by
  refine Plan.run_inv (fun a rs => a = rs) (fun a rs => a = rs) rfl (fun a rs b h => by rw [h]) (fun a rs h => h) ?_ p
  intro a rs ps ha hps
  subst ha
  have : ps.map (·.1) = ps.map (·.2) := List.map_congr_left hps
  rw [this]
  generalize ps.map (·.2) = l
  induction l generalizing a with
  | nil => simp
  | cons x l ih => rw [List.foldl_cons, ih, List.flatten_cons, List.append_assoc]

theorem sorted_pairwise {srt : List (Row S) → List (Row S)} (hs : Sorts srt) (rs : List (Row S)) :
    (sorted srt rs).Pairwise fun a b => a.1 ≤ b.1 := by
  unfold sorted
  rw [List.pairwise_filterMap]
  refine (hs rs).2.imp ?_
  intro a b h x hx y hy
  obtain ⟨t, ht, rfl⟩ := Option.map_eq_some_iff.1 hx
  obtain ⟨u, hu, rfl⟩ := Option.map_eq_some_iff.1 hy
  exact h u hu t ht

theorem mem_sorted {srt : List (Row S) → List (Row S)} (hs : Sorts srt) {rs : List (Row S)} {x : Int × S} :
    x ∈ sorted srt rs ↔ (some x.1, x.2) ∈ rs := by
  unfold sorted
  rw [List.mem_filterMap]
  constructor
  · rintro ⟨r, hr, h⟩
    obtain ⟨t, ht, rfl⟩ := Option.map_eq_some_iff.1 h
    have := (hs rs).1.mem_iff.1 hr
    rw [show (some t, r.2) = r from by rw [← ht]]
    exact this
  · intro h
    exact ⟨_, (hs rs).1.mem_iff.2 h, rfl⟩

/-- A time is in a period of `s` only if `s` is the state at that time. -/
theorem segs_state : ∀ (l : List (Int × S)), l.Pairwise (fun a b => a.1 ≤ b.1) → ∀ s p q t, (s, p, q) ∈ segs l → p ≤ t → t < q →
    (p, s) ∈ l ∧ (∀ x ∈ l, x.1 ≤ t → x.1 ≤ p) ∧ ∃ x ∈ l, t < x.1 := by
  intro l
  induction l with
  | nil => intro _ s p q t h; simp [segs] at h
  | cons a l ih =>
    cases l with
    | nil => intro _ s p q t h; simp [segs] at h
    | cons b l =>
      intro hp s p q t h h1 h2
      have hp' := List.pairwise_cons.1 hp
      rw [segs] at h
      rcases List.mem_cons.1 h with h | h
      · cases h
        refine ⟨by simp, ?_, b, by simp, h2⟩
        intro x hx hxt
        rcases List.mem_cons.1 hx with rfl | hx
        · omega
        · exfalso
          have hb := List.pairwise_cons.1 hp'.2
          rcases List.mem_cons.1 hx with rfl | hx
          · omega
          · have := hb.1 x hx; omega
      · obtain ⟨g1, g2, x, hx, g3⟩ := ih hp'.2 s p q t h h1 h2
        refine ⟨List.mem_cons_of_mem _ g1, ?_, x, List.mem_cons_of_mem _ hx, g3⟩
        intro y hy hyt
        rcases List.mem_cons.1 hy with rfl | hy
        · exact hp'.1 _ g1
        · exact g2 y hy hyt

/-- A time after some row and before another is in a period. -/
theorem segs_cover : ∀ (l : List (Int × S)), l.Pairwise (fun a b => a.1 ≤ b.1) → ∀ t, (∃ x ∈ l, x.1 ≤ t) → (∃ x ∈ l, t < x.1) →
    ∃ s p q, (s, p, q) ∈ segs l ∧ p ≤ t ∧ t < q := by
  intro l
  induction l with
  | nil => rintro _ t ⟨x, hx, _⟩; cases hx
  | cons a l ih =>
    cases l with
    | nil =>
      rintro _ t ⟨x, hx, h1⟩ ⟨y, hy, h2⟩
      rw [List.mem_singleton] at hx hy
      subst hx; subst hy; omega
    | cons b l =>
      rintro hp t ⟨x, hx, h1⟩ ⟨y, hy, h2⟩
      have hp' := List.pairwise_cons.1 hp
      by_cases hb : b.1 ≤ t
      · obtain ⟨s, p, q, h, h3⟩ := ih hp'.2 t ⟨b, by simp, hb⟩ (by
          rcases List.mem_cons.1 hy with rfl | hy
          · have := hp'.1 b (by simp); omega
          · exact ⟨y, hy, h2⟩)
        exact ⟨s, p, q, by rw [segs]; exact List.mem_cons_of_mem _ h, h3⟩
      · refine ⟨a.2, a.1, b.1, by rw [segs]; simp, ?_, by omega⟩
        rcases List.mem_cons.1 hx with rfl | hx
        · exact h1
        · have hb' := List.pairwise_cons.1 hp'.2
          rcases List.mem_cons.1 hx with rfl | hx
          · omega
          · have := hb'.1 x hx; omega

/-- A time is in a period of one state only. -/
theorem segs_unique : ∀ (l : List (Int × S)), l.Pairwise (fun a b => a.1 ≤ b.1) → ∀ s p q s' p' q' t, (s, p, q) ∈ segs l →
    p ≤ t → t < q → (s', p', q') ∈ segs l → p' ≤ t → t < q' → s = s' := by
  intro l
  induction l with
  | nil => intro _ s p q s' p' q' t h; simp [segs] at h
  | cons a l ih =>
    cases l with
    | nil => intro _ s p q s' p' q' t h; simp [segs] at h
    | cons b l =>
      intro hp s p q s' p' q' t h h1 h2 h' h1' h2'
      have hp' := List.pairwise_cons.1 hp
      have lb : ∀ s p q, (s, p, q) ∈ segs (b :: l) → p ≤ t → t < q → b.1 ≤ t := by
        intro s p q hm g1 g2
        have := (segs_state _ hp'.2 s p q t hm g1 g2).1
        rcases List.mem_cons.1 this with h | h
        · rw [← h]; exact g1
        · have := (List.pairwise_cons.1 hp'.2).1 _ h
          dsimp only at this; omega
      rw [segs] at h h'
      rcases List.mem_cons.1 h with e | hm
      · rcases List.mem_cons.1 h' with e' | hm'
        · cases e; cases e'; rfl
        · cases e; have := lb _ _ _ hm' h1' h2'; omega
      · rcases List.mem_cons.1 h' with e' | hm'
        · cases e'; have := lb _ _ _ hm h1 h2; omega
        · exact ih hp'.2 s p q s' p' q' t hm h1 h2 hm' h1' h2'

theorem get_of_mem {V : Type} {m : List (S × V)} (hn : (m.map (·.1)).Nodup) {e : S × V} (he : e ∈ m) : get e.1 m = some e.2 := by
  induction m with
  | nil => cases he
  | cons x m ih =>
    rw [List.map_cons, List.nodup_cons] at hn
    unfold get
    rcases List.mem_cons.1 he with rfl | he
    · simp
    · have hx : ¬ x.1 = e.1 := fun h => hn.1 (h ▸ List.mem_map_of_mem he)
      rw [List.find?_cons_of_neg (by simpa using hx)]
      exact ih hn.2 he

theorem mem_of_get {V : Type} {m : List (S × V)} {s : S} {v : V} (h : get s m = some v) : (s, v) ∈ m := by
  unfold get at h
  obtain ⟨e, he, rfl⟩ := Option.map_eq_some_iff.1 h
  have h1 := List.find?_some he
  have h2 := List.mem_of_find?_eq_some he
  simp only [decide_eq_true_eq] at h1
  rw [← h1]; exact h2

theorem mem_segsOf {s : S} {p q : Int} {l : List (S × Int × Int)} : (p, q) ∈ segsOf s l ↔ (s, p, q) ∈ l := by
  unfold segsOf
  rw [List.mem_map]
  constructor
  · rintro ⟨⟨s', p', q'⟩, h, e⟩
    cases e
    rw [List.mem_filter] at h
    have := h.2
    simp only [decide_eq_true_eq] at this
    subst this
    exact h.1
  · intro h
    exact ⟨(s, p, q), List.mem_filter.2 ⟨h, by simp⟩, rfl⟩

/-- `state_at` on data whose periods are those of rows in order. `ps` is any order of the hash map. -/
theorem find_spec {d : Data S} {l : List (Int × S)} (hi : Inv false d (segs l)) (hl : l.Pairwise (fun a b => a.1 ≤ b.1))
    {ps : List (S × List (Int × Int))} (hp : ps.Perm d.periods) (t : Int) (s : S) :
    (ps.find? fun e => e.2.any fun p => p.1 ≤ t ∧ t < p.2).map (·.1) = some s ↔ ∃ p q, (s, p, q) ∈ segs l ∧ p ≤ t ∧ t < q := by
  have fwd : ∀ s', (ps.find? fun e => e.2.any fun p => p.1 ≤ t ∧ t < p.2).map (·.1) = some s' →
      ∃ p q, (s', p, q) ∈ segs l ∧ p ≤ t ∧ t < q := by
    intro s' h
    obtain ⟨e, he, rfl⟩ := Option.map_eq_some_iff.1 h
    have h1 := List.find?_some he
    have h2 := hp.mem_iff.1 (List.mem_of_find?_eq_some he)
    obtain ⟨pq, hpq, hc⟩ := List.any_eq_true.1 h1
    simp only [decide_eq_true_eq] at hc
    have hg := get_of_mem hi.nodup h2
    have := hi.per rfl e.1
    rw [hg, Option.getD_some] at this
    rw [this] at hpq
    exact ⟨pq.1, pq.2, mem_segsOf.1 hpq, hc⟩
  constructor
  · exact fwd s
  · rintro ⟨p, q, hm, h1, h2⟩
    cases hf : (ps.find? fun e => e.2.any fun p => p.1 ≤ t ∧ t < p.2) with
    | none =>
      exfalso
      have hm' := mem_segsOf.2 hm
      rw [← hi.per rfl s] at hm'
      cases hg : get s d.periods with
      | none => rw [hg] at hm'; simp at hm'
      | some v =>
        rw [hg, Option.getD_some] at hm'
        have := List.find?_eq_none.1 hf (s, v) (hp.mem_iff.2 (mem_of_get hg))
        apply this
        rw [List.any_eq_true]
        exact ⟨(p, q), hm', by simp only [decide_eq_true_eq]; exact ⟨h1, h2⟩⟩
    | some e =>
      obtain ⟨p', q', hm', h1', h2'⟩ := fwd e.1 (by rw [hf]; rfl)
      rw [Option.map_some, segs_unique l hl _ _ _ _ _ _ t hm' h1' h2' hm h1 h2]

/-- Two rows at least give a period. -/
theorem segs_ne_nil {l : List (Int × S)} (h : 2 ≤ l.length) : segs l ≠ [] := by
  match l, h with
  | a :: b :: l, _ => rw [segs]; simp

theorem segs_nil {l : List (Int × S)} (h : l.length < 2) : segs l = [] := by
  match l, h with
  | [], _ => rfl
  | [a], _ => rfl

theorem isCompact_false {d : Data S} {l : List (Int × S)} (hi : Inv false d (segs l)) (h : 2 ≤ l.length) : isCompact d = false := by
  have hne := segs_ne_nil h
  cases hsg : segs l with
  | nil => exact absurd hsg hne
  | cons x sg =>
    have hm : (x.2.1, x.2.2) ∈ segsOf x.1 (segs l) := mem_segsOf.2 (by rw [hsg]; simp)
    rw [← hi.per rfl] at hm
    unfold isCompact
    cases hp : d.periods with
    | nil => rw [hp] at hm; simp [get] at hm
    | cons e m => rfl

/-- The length of the common part of two periods is the number of times in both. -/
theorem count_times (a b p q : Int) :
    (((times a b).countP fun t => decide (p ≤ t ∧ t < q) : Nat) : Int) = max 0 (min b q - max a p) := by
  unfold times
  by_cases hab : b ≤ a
  · rw [show (b - a).toNat = 0 by omega]; simp; omega
  · have hb : b = a + ((b - a).toNat : Int) := by omega
    generalize (b - a).toNat = n at hb
    subst hb
    clear hab
    induction n with
    | zero => simp; omega
    | succ n ih =>
      rw [List.range_succ, List.map_append, List.countP_append]
      push_cast
      rw [ih]
      by_cases h : p ≤ a + n ∧ a + n < q
      · simp [h]; omega
      · simp [h]; omega

/-- The number of times in `[a, b)` in periods of `s`. -/
theorem count_segs : ∀ (l : List (Int × S)), l.Pairwise (fun a b => a.1 ≤ b.1) → ∀ (s : S) (a b : Int),
    (((times a b).countP fun t => (segsOf s (segs l)).any fun p => p.1 ≤ t ∧ t < p.2 : Nat) : Int) =
      ((segsOf s (segs l)).map fun p => max 0 (min b p.2 - max a p.1)).sum := by
  intro l
  induction l with
  | nil => intro _ s a b; simp [segs, segsOf]
  | cons x l ih =>
    cases l with
    | nil => intro _ s a b; simp [segs, segsOf]
    | cons y l =>
      intro hp s a b
      have hp' := List.pairwise_cons.1 hp
      by_cases hs : x.2 = s
      · have e : segsOf s (segs (x :: y :: l)) = (x.1, y.1) :: segsOf s (segs (y :: l)) := by
          rw [segs]; simp [segsOf, hs]
        rw [e, List.map_cons, List.sum_cons, ← ih hp'.2 s a b]
        show _ = max 0 (min b y.1 - max a x.1) + _
        rw [← count_times a b x.1 y.1]
        have key : ∀ ts : List Int,
            ts.countP (fun t => ((x.1, y.1) :: segsOf s (segs (y :: l))).any fun p => p.1 ≤ t ∧ t < p.2) =
              ts.countP (fun t => decide (x.1 ≤ t ∧ t < y.1)) +
                ts.countP (fun t => (segsOf s (segs (y :: l))).any fun p => p.1 ≤ t ∧ t < p.2) := by
          intro ts
          induction ts with
          | nil => rfl
          | cons t ts iht =>
            rw [List.countP_cons, List.countP_cons, List.countP_cons, iht]
            have disj : x.1 ≤ t ∧ t < y.1 → ((segsOf s (segs (y :: l))).any fun p => decide (p.1 ≤ t ∧ t < p.2)) = false := by
              rintro ⟨h1, h2⟩
              rw [List.any_eq_false]
              rintro ⟨p, q⟩ hm hc
              simp only [decide_eq_true_eq] at hc
              have := (segs_state _ hp'.2 s p q t (mem_segsOf.1 hm) hc.1 hc.2).1
              rcases List.mem_cons.1 this with h | h
              · have : p = y.1 := by rw [← h]
                omega
              · have := (List.pairwise_cons.1 hp'.2).1 _ h
                dsimp only at this; omega
            rw [List.any_cons]
            by_cases h : x.1 ≤ t ∧ t < y.1
            · rw [disj h]; simp [h]; omega
            · simp only [h, decide_false, Bool.false_or]; simp; omega
        rw [key]; push_cast; rfl
      · have e : segsOf s (segs (x :: y :: l)) = segsOf s (segs (y :: l)) := by
          rw [segs]; simp [segsOf, hs]
        rw [e]; exact ih hp'.2 s a b

theorem segs_le : ∀ (l : List (Int × S)), l.Pairwise (fun a b => a.1 ≤ b.1) → ∀ s p q, (s, p, q) ∈ segs l →
    p ≤ q ∧ (∃ x ∈ l, x.1 = p) ∧ ∃ x ∈ l, x.1 = q := by
  intro l
  induction l with
  | nil => intro _ s p q h; simp [segs] at h
  | cons a l ih =>
    cases l with
    | nil => intro _ s p q h; simp [segs] at h
    | cons b l =>
      intro hp s p q h
      have hp' := List.pairwise_cons.1 hp
      rw [segs] at h
      rcases List.mem_cons.1 h with h | h
      · cases h
        exact ⟨hp'.1 b (by simp), ⟨a, by simp, rfl⟩, b, by simp, rfl⟩
      · obtain ⟨h1, ⟨x, hx, h2⟩, y, hy, h3⟩ := ih hp'.2 s p q h
        exact ⟨h1, ⟨x, List.mem_cons_of_mem _ hx, h2⟩, y, List.mem_cons_of_mem _ hy, h3⟩

theorem sorted_length {srt : List (Row S) → List (Row S)} (hs : Sorts srt) (rs : List (Row S)) :
    (sorted srt rs).length = (rs.filterMap (·.1)).length := by
  have e : ((sorted srt rs).map (·.1)) = (srt rs).filterMap (·.1) := by
    unfold sorted
    generalize srt rs = l
    induction l with
    | nil => rfl
    | cons r l ih => rcases r with ⟨_ | t, s⟩ <;> simp_all
  have := ((hs rs).1.filterMap (·.1)).length_eq
  rw [← e, List.length_map] at this
  exact this

/-- C82, `state_at`: if there are at least two rows with a time, then a state that `state_at` gives is the state of a latest row until
that time, and it gives none only before the first and from the last row on; in whatever order the hash map is read. What is missing:
a single row, see `C82_single_refuted`. -/
theorem C82_state_at_partial {srt : List (Row S) → List (Row S)} (hs : Sorts srt) (p : Plan (List (Row S)))
    (h2 : 2 ≤ (p.rows.filterMap (·.1)).length) (t : Int) {ps : List (S × List (Int × Int))}
    (hps : ps.Perm (stateAgg false srt p).periods) :
    ∃ o, stateAt { stateAgg false srt p with periods := ps } t = some o ∧
      match o with
      | some s => IsStateAt p.rows t s
      | none => (∀ r ∈ p.rows, ∀ u ∈ r.1, t < u) ∨ (∀ r ∈ p.rows, ∀ u ∈ r.1, u ≤ t) := by
  unfold stateAgg at hps ⊢
  rw [rows_run] at hps ⊢
  have hi := evaluate_inv false srt p.rows
  have hso := sorted_pairwise hs p.rows
  have hlen : 2 ≤ (sorted srt p.rows).length := by rw [sorted_length hs]; exact h2
  have hc : isCompact { evaluate false srt p.rows with periods := ps } = false := by
    have := isCompact_false hi hlen
    unfold isCompact at this ⊢
    dsimp only
    cases h : ps with
    | nil =>
      rw [h] at hps
      rw [← hps.nil_eq] at this
      exact this
    | cons e m => rfl
  refine ⟨_, by unfold stateAt; rw [hc]; rfl, ?_⟩
  dsimp only
  split
  · rename_i s hf
    obtain ⟨a, b, hm, h3, h4⟩ := (find_spec hi hso hps t s).1 hf
    obtain ⟨g1, g2, x, hx, g3⟩ := segs_state _ hso s a b t hm h3 h4
    exact ⟨a, (mem_sorted hs).1 g1, h3, fun r hr u hu hut => g2 (u, r.2) ((mem_sorted hs).2 (by rw [← show r.1 = some u from hu]; exact hr)) hut,
      (some x.1, x.2), (mem_sorted hs).1 hx, x.1, rfl, g3⟩
  · rename_i hf
    apply Classical.byContradiction
    intro hcon
    rw [not_or] at hcon
    have e1 : ∃ x ∈ sorted srt p.rows, x.1 ≤ t := by
      apply Classical.byContradiction
      intro hn
      apply hcon.1
      intro r hr u hu
      apply Int.not_le.1
      intro hle
      exact hn ⟨(u, r.2), (mem_sorted hs).2 (by rw [← show r.1 = some u from hu]; exact hr), hle⟩
    have e2 : ∃ x ∈ sorted srt p.rows, t < x.1 := by
      apply Classical.byContradiction
      intro hn
      apply hcon.2
      intro r hr u hu
      apply Int.not_lt.1
      intro hle
      exact hn ⟨(u, r.2), (mem_sorted hs).2 (by rw [← show r.1 = some u from hu]; exact hr), hle⟩
    obtain ⟨s, a, b, hm, h3⟩ := segs_cover _ hso t e1 e2
    have := (find_spec hi hso hps t s).2 ⟨a, b, hm, h3⟩
    rw [hf] at this; cases this

theorem part_some (start stop : Int) (h : start ≤ stop) {p : Int × Int} (hp : p.1 ≤ p.2) :
    part start (some stop) p = max 0 (min stop p.2 - max start p.1) := by
  unfold part
  dsimp only
  split <;> rename_i h1
  · split <;> split <;> omega
  · omega

theorem any_spec {srt : List (Row S) → List (Row S)} {rs : List (Row S)} (hi : Inv false (evaluate false srt rs) (segs (sorted srt rs)))
    (hso : (sorted srt rs).Pairwise (fun a b => a.1 ≤ b.1)) (hlen : 2 ≤ (sorted srt rs).length) (s : S) (t : Int) :
    ((segsOf s (segs (sorted srt rs))).any fun p => decide (p.1 ≤ t ∧ t < p.2)) =
      decide (stateAt (evaluate false srt rs) t = some (some s)) := by
  have h := find_spec hi hso (List.Perm.refl _) t s
  have e : (stateAt (evaluate false srt rs) t = some (some s)) ↔ ∃ p q, (s, p, q) ∈ segs (sorted srt rs) ∧ p ≤ t ∧ t < q := by
    rw [← h]
    unfold stateAt
    rw [isCompact_false hi hlen]
    simp
  rw [Bool.eq_iff_iff, List.any_eq_true, decide_eq_true_iff, e]
  constructor
  · rintro ⟨⟨p, q⟩, hm, hc⟩
    simp only [decide_eq_true_eq] at hc
    exact ⟨p, q, mem_segsOf.1 hm, hc⟩
  · rintro ⟨p, q, hm, hc⟩
    exact ⟨(p, q), mem_segsOf.2 hm, by simp only [decide_eq_true_eq]; exact hc⟩

/-- C82, `duration_in` with a start and an interval: it is the number of times in the range at which `state_at` gives the state. -/
theorem C82_duration_in_partial {srt : List (Row S) → List (Row S)} (hs : Sorts srt) (p : Plan (List (Row S)))
    (h2 : 2 ≤ (p.rows.filterMap (·.1)).length) (s : S) (start interval : Int) (hiv : 0 ≤ interval) :
    durationIn (stateAgg false srt p) s start (some interval) =
      some (((times start (start + interval)).countP fun t => decide (stateAt (stateAgg false srt p) t = some (some s)) : Nat) : Int) := by
  unfold stateAgg
  rw [rows_run]
  have hi := evaluate_inv false srt p.rows
  have hso := sorted_pairwise hs p.rows
  have hlen : 2 ≤ (sorted srt p.rows).length := by rw [sorted_length hs]; exact h2
  unfold durationIn
  rw [isCompact_false hi hlen]
  simp only [Bool.false_eq_true, if_false, Option.map_some]
  congr 1
  rw [hi.per rfl s]
  have hc := count_segs _ hso s start (start + interval)
  rw [show (fun t => (segsOf s (segs (sorted srt p.rows))).any fun p => decide (p.1 ≤ t ∧ t < p.2)) =
    fun t => decide (stateAt (evaluate false srt p.rows) t = some (some s)) from funext fun t => any_spec hi hso hlen s t] at hc
  rw [hc]
  congr 1
  refine List.map_congr_left ?_
  rintro ⟨a, b⟩ hm
  exact part_some _ _ (by omega) (segs_le _ hso s a b (mem_segsOf.1 hm)).1

/-- C82, `duration_in` with a start: it is the number of times from there on, until any time `b` that no row is after, at which `state_at`
gives the state. -/
theorem C82_duration_from_partial {srt : List (Row S) → List (Row S)} (hs : Sorts srt) (p : Plan (List (Row S)))
    (h2 : 2 ≤ (p.rows.filterMap (·.1)).length) (s : S) (start : Int) {b : Int} (hb : ∀ r ∈ p.rows, ∀ u ∈ r.1, u ≤ b) :
    durationIn (stateAgg false srt p) s start none =
      some (((times start b).countP fun t => decide (stateAt (stateAgg false srt p) t = some (some s)) : Nat) : Int) := by
  unfold stateAgg
  rw [rows_run]
  have hi := evaluate_inv false srt p.rows
  have hso := sorted_pairwise hs p.rows
  have hlen : 2 ≤ (sorted srt p.rows).length := by rw [sorted_length hs]; exact h2
  unfold durationIn
  rw [isCompact_false hi hlen]
  simp only [Bool.false_eq_true, if_false, Option.map_none]
  congr 1
  rw [hi.per rfl s]
  have hc := count_segs _ hso s start b
  rw [show (fun t => (segsOf s (segs (sorted srt p.rows))).any fun p => decide (p.1 ≤ t ∧ t < p.2)) =
    fun t => decide (stateAt (evaluate false srt p.rows) t = some (some s)) from funext fun t => any_spec hi hso hlen s t] at hc
  rw [hc]
  congr 1
  refine List.map_congr_left ?_
  rintro ⟨a, q⟩ hm
  obtain ⟨h3, _, y, hy, rfl⟩ := segs_le _ hso s a q (mem_segsOf.1 hm)
  have := hb _ ((mem_sorted hs).1 hy) y.1 rfl
  unfold part
  dsimp only
  split
  · split <;> omega
  · omega

/-- The sum of the durations of periods within `[a, b]` is the number of times in them. -/
theorem sumDur_count {l : List (Int × S)} (hl : l.Pairwise (fun a b => a.1 ≤ b.1)) (s : S) {a b : Int}
    (h : ∀ x ∈ l, a ≤ x.1 ∧ x.1 ≤ b) :
    sumDur (segsOf s (segs l)) = (((times a b).countP fun t => (segsOf s (segs l)).any fun p => p.1 ≤ t ∧ t < p.2 : Nat) : Int) := by
  rw [count_segs l hl s a b]
  unfold sumDur
  congr 1
  refine List.map_congr_left ?_
  rintro ⟨p, q⟩ hm
  obtain ⟨h1, ⟨x, hx, rfl⟩, y, hy, rfl⟩ := segs_le _ hl s p q (mem_segsOf.1 hm)
  have := h x hx
  have := h y hy
  dsimp only
  omega

/-- C82, `duration_in` of the whole: it is the number of times, in any range that has all rows, at which `state_at` gives the state; also
for `compact_state_agg`, where the times are those of `state_agg`. -/
theorem C82_duration_partial {srt : List (Row S) → List (Row S)} (hs : Sorts srt) (p : Plan (List (Row S)))
    (h2 : 2 ≤ (p.rows.filterMap (·.1)).length) (s : S) {a b : Int} (hab : ∀ r ∈ p.rows, ∀ u ∈ r.1, a ≤ u ∧ u ≤ b) (compact : Bool) :
    duration (stateAgg compact srt p) s =
      (((times a b).countP fun t => decide (stateAt (stateAgg false srt p) t = some (some s)) : Nat) : Int) := by
  unfold stateAgg
  rw [rows_run]
  have hi := evaluate_inv false srt p.rows
  have hic := evaluate_inv compact srt p.rows
  have hso := sorted_pairwise hs p.rows
  have hlen : 2 ≤ (sorted srt p.rows).length := by rw [sorted_length hs]; exact h2
  unfold duration
  rw [hic.dur s, sumDur_count hso s (a := a) (b := b) fun x hx => hab _ ((mem_sorted hs).1 hx) x.1 rfl]
  rw [show (fun t => (segsOf s (segs (sorted srt p.rows))).any fun p => decide (p.1 ≤ t ∧ t < p.2)) =
    fun t => decide (stateAt (evaluate false srt p.rows) t = some (some s)) from funext fun t => any_spec hi hso hlen s t]

/-- Insertion sort by time, for examples. -/
def insSort (l : List (Row S)) : List (Row S) := l.foldr (fun r acc => ins r acc) []
where
  /-- Insert a row. -/
  ins (r : Row S) : List (Row S) → List (Row S)
    | [] => [r]
    | x :: l => if (match r.1, x.1 with | none, _ => true | some a, some b => decide (a ≤ b) | _, _ => false) then r :: x :: l
                else x :: ins r l

/-- A light that is on from 1 to 4 and from 9 to 10, from rows in two partitions. -/
def light : Plan (List (Row Bool)) :=
  .twoPhase [[[[(some 9, true), (some 1, true)]], [[(none, true), (some 4, false)], [(some 10, false)]]]]

example : 2 ≤ (light.rows.filterMap (·.1)).length ∧ duration (stateAgg false insSort light) true = 4 ∧
    stateAt (stateAgg false insSort light) 3 = some (some true) ∧ stateAt (stateAgg false insSort light) 4 = some (some false) ∧
    stateAt (stateAgg false insSort light) 10 = some none ∧ durationIn (stateAgg false insSort light) true 2 (some 8) = some 3 := by
  decide

/-- C82 fails for one row: the result of `state_agg` is then taken for that of `compact_state_agg`, and `state_at` is an error. For every
table with one row and every time. -/
theorem C82_single_refuted (srt : List (Row S) → List (Row S)) (hs : Sorts srt) (t : Int) (s : S) (t' : Int) :
    stateAt (stateAgg false srt (.single [[(some t, s)]])) t' = none ∧
      durationIn (stateAgg false srt (.single [[(some t, s)]])) s t' none = none := by
  have hc : isCompact (stateAgg false srt (.single [[(some t, s)]])) = true := by
    unfold stateAgg
    rw [rows_run]
    show isCompact (evaluate false srt [(some t, s)]) = true
    have e : srt [(some t, s)] = [(some t, s)] := List.perm_singleton.1 (hs _).1
    unfold evaluate
    rw [e]
    rfl
  constructor
  · unfold stateAt; rw [if_pos hc]
  · unfold durationIn; rw [if_pos hc]

end Verif.Agg.StateAgg
