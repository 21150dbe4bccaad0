import Verif.Retag.Model

/-!
# UPDATE of tags: what holds
-/
namespace Verif.Retag

/-! ## Keys -/

theorem get_pick (cs : List Nat) (f : Nat → Option Val) (c : Nat) :
    get (pick cs f) c = if c ∈ cs then f c else none := by
  induction cs with
  | nil => simp [pick, get]
  | cons d cs ih =>
    have hp : pick (d :: cs) f = (match f d with | some v => (d, v) :: pick cs f | none => pick cs f) := by
      unfold pick
      cases hf : f d <;> simp [hf]
    rw [hp]
    cases hf : f d with
    | none =>
      simp only [ih, List.mem_cons]
      by_cases hc : c = d
      · subst hc; simp [hf]
      · simp [hc]
    | some v =>
      by_cases hc : c = d
      · subst hc; simp [get, hf]
      · have hdc : (d == c) = false := by simpa using fun h => hc h.symm
        simp only [get, List.find?_cons, hdc, List.mem_cons, hc, false_or]
        exact ih

theorem pick_congr {cs : List Nat} {f g : Nat → Option Val} (h : ∀ c ∈ cs, f c = g c) : pick cs f = pick cs g := by
  unfold pick
  induction cs with
  | nil => rfl
  | cons d cs ih =>
    simp only [List.filterMap_cons, h d (by simp)]
    rw [ih (fun c hc => h c (by simp [hc]))]

theorem get_mk (cols : List Nat) (f : Nat → Option Val) (c : Nat) : get (mk cols f) c = if c ∈ cols then f c else none := by
  unfold mk
  rw [get_pick]
  simp only [Sort.mem_sortBy]

/-- The key says what its tags are: keys that are made as keys are made are found again. -/
theorem mk_get_mk (cols : List Nat) (f : Nat → Option Val) : mk cols (get (mk cols f)) = mk cols f := by
  refine pick_congr fun c hc => ?_
  rw [get_mk, if_pos (Sort.mem_sortBy.mp hc)]

/-- Two sets of tags have the same key exactly if they are the same. -/
theorem mk_inj (cols : List Nat) (f g : Nat → Option Val) : mk cols f = mk cols g ↔ ∀ c ∈ cols, f c = g c := by
  constructor
  · intro h c hc
    have := congrArg (fun k => get k c) h
    simpa [get_mk, hc] using this
  · intro h
    exact pick_congr fun c hc => h c (Sort.mem_sortBy.mp hc)

/-- The columns of the table are in the order in which tags are sorted. -/
def Ordered (cols : List Nat) : Prop := cols.Pairwise fun a b => leId a b = true

theorem pick_eq_mk {cols : List Nat} (h : Ordered cols) (f : Nat → Option Val) : pick cols f = mk cols f := by
  unfold mk
  rw [Sort.sortBy_of_sorted h]

/-- **C172 (values)**: the tags of the changed series: the new values, and the others as they were. -/
theorem C172_values (cols : List Nat) (sets : List (Nat × Option Val)) (k : Key) (c : Nat) (hc : c ∈ cols) :
    get (newKey cols sets k) c =
      (match sets.reverse.find? fun t => t.1 == c with | some t => t.2 | none => get k c) := by
  unfold newKey
  rw [get_mk, if_pos hc]
  rfl

/-! ## Replication sets -/

/-- Keys are as keys are made, and different; every series has rows; times of a series are different. -/
structure Vnode.Ok (cols : List Nat) (v : Vnode) : Prop where
  key : ∀ s ∈ v, mk cols (get s.1) = s.1
  rows : ∀ s ∈ v, s.2 ≠ []
  times : ∀ s ∈ v, (s.2.map fun r => r.1).Nodup
  nodup : v.Pairwise fun a b => a.1 ≠ b.1

def Cluster.Ok (cols : List Nat) (c : Cluster) : Prop := ∀ v ∈ c, Vnode.Ok cols v

theorem has_iff {v : Vnode} {k : Key} : v.has k = true ↔ ∃ s ∈ v, s.1 = k := by
  simp [Vnode.has, List.any_eq_true]

theorem inj_of_nodup {α β : Type} {f : α → β} : ∀ {l : List α}, (l.map f).Nodup → ∀ {a b}, a ∈ l → b ∈ l → f a = f b →
    a = b
  | [], _, _, _, h, _, _ => by simp at h
  | x :: l, h, a, b, ha, hb, hf => by
    rw [List.map_cons, List.nodup_cons] at h
    rcases List.mem_cons.mp ha with ha' | ha' <;> rcases List.mem_cons.mp hb with hb' | hb'
    · rw [ha', hb']
    · subst ha'; exact absurd (List.mem_map.mpr ⟨b, hb', hf.symm⟩) h.1
    · subst hb'; exact absurd (List.mem_map.mpr ⟨a, ha', hf⟩) h.1
    · exact inj_of_nodup h.2 ha' hb' hf

theorem nodup_of_map {α β : Type} {f : α → β} {l : List α} (h : (l.map f).Nodup) : l.Nodup := by
  unfold List.Nodup at h ⊢
  rw [List.pairwise_map] at h
  exact h.imp fun hab hh => hab (by rw [hh])

/-- What it means that a set accepts an update. -/
theorem prepare_spec {v : Vnode} {cols : List Nat} {sets : List (Nat × Option Val)} {m olds : List Key} :
    v.prepare cols sets m = some olds ↔ olds = m.filter v.has ∧ (∀ k ∈ m, v.has k = true → v.has (newKey cols sets k) = false) ∧
      ((m.filter v.has).map (newKey cols sets)).Nodup := by
  unfold Vnode.prepare
  simp only
  have hany : ((m.filter v.has).map (newKey cols sets)).any v.has = true ↔
      ¬ ∀ k ∈ m, v.has k = true → v.has (newKey cols sets k) = false := by
    simp [List.any_eq_true]
  by_cases ha : ((m.filter v.has).map (newKey cols sets)).any v.has = true
  · rw [if_pos ha]
    constructor
    · intro h; cases h
    · rintro ⟨_, h, _⟩; exact absurd h (hany.mp ha)
  · rw [if_neg ha]
    have h1 : ∀ k ∈ m, v.has k = true → v.has (newKey cols sets k) = false :=
      Classical.byContradiction fun hh => ha (hany.mpr hh)
    by_cases hn : ((m.filter v.has).map (newKey cols sets)).Nodup
    · simp only [decide_eq_true hn, if_true, Option.some.injEq]
      exact ⟨fun h => ⟨h.symm, h1, hn⟩, fun h => h.1.symm⟩
    · simp only [hn, decide_false, Bool.false_eq_true, if_false]
      constructor
      · intro h; cases h
      · rintro ⟨_, _, h⟩; exact h.elim

/-- The series after an accepted update. -/
theorem update_spec {v v' : Vnode} {cols : List Nat} {sets : List (Nat × Option Val)} {m : List Key}
    (h : v.update cols sets m = some v') :
    v' = v.map (fun s => if s.1 ∈ m then (newKey cols sets s.1, s.2) else s) ∧
      (∀ s ∈ v, s.1 ∈ m → v.has (newKey cols sets s.1) = false) ∧
      (∀ a ∈ v, ∀ b ∈ v, a.1 ∈ m → b.1 ∈ m → newKey cols sets a.1 = newKey cols sets b.1 → a.1 = b.1) := by
  unfold Vnode.update at h
  obtain ⟨olds, ho, rfl⟩ := Option.map_eq_some_iff.mp h
  obtain ⟨rfl, h1, h2⟩ := prepare_spec.mp ho
  have hm : ∀ s ∈ v, s.1 ∈ m → s.1 ∈ m.filter v.has := fun s hs hk =>
    List.mem_filter.mpr ⟨hk, has_iff.mpr ⟨s, hs, rfl⟩⟩
  refine ⟨?_, fun s hs hk => h1 s.1 hk (has_iff.mpr ⟨s, hs, rfl⟩), ?_⟩
  · refine List.map_congr_left fun s hs => ?_
    by_cases hk : s.1 ∈ m
    · rw [if_pos hk, if_pos (hm s hs hk)]
    · rw [if_neg hk, if_neg (fun h => hk (List.mem_filter.mp h).1)]
  · intro a ha b hb hka hkb he
    exact inj_of_nodup h2 (hm a ha hka) (hm b hb hkb) he

theorem update_ok {v v' : Vnode} {cols : List Nat} {sets : List (Nat × Option Val)} {m : List Key} (hv : v.Ok cols)
    (h : v.update cols sets m = some v') : v'.Ok cols := by
  obtain ⟨rfl, h1, h2⟩ := update_spec h
  constructor
  · intro s hs
    obtain ⟨a, ha, rfl⟩ := List.mem_map.mp hs
    split
    · exact mk_get_mk cols _
    · exact hv.key a ha
  · intro s hs
    obtain ⟨a, ha, rfl⟩ := List.mem_map.mp hs
    split <;> exact hv.rows a ha
  · intro s hs
    obtain ⟨a, ha, rfl⟩ := List.mem_map.mp hs
    split <;> exact hv.times a ha
  · rw [List.pairwise_map]
    refine List.Pairwise.imp_of_mem ?_ hv.nodup
    intro a b ha hb hab
    by_cases hka : a.1 ∈ m <;> by_cases hkb : b.1 ∈ m <;> simp only [hka, hkb, if_true, if_false]
    · exact fun he => hab (h2 a ha b hb hka hkb he)
    · intro he
      have := h1 a ha hka
      rw [he, has_iff.mpr ⟨b, hb, rfl⟩] at this
      cases this
    · intro he
      have := h1 b hb hkb
      rw [← he, has_iff.mpr ⟨a, ha, rfl⟩] at this
      cases this
    · exact hab

theorem put_ok {v : Vnode} {cols : List Nat} (hv : v.Ok cols) (f : Nat → Option Val) (t : Int) (x : Val) :
    (v.put (mk cols f) t x).Ok cols := by
  unfold Vnode.put
  split
  · constructor
    · intro s hs
      obtain ⟨a, ha, rfl⟩ := List.mem_map.mp hs
      split
      · exact mk_get_mk cols f
      · exact hv.key a ha
    · intro s hs
      obtain ⟨a, ha, rfl⟩ := List.mem_map.mp hs
      split
      · simp
      · exact hv.rows a ha
    · intro s hs
      obtain ⟨a, ha, rfl⟩ := List.mem_map.mp hs
      split
      · have := hv.times a ha
        simp only [List.map_cons, List.nodup_cons, List.mem_map, List.mem_filter]
        refine ⟨?_, ?_⟩
        · rintro ⟨r, hr, he⟩
          simp [he] at hr
        · unfold List.Nodup at this ⊢
          rw [List.pairwise_map] at this ⊢
          exact this.filter _
      · exact hv.times a ha
    · rw [List.pairwise_map]
      refine hv.nodup.imp ?_
      intro a b hab
      by_cases ha : a.1 = mk cols f <;> by_cases hb : b.1 = mk cols f <;> simp only [ha, hb, if_true, if_false]
      · exact absurd (ha.trans hb.symm) hab
      · exact fun h => hb h.symm
      · exact ha
      · exact hab
  · next hh =>
    constructor
    · intro s hs
      rcases List.mem_append.mp hs with hs | hs
      · exact hv.key s hs
      · obtain rfl := List.mem_singleton.mp hs
        exact mk_get_mk cols f
    · intro s hs
      rcases List.mem_append.mp hs with hs | hs
      · exact hv.rows s hs
      · obtain rfl := List.mem_singleton.mp hs
        simp
    · intro s hs
      rcases List.mem_append.mp hs with hs | hs
      · exact hv.times s hs
      · obtain rfl := List.mem_singleton.mp hs
        simp
    · rw [List.pairwise_append]
      refine ⟨hv.nodup, by simp, ?_⟩
      intro a ha b hb
      obtain rfl := List.mem_singleton.mp hb
      exact fun he => hh (has_iff.mpr ⟨a, ha, he⟩)

/-! ## The cluster -/

theorem apply_ok {c : Cluster} {cols : List Nat} (hc : c.Ok cols) (sets : List (Nat × Option Val)) (m : List Key)
    (up : Nat → Bool) : (c.apply cols sets m up).1.Ok cols := by
  intro v hv
  simp only [Cluster.apply, List.mem_mapIdx] at hv
  obtain ⟨i, hi, rfl⟩ := hv
  have h0 : Vnode.Ok cols c[i] := hc _ (List.getElem_mem hi)
  split
  · cases hu : Vnode.update c[i] cols sets m with
    | none => exact h0
    | some v' => exact update_ok h0 hu
  · exact h0

theorem updateTags_ok {c : Cluster} {cols : List Nat} (hc : c.Ok cols) (perRow : Bool) (p : Key → Bool)
    (sets : List (Nat × Option Val)) (w : World) : (c.updateTags cols perRow p sets w).1.Ok cols := by
  unfold Cluster.updateTags
  simp only
  split
  · exact hc
  · split
    · exact hc
    · split
      · exact hc
      · exact apply_ok hc _ _ _

theorem write_ok {c : Cluster} {cols : List Nat} (hc : c.Ok cols) (route : Key → Int → Nat) (f : Nat → Option Val) (t : Int)
    (x : Val) : (c.write route cols f t x).Ok cols := by
  intro v hv
  unfold Cluster.write at hv
  generalize route (mk cols f) t = i at hv
  obtain ⟨j, hj, rfl⟩ := List.mem_iff_getElem.mp hv
  rw [List.getElem_modify]
  have hj' : j < c.length := by simpa using hj
  split
  · exact put_ok (hc _ (List.getElem_mem hj')) f t x
  · exact hc _ (List.getElem_mem hj')

/-- Every execution keeps keys, series and rows in order. -/
theorem run_ok (route : Key → Int → Nat) (cols : List Nat) (perRow : Bool) (es : List Step) :
    ∀ {c : Cluster}, c.Ok cols → (c.run route cols perRow es).Ok cols := by
  induction es with
  | nil => intro c hc; exact hc
  | cons e es ih =>
    intro c hc
    refine ih (c := c.step route cols perRow e) ?_
    cases e with
    | write f t x => exact write_ok hc route f t x
    | update p sets w => exact updateTags_ok hc perRow p sets w

theorem empty_ok (n : Nat) (cols : List Nat) : (Cluster.empty n).Ok cols := by
  intro v hv
  obtain rfl := List.eq_of_mem_replicate hv
  exact ⟨by simp, by simp, by simp, by simp⟩

/-- The statement reads the keys of exactly the series that the condition names. -/
theorem mem_scan {c : Cluster} {cols : List Nat} (hc : c.Ok cols) (ho : Ordered cols) (perRow : Bool) (p : Key → Bool)
    (k : Key) : k ∈ c.scan cols perRow p ↔ ∃ v ∈ c, ∃ s ∈ v, s.1 = k ∧ p k = true := by
  have hk : ∀ v ∈ c, ∀ s ∈ v, pick cols (get s.1) = s.1 := fun v hv s hs => by
    rw [pick_eq_mk ho]; exact (hc v hv).key s hs
  unfold Cluster.scan
  simp only
  cases perRow with
  | true =>
    simp only [if_true, List.mem_flatMap, List.mem_filter, List.mem_map]
    constructor
    · rintro ⟨s, ⟨v, hv, hs, hp⟩, r, _, rfl⟩
      rw [hk v hv s hs]
      exact ⟨v, hv, s, hs, rfl, hp⟩
    · rintro ⟨v, hv, s, hs, rfl, hp⟩
      obtain ⟨r, hr⟩ := List.exists_mem_of_ne_nil _ ((hc v hv).rows s hs)
      exact ⟨s, ⟨v, hv, hs, hp⟩, r, hr, hk v hv s hs⟩
  | false =>
    simp only [Bool.false_eq_true, if_false, List.mem_eraseDups, List.mem_map, List.mem_flatMap, List.mem_filter]
    constructor
    · rintro ⟨s, ⟨v, hv, hs, hp⟩, rfl⟩
      rw [hk v hv s hs]
      exact ⟨v, hv, s, hs, rfl, hp⟩
    · rintro ⟨v, hv, s, hs, rfl, hp⟩
      exact ⟨s, ⟨v, hv, hs, hp⟩, hk v hv s hs⟩

theorem mapIdx_const {α β : Type} (f : α → β) (l : List α) : (l.mapIdx fun _ a => f a) = l.map f := by
  apply List.ext_getElem?
  intro i
  simp

theorem apply_up {c : Cluster} {cols : List Nat} {sets : List (Nat × Option Val)} {m : List Key} {up : Nat → Bool}
    (hu : ∀ i, up i = true) :
    c.apply cols sets m up = (c.map fun v => (v.update cols sets m).getD v, c.dry cols sets m) := by
  unfold Cluster.apply
  simp only [hu, if_true, Bool.true_and, mapIdx_const]
  simp [Cluster.dry, List.all_map, Function.comp_def]

theorem dry_update {c : Cluster} {cols : List Nat} {sets : List (Nat × Option Val)} {m : List Key}
    (h : c.dry cols sets m = true) {v : Vnode} (hv : v ∈ c) : ∃ v', v.update cols sets m = some v' := by
  unfold Cluster.dry at h
  rw [List.all_eq_true] at h
  obtain ⟨olds, ho⟩ := Option.isSome_iff_exists.mp (h v hv)
  exact ⟨_, by unfold Vnode.update; rw [ho]; rfl⟩

/-- When all sets can be reached, the statement is refused and has no effect, or is done in every set. -/
theorem updateTags_spec (c : Cluster) (cols : List Nat) (perRow : Bool) (p : Key → Bool) (sets : List (Nat × Option Val))
    (w : World) (hu : ∀ i, w.up i = true) (hb : w.busy = false) :
    let m := c.scan cols perRow p
    (c.updateTags cols perRow p sets w = (c, none) ∧ (limit < m.length ∨ c.dry cols sets m = false)) ∨
      (c.updateTags cols perRow p sets w = (c.map (fun v => (v.update cols sets m).getD v), some m.length) ∧
        m.length ≤ limit ∧ c.dry cols sets m = true) := by
  intro m
  unfold Cluster.updateTags
  simp only [hb, apply_up hu]
  split
  · next h => exact Or.inl ⟨rfl, Or.inl h⟩
  · next h =>
    split
    · next h1 => exact Or.inl ⟨rfl, Or.inr h1⟩
    · next h1 =>
      have hd : c.dry cols sets m = true := by simpa using h1
      exact Or.inr ⟨by simp [m, hd], Nat.not_lt.mp h, hd⟩

/-- **C174**: when all sets can be reached, an UPDATE that is refused has changed nothing. -/
theorem C174_refused (c : Cluster) (cols : List Nat) (perRow : Bool) (p : Key → Bool) (sets : List (Nat × Option Val))
    (w : World) (hu : ∀ i, w.up i = true) (h : (c.updateTags cols perRow p sets w).2 = none) :
    (c.updateTags cols perRow p sets w).1 = c := by
  cases hb : w.busy with
  | true =>
    unfold Cluster.updateTags at h ⊢
    simp only [hb, if_true] at h ⊢
    split
    · rfl
    · split <;> rfl
  | false =>
    rcases updateTags_spec c cols perRow p sets w hu hb with ⟨h1, _⟩ | ⟨h1, _⟩
    · rw [h1]
    · rw [h1] at h; cases h

/-- **C172**: in a table whose tag columns are in the order in which tags are sorted, an UPDATE that reports success has given
    the new tags to exactly the rows that the condition names: these have the new values (`C172_values`), times and values are
    as they were, and the other rows are as they were.  After any history of writes and updates. -/
theorem C172_changed_partial (n : Nat) (route : Key → Int → Nat) (cols : List Nat) (perRow : Bool) (es : List Step)
    (ho : Ordered cols) (p : Key → Bool) (sets : List (Nat × Option Val)) (w : World) (hu : ∀ i, w.up i = true)
    (hb : w.busy = false) (k : Nat) :
    let c := (Cluster.empty n).run route cols perRow es
    let r := c.updateTags cols perRow p sets w
    r.2 = some k → r.1.rows = c.rows.map fun x => if p x.1 = true then (newKey cols sets x.1, x.2) else x := by
  intro c r h
  have hc : c.Ok cols := run_ok route cols perRow es (empty_ok n cols)
  rcases updateTags_spec c cols perRow p sets w hu hb with ⟨h1, _⟩ | ⟨h1, _, hd⟩
  · have : r.2 = none := by show (c.updateTags cols perRow p sets w).2 = none; rw [h1]
    rw [this] at h; cases h
  · have hr : r.1 = c.map fun v => (v.update cols sets (c.scan cols perRow p)).getD v := by
      show (c.updateTags cols perRow p sets w).1 = _
      rw [h1]
    rw [hr]
    have hv : ∀ v ∈ c, (v.update cols sets (c.scan cols perRow p)).getD v =
        v.map fun s => if p s.1 = true then (newKey cols sets s.1, s.2) else s := by
      intro v hv
      obtain ⟨v', hv'⟩ := dry_update hd hv
      rw [hv', Option.getD_some, (update_spec hv').1]
      refine List.map_congr_left fun s hs => ?_
      have : s.1 ∈ c.scan cols perRow p ↔ p s.1 = true := by
        rw [mem_scan hc ho]
        constructor
        · rintro ⟨_, _, _, _, _, hp⟩; exact hp
        · exact fun hp => ⟨v, hv, s, hs, rfl, hp⟩
      simp only [this]
    rw [List.map_congr_left hv]
    simp only [Cluster.rows, List.flatMap_map, List.map_flatMap, List.map_map]
    congr 1
    funext v
    congr 1
    funext s
    split
    · next hp => exact List.map_congr_left fun x _ => by simp [hp]
    · next hp => exact List.map_congr_left fun x _ => by simp [hp]

/-- **C174 (accepted)**: an UPDATE is accepted if the condition names at most 10000 rows, no series has one of the new sets of
    tags, no two of the changed series get the same tags, and the statement has read every series once. -/
theorem C174_accepted_partial (c : Cluster) (cols : List Nat) (perRow : Bool) (hc : c.Ok cols) (ho : Ordered cols)
    (p : Key → Bool) (sets : List (Nat × Option Val)) (w : World) (hu : ∀ i, w.up i = true) (hb : w.busy = false)
    (hl : (c.scan cols perRow p).length ≤ limit) (hn : (c.scan cols perRow p).Nodup)
    (hnew : ∀ v ∈ c, ∀ s ∈ v, p s.1 = true → ∀ u ∈ c, ∀ t ∈ u, t.1 ≠ newKey cols sets s.1)
    (hinj : ∀ v ∈ c, ∀ s ∈ v, ∀ u ∈ c, ∀ t ∈ u, p s.1 = true → p t.1 = true →
      newKey cols sets s.1 = newKey cols sets t.1 → s.1 = t.1) :
    (c.updateTags cols perRow p sets w).2 = some (c.scan cols perRow p).length := by
  rcases updateTags_spec c cols perRow p sets w hu hb with ⟨_, h1⟩ | ⟨h1, _⟩
  · exfalso
    rcases h1 with h1 | h1
    · exact absurd hl (Nat.not_le.mpr h1)
    · have : c.dry cols sets (c.scan cols perRow p) = true := by
        unfold Cluster.dry
        rw [List.all_eq_true]
        intro v hv
        have : v.prepare cols sets (c.scan cols perRow p) = some ((c.scan cols perRow p).filter v.has) := by
          rw [prepare_spec]
          refine ⟨rfl, ?_, ?_⟩
          · intro k hk _
            obtain ⟨u, hu', s, hs, rfl, hp⟩ := (mem_scan hc ho perRow p k).mp hk
            rw [Bool.eq_false_iff]
            intro hh
            obtain ⟨t, ht, he⟩ := has_iff.mp hh
            exact hnew u hu' s hs hp v hv t ht he
          · have h2 : ((c.scan cols perRow p).filter v.has).Nodup := hn.filter _
            unfold List.Nodup at h2 ⊢
            rw [List.pairwise_map]
            refine List.Pairwise.imp_of_mem ?_ h2
            intro a b ha hb' hab he
            obtain ⟨u, hu', s, hs, rfl, hp⟩ := (mem_scan hc ho perRow p a).mp (List.mem_filter.mp ha).1
            obtain ⟨u2, hu2, t, ht, rfl, hq⟩ := (mem_scan hc ho perRow p b).mp (List.mem_filter.mp hb').1
            exact hab (hinj u hu' s hs u2 hu2 t ht hp hq he)
        rw [this]; rfl
      rw [this] at h1; cases h1
  · rw [h1]

theorem nodup_eraseDups : ∀ (l : List Key), l.eraseDups.Nodup
  | [] => by simp
  | a :: l => by
    rw [List.eraseDups_cons, List.nodup_cons]
    have : (l.filter fun b => !b == a).length < (a :: l).length := by
      have := List.length_filter_le (fun b => !b == a) l
      simp only [List.length_cons]; omega
    exact ⟨by simp, nodup_eraseDups _⟩
termination_by l => l.length

/-- A tag scan reads every series once. -/
theorem scan_nodup (c : Cluster) (cols : List Nat) (p : Key → Bool) : (c.scan cols false p).Nodup := by
  unfold Cluster.scan
  simp only [Bool.false_eq_true, if_false]
  exact nodup_eraseDups _

/-! ## Rows stay different -/

/-- No two rows of the table have the same tags and the same time. -/
def Cluster.Distinct (c : Cluster) : Prop := (c.rows.map fun x => (x.1, x.2.1)).Nodup

theorem distinct_map {c c' : Cluster} {cols : List Nat} {sets : List (Nat × Option Val)} {p : Key → Bool}
    (hr : c'.rows = c.rows.map fun x => if p x.1 = true then (newKey cols sets x.1, x.2) else x) (hd : c.Distinct)
    (hnew : ∀ x ∈ c.rows, p x.1 = true → ∀ y ∈ c.rows, p y.1 = false → y.1 ≠ newKey cols sets x.1)
    (hinj : ∀ x ∈ c.rows, ∀ y ∈ c.rows, p x.1 = true → p y.1 = true →
      newKey cols sets x.1 = newKey cols sets y.1 → x.1 = y.1) : c'.Distinct := by
  unfold Cluster.Distinct List.Nodup at hd ⊢
  rw [hr]
  rw [List.pairwise_map] at hd
  rw [List.pairwise_map, List.pairwise_map]
  refine List.Pairwise.imp_of_mem ?_ hd
  intro x y hx hy hxy
  by_cases hp : p x.1 = true <;> by_cases hq : p y.1 = true <;> simp only [hp, hq, if_true, ne_eq, Prod.mk.injEq]
  · rintro ⟨h1, h2⟩
    exact hxy (by rw [hinj x hx y hy hp hq h1, h2])
  · rintro ⟨h1, _⟩
    exact hnew x hx hp y hy (by simpa using hq) h1.symm
  · rintro ⟨h1, _⟩
    exact hnew y hy hq x hx (by simpa using hp) h1
  · rintro ⟨h1, h2⟩
    exact hxy (by simpa using ⟨h1, h2⟩)

/-- **C173**: an UPDATE that reports success makes no two rows of the same tags and time if the new tags do not occur in the
    cluster and different series get different tags. -/
theorem C173_distinct_partial (n : Nat) (route : Key → Int → Nat) (cols : List Nat) (perRow : Bool) (es : List Step)
    (ho : Ordered cols) (p : Key → Bool) (sets : List (Nat × Option Val)) (w : World) (hu : ∀ i, w.up i = true)
    (hb : w.busy = false) (k : Nat) :
    let c := (Cluster.empty n).run route cols perRow es
    let r := c.updateTags cols perRow p sets w
    r.2 = some k → c.Distinct →
      (∀ x ∈ c.rows, p x.1 = true → ∀ y ∈ c.rows, p y.1 = false → y.1 ≠ newKey cols sets x.1) →
      (∀ x ∈ c.rows, ∀ y ∈ c.rows, p x.1 = true → p y.1 = true → newKey cols sets x.1 = newKey cols sets y.1 → x.1 = y.1) →
      r.1.Distinct := by
  intro c r h hd hnew hinj
  exact distinct_map (C172_changed_partial n route cols perRow es ho p sets w hu hb k h) hd hnew hinj

theorem run_length (route : Key → Int → Nat) (cols : List Nat) (perRow : Bool) (es : List Step) :
    ∀ c : Cluster, (c.run route cols perRow es).length = c.length := by
  induction es with
  | nil => intro c; rfl
  | cons e es ih =>
    intro c
    refine (ih (c.step route cols perRow e)).trans ?_
    cases e with
    | write f t x => simp [Cluster.step, Cluster.write]
    | update p sets w =>
      simp only [Cluster.step, Cluster.updateTags]
      split
      · rfl
      · split
        · rfl
        · split
          · rfl
          · simp [Cluster.apply]

theorem rows_mem {c : Cluster} {x : Key × Int × Val} (hx : x ∈ c.rows) : ∃ v ∈ c, ∃ s ∈ v, s.1 = x.1 := by
  unfold Cluster.rows at hx
  simp only [List.mem_flatMap, List.mem_map] at hx
  obtain ⟨v, hv, s, hs, r, _, rfl⟩ := hx
  exact ⟨v, hv, s, hs, rfl⟩

/-- **C173 (one set)**: in a database with one replication set, no UPDATE that reports success makes two rows of the same tags
    and time. -/
theorem C173_one_set (route : Key → Int → Nat) (cols : List Nat) (perRow : Bool) (es : List Step) (ho : Ordered cols)
    (p : Key → Bool) (sets : List (Nat × Option Val)) (w : World) (hu : ∀ i, w.up i = true) (hb : w.busy = false) (k : Nat) :
    let c := (Cluster.empty 1).run route cols perRow es
    let r := c.updateTags cols perRow p sets w
    r.2 = some k → c.Distinct → r.1.Distinct := by
  intro c r h hd
  have hlen : c.length = 1 := run_length route cols perRow es (Cluster.empty 1)
  have hc : c.Ok cols := run_ok route cols perRow es (empty_ok 1 cols)
  obtain ⟨v, hv⟩ := List.length_eq_one_iff.mp hlen
  have hdry : c.dry cols sets (c.scan cols perRow p) = true := by
    rcases updateTags_spec c cols perRow p sets w hu hb with ⟨h1, _⟩ | ⟨_, _, h2⟩
    · have : r.2 = none := by show (c.updateTags cols perRow p sets w).2 = none; rw [h1]
      rw [this] at h; cases h
    · exact h2
  have hmem : v ∈ c := by rw [hv]; simp
  obtain ⟨v', hv'⟩ := dry_update hdry hmem
  obtain ⟨_, hA, hB⟩ := update_spec hv'
  have hin : ∀ s ∈ v, p s.1 = true → s.1 ∈ c.scan cols perRow p := fun s hs hp =>
    (mem_scan hc ho perRow p s.1).mpr ⟨v, hmem, s, hs, rfl, hp⟩
  have hrow : ∀ x ∈ c.rows, ∃ s ∈ v, s.1 = x.1 := by
    intro x hx
    obtain ⟨u, hu', s, hs, he⟩ := rows_mem hx
    rw [hv] at hu'
    obtain rfl := List.mem_singleton.mp hu'
    exact ⟨s, hs, he⟩
  refine C173_distinct_partial 1 route cols perRow es ho p sets w hu hb k h hd ?_ ?_
  · intro x hx hp y hy _ he
    obtain ⟨s, hs, h1⟩ := hrow x hx
    obtain ⟨t, ht, h2⟩ := hrow y hy
    have h3 := hA s hs (hin s hs (by rw [h1]; exact hp))
    rw [h1, ← he, has_iff.mpr ⟨t, ht, h2⟩] at h3
    cases h3
  · intro x hx y hy hp hq he
    obtain ⟨s, hs, h1⟩ := hrow x hx
    obtain ⟨t, ht, h2⟩ := hrow y hy
    have := hB s hs t ht (hin s hs (by rw [h1]; exact hp)) (hin t ht (by rw [h2]; exact hq)) (by rw [h1, h2]; exact he)
    rw [← h1, ← h2]; exact this

/-! ## Trying again -/

theorem update_again {v v' : Vnode} {cols : List Nat} {sets : List (Nat × Option Val)} {m : List Key}
    (h : v.update cols sets m = some v') (hm : ∀ k ∈ m, newKey cols sets k ∉ m) : v'.update cols sets m = some v' := by
  obtain ⟨rfl, _, _⟩ := update_spec h
  have hf : m.filter (Vnode.has (v.map fun s => if s.1 ∈ m then (newKey cols sets s.1, s.2) else s)) = [] := by
    rw [List.filter_eq_nil_iff]
    intro k hk hh
    obtain ⟨s, hs, he⟩ := has_iff.mp hh
    obtain ⟨a, ha, rfl⟩ := List.mem_map.mp hs
    by_cases hka : a.1 ∈ m
    · rw [if_pos hka] at he
      exact hm a.1 hka (by rw [show newKey cols sets a.1 = k from he]; exact hk)
    · rw [if_neg hka] at he
      exact hka (by rw [he]; exact hk)
  unfold Vnode.update Vnode.prepare
  simp [hf]

/-- **C174 (again)**: an UPDATE that was done in some sets only is completed when the task is tried again: the result is that of
    an update that reaches all sets at once, provided no new set of tags is among those that are changed. -/
theorem C174_retry (c : Cluster) (cols : List Nat) (sets : List (Nat × Option Val)) (m : List Key) (up : Nat → Bool)
    (hd : c.dry cols sets m = true) (hm : ∀ k ∈ m, newKey cols sets k ∉ m) :
    (c.apply cols sets m up).1.apply cols sets m (fun _ => true) =
      c.apply cols sets m (fun _ => true) := by
  rw [apply_up (fun _ => rfl), apply_up (fun _ => rfl)]
  have hv : ∀ (i : Nat) (hi : i < c.length), ∃ v', c[i].update cols sets m = some v' := fun i hi =>
    dry_update hd (List.getElem_mem hi)
  rw [hd]
  refine Prod.ext ?_ ?_
  · apply List.ext_getElem
    · simp [Cluster.apply]
    · intro i h1 h2
      have hi : i < c.length := by simpa using h2
      obtain ⟨v', hv'⟩ := hv i hi
      simp only [Cluster.apply, List.getElem_map, List.getElem_mapIdx, hv', Option.getD_some]
      cases up i with
      | true => simp [update_again hv' hm]
      | false => simp [hv']
  · show Cluster.dry _ cols sets m = true
    unfold Cluster.dry
    rw [List.all_eq_true]
    intro v hvm
    simp only [Cluster.apply, List.mem_mapIdx] at hvm
    obtain ⟨i, hi, rfl⟩ := hvm
    obtain ⟨v', hv'⟩ := hv i hi
    have key : ∀ u u' : Vnode, u.update cols sets m = some u' → (u.prepare cols sets m).isSome = true := by
      intro u u' h
      unfold Vnode.update at h
      obtain ⟨olds, ho, _⟩ := Option.map_eq_some_iff.mp h
      rw [ho]; rfl
    cases up i with
    | true => simp only [if_true, hv', Option.getD_some]; exact key _ _ (update_again hv' hm)
    | false => simp only [Bool.false_eq_true, if_false]; exact key _ _ hv'

end Verif.Retag
