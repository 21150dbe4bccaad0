import Verif.Cluster.Spec
/-!
# The invariant: every cell lies in the set that routing gives, and the sets together hold the table
-/
namespace Verif.Cluster
open Meta (Db Bucket ReplSet bucketByTimestamp getTimeRange Aligned)

/-- A healthy catalogue. -/
structure Cat (db : Db) : Prop where
  aligned : Aligned db
  dur : db.duration ≤ i64Max
  nodup : (setIds db.buckets).Nodup
  below : ∀ i ∈ setIds db.buckets, i < db.incr
  full : ∀ b ∈ db.buckets, b.shards ≠ [] ∧ ∀ r ∈ b.shards, r.vnodes ≠ []

/-- The catalogue got more sets, and no cell with a set changed it. -/
structure Grow (H : Series → Nat) (a b : Db) : Prop where
  incr : a.incr ≤ b.incr
  keep : ∀ c i, homeIn H a.buckets c = some i → homeIn H b.buckets c = some i
  new : ∀ c i, homeIn H b.buckets c = some i → homeIn H a.buckets c = some i ∨ (a.incr ≤ i ∧ homeIn H a.buckets c = none)
  ids : ∀ i ∈ setIds b.buckets, i ∈ setIds a.buckets ∨ a.incr ≤ i
  sub : ∀ i ∈ setIds a.buckets, i ∈ setIds b.buckets

theorem Grow.refl (H : Series → Nat) (a : Db) : Grow H a a :=
  ⟨Nat.le_refl _, fun _ _ h => h, fun _ _ h => Or.inl h, fun _ h => Or.inl h, fun _ h => h⟩

theorem Grow.trans {H : Series → Nat} {a b c : Db} (h1 : Grow H a b) (h2 : Grow H b c) : Grow H a c := by
  refine ⟨Nat.le_trans h1.incr h2.incr, fun x i h => h2.keep x i (h1.keep x i h), ?_, ?_, fun i h => h2.sub i (h1.sub i h)⟩
  · intro x i h
    rcases h2.new x i h with h' | ⟨h3, h4⟩
    · exact h1.new x i h'
    · refine Or.inr ⟨Nat.le_trans h1.incr h3, ?_⟩
      cases e : homeIn H a.buckets x with
      | none => rfl
      | some j => rw [h1.keep x j e] at h4; cases h4
  · intro i hi
    rcases h2.ids i hi with h | h
    · exact h1.ids i h
    · exact Or.inr (Nat.le_trans h1.incr h)

theorem Grow.of_shape {H : Series → Nat} {a b : Db} (hs : b.buckets.map shape = a.buckets.map shape) (hi : a.incr ≤ b.incr) :
    Grow H a b :=
  ⟨hi, fun c i h => by rw [homeIn_congr H hs]; exact h, fun c i h => Or.inl (by rw [homeIn_congr H hs] at h; exact h),
    fun i h => Or.inl (by rw [setIds_congr hs] at h; exact h), fun i h => by rw [setIds_congr hs]; exact h⟩

/-- Buckets with the same ranges are as well aligned. -/
theorem Aligned.of_shape {a b : Db} (h : Aligned a) (hs : b.buckets.map shape = a.buckets.map shape) (hd : b.duration = a.duration) :
    Aligned b := by
  constructor
  · intro x hx
    have : shape x ∈ a.buckets.map shape := by rw [← hs]; exact List.mem_map_of_mem hx
    obtain ⟨y, hy, e⟩ := List.mem_map.1 this
    obtain ⟨t, h1, h2, h3⟩ := h.range y hy
    refine ⟨t, h1, h2, ?_⟩
    rw [hd, ← h3]
    simp only [shape, Prod.mk.injEq] at e
    rw [e.1, e.2.1]
  · have h1 : (a.buckets.map shape).Pairwise fun x y => x.2.1 ≤ y.1 ∨ y.2.1 ≤ x.1 := by
      rw [List.pairwise_map]; exact h.disjoint
    rw [← hs, List.pairwise_map] at h1
    exact h1

theorem sublist_ids (sets : List ReplSet) : (sets.map (·.id)).Sublist (sets.map ReplSet.ids).flatten := by
  induction sets with
  | nil => exact List.Sublist.refl _
  | cons r rs ih =>
    rw [List.map_cons, List.map_cons, List.flatten_cons]
    show (r.id :: rs.map (·.id)).Sublist (r.id :: (r.vnodes.map Meta.Vnode.id) ++ _)
    exact List.Sublist.cons_cons _ (ih.trans (List.sublist_append_right _ _))

/-- Creating a bucket. -/
theorem Cat.create {H : Series → Nat} {word : Nat} {db : Db} (h : Cat db) (ts : Int) (nodes : List Nat) (expired : Int)
    (hts : IsI64 ts) (hmax : ts ≠ i64Max) (hnd : nodes.Nodup) (hn : 0 < nodes.length)
    (hfit : db.incr + (Meta.Cmd.create ts nodes expired).cost db < word) :
    Cat (db.create word ts nodes expired) ∧ Grow H db (db.create word ts nodes expired) := by
  have hal := h.aligned.step (word := word) h.dur (.create ts nodes expired) ⟨hts, hmax⟩
  simp only [Meta.Db.step] at hal
  rcases Db.create_cases word db ts nodes expired with e | ⟨group, used, hno, _, hsh, _, hg, e⟩
  · rw [e]; exact ⟨h, Grow.refl H db⟩
  · simp only [Meta.Cmd.cost] at hfit
    obtain ⟨sets, used', ha, hl, hu, hok, hids, hndi, _⟩ :=
      Meta.C49_placement word nodes hnd hn db.shardNum db.replica (db.incr + 1) (by omega)
    rw [ha] at hg
    obtain ⟨rfl, rfl⟩ := Prod.mk.inj (Option.some.inj hg)
    have hmod : ((db.incr + 1) % word + used') % word = db.incr + 1 + used' := by
      rw [Nat.mod_eq_of_lt (by omega : db.incr + 1 < word), Nat.mod_eq_of_lt (by omega)]
    rw [e] at hal ⊢
    have hset : ∀ i ∈ sets.map (·.id), db.incr < i ∧ i < db.incr + 1 + used' := by
      intro i hi
      have := (sublist_ids sets).subset hi
      rw [hids, List.mem_range'_1] at this
      omega
    have hsids : setIds (db.buckets ++ [⟨db.incr, (getTimeRange ts db.duration).1, (getTimeRange ts db.duration).2, sets⟩]) =
        setIds db.buckets ++ sets.map (·.id) := by
      simp [setIds]
    have hnew : ∀ c i, homeIn H [⟨db.incr, (getTimeRange ts db.duration).1, (getTimeRange ts db.duration).2, sets⟩] c = some i →
        i ∈ sets.map (·.id) := by
      intro c i hi
      have := homeIn_mem hi
      simpa [setIds] using this
    refine ⟨⟨hal.1, h.dur, ?_, ?_, ?_⟩, ⟨?_, ?_, ?_, ?_, ?_⟩⟩
    · simp only [hsids]
      rw [List.nodup_append]
      refine ⟨h.nodup, hndi.sublist (sublist_ids sets), ?_⟩
      intro a ha' b hb' hab
      have h1 := h.below a ha'
      have h2 := (hset b hb').1
      omega
    · intro i hi
      simp only [hsids] at hi
      simp only [hmod]
      rcases List.mem_append.1 hi with hi | hi
      · have := h.below i hi; omega
      · exact (hset i hi).2
    · intro b hb
      rcases List.mem_append.1 hb with hb | hb
      · exact h.full b hb
      · rw [List.mem_singleton] at hb
        subst hb
        refine ⟨?_, ?_⟩
        · intro hc
          simp only at hc
          rw [hc] at hl
          exact hsh hl.symm
        · intro r hr hc
          have := (hok r hr).leader
          rw [hc] at this
          cases this
    · simp only [hmod]; omega
    · intro c i hi
      simp only
      rw [homeIn_append]
      obtain ⟨b, _, _, hb, _⟩ := homeIn_some hi
      simp only [hb]
      exact hi
    · intro c i hi
      simp only at hi
      rw [homeIn_append] at hi
      cases hb : bucketByTimestamp db.buckets c.time with
      | some b => rw [hb] at hi; exact Or.inl hi
      | none =>
        rw [hb] at hi
        refine Or.inr ⟨Nat.le_of_lt (hset i (hnew c i hi)).1, ?_⟩
        simp [homeIn, hb]
    · intro i hi
      simp only [hsids] at hi
      rcases List.mem_append.1 hi with hi | hi
      · exact Or.inl hi
      · exact Or.inr (Nat.le_of_lt (hset i hi).1)
    · intro i hi
      simp only [hsids]
      exact List.mem_append_left _ hi

/-! ## Routing -/

/-- The id counter has room for the buckets that a request may need. -/
def Room (word : Nat) (p dbp : Precision) : Db → List (Line × Env) → Prop
  | _, [] => True
  | db, (l, e) :: rest =>
    ∀ ts, Utils.timestampConvert p dbp l.time = some ts →
      db.incr + (Meta.Cmd.create ts e.nodes e.expired).cost db < word ∧
      Room word p dbp (locate word db l.hash ts e).1 rest

/-- A line that can be routed by its series: its hash is a function of the series, and its time is a 64-bit number other than the
greatest one. -/
structure LineOk (H : Series → Nat) (p dbp : Precision) (l : Line) (e : Env) : Prop where
  hash : l.hash = H l.series
  time : ∀ ts, Utils.timestampConvert p dbp l.time = some ts → IsI64 ts ∧ ts ≠ i64Max
  nodes : e.nodes.Nodup ∧ 0 < e.nodes.length

theorem locate_spec {H : Series → Nat} {word : Nat} {db : Db} (h : Cat db) (hash : Nat) (ts : Int) (e : Env)
    (hts : IsI64 ts) (hmax : ts ≠ i64Max) (hnd : e.nodes.Nodup) (hn : 0 < e.nodes.length)
    (hfit : db.incr + (Meta.Cmd.create ts e.nodes e.expired).cost db < word) :
    Cat (locate word db hash ts e).1 ∧ Grow H db (locate word db hash ts e).1 ∧
    ∀ r, (locate word db hash ts e).2 = some r → ∀ c : Cell, c.time = ts → H c.series = hash →
      homeIn H (locate word db hash ts e).1.buckets c = some r.id := by
  unfold locate
  cases hb : bucketByTimestamp db.buckets ts with
  | some b =>
    refine ⟨h, Grow.refl H db, ?_⟩
    intro r hr c hc hH
    simp only at hr
    unfold homeIn
    rw [hc, hb, Option.bind_some, hH, hr]
    rfl
  | none =>
    obtain ⟨h1, h2⟩ := h.create (H := H) (word := word) ts e.nodes e.expired hts hmax hnd hn hfit
    refine ⟨h1, h2, ?_⟩
    intro r hr c hc hH
    simp only at hr ⊢
    unfold homeIn
    rw [hc]
    cases hb' : bucketByTimestamp (db.create word ts e.nodes e.expired).buckets ts with
    | none => rw [hb'] at hr; cases hr
    | some b =>
      rw [hb', Option.bind_some] at hr
      rw [Option.bind_some, hH, hr]
      rfl

/-- What the grouping of lines satisfies at any time: `L` are the lines handled. -/
structure Grouped (H : Series → Nat) (p dbp : Precision) (db : Db) (L : List Line) (gs : List (Nat × List Line)) : Prop where
  ids : ∀ g ∈ gs, g.1 ∈ setIds db.buckets
  homed : ∀ g ∈ gs, ∀ c, (written p dbp g.2 c).isSome → homeIn H db.buckets c = some g.1
  same : ∀ g ∈ gs, ∀ c, homeIn H db.buckets c = some g.1 → written p dbp g.2 c = written p dbp L c
  found : ∀ c, (written p dbp L c).isSome → ∃ g ∈ gs, homeIn H db.buckets c = some g.1

theorem Grouped.grow {H : Series → Nat} {p dbp : Precision} {db db' : Db} {L : List Line} {gs : List (Nat × List Line)}
    (hc : Cat db) (hg : Grow H db db') (h : Grouped H p dbp db L gs) : Grouped H p dbp db' L gs := by
  refine ⟨fun g hgs => hg.sub _ (h.ids g hgs), fun g hgs c hw => hg.keep _ _ (h.homed g hgs c hw), ?_, ?_⟩
  · intro g hgs c hh
    rcases hg.new _ _ hh with h' | ⟨h', _⟩
    · exact h.same g hgs c h'
    · have := hc.below _ (h.ids g hgs); omega
  · intro c hw
    obtain ⟨g, hgs, hh⟩ := h.found c hw
    exact ⟨g, hgs, hg.keep _ _ hh⟩

/-- The ids of the groups are all different. -/
theorem addTo_ids (gs : List (Nat × List Line)) (i : Nat) (l : Line) (h : (gs.map (·.1)).Nodup) :
    ((addTo gs i l).map (·.1)).Nodup ∧ (∀ j, j ∈ (addTo gs i l).map (·.1) ↔ j ∈ gs.map (·.1) ∨ j = i) ∧
    (∀ g ∈ addTo gs i l, g.1 ≠ i → g ∈ gs) ∧
    ∃ g ∈ addTo gs i l, g.1 = i := by
  induction gs with
  | nil => simp [addTo]
  | cons x xs ih =>
    rw [List.map_cons, List.nodup_cons] at h
    obtain ⟨i1, i2, i3, g, i4, i5⟩ := ih h.2
    unfold addTo
    by_cases e : x.1 = i
    · rw [if_pos e]
      refine ⟨by rw [List.map_cons, List.nodup_cons]; exact h, ?_, ?_, ⟨_, List.mem_cons_self .., e⟩⟩
      · intro j
        simp only [List.map_cons, List.mem_cons]
        constructor
        · rintro (h | h)
          · exact Or.inl (Or.inl h)
          · exact Or.inl (Or.inr h)
        · rintro ((h | h) | h)
          · exact Or.inl h
          · exact Or.inr h
          · exact Or.inl (h.trans e.symm)
      · intro g hg hne
        rcases List.mem_cons.1 hg with rfl | hg
        · exact absurd e hne
        · exact List.mem_cons_of_mem _ hg
    · rw [if_neg e]
      refine ⟨?_, ?_, ?_, ⟨g, List.mem_cons_of_mem _ i4, i5⟩⟩
      · rw [List.map_cons, List.nodup_cons]
        refine ⟨?_, i1⟩
        intro hc
        rcases (i2 _).1 hc with hc | hc
        · exact h.1 hc
        · exact e hc
      · intro j
        rw [List.map_cons, List.mem_cons, i2, List.map_cons, List.mem_cons, or_assoc]
      · intro g hg hne
        rcases List.mem_cons.1 hg with rfl | hg
        · exact List.mem_cons_self ..
        · exact List.mem_cons_of_mem _ (i3 g hg hne)

theorem lineVal_cell {p dbp : Precision} {l : Line} {c : Cell} (h : (lineVal p dbp l c).isSome) :
    Utils.timestampConvert p dbp l.time = some c.time ∧ l.series = c.series := by
  unfold lineVal at h
  cases ht : Utils.timestampConvert p dbp l.time with
  | none => rw [ht] at h; simp at h
  | some t =>
    rw [ht] at h
    simp only at h
    by_cases e : l.series = c.series ∧ t = c.time
    · exact ⟨by rw [e.2], e.1⟩
    · rw [if_neg e] at h; simp at h

/-- A line joins the group of its set. -/
theorem Grouped.add {H : Series → Nat} {p dbp : Precision} {db : Db} {L : List Line} {gs : List (Nat × List Line)}
    (h : Grouped H p dbp db L gs) (hn : (gs.map (·.1)).Nodup) (l : Line) (i : Nat) (hi : i ∈ setIds db.buckets)
    (hl : ∀ c, (lineVal p dbp l c).isSome → homeIn H db.buckets c = some i) :
    Grouped H p dbp db (L ++ [l]) (addTo gs i l) := by
  obtain ⟨a1, a2, a3, a4⟩ := addTo_ids gs i l hn
  -- a group of the new list with id `i` is the old one with the line, or only the line
  have hgi : ∀ g ∈ addTo gs i l, g.1 = i → (∃ g0 ∈ gs, g0.1 = i ∧ g.2 = g0.2 ++ [l]) ∨ (g.2 = [l] ∧ ∀ g0 ∈ gs, g0.1 ≠ i) := by
    intro g hg e
    clear a1 a2 a3 a4 hi hl h
    induction gs with
    | nil =>
      simp only [addTo, List.mem_singleton] at hg
      exact Or.inr ⟨by rw [hg], by simp⟩
    | cons x xs ih =>
      rw [List.map_cons, List.nodup_cons] at hn
      unfold addTo at hg
      by_cases ex : x.1 = i
      · rw [if_pos ex] at hg
        rcases List.mem_cons.1 hg with hg | hg
        · exact Or.inl ⟨x, List.mem_cons_self .., ex, by rw [hg]⟩
        · exact absurd (List.mem_map.2 ⟨g, hg, e.trans ex.symm⟩) hn.1
      · rw [if_neg ex] at hg
        rcases List.mem_cons.1 hg with hg | hg
        · rw [hg] at e; exact absurd e ex
        · rcases ih hn.2 hg with ⟨g0, h1, h2, h3⟩ | ⟨h1, h2⟩
          · exact Or.inl ⟨g0, List.mem_cons_of_mem _ h1, h2, h3⟩
          · refine Or.inr ⟨h1, ?_⟩
            intro g0 hg0
            rcases List.mem_cons.1 hg0 with rfl | hg0
            · exact ex
            · exact h2 g0 hg0
  refine ⟨?_, ?_, ?_, ?_⟩
  · intro g hg
    by_cases e : g.1 = i
    · rw [e]; exact hi
    · exact h.ids g (a3 g hg e)
  · intro g hg c hw
    by_cases e : g.1 = i
    · rcases hgi g hg e with ⟨g0, h0, e0, e1⟩ | ⟨e1, _⟩
      · rw [e1, written_snoc] at hw
        cases hv : lineVal p dbp l c with
        | some v => rw [e]; exact hl c (by rw [hv]; rfl)
        | none =>
          rw [hv, Option.none_or] at hw
          rw [e, ← e0]
          exact h.homed g0 h0 c hw
      · rw [e1] at hw
        have : written p dbp [l] c = lineVal p dbp l c := by simp [written]
        rw [this] at hw
        rw [e]; exact hl c hw
    · exact h.homed g (a3 g hg e) c hw
  · intro g hg c hh
    rw [written_snoc]
    by_cases e : g.1 = i
    · rcases hgi g hg e with ⟨g0, h0, e0, e1⟩ | ⟨e1, hno⟩
      · rw [e1, written_snoc, h.same g0 h0 c (by rw [e0, ← e]; exact hh)]
      · rw [e1]
        have : written p dbp [l] c = lineVal p dbp l c := by simp [written]
        rw [this]
        cases hw : written p dbp L c with
        | none => simp
        | some v =>
          obtain ⟨g0, h0, e0⟩ := h.found c (by rw [hw]; rfl)
          rw [hh] at e0
          exact absurd ((Option.some.inj e0).symm.trans e) (hno g0 h0)
    · rw [h.same g (a3 g hg e) c hh]
      cases hv : lineVal p dbp l c with
      | none => simp
      | some v =>
        have := hl c (by rw [hv]; rfl)
        rw [hh] at this
        exact absurd (Option.some.inj this) e
  · intro c hw
    rw [written_snoc] at hw
    cases hv : lineVal p dbp l c with
    | some v =>
      obtain ⟨g, hg, e⟩ := a4
      exact ⟨g, hg, by rw [e]; exact hl c (by rw [hv]; rfl)⟩
    | none =>
      rw [hv, Option.none_or] at hw
      obtain ⟨g0, h0, e0⟩ := h.found c hw
      have : g0.1 ∈ (addTo gs i l).map (·.1) := (a2 _).2 (Or.inl (List.mem_map.2 ⟨g0, h0, rfl⟩))
      obtain ⟨g, hg, e⟩ := List.mem_map.1 this
      exact ⟨g, hg, by rw [e0, e]⟩

theorem route_spec {H : Series → Nat} {word : Nat} {p dbp : Precision} (lines : List (Line × Env)) :
    ∀ (db : Db) (acc : List (Nat × List Line)) (L : List Line), Cat db → Room word p dbp db lines →
    (∀ x ∈ lines, LineOk H p dbp x.1 x.2) → (acc.map (·.1)).Nodup → Grouped H p dbp db L acc →
    Cat (route word p dbp db acc lines).1 ∧ Grow H db (route word p dbp db acc lines).1 ∧
    ∀ gs, (route word p dbp db acc lines).2 = some gs →
      Grouped H p dbp (route word p dbp db acc lines).1 (L ++ lines.map (·.1)) gs := by
  induction lines with
  | nil =>
    intro db acc L hc _ _ _ hg
    refine ⟨hc, Grow.refl H db, ?_⟩
    intro gs e
    cases e
    simpa [route] using hg
  | cons x rest ih =>
    obtain ⟨l, e⟩ := x
    intro db acc L hc hroom hok hn hg
    have hlo := hok (l, e) (List.mem_cons_self ..)
    unfold route
    cases ht : Utils.timestampConvert p dbp l.time with
    | none => exact ⟨hc, Grow.refl H db, fun gs h => by cases h⟩
    | some ts =>
      obtain ⟨hfit, hroom'⟩ := hroom ts ht
      obtain ⟨hts, hmax⟩ := hlo.time ts ht
      obtain ⟨l1, l2, l3⟩ := locate_spec (H := H) hc l.hash ts e hts hmax hlo.nodes.1 hlo.nodes.2 hfit
      simp only
      cases hloc : locate word db l.hash ts e with
      | mk db' o =>
        rw [hloc] at l1 l2 l3 hroom'
        cases o with
        | none => exact ⟨l1, l2, fun gs h => by cases h⟩
        | some r =>
          simp only
          have hhome : ∀ c, (lineVal p dbp l c).isSome → homeIn H db'.buckets c = some r.id := by
            intro c hv
            obtain ⟨e1, e2⟩ := lineVal_cell hv
            rw [ht] at e1
            exact l3 r rfl c (Option.some.inj e1).symm (by rw [← e2, hlo.hash])
          have hr : r.id ∈ setIds db'.buckets :=
            homeIn_mem (l3 r rfl ⟨l.series, ts, []⟩ rfl hlo.hash.symm)
          obtain ⟨a1, a2, a3⟩ := ih db' (addTo acc r.id l) (L ++ [l]) l1 hroom'
            (fun x hx => hok x (List.mem_cons_of_mem _ hx)) (addTo_ids acc r.id l hn).1
            ((hg.grow hc l2).add hn l r.id hr hhome)
          refine ⟨a1, l2.trans a2, ?_⟩
          intro gs hgs
          have := a3 gs hgs
          simpa [List.append_assoc] using this

/-! ## The invariant -/

structure Inv (H : Series → Nat) (dbp : Precision) (s : State) (m : Content) : Prop where
  cat : Cat s.db
  fresh : ∀ i, s.db.incr ≤ i → (s.group i).log = []
  issuedBelow : ∀ x ∈ s.issued, x.1 < s.db.incr
  issuedPlace : ∀ x ∈ s.issued, x.1 ∈ setIds s.db.buckets → ∀ p lines, x.2 = .write p lines →
    ∀ c, (written p dbp lines c).isSome → homeIn H s.db.buckets c = some x.1
  place : ∀ i ∈ setIds s.db.buckets, ∀ c, content dbp (s.group i).log c ≠ none → homeIn H s.db.buckets c = some i
  table : ∀ c, m c = match homeIn H s.db.buckets c with
    | some i => content dbp (s.group i).log c
    | none => none

theorem Inv.grow {H : Series → Nat} {dbp : Precision} {s : State} {m : Content} (h : Inv H dbp s m) {db' : Db}
    (hc : Cat db') (hg : Grow H s.db db') : Inv H dbp { s with db := db' } m := by
  refine ⟨hc, fun i hi => h.fresh i (Nat.le_trans hg.incr hi), fun x hx => Nat.lt_of_lt_of_le (h.issuedBelow x hx) hg.incr, ?_, ?_, ?_⟩
  · intro x hx hi p lines e c hw
    have hb := h.issuedBelow x hx
    rcases hg.ids _ hi with hi | hi
    · exact hg.keep _ _ (h.issuedPlace x hx hi p lines e c hw)
    · omega
  · intro i hi c hcn
    rcases hg.ids _ hi with hi | hi
    · exact hg.keep _ _ (h.place i hi c hcn)
    · have : (s.group i).log = [] := h.fresh i hi
      rw [this] at hcn
      exact absurd rfl hcn
  · intro c
    rw [h.table c]
    simp only
    cases hh : homeIn H db'.buckets c with
    | some i =>
      rcases hg.new _ _ hh with h' | ⟨h1, h2⟩
      · rw [h']
      · rw [h2]
        show none = content dbp (s.group i).log c
        rw [h.fresh i h1]
        rfl
    | none =>
      cases hh' : homeIn H s.db.buckets c with
      | none => rfl
      | some i => rw [hg.keep _ _ hh'] at hh; cases hh

/-- Sending commands. -/
theorem Inv.issue {H : Series → Nat} {dbp : Precision} {s : State} {m : Content} (h : Inv H dbp s m) (new : List (Nat × Req))
    (h1 : ∀ x ∈ new, x.1 < s.db.incr)
    (h2 : ∀ x ∈ new, ∀ p lines, x.2 = .write p lines → ∀ c, (written p dbp lines c).isSome → homeIn H s.db.buckets c = some x.1) :
    Inv H dbp { s with issued := s.issued ++ new } m := by
  refine ⟨h.cat, h.fresh, ?_, ?_, h.place, h.table⟩
  · intro x hx
    rcases List.mem_append.1 hx with hx | hx
    · exact h.issuedBelow x hx
    · exact h1 x hx
  · intro x hx hi p lines e c hw
    rcases List.mem_append.1 hx with hx | hx
    · exact h.issuedPlace x hx hi p lines e c hw
    · exact h2 x hx p lines e c hw

/-- What changes the logs: one command is added to one log. -/
theorem Inv.append {H : Series → Nat} {dbp : Precision} {s : State} {m : Content} (h : Inv H dbp s m) {set : Nat} {cmd : Req}
    (hx : (set, cmd) ∈ s.issued) (g : Group) (hg : g.log = (s.group set).log ++ [cmd]) :
    Inv H dbp (s.setGroup set g) (fun c => if homeIn H s.db.buckets c = some set then cmd.at dbp c (m c) else m c) := by
  have hlt := h.issuedBelow _ hx
  simp only at hlt
  have hlog : ∀ i, ((s.setGroup set g).group i).log = if i = set then (s.group set).log ++ [cmd] else (s.group i).log := by
    intro i
    unfold State.setGroup
    by_cases e : i = set
    · simp [e, hg]
    · simp [e]
  refine ⟨h.cat, ?_, h.issuedBelow, h.issuedPlace, ?_, ?_⟩
  · intro i hi
    rw [hlog]
    rw [if_neg (by intro e; subst e; exact absurd hi (Nat.not_le.2 hlt))]
    exact h.fresh i hi
  · intro i hi c hcn
    rw [hlog] at hcn
    by_cases e : i = set
    · subst e
      rw [if_pos rfl, content_snoc] at hcn
      cases cmd with
      | write p lines =>
        simp only [Req.at] at hcn
        cases hw : written p dbp lines c with
        | some v => exact h.issuedPlace _ hx hi p lines rfl c (by rw [hw]; rfl)
        | none =>
          rw [hw, Option.none_or] at hcn
          exact h.place i hi c hcn
      | delete t r sel =>
        simp only [Req.at] at hcn
        split at hcn
        · exact absurd rfl hcn
        · exact h.place i hi c hcn
    · rw [if_neg e] at hcn
      exact h.place i hi c hcn
  · intro c
    show (if homeIn H s.db.buckets c = some set then _ else _) = match homeIn H s.db.buckets c with | some i => _ | none => none
    cases hh : homeIn H s.db.buckets c with
    | none =>
      rw [if_neg (by intro e; cases e)]
      have := h.table c
      rw [hh] at this
      exact this
    | some i =>
      have ht := h.table c
      rw [hh] at ht
      simp only at ht ⊢
      rw [hlog]
      by_cases e : i = set
      · subst e
        rw [if_pos rfl, if_pos rfl, content_snoc, ht]
      · rw [if_neg (by intro e'; exact e (Option.some.inj e')), if_neg e, ht]

/-- Only logs, catalogue and commands matter. -/
theorem Inv.congr {H : Series → Nat} {dbp : Precision} {s s' : State} {m : Content} (h : Inv H dbp s m) (hdb : s'.db = s.db)
    (hi : s'.issued = s.issued) (hl : ∀ i, (s'.group i).log = (s.group i).log) : Inv H dbp s' m := by
  refine ⟨by rw [hdb]; exact h.cat, ?_, by rw [hdb, hi]; exact h.issuedBelow, by rw [hdb, hi]; exact h.issuedPlace, ?_, ?_⟩
  · intro i hi; rw [hl]; rw [hdb] at hi; exact h.fresh i hi
  · intro i hi c hc; rw [hl] at hc; rw [hdb] at hi ⊢; exact h.place i hi c hc
  · intro c
    rw [h.table c, hdb]
    cases homeIn H s.db.buckets c with
    | none => rfl
    | some i => simp only; rw [hl]

theorem cat_setLeader {db : Db} (h : Cat db) (i v : Nat) : Cat (setLeader db i v) := by
  have hs := setLeader_shape db i v
  refine ⟨Aligned.of_shape h.aligned hs rfl, h.dur, by rw [setIds_congr hs]; exact h.nodup, ?_, ?_⟩
  · intro j hj; rw [setIds_congr hs] at hj; exact h.below j hj
  · intro b hb
    simp only [setLeader] at hb
    obtain ⟨b0, hb0, rfl⟩ := List.mem_map.1 hb
    obtain ⟨f1, f2⟩ := h.full b0 hb0
    refine ⟨by simpa using f1, ?_⟩
    intro r hr
    obtain ⟨r0, hr0, rfl⟩ := List.mem_map.1 hr
    rw [lead_vnodes]
    exact f2 r0 hr0

/-! ## Steps -/

/-- Steps covered by the invariant: times are not the greatest 64-bit number, rows are routed by a hash of their series, the duration of
buckets is not changed, replicas are not all taken away from a set, the id counter does not overflow. -/
def Op.Ok (H : Series → Nat) (word : Nat) (dbp : Precision) (s : State) : Op → Prop
  | .catalog (.create ts nodes expired) => IsI64 ts ∧ ts ≠ i64Max ∧ nodes.Nodup ∧ 0 < nodes.length ∧
      s.db.incr + (Meta.Cmd.create ts nodes expired).cost s.db < word
  | .catalog (.delete _) => True
  | .catalog (.retainId n) => s.db.incr + n < word
  | .catalog (.alter d _ _) => d = s.db.duration
  | .catalog (.updateReplSet bid repl del add) =>
      ∀ b ∈ s.db.buckets, b.id = bid → ∀ r ∈ b.shards, r.id = repl → (r.update del add).vnodes ≠ []
  | .write p lines => Room word p dbp s.db lines ∧ ∀ x ∈ lines, LineOk H p dbp x.1 x.2
  | .delete _ _ _ => True
  | .commit _ _ => True
  | .apply _ _ _ => True

theorem Inv.delete {H : Series → Nat} {dbp : Precision} {s : State} {m : Content} (h : Inv H dbp s m) (id : Nat) :
    Inv H dbp { s with db := { s.db with buckets := s.db.buckets.filter fun b => decide (b.id ≠ id) } }
      (fun c => ((s.db.buckets.filter fun b => decide (b.id = id)).map fun b => Ev.expire b.start b.stop).foldl (Ev.at dbp c) (m c)) := by
  have hA : Apart s.db.buckets := h.cat.aligned.disjoint
  have hsub : (s.db.buckets.filter fun b => decide (b.id ≠ id)).Sublist s.db.buckets := List.filter_sublist
  have hids : (setIds (s.db.buckets.filter fun b => decide (b.id ≠ id))).Sublist (setIds s.db.buckets) := by
    have : ∀ {a b : List Bucket}, a.Sublist b → (setIds a).Sublist (setIds b) := by
      intro a b hab
      induction hab with
      | slnil => exact List.Sublist.refl _
      | cons x _ ih => exact ih.trans (List.sublist_append_right _ _)
      | cons_cons x _ ih => exact (List.Sublist.refl _).append ih
    exact this hsub
  have hkeep : ∀ c i, homeIn H s.db.buckets c = some i → i ∈ setIds (s.db.buckets.filter fun b => decide (b.id ≠ id)) →
      homeIn H (s.db.buckets.filter fun b => decide (b.id ≠ id)) c = some i := by
    intro c i hh hi
    obtain ⟨b, hb, hbt, hby, r, hr, _, e⟩ := homeIn_some hh
    obtain ⟨b', hb', r', hr', e'⟩ := mem_setIds.1 hi
    have := setIds_bucket h.cat.nodup hb (hsub.subset hb') hr hr' (by rw [e, e'])
    subst this
    rw [homeIn_filter H hA, hby]
    simp only
    rw [if_pos (List.mem_filter.1 hb').2, hh]
  have hfold : ∀ c (l : List Bucket) (x : Option Val), (l.map fun b => Ev.expire b.start b.stop).foldl (Ev.at dbp c) x =
      if l.any (·.contains c.time) then none else x := by
    intro c l
    induction l with
    | nil => intro x; rfl
    | cons b l ih =>
      intro x
      rw [List.map_cons, List.foldl_cons, ih, List.any_cons]
      simp only [Ev.at]
      cases hb : b.contains c.time with
      | true =>
        have hb' := (Meta.contains_iff b c.time).1 hb
        rw [if_pos hb']
        simp
      | false =>
        have hb' : ¬ (b.start ≤ c.time ∧ c.time < b.stop) := fun hc => by
          rw [(Meta.contains_iff b c.time).2 hc] at hb; cases hb
        rw [if_neg hb']
        simp
  refine ⟨⟨?_, h.cat.dur, h.cat.nodup.sublist hids, fun i hi => h.cat.below i (hids.subset hi),
    fun b hb => h.cat.full b (hsub.subset hb)⟩, h.fresh, h.issuedBelow, ?_, ?_, ?_⟩
  · exact ⟨fun b hb => h.cat.aligned.range b (hsub.subset hb), h.cat.aligned.disjoint.sublist hsub⟩
  · intro x hx hi p lines e c hw
    exact hkeep c _ (h.issuedPlace x hx (hids.subset hi) p lines e c hw) hi
  · intro i hi c hcn
    exact hkeep c i (h.place i (hids.subset hi) c hcn) hi
  · intro c
    simp only
    rw [hfold, homeIn_filter H hA]
    cases hby : bucketByTimestamp s.db.buckets c.time with
    | none =>
      have hno : ∀ b ∈ s.db.buckets, b.contains c.time ≠ true := by
        unfold bucketByTimestamp at hby
        rw [List.find?_eq_none] at hby
        exact hby
      have hh : homeIn H s.db.buckets c = none := by simp [homeIn, hby]
      have ht := h.table c
      rw [hh] at ht
      simp only at ht
      simp only [ht]
      split <;> rfl
    | some b =>
      have hb : b ∈ s.db.buckets := List.mem_of_find?_eq_some hby
      have hbt : b.contains c.time = true := by simpa using List.find?_some hby
      simp only
      by_cases e : b.id = id
      · have h1 : (s.db.buckets.filter fun b => decide (b.id = id)).any (·.contains c.time) = true :=
          List.any_eq_true.2 ⟨b, List.mem_filter.2 ⟨hb, by simpa using e⟩, hbt⟩
        rw [if_pos h1, if_neg (by simpa using e)]
      · have h1 : ¬ (s.db.buckets.filter fun b => decide (b.id = id)).any (·.contains c.time) = true := by
          intro hc
          obtain ⟨b', hb', hbt'⟩ := List.any_eq_true.1 hc
          have := hA.eq hb (List.mem_of_mem_filter hb') hbt hbt'
          subst this
          exact e (by simpa using (List.mem_filter.1 hb').2)
        rw [if_neg h1, if_pos (by simpa using e)]
        exact h.table c

theorem Inv.step {H : Series → Nat} {word : Nat} {dbp : Precision} {s : State} {m : Content} (h : Inv H dbp s m) (op : Op)
    (hok : op.Ok H word dbp s) :
    Inv H dbp (s.step word dbp op) (fun c => (evOf H s op).foldl (Ev.at dbp c) (m c)) := by
  cases op with
  | catalog c =>
    cases c with
    | create ts nodes expired =>
      obtain ⟨h1, h2, h3, h4, h5⟩ := hok
      obtain ⟨c1, c2⟩ := h.cat.create (H := H) (word := word) ts nodes expired h1 h2 h3 h4 h5
      exact h.grow c1 c2
    | delete id => exact h.delete id
    | retainId n =>
      have hm : (s.db.incr + n) % word = s.db.incr + n := Nat.mod_eq_of_lt hok
      refine h.grow (db' := s.db.step word (.retainId n)) ⟨?_, h.cat.dur, h.cat.nodup, ?_, h.cat.full⟩ ?_
      · exact Aligned.of_shape h.cat.aligned rfl rfl
      · intro i hi
        have := h.cat.below i hi
        simp only [Meta.Db.step, hm]; omega
      · exact Grow.of_shape rfl (by simp only [Meta.Db.step, hm]; omega)
    | alter d sh r =>
      have hd : d = s.db.duration := hok
      subst hd
      refine h.grow (db' := s.db.step word (.alter s.db.duration sh r)) ⟨?_, h.cat.dur, h.cat.nodup, h.cat.below, h.cat.full⟩ ?_
      · exact Aligned.of_shape h.cat.aligned rfl rfl
      · exact Grow.of_shape rfl (Nat.le_refl _)
    | updateReplSet bid repl del add =>
      obtain ⟨u1, u2⟩ := update_shape s.db.buckets bid repl del add h.cat.full hok
      refine h.grow (db' := s.db.step word (.updateReplSet bid repl del add))
        ⟨Aligned.of_shape h.cat.aligned u1 rfl, h.cat.dur, ?_, ?_, u2⟩ (Grow.of_shape u1 (Nat.le_refl _))
      · simp only [Meta.Db.step]; rw [setIds_congr u1]; exact h.cat.nodup
      · intro i hi
        simp only [Meta.Db.step] at hi ⊢
        rw [setIds_congr u1] at hi
        exact h.cat.below i hi
  | write p lines =>
    obtain ⟨c1, c2, c3⟩ := route_spec (H := H) lines s.db [] [] h.cat hok.1 hok.2 (by simp)
      ⟨by simp, by simp, by simp, by simp [written]⟩
    simp only [State.step]
    cases hr : (route word p dbp s.db [] lines).2 with
    | none => exact h.grow c1 c2
    | some gs =>
      have hg := c3 gs hr
      refine (h.grow c1 c2).issue (gs.map fun g => (g.1, Req.write p g.2)) ?_ ?_
      · intro x hx
        obtain ⟨g, hgs, rfl⟩ := List.mem_map.1 hx
        exact c1.below _ (hg.ids g hgs)
      · intro x hx p' lines' e c hw
        obtain ⟨g, hgs, rfl⟩ := List.mem_map.1 hx
        simp only at e
        cases e
        exact hg.homed g hgs c hw
  | delete t ranges sel =>
    refine h.issue ((prune s.db (hull ranges).1 (hull ranges).2).map fun r => (r.id, Req.delete t ranges sel)) ?_ ?_
    · intro x hx
      obtain ⟨r, hr, rfl⟩ := List.mem_map.1 hx
      apply h.cat.below
      unfold prune Meta.mappingBucket at hr
      obtain ⟨b, hb, hrb⟩ := List.mem_flatMap.1 hr
      exact mem_setIds.2 ⟨b, List.mem_of_mem_filter hb, r, hrb, rfl⟩
    · intro x hx p lines e
      obtain ⟨r, hr, rfl⟩ := List.mem_map.1 hx
      cases e
  | commit i ack =>
    simp only [State.step, evOf]
    cases hi : s.issued[i]? with
    | none => exact h
    | some x =>
      obtain ⟨set, cmd⟩ := x
      have hx : (set, cmd) ∈ s.issued := List.mem_of_getElem? hi
      have hm : (fun c => List.foldl (Ev.at dbp c) (m c) [Ev.effect cmd fun c => decide (homeIn H s.db.buckets c = some set)]) =
          fun c => if homeIn H s.db.buckets c = some set then cmd.at dbp c (m c) else m c := by
        funext c
        simp [Ev.at]
      simp only [hm]
      cases ack with
      | none => exact h.append hx _ rfl
      | some v =>
        simp only
        have := (h.append hx { log := (s.group set).log ++ [cmd], applied := fun x => if x = v then (s.group set).log.length + 1 else (s.group set).applied x, acked := (s.group set).log.length + 1 } rfl).grow
          (cat_setLeader h.cat set v) (Grow.of_shape (setLeader_shape s.db set v) (Nat.le_refl _))
        exact this
  | apply set v n =>
    refine h.congr rfl rfl ?_
    intro i
    simp only [State.step, State.setGroup]
    by_cases e : i = set
    · simp [e]
    · simp [e]

/-- All steps of a run are covered. -/
def Legal (H : Series → Nat) (word : Nat) (dbp : Precision) : State → List Op → Prop
  | _, [] => True
  | s, op :: ops => op.Ok H word dbp s ∧ Legal H word dbp (s.step word dbp op) ops

theorem Inv.run {H : Series → Nat} {word : Nat} {dbp : Precision} (ops : List Op) :
    ∀ {s : State} {m : Content}, Inv H dbp s m → Legal H word dbp s ops →
    Inv H dbp (s.run word dbp ops) (fun c => (events H word dbp s ops).foldl (Ev.at dbp c) (m c)) := by
  induction ops with
  | nil => intro s m h _; exact h
  | cons op ops ih =>
    intro s m h hl
    have := ih (h.step op hl.1) hl.2
    simp only [events, List.foldl_append]
    exact this

/-- A new database. -/
theorem Inv.init (H : Series → Nat) (dbp : Precision) (db : Db) (h0 : db.buckets = []) (hd : db.duration ≤ i64Max) :
    Inv H dbp { db := db } (fun _ => none) := by
  refine ⟨⟨⟨by simp [h0], by simp [h0]⟩, hd, by simp [h0, setIds], by simp [h0, setIds], by simp [h0]⟩, fun _ _ => rfl,
    by simp, by simp, ?_, ?_⟩
  · intro i hi; simp [h0, setIds] at hi
  · intro c; simp [h0, homeIn, bucketByTimestamp]

end Verif.Cluster
