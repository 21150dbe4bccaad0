import Verif.Replica.Hist
/-!
# The index: series keys and ids
-/
namespace Verif.Replica

/-- Keys and ids are in one-to-one correspondence, and ids are at most the last id given. -/
structure Index.Ok (x : Index) : Prop where
  bij : ∀ k sid, x.fwd.get k = some sid ↔ x.key.get sid = some k
  le : ∀ sid k, x.key.get sid = some k → sid ≤ x.incr

/-- All series that have had a value are in the index. -/
def Known (x : Index) (evs : List Ev) : Prop := ∀ c, Ev.put c ∈ evs → (x.key.get c.sid).isSome

/-- `y` has the series of `x` and possibly more. -/
def Index.Ext (x y : Index) : Prop := ∀ sid k, x.key.get sid = some k → y.key.get sid = some k

/-- The values of the log `σ` are those of the events, with ids for keys. -/
def Agree (x : Index) (σ : Spec) (evs : List Ev) : Prop :=
  ∀ k ts, σ.val k ts = (x.fwd.get k).bind fun sid => (lastEv sid ts evs).join

/-- The index has the series of `σ`. -/
def HasAll (x : Index) (σ : Spec) : Prop := ∀ k, σ.has k = true → (x.fwd.get k).isSome

/-- The index has no other series. -/
def HasOnly (x : Index) (σ : Spec) : Prop := ∀ k, (x.fwd.get k).isSome → σ.has k = true

theorem Index.Ext.refl (x : Index) : x.Ext x := fun _ _ h => h

theorem Index.Ext.trans {x y z : Index} (h : x.Ext y) (h' : y.Ext z) : x.Ext z := fun s k hk => h' s k (h s k hk)

theorem Known.ext {x y : Index} (h : x.Ext y) {evs : List Ev} (hk : Known x evs) : Known y evs := by
  intro c hc
  have := hk c hc
  obtain ⟨k, hk⟩ := Option.isSome_iff_exists.1 this
  rw [h _ _ hk]; rfl

theorem Index.Ok.empty : Index.empty.Ok := ⟨fun k s => by simp [Index.empty], fun s k h => by simp [Index.empty] at h⟩

theorem lastEv_of_not_known {x : Index} {evs : List Ev} (h : Known x evs) {sid : Nat} (hs : x.key.get sid = none) (ts : Int) :
    (lastEv sid ts evs).join = none := by
  cases hl : lastEv sid ts evs with
  | none => rfl
  | some r =>
    cases r with
    | none => rfl
    | some v =>
      have := h _ (mem_of_lastEv hl)
      simp only at this
      rw [hs] at this; cases this

/-! ## Adding a series -/

theorem Index.add_fwd (x : Index) (k k' : Nat) : (x.add k).1.fwd.get k' = if k' = k then some (x.add k).2 else x.fwd.get k' := by
  unfold Index.add
  cases hk : x.fwd.get k with
  | some sid =>
    simp only
    split
    · rename_i h; subst h; exact hk
    · rfl
  | none =>
    simp only [Index.put]
    rw [AMap.get_set]

theorem Index.add_ok {x : Index} (h : x.Ok) (k : Nat) : (x.add k).1.Ok ∧ x.Ext (x.add k).1 := by
  unfold Index.add
  cases hk : x.fwd.get k with
  | some sid => exact ⟨h, Index.Ext.refl x⟩
  | none =>
    have hnew : x.key.get (x.incr + 1) = none := by
      cases hg : x.key.get (x.incr + 1) with
      | none => rfl
      | some k' => have := h.le _ _ hg; omega
    refine ⟨⟨fun k' sid => ?_, fun sid k' hs => ?_⟩, fun sid k' hs => ?_⟩
    · simp only [Index.put]
      rw [AMap.get_set, AMap.get_set]
      by_cases h1 : k' = k
      · subst h1
        rw [if_pos rfl]
        by_cases h2 : sid = x.incr + 1
        · subst h2; simp
        · rw [if_neg h2, ← h.bij, hk]
          simp; omega
      · rw [if_neg h1]
        by_cases h2 : sid = x.incr + 1
        · subst h2
          rw [if_pos rfl, h.bij, hnew]
          simp; omega
        · rw [if_neg h2, h.bij]
    · simp only [Index.put] at hs ⊢
      rw [AMap.get_set] at hs
      split at hs
      · rename_i h2; omega
      · have := h.le _ _ hs; omega
    · simp only [Index.put]
      rw [AMap.get_set]
      split
      · rename_i h2; subst h2; rw [hnew] at hs; cases hs
      · exact hs

theorem Index.add_agree {x : Index} (h : x.Ok) {evs : List Ev} (hk : Known x evs) {σ : Spec} (ha : Agree x σ evs) (k : Nat) :
    Agree (x.add k).1 σ evs := by
  intro k' ts
  rw [Index.add_fwd]
  split
  · rename_i he
    subst he
    rw [ha]
    unfold Index.add
    cases hf : x.fwd.get k' with
    | some sid => rfl
    | none =>
      simp only [Option.bind_none, Option.bind_some]
      have hnew : x.key.get (x.incr + 1) = none := by
        cases hg : x.key.get (x.incr + 1) with
        | none => rfl
        | some k' => have := h.le _ _ hg; omega
      rw [lastEv_of_not_known hk hnew]
  · exact ha k' ts

/-- The index after the series of all rows have been looked up, and the cells. -/
def Index.addAll : Index → List (Nat × Int × Nat) → Index × List (Nat × Cell)
  | x, [] => (x, [])
  | x, (k, ts, v) :: rows =>
    let r := x.add k
    let q := Index.addAll r.1 rows
    (q.1, (k, ⟨r.2, ts, v⟩) :: q.2)

theorem Index.Ok.fwd_ext {x y : Index} (hx : x.Ok) (hy : y.Ok) (h : x.Ext y) {k sid : Nat} (hk : x.fwd.get k = some sid) :
    y.fwd.get k = some sid := (hy.bij _ _).2 (h _ _ ((hx.bij _ _).1 hk))

theorem Index.addAll_ok : ∀ (rows : List (Nat × Int × Nat)) {x : Index}, x.Ok → (x.addAll rows).1.Ok ∧ x.Ext (x.addAll rows).1
  | [], x, h => ⟨h, Index.Ext.refl x⟩
  | (k, ts, v) :: rows, x, h => by
    have h1 := Index.add_ok h k
    have h2 := Index.addAll_ok rows h1.1
    exact ⟨h2.1, h1.2.trans h2.2⟩

theorem Index.addAll_agree : ∀ (rows : List (Nat × Int × Nat)) {x : Index}, x.Ok → ∀ {evs : List Ev}, Known x evs → ∀ {σ : Spec},
    Agree x σ evs → Agree (x.addAll rows).1 σ evs
  | [], _, _, _, _, _, ha => ha
  | (k, ts, v) :: rows, x, h, evs, hk, σ, ha => by
    have h1 := Index.add_ok h k
    exact Index.addAll_agree rows h1.1 (hk.ext h1.2) (Index.add_agree h hk ha k)

theorem Index.addAll_cells : ∀ (rows : List (Nat × Int × Nat)) {x : Index}, x.Ok → ∀ (y : Index), y.Ok → (x.addAll rows).1.Ext y →
    ∀ e ∈ (x.addAll rows).2, y.fwd.get e.1 = some e.2.sid
  | [], _, _, _, _, _, e, he => by cases he
  | (k, ts, v) :: rows, x, h, y, hy, hxy, e, he => by
    have h1 := Index.add_ok h k
    rcases List.mem_cons.1 he with he | he
    · subst he
      refine Index.Ok.fwd_ext h1.1 hy ((Index.addAll_ok rows h1.1).2.trans hxy) ?_
      rw [Index.add_fwd, if_pos rfl]
    · exact Index.addAll_cells rows h1.1 y hy hxy e he

theorem Index.addAll_rows : ∀ (rows : List (Nat × Int × Nat)) (x : Index),
    (x.addAll rows).2.map (fun e => (e.1, e.2.ts, e.2.val)) = rows
  | [], _ => rfl
  | (k, ts, v) :: rows, x => by
    simp only [Index.addAll, List.map_cons, Index.addAll_rows rows]

theorem Index.addAll_has : ∀ (rows : List (Nat × Int × Nat)) (x : Index) (k : Nat),
    ((x.addAll rows).1.fwd.get k).isSome = ((x.fwd.get k).isSome || decide (k ∈ rows.map Prod.fst))
  | [], x, k => by simp [Index.addAll]
  | (k', ts, v) :: rows, x, k => by
    simp only [Index.addAll]
    rw [Index.addAll_has rows, Index.add_fwd]
    by_cases h : k = k'
    · subst h; simp
    · rw [if_neg h]
      simp only [List.map_cons, List.mem_cons, h, false_or]

/-! ## Rows -/

theorem Agree.put {x : Index} (h : x.Ok) {σ : Spec} {evs : List Ev} (ha : Agree x σ evs) {k : Nat} {c : Cell}
    (hk : x.fwd.get k = some c.sid) : Agree x (σ.put (k, c.ts, c.val)) (evs ++ [.put c]) := by
  intro k' ts
  simp only [Spec.put]
  by_cases h1 : k' = k
  · subst h1
    rw [hk]
    simp only [Option.bind_some, lastEv_put, true_and]
    by_cases h2 : ts = c.ts
    · subst h2; simp
    · have h2' : ¬ c.ts = ts := fun e => h2 e.symm
      simp only [h2, h2', if_false]
      rw [ha, hk]; rfl
  · have hn : ¬ (k' = k ∧ ts = c.ts) := fun e => h1 e.1
    rw [if_neg hn, ha]
    cases hf : x.fwd.get k' with
    | none => rfl
    | some sid =>
      simp only [Option.bind_some, lastEv_put]
      have : c.sid ≠ sid := by
        intro e
        rw [← e] at hf
        have e1 := (h.bij _ _).1 hf
        have e2 := (h.bij _ _).1 hk
        rw [e2] at e1
        exact h1 (Option.some.inj e1).symm
      simp [this]

theorem Agree.puts {x : Index} (h : x.Ok) : ∀ (cells : List (Nat × Cell)) {σ : Spec} {evs : List Ev}, Agree x σ evs →
    (∀ e ∈ cells, x.fwd.get e.1 = some e.2.sid) →
    Agree x ((cells.map fun e => (e.1, e.2.ts, e.2.val)).foldl Spec.put σ) (evs ++ cells.map fun e => Ev.put e.2)
  | [], σ, evs, ha, _ => by simpa using ha
  | e :: cells, σ, evs, ha, hc => by
    have h1 := Agree.put h ha (hc e List.mem_cons_self)
    have h2 := Agree.puts h cells h1 fun e' he' => hc e' (List.mem_cons_of_mem _ he')
    simpa [List.append_assoc] using h2

/-! ## Deletes -/

theorem Index.mem_select {x : Index} {p : Nat → Bool} {sid : Nat} : sid ∈ x.select p ↔ ∃ k, x.key.get sid = some k ∧ p k = true := by
  simp only [Index.select, List.mem_map, List.mem_filter]
  constructor
  · rintro ⟨⟨s, k⟩, ⟨h1, h2⟩, rfl⟩
    exact ⟨k, AMap.mem_entries.1 h1, h2⟩
  · rintro ⟨k, h1, h2⟩
    exact ⟨(sid, k), ⟨AMap.mem_entries.2 h1, h2⟩, rfl⟩

theorem covers_iff {d : List Nat × Int × Int} {sid : Nat} {ts : Int} : covers d sid ts = true ↔ sid ∈ d.1 ∧ d.2.1 ≤ ts ∧ ts ≤ d.2.2 := by
  simp [covers, and_assoc]

theorem Agree.del {x : Index} (h : x.Ok) {σ : Spec} {evs : List Ev} (ha : Agree x σ evs) (q : Nat) (p : Nat → Bool) (lo hi : Int) :
    Agree x (σ.step (.delete p lo hi)) (evs ++ [.del q p (x.select p, lo, hi)]) := by
  intro k ts
  simp only [Spec.step]
  rw [ha]
  cases hf : x.fwd.get k with
  | none => simp
  | some sid =>
    simp only [Option.bind_some, lastEv_snoc_del]
    have hk := (h.bij _ _).1 hf
    have : (p k = true ∧ lo ≤ ts ∧ ts ≤ hi) ↔ covers (x.select p, lo, hi) sid ts = true := by
      rw [covers_iff, Index.mem_select]
      constructor
      · rintro ⟨h1, h2⟩; exact ⟨⟨k, hk, h1⟩, h2⟩
      · rintro ⟨⟨k', h1, h2⟩, h3⟩
        rw [hk] at h1; cases h1
        exact ⟨h2, h3⟩
    by_cases hc : covers (x.select p, lo, hi) sid ts = true
    · rw [if_pos hc, if_pos (this.2 hc)]; rfl
    · rw [if_neg hc, if_neg fun e => hc (this.1 e)]

/-! ## Changes of tags -/

/-- One change in the index. -/
def Index.renameOne (x : Index) (sid new : Nat) : Index := (x.drop sid (x.key.get sid)).put sid new

theorem Index.renameOne_fwd {x : Index} {sid new k : Nat} (hk : x.key.get sid = some k) (k' : Nat) :
    (x.renameOne sid new).fwd.get k' = if k' = new then some sid else if k' = k then none else x.fwd.get k' := by
  simp only [Index.renameOne, Index.put, Index.drop, hk]
  rw [AMap.get_set, AMap.get_del]

theorem Index.renameOne_key (x : Index) (sid new s : Nat) :
    (x.renameOne sid new).key.get s = if s = sid then some new else x.key.get s := by
  simp only [Index.renameOne, Index.put, Index.drop]
  rw [AMap.get_set, AMap.get_del]
  split
  · rfl
  · rfl

theorem Index.renameOne_ok {x : Index} (h : x.Ok) {sid new k : Nat} (hk : x.key.get sid = some k) (hn : x.fwd.get new = none) :
    (x.renameOne sid new).Ok := by
  refine ⟨fun k' s => ?_, fun s k' hs => ?_⟩
  · rw [Index.renameOne_fwd hk, Index.renameOne_key]
    by_cases h1 : k' = new
    · subst h1
      rw [if_pos rfl]
      by_cases h2 : s = sid
      · subst h2; simp
      · rw [if_neg h2, ← h.bij, hn]
        simp; exact fun e => h2 e.symm
    · rw [if_neg h1]
      by_cases h2 : s = sid
      · subst h2
        rw [if_pos rfl]
        have : ¬ (some new = some k') := by simp; exact fun e => h1 e.symm
        simp only [this, iff_false]
        split
        · simp
        · rename_i h3
          rw [h.bij, hk]; simp; exact fun e => h3 e.symm
      · rw [if_neg h2]
        by_cases h3 : k' = k
        · subst h3
          rw [if_pos rfl, ← h.bij, (h.bij _ _).2 hk]
          simp; exact fun e => h2 e.symm
        · rw [if_neg h3, h.bij]
  · rw [Index.renameOne_key] at hs
    have : (x.renameOne sid new).incr = x.incr := rfl
    rw [this]
    split at hs
    · rename_i e; subst e; exact h.le _ _ hk
    · exact h.le _ _ hs

/-- Many changes, one after the other. -/
def Index.renameAll (f : Nat → Nat) (x : Index) (found : List (Nat × Nat)) : Index :=
  found.foldl (fun x m => x.renameOne m.2 (f m.1)) x

theorem Index.renameAll_spec (f : Nat → Nat) : ∀ (found : List (Nat × Nat)) {x : Index}, x.Ok →
    (∀ m ∈ found, x.fwd.get m.1 = some m.2) → (∀ m ∈ found, x.fwd.get (f m.1) = none) → (found.map fun m => f m.1).Nodup →
    (x.renameAll f found).Ok ∧ (∀ k, (x.renameAll f found).fwd.get k =
      match found.find? fun m => decide (f m.1 = k) with
      | some m => some m.2
      | none => if k ∈ found.map Prod.fst then none else x.fwd.get k) ∧
    (∀ s, (x.key.get s).isSome → ((x.renameAll f found).key.get s).isSome)
  | [], x, h, _, _, _ => ⟨h, fun k => by simp [Index.renameAll], fun _ h => h⟩
  | (k, sid) :: found, x, h, hf, hn, hd => by
    have hk := (h.bij _ _).1 (hf _ List.mem_cons_self)
    have hnew := hn _ List.mem_cons_self
    simp only at hk hnew
    have hok := Index.renameOne_ok h hk hnew
    simp only [List.map_cons, List.nodup_cons] at hd
    -- keys of the others differ from `k` and `f k`
    have hne : ∀ m ∈ found, m.1 ≠ k := by
      intro m hm e
      exact hd.1 (List.mem_map.2 ⟨m, hm, by rw [e]⟩)
    have hne' : ∀ m ∈ found, m.1 ≠ f k := by
      intro m hm e
      have := hf m (List.mem_cons_of_mem _ hm)
      rw [e, hnew] at this; cases this
    obtain ⟨i1, i2, i3⟩ := Index.renameAll_spec f found hok
      (fun m hm => by
        rw [Index.renameOne_fwd hk, if_neg (hne' m hm), if_neg (hne m hm)]
        exact hf m (List.mem_cons_of_mem _ hm))
      (fun m hm => by
        rw [Index.renameOne_fwd hk]
        have h1 : f m.1 ≠ f k := fun e => hd.1 (List.mem_map.2 ⟨m, hm, e⟩)
        rw [if_neg h1]
        split
        · rfl
        · exact hn m (List.mem_cons_of_mem _ hm))
      hd.2
    refine ⟨i1, fun k' => ?_, fun s hs => i3 s ?_⟩
    · show ((x.renameOne sid (f k)).renameAll f found).fwd.get k' = _
      rw [i2, List.find?_cons]
      by_cases h1 : f k = k'
      · rw [decide_eq_true h1]
        have : found.find? (fun m => decide (f m.1 = k')) = none := by
          rw [List.find?_eq_none]
          intro m hm e
          exact hd.1 (List.mem_map.2 ⟨m, hm, by rw [of_decide_eq_true e, h1]⟩)
        rw [this]
        simp only
        have h2 : ¬ k' ∈ found.map Prod.fst := by
          intro hm
          obtain ⟨m, hm, e⟩ := List.mem_map.1 hm
          exact hne' m hm (by rw [e, h1])
        rw [if_neg h2, Index.renameOne_fwd hk, if_pos h1.symm]
      · rw [decide_eq_false h1]
        simp only
        cases hfd : found.find? (fun m => decide (f m.1 = k')) with
        | some m => rfl
        | none =>
          simp only [List.map_cons, List.mem_cons]
          have h0 : ¬ k' = f k := fun e => h1 e.symm
          rw [Index.renameOne_fwd hk, if_neg h0]
          by_cases h2 : k' = k
          · subst h2; simp
          · by_cases h3 : k' ∈ found.map Prod.fst
            · rw [if_pos h3, if_pos (.inr h3)]
            · rw [if_neg h3, if_neg h2, if_neg]
              rintro (e | e)
              · exact h2 e
              · exact h3 e
    · rw [Index.renameOne_key]
      split
      · rfl
      · exact hs

theorem Index.matched_fst {x : Index} {σ : Spec} (h1 : HasAll x σ) (h2 : HasOnly x σ) : ∀ (ms : List Nat),
    (x.matched ms).map Prod.fst = ms.filter σ.has
  | [] => rfl
  | k :: ms => by
    have ih := Index.matched_fst h1 h2 ms
    simp only [Index.matched] at ih ⊢
    rw [List.filterMap_cons, List.filter_cons]
    cases hk : x.fwd.get k with
    | none =>
      have : σ.has k = false := by
        cases hh : σ.has k with
        | false => rfl
        | true => have := h1 k hh; rw [hk] at this; cases this
      simp [this, ih]
    | some sid =>
      have : σ.has k = true := h2 k (by rw [hk]; rfl)
      simp [this, ih]

theorem Index.matched_get {x : Index} {ms : List Nat} {m : Nat × Nat} (h : m ∈ x.matched ms) : x.fwd.get m.1 = some m.2 := by
  simp only [Index.matched, List.mem_filterMap] at h
  obtain ⟨k, _, hk⟩ := h
  cases hf : x.fwd.get k with
  | none => rw [hf] at hk; cases hk
  | some sid => rw [hf] at hk; cases hk; exact hf

theorem Index.renameOk_eq {x : Index} {σ : Spec} (h1 : HasAll x σ) (h2 : HasOnly x σ) (f : Nat → Nat) (ms : List Nat) :
    x.renameOk false f (x.matched ms) =
      (((ms.filter σ.has).all fun k => !σ.has (f k)) && decide (((ms.filter σ.has).map f).Nodup)) := by
  have hn : ∀ k, (x.fwd.get k).isNone = !σ.has k := by
    intro k
    cases hk : x.fwd.get k with
    | none =>
      cases hh : σ.has k with
      | false => rfl
      | true => have := h1 k hh; rw [hk] at this; cases this
    | some s => rw [h2 k (by rw [hk]; rfl)]; rfl
  rw [← Index.matched_fst h1 h2]
  simp only [Index.renameOk, Bool.false_or, List.all_map, List.map_map, Function.comp_def, hn]

/-- A change of tags is what the log says. -/
theorem Agree.rename {x : Index} (h : x.Ok) {σ : Spec} {evs : List Ev} (ha : Agree x σ evs) (h1 : HasAll x σ) (h2 : HasOnly x σ)
    (f : Nat → Nat) (ms : List Nat) (hok : x.renameOk false f (x.matched ms) = true) :
    (x.renameAll f (x.matched ms)).Ok ∧ Agree (x.renameAll f (x.matched ms)) (σ.step (.rename f ms)) evs ∧
      HasAll (x.renameAll f (x.matched ms)) (σ.step (.rename f ms)) ∧ HasOnly (x.renameAll f (x.matched ms)) (σ.step (.rename f ms)) ∧
      (∀ s, (x.key.get s).isSome → ((x.renameAll f (x.matched ms)).key.get s).isSome) := by
  have hok' := hok
  rw [Index.renameOk_eq h1 h2] at hok'
  simp only [Index.renameOk, Bool.false_or, Bool.and_eq_true, List.all_eq_true, decide_eq_true_eq, Option.isNone_iff_eq_none] at hok
  obtain ⟨s1, s2, s3⟩ := Index.renameAll_spec f (x.matched ms) h (fun m hm => Index.matched_get hm) hok.1 hok.2
  have hfst := Index.matched_fst h1 h2 ms
  have hhas : ∀ k, (x.fwd.get k).isSome = σ.has k := by
    intro k
    cases hk : x.fwd.get k with
    | none =>
      cases hh : σ.has k with
      | false => rfl
      | true => have := h1 k hh; rw [hk] at this; cases this
    | some s => rw [h2 k (by rw [hk]; rfl)]; rfl
  have hfind : ∀ k, (ms.filter σ.has).find? (fun o => decide (f o = k)) =
      ((x.matched ms).find? fun m => decide (f m.1 = k)).map Prod.fst := by
    intro k
    rw [← hfst, List.find?_map]
    rfl
  refine ⟨s1, fun k ts => ?_, ?_⟩
  · simp only [Spec.step, hok', if_true, hfind, s2]
    cases hf : (x.matched ms).find? fun m => decide (f m.1 = k) with
    | some m =>
      simp only [Option.map_some, Option.bind_some]
      rw [ha, Index.matched_get (List.mem_of_find?_eq_some hf)]
      rfl
    | none =>
      simp only [Option.map_none]
      rw [hfst]
      split
      · rfl
      · exact ha k ts
  · have key : ∀ k, ((x.renameAll f (x.matched ms)).fwd.get k).isSome = (σ.step (.rename f ms)).has k := by
      intro k
      simp only [Spec.step, hok', if_true, s2]
      cases hf : (x.matched ms).find? fun m => decide (f m.1 = k) with
      | some m =>
        have hm := List.mem_of_find?_eq_some hf
        have he := List.find?_some hf
        simp only [decide_eq_true_eq] at he
        have : k ∈ (ms.filter σ.has).map f := by
          rw [← hfst]
          exact List.mem_map.2 ⟨m.1, List.mem_map.2 ⟨m, hm, rfl⟩, he⟩
        simp [this]
      | none =>
        have : ¬ k ∈ (ms.filter σ.has).map f := by
          rw [← hfst]
          intro hm
          obtain ⟨o, ho, e⟩ := List.mem_map.1 hm
          obtain ⟨m, hm, e'⟩ := List.mem_map.1 ho
          have := (List.find?_eq_none.1 hf) m hm
          simp only [decide_eq_true_eq] at this
          exact this (by rw [e']; exact e)
        simp only [hfst, this, decide_false, Bool.false_or]
        by_cases hk : k ∈ ms.filter σ.has
        · rw [if_pos hk]; simp [hk]
        · rw [if_neg hk, hhas]; simp [hk]
    exact ⟨fun k hk => by rw [key]; exact hk, fun k hk => by rw [← key]; exact hk, s3⟩

end Verif.Replica
