import Verif.Schema.Model
/-!
# Lemmas about table schemas
-/
namespace Verif.Schema

/-! ## Well-formed tables -/

/-- Names and ids are distinct, ids have been given out, the map has exactly the positions of the names. -/
structure Table.WF (t : Table) : Prop where
  names : (t.cols.map Col.name).Nodup
  ids : (t.cols.map Col.id).Nodup
  below : ∀ c ∈ t.cols, c.id < t.nextId
  index : ∀ n i, t.index.get n = some i ↔ ∃ c, t.cols[i]? = some c ∧ c.name = n

theorem column_some {t : Table} (h : t.WF) {n : String} {c : Col} : t.column n = some c ↔ c ∈ t.cols ∧ c.name = n := by
  unfold Table.column
  constructor
  · intro hc
    cases hi : t.index.get n with
    | none => rw [hi] at hc; cases hc
    | some i =>
      rw [hi] at hc
      obtain ⟨c', h1, h2⟩ := (h.index n i).1 hi
      have : c' = c := by simpa [h1] using hc
      subst this
      exact ⟨List.mem_of_getElem? h1, h2⟩
  · rintro ⟨hm, hn⟩
    obtain ⟨i, hi⟩ := List.getElem?_of_mem hm
    rw [(h.index n i).2 ⟨c, hi, hn⟩]
    exact hi

theorem column_none {t : Table} (h : t.WF) {n : String} : t.column n = none ↔ ∀ c ∈ t.cols, c.name ≠ n := by
  constructor
  · intro hc c hm hn
    rw [(column_some h).2 ⟨hm, hn⟩] at hc; cases hc
  · intro hc
    cases hx : t.column n with
    | none => rfl
    | some c => exact absurd ((column_some h).1 hx).2 (hc c ((column_some h).1 hx).1)

theorem index_none {t : Table} (h : t.WF) {n : String} (hc : t.column n = none) : t.index.get n = none := by
  cases hi : t.index.get n with
  | none => rfl
  | some i =>
    obtain ⟨c, h1, h2⟩ := (h.index n i).1 hi
    exact absurd h2 ((column_none h).1 hc c (List.mem_of_getElem? h1))

/-- Adding a column under a new name with the next id. -/
theorem addColumn_wf {t : Table} (h : t.WF) {n : String} (hc : t.column n = none) (k : Kind) :
    (t.addColumn ⟨t.nextId, n, k⟩).WF ∧ (t.addColumn ⟨t.nextId, n, k⟩).cols = t.cols ++ [⟨t.nextId, n, k⟩] ∧
    (t.addColumn ⟨t.nextId, n, k⟩).ver = t.ver := by
  have hi := index_none h hc
  have hn := (column_none h).1 hc
  have he : t.addColumn ⟨t.nextId, n, k⟩ =
      { t with cols := t.cols ++ [⟨t.nextId, n, k⟩], index := t.index.set n t.cols.length, nextId := t.nextId + 1 } := by
    simp [Table.addColumn, hi]
  rw [he]
  refine ⟨⟨?_, ?_, ?_, ?_⟩, rfl, rfl⟩
  · simp only [List.map_append, List.map_cons, List.map_nil]
    rw [List.nodup_append]
    refine ⟨h.names, by simp, ?_⟩
    simp only [List.mem_map, List.mem_singleton, forall_exists_index, and_imp]
    rintro a c hm rfl b rfl
    exact hn c hm
  · simp only [List.map_append, List.map_cons, List.map_nil]
    rw [List.nodup_append]
    refine ⟨h.ids, by simp, ?_⟩
    simp only [List.mem_map, List.mem_singleton, forall_exists_index, and_imp]
    rintro a c hm rfl b rfl
    exact Nat.ne_of_lt (h.below c hm)
  · simp only [List.mem_append, List.mem_singleton]
    rintro c (hm | rfl)
    · exact Nat.lt_succ_of_lt (h.below c hm)
    · exact Nat.lt_succ_self _
  · intro m i
    simp only [AMap.get_set]
    by_cases hm : m = n
    · subst hm
      simp only [if_true, Option.some.injEq]
      constructor
      · rintro rfl
        exact ⟨⟨t.nextId, m, k⟩, by simp, rfl⟩
      · rintro ⟨c, h1, h2⟩
        by_cases hl : i < t.cols.length
        · rw [List.getElem?_append_left hl] at h1
          exact absurd h2 (hn c (List.mem_of_getElem? h1))
        · rw [List.getElem?_append_right (by omega)] at h1
          have := (List.getElem?_eq_some_iff.1 h1).1
          simp only [List.length_singleton] at this
          omega
    · rw [if_neg hm, h.index]
      constructor
      · rintro ⟨c, h1, h2⟩
        exact ⟨c, by rw [List.getElem?_append_left (List.getElem?_eq_some_iff.1 h1).1]; exact h1, h2⟩
      · rintro ⟨c, h1, h2⟩
        by_cases hl : i < t.cols.length
        · rw [List.getElem?_append_left hl] at h1
          exact ⟨c, h1, h2⟩
        · rw [List.getElem?_append_right (by omega)] at h1
          have hx := List.mem_of_getElem? h1
          simp only [List.mem_singleton] at hx
          subst hx
          exact absurd h2.symm hm

/-- What a loop over the columns of a request gives. -/
structure Grown (t : Table) (changed : Bool) (t' : Table) (changed' : Bool) : Prop where
  wf : t'.WF
  cols : t.cols <+: t'.cols
  ver : t'.ver = t.ver
  keep : changed' = false → t' = t ∧ changed = false

theorem Grown.refl {t : Table} (h : t.WF) (b : Bool) : Grown t b t b := ⟨h, List.prefix_refl _, rfl, fun hb => ⟨rfl, hb⟩⟩

theorem Grown.add {t : Table} (h : t.WF) {n : String} (hc : t.column n = none) (k : Kind) {b : Bool} {t' : Table} {b' : Bool}
    (hg : Grown (t.addColumn ⟨t.nextId, n, k⟩) true t' b') : Grown t b t' b' := by
  obtain ⟨_, h2, h3⟩ := addColumn_wf h hc k
  refine ⟨hg.wf, ?_, hg.ver.trans h3, fun hb => ?_⟩
  · have := hg.cols
    rw [h2] at this
    exact (List.prefix_append _ _).trans this
  · exact absurd (hg.keep hb).2 (by simp)

/-- The tags a table has. -/
def HasTags (t : Table) (l : List String) : Prop := ∀ n ∈ l, ∃ c ∈ t.cols, c.name = n ∧ c.kind = .tag

/-- The fields a table has. -/
def HasFields (t : Table) (l : List (String × Ty)) : Prop :=
  ∀ f ∈ l, ∃ c ∈ t.cols, c.name = f.1 ∧ (c.kind = .field f.2 ∨ (c.kind = .field .geometry ∧ f.2 = .string))

theorem isTag_iff {c : Col} : c.isTag = true ↔ c.kind = .tag := by
  unfold Col.isTag; cases c.kind <;> simp

theorem isField_iff {c : Col} : c.isField = true ↔ ∃ ty, c.kind = .field ty := by
  unfold Col.isField; cases c.kind <;> simp

theorem matches_iff {k : Kind} {ty : Ty} :
    k.matches (.field ty) = true ↔ k = .field ty ∨ (k = .field .geometry ∧ ty = .string) := by
  simp [Kind.matches]

theorem addTags_spec : ∀ (l : List String) (t : Table) (b : Bool) (t' : Table) (b' : Bool), t.WF →
    addTags l (t, b) = some (t', b') → Grown t b t' b' ∧ HasTags t' l
  | [], t, b, t', b', h, he => by
    simp only [addTags, Option.some.injEq, Prod.mk.injEq] at he
    obtain ⟨rfl, rfl⟩ := he
    exact ⟨.refl h _, by simp [HasTags]⟩
  | n :: l, t, b, t', b', h, he => by
    unfold addTags at he
    cases hc : t.column n with
    | some c =>
      rw [hc] at he
      obtain ⟨hm, hn⟩ := (column_some h).1 hc
      by_cases ht : c.isTag = true
      · simp only [ht, if_true] at he
        obtain ⟨h1, h2⟩ := addTags_spec l t b t' b' h he
        refine ⟨h1, fun m hm' => ?_⟩
        rcases List.mem_cons.1 hm' with rfl | hm'
        · exact ⟨c, h1.cols.subset hm, hn, isTag_iff.1 ht⟩
        · exact h2 m hm'
      · simp [ht] at he
    | none =>
      rw [hc] at he
      obtain ⟨w1, w2, w3⟩ := addColumn_wf h hc .tag
      obtain ⟨h1, h2⟩ := addTags_spec l _ true t' b' w1 he
      refine ⟨h1.add h hc, fun m hm' => ?_⟩
      rcases List.mem_cons.1 hm' with rfl | hm'
      · exact ⟨⟨t.nextId, m, .tag⟩, h1.cols.subset (by rw [w2]; simp), rfl, rfl⟩
      · exact h2 m hm'

theorem addFields_spec : ∀ (l : List (String × Ty)) (t : Table) (b : Bool) (t' : Table) (b' : Bool), t.WF →
    addFields l (t, b) = some (t', b') → Grown t b t' b' ∧ HasFields t' l
  | [], t, b, t', b', h, he => by
    simp only [addFields, Option.some.injEq, Prod.mk.injEq] at he
    obtain ⟨rfl, rfl⟩ := he
    exact ⟨.refl h _, by simp [HasFields]⟩
  | (n, ty) :: l, t, b, t', b', h, he => by
    unfold addFields at he
    cases hc : t.column n with
    | some c =>
      rw [hc] at he
      obtain ⟨hm, hn⟩ := (column_some h).1 hc
      by_cases ht : c.kind.matches (.field ty) = true
      · simp only [ht, if_true] at he
        obtain ⟨h1, h2⟩ := addFields_spec l t b t' b' h he
        refine ⟨h1, fun m hm' => ?_⟩
        rcases List.mem_cons.1 hm' with rfl | hm'
        · exact ⟨c, h1.cols.subset hm, hn, matches_iff.1 ht⟩
        · exact h2 m hm'
      · simp [ht] at he
    | none =>
      rw [hc] at he
      obtain ⟨w1, w2, w3⟩ := addColumn_wf h hc (.field ty)
      obtain ⟨h1, h2⟩ := addFields_spec l _ true t' b' w1 he
      refine ⟨h1.add h hc, fun m hm' => ?_⟩
      rcases List.mem_cons.1 hm' with rfl | hm'
      · exact ⟨⟨t.nextId, n, .field ty⟩, h1.cols.subset (by rw [w2]; simp), rfl, .inl rfl⟩
      · exact h2 m hm'

/-- The table has every column of a request, with a suitable type. -/
def Covers (t : Table) (r : Req) : Prop := HasTags t r.tags ∧ HasFields t r.fields

theorem Covers.mono {t t' : Table} {r : Req} (h : Covers t r) (hc : t.cols <+: t'.cols) : Covers t' r := by
  refine ⟨fun n hn => ?_, fun f hf => ?_⟩
  · obtain ⟨c, h1, h2⟩ := h.1 n hn; exact ⟨c, hc.subset h1, h2⟩
  · obtain ⟨c, h1, h2⟩ := h.2 f hf; exact ⟨c, hc.subset h1, h2⟩

theorem fresh_wf : fresh.WF := by
  have h0 : (Table.new []).WF := ⟨by simp [Table.new], by simp [Table.new], by simp [Table.new], by
    intro n i; simp [Table.new, indexOf]⟩
  exact (addColumn_wf (n := "time") h0 rfl .time).1

/-- The version does not matter for well-formedness. -/
theorem wf_ver {t : Table} (h : t.WF) (v : Nat) : ({ t with ver := v } : Table).WF := ⟨h.names, h.ids, h.below, h.index⟩

theorem plan_some {r : Req} {t t' : Table} {a : Act} (h : t.WF) (he : plan r (some t) = some (t', a)) :
    t'.WF ∧ Covers t' r ∧ t.cols <+: t'.cols ∧ ((a = .keep ∧ t' = t) ∨ (a = .update ∧ t'.ver = t.ver + 1)) := by
  unfold plan at he
  cases h1 : addTags r.tags (t, false) with
  | none => simp [h1] at he
  | some x =>
    obtain ⟨t1, b1⟩ := x
    simp only [h1, Option.bind_some] at he
    cases h2 : addFields r.fields (t1, b1) with
    | none => simp [h2] at he
    | some y =>
      obtain ⟨t2, b2⟩ := y
      simp only [h2, Option.map_some, Option.some.injEq] at he
      obtain ⟨g1, c1⟩ := addTags_spec _ _ _ _ _ h h1
      obtain ⟨g2, c2⟩ := addFields_spec _ _ _ _ _ g1.wf h2
      have hcov : Covers t2 r := ⟨fun n hn => by obtain ⟨c, h1, h2⟩ := c1 n hn; exact ⟨c, g2.cols.subset h1, h2⟩, c2⟩
      cases b2 with
      | true =>
        simp only [if_true, Prod.mk.injEq] at he
        obtain ⟨rfl, rfl⟩ := he
        exact ⟨wf_ver g2.wf _, hcov, g1.cols.trans g2.cols, .inr ⟨rfl, by simp [g2.ver, g1.ver]⟩⟩
      | false =>
        obtain ⟨rfl, hb⟩ := g2.keep rfl
        obtain ⟨rfl, _⟩ := g1.keep hb
        simp only [Bool.false_eq_true, if_false, Prod.mk.injEq] at he
        obtain ⟨rfl, rfl⟩ := he
        exact ⟨h, hcov, List.prefix_refl _, .inl ⟨rfl, rfl⟩⟩

theorem plan_none {r : Req} {t' : Table} {a : Act} (he : plan r none = some (t', a)) :
    t'.WF ∧ Covers t' r ∧ a = .create ∧ t'.ver = 0 := by
  unfold plan at he
  cases h1 : addTags r.tags (fresh, false) with
  | none => simp [h1] at he
  | some x =>
    obtain ⟨t1, b1⟩ := x
    simp only [h1, Option.bind_some] at he
    cases h2 : addFields r.fields (t1, b1) with
    | none => simp [h2] at he
    | some y =>
      obtain ⟨t2, b2⟩ := y
      simp only [h2, Option.map_some, Option.some.injEq, Prod.mk.injEq] at he
      obtain ⟨g1, c1⟩ := addTags_spec _ _ _ _ _ fresh_wf h1
      obtain ⟨g2, c2⟩ := addFields_spec _ _ _ _ _ g1.wf h2
      obtain ⟨rfl, rfl⟩ := he
      exact ⟨wf_ver g2.wf _, ⟨fun n hn => by obtain ⟨c, h1, h2⟩ := c1 n hn; exact ⟨c, g2.cols.subset h1, h2⟩, c2⟩, rfl, rfl⟩

end Verif.Schema
