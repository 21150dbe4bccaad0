import Verif.Schema.Alter
/-!
# C97: CREATE TABLE and ALTER TABLE do what they say
-/
namespace Verif.Schema

theorem isTime_iff {c : Col} : c.isTime = true ↔ c.kind = .time := by
  unfold Col.isTime; cases c.kind <;> simp

/-- CREATE TABLE makes the time column and the given columns in their order, or is refused because of a name that is used twice or
a second time column. -/
theorem C97_create (l : List (String × Kind)) :
    ((∃ t, createTable l = some t) ↔ (l.map Prod.fst).Nodup ∧ "time" ∉ l.map Prod.fst ∧ .time ∉ l.map Prod.snd) ∧
    ∀ t, createTable l = some t → t.ver = 0 ∧ t.cols.map (fun c => (c.name, c.kind)) = ("time", .time) :: l := by
  have hm : ∀ (l : List (String × Kind)) (k : Nat),
      ((l.zipIdx k).map fun e => (⟨e.2, e.1.1, e.1.2⟩ : Col)).map (fun c => (c.name, c.kind)) = l := by
    intro l
    induction l with
    | nil => intro k; rfl
    | cons a l ih => intro k; simp only [List.zipIdx_cons, List.map_cons, ih]
  have hn : ∀ (l : List (String × Kind)) (k : Nat),
      ((l.zipIdx k).map fun e => (⟨e.2, e.1.1, e.1.2⟩ : Col)).map Col.name = l.map Prod.fst := by
    intro l k
    have := congrArg (List.map Prod.fst) (hm l k)
    rw [List.map_map] at this
    exact this
  have hk : ∀ (l : List (String × Kind)) (k : Nat),
      ((l.zipIdx k).map fun e => (⟨e.2, e.1.1, e.1.2⟩ : Col)).countP Col.isTime = (l.map Prod.snd).count .time := by
    intro l
    induction l with
    | nil => intro k; rfl
    | cons a l ih =>
      intro k
      simp only [List.zipIdx_cons, List.map_cons, List.countP_cons, List.count_cons, ih]
      congr 1
      have : (Col.isTime ⟨k, a.1, a.2⟩ = true) = ((a.2 == Kind.time) = true) := by
        rw [eq_iff_iff, isTime_iff, beq_iff_eq]
      simp only [this]
  constructor
  · unfold createTable
    simp only [hk, hn, List.map_cons, List.count_cons_self, List.nodup_cons]
    constructor
    · rintro ⟨t, h⟩
      split at h
      · cases h
      · rename_i h1
        split at h
        · rename_i h2
          refine ⟨h2.2, h2.1, fun hx => ?_⟩
          have := List.count_pos_iff.2 hx
          omega
        · cases h
    · rintro ⟨h1, h2, h3⟩
      have h0 := List.count_eq_zero.2 h3
      rw [if_neg (by omega), if_pos ⟨h2, h1⟩]
      exact ⟨_, rfl⟩
  · intro t h
    unfold createTable at h
    simp only [] at h
    split at h
    · cases h
    · split at h
      · cases h
        exact ⟨rfl, hm _ _⟩
      · cases h

example : (createTable [("a", .field .integer), ("host", .tag)]).isSome ∧ (createTable [("a", .field .integer), ("a", .tag)]).isNone ∧
    (createTable [("a", .time)]).isNone := by decide +kernel

/-- ALTER TABLE ADD puts a new column with a new id at the end, unless there is one of that name. -/
theorem C97_add (t : Table) (h : t.WF) (n : String) (k : Kind) :
    ((∃ c ∈ t.cols, c.name = n) → (Change.add n k).run t = t) ∧
    ((∀ c ∈ t.cols, c.name ≠ n) → ((Change.add n k).run t).cols = t.cols ++ [⟨t.nextId, n, k⟩] ∧ (∀ c ∈ t.cols, c.id ≠ t.nextId)) := by
  constructor
  · rintro ⟨c, hc, hn⟩
    simp only [Change.run, planAdd, (column_some h).2 ⟨hc, hn⟩]
  · intro hn
    have hc := (column_none h).2 hn
    refine ⟨?_, fun c hc => Nat.ne_of_lt (h.below c hc)⟩
    simp [Change.run, planAdd, hc, execAdd, Table.addColumn, index_none h hc]

theorem erase_filter {cols : List Col} (hn : (cols.map Col.name).Nodup) {i : Nat} {c : Col} (hi : cols[i]? = some c) :
    cols.eraseIdx i = cols.filter fun x => x.name ≠ c.name := by
  induction cols generalizing i with
  | nil => cases hi
  | cons a l ih =>
    simp only [List.map_cons, List.nodup_cons] at hn
    cases i with
    | zero =>
      simp only [List.getElem?_cons_zero, Option.some.injEq] at hi
      subst hi
      rw [List.eraseIdx_cons_zero, List.filter_cons_of_neg (by simp)]
      symm
      rw [List.filter_eq_self]
      intro x hx
      simp only [ne_eq, decide_not, Bool.not_eq_true', decide_eq_false_iff_not]
      intro he
      exact hn.1 (he ▸ List.mem_map_of_mem hx)
    | succ i =>
      rw [List.getElem?_cons_succ] at hi
      have hne : a.name ≠ c.name := by
        intro he
        exact hn.1 (he ▸ List.mem_map_of_mem (List.mem_of_getElem? hi))
      rw [List.eraseIdx_cons_succ, List.filter_cons_of_pos (by simpa using hne), ih hn.2 hi]

/-- ALTER TABLE DROP takes exactly the named column away; it must be a field and not the last one. -/
theorem C97_drop (t : Table) (h : t.WF) (n : String) :
    ((∃ c ∈ t.cols, c.name = n ∧ c.isField = true) ∧ 2 ≤ t.cols.countP Col.isField →
      ((Change.drop n).run t).cols = t.cols.filter fun c => c.name ≠ n) ∧
    (¬ ((∃ c ∈ t.cols, c.name = n ∧ c.isField = true) ∧ 2 ≤ t.cols.countP Col.isField) → (Change.drop n).run t = t) := by
  constructor
  · rintro ⟨⟨c, hc, hn, hf⟩, h2⟩
    have hcol := (column_some h).2 ⟨hc, hn⟩
    have hk : c.isTag = false ∧ c.isTime = false := by
      obtain ⟨ty, hty⟩ := isField_iff.1 hf
      simp [Col.isTag, Col.isTime, hty]
    have hp : planDrop n t = true := by
      unfold planDrop
      rw [hcol]
      simp only [hk.1, hk.2, Bool.false_eq_true, if_false, hf, Bool.true_and, Bool.not_false]
      rw [if_neg (by simp; omega)]
    simp only [Change.run, hp, if_true, execDrop, Table.dropColumn]
    unfold Table.column at hcol
    cases hi : t.index.get n with
    | none => rw [hi] at hcol; cases hcol
    | some i =>
      rw [hi] at hcol
      simp only []
      rw [erase_filter h.names hcol, hn]
  · intro hno
    have hp : planDrop n t = false := by
      unfold planDrop
      cases hcol : t.column n with
      | none => rfl
      | some c =>
        obtain ⟨hc, hn⟩ := (column_some h).1 hcol
        simp only []
        by_cases hf : c.isField = true
        · have h1 : t.cols.countP Col.isField = 1 := by
            have hpos : 0 < t.cols.countP Col.isField := List.countP_pos_iff.2 ⟨c, hc, hf⟩
            have : ¬ 2 ≤ t.cols.countP Col.isField := fun h2 => hno ⟨⟨c, hc, hn, hf⟩, h2⟩
            omega
          simp [hf, h1]
        · cases hkk : c.kind with
          | time => simp [Col.isTag, Col.isField, Col.isTime, hkk]
          | tag => simp [Col.isTag, hkk]
          | field ty => exact absurd (isField_iff.2 ⟨ty, hkk⟩) hf
    simp [Change.run, hp]

theorem set_map {cols : List Col} (hn : (cols.map Col.name).Nodup) {i : Nat} {c d : Col} (hi : cols[i]? = some c) :
    cols.set i d = cols.map fun x => if x.name = c.name then d else x := by
  induction cols generalizing i with
  | nil => cases hi
  | cons a l ih =>
    simp only [List.map_cons, List.nodup_cons] at hn
    cases i with
    | zero =>
      simp only [List.getElem?_cons_zero, Option.some.injEq] at hi
      subst hi
      rw [List.set_cons_zero, List.map_cons, if_pos rfl]
      congr 1
      have : l.map (fun x => if x.name = a.name then d else x) = l.map id := by
        apply List.map_congr_left
        intro x hx
        rw [if_neg]
        · rfl
        · intro he
          exact hn.1 (he ▸ List.mem_map_of_mem hx)
      rw [this, List.map_id]
    | succ i =>
      rw [List.getElem?_cons_succ] at hi
      have hne : a.name ≠ c.name := by
        intro he
        exact hn.1 (he ▸ List.mem_map_of_mem (List.mem_of_getElem? hi))
      rw [List.set_cons_succ, List.map_cons, if_neg hne, ih hn.2 hi]

/-- ALTER TABLE RENAME gives the named column, not the time, a name that is free, and changes nothing else. -/
theorem C97_rename (t : Table) (h : t.WF) (a b : String) :
    ((∃ c ∈ t.cols, c.name = a ∧ c.kind ≠ .time) ∧ (∀ c ∈ t.cols, c.name ≠ b) →
      ((Change.rename a b).run t).cols = t.cols.map fun c => if c.name = a then { c with name := b } else c) ∧
    (¬ ((∃ c ∈ t.cols, c.name = a ∧ c.kind ≠ .time) ∧ (∀ c ∈ t.cols, c.name ≠ b)) → (Change.rename a b).run t = t) := by
  constructor
  · rintro ⟨⟨c, hc, hn, hk⟩, hb⟩
    have hcol := (column_some h).2 ⟨hc, hn⟩
    have hp : planRename a b t = true := by
      unfold planRename
      rw [hcol, (column_none h).2 hb]
      cases hkk : c.kind with
      | time => exact absurd hkk hk
      | tag => simp [Col.isTime, hkk]
      | field ty => simp [Col.isTime, hkk]
    simp only [Change.run, hp, if_true, execRename, hcol, Option.map_some, Option.getD_some, Table.changeColumn]
    have hcol' := hcol
    unfold Table.column at hcol
    cases hi : t.index.get a with
    | none => rw [hi] at hcol; cases hcol
    | some i =>
      rw [hi] at hcol
      simp only []
      rw [set_map h.names hcol]
      apply List.map_congr_left
      intro x hx
      rw [hn]
      split
      · rename_i he
        obtain ⟨j, hj⟩ := List.getElem?_of_mem hx
        have := eq_of_name h.names hj hcol (he.trans hn.symm)
        subst this
        replace hcol : t.cols[j]? = some c := hcol
        rw [hcol] at hj
        cases hj
        rfl
      · rfl
  · intro hno
    have hp : planRename a b t = false := by
      unfold planRename
      cases hcol : t.column a with
      | none => rfl
      | some c =>
        obtain ⟨hc, hn⟩ := (column_some h).1 hcol
        simp only []
        cases hcb : t.column b with
        | some d => simp
        | none =>
          have hb := (column_none h).1 hcb
          by_cases hk : c.kind = .time
          · simp [isTime_iff.2 hk]
          · exact absurd ⟨⟨c, hc, hn, hk⟩, hb⟩ hno
    simp [Change.run, hp]

example : ∃ t : Table, t.WF ∧ t.cols.length = 4 ∧
    ((Change.rename "a" "c").run t).cols.map Col.name = ["time", "c", "b", "host"] ∧
    ((Change.drop "a").run t).cols.map Col.name = ["time", "b", "host"] ∧
    ((Change.add "x" .tag).run t).cols.map Col.name = ["time", "a", "b", "host", "x"] ∧
    ((Change.drop "host").run t).cols.length = 4 := by
  have hs : (createTable [("a", .field .integer), ("b", .field .float), ("host", .tag)]).isSome := by decide +kernel
  obtain ⟨t, ht⟩ := Option.isSome_iff_exists.1 hs
  refine ⟨t, createTable_wf ht, ?_⟩
  have he : t = Table.new [⟨0, "time", .time⟩, ⟨1, "a", .field .integer⟩, ⟨2, "b", .field .float⟩, ⟨3, "host", .tag⟩] := by
    have : createTable [("a", .field .integer), ("b", .field .float), ("host", .tag)] = some (Table.new
        [⟨0, "time", .time⟩, ⟨1, "a", .field .integer⟩, ⟨2, "b", .field .float⟩, ⟨3, "host", .tag⟩]) := by rfl
    rw [this] at ht
    exact (Option.some.inj ht).symm
  subst he
  decide +kernel

/-! ## One time column -/

/-- After any changes a table has exactly one time column, which is its first one. -/
def C97TimeFull : Prop := ∀ (t : Table), Created t → ∀ l : List Change,
  (l.foldl Change.run t).cols.head? = some ⟨0, "time", .time⟩ ∧ (l.foldl Change.run t).cols.countP Col.isTime = 1

/-- The first column is the time column, and the only one. -/
def OneTime (t : Table) : Prop := ∃ l, t.cols = ⟨0, "time", .time⟩ :: l ∧ ∀ c ∈ l, c.kind ≠ .time

theorem oneTime_add {t : Table} (h : OneTime t) (c : Col) (hc : c.kind ≠ .time) : OneTime (t.addColumn c) := by
  obtain ⟨l, h1, h2⟩ := h
  unfold Table.addColumn
  split
  · exact ⟨l, h1, h2⟩
  · refine ⟨l ++ [c], by simp [h1], fun x hx => ?_⟩
    rcases List.mem_append.1 hx with hx | hx
    · exact h2 x hx
    · rw [List.mem_singleton.1 hx]; exact hc

theorem oneTime_tags : ∀ (l : List String) (t : Table) (b : Bool) (t' : Table) (b' : Bool), OneTime t →
    addTags l (t, b) = some (t', b') → OneTime t'
  | [], t, b, t', b', h, he => by
    simp only [addTags, Option.some.injEq, Prod.mk.injEq] at he
    exact he.1 ▸ h
  | n :: l, t, b, t', b', h, he => by
    unfold addTags at he
    cases hc : t.column n with
    | some c =>
      rw [hc] at he
      by_cases ht : c.isTag = true
      · simp only [ht, if_true] at he
        exact oneTime_tags l t b t' b' h he
      · simp [ht] at he
    | none =>
      rw [hc] at he
      exact oneTime_tags l _ true t' b' (oneTime_add h _ (by simp)) he

theorem oneTime_fields : ∀ (l : List (String × Ty)) (t : Table) (b : Bool) (t' : Table) (b' : Bool), OneTime t →
    addFields l (t, b) = some (t', b') → OneTime t'
  | [], t, b, t', b', h, he => by
    simp only [addFields, Option.some.injEq, Prod.mk.injEq] at he
    exact he.1 ▸ h
  | (n, ty) :: l, t, b, t', b', h, he => by
    unfold addFields at he
    cases hc : t.column n with
    | some c =>
      rw [hc] at he
      by_cases ht : c.kind.matches (.field ty) = true
      · simp only [ht, if_true] at he
        exact oneTime_fields l t b t' b' h he
      · simp [ht] at he
    | none =>
      rw [hc] at he
      exact oneTime_fields l _ true t' b' (oneTime_add h _ (by simp)) he

theorem oneTime_plan {r : Req} {o : Option Table} {t' : Table} {a : Act} (h : ∀ t, o = some t → OneTime t)
    (he : plan r o = some (t', a)) : OneTime t' := by
  cases o with
  | some t =>
    have h := h t rfl
    simp only [plan, Option.bind_eq_some_iff, Option.map_eq_some_iff] at he
    obtain ⟨⟨t1, b1⟩, h1, ⟨t2, b2⟩, h2, he⟩ := he
    have hr := oneTime_fields _ _ _ _ _ (oneTime_tags _ _ _ _ _ h h1) h2
    cases b2 with
    | true =>
      simp only [if_true, Prod.mk.injEq] at he
      obtain ⟨rfl, _⟩ := he
      exact hr
    | false =>
      simp only [Bool.false_eq_true, if_false, Prod.mk.injEq] at he
      obtain ⟨rfl, _⟩ := he
      exact h
  | none =>
    simp only [plan, Option.bind_eq_some_iff, Option.map_eq_some_iff] at he
    obtain ⟨⟨t1, b1⟩, h1, ⟨t2, b2⟩, h2, he⟩ := he
    have hf : OneTime fresh := ⟨[], rfl, by simp⟩
    have hr := oneTime_fields _ _ _ _ _ (oneTime_tags _ _ _ _ _ hf h1) h2
    simp only [Prod.mk.injEq] at he
    obtain ⟨rfl, _⟩ := he
    exact hr

/-- The columns of CREATE TABLE behind the time. -/
theorem oneTime_created {t : Table} (h : Created t) : OneTime t := by
  rcases h with ⟨r, a, h⟩ | ⟨l, h⟩
  · exact oneTime_plan (by simp) h
  · obtain ⟨h1, h2⟩ := C97_create l
    obtain ⟨_, hc⟩ := h2 t h
    have hk := (h1.1 ⟨t, h⟩).2.2
    have he : t.cols = ⟨0, "time", .time⟩ :: (l.zipIdx 1).map fun e => (⟨e.2, e.1.1, e.1.2⟩ : Col) := by
      unfold createTable at h
      simp only [] at h
      split at h
      · cases h
      · split at h
        · cases h; rfl
        · cases h
    refine ⟨_, he, fun c hm hx => hk ?_⟩
    obtain ⟨e, he', rfl⟩ := List.mem_map.1 hm
    have hz : e.1 ∈ l := by
      obtain ⟨e1, e2⟩ := e
      exact (List.mem_zipIdx he').2.2 ▸ List.getElem_mem _
    exact List.mem_map.2 ⟨e.1, hz, hx⟩

theorem oneTime_change {t : Table} (hw : t.WF) (h : OneTime t) (x : Change) (hx : ∀ n, x ≠ .add n .time) : OneTime (x.run t) := by
  cases x with
  | write r =>
    simp only [Change.run]
    cases hp : plan r (some t) with
    | none => exact h
    | some y => obtain ⟨t', a⟩ := y; exact oneTime_plan (by rintro _ ⟨⟩; exact h) hp
  | add n k =>
    simp only [Change.run]
    cases hc : planAdd n k t with
    | none => exact h
    | some c =>
      have hk : c.kind = k := by
        unfold planAdd at hc
        split at hc
        · cases hc
        · cases hc; rfl
      have := oneTime_add h c (by rw [hk]; rintro rfl; exact hx n rfl)
      exact this
  | drop n =>
    obtain ⟨h1, h2⟩ := C97_drop t hw n
    by_cases hc : (∃ c ∈ t.cols, c.name = n ∧ c.isField = true) ∧ 2 ≤ t.cols.countP Col.isField
    · obtain ⟨l, e1, e2⟩ := h
      have := h1 hc
      obtain ⟨⟨c, c1, c2, c3⟩, _⟩ := hc
      have hn : "time" ≠ n := by
        rintro rfl
        have h0 : t.column "time" = some ⟨0, "time", .time⟩ := (column_some hw).2 ⟨by rw [e1]; simp, rfl⟩
        have h0' := (column_some hw).2 ⟨c1, c2⟩
        rw [h0] at h0'
        cases h0'
        simp [Col.isField] at c3
      rw [e1, List.filter_cons_of_pos (by simpa using hn)] at this
      exact ⟨_, this, fun x hx => e2 x ((List.mem_filter.1 hx).1)⟩
    · rw [h2 hc]; exact h
  | rename a b =>
    obtain ⟨h1, h2⟩ := C97_rename t hw a b
    by_cases hc : (∃ c ∈ t.cols, c.name = a ∧ c.kind ≠ .time) ∧ (∀ c ∈ t.cols, c.name ≠ b)
    · obtain ⟨l, e1, e2⟩ := h
      have := h1 hc
      obtain ⟨⟨c, c1, c2, c3⟩, _⟩ := hc
      have hn : "time" ≠ a := by
        rintro rfl
        have h0 : t.column "time" = some ⟨0, "time", .time⟩ := (column_some hw).2 ⟨by rw [e1]; simp, rfl⟩
        have h0' := (column_some hw).2 ⟨c1, c2⟩
        rw [h0] at h0'
        cases h0'
        exact c3 rfl
      rw [e1, List.map_cons, if_neg (by simpa using hn)] at this
      refine ⟨_, this, fun x hx => ?_⟩
      obtain ⟨y, hy, rfl⟩ := List.mem_map.1 hx
      split
      · exact e2 y hy
      · exact e2 y hy
    · rw [h2 hc]; exact h

/-- It holds without ALTER TABLE … ADD FIELD … TIMESTAMP.  Missing from the full statement: that. -/
theorem C97_time_partial (t : Table) (h : Created t) (l : List Change) (hl : ∀ n, Change.add n .time ∉ l) :
    (l.foldl Change.run t).cols.head? = some ⟨0, "time", .time⟩ ∧ (l.foldl Change.run t).cols.countP Col.isTime = 1 := by
  have key : ∀ (l : List Change) (t : Table), t.WF → OneTime t → (∀ n, Change.add n .time ∉ l) → OneTime (l.foldl Change.run t) := by
    intro l
    induction l with
    | nil => intro t _ h _; exact h
    | cons x l ih =>
      intro t hw h hl
      refine ih _ (change_ok hw x).1 (oneTime_change hw h x fun n he => hl n (by simp [he])) fun n hm => hl n (by simp [hm])
  obtain ⟨r, e1, e2⟩ := key l t h.wf (oneTime_created h) hl
  rw [e1]
  refine ⟨rfl, ?_⟩
  rw [List.countP_cons]
  have : r.countP Col.isTime = 0 := by
    rw [List.countP_eq_zero]
    intro c hc ht
    exact e2 c hc (isTime_iff.1 ht)
  rw [this]
  rfl

/-- ALTER TABLE t ADD FIELD b TIMESTAMP is accepted and makes a second time column, which then cannot be dropped or renamed. -/
theorem C97_second_time_refuted : ¬ C97TimeFull ∧ ∃ t, Created t ∧
    ((Change.add "b" .time).run t).cols = [⟨0, "time", .time⟩, ⟨1, "a", .field .integer⟩, ⟨2, "b", .time⟩] ∧
    ((Change.drop "b").run ((Change.add "b" .time).run t)).cols = ((Change.add "b" .time).run t).cols ∧
    ((Change.rename "b" "c").run ((Change.add "b" .time).run t)).cols = ((Change.add "b" .time).run t).cols := by
  have hc : createTable [("a", .field .integer)] = some (Table.new [⟨0, "time", .time⟩, ⟨1, "a", .field .integer⟩]) := by rfl
  refine ⟨fun h => ?_, _, .inr ⟨_, hc⟩, by decide +kernel⟩
  have := (h _ (.inr ⟨_, hc⟩) [.add "b" .time]).2
  revert this
  decide +kernel

end Verif.Schema
