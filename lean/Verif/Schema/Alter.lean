import Verif.Schema.Props
/-!
# Properties of table schemas under ALTER TABLE
-/
namespace Verif.Schema

/-! ## C93: the map from names to positions -/

/-- The methods that change a table. -/
inductive TOp where
  | add (c : Col)
  | drop (n : String)
  | change (n : String) (c : Col)

def Table.op (t : Table) : TOp → Table
  | .add c => t.addColumn c
  | .drop n => t.dropColumn n
  | .change n c => t.changeColumn n c

theorem foldl_index : ∀ (es : List (Col × Nat)) (m : AMap String Nat) (n : String) (i : Nat),
    (es.foldl (fun m e => m.set e.1.name e.2) m).get n = some i → (∃ e ∈ es, e.1.name = n ∧ e.2 = i) ∨ m.get n = some i
  | [], _, _, _, h => .inr h
  | e :: es, m, n, i, h => by
    rcases foldl_index es _ n i h with ⟨x, h1, h2⟩ | h1
    · exact .inl ⟨x, List.mem_cons_of_mem _ h1, h2⟩
    · rw [AMap.get_set] at h1
      by_cases hn : n = e.1.name
      · rw [if_pos hn] at h1
        exact .inl ⟨e, List.mem_cons_self, hn.symm, Option.some.inj h1⟩
      · rw [if_neg hn] at h1; exact .inr h1

theorem indexOf_some {cols : List Col} {n : String} {i : Nat} (h : (indexOf cols).get n = some i) :
    ∃ c, cols[i]? = some c ∧ c.name = n := by
  rcases foldl_index _ _ _ _ h with ⟨⟨c, j⟩, h1, h2, rfl⟩ | h1
  · exact ⟨c, List.mk_mem_zipIdx_iff_getElem?.1 h1, h2⟩
  · simp at h1

theorem indexOf_mem {cols : List Col} (hn : (cols.map Col.name).Nodup) {c : Col} {i : Nat} (h : cols[i]? = some c) :
    (indexOf cols).get c.name = some i := by
  have := AMap.get_foldl_set_of_mem (fun e : Col × Nat => e.1.name) (fun e => e.2) cols.zipIdx AMap.empty (c, i)
    (List.mk_mem_zipIdx_iff_getElem?.2 h) (by
      have : cols.zipIdx.map (fun e => e.1.name) = cols.map Col.name := by
        have h1 := List.map_map (g := Col.name) (f := Prod.fst) (l := cols.zipIdx)
        rw [List.zipIdx_map_fst] at h1
        exact h1.symm
      rw [this]; exact hn)
  exact this

/-- Whatever is done to a table, the positions in the map are positions of columns.  (`column` and `drop_column` rely on
it: the first reads without a check, the second panics otherwise.) -/
theorem C93_index (cols : List Col) (ops : List TOp) (n : String) (i : Nat)
    (h : (ops.foldl Table.op (Table.new cols)).index.get n = some i) : i < (ops.foldl Table.op (Table.new cols)).cols.length := by
  have key : ∀ (ops : List TOp) (t : Table), (∀ n i, t.index.get n = some i → i < t.cols.length) →
      ∀ n i, (ops.foldl Table.op t).index.get n = some i → i < (ops.foldl Table.op t).cols.length := by
    intro ops
    induction ops with
    | nil => exact fun _ h => h
    | cons o ops ih =>
      intro t ht
      refine ih _ ?_
      intro n i hi
      cases o with
      | add c =>
        simp only [Table.op, Table.addColumn] at hi ⊢
        cases hc : t.index.get c.name with
        | some j => rw [hc] at hi; exact ht n i hi
        | none =>
          rw [hc] at hi
          simp only [AMap.get_set] at hi
          simp only [List.length_append, List.length_singleton]
          split at hi
          · simp at hi; omega
          · exact Nat.lt_succ_of_lt (ht n i hi)
      | drop m =>
        obtain ⟨c, hc, _⟩ := indexOf_some (show (indexOf (t.dropColumn m).cols).get n = some i from hi)
        exact (List.getElem?_eq_some_iff.1 hc).1
      | change m c =>
        simp only [Table.op, Table.changeColumn] at hi ⊢
        cases hc : t.index.get m with
        | none => rw [hc] at hi; exact ht n i hi
        | some j =>
          rw [hc] at hi
          simp only [AMap.get_set] at hi
          simp only [List.length_set]
          split at hi
          · simp at hi; subst hi; exact ht m j hc
          · rw [AMap.get_del] at hi
            split at hi
            · cases hi
            · exact ht n i hi
  refine key ops _ ?_ n i h
  intro n i hi
  obtain ⟨c, hc, _⟩ := indexOf_some (show (indexOf cols).get n = some i from hi)
  exact (List.getElem?_eq_some_iff.1 hc).1

example : ([TOp.add ⟨1, "a", .tag⟩, .change "a" ⟨1, "b", .tag⟩, .drop "time"].foldl Table.op
    (Table.new [⟨0, "time", .time⟩])).index.get "b" = some 0 := by decide +kernel

/-- Names are distinct and the map has exactly their positions. -/
structure Named (t : Table) : Prop where
  names : (t.cols.map Col.name).Nodup
  index : ∀ n i, t.index.get n = some i ↔ ∃ c, t.cols[i]? = some c ∧ c.name = n

/-- A change keeps the name or uses a free one. -/
def Fits (t : Table) : TOp → Prop
  | .change n c => c.name = n ∨ ∀ x ∈ t.cols, x.name ≠ c.name
  | _ => True

/-- Every change in a sequence fits where it is made. -/
def AllFit : Table → List TOp → Prop
  | _, [] => True
  | t, o :: l => Fits t o ∧ AllFit (t.op o) l

theorem named_new {cols : List Col} (h : (cols.map Col.name).Nodup) : Named (Table.new cols) :=
  ⟨h, fun _ _ => ⟨indexOf_some, fun ⟨_, h1, h2⟩ => h2 ▸ indexOf_mem h h1⟩⟩

theorem eq_of_name {cols : List Col} (h : (cols.map Col.name).Nodup) {i j : Nat} {a b : Col} (ha : cols[i]? = some a)
    (hb : cols[j]? = some b) (hn : a.name = b.name) : i = j := by
  have h1 : (cols.map Col.name)[i]? = some a.name := by simp [ha]
  have h2 : (cols.map Col.name)[j]? = some a.name := by simp [hb, hn]
  have hl := (List.getElem?_eq_some_iff.1 h1).1
  exact (List.getElem?_inj hl h).1 (h1.trans h2.symm)

theorem named_op {t : Table} (h : Named t) (o : TOp) (hf : Fits t o) : Named (t.op o) := by
  cases o with
  | add c =>
    simp only [Table.op, Table.addColumn]
    cases hc : t.index.get c.name with
    | some i => exact ⟨h.names, h.index⟩
    | none =>
      have hn : ∀ x ∈ t.cols, x.name ≠ c.name := by
        intro x hx hxn
        obtain ⟨i, hi⟩ := List.getElem?_of_mem hx
        rw [(h.index c.name i).2 ⟨x, hi, hxn⟩] at hc; cases hc
      refine ⟨?_, ?_⟩
      · simp only [List.map_append, List.map_cons, List.map_nil]
        rw [List.nodup_append]
        refine ⟨h.names, by simp, ?_⟩
        simp only [List.mem_map, List.mem_singleton, forall_exists_index, and_imp]
        rintro a x hm rfl b rfl
        exact hn x hm
      · intro m i
        simp only [AMap.get_set]
        by_cases hm : m = c.name
        · rw [if_pos hm]
          simp only [Option.some.injEq]
          constructor
          · rintro rfl; exact ⟨c, by simp, hm.symm⟩
          · rintro ⟨x, h1, h2⟩
            by_cases hl : i < t.cols.length
            · rw [List.getElem?_append_left hl] at h1
              exact absurd (h2.trans hm) (hn x (List.mem_of_getElem? h1))
            · have := (List.getElem?_eq_some_iff.1 h1).1
              simp only [List.length_append, List.length_singleton] at this
              omega
        · rw [if_neg hm, h.index]
          constructor
          · rintro ⟨x, h1, h2⟩
            exact ⟨x, by rw [List.getElem?_append_left (List.getElem?_eq_some_iff.1 h1).1]; exact h1, h2⟩
          · rintro ⟨x, h1, h2⟩
            by_cases hl : i < t.cols.length
            · rw [List.getElem?_append_left hl] at h1; exact ⟨x, h1, h2⟩
            · rw [List.getElem?_append_right (by omega)] at h1
              have hx := List.mem_of_getElem? h1
              simp only [List.mem_singleton] at hx
              subst hx
              exact absurd h2.symm hm
  | drop n =>
    have hs : ((t.dropColumn n).cols.map Col.name).Nodup := by
      have : (t.dropColumn n).cols.Sublist t.cols := by
        unfold Table.dropColumn
        cases t.index.get n with
        | none => exact List.Sublist.refl _
        | some i => exact List.eraseIdx_sublist _ _
      exact h.names.sublist (this.map _)
    exact ⟨(named_new hs).names, (named_new hs).index⟩
  | change n c =>
    simp only [Table.op, Table.changeColumn]
    cases hi : t.index.get n with
    | none => exact h
    | some i =>
      obtain ⟨x, hx, hxn⟩ := (h.index n i).1 hi
      have hil := (List.getElem?_eq_some_iff.1 hx).1
      have hset : ∀ (j : Nat) (y : Col), (t.cols.set i c)[j]? = some y ↔ (j = i ∧ y = c) ∨ (j ≠ i ∧ t.cols[j]? = some y) := by
        intro j y
        rw [List.getElem?_set]
        by_cases hj : i = j
        · subst hj; simp [hil, eq_comm]
        · rw [if_neg hj]
          constructor
          · exact fun h => .inr ⟨fun e => hj e.symm, h⟩
          · rintro (⟨rfl, _⟩ | ⟨_, h⟩)
            · exact absurd rfl hj
            · exact h
      have hfree : ∀ (j : Nat) (y : Col), j ≠ i → t.cols[j]? = some y → y.name ≠ c.name := by
        intro j y hj hy hyn
        rcases hf with hf | hf
        · exact hj (eq_of_name h.names hy hx (by rw [hyn, hf, hxn]))
        · exact hf y (List.mem_of_getElem? hy) hyn
      refine ⟨?_, ?_⟩
      · unfold List.Nodup
        rw [List.pairwise_iff_getElem]
        intro a b ha hb hab he
        simp only [List.length_map, List.length_set] at ha hb
        have hb' : (t.cols.set i c)[b]? = some ((t.cols.set i c)[b]'(by simpa using hb)) := List.getElem?_eq_getElem _
        have ha' : (t.cols.set i c)[a]? = some ((t.cols.set i c)[a]'(by simpa using ha)) := List.getElem?_eq_getElem _
        simp only [List.getElem_map] at he
        rcases (hset _ _).1 ha' with ⟨h1, h2⟩ | ⟨h1, h2⟩
        · rcases (hset _ _).1 hb' with ⟨h3, h4⟩ | ⟨h3, h4⟩
          · omega
          · exact hfree b _ h3 h4 (by rw [← he, h2])
        · rcases (hset _ _).1 hb' with ⟨h3, h4⟩ | ⟨h3, h4⟩
          · exact hfree a _ h1 h2 (by rw [he, h4])
          · exact absurd (eq_of_name h.names h2 h4 he) (by omega)
      · intro m j
        simp only [AMap.get_set, AMap.get_del]
        by_cases hm : m = c.name
        · rw [if_pos hm]
          simp only [Option.some.injEq]
          constructor
          · rintro rfl; exact ⟨c, (hset _ _).2 (.inl ⟨rfl, rfl⟩), hm.symm⟩
          · rintro ⟨y, h1, h2⟩
            rcases (hset _ _).1 h1 with ⟨rfl, _⟩ | ⟨h3, h4⟩
            · rfl
            · exact absurd (h2.trans hm) (hfree j y h3 h4)
        · rw [if_neg hm]
          by_cases hmn : m = n
          · rw [if_pos hmn]
            constructor
            · intro h; cases h
            · rintro ⟨y, h1, h2⟩
              rcases (hset _ _).1 h1 with ⟨_, rfl⟩ | ⟨h3, h4⟩
              · exact absurd h2.symm hm
              · exact absurd (eq_of_name h.names h4 hx (by rw [h2, hmn, hxn])) h3
          · rw [if_neg hmn, h.index]
            constructor
            · rintro ⟨y, h1, h2⟩
              refine ⟨y, (hset _ _).2 (.inr ⟨?_, h1⟩), h2⟩
              rintro rfl
              rw [hx] at h1
              cases h1
              exact hmn (h2.symm.trans hxn)
            · rintro ⟨y, h1, h2⟩
              rcases (hset _ _).1 h1 with ⟨_, rfl⟩ | ⟨_, h4⟩
              · exact absurd h2.symm hm
              · exact ⟨y, h4, h2⟩

theorem named_ops : ∀ (ops : List TOp) {t : Table}, Named t → AllFit t ops → Named (ops.foldl Table.op t)
  | [], _, h, _ => h
  | o :: ops, _, h, hf => named_ops ops (named_op h o hf.1) hf.2

/-- Every column can be looked up by its name, whatever was done to the table. -/
def C93Full : Prop := ∀ (cols : List Col) (ops : List TOp), (cols.map Col.name).Nodup →
  ∀ c ∈ (ops.foldl Table.op (Table.new cols)).cols, (ops.foldl Table.op (Table.new cols)).column c.name = some c

/-- It holds, and nothing else is found, if no column is given a name that is taken.  Missing from the full statement:
changes to a taken name. -/
theorem C93_lookup_partial (cols : List Col) (ops : List TOp) (hn : (cols.map Col.name).Nodup)
    (hf : AllFit (Table.new cols) ops) (n : String) (c : Col) :
    (ops.foldl Table.op (Table.new cols)).column n = some c ↔ c ∈ (ops.foldl Table.op (Table.new cols)).cols ∧ c.name = n := by
  have h := named_ops ops (named_new hn) hf
  generalize ops.foldl Table.op (Table.new cols) = t at h
  unfold Table.column
  constructor
  · intro hc
    cases hi : t.index.get n with
    | none => rw [hi] at hc; cases hc
    | some i =>
      rw [hi] at hc
      obtain ⟨c', h1, h2⟩ := (h.index n i).1 hi
      have : c' = c := by simpa [h1] using hc
      subst this
      exact ⟨List.mem_of_getElem? h1, h2⟩
  · rintro ⟨hm, hn⟩
    obtain ⟨i, hi⟩ := List.getElem?_of_mem hm
    rw [(h.index n i).2 ⟨c, hi, hn⟩]
    exact hi

/-- A column renamed to a taken name hides the other column.  (The planner checks that the name is free, the execution
does not: `planner.rs:1195-1200`, `alter_table.rs:103-116`.) -/
theorem C93_taken_name_refuted : ¬ C93Full := by
  intro h
  have := h [⟨0, "time", .time⟩, ⟨1, "a", .tag⟩, ⟨2, "b", .field .float⟩] [.change "b" ⟨2, "a", .field .float⟩] (by decide)
    ⟨1, "a", .tag⟩ (by decide +kernel)
  revert this
  decide +kernel

example : AllFit (Table.new [⟨0, "time", .time⟩, ⟨1, "a", .tag⟩]) [.add ⟨2, "f", .field .float⟩, .change "f" ⟨2, "g", .field .float⟩] ∧
    ([TOp.add ⟨2, "f", .field .float⟩, .change "f" ⟨2, "g", .field .float⟩].foldl Table.op
      (Table.new [⟨0, "time", .time⟩, ⟨1, "a", .tag⟩])).column "g" = some ⟨2, "g", .field .float⟩ := by
  refine ⟨⟨trivial, .inr ?_, trivial⟩, by decide +kernel⟩
  decide +kernel

/-! ## C95: an id always means the same column -/

/-- A change of the stored table.  A statement that is refused changes nothing. -/
inductive Change where
  | write (r : Req)
  | add (n : String) (k : Kind)
  | drop (n : String)
  | rename (a b : String)
deriving DecidableEq

/-- The change is computed from the stored table, without another change in between. -/
def Change.run (t : Table) : Change → Table
  | .write r => match plan r (some t) with | some (t', _) => t' | none => t
  | .add n k => match planAdd n k t with | some c => execAdd c t | none => t
  | .drop n => if planDrop n t then execDrop n t else t
  | .rename a b => if planRename a b t then (execRename a b t).getD t else t

theorem Table.WF.named {t : Table} (h : t.WF) : Named t := ⟨h.names, h.index⟩

/-- What a change leaves of the columns: ids that were given out before mean what they meant. -/
structure Later (t t' : Table) : Prop where
  next : t.nextId ≤ t'.nextId
  same : ∀ c' ∈ t'.cols, c'.id < t.nextId → ∃ c ∈ t.cols, c.id = c'.id ∧ c.kind = c'.kind

theorem Later.refl (t : Table) : Later t t := ⟨Nat.le_refl _, fun c hc _ => ⟨c, hc, rfl, rfl⟩⟩

theorem Later.trans {a b c : Table} (h : Later a b) (h' : Later b c) : Later a c := by
  refine ⟨Nat.le_trans h.next h'.next, fun x hx hl => ?_⟩
  obtain ⟨y, h1, h2, h3⟩ := h'.same x hx (Nat.lt_of_lt_of_le hl h.next)
  obtain ⟨z, h4, h5, h6⟩ := h.same y h1 (by omega)
  exact ⟨z, h4, h5.trans h2, h6.trans h3⟩

theorem later_add {t : Table} (h : t.WF) {n : String} (hc : t.column n = none) (k : Kind) :
    Later t (t.addColumn ⟨t.nextId, n, k⟩) := by
  have hi := index_none h hc
  have he : t.addColumn ⟨t.nextId, n, k⟩ =
      { t with cols := t.cols ++ [⟨t.nextId, n, k⟩], index := t.index.set n t.cols.length, nextId := t.nextId + 1 } := by
    simp [Table.addColumn, hi]
  rw [he]
  refine ⟨Nat.le_succ _, fun c hm hl => ?_⟩
  simp only [List.mem_append, List.mem_singleton] at hm
  rcases hm with hm | rfl
  · exact ⟨c, hm, rfl, rfl⟩
  · exact absurd hl (Nat.lt_irrefl _)

theorem later_tags : ∀ (l : List String) (t : Table) (b : Bool) (t' : Table) (b' : Bool), t.WF →
    addTags l (t, b) = some (t', b') → Later t t'
  | [], t, b, t', b', _, he => by
    simp only [addTags, Option.some.injEq, Prod.mk.injEq] at he
    obtain ⟨rfl, rfl⟩ := he
    exact .refl _
  | n :: l, t, b, t', b', h, he => by
    unfold addTags at he
    cases hc : t.column n with
    | some c =>
      rw [hc] at he
      by_cases ht : c.isTag = true
      · simp only [ht, if_true] at he
        exact later_tags l t b t' b' h he
      · simp [ht] at he
    | none =>
      rw [hc] at he
      exact (later_add h hc .tag).trans (later_tags l _ true t' b' (addColumn_wf h hc .tag).1 he)

theorem later_fields : ∀ (l : List (String × Ty)) (t : Table) (b : Bool) (t' : Table) (b' : Bool), t.WF →
    addFields l (t, b) = some (t', b') → Later t t'
  | [], t, b, t', b', _, he => by
    simp only [addFields, Option.some.injEq, Prod.mk.injEq] at he
    obtain ⟨rfl, rfl⟩ := he
    exact .refl _
  | (n, ty) :: l, t, b, t', b', h, he => by
    unfold addFields at he
    cases hc : t.column n with
    | some c =>
      rw [hc] at he
      by_cases ht : c.kind.matches (.field ty) = true
      · simp only [ht, if_true] at he
        exact later_fields l t b t' b' h he
      · simp [ht] at he
    | none =>
      rw [hc] at he
      exact (later_add h hc _).trans (later_fields l _ true t' b' (addColumn_wf h hc _).1 he)

theorem later_plan {r : Req} {t t' : Table} {a : Act} (h : t.WF) (he : plan r (some t) = some (t', a)) : Later t t' := by
  unfold plan at he
  cases h1 : addTags r.tags (t, false) with
  | none => simp [h1] at he
  | some x =>
    obtain ⟨t1, b1⟩ := x
    simp only [h1, Option.bind_some] at he
    cases h2 : addFields r.fields (t1, b1) with
    | none => simp [h2] at he
    | some y =>
      obtain ⟨t2, b2⟩ := y
      simp only [h2, Option.map_some, Option.some.injEq] at he
      have hl := (later_tags _ _ _ _ _ h h1).trans (later_fields _ _ _ _ _ (addTags_spec _ _ _ _ _ h h1).1.wf h2)
      cases b2 with
      | true =>
        simp only [if_true, Prod.mk.injEq] at he
        obtain ⟨rfl, rfl⟩ := he
        exact ⟨hl.next, hl.same⟩
      | false =>
        simp only [Bool.false_eq_true, if_false, Prod.mk.injEq] at he
        obtain ⟨rfl, rfl⟩ := he
        exact .refl _

theorem change_ok {t : Table} (h : t.WF) (x : Change) : (x.run t).WF ∧ Later t (x.run t) := by
  cases x with
  | write r =>
    simp only [Change.run]
    cases hp : plan r (some t) with
    | none => exact ⟨h, .refl _⟩
    | some y => obtain ⟨t', a⟩ := y; exact ⟨(plan_some h hp).1, later_plan h hp⟩
  | add n k =>
    simp only [Change.run, planAdd]
    cases hc : t.column n with
    | some c => exact ⟨h, .refl _⟩
    | none =>
      obtain ⟨h1, _, _⟩ := addColumn_wf h hc k
      have h2 := later_add h hc k
      exact ⟨wf_ver h1 _, ⟨h2.next, h2.same⟩⟩
  | drop n =>
    simp only [Change.run]
    split
    · have hs : (t.dropColumn n).cols.Sublist t.cols := by
        unfold Table.dropColumn
        cases t.index.get n with
        | none => exact List.Sublist.refl _
        | some i => exact List.eraseIdx_sublist _ _
      have hN := named_op h.named (.drop n) trivial
      refine ⟨wf_ver (t := t.dropColumn n) ⟨hN.names, ?_, fun c hc => h.below c (hs.subset hc), hN.index⟩ _, Nat.le_refl _,
        fun c hc _ => ⟨c, hs.subset hc, rfl, rfl⟩⟩
      exact h.ids.sublist (hs.map _)
    · exact ⟨h, .refl _⟩
  | rename a b =>
    simp only [Change.run]
    split
    rotate_left
    · exact ⟨h, .refl _⟩
    · rename_i hb
      replace hb : ¬ (t.column b).isSome = true := by
        intro hx
        unfold planRename at hb
        cases hc : t.column a with
        | none => simp [hc] at hb
        | some c => simp [hc, hx] at hb
      simp only [execRename]
      cases ha : t.column a with
      | none => exact ⟨h, .refl _⟩
      | some c =>
        have hb' : t.column b = none := by
          cases hx : t.column b with
          | none => rfl
          | some _ => rw [hx] at hb; simp at hb
        have hfree := (column_none h).1 hb'
        have hN := named_op h.named (.change a { c with name := b }) (.inr hfree)
        have hcol : t.index.get a ≠ none := by
          intro hx; rw [Table.column, hx] at ha; cases ha
        cases hi : t.index.get a with
        | none => exact absurd hi hcol
        | some i =>
          have hci : t.cols[i]? = some c := by rw [Table.column, hi] at ha; exact ha
          have hil := (List.getElem?_eq_some_iff.1 hci).1
          have he : t.changeColumn a { c with name := b } =
              { t with cols := t.cols.set i { c with name := b }, index := (t.index.del a).set b i } := by
            simp [Table.changeColumn, hi]
          have hids : (t.cols.set i { c with name := b }).map Col.id = t.cols.map Col.id := by
            rw [List.map_set]
            apply List.ext_getElem?
            intro j
            rw [List.getElem?_set]
            split
            · rename_i hj
              subst hj
              simp [hil, (List.getElem?_eq_some_iff.1 hci).2]
            · rfl
          have hmem : ∀ y ∈ t.cols.set i { c with name := b }, ∃ z ∈ t.cols, z.id = y.id ∧ z.kind = y.kind := by
            intro y hy
            rcases List.mem_or_eq_of_mem_set hy with hy | rfl
            · exact ⟨y, hy, rfl, rfl⟩
            · exact ⟨c, List.mem_of_getElem? hci, rfl, rfl⟩
          simp only [Table.op] at hN
          simp only [Option.map_some, Option.getD_some]
          rw [he] at hN ⊢
          refine ⟨⟨hN.names, ?_, ?_, hN.index⟩, Nat.le_refl _, fun y hy _ => hmem y hy⟩
          · show ((t.cols.set i { c with name := b }).map Col.id).Nodup
            rw [hids]; exact h.ids
          · intro y hy
            obtain ⟨z, h1, h2, _⟩ := hmem y hy
            rw [← h2]; exact h.below z h1

theorem changes_ok : ∀ (l : List Change) {t : Table}, t.WF → (l.foldl Change.run t).WF ∧ Later t (l.foldl Change.run t)
  | [], _, h => ⟨h, .refl _⟩
  | x :: l, _, h => by
    obtain ⟨h1, h2⟩ := change_ok h x
    obtain ⟨h3, h4⟩ := changes_ok l h1
    exact ⟨h3, h2.trans h4⟩

/-- The columns of one id. -/
theorem eq_of_id {cols : List Col} (h : (cols.map Col.id).Nodup) {a b : Col} (ha : a ∈ cols) (hb : b ∈ cols)
    (hn : a.id = b.id) : a = b := by
  obtain ⟨i, hi⟩ := List.getElem?_of_mem ha
  obtain ⟨j, hj⟩ := List.getElem?_of_mem hb
  have h1 : (cols.map Col.id)[i]? = some a.id := by simp [hi]
  have h2 : (cols.map Col.id)[j]? = some a.id := by simp [hj, hn]
  have := (List.getElem?_inj (List.getElem?_eq_some_iff.1 h1).1 h).1 (h1.trans h2.symm)
  subst this
  rw [hi] at hj
  exact Option.some.inj hj

/-- A new table: made by a write or by CREATE TABLE. -/
def Created (t : Table) : Prop := (∃ r a, plan r none = some (t, a)) ∨ ∃ l, createTable l = some t

theorem createTable_wf {l : List (String × Kind)} {t : Table} (h : createTable l = some t) : t.WF := by
  unfold createTable at h
  simp only [] at h
  split at h
  · cases h
  · split at h
    · rename_i hn
      cases h
      have hi : (Table.new (List.map (fun e => (⟨e.2, e.1.1, e.1.2⟩ : Col)) ((("time", Kind.time) :: l).zipIdx))).cols.map Col.id =
          List.range (l.length + 1) := by
        show List.map Col.id (List.map _ _) = _
        rw [List.map_map]
        show List.map Prod.snd _ = _
        rw [List.zipIdx_map_snd, List.range_eq_range']
        rfl
      refine ⟨hn, ?_, ?_, (named_new hn).index⟩
      · rw [hi]; exact List.nodup_range
      · intro c hc
        have : c.id ∈ List.range (l.length + 1) := by rw [← hi]; exact List.mem_map_of_mem hc
        show c.id < _
        simpa [Table.new] using this
    · cases h

theorem Created.wf {t : Table} (h : Created t) : t.WF := by
  rcases h with ⟨r, a, h⟩ | ⟨l, h⟩
  · exact (plan_none h).1
  · exact createTable_wf h

/-- Changes one after another: an id in two versions of the table is a column of the same type, and an id that has gone
does not come back.  Missing from the full statement (see the refutation): changes that race. -/
theorem C95_ids_partial (t : Table) (hp : Created t) (l l' l'' : List Change) :
    (∀ c ∈ (l.foldl Change.run t).cols, ∀ c' ∈ ((l ++ l').foldl Change.run t).cols, c.id = c'.id → c.kind = c'.kind) ∧
    (∀ c ∈ (l.foldl Change.run t).cols, (∀ c' ∈ ((l ++ l').foldl Change.run t).cols, c'.id ≠ c.id) →
      ∀ c'' ∈ ((l ++ l' ++ l'').foldl Change.run t).cols, c''.id ≠ c.id) ∧
    (((l.foldl Change.run t).cols.map Col.id).Nodup) := by
  obtain ⟨h1, _⟩ := changes_ok l hp.wf
  obtain ⟨h3, h4⟩ := changes_ok l' h1
  obtain ⟨h5, h6⟩ := changes_ok l'' h3
  simp only [List.foldl_append]
  refine ⟨?_, ?_, h1.ids⟩
  · intro c hc c' hc' he
    obtain ⟨x, hx, hx1, hx2⟩ := h4.same c' hc' (by rw [← he]; exact h1.below c hc)
    have := eq_of_id h1.ids hc hx (by omega)
    rw [this, hx2]
  · intro c hc hn c'' hc'' he
    obtain ⟨x, hx, hx1, _⟩ := h6.same c'' hc'' (by
      rw [he]; exact Nat.lt_of_lt_of_le (h1.below c hc) h4.next)
    exact hn x hx (hx1.trans he)

/-- A column added by ALTER TABLE has an id of its own, however the statement and writes interleave. -/
def C95Full : Prop := ∀ (t t1 : Table) (r : Req) (n : String) (k : Kind) (c : Col), t.WF →
  planAdd n k t = some c → plan r (some t) = some (t1, .update) →
  ∀ t2, update (execAdd c t1) (some t1) = some t2 → (t2.cols.map Col.id).Nodup

/-- A write adds a column between the planning and the execution of ALTER TABLE ADD: two columns have the same id. -/
theorem C95_raced_refuted : ¬ C95Full := by
  intro h
  have hw := (addColumn_wf fresh_wf (n := "a") (by decide +kernel) (.field .integer)).1
  have hr := h (fresh.addColumn ⟨fresh.nextId, "a", .field .integer⟩)
    { (fresh.addColumn ⟨fresh.nextId, "a", .field .integer⟩).addColumn ⟨2, "b", .field .integer⟩ with ver := 1 }
    ⟨[], [("b", .integer)]⟩ "c" (.field .float) ⟨2, "c", .field .float⟩ hw (by decide +kernel) rfl _ rfl
  revert hr
  decide +kernel

example : (createTable [("a", .field .integer)]).map (fun t => ([Change.add "f" (.field .float), .drop "a", .drop "time",
    .add "a" (.field .string), .rename "f" "g"].foldl Change.run t).cols) =
    some [⟨0, "time", .time⟩, ⟨2, "g", .field .float⟩, ⟨3, "a", .field .string⟩] := by
  decide +kernel

end Verif.Schema
