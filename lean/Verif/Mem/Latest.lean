import Verif.Mem.Props
/-!
# The write buffer returns the most recent write; flushing writes what reads return; series do not influence each other
-/
namespace Verif.Mem
open Verif.Time

variable {V : Type}

/-! ## C25 -/

/-- The schemas of the writes, in order. -/
def schemas (h : List (Op V)) : List Schema := h.filterMap fun | .write s _ => some s | _ => none

/-- Versions never go down and a version belongs to one schema. -/
def Versions (h : List (Op V)) : Prop := (schemas h).Pairwise fun a b => a.ver ≤ b.ver ∧ (a.ver = b.ver → a = b)

/-- Writes and deletes only. -/
def NoDrop (h : List (Op V)) : Prop := ∀ id, Op.dropColumn id ∉ h

/-- No single batch holds the time twice. -/
def Once (h : List (Op V)) (t : Int) : Prop := ∀ s rows, Op.write s rows ∈ h → (At t rows).length ≤ 1

theorem latest_write (t : Int) (id : Nat) (s : Schema) : ∀ (rows : List (Row V)) (cur : Option V),
    Op.latest t id cur (.write s rows) = ((At t rows).reverse.findSome? (value s id)).or cur
  | [], cur => by simp [Op.latest, At]
  | r :: rows, cur => by
    have ih := latest_write t id s rows
    simp only [Op.latest, List.foldl_cons] at ih ⊢
    rw [ih]
    by_cases h : r.ts = t
    · rw [if_pos h]
      have : At t (r :: rows) = r :: At t rows := by unfold At; rw [List.filter_cons_of_pos (by simpa using h)]
      rw [this, List.reverse_cons, List.findSome?_append, Option.or_assoc]
      congr 2
      cases hv : value s id r <;> simp [hv]
    · rw [if_neg h]
      have : At t (r :: rows) = At t rows := by unfold At; rw [List.filter_cons_of_neg (by simpa using h)]
      rw [this]

/-- The invariant of histories with versions that never go down. -/
structure Ordered (h : List (Op V)) (s : Series V) : Prop where
  asc : s.groups.Pairwise fun a b => a.schema.ver < b.schema.ver
  mem : ∀ g ∈ s.groups, g.schema ∈ schemas h
  last : s.schema = (schemas h).getLast?

theorem schemas_concat (h : List (Op V)) (op : Op V) : schemas (h ++ [op]) = schemas h ++ schemas [op] := by
  simp [schemas]

theorem ordered_keep {h : List (Op V)} {s : Series V} (ho : Ordered h s) (p : Int → Bool) : Ordered h (keep p s) := by
  constructor
  · simp only [keep]; exact List.pairwise_map.2 ho.asc
  · intro g hg
    obtain ⟨g', hg', rfl⟩ := List.mem_map.1 hg
    exact ho.mem g' hg'
  · rw [schema_keep]; exact ho.last

theorem write_ordered {h : List (Op V)} {s : Series V} (ho : Ordered h s) {sc : Schema}
    (hv : ∀ x ∈ schemas h, x.ver ≤ sc.ver ∧ (x.ver = sc.ver → x = sc)) (rows : List (Row V)) :
    let s' := s.write (mkGroup sc rows)
    Ordered (h ++ [.write sc rows]) s' ∧
    (s'.groups = s.groups ++ [mkGroup sc rows] ∨
      ∃ a item, s.groups = a ++ [item] ∧ item.schema = sc ∧ s'.groups = a ++ [merged (mkGroup sc rows) item]) := by
  have hsc : (mkGroup sc rows).schema = sc := rfl
  have es : schemas (h ++ [.write sc rows]) = schemas h ++ [sc] := by rw [schemas_concat]; rfl
  intro s'
  rcases write_split s (mkGroup sc rows) with ⟨h1, h2⟩ | ⟨a, item, b, h1, h2, h3, h4⟩
  · refine ⟨⟨?_, ?_, ?_⟩, .inl h1⟩
    · rw [h1, List.pairwise_append]
      refine ⟨ho.asc, by simp, ?_⟩
      intro x hx y hy
      rw [List.mem_singleton.1 hy, hsc]
      have := (hv _ (ho.mem x hx)).1
      have := h2 x hx
      rw [hsc] at this
      omega
    · intro g hg
      rw [h1] at hg
      rw [es]
      rcases List.mem_append.1 hg with hg | hg
      · exact List.mem_append_left _ (ho.mem g hg)
      · rw [List.mem_singleton.1 hg, hsc]; simp
    · rw [es]; simp [Series.schema, s', h1, hsc]
  · rw [hsc] at h2
    have hb : b = [] := by
      rw [List.eq_nil_iff_forall_not_mem]
      intro x hx
      have hp := ho.asc
      rw [h1] at hp
      have := (List.pairwise_cons.1 (List.pairwise_append.1 hp).2.1).1 x hx
      have := (hv _ (ho.mem x (by rw [h1]; simp [hx]))).1
      omega
    subst hb
    have hi : item.schema = sc := (hv _ (ho.mem item (by rw [h1]; simp))).2 h2
    refine ⟨⟨?_, ?_, ?_⟩, .inr ⟨a, item, h1, hi, h4⟩⟩
    · rw [h4]
      have hp := ho.asc
      rw [h1, List.pairwise_append] at hp
      rw [List.pairwise_append]
      refine ⟨hp.1, by simp, ?_⟩
      intro x hx y hy
      rw [List.mem_singleton.1 hy]
      have := hp.2.2 x hx item (by simp)
      rw [hi] at this
      exact this
    · intro g hg
      rw [h4] at hg
      rw [es]
      rcases List.mem_append.1 hg with hg | hg
      · exact List.mem_append_left _ (ho.mem g (by rw [h1]; exact List.mem_append_left _ hg))
      · rw [List.mem_singleton.1 hg]; simp [merged, mkGroup]
    · rw [es]
      change (s'.groups.getLast?).map Group.schema = _
      rw [h4]; simp [merged, mkGroup]

theorem versions_last {h : List (Op V)} {sc : Schema} {rows : List (Row V)} (hv : Versions (h ++ [.write sc rows])) :
    Versions h ∧ ∀ x ∈ schemas h, x.ver ≤ sc.ver ∧ (x.ver = sc.ver → x = sc) := by
  unfold Versions at hv ⊢
  rw [schemas_concat, List.pairwise_append] at hv
  exact ⟨hv.1, fun x hx => hv.2.2 x hx sc (by simp [schemas])⟩

theorem versions_init {h : List (Op V)} {op : Op V} (hv : Versions (h ++ [op])) : Versions h := by
  unfold Versions at hv ⊢
  rw [schemas_concat, List.pairwise_append] at hv
  exact hv.1

theorem ordered_runAll {h : List (Op V)} (ht : TimesOk h) (hd : NoDrop h) (hv : Versions h) : Ordered h (runAll h) := by
  induction h using List.reverseRecOn with
  | nil => exact ⟨by simp [runAll, Series.new], by simp [runAll, Series.new], rfl⟩
  | append_singleton h op ih =>
    have ht' : TimesOk h := fun sc rows hm => ht sc rows (List.mem_append_left _ hm)
    have hd' : NoDrop h := fun id hm => hd id (List.mem_append_left _ hm)
    have ih := ih ht' hd' (versions_init hv)
    rw [runAll_concat]
    cases op with
    | write sc rows => exact (write_ordered ih (versions_last hv).2 rows).1
    | deleteRanges trs =>
      simp only [Op.run]
      rw [deleteRanges_eq (good_runAll ht')]
      have := ordered_keep ih (fun t => !inRanges trs t)
      exact ⟨this.asc, by rw [schemas_concat]; exact fun g hg => List.mem_append_left _ (this.mem g hg),
        by rw [schemas_concat]; simpa [schemas] using this.last⟩
    | deleteSeries r =>
      simp only [Op.run]
      rw [deleteSeries_eq (good_runAll ht')]
      have := ordered_keep ih (fun t => !r.contains t)
      exact ⟨this.asc, by rw [schemas_concat]; exact fun g hg => List.mem_append_left _ (this.mem g hg),
        by rw [schemas_concat]; simpa [schemas] using this.last⟩
    | dropColumn id => exact absurd (List.mem_append_right _ (List.mem_singleton.2 rfl)) (hd id)

theorem valAt_write {s : Series V} {sc : Schema} {rows : List (Row V)} {t : Int} (id : Nat) (ho : (At t rows).length ≤ 1)
    (h : (s.write (mkGroup sc rows)).groups = s.groups ++ [mkGroup sc rows] ∨
      ∃ a item, s.groups = a ++ [item] ∧ item.schema = sc ∧
        (s.write (mkGroup sc rows)).groups = a ++ [merged (mkGroup sc rows) item]) :
    valAt (s.write (mkGroup sc rows)).flat t id = ((At t rows).reverse.findSome? (value sc id)).or (valAt s.flat t id) := by
  rw [valAt_eq, valAt_eq]
  rcases h with h | ⟨a, item, h1, h2, h3⟩
  · rw [h, List.reverse_append, List.findSome?_append]
    simp only [List.reverse_singleton, List.findSome?_singleton, mkGroup_at]
    rfl
  · rw [h3, h1, List.reverse_append, List.reverse_append, List.findSome?_append, List.findSome?_append]
    simp only [List.reverse_singleton, List.findSome?_singleton, merged]
    rw [at_insertRows, mkGroup_at, List.reverse_reverse, List.findSome?_append, reverse_single ho, h2, Option.or_assoc]
    rfl

theorem valAt_none {s : Series V} {t : Int} (h : ¬ HasTime s.flat t) (id : Nat) : valAt s.flat t id = none := by
  rw [valAt_eq, List.findSome?_eq_none_iff]
  intro g hg
  have : At t g.rows = [] := by
    unfold At
    rw [List.filter_eq_nil_iff]
    intro r hr ht
    exact h (hasTime_flat.2 ⟨g, List.mem_reverse.1 hg, r, hr, by simpa using ht⟩)
  rw [this]; rfl

theorem valAt_keep (s : Series V) (p : Int → Bool) (t : Int) (id : Nat) :
    valAt (keep p s).flat t id = if p t then valAt s.flat t id else none := by
  by_cases h : p t = true
  · rw [if_pos h]; unfold valAt; rw [seen_keep s p h]
  · rw [if_neg h, valAt_none]
    rw [hasTime_keep]
    exact fun hh => h hh.2

theorem valAt_runAll {h : List (Op V)} (ht : TimesOk h) (hd : NoDrop h) (hv : Versions h) {t : Int} (ho : Once h t) (id : Nat) :
    valAt (runAll h).flat t id = latest h t id := by
  induction h using List.reverseRecOn with
  | nil => rfl
  | append_singleton h op ih =>
    have ht' : TimesOk h := fun sc rows hm => ht sc rows (List.mem_append_left _ hm)
    have hd' : NoDrop h := fun id hm => hd id (List.mem_append_left _ hm)
    have ho' : Once h t := fun s rows hm => ho s rows (List.mem_append_left _ hm)
    have ih := ih ht' hd' (versions_init hv) ho'
    have e : latest (h ++ [op]) t id = op.latest t id (latest h t id) := by simp [latest]
    rw [runAll_concat, e]
    cases op with
    | write sc rows =>
      rw [latest_write, ← ih]
      exact valAt_write id (ho sc rows (by simp))
        (write_ordered (ordered_runAll ht' hd' (versions_init hv)) (versions_last hv).2 rows).2
    | deleteRanges trs =>
      simp only [Op.run, Op.latest]
      rw [deleteRanges_eq (good_runAll ht'), valAt_keep, ih]
      cases inRanges trs t <;> rfl
    | deleteSeries r =>
      simp only [Op.run, Op.latest]
      rw [deleteSeries_eq (good_runAll ht'), valAt_keep, ih]
      cases r.contains t <;> rfl
    | dropColumn id => exact absurd (List.mem_append_right _ (List.mem_singleton.2 rfl)) (hd id)

/-- The property in full: for columns that every written schema has. -/
def C25Full : Prop := ∀ (V : Type) (h : List (Op V)) (cols : List Nat) (trs : TimeRanges), TimesOk h →
  (∀ s ∈ schemas h, ∀ id ∈ cols, id ∈ s.ids) → ∀ r ∈ (runAll h).readData cols trs, r.fields = cols.map (latest h r.ts)

/-- A read returns for each time and column the value of the most recent write that supplied one; columns are those of the
schema of the last write.  Missing from the full property: times that one batch holds twice, histories with dropped columns,
writes with an older schema after writes with a newer one. -/
theorem C25_latest_partial (h : List (Op V)) (cols : List Nat) (trs : TimeRanges) (ht : TimesOk h) (hd : NoDrop h)
    (hv : Versions h) (sc : Schema) (hs : (schemas h).getLast? = some sc) :
    ∀ r ∈ (runAll h).readData cols trs, Once h r.ts →
      r.fields = cols.map fun id => if id ∈ sc.ids then latest h r.ts id else none := by
  intro r hr ho
  rw [readData_eq (good_runAll ht) ((ordered_runAll ht hd hv).last.trans hs)] at hr
  obtain ⟨t, _, rfl⟩ := List.mem_map.1 hr
  simp only [valAt_runAll ht hd hv ho]

/-- The case of one schema. -/
theorem C25_same_schema_partial (h : List (Op V)) (cols : List Nat) (trs : TimeRanges) (ht : TimesOk h) (hd : NoDrop h)
    (sc : Schema) (hs : ∀ s ∈ schemas h, s = sc) (hc : ∀ id ∈ cols, id ∈ sc.ids) (ho : ∀ t, Once h t) :
    ∀ r ∈ (runAll h).readData cols trs, r.fields = cols.map (latest h r.ts) := by
  intro r hr
  have hv : Versions h := by
    unfold Versions
    rw [List.pairwise_iff_forall_sublist]
    intro a b hab
    have ha := hs a (hab.subset (by simp))
    have hb := hs b (hab.subset (by simp))
    subst ha; subst hb
    exact ⟨Nat.le_refl _, fun _ => rfl⟩
  have hl : (schemas h).getLast? = some sc := by
    cases hq : (schemas h).getLast? with
    | none =>
      have hn : (runAll h).schema = none := (ordered_runAll ht hd hv).last.trans hq
      simp [Series.readData, hn] at hr
    | some x => rw [hs x (List.mem_of_getLast? hq)]
  rw [C25_latest_partial h cols trs ht hd hv sc hl r hr (ho _)]
  refine List.map_congr_left fun id hid => ?_
  rw [if_pos (hc id hid)]

/-- Rows with times that are 64-bit integers, by computation. -/
def timesOkB (h : List (Op V)) : Bool := h.all fun
  | .write _ rows => rows.all fun r => decide (i64Min ≤ r.ts) && decide (r.ts ≤ i64Max)
  | _ => true

theorem timesOk_of {h : List (Op V)} (hb : timesOkB h = true) : TimesOk h := by
  intro sc rows hm r hr
  have := List.all_eq_true.1 hb _ hm
  simp only [List.all_eq_true, Bool.and_eq_true, decide_eq_true_eq] at this
  exact this r hr

/-- A batch that holds a time twice and meets an earlier batch: the first of the two values wins. -/
theorem C25_same_batch_refuted : ¬ C25Full := by
  intro h
  have := h Nat [.write ⟨1, [2]⟩ [⟨0, [some 1]⟩], .write ⟨1, [2]⟩ [⟨5, [some 7]⟩, ⟨5, [some 8]⟩]] [2] TimeRanges.all
    (timesOk_of (by decide)) (by decide) ⟨5, [some 7]⟩ (by decide)
  revert this
  decide

/-- A write with an older schema that comes after a write with a newer one loses. -/
theorem C25_older_schema_refuted : ¬ C25Full := by
  intro h
  have := h Nat [.write ⟨1, [2]⟩ [⟨0, [some 1]⟩], .write ⟨2, [2, 3]⟩ [⟨5, [some 7, none]⟩], .write ⟨1, [2]⟩ [⟨5, [some 8]⟩]] [2]
    TimeRanges.all (timesOk_of (by decide)) (by decide) ⟨5, [some 7]⟩ (by decide)
  revert this
  decide

/-- A write with an older schema, when no write of that schema is in the buffer, hides the columns of the newer one. -/
theorem C25_hidden_column_refuted : ∃ h : List (Op Nat), TimesOk h ∧ Op.write ⟨2, [2, 3]⟩ [⟨5, [some 7, some 9]⟩] ∈ h ∧
    latest h 5 3 = some 9 ∧ ∀ trs, ∀ r ∈ (runAll h).readData [3] trs, r.fields = [none] := by
  refine ⟨[.write ⟨2, [2, 3]⟩ [⟨5, [some 7, some 9]⟩], .write ⟨1, [2]⟩ [⟨6, [some 8]⟩]], timesOk_of (by decide),
    List.mem_cons_self .., by decide, ?_⟩
  intro trs r hr
  have hs : (runAll (V := Nat) [.write ⟨2, [2, 3]⟩ [⟨5, [some 7, some 9]⟩], .write ⟨1, [2]⟩ [⟨6, [some 8]⟩]]).schema = some ⟨1, [2]⟩ := by
    decide
  rw [readData_eq (good_runAll (timesOk_of (by decide))) hs] at hr
  obtain ⟨t, _, rfl⟩ := List.mem_map.1 hr
  simp

/-- Overwriting a value and then dropping another column brings the old value back. -/
theorem C28_overwritten_refuted : ¬ C28Full := by
  intro h
  have := h Nat [.write ⟨1, [2, 3]⟩ [⟨5, [some 7, some 1]⟩], .write ⟨1, [2, 3]⟩ [⟨5, [some 8, some 2]⟩]] 3 [2] TimeRanges.all
    (timesOk_of (by decide)) (by decide)
  revert this
  decide

/-- A write that still has the old schema after a column was dropped moves values into other columns. -/
theorem C28_stale_write_refuted : ∃ h : List (Op Nat), TimesOk h ∧
    (runAll h).readData [3] TimeRanges.all = [⟨5, [some 1]⟩] ∧
    ((runAll (h ++ [.dropColumn 2, .write ⟨1, [2, 3]⟩ [⟨6, [none, some 2]⟩]])).readData [3] TimeRanges.all) =
      [⟨5, [none]⟩, ⟨6, [some 2]⟩] :=
  ⟨[.write ⟨1, [2, 3]⟩ [⟨5, [some 7, some 1]⟩]], timesOk_of (by decide), by decide, by decide⟩

/-! ## C70: flushing -/

/-- The pages written by a flush hold exactly what reads return: the same times and for each column of the newest schema the
same values. -/
theorem C70_flush_is_read (h : List (Op V)) (ht : TimesOk h) :
    ((runAll h).toPages = none → ∀ cols trs, (runAll h).readData cols trs = []) ∧
    ∀ sc ts vals, (runAll h).toPages = some (sc, ts, vals) →
      ts = ((runAll h).readData sc.ids TimeRanges.all).map Row.ts ∧ vals.length = sc.ids.length ∧
      ∀ i, i < sc.ids.length → vals[i]? = some (((runAll h).readData sc.ids TimeRanges.all).map fun r => (r.fields[i]?).join) := by
  have hg := good_runAll ht
  generalize runAll h = s at *
  refine ⟨?_, ?_⟩
  · intro hn cols trs
    have : s.schema = none := by simpa [Series.toPages] using hn
    simp [Series.readData, this]
  · intro sc ts vals he
    cases hs : s.schema with
    | none => simp [Series.toPages, hs] at he
    | some latest =>
      simp only [Series.toPages, hs, Option.map_some, Option.some.injEq, Prod.mk.injEq] at he
      obtain ⟨rfl, rfl, rfl⟩ := he
      have hall : (times s).filter TimeRanges.all.contains = times s := by
        rw [List.filter_eq_self]
        intro t ht
        obtain ⟨g, hg', r, hr, rfl⟩ := hasTime_flat.1 ((times_spec hg).2 t |>.1 ht).1
        have := hg.i64 g hg' r hr
        rw [contains_iff_covers]
        · exact ⟨_, List.mem_singleton.2 rfl, this.1, this.2⟩
        · refine ⟨by decide, ?_⟩
          intro e he; simp only [TimeRanges.all, List.mem_singleton] at he; rw [he]; unfold IsI64; decide
      rw [readData_eq hg hs, hall, all_eq hg]
      refine ⟨by simp [Function.comp_def], by simp, ?_⟩
      intro i hi
      rw [List.getElem?_map, List.getElem?_range hi]
      simp only [Option.map_some, List.map_map, Option.some.injEq]
      refine List.map_congr_left fun t _ => ?_
      simp only [Function.comp, List.getElem?_map]
      rw [List.getElem?_eq_getElem hi]
      simp

/-! ## The buffer of a vnode -/

/-- What can happen to the buffer of a vnode. -/
inductive COp (V : Type) where
  | write (sid : Nat) (s : Schema) (rows : List (Row V))
  | deleteRanges (sids : List Nat) (trs : TimeRanges)
  | deleteSeries (sids : List Nat) (r : TimeRange)
  | dropColumns (sids cols : List Nat)

def COp.run (c : Cache V) : COp V → Cache V
  | .write sid s rows => c.write sid (mkGroup s rows)
  | .deleteRanges sids trs => c.deleteRanges sids trs
  | .deleteSeries sids r => c.deleteSeries sids r
  | .dropColumns sids cols => c.dropColumns sids cols

/-- The events of one series. -/
def COp.of (sid : Nat) : COp V → List (Op V)
  | .write sid' s rows => if sid' = sid then [.write s rows] else []
  | .deleteRanges sids trs => (sids.filter (· = sid)).map fun _ => .deleteRanges trs
  | .deleteSeries sids r => (sids.filter (· = sid)).map fun _ => .deleteSeries r
  | .dropColumns sids cols => (sids.filter (· = sid)).flatMap fun _ => cols.map .dropColumn

theorem parts_put (c : Cache V) (sid : Nat) (s : Series V) : (c.put sid s).parts.length = c.parts.length := by
  simp [Cache.put]

theorem get_put {c : Cache V} (hn : 0 < c.parts.length) (sid sid' : Nat) (s : Series V) :
    (c.put sid s).get sid' = if sid' = sid then some s else c.get sid' := by
  unfold Cache.get
  rw [parts_put]
  simp only [Cache.put, List.getElem?_modify]
  have hl := Nat.mod_lt sid' hn
  rw [List.getElem?_eq_getElem hl]
  by_cases h : sid' = sid
  · subst h; simp [AMap.get_set]
  · by_cases h2 : sid % c.parts.length = sid' % c.parts.length
    · simp [h2, AMap.get_set, h]
    · simp [h2, h]

theorem new_change (op : Op V) (h : ∀ s rows, op ≠ .write s rows) : op.run Series.new = Series.new := by
  cases op with
  | write s rows => exact absurd rfl (h s rows)
  | deleteRanges trs => simp only [Op.run]; rw [deleteRanges_eq good_new]; rfl
  | deleteSeries r => simp only [Op.run]; rw [deleteSeries_eq good_new]; rfl
  | dropColumn id => rfl

/-- The series of an id; empty if there is none. -/
def Cache.series (c : Cache V) (sid : Nat) : Series V := (c.get sid).getD Series.new

theorem series_change {c : Cache V} (hn : 0 < c.parts.length) (sid sid' : Nat) (op : Op V) (ho : ∀ s rows, op ≠ .write s rows) :
    (c.change sid (fun s => op.run s)).series sid' = if sid = sid' then op.run (c.series sid') else c.series sid' := by
  unfold Cache.change Cache.series
  cases hs : c.get sid with
  | none =>
    simp only
    by_cases h : sid = sid'
    · subst h; rw [if_pos rfl, hs]; exact (new_change op ho).symm
    · rw [if_neg h]
  | some s =>
    simp only
    rw [get_put hn]
    by_cases h : sid = sid'
    · subst h; simp [hs]
    · rw [if_neg h, if_neg (fun e => h e.symm)]

theorem parts_change (c : Cache V) (sid : Nat) (f : Series V → Series V) : (c.change sid f).parts.length = c.parts.length := by
  unfold Cache.change
  cases c.get sid with
  | none => rfl
  | some s => exact parts_put ..

theorem series_fold (op : Op V) (ho : ∀ s rows, op ≠ .write s rows) (sid' : Nat) : ∀ (sids : List Nat) {c : Cache V},
    0 < c.parts.length →
    0 < (sids.foldl (fun c sid => c.change sid (fun s => op.run s)) c).parts.length ∧
    (sids.foldl (fun c sid => c.change sid (fun s => op.run s)) c).series sid' =
      ((sids.filter (· = sid')).map fun _ => op).foldl Op.run (c.series sid')
  | [], c, hn => ⟨hn, rfl⟩
  | sid :: sids, c, hn => by
    rw [List.foldl_cons]
    obtain ⟨h1, h2⟩ := series_fold op ho sid' sids (c := c.change sid (fun s => op.run s)) (by rw [parts_change]; exact hn)
    refine ⟨h1, ?_⟩
    rw [h2, series_change hn sid sid' op ho]
    by_cases h : sid = sid' <;> simp [h]

theorem series_cols (sid sid' : Nat) : ∀ (cols : List Nat) {c : Cache V}, 0 < c.parts.length →
    0 < (cols.foldl (fun c id => c.change sid (Series.dropColumn id)) c).parts.length ∧
    (cols.foldl (fun c id => c.change sid (Series.dropColumn id)) c).series sid' =
      if sid = sid' then (cols.map Op.dropColumn).foldl Op.run (c.series sid') else c.series sid'
  | [], c, hn => ⟨hn, by simp⟩
  | id :: cols, c, hn => by
    rw [List.foldl_cons]
    obtain ⟨h1, h2⟩ := series_cols sid sid' cols (c := c.change sid (Series.dropColumn id)) (by rw [parts_change]; exact hn)
    refine ⟨h1, ?_⟩
    have := series_change hn sid sid' (.dropColumn id) (by simp)
    simp only [Op.run] at this
    rw [h2, this]
    by_cases h : sid = sid' <;> simp [h, Op.run]

theorem series_drop (cols : List Nat) (sid' : Nat) : ∀ (sids : List Nat) {c : Cache V}, 0 < c.parts.length →
    0 < (c.dropColumns sids cols).parts.length ∧
    (c.dropColumns sids cols).series sid' = (COp.of sid' (.dropColumns sids cols)).foldl Op.run (c.series sid')
  | [], c, hn => ⟨hn, rfl⟩
  | sid :: sids, c, hn => by
    obtain ⟨a1, a2⟩ := series_cols sid sid' cols hn
    obtain ⟨h1, h2⟩ := series_drop cols sid' sids a1
    simp only [Cache.dropColumns, COp.of] at h1 h2 ⊢
    rw [List.foldl_cons]
    refine ⟨h1, ?_⟩
    rw [h2, a2]
    by_cases h : sid = sid' <;> simp [h]

theorem series_run {c : Cache V} (hn : 0 < c.parts.length) (op : COp V) (sid : Nat) :
    0 < (op.run c).parts.length ∧ (op.run c).series sid = (op.of sid).foldl Op.run (c.series sid) := by
  cases op with
  | write sid' s rows =>
    simp only [COp.run, Cache.write, COp.of, Cache.series]
    cases hs : c.get sid' with
    | none =>
      refine ⟨by simp only [parts_put]; exact hn, ?_⟩
      simp only [get_put hn]
      by_cases h : sid = sid'
      · subst h; simp [hs, Op.run]
      · rw [if_neg h, if_neg (fun e => h e.symm)]; rfl
    | some x =>
      refine ⟨by simp only [parts_put]; exact hn, ?_⟩
      simp only [get_put hn]
      by_cases h : sid = sid'
      · subst h; simp [hs, Op.run]
      · rw [if_neg h, if_neg (fun e => h e.symm)]; rfl
  | deleteRanges sids trs => exact series_fold (.deleteRanges trs) (by simp) sid sids hn
  | deleteSeries sids r => exact series_fold (.deleteSeries r) (by simp) sid sids hn
  | dropColumns sids cols => exact series_drop cols sid sids hn

/-- The series of the buffer of a vnode depends on the events of this series only, and is what the other theorems of this
module speak about. -/
theorem C25_series_separate (n : Nat) (hn : 0 < n) (h : List (COp V)) (sid : Nat) :
    ((h.foldl COp.run (Cache.new n)).get sid).getD Series.new = runAll (h.flatMap (COp.of sid)) := by
  have : ∀ (h : List (COp V)) (c : Cache V), 0 < c.parts.length →
      (h.foldl COp.run c).series sid = (h.flatMap (COp.of sid)).foldl Op.run (c.series sid) := by
    intro h
    induction h with
    | nil => intro c _; rfl
    | cons op h ih =>
      intro c hc
      obtain ⟨h1, h2⟩ := series_run hc op sid
      rw [List.foldl_cons, ih _ h1, h2, List.flatMap_cons, List.foldl_append]
  have h0 := this h (Cache.new n) (by simpa [Cache.new] using hn)
  have e : (Cache.new n : Cache V).series sid = Series.new := by
    unfold Cache.series Cache.get
    have hl : sid % n < n := Nat.mod_lt sid hn
    simp [Cache.new, hl]
  rw [e] at h0
  exact h0

/-! ## Examples -/

/-- Overwriting, a wider schema and a delete. -/
def sample : List (Op Nat) :=
  [.write ⟨1, [2]⟩ [⟨5, [some 1]⟩, ⟨3, [some 2]⟩], .write ⟨1, [2]⟩ [⟨5, [some 4]⟩],
   .write ⟨2, [2, 3]⟩ [⟨5, [none, some 6]⟩, ⟨9, [some 8, some 9]⟩], .deleteRanges (TimeRanges.withBounds 2 4)]

example : TimesOk sample := timesOk_of (by decide)
example : NoDrop sample := by intro id; simp [sample]
example : Versions sample := by unfold Versions; decide
example : ∀ t, Once sample t := by
  intro t s rows hm
  simp only [sample, List.mem_cons, Op.write.injEq, List.not_mem_nil, or_false] at hm
  have : ∀ l : List (Row Nat), l.Pairwise (fun a b => a.ts ≠ b.ts) → (At t l).length ≤ 1 := by
    intro l hl
    induction l with
    | nil => simp [At]
    | cons r l ih =>
      rw [List.pairwise_cons] at hl
      unfold At at ih ⊢
      rw [List.filter_cons]
      split
      · rename_i h
        have : (l.filter fun r => decide (r.ts = t)) = [] := by
          rw [List.filter_eq_nil_iff]
          intro x hx hxt
          simp only [decide_eq_true_eq] at h hxt
          exact hl.1 x hx (h.trans hxt.symm)
        simp [this]
      · exact ih hl.2
  rcases hm with ⟨_, rfl⟩ | ⟨_, rfl⟩ | ⟨_, rfl⟩ | hm
  · exact this _ (by decide)
  · exact this _ (by decide)
  · exact this _ (by decide)
  · cases hm
example : (schemas sample).getLast? = some ⟨2, [2, 3]⟩ := by decide
example : (runAll sample).readData [3, 2] TimeRanges.all = [⟨5, [some 6, some 4]⟩, ⟨9, [some 9, some 8]⟩] := by decide
example : WF (TimeRanges.withBounds 2 6) :=
  ⟨⟨by decide, by intro e he; simp only [TimeRanges.withBounds, List.mem_singleton] at he; rw [he]; unfold IsI64; decide⟩,
   by decide⟩
example : (runAll sample).readData [2] (TimeRanges.withBounds 2 6) = [⟨5, [some 4]⟩] := by decide
example : ¬ Single (runAll sample) 5 ∧ Single (runAll sample) 9 := by unfold Single; decide
example : (runAll sample).toPages = some (⟨2, [2, 3]⟩, [5, 9], [[some 4, some 8], [some 6, some 9]]) := by decide

end Verif.Mem
