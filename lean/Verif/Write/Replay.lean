import Verif.Write.Props
/-!
# C103: a write that is replayed from the log stores what it stored before

After a restart the commands of the log that were not flushed are applied again, with the schema of then and in strict mode;
an error is only logged (`tskv/src/vnode_store.rs:80-110, 262-320`).
-/
namespace Verif.Write
open Verif.Schema
open Verif.Stats (Val)
open Verif.Utils (Bytes bytesLe)

/-- The same row: its series, its time, and its values in the columns that both tables have.  Columns are told by their ids. -/
structure Same (t t' : Table) (p p' : List (Nat × Bytes) × Row) : Prop where
  key : p'.1 = p.1
  ts : p'.2.ts = p.2.ts
  both : ∀ (i j id : Nat), (fieldIds t.cols)[i]? = some id → (fieldIds t'.cols)[j]? = some id → p'.2.fields[j]? = p.2.fields[i]?
  new : ∀ (j id : Nat), id ∉ fieldIds t.cols → (fieldIds t'.cols)[j]? = some id → p'.2.fields[j]? = some none

/-- The write is replayed with the table `t'` and gives the same rows. -/
def Replayed (conv : Int → Option Int) (ls : List Line) (tab : String) (t t' : Table) (out : List (List (Nat × Bytes) × Row)) : Prop :=
  ∃ out', write conv true (some t') ls tab = .ok (t', out') ∧ out'.length = out.length ∧
    ∀ (i : Nat) p p', out[i]? = some p → out'[i]? = some p' → Same t t' p p'

/-- Whatever changes (of the kinds `P`) are made to the table before the restart, the write is replayed. -/
def C103Full (P : Change → Prop) : Prop := ∀ (conv : Int → Option Int) (cur : Option Table) (ls : List Line) (tab : String) (t : Table)
  (out : List (List (Nat × Bytes) × Row)) (xs : List Change), (∀ t ∈ cur, t.WF) → Clean (linesOf ls tab) →
  write conv false cur ls tab = .ok (t, out) → (∀ x ∈ xs, P x) → Replayed conv ls tab t (xs.foldl Change.run t) out

theorem find_congr {α : Type} {p q : α → Bool} : ∀ (l : List α), (∀ x ∈ l, p x = q x) → l.find? p = l.find? q
  | [], _ => rfl
  | x :: l, h => by
    rw [List.find?_cons, List.find?_cons, h x (by simp), find_congr l fun y hy => h y (by simp [hy])]

/-- Replaying with another table.  A field of the request is found as before or is gone. -/
theorem replay_same {conv : Int → Option Int} {cur : Option Table} {ls : List Line} {tab : String} {t t' : Table}
    {out : List (List (Nat × Bytes) × Row)} (hw : ∀ t ∈ cur, t.WF) (ht' : t'.WF) (hc : Clean (linesOf ls tab))
    (h : write conv false cur ls tab = .ok (t, out))
    (htags : ∀ l ∈ linesOf ls tab, ∀ x ∈ l.tags, t'.column x.1 = t.column x.1)
    (hfields : ∀ l ∈ linesOf ls tab, ∀ f ∈ l.fields, t'.column f.1 = t.column f.1 ∨
      (t'.column f.1 = none ∧ ∀ c, t.column f.1 = some c → c.id ∉ fieldIds t'.cols))
    (hsome : ∀ l ∈ linesOf ls tab, ∃ f ∈ l.fields, t'.column f.1 ≠ none) : Replayed conv ls tab t t' out := by
  obtain ⟨m, r, h1, h2, h3, h4⟩ := write_ok h
  obtain ⟨ht, hcov⟩ := schema_ok hw h3
  have hh := holds_msg (message_inv h1 hc.names)
  obtain ⟨hfit, hout⟩ := (rowsWith_iff conv hc hh ht out).1 h4
  have hfit' : ∀ l ∈ linesOf ls tab, Fits conv t' l := by
    intro l hl
    have hf := hfit l hl
    refine ⟨fun x hx => by rw [htags l hl x hx]; exact hf.tags x hx, fun f hff c hcol => ?_, hsome l hl, hf.time⟩
    rcases hfields l hl f hff with he | ⟨he, _⟩
    · exact hf.fields f hff c (by rw [← he]; exact hcol)
    · rw [he] at hcol; cases hcol
  have hrows := (rowsWith_iff conv hc hh ht' _).2 ⟨hfit', rfl⟩
  refine ⟨(linesOf ls tab).map fun l => (l.key t', l.row conv t'), ?_, by rw [hout]; simp, ?_⟩
  · unfold write
    rw [h1, bind_ok]
    unfold Msg.write
    rw [h2, bind_ok, show Msg.schema true (some t') r = .ok t' from rfl, bind_ok, hrows]
    rfl
  · intro i p p' hp hp'
    rw [List.getElem?_map] at hp'
    rw [hout, List.getElem?_map] at hp
    cases hl : (linesOf ls tab)[i]? with
    | none => rw [hl] at hp; cases hp
    | some l =>
      rw [hl] at hp hp'
      cases hp
      cases hp'
      have hm := List.mem_of_getElem? hl
      have hcell : ∀ id ∈ fieldIds t'.cols, l.cell t' id = l.cell t id := by
        intro id hid
        unfold Line.cell
        congr 1
        apply find_congr
        intro f hf
        rcases hfields l hm f hf with he | ⟨he, hn⟩
        · rw [he]
        · rw [he]
          have : (t.column f.1).map Col.id ≠ some id := by
            intro hcid
            cases hcol : t.column f.1 with
            | none => simp [hcol] at hcid
            | some c =>
              have : c.id = id := by simpa [hcol] using hcid
              exact hn c hcol (this ▸ hid)
          simp [this]
      refine ⟨?_, rfl, ?_, ?_⟩
      · simp only [Line.key]
        congr 1
        apply List.filterMap_congr
        intro x hx
        rw [htags l hm x hx]
      · intro a b id ha hb
        simp only [Line.row]
        rw [List.getElem?_map, List.getElem?_map, ha, hb, Option.map_some, Option.map_some, hcell id (List.mem_of_getElem? hb)]
      · intro b id hna hb
        simp only [Line.row]
        rw [List.getElem?_map, hb, Option.map_some, hcell id (List.mem_of_getElem? hb)]
        cases hcv : l.cell t id with
        | none => rfl
        | some v =>
          exfalso
          unfold Line.cell at hcv
          cases hf : l.fields.find? (fun f => decide ((t.column f.1).map Col.id = some id)) with
          | none => rw [hf] at hcv; cases hcv
          | some f =>
            have e1 := List.find?_some hf
            have e2 := List.mem_of_find?_eq_some hf
            cases hcol : t.column f.1 with
            | none => simp [hcol] at e1
            | some c =>
              have hid : c.id = id := by simpa [hcol] using e1
              exact hna (mem_fieldIds.2 ⟨c, ((column_some ht).1 hcol).1, (hfit l hm).fields f e2 c hcol, hid⟩)

/-- A column stays if it is neither dropped nor renamed. -/
theorem mem_change {t : Table} (h : t.WF) (x : Change) {c : Col} (hc : c ∈ t.cols) (h1 : x ≠ .drop c.name)
    (h2 : ∀ b, x ≠ .rename c.name b) : c ∈ (x.run t).cols := by
  cases x with
  | write r =>
    simp only [Change.run]
    cases hp : plan r (some t) with
    | none => exact hc
    | some y =>
      obtain ⟨t', a⟩ := y
      exact (plan_some h hp).2.2.1.subset hc
  | add n k =>
    obtain ⟨a1, a2⟩ := C97_add t h n k
    by_cases hn : ∃ c ∈ t.cols, c.name = n
    · rw [a1 hn]; exact hc
    · rw [(a2 fun c hc e => hn ⟨c, hc, e⟩).1]; simp [hc]
  | drop n =>
    obtain ⟨a1, a2⟩ := C97_drop t h n
    by_cases hn : (∃ c ∈ t.cols, c.name = n ∧ c.isField = true) ∧ 2 ≤ t.cols.countP Col.isField
    · rw [a1 hn]
      refine List.mem_filter.2 ⟨hc, ?_⟩
      have : c.name ≠ n := fun e => h1 (by rw [e])
      simp [this]
    · rw [a2 hn]; exact hc
  | rename a b =>
    obtain ⟨a1, a2⟩ := C97_rename t h a b
    by_cases hn : (∃ c ∈ t.cols, c.name = a ∧ c.kind ≠ .time) ∧ (∀ c ∈ t.cols, c.name ≠ b)
    · rw [a1 hn]
      have : c.name ≠ a := fun e => h2 b (by rw [e])
      exact List.mem_map.2 ⟨c, hc, by simp [this]⟩
    · rw [a2 hn]; exact hc

theorem mem_changes : ∀ (xs : List Change) {t : Table}, t.WF → ∀ {c : Col}, c ∈ t.cols → (.drop c.name ∉ xs) →
    (∀ b, .rename c.name b ∉ xs) → c ∈ (xs.foldl Change.run t).cols
  | [], _, _, _, hc, _, _ => hc
  | x :: xs, t, h, c, hc, h1, h2 => by
    refine mem_changes xs (change_ok h x).1 (mem_change h x hc ?_ ?_) ?_ ?_
    · rintro rfl; simp at h1
    · rintro b rfl; exact h2 b (by simp)
    · exact fun hm => h1 (by simp [hm])
    · exact fun b hm => h2 b (by simp [hm])

/-- A name that the lines use. -/
def Uses (ls : List Line) (n : String) : Prop := ∃ l ∈ ls, n ∈ l.tags.map (·.1) ∨ n ∈ l.fields.map (·.1)

/-- It holds if none of the columns of the request was dropped or renamed meanwhile; columns may have been added.  Missing from
the full statement: dropped and renamed columns. -/
theorem C103_replay_partial {conv : Int → Option Int} {cur : Option Table} {ls : List Line} {tab : String} {t : Table}
    {out : List (List (Nat × Bytes) × Row)} {xs : List Change} (hw : ∀ t ∈ cur, t.WF) (hc : Clean (linesOf ls tab))
    (h : write conv false cur ls tab = .ok (t, out))
    (hd : ∀ n, .drop n ∈ xs → ¬ Uses (linesOf ls tab) n) (hr : ∀ n b, .rename n b ∈ xs → ¬ Uses (linesOf ls tab) n) :
    Replayed conv ls tab t (xs.foldl Change.run t) out := by
  obtain ⟨m, r, h1, h2, h3, h4⟩ := write_ok h
  obtain ⟨ht, hcov⟩ := schema_ok hw h3
  have hh := holds_msg (message_inv h1 hc.names)
  have ht' := (changes_ok xs ht).1
  have hcol : ∀ n, Uses (linesOf ls tab) n → ∀ c, t.column n = some c → (xs.foldl Change.run t).column n = some c := by
    intro n hn c hcn
    obtain ⟨hm, he⟩ := (column_some ht).1 hcn
    refine (column_some ht').2 ⟨mem_changes xs ht hm ?_ ?_, he⟩
    · intro hx; rw [he] at hx; exact hd n hx hn
    · intro b hx; rw [he] at hx; exact hr n b hx hn
  have hfit := ((rowsWith_iff conv hc hh ht out).1 h4).1
  refine replay_same hw ht' hc h ?_ ?_ ?_
  · intro l hl x hx
    obtain ⟨c, hcx, _⟩ := (covers_line hc hh ht h2 hcov hl).1 x hx
    rw [hcol x.1 ⟨l, hl, .inl (List.mem_map.2 ⟨x, hx, rfl⟩)⟩ c hcx, hcx]
  · intro l hl f hf
    obtain ⟨c, hcx, _⟩ := (covers_line hc hh ht h2 hcov hl).2 f hf
    exact .inl (by rw [hcol f.1 ⟨l, hl, .inr (List.mem_map.2 ⟨f, hf, rfl⟩)⟩ c hcx, hcx])
  · intro l hl
    obtain ⟨f, hf, _⟩ := (hfit l hl).some
    obtain ⟨c, hcx, _⟩ := (covers_line hc hh ht h2 hcov hl).2 f hf
    exact ⟨f, hf, by rw [hcol f.1 ⟨l, hl, .inr (List.mem_map.2 ⟨f, hf, rfl⟩)⟩ c hcx]; simp⟩

/-- It holds for a dropped column if every line has another field. -/
theorem C103_drop_partial {conv : Int → Option Int} {cur : Option Table} {ls : List Line} {tab : String} {t : Table}
    {out : List (List (Nat × Bytes) × Row)} {n : String} (hw : ∀ t ∈ cur, t.WF) (hc : Clean (linesOf ls tab))
    (h : write conv false cur ls tab = .ok (t, out)) (ho : ∀ l ∈ linesOf ls tab, ∃ f ∈ l.fields, f.1 ≠ n) :
    Replayed conv ls tab t ((Change.drop n).run t) out := by
  obtain ⟨m, r, h1, h2, h3, h4⟩ := write_ok h
  obtain ⟨ht, hcov⟩ := schema_ok hw h3
  have hh := holds_msg (message_inv h1 hc.names)
  have ht' := (change_ok ht (.drop n)).1
  have hcol : ∀ k, k ≠ n → ∀ c, t.column k = some c → ((Change.drop n).run t).column k = some c := by
    intro k hk c hck
    obtain ⟨hm, he⟩ := (column_some ht).1 hck
    refine (column_some ht').2 ⟨mem_change ht (.drop n) hm ?_ ?_, he⟩
    · rw [he]; intro e; cases e; exact hk rfl
    · intro b e; cases e
  obtain ⟨a1, a2⟩ := C97_drop t ht n
  refine replay_same hw ht' hc h ?_ ?_ ?_
  · intro l hl x hx
    obtain ⟨c, hcx, hck⟩ := (covers_line hc hh ht h2 hcov hl).1 x hx
    by_cases hn : (∃ c ∈ t.cols, c.name = n ∧ c.isField = true) ∧ 2 ≤ t.cols.countP Col.isField
    · have hxn : x.1 ≠ n := by
        rintro e
        obtain ⟨⟨c', hc', hn', hf'⟩, _⟩ := hn
        have := (column_some ht).2 ⟨hc', hn'⟩
        rw [← e, hcx] at this
        cases this
        simp [Col.isField, hck] at hf'
      rw [hcol x.1 hxn c hcx, hcx]
    · rw [a2 hn]
  · intro l hl f hf
    obtain ⟨c, hcx, _⟩ := (covers_line hc hh ht h2 hcov hl).2 f hf
    by_cases hfn : f.1 = n
    · by_cases hn : (∃ c ∈ t.cols, c.name = n ∧ c.isField = true) ∧ 2 ≤ t.cols.countP Col.isField
      · right
        refine ⟨(column_none ht').2 ?_, ?_⟩
        · intro c' hc' he
          rw [a1 hn] at hc'
          have := (List.mem_filter.1 hc').2
          simp [he, hfn] at this
        · intro c' hc' hid
          obtain ⟨d, hd, _, hdid⟩ := mem_fieldIds.1 hid
          rw [a1 hn] at hd
          obtain ⟨d1, d2⟩ := List.mem_filter.1 hd
          obtain ⟨e1, e2⟩ := (column_some ht).1 hc'
          have := eq_of_id ht.ids d1 e1 hdid
          rw [this, e2, hfn] at d2
          simp at d2
      · left; rw [a2 hn]
    · exact .inl (by rw [hcol f.1 hfn c hcx, hcx])
  · intro l hl
    obtain ⟨f, hf, hne⟩ := ho l hl
    obtain ⟨c, hcx, _⟩ := (covers_line hc hh ht h2 hcov hl).2 f hf
    exact ⟨f, hf, by rw [hcol f.1 hne c hcx]; simp⟩

end Verif.Write
