import Verif.Reader.Series
import Mathlib.Data.List.Induction
/-!
# Model: which source holds the most recent write

* `tskv/src/tsfamily/tseries_family.rs:158-176` — `switch_to_immutable`: the new write buffer takes the next file id
* `tskv/src/compaction/flush.rs:40-75` — a write buffer is flushed to a file of the same id
* `tskv/src/compaction/writer_wrapper.rs:80-86` — a compaction writes to a file of the next file id
* `tskv/src/reader/mod.rs:284-303` — the reader takes the source of the larger id as the newer one

Simplifications: one series with `cols` columns; a source is its id and its rows, with at most one row per time; a compaction writes one
file and lets the input file of the larger id win.
-/
namespace Verif.Reader.Latest

open Verif.Sort Verif.Reader

variable {α : Type}

/-- Cells of a newer row over cells of an older one. -/
def over (old new : List (Option α)) : List (Option α) := List.zipWith (fun o n => n.or o) old new

/-- Put a row into rows ordered by time; a value replaces the value of the same time and column. -/
def put : List (Row α) → Row α → List (Row α)
  | [], r => [r]
  | x :: l, r => if r.ts < x.ts then r :: x :: l else if r.ts = x.ts then ⟨x.ts, over x.cells r.cells⟩ :: l else x :: put l r

/-- A write buffer or a file. -/
structure Part (α : Type) where
  id : Nat
  rows : List (Row α)

/-- The storage of a vnode. -/
structure Db (α : Type) where
  files : List (Part α)
  immuts : List (Part α)
  act : Part α
  next : Nat

/-- What happens to the storage. -/
inductive Op (α : Type)
  | write (r : Row α)
  | switch
  | flush
  | compact (pick : List Nat)

/-- Order by file id (mod.rs:299-303). -/
def leP (a b : Part α) : Bool := decide (a.id ≤ b.id)

/-- The files a compaction reads. -/
def Db.chosen (d : Db α) (pick : List Nat) : List (Part α) := sortBy leP (d.files.filter fun f => pick.contains f.id)

/-- What a compaction writes: later files over earlier ones. -/
def mergeParts (ps : List (Part α)) : List (Row α) := ps.foldl (fun acc f => f.rows.foldl put acc) []

/-- An empty vnode; the first write buffer has the first file id (tseries_family.rs:60-100). -/
def Db.new : Db α := ⟨[], [], ⟨0, []⟩, 1⟩

/-- One step: a write goes to the active write buffer (tseries_family.rs:178-190), `switch_to_immutable` (tseries_family.rs:158-176), a flush turns
the immutable write buffers into files of the same ids (flush.rs:40-75), a compaction replaces the files it reads by one file of the
next id (writer_wrapper.rs:80-86). -/
def Db.step (d : Db α) : Op α → Db α
  | .write r => { d with act := ⟨d.act.id, put d.act.rows r⟩ }
  | .switch => if d.act.rows.isEmpty then d else { d with immuts := d.immuts ++ [d.act], act := ⟨d.next, []⟩, next := d.next + 1 }
  | .flush => { d with files := d.files ++ d.immuts, immuts := [] }
  | .compact pick =>
    { d with files := d.files.filter (fun f => !pick.contains f.id) ++ [⟨d.next, mergeParts (d.chosen pick)⟩], next := d.next + 1 }

/-- A history. -/
def Db.run (d : Db α) (ops : List (Op α)) : Db α := ops.foldl Db.step d

/-- All write buffers and files. -/
def Db.parts (d : Db α) : List (Part α) := d.files ++ d.immuts ++ [d.act]

/-- A write buffer or file as a source of the reader. -/
def Part.source (p : Part α) : Source α :=
  ⟨p.id, (p.rows.head?.map Row.ts).getD 0, (p.rows.getLast?.map Row.ts).getD 0, [.batch p.rows]⟩

/-- A query of everything. -/
def Db.read (d : Db α) (cols bs fuel : Nat) : Option (List (Row α)) := readSeries cols bs fuel (d.parts.map Part.source)

/-- What a query has to give: the written rows put one over the other in the order of the writes. -/
def latest : List (Op α) → List (Row α) → List (Row α)
  | [], acc => acc
  | .write r :: ops, acc => latest ops (put acc r)
  | _ :: ops, acc => latest ops acc

/-! ## Rows ordered by time -/

/-- Strictly increasing times. -/
def Inc (l : List (Row α)) : Prop := l.Pairwise fun a b => a.ts < b.ts

/-- The value at a time in a column. -/
def cellAt (l : List (Row α)) (t : Int) (c : Nat) : Option α := (l.find? fun r => decide (r.ts = t)).bind fun r => r.cell c

/-- A time of the rows. -/
def hasT (l : List (Row α)) (t : Int) : Prop := ∃ r ∈ l, r.ts = t

theorem hasT_put (l : List (Row α)) (r : Row α) (t : Int) : hasT (put l r) t ↔ hasT l t ∨ r.ts = t := by
  induction l with
  | nil => simp [put, hasT]
  | cons x l ih =>
    unfold put
    unfold hasT at ih ⊢
    split
    · simp only [List.mem_cons, exists_eq_or_imp]
      exact or_comm
    · split
      · rename_i h1 h2
        simp only [List.mem_cons, exists_eq_or_imp]
        constructor
        · intro h
          exact .inl h
        · rintro (h | h)
          · exact h
          · exact .inl (by omega)
      · simp only [List.mem_cons, exists_eq_or_imp, ih, or_assoc]

theorem inc_put {l : List (Row α)} (h : Inc l) (r : Row α) : Inc (put l r) := by
  induction l with
  | nil => simp [put, Inc]
  | cons x l ih =>
    unfold Inc at h
    rw [List.pairwise_cons] at h
    unfold put
    split
    · rename_i hlt
      unfold Inc
      rw [List.pairwise_cons, List.pairwise_cons]
      refine ⟨?_, h⟩
      intro y hy
      rcases List.mem_cons.1 hy with e | hy
      · rw [e]; exact hlt
      · have := h.1 y hy; omega
    · split
      · unfold Inc
        rw [List.pairwise_cons]
        exact h
      · unfold Inc
        rw [List.pairwise_cons]
        refine ⟨?_, ih h.2⟩
        intro y hy
        rcases (hasT_put l r y.ts).1 ⟨y, hy, rfl⟩ with ⟨z, hz, e⟩ | e
        · have := h.1 z hz; omega
        · omega

theorem width_put {cols : Nat} {l : List (Row α)} (h : ∀ x ∈ l, x.cells.length = cols) {r : Row α} (hr : r.cells.length = cols) :
    ∀ x ∈ put l r, x.cells.length = cols := by
  induction l with
  | nil => simpa [put] using hr
  | cons x l ih =>
    have hx := h x List.mem_cons_self
    unfold put
    split
    · intro y hy
      rcases List.mem_cons.1 hy with e | hy
      · rw [e]; exact hr
      · exact h y hy
    · split
      · intro y hy
        rcases List.mem_cons.1 hy with e | hy
        · rw [e]; simp [over, hx, hr]
        · exact h y (List.mem_cons_of_mem _ hy)
      · intro y hy
        rcases List.mem_cons.1 hy with e | hy
        · rw [e]; exact hx
        · exact ih (fun z hz => h z (List.mem_cons_of_mem _ hz)) y hy

theorem cellAt_none_of_lt {l : List (Row α)} {t : Int} (h : ∀ x ∈ l, t < x.ts) (c : Nat) : cellAt l t c = none := by
  unfold cellAt
  have : l.find? (fun r => decide (r.ts = t)) = none := by
    rw [List.find?_eq_none]
    intro x hx
    have := h x hx
    simp only [decide_eq_true_eq]; omega
  rw [this]; rfl

theorem cellAt_of_mem {l : List (Row α)} (h : Inc l) {r : Row α} (hr : r ∈ l) (c : Nat) : cellAt l r.ts c = r.cell c := by
  unfold cellAt
  cases hf : l.find? (fun x => decide (x.ts = r.ts)) with
  | none =>
    rw [List.find?_eq_none] at hf
    exact absurd (hf r hr) (by simp)
  | some x =>
    have h1 := List.mem_of_find?_eq_some hf
    have h2 := List.find?_some hf
    simp only [decide_eq_true_eq] at h2
    rw [inc_inj h h1 hr h2]; rfl

theorem cellAt_cons (x : Row α) (l : List (Row α)) (t : Int) (c : Nat) :
    cellAt (x :: l) t c = if x.ts = t then x.cell c else cellAt l t c := by
  unfold cellAt
  rw [List.find?_cons]
  by_cases h : x.ts = t <;> simp [h]

theorem over_cell {cols : Nat} {a b : Row α} (ha : a.cells.length = cols) (hb : b.cells.length = cols) {c : Nat} (hc : c < cols) (t : Int) :
    (Row.mk t (over a.cells b.cells)).cell c = (b.cell c).or (a.cell c) := by
  have h1 : c < a.cells.length := by omega
  have h2 : c < b.cells.length := by omega
  simp [Row.cell, over, List.getElem?_zipWith, h1, h2]

theorem cellAt_put {cols : Nat} {l : List (Row α)} (h : Inc l) (hw : ∀ x ∈ l, x.cells.length = cols) {r : Row α} (hr : r.cells.length = cols)
    (t : Int) {c : Nat} (hc : c < cols) :
    cellAt (put l r) t c = if r.ts = t then (r.cell c).or (cellAt l t c) else cellAt l t c := by
  induction l with
  | nil =>
    unfold put
    rw [cellAt_cons]
    simp [cellAt]
  | cons x l ih =>
    unfold Inc at h
    rw [List.pairwise_cons] at h
    unfold put
    split
    · rename_i hlt
      rw [cellAt_cons]
      by_cases e : r.ts = t
      · rw [if_pos e, if_pos e, cellAt_none_of_lt (by
          intro y hy
          rcases List.mem_cons.1 hy with e1 | hy
          · rw [e1]; omega
          · have := h.1 y hy; omega)]
        simp
      · rw [if_neg e, if_neg e]
    · split
      · rename_i h1 h2
        rw [cellAt_cons, cellAt_cons]
        simp only []
        by_cases e : x.ts = t
        · rw [if_pos e, if_pos e, if_pos (by omega), over_cell (hw x List.mem_cons_self) hr hc]
        · rw [if_neg e, if_neg e, if_neg (by omega)]
      · rename_i h1 h2
        rw [cellAt_cons, cellAt_cons, ih h.2 (fun z hz => hw z (List.mem_cons_of_mem _ hz))]
        by_cases e : x.ts = t
        · rw [if_pos e, if_pos e, if_neg (by omega)]
        · rw [if_neg e, if_neg e]

/-- Rows ordered by time, of the right width. -/
structure Tidy (cols : Nat) (l : List (Row α)) : Prop where
  inc : Inc l
  width : ∀ x ∈ l, x.cells.length = cols

theorem Tidy.nil (cols : Nat) : Tidy cols ([] : List (Row α)) := ⟨List.Pairwise.nil, by simp⟩

theorem Tidy.put {cols : Nat} {l : List (Row α)} (h : Tidy cols l) {r : Row α} (hr : r.cells.length = cols) : Tidy cols (put l r) :=
  ⟨inc_put h.inc r, width_put h.width hr⟩

theorem foldl_put {cols : Nat} (rows acc : List (Row α)) (hr : Tidy cols rows) (ha : Tidy cols acc) :
    Tidy cols (rows.foldl put acc) ∧ (∀ t, hasT (rows.foldl put acc) t ↔ hasT acc t ∨ hasT rows t) ∧
      ∀ t c, c < cols → cellAt (rows.foldl put acc) t c = (cellAt rows t c).or (cellAt acc t c) := by
  induction rows generalizing acc with
  | nil => exact ⟨ha, by simp [hasT], by simp [cellAt]⟩
  | cons x rows ih =>
    have hinc := hr.inc
    unfold Inc at hinc
    rw [List.pairwise_cons] at hinc
    have hx := hr.width x List.mem_cons_self
    obtain ⟨h1, h2, h3⟩ := ih (put acc x) ⟨hinc.2, fun y hy => hr.width y (List.mem_cons_of_mem _ hy)⟩ (ha.put hx)
    rw [List.foldl_cons]
    refine ⟨h1, ?_, ?_⟩
    · intro t
      rw [h2, hasT_put]
      simp only [hasT, List.mem_cons, exists_eq_or_imp, or_assoc]
    · intro t c hc
      rw [h3 t c hc, cellAt_put ha.inc ha.width hx t hc, cellAt_cons]
      by_cases e : x.ts = t
      · rw [if_pos e, if_pos e, cellAt_none_of_lt (fun y hy => by have := hinc.1 y hy; omega)]
        simp
      · rw [if_neg e, if_neg e]

/-- The value of the part of the largest id that has one. -/
def Best (ps : List (Part α)) (t : Int) (c : Nat) : Option α → Prop
  | none => ∀ p ∈ ps, cellAt p.rows t c = none
  | some v => ∃ p ∈ ps, cellAt p.rows t c = some v ∧ ∀ q ∈ ps, p.id < q.id → cellAt q.rows t c = none

theorem mergeParts_spec {cols : Nat} (ps : List (Part α)) (h : ∀ p ∈ ps, Tidy cols p.rows) (hs : ps.Pairwise fun a b => leP a b = true) :
    Tidy cols (mergeParts ps) ∧ (∀ t, hasT (mergeParts ps) t ↔ ∃ p ∈ ps, hasT p.rows t) ∧
      ∀ t c, c < cols → Best ps t c (cellAt (mergeParts ps) t c) := by
  induction ps using List.reverseRecOn with
  | nil => exact ⟨Tidy.nil cols, by simp [mergeParts, hasT], by simp [mergeParts, cellAt, Best]⟩
  | append_singleton ps p ih =>
    rw [List.pairwise_append] at hs
    obtain ⟨h1, h2, h3⟩ := ih (fun q hq => h q (List.mem_append_left _ hq)) hs.1
    have e : mergeParts (ps ++ [p]) = p.rows.foldl put (mergeParts ps) := by simp [mergeParts]
    have hp := h p (by simp)
    obtain ⟨f1, f2, f3⟩ := foldl_put p.rows (mergeParts ps) hp h1
    rw [e]
    refine ⟨f1, ?_, ?_⟩
    · intro t
      rw [f2, h2]
      constructor
      · rintro (⟨q, hq, ht⟩ | ht)
        · exact ⟨q, List.mem_append_left _ hq, ht⟩
        · exact ⟨p, by simp, ht⟩
      · rintro ⟨q, hq, ht⟩
        rcases List.mem_append.1 hq with hq | hq
        · exact .inl ⟨q, hq, ht⟩
        · simp only [List.mem_singleton] at hq; subst hq; exact .inr ht
    · intro t c hc
      rw [f3 t c hc]
      have h3 := h3 t c hc
      cases ep : cellAt p.rows t c with
      | some v =>
        simp only [Option.some_or]
        refine ⟨p, by simp, ep, ?_⟩
        intro q hq hlt
        rcases List.mem_append.1 hq with hq | hq
        · have := hs.2.2 q hq p (by simp)
          simp only [leP, decide_eq_true_eq] at this
          omega
        · simp only [List.mem_singleton] at hq; subst hq; omega
      | none =>
        simp only [Option.none_or]
        cases em : cellAt (mergeParts ps) t c with
        | none =>
          rw [em] at h3
          intro q hq
          rcases List.mem_append.1 hq with hq | hq
          · exact h3 q hq
          · simp only [List.mem_singleton] at hq; subst hq; exact ep
        | some v =>
          rw [em] at h3
          obtain ⟨q, hq, hv, hmax⟩ := h3
          refine ⟨q, List.mem_append_left _ hq, hv, ?_⟩
          intro r hr hlt
          rcases List.mem_append.1 hr with hr | hr
          · exact hmax r hr hlt
          · simp only [List.mem_singleton] at hr; subst hr; exact ep

/-! ## What holds at all times -/

/-- `want` is the right answer for the storage. -/
structure Inv (cols : Nat) (d : Db α) (want : List (Row α)) : Prop where
  tidy : Tidy cols want
  parts : ∀ p ∈ d.parts, Tidy cols p.rows
  ids : d.parts.Pairwise fun a b => a.id ≠ b.id
  next : ∀ p ∈ d.parts, p.id < d.next
  times : ∀ t, hasT want t ↔ ∃ p ∈ d.parts, hasT p.rows t
  best : ∀ t c, c < cols → Best d.parts t c (cellAt want t c)

/-- An operation after which the larger file id still means the newer value: a write does not hit a value of a file with a larger id
than the write buffer, and a compaction does not bring a value past a newer one of a source it does not read. -/
def Db.Safe (cols : Nat) (d : Db α) : Op α → Prop
  | .write r => ∀ p ∈ d.parts, d.act.id < p.id → ∀ c, c < cols → r.cell c ≠ none → cellAt p.rows r.ts c = none
  | .compact pick => ∀ t c, c < cols → ∀ k ∈ d.files, pick.contains k.id = true → cellAt k.rows t c ≠ none →
      ∀ p ∈ d.parts, ¬ (p ∈ d.files ∧ pick.contains p.id = true) → cellAt p.rows t c ≠ none →
        ∃ k' ∈ d.files, pick.contains k'.id = true ∧ cellAt k'.rows t c ≠ none ∧ p.id < k'.id
  | _ => True

/-- Rows have the columns of the table. -/
def Op.Ok (cols : Nat) : Op α → Prop
  | .write r => r.cells.length = cols
  | _ => True

/-- The right answer after an operation. -/
def want1 (acc : List (Row α)) : Op α → List (Row α)
  | .write r => put acc r
  | _ => acc

theorem mem_parts {d : Db α} {p : Part α} : p ∈ d.parts ↔ p ∈ d.files ∨ p ∈ d.immuts ∨ p = d.act := by
  simp [Db.parts]

theorem part_inj {l : List (Part α)} (h : l.Pairwise fun a b => a.id ≠ b.id) {x y : Part α} (hx : x ∈ l) (hy : y ∈ l) (e : x.id = y.id) : x = y := by
  induction l with
  | nil => cases hx
  | cons a l ih =>
    rw [List.pairwise_cons] at h
    rcases List.mem_cons.1 hx with e1 | hx <;> rcases List.mem_cons.1 hy with e2 | hy
    · rw [e1, e2]
    · exact absurd (by rw [← e1, e]) (h.1 y hy)
    · exact absurd (by rw [← e2, ← e]) (h.1 x hx)
    · exact ih h.2 hx hy

theorem Inv.write {cols : Nat} {d : Db α} {want : List (Row α)} (h : Inv cols d want) {r : Row α} (hr : r.cells.length = cols)
    (hs : d.Safe cols (.write r)) : Inv cols (d.step (.write r)) (put want r) := by
  have hact : d.act ∈ d.parts := mem_parts.2 (.inr (.inr rfl))
  have tact := h.parts _ hact
  have hids := h.ids
  unfold Db.parts at hids
  rw [List.pairwise_append] at hids
  have old : ∀ p, p ∈ d.files ++ d.immuts → p ∈ d.parts := fun p hp => List.mem_append_left _ hp
  have hparts : (d.step (.write r)).parts = (d.files ++ d.immuts) ++ [⟨d.act.id, put d.act.rows r⟩] := rfl
  refine ⟨h.tidy.put hr, ?_, ?_, ?_, ?_, ?_⟩
  · intro p hp
    rw [hparts] at hp
    rcases List.mem_append.1 hp with hp | hp
    · exact h.parts p (old p hp)
    · simp only [List.mem_singleton] at hp
      rw [hp]; exact tact.put hr
  · rw [hparts, List.pairwise_append]
    refine ⟨hids.1, by simp, ?_⟩
    intro p hp q hq
    simp only [List.mem_singleton] at hq
    rw [hq]; exact hids.2.2 p hp d.act (by simp)
  · intro p hp
    rw [hparts] at hp
    rcases List.mem_append.1 hp with hp | hp
    · exact h.next p (old p hp)
    · simp only [List.mem_singleton] at hp
      rw [hp]; exact h.next d.act hact
  · intro t
    rw [hasT_put, h.times, hparts]
    constructor
    · rintro (⟨p, hp, ht⟩ | ht)
      · rcases List.mem_append.1 hp with hp | hp
        · exact ⟨p, List.mem_append_left _ hp, ht⟩
        · simp only [List.mem_singleton] at hp
          rw [hp] at ht
          exact ⟨_, List.mem_append_right _ (List.mem_singleton.2 rfl), (hasT_put _ _ _).2 (.inl ht)⟩
      · exact ⟨_, List.mem_append_right _ (List.mem_singleton.2 rfl), (hasT_put _ _ _).2 (.inr ht)⟩
    · rintro ⟨p, hp, ht⟩
      rcases List.mem_append.1 hp with hp | hp
      · exact .inl ⟨p, old p hp, ht⟩
      · simp only [List.mem_singleton] at hp
        rw [hp] at ht
        rcases (hasT_put _ _ _).1 ht with ht | ht
        · exact .inl ⟨_, hact, ht⟩
        · exact .inr ht
  · intro t c hc
    rw [cellAt_put h.tidy.inc h.tidy.width hr t hc, hparts]
    have hcell := cellAt_put tact.inc tact.width hr t hc
    by_cases hn : r.ts = t ∧ r.cell c ≠ none
    · obtain ⟨e, hn⟩ := hn
      rw [if_pos e]
      cases hv : r.cell c with
      | none => exact absurd hv hn
      | some v =>
        simp only [Option.some_or]
        refine ⟨_, List.mem_append_right _ (List.mem_singleton.2 rfl), ?_, ?_⟩
        · rw [hcell, if_pos e, hv]; rfl
        · intro q hq hlt
          simp only at hlt
          rcases List.mem_append.1 hq with hq | hq
          · rw [← e]; exact hs q (old q hq) hlt c hc hn
          · simp only [List.mem_singleton] at hq
            rw [hq] at hlt; simp only at hlt; omega
    · have e1 : (if r.ts = t then (r.cell c).or (cellAt want t c) else cellAt want t c) = cellAt want t c := by
        split
        · rename_i e
          have : r.cell c = none := by
            cases hv : r.cell c with
            | none => rfl
            | some v => exact absurd ⟨e, by rw [hv]; simp⟩ hn
          rw [this]; rfl
        · rfl
      have e2 : cellAt (put d.act.rows r) t c = cellAt d.act.rows t c := by
        rw [hcell]
        split
        · rename_i e
          have : r.cell c = none := by
            cases hv : r.cell c with
            | none => rfl
            | some v => exact absurd ⟨e, by rw [hv]; simp⟩ hn
          rw [this]; rfl
        · rfl
      rw [e1]
      have hb := h.best t c hc
      revert hb
      cases cellAt want t c with
      | none =>
        intro hb q hq
        rcases List.mem_append.1 hq with hq | hq
        · exact hb q (old q hq)
        · simp only [List.mem_singleton] at hq
          rw [hq, e2]; exact hb _ hact
      | some v =>
        rintro ⟨p, hp, hv, hmax⟩
        have hmax' : ∀ q ∈ (d.files ++ d.immuts) ++ [(⟨d.act.id, put d.act.rows r⟩ : Part α)], p.id < q.id → cellAt q.rows t c = none := by
          intro q hq hlt
          rcases List.mem_append.1 hq with hq | hq
          · exact hmax q (old q hq) hlt
          · simp only [List.mem_singleton] at hq
            rw [hq] at hlt ⊢
            rw [e2]; exact hmax _ hact hlt
        rcases List.mem_append.1 hp with hp | hp
        · exact ⟨p, List.mem_append_left _ hp, hv, hmax'⟩
        · simp only [List.mem_singleton] at hp
          rw [hp] at hv hmax'
          exact ⟨_, List.mem_append_right _ (List.mem_singleton.2 rfl), by rw [e2]; exact hv, hmax'⟩

theorem Inv.switch {cols : Nat} {d : Db α} {want : List (Row α)} (h : Inv cols d want) : Inv cols (d.step .switch) want := by
  unfold Db.step
  simp only
  split
  · exact h
  · have hparts : (Db.mk d.files (d.immuts ++ [d.act]) ⟨d.next, []⟩ (d.next + 1)).parts = d.parts ++ [⟨d.next, []⟩] := by
      simp [Db.parts]
    refine ⟨h.tidy, ?_, ?_, ?_, ?_, ?_⟩
    · intro p hp
      rw [hparts] at hp
      rcases List.mem_append.1 hp with hp | hp
      · exact h.parts p hp
      · simp only [List.mem_singleton] at hp
        rw [hp]; exact Tidy.nil cols
    · rw [hparts, List.pairwise_append]
      refine ⟨h.ids, by simp, ?_⟩
      intro p hp q hq
      simp only [List.mem_singleton] at hq
      rw [hq]
      have := h.next p hp
      simp only; omega
    · intro p hp
      rw [hparts] at hp
      rcases List.mem_append.1 hp with hp | hp
      · have := h.next p hp; simp only; omega
      · simp only [List.mem_singleton] at hp
        rw [hp]; simp only; omega
    · intro t
      rw [h.times, hparts]
      constructor
      · rintro ⟨p, hp, ht⟩
        exact ⟨p, List.mem_append_left _ hp, ht⟩
      · rintro ⟨p, hp, ht⟩
        rcases List.mem_append.1 hp with hp | hp
        · exact ⟨p, hp, ht⟩
        · simp only [List.mem_singleton] at hp
          rw [hp] at ht
          obtain ⟨x, hx, _⟩ := ht
          cases hx
    · intro t c hc
      have hb := h.best t c hc
      rw [hparts]
      revert hb
      cases cellAt want t c with
      | none =>
        intro hb q hq
        rcases List.mem_append.1 hq with hq | hq
        · exact hb q hq
        · simp only [List.mem_singleton] at hq
          rw [hq]; rfl
      | some v =>
        rintro ⟨p, hp, hv, hmax⟩
        refine ⟨p, List.mem_append_left _ hp, hv, ?_⟩
        intro q hq hlt
        rcases List.mem_append.1 hq with hq | hq
        · exact hmax q hq hlt
        · simp only [List.mem_singleton] at hq
          rw [hq]; rfl

theorem Inv.flush {cols : Nat} {d : Db α} {want : List (Row α)} (h : Inv cols d want) : Inv cols (d.step .flush) want := by
  have hparts : (d.step .flush).parts = d.parts := by simp [Db.step, Db.parts]
  exact ⟨h.tidy, by rw [hparts]; exact h.parts, by rw [hparts]; exact h.ids, by rw [hparts]; exact h.next, by rw [hparts]; exact h.times,
    by rw [hparts]; exact h.best⟩

theorem mem_chosen {d : Db α} {pick : List Nat} {p : Part α} : p ∈ d.chosen pick ↔ p ∈ d.files ∧ pick.contains p.id = true := by
  unfold Db.chosen
  rw [mem_sortBy, List.mem_filter]

theorem Inv.compact {cols : Nat} {d : Db α} {want : List (Row α)} (h : Inv cols d want) {pick : List Nat}
    (hs : d.Safe cols (.compact pick)) : Inv cols (d.step (.compact pick)) want := by
  have hin : ∀ p ∈ d.chosen pick, p ∈ d.parts := fun p hp => mem_parts.2 (.inl (mem_chosen.1 hp).1)
  have hsort : (d.chosen pick).Pairwise fun a b => leP a b = true := sortBy_sorted (by intro a b c; simp only [leP, decide_eq_true_eq]; omega)
    (by intro a b; simp only [leP, decide_eq_true_eq]; omega) _
  obtain ⟨m1, m2, m3⟩ := mergeParts_spec (d.chosen pick) (fun p hp => h.parts p (hin p hp)) hsort
  generalize ho : (⟨d.next, mergeParts (d.chosen pick)⟩ : Part α) = out at *
  have hparts : (d.step (.compact pick)).parts = (d.files.filter (fun f => !pick.contains f.id) ++ [out]) ++ d.immuts ++ [d.act] := by rw [← ho]; rfl
  have hrows : out.rows = mergeParts (d.chosen pick) := by rw [← ho]
  have hoid : out.id = d.next := by rw [← ho]
  have fwd : ∀ q ∈ (d.step (.compact pick)).parts, q = out ∨ q ∈ d.parts := by
    intro q hq
    rw [hparts] at hq
    simp only [List.mem_append, List.mem_singleton, List.mem_filter] at hq
    rcases hq with (((hq | hq) | hq) | hq)
    · exact .inr (mem_parts.2 (.inl hq.1))
    · exact .inl hq
    · exact .inr (mem_parts.2 (.inr (.inl hq)))
    · exact .inr (mem_parts.2 (.inr (.inr hq)))
  have hout : out ∈ (d.step (.compact pick)).parts := by rw [hparts]; simp
  have bwd : ∀ q ∈ d.parts, q ∉ d.chosen pick → q ∈ (d.step (.compact pick)).parts := by
    intro q hq hn
    rw [hparts]
    simp only [List.mem_append, List.mem_singleton, List.mem_filter]
    rcases mem_parts.1 hq with hq | hq | hq
    · refine .inl (.inl (.inl ⟨hq, ?_⟩))
      cases hc : pick.contains q.id with
      | false => rfl
      | true => exact absurd (mem_chosen.2 ⟨hq, hc⟩) hn
    · exact .inl (.inr hq)
    · exact .inr hq
  refine ⟨h.tidy, ?_, ?_, ?_, ?_, ?_⟩
  · intro p hp
    rcases fwd p hp with e | hp
    · rw [e, hrows]; exact m1
    · exact h.parts p hp
  · have hp : (d.step (.compact pick)).parts.Perm (out :: (d.files.filter (fun f => !pick.contains f.id) ++ d.immuts ++ [d.act])) := by
      rw [hparts, List.append_assoc, List.append_assoc, List.append_assoc]
      exact List.perm_middle
    rw [hp.pairwise_iff (fun hab => Ne.symm hab), List.pairwise_cons]
    have hsub : (d.files.filter (fun f => !pick.contains f.id) ++ d.immuts ++ [d.act]).Sublist d.parts :=
      (List.Sublist.append (List.Sublist.append List.filter_sublist (List.Sublist.refl _)) (List.Sublist.refl _))
    refine ⟨?_, h.ids.sublist hsub⟩
    intro q hq
    have := h.next q (hsub.subset hq)
    rw [hoid]; omega
  · intro p hp
    have hnx : (d.step (.compact pick)).next = d.next + 1 := rfl
    rcases fwd p hp with e | hp
    · rw [e, hoid, hnx]; omega
    · have := h.next p hp; omega
  · intro t
    rw [h.times]
    constructor
    · rintro ⟨p, hp, ht⟩
      by_cases hc : p ∈ d.chosen pick
      · exact ⟨out, hout, by rw [hrows]; exact (m2 t).2 ⟨p, hc, ht⟩⟩
      · exact ⟨p, bwd p hp hc, ht⟩
    · rintro ⟨p, hp, ht⟩
      rcases fwd p hp with e | hp
      · rw [e, hrows] at ht
        obtain ⟨k, hk, hkt⟩ := (m2 t).1 ht
        exact ⟨k, hin k hk, hkt⟩
      · exact ⟨p, hp, ht⟩
  · intro t c hc
    have hb := h.best t c hc
    have mb := m3 t c hc
    rw [← hrows] at mb
    revert hb
    cases cellAt want t c with
    | none =>
      intro hb q hq
      rcases fwd q hq with e | hq
      · rw [e]
        cases ev : cellAt out.rows t c with
        | none => rfl
        | some v =>
          rw [ev] at mb
          obtain ⟨k, hk, hkv, _⟩ := mb
          rw [hb k (hin k hk)] at hkv
          cases hkv
      · exact hb q hq
    | some v =>
      rintro ⟨p, hp, hv, hmax⟩
      by_cases hpc : p ∈ d.chosen pick
      · refine ⟨out, hout, ?_, ?_⟩
        · cases ev : cellAt out.rows t c with
          | none =>
            rw [ev] at mb
            rw [mb p hpc] at hv
            cases hv
          | some w =>
            rw [ev] at mb
            obtain ⟨k, hk, hkv, hkmax⟩ := mb
            have e : p.id = k.id := by
              rcases Nat.lt_trichotomy p.id k.id with hlt | heq | hlt
              · rw [hmax k (hin k hk) hlt] at hkv; cases hkv
              · exact heq
              · rw [hkmax p hpc hlt] at hv; cases hv
            have e := part_inj h.ids hp (hin k hk) e
            rw [← hkv, ← e, hv]
        · intro q hq hlt
          rcases fwd q hq with e | hq
          · rw [e] at hlt; omega
          · have := h.next q hq
            rw [hoid] at hlt; omega
      · refine ⟨p, bwd p hp hpc, hv, ?_⟩
        intro q hq hlt
        rcases fwd q hq with e | hq
        · rw [e]
          cases ev : cellAt out.rows t c with
          | none => rfl
          | some w =>
            rw [ev] at mb
            obtain ⟨k, hk, hkv, _⟩ := mb
            obtain ⟨hk1, hk2⟩ := mem_chosen.1 hk
            obtain ⟨k', hk', hk2', hkn, hlt'⟩ := hs t c hc k hk1 hk2 (by rw [hkv]; simp) p hp (fun hh => hpc (mem_chosen.2 hh)) (by rw [hv]; simp)
            exact absurd (hmax k' (mem_parts.2 (.inl hk')) hlt') hkn
        · exact hmax q hq hlt

theorem Inv.step {cols : Nat} {d : Db α} {want : List (Row α)} (h : Inv cols d want) (op : Op α) (hok : op.Ok cols) (hs : d.Safe cols op) :
    Inv cols (d.step op) (want1 want op) := by
  cases op with
  | write r => exact h.write hok hs
  | switch => exact h.switch
  | flush => exact h.flush
  | compact pick => exact h.compact hs

theorem Inv.new (cols : Nat) : Inv cols (Db.new : Db α) [] := by
  refine ⟨Tidy.nil cols, ?_, by simp [Db.parts, Db.new], ?_, ?_, ?_⟩
  · intro p hp
    simp only [Db.parts, Db.new, List.nil_append, List.mem_singleton] at hp
    rw [hp]; exact Tidy.nil cols
  · intro p hp
    simp only [Db.parts, Db.new, List.nil_append, List.mem_singleton] at hp
    rw [hp]; exact Nat.zero_lt_one
  · intro t
    simp [Db.parts, Db.new, hasT]
  · intro t c _ p hp
    simp only [Db.parts, Db.new, List.nil_append, List.mem_singleton] at hp
    rw [hp]; rfl

/-- The operations are safe, each in the state it meets, and rows have the columns of the table. -/
def SafeRun (cols : Nat) : Db α → List (Op α) → Prop
  | _, [] => True
  | d, op :: ops => op.Ok cols ∧ d.Safe cols op ∧ SafeRun cols (d.step op) ops

theorem Inv.run {cols : Nat} (ops : List (Op α)) (d : Db α) (want : List (Row α)) (h : Inv cols d want) (hs : SafeRun cols d ops) :
    Inv cols (d.run ops) (latest ops want) := by
  induction ops generalizing d want with
  | nil => exact h
  | cons op ops ih =>
    obtain ⟨h1, h2, h3⟩ := hs
    have := ih (d.step op) _ (h.step op h1 h2) h3
    cases op <;> exact this

theorem inc_bounds {l : List (Row α)} (h : Inc l) {r : Row α} (hr : r ∈ l) :
    (l.head?.map Row.ts).getD 0 ≤ r.ts ∧ r.ts ≤ (l.getLast?.map Row.ts).getD 0 := by
  constructor
  · cases l with
    | nil => cases hr
    | cons x l =>
      unfold Inc at h
      rw [List.pairwise_cons] at h
      simp only [List.head?_cons, Option.map_some, Option.getD_some]
      rcases List.mem_cons.1 hr with e | hr
      · rw [e]; omega
      · have := h.1 r hr; omega
  · cases hl : l.getLast? with
    | none =>
      rw [List.getLast?_eq_none_iff] at hl
      rw [hl] at hr; cases hr
    | some y =>
      obtain ⟨pre, hpre⟩ := List.getLast?_eq_some_iff.1 hl
      unfold Inc at h
      rw [hpre, List.pairwise_append] at h
      simp only [Option.map_some, Option.getD_some]
      rw [hpre] at hr
      rcases List.mem_append.1 hr with hr | hr
      · have := h.2.2 r hr y (by simp); omega
      · simp only [List.mem_singleton] at hr; rw [hr]; omega

theorem source_rows (p : Part α) : p.source.rows = p.rows := by simp [Part.source, Source.rows, rowsOf]

theorem Inv.ok {cols : Nat} {d : Db α} {want : List (Row α)} (h : Inv cols d want) : SourcesOk cols (d.parts.map Part.source) := by
  refine ⟨?_, ?_, ?_, ?_⟩
  · rw [List.pairwise_map]; exact h.ids
  · intro s hs
    obtain ⟨p, hp, rfl⟩ := List.mem_map.1 hs
    rw [source_rows]; exact (h.parts p hp).inc
  · intro s hs r hr
    obtain ⟨p, hp, rfl⟩ := List.mem_map.1 hs
    rw [source_rows] at hr
    exact inc_bounds (h.parts p hp).inc hr
  · intro s hs r hr
    obtain ⟨p, hp, rfl⟩ := List.mem_map.1 hs
    rw [source_rows] at hr
    exact (h.parts p hp).width r hr

theorem Inv.answer {cols : Nat} {d : Db α} {want : List (Row α)} (h : Inv cols d want) : Answer cols (d.parts.map Part.source) want := by
  refine ⟨h.tidy.inc, ?_, h.tidy.width, ?_, ?_⟩
  · intro t
    have := h.times t
    unfold hasT at this
    rw [List.mem_map, this]
    constructor
    · rintro ⟨p, hp, x, hx, e⟩
      exact ⟨p.source, List.mem_map.2 ⟨p, hp, rfl⟩, x, by rw [source_rows]; exact hx, e⟩
    · rintro ⟨s, hs, x, hx, e⟩
      obtain ⟨p, hp, rfl⟩ := List.mem_map.1 hs
      rw [source_rows] at hx
      exact ⟨p, hp, x, hx, e⟩
  · intro r hr c hc hn s hs x hx hxt
    obtain ⟨p, hp, rfl⟩ := List.mem_map.1 hs
    rw [source_rows] at hx
    have hb := h.best r.ts c hc
    rw [cellAt_of_mem h.tidy.inc hr, hn] at hb
    rw [← cellAt_of_mem (h.parts p hp).inc hx, hxt]
    exact hb p hp
  · intro r hr c hc v hv
    have hb := h.best r.ts c hc
    rw [cellAt_of_mem h.tidy.inc hr, hv] at hb
    obtain ⟨p, hp, hpv, hmax⟩ := hb
    refine ⟨p.source, List.mem_map.2 ⟨p, hp, rfl⟩, ?_, ?_⟩
    · unfold cellAt at hpv
      obtain ⟨x, hx, hxv⟩ := Option.bind_eq_some_iff.1 hpv
      have h1 := List.mem_of_find?_eq_some hx
      have h2 := List.find?_some hx
      simp only [decide_eq_true_eq] at h2
      exact ⟨x, by rw [source_rows]; exact h1, h2, hxv⟩
    · intro s' hs' hlt x hx hxt
      obtain ⟨q, hq, rfl⟩ := List.mem_map.1 hs'
      rw [source_rows] at hx
      rw [← cellAt_of_mem (h.parts q hq).inc hx, hxt]
      exact hmax q hq hlt

/-- **C37**, for histories in which each write and each compaction is safe (`Db.Safe`): a query gives for every time and column the
most recently written value.  Other histories are refuted by `C37_compaction_refuted` and `C37_write_after_compaction_refuted`. -/
theorem C37_safe_partial (cols bs : Nat) (hbs : 1 ≤ bs) (ops : List (Op α)) (hs : SafeRun cols Db.new ops) :
    ∃ N, ∀ fuel, N < fuel → ((Db.new : Db α).run ops).read cols bs fuel = some (latest ops []) := by
  have h := Inv.run ops Db.new [] (Inv.new cols) hs
  obtain ⟨N, out, h1, h2⟩ := C35_series_read cols bs hbs _ h.ok
  refine ⟨N, fun fuel hf => ?_⟩
  unfold Db.read
  rw [h1 fuel hf, h2.unique h.ok h.answer]

/-- No operation is a compaction. -/
def NoCompact (ops : List (Op α)) : Prop := ∀ op ∈ ops, ∀ pick, op ≠ .compact pick

theorem safe_of_noCompact {cols : Nat} (ops : List (Op α)) (hok : ∀ op ∈ ops, op.Ok cols) (hn : NoCompact ops) (d : Db α)
    (hd : ∀ p ∈ d.parts, p.id ≤ d.act.id) (hx : d.act.id < d.next) : SafeRun cols d ops := by
  induction ops generalizing d with
  | nil => trivial
  | cons op ops ih =>
    have hok' : ∀ op ∈ ops, op.Ok cols := fun o ho => hok o (List.mem_cons_of_mem _ ho)
    have hn' : NoCompact ops := fun o ho => hn o (List.mem_cons_of_mem _ ho)
    refine ⟨hok op List.mem_cons_self, ?_, ?_⟩
    · cases op with
      | write r =>
        intro p hp hlt
        have := hd p hp; omega
      | compact pick => exact absurd rfl (hn _ List.mem_cons_self pick)
      | _ => trivial
    · apply ih hok' hn'
      · cases op with
        | write r =>
          intro p hp
          rcases mem_parts.1 hp with hp | hp | hp
          · exact hd p (mem_parts.2 (.inl hp))
          · exact hd p (mem_parts.2 (.inr (.inl hp)))
          · rw [hp]; omega
        | switch =>
          unfold Db.step
          simp only
          split
          · exact hd
          · intro p hp
            simp only
            rcases mem_parts.1 hp with hp | hp | hp
            · have := hd p (mem_parts.2 (.inl hp)); omega
            · simp only [List.mem_append, List.mem_singleton] at hp
              rcases hp with hp | hp
              · have := hd p (mem_parts.2 (.inr (.inl hp))); omega
              · rw [hp]; omega
            · rw [hp]; simp
        | flush =>
          intro p hp
          have : p ∈ d.parts := by
            rcases mem_parts.1 hp with hp | hp | hp
            · simp only [Db.step, List.mem_append] at hp
              rcases hp with hp | hp
              · exact mem_parts.2 (.inl hp)
              · exact mem_parts.2 (.inr (.inl hp))
            · cases hp
            · exact mem_parts.2 (.inr (.inr hp))
          exact hd p this
        | compact pick => exact absurd rfl (hn _ List.mem_cons_self pick)
      · cases op with
        | write r => exact hx
        | switch =>
          unfold Db.step
          simp only
          split
          · exact hx
          · simp only; omega
        | flush => exact hx
        | compact pick => exact absurd rfl (hn _ List.mem_cons_self pick)

/-- **C37** without compactions: for every interleaving of writes, switches and flushes a query gives the most recently written
values. -/
theorem C37_no_compaction_partial (cols bs : Nat) (hbs : 1 ≤ bs) (ops : List (Op α)) (hok : ∀ op ∈ ops, op.Ok cols) (hn : NoCompact ops) :
    ∃ N, ∀ fuel, N < fuel → ((Db.new : Db α).run ops).read cols bs fuel = some (latest ops []) :=
  C37_safe_partial cols bs hbs ops (safe_of_noCompact ops hok hn Db.new
    (by intro p hp; simp only [Db.parts, Db.new, List.nil_append, List.mem_singleton] at hp; rw [hp]; exact Nat.le_refl _) Nat.zero_lt_one)

/-- A history for the examples. -/
def exOps : List (Op Nat) :=
  [.write ⟨1, [some 1, none]⟩, .write ⟨2, [some 2, some 2]⟩, .switch, .write ⟨1, [none, some 9]⟩, .flush, .write ⟨2, [some 7, none]⟩, .switch, .flush,
   .write ⟨2, [none, some 8]⟩]

example : (∀ op ∈ exOps, op.Ok 2) ∧ NoCompact exOps ∧ latest exOps [] = [⟨1, [some 1, some 9]⟩, ⟨2, [some 7, some 8]⟩] := by
  refine ⟨?_, ?_, by decide⟩
  · intro op hop
    simp only [exOps, List.mem_cons, List.not_mem_nil, or_false] at hop
    rcases hop with h | h | h | h | h | h | h | h | h <;> subst h <;> simp [Op.Ok]
  · intro op hop pick
    simp only [exOps, List.mem_cons, List.not_mem_nil, or_false] at hop
    rcases hop with h | h | h | h | h | h | h | h | h <;> subst h <;> simp

example : ((Db.new : Db Nat).run exOps).read 2 10 50 = some [⟨1, [some 1, some 9]⟩, ⟨2, [some 7, some 8]⟩] := by decide +kernel

/-- A write that comes before a compaction of older files. -/
def exCompact : List (Op Nat) :=
  [.write ⟨1, [some 5]⟩, .switch, .flush, .write ⟨2, [some 6]⟩, .switch, .flush, .write ⟨1, [some 7]⟩, .compact [0, 1]]

/-- **C37 is false**: the files of ids 0 and 1 are compacted while the write buffer of id 2 holds a newer value for time 1; the
compacted file gets id 3, and the query gives the overwritten value. -/
theorem C37_compaction_refuted :
    latest exCompact [] = [⟨1, [some 7]⟩, ⟨2, [some 6]⟩] ∧
      ((Db.new : Db Nat).run exCompact).read 1 10 50 = some [⟨1, [some 5]⟩, ⟨2, [some 6]⟩] ∧
      ((Db.new : Db Nat).run (exCompact ++ [.switch, .flush])).read 1 10 50 = some [⟨1, [some 5]⟩, ⟨2, [some 6]⟩] := by
  decide +kernel

/-- **C37 is false** for a write after the compaction too: the write buffer has a smaller id than the compacted file. -/
theorem C37_write_after_compaction_refuted :
    let ops : List (Op Nat) := [.write ⟨1, [some 5]⟩, .switch, .flush, .compact [0], .write ⟨1, [some 7]⟩]
    latest ops [] = [⟨1, [some 7]⟩] ∧ ((Db.new : Db Nat).run ops).read 1 10 50 = some [⟨1, [some 5]⟩] := by
  decide +kernel

end Verif.Reader.Latest
