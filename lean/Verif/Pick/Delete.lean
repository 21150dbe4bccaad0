import Verif.Pick.Picker
/-!
# Deletes while a compaction runs
-/
namespace Verif.Pick

open Verif.Sort Verif.Reader Verif.Compact Verif.Time Verif.Tomb

variable {α : Type}

/-- A row without values. -/
def wiped (r : Row α) : Row α := ⟨r.ts, r.cells.map fun _ => none⟩

/-- The rows of a file after a delete has been added to its tombstone (`add_range`, tombstone.rs): the values of the series are gone. -/
def wipe (sids : List Nat) (r : TimeRange) (f : File α) : File α :=
  ⟨true, f.chunks.map fun c => (c.1, if sids.contains c.1 then
    c.2.map fun p => { p with rows := p.rows.map fun x => if r.contains x.ts then wiped x else x } else c.2)⟩

/-- `VnodeStorage::delete` for one range (vnode_store.rs:573-608, super_version.rs:92-132): all files of the version get a tombstone.  Files
being compacted are no exception ("Stop compaction when doing delete TODO", vnode_store.rs:597). -/
def delete (s : Levels α) (sids : List Nat) (r : TimeRange) : Levels α := s.map fun f => { f with body := wipe sids r f.body }

theorem rows_wipe (sids : List Nat) (tr : TimeRange) (f : File α) (sid : Nat) :
    (wipe sids tr f).rows sid = if sid ∈ sids then (f.rows sid).map fun x => if tr.contains x.ts then wiped x else x else f.rows sid := by
  unfold File.rows File.pieces wipe
  simp only
  generalize f.chunks = l
  induction l with
  | nil => simp
  | cons c l ih =>
    rw [List.map_cons, List.find?_cons, List.find?_cons]
    by_cases h : c.1 = sid
    · simp only [h, decide_true, Option.map_some, Option.getD_some]
      by_cases hs : sid ∈ sids
      · simp only [hs, List.contains_iff_mem, if_true]
        rw [List.flatMap_map]
        induction c.2 with
        | nil => rfl
        | cons p ps ih => rw [List.flatMap_cons, List.flatMap_cons, List.map_append, ih]
      · simp [hs]
    · simp only [h, decide_false]
      exact ih

theorem cell_wiped (r : Row α) (c : Nat) : (wiped r).cell c = none := by
  unfold Row.cell wiped
  simp only [List.getElem?_map]
  cases r.cells[c]? <;> rfl

/-- No value of the series is left in the range. -/
def Gone (cols : Nat) (s : Levels α) (sids : List Nat) (r : TimeRange) : Prop :=
  ∀ sid ∈ sids, ∀ p ∈ rowsIn s sid, Has r p.2.ts → ∀ c, c < cols → p.2.cell c = none

theorem has_contains {r : TimeRange} {t : Int} : r.contains t = true ↔ Has r t := by
  unfold TimeRange.contains Has
  simp

/-- A delete leaves nothing in a version in which it is made. -/
theorem C106_delete (cols : Nat) (s : Levels α) (sids : List Nat) (r : TimeRange) : Gone cols (delete s sids r) sids r := by
  intro sid hs p hp ht c _
  obtain ⟨f, hf, _, hr⟩ := mem_rowsIn.1 hp
  unfold delete at hf
  obtain ⟨g, _, rfl⟩ := List.mem_map.1 hf
  simp only at hr
  rw [rows_wipe, if_pos hs] at hr
  obtain ⟨x, _, e⟩ := List.mem_map.1 hr
  split at e
  · rw [← e, cell_wiped]
  · rename_i hn
    rw [← e] at ht
    exact absurd (has_contains.2 ht) hn

/-- What was deleted before a compaction stays deleted: the compaction keeps the rows of the version as they are. -/
theorem C106_before_partial {cols block : Nat} {s : Levels α} {q : Req α} (hb : 1 ≤ block) (h : Ok cols s) (hq : q.Fits s)
    (hsort : (start (q.inputs.map DFile.body)).Pairwise fun a b => leC a b = true) (id size : Nat) {sids : List Nat} {r : TimeRange}
    (hg : Gone cols s sids r) : ∃ N e, (∀ fuel, N < fuel → q.job cols block fuel id size = some e) ∧ Gone cols (install s e) sids r := by
  obtain ⟨N, e, h1, h2⟩ := C104_rows_partial hb h hq hsort ⟨h.ids, fun f hf => ⟨f, hq.sub f hf, rfl, rfl⟩⟩ id size
  refine ⟨N, e, h1, ?_⟩
  intro sid hs p hp ht c hc
  cases hcell : p.2.cell c with
  | none => rfl
  | some v =>
    obtain ⟨p', hp', e', hv⟩ := (h2.values sid p.2.ts c hc).2 ⟨p, hp, rfl, by rw [hcell]; simp⟩
    exact absurd (hg sid hs p' hp' (by rw [e']; exact ht) c hc) hv

/-- Full statement of **C106** for a delete while the job of a request runs. -/
def C106Full : Prop :=
  ∀ (cols block fuel id size : Nat) (s : Levels Nat) (q : Req Nat) (e : Edit Nat) (sids : List Nat) (r : TimeRange) (trigger : Nat),
    1 ≤ block → Ok cols s → pickDelta trigger s = some q → (∀ f ∈ s, f.id < id) → q.job cols block fuel id size = some e →
      Gone cols (install (delete (mark s q.marked) sids r) e) sids r

/-- A delete while a job runs: it stays deleted if the files of the request have no values in its range.  What is missing are deletes of
values in the files of the request (`C106_running_refuted`). -/
theorem C106_running_partial {cols block : Nat} {s s' : Levels α} {q : Req α} (hb : 1 ≤ block) (h : Ok cols s) (hq : q.Fits s)
    (hsort : (start (q.inputs.map DFile.body)).Pairwise fun a b => leC a b = true) (hh : Holds s' q) (id size : Nat) {sids : List Nat} {r : TimeRange}
    (hn : ∀ f ∈ q.files, ∀ sid ∈ sids, ∀ x ∈ f.body.rows sid, Has r x.ts → ∀ c, c < cols → x.cell c = none) :
    ∃ N e, (∀ fuel, N < fuel → q.job cols block fuel id size = some e) ∧ Gone cols (install (delete s' sids r) e) sids r := by
  obtain ⟨N, ds, h1, hc⟩ := job_ok hb h hq hsort id size
  refine ⟨N, _, h1, ?_⟩
  intro sid hs p hp ht c hcc
  -- the version before the delete has the files of the request
  obtain ⟨f, hf, e, hr⟩ := mem_rowsIn.1 hp
  unfold install at hf
  rcases List.mem_append.1 hf with hf | hf
  · obtain ⟨g, hg, rfl⟩ := List.mem_map.1 hf
    have hg := (List.mem_filter.1 hg).1
    cases hfind : (q.edit id size ds).part.find? fun x => decide (x.id = g.id) with
    | none =>
      rw [hfind] at hr e
      exact C106_delete cols s' sids r sid hs p (mem_rowsIn.2 ⟨g, hg, e, hr⟩) ht c hcc
    | some x =>
      rw [hfind] at hr
      have hx := List.mem_of_find?_eq_some hfind
      simp only [Req.edit, List.mem_map, List.mem_filter, mem_inputs hq] at hx
      obtain ⟨f, ⟨hf, _⟩, rfl⟩ := hx
      simp only [DFile.part] at hr
      rw [rows_cut, List.mem_filter] at hr
      exact hn f hf sid hs p.2 hr.1 ht c hcc
  · simp only [Req.edit, output] at hf
    split at hf
    · cases hf
    · simp only [Option.toList_some, List.mem_singleton] at hf
      subst hf
      simp only [rows_bodyOf] at hr
      cases hcell : p.2.cell c with
      | none => rfl
      | some v =>
        obtain ⟨p', hp', et, hv, _, i, f, hfi, ei, _⟩ := output_value hq hh hc hr hcc hcell
        have hff := (mem_inputs hq).1 (List.mem_of_getElem? hfi)
        rw [hn f hff sid hs p'.2 (of_holds hh hff hp' ei) (by rw [et]; exact ht) c hcc] at hv
        cases hv

end Verif.Pick
