import Verif.Pick.Delete
/-!
# Compactions that change answers
-/
namespace Verif.Pick

open Verif.Sort Verif.Reader Verif.Compact Verif.Time Verif.Tomb

/-- A file with one row of series 5. -/
def one (t : Int) (v : Nat) : File Nat := ⟨false, [(5, [⟨t, t, [⟨t, [some v]⟩], [⟨t, [some v]⟩]⟩])]⟩

def fileAt (id level : Nat) (t : Int) (v : Nat) : DFile Nat := ⟨id, level, ⟨t, t⟩, 1, false, .empty, one t v⟩

theorem rows_one {t : Int} {v : Nat} {sid : Nat} {r : Row Nat} (h : r ∈ (one t v).rows sid) : r.ts = t := by
  unfold File.rows File.pieces one at h
  simp only [List.find?_cons, List.find?_nil] at h
  by_cases e : 5 = sid
  · simp [e] at h; rw [h]
  · simp [e] at h

theorem ok_of {l : List (Nat × Nat × Int × Nat)} (hid : (l.map fun x => fileAt x.1 x.2.1 x.2.2.1 x.2.2.2).Pairwise fun f g => f.id ≠ g.id)
    (hi : InputOk 1 ((l.map fun x => fileAt x.1 x.2.1 x.2.2.1 x.2.2.2).map DFile.body)) (ht : ∀ x ∈ l, IsI64 x.2.2.1) :
    Ok 1 (l.map fun x => fileAt x.1 x.2.1 x.2.2.1 x.2.2.2) := by
  refine ⟨hid, hi, ?_, ?_, ?_, ?_⟩
  · intro f hf sid r hr
    obtain ⟨x, _, rfl⟩ := List.mem_map.1 hf
    rw [rows_one hr]
    exact ⟨Int.le_refl _, Int.le_refl _⟩
  · intro f hf
    obtain ⟨x, hx, rfl⟩ := List.mem_map.1 hf
    exact ⟨Int.le_refl _, ht x hx, ht x hx⟩
  · intro f hf
    obtain ⟨x, _, rfl⟩ := List.mem_map.1 hf
    exact good_empty
  · intro f hf sid r hr
    obtain ⟨x, _, rfl⟩ := List.mem_map.1 hf
    rfl

/-- An answer with one row. -/
theorem ans_one {l : List (Nat × Row Nat)} {i v : Nat} {t : Int} (hm : (i, (⟨t, [some v]⟩ : Row Nat)) ∈ l) (ht : ∀ p ∈ l, p.2.ts = t)
    (hlast : ∀ p ∈ l, p.1 ≤ i) : Ans 1 l [⟨t, [some v]⟩] := by
  refine ⟨by simp, ?_, by simp, ?_, ?_⟩
  · intro t'
    simp only [List.map_cons, List.map_nil, List.mem_singleton]
    constructor
    · rintro rfl; exact ⟨_, hm, rfl⟩
    · rintro ⟨p, hp, rfl⟩; exact ht p hp
  · intro r hr c hc hn
    rw [List.mem_singleton.1 hr] at hn
    have : c = 0 := by omega
    subst this
    cases hn
  · intro r hr c hc w hw
    rw [List.mem_singleton.1 hr] at hw ⊢
    have : c = 0 := by omega
    subst this
    cases hw
    exact ⟨_, hm, rfl, rfl, fun p hp hl => absurd (hlast p hp) (by simp only at hl; omega)⟩

/-! ## C104 -/

/-- A delta file with id 5 and a file of level 1 with id 6, which a compaction made of older files after the delta file had been flushed. -/
def lateV : Levels Nat := [(5, 0, 10, 2), (6, 1, 10, 1)].map fun x : Nat × Nat × Int × Nat => fileAt x.1 x.2.1 x.2.2.1 x.2.2.2

theorem lateV_ok : Ok 1 lateV := by
  refine ok_of (by decide) ⟨?_, ?_, ?_, ?_, ?_, ?_⟩ (by unfold IsI64; decide)
  · unfold FilesOk; decide +kernel
  all_goals decide +kernel

/-- Full statement of **C104** for a job that is not disturbed. -/
def C104Full : Prop :=
  ∀ (cols block fuel id size trigger max : Nat) (s : Levels Nat) (q : Req Nat) (e : Edit Nat), 1 ≤ block → Ok cols s → Picked trigger max s q →
    (∀ f ∈ s, f.id < id) → q.job cols block fuel id size = some e → SameTimes cols s (install s e) ∧ SameAnswers cols s (install s e)

/-- The request, the edit and the rows after it, computed. -/
def lateRun : Option (List Nat × List (Nat × Row Nat)) :=
  (pickDelta 1 lateV).bind fun q => (q.job 1 1 100 7 1).map fun e => (q.files.map DFile.id, rowsIn (install lateV e) 5)

theorem lateRun_eq : lateRun = some ([5, 6], [(7, ⟨10, [some 2]⟩)]) := by decide +kernel

/-- **C104 fails** if the file of the level has a larger id than the delta file: the delta file wins in the compaction, the file of the level
wins for a query. -/
theorem C104_order_refuted : ¬ C104Full := by
  intro h
  have e := lateRun_eq
  unfold lateRun at e
  obtain ⟨q, hq, e⟩ := Option.bind_eq_some_iff.1 e
  obtain ⟨ed, he, e⟩ := Option.map_eq_some_iff.1 e
  have hr : rowsIn (install lateV ed) 5 = [(7, ⟨10, [some 2]⟩)] := (Prod.mk.inj e).2
  have h1 : Ans 1 (rowsIn lateV 5) [⟨10, [some 1]⟩] := by
    have : rowsIn lateV 5 = [(5, ⟨10, [some 2]⟩), (6, ⟨10, [some 1]⟩)] := by decide +kernel
    rw [this]
    exact ans_one (i := 6) (by decide) (by decide) (by decide)
  have h2 := (h 1 1 100 7 1 1 0 lateV q ed (by omega) lateV_ok (.inl hq) (by decide) he).2 5 _ h1
  have h3 : Ans 1 (rowsIn (install lateV ed) 5) [⟨10, [some 2]⟩] := by
    rw [hr]
    exact ans_one (i := 7) (by decide) (by decide) (by decide)
  have := h2.2 _ h3
  revert this
  decide

/-- The request of the example has its two files. -/
example : ((pickDelta 1 lateV).map fun q => (q.files.map DFile.id, q.marked, q.outLevel)) = some ([5, 6], [5, 6], 1) := by decide +kernel

/-- Two delta files whose ids are in order, and a later file. -/
def goodV : Levels Nat := [(5, 0, 10, 2), (6, 0, 10, 1)].map fun x : Nat × Nat × Int × Nat => fileAt x.1 x.2.1 x.2.2.1 x.2.2.2

theorem goodV_ok : Ok 1 goodV := by
  refine ok_of (by decide) ⟨?_, ?_, ?_, ?_, ?_, ?_⟩ (by unfold IsI64; decide)
  · unfold FilesOk; decide +kernel
  all_goals decide +kernel

def goodQ : Req Nat := ⟨goodV, 0, 1, ⟨10, 10⟩, [5, 6]⟩

/-- The hypotheses of `C104_picked_partial`. -/
example : Ok 1 goodV ∧ Picked 2 0 goodV goodQ ∧ ((start (goodQ.inputs.map DFile.body)).Pairwise fun a b => leC a b = true) ∧ Holds (mark goodV [5, 6]) goodQ := by
  have hp : Picked 2 0 goodV goodQ := .inl rfl
  exact ⟨goodV_ok, hp, by decide +kernel, holds_mark goodV_ok hp _⟩

/-- The hypotheses of `C104_read_partial`. -/
example : goodQ.Fits goodV ∧ InputOk 1 (goodV.map DFile.body) ∧ Holds goodV goodQ ∧ Newest 1 goodV goodQ 7 := by
  have hp : Picked 2 0 goodV goodQ := .inl rfl
  refine ⟨(hp.good goodV_ok).fits, goodV_ok.input, ⟨goodV_ok.ids, fun f hf => ⟨f, hf, rfl, rfl⟩⟩, ?_, by decide, ?_⟩
  · have hgi : goodQ.inputs = [fileAt 5 0 10 2, fileAt 6 0 10 1] := rfl
    rw [hgi]
    refine List.pairwise_cons.2 ⟨?_, List.pairwise_singleton ..⟩
    intro g hg
    rw [List.mem_singleton.1 hg]
    intros
    decide
  · intro sid p hp hn
    obtain ⟨f, hf, e, _⟩ := mem_rowsIn.1 hp
    exact absurd e.symm (hn f hf)

/-! ## C105 -/

/-- A delta file whose time is between the two files of level 1. -/
def gapV : Levels Nat := [(5, 0, 5, 1), (1, 1, 1, 7), (2, 1, 10, 8)].map fun x : Nat × Nat × Int × Nat => fileAt x.1 x.2.1 x.2.2.1 x.2.2.2

theorem gapV_ok : Ok 1 gapV := by
  refine ok_of (by decide) ⟨?_, ?_, ?_, ?_, ?_, ?_⟩ (by unfold IsI64; decide)
  · unfold FilesOk; decide +kernel
  all_goals decide +kernel

/-- Full statement of **C105**: two requests made one after the other share no file. -/
def C105Full : Prop :=
  ∀ (cols trigger max : Nat) (s : Levels Nat) (q q' : Req Nat), Ok cols s → Picked trigger max s q → Picked trigger max (mark s q.marked) q' →
    ∀ f ∈ q.files, ∀ g ∈ q'.files, f.id ≠ g.id

/-- What is picked in a gap. -/
def gapQ : Req Nat := ⟨[fileAt 5 0 5 1], 0, 1, ⟨5, 5⟩, []⟩

theorem gapQ_picked : pickDelta 1 gapV = some gapQ := rfl

/-- **C105 fails**: a file picked for a gap of a level is not marked (picker.rs:457-470), so it is picked again. -/
theorem C105_again_refuted : ¬ C105Full := by
  intro h
  exact h 1 1 0 gapV gapQ gapQ gapV_ok (.inl gapQ_picked) (.inl rfl) (fileAt 5 0 5 1) (by simp [gapQ]) (fileAt 5 0 5 1) (by simp [gapQ]) rfl

/-- What the second job of the same request does: file 12 was flushed after the first job, then the second job is installed. -/
def gapRun : Option (List (Nat × Row Nat) × List (Nat × Row Nat)) :=
  (gapQ.job 1 1 100 11 1).bind fun e => (gapQ.job 1 1 100 13 1).map fun e' =>
    let s := install gapV e ++ [fileAt 12 0 5 3]
    (rowsIn s 5, rowsIn (install s e') 5)

/-- The value 3 that was written last is hidden by the value 1 of the file that was compacted twice. -/
theorem C105_twice_refuted : gapRun = some
    ([(1, ⟨1, [some 7]⟩), (2, ⟨10, [some 8]⟩), (11, ⟨5, [some 1]⟩), (12, ⟨5, [some 3]⟩)],
      [(1, ⟨1, [some 7]⟩), (2, ⟨10, [some 8]⟩), (11, ⟨5, [some 1]⟩), (12, ⟨5, [some 3]⟩), (13, ⟨5, [some 1]⟩)]) := by decide +kernel

/-- The hypotheses of `C105_again_partial` hold for the delta file and the file of a level. -/
example : ∃ q, Picked 1 0 lateV q ∧ q.marked = q.files.map DFile.id ∧ q.files ≠ [] := by
  refine ⟨⟨[fileAt 5 0 10 2, fileAt 6 1 10 1], 0, 1, ⟨10, 10⟩, [5, 6]⟩, .inl rfl, rfl, by simp⟩

/-- Two files of level 1 are compacted into level 2. -/
def levelV : Levels Nat := [(3, 1, 9, 2), (4, 1, 1, 1), (5, 0, 20, 5)].map fun x : Nat × Nat × Int × Nat => fileAt x.1 x.2.1 x.2.2.1 x.2.2.2

example : ((pickNormal 10 levelV).map fun q => (q.files.map DFile.id, q.marked, q.inLevel, q.outLevel)) = some ([4, 3], [4, 3], 1, 2) := by decide +kernel

/-! ## C106 -/

/-- The rows after a delete while a job runs. -/
def raceRun : Option (List (Nat × Row Nat)) :=
  (pickDelta 2 goodV).bind fun q => (q.job 1 1 100 7 1).map fun e => rowsIn (install (delete (mark goodV q.marked) [5] ⟨0, 20⟩) e) 5

/-- **C106 fails**: a value deleted while its file is compacted comes back when the output is installed. -/
theorem C106_running_refuted : ¬ C106Full := by
  intro h
  have e : raceRun = some [(7, ⟨10, [some 1]⟩)] := by decide +kernel
  unfold raceRun at e
  obtain ⟨q, hq, e⟩ := Option.bind_eq_some_iff.1 e
  obtain ⟨ed, he, e⟩ := Option.map_eq_some_iff.1 e
  have := h 1 1 100 7 1 goodV q ed [5] ⟨0, 20⟩ 2 (by omega) goodV_ok hq (by decide) he 5 (by simp) (7, ⟨10, [some 1]⟩) (by rw [e]; simp)
    (by unfold Has; decide) 0 (by omega)
  cases this

/-- Nothing is left if the delete comes first. -/
example : rowsIn (delete goodV [5] ⟨0, 20⟩) 5 = [(5, ⟨10, [none]⟩), (6, ⟨10, [none]⟩)] := by decide +kernel

/-- A delete of another time: the hypothesis of `C106_running_partial`. -/
example : ∀ f ∈ goodQ.files, ∀ sid ∈ [5], ∀ x ∈ f.body.rows sid, Has ⟨11, 20⟩ x.ts → ∀ c, c < 1 → x.cell c = none := by
  intro f hf sid _ x hx ht
  have : x.ts = 10 := by
    obtain ⟨y, hy, rfl⟩ := List.mem_map.1 hf
    rw [rows_one hx]
    simp only [List.mem_cons, List.not_mem_nil, or_false] at hy
    rcases hy with rfl | rfl <;> rfl
  unfold Has at ht
  simp only at ht
  omega

end Verif.Pick
