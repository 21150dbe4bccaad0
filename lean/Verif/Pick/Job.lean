import Verif.Pick.Model
/-!
# What a compaction job and its installation do to the rows
-/
namespace Verif.Pick

open Verif.Sort Verif.Reader Verif.Compact Verif.Time Verif.Tomb

variable {α : Type}

/-! ## Rows of files -/

theorem mem_rowsIn {s : Levels α} {sid : Nat} {p : Nat × Row α} : p ∈ rowsIn s sid ↔ ∃ f ∈ s, p.1 = f.id ∧ p.2 ∈ f.body.rows sid := by
  unfold rowsIn
  rw [List.mem_flatMap]
  exact ⟨fun ⟨f, hf, hp⟩ => ⟨f, hf, mem_tag.1 hp⟩, fun ⟨f, hf, hp⟩ => ⟨f, hf, mem_tag.2 hp⟩⟩

theorem find_map_chunks {β : Type} (g : Nat → β) (sid : Nat) : ∀ l : List Nat,
    ((l.map fun s => (s, g s)).find? fun c => decide (c.1 = sid)) = if sid ∈ l then some (sid, g sid) else none
  | [] => by simp
  | s :: l => by
    rw [List.map_cons, List.find?_cons]
    by_cases h : s = sid
    · subst h; simp
    · have h' : ¬ sid = s := fun e => h e.symm
      simp only [h, decide_false, List.mem_cons, h', false_or]
      exact find_map_chunks g sid l

theorem rows_bodyOf (ds : List (Done α)) (sid : Nat) : (bodyOf ds).rows sid = (ofSid sid ds).flatMap Done.rows := by
  unfold File.rows File.pieces bodyOf
  rw [find_map_chunks]
  by_cases h : sid ∈ (ds.map Done.sid).eraseDups
  · rw [if_pos h]
    simp [List.flatMap_map]
  · rw [if_neg h]
    have : ofSid sid ds = [] := ofSid_none (by
      intro d hd e
      exact h (List.mem_eraseDups.2 (List.mem_map.2 ⟨d, hd, e⟩)))
    rw [this]; rfl

theorem rows_cut (f : File α) (gone : Int → Bool) (sid : Nat) : (cut f gone).rows sid = (f.rows sid).filter fun r => !gone r.ts := by
  unfold File.rows File.pieces cut
  simp only
  generalize f.chunks = l
  induction l with
  | nil => rfl
  | cons c l ih =>
    rw [List.map_cons, List.find?_cons, List.find?_cons]
    by_cases h : c.1 = sid
    · simp only [h, decide_true, Option.map_some, Option.getD_some]
      rw [List.flatMap_map]
      induction c.2 with
      | nil => rfl
      | cons p ps ih => rw [List.flatMap_cons, List.flatMap_cons, List.filter_append, ih]
    · simp only [h, decide_false]
      exact ih

/-! ## Versions that can be compacted -/

/-- What holds for the files of a version. -/
structure Ok (cols : Nat) (s : Levels α) : Prop where
  ids : s.Pairwise fun f g => f.id ≠ g.id
  input : InputOk cols (s.map DFile.body)
  range : ∀ f ∈ s, ∀ sid, ∀ r ∈ f.body.rows sid, f.range.minTs ≤ r.ts ∧ r.ts ≤ f.range.maxTs
  proper : ∀ f ∈ s, Proper f.range
  good : ∀ f ∈ s, Good f.all
  left : ∀ f ∈ s, ∀ sid, ∀ r ∈ f.body.rows sid, f.all.contains r.ts = false

theorem InputOk.sub {cols : Nat} {a b : List (File α)} (h : InputOk cols a) (hs : ∀ f ∈ b, f ∈ a) : InputOk cols b :=
  ⟨fun f hf => h.once f (hs f hf), fun f hf => h.inc f (hs f hf), fun f hf => h.valid f (hs f hf), fun f hf => h.range f (hs f hf),
    fun f hf => h.width f (hs f hf), fun f hf => h.raw f (hs f hf)⟩

theorem Ok.i64 {cols : Nat} {s : Levels α} (h : Ok cols s) {f : DFile α} (hf : f ∈ s) {sid : Nat} {r : Row α} (hr : r ∈ f.body.rows sid) : IsI64 r.ts := by
  have h1 := h.range f hf sid r hr
  obtain ⟨_, h3, h4⟩ := h.proper f hf
  unfold IsI64 at *
  omega

/-- A request that can be run on a version: files of the version, each once; the range has 64-bit bounds; in a delta compaction the range
includes that of a file of another level and there is at most one of these; else the range is everything. -/
structure Req.Fits (s : Levels α) (q : Req α) : Prop where
  sub : ∀ f ∈ q.files, f ∈ s
  ids : q.files.Pairwise fun f g => f.id ≠ g.id
  out : IsI64 q.out.minTs ∧ IsI64 q.out.maxTs
  level : q.inLevel = 0 → ∀ f ∈ q.files, f.level ≠ 0 → q.out = f.range
  one : q.inLevel = 0 → ∀ f ∈ q.files, ∀ g ∈ q.files, f.level ≠ 0 → g.level ≠ 0 → f = g
  all : q.inLevel ≠ 0 → q.out = ⟨i64Min, i64Max⟩

theorem mem_inputs {s : Levels α} {q : Req α} (h : q.Fits s) {f : DFile α} : f ∈ q.inputs ↔ f ∈ q.files := by
  unfold Req.inputs
  split
  · rename_i h0
    rw [List.mem_append, List.mem_filter, Option.mem_toList]
    constructor
    · rintro (hf | hf)
      · exact List.mem_of_find?_eq_some hf
      · exact hf.1
    · intro hf
      by_cases hl : f.level = 0
      · exact .inr ⟨hf, by simpa using hl⟩
      · left
        cases hfind : q.files.find? fun f => decide (f.level ≠ 0) with
        | none => exact absurd (List.find?_eq_none.1 hfind f hf) (by simpa using hl)
        | some g =>
          have hg : g.level ≠ 0 := by simpa using List.find?_some hfind
          rw [h.one h0 f hf g (List.mem_of_find?_eq_some hfind) hl hg]
  · exact Iff.rfl

theorem inOut_outOf {r : TimeRange} {t : Int} (ht : IsI64 t) : inOut (outOf r) t = true ↔ Has r t := by
  unfold outOf
  split
  · rename_i h
    unfold TimeRange.isBoundless at h
    simp only [decide_eq_true_eq] at h
    unfold IsI64 i64Min i64Max at *
    simp only [inOut, Has, true_iff]
    omega
  · simp [inOut, Has]

/-- What is taken out of a delta file by a job. -/
theorem excluded_contains {f : DFile α} (hg : Good f.all) {out : TimeRange} (ho : IsI64 out.minTs ∧ IsI64 out.maxTs) {t : Int}
    (h : (f.excluded out).contains t = true) : f.all.contains t = true ∨ Has out t := by
  unfold DFile.excluded at h
  split at h
  · exact .inl h
  · rename_i hn
    unfold TimeRange.isNone at hn
    simp only [decide_eq_true_eq] at hn
    unfold TimeRanges.push at h
    split at h
    · exact .inl h
    · obtain ⟨h1, h2⟩ := addTimeRange_sep (r := out) hg.wf.sep (by omega) ho.1 ho.2
      rw [contains_iff_covers h1] at h
      rcases (h2 t).1 h with h | h
      · exact .inl ((contains_iff_covers hg.wf.sep t).2 h)
      · exact .inr h

/-- ... and it is taken out, unless the ranges taken out before reach both ends of time. -/
theorem contains_excluded {f : DFile α} (hg : Good f.all) (hb : f.all.isBoundless = false) {out : TimeRange} (ho : IsI64 out.minTs ∧ IsI64 out.maxTs)
    {t : Int} (h : f.all.contains t = true ∨ Has out t) : (f.excluded out).contains t = true := by
  unfold DFile.excluded
  split
  · rename_i hn
    unfold TimeRange.isNone at hn
    simp only [decide_eq_true_eq] at hn
    rcases h with h | h
    · exact h
    · unfold Has at h; omega
  · rename_i hn
    unfold TimeRange.isNone at hn
    simp only [decide_eq_true_eq] at hn
    unfold TimeRanges.push
    rw [hb]
    simp only [Bool.false_eq_true, if_false]
    obtain ⟨h1, h2⟩ := addTimeRange_sep (r := out) hg.wf.sep (by omega) ho.1 ho.2
    rw [contains_iff_covers h1]
    refine (h2 t).2 ?_
    rcases h with h | h
    · exact .inl ((contains_iff_covers hg.wf.sep t).1 h)
    · exact .inr h

theorem excluded_good {f : DFile α} (hg : Good f.all) {out : TimeRange} (ho : IsI64 out.minTs ∧ IsI64 out.maxTs) : Good (f.excluded out) := by
  unfold DFile.excluded
  split
  · exact hg
  · rename_i hn
    unfold TimeRange.isNone at hn
    simp only [decide_eq_true_eq] at hn
    rw [push_eq_extend]
    refine good_extend hg ?_
    intro r hr
    rw [List.mem_singleton.1 hr]
    exact ⟨by omega, ho.1, ho.2⟩

/-! ## The edit of a job -/

/-- The edit made from the blocks of the output. -/
def Req.edit (q : Req α) (id size : Nat) (ds : List (Done α)) : Edit α :=
  let ends := fun (f : DFile α) => (f.excluded q.out).includes f.range
  { del := (q.inputs.filter fun f => decide (q.inLevel ≠ 0) || decide (f.level ≠ 0) || ends f).map DFile.id
    part := (q.inputs.filter fun f => decide (q.inLevel = 0) && decide (f.level = 0) && !ends f).map fun f => f.part q.out
    add := output id q.outLevel size ds }

theorem job_eq (cols block fuel id size : Nat) (q : Req α) :
    q.job cols block fuel id size = (compact cols block fuel (outOf q.out) (q.inputs.map DFile.body)).map (q.edit id size) := rfl

/-- The version in which a job is installed: it still has the files of the request with their rows. -/
structure Holds (s : Levels α) (q : Req α) : Prop where
  ids : s.Pairwise fun f g => f.id ≠ g.id
  files : ∀ f ∈ q.files, ∃ g ∈ s, g.id = f.id ∧ g.body = f.body

/-- The row of a file of the request that is not taken out of it. -/
def Req.Stays (q : Req α) (f : DFile α) (t : Int) : Prop :=
  q.inLevel = 0 ∧ f.level = 0 ∧ (f.excluded q.out).includes f.range = false ∧ (f.excluded q.out).contains t = false

theorem pairwise_id_inj {l : List (DFile α)} (h : l.Pairwise fun f g => f.id ≠ g.id) : ∀ {f g : DFile α}, f ∈ l → g ∈ l → f.id = g.id → f = g := by
  induction l with
  | nil => intro f g hf; cases hf
  | cons a l ih =>
    rw [List.pairwise_cons] at h
    intro f g hf hg e
    rcases List.mem_cons.1 hf with hf' | hf' <;> rcases List.mem_cons.1 hg with hg' | hg'
    · rw [hf', hg']
    · exact absurd e (by rw [hf']; exact h.1 g hg')
    · exact absurd e.symm (by rw [hg']; exact h.1 f hf')
    · exact ih h.2 hf' hg' e

/-- A row that does not stay is in the range to compact. -/
theorem out_of_not_stays {cols : Nat} {s : Levels α} {q : Req α} (h : Ok cols s) (hq : q.Fits s) {f : DFile α} (hf : f ∈ q.files) {sid : Nat} {r : Row α}
    (hr : r ∈ f.body.rows sid) (hn : ¬ q.Stays f r.ts) : Has q.out r.ts := by
  have hs := hq.sub f hf
  have hrange := h.range f hs sid r hr
  have hi := h.i64 hs hr
  by_cases h1 : q.inLevel = 0
  · by_cases h2 : f.level = 0
    · have key : (f.excluded q.out).contains r.ts = true → Has q.out r.ts := by
        intro hc
        rcases excluded_contains (h.good f hs) hq.out hc with e | e
        · rw [h.left f hs sid r hr] at e; cases e
        · exact e
      cases h3 : (f.excluded q.out).includes f.range with
      | true =>
        refine key ?_
        have hg := excluded_good (h.good f hs) hq.out
        rw [contains_iff_covers hg.wf.sep]
        exact includes_covers h3 hrange
      | false =>
        cases h4 : (f.excluded q.out).contains r.ts with
        | true => exact key h4
        | false => exact absurd ⟨h1, h2, h3, h4⟩ hn
    · rw [hq.level h1 f hf h2]; exact hrange
  · rw [hq.all h1]
    exact hi

/-- The rows after a job is installed: those of the other files, those that stay in the files of the request, and the output. -/
theorem mem_rowsIn_install {s s' : Levels α} {q : Req α} (hq : q.Fits s) (hh : Holds s' q) (id size : Nat) (ds : List (Done α)) (sid : Nat)
    (p : Nat × Row α) :
    p ∈ rowsIn (install s' (q.edit id size ds)) sid ↔
      (p ∈ rowsIn s' sid ∧ ∀ f ∈ q.files, f.id ≠ p.1) ∨ (∃ f ∈ q.files, p.1 = f.id ∧ p.2 ∈ f.body.rows sid ∧ q.Stays f p.2.ts) ∨
      (p.1 = id ∧ p.2 ∈ (ofSid sid ds).flatMap Done.rows) := by
  have hadd : (∃ f ∈ (q.edit id size ds).add.toList, p.1 = f.id ∧ p.2 ∈ f.body.rows sid) ↔ (p.1 = id ∧ p.2 ∈ (ofSid sid ds).flatMap Done.rows) := by
    simp only [Req.edit, output]
    split
    · rename_i he
      rw [List.isEmpty_iff] at he
      subst he
      simp [ofSid]
    · simp [rows_bodyOf]
  have hdel : ∀ i, (q.edit id size ds).del.contains i = true ↔
      ∃ f ∈ q.files, f.id = i ∧ ¬ (q.inLevel = 0 ∧ f.level = 0 ∧ (f.excluded q.out).includes f.range = false) := by
    intro i
    rw [List.contains_iff_mem]
    simp only [Req.edit, List.mem_map, List.mem_filter, mem_inputs hq]
    constructor
    · rintro ⟨f, ⟨hf, hc⟩, rfl⟩
      refine ⟨f, hf, rfl, ?_⟩
      rintro ⟨h1, h2, h3⟩
      simp [h1, h2, h3] at hc
    · rintro ⟨f, hf, rfl, hc⟩
      refine ⟨f, ⟨hf, ?_⟩, rfl⟩
      cases h3 : (f.excluded q.out).includes f.range with
      | true => simp
      | false =>
        by_cases h1 : q.inLevel = 0
        · by_cases h2 : f.level = 0
          · exact absurd ⟨h1, h2, h3⟩ hc
          · simp [h2]
        · simp [h1]
  have hpart : ∀ i g, ((q.edit id size ds).part.find? fun g => decide (g.id = i)) = some g → ∃ f ∈ q.files, f.id = i ∧ g = f.part q.out ∧
      q.inLevel = 0 ∧ f.level = 0 ∧ (f.excluded q.out).includes f.range = false := by
    intro i g hg
    have h1 := List.mem_of_find?_eq_some hg
    have h2 := List.find?_some hg
    simp only [decide_eq_true_eq] at h2
    simp only [Req.edit, List.mem_map, List.mem_filter, mem_inputs hq] at h1
    obtain ⟨f, ⟨hf, hc⟩, rfl⟩ := h1
    refine ⟨f, hf, h2, rfl, ?_⟩
    simpa [and_assoc] using hc
  have hpart' : ∀ f ∈ q.files, q.inLevel = 0 → f.level = 0 → (f.excluded q.out).includes f.range = false →
      ((q.edit id size ds).part.find? fun g => decide (g.id = f.id)) = some (f.part q.out) := by
    intro f hf h1 h2 h3
    cases hfind : (q.edit id size ds).part.find? fun g => decide (g.id = f.id) with
    | none =>
      have := List.find?_eq_none.1 hfind (f.part q.out) (by
        simp only [Req.edit, List.mem_map, List.mem_filter, mem_inputs hq]
        exact ⟨f, ⟨hf, by simp [h1, h2, h3]⟩, rfl⟩)
      simp [DFile.part] at this
    | some g =>
      obtain ⟨f', hf', e, rfl, _⟩ := hpart _ _ hfind
      rw [pairwise_id_inj hq.ids hf' hf e]
  rw [mem_rowsIn]
  unfold install
  rw [← hadd, ← or_assoc]
  have hdel' : ∀ i, (q.edit id size ds).del.contains i = false ↔
      ¬ ∃ f ∈ q.files, f.id = i ∧ ¬ (q.inLevel = 0 ∧ f.level = 0 ∧ (f.excluded q.out).includes f.range = false) := by
    intro i
    rw [← hdel, Bool.not_eq_true]
  simp only [List.mem_append, List.mem_map, List.mem_filter, Bool.not_eq_true', hdel']
  constructor
  · rintro ⟨f, ⟨g, ⟨hg, hnd⟩, rfl⟩ | hf, hp⟩
    · left
      cases hfind : (q.edit id size ds).part.find? fun h => decide (h.id = g.id) with
      | some h =>
        rw [hfind] at hp
        obtain ⟨f, hf, e, rfl, h1, h2, h3⟩ := hpart _ _ hfind
        right
        simp only [DFile.part] at hp
        rw [rows_cut, List.mem_filter] at hp
        exact ⟨f, hf, by rw [e]; exact hp.1, hp.2.1, h1, h2, h3, by simpa using hp.2.2⟩
      | none =>
        rw [hfind] at hp
        left
        refine ⟨mem_rowsIn.2 ⟨g, hg, hp⟩, ?_⟩
        intro f hf e
        rw [hp.1] at e
        by_cases hc : q.inLevel = 0 ∧ f.level = 0 ∧ (f.excluded q.out).includes f.range = false
        · have := hpart' f hf hc.1 hc.2.1 hc.2.2
          rw [e] at this
          exact absurd (this.symm.trans hfind) (by simp)
        · exact hnd ⟨f, hf, e, hc⟩
    · exact .inr ⟨f, hf, hp⟩
  · rintro ((⟨hp, hn⟩ | ⟨f, hf, hid, hr, h1, h2, h3, h4⟩) | ⟨f, hf, hp⟩)
    · obtain ⟨g, hg, e, hr⟩ := mem_rowsIn.1 hp
      refine ⟨_, .inl ⟨g, ⟨hg, ?_⟩, rfl⟩, ?_⟩
      · rintro ⟨f, hf, e', _⟩
        exact hn f hf (by rw [e, e'])
      · cases hfind : (q.edit id size ds).part.find? fun h => decide (h.id = g.id) with
        | none => exact ⟨e, hr⟩
        | some h =>
          obtain ⟨f, hf, e', _⟩ := hpart _ _ hfind
          exact absurd (by rw [e, e']) (hn f hf)
    · obtain ⟨g, hg, e, eb⟩ := hh.files f hf
      refine ⟨_, .inl ⟨g, ⟨hg, ?_⟩, rfl⟩, ?_⟩
      · rintro ⟨f', hf', e', hc⟩
        rw [pairwise_id_inj hq.ids hf' hf (by rw [e', e])] at hc
        exact hc ⟨h1, h2, h3⟩
      · rw [e, hpart' f hf h1 h2 h3]
        simp only [DFile.part]
        rw [rows_cut, List.mem_filter]
        exact ⟨hid, hr, by simp [h4]⟩
    · exact ⟨f, .inr hf, hp⟩

end Verif.Pick
