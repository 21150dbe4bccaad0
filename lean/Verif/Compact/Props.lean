import Verif.Compact.Run
/-!
# Properties of compaction
-/
namespace Verif.Compact

open Verif.Sort Verif.Reader

variable {α : Type}

example : InputOk 1 exFiles ∧ ((start exFiles).Pairwise fun a b => leC a b = true) ∧
    ((compact 1 2 100 none exFiles).map fun ds => ds.map fun d => (d.sid, d.lo, d.hi)) =
      some [(1, 1, 4), (1, 6, 9), (3, 2, 2), (7, 1, 1)] ∧
    ((compact 1 2 100 none exFiles).map fun ds => (ds.flatMap Done.rows).map fun r => (r.ts, r.cells)) =
      some [(1, [some 1]), (4, [some 4]), (6, [some 66]), (9, [some 9]), (2, [some 2]), (1, [some 1])] := by
  refine ⟨⟨?_, ?_, ?_, ?_, ?_, ?_⟩, ?_, ?_, ?_⟩
  · unfold FilesOk; decide +kernel
  all_goals decide +kernel

/-! ## Reading before and after -/

/-- The rows of sources with their ids. -/
def srcRows (srcs : List (Source α)) : List (Nat × Row α) := srcs.flatMap fun s => tag s.id s.rows

theorem Answer.ans {cols : Nat} {srcs : List (Source α)} {x : List (Row α)} (h : Answer cols srcs x) : Ans cols (srcRows srcs) x := by
  have hmem : ∀ p : Nat × Row α, p ∈ srcRows srcs ↔ ∃ s ∈ srcs, p.1 = s.id ∧ p.2 ∈ s.rows := by
    intro p
    unfold srcRows
    rw [List.mem_flatMap]
    exact ⟨fun ⟨s, hs, hp⟩ => ⟨s, hs, mem_tag.1 hp⟩, fun ⟨s, hs, hp⟩ => ⟨s, hs, mem_tag.2 hp⟩⟩
  refine ⟨h.inc, ?_, h.width, ?_, ?_⟩
  · intro t
    rw [h.times]
    constructor
    · rintro ⟨s, hs, r, hr, e⟩
      exact ⟨(s.id, r), (hmem _).2 ⟨s, hs, rfl, hr⟩, e⟩
    · rintro ⟨p, hp, e⟩
      obtain ⟨s, hs, _, hr⟩ := (hmem p).1 hp
      exact ⟨s, hs, p.2, hr, e⟩
  · intro r hr c hc hn p hp e
    obtain ⟨s, hs, _, hp2⟩ := (hmem p).1 hp
    exact h.null r hr c hc hn s hs p.2 hp2 e
  · intro r hr c hc v hv
    obtain ⟨s, hs, ⟨x, hx, e, hv'⟩, hmax⟩ := h.value r hr c hc v hv
    refine ⟨(s.id, x), (hmem _).2 ⟨s, hs, rfl, hx⟩, e, hv', ?_⟩
    intro q hq hlt eq
    obtain ⟨s', hs', e', hq2⟩ := (hmem q).1 hq
    simp only at hlt
    exact hmax s' hs' (by omega) q.2 hq2 eq

/-- Numbers may be changed as long as their order stays. -/
theorem Ans.relabel {cols : Nat} {l k : List (Nat × Row α)} {x : List (Row α)} (ids : Nat → Nat) (hmono : ∀ i j, i < j → ids i < ids j)
    (hm : ∀ p, p ∈ k ↔ ∃ q ∈ l, p = (ids q.1, q.2)) (h : Ans cols l x) : Ans cols k x := by
  have hinj : ∀ i j, ids i < ids j → i < j := by
    intro i j hij
    rcases Nat.lt_trichotomy i j with h | h | h
    · exact h
    · rw [h] at hij; omega
    · have := hmono j i h; omega
  refine ⟨h.inc, ?_, h.width, ?_, ?_⟩
  · intro t
    rw [h.times]
    constructor
    · rintro ⟨p, hp, e⟩
      exact ⟨(ids p.1, p.2), (hm _).2 ⟨p, hp, rfl⟩, e⟩
    · rintro ⟨p, hp, e⟩
      obtain ⟨q, hq, rfl⟩ := (hm p).1 hp
      exact ⟨q, hq, e⟩
  · intro r hr c hc hn p hp e
    obtain ⟨q, hq, rfl⟩ := (hm p).1 hp
    exact h.null r hr c hc hn q hq e
  · intro r hr c hc v hv
    obtain ⟨p, hp, e, hv', hmax⟩ := h.value r hr c hc v hv
    refine ⟨(ids p.1, p.2), (hm _).2 ⟨p, hp, rfl⟩, e, hv', ?_⟩
    intro q hq hlt eq
    obtain ⟨q', hq', rfl⟩ := (hm q).1 hq
    exact hmax q' hq' (hinj _ _ hlt) eq

/-- Part of **C38**, with the reader: when the files of the request are in the order of their first series and of their ids and everything
is compacted, reading a series from the files and reading it from the output gives the same rows.  `ids i` is the id of file `i`, `srcs`
are the sources of the files that have the series, `o` is the source of the output file. -/
theorem C38_read_same_partial (cols size bs : Nat) (hsz : 1 ≤ size) (hbs : 1 ≤ bs) (files : List (File α)) (h : InputOk cols files)
    (hsort : (start files).Pairwise fun a b => leC a b = true) (ids : Nat → Nat) (hids : ∀ i j, i < j → ids i < ids j) :
    ∃ N ds, (∀ fuel, N < fuel → compact cols size fuel none files = some ds) ∧
      ∀ sid (srcs : List (Source α)), SourcesOk cols srcs →
        (∀ i r, (∃ s ∈ srcs, s.id = i ∧ r ∈ s.rows) ↔ ∃ j f, ids j = i ∧ files[j]? = some f ∧ r ∈ f.rows sid) →
        ∀ o : Source α, o.rows = (ofSid sid ds).flatMap Done.rows → (∀ r ∈ o.rows, o.lo ≤ r.ts ∧ r.ts ≤ o.hi) →
        ∃ M rows, ∀ fuel, M < fuel → readSeries cols bs fuel srcs = some rows ∧ readSeries cols bs fuel [o] = some rows := by
  obtain ⟨N, ds, h1, h2⟩ := C38_compact_partial cols size hsz none files h hsort
  refine ⟨N, ds, h1, ?_⟩
  intro sid srcs hok hsrc o ho hor
  have hoinc := (h2.rows sid).inc
  have howidth := (h2.rows sid).width
  rw [← ho] at hoinc howidth
  have hook : SourcesOk cols [o] := by
    refine ⟨by simp, ?_, ?_, ?_⟩
    · intro s hs; rw [List.mem_singleton.1 hs]; exact hoinc
    · intro s hs; rw [List.mem_singleton.1 hs]; exact hor
    · intro s hs; rw [List.mem_singleton.1 hs]; exact howidth
  obtain ⟨M1, x, e1, a1⟩ := C35_series_read cols bs hbs srcs hok
  obtain ⟨M2, y, e2, a2⟩ := C35_series_read cols bs hbs [o] hook
  have hy : y = o.rows := by
    have a2' := Answer.ans a2
    have : srcRows [o] = tag o.id o.rows := by simp [srcRows]
    rw [this] at a2'
    refine Ans.unique ?_ a2' (Ans.self o.id hoinc howidth)
    intro p hp q hq _ e
    exact inc_inj hoinc (mem_tag.1 hp).2 (mem_tag.1 hq).2 e
  have hx : x = o.rows := by
    have a3 : Ans cols (srcRows srcs) o.rows := by
      rw [ho]
      refine Ans.relabel ids hids ?_ (h2.rows sid)
      intro p
      unfold srcRows
      rw [List.mem_flatMap]
      constructor
      · rintro ⟨s, hs, hp⟩
        obtain ⟨p1, p2⟩ := mem_tag.1 hp
        obtain ⟨j, f, e, hf, hr⟩ := (hsrc p.1 p.2).1 ⟨s, hs, p1.symm, p2⟩
        refine ⟨(j, p.2), mem_inputRows.2 ⟨f, hf, hr, rfl⟩, ?_⟩
        simp only
        rw [e]
      · rintro ⟨q, hq, rfl⟩
        obtain ⟨f, hf, hr, _⟩ := mem_inputRows.1 hq
        obtain ⟨s, hs, e, hr'⟩ := (hsrc (ids q.1) q.2).2 ⟨q.1, f, rfl, hf, hr⟩
        exact ⟨s, hs, mem_tag.2 ⟨e.symm, hr'⟩⟩
    refine Ans.unique ?_ (Answer.ans a1) a3
    intro p hp q hq e et
    obtain ⟨s, hs, hp⟩ := List.mem_flatMap.1 hp
    obtain ⟨s', hs', hq⟩ := List.mem_flatMap.1 hq
    have e1 := (mem_tag.1 hp).1
    have e2 := (mem_tag.1 hq).1
    have : s = s' := pairwise_id_inj hok.ids hs hs' (by omega)
    subst this
    exact inc_inj (hok.inc s hs) (mem_tag.1 hp).2 (mem_tag.1 hq).2 et
  refine ⟨max M1 M2, o.rows, ?_⟩
  intro fuel hf
  rw [e1 fuel (by omega), e2 fuel (by omega), hx, hy]
  exact ⟨rfl, rfl⟩

/-- The sources of series 1 of the example files. -/
def exSrcs : List (Source Nat) :=
  [⟨11, 1, 6, [.batch [⟨1, [some 1]⟩, ⟨4, [some 4]⟩], .batch [⟨6, [some 6]⟩]]⟩, ⟨12, 4, 9, [.batch [⟨4, [none]⟩, ⟨6, [some 66]⟩, ⟨9, [some 9]⟩]]⟩]

example : SourcesOk 1 exSrcs ∧ (∀ i j, i < j → i + 11 < j + 11) ∧
    (∀ i r, (∃ s ∈ exSrcs, s.id = i ∧ r ∈ s.rows) ↔ ∃ j f, j + 11 = i ∧ exFiles[j]? = some f ∧ r ∈ f.rows 1) := by
  refine ⟨⟨?_, ?_, ?_, ?_⟩, ?_, ?_⟩
  · decide +kernel
  · decide +kernel
  · decide +kernel
  · decide +kernel
  · intro i j h; omega
  · intro i r
    constructor
    · rintro ⟨s, hs, rfl, hr⟩
      simp only [exSrcs, List.mem_cons, List.not_mem_nil, or_false] at hs
      rcases hs with e | e
      · subst e; exact ⟨0, _, rfl, rfl, hr⟩
      · subst e; exact ⟨1, _, rfl, rfl, hr⟩
    · rintro ⟨j, f, rfl, hf, hr⟩
      match j, hf with
      | 0, hf =>
        simp only [exFiles, List.getElem?_cons_zero, Option.some.injEq] at hf
        subst hf
        exact ⟨_, List.mem_cons_self, rfl, hr⟩
      | 1, hf =>
        simp only [exFiles, List.getElem?_cons_succ, List.getElem?_cons_zero, Option.some.injEq] at hf
        subst hf
        exact ⟨_, List.mem_cons_of_mem _ List.mem_cons_self, rfl, hr⟩
      | j + 2, hf => simp [exFiles] at hf

/-! ## Where it fails -/

theorem groupsOf_single (b : Block α) : groupsOf [b] = [Grp.new b] := by
  have e : sortBy leB [b] = [b] := rfl
  unfold groupsOf
  rw [e]
  simp [groupLoop, absorb, Grp.new]

/-- Two files that are not in the order of their first series. -/
def badFiles : List (File Nat) :=
  [⟨false, [(5, [⟨10, 10, [⟨10, [some 1]⟩], [⟨10, [some 1]⟩]⟩])]⟩, ⟨false, [(3, [⟨1, 1, [⟨1, [some 2]⟩], [⟨1, [some 2]⟩]⟩]), (5, [⟨1, 1, [⟨1, [some 3]⟩], [⟨1, [some 3]⟩]⟩])]⟩]

/-- **C38 fails when the files of the request are not in the order of their first series**: the series that is visited twice
(`C40_twice_refuted`) makes the compaction end with an error, since its second column groups are older than the first ones. -/
theorem C38_unsorted_refuted : InputOk 1 badFiles ∧ ∀ fuel, (compact 1 1 fuel none badFiles).isNone = true := by
  refine ⟨⟨?_, ?_, ?_, ?_, ?_, ?_⟩, ?_⟩
  · unfold FilesOk; decide +kernel
  · decide +kernel
  · decide +kernel
  · decide +kernel
  · decide +kernel
  · decide +kernel
  · intro fuel
    have e : allVisits badFiles none = [(5, [⟨0, false, 10, 10, [⟨10, [some 1]⟩], [⟨10, [some 1]⟩]⟩]), (3, [⟨1, false, 1, 1, [⟨1, [some 2]⟩], [⟨1, [some 2]⟩]⟩]),
      (5, [⟨1, false, 1, 1, [⟨1, [some 3]⟩], [⟨1, [some 3]⟩]⟩])] := rfl
    unfold compact
    rw [e]
    simp only [St.run, groupsOf_single]
    rfl

/-- A file of a level, and a delta file that is newer but has a smaller id, since the file of the level was made by a compaction after
the delta file had been written. -/
def lateFiles : List (File Nat) :=
  [⟨false, [(5, [⟨10, 10, [⟨10, [some 1]⟩], [⟨10, [some 1]⟩]⟩])]⟩, ⟨false, [(5, [⟨10, 10, [⟨10, [some 2]⟩], [⟨10, [some 2]⟩]⟩])]⟩]

/-- The sources of the two files: the file of the level has id 6, the delta file has id 5. -/
def lateSrcs : List (Source Nat) := [⟨6, 10, 10, [.batch [⟨10, [some 1]⟩]]⟩, ⟨5, 10, 10, [.batch [⟨10, [some 2]⟩]]⟩]

/-- **C38 fails when the order of the request is not the order of the ids**: a delta compaction puts the file of the level first
(compact.rs:565-590), so the delta file wins, but the reader takes the value of the larger id.  Reading before and after the compaction gives
different values. -/
theorem C38_order_refuted :
    InputOk 1 lateFiles ∧ ((start lateFiles).Pairwise fun a b => leC a b = true) ∧ SourcesOk 1 lateSrcs ∧
      lateSrcs.map Source.rows = lateFiles.map (fun f => f.rows 5) ∧
      ∃ N ds rows, (∀ fuel, N < fuel → compact 1 1 fuel none lateFiles = some ds ∧ readSeries 1 1 fuel lateSrcs = some rows) ∧
        (ofSid 5 ds).flatMap Done.rows = [⟨10, [some 2]⟩] ∧ rows = [⟨10, [some 1]⟩] := by
  have hin : InputOk 1 lateFiles := by
    refine ⟨?_, ?_, ?_, ?_, ?_, ?_⟩
    · unfold FilesOk; decide +kernel
    all_goals decide +kernel
  have hso : (start lateFiles).Pairwise fun a b => leC a b = true := by decide +kernel
  have hsrc : SourcesOk 1 lateSrcs := by
    refine ⟨?_, ?_, ?_, ?_⟩
    all_goals decide +kernel
  refine ⟨hin, hso, hsrc, rfl, ?_⟩
  obtain ⟨N, ds, h1, h2⟩ := C38_compact_partial 1 1 (Nat.le_refl _) none lateFiles hin hso
  obtain ⟨M, rows, h3, h4⟩ := C35_series_read 1 1 (Nat.le_refl _) lateSrcs hsrc
  refine ⟨max N M, ds, rows, fun fuel hf => ⟨h1 fuel (by omega), h3 fuel (by omega)⟩, ?_, ?_⟩
  · have hl : inputRows lateFiles none 5 = [(0, ⟨10, [some 1]⟩), (1, ⟨10, [some 2]⟩)] := rfl
    have := h2.rows 5
    rw [hl] at this
    refine Ans.unique ?_ this ?_
    · unfold Compat; decide
    · refine ⟨by simp, ?_, by simp, ?_, ?_⟩
      · intro t; simp; exact eq_comm
      · intro r hr c hc hn
        simp only [List.mem_singleton] at hr
        subst hr
        have : c = 0 := by omega
        subst this
        simp [Row.cell] at hn
      · intro r hr c hc v hv
        simp only [List.mem_singleton] at hr
        subst hr
        have : c = 0 := by omega
        subst this
        simp only [Row.cell, List.getElem?_cons_zero, Option.join_some, Option.some.injEq] at hv
        subst hv
        exact ⟨(1, ⟨10, [some 2]⟩), by simp, rfl, rfl, by decide⟩
  · have hl : srcRows lateSrcs = [(6, ⟨10, [some 1]⟩), (5, ⟨10, [some 2]⟩)] := rfl
    have := Answer.ans h4
    rw [hl] at this
    refine Ans.unique ?_ this ?_
    · unfold Compat; decide
    · refine ⟨by simp, ?_, by simp, ?_, ?_⟩
      · intro t; simp; exact eq_comm
      · intro r hr c hc hn
        simp only [List.mem_singleton] at hr
        subst hr
        have : c = 0 := by omega
        subst this
        simp [Row.cell] at hn
      · intro r hr c hc v hv
        simp only [List.mem_singleton] at hr
        subst hr
        have : c = 0 := by omega
        subst this
        simp only [Row.cell, List.getElem?_cons_zero, Option.join_some, Option.some.injEq] at hv
        subst hv
        exact ⟨(6, ⟨10, [some 1]⟩), by simp, rfl, rfl, by decide⟩

end Verif.Compact
