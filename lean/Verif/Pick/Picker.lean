import Verif.Pick.Props
/-!
# The requests of the pickers
-/
namespace Verif.Pick

open Verif.Sort Verif.Reader Verif.Compact Verif.Time Verif.Tomb

variable {α : Type}

/-! ## Ranges -/

/-- Both bounds are 64-bit. -/
def Bounds (r : TimeRange) : Prop := IsI64 r.minTs ∧ IsI64 r.maxTs

theorem noRange_bounds : Bounds noRange := by unfold Bounds noRange IsI64; decide

theorem excludeLoop_bounds (self : TimeRange) (hmax : IsI64 self.maxTs) : ∀ (es : List (Int × Int)) (tmp : Int) (acc : List TimeRange),
    (∀ e ∈ es, e.1 ≤ e.2 ∧ IsI64 e.1 ∧ IsI64 e.2) → IsI64 tmp → (∀ r ∈ acc, Proper r) → ∀ tmp' acc', self.excludeLoop es tmp acc = some (tmp', acc') →
      IsI64 tmp' ∧ ∀ r ∈ acc', Proper r
  | [], tmp, acc, _, ht, ha, tmp', acc', h => by
    unfold TimeRange.excludeLoop at h
    cases h
    exact ⟨ht, ha⟩
  | e :: es, tmp, acc, he, ht, ha, tmp', acc', h => by
    have h1 := he e (List.mem_cons_self ..)
    have h2 := fun x hx => he x (List.mem_cons_of_mem _ hx)
    unfold TimeRange.excludeLoop at h
    split at h
    · cases h
    · split at h
      · cases h; exact ⟨ht, ha⟩
      · split at h
        · refine excludeLoop_bounds self hmax es _ _ h2 ?_ ?_ tmp' acc' h
          · unfold satSucc IsI64 i64Max at *
            split <;> omega
          · split
            · rename_i hgt
              intro r hr
              rcases List.mem_append.1 hr with hr | hr
              · exact ha r hr
              · rw [List.mem_singleton.1 hr]
                have : wrap64 (e.1 - 1) = e.1 - 1 := by
                  unfold wrap64 IsI64 i64Min i64Max at *
                  omega
                unfold Proper
                rw [this]
                unfold IsI64 i64Min i64Max at *
                simp only
                omega
            · exact ha
        · exact excludeLoop_bounds self hmax es tmp acc h2 ht ha tmp' acc' h

/-- What is left of a file has 64-bit bounds. -/
theorem remained_bounds {f : DFile α} (hp : Proper f.range) (hg : Good f.all) : Bounds f.remained := by
  unfold DFile.remained
  cases h : f.range.excludeTimeRanges f.all with
  | none => exact noRange_bounds
  | some rs =>
    have hw : WF rs := by
      unfold TimeRange.excludeTimeRanges at h
      split at h
      · cases h
      · split at h
        · cases h
          exact new_wf _ (by intro r hr; rw [List.mem_singleton.1 hr]; exact hp)
        · cases hl : f.range.excludeLoop f.all.inner f.range.minTs [] with
          | none => rw [hl] at h; cases h
          | some x =>
            obtain ⟨tmp, acc⟩ := x
            rw [hl] at h
            simp only at h
            obtain ⟨h1, h2⟩ := excludeLoop_bounds f.range hp.2.2 f.all.inner f.range.minTs [] hg.wf.sep.ok hp.2.1 (by simp) _ _ hl
            generalize hacc : (if tmp ≤ f.range.maxTs then acc ++ [(⟨tmp, f.range.maxTs⟩ : TimeRange)] else acc) = l at h
            split at h
            · cases h
            · cases h
              refine new_wf _ ?_
              intro r hr
              rw [← hacc] at hr
              split at hr
              · rcases List.mem_append.1 hr with hr | hr
                · exact h2 r hr
                · rw [List.mem_singleton.1 hr]
                  exact ⟨by assumption, h1, hp.2.2⟩
              · exact h2 r hr
    simp only
    cases hh : rs.ranges.head? with
    | none => exact noRange_bounds
    | some r =>
      have := List.mem_of_head? hh
      unfold TimeRanges.ranges at this
      obtain ⟨e, he, rfl⟩ := List.mem_map.1 this
      exact (hw.sep.ok e he).2

theorem foldl_min_i64 : ∀ (l : List Int) (a : Int), IsI64 a → (∀ x ∈ l, IsI64 x) → IsI64 (l.foldl min a)
  | [], _, ha, _ => ha
  | x :: l, a, ha, hl => foldl_min_i64 l _ (by
      have := hl x (List.mem_cons_self ..)
      unfold IsI64 at *
      omega) (fun y hy => hl y (List.mem_cons_of_mem _ hy))

theorem foldl_max_i64 : ∀ (l : List Int) (a : Int), IsI64 a → (∀ x ∈ l, IsI64 x) → IsI64 (l.foldl max a)
  | [], _, ha, _ => ha
  | x :: l, a, ha, hl => foldl_max_i64 l _ (by
      have := hl x (List.mem_cons_self ..)
      unfold IsI64 at *
      omega) (fun y hy => hl y (List.mem_cons_of_mem _ hy))

theorem mem_ofLevel {s : Levels α} {k : Nat} {f : DFile α} : f ∈ ofLevel s k ↔ f ∈ s ∧ f.level = k := by
  simp [ofLevel, List.mem_filter]

theorem rangeOf_bounds {s : Levels α} (h : ∀ f ∈ s, Proper f.range) (k : Nat) : Bounds (rangeOf s k) := by
  constructor
  · refine foldl_min_i64 _ _ (by unfold IsI64; decide) ?_
    intro x hx
    obtain ⟨f, hf, rfl⟩ := List.mem_map.1 hx
    exact (h f (mem_ofLevel.1 hf).1).2.1
  · refine foldl_max_i64 _ _ (by unfold IsI64; decide) ?_
    intro x hx
    obtain ⟨f, hf, rfl⟩ := List.mem_map.1 hx
    exact (h f (mem_ofLevel.1 hf).1).2.2

theorem merge_bounds {a b : TimeRange} (ha : Bounds a) (hb : Bounds b) : Bounds (a.merge b) := by
  unfold Bounds TimeRange.merge IsI64 at *
  simp only
  omega

theorem intersect_bounds {a b o : TimeRange} (ha : Bounds a) (hb : Bounds b) (h : a.intersect b = some o) : Bounds o := by
  unfold TimeRange.intersect at h
  split at h
  · cases h
    unfold Bounds IsI64 at *
    simp only
    omega
  · cases h

/-! ## The loop of the delta picker -/

/-- What holds in the loop over the files of level 0, with the files that are left. -/
structure LoopOk (s : Levels α) (p : PickSt α) (rest : List (DFile α)) : Prop where
  picked : (p.picked ++ rest).Sublist (ofLevel s 0)
  free : ∀ f ∈ p.picked, f.busy = false
  range : Bounds p.range
  other : ∀ o ∈ p.other, o.1 ∈ ofLevel s 0 ∧ o.1.busy = false ∧ o.2.2 = o.1.remained

theorem pickSt_range {p : PickSt α} {r : TimeRange} (h : Bounds p.range) (hr : Bounds r) : Bounds (if p.range.isNone then r else p.range) := by
  split
  · exact hr
  · exact h

/-- The request of the loop: files of level 0 that are not compacted. -/
theorem deltaLoop_ok (trigger : Nat) {s : Levels α} (hp : ∀ f ∈ s, Proper f.range) (hg : ∀ f ∈ s, Good f.all) : ∀ (rest : List (DFile α)) (p : PickSt α),
    LoopOk s p rest →
      (∀ q, deltaLoop trigger s p rest = .inl q →
        q.files.Sublist (ofLevel s 0) ∧ (∀ f ∈ q.files, f.busy = false) ∧ Bounds q.out ∧ q.inLevel = 0 ∧ q.marked = q.files.map DFile.id) ∧
      ∀ p', deltaLoop trigger s p rest = .inr p' → LoopOk s p' []
  | [], p, h => by
    unfold deltaLoop
    exact ⟨fun q hq => (by cases hq), fun p' hp' => (by cases hp'; exact h)⟩
  | f :: rest, p, h => by
    have hf : f ∈ ofLevel s 0 := h.picked.subset (by simp)
    have hr : Bounds f.remained := remained_bounds (hp f (mem_ofLevel.1 hf).1) (hg f (mem_ofLevel.1 hf).1)
    have hsub : (p.picked ++ rest).Sublist (ofLevel s 0) :=
      ((List.Sublist.refl p.picked).append (List.sublist_cons_self f rest)).trans h.picked
    unfold deltaLoop
    cases hb : f.busy with
    | true =>
      rw [if_pos rfl]
      exact deltaLoop_ok trigger hp hg rest p ⟨hsub, h.free, h.range, h.other⟩
    | false =>
      rw [if_neg (by simp)]
      have hrange := pickSt_range h.range hr
      have hfree : ∀ g ∈ p.picked ++ [f], g.busy = false := by
        intro g hg
        rcases List.mem_append.1 hg with hg | hg
        · exact h.free g hg
        · rw [List.mem_singleton.1 hg]; exact hb
      cases hs : deltaStep trigger s p f with
      | inl q =>
        unfold deltaStep at hs
        simp only at hs
        split at hs
        · split at hs
          · cases hs
            refine ⟨fun q hq => ?_, fun p' hp' => by cases hp'⟩
            cases hq
            refine ⟨?_, hfree, merge_bounds hrange hr, rfl, rfl⟩
            refine List.Sublist.trans ?_ h.picked
            exact (List.Sublist.refl _).append (by simp)
          · cases hs
        · cases hs
      | inr p' =>
        simp only
        refine deltaLoop_ok trigger hp hg rest p' ?_
        unfold deltaStep at hs
        simp only at hs
        split at hs
        · split at hs
          · cases hs
          · cases hs
            refine ⟨?_, hfree, merge_bounds hrange hr, h.other⟩
            simp only [List.append_assoc, List.singleton_append]
            exact h.picked
        · cases hs
          refine ⟨?_, by simp, noRange_bounds, ?_⟩
          · simp only [List.nil_append]
            exact (List.sublist_append_right p.picked rest).trans hsub
          · cases ho : p.other with
            | none =>
              intro o h
              cases h
              exact ⟨hf, hb, rfl⟩
            | some o' =>
              intro o h'
              exact h.other o (by rw [ho]; exact h')

/-! ## C105 -/

/-- What is asked of a request: it fits the version and its files are not being compacted. -/
structure Good (s : Levels α) (q : Req α) : Prop where
  fits : q.Fits s
  free : ∀ f ∈ q.files, f.busy = false

theorem pairwise_ofLevel {s : Levels α} (h : s.Pairwise fun f g => f.id ≠ g.id) (k : Nat) : (ofLevel s k).Pairwise fun f g => f.id ≠ g.id :=
  List.Pairwise.sublist List.filter_sublist h

/-- All files of a request are marked, or it is one file that overlaps none of the files of the level that are not being compacted. -/
def Marked (s : Levels α) (q : Req α) : Prop :=
  q.marked = q.files.map DFile.id ∨
    q.marked = [] ∧ ∃ f, q.files = [f] ∧ ∀ g ∈ s, g.level = q.outLevel → g.busy = false → g.range.overlaps f.remained = false

theorem pickDelta_ok {s : Levels α} (hid : s.Pairwise fun f g => f.id ≠ g.id) (hp : ∀ f ∈ s, Proper f.range) (hg : ∀ f ∈ s, Tomb.Good f.all)
    {trigger : Nat} {q : Req α} (h : pickDelta trigger s = some q) : Good s q ∧ Marked s q := by
  unfold pickDelta at h
  split at h
  · cases h
  · have hl := deltaLoop_ok trigger hp hg (ofLevel s 0) ⟨[], noRange, none⟩ ⟨by simp, by simp, noRange_bounds, by simp⟩
    cases hd : deltaLoop trigger s ⟨[], noRange, none⟩ (ofLevel s 0) with
    | inl q' =>
      rw [hd] at h
      cases h
      obtain ⟨h1, h2, h3, h4, h5⟩ := hl.1 _ hd
      refine ⟨?_, .inl h5⟩
      refine ⟨⟨fun f hf => (mem_ofLevel.1 (h1.subset hf)).1, (pairwise_ofLevel hid 0).sublist h1, h3, ?_, ?_, ?_⟩, h2⟩
      · intro _ f hf hne
        exact absurd (mem_ofLevel.1 (h1.subset hf)).2 hne
      · intro _ f hf _ _ hne
        exact absurd (mem_ofLevel.1 (h1.subset hf)).2 hne
      · intro hne; exact absurd h4 hne
    | inr p =>
      rw [hd] at h
      simp only at h
      have hl := hl.2 _ hd
      cases ho : p.other with
      | none => rw [ho] at h; cases h
      | some o =>
        obtain ⟨f, adv, r⟩ := o
        rw [ho] at h
        simp only at h
        obtain ⟨hf, hb, hr⟩ := hl.other (f, adv, r) (by rw [ho]; rfl)
        simp only at hf hb hr
        have hrem := hr
        have hr : Bounds r := by
          rw [hr]
          exact remained_bounds (hp f (mem_ofLevel.1 hf).1) (hg f (mem_ofLevel.1 hf).1)
        have hf0 := (mem_ofLevel.1 hf).2
        have single : ∀ k o, Bounds o → ∀ m, Good s (⟨[f], 0, k, o, m⟩ : Req α) := by
          intro k o hbo m
          refine ⟨⟨?_, List.pairwise_singleton .., hbo, ?_, ?_, ?_⟩, ?_⟩
          · intro g hg; rw [List.mem_singleton.1 hg]; exact (mem_ofLevel.1 hf).1
          · intro _ g hg hne; rw [List.mem_singleton.1 hg] at hne; exact absurd hf0 hne
          · intro _ g hg _ _ hne; rw [List.mem_singleton.1 hg] at hne; exact absurd hf0 hne
          · intro hne; exact absurd rfl hne
          · intro g hg; rw [List.mem_singleton.1 hg]; exact hb
        unfold pickOther at h
        cases hk : ([1, 2, 3, 4] : List Nat).find? fun k => (rangeOf s k).overlaps r with
        | none =>
          rw [hk] at h
          simp only at h
          split at h
          · cases h; exact ⟨single _ _ hr _, .inl rfl⟩
          · cases h
        | some k =>
          rw [hk] at h
          simp only at h
          have hk0 : k ≠ 0 := by
            have := List.mem_of_find?_eq_some hk
            simp only [List.mem_cons, List.not_mem_nil, or_false] at this
            omega
          cases hfind : (ofLevel s k).find? fun g => !g.busy && g.range.overlaps r with
          | some g =>
            rw [hfind] at h
            cases h
            have hgk := mem_ofLevel.1 (List.mem_of_find?_eq_some hfind)
            have hgb : g.busy = false := by
              have := List.find?_some hfind
              simp only [Bool.and_eq_true, Bool.not_eq_true'] at this
              exact this.1
            refine ⟨?_, .inl rfl⟩
            refine ⟨⟨?_, ?_, (hp g hgk.1).2, ?_, ?_, ?_⟩, ?_⟩
            · intro x hx
              rcases List.mem_cons.1 hx with rfl | hx
              · exact (mem_ofLevel.1 hf).1
              · rw [List.mem_singleton.1 hx]; exact hgk.1
            · refine List.pairwise_cons.2 ⟨?_, List.pairwise_singleton ..⟩
              intro x hx e
              rw [List.mem_singleton.1 hx] at e
              have := pairwise_id_inj hid (mem_ofLevel.1 hf).1 hgk.1 e
              rw [this, hgk.2] at hf0
              exact hk0 hf0
            · intro _ x hx hne
              rcases List.mem_cons.1 hx with rfl | hx
              · exact absurd hf0 hne
              · rw [List.mem_singleton.1 hx]
            · intro _ x hx y hy hxn hyn
              rcases List.mem_cons.1 hx with rfl | hx
              · exact absurd hf0 hxn
              · rcases List.mem_cons.1 hy with rfl | hy
                · exact absurd hf0 hyn
                · rw [List.mem_singleton.1 hx, List.mem_singleton.1 hy]
            · intro hne; exact absurd rfl hne
            · intro x hx
              rcases List.mem_cons.1 hx with rfl | hx
              · exact hb
              · rw [List.mem_singleton.1 hx]; exact hgb
          | none =>
            rw [hfind] at h
            simp only at h
            obtain ⟨o, ho', rfl⟩ := Option.map_eq_some_iff.1 h
            refine ⟨single _ _ (intersect_bounds hr (rangeOf_bounds hp k) ho') _, .inr ⟨rfl, f, rfl, ?_⟩⟩
            intro g hgs hgl hgb
            have := List.find?_eq_none.1 hfind g (mem_ofLevel.2 ⟨hgs, hgl⟩)
            rw [← hrem]
            simpa [hgb] using this

/-- Every request of the delta picker is about files of the version that are not being compacted, each once; the range includes the file of
another level. -/
theorem C105_delta {s : Levels α} (hid : s.Pairwise fun f g => f.id ≠ g.id) (hp : ∀ f ∈ s, Proper f.range) (hg : ∀ f ∈ s, Tomb.Good f.all)
    {trigger : Nat} {q : Req α} (h : pickDelta trigger s = some q) : Good s q := (pickDelta_ok hid hp hg h).1

theorem takeFiles_sub (max : Nat) : ∀ (l : List (DFile α)) (n : Nat), (takeFiles max n l).Sublist l ∧ ∀ f ∈ takeFiles max n l, f.busy = false
  | [], n => by simp [takeFiles]
  | f :: l, n => by
    unfold takeFiles
    split
    · obtain ⟨h1, h2⟩ := takeFiles_sub max l n
      exact ⟨h1.cons f, h2⟩
    · rename_i hb
      have hb : f.busy = false := by simpa using hb
      split
      · exact ⟨by simp, by simpa using hb⟩
      · obtain ⟨h1, h2⟩ := takeFiles_sub max l (n + f.size)
        refine ⟨h1.cons_cons f, ?_⟩
        intro g hg
        rcases List.mem_cons.1 hg with rfl | hg
        · exact hb
        · exact h2 g hg

theorem best_mem : ∀ {l : List (Nat × Nat)} {b : Nat × Nat}, best l = some b → b ∈ l
  | [], b, h => by simp [best] at h
  | e :: es, b, h => by
    unfold best at h
    cases hb : best es with
    | none => rw [hb] at h; cases h; exact List.mem_cons_self ..
    | some c =>
      rw [hb] at h
      simp only at h
      split at h <;> cases h
      · exact List.mem_cons_of_mem _ (best_mem hb)
      · exact List.mem_cons_self ..

theorem pickLevel_pos {s : Levels α} {k o : Nat} (h : pickLevel s = some (k, o)) : k ≠ 0 := by
  unfold pickLevel at h
  obtain ⟨b, hb, e⟩ := Option.map_eq_some_iff.1 h
  cases e
  obtain ⟨k, _, hk⟩ := List.mem_filterMap.1 (best_mem hb)
  obtain ⟨x, hx, rfl⟩ := Option.map_eq_some_iff.1 hk
  unfold score at hx
  split at hx
  · cases hx
  · rename_i hn
    intro e
    exact hn (.inl e)

/-- The same for the level picker; all its files are marked. -/
theorem C105_level {s : Levels α} (hid : s.Pairwise fun f g => f.id ≠ g.id) {max : Nat} {q : Req α} (h : pickNormal max s = some q) :
    Good s q ∧ q.marked = q.files.map DFile.id := by
  unfold pickNormal at h
  cases hl : pickLevel s with
  | none => rw [hl] at h; cases h
  | some ko =>
    obtain ⟨k, o⟩ := ko
    rw [hl] at h
    simp only at h
    obtain ⟨h1, h2⟩ := takeFiles_sub max (sortBy leFile (ofLevel s k)) 0
    split at h
    · cases h
    · cases h
      have hk := pickLevel_pos hl
      refine ⟨⟨⟨?_, ?_, ?_, ?_, ?_, ?_⟩, h2⟩, rfl⟩
      · intro f hf
        exact (mem_ofLevel.1 ((sortBy_perm _ _).mem_iff.1 (h1.subset hf))).1
      · refine List.Pairwise.sublist h1 ?_
        exact (((sortBy_perm leFile (ofLevel s k)).pairwise_iff (fun h e => h e.symm)).2 (pairwise_ofLevel hid k))
      · show IsI64 i64Min ∧ IsI64 i64Max
        unfold IsI64; decide
      · intro h0; exact absurd h0 hk
      · intro h0; exact absurd h0 hk
      · intro _; rfl

/-- A request of the delta picker has all its files marked, or it is one file alone for a level whose files do not overlap it or are all
being compacted. -/
theorem C105_marked_partial {s : Levels α} (hid : s.Pairwise fun f g => f.id ≠ g.id) (hp : ∀ f ∈ s, Proper f.range) (hg : ∀ f ∈ s, Tomb.Good f.all)
    {trigger : Nat} {q : Req α} (h : pickDelta trigger s = some q) : Marked s q := (pickDelta_ok hid hp hg h).2

/-- The files that are marked are not picked again. -/
theorem not_again {s : Levels α} {ids : List Nat} {f : DFile α} (hf : f ∈ mark s ids) (hb : f.busy = false) : f.id ∉ ids := by
  unfold mark at hf
  obtain ⟨g, _, rfl⟩ := List.mem_map.1 hf
  intro hm
  split at hm
  · rename_i hc
    rw [if_pos hc] at hb
    cases hb
  · rename_i hc
    exact hc (List.contains_iff_mem.2 hm)

/-- A request of a picker. -/
def Picked (trigger max : Nat) (s : Levels α) (q : Req α) : Prop := pickDelta trigger s = some q ∨ pickNormal max s = some q

theorem Picked.good {cols trigger max : Nat} {s : Levels α} {q : Req α} (h : Ok cols s) (hq : Picked trigger max s q) : Good s q := by
  rcases hq with hq | hq
  · exact C105_delta h.ids h.proper h.good hq
  · exact (C105_level h.ids hq).1

theorem mark_ok {cols : Nat} {s : Levels α} (h : Ok cols s) (ids : List Nat) : Ok cols (mark s ids) := by
  have hm : ∀ f ∈ mark s ids, ∃ g ∈ s, f.id = g.id ∧ f.body = g.body ∧ f.range = g.range ∧ f.all = g.all := by
    intro f hf
    obtain ⟨g, hg, rfl⟩ := List.mem_map.1 hf
    refine ⟨g, hg, ?_⟩
    split <;> exact ⟨rfl, rfl, rfl, rfl⟩
  refine ⟨?_, ?_, ?_, ?_, ?_, ?_⟩
  · unfold mark
    rw [List.pairwise_map]
    refine h.ids.imp ?_
    intro f g hfg
    split <;> split <;> exact hfg
  · refine InputOk.sub h.input ?_
    intro b hb
    obtain ⟨f, hf, rfl⟩ := List.mem_map.1 hb
    obtain ⟨g, hg, _, e, _⟩ := hm f hf
    exact List.mem_map.2 ⟨g, hg, e.symm⟩
  · intro f hf sid r hr
    obtain ⟨g, hg, _, e1, e2, _⟩ := hm f hf
    rw [e1] at hr
    rw [e2]
    exact h.range g hg sid r hr
  · intro f hf
    obtain ⟨g, hg, _, _, e2, _⟩ := hm f hf
    rw [e2]
    exact h.proper g hg
  · intro f hf
    obtain ⟨g, hg, _, _, _, e3⟩ := hm f hf
    rw [e3]
    exact h.good g hg
  · intro f hf sid r hr
    obtain ⟨g, hg, _, e1, _, e3⟩ := hm f hf
    rw [e1] at hr
    rw [e3]
    exact h.left g hg sid r hr

/-- A request whose files are all marked shares no file with a request made while they are marked. -/
theorem C105_again_partial {cols trigger max : Nat} {s : Levels α} {q q' : Req α} (h : Ok cols s) (hm : q.marked = q.files.map DFile.id)
    (hq : Picked trigger max (mark s q.marked) q') : ∀ f ∈ q.files, ∀ g ∈ q'.files, f.id ≠ g.id := by
  intro f hf g hg e
  have hgood := Picked.good (mark_ok h _) hq
  have := not_again (hgood.fits.sub g hg) (hgood.free g hg)
  rw [hm] at this
  exact this (List.mem_map.2 ⟨f, hf, e⟩)

/-- The version with the files of a request marked still has them. -/
theorem holds_mark {cols trigger max : Nat} {s : Levels α} {q : Req α} (h : Ok cols s) (hq : Picked trigger max s q) (ids : List Nat) : Holds (mark s ids) q := by
  refine ⟨(mark_ok h ids).ids, ?_⟩
  intro f hf
  refine ⟨_, List.mem_map.2 ⟨f, (hq.good h).fits.sub f hf, rfl⟩, ?_⟩
  split <;> exact ⟨rfl, rfl⟩

/-- No request of a picker loses rows, also if other files are flushed or compacted while the job runs. -/
theorem C104_picked_partial {cols block trigger max : Nat} {s s' : Levels α} {q : Req α} (hb : 1 ≤ block) (h : Ok cols s) (hq : Picked trigger max s q)
    (hsort : (start (q.inputs.map DFile.body)).Pairwise fun a b => leC a b = true) (hh : Holds s' q) (id size : Nat) :
    ∃ N e, (∀ fuel, N < fuel → q.job cols block fuel id size = some e) ∧ SameTimes cols s' (install s' e) :=
  C104_rows_partial hb h (hq.good h).fits hsort hh id size

end Verif.Pick
