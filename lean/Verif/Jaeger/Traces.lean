import Verif.Jaeger.Props
/-!
# Traces made of the rows of a table

C182 (a trace has all its spans), C184 (a span of a trace that was found is shown with its process).
-/
namespace Verif.Jaeger
open Verif.Ingest Verif.Raft

/-! ## Scans -/

theorem chunks_mem {A : Type} (n : Nat) : ∀ f (l : List A) b, b ∈ chunks n f l → ∀ x ∈ b, x ∈ l
  | 0, [], b, hb, _, _ => by simp [chunks] at hb
  | _ + 1, [], b, hb, _, _ => by simp [chunks] at hb
  | 0, a :: l, b, hb, x, hx => by simp only [chunks, List.mem_singleton] at hb; subst hb; exact hx
  | f + 1, a :: l, b, hb, x, hx => by
    simp only [chunks, List.mem_cons] at hb
    rcases hb with rfl | hb
    · exact List.mem_of_mem_take hx
    · exact List.mem_of_mem_drop (chunks_mem n f _ b hb x hx)

theorem scan_mem {p : Row → Bool} {rows : List Row} {b : List Row} (hb : b ∈ scan p rows) {r : Row} (hr : r ∈ b) :
    r ∈ rows ∧ p r = true := by
  simp only [scan, List.mem_flatMap] at hb
  obtain ⟨k, _, hb⟩ := hb
  have := chunks_mem _ _ _ b hb r hr
  simp only [List.mem_filter] at this
  exact this.1

/-- A list of rows read, or an error. -/
def readAll (cs : List Col) : List Row → Option (List JSpan)
  | [] => some []
  | r :: rs => match toSpan cs r, readAll cs rs with
    | some j, some js => some (j :: js)
    | _, _ => none

theorem heads_mem {cs : List Col} : ∀ {bs : List (List Row)} {js : List JSpan}, heads cs bs = some js → ∀ j ∈ js,
    ∃ b ∈ bs, ∃ r ∈ b, toSpan cs r = some j
  | [], js, h, j, hj => by simp only [heads, Option.some.injEq] at h; subst h; cases hj
  | [] :: bs, js, h, j, hj => by
    simp only [heads] at h
    obtain ⟨b, hb, r⟩ := heads_mem h j hj
    exact ⟨b, List.mem_cons_of_mem _ hb, r⟩
  | (r :: b) :: bs, js, h, j, hj => by
    simp only [heads] at h
    cases h1 : toSpan cs r with
    | none => rw [h1] at h; simp at h
    | some j0 =>
      cases h2 : heads cs bs with
      | none => rw [h1, h2] at h; simp at h
      | some js0 =>
        rw [h1, h2] at h
        simp only [Option.some.injEq] at h
        subst h
        rcases List.mem_cons.mp hj with rfl | hj
        · exact ⟨_, List.mem_cons_self, r, List.mem_cons_self, h1⟩
        · obtain ⟨b, hb, r⟩ := heads_mem h2 j hj
          exact ⟨b, List.mem_cons_of_mem _ hb, r⟩

/-- Property C182: a trace has only spans of that trace. -/
theorem C182_only {cs : List Col} {rows : List Row} {id : Str} {js : List JSpan} (h : getTrace cs rows id = some js) :
    ∀ j ∈ js, ∃ r ∈ rows, strOf r traceCol = id ∧ toSpan cs r = some j := by
  intro j hj
  obtain ⟨b, hb, r, hr, hs⟩ := heads_mem h j hj
  obtain ⟨h1, h2⟩ := scan_mem hb hr
  exact ⟨r, h1, by simpa using h2, hs⟩

theorem C182_ids {cs : List Col} {rows : List Row} {id : Str} {js : List JSpan} (h : getTrace cs rows id = some js)
    (hc : Has cs traceCol false) : ∀ j ∈ js, j.trace = id := by
  intro j hj
  obtain ⟨r, _, h2, h3⟩ := C182_only h j hj
  rw [← h2]
  exact (C183_read_partial h3).1 hc

theorem heads_first {cs : List Col} : ∀ {bs : List (List Row)} {js : List JSpan}, heads cs bs = some js → ∀ r b, r :: b ∈ bs →
    ∃ j ∈ js, toSpan cs r = some j
  | [], _, _, _, _, hb => by cases hb
  | [] :: bs, js, h, r, b, hb => by
    simp only [heads] at h
    rcases List.mem_cons.mp hb with hb | hb
    · cases hb
    · exact heads_first h r b hb
  | (x :: y) :: bs, js, h, r, b, hb => by
    simp only [heads] at h
    cases h1 : toSpan cs x with
    | none => rw [h1] at h; simp at h
    | some j0 =>
      cases h2 : heads cs bs with
      | none => rw [h1, h2] at h; simp at h
      | some js0 =>
        rw [h1, h2] at h
        simp only [Option.some.injEq] at h
        subst h
        rcases List.mem_cons.mp hb with hb | hb
        · cases hb
          exact ⟨j0, List.mem_cons_self, h1⟩
        · obtain ⟨j, hj, e⟩ := heads_first h2 r b hb
          exact ⟨j, List.mem_cons_of_mem _ hj, e⟩

theorem chunks_first {A : Type} (n : Nat) (hn : 0 < n) (f : Nat) (a : A) (l : List A) : ∃ b, (a :: b) ∈ chunks n f (a :: l) := by
  cases f with
  | zero => exact ⟨l, List.mem_singleton.mpr rfl⟩
  | succ f =>
    obtain ⟨n, rfl⟩ : ∃ m, n = m + 1 := ⟨n - 1, by omega⟩
    exact ⟨l.take n, by simp [chunks]⟩

theorem scan_first {p : Row → Bool} {rows : List Row} {r : Row} (hr : r ∈ rows) (hp : p r = true)
    (hu : ∀ r' ∈ rows, p r' = true → series r' = series r → r' = r) : ∃ b, r :: b ∈ scan p rows := by
  have hf : r ∈ (rows.filter p).filter fun x => decide (series x = series r) := by
    simp [List.mem_filter, hr, hp]
  have hk : series r ∈ ((rows.filter p).map series).eraseDups := by
    rw [List.mem_eraseDups]
    exact List.mem_map_of_mem (List.mem_filter.mpr ⟨hr, hp⟩)
  cases hl : (rows.filter p).filter fun x => decide (series x = series r) with
  | nil => rw [hl] at hf; cases hf
  | cons x l =>
    have hx : x = r := by
      have : x ∈ (rows.filter p).filter fun x => decide (series x = series r) := by rw [hl]; exact List.mem_cons_self
      simp only [List.mem_filter, decide_eq_true_eq] at this
      exact hu x this.1.1 this.1.2 this.2
    subst hx
    obtain ⟨b, hb⟩ := chunks_first 4096 (by decide) (x :: l).length x l
    refine ⟨b, List.mem_flatMap.mpr ⟨_, hk, ?_⟩⟩
    simp only [hl]
    exact hb

/-- Property C182, partial: a trace has every span whose tags, its id among them, no other row of the table has.  (Left out: spans
that share their tags with others.) -/
theorem C182_spans_partial {cs : List Col} {rows : List Row} {id : Str} {js : List JSpan} (h : getTrace cs rows id = some js)
    {r : Row} (hr : r ∈ rows) (hid : strOf r traceCol = id) (hu : ∀ r' ∈ rows, series r' = series r → r' = r) :
    ∃ j ∈ js, toSpan cs r = some j := by
  obtain ⟨b, hb⟩ := scan_first (p := fun r => decide (strOf r traceCol = id)) hr (by simp [hid]) fun r' h1 _ h2 => hu r' h1 h2
  exact heads_first h r b hb

/-! All spans have series of their own. -/

theorem eraseDups_of_nodup {A : Type} [BEq A] [LawfulBEq A] {l : List A} (h : l.Nodup) : l.eraseDups = l := by
  induction l with
  | nil => rfl
  | cons a l ih =>
    rw [List.eraseDups_cons]
    have hn : l.filter (fun b => !b == a) = l := by
      rw [List.filter_eq_self]
      intro b hb
      have : b ≠ a := fun e => (List.nodup_cons.mp h).1 (e ▸ hb)
      simp [this]
    rw [hn, ih (List.nodup_cons.mp h).2]

theorem heads_single (cs : List Col) : ∀ l : List Row, heads cs (l.map fun r => [r]) = readAll cs l
  | [] => rfl
  | r :: l => by
    simp only [List.map_cons, heads, readAll, heads_single cs l]
    cases toSpan cs r <;> cases readAll cs l <;> rfl

theorem flatMap_series : ∀ (l full : List Row), (full.map series).Nodup → (∀ r ∈ l, r ∈ full) → l.Nodup →
    ((l.map series).flatMap fun k =>
      chunks 4096 (full.filter fun r => decide (series r = k)).length (full.filter fun r => decide (series r = k))) =
    l.map fun r => [r]
  | [], _, _, _, _ => rfl
  | r :: l, full, hn, hs, hl => by
    simp only [List.map_cons, List.flatMap_cons]
    rw [flatMap_series l full hn (fun x hx => hs x (List.mem_cons_of_mem _ hx)) (List.nodup_cons.mp hl).2]
    have hone : (full.filter fun x => decide (series x = series r)) = [r] := by
      have hr := hs r List.mem_cons_self
      clear hs hl
      induction full with
      | nil => cases hr
      | cons y full ih =>
        simp only [List.map_cons, List.nodup_cons] at hn
        rcases List.mem_cons.mp hr with rfl | hr
        · rw [List.filter_cons_of_pos (by simp)]
          congr 1
          rw [List.filter_eq_nil_iff]
          intro z hz hzk
          simp only [decide_eq_true_eq] at hzk
          exact hn.1 (hzk ▸ List.mem_map_of_mem hz)
        · rw [List.filter_cons_of_neg, ih hn.2 hr]
          simp only [decide_eq_true_eq]
          intro e
          exact hn.1 (e ▸ List.mem_map_of_mem hr)
    rw [hone]
    rfl

/-- Property C182, partial: when the spans of the trace differ in their tags, reading the trace is reading its rows, each once and in
the order of the table. -/
theorem C182_all_partial (cs : List Col) (rows : List Row) (id : Str)
    (hn : ((rows.filter fun r => decide (strOf r traceCol = id)).map series).Nodup) :
    getTrace cs rows id = readAll cs (rows.filter fun r => decide (strOf r traceCol = id)) := by
  unfold getTrace scan
  rw [eraseDups_of_nodup hn, flatMap_series _ _ hn (fun _ h => h), heads_single]
  have : ∀ l : List Row, (l.map series).Nodup → l.Nodup := by
    intro l
    induction l with
    | nil => intro _; exact List.nodup_nil
    | cons a l ih =>
      intro h
      simp only [List.map_cons, List.nodup_cons] at h
      exact List.nodup_cons.mpr ⟨fun hm => h.1 (List.mem_map_of_mem hm), ih h.2⟩
  exact this _ hn

/-! ## Processes -/

/-- What holds of a trace while spans are added. -/
structure TraceOk (t : Trace) : Prop where
  ne : t.spans ≠ []
  ids : ∀ x ∈ t.spans, x.1.trace = t.id
  pid : ∀ i x, t.spans[i]? = some x → x.2 = 'p' :: dec (max i 1)
  own : ∀ i x, 1 ≤ i → t.spans[i]? = some x → t.processes.get x.2 = some x.1.process
  one : ∀ x, t.spans = [x] → t.processes.get x.2 = some x.1.process

theorem p_inj {a b : Nat} (h : 'p' :: dec a = 'p' :: dec b) : a = b := dec_inj (List.cons.inj h).2

theorem addSpan_mem {ts : List Trace} {j : JSpan} (h : ∀ t ∈ ts, TraceOk t) : ∀ t ∈ addSpan ts j, TraceOk t := by
  intro t ht
  unfold addSpan at ht
  split at ht
  · simp only [List.mem_map] at ht
    obtain ⟨t0, h0, e⟩ := ht
    split at e
    · rename_i hid
      have ok := h t0 h0
      subst e
      have hlen : 1 ≤ t0.spans.length := by
        cases hs : t0.spans with
        | nil => exact absurd hs ok.ne
        | cons a l => simp
      have get : ∀ i x, (t0.spans ++ [(j, 'p' :: dec t0.spans.length)])[i]? = some x →
          t0.spans[i]? = some x ∨ i = t0.spans.length ∧ x = (j, 'p' :: dec t0.spans.length) := by
        intro i x hi
        rw [List.getElem?_append] at hi
        split at hi
        · exact Or.inl hi
        · rename_i hlt
          by_cases h0 : i - t0.spans.length = 0
          · rw [h0] at hi
            simp only [List.getElem?_cons_zero, Option.some.injEq] at hi
            exact Or.inr ⟨by omega, hi.symm⟩
          · rw [List.getElem?_eq_none (by simp; omega)] at hi; cases hi
      refine ⟨by simp, ?_, ?_, ?_, ?_⟩
      · intro x hx
        simp only [List.mem_append, List.mem_singleton] at hx
        rcases hx with hx | rfl
        · exact ok.ids x hx
        · exact hid.symm
      · intro i x hi
        rcases get i x hi with hi | ⟨rfl, rfl⟩
        · exact ok.pid i x hi
        · rw [Nat.max_eq_left hlen]
      · intro i x h1 hi
        rcases get i x hi with hi | ⟨rfl, rfl⟩
        · have hlt : i < t0.spans.length := (List.getElem?_eq_some_iff.mp hi).1
          show (t0.processes.set _ _).get _ = _
          rw [AMap.get_set, if_neg]
          · exact ok.own i x h1 hi
          · rw [ok.pid i x hi, Nat.max_eq_left h1]
            intro e
            have := p_inj e
            omega
        · show (t0.processes.set _ _).get _ = _
          rw [AMap.get_set, if_pos rfl]
      · intro x hx
        have := congrArg List.length hx
        simp at this
        exact absurd this ok.ne
    · subst e; exact h t0 h0
  · simp only [List.mem_append, List.mem_singleton] at ht
    rcases ht with ht | rfl
    · exact h t ht
    · refine ⟨by simp, by simp, ?_, ?_, ?_⟩
      · intro i x hi
        cases i with
        | zero => simp at hi; subst hi; show ['p', '1'] = 'p' :: dec 1; decide +kernel
        | succ i => simp at hi
      · intro i x h1 hi
        cases i with
        | zero => omega
        | succ i => simp at hi
      · intro x hx
        simp only [List.cons.injEq, and_true] at hx
        subst hx
        simp [AMap.get_set]

theorem traces_ok (js : List JSpan) : ∀ t ∈ traces js, TraceOk t := by
  have : ∀ (js : List JSpan) (ts : List Trace), (∀ t ∈ ts, TraceOk t) → ∀ t ∈ js.foldl addSpan ts, TraceOk t := by
    intro js
    induction js with
    | nil => intro ts h; exact h
    | cons j js ih => intro ts h; exact ih _ (addSpan_mem h)
  exact this js [] (by simp)

/-- Property C184, partial: the process of a span of a trace that was found is the process of that span, except for the first of
several spans. -/
theorem C184_own_partial {js : List JSpan} {t : Trace} (ht : t ∈ traces js) {i : Nat} {x : JSpan × Str} (hi : t.spans[i]? = some x)
    (h : 1 ≤ i ∨ t.spans.length = 1) : t.processes.get x.2 = some x.1.process := by
  have ok := traces_ok js t ht
  by_cases h1 : 1 ≤ i
  · exact ok.own i x h1 hi
  · rcases h with h | h
    · exact absurd h h1
    · have : i = 0 := by omega
      subst this
      apply ok.one
      cases hs : t.spans with
      | nil => rw [hs] at h; simp at h
      | cons a l =>
        rw [hs] at h hi
        simp only [List.length_cons, Nat.add_eq_right, List.length_eq_zero_iff] at h
        subst h
        simp at hi
        rw [hi]

/-- Property C184: the first of several spans is always shown with the process of the second. -/
theorem C184_first {js : List JSpan} {t : Trace} (ht : t ∈ traces js) {a b : JSpan × Str} {l : List (JSpan × Str)}
    (hs : t.spans = a :: b :: l) : t.processes.get a.2 = some b.1.process := by
  have ok := traces_ok js t ht
  have h0 := ok.pid 0 a (by rw [hs]; rfl)
  have h1 := ok.pid 1 b (by rw [hs]; rfl)
  have := ok.own 1 b (by omega) (by rw [hs]; rfl)
  rw [h1] at this
  rw [h0]
  exact this

theorem traces_step (js : List JSpan) (j : JSpan) : traces (js ++ [j]) = addSpan (traces js) j := by
  simp [traces, List.foldl_append]

/-- What the traces have in them. -/
theorem addSpan_spans (ts : List Trace) (j x : JSpan) :
    (∃ t ∈ addSpan ts j, x ∈ t.spans.map (·.1)) ↔ x = j ∨ ∃ t ∈ ts, x ∈ t.spans.map (·.1) := by
  unfold addSpan
  split
  · rename_i hany
    simp only [List.any_eq_true, decide_eq_true_eq] at hany
    obtain ⟨t0, h0, e0⟩ := hany
    constructor
    · rintro ⟨t, ht, hx⟩
      simp only [List.mem_map] at ht
      obtain ⟨t1, h1, e1⟩ := ht
      split at e1
      · subst e1
        simp only [List.map_append, List.map_cons, List.map_nil, List.mem_append, List.mem_singleton] at hx
        rcases hx with hx | hx
        · exact Or.inr ⟨t1, h1, hx⟩
        · exact Or.inl hx
      · subst e1; exact Or.inr ⟨t1, h1, hx⟩
    · rintro (rfl | ⟨t, ht, hx⟩)
      · refine ⟨_, List.mem_map_of_mem h0, ?_⟩
        simp [e0]
      · refine ⟨_, List.mem_map_of_mem ht, ?_⟩
        split
        · simp only [List.map_append, List.mem_append]; exact Or.inl hx
        · exact hx
  · constructor
    · rintro ⟨t, ht, hx⟩
      simp only [List.mem_append, List.mem_singleton] at ht
      rcases ht with ht | rfl
      · exact Or.inr ⟨t, ht, hx⟩
      · simp at hx; exact Or.inl hx
    · rintro (rfl | ⟨t, ht, hx⟩)
      · exact ⟨_, List.mem_append_right _ (List.mem_singleton.mpr rfl), by simp⟩
      · exact ⟨t, List.mem_append_left _ ht, hx⟩

/-- Property C184: the spans of the traces that were found are the spans that were read, each in the trace of its id. -/
theorem C184_spans (js : List JSpan) :
    (∀ x, (∃ t ∈ traces js, x ∈ t.spans.map (·.1)) ↔ x ∈ js) ∧ ∀ t ∈ traces js, ∀ x ∈ t.spans, x.1.trace = t.id := by
  refine ⟨?_, fun t ht => (traces_ok js t ht).ids⟩
  intro x
  have : ∀ (js : List JSpan) (ts : List Trace),
      (∃ t ∈ js.foldl addSpan ts, x ∈ t.spans.map (·.1)) ↔ x ∈ js ∨ ∃ t ∈ ts, x ∈ t.spans.map (·.1) := by
    intro js
    induction js with
    | nil => intro ts; simp
    | cons j js ih =>
      intro ts
      rw [List.foldl_cons, ih, addSpan_spans, List.mem_cons]
      constructor
      · rintro (h | h | h)
        · exact Or.inl (Or.inr h)
        · exact Or.inl (Or.inl h)
        · exact Or.inr h
      · rintro ((h | h) | h)
        · exact Or.inr (Or.inl h)
        · exact Or.inl h
        · exact Or.inr (Or.inr h)
  rw [traces, this]
  simp

/-- Property C184: no two traces that were found have the same id. -/
theorem C184_traces (js : List JSpan) : ((traces js).map (·.id)).Nodup := by
  have : ∀ (js : List JSpan) (ts : List Trace), (ts.map (·.id)).Nodup → ((js.foldl addSpan ts).map (·.id)).Nodup := by
    intro js
    induction js with
    | nil => intro ts h; exact h
    | cons j js ih =>
      intro ts h
      apply ih
      unfold addSpan
      split
      · rw [List.map_map]
        have : (ts.map ((fun t => t.id) ∘ fun t => if t.id = j.trace then
            let pid := 'p' :: dec t.spans.length
            ({ t with spans := t.spans ++ [(j, pid)], processes := t.processes.set pid j.process } : Trace) else t)) = ts.map (·.id) := by
          apply List.map_congr_left
          intro t _
          simp only [Function.comp]
          split <;> rfl
        rw [this]
        exact h
      · rename_i hn
        simp only [Bool.not_eq_true, List.any_eq_false, decide_eq_true_eq] at hn
        rw [List.map_append, List.nodup_append]
        refine ⟨h, by simp, ?_⟩
        intro a ha b hb
        simp only [List.map_cons, List.map_nil, List.mem_singleton] at hb
        subst hb
        simp only [List.mem_map] at ha
        obtain ⟨t, ht, rfl⟩ := ha
        exact hn t ht
  exact this js [] List.nodup_nil

/-- Property C184: a search gives spans of rows that meet the filter. -/
theorem C184_meets {cs : List Col} {rows : List Row} {q : Find} {ts : List Trace} (h : find cs rows q = some ts) :
    ∀ t ∈ ts, ∀ x ∈ t.spans, ∃ r ∈ rows, q.holds r = true ∧ toSpan cs r = some x.1 := by
  unfold find at h
  cases hh : heads cs (scan q.holds rows) with
  | none => rw [hh] at h; simp at h
  | some js =>
    rw [hh] at h
    simp only [Option.map_some, Option.some.injEq] at h
    subst h
    intro t ht x hx
    have := ((C184_spans js).1 x.1).mp ⟨t, ht, List.mem_map_of_mem hx⟩
    obtain ⟨b, hb, r, hr, hs⟩ := heads_mem hh x.1 this
    obtain ⟨h1, h2⟩ := scan_mem hb hr
    exact ⟨r, h1, h2, hs⟩

/-- Property C184, partial: a search finds the span of every row that meets the filter, if no other such row has its tags. -/
theorem C184_found_partial {cs : List Col} {rows : List Row} {q : Find} {ts : List Trace} (h : find cs rows q = some ts)
    {r : Row} (hr : r ∈ rows) (hq : q.holds r = true) (hu : ∀ r' ∈ rows, q.holds r' = true → series r' = series r → r' = r) :
    ∃ t ∈ ts, ∃ x ∈ t.spans, toSpan cs r = some x.1 := by
  unfold find at h
  cases hh : heads cs (scan q.holds rows) with
  | none => rw [hh] at h; simp at h
  | some js =>
    rw [hh] at h
    simp only [Option.map_some, Option.some.injEq] at h
    subst h
    obtain ⟨b, hb⟩ := scan_first (p := q.holds) hr hq hu
    obtain ⟨j, hj, e⟩ := heads_first hh r b hb
    obtain ⟨t, ht, hx⟩ := ((C184_spans js).1 j).mpr hj
    obtain ⟨x, hm, rfl⟩ := List.mem_map.mp hx
    exact ⟨t, ht, x, hm, e⟩

end Verif.Jaeger
