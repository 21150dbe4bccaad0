import Verif.Jaeger.Find
/-!
# Traces that are read wrong, and examples
-/
namespace Verif.Jaeger
open Verif.Ingest Verif.Raft

/-- A span. -/
def mkSpan (id name : String) (start stop : Nat) (events : List Event) : Span :=
  ⟨"0af7".toList, id.toList, [], [], 1, name.toList, "SPAN_KIND_SERVER".toList, start, stop,
    [⟨"http.method".toList, some (.str "GET".toList)⟩], 0, events, 0, [], 0, some ⟨"STATUS_CODE_OK".toList, []⟩⟩

def evt (time : Nat) (name : String) : Event := ⟨time, name.toList, [⟨"size".toList, some (.str "7".toList)⟩], 0⟩

def reqOf (service : String) (spans : List Span) : ResourceSpans :=
  ⟨some ⟨[⟨"service.name".toList, some (.str service.toList)⟩], 0⟩, [],
    [⟨some ⟨"lib".toList, "1".toList, [], 0⟩, [], spans⟩]⟩

/-- A request to read a trace from a table. -/
def readBack (rs : List ResourceSpans) : Option (List JSpan) := getTrace (tableOf rs).1 (tableOf rs).2 "0af7".toList

/-- What was read can be looked at. -/
theorem any_read {o : Option (List JSpan)} {p : JSpan → Bool} (h : (o.getD []).any p = true) :
    ∃ js, o = some js ∧ ∃ j ∈ js, p j = true := by
  cases o with
  | none => simp at h
  | some js => exact ⟨js, rfl, by simpa using h⟩

/-! ## Spans -/

def spanA : Span := mkSpan "b1" "get" 5000000 9000000 []
def spanB : Span := mkSpan "b2" "put" 6000000 8000000 [evt 7000000 "cache"]

/-- Two spans sent one by one: the first without events, the second with one. -/
def reqsAB : List ResourceSpans := [reqOf "shop" [spanA], reqOf "cart" [spanB]]

example : Base (tableOf reqsAB).1 := by decide +kernel
example : ((readBack reqsAB).getD []).map (fun j => (j.span, j.op, j.start, j.duration, j.process.service)) =
    [("b1".toList, "get".toList, 5000, 4000, "shop".toList), ("b2".toList, "put".toList, 6000, 2000, "cart".toList)] := by
  decide +kernel
example : (((tableOf reqsAB).2.filter fun r => decide (strOf r traceCol = "0af7".toList)).map series).Nodup := by decide +kernel
example : spanB.start ≤ spanB.stop ∧ spanB.stop < 2 ^ 63 ∧ spanB.stop - spanB.start ≤ 2 ^ 53 ∧ spanB.flags < 2 ^ 32 := by decide

/-- Property C183 fails: a span without events is read with the event of another span, at time 0 and without a name. -/
theorem C183_foreign_refuted :
    ¬ ∀ (rs : List ResourceSpans) (r : ResourceSpans) (s : Span) (js : List JSpan), r ∈ rs → (∃ c ∈ r.scopes, s ∈ c.spans) →
      readBack rs = some js → ∀ j ∈ js, j.span = s.span → j.logs.length = s.events.length := by
  intro h
  obtain ⟨js, h1, j, hj, hp⟩ := any_read (o := readBack reqsAB) (p := fun j => decide (j.span = "b1".toList) && decide (j.logs =
      [⟨0, [⟨"dropped_attributes_count".toList, .int 0⟩, ⟨"name".toList, .str []⟩]⟩])) (by decide +kernel)
  simp only [Bool.and_eq_true, decide_eq_true_eq] at hp
  have := h reqsAB _ spanA js List.mem_cons_self ⟨_, List.mem_cons_self, List.mem_cons_self⟩ h1 j hj hp.1
  rw [hp.2] at this
  cases this

/-- Eleven events. -/
def spanC : Span := mkSpan "b3" "many" 5000000 9000000 ((List.range 11).map fun i => ⟨6000000 + i, [], [], 0⟩)

def reqsC : List ResourceSpans := [reqOf "shop" [spanC]]

/-- Property C183 fails: the eleventh event is lost, as its column comes before that of the third. -/
theorem C183_eleven_refuted :
    ¬ ∀ (s : Span) (js : List JSpan), readBack [reqOf "shop" [s]] = some js →
      ∀ j ∈ js, j.span = s.span → j.logs.length = s.events.length := by
  intro h
  obtain ⟨js, h1, j, hj, hp⟩ := any_read (o := readBack reqsC) (p := fun j => decide (j.span = "b3".toList) && decide (j.logs.length = 10))
    (by decide +kernel)
  simp only [Bool.and_eq_true, decide_eq_true_eq] at hp
  have := h spanC js h1 j hj hp.1
  rw [hp.2] at this
  cases this

/-- Property C183 fails: the attributes of an event are not among the fields of its log. -/
theorem C183_event_attrs_refuted :
    ¬ ∀ (s : Span) (js : List JSpan), readBack [reqOf "shop" [s]] = some js → ∀ j ∈ js, j.span = s.span →
      ∀ (i : Nat) (e : Event) (g : Log), s.events[i]? = some e → j.logs[i]? = some g → ∀ a ∈ e.attrs, ∀ v, a.val = some v → ∃ f ∈ g.fields, f.val = .str v.text := by
  intro h
  obtain ⟨js, h1, j, hj, hp⟩ := any_read (o := readBack [reqOf "shop" [spanB]])
    (p := fun j => decide (j.span = "b2".toList) &&
      decide ((j.logs[0]?).map (fun g => g.fields.map KV.val) = some [Value.int 0, Value.str "cache".toList]))
    (by decide +kernel)
  simp only [Bool.and_eq_true, decide_eq_true_eq] at hp
  obtain ⟨h2, h3⟩ := hp
  cases hg : j.logs[0]? with
  | none => rw [hg] at h3; cases h3
  | some g =>
    rw [hg] at h3
    simp only [Option.map_some, Option.some.injEq] at h3
    obtain ⟨f, hf, e⟩ := h spanB js h1 j hj h2 0 (evt 7000000 "cache") g rfl hg _ List.mem_cons_self (.str "7".toList) rfl
    have := List.mem_map_of_mem (f := KV.val) hf
    rw [h3, e] at this
    exact absurd this (by decide)

/-! ## Traces -/

/-- The same span id twice, with different times. -/
def reqsD : List ResourceSpans := [reqOf "shop" [mkSpan "b1" "get" 5000000 9000000 [], mkSpan "b1" "get" 7000000 9000000 []]]

/-- Property C182 fails: of spans that share their tags only the first is read. -/
theorem C182_shared_refuted :
    ¬ ∀ (cs : List Col) (rows : List Row) (id : Str) (js : List JSpan), getTrace cs rows id = some js →
      ∀ r ∈ rows, strOf r traceCol = id → ∃ j ∈ js, toSpan cs r = some j := by
  intro h
  have hj : (readBack reqsD).map (fun js => js.map (·.start)) = some [5000] := by decide +kernel
  cases ho : readBack reqsD with
  | none => rw [ho] at hj; cases hj
  | some js =>
    rw [ho] at hj
    have hj : js.map (·.start) = [5000] := Option.some.inj hj
    obtain ⟨r, hr, h1, h2⟩ : ∃ r ∈ (tableOf reqsD).2, strOf r traceCol = "0af7".toList ∧
        (toSpan (tableOf reqsD).1 r).map (·.start) = some 7000 := by
      have : (tableOf reqsD).2.any (fun r => decide (strOf r traceCol = "0af7".toList) &&
        decide ((toSpan (tableOf reqsD).1 r).map (·.start) = some 7000)) = true := by decide +kernel
      simp only [List.any_eq_true, Bool.and_eq_true, decide_eq_true_eq] at this
      exact this
    obtain ⟨j, hm, e⟩ := h _ _ _ js ho r hr h1
    rw [e] at h2
    have := List.mem_map_of_mem (f := JSpan.start) hm
    rw [hj, List.mem_singleton] at this
    rw [Option.map_some, this] at h2
    cases h2

/-- A search without conditions. -/
def anything : Find := ⟨none, none, none, none, AMap.empty, none, none⟩

/-- Property C184 fails: the first span of a trace that was found is shown with the process of the second, here another service. -/
theorem C184_first_refuted :
    ¬ ∀ (cs : List Col) (rows : List Row) (q : Find) (ts : List Trace), find cs rows q = some ts →
      ∀ t ∈ ts, ∀ x ∈ t.spans, (t.processes.get x.2).map (·.service) = some x.1.process.service := by
  intro h
  have hb : ((find (tableOf reqsAB).1 (tableOf reqsAB).2 anything).getD []).any (fun t => t.spans.any fun x =>
      !decide ((t.processes.get x.2).map (·.service) = some x.1.process.service)) = true := by decide +kernel
  cases ho : find (tableOf reqsAB).1 (tableOf reqsAB).2 anything with
  | none => rw [ho] at hb; cases hb
  | some ts =>
    rw [ho] at hb
    simp only [Option.getD_some, List.any_eq_true, Bool.not_eq_true', decide_eq_false_iff_not] at hb
    obtain ⟨t, ht, x, hx, hne⟩ := hb
    exact hne (h _ _ _ ts ho t ht x hx)

/-! ## Searches -/

example : parseDuration (fun _ _ _ => 0) "1h30m5s20ms".toList = some 5405020000000 := by decide +kernel
example : ∀ i ∈ [(⟨1, "h".toList⟩ : Item), ⟨30, "m".toList⟩], unitOf i.unit ≠ none := by decide
example : total [⟨1, "h".toList⟩, ⟨30, "m".toList⟩] ≤ 2 ^ 62 := by decide

/-- Property C185 fails: a number that does not fit into 64 bits wraps silently; 2^64+1 nanoseconds are one. -/
theorem C185_wrap_refuted :
    ¬ ∀ (frac : Nat → Nat → Nat → Nat) (i : Item) (d : Nat), parseDuration frac (dec i.n ++ i.unit) = some d →
      d = i.n * nanosOf i.unit := by
  intro h
  have := h (fun _ _ _ => 0) ⟨18446744073709551617, "ns".toList⟩ 1 (by decide +kernel)
  revert this
  decide

/-- Property C185 fails: a duration with a minus is taken as one of many years, so that nothing is shorter. -/
theorem C185_minus_refuted : parseDuration (fun _ _ _ => 0) "-1s".toList = some 18446744072709551616 := by decide +kernel

/-- Property C185 fails: an attribute whose value has a colon is not asked for; all spans are found. -/
theorem C185_colon_refuted :
    ¬ ∀ (k v : Str), ':' ∉ k → ',' ∉ k → ',' ∉ v → (tagMap (k ++ ':' :: v)).get k = some v := by
  intro h
  have := h "url".toList "http://a".toList (by decide) (by decide) (by decide)
  revert this
  decide +kernel

/-- Two attributes in `tags`, as Jaeger sends them, are split at the comma: the search panics. -/
theorem C185_two_tags_refuted (obj : Str → Option (List (Str × Str))) (m : AMap Str Str)
    (hobj : ∀ s l, obj s = some l → s.getLast? = some '}') :
    tagsMap obj m "{\"a\":\"1\",\"b\":\"2\"}".toList = none := by
  refine C185_tags_panics (x := "{\"a\":\"1\"".toList) (by decide) ?_
  cases ho : obj "{\"a\":\"1\"".toList with
  | none => rfl
  | some l => exact absurd (hobj _ l ho) (by decide)

example : ∀ s l, (fun s : Str => if s.getLast? = some '}' then some [] else (none : Option (List (Str × Str)))) s = some l →
    s.getLast? = some '}' := by
  intro s l h
  by_cases hn : s.getLast? = some '}'
  · exact hn
  · simp [hn] at h

/-- Property C185 fails: a span that ends after the end of the search is found, as times are compared as doubles. -/
theorem C185_end_refuted :
    ¬ ∀ (q : Find) (r : Row) (t n : Int), q.holds r = true → q.stop = some t →
      r.cells.get (key spanPrefix "end_time_unix_nano") = some (.num n) → n ≤ t * 1000 := by
  intro h
  have := h { anything with stop := some 1700000000000000 }
    ⟨0, (AMap.empty : Rec).set (key spanPrefix "end_time_unix_nano") (.num 1700000000000000100)⟩ 1700000000000000 1700000000000000100
    (by decide +kernel) rfl (by decide +kernel)
  omega

end Verif.Jaeger
