import Verif.Ingest.Otlp
/-!
# Properties: records made of OTLP traces and of Loki pushes
-/
namespace Verif.Ingest

/-- The last item with a key. -/
def lastOf (l : Items) (k : Str) : Option Leaf := (l.reverse.find? fun e => decide (e.1 = k)).map Prod.snd

theorem get_insertAll (l : Items) (m : Rec) (k : Str) : (insertAll m l).get k = (lastOf l k).or (m.get k) := by
  induction l generalizing m with
  | nil => simp [insertAll, lastOf]
  | cons e l ih =>
    have : insertAll m (e :: l) = insertAll (m.set e.1 e.2) l := rfl
    rw [this, ih, AMap.get_set]
    simp only [lastOf, List.reverse_cons, List.find?_append, List.find?_singleton]
    cases h : l.reverse.find? fun e => decide (e.1 = k) with
    | some x => simp
    | none =>
      simp only [Option.map_none, Option.none_or, decide_eq_true_eq]
      by_cases hk : e.1 = k
      · simp [hk]
      · simp [hk, Ne.symm hk]

theorem lastOf_append (a b : Items) (k : Str) : lastOf (a ++ b) k = (lastOf b k).or (lastOf a k) := by
  simp only [lastOf, List.reverse_append, List.find?_append]
  cases b.reverse.find? fun e => decide (e.1 = k) <;> simp

theorem insertAll_append (a b : Items) (m : Rec) : insertAll m (a ++ b) = insertAll (insertAll m a) b := by
  simp [insertAll]

/-! ## Traces -/

/-- What a record of a span should hold: the data of its resource, of its scope, and its own. -/
def own (r : ResourceSpans) (sc : ScopeSpans) (s : Span) : Items := resItems r ++ scopeItems sc ++ spanItems s

/-- All that a scope and its spans insert. -/
def scopeAll (sc : ScopeSpans) : Items := scopeItems sc ++ sc.spans.flatMap spanItems

theorem spanRecs_length (ss : List Span) (f : Rec) : (spanRecs ss f).1.length = ss.length := by
  induction ss generalizing f with
  | nil => rfl
  | cons s ss ih => simp [spanRecs, ih]

theorem spanRecs_snd (ss : List Span) (f : Rec) : (spanRecs ss f).2 = insertAll f (ss.flatMap spanItems) := by
  induction ss generalizing f with
  | nil => rfl
  | cons s ss ih => simp only [spanRecs, ih, List.flatMap_cons, insertAll_append]

theorem spanRecs_get (a : List Span) (s : Span) (b : List Span) (f : Rec) :
    (spanRecs (a ++ s :: b) f).1[a.length]? = some (insertAll f (a.flatMap spanItems ++ spanItems s)) := by
  induction a generalizing f with
  | nil => simp [spanRecs]
  | cons x a ih =>
    simp only [List.cons_append, spanRecs, List.length_cons, List.getElem?_cons_succ, ih, List.flatMap_cons, insertAll_append]

theorem scopeRecs_get (pre : List ScopeSpans) (sc : ScopeSpans) (post : List ScopeSpans) (a : List Span) (s : Span) (b : List Span)
    (hs : sc.spans = a ++ s :: b) (f : Rec) :
    (scopeRecs (pre ++ sc :: post) f)[(pre.map fun x => x.spans.length).sum + a.length]? =
      some (insertAll f (pre.flatMap scopeAll ++ scopeItems sc ++ a.flatMap spanItems ++ spanItems s)) := by
  induction pre generalizing f with
  | nil =>
    simp only [List.nil_append, scopeRecs, List.map_nil, List.sum_nil, Nat.zero_add, List.flatMap_nil]
    rw [List.getElem?_append_left (by rw [spanRecs_length, hs]; simp), hs, spanRecs_get]
    simp only [insertAll_append, List.append_assoc]
  | cons x pre ih =>
    simp only [List.cons_append, scopeRecs, List.map_cons, List.sum_cons, List.flatMap_cons]
    rw [List.getElem?_append_right (by rw [spanRecs_length]; omega), spanRecs_length,
      show x.spans.length + (List.map (fun x => x.spans.length) pre).sum + a.length - x.spans.length =
        (List.map (fun x => x.spans.length) pre).sum + a.length by omega, ih, spanRecs_snd]
    simp only [scopeAll, insertAll_append, List.append_assoc]

/-- The record of a span holds all that was inserted in its resource before, the newest value of each key. -/
theorem record_is {r : ResourceSpans} {pre post : List ScopeSpans} {sc : ScopeSpans} {a b : List Span} {s : Span}
    (hr : r.scopes = pre ++ sc :: post) (hs : sc.spans = a ++ s :: b) :
    ∃ m, (otlpRecs [r])[(pre.map fun x => x.spans.length).sum + a.length]? = some m ∧
      ∀ k, m.get k = lastOf (resItems r ++ pre.flatMap scopeAll ++ scopeItems sc ++ a.flatMap spanItems ++ spanItems s) k := by
  refine ⟨insertAll (insertAll .empty (resItems r))
    (pre.flatMap scopeAll ++ scopeItems sc ++ a.flatMap spanItems ++ spanItems s), ?_, ?_⟩
  · simp only [otlpRecs, List.flatMap_cons, List.flatMap_nil, List.append_nil, hr]
    exact scopeRecs_get pre sc post a s b hs _
  · intro k
    rw [← insertAll_append, get_insertAll]
    simp [List.append_assoc]

/-- Resources do not meet: the records of a request are those of its resources, one after the other. -/
theorem otlpRecs_append (x y : List ResourceSpans) : otlpRecs (x ++ y) = otlpRecs x ++ otlpRecs y := by simp [otlpRecs]

/-- One record for every span. -/
theorem otlpRecs_length (rs : List ResourceSpans) :
    (otlpRecs rs).length = (rs.map fun r => (r.scopes.map fun x => x.spans.length).sum).sum := by
  induction rs with
  | nil => rfl
  | cons r rs ih =>
    have h : ∀ (l : List ScopeSpans) (f : Rec), (scopeRecs l f).length = (l.map fun x => x.spans.length).sum := by
      intro l
      induction l with
      | nil => intro f; rfl
      | cons x l ih => intro f; simp [scopeRecs, spanRecs_length, ih]
    have : otlpRecs (r :: rs) = otlpRecs [r] ++ otlpRecs rs := otlpRecs_append [r] rs
    rw [this, List.length_append, ih]
    simp [otlpRecs, h]

/-- Property C133, partial: the record of a span has, under every key that the span itself sets, the value that the span sets.
Missing: that it has nothing of another span (`C133_leak_refuted`). -/
theorem C133_span_partial {r : ResourceSpans} {pre post : List ScopeSpans} {sc : ScopeSpans} {a b : List Span} {s : Span}
    (hr : r.scopes = pre ++ sc :: post) (hs : sc.spans = a ++ s :: b) :
    ∃ m, (otlpRecs [r])[(pre.map fun x => x.spans.length).sum + a.length]? = some m ∧
      ∀ k v, lastOf (spanItems s) k = some v → m.get k = some v := by
  obtain ⟨m, h1, h2⟩ := record_is hr hs
  refine ⟨m, h1, fun k v hk => ?_⟩
  rw [h2, lastOf_append, hk]
  rfl

/-- Property C133, partial: the record is what it should be if every key that was set before it in its resource, by another
scope or another span, is set by its own scope or by itself. -/
theorem C133_exact_partial {r : ResourceSpans} {pre post : List ScopeSpans} {sc : ScopeSpans} {a b : List Span} {s : Span}
    (hr : r.scopes = pre ++ sc :: post) (hs : sc.spans = a ++ s :: b)
    (h1 : ∀ k, (lastOf (pre.flatMap scopeAll) k).isSome → (lastOf (scopeItems sc ++ spanItems s) k).isSome)
    (h2 : ∀ k, (lastOf (a.flatMap spanItems) k).isSome → (lastOf (spanItems s) k).isSome) :
    ∃ m, (otlpRecs [r])[(pre.map fun x => x.spans.length).sum + a.length]? = some m ∧
      ∀ k, m.get k = lastOf (own r sc s) k := by
  obtain ⟨m, e1, e2⟩ := record_is hr hs
  refine ⟨m, e1, fun k => ?_⟩
  rw [e2, own]
  simp only [lastOf_append]
  cases hk : lastOf (spanItems s) k with
  | some v => rfl
  | none =>
    have ha : lastOf (a.flatMap spanItems) k = none := by
      cases h : lastOf (a.flatMap spanItems) k with
      | none => rfl
      | some v =>
        have := h2 k (by rw [h]; rfl)
        rw [hk] at this; cases this
    rw [ha]
    simp only [Option.none_or]
    cases hc : lastOf (scopeItems sc) k with
    | some v => rfl
    | none =>
      have hp : lastOf (pre.flatMap scopeAll) k = none := by
        cases h : lastOf (pre.flatMap scopeAll) k with
        | none => rfl
        | some v =>
          have := h1 k (by rw [h]; rfl)
          rw [lastOf_append, hk, hc] at this; cases this
      rw [hp]
      rfl

/-- Property C133, partial: the first span of a resource has exactly what it should have. -/
theorem C133_first_partial {r : ResourceSpans} {post : List ScopeSpans} {sc : ScopeSpans} {b : List Span} {s : Span}
    (hr : r.scopes = sc :: post) (hs : sc.spans = s :: b) :
    ∃ m, (otlpRecs [r])[0]? = some m ∧ ∀ k, m.get k = lastOf (own r sc s) k := by
  obtain ⟨m, h1, h2⟩ := C133_exact_partial (pre := []) (a := []) hr hs (by simp [lastOf]) (by simp [lastOf])
  exact ⟨m, by simpa using h1, h2⟩

/-! ## Loki -/

theorem entryRecs_length (es : List Entry) (f : Rec) : (entryRecs es f).length = es.length := by
  induction es generalizing f with
  | nil => rfl
  | cons e es ih => simp [entryRecs, ih]

/-- What the record of an entry should hold. -/
def entryOwn (s : LokiStream) (e : Entry) : Items :=
  [("lables".toList, .str s.labels), ("time".toList, .num e.time), ("msg".toList, .str e.line)]

theorem entryRecs_get (s : LokiStream) (a : List Entry) (e : Entry) (b : List Entry) (f : Rec)
    (hf : ∀ k, k ≠ "time".toList → k ≠ "msg".toList → f.get k = lastOf [("lables".toList, .str s.labels)] k) :
    ∃ m, (entryRecs (a ++ e :: b) f)[a.length]? = some m ∧ ∀ k, m.get k = lastOf (entryOwn s e) k := by
  induction a generalizing f with
  | nil =>
    refine ⟨_, by simp only [List.nil_append, entryRecs, List.length_nil, List.getElem?_cons_zero]; rfl, fun k => ?_⟩
    rw [AMap.get_set, AMap.get_set]
    by_cases h1 : k = "msg".toList
    · subst h1; simp [lastOf, entryOwn]
    · by_cases h2 : k = "time".toList
      · subst h2
        rw [if_neg h1, if_pos rfl]
        simp only [lastOf, entryOwn, List.reverse_cons, List.reverse_nil, List.nil_append, List.cons_append]
        rw [List.find?_cons_of_neg (by simpa using Ne.symm h1), List.find?_cons_of_pos (by simp)]
        rfl
      · rw [if_neg h1, if_neg h2, hf k h2 h1]
        have e1 : lastOf (entryOwn s e) k = lastOf ([("lables".toList, Leaf.str s.labels)] ++
          ([("time".toList, .num e.time)] ++ [("msg".toList, .str e.line)])) k := rfl
        have e2 : ∀ (x : Str) (v : Leaf), k ≠ x → lastOf [(x, v)] k = none := by
          intro x v hx
          simp only [lastOf, List.reverse_cons, List.reverse_nil, List.nil_append]
          rw [List.find?_cons_of_neg (by simpa using Ne.symm hx)]
          rfl
        rw [e1, lastOf_append, lastOf_append, e2 _ _ h1, e2 _ _ h2]
        rfl
  | cons x a ih =>
    simp only [List.cons_append, entryRecs, List.length_cons, List.getElem?_cons_succ]
    refine ih _ fun k h1 h2 => ?_
    rw [AMap.get_set, AMap.get_set, if_neg h2, if_neg h1, hf k h1 h2]

/-- Property C134: the record of an entry of a Loki push holds the labels of its stream, the time and the text of the entry,
and nothing else. -/
theorem C134_loki {pre post : List LokiStream} {s : LokiStream} {a b : List Entry} {e : Entry} (hs : s.entries = a ++ e :: b) :
    ∃ m, (lokiRecs (pre ++ s :: post))[(pre.map fun x => x.entries.length).sum + a.length]? = some m ∧
      ∀ k, m.get k = lastOf (entryOwn s e) k := by
  induction pre with
  | nil =>
    obtain ⟨m, h1, h2⟩ := entryRecs_get s a e b ((AMap.empty : Rec).set "lables".toList (.str s.labels)) (by
      intro k _ _
      rw [AMap.get_set, AMap.get_empty]
      by_cases hk : k = "lables".toList
      · subst hk; simp [lastOf]
      · rw [if_neg hk]
        simp only [lastOf, List.reverse_cons, List.reverse_nil, List.nil_append]
        rw [List.find?_cons_of_neg (by simpa using Ne.symm hk)]
        rfl)
    refine ⟨m, ?_, h2⟩
    simp only [lokiRecs, List.nil_append, List.flatMap_cons, List.map_nil, List.sum_nil, Nat.zero_add, hs]
    rw [List.getElem?_append_left (by rw [entryRecs_length]; simp)]
    exact h1
  | cons x pre ih =>
    obtain ⟨m, h1, h2⟩ := ih
    refine ⟨m, ?_, h2⟩
    simp only [lokiRecs, List.cons_append, List.flatMap_cons, List.map_cons, List.sum_cons] at h1 ⊢
    rw [List.getElem?_append_right (by rw [entryRecs_length]; omega), entryRecs_length,
      show x.entries.length + (List.map (fun x => x.entries.length) pre).sum + a.length - x.entries.length =
        (List.map (fun x => x.entries.length) pre).sum + a.length by omega]
    exact h1

/-- Property C134: the time of an entry is its seconds and nanoseconds, if that number fits. -/
theorem C134_time {e : Entry} (h1 : i64Min ≤ e.seconds * 1000000000 + e.nanos) (h2 : e.seconds * 1000000000 + e.nanos ≤ i64Max) :
    e.time = e.seconds * 1000000000 + e.nanos := by
  rw [Entry.time, wrap64]
  simp only [i64Min, i64Max] at h1 h2
  omega

end Verif.Ingest
