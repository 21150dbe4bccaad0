import Verif.Ingest.OtlpFields
/-!
# Properties: what the resource and the scope put into the record of a span
-/
namespace Verif.Ingest

theorem lastOf_none {l : Items} {k : Str} (h : ∀ e ∈ l, e.1 ≠ k) : lastOf l k = none := by
  rw [lastOf, Option.map_eq_none_iff, List.find?_eq_none]
  intro e he
  simpa using h e (List.mem_reverse.1 he)

/-- Keys of spans go on with `Span/` behind the prefix of scopes. -/
theorem span_key {s : Span} {e : Str × Leaf} (h : e ∈ spanItems s) : ∃ r, e.1 = scopePrefix ++ 'S' :: r := by
  obtain ⟨r, h1, _⟩ := part_of h
  refine ⟨"pan/".toList ++ r, ?_⟩
  rw [h1]
  rfl

/-- The items of a scope, without what is common to their keys. -/
theorem mem_scopeItems {s : ScopeSpans} {e : Str × Leaf} : e ∈ scopeItems s ↔
    e = (scopePrefix ++ "schema_url".toList, .str s.schema) ∨
    ∃ x, s.scope = some x ∧ ∃ r v, e = (scopePrefix ++ ("InstrumentationScope/".toList ++ r), v) ∧
      ((r, v) ∈ [("name".toList, .str x.name), ("version".toList, .str x.version), ("dropped_attributes_count".toList, .num x.dropped)] ∨
        (r, v) ∈ attrItems [] x.attrs) := by
  cases hs : s.scope with
  | none =>
    simp only [scopeItems, hs, List.nil_append, List.mem_singleton, key]
    simp
  | some x =>
    simp only [scopeItems, hs, List.mem_append, List.mem_cons, List.not_mem_nil, or_false, key, List.append_assoc, mem_attrItems,
      List.nil_append, Prod.mk.injEq, Option.some.injEq, exists_eq_left']
    constructor
    · rintro ((rfl | rfl) | ⟨a, ha, v, hv, rfl⟩ | rfl | rfl)
      · exact .inr ⟨_, _, rfl, .inl (.inl ⟨rfl, rfl⟩)⟩
      · exact .inr ⟨_, _, rfl, .inl (.inr (.inl ⟨rfl, rfl⟩))⟩
      · exact .inr ⟨_, _, rfl, .inr ⟨a, ha, v, hv, rfl, rfl⟩⟩
      · exact .inr ⟨_, _, rfl, .inl (.inr (.inr ⟨rfl, rfl⟩))⟩
      · exact .inl rfl
    · rintro (rfl | ⟨r, v, rfl, (⟨rfl, rfl⟩ | ⟨rfl, rfl⟩ | ⟨rfl, rfl⟩) | ⟨a, ha, v', hv, rfl, rfl⟩⟩)
      · exact .inr (.inr (.inr rfl))
      · exact .inl (.inl rfl)
      · exact .inl (.inr rfl)
      · exact .inr (.inr (.inl rfl))
      · exact .inr (.inl ⟨a, ha, v', hv, rfl⟩)

theorem scope_key {s : ScopeSpans} {e : Str × Leaf} (h : e ∈ scopeAll s) : ∃ r, e.1 = resPrefix ++ 'S' :: r := by
  have hp : ∀ t : Str, ∃ r, scopePrefix ++ t = resPrefix ++ 'S' :: r := fun t => ⟨"copeSpans/".toList ++ t, by simp [scopePrefix]⟩
  rw [scopeAll, List.mem_append, List.mem_flatMap] at h
  rcases h with h | ⟨s, _, h⟩
  · rcases mem_scopeItems.1 h with rfl | ⟨x, _, r, v, rfl, _⟩ <;> exact hp _
  · obtain ⟨r, hr⟩ := span_key h
    rw [hr]; exact hp _

/-- The keys of a scope. -/
def scopeKey (k : Str) : Str := "ResourceSpans/ScopeSpans/InstrumentationScope/".toList ++ k

/-- Property C133, partial: the record of a span has the name, the version and the attributes of its own scope. -/
theorem C133_scope_partial {r : ResourceSpans} {pre post : List ScopeSpans} {sc : ScopeSpans} {a b : List Span} {s : Span} {x : Scope}
    (hr : r.scopes = pre ++ sc :: post) (hs : sc.spans = a ++ s :: b) (hx : sc.scope = some x) :
    ∃ m, (otlpRecs [r])[(pre.map fun x => x.spans.length).sum + a.length]? = some m ∧
      m.get (scopeKey "name".toList) = some (.str x.name) ∧ m.get (scopeKey "version".toList) = some (.str x.version) ∧
      (∀ y ∈ x.attrs, ∀ v, y.val = some v → (∀ z ∈ x.attrs, z.key = y.key → z.val = y.val) →
        m.get (scopeKey ("attributes/".toList ++ y.key)) = some (.str v.text)) := by
  obtain ⟨m, h1, h2⟩ := record_is hr hs
  have hk : ∀ t, scopeKey t = scopePrefix ++ ("InstrumentationScope/".toList ++ t) := fun _ => rfl
  have hsp : ∀ (l : List Span) t, lastOf (l.flatMap spanItems) (scopeKey t) = none := by
    intro l t
    refine lastOf_none fun e he h => ?_
    obtain ⟨s, _, hs⟩ := List.mem_flatMap.1 he
    obtain ⟨q, hq⟩ := span_key hs
    rw [hq, hk] at h
    exact absurd (List.cons.inj (List.append_cancel_left h : 'S' :: _ = 'I' :: _)).1 (by decide)
  have hget : ∀ t v, lastOf (scopeItems sc) (scopeKey t) = some v → m.get (scopeKey t) = some v := by
    intro t v h
    rw [h2]
    simp only [lastOf_append]
    have e1 := hsp a t
    have e2 := hsp [s] t
    simp only [List.flatMap_cons, List.flatMap_nil, List.append_nil] at e2
    rw [e1, e2, h]
    rfl
  -- what stands under a key of the scope
  have hu : ∀ {t : Str} {w : Leaf}, (scopeKey t, w) ∈ scopeItems sc →
      ((t, w) ∈ [("name".toList, .str x.name), ("version".toList, .str x.version), ("dropped_attributes_count".toList, .num x.dropped)] ∨
        (t, w) ∈ attrItems [] x.attrs) := by
    intro t w h
    rcases mem_scopeItems.1 h with h | ⟨x', hx', q, v, h, h'⟩
    · have h3 := (Prod.mk.inj h).1
      rw [hk] at h3
      simp at h3
    · rw [hx] at hx'
      obtain rfl := Option.some.inj hx'
      obtain ⟨h3, rfl⟩ := Prod.mk.inj h
      rw [hk] at h3
      have := List.append_cancel_left (List.append_cancel_left h3)
      rw [this]; exact h'
  have hno : ∀ {n : Str} {w : Leaf}, (n, w) ∈ attrItems [] x.attrs → ∃ t, n = 'a' :: t := by
    intro n w h
    obtain ⟨y, _, _, _, he⟩ := mem_attrItems.1 h
    exact ⟨_, (Prod.mk.inj he).1⟩
  refine ⟨m, h1, hget _ _ ?_, hget _ _ ?_, fun y hy v hv huniq => hget _ _ ?_⟩
  · refine lastOf_eq (mem_scopeItems.2 (.inr ⟨x, hx, _, _, rfl, .inl (by simp)⟩)) fun e he hke => ?_
    obtain ⟨k, w⟩ := e
    simp only at hke; subst hke
    rcases hu he with h | h
    · simp at h; exact h
    · obtain ⟨t, ht⟩ := hno h
      exact absurd (List.cons.inj (ht : 'n' :: _ = 'a' :: _)).1 (by decide)
  · refine lastOf_eq (mem_scopeItems.2 (.inr ⟨x, hx, _, _, rfl, .inl (by simp)⟩)) fun e he hke => ?_
    obtain ⟨k, w⟩ := e
    simp only at hke; subst hke
    rcases hu he with h | h
    · simp at h; exact h
    · obtain ⟨t, ht⟩ := hno h
      exact absurd (List.cons.inj (ht : 'v' :: _ = 'a' :: _)).1 (by decide)
  · refine lastOf_eq (mem_scopeItems.2 (.inr ⟨x, hx, _, _, rfl, .inr (mem_attrItems.2 ⟨y, hy, v, hv, rfl⟩)⟩)) fun e he hke => ?_
    obtain ⟨k, w⟩ := e
    simp only at hke; subst hke
    rcases hu he with h | h
    · simp at h
    · obtain ⟨z, hz, v', hv', he⟩ := mem_attrItems.1 h
      obtain ⟨h3, rfl⟩ := Prod.mk.inj he
      have h3 := List.append_cancel_left (as := "attributes/".toList) h3
      have := huniq z hz h3.symm
      rw [hv, hv'] at this
      rw [Option.some.inj this]

/-- The keys of a resource. -/
def resourceKey (k : Str) : Str := "ResourceSpans/Resource/".toList ++ k

theorem mem_resAttrItems {p : Str} {l : List Attr} {e : Str × Leaf} (h : e ∈ resAttrItems p l) :
    ∃ a ∈ l, ∃ v, a.val = some v ∧ e = (p ++ ("attributes/".toList ++ a.key), .str v.text) := by
  simp only [resAttrItems, List.mem_filterMap] at h
  obtain ⟨a, ha, h⟩ := h
  refine ⟨a, ha, ?_⟩
  split at h
  · cases hv : a.val with
    | none => rw [hv] at h; cases h
    | some v =>
      rw [hv] at h
      cases v with
      | str s =>
        simp only [Option.some.injEq] at h
        exact ⟨.str s, rfl, by rw [← h]; simp [key, AnyVal.text]⟩
      | other s => cases h
      | unset => cases h
  · rw [Option.map_eq_some_iff] at h
    obtain ⟨v, hv, h⟩ := h
    exact ⟨v, hv, by rw [← h]; simp [key]⟩

/-- Property C133, partial: the record of a span has the attributes of its resource: those with a string, and all but
`service.name` with another value. -/
theorem C133_resource_partial {r : ResourceSpans} {pre post : List ScopeSpans} {sc : ScopeSpans} {a b : List Span} {s : Span} {x : Resource}
    (hr : r.scopes = pre ++ sc :: post) (hs : sc.spans = a ++ s :: b) (hx : r.resource = some x) :
    ∃ m, (otlpRecs [r])[(pre.map fun x => x.spans.length).sum + a.length]? = some m ∧
      ∀ y ∈ x.attrs, ∀ v, y.val = some v → (y.key = "service.name".toList → ∃ t, v = .str t) →
        (∀ z ∈ x.attrs, z.key = y.key → z.val = y.val) → m.get (resourceKey ("attributes/".toList ++ y.key)) = some (.str v.text) := by
  obtain ⟨m, h1, h2⟩ := record_is hr hs
  refine ⟨m, h1, fun y hy v hv hsn hu => ?_⟩
  have hk : ∀ t, resourceKey t = resPrefix ++ ("Resource/".toList ++ t) := by
    intro t
    rw [← List.append_assoc, show resPrefix ++ "Resource/".toList = "ResourceSpans/Resource/".toList by decide]
    rfl
  have hsc : ∀ l : Items, (∀ e ∈ l, ∃ q, e.1 = resPrefix ++ 'S' :: q) → ∀ t, lastOf l (resourceKey t) = none := by
    intro l hl t
    refine lastOf_none fun e he h => ?_
    obtain ⟨q, hq⟩ := hl e he
    rw [hq, hk] at h
    simp at h
  rw [h2, List.append_assoc, List.append_assoc, List.append_assoc, lastOf_append, hsc _ ?_, Option.none_or]
  · refine lastOf_eq ?_ fun e he hke => ?_
    · simp only [resItems, hx, List.mem_append]
      refine .inl (.inl ?_)
      simp only [resAttrItems, List.mem_filterMap]
      refine ⟨y, hy, ?_⟩
      split
      · rename_i hn
        obtain ⟨t, rfl⟩ := hsn hn
        rw [hv, hk, key, List.append_assoc, List.append_assoc]
        rfl
      · rw [hv, hk, key, List.append_assoc, List.append_assoc]
        rfl
    · obtain ⟨k, w⟩ := e
      simp only at hke; subst hke
      simp only [resItems, hx, List.mem_append, List.mem_singleton] at he
      rcases he with (he | he) | he
      · obtain ⟨z, hz, v', hv', he⟩ := mem_resAttrItems he
        obtain ⟨h3, rfl⟩ := Prod.mk.inj he
        have h3 : y.key = z.key := by
          rw [hk, List.append_assoc] at h3
          exact List.append_cancel_left (List.append_cancel_left (List.append_cancel_left h3))
        have := hu z hz h3.symm
        rw [hv, hv'] at this
        rw [Option.some.inj this]
      · have h3 := (Prod.mk.inj he).1
        rw [hk, key, List.append_assoc] at h3
        simp at h3
      · have h3 := (Prod.mk.inj he).1
        rw [hk, key] at h3
        simp at h3
  · intro e he
    simp only [List.mem_append, List.mem_flatMap] at he
    have hsp : ∀ s', e ∈ spanItems s' → ∃ q, e.1 = resPrefix ++ 'S' :: q := fun s' h =>
      scope_key (s := ⟨none, [], [s']⟩) (by simp [scopeAll, h])
    rcases he with ⟨x, _, h⟩ | h | ⟨x, _, h⟩ | h
    · exact scope_key h
    · exact scope_key (s := sc) (by simp [scopeAll, h])
    · exact hsp x h
    · exact hsp s h

/-- A span with an attribute, an event and a link, behind another span, in a scope of a resource. -/
def exampleSpan : Span :=
  ⟨"t".toList, "s".toList, [], "p".toList, 1, "GET".toList, "Server".toList, 10, 25, [⟨"http.code".toList, some (.other "200".toList)⟩], 0,
    [⟨12, "sent".toList, [], 0⟩], 0, [⟨"t2".toList, "s2".toList, [], [], 0, 0⟩], 0, some ⟨"Ok".toList, "fine".toList⟩⟩

def exampleTrace : ResourceSpans :=
  ⟨some ⟨[⟨"service.name".toList, some (.str "shop".toList)⟩], 0⟩, [],
    [⟨some ⟨"lib".toList, "1.0".toList, [], 0⟩, [], [{ exampleSpan with span := "r".toList }, exampleSpan]⟩]⟩

example : ∃ m, (otlpRecs [exampleTrace])[1]? = some m ∧ m.get (spanKey "span_id".toList) = some (.str "s".toList) ∧
    m.get (spanKey "duration_nano".toList) = some (.num 15) ∧ m.get (spanKey "Event_0/name".toList) = some (.str "sent".toList) ∧
    m.get (scopeKey "name".toList) = some (.str "lib".toList) ∧
    m.get (resourceKey "attributes/service.name".toList) = some (.str "shop".toList) := by
  exact ⟨_, rfl, by decide +kernel⟩

end Verif.Ingest
