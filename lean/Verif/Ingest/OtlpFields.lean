import Verif.Ingest.OtlpProps
import Verif.Ingest.PromProps
/-!
# Properties: what stands in the record of a span, key by key
-/
namespace Verif.Ingest
open Verif.Raft (dec dec_inj dec_digits)
open Verif.Ingest.Prom (sep_append_inj)

theorem lastOf_eq {l : Items} {k : Str} {v : Leaf} (h : (k, v) ∈ l) (hu : ∀ e ∈ l, e.1 = k → e.2 = v) : lastOf l k = some v := by
  rw [lastOf]
  cases hf : l.reverse.find? fun e => decide (e.1 = k) with
  | none =>
    rw [List.find?_eq_none] at hf
    have := hf (k, v) (List.mem_reverse.2 h)
    simp at this
  | some e =>
    have h1 := List.find?_some hf
    have h2 := List.mem_reverse.1 (List.mem_of_find?_eq_some hf)
    rw [Option.map_some, hu e h2 (by simpa using h1)]

/-- The items of a span with a fixed key. -/
def plainItems (s : Span) : Items :=
  let p := spanPrefix
  [(key p "trace_id", .str s.trace), (key p "span_id", .str s.span), (key p "trace_state", .str s.state),
    (key p "parent_span_id", .str s.parent), (key p "flags", .num s.flags), (key p "name", .str s.name),
    (key p "kind", .str s.kind), (key p "start_time_unix_nano", .num s.start), (key p "end_time_unix_nano", .num s.stop),
    (key p "dropped_attributes_count", .num s.dropped), (key p "dropped_events_count", .num s.droppedEvents),
    (key p "dropped_links_count", .num s.droppedLinks), (key p "duration_nano", .num ((2 ^ 64 + s.stop - s.start) % 2 ^ 64 : Nat))]

theorem mem_spanItems {s : Span} {e : Str × Leaf} : e ∈ spanItems s ↔
    e ∈ plainItems s ∨ e ∈ attrItems spanPrefix s.attrs ∨ e ∈ numbered eventItems 0 s.events ∨ e ∈ numbered linkItems 0 s.links ∨
      e ∈ statusItems s.status := by
  simp only [spanItems, plainItems, List.mem_append, List.mem_cons, List.not_mem_nil, or_false]
  grind

theorem mem_attrItems {p : Str} {l : List Attr} {e : Str × Leaf} :
    e ∈ attrItems p l ↔ ∃ a ∈ l, ∃ v, a.val = some v ∧ e = (p ++ ("attributes/".toList ++ a.key), .str v.text) := by
  simp only [attrItems, List.mem_filterMap, Option.map_eq_some_iff, key, List.append_assoc]
  constructor
  · rintro ⟨a, ha, v, hv, rfl⟩; exact ⟨a, ha, v, hv, rfl⟩
  · rintro ⟨a, ha, v, hv, rfl⟩; exact ⟨a, ha, v, hv, rfl⟩

theorem mem_numbered {A : Type} {f : Nat → A → Items} {l : List A} {i : Nat} {e : Str × Leaf} :
    e ∈ numbered f i l ↔ ∃ j a, l[j]? = some a ∧ e ∈ f (i + j) a := by
  induction l generalizing i with
  | nil => simp [numbered]
  | cons x l ih =>
    rw [numbered, List.mem_append, ih]
    constructor
    · rintro (h | ⟨j, a, h1, h2⟩)
      · exact ⟨0, x, by simp, h⟩
      · exact ⟨j + 1, a, by simpa using h1, by rw [show i + (j + 1) = i + 1 + j by omega]; exact h2⟩
    · rintro ⟨j, a, h1, h2⟩
      cases j with
      | zero =>
        simp only [List.getElem?_cons_zero, Option.some.injEq] at h1
        subst h1; exact .inl h2
      | succ j => exact .inr ⟨j, a, by simpa using h1, by rw [show i + 1 + j = i + (j + 1) by omega]; exact h2⟩

/-- The items of an event, without what is common to their keys. -/
theorem mem_eventItems {i : Nat} {x : Event} {e : Str × Leaf} : e ∈ eventItems i x ↔
    ∃ r v, e = (spanPrefix ++ ("Event_".toList ++ (dec i ++ '/' :: r)), v) ∧
      ((r, v) ∈ [("time_unix_nano".toList, .num x.time), ("name".toList, .str x.name), ("dropped_attributes_count".toList, .num x.dropped)] ∨
        (r, v) ∈ attrItems [] x.attrs) := by
  simp only [eventItems, List.mem_append, List.mem_cons, List.not_mem_nil, or_false, key, List.append_assoc, mem_attrItems,
    List.nil_append, List.cons_append, Prod.mk.injEq]
  constructor
  · rintro (rfl | rfl | ⟨a, ha, v, hv, rfl⟩ | rfl)
    · exact ⟨_, _, rfl, .inl (.inl ⟨rfl, rfl⟩)⟩
    · exact ⟨_, _, rfl, .inl (.inr (.inl ⟨rfl, rfl⟩))⟩
    · exact ⟨_, _, rfl, .inr ⟨a, ha, v, hv, rfl, rfl⟩⟩
    · exact ⟨_, _, rfl, .inl (.inr (.inr ⟨rfl, rfl⟩))⟩
  · rintro ⟨r, v, rfl, (⟨rfl, rfl⟩ | ⟨rfl, rfl⟩ | ⟨rfl, rfl⟩) | ⟨a, ha, v', hv, rfl, rfl⟩⟩
    · exact .inl rfl
    · exact .inr (.inl rfl)
    · exact .inr (.inr (.inr rfl))
    · exact .inr (.inr (.inl ⟨a, ha, v', hv, rfl⟩))

/-- The items of a link, without what is common to their keys. -/
theorem mem_linkItems {i : Nat} {x : Link} {e : Str × Leaf} : e ∈ linkItems i x ↔
    ∃ r v, e = (spanPrefix ++ ("Link_".toList ++ (dec i ++ '/' :: r)), v) ∧
      ((r, v) ∈ [("trace_id".toList, .str x.trace), ("span_id".toList, .str x.span), ("trace_state".toList, .str x.state),
          ("dropped_attributes_count".toList, .num x.dropped), ("flags".toList, .num x.flags)] ∨
        (r, v) ∈ attrItems [] x.attrs) := by
  simp only [linkItems, List.mem_append, List.mem_cons, List.not_mem_nil, or_false, key, List.append_assoc, mem_attrItems,
    List.nil_append, List.cons_append, Prod.mk.injEq]
  constructor
  · rintro (rfl | rfl | rfl | ⟨a, ha, v, hv, rfl⟩ | rfl | rfl)
    · exact ⟨_, _, rfl, .inl (.inl ⟨rfl, rfl⟩)⟩
    · exact ⟨_, _, rfl, .inl (.inr (.inl ⟨rfl, rfl⟩))⟩
    · exact ⟨_, _, rfl, .inl (.inr (.inr (.inl ⟨rfl, rfl⟩)))⟩
    · exact ⟨_, _, rfl, .inr ⟨a, ha, v, hv, rfl, rfl⟩⟩
    · exact ⟨_, _, rfl, .inl (.inr (.inr (.inr (.inl ⟨rfl, rfl⟩))))⟩
    · exact ⟨_, _, rfl, .inl (.inr (.inr (.inr (.inr ⟨rfl, rfl⟩))))⟩
  · rintro ⟨r, v, rfl, (⟨rfl, rfl⟩ | ⟨rfl, rfl⟩ | ⟨rfl, rfl⟩ | ⟨rfl, rfl⟩ | ⟨rfl, rfl⟩) | ⟨a, ha, v', hv, rfl, rfl⟩⟩
    · exact .inl rfl
    · exact .inr (.inl rfl)
    · exact .inr (.inr (.inl rfl))
    · exact .inr (.inr (.inr (.inr (.inl rfl))))
    · exact .inr (.inr (.inr (.inr (.inr rfl))))
    · exact .inr (.inr (.inr (.inl ⟨a, ha, v', hv, rfl⟩)))

theorem mem_statusItems {t : Option Status} {e : Str × Leaf} : e ∈ statusItems t ↔
    ∃ x, t = some x ∧ (e = (spanPrefix ++ "Status/code".toList, .str x.code) ∨ e = (spanPrefix ++ "Status/message".toList, .str x.message)) := by
  cases t with
  | none => simp [statusItems]
  | some x =>
    simp only [statusItems, List.mem_cons, List.not_mem_nil, or_false, Option.some.injEq, exists_eq_left', key, List.append_assoc]
    rfl

/-- An item of a span, by the part of its key behind the common prefix. -/
inductive Part (s : Span) : Str → Leaf → Prop
  | plain {r : Str} {v : Leaf} : (spanPrefix ++ r, v) ∈ plainItems s → Part s r v
  | attr {a : Attr} {v : AnyVal} : a ∈ s.attrs → a.val = some v → Part s ("attributes/".toList ++ a.key) (.str v.text)
  | event {i : Nat} {x : Event} {r : Str} {v : Leaf} : s.events[i]? = some x →
      ((r, v) ∈ [("time_unix_nano".toList, .num x.time), ("name".toList, .str x.name), ("dropped_attributes_count".toList, .num x.dropped)] ∨
        (r, v) ∈ attrItems [] x.attrs) → Part s ("Event_".toList ++ (dec i ++ '/' :: r)) v
  | link {i : Nat} {x : Link} {r : Str} {v : Leaf} : s.links[i]? = some x →
      ((r, v) ∈ [("trace_id".toList, .str x.trace), ("span_id".toList, .str x.span), ("trace_state".toList, .str x.state),
          ("dropped_attributes_count".toList, .num x.dropped), ("flags".toList, .num x.flags)] ∨
        (r, v) ∈ attrItems [] x.attrs) → Part s ("Link_".toList ++ (dec i ++ '/' :: r)) v
  | code {x : Status} : s.status = some x → Part s "Status/code".toList (.str x.code)
  | message {x : Status} : s.status = some x → Part s "Status/message".toList (.str x.message)

theorem part_of {s : Span} {e : Str × Leaf} (h : e ∈ spanItems s) : ∃ r, e.1 = spanPrefix ++ r ∧ Part s r e.2 := by
  rcases mem_spanItems.1 h with h | h | h | h | h
  · have : ∃ r, e.1 = spanPrefix ++ r := by
      simp only [plainItems, List.mem_cons, List.not_mem_nil, or_false] at h
      rcases h with rfl | rfl | rfl | rfl | rfl | rfl | rfl | rfl | rfl | rfl | rfl | rfl | rfl <;> exact ⟨_, rfl⟩
    obtain ⟨r, hr⟩ := this
    exact ⟨r, hr, .plain (by rw [← hr]; exact h)⟩
  · obtain ⟨a, ha, v, hv, rfl⟩ := mem_attrItems.1 h
    exact ⟨_, rfl, .attr ha hv⟩
  · obtain ⟨j, x, hj, hx⟩ := mem_numbered.1 h
    obtain ⟨r, v, rfl, hr⟩ := mem_eventItems.1 hx
    rw [Nat.zero_add] at *
    exact ⟨_, rfl, .event hj hr⟩
  · obtain ⟨j, x, hj, hx⟩ := mem_numbered.1 h
    obtain ⟨r, v, rfl, hr⟩ := mem_linkItems.1 hx
    rw [Nat.zero_add] at *
    exact ⟨_, rfl, .link hj hr⟩
  · obtain ⟨x, hx, rfl | rfl⟩ := mem_statusItems.1 h
    · exact ⟨_, rfl, .code hx⟩
    · exact ⟨_, rfl, .message hx⟩

theorem of_part {s : Span} {r : Str} {v : Leaf} (h : Part s r v) : (spanPrefix ++ r, v) ∈ spanItems s := by
  cases h with
  | plain h => exact mem_spanItems.2 (.inl h)
  | attr ha hv => exact mem_spanItems.2 (.inr (.inl (mem_attrItems.2 ⟨_, ha, _, hv, rfl⟩)))
  | event hi hr => exact mem_spanItems.2 (.inr (.inr (.inl (mem_numbered.2 ⟨_, _, hi, by rw [Nat.zero_add]; exact mem_eventItems.2 ⟨_, _, rfl, hr⟩⟩))))
  | link hi hr => exact mem_spanItems.2 (.inr (.inr (.inr (.inl (mem_numbered.2 ⟨_, _, hi, by rw [Nat.zero_add]; exact mem_linkItems.2 ⟨_, _, rfl, hr⟩⟩)))))
  | code hx => exact mem_spanItems.2 (.inr (.inr (.inr (.inr (mem_statusItems.2 ⟨_, hx, .inl rfl⟩)))))
  | message hx => exact mem_spanItems.2 (.inr (.inr (.inr (.inr (mem_statusItems.2 ⟨_, hx, .inr rfl⟩)))))

theorem lastOf_span {s : Span} {r : Str} {v : Leaf} (h : Part s r v) (hu : ∀ w, Part s r w → w = v) :
    lastOf (spanItems s) (spanPrefix ++ r) = some v := by
  refine lastOf_eq (of_part h) fun e he hk => ?_
  obtain ⟨r', h1, h2⟩ := part_of he
  have : r' = r := List.append_cancel_left (h1.symm.trans hk)
  subst this
  exact hu _ h2

/-- The keys of a record that every span has, with the values that they should have. -/
def spanFields (s : Span) : List (String × Leaf) :=
  [("trace_id", .str s.trace), ("span_id", .str s.span), ("trace_state", .str s.state), ("parent_span_id", .str s.parent),
    ("flags", .num s.flags), ("name", .str s.name), ("kind", .str s.kind), ("start_time_unix_nano", .num s.start),
    ("end_time_unix_nano", .num s.stop), ("dropped_attributes_count", .num s.dropped), ("dropped_events_count", .num s.droppedEvents),
    ("dropped_links_count", .num s.droppedLinks)]

/-- A part with a fixed key is a field, or the duration. -/
theorem part_plain {s : Span} {c : Char} {r : Str} {v : Leaf} (h : Part s (c :: r) v) (hc : c ≠ 'a' ∧ c ≠ 'E' ∧ c ≠ 'L' ∧ c ≠ 'S') :
    (spanPrefix ++ c :: r, v) ∈ plainItems s := by
  generalize hk : c :: r = k at h
  cases h with
  | plain h => exact h
  | attr => exact absurd (List.cons.inj (hk.trans (by rfl : _ = 'a' :: ("ttributes/".toList ++ _)))).1 hc.1
  | event => exact absurd (List.cons.inj (hk.trans (by rfl : _ = 'E' :: ("vent_".toList ++ _)))).1 hc.2.1
  | link => exact absurd (List.cons.inj (hk.trans (by rfl : _ = 'L' :: ("ink_".toList ++ _)))).1 hc.2.2.1
  | code => exact absurd (List.cons.inj (hk.trans (by rfl : _ = 'S' :: "tatus/code".toList))).1 hc.2.2.2
  | message => exact absurd (List.cons.inj (hk.trans (by rfl : _ = 'S' :: "tatus/message".toList))).1 hc.2.2.2

theorem plain_unique {s : Span} {k : Str} {v w : Leaf} (h1 : (k, v) ∈ plainItems s) (h2 : (k, w) ∈ plainItems s) : v = w := by
  have hn : ((plainItems s).map Prod.fst).Nodup := by
    have : (plainItems s).map Prod.fst = (plainItems ⟨[], [], [], [], 0, [], [], 0, 0, [], 0, [], 0, [], 0, none⟩).map Prod.fst := rfl
    rw [this]
    decide +kernel
  generalize plainItems s = l at *
  induction l with
  | nil => cases h1
  | cons e l ih =>
    simp only [List.map_cons, List.nodup_cons] at hn
    have hk : ∀ x, (k, x) ∈ l → k ∈ l.map Prod.fst := fun x hx => List.mem_map.2 ⟨(k, x), hx, rfl⟩
    rcases List.mem_cons.1 h1 with rfl | h1'
    · rcases List.mem_cons.1 h2 with h2 | h2
      · exact (Prod.mk.inj h2).2.symm
      · exact absurd (hk _ h2) hn.1
    · rcases List.mem_cons.1 h2 with rfl | h2
      · exact absurd (hk _ h1') hn.1
      · exact ih h1' h2 hn.2

/-- The prefix of the keys of a span. -/
def spanKey (k : Str) : Str := "ResourceSpans/ScopeSpans/Span/".toList ++ k

theorem spanKey_eq (k : Str) : spanKey k = spanPrefix ++ k := rfl

theorem plain_first {s : Span} {c : Char} {r : Str} {v : Leaf} (h : (spanPrefix ++ c :: r, v) ∈ plainItems s) :
    c ≠ 'a' ∧ c ≠ 'E' ∧ c ≠ 'L' ∧ c ≠ 'S' := by
  simp only [plainItems, List.mem_cons, List.not_mem_nil, or_false, Prod.mk.injEq, key, List.append_cancel_left_eq] at h
  rcases h with ⟨h, _⟩ | ⟨h, _⟩ | ⟨h, _⟩ | ⟨h, _⟩ | ⟨h, _⟩ | ⟨h, _⟩ | ⟨h, _⟩ | ⟨h, _⟩ | ⟨h, _⟩ | ⟨h, _⟩ | ⟨h, _⟩ | ⟨h, _⟩ | ⟨h, _⟩ <;>
  · have := (List.cons.inj h).1
    subst this
    decide

theorem lastOf_plain {s : Span} {k : Str} {v : Leaf} (h : (spanPrefix ++ k, v) ∈ plainItems s) :
    lastOf (spanItems s) (spanPrefix ++ k) = some v := by
  cases k with
  | nil => simp [plainItems, key] at h
  | cons c r => exact lastOf_span (.plain h) fun _ hw => plain_unique (part_plain hw (plain_first h)) h

/-- Property C133, partial: the record of a span has the fields of the span, its duration, its attributes, its status, its events
and its links under their keys.  (Attributes with the same key twice are left out, as it is not said which of them counts.) -/
theorem C133_fields_partial {r : ResourceSpans} {pre post : List ScopeSpans} {sc : ScopeSpans} {a b : List Span} {s : Span}
    (hr : r.scopes = pre ++ sc :: post) (hs : sc.spans = a ++ s :: b) :
    ∃ m, (otlpRecs [r])[(pre.map fun x => x.spans.length).sum + a.length]? = some m ∧
      (∀ f ∈ spanFields s, m.get (spanKey f.1.toList) = some f.2) ∧
      (s.start ≤ s.stop → s.stop < 2 ^ 64 → m.get (spanKey "duration_nano".toList) = some (.num (s.stop - s.start : Nat))) ∧
      (∀ x ∈ s.attrs, ∀ v, x.val = some v → (∀ y ∈ s.attrs, y.key = x.key → y.val = x.val) →
        m.get (spanKey ("attributes/".toList ++ x.key)) = some (.str v.text)) ∧
      (∀ t, s.status = some t → m.get (spanKey "Status/code".toList) = some (.str t.code) ∧
        m.get (spanKey "Status/message".toList) = some (.str t.message)) ∧
      (∀ i e, s.events[i]? = some e → m.get (spanKey ("Event_".toList ++ (dec i ++ '/' :: "name".toList))) = some (.str e.name) ∧
        m.get (spanKey ("Event_".toList ++ (dec i ++ '/' :: "time_unix_nano".toList))) = some (.num e.time)) ∧
      (∀ i l, s.links[i]? = some l → m.get (spanKey ("Link_".toList ++ (dec i ++ '/' :: "trace_id".toList))) = some (.str l.trace) ∧
        m.get (spanKey ("Link_".toList ++ (dec i ++ '/' :: "span_id".toList))) = some (.str l.span)) := by
  obtain ⟨m, h1, h2⟩ := C133_span_partial hr hs
  have hslash : ∀ i, '/' ∉ dec i := fun i h => by simpa using dec_digits i _ h
  refine ⟨m, h1, ?_, ?_, ?_, ?_, ?_, ?_⟩
  · intro f hf
    apply h2
    rw [spanKey_eq]
    simp only [spanFields, List.mem_cons, List.not_mem_nil, or_false] at hf
    rcases hf with rfl | rfl | rfl | rfl | rfl | rfl | rfl | rfl | rfl | rfl | rfl | rfl <;>
      exact lastOf_plain (by simp [plainItems, key])
  · intro hle hlt
    apply h2
    rw [spanKey_eq]
    have : (2 ^ 64 + s.stop - s.start) % 2 ^ 64 = s.stop - s.start := by omega
    exact lastOf_plain (by simp only [plainItems, this]; simp [key])
  · intro x hx v hv hu
    apply h2
    rw [spanKey_eq]
    refine lastOf_span (.attr hx hv) fun w hw => ?_
    generalize hk : "attributes/".toList ++ x.key = k at hw
    cases hw with
    | plain h =>
      rw [← hk] at h
      exact absurd rfl (plain_first (c := 'a') h).1
    | attr ha hv' =>
      have hk' := List.append_cancel_left hk
      have := hu _ ha hk'.symm
      rw [hv, hv'] at this
      rw [Option.some.inj this]
    | event => exact absurd (List.cons.inj (hk : 'a' :: _ = 'E' :: _)).1 (by decide)
    | link => exact absurd (List.cons.inj (hk : 'a' :: _ = 'L' :: _)).1 (by decide)
    | code => exact absurd (List.cons.inj (hk : 'a' :: _ = 'S' :: _)).1 (by decide)
    | message => exact absurd (List.cons.inj (hk : 'a' :: _ = 'S' :: _)).1 (by decide)
  · intro t ht
    constructor
    · apply h2
      rw [spanKey_eq]
      refine lastOf_span (.code ht) fun w hw => ?_
      generalize hk : "Status/code".toList = k at hw
      cases hw with
      | plain h =>
        rw [← hk] at h
        exact absurd rfl (plain_first (c := 'S') h).2.2.2
      | attr => exact absurd (List.cons.inj (hk : 'S' :: _ = 'a' :: _)).1 (by decide)
      | event => exact absurd (List.cons.inj (hk : 'S' :: _ = 'E' :: _)).1 (by decide)
      | link => exact absurd (List.cons.inj (hk : 'S' :: _ = 'L' :: _)).1 (by decide)
      | code h => rw [ht] at h; rw [Option.some.inj h]
      | message => exact absurd hk (by decide)
    · apply h2
      rw [spanKey_eq]
      refine lastOf_span (.message ht) fun w hw => ?_
      generalize hk : "Status/message".toList = k at hw
      cases hw with
      | plain h =>
        rw [← hk] at h
        exact absurd rfl (plain_first (c := 'S') h).2.2.2
      | attr => exact absurd (List.cons.inj (hk : 'S' :: _ = 'a' :: _)).1 (by decide)
      | event => exact absurd (List.cons.inj (hk : 'S' :: _ = 'E' :: _)).1 (by decide)
      | link => exact absurd (List.cons.inj (hk : 'S' :: _ = 'L' :: _)).1 (by decide)
      | code => exact absurd hk (by decide)
      | message h => rw [ht] at h; rw [Option.some.inj h]
  · intro i e hi
    -- the part of an event
    have hp : ∀ {n : Str} {w : Leaf}, Part s ("Event_".toList ++ (dec i ++ '/' :: n)) w →
        ((n, w) ∈ [("time_unix_nano".toList, .num e.time), ("name".toList, .str e.name), ("dropped_attributes_count".toList, .num e.dropped)] ∨
        (n, w) ∈ attrItems [] e.attrs) := by
      intro n w hw
      generalize hk : "Event_".toList ++ (dec i ++ '/' :: n) = k at hw
      cases hw with
      | plain h =>
        rw [← hk] at h
        exact absurd rfl (plain_first (c := 'E') h).2.1
      | attr => exact absurd (List.cons.inj (hk : 'E' :: _ = 'a' :: _)).1 (by decide)
      | link => exact absurd (List.cons.inj (hk : 'E' :: _ = 'L' :: _)).1 (by decide)
      | code => exact absurd (List.cons.inj (hk : 'E' :: _ = 'S' :: _)).1 (by decide)
      | message => exact absurd (List.cons.inj (hk : 'E' :: _ = 'S' :: _)).1 (by decide)
      | event hj hr =>
        obtain ⟨hd, hn⟩ := sep_append_inj (hslash _) (hslash _) (List.append_cancel_left hk)
        have := dec_inj hd
        subst this
        rw [hi] at hj
        rw [Option.some.inj hj, hn]
        exact hr
    have hno : ∀ {n : Str} {w : Leaf}, (n, w) ∈ attrItems [] e.attrs → ∃ t, n = 'a' :: t := by
      intro n w h
      obtain ⟨y, _, _, _, he⟩ := mem_attrItems.1 h
      exact ⟨_, (Prod.mk.inj he).1⟩
    constructor <;> apply h2 <;> rw [spanKey_eq]
    · refine lastOf_span (.event hi (.inl (by simp))) fun w hw => ?_
      rcases hp hw with h | h
      · simp at h; exact h
      · obtain ⟨t, ht⟩ := hno h
        exact absurd (List.cons.inj (ht : 'n' :: _ = 'a' :: _)).1 (by decide)
    · refine lastOf_span (.event hi (.inl (by simp))) fun w hw => ?_
      rcases hp hw with h | h
      · simp at h; exact h
      · obtain ⟨t, ht⟩ := hno h
        exact absurd (List.cons.inj (ht : 't' :: _ = 'a' :: _)).1 (by decide)
  · intro i l hi
    have hp : ∀ {n : Str} {w : Leaf}, Part s ("Link_".toList ++ (dec i ++ '/' :: n)) w →
        ((n, w) ∈ [("trace_id".toList, .str l.trace), ("span_id".toList, .str l.span), ("trace_state".toList, .str l.state),
          ("dropped_attributes_count".toList, .num l.dropped), ("flags".toList, .num l.flags)] ∨
        (n, w) ∈ attrItems [] l.attrs) := by
      intro n w hw
      generalize hk : "Link_".toList ++ (dec i ++ '/' :: n) = k at hw
      cases hw with
      | plain h =>
        rw [← hk] at h
        exact absurd rfl (plain_first (c := 'L') h).2.2.1
      | attr => exact absurd (List.cons.inj (hk : 'L' :: _ = 'a' :: _)).1 (by decide)
      | event => exact absurd (List.cons.inj (hk : 'L' :: _ = 'E' :: _)).1 (by decide)
      | code => exact absurd (List.cons.inj (hk : 'L' :: _ = 'S' :: _)).1 (by decide)
      | message => exact absurd (List.cons.inj (hk : 'L' :: _ = 'S' :: _)).1 (by decide)
      | link hj hr =>
        obtain ⟨hd, hn⟩ := sep_append_inj (hslash _) (hslash _) (List.append_cancel_left hk)
        have := dec_inj hd
        subst this
        rw [hi] at hj
        rw [Option.some.inj hj, hn]
        exact hr
    have hno : ∀ {n : Str} {w : Leaf}, (n, w) ∈ attrItems [] l.attrs → ∃ t, n = 'a' :: t := by
      intro n w h
      obtain ⟨y, _, _, _, he⟩ := mem_attrItems.1 h
      exact ⟨_, (Prod.mk.inj he).1⟩
    constructor <;> apply h2 <;> rw [spanKey_eq]
    · refine lastOf_span (.link hi (.inl (by simp))) fun w hw => ?_
      rcases hp hw with h | h
      · simp at h; exact h
      · obtain ⟨t, ht⟩ := hno h
        exact absurd (List.cons.inj (ht : 't' :: _ = 'a' :: _)).1 (by decide)
    · refine lastOf_span (.link hi (.inl (by simp))) fun w hw => ?_
      rcases hp hw with h | h
      · simp at h; exact h
      · obtain ⟨t, ht⟩ := hno h
        exact absurd (List.cons.inj (ht : 's' :: _ = 'a' :: _)).1 (by decide)

end Verif.Ingest
