import Verif.Jaeger.Model
import Verif.Ingest.OtlpFields
import Verif.Repair.Columns
/-!
# Spans read through the Jaeger API

C183 (a span that is read is the span that was sent): what holds whatever the columns of the table are.
-/
namespace Verif.Jaeger
open Verif.Ingest Verif.Raft

/-- A column that is there with the right type. -/
def Has (cs : List Col) (name : Str) (num : Bool) : Prop := colOf cs name = some ⟨name, num⟩

instance (cs : List Col) (name : Str) (num : Bool) : Decidable (Has cs name num) := by unfold Has; infer_instance

theorem strCol_has {cs : List Col} {name : Str} (h : Has cs name false) (r : Row) : strCol cs r name = some (some (strOf r name)) := by
  unfold Has at h
  simp only [strCol, h, Bool.false_eq_true, if_false]

theorem numCol_has {cs : List Col} {name : Str} (h : Has cs name true) (r : Row) : numCol cs r name = some (some (numOf r name)) := by
  unfold Has at h
  simp only [numCol, h, if_true]

/-- What the loop never changes. -/
structure Same (a b : JSpan) : Prop where
  trace : b.trace = a.trace
  span : b.span = a.span
  parent : b.parent = a.parent
  flags : b.flags = a.flags
  op : b.op = a.op
  start : b.start = a.start
  duration : b.duration = a.duration
  service : b.process.service = a.process.service
  tags : a.tags <+: b.tags
  ptags : a.process.tags <+: b.process.tags

theorem Same.refl (a : JSpan) : Same a a := ⟨rfl, rfl, rfl, rfl, rfl, rfl, rfl, rfl, List.prefix_refl _, List.prefix_refl _⟩

theorem Same.trans {a b c : JSpan} (h : Same a b) (k : Same b c) : Same a c :=
  ⟨k.trace.trans h.trace, k.span.trans h.span, k.parent.trans h.parent, k.flags.trans h.flags, k.op.trans h.op, k.start.trans h.start,
    k.duration.trans h.duration, k.service.trans h.service, h.tags.trans k.tags, h.ptags.trans k.ptags⟩

theorem same_ptag (a : Acc) (l : List KV) : Same a.out (a.ptag l).out :=
  ⟨rfl, rfl, rfl, rfl, rfl, rfl, rfl, rfl, List.prefix_refl _, List.prefix_append _ _⟩

theorem same_tag (a : Acc) (kv : KV) : Same a.out (a.tag kv).out :=
  ⟨rfl, rfl, rfl, rfl, rfl, rfl, rfl, rfl, List.prefix_append _ _, List.prefix_refl _⟩

/-- What a step does to the numbers, the logs and the references. -/
inductive Moved (cs : List Col) (r : Row) (a b : Acc) : Prop where
  | none (e : b.event = a.event) (l : b.link = a.link) (h : b.out.logs = a.out.logs) (g : b.out.refs = a.out.refs)
  | event (t : Int) (fs ts : List KV) (e : b.event = a.event + 1) (l : b.link = a.link) (g : b.out.refs = a.out.refs)
      (ht : numCol cs r (key (eventPrefix a.event) "time_unix_nano") = some (some t))
      (hf : eventLoop r (eventPrefix a.event) cs = some (fs, ts)) (h : b.out.logs = a.out.logs ++ [⟨asU64 t, fs⟩])
  | link (t s : Str) (e : b.event = a.event) (l : b.link = a.link + 1) (h : b.out.logs = a.out.logs)
      (ht : strCol cs r (key (linkPrefix a.link) "trace_id") = some (some t))
      (hs : strCol cs r (key (linkPrefix a.link) "span_id") = some (some s)) (g : b.out.refs = a.out.refs ++ [(t, s)])

theorem step_spec {cs : List Col} {r : Row} {a b : Acc} {c : Col} (h : step cs r a c = some b) :
    Same a.out b.out ∧ Moved cs r a b := by
  unfold step at h
  split at h
  · cases hk : attrKV r c with
    | none => rw [hk] at h; simp at h
    | some kv =>
      rw [hk] at h; simp only [Option.map_some, Option.some.injEq] at h; subst h
      exact ⟨same_ptag _ _, .none rfl rfl rfl rfl⟩
  split at h
  · split at h
    · simp only [Option.some.injEq] at h; subst h; exact ⟨same_ptag _ _, .none rfl rfl rfl rfl⟩
    · simp at h
  split at h
  · cases hk : attrKV r c with
    | none => rw [hk] at h; simp at h
    | some kv =>
      rw [hk] at h; simp only [Option.map_some, Option.some.injEq] at h; subst h
      exact ⟨same_ptag _ _, .none rfl rfl rfl rfl⟩
  split at h
  · split at h
    · simp only [Option.some.injEq] at h; subst h; exact ⟨same_tag _ _, .none rfl rfl rfl rfl⟩
    · simp at h
  split at h
  · split at h
    · simp at h
    · simp only [Option.some.injEq] at h; subst h; exact ⟨same_tag _ _, .none rfl rfl rfl rfl⟩
  split at h
  · split at h
    · rename_i t fs ts ht hf
      simp only [Option.some.injEq] at h; subst h
      exact ⟨⟨rfl, rfl, rfl, rfl, rfl, rfl, rfl, rfl, List.prefix_refl _, List.prefix_append _ _⟩, .event t fs ts rfl rfl rfl ht hf rfl⟩
    · simp at h
  split at h
  · split at h
    · rename_i t s ht hs
      simp only [Option.some.injEq] at h; subst h
      exact ⟨⟨rfl, rfl, rfl, rfl, rfl, rfl, rfl, rfl, List.prefix_refl _, List.prefix_refl _⟩, .link t s rfl rfl rfl ht hs rfl⟩
    · simp at h
  · simp only [Option.some.injEq] at h; subst h; exact ⟨Same.refl _, .none rfl rfl rfl rfl⟩

theorem loop_same {cs : List Col} {r : Row} {l : List Col} {a b : Acc} (h : loop cs r l a = some b) : Same a.out b.out := by
  induction l generalizing a with
  | nil => simp only [loop, Option.some.injEq] at h; subst h; exact Same.refl _
  | cons c l ih =>
    simp only [loop] at h
    cases hs : step cs r a c with
    | none => rw [hs] at h; simp at h
    | some a' => rw [hs] at h; exact (step_spec hs).1.trans (ih h)

theorem toSpan_cases {cs : List Col} {r : Row} {j : JSpan} (h : toSpan cs r = some j) :
    ∃ j0 a, head cs r = some j0 ∧ loop cs r cs ⟨0, 0, j0⟩ = some a ∧ a.out = j := by
  unfold toSpan at h
  cases hh : head cs r with
  | none => rw [hh] at h; simp at h
  | some j0 =>
    rw [hh] at h
    cases hl : loop cs r cs ⟨0, 0, j0⟩ with
    | none => simp [hl] at h
    | some a => exact ⟨j0, a, rfl, hl, by simpa [hl] using h⟩

/-- What the columns with fixed names give. -/
theorem head_spec {cs : List Col} {r : Row} {j : JSpan} (h : head cs r = some j) :
    (Has cs traceCol false → j.trace = strOf r traceCol) ∧ (Has cs spanCol false → j.span = strOf r spanCol) ∧
    (Has cs parentCol false → j.parent = some (strOf r parentCol)) ∧ (Has cs opCol false → j.op = strOf r opCol) ∧
    (Has cs flagsCol true → j.flags = some (asU32 (numOf r flagsCol))) ∧
    (Has cs kindCol false → (⟨"span.kind".toList, .str (jaegerKind (strOf r kindCol))⟩ : KV) ∈ j.tags) ∧
    j.start = (r.time.tdiv 1000 % 2 ^ 64).toNat ∧
    (Has cs durationCol true → j.duration = asU64 (numOf r durationCol) / 1000) ∧
    (Has cs serviceCol false → j.process.service = strOf r serviceCol) ∧
    (Has cs codeCol false → strOf r codeCol = "STATUS_CODE_ERROR".toList → (⟨"error".toList, .bool true⟩ : KV) ∈ j.process.tags) ∧
    (Has cs messageCol false → (⟨"otel.status_description".toList, .str (strOf r messageCol)⟩ : KV) ∈ j.process.tags) ∧
    j.logs = [] ∧ j.refs = [] := by
  unfold head at h
  split at h
  · rename_i t s p f o k d c m n v w ht hs hp hf ho hk hd hc hm hn hv hw
    simp only [Option.some.injEq] at h
    subst h
    refine ⟨fun x => ?_, fun x => ?_, fun x => ?_, fun x => ?_, fun x => ?_, fun x => ?_, rfl, fun x => ?_, fun x => ?_,
      fun x y => ?_, fun x => ?_, rfl, rfl⟩
    · rw [strCol_has x] at ht; cases ht; rfl
    · rw [strCol_has x] at hs; cases hs; rfl
    · rw [strCol_has x] at hp; cases hp; rfl
    · rw [strCol_has x] at ho; cases ho; rfl
    · rw [numCol_has x] at hf; cases hf; rfl
    · rw [strCol_has x] at hk; cases hk; exact List.mem_singleton.mpr rfl
    · rw [numCol_has x] at hd; cases hd; rfl
    · rw [strCol_has x] at hw; cases hw; rfl
    · rw [strCol_has x] at hc; cases hc
      simp only [y, if_true, List.mem_append]
      exact Or.inl (Or.inl (Or.inl (Or.inr (List.mem_singleton.mpr rfl))))
    · rw [strCol_has x] at hm; cases hm
      simp only [List.mem_append]
      exact Or.inl (Or.inl (Or.inr (List.mem_singleton.mpr rfl)))
  · simp at h

/-- A span as it is read: the fields are those of the row, whatever other columns the table has. -/
theorem C183_read_partial {cs : List Col} {r : Row} {j : JSpan} (h : toSpan cs r = some j) :
    (Has cs traceCol false → j.trace = strOf r traceCol) ∧ (Has cs spanCol false → j.span = strOf r spanCol) ∧
    (Has cs parentCol false → j.parent = some (strOf r parentCol)) ∧ (Has cs opCol false → j.op = strOf r opCol) ∧
    (Has cs flagsCol true → j.flags = some (asU32 (numOf r flagsCol))) ∧
    (Has cs kindCol false → (⟨"span.kind".toList, .str (jaegerKind (strOf r kindCol))⟩ : KV) ∈ j.tags) ∧
    j.start = (r.time.tdiv 1000 % 2 ^ 64).toNat ∧
    (Has cs durationCol true → j.duration = asU64 (numOf r durationCol) / 1000) ∧
    (Has cs serviceCol false → j.process.service = strOf r serviceCol) ∧
    (Has cs codeCol false → strOf r codeCol = "STATUS_CODE_ERROR".toList → (⟨"error".toList, .bool true⟩ : KV) ∈ j.process.tags) ∧
    (Has cs messageCol false → (⟨"otel.status_description".toList, .str (strOf r messageCol)⟩ : KV) ∈ j.process.tags) := by
  obtain ⟨j0, a, hh, hl, rfl⟩ := toSpan_cases h
  have s := loop_same hl
  simp only at s
  obtain ⟨h1, h2, h3, h4, h5, h6, h7, h8, h9, h10, h11, _, _⟩ := head_spec hh
  exact ⟨fun x => s.trace.trans (h1 x), fun x => s.span.trans (h2 x), fun x => s.parent.trans (h3 x), fun x => s.op.trans (h4 x),
    fun x => s.flags.trans (h5 x), fun x => s.tags.subset (h6 x), s.start.trans h7, fun x => s.duration.trans (h8 x),
    fun x => s.service.trans (h9 x), fun x y => s.ptags.subset (h10 x y), fun x => s.ptags.subset (h11 x)⟩

/-! ## Attributes -/

theorem loop_attr {cs : List Col} {r : Row} {l : List Col} {a b : Acc} (h : loop cs r l a = some b) {c : Col} (hc : c ∈ l)
    (hn : spanAttrs <+: c.name ∨ resAttrs <+: c.name ∧ c.name ≠ serviceCol) (hd : c.name ≠ resDroppedCol) :
    (⟨c.name, .str (strOf r c.name)⟩ : KV) ∈ b.out.process.tags := by
  induction l generalizing a with
  | nil => cases hc
  | cons x l ih =>
    simp only [loop] at h
    cases hs : step cs r a x with
    | none => rw [hs] at h; simp at h
    | some a' =>
      rw [hs] at h
      rcases List.mem_cons.mp hc with rfl | hc
      · apply (loop_same h).ptags.subset
        unfold step at hs
        have key : ∀ b, (attrKV r c).map (fun kv => a.ptag [kv]) = some b → (⟨c.name, .str (strOf r c.name)⟩ : KV) ∈ b.out.process.tags := by
          intro b hb
          unfold attrKV at hb
          split at hb
          · simp at hb
          · simp only [Option.map_some, Option.some.injEq] at hb
            subst hb
            simp [Acc.ptag]
        split at hs
        · exact key _ hs
        · rename_i h1
          split at hs
          · exact key _ hs
          · rename_i h2
            rcases hn with hn | ⟨hn, hne⟩
            · exact absurd (List.isPrefixOf_iff_prefix.mpr hn) h2
            · exact absurd (by simp [List.isPrefixOf_iff_prefix.mpr hn, hne]) h1
      · exact ih h hc

/-- Attributes of the span and of its resource are tags of its process, under the name of the column. -/
theorem C183_attributes_partial {cs : List Col} {r : Row} {j : JSpan} (h : toSpan cs r = some j) {c : Col} (hc : c ∈ cs)
    (hn : spanAttrs <+: c.name ∨ resAttrs <+: c.name ∧ c.name ≠ serviceCol) (hd : c.name ≠ resDroppedCol) :
    (⟨c.name, .str (strOf r c.name)⟩ : KV) ∈ j.process.tags := by
  obtain ⟨j0, a, _, hl, rfl⟩ := toSpan_cases h
  exact loop_attr hl hc hn hd

/-! ## Events and links -/

/-- The logs and references so far are the first events and links. -/
structure Counted (cs : List Col) (r : Row) (a : Acc) : Prop where
  logs : a.out.logs.length = a.event
  refs : a.out.refs.length = a.link
  log : ∀ i g, a.out.logs[i]? = some g → ∃ t ts, numCol cs r (key (eventPrefix i) "time_unix_nano") = some (some t) ∧
    g.timestamp = asU64 t ∧ eventLoop r (eventPrefix i) cs = some (g.fields, ts)
  ref : ∀ i g, a.out.refs[i]? = some g → strCol cs r (key (linkPrefix i) "trace_id") = some (some g.1) ∧
    strCol cs r (key (linkPrefix i) "span_id") = some (some g.2)

theorem Counted.step {cs : List Col} {r : Row} {a b : Acc} (h : Counted cs r a) (m : Moved cs r a b) : Counted cs r b := by
  cases m with
  | none e l hl hg => exact ⟨by rw [hl, e]; exact h.logs, by rw [hg, l]; exact h.refs, by rw [hl]; exact h.log, by rw [hg]; exact h.ref⟩
  | event t fs ts e l hg ht hf hl =>
    refine ⟨by rw [hl, e, List.length_append, h.logs]; rfl, by rw [hg, l]; exact h.refs, ?_, by rw [hg]; exact h.ref⟩
    intro i g hi
    rw [hl, List.getElem?_append] at hi
    split at hi
    · exact h.log i g hi
    · rename_i hlt
      rw [h.logs] at hi hlt
      have : i - a.event = 0 := by
        by_cases h0 : i - a.event = 0
        · exact h0
        · rw [List.getElem?_eq_none (by simp; omega)] at hi; cases hi
      rw [this] at hi
      have hie : i = a.event := by omega
      simp only [List.getElem?_cons_zero, Option.some.injEq] at hi
      subst hi
      rw [hie]
      exact ⟨t, ts, ht, rfl, hf⟩
  | link t s e l hl ht hs hg =>
    refine ⟨by rw [hl, e]; exact h.logs, by rw [hg, l, List.length_append, h.refs]; rfl, by rw [hl]; exact h.log, ?_⟩
    intro i g hi
    rw [hg, List.getElem?_append] at hi
    split at hi
    · exact h.ref i g hi
    · rename_i hlt
      rw [h.refs] at hi hlt
      have : i - a.link = 0 := by
        by_cases h0 : i - a.link = 0
        · exact h0
        · rw [List.getElem?_eq_none (by simp; omega)] at hi; cases hi
      rw [this] at hi
      have hie : i = a.link := by omega
      simp only [List.getElem?_cons_zero, Option.some.injEq] at hi
      subst hi
      rw [hie]
      exact ⟨ht, hs⟩

theorem loop_counted {cs : List Col} {r : Row} {l : List Col} {a b : Acc} (h : loop cs r l a = some b) (hc : Counted cs r a) :
    Counted cs r b := by
  induction l generalizing a with
  | nil => simp only [loop, Option.some.injEq] at h; subst h; exact hc
  | cons c l ih =>
    simp only [loop] at h
    cases hs : Jaeger.step cs r a c with
    | none => rw [hs] at h; simp at h
    | some a' => rw [hs] at h; exact ih h (hc.step (step_spec hs).2)

theorem eventLoop_name {r : Row} {p : Str} {cs : List Col} {fs ts : List KV} (h : eventLoop r p cs = some (fs, ts))
    (hc : ⟨key p "name", false⟩ ∈ cs) : (⟨"name".toList, .str (strOf r (key p "name"))⟩ : KV) ∈ fs := by
  induction cs generalizing fs ts with
  | nil => cases hc
  | cons c cs ih =>
    unfold eventLoop at h
    have hpre : ¬ (key p "attributes/").isPrefixOf (key p "name") = true := by
      rw [List.isPrefixOf_iff_prefix]
      intro hh
      rw [key, key, List.prefix_append_right_inj] at hh
      revert hh
      decide
    split at h
    · rename_i hp
      split at h
      · rename_i kv fs' ts' _ hl
        simp only [Option.some.injEq, Prod.mk.injEq] at h
        obtain ⟨rfl, rfl⟩ := h
        rcases List.mem_cons.mp hc with rfl | hc
        · exact absurd hp hpre
        · exact ih hl hc
      · simp at h
    · split at h
      · rename_i hne
        split at h
        · simp at h
        · cases hl : eventLoop r p cs with
          | none => rw [hl] at h; simp at h
          | some x =>
            rw [hl] at h
            simp only [Option.some.injEq, Prod.mk.injEq] at h
            obtain ⟨rfl, rfl⟩ := h
            rw [← hne]
            exact List.mem_cons_self
      · rename_i hne
        rcases List.mem_cons.mp hc with rfl | hc
        · exact absurd rfl hne
        · split at h
          · split at h
            · cases hl : eventLoop r p cs with
              | none => rw [hl] at h; simp at h
              | some x =>
                rw [hl] at h
                simp only [Option.some.injEq, Prod.mk.injEq] at h
                obtain ⟨rfl, rfl⟩ := h
                exact List.mem_cons_of_mem _ (ih hl hc)
            · simp at h
          · exact ih h hc

/-- The logs of a span that is read are its events from the first on, and the references its links. -/
theorem C183_events_partial {cs : List Col} {r : Row} {j : JSpan} (h : toSpan cs r = some j) :
    (∀ i g, j.logs[i]? = some g → Has cs (key (eventPrefix i) "time_unix_nano") true →
      g.timestamp = asU64 (numOf r (key (eventPrefix i) "time_unix_nano")) ∧
      (⟨key (eventPrefix i) "name", false⟩ ∈ cs → (⟨"name".toList, .str (strOf r (key (eventPrefix i) "name"))⟩ : KV) ∈ g.fields)) ∧
    (∀ i g, j.refs[i]? = some g → Has cs (key (linkPrefix i) "trace_id") false → Has cs (key (linkPrefix i) "span_id") false →
      g = (strOf r (key (linkPrefix i) "trace_id"), strOf r (key (linkPrefix i) "span_id"))) := by
  obtain ⟨j0, a, hh, hl, rfl⟩ := toSpan_cases h
  obtain ⟨_, _, _, _, _, _, _, _, _, _, _, l0, r0⟩ := head_spec hh
  have hc := loop_counted hl (⟨by simp [l0], by simp [r0], by simp [l0], by simp [r0]⟩)
  refine ⟨fun i g hi ht => ?_, fun i g hi ht hs => ?_⟩
  · obtain ⟨t, ts, h1, h2, h3⟩ := hc.log i g hi
    rw [numCol_has ht] at h1
    cases h1
    exact ⟨h2, fun hn => eventLoop_name h3 hn⟩
  · obtain ⟨h1, h2⟩ := hc.ref i g hi
    rw [strCol_has ht] at h1
    rw [strCol_has hs] at h2
    cases g
    simp only [Option.some.injEq] at h1 h2
    rw [h1, h2]

/-! ## From the span that was sent -/

theorem strOf_get {r : Row} {k v : Str} (h : r.cells.get k = some (.str v)) : strOf r k = v := by simp only [strOf, h]
theorem numOf_get {r : Row} {k : Str} {n : Int} (h : r.cells.get k = some (.num n)) : numOf r k = n := by simp only [numOf, h]

/-- The columns of a table of traces that every span has. -/
def Base (cs : List Col) : Prop :=
  Has cs traceCol false ∧ Has cs spanCol false ∧ Has cs parentCol false ∧ Has cs opCol false ∧ Has cs flagsCol true ∧
  Has cs kindCol false ∧ Has cs durationCol true

instance (cs : List Col) : Decidable (Base cs) := by unfold Base; infer_instance

theorem rowOf_cells (m : Rec) : (rowOf m).cells = m := by
  unfold rowOf
  split <;> rfl

theorem asU64_small {n : Nat} (h : n ≤ 2 ^ 53) : asU64 n = n := by
  unfold asU64
  rw [if_neg (by omega), Int.toNat_natCast, Repair.f64OfNat_small h]
  exact Nat.min_eq_left (by omega)

theorem asU32_small {n : Nat} (h : n < 2 ^ 32) : asU32 n = n := by
  unfold asU32
  rw [if_neg (by omega), Int.toNat_natCast, Repair.f64OfNat_small (by omega)]
  exact Nat.min_eq_left (by omega)

/-- Property C183, partial: a span that was sent and is read again has its ids, name, kind, flags, start and duration in
microseconds, its attributes and its events with their names, whatever other columns the table has.  (Left out: events and attributes of other
spans, events after the tenth, attributes of events; durations of more than 2^53 nanoseconds, which are 104 days.) -/
theorem C183_sent_partial {rs : ResourceSpans} {pre post : List ScopeSpans} {sc : ScopeSpans} {a b : List Span} {s : Span}
    (hr : rs.scopes = pre ++ sc :: post) (hs : sc.spans = a ++ s :: b) (hle : s.start ≤ s.stop) (hlt : s.stop < 2 ^ 63)
    (hdur : s.stop - s.start ≤ 2 ^ 53) (hflags : s.flags < 2 ^ 32) :
    ∃ m, (otlpRecs [rs])[(pre.map fun x => x.spans.length).sum + a.length]? = some m ∧
      ∀ cs j, Base cs → toSpan cs (rowOf m) = some j →
        j.trace = s.trace ∧ j.span = s.span ∧ j.parent = some s.parent ∧ j.op = s.name ∧ j.flags = some s.flags ∧
        (⟨"span.kind".toList, .str (jaegerKind s.kind)⟩ : KV) ∈ j.tags ∧ j.start = s.start / 1000 ∧
        j.duration = (s.stop - s.start) / 1000 ∧
        (∀ x ∈ s.attrs, ∀ v, x.val = some v → (∀ y ∈ s.attrs, y.key = x.key → y.val = x.val) → ⟨spanAttrs ++ x.key, false⟩ ∈ cs →
          (⟨spanAttrs ++ x.key, .str v.text⟩ : KV) ∈ j.process.tags) ∧
        (∀ i e g, s.events[i]? = some e → j.logs[i]? = some g → Has cs (key (eventPrefix i) "time_unix_nano") true →
          g.timestamp = asU64 e.time ∧
          (⟨key (eventPrefix i) "name", false⟩ ∈ cs → (⟨"name".toList, .str e.name⟩ : KV) ∈ g.fields)) ∧
        (∀ i l g, s.links[i]? = some l → j.refs[i]? = some g → Has cs (key (linkPrefix i) "trace_id") false →
          Has cs (key (linkPrefix i) "span_id") false → g = (l.trace, l.span)) := by
  obtain ⟨m, hm, hf, hd, ha, _, he, hli⟩ := C133_fields_partial hr hs
  refine ⟨m, hm, fun cs j hb hj => ?_⟩
  have rc := rowOf_cells m
  obtain ⟨b1, b2, b3, b4, b5, b6, b7⟩ := hb
  obtain ⟨h1, h2, h3, h4, h5, h6, h7, h8, -, -, -⟩ := C183_read_partial hj
  obtain ⟨e1, e2⟩ := C183_events_partial hj
  have g (f) (h : f ∈ spanFields s) : (rowOf m).cells.get (spanKey f.1.toList) = some f.2 := by rw [rc]; exact hf f h
  have hk : ∀ i (n : String), key (eventPrefix i) n = spanKey ("Event_".toList ++ (dec i ++ '/' :: n.toList)) := by
    intro i n
    simp [key, eventPrefix, spanKey_eq]
  have hkl : ∀ i (n : String), key (linkPrefix i) n = spanKey ("Link_".toList ++ (dec i ++ '/' :: n.toList)) := by
    intro i n
    simp [key, linkPrefix, spanKey_eq]
  refine ⟨?_, ?_, ?_, ?_, ?_, ?_, ?_, ?_, ?_, ?_, ?_⟩
  · rw [h1 b1]; exact strOf_get (g ("trace_id", .str s.trace) (by simp [spanFields]))
  · rw [h2 b2]; exact strOf_get (g ("span_id", .str s.span) (by simp [spanFields]))
  · rw [h3 b3]; exact congrArg some (strOf_get (g ("parent_span_id", .str s.parent) (by simp [spanFields])))
  · rw [h4 b4]; exact strOf_get (g ("name", .str s.name) (by simp [spanFields]))
  · rw [h5 b5, show numOf (rowOf m) flagsCol = (s.flags : Int) from numOf_get (g ("flags", .num s.flags) (by simp [spanFields])),
      asU32_small hflags]
  · have := h6 b6
    rwa [show strOf (rowOf m) kindCol = s.kind from strOf_get (g ("kind", .str s.kind) (by simp [spanFields]))] at this
  · have ht : (rowOf m).time = s.start := by
      have := hf ("start_time_unix_nano", .num s.start) (by simp [spanFields])
      unfold rowOf
      rw [show key spanPrefix "start_time_unix_nano" = spanKey "start_time_unix_nano".toList from rfl, this]
    rw [h7, ht]
    have : ((s.start : Int).tdiv 1000) = ((s.start / 1000 : Nat) : Int) := by
      rw [Int.tdiv_eq_ediv_of_nonneg (by omega)]; omega
    rw [this]
    omega
  · rw [h8 b7, show numOf (rowOf m) durationCol = ((s.stop - s.start : Nat) : Int) from numOf_get (by rw [rc]; exact hd hle (by omega)),
      asU64_small hdur]
  · intro x hx v hv hu hc
    have := C183_attributes_partial hj hc (Or.inl (List.prefix_append _ _)) (by
      intro hh
      have := congrArg (List.take 22) hh
      revert this
      rw [List.take_append_of_le_length (by decide)]
      decide)
    rwa [show strOf (rowOf m) (spanAttrs ++ x.key) = v.text from strOf_get (by
      rw [rc]
      have := ha x hx v hv hu
      rwa [spanKey_eq, ← List.append_assoc] at this)] at this
  · intro i e g' hi hg ht
    obtain ⟨x, y⟩ := e1 i g' hg ht
    obtain ⟨z, w⟩ := he i e hi
    rw [show numOf (rowOf m) (key (eventPrefix i) "time_unix_nano") = (e.time : Int) from numOf_get (by rw [rc, hk]; exact w)] at x
    rw [show strOf (rowOf m) (key (eventPrefix i) "name") = e.name from strOf_get (by rw [rc, hk]; exact z)] at y
    exact ⟨x, y⟩
  · intro i l g' hi hg ht hs'
    obtain ⟨z, w⟩ := hli i l hi
    have := e2 i g' hg ht hs'
    rwa [show strOf (rowOf m) (key (linkPrefix i) "trace_id") = l.trace from strOf_get (by rw [rc, hkl]; exact z),
      show strOf (rowOf m) (key (linkPrefix i) "span_id") = l.span from strOf_get (by rw [rc, hkl]; exact w)] at this

end Verif.Jaeger
