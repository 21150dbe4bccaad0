import Verif.Jaeger.Traces
import Verif.Ingest.TcpLine
import Verif.Dump.Lex
/-!
# What a search for traces asks for

C185: durations, attributes and times of a search are those that are written.
-/
namespace Verif.Jaeger
open Verif.Ingest Verif.Raft

/-! ## Durations -/

theorem leadingInt_spec (rest : Str) (hr : ∀ c, rest.head? = some c → c.isDigit = false) :
    ∀ (ds : Str) (v : Nat), (∀ c ∈ ds, c.isDigit = true) →
      leadingInt (v % 2 ^ 64) (ds ++ rest) = (ds.foldl (fun n d => 10 * n + (d.toNat - 48)) v % 2 ^ 64, rest)
  | [], v, _ => by
    cases rest with
    | nil => simp [leadingInt]
    | cons c s => simp [leadingInt, hr c rfl]
  | d :: ds, v, h => by
    have hd := h d List.mem_cons_self
    rw [List.cons_append, leadingInt, if_pos hd]
    have : ((v % 2 ^ 64) * 10 + (d.toNat - 48)) % 2 ^ 64 = (10 * v + (d.toNat - 48)) % 2 ^ 64 := by omega
    rw [this, leadingInt_spec rest hr ds _ fun c hc => h c (List.mem_cons_of_mem _ hc)]
    rfl

theorem leadingInt_dec (n : Nat) (rest : Str) (hr : ∀ c, rest.head? = some c → c.isDigit = false) :
    leadingInt 0 (dec n ++ rest) = (n % 2 ^ 64, rest) := by
  have := leadingInt_spec rest hr (dec n) 0 fun c hc => Dump.isDigit_of (dec_digits n c hc)
  rw [show (0 : Nat) % 2 ^ 64 = 0 from rfl] at this
  rw [this]
  have := undec_dec n
  unfold undec at this
  rw [this]

/-- A number with its unit. -/
structure Item where
  n : Nat
  unit : Str

/-- A duration as text. -/
def itemsText (l : List Item) : Str := l.flatMap fun i => dec i.n ++ i.unit

/-- The nanoseconds of a unit. -/
def nanosOf (u : Str) : Nat := (unitOf u).getD 0

def total (l : List Item) : Nat := (l.map fun i => i.n * nanosOf i.unit).sum

theorem unitOf_spec {u : Str} {k : Nat} (h : unitOf u = some k) : 1 ≤ k ∧ (∀ c ∈ u, unitEnd c = false) ∧ u ≠ [] := by
  unfold unitOf at h
  repeat' split at h
  all_goals first
    | (rename_i he; simp only [Option.some.injEq] at h; subst he; subst h; decide)
    | simp at h

theorem unitEnd_digit {c : Char} (h : c.isDigit = true) : unitEnd c = true := by simp [unitEnd, h]

theorem itemsText_head (l : List Item) : ∀ c, (itemsText l).head? = some c → c.isDigit = true := by
  intro c hc
  cases l with
  | nil => simp [itemsText] at hc
  | cons i l =>
    simp only [itemsText, List.flatMap_cons, List.append_assoc] at hc
    exact Dump.isDigit_of (dec_head i.n _ c hc)

theorem takeWhile_unit {u rest : Str} (hu : ∀ c ∈ u, unitEnd c = false) (hr : ∀ c, rest.head? = some c → unitEnd c = true) :
    (u ++ rest).takeWhile (fun c => !unitEnd c) = u ∧ (u ++ rest).dropWhile (fun c => !unitEnd c) = rest := by
  induction u with
  | nil =>
    cases rest with
    | nil => exact ⟨rfl, rfl⟩
    | cons c s => simp [hr c rfl]
  | cons c u ih =>
    have := hu c List.mem_cons_self
    obtain ⟨h1, h2⟩ := ih fun c hc => hu c (List.mem_cons_of_mem _ hc)
    simp [this, h1, h2]

theorem durLoop_items (frac : Nat → Nat → Nat → Nat) : ∀ (l : List Item) (fuel d : Nat), l.length ≤ fuel →
    (∀ i ∈ l, unitOf i.unit ≠ none) → d + total l ≤ 2 ^ 62 → durLoop frac fuel d (itemsText l) = some (d + total l)
  | [], fuel, d, _, _, _ => by cases fuel <;> simp [itemsText, durLoop, total]
  | i :: l, 0, _, h, _, _ => by simp at h
  | i :: l, fuel + 1, d, hf, hu, ht => by
    obtain ⟨k, hk⟩ : ∃ k, unitOf i.unit = some k := by
      cases h : unitOf i.unit with
      | none => exact absurd h (hu i List.mem_cons_self)
      | some k => exact ⟨k, rfl⟩
    obtain ⟨hk1, hk2, hk3⟩ := unitOf_spec hk
    have htot : total (i :: l) = i.n * k + total l := by simp [total, nanosOf, hk]
    rw [htot] at ht
    have hn : i.n ≤ i.n * k := Nat.le_mul_of_pos_right _ hk1
    have htext : itemsText (i :: l) = dec i.n ++ (i.unit ++ itemsText l) := by simp [itemsText]
    have hrest : ∀ c, (i.unit ++ itemsText l).head? = some c → c.isDigit = false := by
      intro c hc
      cases hu' : i.unit with
      | nil => exact absurd hu' hk3
      | cons x u =>
        rw [hu'] at hc hk2
        simp only [List.cons_append, List.head?_cons, Option.some.injEq] at hc
        subst hc
        have := hk2 x List.mem_cons_self
        simp only [unitEnd, Bool.or_eq_false_iff] at this
        exact this.2
    have hnd : ∀ s1, i.unit ++ itemsText l ≠ '.' :: s1 := by
      intro s1 e
      cases hu' : i.unit with
      | nil => exact absurd hu' hk3
      | cons x u =>
        rw [hu'] at e hk2
        have := hk2 x List.mem_cons_self
        rw [List.cons_append, List.cons.injEq] at e
        rw [e.1] at this
        exact absurd this (by decide)
    obtain ⟨tw, dw⟩ := takeWhile_unit hk2 (rest := itemsText l) fun c hc => unitEnd_digit (itemsText_head l c hc)
    have hl := leadingInt_dec i.n _ hrest
    rw [Nat.mod_eq_of_lt (by omega)] at hl
    rw [htext]
    cases hdn : dec i.n with
    | nil => exact absurd hdn (dec_ne_nil _)
    | cons c s0 =>
      have hcd : c.isDigit = true := Dump.isDigit_of (dec_digits i.n c (by rw [hdn]; exact List.mem_cons_self))
      rw [hdn] at hl
      rw [List.cons_append] at hl ⊢
      rw [durLoop, if_pos (unitEnd_digit hcd), hl]
      have hm : (match (i.unit ++ itemsText l : Str) with
          | '.' :: s1 => ((leadingInt 0 s1).1, s1.length - (leadingInt 0 s1).2.length, (leadingInt 0 s1).2)
          | s1 => (0, 0, s1)) = (0, 0, i.unit ++ itemsText l) := by
        split
        · rename_i s1 e; exact absurd e (hnd s1)
        · rfl
      have hw : withUnit frac i.n 0 0 k = some (i.n * k) := by
        unfold withUnit
        rw [if_neg, if_neg (by omega)]
        have : i.n ≤ 2 ^ 63 / k := (Nat.le_div_iff_mul_le hk1).mpr (by omega)
        omega
      have ih := durLoop_items frac l fuel (d + i.n * k) (by simpa using hf) (fun x hx => hu x (List.mem_cons_of_mem _ hx)) (by omega)
      have hne : i.unit.isEmpty = false := by cases hu' : i.unit with
        | nil => exact absurd hu' hk3
        | cons x u => rfl
      have hmod : (d + i.n * k) % 2 ^ 64 = d + i.n * k := Nat.mod_eq_of_lt (by omega)
      simp only [hm, hcd, Bool.not_true, Bool.false_and, Bool.false_eq_true, if_false, tw, dw, hne, hk, hw, hmod]
      rw [if_neg (by omega), ih, htot, Nat.add_assoc]

theorem length_items (l : List Item) : l.length ≤ (itemsText l).length := by
  induction l with
  | nil => simp
  | cons i l ih =>
    have : 1 ≤ (dec i.n).length := by
      cases h : dec i.n with
      | nil => exact absurd h (dec_ne_nil _)
      | cons c s => simp
    simp only [itemsText, List.flatMap_cons, List.length_append, List.length_cons] at ih ⊢
    omega

/-- Property C185, partial: a duration that is written with whole numbers and known units, and is not longer than 2^62 nanoseconds,
which are 146 years, is the sum of its parts.  (Left out: numbers that do not fit, fractions, signs.) -/
theorem C185_duration_partial (frac : Nat → Nat → Nat → Nat) (l : List Item) (hne : l ≠ []) (hu : ∀ i ∈ l, unitOf i.unit ≠ none)
    (ht : total l ≤ 2 ^ 62) : parseDuration frac (itemsText l) = some (total l) := by
  cases l with
  | nil => exact absurd rfl hne
  | cons i l =>
    have hloop := durLoop_items frac (i :: l) _ 0 (length_items (i :: l)) hu (by omega)
    rw [Nat.zero_add] at hloop
    have hbody : durBody frac false (itemsText (i :: l)) = some (total (i :: l)) := by
      unfold durBody
      rw [if_neg, if_neg]
      · rw [hloop]
        simp only [Bool.false_eq_true, if_false]
        rw [if_neg (by omega)]
      · intro h
        rw [List.isEmpty_iff] at h
        have := length_items (i :: l)
        rw [h] at this
        simp at this
      · intro h
        obtain ⟨k, hk⟩ : ∃ k, unitOf i.unit = some k := by
          cases h : unitOf i.unit with
          | none => exact absurd h (hu i List.mem_cons_self)
          | some k => exact ⟨k, rfl⟩
        obtain ⟨_, h2, h3⟩ := unitOf_spec hk
        have hx : ∀ c ∈ i.unit, c ∈ itemsText (i :: l) := by
          intro c hc
          simp [itemsText, hc]
        cases hui : i.unit with
        | nil => exact h3 hui
        | cons c u =>
          have := hx c (by rw [hui]; exact List.mem_cons_self)
          rw [h, List.mem_singleton] at this
          have h2 := h2 c (by rw [hui]; exact List.mem_cons_self)
          rw [this] at h2
          exact absurd h2 (by decide)
    have hd := itemsText_head (i :: l)
    unfold parseDuration
    split
    · rename_i s e; rw [e] at hd; exact absurd (hd '-' rfl) (by decide)
    · rename_i s e; rw [e] at hd; exact absurd (hd '+' rfl) (by decide)
    · exact hbody

/-! ## Attributes -/

/-- The parameter `tag`. -/
def tagText : List (Str × Str) → Str
  | [] => []
  | [(k, v)] => k ++ ':' :: v
  | (k, v) :: l => (k ++ ':' :: v) ++ ',' :: tagText l

/-- Neither a colon nor a comma. -/
def Simple (s : Str) : Prop := ':' ∉ s ∧ ',' ∉ s

instance (s : Str) : Decidable (Simple s) := by unfold Simple; infer_instance

theorem tagPieces {l : List (Str × Str)} (hne : l ≠ []) (h : ∀ e ∈ l, Simple e.1 ∧ Simple e.2) :
    splitOn ',' (tagText l) = l.map fun e => e.1 ++ ':' :: e.2 := by
  have hno : ∀ e : Str × Str, Simple e.1 ∧ Simple e.2 → ',' ∉ e.1 ++ ':' :: e.2 := by
    intro e he
    simp only [List.mem_append, List.mem_cons, not_or]
    exact ⟨he.1.2, by decide, he.2.2⟩
  induction l with
  | nil => exact absurd rfl hne
  | cons e l ih =>
    obtain ⟨k, v⟩ := e
    have he := hno (k, v) (h _ List.mem_cons_self)
    cases l with
    | nil => rw [tagText, splitOn_none he]; rfl
    | cons e' l =>
      rw [tagText, splitOn_at he, ih (by simp) fun x hx => h x (List.mem_cons_of_mem _ hx)]
      · rfl
      · simp

/-- Property C185, partial: attributes without colons and commas are those that are asked for. -/
theorem C185_tag_partial {l : List (Str × Str)} (hne : l ≠ []) (h : ∀ e ∈ l, Simple e.1 ∧ Simple e.2) :
    tagMap (tagText l) = l.foldl (fun m e => m.set e.1 e.2) AMap.empty := by
  unfold tagMap
  rw [tagPieces hne h, List.foldl_map]
  have : ∀ (l : List (Str × Str)) (m : AMap Str Str), (∀ e ∈ l, Simple e.1 ∧ Simple e.2) →
      l.foldl (fun m e => match splitOn ':' (e.1 ++ ':' :: e.2) with
        | [k, v] => m.set k v
        | _ => m) m = l.foldl (fun m e => m.set e.1 e.2) m := by
    intro l
    induction l with
    | nil => intro m _; rfl
    | cons e l ih =>
      intro m h
      have he := h e List.mem_cons_self
      simp only [List.foldl_cons]
      rw [splitOn_at he.1.1, splitOn_none he.2.1]
      exact ih _ fun x hx => h x (List.mem_cons_of_mem _ hx)
  exact this l AMap.empty h

/-- Property C185: a search panics if a piece of `tags` between commas is not an object. -/
theorem C185_tags_panics {obj : Str → Option (List (Str × Str))} {m : AMap Str Str} {s x : Str} (hx : x ∈ splitOn ',' s)
    (hn : obj x = none) : tagsMap obj m s = none := by
  unfold tagsMap
  have none_stays : ∀ l : List Str, l.foldl (fun (m : Option (AMap Str Str)) item => match m, obj item with
    | some m, some l => some (l.foldl (fun m e => m.set e.1 e.2) m)
    | _, _ => none) none = none := by
    intro l
    induction l with
    | nil => rfl
    | cons y l ih => exact ih
  generalize splitOn ',' s = l at hx
  generalize some m = o
  induction l generalizing o with
  | nil => cases hx
  | cons y l ih =>
    rw [List.foldl_cons]
    rcases List.mem_cons.mp hx with rfl | hx
    · rw [hn]
      cases o <;>
      exact none_stays l
    · exact ih hx _

/-! ## The filter -/

/-- Property C185, partial: every condition of a search is met by the rows that are found: service, operation, start and
attributes exactly. -/
theorem C185_filter_partial {q : Find} {r : Row} (h : q.holds r = true) :
    (∀ s, q.service = some s → s ≠ [] → r.cells.get serviceCol = some (.str s)) ∧
    (∀ s, q.operation = some s → s ≠ [] → r.cells.get opCol = some (.str s)) ∧
    (∀ t, q.start = some t → -(2 ^ 63) ≤ t * 1000 → t * 1000 < 2 ^ 63 → t * 1000 ≤ r.time) ∧
    (∀ k v, q.tags.get k = some v → r.cells.get (spanAttrs ++ k) = some (.str v)) ∧
    (∀ d n, q.min = some d → r.cells.get durationCol = some (.num n) → d ≤ 2 ^ 53 → n.natAbs ≤ 2 ^ 53 → (d : Int) ≤ n) ∧
    (∀ d n, q.max = some d → r.cells.get durationCol = some (.num n) → d ≤ 2 ^ 53 → n.natAbs ≤ 2 ^ 53 → n ≤ d) := by
  unfold Find.holds at h
  simp only [Bool.and_eq_true] at h
  obtain ⟨⟨⟨⟨⟨⟨h1, h2⟩, h3⟩, -⟩, h5⟩, h6⟩, h7⟩ := h
  refine ⟨fun s hs hne => ?_, fun s hs hne => ?_, fun t ht hlo hhi => ?_, fun k v hkv => ?_, fun d n hd hn hs hs' => ?_,
    fun d n hd hn hs hs' => ?_⟩
  · rw [hs] at h1
    simpa [isText, hne] using h1
  · rw [hs] at h2
    simpa [isText, hne] using h2
  · rw [ht] at h3
    have h3 : wrap64 (t * 1000) ≤ r.time := of_decide_eq_true h3
    unfold wrap64 at h3
    omega
  · rw [List.all_eq_true] at h5
    have := h5 (k, v) (AMap.mem_entries.mpr hkv)
    simpa [isText] using this
  · rw [hd, hn] at h6
    simp only [decide_eq_true_eq] at h6
    rwa [Repair.f64OfNat_small hs, Repair.f64OfInt_small hs'] at h6
  · rw [hd, hn] at h7
    simp only [decide_eq_true_eq] at h7
    rwa [Repair.f64OfNat_small hs, Repair.f64OfInt_small hs'] at h7

/-- A search without conditions finds every row. -/
theorem C185_all (r : Row) : (⟨none, none, none, none, AMap.empty, none, none⟩ : Find).holds r = true := by
  simp only [Find.holds, Bool.and_eq_true, and_true, true_and]
  rfl

end Verif.Jaeger
