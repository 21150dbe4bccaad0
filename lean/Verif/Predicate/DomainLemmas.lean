import Verif.Predicate.Domain
import Mathlib.Tactic.Order
import Mathlib.Order.WithBot
import Mathlib.Data.List.Basic
/-! Helper lemmas for value ranges. -/
namespace Verif.Predicate

variable {α : Type} [LinearOrder α]

/-- Position of a marker, forgetting its kind. -/
def Marker.val : Marker α → WithBot (WithTop α)
  | .neg => ⊥
  | .pos => ((⊤ : WithTop α) : WithBot (WithTop α))
  | .at v _ => ((v : WithTop α) : WithBot (WithTop α))

/-- A value as a position. -/
def pt (x : α) : WithBot (WithTop α) := ((x : WithTop α) : WithBot (WithTop α))

theorem pt_lt {x y : α} : pt x < pt y ↔ x < y := by simp [pt]
theorem pt_le {x y : α} : pt x ≤ pt y ↔ x ≤ y := by simp [pt]
theorem pt_eq {x y : α} : pt x = pt y ↔ x = y := by
  unfold pt
  rw [WithBot.coe_inj, WithTop.coe_inj]

theorem bot_lt_pt (x : α) : (⊥ : WithBot (WithTop α)) < pt x := WithBot.bot_lt_coe _
theorem pt_lt_top (x : α) : pt x < ((⊤ : WithTop α) : WithBot (WithTop α)) :=
  WithBot.coe_lt_coe.2 (WithTop.coe_lt_top x)
theorem bot_lt_top' : (⊥ : WithBot (WithTop α)) < ((⊤ : WithTop α) : WithBot (WithTop α)) :=
  WithBot.bot_lt_coe _

theorem Marker.val_at (v : α) (b : Bd) : (Marker.at v b).val = pt v := rfl

theorem cmp_lt (a b : Marker α) : a.cmp b = .lt ↔ a.val < b.val := by
  cases a <;> cases b <;> simp only [Marker.cmp, Marker.val, reduceCtorEq, false_iff, true_iff, lt_irrefl, not_false_eq_true]
  · exact bot_lt_top'
  · exact bot_lt_pt _
  · exact not_lt.2 bot_lt_top'.le
  · exact not_lt.2 (pt_lt_top _).le
  · exact not_lt.2 (bot_lt_pt _).le
  · exact pt_lt_top _
  · rename_i v b w c
    show _ ↔ pt v < pt w
    rw [pt_lt]
    split
    · simp_all
    · split <;> simp_all

theorem cmp_eq (a b : Marker α) : a.cmp b = .eq ↔ a.val = b.val := by
  cases a <;> cases b <;> simp only [Marker.cmp, Marker.val, reduceCtorEq, false_iff, true_iff]
  · exact bot_lt_top'.ne
  · exact (bot_lt_pt _).ne
  · exact bot_lt_top'.ne'
  · exact (pt_lt_top _).ne'
  · exact (bot_lt_pt _).ne'
  · exact (pt_lt_top _).ne
  · rename_i v b w c
    show _ ↔ pt v = pt w
    rw [pt_eq]
    split
    · rename_i h; simp [h.ne]
    · split <;> simp_all

theorem cmp_gt (a b : Marker α) : a.cmp b = .gt ↔ b.val < a.val := by
  have h1 := cmp_lt a b
  have h2 := cmp_eq a b
  cases h : a.cmp b
  · rw [h] at h1; simp only [true_iff] at h1; simp [h1.le]
  · rw [h] at h2; simp only [true_iff] at h2; simp [h2]
  · rw [h] at h1 h2; simp only [reduceCtorEq, false_iff] at h1 h2
    simp only [true_iff]
    exact lt_of_le_of_ne (not_lt.1 h1) (Ne.symm h2)

theorem cmp_ne_gt (a b : Marker α) : a.cmp b ≠ .gt ↔ a.val ≤ b.val := by
  rw [Ne, cmp_gt, not_lt]

/-- The end belongs to the range. -/
def Marker.ex (m : Marker α) : Prop := m.bound = .exactly

def IsLow (m : Marker α) : Prop := match m with
  | .neg => True | .pos => False | .at _ b => b ≠ .below
def IsHigh (m : Marker α) : Prop := match m with
  | .neg => False | .pos => True | .at _ b => b ≠ .above

theorem low_above {m : Marker α} (h : IsLow m) : m.bound = .above ↔ ¬ m.ex := by
  cases m with
  | neg => simp [Marker.bound, Marker.ex]
  | pos => cases h
  | «at» v b => cases b <;> simp_all [Marker.bound, Marker.ex, IsLow]

theorem high_below {m : Marker α} (h : IsHigh m) : m.bound = .below ↔ ¬ m.ex := by
  cases m with
  | pos => simp [Marker.bound, Marker.ex]
  | neg => cases h
  | «at» v b => cases b <;> simp_all [Marker.bound, Marker.ex, IsHigh]

theorem admitsAbove_iff {m : Marker α} (h : IsLow m) (x : α) :
    m.admitsAbove x ↔ m.val < pt x ∨ (m.val = pt x ∧ m.ex) := by
  cases m with
  | neg => simp [Marker.admitsAbove, Marker.val, bot_lt_pt]
  | pos => cases h
  | «at» v b =>
    rw [Marker.val_at, pt_lt, pt_eq]
    cases b <;> simp_all [Marker.admitsAbove, Marker.ex, Marker.bound, IsLow, le_iff_lt_or_eq]

theorem admitsBelow_iff {m : Marker α} (h : IsHigh m) (x : α) :
    m.admitsBelow x ↔ pt x < m.val ∨ (m.val = pt x ∧ m.ex) := by
  cases m with
  | pos => exact iff_of_true trivial (Or.inl (pt_lt_top x))
  | neg => cases h
  | «at» v b =>
    rw [Marker.val_at, pt_lt, pt_eq]
    cases b <;> simp_all [Marker.admitsBelow, Marker.ex, Marker.bound, IsHigh, le_iff_lt_or_eq, eq_comm]

/-- A range whose lower end is a lower bound and not above its upper end. -/
structure Proper (r : Range α) : Prop where
  low : IsLow r.low
  high : IsHigh r.high
  le : r.low.val ≤ r.high.val

theorem mem_iff {r : Range α} (h : Proper r) (x : α) : r.Mem x ↔
    (r.low.val < pt x ∨ (r.low.val = pt x ∧ r.low.ex)) ∧
    (pt x < r.high.val ∨ (r.high.val = pt x ∧ r.high.ex)) := by
  unfold Range.Mem
  rw [admitsAbove_iff h.low, admitsBelow_iff h.high]

theorem overlaps_iff {a b : Range α} (ha : Proper a) (hb : Proper b) : a.overlaps b = true ↔
    a.low.val ≤ b.high.val ∧ b.low.val ≤ a.high.val ∧
    ¬ (a.high.val = b.low.val ∧ ¬ a.high.ex ∧ ¬ b.low.ex) := by
  unfold Range.overlaps
  rw [← high_below ha.high, ← low_above hb.low, ← cmp_eq, ← cmp_ne_gt, ← cmp_ne_gt]
  split
  · rename_i h
    simp only [Bool.not_eq_true', decide_eq_false_iff_not]
    tauto
  · rename_i h
    simp only [Bool.false_eq_true, false_iff]
    tauto

theorem max_cases (a b : Marker α) :
    (b.val < a.val ∧ Marker.max a b = a) ∨ (a.val ≤ b.val ∧ Marker.max a b = b) := by
  unfold Marker.max
  by_cases h : a.cmp b = .gt
  · left; rw [if_pos h]; exact ⟨(cmp_gt a b).1 h, rfl⟩
  · right; rw [if_neg h]; exact ⟨(cmp_ne_gt a b).1 h, rfl⟩

theorem min_cases (a b : Marker α) :
    (b.val < a.val ∧ Marker.min a b = b) ∨ (a.val ≤ b.val ∧ Marker.min a b = a) := by
  unfold Marker.min
  by_cases h : a.cmp b = .gt
  · left; rw [if_pos h]; exact ⟨(cmp_gt a b).1 h, rfl⟩
  · right; rw [if_neg h]; exact ⟨(cmp_ne_gt a b).1 h, rfl⟩

/-- `a` lies entirely before `b`. -/
def Before (a b : Range α) : Prop :=
  a.high.val < b.low.val ∨ (a.high.val = b.low.val ∧ ¬ a.high.ex ∧ ¬ b.low.ex)

theorem Before.le {a b : Range α} (h : Before a b) : a.high.val ≤ b.low.val := by
  rcases h with h | h
  · exact h.le
  · exact h.1.le

theorem Before.trans {a b c : Range α} (h1 : Before a b) (hb : Proper b) (h2 : Before b c) :
    Before a c := by
  have := hb.le
  rcases h1 with h1 | ⟨h1, h1', h1''⟩ <;> rcases h2 with h2 | ⟨h2, h2', h2''⟩
  · left; order
  · left; order
  · left; order
  · rcases lt_or_eq_of_le this with h | h
    · left; order
    · right; exact ⟨by rw [h1, h, h2], h1', h2''⟩

/-- Some range of the list contains `x`. -/
def AnyMem (l : List (Range α)) (x : α) : Prop := ∃ r ∈ l, r.Mem x

theorem anyMem_append (l m : List (Range α)) (x : α) :
    AnyMem (l ++ m) x ↔ AnyMem l x ∨ AnyMem m x := by
  unfold AnyMem
  constructor
  · rintro ⟨e, he, h⟩
    rcases List.mem_append.1 he with he | he
    · exact Or.inl ⟨e, he, h⟩
    · exact Or.inr ⟨e, he, h⟩
  · rintro (⟨e, he, h⟩ | ⟨e, he, h⟩)
    · exact ⟨e, List.mem_append_left _ he, h⟩
    · exact ⟨e, List.mem_append_right _ he, h⟩

theorem anyMem_cons (a : Range α) (l : List (Range α)) (x : α) :
    AnyMem (a :: l) x ↔ a.Mem x ∨ AnyMem l x := by
  unfold AnyMem; simp

/-- Coalesced, ascending ranges. -/
structure Sep (l : List (Range α)) : Prop where
  pw : l.Pairwise (fun a b => Before a b ∧ a.low.val < b.low.val)
  ok : ∀ r ∈ l, Proper r

theorem btInsert_last {acc : List (Range α)} {cur : Range α} (hs : Sep acc)
    (hb : ∀ a ∈ acc, Before a cur) :
    btInsert cur acc = acc ++ [cur] ∨
    ∃ init last, acc = init ++ [last] ∧ last.low.val = cur.low.val ∧
      btInsert cur acc = init ++ [cur] := by
  induction acc with
  | nil => left; rfl
  | cons e l ih =>
    have he := hb e (List.mem_cons_self ..)
    have hep := hs.ok e (List.mem_cons_self ..)
    have hle : e.low.val ≤ cur.low.val := le_trans hep.le he.le
    have hpw := List.pairwise_cons.1 hs.pw
    unfold btInsert
    rcases lt_or_eq_of_le hle with h | h
    · have hg : cur.low.cmp e.low = .gt := (cmp_gt _ _).2 h
      rw [hg]
      simp only
      rcases ih ⟨hpw.2, fun r hr => hs.ok r (List.mem_cons_of_mem _ hr)⟩
        (fun a ha => hb a (List.mem_cons_of_mem _ ha)) with h' | ⟨init, last, h1, h2, h3⟩
      · left; rw [h']; rfl
      · right; exact ⟨e :: init, last, by rw [h1]; rfl, h2, by rw [h3]; rfl⟩
    · have hg : cur.low.cmp e.low = .eq := (cmp_eq _ _).2 h.symm
      rw [hg]
      simp only
      have hl : l = [] := by
        cases l with
        | nil => rfl
        | cons b l =>
          have h1 := hpw.1 b (List.mem_cons_self ..)
          have h2 := hb b (List.mem_cons_of_mem _ (List.mem_cons_self ..))
          have h3 := hs.ok b (List.mem_cons_of_mem _ (List.mem_cons_self ..))
          have h4 := h2.le
          have h5 := h3.le
          have h6 := h1.2
          exfalso
          have : b.low.val ≤ cur.low.val := le_trans h5 h4
          rw [← h] at this
          exact absurd h6 (not_lt.2 this)
      right
      exact ⟨[], e, by rw [hl]; rfl, h, by rw [hl]; rfl⟩

theorem btInsert_spec {acc : List (Range α)} {cur : Range α} (hs : Sep acc) (hc : Proper cur)
    (hb : ∀ a ∈ acc, Before a cur) :
    Sep (btInsert cur acc) ∧ (∀ x, AnyMem (btInsert cur acc) x ↔ AnyMem acc x ∨ cur.Mem x) ∧
    (∀ r ∈ btInsert cur acc, r ∈ acc ∨ r = cur) := by
  have key : ∀ init : List (Range α), init.Sublist acc → (∀ a ∈ init, a.low.val < cur.low.val) →
      Sep (init ++ [cur]) := by
    intro init hsub hlt
    refine ⟨?_, ?_⟩
    · rw [List.pairwise_append]
      refine ⟨hs.pw.sublist hsub, List.pairwise_singleton _ _, ?_⟩
      intro a ha b hb'
      simp only [List.mem_singleton] at hb'
      subst hb'
      exact ⟨hb a (hsub.subset ha), hlt a ha⟩
    · intro r hr
      rcases List.mem_append.1 hr with hr | hr
      · exact hs.ok r (hsub.subset hr)
      · simp only [List.mem_singleton] at hr; subst hr; exact hc
  have hsing : ∀ x, AnyMem [cur] x ↔ cur.Mem x := by intro x; simp [AnyMem]
  rcases btInsert_last hs hb with h | ⟨init, last, h1, h2, h3⟩
  · by_cases hall : ∀ a ∈ acc, a.low.val < cur.low.val
    · rw [h]
      refine ⟨key acc (List.Sublist.refl _) hall, ?_, ?_⟩
      · intro x; rw [anyMem_append, hsing]
      · intro r hr
        rcases List.mem_append.1 hr with hr | hr
        · exact Or.inl hr
        · exact Or.inr (by simpa using hr)
    · -- an equal key would have been replaced
      exfalso
      push Not at hall
      obtain ⟨a, ha, hge⟩ := hall
      have hle : a.low.val ≤ cur.low.val := le_trans (hs.ok a ha).le (hb a ha).le
      have heq : a.low.val = cur.low.val := le_antisymm hle hge
      clear hge hle key
      induction acc with
      | nil => simp at ha
      | cons e l ih =>
        unfold btInsert at h
        have hpw := List.pairwise_cons.1 hs.pw
        rcases List.mem_cons.1 ha with rfl | ha
        · have hg : cur.low.cmp a.low = .eq := (cmp_eq _ _).2 heq.symm
          rw [hg] at h
          simp only [List.cons_append, List.cons.injEq] at h
          have := congrArg List.length h.2
          simp at this
        · have hlt := (hpw.1 a ha).2
          have hg : cur.low.cmp e.low = .gt := (cmp_gt _ _).2 (by rw [← heq]; exact hlt)
          rw [hg] at h
          simp only [List.cons_append, List.cons.injEq, true_and] at h
          exact ih ⟨hpw.2, fun r hr => hs.ok r (List.mem_cons_of_mem _ hr)⟩
            (fun a ha => hb a (List.mem_cons_of_mem _ ha)) h ha
  · have hpw := hs.pw
    rw [h1, List.pairwise_append] at hpw
    have hlastm : last ∈ acc := by rw [h1]; simp
    have hlp := hs.ok last hlastm
    have hlb := hb last hlastm
    rw [h3]
    refine ⟨key init (by rw [h1]; exact List.sublist_append_left ..) ?_, ?_, ?_⟩
    · intro a ha
      rw [← h2]
      exact (hpw.2.2 a ha last (by simp)).2
    · intro x
      rw [anyMem_append, hsing, h1, anyMem_append]
      have hno : ¬ AnyMem [last] x := by
        rintro ⟨r, hr, hm⟩
        simp only [List.mem_singleton] at hr
        subst hr
        rw [mem_iff hlp] at hm
        have hlow := hlp.le
        rcases hlb with hlb | ⟨h4, h5, _⟩
        · exact absurd (lt_of_le_of_lt hlow hlb) (by rw [h2]; exact lt_irrefl _)
        · have e1 : r.high.val = r.low.val := by rw [h4, h2]
          rcases hm.2 with h6 | h6
          · rw [e1] at h6
            rcases hm.1 with h7 | h7
            · exact absurd h6 (not_lt.2 h7.le)
            · rw [h7.1] at h6; exact absurd h6 (lt_irrefl _)
          · exact h5 h6.2
      constructor
      · rintro (h | h)
        · exact Or.inl (Or.inl h)
        · exact Or.inr h
      · rintro ((h | h) | h)
        · exact Or.inl h
        · exact absurd h hno
        · exact Or.inr h
    · intro r hr
      rcases List.mem_append.1 hr with hr | hr
      · left; rw [h1]; exact List.mem_append_left _ hr
      · exact Or.inr (by simpa using hr)

/-- Condition under which joining `a` with a later `b` loses nothing. -/
def Joinable (a b : Range α) : Prop :=
  (a.low.val = b.low.val → b.low.ex → a.low.ex) ∧ (a.high.val = b.high.val → a.high.ex → b.high.ex)

theorem span_spec {a b : Range α} (ha : Proper a) (hb : Proper b) (hle : a.low.val ≤ b.low.val)
    (ho : a.overlaps b = true) :
    (a.span b).low = a.low ∧ ((a.span b).high = a.high ∨ (a.span b).high = b.high) ∧
    Proper (a.span b) ∧ (∀ x, (a.span b).Mem x → a.Mem x ∨ b.Mem x) ∧
    (Joinable a b → ∀ x, a.Mem x ∨ b.Mem x → (a.span b).Mem x) := by
  have hlow : (a.span b).low = a.low := by
    unfold Range.span
    rcases min_cases a.low b.low with h | h
    · exact absurd h.1 (not_lt.2 hle)
    · exact h.2
  have hhigh : (b.high.val < a.high.val ∧ (a.span b).high = a.high) ∨
      (a.high.val ≤ b.high.val ∧ (a.span b).high = b.high) := max_cases a.high b.high
  obtain ⟨o1, o2, o3⟩ := (overlaps_iff ha hb).1 ho
  have hp : Proper (a.span b) := by
    rcases hhigh with ⟨h, h'⟩ | ⟨h, h'⟩
    · exact ⟨by rw [hlow]; exact ha.low, by rw [h']; exact ha.high, by rw [hlow, h']; exact ha.le⟩
    · exact ⟨by rw [hlow]; exact ha.low, by rw [h']; exact hb.high,
        by rw [hlow, h']; exact le_trans hle hb.le⟩
  refine ⟨hlow, ?_, hp, ?_, ?_⟩
  · rcases hhigh with h | h
    · exact Or.inl h.2
    · exact Or.inr h.2
  · intro x hx
    rw [mem_iff hp, hlow] at hx
    rw [mem_iff ha, mem_iff hb]
    by_cases hin : pt x < a.high.val ∨ (a.high.val = pt x ∧ a.high.ex)
    · exact Or.inl ⟨hx.1, hin⟩
    · right
      push Not at hin
      rcases hhigh with ⟨h, h'⟩ | ⟨h, h'⟩
      · rw [h'] at hx
        rcases hx.2 with h2 | h2
        · exact absurd h2 (not_lt.2 hin.1)
        · exact absurd h2.2 (hin.2 h2.1)
      · rw [h'] at hx
        refine ⟨?_, hx.2⟩
        rcases lt_or_eq_of_le (le_trans o2 hin.1) with h3 | h3
        · exact Or.inl h3
        · right
          refine ⟨h3, ?_⟩
          have e : a.high.val = b.low.val := le_antisymm (by rw [h3]; exact hin.1) o2
          by_contra hne
          exact o3 ⟨e, hin.2 (by rw [e, h3]), hne⟩
  · intro hj x hx
    rw [mem_iff hp, hlow]
    rw [mem_iff ha, mem_iff hb] at hx
    constructor
    · rcases hx with hx | hx
      · exact hx.1
      · rcases hx.1 with h | h
        · exact Or.inl (lt_of_le_of_lt hle h)
        · rcases lt_or_eq_of_le hle with h4 | h4
          · exact Or.inl (by rw [← h.1]; exact h4)
          · exact Or.inr ⟨by rw [h4]; exact h.1, hj.1 h4 h.2⟩
    · rcases hhigh with ⟨h, h'⟩ | ⟨h, h'⟩
      · rw [h']
        rcases hx with hx | hx
        · exact hx.2
        · rcases hx.2 with h5 | h5
          · exact Or.inl (lt_trans h5 h)
          · exact Or.inl (by rw [← h5.1]; exact h)
      · rw [h']
        rcases hx with hx | hx
        · rcases hx.2 with h5 | h5
          · exact Or.inl (lt_of_lt_of_le h5 h)
          · rcases lt_or_eq_of_le h with h6 | h6
            · exact Or.inl (by rw [← h5.1]; exact h6)
            · exact Or.inr ⟨by rw [← h6]; exact h5.1, hj.2 h6 h5.2⟩
        · exact hx.2

theorem not_overlaps_before {a b : Range α} (ha : Proper a) (hb : Proper b)
    (hle : a.low.val ≤ b.low.val) (ho : ¬ a.overlaps b = true) : Before a b := by
  rw [overlaps_iff ha hb] at ho
  unfold Before
  by_cases h : b.low.val ≤ a.high.val
  · right
    by_contra hc
    exact ho ⟨le_trans hle hb.le, h, hc⟩
  · left; exact not_le.1 h

theorem ofRangesLoop_spec (rest : List (Range α)) : ∀ (cur : Range α) (acc : List (Range α)),
    Sep acc → Proper cur → (∀ a ∈ acc, Before a cur) → (∀ r ∈ rest, Proper r) →
    (cur :: rest).Pairwise (fun a b => a.low.val ≤ b.low.val) →
    Sep (ofRangesLoop cur rest acc) ∧
    (∀ x, AnyMem (ofRangesLoop cur rest acc) x → AnyMem acc x ∨ AnyMem (cur :: rest) x) ∧
    ((cur :: rest).Pairwise Joinable →
      ∀ x, AnyMem acc x ∨ AnyMem (cur :: rest) x → AnyMem (ofRangesLoop cur rest acc) x) ∧
    (∀ r ∈ ofRangesLoop cur rest acc, r ∈ acc ∨
      ((∃ a ∈ cur :: rest, r.low = a.low) ∧ (∃ a ∈ cur :: rest, r.high = a.high))) := by
  induction rest with
  | nil =>
    intro cur acc hs hc hb _ _
    obtain ⟨h1, h2, h3⟩ := btInsert_spec hs hc hb
    unfold ofRangesLoop
    have hsing : ∀ x, AnyMem [cur] x ↔ cur.Mem x := by intro x; simp [AnyMem]
    refine ⟨h1, ?_, ?_, ?_⟩
    · intro x hx; rw [hsing]; exact (h2 x).1 hx
    · intro _ x hx; rw [hsing] at hx; exact (h2 x).2 hx
    · intro r hr
      rcases h3 r hr with h | h
      · exact Or.inl h
      · exact Or.inr ⟨⟨cur, by simp, by rw [h]⟩, ⟨cur, by simp, by rw [h]⟩⟩
  | cons next rest ih =>
    intro cur acc hs hc hb hp hsorted
    have hpn := hp next (List.mem_cons_self ..)
    have hpr : ∀ r ∈ rest, Proper r := fun r hr => hp r (List.mem_cons_of_mem _ hr)
    rw [List.pairwise_cons, List.pairwise_cons] at hsorted
    obtain ⟨hs1, hs2, hs3⟩ := hsorted
    have hcn := hs1 next (List.mem_cons_self ..)
    unfold ofRangesLoop
    by_cases ho : cur.overlaps next = true
    · rw [if_pos ho]
      obtain ⟨e1, e2, e3, e4, e5⟩ := span_spec hc hpn hcn ho
      have hb' : ∀ a ∈ acc, Before a (cur.span next) := by
        intro a ha
        have := hb a ha
        unfold Before at *
        rw [e1]; exact this
      have hsort' : ((cur.span next) :: rest).Pairwise (fun a b => a.low.val ≤ b.low.val) := by
        rw [List.pairwise_cons]
        exact ⟨fun r hr => by rw [e1]; exact hs1 r (List.mem_cons_of_mem _ hr), hs3⟩
      obtain ⟨i1, i2, i3, i4⟩ := ih (cur.span next) acc hs e3 hb' hpr hsort'
      refine ⟨i1, ?_, ?_, ?_⟩
      · intro x hx
        rcases i2 x hx with h | h
        · exact Or.inl h
        · right
          rw [anyMem_cons] at h
          rw [anyMem_cons, anyMem_cons]
          rcases h with h | h
          · rcases e4 x h with h | h
            · exact Or.inl h
            · exact Or.inr (Or.inl h)
          · exact Or.inr (Or.inr h)
      · intro hj x hx
        rw [List.pairwise_cons, List.pairwise_cons] at hj
        obtain ⟨j1, j2, j3⟩ := hj
        apply i3
        · rw [List.pairwise_cons]
          refine ⟨?_, j3⟩
          intro r hr
          have k1 := j1 r (List.mem_cons_of_mem _ hr)
          have k2 := j2 r hr
          refine ⟨by rw [e1]; exact k1.1, ?_⟩
          rcases e2 with e2 | e2
          · rw [e2]; exact k1.2
          · rw [e2]; exact k2.2
        · rw [anyMem_cons] at hx ⊢
          rw [anyMem_cons] at hx
          rcases hx with h | h | h | h
          · exact Or.inl h
          · exact Or.inr (Or.inl (e5 (j1 next (List.mem_cons_self ..)) x (Or.inl h)))
          · exact Or.inr (Or.inl (e5 (j1 next (List.mem_cons_self ..)) x (Or.inr h)))
          · exact Or.inr (Or.inr h)
      · intro r hr
        rcases i4 r hr with h | ⟨⟨a, ha, h⟩, ⟨b, hb, h'⟩⟩
        · exact Or.inl h
        · right
          constructor
          · rcases List.mem_cons.1 ha with rfl | ha
            · exact ⟨cur, by simp, by rw [h, e1]⟩
            · exact ⟨a, by simp [ha], h⟩
          · rcases List.mem_cons.1 hb with rfl | hb
            · rcases e2 with e2 | e2
              · exact ⟨cur, by simp, by rw [h', e2]⟩
              · exact ⟨next, by simp, by rw [h', e2]⟩
            · exact ⟨b, by simp [hb], h'⟩
    · rw [if_neg ho]
      have hbn := not_overlaps_before hc hpn hcn ho
      obtain ⟨b1, b2, b3⟩ := btInsert_spec hs hc hb
      have hb' : ∀ a ∈ btInsert cur acc, Before a next := by
        intro a ha
        rcases b3 a ha with h | h
        · exact (hb a h).trans hc hbn
        · rw [h]; exact hbn
      obtain ⟨i1, i2, i3, i4⟩ := ih next (btInsert cur acc) b1 hpn hb' hpr
        (by rw [List.pairwise_cons]; exact ⟨hs2, hs3⟩)
      refine ⟨i1, ?_, ?_, ?_⟩
      · intro x hx
        rw [anyMem_cons cur]
        rcases i2 x hx with h | h
        · rcases (b2 x).1 h with h | h
          · exact Or.inl h
          · exact Or.inr (Or.inl h)
        · exact Or.inr (Or.inr h)
      · intro hj x hx
        apply i3 (List.pairwise_cons.1 hj).2
        rw [anyMem_cons cur] at hx
        rcases hx with h | h | h
        · exact Or.inl ((b2 x).2 (Or.inl h))
        · exact Or.inl ((b2 x).2 (Or.inr h))
        · exact Or.inr h
      · intro r hr
        rcases i4 r hr with h | ⟨⟨a, ha, h⟩, ⟨b, hb, h'⟩⟩
        · rcases b3 r h with h | h
          · exact Or.inl h
          · exact Or.inr ⟨⟨cur, by simp, by rw [h]⟩, ⟨cur, by simp, by rw [h]⟩⟩
        · exact Or.inr ⟨⟨a, by simp [ha], h⟩, ⟨b, by simp [hb], h'⟩⟩

theorem sortByLow_perm (l : List (Range α)) : (sortByLow l).Perm l := Sort.sortBy_perm _ _

theorem sortByLow_sorted (l : List (Range α)) :
    (sortByLow l).Pairwise (fun a b => a.low.val ≤ b.low.val) := by
  have := Sort.sortBy_sorted (le := fun (a b : Range α) => decide (a.low.cmp b.low ≠ .gt))
    (by
      intro a b c h1 h2
      simp only [decide_eq_true_eq, cmp_ne_gt] at *
      exact le_trans h1 h2)
    (by
      intro a b
      simp only [decide_eq_true_eq, cmp_ne_gt]
      exact le_total _ _) l
  refine this.imp ?_
  intro a b h
  simpa only [decide_eq_true_eq, cmp_ne_gt] using h

theorem sortByLow_of_sorted {l : List (Range α)}
    (h : l.Pairwise (fun a b => a.low.val ≤ b.low.val)) : sortByLow l = l := by
  apply Sort.sortBy_of_sorted
  refine h.imp ?_
  intro a b hab
  simpa only [decide_eq_true_eq, cmp_ne_gt] using hab

theorem anyMem_perm {l m : List (Range α)} (h : l.Perm m) (x : α) : AnyMem l x ↔ AnyMem m x := by
  unfold AnyMem
  constructor
  · rintro ⟨r, hr, hm⟩; exact ⟨r, h.mem_iff.1 hr, hm⟩
  · rintro ⟨r, hr, hm⟩; exact ⟨r, h.mem_iff.2 hr, hm⟩

theorem ofRanges_spec (rs : List (Range α)) (hp : ∀ r ∈ rs, Proper r) :
    Sep (ofRanges rs) ∧ (∀ x, AnyMem (ofRanges rs) x → AnyMem rs x) ∧
    ((sortByLow rs).Pairwise Joinable → ∀ x, AnyMem rs x → AnyMem (ofRanges rs) x) ∧
    (∀ r ∈ ofRanges rs, (∃ a ∈ rs, r.low = a.low) ∧ (∃ a ∈ rs, r.high = a.high)) := by
  have hperm := sortByLow_perm rs
  have hsorted := sortByLow_sorted rs
  unfold ofRanges
  cases hs : sortByLow rs with
  | nil =>
    have : rs = [] := by rw [hs] at hperm; exact hperm.nil_eq.symm
    subst this
    exact ⟨⟨List.Pairwise.nil, by simp⟩, by simp, by simp, by simp⟩
  | cons cur rest =>
    rw [hs] at hperm hsorted
    simp only
    have hmem : ∀ r, r ∈ cur :: rest ↔ r ∈ rs := fun r => hperm.mem_iff
    obtain ⟨h1, h2, h3, h4⟩ := ofRangesLoop_spec rest cur [] ⟨List.Pairwise.nil, by simp⟩
      (hp cur ((hmem cur).1 (by simp))) (by simp)
      (fun r hr => hp r ((hmem r).1 (by simp [hr]))) hsorted
    refine ⟨h1, ?_, ?_, ?_⟩
    · intro x hx
      rcases h2 x hx with h | h
      · obtain ⟨r, hr, _⟩ := h; simp at hr
      · exact (anyMem_perm hperm x).1 h
    · intro hj x hx
      exact h3 hj x (Or.inr ((anyMem_perm hperm x).2 hx))
    · intro r hr
      rcases h4 r hr with h | ⟨⟨a, ha, h⟩, ⟨b, hb, h'⟩⟩
      · simp at h
      · exact ⟨⟨a, (hmem a).1 ha, h⟩, ⟨b, (hmem b).1 hb, h'⟩⟩

/-! ## Intersection -/

theorem inter_spec {a b : Range α} (ha : Proper a) (hb : Proper b) :
    (a.overlaps b = true → Proper (a.inter b)) ∧
    (∀ x, a.Mem x → b.Mem x → a.overlaps b = true ∧ (a.inter b).Mem x) ∧
    ((a.inter b).low = a.low ∨ (a.inter b).low = b.low) ∧
    ((a.inter b).high = a.high ∨ (a.inter b).high = b.high) := by
  have hlow : (b.low.val < a.low.val ∧ (a.inter b).low = a.low) ∨
      (a.low.val ≤ b.low.val ∧ (a.inter b).low = b.low) := max_cases a.low b.low
  have hhigh : (b.high.val < a.high.val ∧ (a.inter b).high = b.high) ∨
      (a.high.val ≤ b.high.val ∧ (a.inter b).high = a.high) := min_cases a.high b.high
  have hl := ha.le
  have hl' := hb.le
  have hproper : a.low.val ≤ b.high.val → b.low.val ≤ a.high.val → Proper (a.inter b) := by
    intro o1 o2
    refine ⟨?_, ?_, ?_⟩
    · rcases hlow with h | h <;> rw [h.2]
      · exact ha.low
      · exact hb.low
    · rcases hhigh with h | h <;> rw [h.2]
      · exact hb.high
      · exact ha.high
    · rcases hlow with h | h <;> rcases hhigh with h' | h' <;> rw [h.2, h'.2] <;> assumption
  refine ⟨?_, ?_, ?_, ?_⟩
  · intro ho
    obtain ⟨o1, o2, _⟩ := (overlaps_iff ha hb).1 ho
    exact hproper o1 o2
  · intro x hxa hxb
    rw [mem_iff ha] at hxa
    rw [mem_iff hb] at hxb
    have l1 : a.low.val ≤ pt x := by rcases hxa.1 with h | h; exacts [h.le, h.1.le]
    have l2 : pt x ≤ a.high.val := by rcases hxa.2 with h | h; exacts [h.le, h.1.ge]
    have l3 : b.low.val ≤ pt x := by rcases hxb.1 with h | h; exacts [h.le, h.1.le]
    have l4 : pt x ≤ b.high.val := by rcases hxb.2 with h | h; exacts [h.le, h.1.ge]
    have o1 : a.low.val ≤ b.high.val := le_trans l1 l4
    have o2 : b.low.val ≤ a.high.val := le_trans l3 l2
    constructor
    · rw [overlaps_iff ha hb]
      refine ⟨o1, o2, ?_⟩
      rintro ⟨h1, h2, h3⟩
      have e1 : a.high.val = pt x := le_antisymm (by rw [h1]; exact l3) l2
      rcases hxa.2 with h | h
      · rw [e1] at h; exact absurd h (lt_irrefl _)
      · exact h2 h.2
    · rw [mem_iff (hproper o1 o2)]
      constructor
      · rcases hlow with h | h <;> rw [h.2]
        · exact hxa.1
        · exact hxb.1
      · rcases hhigh with h | h <;> rw [h.2]
        · exact hxb.2
        · exact hxa.2
  · rcases hlow with h | h
    · exact Or.inl h.2
    · exact Or.inr h.2
  · rcases hhigh with h | h
    · exact Or.inr h.2
    · exact Or.inl h.2

/-- How two results of the intersection loop are placed. -/
def Placed (a b : Range α) : Prop :=
  a.high.val ≤ b.low.val ∧ (a.high.val = b.low.val → ¬ a.high.ex) ∧
  (a.low.val = b.low.val → b.low.ex → a.low.ex)

omit [LinearOrder α] in
theorem twoList_induct {P : List (Range α) → List (Range α) → Prop} (case1 : ∀ os, P [] os)
    (case2 : ∀ f fs, P (f :: fs) [])
    (case3 : ∀ f fs o os, P fs (o :: os) → P (f :: fs) os → P (f :: fs) (o :: os)) :
    ∀ fs os, P fs os := by
  intro fs
  induction fs with
  | nil => exact case1
  | cons f fs ih =>
    intro os
    induction os with
    | nil => exact case2 f fs
    | cons o os ih' => exact case3 f fs o os (ih _) ih'

theorem rangeIntersectLoop_cons (f : Range α) (fs : List (Range α)) (o : Range α)
    (os : List (Range α)) : rangeIntersectLoop (f :: fs) (o :: os) =
      if f.overlaps o = true then f.inter o ::
        (if f.high.cmp o.high ≠ .gt then rangeIntersectLoop fs (o :: os)
          else rangeIntersectLoop (f :: fs) os)
      else (if f.high.cmp o.high ≠ .gt then rangeIntersectLoop fs (o :: os)
          else rangeIntersectLoop (f :: fs) os) := by
  rw [rangeIntersectLoop]

theorem rangeIntersectLoop_mem : ∀ (fs os : List (Range α)) (r : Range α),
    r ∈ rangeIntersectLoop fs os → ∃ f ∈ fs, ∃ o ∈ os, f.overlaps o = true ∧ r = f.inter o := by
  intro fs os
  induction fs, os using twoList_induct with
  | case1 os => intro r hr; simp [rangeIntersectLoop] at hr
  | case2 f fs => intro r hr; simp [rangeIntersectLoop] at hr
  | case3 f fs o os ih1 ih2 =>
    intro r hr
    rw [rangeIntersectLoop_cons] at hr
    have hrest : r ∈ (if f.high.cmp o.high ≠ .gt then rangeIntersectLoop fs (o :: os)
        else rangeIntersectLoop (f :: fs) os) →
        ∃ f' ∈ f :: fs, ∃ o' ∈ o :: os, f'.overlaps o' = true ∧ r = f'.inter o' := by
      intro h
      split at h
      · rename_i hc
        obtain ⟨f', hf, o', ho, h'⟩ := ih1 r h
        exact ⟨f', List.mem_cons_of_mem _ hf, o', ho, h'⟩
      · rename_i hc
        obtain ⟨f', hf, o', ho, h'⟩ := ih2 r h
        exact ⟨f', hf, o', List.mem_cons_of_mem _ ho, h'⟩
    by_cases ho : f.overlaps o = true
    · rw [if_pos ho] at hr
      rcases List.mem_cons.1 hr with h | h
      · exact ⟨f, by simp, o, by simp, ho, h⟩
      · exact hrest h
    · rw [if_neg ho] at hr
      exact hrest hr

theorem rangeIntersectLoop_complete : ∀ (fs os : List (Range α)),
    fs.Pairwise Before → os.Pairwise Before → (∀ r ∈ fs, Proper r) → (∀ r ∈ os, Proper r) →
    ∀ x, AnyMem fs x → AnyMem os x → AnyMem (rangeIntersectLoop fs os) x := by
  intro fs os
  induction fs, os using twoList_induct with
  | case1 os => intro _ _ _ _ x ⟨r, hr, _⟩; simp at hr
  | case2 f fs => intro _ _ _ _ x _ ⟨r, hr, _⟩; simp at hr
  | case3 f fs o os ih1 ih2 =>
    intro p1 p2 q1 q2 x hx hy
    have hf := q1 f (List.mem_cons_self ..)
    have ho := q2 o (List.mem_cons_self ..)
    rw [List.pairwise_cons] at p1 p2
    rw [rangeIntersectLoop_cons]
    have hrest : AnyMem (if f.high.cmp o.high ≠ .gt then rangeIntersectLoop fs (o :: os)
        else rangeIntersectLoop (f :: fs) os) x → AnyMem (if f.overlaps o = true then f.inter o ::
        (if f.high.cmp o.high ≠ .gt then rangeIntersectLoop fs (o :: os)
          else rangeIntersectLoop (f :: fs) os) else
        (if f.high.cmp o.high ≠ .gt then rangeIntersectLoop fs (o :: os)
          else rangeIntersectLoop (f :: fs) os)) x := by
      intro h
      split
      · rw [anyMem_cons]; exact Or.inr h
      · exact h
    by_cases hc : f.Mem x ∧ o.Mem x
    · obtain ⟨h1, h2⟩ := (inter_spec hf ho).2.1 x hc.1 hc.2
      rw [if_pos h1, anyMem_cons]
      exact Or.inl h2
    · apply hrest
      rw [anyMem_cons] at hx hy
      have sep : ∀ {g : Range α} {gs : List (Range α)}, Proper g → (∀ a' ∈ gs, Before g a') →
          (∀ a' ∈ gs, Proper a') → AnyMem gs x → g.high.val ≤ pt x := by
        rintro g gs hg hb hp ⟨r, hr, hm⟩
        rw [mem_iff (hp r hr)] at hm
        have := (hb r hr).le
        rcases hm.1 with h | h
        · exact le_trans this h.le
        · rw [← h.1]; exact this
      by_cases hcmp : f.high.cmp o.high ≠ .gt
      · rw [if_pos hcmp]
        have hle := (cmp_ne_gt _ _).1 hcmp
        apply ih1 p1.2 (List.pairwise_cons.2 p2) (fun r hr => q1 r (List.mem_cons_of_mem _ hr)) q2
        · rcases hx with h | h
          · -- x in f but then x is not in o, so x is in a later o
            exfalso
            rcases hy with h' | h'
            · exact hc ⟨h, h'⟩
            · have h3 := sep ho p2.1 (fun r hr => q2 r (List.mem_cons_of_mem _ hr)) h'
              rw [mem_iff hf] at h
              rcases h.2 with h4 | h4
              · exact absurd (lt_of_lt_of_le h4 hle) (not_lt.2 h3)
              · -- x = f.high = o.high, closed at f; a later o starts strictly after or is open there
                obtain ⟨r, hr, hm⟩ := h'
                have hb := p2.1 r hr
                rw [mem_iff (q2 r (List.mem_cons_of_mem _ hr))] at hm
                have e : o.high.val = pt x := le_antisymm h3 (by rw [← h4.1]; exact hle)
                rcases hb with hb | hb
                · rcases hm.1 with h5 | h5
                  · rw [e] at hb; exact absurd h5 (not_lt.2 hb.le)
                  · rw [e, h5.1] at hb; exact absurd hb (lt_irrefl _)
                · rcases hm.1 with h5 | h5
                  · rw [← hb.1, e] at h5; exact absurd h5 (lt_irrefl _)
                  · exact hb.2.2 h5.2
          · exact h
        · rw [anyMem_cons]; exact hy
      · rw [if_neg hcmp]
        have hlt : o.high.val < f.high.val := by
          by_contra h; exact hcmp ((cmp_ne_gt _ _).2 (not_lt.1 h))
        apply ih2 (List.pairwise_cons.2 p1) p2.2 q1 (fun r hr => q2 r (List.mem_cons_of_mem _ hr))
        · rw [anyMem_cons]; exact hx
        · rcases hy with h | h
          · exfalso
            rcases hx with h' | h'
            · exact hc ⟨h', h⟩
            · have h3 := sep hf p1.1 (fun r hr => q1 r (List.mem_cons_of_mem _ hr)) h'
              rw [mem_iff ho] at h
              rcases h.2 with h4 | h4
              · exact absurd (lt_trans h4 hlt) (not_lt.2 h3)
              · rw [h4.1] at hlt; exact absurd hlt (not_lt.2 h3)
          · exact h

theorem rangeIntersectLoop_placed : ∀ (fs os : List (Range α)),
    fs.Pairwise Before → os.Pairwise Before → (∀ r ∈ fs, Proper r) → (∀ r ∈ os, Proper r) →
    (rangeIntersectLoop fs os).Pairwise Placed := by
  intro fs os
  induction fs, os using twoList_induct with
  | case1 os => intro _ _ _ _; simp [rangeIntersectLoop]
  | case2 f fs => intro _ _ _ _; simp [rangeIntersectLoop]
  | case3 f fs o os ih1 ih2 =>
    intro p1 p2 q1 q2
    have hf := q1 f (List.mem_cons_self ..)
    have ho := q2 o (List.mem_cons_self ..)
    have p1' := p1
    have p2' := p2
    rw [List.pairwise_cons] at p1 p2
    rw [rangeIntersectLoop_cons]
    by_cases hcmp : f.high.cmp o.high ≠ .gt
    · rw [if_pos hcmp]
      have hle := (cmp_ne_gt _ _).1 hcmp
      have ih := ih1 p1.2 p2' (fun r hr => q1 r (List.mem_cons_of_mem _ hr)) q2
      split
      · rename_i hov
        rw [List.pairwise_cons]
        refine ⟨?_, ih⟩
        intro b hb
        obtain ⟨f', hf', o', ho', hov', rfl⟩ := rangeIntersectLoop_mem _ _ _ hb
        have hbf := p1.1 f' hf'
        have hpf' := q1 f' (List.mem_cons_of_mem _ hf')
        have hpo' := q2 o' ho'
        have ha : Proper (f.inter o) := (inter_spec hf ho).1 hov
        have hhigh : (f.inter o).high = f.high := by
          rcases min_cases f.high o.high with h | h
          · exact absurd h.1 (not_lt.2 hle)
          · exact h.2
        have hlow' := max_cases f'.low o'.low
        have hlow := max_cases f.low o.low
        have hl1 : f'.low.val ≤ (f'.inter o').low.val := by
          rcases hlow' with h | h
          · show _ ≤ (Marker.max _ _).val; rw [h.2]
          · show _ ≤ (Marker.max _ _).val; rw [h.2]; exact h.1
        refine ⟨?_, ?_, ?_⟩
        · rw [hhigh]; exact le_trans hbf.le hl1
        · rw [hhigh]
          intro he
          rcases hbf with h | h
          · exact absurd (lt_of_lt_of_le h hl1) (by rw [he]; exact lt_irrefl _)
          · exact h.2.1
        · intro he hex
          have hale := ha.le
          rw [hhigh] at hale
          -- all of a.low, f.high, f'.low, b.low are at the same position
          have e1 : f.high.val = (f'.inter o').low.val :=
            le_antisymm (le_trans hbf.le hl1) (by rw [← he]; exact hale)
          have e2 : f'.low.val = f.high.val := le_antisymm (by rw [e1]; exact hl1) hbf.le
          have hnex : ¬ f'.low.ex := by
            rcases hbf with h | h
            · rw [e2] at h; exact absurd h (lt_irrefl _)
            · exact h.2.2
          rcases hlow' with h | h
          · exfalso
            have : (f'.inter o').low = f'.low := h.2
            rw [this] at hex; exact hnex hex
          · have e3 : (f'.inter o').low = o'.low := h.2
            rcases List.mem_cons.1 ho' with rfl | ho''
            · -- same o
              rcases hlow with h' | h'
              · exfalso
                have e4 : (f.inter o').low = f.low := h'.2
                have : o'.low.val = f.low.val := by rw [← e3, ← e4, he]
                rw [this] at h'; exact absurd h'.1 (lt_irrefl _)
              · have e4 : (f.inter o').low = o'.low := h'.2
                rw [e4]; rw [e3] at hex; exact hex
            · exfalso
              have hbo := p2.1 o' ho''
              rw [e3] at hex e1
              rcases hbo with h5 | h5
              · rw [← e1] at h5; exact absurd h5 (not_lt.2 hle)
              · exact h5.2.2 hex
      · exact ih
    · rw [if_neg hcmp]
      have hlt : o.high.val < f.high.val := by
        by_contra h; exact hcmp ((cmp_ne_gt _ _).2 (not_lt.1 h))
      have ih := ih2 p1' p2.2 q1 (fun r hr => q2 r (List.mem_cons_of_mem _ hr))
      split
      · rename_i hov
        rw [List.pairwise_cons]
        refine ⟨?_, ih⟩
        intro b hb
        obtain ⟨f', hf', o', ho', hov', rfl⟩ := rangeIntersectLoop_mem _ _ _ hb
        have hbo := p2.1 o' ho'
        have ha : Proper (f.inter o) := (inter_spec hf ho).1 hov
        have hhigh : (f.inter o).high = o.high := by
          rcases min_cases f.high o.high with h | h
          · exact h.2
          · exact absurd hlt (not_lt.2 h.1)
        have hlow' := max_cases f'.low o'.low
        have hl1 : o'.low.val ≤ (f'.inter o').low.val := by
          rcases hlow' with h | h
          · show _ ≤ (Marker.max _ _).val; rw [h.2]; exact h.1.le
          · show _ ≤ (Marker.max _ _).val; rw [h.2]
        refine ⟨?_, ?_, ?_⟩
        · rw [hhigh]; exact le_trans hbo.le hl1
        · rw [hhigh]
          intro he
          rcases hbo with h | h
          · exact absurd (lt_of_lt_of_le h hl1) (by rw [he]; exact lt_irrefl _)
          · exact h.2.1
        · intro he hex
          exfalso
          have hale := ha.le
          rw [hhigh] at hale
          have e1 : o.high.val = (f'.inter o').low.val :=
            le_antisymm (le_trans hbo.le hl1) (by rw [← he]; exact hale)
          have e2 : o'.low.val = o.high.val := le_antisymm (by rw [e1]; exact hl1) hbo.le
          rcases hlow' with h | h
          · have e3 : (f'.inter o').low = f'.low := h.2
            rw [← e3, ← e1, e2] at h
            exact absurd h.1 (lt_irrefl _)
          · have e3 : (f'.inter o').low = o'.low := h.2
            rw [e3] at hex
            rcases hbo with h5 | h5
            · rw [e2] at h5; exact absurd h5 (lt_irrefl _)
            · exact h5.2.2 hex
      · exact ih

theorem Sep.before {l : List (Range α)} (h : Sep l) : l.Pairwise Before :=
  h.pw.imp (fun hab => hab.1)

/-- Intersecting two coalesced range lists keeps every common value. -/
theorem intersect_sound {fs os : List (Range α)} (hf : Sep fs) (ho : Sep os) (x : α)
    (h1 : AnyMem fs x) (h2 : AnyMem os x) : AnyMem (ofRanges (rangeIntersectLoop fs os)) x := by
  have hpl := rangeIntersectLoop_placed fs os hf.before ho.before hf.ok ho.ok
  have hpr : ∀ r ∈ rangeIntersectLoop fs os, Proper r := by
    intro r hr
    obtain ⟨f, hf', o, ho', hov, rfl⟩ := rangeIntersectLoop_mem _ _ _ hr
    exact (inter_spec (hf.ok f hf') (ho.ok o ho')).1 hov
  have hsorted : (rangeIntersectLoop fs os).Pairwise (fun a b => a.low.val ≤ b.low.val) := by
    refine List.Pairwise.imp_of_mem ?_ hpl
    intro a b ha _ hab
    exact le_trans (hpr a ha).le hab.1
  refine (ofRanges_spec _ hpr).2.2.1 ?_ x
    (rangeIntersectLoop_complete fs os hf.before ho.before hf.ok ho.ok x h1 h2)
  rw [sortByLow_of_sorted hsorted]
  refine List.Pairwise.imp_of_mem ?_ hpl
  intro a b _ hb hab
  refine ⟨hab.2.2, ?_⟩
  intro he hex
  have : a.high.val = b.low.val := le_antisymm hab.1 (by rw [he]; exact (hpr b hb).le)
  exact absurd hex (hab.2.1 this)

/-! ## Consistent strictness -/

/-- Every end at `v` is strict exactly when `K v`. -/
def Cons (K : α → Prop) (m : Marker α) : Prop :=
  match m with
  | .at v b => b = .exactly ↔ ¬ K v
  | _ => True

def ConsL (K : α → Prop) (l : List (Range α)) : Prop := ∀ r ∈ l, Cons K r.low ∧ Cons K r.high

theorem cons_low {K : α → Prop} {a b : Marker α} (ha : Cons K a) (hb : Cons K b)
    (hla : IsLow a) (hlb : IsLow b) (h : a.val = b.val) : a.ex ↔ b.ex := by
  cases a with
  | pos => cases hla
  | neg =>
    cases b with
    | neg => rfl
    | pos => cases hlb
    | «at» w c => exact absurd h (bot_lt_pt w).ne
  | «at» v c =>
    cases b with
    | pos => cases hlb
    | neg => exact absurd h.symm (bot_lt_pt v).ne
    | «at» w d =>
      have : v = w := pt_eq.1 h
      subst this
      show c = .exactly ↔ d = .exactly
      exact ha.trans hb.symm

theorem cons_high {K : α → Prop} {a b : Marker α} (ha : Cons K a) (hb : Cons K b)
    (hla : IsHigh a) (hlb : IsHigh b) (h : a.val = b.val) : a.ex ↔ b.ex := by
  cases a with
  | neg => cases hla
  | pos =>
    cases b with
    | pos => rfl
    | neg => cases hlb
    | «at» w c => exact absurd h (pt_lt_top w).ne'
  | «at» v c =>
    cases b with
    | neg => cases hlb
    | pos => exact absurd h (pt_lt_top v).ne
    | «at» w d =>
      have : v = w := pt_eq.1 h
      subst this
      show c = .exactly ↔ d = .exactly
      exact ha.trans hb.symm

theorem consL_ofRanges {K : α → Prop} {rs : List (Range α)} (hp : ∀ r ∈ rs, Proper r)
    (h : ConsL K rs) : ConsL K (ofRanges rs) := by
  intro r hr
  obtain ⟨⟨a, ha, e1⟩, ⟨b, hb, e2⟩⟩ := (ofRanges_spec rs hp).2.2.2 r hr
  rw [e1, e2]
  exact ⟨(h a ha).1, (h b hb).2⟩

/-- With consistent strictness, coalescing is exact. -/
theorem ofRanges_exact {K : α → Prop} {rs : List (Range α)} (hp : ∀ r ∈ rs, Proper r)
    (h : ConsL K rs) (x : α) : AnyMem (ofRanges rs) x ↔ AnyMem rs x := by
  obtain ⟨_, h2, h3, _⟩ := ofRanges_spec rs hp
  refine ⟨h2 x, h3 ?_ x⟩
  apply List.pairwise_of_forall_mem_list
  intro a ha b hb
  have ha' := (sortByLow_perm rs).mem_iff.1 ha
  have hb' := (sortByLow_perm rs).mem_iff.1 hb
  refine ⟨fun he => (cons_low (h a ha').1 (h b hb').1 (hp a ha').low (hp b hb').low he).2,
    fun he => (cons_high (h a ha').2 (h b hb').2 (hp a ha').high (hp b hb').high he).1⟩

theorem consL_intersect {K : α → Prop} {fs os : List (Range α)} (hf : Sep fs) (ho : Sep os)
    (c1 : ConsL K fs) (c2 : ConsL K os) : ConsL K (rangeIntersectLoop fs os) := by
  intro r hr
  obtain ⟨f, hf', o, ho', hov, rfl⟩ := rangeIntersectLoop_mem _ _ _ hr
  obtain ⟨_, _, h3, h4⟩ := inter_spec (hf.ok f hf') (ho.ok o ho')
  constructor
  · rcases h3 with h | h <;> rw [h]
    · exact (c1 f hf').1
    · exact (c2 o ho').1
  · rcases h4 with h | h <;> rw [h]
    · exact (c1 f hf').2
    · exact (c2 o ho').2

/-- With consistent strictness, intersecting adds nothing. -/
theorem intersect_upper {K : α → Prop} {fs os : List (Range α)} (hf : Sep fs) (ho : Sep os)
    (c1 : ConsL K fs) (c2 : ConsL K os) (x : α)
    (h : AnyMem (ofRanges (rangeIntersectLoop fs os)) x) : AnyMem fs x ∧ AnyMem os x := by
  have hpr : ∀ r ∈ rangeIntersectLoop fs os, Proper r := by
    intro r hr
    obtain ⟨f, hf', o, ho', hov, rfl⟩ := rangeIntersectLoop_mem _ _ _ hr
    exact (inter_spec (hf.ok f hf') (ho.ok o ho')).1 hov
  obtain ⟨r, hr, hm⟩ := (ofRanges_spec _ hpr).2.1 x h
  have hpr' := hpr r hr
  obtain ⟨f, hf', o, ho', hov, rfl⟩ := rangeIntersectLoop_mem _ _ _ hr
  have pf := hf.ok f hf'
  have po := ho.ok o ho'
  rw [mem_iff hpr'] at hm
  have low : (f.low.val < pt x ∨ (f.low.val = pt x ∧ f.low.ex)) ∧
      (o.low.val < pt x ∨ (o.low.val = pt x ∧ o.low.ex)) := by
    rcases max_cases f.low o.low with h' | h'
    · have e : (f.inter o).low = f.low := h'.2
      rw [e] at hm
      refine ⟨hm.1, Or.inl ?_⟩
      rcases hm.1 with h6 | h6
      · exact lt_trans h'.1 h6
      · rw [← h6.1]; exact h'.1
    · have e : (f.inter o).low = o.low := h'.2
      rw [e] at hm
      refine ⟨?_, hm.1⟩
      rcases lt_or_eq_of_le h'.1 with h5 | h5
      · left
        rcases hm.1 with h6 | h6
        · exact lt_trans h5 h6
        · rw [← h6.1]; exact h5
      · rw [h5]
        rcases hm.1 with h6 | h6
        · exact Or.inl h6
        · exact Or.inr ⟨h6.1, (cons_low (c1 f hf').1 (c2 o ho').1 pf.low po.low h5).2 h6.2⟩
  have high : (pt x < f.high.val ∨ (f.high.val = pt x ∧ f.high.ex)) ∧
      (pt x < o.high.val ∨ (o.high.val = pt x ∧ o.high.ex)) := by
    rcases min_cases f.high o.high with h' | h'
    · have e : (f.inter o).high = o.high := h'.2
      rw [e] at hm
      refine ⟨Or.inl ?_, hm.2⟩
      rcases hm.2 with h6 | h6
      · exact lt_trans h6 h'.1
      · rw [← h6.1]; exact h'.1
    · have e : (f.inter o).high = f.high := h'.2
      rw [e] at hm
      refine ⟨hm.2, ?_⟩
      rcases lt_or_eq_of_le h'.1 with h5 | h5
      · left
        rcases hm.2 with h6 | h6
        · exact lt_trans h6 h5
        · rw [← h6.1]; exact h5
      · rw [← h5]
        rcases hm.2 with h6 | h6
        · exact Or.inl h6
        · exact Or.inr ⟨h6.1, (cons_high (c1 f hf').2 (c2 o ho').2 pf.high po.high h5).1 h6.2⟩
  exact ⟨⟨f, hf', (mem_iff pf x).2 ⟨low.1, high.1⟩⟩, ⟨o, ho', (mem_iff po x).2 ⟨low.2, high.2⟩⟩⟩

theorem proper_intersect {fs os : List (Range α)} (hf : Sep fs) (ho : Sep os) :
    ∀ r ∈ rangeIntersectLoop fs os, Proper r := by
  intro r hr
  obtain ⟨f, hf', o, ho', hov, rfl⟩ := rangeIntersectLoop_mem _ _ _ hr
  exact (inter_spec (hf.ok f hf') (ho.ok o ho')).1 hov

end Verif.Predicate
