import Verif.Predicate.Visitor
import Verif.Predicate.DomainLemmas
import Mathlib.Tactic.Tauto
/-! # Lemmas: domains and column domains -/
namespace Verif.Predicate

variable {α : Type} [LinearOrder α]

/-- The type of a column: an ordered data type or boolean. -/
inductive CTy where
  | ord (ty : Nat)
  | bool
deriving DecidableEq

def Sc.ty : Sc α → CTy
  | .ord t _ => .ord t
  | .bool _ => .bool

/-- Well-formed domain of type `t`. -/
def DomOk (t : CTy) : Domain α → Prop
  | .all => True
  | .none => True
  | .range ty rs => t = .ord ty ∧ Sep rs
  | .equ _ _ => t = .bool

/-- Ends consistent with `K`. -/
def DomCons (K : α → Prop) : Domain α → Prop
  | .range _ rs => ConsL K rs
  | _ => True

theorem ofRangeList_mem (ty : Nat) (rs : List (Range α)) (x : Option (Sc α)) :
    (Domain.ofRangeList ty rs).Mem x ↔ (Domain.range ty (ofRanges rs)).Mem x := by
  unfold Domain.ofRangeList
  cases h : ofRanges rs with
  | nil =>
    simp only
    rcases x with _ | x
    · simp [Domain.Mem]
    · cases x <;> simp [Domain.Mem]
  | cons a l => rfl

theorem ofRangeList_ok (ty : Nat) {rs : List (Range α)} (hp : ∀ r ∈ rs, Proper r) :
    DomOk (.ord ty) (Domain.ofRangeList ty rs) := by
  have h := (ofRanges_spec rs hp).1
  unfold Domain.ofRangeList
  split
  · trivial
  · exact ⟨rfl, h⟩

theorem ofRangeList_cons {K : α → Prop} (ty : Nat) {rs : List (Range α)} (hp : ∀ r ∈ rs, Proper r)
    (hc : ConsL K rs) : DomCons K (Domain.ofRangeList ty rs) := by
  have h := consL_ofRanges hp hc
  unfold Domain.ofRangeList
  split
  · trivial
  · exact h

theorem range_mem {ty : Nat} {rs : List (Range α)} {x : Option (Sc α)} :
    (Domain.range ty rs).Mem x ↔ ∃ v, x = some (.ord ty v) ∧ AnyMem rs v := by
  rcases x with _ | x
  · simp [Domain.Mem]
  · cases x with
    | ord t v =>
      simp only [Domain.Mem, Option.some.injEq, Sc.ord.injEq]
      constructor
      · rintro ⟨h, h'⟩; exact ⟨v, ⟨h.symm, rfl⟩, h'⟩
      · rintro ⟨w, ⟨h, rfl⟩, h'⟩; exact ⟨h.symm, h'⟩
    | bool b => simp [Domain.Mem]

/-! ### One comparison -/

theorem rangesOf_proper (op : CmpOp) (v : α) : ∀ r ∈ rangesOf op v, Proper r := by
  intro r hr
  cases op <;> simp only [rangesOf, List.mem_cons, List.not_mem_nil, or_false] at hr
  · subst hr; exact ⟨by simp [IsLow], by simp [IsHigh], le_refl _⟩
  · rcases hr with rfl | rfl
    · exact ⟨trivial, by simp [IsHigh], (bot_lt_pt v).le⟩
    · exact ⟨by simp [IsLow], trivial, (pt_lt_top v).le⟩
  · subst hr; exact ⟨trivial, by simp [IsHigh], (bot_lt_pt v).le⟩
  · subst hr; exact ⟨trivial, by simp [IsHigh], (bot_lt_pt v).le⟩
  · subst hr; exact ⟨by simp [IsLow], trivial, (pt_lt_top v).le⟩
  · subst hr; exact ⟨by simp [IsLow], trivial, (pt_lt_top v).le⟩

/-- The operators that exclude the compared value. -/
def CmpOp.strict : CmpOp → Prop
  | .ne | .lt | .gt => True
  | _ => False

theorem rangesOf_cons (op : CmpOp) (v : α) {K : α → Prop} (h : op.strict ↔ K v) :
    ConsL K (rangesOf op v) := by
  intro r hr
  cases op <;> simp only [rangesOf, List.mem_cons, List.not_mem_nil, or_false] at hr <;>
    simp only [CmpOp.strict, true_iff, false_iff] at h
  · subst hr; simp [Cons, h]
  · rcases hr with rfl | rfl <;> simp [Cons, h]
  all_goals subst hr; simp [Cons, h]

theorem rangesOf_any (op : CmpOp) (v x : α) :
    AnyMem (rangesOf op v) x ↔ ordCmp op x v = true := by
  cases op <;> simp only [rangesOf, AnyMem, List.mem_cons, List.not_mem_nil, or_false,
    exists_eq_left, exists_eq_or_imp, Range.Mem, Marker.admitsAbove, Marker.admitsBelow, ordCmp,
    decide_eq_true_eq, true_and, and_true]
  · constructor
    · rintro ⟨h1, h2⟩; exact le_antisymm h2 h1
    · rintro rfl; exact ⟨le_refl _, le_refl _⟩
  · constructor
    · rintro (h | h)
      · exact h.ne
      · exact h.ne'
    · intro h; exact lt_or_gt_of_ne h

/-- The consistent function for a single value. -/
theorem rangesOf_exact (op : CmpOp) (v x : α) :
    AnyMem (ofRanges (rangesOf op v)) x ↔ ordCmp op x v = true := by
  rw [← rangesOf_any]
  exact ofRanges_exact (rangesOf_proper op v) (rangesOf_cons op v (K := fun _ => op.strict) Iff.rfl) x

/-- Comparisons on booleans are only understood for `=` and `<>`. -/
def opFits (op : CmpOp) : Sc α → Prop
  | .bool _ => op = .eq ∨ op = .ne
  | .ord _ _ => True

theorem domOf_ok (op : CmpOp) (v : Sc α) : DomOk v.ty (domOf op v) := by
  cases v with
  | ord ty v => exact ofRangeList_ok ty (rangesOf_proper op v)
  | bool b => rfl

/-- Strictness of the comparison agrees with `K`. -/
def opCons (K : α → Prop) (op : CmpOp) : Sc α → Prop
  | .ord _ v => op.strict ↔ K v
  | .bool _ => True

theorem domOf_cons {K : α → Prop} (op : CmpOp) (v : Sc α) (h : opCons K op v) :
    DomCons K (domOf op v) := by
  cases v with
  | ord ty v => exact ofRangeList_cons ty (rangesOf_proper op v) (rangesOf_cons op v h)
  | bool b => trivial

theorem domOf_mem (op : CmpOp) (v x : Sc α) (hf : opFits op v) :
    (domOf op v).Mem (some x) ↔ scCmp op x v = some true := by
  cases v with
  | ord ty v =>
    unfold domOf
    rw [ofRangeList_mem, range_mem]
    cases x with
    | ord t x =>
      simp only [Option.some.injEq, Sc.ord.injEq, scCmp]
      constructor
      · rintro ⟨w, ⟨rfl, rfl⟩, h⟩
        simp [(rangesOf_exact op v x).1 h]
      · intro h
        split at h
        · rename_i ht
          refine ⟨x, ⟨ht, rfl⟩, (rangesOf_exact op v x).2 ?_⟩
          simpa using h
        · cases h
    | bool b => simp [scCmp]
  | bool b =>
    cases x with
    | ord t x => simp [domOf, Domain.Mem, scCmp]
    | bool c =>
      rcases hf with rfl | rfl
      · cases b <;> cases c <;> simp [domOf, Domain.Mem, scCmp]
      · cases b <;> cases c <;> simp [domOf, Domain.Mem, scCmp]

/-! ### Intersection and union of domains -/

theorem Domain.inter_ok {t : CTy} {a b : Domain α} (ha : DomOk t a) (hb : DomOk t b) :
    DomOk t (a.inter b) := by
  cases a with
  | all => cases b <;> first | exact hb | trivial
  | none => cases b <;> trivial
  | range t1 r1 =>
    cases b with
    | all => exact ha
    | none => trivial
    | equ w e => exact trivial
    | range t2 r2 =>
      obtain ⟨h1, h1'⟩ := ha
      obtain ⟨h2, h2'⟩ := hb
      have : t1 = t2 := by rw [h1] at h2; cases h2; rfl
      simp only [Domain.inter, if_pos this]
      rw [h1]
      exact ofRangeList_ok t1 (proper_intersect h1' h2')
  | equ w e =>
    cases b with
    | all => exact ha
    | none => trivial
    | range t2 r2 => trivial
    | equ w' e' => cases w <;> cases w' <;> exact ha

theorem Domain.inter_cons {t : CTy} {K : α → Prop} {a b : Domain α} (ha : DomOk t a)
    (hb : DomOk t b) (ca : DomCons K a) (cb : DomCons K b) : DomCons K (a.inter b) := by
  cases a with
  | all => cases b <;> first | exact cb | trivial
  | none => cases b <;> trivial
  | range t1 r1 =>
    cases b with
    | all => exact ca
    | none => trivial
    | equ w e => exact trivial
    | range t2 r2 =>
      obtain ⟨h1, h1'⟩ := ha
      obtain ⟨h2, h2'⟩ := hb
      have : t1 = t2 := by rw [h1] at h2; cases h2; rfl
      simp only [Domain.inter, if_pos this]
      exact ofRangeList_cons t1 (proper_intersect h1' h2') (consL_intersect h1' h2' ca cb)
  | equ w e =>
    cases b with
    | all => exact ca
    | none => trivial
    | range t2 r2 => trivial
    | equ w' e' => cases w <;> cases w' <;> trivial

theorem valueIntersect_mem (w1 : Bool) (e1 : List Bool) (w2 : Bool) (e2 : List Bool)
    (x : Option (Sc α)) : (valueIntersect w1 e1 w2 e2 : Domain α).Mem x ↔
      (Domain.equ w1 e1 : Domain α).Mem x ∧ (Domain.equ w2 e2 : Domain α).Mem x := by
  rcases x with _ | x
  · cases w1 <;> cases w2 <;> simp [valueIntersect, Domain.Mem]
  · cases x with
    | ord t v => cases w1 <;> cases w2 <;> simp [valueIntersect, Domain.Mem]
    | bool b =>
      cases w1 <;> cases w2 <;>
        simp only [valueIntersect, Domain.Mem, List.mem_filter, List.contains_iff_mem,
          List.mem_append, Bool.not_eq_true', if_true, Bool.false_eq_true, if_false,
          ← Bool.not_eq_true, not_or] <;> tauto

theorem valueUnion_mem (w1 : Bool) (e1 : List Bool) (w2 : Bool) (e2 : List Bool)
    (x : Option (Sc α)) : (valueUnion w1 e1 w2 e2 : Domain α).Mem x ↔
      (Domain.equ w1 e1 : Domain α).Mem x ∨ (Domain.equ w2 e2 : Domain α).Mem x := by
  rcases x with _ | x
  · cases w1 <;> cases w2 <;> simp [valueUnion, Domain.Mem]
  · cases x with
    | ord t v => cases w1 <;> cases w2 <;> simp [valueUnion, Domain.Mem]
    | bool b =>
      cases w1 <;> cases w2 <;>
        simp only [valueUnion, Domain.Mem, List.mem_filter, List.contains_iff_mem,
          List.mem_append, Bool.not_eq_true', if_true, Bool.false_eq_true, if_false,
          ← Bool.not_eq_true] <;> tauto

theorem Domain.inter_sound {t : CTy} {a b : Domain α} (ha : DomOk t a) (hb : DomOk t b)
    {x : Option (Sc α)} (h1 : a.Mem x) (h2 : b.Mem x) : (a.inter b).Mem x := by
  cases a with
  | all => cases b <;> first | exact h2 | trivial
  | none => exact absurd h1 (by cases x <;> exact id)
  | range t1 r1 =>
    cases b with
    | all => exact h1
    | none => exact absurd h2 (by cases x <;> exact id)
    | equ w e => obtain ⟨h, _⟩ := ha; rw [hb] at h; cases h
    | range t2 r2 =>
      obtain ⟨k1, k1'⟩ := ha
      obtain ⟨k2, k2'⟩ := hb
      have : t1 = t2 := by rw [k1] at k2; cases k2; rfl
      simp only [Domain.inter, if_pos this]
      rw [ofRangeList_mem, range_mem]
      obtain ⟨v, rfl, hv⟩ := range_mem.1 h1
      obtain ⟨v', e, hv'⟩ := range_mem.1 h2
      cases e
      exact ⟨v, rfl, intersect_sound k1' k2' v hv hv'⟩
  | equ w e =>
    cases b with
    | all => exact h1
    | none => exact absurd h2 (by cases x <;> exact id)
    | range t2 r2 => obtain ⟨h, _⟩ := hb; rw [ha] at h; cases h
    | equ w' e' => exact (valueIntersect_mem w e w' e' x).2 ⟨h1, h2⟩

theorem Domain.inter_upper {t : CTy} {K : α → Prop} {a b : Domain α} (ha : DomOk t a)
    (hb : DomOk t b) (ca : DomCons K a) (cb : DomCons K b)
    {x : Option (Sc α)} (h : (a.inter b).Mem x) : a.Mem x ∧ b.Mem x := by
  cases a with
  | all =>
    cases b with
    | none => exact absurd h (by cases x <;> exact id)
    | _ => exact ⟨by trivial, h⟩
  | none => exact absurd h (by cases b <;> cases x <;> exact id)
  | range t1 r1 =>
    cases b with
    | all => exact ⟨h, by trivial⟩
    | none => exact absurd h (by cases x <;> exact id)
    | equ w e => obtain ⟨h, _⟩ := ha; rw [hb] at h; cases h
    | range t2 r2 =>
      obtain ⟨k1, k1'⟩ := ha
      obtain ⟨k2, k2'⟩ := hb
      have : t1 = t2 := by rw [k1] at k2; cases k2; rfl
      simp only [Domain.inter, if_pos this] at h
      rw [ofRangeList_mem, range_mem] at h
      obtain ⟨v, rfl, hv⟩ := h
      have := intersect_upper k1' k2' ca cb v hv
      rw [range_mem, range_mem]
      subst t1
      exact ⟨⟨v, rfl, this.1⟩, ⟨v, rfl, this.2⟩⟩
  | equ w e =>
    cases b with
    | all => exact ⟨h, by trivial⟩
    | none => exact absurd h (by cases x <;> exact id)
    | range t2 r2 => obtain ⟨h, _⟩ := hb; rw [ha] at h; cases h
    | equ w' e' => exact (valueIntersect_mem w e w' e' x).1 h

theorem append_proper {r1 r2 : List (Range α)} (h1 : Sep r1) (h2 : Sep r2) :
    ∀ r ∈ r1 ++ r2, Proper r := by
  intro r hr
  rcases List.mem_append.1 hr with h | h
  · exact h1.ok r h
  · exact h2.ok r h

theorem append_cons {K : α → Prop} {r1 r2 : List (Range α)} (h1 : ConsL K r1) (h2 : ConsL K r2) :
    ConsL K (r1 ++ r2) := by
  intro r hr
  rcases List.mem_append.1 hr with h | h
  · exact h1 r h
  · exact h2 r h

theorem Domain.union_ok {t : CTy} {a b : Domain α} (ha : DomOk t a) (hb : DomOk t b) :
    DomOk t (a.union b) := by
  cases a with
  | all => cases b <;> trivial
  | none => cases b <;> exact hb
  | range t1 r1 =>
    cases b with
    | all => trivial
    | none => exact ha
    | equ w e => exact trivial
    | range t2 r2 =>
      obtain ⟨h1, h1'⟩ := ha
      obtain ⟨h2, h2'⟩ := hb
      have : t1 = t2 := by rw [h1] at h2; cases h2; rfl
      simp only [Domain.union, if_pos this]
      rw [h1]
      exact ofRangeList_ok t1 (append_proper h1' h2')
  | equ w e =>
    cases b with
    | all => trivial
    | none => exact ha
    | range t2 r2 => trivial
    | equ w' e' => cases w <;> cases w' <;> exact ha

theorem Domain.union_cons {t : CTy} {K : α → Prop} {a b : Domain α} (ha : DomOk t a)
    (hb : DomOk t b) (ca : DomCons K a) (cb : DomCons K b) : DomCons K (a.union b) := by
  cases a with
  | all => cases b <;> trivial
  | none => cases b <;> exact cb
  | range t1 r1 =>
    cases b with
    | all => trivial
    | none => exact ca
    | equ w e => exact trivial
    | range t2 r2 =>
      obtain ⟨h1, h1'⟩ := ha
      obtain ⟨h2, h2'⟩ := hb
      have : t1 = t2 := by rw [h1] at h2; cases h2; rfl
      simp only [Domain.union, if_pos this]
      exact ofRangeList_cons t1 (append_proper h1' h2') (append_cons ca cb)
  | equ w e =>
    cases b with
    | all => trivial
    | none => exact ca
    | range t2 r2 => trivial
    | equ w' e' => cases w <;> cases w' <;> trivial

theorem Domain.union_exact {t : CTy} {K : α → Prop} {a b : Domain α} (ha : DomOk t a)
    (hb : DomOk t b) (ca : DomCons K a) (cb : DomCons K b) (x : Option (Sc α)) :
    (a.union b).Mem x ↔ a.Mem x ∨ b.Mem x := by
  have hall : (Domain.all : Domain α).Mem x ↔ True := by cases x <;> exact Iff.rfl
  have hnone : (Domain.none : Domain α).Mem x ↔ False := by cases x <;> exact Iff.rfl
  cases a with
  | all => cases b <;> simp only [Domain.union, hall, true_or]
  | none => cases b <;> simp only [Domain.union, hnone, false_or]
  | range t1 r1 =>
    cases b with
    | all => simp only [Domain.union, hall, or_true]
    | none => simp only [Domain.union, hnone, or_false]
    | equ w e => obtain ⟨h, _⟩ := ha; rw [hb] at h; cases h
    | range t2 r2 =>
      obtain ⟨k1, k1'⟩ := ha
      obtain ⟨k2, k2'⟩ := hb
      have : t1 = t2 := by rw [k1] at k2; cases k2; rfl
      simp only [Domain.union, if_pos this]
      rw [ofRangeList_mem, range_mem, range_mem, range_mem]
      subst t1
      constructor
      · rintro ⟨v, e, hv⟩
        rw [ofRanges_exact (append_proper k1' k2') (append_cons ca cb), anyMem_append] at hv
        rcases hv with hv | hv
        · exact Or.inl ⟨v, e, hv⟩
        · exact Or.inr ⟨v, e, hv⟩
      · rintro (⟨v, e, hv⟩ | ⟨v, e, hv⟩)
        · refine ⟨v, e, ?_⟩
          rw [ofRanges_exact (append_proper k1' k2') (append_cons ca cb), anyMem_append]
          exact Or.inl hv
        · refine ⟨v, e, ?_⟩
          rw [ofRanges_exact (append_proper k1' k2') (append_cons ca cb), anyMem_append]
          exact Or.inr hv
  | equ w e =>
    cases b with
    | all => simp only [Domain.union, hall, or_true]
    | none => simp only [Domain.union, hnone, or_false]
    | range t2 r2 => obtain ⟨h, _⟩ := hb; rw [ha] at h; cases h
    | equ w' e' => exact valueUnion_mem w e w' e' x

/-! ### Column domains -/

/-- Every column's domain has that column's type. -/
def CdOk (T : Nat → CTy) (cd : ColumnDomains α) : Prop := ∀ m, cd = some m → ∀ e ∈ m, DomOk (T e.1) e.2
def CdCons (K : Nat → α → Prop) (cd : ColumnDomains α) : Prop :=
  ∀ m, cd = some m → ∀ e ∈ m, DomCons (K e.1) e.2

theorem get_mem {m : List (Nat × Domain α)} {c : Nat} {d : Domain α}
    (h : ColumnDomains.get m c = some d) : (c, d) ∈ m := by
  unfold ColumnDomains.get at h
  cases hf : m.find? (fun e => e.1 = c) with
  | none => rw [hf] at h; cases h
  | some e =>
    rw [hf] at h
    have h1 := List.find?_some hf
    have h2 := List.mem_of_find?_eq_some hf
    simp only [decide_eq_true_eq] at h1
    simp only [Option.map_some, Option.some.injEq] at h
    rw [← h1, ← h]
    exact h2

/-- Any property of (column, domain) pairs that intersection keeps survives a step. -/
theorem interStep_all (P : Nat → Domain α → Prop)
    (hP : ∀ c a b, P c a → P c b → P c (a.inter b)) {m : List (Nat × Domain α)}
    {e : Nat × Domain α} (hm : ∀ x ∈ m, P x.1 x.2) (he : P e.1 e.2) :
    ∀ x ∈ ColumnDomains.interStep m e, P x.1 x.2 := by
  intro x hx
  unfold ColumnDomains.interStep at hx
  split at hx
  · obtain ⟨y, hy, rfl⟩ := List.mem_map.1 hx
    split
    · rename_i h; exact hP _ _ _ (hm y hy) (by rw [h]; exact he)
    · exact hm y hy
  · rcases List.mem_append.1 hx with h | h
    · exact hm x h
    · rw [List.mem_singleton.1 h]; exact he

theorem inter_all (P : Nat → Domain α → Prop)
    (hP : ∀ c a b, P c a → P c b → P c (a.inter b)) {m1 m2 : List (Nat × Domain α)}
    (h1 : ∀ x ∈ m1, P x.1 x.2) (h2 : ∀ x ∈ m2, P x.1 x.2) :
    ∀ x ∈ m2.foldl ColumnDomains.interStep m1, P x.1 x.2 := by
  induction m2 generalizing m1 with
  | nil => exact h1
  | cons e m2 ih =>
    exact ih (interStep_all P hP h1 (h2 e (by simp))) (fun x hx => h2 x (by simp [hx]))

theorem cdInter_ok {T : Nat → CTy} {a b : ColumnDomains α} (ha : CdOk T a) (hb : CdOk T b) :
    CdOk T (ColumnDomains.inter a b) := by
  intro m hm
  cases a with
  | none => cases b <;> cases hm
  | some m1 =>
    cases b with
    | none => cases hm
    | some m2 =>
      cases hm
      exact inter_all (fun c d => DomOk (T c) d) (fun c a b => Domain.inter_ok) (ha _ rfl) (hb _ rfl)

theorem cdInter_cons {T : Nat → CTy} {K : Nat → α → Prop} {a b : ColumnDomains α} (ha : CdOk T a)
    (hb : CdOk T b) (ca : CdCons K a) (cb : CdCons K b) : CdCons K (ColumnDomains.inter a b) := by
  intro m hm
  cases a with
  | none => cases b <;> cases hm
  | some m1 =>
    cases b with
    | none => cases hm
    | some m2 =>
      cases hm
      intro e he
      exact (inter_all (fun c d => DomOk (T c) d ∧ DomCons (K c) d)
        (fun c a b h1 h2 => ⟨Domain.inter_ok h1.1 h2.1, Domain.inter_cons h1.1 h2.1 h1.2 h2.2⟩)
        (fun e he => ⟨ha _ rfl e he, ca _ rfl e he⟩) (fun e he => ⟨hb _ rfl e he, cb _ rfl e he⟩)
        e he).2

theorem cdInter_sound {T : Nat → CTy} {a b : ColumnDomains α} (ha : CdOk T a) (hb : CdOk T b)
    {ρ : Row α} (h1 : Accepts a ρ) (h2 : Accepts b ρ) : Accepts (ColumnDomains.inter a b) ρ := by
  cases a with
  | none => cases b <;> exact h1
  | some m1 =>
    cases b with
    | none => exact h2
    | some m2 =>
      intro e he
      exact (inter_all (fun c d => DomOk (T c) d ∧ d.Mem (ρ.col c))
        (fun c a b h1 h2 => ⟨Domain.inter_ok h1.1 h2.1, Domain.inter_sound h1.1 h2.1 h1.2 h2.2⟩)
        (fun e he => ⟨ha _ rfl e he, h1 e he⟩) (fun e he => ⟨hb _ rfl e he, h2 e he⟩) e he).2

theorem cdInter_upper {T : Nat → CTy} {K : Nat → α → Prop} {a b : ColumnDomains α} (ha : CdOk T a)
    (hb : CdOk T b) (ca : CdCons K a) (cb : CdCons K b) {ρ : Row α}
    (h : Accepts (ColumnDomains.inter a b) ρ) : Accepts a ρ ∧ Accepts b ρ := by
  cases a with
  | none => cases b <;> exact h.elim
  | some m1 =>
    cases b with
    | none => exact h.elim
    | some m2 =>
      have h1 := ha _ rfl
      have h2 := hb _ rfl
      have h3 := ca _ rfl
      have h4 := cb _ rfl
      clear ha hb ca cb
      replace h : Accepts (some (m2.foldl ColumnDomains.interStep m1)) ρ := h
      induction m2 generalizing m1 with
      | nil => exact ⟨h, by intro e he; simp at he⟩
      | cons e m2 ih =>
        have he1 := h2 e (by simp)
        have he3 := h4 e (by simp)
        have hok := interStep_all (fun c d => DomOk (T c) d ∧ DomCons (K c) d)
          (fun c a b h1 h2 => ⟨Domain.inter_ok h1.1 h2.1, Domain.inter_cons h1.1 h2.1 h1.2 h2.2⟩)
          (m := m1) (e := e) (fun e he => ⟨h1 e he, h3 e he⟩) ⟨he1, he3⟩
        obtain ⟨k1, k2⟩ := ih (m1 := ColumnDomains.interStep m1 e)
          (fun x hx => (hok x hx).1) (fun x hx => h2 x (by simp [hx]))
          (fun x hx => (hok x hx).2) (fun x hx => h4 x (by simp [hx])) h
        have key : (∀ x ∈ m1, x.2.Mem (ρ.col x.1)) ∧ e.2.Mem (ρ.col e.1) := by
          have k1' : ∀ x ∈ ColumnDomains.interStep m1 e, x.2.Mem (ρ.col x.1) := k1
          unfold ColumnDomains.interStep at k1'
          split at k1'
          · rename_i d hd
            have hmap : ∀ x ∈ m1, x.1 = e.1 → x.2.Mem (ρ.col x.1) ∧ e.2.Mem (ρ.col e.1) := by
              intro x hx hxe
              have := k1' (x.1, x.2.inter e.2) (List.mem_map.2 ⟨x, hx, by rw [if_pos hxe]⟩)
              have h1x := h1 x hx
              have h3x := h3 x hx
              have := Domain.inter_upper h1x (by rw [hxe]; exact he1) h3x (by rw [hxe]; exact he3) this
              exact ⟨this.1, by rw [← hxe]; exact this.2⟩
            constructor
            · intro x hx
              by_cases hxe : x.1 = e.1
              · exact (hmap x hx hxe).1
              · exact k1' x (List.mem_map.2 ⟨x, hx, by rw [if_neg hxe]⟩)
            · exact (hmap (e.1, d) (get_mem hd) rfl).2
          · exact ⟨fun x hx => k1' x (List.mem_append.2 (Or.inl hx)),
              k1' e (List.mem_append.2 (Or.inr (by simp)))⟩
        refine ⟨key.1, ?_⟩
        intro x hx
        rcases List.mem_cons.1 hx with rfl | hx
        · exact key.2
        · exact k2 x hx

theorem union_mem {m1 m2 : List (Nat × Domain α)} {x : Nat × Domain α}
    (hx : x ∈ m2.filterMap (fun e =>
      (ColumnDomains.get m1 e.1).map (fun v1 => (e.1, v1.union e.2)))) :
    ∃ v1 v2, (x.1, v1) ∈ m1 ∧ (x.1, v2) ∈ m2 ∧ x.2 = v1.union v2 := by
  obtain ⟨e, he, h⟩ := List.mem_filterMap.1 hx
  cases hg : ColumnDomains.get m1 e.1 with
  | none => rw [hg] at h; cases h
  | some v1 =>
    rw [hg] at h
    simp only [Option.map_some, Option.some.injEq] at h
    subst h
    exact ⟨v1, e.2, get_mem hg, he, rfl⟩

theorem cdUnion_ok {T : Nat → CTy} {a b : ColumnDomains α} (ha : CdOk T a) (hb : CdOk T b) :
    CdOk T (ColumnDomains.union a b) := by
  intro m hm
  cases a with
  | none =>
    cases b with
    | none => cases hm
    | some m2 => cases hm; exact hb _ rfl
  | some m1 =>
    cases b with
    | none => cases hm; exact ha _ rfl
    | some m2 =>
      cases hm
      intro e he
      obtain ⟨v1, v2, h1, h2, h3⟩ := union_mem he
      rw [h3]
      exact Domain.union_ok (ha _ rfl _ h1) (hb _ rfl _ h2)

theorem cdUnion_cons {T : Nat → CTy} {K : Nat → α → Prop} {a b : ColumnDomains α} (ha : CdOk T a)
    (hb : CdOk T b) (ca : CdCons K a) (cb : CdCons K b) : CdCons K (ColumnDomains.union a b) := by
  intro m hm
  cases a with
  | none =>
    cases b with
    | none => cases hm
    | some m2 => cases hm; exact cb _ rfl
  | some m1 =>
    cases b with
    | none => cases hm; exact ca _ rfl
    | some m2 =>
      cases hm
      intro e he
      obtain ⟨v1, v2, h1, h2, h3⟩ := union_mem he
      rw [h3]
      exact Domain.union_cons (ha _ rfl _ h1) (hb _ rfl _ h2) (ca _ rfl _ h1) (cb _ rfl _ h2)

theorem cdUnion_sound {T : Nat → CTy} {K : Nat → α → Prop} {a b : ColumnDomains α} (ha : CdOk T a)
    (hb : CdOk T b) (ca : CdCons K a) (cb : CdCons K b) {ρ : Row α}
    (h : Accepts a ρ ∨ Accepts b ρ) : Accepts (ColumnDomains.union a b) ρ := by
  cases a with
  | none =>
    cases b with
    | none => rcases h with h | h <;> exact h
    | some m2 => rcases h with h | h; exacts [h.elim, h]
  | some m1 =>
    cases b with
    | none => rcases h with h | h; exacts [h, h.elim]
    | some m2 =>
      intro e he
      obtain ⟨v1, v2, h1, h2, h3⟩ := union_mem he
      have k1 := ha _ rfl _ h1
      have k2 := hb _ rfl _ h2
      have k3 := ca _ rfl _ h1
      have k4 := cb _ rfl _ h2
      rw [h3, Domain.union_exact k1 k2 k3 k4]
      rcases h with h | h
      · exact Or.inl (h _ h1)
      · exact Or.inr (h _ h2)

theorem cdAll_ok (T : Nat → CTy) : CdOk T (ColumnDomains.all : ColumnDomains α) := by
  intro m hm e he
  cases hm
  simp at he
theorem cdAll_cons (K : Nat → α → Prop) : CdCons K (ColumnDomains.all : ColumnDomains α) := by
  intro m hm e he
  cases hm
  simp at he
theorem cdAll_accepts (ρ : Row α) : Accepts (ColumnDomains.all : ColumnDomains α) ρ := by
  intro e he
  simp at he

end Verif.Predicate
