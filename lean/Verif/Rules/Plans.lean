import Verif.Rules.Model
/-!
# The rules for `count`, `exact_count`, `topk` and `bottom`

Property C153: counting rows of a query counts all its rows.  Property C154: `topk` and `bottom` return the rows with the greatest
and least values.  Property C155: `exact_count` counts, whatever else is selected.
-/
namespace Verif.Rules

/-! ## Counts of literals -/

variable {R : Type}

/-- Property C153: the rule keeps the meaning of every plan. -/
def C153Full (R : Type) : Prop := ∀ (p : Plan R) (db : Nat → List R), ∃ q, countRule p = some q ∧ q.eval db = p.eval db

/-- The first inputs lead to a table, a join, or a relation of another kind with a provider, and to no union on the way. -/
def Plan.straight : Plan R → Bool
  | .scan _ _ => true
  | .leaf _ => false
  | .one _ p => p.straight
  | .agg _ _ p => p.straight
  | .union _ _ => false
  | .single p => p.straight
  | .join _ _ _ => true

/-- Below every count of literals the way down is straight. -/
def Plan.fine : Plan R → Bool
  | .scan _ _ => true
  | .leaf _ => true
  | .one _ p => p.fine
  | .agg l _ p => p.fine && (!l || p.straight)
  | .union a b => a.fine && b.fine
  | .single p => p.fine
  | .join _ a b => a.fine && b.fine

theorem descend_straight (db : Nat → List R) : ∀ {p : Plan R}, p.straight = true →
    (descend p = .no ∨ ∃ q, descend p = .yes q ∧ q.eval db = p.eval db ∧ q.straight = true)
  | .scan true t, _ => .inr ⟨_, rfl, rfl, rfl⟩
  | .scan false _, _ => .inl rfl
  | .leaf _, h => by cases h
  | .one f p, h => by
    rcases descend_straight db (p := p) h with h | ⟨q, h, he, hs⟩
    · exact .inl (by rw [descend, h]; rfl)
    · exact .inr ⟨.one f q, by rw [descend, h]; rfl, by simp only [Plan.eval, he], hs⟩
  | .agg l f p, h => by
    rcases descend_straight db (p := p) h with h | ⟨q, h, he, hs⟩
    · exact .inl (by rw [descend, h]; rfl)
    · exact .inr ⟨.agg l f q, by rw [descend, h]; rfl, by simp only [Plan.eval, he], hs⟩
  | .union _ _, h => by cases h
  | .single p, h => by
    rcases descend_straight db (p := p) h with h | ⟨q, h, he, hs⟩
    · exact .inl (by rw [descend, h]; rfl)
    · exact .inr ⟨.single q, by rw [descend, h]; rfl, by simp only [Plan.eval, he], hs⟩
  | .join _ _ _, _ => .inl rfl

/-- The rule on a node, if the way down is straight below a count of literals. -/
theorem countNode_fine (db : Nat → List R) (p : Plan R)
    (h : ∀ f q, p = .agg true f q → q.straight = true) :
    ∃ q, countNode p = some q ∧ q.eval db = p.eval db ∧ (p.straight = true → q.straight = true) := by
  cases p with
  | agg l f x =>
    cases l with
    | false => exact ⟨_, rfl, rfl, id⟩
    | true =>
      rcases descend_straight db (p := .agg true f x) (h f x rfl) with hd | ⟨q, hd, he, hs⟩
      · exact ⟨_, by rw [countNode, hd], rfl, id⟩
      · exact ⟨q, by rw [countNode, hd], he, fun _ => hs⟩
  | _ => exact ⟨_, rfl, rfl, id⟩

theorem countRule_fine (db : Nat → List R) : ∀ {p : Plan R}, p.fine = true →
    ∃ q, countRule p = some q ∧ q.eval db = p.eval db ∧ (p.straight = true → q.straight = true)
  | .scan _ _, _ => ⟨_, rfl, rfl, id⟩
  | .leaf _, _ => ⟨_, rfl, rfl, id⟩
  | .one f p, h => by
    obtain ⟨q, h1, h2, h3⟩ := countRule_fine db (p := p) h
    exact ⟨.one f q, by rw [countRule, h1]; rfl, by simp only [Plan.eval, h2], h3⟩
  | .agg l f p, h => by
    simp only [Plan.fine, Bool.and_eq_true, Bool.or_eq_true, Bool.not_eq_true'] at h
    obtain ⟨q, h1, h2, h3⟩ := countRule_fine db (p := p) h.1
    obtain ⟨r, h4, h5, h6⟩ := countNode_fine db (.agg l f q) (by
      intro g x e
      injection e with e1 e2 e3
      subst e1 e3
      exact h3 (h.2.resolve_left (by simp)))
    refine ⟨r, by rw [countRule, h1]; exact h4, by rw [h5]; simp only [Plan.eval, h2], fun hs => h6 (h3 hs)⟩
  | .union a b, h => by
    simp only [Plan.fine, Bool.and_eq_true] at h
    obtain ⟨x, h1, h2, _⟩ := countRule_fine db (p := a) h.1
    obtain ⟨y, h4, h5, _⟩ := countRule_fine db (p := b) h.2
    exact ⟨.union x y, by rw [countRule, h1, Option.bind_some, h4]; rfl, by simp only [Plan.eval, h2, h5], fun hs => nomatch hs⟩
  | .single p, h => by
    obtain ⟨q, h1, h2, h3⟩ := countRule_fine db (p := p) h
    exact ⟨.single q, by rw [countRule, h1]; rfl, by simp only [Plan.eval, h2], h3⟩
  | .join f a b, h => by
    simp only [Plan.fine, Bool.and_eq_true] at h
    obtain ⟨x, h1, h2, _⟩ := countRule_fine db (p := a) h.1
    obtain ⟨y, h4, h5, _⟩ := countRule_fine db (p := b) h.2
    exact ⟨.join f x y, by rw [countRule, h1, Option.bind_some, h4]; rfl, by simp only [Plan.eval, h2, h5], fun _ => rfl⟩

/-- Property C153, partial: the rule keeps the meaning of plans in which every count of literals stands, through nodes with one
input, on a table or a join.  Missing: counts of unions and of relations without a table (`C153_union_refuted`,
`C153_panic_refuted`). -/
theorem C153_count_partial {p : Plan R} (h : p.fine = true) (db : Nat → List R) : ∃ q, countRule p = some q ∧ q.eval db = p.eval db := by
  obtain ⟨q, h1, h2, _⟩ := countRule_fine db h
  exact ⟨q, h1, h2⟩

/-- `SELECT count(*) FROM (SELECT … FROM a UNION ALL SELECT … FROM b)`. -/
def countUnion : Plan Nat := .agg true (fun l => [l.length]) (.union (.scan true 0) (.scan true 1))

/-- Property C153 does not hold: only the first part of a union is counted. -/
theorem C153_union_refuted : ∃ q, countRule countUnion = some q ∧
    ∀ db : Nat → List Nat, q.eval db = [(db 0).length] ∧ countUnion.eval db = [(db 0).length + (db 1).length] :=
  ⟨.agg true (fun l => [l.length]) (.single (.scan true 0)), rfl, fun db => ⟨rfl, by simp [countUnion, Plan.eval]⟩⟩

/-- Property C153 does not hold: a count of a relation without a table, as in `SELECT count(*) FROM (VALUES (1), (2))` or
`SELECT count(*)`, panics. -/
theorem C153_panic_refuted (rows : List Nat) (f : List Nat → List Nat) : countRule (.agg true f (.leaf rows)) = none := rfl

/-- So the full property does not hold. -/
theorem C153_refuted : ¬ C153Full Nat := by
  intro h
  obtain ⟨q, h1, _⟩ := h (.agg true id (.leaf [])) (fun _ => [])
  cases h1

/-- A count of a count, of a join and of a table (`C153_count_partial`). -/
example : (Plan.agg true (fun l : List Nat => [l.length]) (.one (List.filter (· < 3)) (.agg true (fun l => [l.length]) (.scan true 0)))).fine = true ∧
    (Plan.agg true (fun l : List Nat => [l.length]) (.join (· ++ ·) (.union (.scan true 0) (.leaf [])) (.leaf [1]))).fine = true := by
  decide

/-! ## `topk` and `bottom` -/

theorem put_perm (le : R → R → Bool) (x : R) (l : List R) : (put le x l).Perm (x :: l) := by
  induction l with
  | nil => exact List.Perm.refl _
  | cons y l ih =>
    rw [put]
    split
    · exact List.Perm.refl _
    · exact (ih.cons y).trans (List.Perm.swap x y l)

theorem sort_perm (le : R → R → Bool) (l : List R) : (sort le l).Perm l := by
  induction l with
  | nil => exact List.Perm.refl _
  | cons x l ih => exact (put_perm le x _).trans (ih.cons x)

theorem put_sorted {le : R → R → Bool} (total : ∀ a b, le a b = true ∨ le b a = true) (trans : ∀ a b c, le a b = true → le b c = true → le a c = true)
    (x : R) {l : List R} (h : l.Pairwise fun a b => le a b = true) : (put le x l).Pairwise fun a b => le a b = true := by
  induction l with
  | nil => simp [put]
  | cons y l ih =>
    rw [List.pairwise_cons] at h
    rw [put]
    by_cases hxy : le x y = true
    · rw [if_pos hxy]
      rw [List.pairwise_cons]
      refine ⟨fun z hz => ?_, List.pairwise_cons.2 h⟩
      rcases List.mem_cons.1 hz with rfl | hz
      · exact hxy
      · exact trans x y z hxy (h.1 z hz)
    · rw [if_neg hxy, List.pairwise_cons]
      refine ⟨fun z hz => ?_, ih h.2⟩
      rcases List.mem_cons.1 ((put_perm le x l).mem_iff.1 hz) with rfl | hz
      · exact (total y z).resolve_right hxy
      · exact h.1 z hz

theorem sort_sorted {le : R → R → Bool} (total : ∀ a b, le a b = true ∨ le b a = true)
    (trans : ∀ a b c, le a b = true → le b c = true → le a c = true) (l : List R) : (sort le l).Pairwise fun a b => le a b = true := by
  induction l with
  | nil => exact List.Pairwise.nil
  | cons x l ih => exact put_sorted total trans x ih

theorem Sel.le_total (s : Sel) (a b : Option Int) : s.le a b = true ∨ s.le b a = true := by
  cases a with
  | none => exact .inr rfl
  | some a => cases b with
    | none => exact .inl rfl
    | some b => cases s <;> simp only [Sel.le, decide_eq_true_eq] <;> omega

theorem Sel.le_trans (s : Sel) (a b c : Option Int) (h1 : s.le a b = true) (h2 : s.le b c = true) : s.le a c = true := by
  cases a with
  | none => cases b with
    | none => cases c with
      | none => rfl
      | some c => cases h2
    | some b => cases h1
  | some a => cases c with
    | none => rfl
    | some c => cases b with
      | none => cases h2
      | some b => cases s <;> simp only [Sel.le, decide_eq_true_eq] at h1 h2 ⊢ <;> omega

/-- What is better for `topk` (greater) and for `bottom` (less); a null is worse than any value. -/
def Sel.atLeast (s : Sel) (a b : Option Int) : Prop :=
  match a, b with
  | _, none => True
  | none, some _ => False
  | some a, some b => if s = .topk then b ≤ a else a ≤ b

theorem Sel.le_iff (s : Sel) (a b : Option Int) : s.le a b = true ↔ s.atLeast a b := by
  cases a <;> cases b <;> cases s <;> simp [Sel.le, Sel.atLeast]

/-- Property C154: `topk` and `bottom` return `k` rows, or all if there are less; the rows that they do not return are the rest,
none of them better than one that is returned; and the best come first. -/
theorem C154_select (s : Sel) (value : R → Option Int) (k : Nat) (rows : List R) :
    (s.rows value k rows).length = min k rows.length ∧
    (∃ rest, (s.rows value k rows ++ rest).Perm rows ∧ ∀ a ∈ s.rows value k rows, ∀ b ∈ rest, s.atLeast (value a) (value b)) ∧
    (s.rows value k rows).Pairwise fun a b => s.atLeast (value a) (value b) := by
  have hp := sort_perm (fun a b => s.le (value a) (value b)) rows
  have hs := sort_sorted (le := fun a b => s.le (value a) (value b)) (fun a b => s.le_total _ _) (fun a b c => s.le_trans _ _ _) rows
  refine ⟨by rw [Sel.rows, List.length_take, hp.length_eq], ⟨(sort (fun a b => s.le (value a) (value b)) rows).drop k, ?_, ?_⟩, ?_⟩
  · rw [Sel.rows, List.take_append_drop]; exact hp
  · intro a ha b hb
    rw [← List.take_append_drop k (sort _ rows), List.pairwise_append] at hs
    exact (s.le_iff _ _).1 (hs.2.2 a ha b hb)
  · rw [← List.take_append_drop k (sort _ rows), List.pairwise_append] at hs
    exact hs.1.imp fun h => (s.le_iff _ _).1 h

/-- Property C154: a `k` is accepted if it is a number from 1 to 255. -/
theorem C154_k (v : Int) (k : Nat) : argK (.signed v) = some k ↔ (k : Int) = v ∧ 1 ≤ k ∧ k ≤ 255 := by
  rw [argK]
  split
  · rename_i h
    rw [Option.some.injEq]
    omega
  · rename_i h
    constructor
    · intro x; cases x
    · rintro ⟨h1, h2, h3⟩; omega

/-- Property C154: an unsigned `k` is accepted up to 255, zero included; what is not a number is refused. -/
theorem C154_k_unsigned (v k : Nat) : (argK (.unsigned v) = some k ↔ k = v ∧ k ≤ 255) ∧ argK .other = none := by
  refine ⟨?_, rfl⟩
  rw [argK]
  split
  · rw [Option.some.injEq]; omega
  · constructor
    · intro x; cases x
    · rintro ⟨h1, h2⟩; omega

/-- The two best of four rows, one of them null. -/
example : Sel.topk.rows (fun x : Nat × Option Int => x.2) 2 [(0, some 3), (1, none), (2, some 5), (3, some 4)] = [(2, some 5), (3, some 4)] ∧
    Sel.bottom.rows (fun x : Nat × Option Int => x.2) 9 [(0, some 3), (1, none), (2, some 5)] = [(0, some 3), (2, some 5), (1, none)] := by decide

/-! ## `exact_count` -/

/-- What a query means: every item is a group or an aggregate, by its position (groups first), with what it is. -/
def Query.at (q : Query) (n : String) : Option (String ⊕ Fn × String) :=
  if n ∈ q.groups then some (.inl n) else (q.aggs.find? fun a => decide (a.name = n)).map fun a => .inr (a.fn, a.arg)

/-- `exact_count` counts, and not from statistics. -/
def meant : String ⊕ Fn × String → String ⊕ Fn × String
  | .inr (.exactCount, x) => .inr (.count false, x)
  | y => y

/-- Property C155: every query that is valid, is valid after the rule, and every item means the same, `exact_count` being a count
that is not pushed down. -/
def C155Full : Prop := ∀ q : Query, q.valid = true → ∃ r, exactRule q = .ok r ∧ r.valid = true ∧
  r.items.map (fun i => r.at i.src) = q.items.map fun i => (q.at i.src).map meant

theorem isPrefixOf_append (l m : List Char) : l.isPrefixOf (l ++ m) = true := by
  induction l with
  | nil => rfl
  | cons x l ih => simp [ih]

theorem renamed_exact (x : String) : renamed ("exact_count" ++ x) = some ("COUNT" ++ x) := by
  have h : ("exact_count" ++ x).toList = "exact_count".toList ++ x.toList := by simp
  have h2 : "exact_count".toList.length = 11 := by decide
  rw [renamed, h, isPrefixOf_append, if_pos rfl, ← h2, List.drop_left]
  simp

/-- Names of aggregates that are not `exact_count`, and names of groups: not to be taken for it. -/
def Other (n : String) : Prop := renamed n = none

/-- A query of columns only, no name of which begins with `exact_count` but those of the aggregates of that name, and no
`count` beside an `exact_count` of the same argument. -/
structure Query.Plain (q : Query) : Prop where
  cols : ∀ i ∈ q.items, ∃ n, i = .col n
  groups : ∀ n ∈ q.groups, Other n
  aggs : ∀ a ∈ q.aggs, a.fn ≠ .exactCount → Other a.name
  apart : (q.groups ++ (q.aggs.map Agg.counted).map Agg.name).Nodup
  used : ∀ a ∈ q.aggs, a.fn = .exactCount → .col a.name ∈ q.items

theorem counted_exact {a : Agg} (h : a.fn = .exactCount) : a.name = "exact_count" ++ ("(" ++ a.arg ++ ")") ∧
    a.counted.name = "COUNT" ++ ("(" ++ a.arg ++ ")") ∧ a.counted = ⟨.count false, a.arg⟩ := by
  cases a with
  | mk fn arg => subst h; exact ⟨rfl, rfl, rfl⟩

theorem counted_other {a : Agg} (h : a.fn ≠ .exactCount) : a.counted = a := by
  cases a with
  | mk fn arg => cases fn <;> first | exact absurd rfl h | rfl

theorem find_name {l : List Agg} (h : (l.map Agg.name).Nodup) {a : Agg} (ha : a ∈ l) : (l.find? fun b => decide (b.name = a.name)) = some a := by
  induction l with
  | nil => cases ha
  | cons b l ih =>
    rw [List.map_cons, List.nodup_cons] at h
    rcases List.mem_cons.1 ha with rfl | ha
    · simp
    · have : b.name ≠ a.name := fun e => h.1 (e ▸ List.mem_map.2 ⟨a, ha, rfl⟩)
      rw [List.find?_cons_of_neg (by simpa using this)]
      exact ih h.2 ha

/-- The item of an aggregate, in a query with different names. -/
theorem at_agg {q : Query} (h : (q.groups ++ q.aggs.map Agg.name).Nodup) {a : Agg} (ha : a ∈ q.aggs) :
    q.at a.name = some (.inr (a.fn, a.arg)) := by
  rw [List.nodup_append] at h
  have : a.name ∉ q.groups := fun hg => h.2.2 _ hg _ (List.mem_map.2 ⟨a, ha, rfl⟩) rfl
  rw [Query.at, if_neg this, find_name h.2.1 ha]
  rfl

/-- The name of an item after the rule. -/
theorem renamed_agg {q : Query} (h : q.Plain) {a : Agg} (ha : a ∈ q.aggs) : (renamed a.name).getD a.name = a.counted.name := by
  by_cases he : a.fn = .exactCount
  · have := counted_exact he
    rw [this.1, renamed_exact, this.2.1]; rfl
  · have : renamed a.name = none := h.aggs a ha he
    rw [this, counted_other he]; rfl

/-- Property C155, partial: in a query that selects columns only, with names apart, every `exact_count` becomes a count that is not
pushed down, and everything else stays.  Missing: other items (`C155_alias_refuted`), groups with such names
(`C155_group_refuted`), a count beside (`C155_beside_refuted`). -/
theorem C155_exact_partial {q : Query} (hv : q.valid = true) (h : q.Plain) : ∃ r, exactRule q = .ok r ∧ r.valid = true ∧
    (∀ a ∈ r.aggs, a.fn ≠ .exactCount) ∧ r.items.map (fun i => r.at i.src) = q.items.map fun i => (q.at i.src).map meant := by
  have hv' := hv
  simp only [Query.valid, Bool.and_eq_true, decide_eq_true_eq, List.all_eq_true] at hv
  by_cases ha : (q.items.any fun i => i.renamed.isSome) = true
  · let r : Query := { q with items := q.items.map fun i => i.renamed.getD i, aggs := q.aggs.map Agg.counted }
    have hnd : (r.groups ++ r.aggs.map Agg.name).Nodup := h.apart
    -- an item and what becomes of it
    have item : ∀ i ∈ q.items, (i.renamed.getD i).src ∈ r.groups ++ r.aggs.map Agg.name ∧
        r.at (i.renamed.getD i).src = (q.at i.src).map meant := by
      intro i hi
      obtain ⟨n, rfl⟩ := h.cols i hi
      have hsrc : ((Item.col n).renamed.getD (.col n)).src = (renamed n).getD n := by
        simp only [Item.renamed]
        cases renamed n <;> rfl
      rw [hsrc]
      by_cases hg : n ∈ q.groups
      · have : renamed n = none := h.groups n hg
        rw [this]
        refine ⟨List.mem_append_left _ hg, ?_⟩
        have h1 : q.at n = some (.inl n) := by rw [Query.at, if_pos hg]
        have h2 : r.at n = some (.inl n) := by rw [Query.at, if_pos (show n ∈ r.groups from hg)]
        rw [Option.getD_none, h2]
        simp only [Item.src, h1, Option.map_some, meant]
      · have hn := hv.2 _ hi
        simp only [Item.src, List.mem_append, List.mem_map] at hn
        obtain ⟨a, haq, rfl⟩ := hn.resolve_left hg
        rw [renamed_agg h haq]
        have har : a.counted ∈ r.aggs := List.mem_map.2 ⟨a, haq, rfl⟩
        refine ⟨List.mem_append_right _ (List.mem_map.2 ⟨_, har, rfl⟩), ?_⟩
        rw [at_agg hnd har]
        simp only [Item.src, at_agg hv.1 haq, Option.map_some]
        by_cases he : a.fn = .exactCount
        · rw [(counted_exact he).2.2, he]; rfl
        · rw [counted_other he]
          cases a with
          | mk fn arg => cases fn <;> first | exact absurd rfl he | rfl
    have hrv : r.valid = true := by
      simp only [Query.valid, Bool.and_eq_true, decide_eq_true_eq, List.all_eq_true]
      refine ⟨hnd, ?_⟩
      intro i hi
      obtain ⟨j, hj, rfl⟩ := List.mem_map.1 hi
      exact (item j hj).1
    refine ⟨r, ?_, hrv, ?_, ?_⟩
    · rw [exactRule, if_pos ha]
      exact if_pos hrv
    · intro a har
      obtain ⟨b, _, rfl⟩ := List.mem_map.1 har
      by_cases he : b.fn = .exactCount
      · rw [(counted_exact he).2.2]; exact fun x => nomatch x
      · rw [counted_other he]; exact he
    · show (q.items.map fun i => i.renamed.getD i).map (fun i => r.at i.src) = _
      rw [List.map_map]
      apply List.map_congr_left
      intro i hi
      exact (item i hi).2
  · have hno : ∀ a ∈ q.aggs, a.fn ≠ .exactCount := by
      intro a haq he
      apply ha
      rw [List.any_eq_true]
      refine ⟨_, h.used a haq he, ?_⟩
      rw [Item.renamed, (counted_exact he).1, renamed_exact]; rfl
    refine ⟨q, by rw [exactRule, if_neg ha], hv', hno, ?_⟩
    apply List.map_congr_left
    intro i hi
    have hn := hv.2 _ hi
    rw [List.mem_append, List.mem_map] at hn
    by_cases hg : i.src ∈ q.groups
    · rw [Query.at, if_pos hg]; rfl
    · obtain ⟨a, haq, hs⟩ := hn.resolve_left hg
      rw [← hs, at_agg hv.1 haq]
      cases a with
      | mk fn arg => cases fn <;> first | exact absurd rfl (hno _ haq) | rfl

/-- `SELECT exact_count(a) AS n FROM t`. -/
def aliasQuery : Query := ⟨[.alias "exact_count(a)" "n"], [], [⟨.exactCount, "a"⟩]⟩
/-- `SELECT exact_count(a), exact_count(b) AS n FROM t`. -/
def mixedQuery : Query := ⟨[.col "exact_count(a)", .alias "exact_count(b)" "n"], [], [⟨.exactCount, "a"⟩, ⟨.exactCount, "b"⟩]⟩
/-- `SELECT exact_counter, max(a) FROM t GROUP BY exact_counter`. -/
def groupQuery : Query := ⟨[.col "exact_counter", .col "MAX(a)"], ["exact_counter"], [⟨.other "MAX", "a"⟩]⟩
/-- `SELECT count(a), exact_count(a) FROM t`. -/
def besideQuery : Query := ⟨[.col "COUNT(a)", .col "exact_count(a)"], [], [⟨.count true, "a"⟩, ⟨.exactCount, "a"⟩]⟩

/-- Property C155 does not hold: with another name, `exact_count` stays what it is; its own implementation is that of an average of
texts, which is not meant to be run.  With one that has another name and one that has not, the query is refused. -/
theorem C155_alias_refuted : aliasQuery.valid = true ∧ exactRule aliasQuery = .ok aliasQuery ∧
    mixedQuery.valid = true ∧ exactRule mixedQuery = .error () := by
  refine ⟨by decide +kernel, by with_unfolding_all rfl, by decide +kernel, by with_unfolding_all rfl⟩

/-- Property C155 does not hold: a query that groups by a column whose name begins with `exact_count` is refused. -/
theorem C155_group_refuted : groupQuery.valid = true ∧ exactRule groupQuery = .error () := by
  refine ⟨by decide +kernel, by with_unfolding_all rfl⟩

/-- Property C155 does not hold: `count` and `exact_count` of a column together are refused. -/
theorem C155_beside_refuted : besideQuery.valid = true ∧ exactRule besideQuery = .error () := by
  refine ⟨by decide +kernel, by with_unfolding_all rfl⟩

theorem C155_refuted : ¬ C155Full := by
  intro h
  obtain ⟨r, h1, _⟩ := h groupQuery C155_group_refuted.1
  rw [C155_group_refuted.2] at h1
  cases h1

/-- `SELECT g, exact_count(a), max(b) FROM t GROUP BY g` (`C155_exact_partial`). -/
def plainQuery : Query := ⟨[.col "g", .col "exact_count(a)", .col "MAX(b)"], ["g"], [⟨.exactCount, "a"⟩, ⟨.other "MAX", "b"⟩]⟩

example : plainQuery.valid = true ∧ plainQuery.Plain := by
  refine ⟨by decide +kernel, ⟨?_, ?_, ?_, by decide +kernel, ?_⟩⟩
  · intro i hi
    simp only [plainQuery, List.mem_cons, List.not_mem_nil, or_false] at hi
    rcases hi with rfl | rfl | rfl <;> exact ⟨_, rfl⟩
  · intro n hn
    simp only [plainQuery, List.mem_cons, List.not_mem_nil, or_false] at hn
    subst hn
    show renamed "g" = none
    decide +kernel
  · intro a ha hne
    simp only [plainQuery, List.mem_cons, List.not_mem_nil, or_false] at ha
    rcases ha with rfl | rfl
    · exact absurd rfl hne
    · show renamed _ = none
      decide +kernel
  · intro a ha he
    simp only [plainQuery, List.mem_cons, List.not_mem_nil, or_false] at ha
    rcases ha with rfl | rfl
    · decide +kernel
    · cases he

end Verif.Rules
