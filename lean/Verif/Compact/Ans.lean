import Verif.Compact.Visit
/-!
# The right answer for rows with the index of their file
-/
namespace Verif.Compact

open Verif.Sort Verif.Reader

variable {α : Type}

/-- The right answer for rows that carry a number: strictly increasing times, exactly the times of the rows, and each cell is the value
of the row with the largest number that has a value there. -/
structure Ans (cols : Nat) (l : List (Nat × Row α)) (out : List (Row α)) : Prop where
  inc : out.Pairwise fun a b => a.ts < b.ts
  times : ∀ t, t ∈ out.map Row.ts ↔ ∃ p ∈ l, p.2.ts = t
  width : ∀ r ∈ out, r.cells.length = cols
  null : ∀ r ∈ out, ∀ c, c < cols → r.cell c = none → ∀ p ∈ l, p.2.ts = r.ts → p.2.cell c = none
  value : ∀ r ∈ out, ∀ c, c < cols → ∀ v, r.cell c = some v → ∃ p ∈ l, p.2.ts = r.ts ∧ p.2.cell c = some v ∧
    ∀ q ∈ l, p.1 < q.1 → q.2.ts = r.ts → q.2.cell c = none

theorem Ans.time {cols : Nat} {l : List (Nat × Row α)} {x : List (Row α)} (h : Ans cols l x) {r : Row α} (hr : r ∈ x) : ∃ p ∈ l, p.2.ts = r.ts :=
  (h.times r.ts).1 (List.mem_map.2 ⟨r, hr, rfl⟩)

theorem Ans.nil (cols : Nat) : Ans cols ([] : List (Nat × Row α)) [] := ⟨List.Pairwise.nil, by simp, by simp, by simp, by simp⟩

theorem Ans.append {cols : Nat} {a b : List (Nat × Row α)} {x y : List (Row α)} (ha : Ans cols a x) (hb : Ans cols b y)
    (hab : ∀ p ∈ a, ∀ q ∈ b, p.2.ts < q.2.ts) : Ans cols (a ++ b) (x ++ y) := by
  refine ⟨?_, ?_, ?_, ?_, ?_⟩
  · rw [List.pairwise_append]
    refine ⟨ha.inc, hb.inc, ?_⟩
    intro r hr r' hr'
    obtain ⟨p, hp, e⟩ := ha.time hr
    obtain ⟨q, hq, e'⟩ := hb.time hr'
    have := hab p hp q hq
    omega
  · intro t
    rw [List.map_append, List.mem_append, ha.times, hb.times]
    constructor
    · rintro (⟨s, hs, h⟩ | ⟨s, hs, h⟩)
      · exact ⟨s, List.mem_append_left _ hs, h⟩
      · exact ⟨s, List.mem_append_right _ hs, h⟩
    · rintro ⟨s, hs, h⟩
      rcases List.mem_append.1 hs with hs | hs
      · exact .inl ⟨s, hs, h⟩
      · exact .inr ⟨s, hs, h⟩
  · intro r hr
    rcases List.mem_append.1 hr with hr | hr
    · exact ha.width r hr
    · exact hb.width r hr
  · intro r hr c hc hn p hp hpt
    rcases List.mem_append.1 hr with hr | hr <;> rcases List.mem_append.1 hp with hp | hp
    · exact ha.null r hr c hc hn p hp hpt
    · obtain ⟨q, hq, e⟩ := ha.time hr
      have := hab q hq p hp; omega
    · obtain ⟨q, hq, e⟩ := hb.time hr
      have := hab p hp q hq; omega
    · exact hb.null r hr c hc hn p hp hpt
  · intro r hr c hc v hv
    rcases List.mem_append.1 hr with hr | hr
    · obtain ⟨p, hp, h1, h2, h3⟩ := ha.value r hr c hc v hv
      refine ⟨p, List.mem_append_left _ hp, h1, h2, ?_⟩
      intro q hq hlt hqt
      rcases List.mem_append.1 hq with hq | hq
      · exact h3 q hq hlt hqt
      · have := hab p hp q hq; omega
    · obtain ⟨p, hp, h1, h2, h3⟩ := hb.value r hr c hc v hv
      refine ⟨p, List.mem_append_right _ hp, h1, h2, ?_⟩
      intro q hq hlt hqt
      rcases List.mem_append.1 hq with hq | hq
      · have := hab q hq p hp; omega
      · exact h3 q hq hlt hqt

theorem Ans.congr {cols : Nat} {a b : List (Nat × Row α)} {x : List (Row α)} (h : Ans cols a x) (hm : ∀ p, p ∈ a ↔ p ∈ b) : Ans cols b x := by
  refine ⟨h.inc, ?_, h.width, ?_, ?_⟩
  · intro t
    rw [h.times]
    exact ⟨fun ⟨s, hs, r⟩ => ⟨s, (hm s).1 hs, r⟩, fun ⟨s, hs, r⟩ => ⟨s, (hm s).2 hs, r⟩⟩
  · intro r hr c hc hn p hp
    exact h.null r hr c hc hn p ((hm p).2 hp)
  · intro r hr c hc v hv
    obtain ⟨p, hp, h1, h2, h3⟩ := h.value r hr c hc v hv
    exact ⟨p, (hm p).1 hp, h1, h2, fun q hq => h3 q ((hm q).2 hq)⟩

theorem rows_ext {l k : List (Row α)} (hl : l.Pairwise fun a b => a.ts < b.ts) (hk : k.Pairwise fun a b => a.ts < b.ts)
    (h : ∀ r, r ∈ l ↔ r ∈ k) : l = k := by
  induction l generalizing k with
  | nil =>
    cases k with
    | nil => rfl
    | cons b k => exact absurd ((h b).2 List.mem_cons_self) (by simp)
  | cons a l ih =>
    cases k with
    | nil => exact absurd ((h a).1 List.mem_cons_self) (by simp)
    | cons b k =>
      rw [List.pairwise_cons] at hl hk
      have e : a = b := by
        rcases List.mem_cons.1 ((h a).1 List.mem_cons_self) with h1 | h1
        · exact h1
        · rcases List.mem_cons.1 ((h b).2 List.mem_cons_self) with h2 | h2
          · exact h2.symm
          · have := hk.1 a h1
            have := hl.1 b h2
            omega
      subst e
      rw [ih hl.2 hk.2]
      intro r
      constructor
      · intro hr
        rcases List.mem_cons.1 ((h r).1 (List.mem_cons_of_mem _ hr)) with e | hr'
        · have := hl.1 r hr; rw [e] at this; omega
        · exact hr'
      · intro hr
        rcases List.mem_cons.1 ((h r).2 (List.mem_cons_of_mem _ hr)) with e | hr'
        · have := hk.1 r hr; rw [e] at this; omega
        · exact hr'

/-- Rows with the same number and time are the same row. -/
def Compat (l : List (Nat × Row α)) : Prop := ∀ p ∈ l, ∀ q ∈ l, p.1 = q.1 → p.2.ts = q.2.ts → p.2 = q.2

theorem Ans.unique {cols : Nat} {l : List (Nat × Row α)} {x y : List (Row α)} (hl : Compat l) (hx : Ans cols l x) (hy : Ans cols l y) : x = y := by
  have key : ∀ {x y : List (Row α)}, Ans cols l x → Ans cols l y → ∀ r ∈ x, r ∈ y := by
    intro x y hx hy r hr
    have ht := (hy.times r.ts).2 ((hx.times r.ts).1 (List.mem_map.2 ⟨r, hr, rfl⟩))
    obtain ⟨r', hr', ht⟩ := List.mem_map.1 ht
    have : r = r' := by
      refine row_ext (hx.width r hr) (hy.width r' hr') ht.symm ?_
      intro c hc
      cases h1 : r.cell c with
      | none =>
        cases h2 : r'.cell c with
        | none => rfl
        | some v =>
          obtain ⟨p, hp, e, hv, _⟩ := hy.value r' hr' c hc v h2
          have := hx.null r hr c hc h1 p hp (by omega)
          rw [this] at hv; cases hv
      | some v =>
        obtain ⟨p, hp, e, hv, hmax⟩ := hx.value r hr c hc v h1
        cases h2 : r'.cell c with
        | none =>
          have := hy.null r' hr' c hc h2 p hp (by omega)
          rw [this] at hv; cases hv
        | some w =>
          obtain ⟨q, hq, e', hw, hmax'⟩ := hy.value r' hr' c hc w h2
          rcases Nat.lt_trichotomy p.1 q.1 with hlt | heq | hgt
          · have := hmax q hq hlt (by omega)
            rw [this] at hw; cases hw
          · have := hl p hp q hq heq (by omega)
            rw [this, hw] at hv
            exact hv.symm
          · have := hmax' p hp hgt (by omega)
            rw [this] at hv; cases hv
    rw [this]; exact hr'
  exact rows_ext hx.inc hy.inc (fun r => ⟨key hx hy r, key hy hx r⟩)

/-- Rows with one number. -/
def tag (k : Nat) (rows : List (Row α)) : List (Nat × Row α) := rows.map fun r => (k, r)

theorem mem_tag {k : Nat} {rows : List (Row α)} {p : Nat × Row α} : p ∈ tag k rows ↔ p.1 = k ∧ p.2 ∈ rows := by
  unfold tag
  rw [List.mem_map]
  constructor
  · rintro ⟨r, hr, rfl⟩; exact ⟨rfl, hr⟩
  · rintro ⟨rfl, hr⟩; exact ⟨p.2, hr, rfl⟩

theorem Ans.self {cols : Nat} (k : Nat) {rows : List (Row α)} (hi : rows.Pairwise fun a b => a.ts < b.ts) (hw : ∀ r ∈ rows, r.cells.length = cols) :
    Ans cols (tag k rows) rows := by
  refine ⟨hi, ?_, hw, ?_, ?_⟩
  · intro t
    rw [List.mem_map]
    exact ⟨fun ⟨r, hr, e⟩ => ⟨(k, r), mem_tag.2 ⟨rfl, hr⟩, e⟩, fun ⟨p, hp, e⟩ => ⟨p.2, (mem_tag.1 hp).2, e⟩⟩
  · intro r hr c _ hn p hp ht
    rw [inc_inj hi (mem_tag.1 hp).2 hr ht]; exact hn
  · intro r hr c _ v hv
    refine ⟨(k, r), mem_tag.2 ⟨rfl, hr⟩, rfl, hv, ?_⟩
    intro q hq hlt
    have := (mem_tag.1 hq).1
    simp only at hlt
    omega

theorem newest_of_tags {l : List (Nat × Row α)} (h : l.Pairwise fun a b => a.1 ≤ b.1) (t : Int) (c : Nat) :
    match ((l.map Prod.snd).filter fun x => decide (x.ts = t)).reverse.findSome? fun x => (x.cells[c]?).join with
    | none => ∀ p ∈ l, p.2.ts = t → p.2.cell c = none
    | some v => ∃ p ∈ l, p.2.ts = t ∧ p.2.cell c = some v ∧ ∀ q ∈ l, p.1 < q.1 → q.2.ts = t → q.2.cell c = none := by
  induction l with
  | nil => simp
  | cons g gs ih =>
    rw [List.pairwise_cons] at h
    have ih := ih h.2
    have e : ((g :: gs).map Prod.snd).filter (fun x => decide (x.ts = t)) =
        ([g.2].filter fun x => decide (x.ts = t)) ++ ((gs.map Prod.snd).filter fun x => decide (x.ts = t)) := by
      rw [← List.filter_append]; rfl
    rw [e, List.reverse_append, List.findSome?_append]
    generalize hr : (((gs.map Prod.snd).filter fun x => decide (x.ts = t)).reverse.findSome? fun x => (x.cells[c]?).join) = r at ih
    cases r with
    | some v =>
      simp only [Option.some_or] at ih ⊢
      obtain ⟨s, hs, h0, h1, h2⟩ := ih
      refine ⟨s, List.mem_cons_of_mem _ hs, h0, h1, ?_⟩
      intro s' hs' hlt
      rcases List.mem_cons.1 hs' with e | hs'
      · have := h.1 s hs
        rw [e] at hlt
        omega
      · exact h2 s' hs' hlt
    | none =>
      simp only [Option.none_or] at ih ⊢
      by_cases hgt : g.2.ts = t
      · have e2 : [g.2].filter (fun x => decide (x.ts = t)) = [g.2] := by simp [hgt]
        rw [e2]
        simp only [List.reverse_singleton, List.findSome?_cons, List.findSome?_nil]
        cases hg : (g.2.cells[c]?).join with
        | none =>
          simp only
          intro s hs hst
          rcases List.mem_cons.1 hs with e | hs
          · rw [e]; exact hg
          · exact ih s hs hst
        | some v =>
          simp only
          refine ⟨g, List.mem_cons_self, hgt, hg, ?_⟩
          intro s' hs' hlt
          rcases List.mem_cons.1 hs' with e | hs'
          · rw [e] at hlt; omega
          · exact ih s' hs'
      · have e2 : [g.2].filter (fun x => decide (x.ts = t)) = [] := by simp [hgt]
        rw [e2]
        simp only [List.reverse_nil, List.findSome?_nil]
        intro s hs hst
        rcases List.mem_cons.1 hs with e | hs
        · rw [e] at hst; exact absurd hst hgt
        · exact ih s hs hst

/-- Merging batches of rows gives the right answer. -/
theorem mergeRows_ans {cols size : Nat} (sid : Nat) (hs : 1 ≤ size) (batches : List (Nat × List (Row α))) (hne : batches ≠ [])
    (hid : batches.Pairwise fun a b => a.1 ≤ b.1) (hinc : ∀ b ∈ batches, b.2.Pairwise fun a b => a.ts < b.ts) :
    ∃ N ds, (∀ fuel, N < fuel → mergeRows cols size fuel sid (batches.map Prod.snd) = some ds) ∧
      Ans cols (batches.flatMap fun b => tag b.1 b.2) (ds.flatMap Done.rows) ∧
      ∀ d ∈ ds, d.rows ≠ [] ∧ d = Done.ofRows sid d.rows := by
  have hsort : SortedInputs ((batches.map Prod.snd).map fun rows => [Item.batch rows]) := by
    intro i hi
    rw [List.map_map] at hi
    obtain ⟨b, hb, rfl⟩ := List.mem_map.1 hi
    have := (hinc b hb).imp (S := fun a b => a.ts ≤ b.ts) (by intro a b h; omega)
    simpa [rowsOf] using this
  obtain ⟨N, out, h1, h2, h3, h4, h5⟩ := C34_newest_value cols size _ (by simpa using hne) hs hsort
  have hall : allRows ((batches.map Prod.snd).map fun rows => [Item.batch rows]) = (batches.flatMap fun b => tag b.1 b.2).map Prod.snd := by
    clear hne hid hinc hsort h1 h3 h4
    induction batches with
    | nil => rfl
    | cons b l ih =>
      rw [List.flatMap_cons, List.map_append, ← ih]
      simp [allRows, rowsOf, tag, Function.comp_def]
  have htags : (batches.flatMap fun b => tag b.1 b.2).Pairwise fun a b => a.1 ≤ b.1 := by
    clear hne hinc hsort h1 h2 h3 h4 h5 hall
    induction batches with
    | nil => exact List.Pairwise.nil
    | cons b l ih =>
      rw [List.pairwise_cons] at hid
      rw [List.flatMap_cons, List.pairwise_append]
      refine ⟨?_, ih hid.2, ?_⟩
      · unfold tag
        rw [List.pairwise_map]
        exact List.pairwise_of_forall (fun _ _ => Nat.le_refl _)
      · intro p hp q hq
        obtain ⟨b', hb', hq⟩ := List.mem_flatMap.1 hq
        have := hid.1 b' hb'
        rw [(mem_tag.1 hp).1, (mem_tag.1 hq).1]
        exact this
  rw [hall] at h3 h4
  have hfl : (out.map (Done.ofRows sid)).flatMap Done.rows = out.flatten := by
    rw [List.flatMap_map, List.flatMap_def]
    congr 1
    exact List.map_id out
  have he : ∀ r ∈ out.flatten, ∀ c, c < cols → r.cell c =
      ((((batches.flatMap fun b => tag b.1 b.2).map Prod.snd).filter fun x => decide (x.ts = r.ts)).reverse.findSome? fun x => (x.cells[c]?).join) := by
    intro r hr c hc
    conv => lhs; unfold Row.cell; rw [h4 r hr]
    simp [hc]
  refine ⟨N, out.map (Done.ofRows sid), ?_, ?_, ?_⟩
  · intro fuel hf
    unfold mergeRows
    rw [if_neg (by simpa using hne), h1 fuel hf]
    rfl
  · rw [hfl]
    refine ⟨h2, ?_, ?_, ?_, ?_⟩
    · intro t
      rw [h3, List.mem_map]
      constructor
      · rintro ⟨x, hx, rfl⟩
        obtain ⟨p, hp, rfl⟩ := List.mem_map.1 hx
        exact ⟨p, hp, rfl⟩
      · rintro ⟨p, hp, rfl⟩
        exact ⟨p.2, List.mem_map.2 ⟨p, hp, rfl⟩, rfl⟩
    · intro r hr; rw [h4 r hr]; simp
    · intro r hr c hc hn
      have := newest_of_tags htags r.ts c
      rw [← he r hr c hc, hn] at this
      exact this
    · intro r hr c hc v hv
      have := newest_of_tags htags r.ts c
      rw [← he r hr c hc, hv] at this
      exact this
  · intro d hd
    obtain ⟨b, hb, rfl⟩ := List.mem_map.1 hd
    exact ⟨(h5 b hb).1, rfl⟩

end Verif.Compact
