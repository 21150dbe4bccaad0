import Verif.Mem.Model
import Verif.Time.Lemmas
/-!
# What the merging iterator of the write buffer returns
-/
namespace Verif.Mem
open Verif.Time

variable {V : Type}

/-- The rows of a time, in order. -/
def At (t : Int) (l : List (Row V)) : List (Row V) := l.filter fun r => decide (r.ts = t)

/-- Ascending in time. -/
def Asc (l : List (Row V)) : Prop := l.Pairwise fun a b => a.ts ≤ b.ts

theorem mem_insertRow {r x : Row V} : ∀ {l : List (Row V)}, x ∈ insertRow r l ↔ x = r ∨ x ∈ l
  | [] => by simp [insertRow]
  | y :: l => by
    unfold insertRow
    split
    · simp only [List.mem_cons, mem_insertRow (l := l)]; tauto
    · simp

theorem asc_insertRow (r : Row V) : ∀ {l : List (Row V)}, Asc l → Asc (insertRow r l)
  | [], _ => by simp [insertRow, Asc]
  | y :: l, h => by
    unfold Asc at h
    rw [List.pairwise_cons] at h
    unfold insertRow
    split
    · rename_i hlt
      refine List.pairwise_cons.2 ⟨?_, asc_insertRow r h.2⟩
      intro x hx
      rcases mem_insertRow.1 hx with rfl | hx
      · omega
      · exact h.1 x hx
    · rename_i hlt
      refine List.pairwise_cons.2 ⟨?_, List.pairwise_cons.2 h⟩
      intro x hx
      rcases List.mem_cons.1 hx with rfl | hx
      · omega
      · have := h.1 x hx; omega

theorem at_insertRow (r : Row V) (t : Int) : ∀ (l : List (Row V)),
    At t (insertRow r l) = if r.ts = t then r :: At t l else At t l
  | [] => by by_cases h : r.ts = t <;> simp [insertRow, At, h]
  | y :: l => by
    unfold insertRow
    by_cases hlt : y.ts < r.ts
    · rw [if_pos hlt]
      have ih := at_insertRow r t l
      unfold At at ih ⊢
      rw [List.filter_cons, ih, List.filter_cons]
      by_cases h : r.ts = t
      · have : ¬ y.ts = t := by omega
        simp [h, this]
      · simp [h]
    · rw [if_neg hlt]
      unfold At
      by_cases h : r.ts = t <;> simp [h]

theorem insertRows_cons (r : Row V) (rs l : List (Row V)) : insertRows (r :: rs) l = insertRows rs (insertRow r l) := rfl

theorem mem_insertRows {x : Row V} : ∀ {rs l : List (Row V)}, x ∈ insertRows rs l ↔ x ∈ rs ∨ x ∈ l
  | [], l => by simp [insertRows]
  | r :: rs, l => by
    rw [insertRows_cons, mem_insertRows, mem_insertRow, List.mem_cons]; tauto

theorem asc_insertRows : ∀ (rs : List (Row V)) {l : List (Row V)}, Asc l → Asc (insertRows rs l)
  | [], _, h => h
  | r :: rs, _, h => asc_insertRows rs (asc_insertRow r h)

theorem at_insertRows (t : Int) : ∀ (rs l : List (Row V)), At t (insertRows rs l) = (At t rs).reverse ++ At t l
  | [], l => by simp [insertRows, At]
  | r :: rs, l => by
    rw [insertRows_cons, at_insertRows t rs, at_insertRow]
    unfold At
    by_cases h : r.ts = t <;> simp [h]

/-- Ascending lists with the same rows at each time are equal. -/
theorem asc_ext : ∀ {l l' : List (Row V)}, Asc l → Asc l' → (∀ t, At t l = At t l') → l = l'
  | [], [], _, _, _ => rfl
  | [], y :: l', _, _, h => by have := h y.ts; simp [At] at this
  | x :: l, [], _, _, h => by have := h x.ts; simp [At] at this
  | x :: l, y :: l', h1, h2, h => by
    unfold Asc at h1 h2
    have e1 : ∀ z ∈ x :: l, x.ts ≤ z.ts := by
      intro z hz
      rcases List.mem_cons.1 hz with rfl | hz
      · omega
      · exact (List.pairwise_cons.1 h1).1 z hz
    have e2 : ∀ z ∈ y :: l', y.ts ≤ z.ts := by
      intro z hz
      rcases List.mem_cons.1 hz with rfl | hz
      · omega
      · exact (List.pairwise_cons.1 h2).1 z hz
    have m1 : x ∈ At x.ts (y :: l') := by rw [← h]; simp [At]
    have m2 : y ∈ At y.ts (x :: l) := by rw [h]; simp [At]
    have a1 := e2 x (List.mem_filter.1 m1).1
    have a2 := e1 y (List.mem_filter.1 m2).1
    have hts : x.ts = y.ts := by omega
    have hxy : x = y := by
      have := h x.ts
      unfold At at this
      rw [List.filter_cons_of_pos (by simp), List.filter_cons_of_pos (by simp [hts])] at this
      exact (List.cons.inj this).1
    subst hxy
    congr 1
    refine asc_ext (List.pairwise_cons.1 h1).2 (List.pairwise_cons.1 h2).2 ?_
    intro t
    have := h t
    unfold At at this ⊢
    by_cases ht : x.ts = t
    · rw [List.filter_cons_of_pos (by simpa using ht), List.filter_cons_of_pos (by simpa using ht)] at this
      exact (List.cons.inj this).2
    · rwa [List.filter_cons_of_neg (by simpa using ht), List.filter_cons_of_neg (by simpa using ht)] at this

theorem asc_filter {p : Row V → Bool} {l : List (Row V)} (h : Asc l) : Asc (l.filter p) := List.Pairwise.filter p h

/-- Reinserting the rows from the end keeps the order. -/
theorem insertRows_reverse {l : List (Row V)} (h : Asc l) (p : Row V → Bool) :
    insertRows (l.reverse.filter p) [] = l.filter p := by
  refine asc_ext (asc_insertRows _ (by simp [Asc])) (asc_filter h) ?_
  intro t
  rw [at_insertRows]
  unfold At
  rw [List.filter_reverse, List.filter_reverse, List.reverse_reverse]
  simp

/-! ## The iterator -/

/-- The rows of a time from all groups, newest group first. -/
def seen (pq : List (Schema × List (Row V))) (t : Int) : List (Schema × Row V) :=
  pq.reverse.flatMap fun e => (At t e.2).map fun r => (e.1, r)

/-- The first value found for a column at a time. -/
def valAt (pq : List (Schema × List (Row V))) (t : Int) (id : Nat) : Option V :=
  (seen pq t).findSome? fun p => value p.1 id p.2

/-- Some row has the time. -/
def HasTime (pq : List (Schema × List (Row V))) (t : Int) : Prop := ∃ e ∈ pq, ∃ r ∈ e.2, r.ts = t

theorem fill_map (align : List Nat) (s : Schema) (f : Nat → Option V) (r : Row V) :
    fill align s (align.map f) r = align.map fun id => (f id).or (value s id r) := by
  unfold fill
  rw [List.zipWith_map_right, List.zipWith_self]
  refine List.map_congr_left fun id _ => ?_
  cases f id <;> rfl

theorem fill_rows (align : List Nat) (s : Schema) : ∀ (rows : List (Row V)) (f : Nat → Option V),
    rows.foldl (fill align s) (align.map f) = align.map fun id => (f id).or (rows.findSome? (value s id))
  | [], f => by simp
  | r :: rows, f => by
    rw [List.foldl_cons, fill_map, fill_rows align s rows]
    refine List.map_congr_left fun id _ => ?_
    rw [List.findSome?_cons]
    cases f id <;> cases value s id r <;> rfl

theorem fill_groups (align : List Nat) (m : Int) : ∀ (l : List (Schema × List (Row V))) (f : Nat → Option V),
    l.foldl (fun res e => (At m e.2).foldl (fill align e.1) res) (align.map f) =
      align.map fun id => (f id).or ((l.flatMap fun e => (At m e.2).map fun r => (e.1, r)).findSome?
        fun p => value p.1 id p.2)
  | [], f => by simp
  | e :: l, f => by
    rw [List.foldl_cons, fill_rows, fill_groups align m l]
    refine List.map_congr_left fun id _ => ?_
    rw [List.flatMap_cons, List.findSome?_append, List.findSome?_map, Option.or_assoc]
    rfl

/-- Each group ascending, timestamps of 64 bits. -/
structure PqOk (pq : List (Schema × List (Row V))) : Prop where
  asc : ∀ e ∈ pq, Asc e.2
  le : ∀ e ∈ pq, ∀ r ∈ e.2, r.ts ≤ i64Max

theorem minHead_fold : ∀ (pq : List (Schema × List (Row V))) (m : Int),
    (∀ e ∈ pq, Asc e.2) →
    let x := pq.foldl (fun m e => match e.2 with | [] => m | r :: _ => if m > r.ts then r.ts else m) m
    x ≤ m ∧ (∀ e ∈ pq, ∀ r ∈ e.2, x ≤ r.ts) ∧ (x = m ∨ HasTime pq x)
  | [], m, _ => by simp
  | e :: pq, m, h => by
    have h1 := minHead_fold pq
    simp only [List.foldl_cons]
    have ha := h e (List.mem_cons_self ..)
    have ht := fun e' he' => h e' (List.mem_cons_of_mem _ he')
    cases he : e.2 with
    | nil =>
      obtain ⟨a1, a2, a3⟩ := h1 m ht
      refine ⟨a1, ?_, ?_⟩
      · intro e' he' r hr
        rcases List.mem_cons.1 he' with rfl | he'
        · rw [he] at hr; cases hr
        · exact a2 e' he' r hr
      · rcases a3 with a3 | ⟨e', he', r, hr, hx⟩
        · exact .inl a3
        · exact .inr ⟨e', List.mem_cons_of_mem _ he', r, hr, hx⟩
    | cons r0 rs =>
      rw [he] at ha
      have hmin : ∀ r ∈ r0 :: rs, r0.ts ≤ r.ts := by
        intro r hr
        rcases List.mem_cons.1 hr with rfl | hr
        · omega
        · exact (List.pairwise_cons.1 ha).1 r hr
      simp only
      by_cases hm : m > r0.ts
      · rw [if_pos hm]
        obtain ⟨a1, a2, a3⟩ := h1 r0.ts ht
        refine ⟨by omega, ?_, ?_⟩
        · intro e' he' r hr
          rcases List.mem_cons.1 he' with rfl | he'
          · rw [he] at hr; have := hmin r hr; omega
          · exact a2 e' he' r hr
        · rcases a3 with a3 | ⟨e', he', r, hr, hx⟩
          · exact .inr ⟨e, List.mem_cons_self .., r0, by rw [he]; exact List.mem_cons_self .., a3.symm⟩
          · exact .inr ⟨e', List.mem_cons_of_mem _ he', r, hr, hx⟩
      · rw [if_neg hm]
        obtain ⟨a1, a2, a3⟩ := h1 m ht
        refine ⟨a1, ?_, ?_⟩
        · intro e' he' r hr
          rcases List.mem_cons.1 he' with rfl | he'
          · rw [he] at hr; have := hmin r hr; omega
          · exact a2 e' he' r hr
        · rcases a3 with a3 | ⟨e', he', r, hr, hx⟩
          · exact .inl a3
          · exact .inr ⟨e', List.mem_cons_of_mem _ he', r, hr, hx⟩

theorem takeWhile_at {m : Int} : ∀ {l : List (Row V)}, Asc l → (∀ r ∈ l, m ≤ r.ts) →
    (l.takeWhile fun r => decide (r.ts = m)) = At m l ∧
    (l.dropWhile fun r => decide (r.ts = m)) = l.filter fun r => decide (r.ts ≠ m)
  | [], _, _ => by simp [At]
  | x :: l, h, hm => by
    unfold Asc at h
    rw [List.pairwise_cons] at h
    by_cases hx : x.ts = m
    · obtain ⟨a, b⟩ := takeWhile_at (m := m) (l := l) h.2 (fun r hr => hm r (List.mem_cons_of_mem _ hr))
      unfold At at a ⊢
      simp [hx, a, b]
    · have hgt : ∀ r ∈ x :: l, r.ts ≠ m := by
        have hxm := hm x (List.mem_cons_self ..)
        intro r hr
        rcases List.mem_cons.1 hr with rfl | hr
        · exact hx
        · have := h.1 r hr; omega
      refine ⟨?_, ?_⟩
      · rw [List.takeWhile_cons_of_neg (by simpa using hx)]
        unfold At
        rw [List.filter_eq_nil_iff.2]
        intro r hr
        simpa using hgt r hr
      · rw [List.dropWhile_cons_of_neg (by simpa using hx), List.filter_eq_self.2]
        intro r hr
        simpa using hgt r hr

/-- The rows after a time was returned. -/
def rest (m : Int) (pq : List (Schema × List (Row V))) : List (Schema × List (Row V)) :=
  pq.map fun e => (e.1, e.2.filter fun r => decide (r.ts ≠ m))

theorem next_eq {align : List Nat} {pq : List (Schema × List (Row V))} (h : PqOk pq) :
    (next align pq = none ∧ ∀ t, HasTime pq t → t = i64Max) ∨
    ∃ m, next align pq = some (⟨m, align.map (valAt pq m)⟩, rest m pq) ∧ m ≠ i64Max ∧ HasTime pq m ∧
      ∀ t, HasTime pq t → m ≤ t := by
  obtain ⟨h1, h2, h3⟩ := minHead_fold pq i64Max h.asc
  unfold next
  simp only
  change minHead pq ≤ _ at h1
  change ∀ e ∈ pq, ∀ r ∈ e.2, minHead pq ≤ r.ts at h2
  change minHead pq = _ ∨ HasTime pq (minHead pq) at h3
  generalize minHead pq = m at *
  by_cases hm : m = i64Max
  · refine .inl ⟨by rw [if_pos hm], ?_⟩
    rintro t ⟨e, he, r, hr, rfl⟩
    have := h2 e he r hr
    have := h.le e he r hr
    omega
  · refine .inr ⟨m, ?_, hm, ?_, ?_⟩
    · rw [if_neg hm]
      congr 1
      refine Prod.ext ?_ ?_
      · simp only
        congr 1
        have e1 : (pq.reverse.foldl (fun res e => (e.2.takeWhile fun r => decide (r.ts = m)).foldl (fill align e.1) res)
            (align.map fun _ => none)) =
            pq.reverse.foldl (fun res e => (At m e.2).foldl (fill align e.1) res) (align.map fun _ => (none : Option V)) := by
          refine List.foldl_ext _ _ _ ?_
          intro res e he
          have he := List.mem_reverse.1 he
          rw [(takeWhile_at (h.asc e he) (h2 e he)).1]
        rw [e1, fill_groups]
        rfl
      · simp only [rest]
        refine List.map_congr_left fun e he => ?_
        rw [(takeWhile_at (h.asc e he) (h2 e he)).2]
    · rcases h3 with h3 | h3
      · exact absurd h3 hm
      · exact h3
    · rintro t ⟨e, he, r, hr, rfl⟩
      exact h2 e he r hr

theorem rest_ok {m : Int} {pq : List (Schema × List (Row V))} (h : PqOk pq) : PqOk (rest m pq) := by
  constructor
  · intro e he
    obtain ⟨e', he', rfl⟩ := List.mem_map.1 he
    exact asc_filter (h.asc e' he')
  · intro e he r hr
    obtain ⟨e', he', rfl⟩ := List.mem_map.1 he
    exact h.le e' he' r (List.mem_filter.1 hr).1

theorem rest_time {m t : Int} {pq : List (Schema × List (Row V))} : HasTime (rest m pq) t ↔ HasTime pq t ∧ t ≠ m := by
  constructor
  · rintro ⟨e, he, r, hr, rfl⟩
    obtain ⟨e', he', rfl⟩ := List.mem_map.1 he
    obtain ⟨h1, h2⟩ := List.mem_filter.1 hr
    exact ⟨⟨e', he', r, h1, rfl⟩, by simpa using h2⟩
  · rintro ⟨⟨e, he, r, hr, rfl⟩, hne⟩
    exact ⟨_, List.mem_map.2 ⟨e, he, rfl⟩, r, List.mem_filter.2 ⟨hr, by simpa using hne⟩, rfl⟩

theorem rest_seen {m t : Int} (pq : List (Schema × List (Row V))) (h : t ≠ m) : seen (rest m pq) t = seen pq t := by
  unfold seen rest
  rw [← List.map_reverse, List.flatMap_map]
  have : ∀ l : List (Row V), At t (l.filter fun r => decide (r.ts ≠ m)) = At t l := by
    intro l
    unfold At
    rw [List.filter_filter]
    refine List.filter_congr fun r _ => ?_
    by_cases hr : r.ts = t
    · simp [hr, h]
    · simp [hr]
  simp only [this]

theorem rest_valAt {m t : Int} (pq : List (Schema × List (Row V))) (h : t ≠ m) (id : Nat) :
    valAt (rest m pq) t id = valAt pq t id := by
  unfold valAt; rw [rest_seen pq h]

theorem rest_size (m : Int) : ∀ (pq : List (Schema × List (Row V))),
    size (rest m pq) ≤ size pq ∧ (HasTime pq m → size (rest m pq) < size pq)
  | [] => by
    refine ⟨by simp [size, rest], ?_⟩
    rintro ⟨e, he, _⟩
    cases he
  | e :: pq => by
    obtain ⟨h1, h2⟩ := rest_size m pq
    have hle := List.length_filter_le (fun r : Row V => decide (r.ts ≠ m)) e.2
    have es : size (rest m (e :: pq)) = (e.2.filter fun r => decide (r.ts ≠ m)).length + size (rest m pq) := by
      simp [size, rest]
    have es' : size (e :: pq) = e.2.length + size pq := by simp [size]
    refine ⟨by omega, ?_⟩
    rintro ⟨e', he', r, hr, hm⟩
    rcases List.mem_cons.1 he' with rfl | he'
    · have : (e'.2.filter fun r => decide (r.ts ≠ m)).length < e'.2.length := by
        refine List.length_filter_lt_length_iff_exists.2 ⟨r, hr, ?_⟩
        simp [hm]
      omega
    · have := h2 ⟨e', he', r, hr, hm⟩
      omega

/-- The rows of the iterator: strictly ascending, exactly the times there are (except the largest one), with the first
value found for each column. -/
theorem iterate_spec (align : List Nat) : ∀ (fuel : Nat) (pq : List (Schema × List (Row V))), PqOk pq → size pq < fuel →
    (iterate align fuel pq).Pairwise (fun a b => a.ts < b.ts) ∧
    (∀ t, (∃ r ∈ iterate align fuel pq, r.ts = t) ↔ HasTime pq t ∧ t ≠ i64Max) ∧
    (∀ r ∈ iterate align fuel pq, r.fields = align.map (valAt pq r.ts))
  | 0, _, _, h => by omega
  | fuel + 1, pq, hp, hs => by
    rcases next_eq (align := align) hp with ⟨e, ht⟩ | ⟨m, e, hm, hmt, hle⟩
    · simp only [iterate, e]
      refine ⟨List.Pairwise.nil, ?_, by simp⟩
      intro t
      simp only [List.not_mem_nil, false_and, exists_false, false_iff, not_and, not_not]
      exact ht t
    · simp only [iterate, e]
      obtain ⟨i1, i2, i3⟩ := iterate_spec align fuel (rest m pq) (rest_ok hp) (by
        have := (rest_size m pq).2 hmt; omega)
      have hgt : ∀ r ∈ iterate align fuel (rest m pq), m < r.ts := by
        intro r hr
        have h1 := rest_time.1 ((i2 r.ts).1 ⟨r, hr, rfl⟩).1
        have h2 := hle r.ts h1.1
        omega
      refine ⟨List.pairwise_cons.2 ⟨hgt, i1⟩, ?_, ?_⟩
      · intro t
        simp only [List.mem_cons, exists_eq_or_imp, i2 t, rest_time]
        constructor
        · rintro (rfl | ⟨⟨h1, _⟩, h2⟩)
          · exact ⟨hmt, hm⟩
          · exact ⟨h1, h2⟩
        · rintro ⟨h1, h2⟩
          by_cases ht : m = t
          · exact .inl ht
          · exact .inr ⟨⟨h1, fun h => ht h.symm⟩, h2⟩
      · intro r hr
        rcases List.mem_cons.1 hr with rfl | hr
        · rfl
        · rw [i3 r hr]
          have := hgt r hr
          refine List.map_congr_left fun id _ => ?_
          rw [rest_valAt pq (by omega)]

theorem strict_ext {l l' : List Int} (h : l.Pairwise (· < ·)) (h' : l'.Pairwise (· < ·)) (hm : ∀ t, t ∈ l ↔ t ∈ l') :
    l = l' := by
  induction l generalizing l' with
  | nil =>
    cases l' with
    | nil => rfl
    | cons y l' => exact absurd ((hm y).2 (List.mem_cons_self ..)) (by simp)
  | cons x l ih =>
    cases l' with
    | nil => exact absurd ((hm x).1 (List.mem_cons_self ..)) (by simp)
    | cons y l' =>
      rw [List.pairwise_cons] at h h'
      have e : x = y := by
        rcases List.mem_cons.1 ((hm x).1 (List.mem_cons_self ..)) with e | e
        · exact e
        · rcases List.mem_cons.1 ((hm y).2 (List.mem_cons_self ..)) with e' | e'
          · exact e'.symm
          · have := h.1 y e'; have := h'.1 x e; omega
      subst e
      congr 1
      refine ih h.2 h'.2 ?_
      intro t
      have := hm t
      constructor
      · intro ht
        rcases List.mem_cons.1 (this.1 (List.mem_cons_of_mem _ ht)) with rfl | h1
        · have := h.1 t ht; omega
        · exact h1
      · intro ht
        rcases List.mem_cons.1 (this.2 (List.mem_cons_of_mem _ ht)) with rfl | h1
        · have := h'.1 t ht; omega
        · exact h1

end Verif.Mem
