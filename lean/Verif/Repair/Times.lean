import Verif.Repair.Model
/-!
# C157: `timestamp_repair` moves times to a grid with the least change
-/
namespace Verif.Repair
open Verif.Sort

/-! ## What is asked -/

/-- A way to match the first `j` times with the first `i` points of the grid, with the rows it gives and what it costs: a time is
moved to a point, a point is inserted without a value, or a row is removed. -/
inductive Match (start d : Int) (ts : List Int) (vs : List Val) : Nat → Nat → List (Int × Cell) → Int → Prop where
  | nil : Match start d ts vs 0 0 [] 0
  | move {i j rows c} : Match start d ts vs i j rows c →
      Match start d ts vs (i + 1) (j + 1) (rows ++ [(start + d * (i : Int), Cell.ofVal (vs[j]?).join)])
        (c + (ts.getD j 0 - (start + d * (i : Int))).natAbs)
  | insert {i j rows c} : Match start d ts vs i j rows c →
      Match start d ts vs (i + 1) j (rows ++ [(start + d * (i : Int), .nan)]) (c + 100000000000)
  | remove {i j rows c} : Match start d ts vs i j rows c → Match start d ts vs i (j + 1) rows (c + 100000000000)

/-- The result is a match of all times with the grid, of least cost. -/
def Least (start d : Int) (ts : List Int) (vs : List Val) (n : Nat) (out : List (Int × Cell)) : Prop :=
  ∃ c, Match start d ts vs n ts.length out c ∧ ∀ out' c', Match start d ts vs n ts.length out' c' → c ≤ c'

/-- C157: the result is a least match with some grid. -/
def C157Full : Prop := ∀ (order : List (Int × Nat) → List (Int × Nat)) (iv : IntervalBy) (sm : StartBy) (ts : List Int) (vs : List Val),
  (∀ l, (order l).Perm l) → ts.Pairwise (· < ·) → vs.length = ts.length → (∀ ms, iv = .given ms → 0 < ms) →
  ∃ out, timestampRepair order iv sm ts vs = .ok out ∧ ∃ start d n, 0 < d ∧ Least start d ts vs n out

/-! ## The table -/

section
variable (start d : Int) (ts : List Int)

theorem addCost_eq : addCost = 100000000000 := rfl

theorem entry_cost (t p x up left : Int) (h1 : x ≤ up + addCost) (h2 : x ≤ left + addCost) :
    (entry t p x up left).1 ≤ up + addCost ∧ (entry t p x up left).1 ≤ left + addCost ∧ (entry t p x up left).1 ≤ x + (t - p).natAbs ∧
    ((entry t p x up left).1 = x + (t - p).natAbs ∨ (entry t p x up left).1 = up + addCost ∨ (entry t p x up left).1 = left + addCost) := by
  unfold entry
  by_cases h : t = p
  · rw [if_pos h]; simp only; omega
  · rw [if_neg h]
    by_cases h3 : up < left
    · simp only [if_pos h3]
      by_cases h4 : x + (t - p).natAbs < up + addCost
      · rw [if_pos h4]; exact ⟨by simp only; omega, by simp only; omega, by simp only; omega, .inl rfl⟩
      · rw [if_neg h4]; exact ⟨by simp only; omega, by simp only; omega, by simp only; omega, .inr (.inl rfl)⟩
    · simp only [if_neg h3]
      by_cases h4 : x + (t - p).natAbs < left + addCost
      · rw [if_pos h4]; exact ⟨by simp only; omega, by simp only; omega, by simp only; omega, .inl rfl⟩
      · rw [if_neg h4]; exact ⟨by simp only; omega, by simp only; omega, by simp only; omega, .inr (.inr rfl)⟩

theorem entry_op (t p x up left : Int) :
    match (entry t p x up left).2 with
    | .nothing => (entry t p x up left).1 = x + (t - p).natAbs
    | .insert => (entry t p x up left).1 = up + addCost
    | .remove => (entry t p x up left).1 = left + addCost := by
  unfold entry
  by_cases h : t = p
  · rw [if_pos h]; simp only; omega
  · rw [if_neg h]
    by_cases h3 : up < left
    · simp only [if_pos h3]
      by_cases h4 : x + (t - p).natAbs < up + addCost
      · rw [if_pos h4]
      · rw [if_neg h4]
    · simp only [if_neg h3]
      by_cases h4 : x + (t - p).natAbs < left + addCost
      · rw [if_pos h4]
      · rw [if_neg h4]

theorem table_zero (j : Nat) : (table start d ts 0 j).1 = addCost * (j : Int) := by simp [table]

theorem table_left (i : Nat) : (table start d ts i 0).1 = addCost * (i : Int) := by
  cases i with
  | zero => simp [table]
  | succ i => simp [table]

theorem table_succ (i j : Nat) : table start d ts (i + 1) (j + 1) = entry (ts.getD j 0) (start + d * (i : Int)) (table start d ts i j).1
    (table start d ts i (j + 1)).1 (table start d ts (i + 1) j).1 := by rw [table]

/-- One time or one point more or less changes the cost by at most one removal or insertion. -/
theorem table_lip : ∀ i j, (table start d ts i j).1 ≤ (table start d ts i (j + 1)).1 + addCost ∧
    (table start d ts i j).1 ≤ (table start d ts (i + 1) j).1 + addCost := by
  have A := addCost_eq
  intro i
  induction i with
  | zero =>
    intro j
    refine ⟨?_, ?_⟩
    · rw [table_zero, table_zero]; push_cast
      have : addCost * ((j : Int) + 1) = addCost * (j : Int) + addCost := by grind
      omega
    · induction j with
      | zero => rw [table_left, table_left]; push_cast; omega
      | succ j ih =>
        have h0 := table_zero start d ts j
        have h1 := table_zero start d ts (j + 1)
        push_cast at h1
        have e : addCost * ((j : Int) + 1) = addCost * (j : Int) + addCost := by grind
        have := (entry_cost (ts.getD j 0) (start + d * ((0 : Nat) : Int)) (table start d ts 0 j).1 (table start d ts 0 (j + 1)).1
          (table start d ts (0 + 1) j).1 (by omega) ih).2.2.2
        rw [← table_succ] at this
        omega
  | succ i ihi =>
    intro j
    induction j with
    | zero =>
      obtain ⟨a1, a2⟩ := ihi 0
      have h1 := table_left start d ts i
      have h2 := table_left start d ts (i + 1)
      have h3 := table_left start d ts (i + 1 + 1)
      push_cast at h2 h3
      have e : addCost * ((i : Int) + 1) = addCost * (i : Int) + addCost := by grind
      have e2 : addCost * ((i : Int) + 1 + 1) = addCost * (i : Int) + addCost + addCost := by grind
      have := (entry_cost (ts.getD 0 0) (start + d * (i : Int)) (table start d ts i 0).1 (table start d ts i (0 + 1)).1
          (table start d ts (i + 1) 0).1 a1 a2).2.2.2
      rw [← table_succ] at this
      omega
    | succ j ihj =>
      obtain ⟨a1, a2⟩ := ihi (j + 1)
      obtain ⟨b1, b2⟩ := ihi j
      obtain ⟨c1, c2⟩ := ihj
      have k1 := entry_cost (ts.getD (j + 1) 0) (start + d * (i : Int)) (table start d ts i (j + 1)).1 (table start d ts i (j + 1 + 1)).1
          (table start d ts (i + 1) (j + 1)).1 a1 a2
      have k2 := entry_cost (ts.getD j 0) (start + d * ((i + 1 : Nat) : Int)) (table start d ts (i + 1) j).1 (table start d ts (i + 1) (j + 1)).1
          (table start d ts (i + 1 + 1) j).1 c1 c2
      have k3 := entry_cost (ts.getD j 0) (start + d * (i : Int)) (table start d ts i j).1 (table start d ts i (j + 1)).1
          (table start d ts (i + 1) j).1 b1 b2
      rw [← table_succ] at k1 k2 k3
      omega

theorem table_step (i j : Nat) : (table start d ts (i + 1) (j + 1)).1 ≤ (table start d ts i (j + 1)).1 + addCost ∧
    (table start d ts (i + 1) (j + 1)).1 ≤ (table start d ts (i + 1) j).1 + addCost ∧
    (table start d ts (i + 1) (j + 1)).1 ≤ (table start d ts i j).1 + (ts.getD j 0 - (start + d * (i : Int))).natAbs := by
  obtain ⟨b1, b2⟩ := table_lip start d ts i j
  have k3 := entry_cost (ts.getD j 0) (start + d * (i : Int)) (table start d ts i j).1 (table start d ts i (j + 1)).1
      (table start d ts (i + 1) j).1 b1 b2
  rw [← table_succ] at k3
  exact ⟨k3.1, k3.2.1, k3.2.2.1⟩

/-- No match costs less than the table says. -/
theorem table_le {vs : List Val} {i j : Nat} {rows : List (Int × Cell)} {c : Int} (h : Match start d ts vs i j rows c) :
    (table start d ts i j).1 ≤ c := by
  have A := addCost_eq
  induction h with
  | nil => simp [table]
  | @move i j rows c h ih => have := (table_step start d ts i j).2.2; omega
  | @insert i j rows c h ih =>
    cases j with
    | zero =>
      have h1 := table_left start d ts i
      have h2 := table_left start d ts (i + 1)
      push_cast at h2
      have : addCost * ((i : Int) + 1) = addCost * (i : Int) + addCost := by grind
      omega
    | succ j => have := (table_step start d ts i j).1; omega
  | @remove i j rows c h ih =>
    cases i with
    | zero =>
      have h1 : ∀ k, (table start d ts 0 k).1 = addCost * (k : Int) := by intro k; simp [table]
      rw [h1] at ih ⊢
      push_cast
      have : addCost * ((j : Int) + 1) = addCost * (j : Int) + addCost := by grind
      omega
    | succ i => have := (table_step start d ts i j).2.1; omega

/-- The first `i` points, all inserted. -/
def inserted (i : Nat) : List (Int × Cell) := (List.range i).map fun (k : Nat) => (start + d * (k : Int), .nan)

theorem match_inserted (vs : List Val) (i : Nat) : Match start d ts vs i 0 (inserted start d i) (addCost * (i : Int)) := by
  induction i with
  | zero => exact .nil
  | succ i ih =>
    have := Match.insert ih
    unfold inserted
    rw [List.range_succ, List.map_append]
    have e : addCost * ((i + 1 : Nat) : Int) = addCost * (i : Int) + 100000000000 := by rw [addCost_eq]; push_cast; omega
    rw [e]
    exact this

theorem match_removed (vs : List Val) (j : Nat) : Match start d ts vs 0 j [] (addCost * (j : Int)) := by
  induction j with
  | zero => exact .nil
  | succ j ih =>
    have := Match.remove ih
    have e : addCost * ((j + 1 : Nat) : Int) = addCost * (j : Int) + 100000000000 := by rw [addCost_eq]; push_cast; omega
    rw [e]
    exact this

/-- What the walk gives is a match with the cost in the table, but for the points in front of the first row that is kept: they
have the time 0 and the value 0. -/
theorem walk_match (vs : List Val) : ∀ i j, ∃ k rest, walk start d ts vs i j = List.replicate k (0, .num 0) ++ rest ∧
    Match start d ts vs i j (inserted start d k ++ rest) (table start d ts i j).1 := by
  intro i j
  induction i, j using walk.induct start d ts with
  | case1 j => exact ⟨0, [], by simp [walk], by simpa [inserted, table] using match_removed start d ts vs j⟩
  | case2 i =>
    refine ⟨i + 1, [], by simp [walk], ?_⟩
    have := match_inserted start d ts vs (i + 1)
    simpa [table] using this
  | case3 i j hop ih =>
    obtain ⟨k, rest, h1, h2⟩ := ih
    refine ⟨k, rest ++ [(start + d * (i : Int), Cell.ofVal (at' vs j))], by rw [walk, hop]; simp [h1], ?_⟩
    have := Match.move h2
    have hc : (table start d ts (i + 1) (j + 1)).1 = (table start d ts i j).1 + (ts.getD j 0 - (start + d * (i : Int))).natAbs := by
      have t := entry_op (ts.getD j 0) (start + d * (i : Int)) (table start d ts i j).1 (table start d ts i (j + 1)).1
        (table start d ts (i + 1) j).1
      rw [← table_succ, hop] at t
      exact t
    rw [hc, ← List.append_assoc]
    exact this
  | case4 i j hop ih =>
    obtain ⟨k, rest, h1, h2⟩ := ih
    refine ⟨k, rest ++ [(start + d * (i : Int), .nan)], by rw [walk, hop]; simp [h1], ?_⟩
    have := Match.insert h2
    have hc : (table start d ts (i + 1) (j + 1)).1 = (table start d ts i (j + 1)).1 + 100000000000 := by
      have t := entry_op (ts.getD j 0) (start + d * (i : Int)) (table start d ts i j).1 (table start d ts i (j + 1)).1
        (table start d ts (i + 1) j).1
      rw [← table_succ, hop] at t
      exact t
    rw [hc, ← List.append_assoc]
    exact this
  | case5 i j hop ih =>
    obtain ⟨k, rest, h1, h2⟩ := ih
    refine ⟨k, rest, by rw [walk, hop]; exact h1, ?_⟩
    have := Match.remove h2
    have hc : (table start d ts (i + 1) (j + 1)).1 = (table start d ts (i + 1) j).1 + 100000000000 := by
      have t := entry_op (ts.getD j 0) (start + d * (i : Int)) (table start d ts i j).1 (table start d ts i (j + 1)).1
        (table start d ts (i + 1) j).1
      rw [← table_succ, hop] at t
      exact t
    rw [hc]
    exact this

end

/-! ## The grid of a match -/

/-- The rows of a match are at the points of the grid, one at each. -/
theorem Match.grid {start d : Int} {ts : List Int} {vs : List Val} {i j : Nat} {rows : List (Int × Cell)} {c : Int}
    (h : Match start d ts vs i j rows c) : rows.map (·.1) = (List.range i).map fun (k : Nat) => start + d * (k : Int) := by
  induction h with
  | nil => rfl
  | move h ih => rw [List.range_succ]; simp [ih]
  | insert h ih => rw [List.range_succ]; simp [ih]
  | remove h ih => exact ih

/-- The number in a cell. -/
def Cell.num? : Cell → Option Rat
  | .num q => some q
  | _ => none

theorem take_succ_known (vs : List Val) (j : Nat) :
    (vs.take (j + 1)).filterMap id = (vs.take j).filterMap id ++ ((vs[j]?).join).toList := by
  rw [List.take_add_one, List.filterMap_append]
  congr 1
  cases vs[j]? with
  | none => rfl
  | some v => cases v <;> rfl

/-- The numbers of a match are numbers of the series, in their order. -/
theorem Match.numbers {start d : Int} {ts : List Int} {vs : List Val} {i j : Nat} {rows : List (Int × Cell)} {c : Int}
    (h : Match start d ts vs i j rows c) : List.Sublist (rows.filterMap fun r => r.2.num?) ((vs.take j).filterMap id) := by
  induction h with
  | nil => simp
  | @move i j rows c h ih =>
    rw [take_succ_known, List.filterMap_append]
    refine List.Sublist.append ih ?_
    cases (vs[j]?).join with
    | none => simp [Cell.ofVal, Cell.num?]
    | some q => simp [Cell.ofVal, Cell.num?]
  | insert h ih => rw [List.filterMap_append]; simpa [Cell.num?] using ih
  | @remove i j rows c h ih =>
    rw [take_succ_known]
    exact ih.trans (List.sublist_append_left _ _)

/-- **C157 (partial: least change)**: if the repair of more than two rows ends well, then with the start and the interval it has
found, its rows are those of a match of least cost, except that the points in front of the first row kept have the time 0 and
the value 0. -/
theorem C157_least_partial (order : List (Int × Nat) → List (Int × Nat)) (iv : IntervalBy) (sm : StartBy) (ts : List Int) (vs : List Val)
    (out : List (Int × Cell)) (h : timestampRepair order iv sm ts vs = .ok out) (hl : 2 < ts.length) :
    ∃ start d n k rest, out = List.replicate k (0, .num 0) ++ rest ∧
      Least start d ts vs n ((List.range k).map (fun (i : Nat) => (start + d * (i : Int), .nan)) ++ rest) := by
  unfold timestampRepair at h
  split at h
  · simp at h
  · rename_i d hd
    split at h
    · simp at h
    · simp only [Except.ok.injEq] at h
      unfold dpRepair at h
      rw [if_neg (by omega)] at h
      obtain ⟨k, rest, h1, h2⟩ := walk_match (startOf order ts d sm) d ts vs (gridSize (startOf order ts d sm) d (ts.getLastD 0)) ts.length
      exact ⟨_, d, _, k, rest, by rw [← h, h1], _, h2, fun out' c' h' => table_le _ d ts h'⟩

/-- The rows of such a repair: those kept or inserted behind the first one kept are at the points of a grid, and the numbers in
them are numbers of the series in their order. -/
theorem C157_grid_partial (order : List (Int × Nat) → List (Int × Nat)) (iv : IntervalBy) (sm : StartBy) (ts : List Int) (vs : List Val)
    (out : List (Int × Cell)) (h : timestampRepair order iv sm ts vs = .ok out) (hl : 2 < ts.length) (hv : vs.length = ts.length) :
    ∃ (start d : Int) (k : Nat), (∀ (i : Nat) r, k ≤ i → out[i]? = some r → r.1 = start + d * (i : Int)) ∧ (∀ (i : Nat) r, i < k → out[i]? = some r → r = (0, .num 0)) ∧
      List.Sublist ((out.drop k).filterMap fun r => r.2.num?) (vs.filterMap id) := by
  obtain ⟨start, d, n, k, rest, h1, c, h2, _⟩ := C157_least_partial order iv sm ts vs out h hl
  refine ⟨start, d, k, fun i r hi hr => ?_, fun i r hi hr => ?_, ?_⟩
  · have hg := h2.grid
    have hr' : (((List.range k).map (fun (i : Nat) => (start + d * (i : Int), Cell.nan)) ++ rest).map (·.1))[i]? = some r.1 := by
      rw [List.getElem?_map, List.getElem?_append_right (by simpa using hi)]
      rw [h1, List.getElem?_append_right (by simpa using hi)] at hr
      simp only [List.length_replicate] at hr
      simp [hr]
    rw [hg] at hr'
    simp only [List.getElem?_map, Option.map_eq_some_iff] at hr'
    obtain ⟨a, ha, hb⟩ := hr'
    have := (List.getElem?_eq_some_iff.1 ha)
    obtain ⟨hlt, he⟩ := this
    simp at he
    rw [← hb, ← he]
  · rw [h1, List.getElem?_append_left (by simpa using hi)] at hr
    rw [List.getElem?_replicate_of_lt hi] at hr
    simpa using hr.symm
  · have hn := h2.numbers
    rw [List.take_of_length_le (by omega), List.filterMap_append] at hn
    have e : ((List.range k).map (fun (i : Nat) => (start + d * (i : Int), Cell.nan))).filterMap (fun r => r.2.num?) = [] := by
      rw [List.filterMap_map]
      rw [List.filterMap_eq_nil_iff]
      intro a _; rfl
    rw [e, List.nil_append] at hn
    have : out.drop k = rest := by rw [h1]; simp
    rw [this]
    exact hn

/-! ## A series that needs no repair -/

/-- Times at equal distances. -/
def Regular (t0 d : Int) (ts : List Int) : Prop := ∀ (i : Nat) t, ts[i]? = some t → t = t0 + d * (i : Int)

theorem Regular.mem {t0 d : Int} {ts : List Int} (h : Regular t0 d ts) {t : Int} (ht : t ∈ ts) : ∃ i : Nat, i < ts.length ∧ t = t0 + d * (i : Int) := by
  obtain ⟨i, hi⟩ := List.getElem?_of_mem ht
  exact ⟨i, (List.getElem?_eq_some_iff.1 hi).1, h i t hi⟩

theorem Regular.gaps {t0 d : Int} {ts : List Int} (h : Regular t0 d ts) : gaps ts = List.replicate (ts.length - 1) d := by
  rw [List.eq_replicate_iff]
  refine ⟨by simp [Repair.gaps], fun b hb => ?_⟩
  simp only [Repair.gaps, List.mem_map] at hb
  obtain ⟨p, hp, rfl⟩ := hb
  obtain ⟨i, hi⟩ := List.getElem?_of_mem hp
  rw [List.getElem?_zip_eq_some] at hi
  have h1 := h i _ hi.1
  have h2 : ts[i + 1]? = some p.2 := by rw [← List.getElem?_tail]; exact hi.2
  have h2 := h (i + 1) _ h2
  rw [h1, h2]
  push_cast
  grind

theorem sortInt_replicate (n : Nat) (d : Int) : sortInt (List.replicate n d) = List.replicate n d := by
  rw [List.eq_replicate_iff]
  exact ⟨by simp [sortInt, length_sortBy], fun b hb => (List.mem_replicate.1 (mem_sortBy.1 hb)).2⟩

theorem Regular.median {t0 d : Int} {ts : List Int} (h : Regular t0 d ts) (hn : 3 ≤ ts.length) : intervalMedian ts = .ok d := by
  unfold intervalMedian
  simp only [h.gaps, sortInt_replicate]
  rw [if_neg (by omega), List.getElem?_replicate_of_lt (by omega), List.getElem?_replicate_of_lt (by omega)]
  split
  · simp only
    congr 1
    have : d + d = d * 2 := by omega
    rw [this, Int.mul_tdiv_cancel _ (by omega)]
  · rfl

theorem counts_mem {l : List Int} {e : Int × Nat} (h : e ∈ counts l) : e.1 ∈ l ∧ 0 < e.2 := by
  simp only [counts, List.mem_map] at h
  obtain ⟨x, hx, rfl⟩ := h
  have hx' : x ∈ l := by simpa using hx
  exact ⟨hx', List.count_pos_iff.2 hx'⟩

theorem counts_ne {l : List Int} (h : l ≠ []) : counts l ≠ [] := by
  cases l with
  | nil => exact absurd rfl h
  | cons a l =>
    intro hc
    have : a ∈ (a :: l).eraseDups := by simp
    simp only [counts, List.map_eq_nil_iff] at hc
    rw [hc] at this
    simp at this

theorem maxKey_mem {l : List (Int × Nat)} (hne : l ≠ []) (hpos : ∀ e ∈ l, 0 < e.2) : ∃ e ∈ l, e.1 = maxKey l := by
  unfold maxKey
  have go : ∀ (l : List (Int × Nat)) (s : Int × Nat), let r := l.foldl (fun s e => if s.2 < e.2 then e else s) s
      (r = s ∨ r ∈ l) ∧ (0 < s.2 ∨ (∃ e ∈ l, 0 < e.2) → 0 < r.2) := by
    intro l
    induction l with
    | nil => intro s; exact ⟨.inl rfl, fun h => by rcases h with h | ⟨e, he, _⟩; exact h; simp at he⟩
    | cons e l ih =>
      intro s
      obtain ⟨h1, h2⟩ := ih (if s.2 < e.2 then e else s)
      refine ⟨?_, fun h => h2 ?_⟩
      · rcases h1 with h1 | h1
        · simp only [List.foldl_cons]
          rw [h1]
          split
          · exact .inr (by simp)
          · exact .inl rfl
        · exact .inr (List.mem_cons_of_mem _ h1)
      · rcases h with h | ⟨e', he', h⟩
        · left; split <;> omega
        · rcases List.mem_cons.1 he' with rfl | he'
          · left; split <;> omega
          · exact .inr ⟨e', he', h⟩
  obtain ⟨h1, h2⟩ := go l (0, 0)
  cases l with
  | nil => exact absurd rfl hne
  | cons e l =>
    have := h2 (.inr ⟨e, by simp, hpos e (by simp)⟩)
    rcases h1 with h1 | h1
    · rw [h1] at this; simp at this
    · exact ⟨_, h1, rfl⟩

/-- The key found is one of the numbers counted, whatever the order of the hash map. -/
theorem maxKey_counts {order : List (Int × Nat) → List (Int × Nat)} (ho : ∀ l, (order l).Perm l) {l : List Int} (h : l ≠ []) :
    maxKey (order (counts l)) ∈ l := by
  have hp := ho (counts l)
  obtain ⟨e, he, h1⟩ := maxKey_mem (l := order (counts l))
    (fun hc => counts_ne h (by rw [hc] at hp; exact hp.symm.eq_nil)) (fun e he => (counts_mem (hp.mem_iff.1 he)).2)
  rw [← h1]
  exact (counts_mem (hp.mem_iff.1 he)).1

theorem Regular.mode {t0 d : Int} {ts : List Int} (h : Regular t0 d ts) (hn : 3 ≤ ts.length)
    {order : List (Int × Nat) → List (Int × Nat)} (ho : ∀ l, (order l).Perm l) : intervalMode order ts = .ok d := by
  unfold intervalMode
  rw [if_neg (by intro he; rw [he] at hn; simp at hn)]
  have hne : Repair.gaps ts ≠ [] := by rw [h.gaps]; intro hc; have := congrArg List.length hc; simp at this; omega
  have := maxKey_counts ho hne
  rw [h.gaps, List.mem_replicate] at this
  rw [h.gaps, this.2]

theorem lastWith_mem (ts : List Int) (d key : Int) (h : key ∈ ts.map fun t => t.tmod d) : lastWith ts d key ∈ ts := by
  unfold lastWith
  have go : ∀ (ts : List Int) (r : Int), (ts.foldl (fun r t => if t.tmod d = key then t else r) r = r ∧ key ∉ ts.map fun t => t.tmod d) ∨
      ts.foldl (fun r t => if t.tmod d = key then t else r) r ∈ ts := by
    intro ts
    induction ts with
    | nil => intro r; left; simp
    | cons t ts ih =>
      intro r
      simp only [List.foldl_cons]
      rcases ih (if t.tmod d = key then t else r) with ⟨h1, h2⟩ | h1
      · by_cases hk : t.tmod d = key
        · right; rw [h1, if_pos hk]; simp
        · left
          rw [h1, if_neg hk]
          refine ⟨rfl, ?_⟩
          simp only [List.map_cons, List.mem_cons, not_or]
          exact ⟨fun e => hk e.symm, h2⟩
      · right; exact List.mem_cons_of_mem _ h1
  rcases go ts 0 with ⟨_, h2⟩ | h1
  · exact absurd h h2
  · exact h1

theorem stepDown_regular (t0 d : Int) (hd : 0 < d) (i : Nat) : stepDown t0 d (t0 + d * (i : Int)) = t0 := by
  induction i with
  | zero => rw [stepDown, dif_neg (by simp)]; simp
  | succ i ih =>
    have h1 : t0 + d * ((i + 1 : Nat) : Int) - d = t0 + d * (i : Int) := by push_cast; grind
    have h2 : 0 ≤ d * (i : Int) := Int.mul_nonneg (by omega) (by omega)
    rw [stepDown, dif_pos ⟨by omega, hd⟩, h1, ih]

theorem Regular.start {t0 d : Int} {ts : List Int} (h : Regular t0 d ts) (hd : 0 < d) (hn : ts ≠ [])
    {order : List (Int × Nat) → List (Int × Nat)} (ho : ∀ l, (order l).Perm l) (sm : StartBy) : startOf order ts d sm = t0 := by
  cases sm with
  | linear =>
    simp only [startOf, startLinear]
    have : (ts.zipIdx.map fun e => e.1 - (e.2 : Int) * d) = List.replicate ts.length t0 := by
      rw [List.eq_replicate_iff]
      refine ⟨by simp, fun b hb => ?_⟩
      simp only [List.mem_map] at hb
      obtain ⟨e, he, rfl⟩ := hb
      have := h e.2 e.1 (List.mk_mem_zipIdx_iff_getElem?.1 he)
      rw [this]
      grind
    rw [this]
    have hs : (List.replicate ts.length t0).sum = t0 * (ts.length : Int) := by
      rw [List.sum_replicate_int]; grind
    rw [hs, Int.mul_tdiv_cancel]
    cases ts with
    | nil => exact absurd rfl hn
    | cons a l => simp only [List.length_cons]; push_cast; omega
  | mode =>
    simp only [startOf, startMode]
    have h1 := lastWith_mem ts d _ (maxKey_counts ho (l := ts.map fun t => t.tmod d) (by simpa using hn))
    obtain ⟨i, _, hi⟩ := h.mem h1
    rw [hi]
    have : ts.headD 0 = t0 := by
      cases ts with
      | nil => exact absurd rfl hn
      | cons a l => have := h 0 a rfl; simp at this; simp [this]
    rw [this, stepDown_regular t0 d hd]

theorem Regular.size {t0 d : Int} {ts : List Int} (h : Regular t0 d ts) (hd : 0 < d) (hn : ts ≠ []) :
    gridSize t0 d (ts.getLastD 0) = ts.length := by
  have hl : 0 < ts.length := List.length_pos_iff.2 hn
  have : ts.getLastD 0 = t0 + d * ((ts.length - 1 : Nat) : Int) := by
    apply h
    rw [← List.getLast?_eq_getElem?]
    cases ts with
    | nil => exact absurd rfl hn
    | cons a l => rw [List.getLast?_eq_some_getLast (by simp)]; rfl
  unfold gridSize
  rw [this]
  have e : t0 + d * ((ts.length - 1 : Nat) : Int) - t0 + d - 1 = (d - 1) + ((ts.length - 1 : Nat) : Int) * d := by grind
  rw [e, Int.add_mul_ediv_right _ _ (by omega), Int.ediv_eq_zero_of_lt (by omega) (by omega)]
  omega

theorem Regular.walk {t0 d : Int} {ts : List Int} (h : Regular t0 d ts) (vs : List Val) (hv : vs.length = ts.length) (i : Nat)
    (hi : i ≤ ts.length) : walk t0 d ts vs i i = (ts.take i).zip ((vs.take i).map Cell.ofVal) := by
  induction i with
  | zero => simp [Repair.walk]
  | succ i ih =>
    have hlt : i < ts.length := by omega
    have hg : ts.getD i 0 = t0 + d * (i : Int) := by
      rw [List.getD_eq_getElem?_getD, List.getElem?_eq_getElem hlt]
      exact h i _ (List.getElem?_eq_getElem hlt)
    have hop : (table t0 d ts (i + 1) (i + 1)).2 = .nothing := by
      rw [table_succ, entry, if_pos hg]
    rw [Repair.walk, hop]
    simp only
    rw [ih (by omega), List.take_add_one, List.take_add_one, List.map_append, List.zip_append (by simp; omega)]
    congr 1
    have hlt' : i < vs.length := by omega
    rw [List.getElem?_eq_getElem hlt, List.getElem?_eq_getElem hlt']
    have := h i _ (List.getElem?_eq_getElem hlt)
    simp [this, at', List.getElem?_eq_getElem hlt']

/-- **C157 (partial: nothing to repair)**: times at equal distances and their values are returned as they are, whether the interval
is taken from the times or is the one given, for both ways to find the start and every order of the hash maps. -/
theorem C157_regular (order : List (Int × Nat) → List (Int × Nat)) (ho : ∀ l, (order l).Perm l) (iv : IntervalBy) (sm : StartBy)
    (ts : List Int) (vs : List Val) (t0 d : Int) (hd : 0 < d) (hr : Regular t0 d ts) (hn : 3 ≤ ts.length) (hv : vs.length = ts.length)
    (hiv : ∀ ms, iv = .given ms → ms * 1000000 = d) : timestampRepair order iv sm ts vs = .ok (ts.zip (vs.map Cell.ofVal)) := by
  have hne : ts ≠ [] := by intro e; rw [e] at hn; simp at hn
  have hi : intervalOf order ts iv = .ok d := by
    cases iv with
    | mode => exact hr.mode hn ho
    | median => exact hr.median hn
    | given ms =>
      have := hiv ms rfl
      simp only [intervalOf]
      rw [if_neg (by omega), this]
  unfold timestampRepair
  rw [hi]
  simp only
  rw [if_neg (by simp [hne]; omega), hr.start hd hne ho, dpRepair, if_neg (by omega), hr.size hd hne, hr.walk vs hv _ (Nat.le_refl _),
    List.take_of_length_le (Nat.le_refl _), List.take_of_length_le (by omega)]

example : Regular (-5) 10 [-5, 5, 15, 25] := by
  intro i t h
  match i with
  | 0 => simp at h; simp [← h]
  | 1 => simp at h; simp [← h]
  | 2 => simp at h; simp [← h]
  | 3 => simp at h; simp [← h]
  | i + 4 => simp at h

/-! ## Where it fails -/

/-- **C157 is false**: no, one or two rows panic with the default method, although `dp_repair` has a case for them. -/
theorem C157_few_refuted (order : List (Int × Nat) → List (Int × Nat)) (sm : StartBy) (ts : List Int) (vs : List Val) (h : ts.length ≤ 2) :
    timestampRepair order .median sm ts vs = .error .panic := by
  match ts, h with
  | [], _ => rfl
  | [a], _ => rfl
  | [a, b], _ => simp [timestampRepair, intervalOf, intervalMedian, gaps, sortInt, sortBy, insertBy]

/-- `interval=0` is accepted as positive and panics. -/
theorem C157_zero_refuted (order : List (Int × Nat) → List (Int × Nat)) (sm : StartBy) (ts : List Int) (vs : List Val) :
    timestampRepair order (.given 0) sm ts vs = .error .panic := by
  simp [timestampRepair, intervalOf]

/-- Two rows with the same time at most places panic: the median of the distances is zero. -/
theorem C157_same_refuted : ∃ ts vs, timestampRepair id .median .mode ts vs = .error .panic ∧ ts.length = 4 ∧ ts.Pairwise (· ≤ ·) :=
  ⟨[7, 7, 7, 8], [some 1, some 1, some 2, some 3], by with_unfolding_all rfl, rfl, by decide⟩

/-- A second in nanoseconds. -/
abbrev sec : Int := 1000000000

/-- The first time is 990 s, the others are at 2010, 3010, 4010 and 5010 s.  The grid begins at 10 s; the first row is moved to
1010 s and the point at 10 s is inserted: it comes out as a row at the time 0 with the value 0 instead of one at 10 s without a
value. -/
theorem C157_front_refuted : ∃ out, timestampRepair id .median .mode [990 * sec, 2010 * sec, 3010 * sec, 4010 * sec, 5010 * sec]
      [some 1, some 2, some 3, some 4, some 5] = .ok out ∧ out.head? = some (0, .num 0) ∧ ∀ start d n, ¬ Least start d
      [990 * sec, 2010 * sec, 3010 * sec, 4010 * sec, 5010 * sec] [some 1, some 2, some 3, some 4, some 5] n out := by
  refine ⟨[(0, .num 0), (1010 * sec, .num 1), (2010 * sec, .num 2), (3010 * sec, .num 3), (4010 * sec, .num 4), (5010 * sec, .num 5)], ?_, rfl, ?_⟩
  · have h : (match timestampRepair id .median .mode [990 * sec, 2010 * sec, 3010 * sec, 4010 * sec, 5010 * sec]
      [some 1, some 2, some 3, some 4, some 5] with | .ok out => some out | .error _ => none) =
      some [(0, .num 0), (1010 * sec, .num 1), (2010 * sec, .num 2), (3010 * sec, .num 3), (4010 * sec, .num 4), (5010 * sec, .num 5)] := by
      decide +kernel
    split at h
    · rename_i out ho; rw [ho]; simp at h; rw [h]
    · simp at h
  · rintro start d n ⟨c, hm, _⟩
    have hg := hm.grid
    have hlen := congrArg List.length hg
    simp at hlen
    subst hlen
    have h0 := congrArg (fun l : List Int => l[0]?) hg
    have h1 := congrArg (fun l : List Int => l[1]?) hg
    have h2 := congrArg (fun l : List Int => l[2]?) hg
    simp only [sec] at h0 h1 h2; simp at h0 h1 h2
    omega

/-- The property as stated is false. -/
theorem C157_refuted : ¬ C157Full := by
  intro h
  obtain ⟨out, ho, _⟩ := h id .median .mode [1, 2] [some 1, some 2] (fun l => List.Perm.refl _) (by decide) rfl (by intro ms h; simp at h)
  rw [C157_few_refuted id .mode [1, 2] _ (by decide)] at ho
  simp at ho

end Verif.Repair
