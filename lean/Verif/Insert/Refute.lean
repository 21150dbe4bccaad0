import Verif.Insert.Update
import Verif.Write.Refute
/-!
# Where INSERT and UPDATE do something else
-/
namespace Verif.Insert
open Verif.Schema Verif.Write
open Verif.Stats (Val)
open Verif.Utils (Bytes)

/-- A table with the columns `time`, the tag `t` and the fields `a` and `b`. -/
def tab : Table := Table.new [⟨0, "time", .time⟩, ⟨1, "t", .tag⟩, ⟨2, "a", .field .integer⟩, ⟨3, "b", .field .integer⟩]

theorem tab_ok : TableOk tab := by
  have h : createTable [("t", .tag), ("a", .field .integer), ("b", .field .integer)] = some tab := by rfl
  refine ⟨createTable_wf h, ⟨⟨0, "time", .time⟩, by decide, rfl⟩, ?_⟩
  decide

/-- Values are of the type of the column or refused. -/
def cast0 (k : Kind) (v : Val) : Except Err Val := if tyOf v = tyOfKind k then .ok v else .error .error

theorem cast0_ok : CastOk cast0 := by
  intro k s v h
  unfold cast0 at h
  split at h
  · cases h; assumption
  · cases h

theorem cast0_id : CastId cast0 := by
  intro k v h
  unfold cast0
  rw [if_pos h]

/-- Everything goes to one set. -/
def env0 : Env := ⟨some, fun _ _ => .ok 0, false, fun _ => true⟩

/-! ## INSERT -/

/-- `INSERT INTO m (time, t, b) VALUES (5, 'x', 2)`, and a second row without a tag. -/
def someRows : List (List (List (Option Val))) := [[[some (.int 5#64), some (.str [120#8]), some (.int 2#64)],
  [some (.int 6#64), none, some (.int 3#64)]]]

/-- The hypotheses of `C149_insert_partial` are met. -/
example : (insert cast0 env0 tab (some tab) ["time", "t", "b"] 3 someRows).res = .ok 2 ∧
    (insert cast0 env0 tab (some tab) ["time", "t", "b"] 3 someRows).stored =
      [(0, [([(1, [120#8])], ⟨5, [none, some (.int 2#64)]⟩), ([], ⟨6, [none, some (.int 3#64)]⟩)])] ∧
    (columnNames tab ["time", "t", "b"]).Nodup ∧
    (∀ rows ∈ someRows, ∀ r ∈ rows, HasTime tab (columnNames tab ["time", "t", "b"]) r) := by
  refine ⟨by rfl, by rfl, by decide, ?_⟩
  intro rows hrows r hr c hc hk
  rw [(tab_ok.time c hc).1 hk]
  simp only [someRows, List.mem_singleton] at hrows
  subst hrows
  simp only [List.mem_cons, List.not_mem_nil, or_false] at hr
  rcases hr with rfl | rfl
  · exact ⟨0, .int 5#64, rfl, rfl⟩
  · exact ⟨0, .int 6#64, rfl, rfl⟩

/-- `INSERT INTO m (time, a) SELECT time, a, b FROM …`: the third column of the source is dropped. -/
theorem C149_extra_refuted : ¬ C149Full := by
  intro h
  have := h Val cast0 env0 tab ["time", "a"] 3 [[[some (.int 5#64), some (.int 1#64), some (.int 2#64)]]] 1 cast0_ok tab_ok (by decide) (by rfl)
  exact absurd this.2.1 (by decide)

/-- `INSERT INTO m (time, a, a) VALUES (5, 1, 2)`: the second value is dropped. -/
theorem C149_twice_refuted : ¬ C149Full := by
  intro h
  have := h Val cast0 env0 tab ["time", "a", "a"] 3 [[[some (.int 5#64), some (.int 1#64), some (.int 2#64)]]] 1 cast0_ok tab_ok (by decide) (by rfl)
  exact absurd this.1 (by decide)

/-- `INSERT INTO m (a) VALUES (1)` is accepted; the row is stored with the time 0. -/
theorem no_time : (insert cast0 env0 tab (some tab) ["a"] 1 [[[some (.int 1#64)]]]).res = .ok 1 ∧
    (insert cast0 env0 tab (some tab) ["a"] 1 [[[some (.int 1#64)]]]).stored = [(0, [([], ⟨0, [some (.int 1#64), none]⟩)])] := ⟨by rfl, by rfl⟩

theorem C149_time_refuted : ¬ C149Full := by
  intro h
  obtain ⟨_, _, _, ps, h1, h2, _⟩ := h Val cast0 env0 tab ["a"] 1 [[[some (.int 1#64)]]] 1 cast0_ok tab_ok (by decide) no_time.1
  cases ps with
  | nil => cases h1
  | cons p ps =>
    obtain ⟨c, hc, hk, v, ⟨j, s, hj, _⟩, _⟩ := (h2 0 _ p rfl rfl).1.time
    rw [(tab_ok.time c hc).1 hk] at hj
    cases j with
    | zero => exact absurd hj (by decide)
    | succ j => cases hj

/-- A statement that is refused or fails has stored nothing. -/
def C149Atomic : Prop := ∀ (S : Type) (cast : Kind → S → Except Err Val) (env : Env) (t : Table) (names : List String) (n : Nat)
  (src : List (List (List (Option S)))) (e : Err), CastOk cast → TableOk t → (∀ rows ∈ src, ∀ r ∈ rows, r.length = n) →
  (insert cast env t (some t) names n src).res = .error e → (insert cast env t (some t) names n src).stored = []

/-- The second batch of a source has a row without fields: the INSERT fails, the rows of the first batch stay. -/
theorem C149_half_refuted : ¬ C149Atomic := by
  intro h
  have := h Val cast0 env0 tab ["time", "a"] 2 [[[some (.int 5#64), some (.int 1#64)]], [[some (.int 6#64), none]]] .error cast0_ok tab_ok
    (by decide) (by rfl)
  revert this
  have h2 : (insert cast0 env0 tab (some tab) ["time", "a"] 2 [[[some (.int 5#64), some (.int 1#64)]], [[some (.int 6#64), none]]]).stored =
      [(0, [([], ⟨5, [some (.int 1#64), none]⟩)])] := by rfl
  rw [h2]
  simp

/-- An INSERT leaves the schema as it is, also if a column has been dropped since it was planned. -/
def C149Schema : Prop := ∀ (conv : Int → Option Int) (t cur t' : Table) (rows : List (List (Option Val))) (out : List (List (Nat × Bytes) × Row)),
  TableOk t → TableOk cur → (∀ c ∈ cur.cols, c ∈ t.cols) → (∀ r ∈ rows, RowOk t r) →
  (msgOf t rows).write conv false (some cur) = .ok (t', out) → t'.cols = cur.cols

/-- The table after `ALTER TABLE m DROP b`. -/
def tabDropped : Table := (Change.drop "b").run tab

/-- `INSERT INTO m (time, a) VALUES (5, 1)`, planned before the column `b` was dropped, makes it again, although it has no
value for it. -/
theorem C149_schema_refuted : ¬ C149Schema := by
  intro h
  have hv : view ((msgOf tab [[some (.int 5#64), none, some (.int 1#64), none]]).write some false (some tabDropped)) =
      .ok ([⟨0, "time", .time⟩, ⟨1, "t", .tag⟩, ⟨2, "a", .field .integer⟩, ⟨4, "b", .field .integer⟩], [([], ⟨5, [some (.int 1#64), none]⟩)]) := by
    decide +kernel
  obtain ⟨h1, h2⟩ := okD_eq hv
  have hd : TableOk tabDropped := by
    refine ⟨(change_ok tab_ok.wf (.drop "b")).1, ⟨⟨0, "time", .time⟩, by decide +kernel, rfl⟩, by decide +kernel⟩
  have := h some tab tabDropped _ _ _ tab_ok hd (by decide +kernel) (by
    intro r hr
    simp only [List.mem_singleton] at hr
    subst hr
    refine ⟨rfl, ?_, ?_⟩
    · intro j c v hj hv
      match j with
      | 0 => cases hj; cases hv; rfl
      | 1 => cases hv
      | 2 => cases hj; cases hv; rfl
      | 3 => cases hv
      | j + 4 => cases hj
    · intro j c hj hk
      match j with
      | 0 => simp [cellAt]
      | 1 => cases hj; cases hk
      | 2 => cases hj; cases hk
      | 3 => cases hj; cases hk
      | j + 4 => cases hj) h1
  rw [h2] at this
  revert this
  decide +kernel

/-! ## UPDATE -/

/-- The rows `t=x, time 5: a=1, b=2` and `t=y, time 5: a=3`. -/
def hist : Hist := [([(1, [120#8])], ⟨5, [some (.int 1#64), some (.int 2#64)]⟩), ([(1, [121#8])], ⟨5, [some (.int 3#64), none]⟩)]

theorem hist_ok : HistOk tab hist := by
  refine ⟨by decide, by decide, by decide +kernel, by decide, ?_⟩
  intro p hp j id v hj hv c hc hid
  have hids : fieldIds tab.cols = [2, 3] := by decide +kernel
  rw [hids] at hj
  simp only [hist, List.mem_cons, List.not_mem_nil, or_false] at hp
  simp only [tab, Table.new, List.mem_cons, List.not_mem_nil, or_false] at hc
  rcases hp with rfl | rfl
  all_goals
    match j with
    | 0 =>
      simp only [List.getElem?_cons_zero, Option.some.injEq] at hj hv
      subst hj hv
      rcases hc with rfl | rfl | rfl | rfl <;> simp_all [tyOf, tyOfKind]
    | 1 =>
      simp only [List.getElem?_cons_succ, List.getElem?_cons_zero, Option.some.injEq] at hj hv
      subst hj
      first
        | (subst hv; rcases hc with rfl | rfl | rfl | rfl <;> simp_all [tyOf, tyOfKind])
        | cases hv
    | j + 2 => cases hj

/-- The points of the table. -/
def points : List (List (Nat × Bytes) × Int) := [([(1, [120#8])], 5), ([(1, [121#8])], 5)]

theorem scan_ok : Scan tab hist points [points.map (scanRow tab hist)] := by
  refine ⟨by decide, ?_, by simp⟩
  intro k ts
  simp only [points, Present, hist, List.mem_cons, List.not_mem_nil, or_false, Prod.mk.injEq]
  constructor
  · rintro (⟨rfl, rfl⟩ | ⟨rfl, rfl⟩)
    · exact ⟨_, .inl rfl, rfl, rfl⟩
    · exact ⟨_, .inr rfl, rfl, rfl⟩
  · rintro ⟨p, rfl | rfl, rfl, rfl⟩ <;> simp

/-- `WHERE t = 'x'`. -/
def whereX (r : List (Option Val)) : Bool := decide (cellAt r 1 = some (.str [120#8]))

/-- `UPDATE m SET a = 7 WHERE t = 'x'` meets the hypotheses of `C150_update_partial`. -/
example : (update cast0 env0 tab (some tab) [("a", fun _ => some (.int 7#64))] whereX [points.map (scanRow tab hist)]).res = .ok 1 ∧
    (update cast0 env0 tab (some tab) [("a", fun _ => some (.int 7#64))] whereX [points.map (scanRow tab hist)]).stored =
      [(0, [([(1, [120#8])], ⟨5, [some (.int 7#64), some (.int 2#64)]⟩)])] ∧
    ∀ s ∈ ([("a", fun _ => some (.int 7#64))] : List (String × (List (Option Val) → Option Val))), ∀ pt ∈ points,
      whereX (scanRow tab hist pt) = true → s.2 (scanRow tab hist pt) ≠ none := by
  refine ⟨by rfl, by rfl, ?_⟩
  intro s hs pt _ _
  simp only [List.mem_singleton] at hs
  subst hs
  simp

/-- `UPDATE m SET a = NULL WHERE t = 'x'` reports one row and changes nothing. -/
theorem C150_null_refuted : ¬ C150Full := by
  intro h
  have := (h cast0 env0 tab hist points [points.map (scanRow tab hist)] [("a", fun _ => none)] whereX 1 cast0_ok cast0_id tab_ok hist_ok
    scan_ok rfl (by simp) (by rfl)).2.2 [(1, [120#8])] 5 0 ⟨2, "a", .field .integer⟩ (by decide) (by rfl) (by decide +kernel)
  have hs : setTo ([("a", fun _ => none)] : List (String × (List (Option Val) → Option Val))) "a" = some fun _ => none := rfl
  rw [hs] at this
  simp only at this
  rw [if_pos ⟨by decide, by decide +kernel⟩] at this
  have hv : value ((update cast0 env0 tab (some tab) [("a", fun _ => none)] whereX [points.map (scanRow tab hist)]).after hist) [(1, [120#8])] 5 0 =
      some (.int 1#64) := by rfl
  rw [hv] at this
  cases this

/-- Between the scan of `UPDATE m SET a = 7 WHERE t = 'x'` and its writes another client writes `m,t=x b=9 5`: that value is
lost. -/
theorem C151_lost_refuted : ¬ C151Full := by
  intro h
  have h2 : HistOk tab [([(1, [120#8])], ⟨5, [none, some (.int 9#64)]⟩)] := by
    refine ⟨by decide, by decide, by decide +kernel, by decide, ?_⟩
    intro p hp j id v hj hv c hc hid
    have hids : fieldIds tab.cols = [2, 3] := by decide +kernel
    rw [hids] at hj
    simp only [List.mem_singleton] at hp
    simp only [tab, Table.new, List.mem_cons, List.not_mem_nil, or_false] at hc
    subst hp
    match j with
    | 0 => cases hv
    | 1 =>
      simp only [List.getElem?_cons_succ, List.getElem?_cons_zero, Option.some.injEq] at hj hv
      subst hj hv
      rcases hc with rfl | rfl | rfl | rfl <;> simp_all [tyOf, tyOfKind]
    | j + 2 => cases hj
  have := h cast0 env0 tab hist [([(1, [120#8])], ⟨5, [none, some (.int 9#64)]⟩)] points [points.map (scanRow tab hist)]
    [("a", fun _ => some (.int 7#64))] whereX 1 cast0_ok cast0_id tab_ok hist_ok h2 scan_ok rfl (by rfl)
    [(1, [120#8])] 5 1 ⟨3, "b", .field .integer⟩ (by decide) (by rfl) (by decide +kernel) (by rfl)
  have e1 : value ((update cast0 env0 tab (some tab) [("a", fun _ => some (.int 7#64))] whereX [points.map (scanRow tab hist)]).after
      (hist ++ [([(1, [120#8])], ⟨5, [none, some (.int 9#64)]⟩)])) [(1, [120#8])] 5 1 = some (.int 2#64) := by rfl
  have e2 : value (hist ++ [([(1, [120#8])], ⟨5, [none, some (.int 9#64)]⟩)]) [(1, [120#8])] 5 1 = some (.int 9#64) := by rfl
  rw [e1, e2] at this
  exact absurd this (by decide)

end Verif.Insert
