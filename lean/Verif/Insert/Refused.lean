import Verif.Insert.Refute
/-!
# What INSERT and UPDATE refuse (C149, C150)
-/
namespace Verif.Insert
open Verif.Schema Verif.Write
open Verif.Stats (Val)
open Verif.Utils (Bytes)

/-- An INSERT that names more columns than the source has, or a column the table does not have, fails and stores nothing. -/
theorem C149_refused {S : Type} (cast : Kind → S → Except Err Val) (env : Env) (t : Table) (cur : Option Table) (names : List String)
    (n : Nat) (src : List (List (List (Option S)))) (h : n < names.length ∨ ∃ x ∈ names, ∀ c ∈ t.cols, c.name ≠ x) :
    insert cast env t cur names n src = ⟨[], .error .error⟩ := by
  have hne : names ≠ [] := by
    rcases h with h | ⟨x, hx, _⟩
    · intro e; rw [e] at h; simp at h
    · intro e; rw [e] at hx; simp at hx
  have hc : columnNames t names = names := by rw [columnNames, if_neg hne]
  have : check t (columnNames t names) n = false := by
    rw [hc]
    unfold check
    rcases h with h | ⟨x, hx, hn⟩
    · have : decide (names.length ≤ n) = false := by simp; exact h
      simp [this]
    · have : (names.all fun x => t.cols.any fun c => decide (c.name = x)) = false := by
        rw [List.all_eq_false]
        exact ⟨x, hx, by simp; exact hn⟩
      simp [this]
  unfold insert
  rw [this]
  rfl

example : (3 : Nat) < ["time", "t", "a", "b"].length := by decide

theorem collect_error {α : Type} {l : List (Except Err α)} {e : Err} (h : .error e ∈ l) : ∃ e', collect l = .error e' := by
  induction l with
  | nil => simp at h
  | cons a l ih =>
    cases a with
    | error e' => exact ⟨e', by simp [collect]⟩
    | ok v =>
      obtain ⟨e', he⟩ := ih (by simpa using h)
      exact ⟨e', by simp [collect, he, Except.map]⟩

/-- A batch with a row that has no value for any field is refused, and none of its rows are stored. -/
theorem C149_no_field (conv : Int → Option Int) (route : List (String × Bytes) → Int → Except Err Nat) (strict : Bool)
    (up : Nat → Bool) (t : Table) (cur : Option Table) (rows : List (List (Option Val))) (r : List (Option Val)) (hr : r ∈ rows)
    (h : ∀ e ∈ t.cols.zip r, e.1.isField = true → e.2 = none) :
    (writeBatch conv route strict up t cur rows).stored = [] ∧ ∃ e, (writeBatch conv route strict up t cur rows).res = .error e := by
  have hf : hasField t r = false := by
    unfold hasField cellsOf
    rw [List.any_eq_false]
    intro e he hh
    simp only [Bool.and_eq_true] at hh
    rw [h e he hh.1] at hh
    simp at hh
  have hl : ∃ e, locate conv route t r = .error e := by
    unfold locate
    split
    · exact ⟨_, rfl⟩
    · split
      · exact ⟨_, rfl⟩
      · rw [hf]; exact ⟨_, rfl⟩
  obtain ⟨e, he⟩ := hl
  obtain ⟨e', he'⟩ := collect_error (l := rows.map fun r => (locate conv route t r).map fun n => (n, r)) (e := e)
    (List.mem_map.2 ⟨r, hr, by rw [he]; rfl⟩)
  unfold writeBatch
  rw [he']
  exact ⟨rfl, e', rfl⟩

example : ∀ e ∈ tab.cols.zip [some (.int 5#64), some (.str [120#8]), none, none], e.1.isField = true → e.2 = (none : Option Val) := by
  decide

/-- A row without a time goes to the set for the time 0 (it is stored with the time 0: `C149_time_refuted`). -/
theorem C149_null_time_refuted (conv : Int → Option Int) (route : List (String × Bytes) → Int → Except Err Nat) (t : Table)
    (r : List (Option Val)) (c : Col) (ts : Int) (hc : (t.cols.zip r).find? (fun e => decide (e.1.name = "time")) = some (c, none))
    (hconv : conv 0 = some ts) (hf : ∃ e ∈ t.cols.zip r, e.1.isField = true ∧ e.2 ≠ none) :
    locate conv route t r = route (hashTags t r) ts := by
  have hf' : hasField t r = true := by
    unfold hasField cellsOf
    rw [List.any_eq_true]
    obtain ⟨e, he, h1, h2⟩ := hf
    refine ⟨e, he, ?_⟩
    cases h3 : e.2 with
    | none => exact absurd h3 h2
    | some v => simp [h1]
  have ht : timeCell t r = some 0#64 := by
    unfold timeCell cellsOf
    rw [hc]
    rfl
  unfold locate
  rw [ht]
  have h0 : (0#64 : BitVec 64).toInt = 0 := by decide
  simp only [h0, hconv, hf', if_true]

/-- `INSERT INTO m (time, a, b) VALUES (5, 1, 2)`, planned before `ALTER TABLE m DROP a`: the row is stored by the schema the vnode
has, where `a` comes behind `b` as a new column; the value for the dropped column is not refused. -/
theorem C149_dropped_refuted :
    (insert cast0 env0 tab (some ((Change.drop "a").run tab)) ["time", "a", "b"] 3 [[[some (.int 5#64), some (.int 1#64), some (.int 2#64)]]]).res = .ok 1 ∧
    (insert cast0 env0 tab (some ((Change.drop "a").run tab)) ["time", "a", "b"] 3 [[[some (.int 5#64), some (.int 1#64), some (.int 2#64)]]]).stored =
      [(0, [([], ⟨5, [some (.int 2#64), some (.int 1#64)]⟩)])] := by
  exact ⟨by with_unfolding_all rfl, by with_unfolding_all rfl⟩

theorem collect_mem {α β : Type} {f : α → Except Err β} {l : List α} {out : List β} (h : collect (l.map f) = .ok out) :
    ∀ a ∈ l, ∃ b ∈ out, f a = .ok b := by
  induction l generalizing out with
  | nil => intro a ha; simp at ha
  | cons x l ih =>
    intro a ha
    simp only [List.map_cons] at h
    cases hx : f x with
    | error e => rw [hx] at h; simp [collect] at h
    | ok v =>
      rw [hx] at h
      cases hc : collect (l.map f) with
      | error e => simp [collect, hc, Except.map] at h
      | ok vs =>
        simp [collect, hc, Except.map] at h
        subst h
        rcases List.mem_cons.1 ha with rfl | ha
        · exact ⟨v, by simp, hx⟩
        · obtain ⟨b, hb, hfb⟩ := ih hc a ha
          exact ⟨b, by simp [hb], hfb⟩

/-- An UPDATE that does not fail as `update` sets nothing but fields of the table: no time, no tag, no mix and no column the
table does not have. -/
theorem C150_kinds {cast : Kind → Val → Except Err Val} {env : Env} {t : Table} {cur : Option Table}
    {sets : List (String × (List (Option Val) → Option Val))} {p : List (Option Val) → Bool} {scan : List (List (List (Option Val)))} {n : Nat}
    (hu : (update cast env t cur sets p scan).res = .ok n) : ∀ s ∈ sets, ∃ c, t.column s.1 = some c ∧ c.isField = true := by
  unfold update at hu
  split at hu
  · rename_i hk
    unfold updateKind at hk
    split at hk
    · simp at hk
    · rename_i cs hcs
      split at hk
      · simp at hk
      · split at hk
        · simp at hk
        · split at hk
          · rename_i hall
            intro s hs
            obtain ⟨c, hc, he⟩ := collect_mem hcs s.1 (List.mem_map.2 ⟨s, hs, rfl⟩)
            refine ⟨c, ?_, List.all_eq_true.1 hall c hc⟩
            split at he
            · rename_i h1; simp at he; rw [h1, he]
            · simp at he
          · simp at hk
  · simp at hu

/-- What kind of UPDATE it is: of tags only if all its columns are tags. -/
theorem C150_tags {t : Table} {cols : List String} (h : updateKind t cols = some .tag) :
    ∀ x ∈ cols, ∃ c, t.column x = some c ∧ c.isTag = true := by
  unfold updateKind at h
  split at h
  · simp at h
  · rename_i cs hcs
    split at h
    · simp at h
    · split at h
      · rename_i hall
        intro x hx
        obtain ⟨c, hc, he⟩ := collect_mem hcs x hx
        refine ⟨c, ?_, List.all_eq_true.1 hall c hc⟩
        split at he
        · rename_i h1; simp at he; rw [h1, he]
        · simp at he
      · split at h
        · simp at h
        · simp at h

example : updateKind tab ["t"] = some .tag ∧ updateKind tab ["a", "b"] = some .field ∧ updateKind tab ["a", "t"] = none := by
  decide +kernel

end Verif.Insert
