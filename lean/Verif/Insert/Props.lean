import Verif.Insert.Rows
/-!
# C149: an INSERT stores the rows it is given
-/
namespace Verif.Insert
open Verif.Schema Verif.Write
open Verif.Stats (Val)
open Verif.Utils (Bytes)

/-! ## What a row should become -/

/-- A row of the source gives a value to a column: at the place of its name. -/
def Gives {S : Type} (cast : Kind → S → Except Err Val) (names : List String) (row : List (Option S)) (c : Col) (v : Val) : Prop :=
  ∃ (j : Nat) (s : S), names[j]? = some c.name ∧ row[j]? = some (some s) ∧ cast c.kind s = .ok v

/-- A row of the source is stored: its tags are the key, its fields the values, and nothing else; its time is the one given. -/
structure Stored {S : Type} (cast : Kind → S → Except Err Val) (conv : Int → Option Int) (t : Table) (names : List String)
    (row : List (Option S)) (p : List (Nat × Bytes) × Row) : Prop where
  tags : ∀ id b, (id, b) ∈ p.1 ↔ ∃ c ∈ t.cols, c.id = id ∧ c.kind = .tag ∧ Gives cast names row c (.str b)
  distinct : (p.1.map (·.1)).Nodup
  sorted : sortTags p.1 = p.1
  width : p.2.fields.length = (fieldIds t.cols).length
  values : ∀ (i : Nat) (id : Nat) (v : Val), (fieldIds t.cols)[i]? = some id → (p.2.fields[i]? = some (some v) ↔
    ∃ c ∈ t.cols, c.id = id ∧ c.isField = true ∧ Gives cast names row c v)
  time : ∃ c ∈ t.cols, c.kind = .time ∧ ∃ v, Gives cast names row c (.int v) ∧ conv v.toInt = some p.2.ts
  /-- no value is dropped because it has another type -/
  casts : ∀ c ∈ t.cols, ∀ (j : Nat) s, names[j]? = some c.name → row[j]? = some (some s) → ∃ v, cast c.kind s = .ok v

/-- What a set has stored, in order. -/
def Outcome.storedIn (o : Outcome) (n : Nat) : List (List (Nat × Bytes) × Row) := (o.stored.filter fun e => decide (e.1 = n)).flatMap (·.2)

/-- What is hashed and the time by which a row of the source is located. -/
structure Located {S : Type} (cast : Kind → S → Except Err Val) (env : Env) (t : Table) (names : List String) (row : List (Option S)) (n : Nat) :
    Prop where
  set : ∃ (tags : List (String × Bytes)) (ts : Int), env.route tags ts = .ok n ∧
    tags.map (·.1) = (t.cols.filter fun c => decide (c.kind = .tag)).map Col.name ∧
    (∀ c ∈ t.cols, c.kind = .tag → ∀ b, Gives cast names row c (.str b) → (c.name, b) ∈ tags) ∧
    ∃ c ∈ t.cols, c.kind = .time ∧ ∃ v, Gives cast names row c (.int v) ∧ env.conv v.toInt = some ts

/-- The rows of an accepted INSERT are stored, one for one and in order, each in the set it belongs to; the number of rows is
reported. -/
def StoredAll {S : Type} (cast : Kind → S → Except Err Val) (env : Env) (t : Table) (names : List String)
    (src : List (List (List (Option S)))) (n : Nat) (o : Outcome) : Prop :=
  n = src.flatten.length ∧ ∃ ps : List (Nat × (List (Nat × Bytes) × Row)), ps.length = src.flatten.length ∧
    (∀ (i : Nat) row p, src.flatten[i]? = some row → ps[i]? = some p →
      Stored cast env.conv t names row p.2 ∧ Located cast env t names row p.1) ∧
    ∀ k, o.storedIn k = (ps.filter fun p => decide (p.1 = k)).map (·.2)

/-- Casts give values of the type of the column. -/
def CastOk {S : Type} (cast : Kind → S → Except Err Val) : Prop := ∀ k s v, cast k s = .ok v → tyOf v = tyOfKind k

/-- An INSERT is accepted only if it names no column twice and gives a value for each name, and then its rows are stored. -/
def C149Full : Prop := ∀ (S : Type) (cast : Kind → S → Except Err Val) (env : Env) (t : Table) (names : List String) (n : Nat)
  (src : List (List (List (Option S)))) (k : Nat), CastOk cast → TableOk t → (∀ rows ∈ src, ∀ r ∈ rows, r.length = n) →
  (insert cast env t (some t) names n src).res = .ok k →
  (columnNames t names).Nodup ∧ (columnNames t names).length = n ∧
    StoredAll cast env t (columnNames t names) src k (insert cast env t (some t) names n src)

/-! ## The projection -/

theorem assigned_iff {S : Type} {names : List String} (hn : names.Nodup) {row : List (Option S)} {c : Col} {s : S} :
    assigned names row c = some s ↔ ∃ j : Nat, names[j]? = some c.name ∧ row[j]? = some (some s) := by
  unfold assigned
  constructor
  · intro h
    cases hf : (names.zip row).find? (fun e => decide (e.1 = c.name)) with
    | none => rw [hf] at h; cases h
    | some e =>
      rw [hf] at h
      simp only [Option.bind_some] at h
      have h1 := List.find?_some hf
      obtain ⟨j, hj⟩ := List.getElem?_of_mem (List.mem_of_find?_eq_some hf)
      rw [List.getElem?_zip_eq_some] at hj
      refine ⟨j, ?_, ?_⟩
      · rw [hj.1]; simpa using h1
      · rw [hj.2, h]
  · rintro ⟨j, h1, h2⟩
    have hm : (c.name, some s) ∈ names.zip row := by
      apply List.mem_of_getElem? (i := j)
      rw [List.getElem?_zip_eq_some]
      exact ⟨h1, h2⟩
    cases hf : (names.zip row).find? (fun e => decide (e.1 = c.name)) with
    | none =>
      have := List.find?_eq_none.1 hf _ hm
      simp at this
    | some e =>
      have h3 := List.find?_some hf
      obtain ⟨i, hi⟩ := List.getElem?_of_mem (List.mem_of_find?_eq_some hf)
      rw [List.getElem?_zip_eq_some] at hi
      obtain ⟨l1, e1⟩ := List.getElem?_eq_some_iff.1 hi.1
      obtain ⟨l2, e2⟩ := List.getElem?_eq_some_iff.1 h1
      have hij := (List.Nodup.getElem_inj_iff hn (i := i) (j := j) (hi := l1) (hj := l2)).1 (by rw [e1, e2]; simpa using h3)
      subst hij
      rw [hi.2] at h2
      simpa using h2

/-- The cells of the projection. -/
theorem project_ok {S : Type} {cast : Kind → S → Except Err Val} {t : Table} {names : List String} {row : List (Option S)}
    {r : List (Option Val)} (h : projectRow cast t names row = .ok r) : r.length = t.cols.length ∧
    ∀ (j : Nat) c, t.cols[j]? = some c → match assigned names row c with
      | none => cellAt r j = none
      | some s => ∃ v, cast c.kind s = .ok v ∧ cellAt r j = some v := by
  unfold projectRow at h
  rw [collect_ok] at h
  have hlen := congrArg List.length h
  simp only [List.length_map] at hlen
  refine ⟨hlen.symm, ?_⟩
  intro j c hj
  have h1 := congrArg (fun z => z[j]?) h
  simp only [List.getElem?_map, hj, Option.map_some] at h1
  obtain ⟨hlt, _⟩ := List.getElem?_eq_some_iff.1 hj
  have hlt' : j < r.length := by omega
  rw [List.getElem?_eq_getElem hlt'] at h1
  simp only [Option.map_some, Option.some.injEq] at h1
  unfold cellAt
  rw [List.getElem?_eq_getElem hlt']
  cases ha : assigned names row c with
  | none =>
    rw [ha] at h1
    simp only [Except.ok.injEq] at h1
    simp [← h1]
  | some s =>
    rw [ha] at h1
    simp only at h1
    cases hc : cast c.kind s with
    | error e => rw [hc] at h1; cases h1
    | ok v =>
      rw [hc] at h1
      simp only [Except.map, Except.ok.injEq] at h1
      exact ⟨v, hc, by simp [← h1]⟩

theorem cell_iff_gives {S : Type} {cast : Kind → S → Except Err Val} {t : Table} {names : List String} (hn : names.Nodup)
    {row : List (Option S)} {r : List (Option Val)} (h : projectRow cast t names row = .ok r) {c : Col} {v : Val} :
    (c, some v) ∈ cellsOf t r ↔ c ∈ t.cols ∧ Gives cast names row c v := by
  obtain ⟨hlen, hcell⟩ := project_ok h
  rw [mem_cellsOf hlen]
  constructor
  · rintro ⟨j, hj, hv⟩
    refine ⟨List.mem_of_getElem? hj, ?_⟩
    have := hcell j c hj
    cases ha : assigned names row c with
    | none => rw [ha] at this; simp only at this; rw [this] at hv; cases hv
    | some s =>
      rw [ha] at this
      obtain ⟨v', h1, h2⟩ := this
      rw [h2] at hv
      cases hv
      obtain ⟨i, hi1, hi2⟩ := (assigned_iff hn).1 ha
      exact ⟨i, s, hi1, hi2, h1⟩
  · rintro ⟨hc, i, s, hi1, hi2, hv⟩
    obtain ⟨j, hj⟩ := List.getElem?_of_mem hc
    refine ⟨j, hj, ?_⟩
    have := hcell j c hj
    rw [(assigned_iff hn).2 ⟨i, hi1, hi2⟩] at this
    obtain ⟨v', h1, h2⟩ := this
    rw [hv] at h1
    cases h1
    exact h2

/-- Every row of the source has a time. -/
def HasTime {S : Type} (t : Table) (names : List String) (row : List (Option S)) : Prop :=
  ∀ c ∈ t.cols, c.kind = .time → ∃ (j : Nat) (s : S), names[j]? = some c.name ∧ row[j]? = some (some s)

theorem project_rowOk {S : Type} {cast : Kind → S → Except Err Val} (hco : CastOk cast) {t : Table} {names : List String} (hn : names.Nodup)
    {row : List (Option S)} (htm : HasTime t names row) {r : List (Option Val)} (h : projectRow cast t names row = .ok r) : RowOk t r := by
  obtain ⟨hlen, hcell⟩ := project_ok h
  refine ⟨hlen, ?_, ?_⟩
  · intro j c v hj hv
    obtain ⟨_, i, s, _, _, h3⟩ := (cell_iff_gives hn h).1 ((mem_cellsOf hlen).2 ⟨j, hj, hv⟩)
    exact hco _ _ _ h3
  · intro j c hj hk
    obtain ⟨i, s, h1, h2⟩ := htm c (List.mem_of_getElem? hj) hk
    have := hcell j c hj
    rw [(assigned_iff hn).2 ⟨i, h1, h2⟩] at this
    obtain ⟨v, _, h4⟩ := this
    rw [h4]
    simp

/-! ## The rows of the vnode -/

theorem key_mem {t : Table} (ht : TableOk t) {r : List (Option Val)} (hr : RowOk t r) {id : Nat} {b : Bytes} :
    (id, b) ∈ (lineOf t r).key t ↔ ∃ c ∈ t.cols, c.id = id ∧ c.kind = .tag ∧ (c, some (.str b)) ∈ cellsOf t r := by
  unfold Line.key sortTags
  rw [(Sort.sortBy_perm _ _).mem_iff, List.mem_filterMap]
  constructor
  · rintro ⟨x, hx, he⟩
    obtain ⟨c, hc, hk, hn, hm⟩ := tag_col hr.width hx
    rw [(column_some ht.wf).2 ⟨hc, hn⟩] at he
    simp only [Option.map_some, Option.some.injEq, Prod.mk.injEq] at he
    exact ⟨c, hc, he.1, hk, by rw [← he.2]; exact hm⟩
  · rintro ⟨c, hc, rfl, hk, hm⟩
    refine ⟨(c.name, b), List.mem_filterMap.2 ⟨_, hm, ?_⟩, ?_⟩
    · simp only [hk]
    · simp [(column_some ht.wf).2 ⟨hc, rfl⟩]

theorem key_distinct {t : Table} (ht : TableOk t) {r : List (Option Val)} (hr : RowOk t r) : (((lineOf t r).key t).map (·.1)).Nodup := by
  unfold Line.key sortTags
  rw [((Sort.sortBy_perm _ _).map _).nodup_iff]
  have := tags_nodup ht.wf (items_nodup ht hr.width)
  rwa [items_tags] at this

theorem field_mem {t : Table} {r : List (Option Val)} (hr : RowOk t r) (ht : TableOk t) {c : Col} (hc : c ∈ t.cols) (hf : c.isField = true) {v : Val} :
    (c.name, v) ∈ (lineOf t r).fields ↔ (c, some v) ∈ cellsOf t r := by
  constructor
  · intro hm
    obtain ⟨c', hc', _, hn, hm'⟩ := field_col hr.width hm
    rw [← eq_of_name ht.wf hc' hc hn]
    exact hm'
  · intro hm
    refine List.mem_filterMap.2 ⟨_, hm, ?_⟩
    unfold Col.isField at hf
    cases hck : c.kind <;> simp [hck] at hf ⊢

theorem sortTags_idem (l : List (Nat × Bytes)) (hn : (l.map (·.1)).Nodup) : sortTags (sortTags l) = sortTags l :=
  sortTags_perm (Sort.sortBy_perm _ _) (((Sort.sortBy_perm _ l).map _).nodup_iff.2 hn)

theorem stored_row {S : Type} {cast : Kind → S → Except Err Val} (hco : CastOk cast) {conv : Int → Option Int} {t : Table} (ht : TableOk t)
    {names : List String} (hn : names.Nodup) {row : List (Option S)} (htm : HasTime t names row) {r : List (Option Val)}
    (h : projectRow cast t names row = .ok r) (hf : Fits conv t (lineOf t r)) :
    Stored cast conv t names row ((lineOf t r).key t, (lineOf t r).row conv t) := by
  have hr := project_rowOk hco hn htm h
  refine ⟨?_, key_distinct ht hr, ?_, by simp [Line.row], ?_, ?_, ?_⟩
  · intro id b
    rw [key_mem ht hr]
    constructor
    · rintro ⟨c, hc, h1, h2, h3⟩
      exact ⟨c, hc, h1, h2, ((cell_iff_gives hn h).1 h3).2⟩
    · rintro ⟨c, hc, h1, h2, h3⟩
      exact ⟨c, hc, h1, h2, (cell_iff_gives hn h).2 ⟨hc, h3⟩⟩
  · unfold Line.key
    refine sortTags_idem _ ?_
    have := tags_nodup ht.wf (items_nodup ht hr.width)
    rwa [items_tags] at this
  · intro i id v hi
    simp only [Line.row]
    rw [List.getElem?_map, hi]
    obtain ⟨c, hcm, hcf, hcid⟩ := mem_fieldIds.1 (List.mem_of_getElem? hi)
    simp only [Option.map_some, Option.some.injEq]
    rw [← hcid, cell_iff ht.wf (items_nodup ht hr.width) hcm, field_mem hr ht hcm hcf, cell_iff_gives hn h]
    constructor
    · rintro ⟨_, hg⟩; exact ⟨c, hcm, rfl, hcf, hg⟩
    · rintro ⟨c', hcm', hid', _, hg⟩
      rw [← eq_of_id ht.wf.ids hcm' hcm hid']
      exact ⟨hcm', hg⟩
  · obtain ⟨c, hc, hk⟩ := ht.hasTime
    obtain ⟨j, hj⟩ := List.getElem?_of_mem hc
    have hne := hr.time j c hj hk
    cases hv : cellAt r j with
    | none => exact absurd hv hne
    | some v =>
      have hm : (c, some v) ∈ cellsOf t r := (mem_cellsOf hr.width).2 ⟨j, hj, hv⟩
      have h1 := hr.typed j c v hj hv
      rw [hk] at h1
      cases v with
      | int v =>
        refine ⟨c, hc, hk, v, ((cell_iff_gives hn h).1 hm).2, ?_⟩
        have h2 := hf.time
        simp only [lineOf, timeCell_eq ht hr hm hk, Option.getD_some, Line.row] at h2 ⊢
        cases hcv : conv v.toInt with
        | none => exact absurd hcv h2
        | some x => rfl
      | _ => simp [tyOf, tyOfKind] at h1
  · intro c hc i s h1 h2
    obtain ⟨j, hj⟩ := List.getElem?_of_mem hc
    have := (project_ok h).2 j c hj
    rw [(assigned_iff hn).2 ⟨i, h1, h2⟩] at this
    obtain ⟨v, hv, _⟩ := this
    exact ⟨v, hv⟩

/-! ## The sets of a batch -/

theorem setsOf_go (l : List Nat) : ∀ s : List Nat, s.Nodup →
    (l.foldl (fun s n => if n ∈ s then s else s ++ [n]) s).Nodup ∧
    ∀ n, n ∈ l.foldl (fun s n => if n ∈ s then s else s ++ [n]) s ↔ n ∈ s ∨ n ∈ l := by
  induction l with
  | nil => intro s hs; simp [hs]
  | cons a l ih =>
    intro s hs
    rw [List.foldl_cons]
    by_cases ha : a ∈ s
    · rw [if_pos ha]
      refine ⟨(ih s hs).1, fun n => ?_⟩
      rw [(ih s hs).2, List.mem_cons]
      constructor
      · rintro (h | h); exacts [.inl h, .inr (.inr h)]
      · rintro (h | rfl | h); exacts [.inl h, .inl ha, .inr h]
    · rw [if_neg ha]
      have hs' : (s ++ [a]).Nodup := by
        rw [List.nodup_append]
        refine ⟨hs, by simp, ?_⟩
        intro x hx y hy
        rw [List.mem_singleton] at hy
        rintro rfl
        exact ha (hy ▸ hx)
      refine ⟨(ih _ hs').1, fun n => ?_⟩
      rw [(ih _ hs').2, List.mem_append, List.mem_singleton, List.mem_cons]
      constructor
      · rintro ((h | h) | h); exacts [.inl h, .inr (.inl h), .inr (.inr h)]
      · rintro (h | h | h); exacts [.inl (.inl h), .inl (.inr h), .inr h]

theorem setsOf_nodup (l : List Nat) : (setsOf l).Nodup := (setsOf_go l [] (by simp)).1

theorem mem_setsOf {l : List Nat} {n : Nat} : n ∈ setsOf l ↔ n ∈ l := by
  have := (setsOf_go l [] (by simp)).2 n
  simpa [setsOf] using this

theorem firstErr_ok {α : Type} : ∀ {l : List (Except Err α)}, firstErr l = .ok () ↔ ∀ a ∈ l, ∃ x, a = .ok x
  | [] => by simp [firstErr]
  | .error e :: l => by simp [firstErr]
  | .ok a :: l => by simp [firstErr, firstErr_ok (l := l)]

theorem filter_eq_of_nodup {l : List Nat} (hl : l.Nodup) (n : Nat) : (l.filter fun m => decide (m = n)) = if n ∈ l then [n] else [] := by
  induction l with
  | nil => simp
  | cons a l ih =>
    rw [List.nodup_cons] at hl
    by_cases h : a = n
    · subst h
      rw [List.filter_cons_of_pos (by simp), ih hl.2, if_neg hl.1]
      simp
    · rw [List.filter_cons_of_neg (by simpa using h), ih hl.2]
      simp [Ne.symm h]

/-- Whether a row goes to a set. -/
def goesTo (env : Env) (t : Table) (n : Nat) (r : List (Option Val)) : Bool :=
  match locate env.conv env.route t r with | .ok m => decide (m = n) | .error _ => false

/-- The row the vnode makes of a row of the batch. -/
def rowFor (env : Env) (t : Table) (r : List (Option Val)) : List (Nat × Bytes) × Row := ((lineOf t r).key t, (lineOf t r).row env.conv t)

theorem located_rows {env : Env} {t : Table} {rows : List (List (Option Val))} {l : List (Nat × List (Option Val))}
    (h : rows.map (fun r => (locate env.conv env.route t r).map fun n => (n, r)) = l.map .ok) :
    (∀ r ∈ rows, ∃ n, locate env.conv env.route t r = .ok n) ∧ ∀ n, rowsOf n l = rows.filter (goesTo env t n) := by
  induction rows generalizing l with
  | nil =>
    cases l with
    | nil => simp [rowsOf]
    | cons => simp at h
  | cons r rows ih =>
    cases l with
    | nil => simp at h
    | cons a l =>
      simp only [List.map_cons, List.cons.injEq] at h
      obtain ⟨i1, i2⟩ := ih h.2
      cases hr : locate env.conv env.route t r with
      | error e => rw [hr] at h; cases h.1
      | ok n =>
        rw [hr] at h
        have ha : a = (n, r) := by
          have := h.1
          simp only [Except.map, Except.ok.injEq] at this
          exact this.symm
        subst ha
        refine ⟨?_, ?_⟩
        · intro r' hr'
          rcases List.mem_cons.1 hr' with rfl | hr'
          · exact ⟨n, hr⟩
          · exact i1 r' hr'
        · intro k
          have := i2 k
          unfold rowsOf at this ⊢
          rw [List.filter_cons, List.filter_cons]
          by_cases hk : n = k
          · subst hk
            simp only [decide_true, if_true, List.map_cons, goesTo, hr]
            rw [this]
          · simp only [hk, decide_false, Bool.false_eq_true, if_false, goesTo, hr]
            rw [this]

theorem batch_ok {env : Env} {t : Table} (ht : TableOk t) {rows : List (List (Option Val))} (hr : ∀ r ∈ rows, RowOk t r) {k : Nat}
    (h : (writeBatch env.conv env.route env.strict env.up t (some t) rows).res = .ok k) :
    k = rows.length ∧ (∀ r ∈ rows, (∃ n, locate env.conv env.route t r = .ok n) ∧ Fits env.conv t (lineOf t r)) ∧
    ∀ n, (writeBatch env.conv env.route env.strict env.up t (some t) rows).storedIn n = (rows.filter (goesTo env t n)).map (rowFor env t) := by
  unfold writeBatch at h ⊢
  cases hl : collect (rows.map fun r => (locate env.conv env.route t r).map fun n => (n, r)) with
  | error e => rw [hl] at h; cases h
  | ok l =>
    rw [hl] at h
    dsimp only at h ⊢
    obtain ⟨hloc, hrow⟩ := located_rows ((collect_ok _ _).1 hl)
    have hpairs : ∀ p ∈ l, p.2 ∈ rows := by
      intro p hp
      have h1 := (collect_ok _ _).1 hl
      have : (Except.ok p : Except Err _) ∈ l.map Except.ok := List.mem_map.2 ⟨p, hp, rfl⟩
      rw [← h1] at this
      obtain ⟨r, hrm, hre⟩ := List.mem_map.1 this
      cases hn : locate env.conv env.route t r with
      | error e => rw [hn] at hre; cases hre
      | ok n =>
        rw [hn] at hre
        simp only [Except.map, Except.ok.injEq] at hre
        rw [← hre]
        exact hrm
    generalize hans : (setsOf (l.map (·.1))).map (fun n => (n, if env.up n = true then
      ((msgOf t (rowsOf n l)).write env.conv env.strict (some t)).map (·.2) else .error .error)) = answers at h ⊢
    cases hfe : firstErr (answers.map (·.2)) with
    | error e => rw [hfe] at h; cases h
    | ok u =>
      rw [hfe] at h
      simp only [Except.map, Except.ok.injEq] at h
      have hall : ∀ n ∈ setsOf (l.map (·.1)), (∀ r ∈ rowsOf n l, Fits env.conv t (lineOf t r)) ∧
          (if env.up n = true then ((msgOf t (rowsOf n l)).write env.conv env.strict (some t)).map (·.2) else .error .error) =
            .ok ((rowsOf n l).map (rowFor env t)) := by
        intro n hn
        obtain ⟨x, hx⟩ := firstErr_ok.1 hfe (if env.up n = true then
          ((msgOf t (rowsOf n l)).write env.conv env.strict (some t)).map (·.2) else .error .error) (by
          rw [← hans, List.map_map]
          exact List.mem_map.2 ⟨n, hn, rfl⟩)
        rw [hx]
        by_cases hup : env.up n = true
        · rw [if_pos hup] at hx
          cases hw : (msgOf t (rowsOf n l)).write env.conv env.strict (some t) with
          | error e => rw [hw] at hx; cases hx
          | ok o =>
            obtain ⟨t', out⟩ := o
            rw [hw] at hx
            simp only [Except.map, Except.ok.injEq] at hx
            obtain ⟨_, h1, h2⟩ := write_msgOf env.conv ht (fun r hrm => hr r (by
              obtain ⟨p, hp, rfl⟩ := List.mem_map.1 hrm
              exact hpairs p (List.mem_filter.1 hp).1)) hw
            exact ⟨h1, by rw [← hx, h2]; rfl⟩
        · rw [if_neg hup] at hx
          cases hx
      have hset : ∀ n, (∃ r ∈ rows, goesTo env t n r = true) → n ∈ setsOf (l.map (·.1)) := by
        rintro n ⟨r, hrm, hg⟩
        rw [mem_setsOf]
        have : r ∈ rowsOf n l := by rw [hrow]; exact List.mem_filter.2 ⟨hrm, hg⟩
        obtain ⟨p, hp, _⟩ := List.mem_map.1 this
        obtain ⟨hp1, hp2⟩ := List.mem_filter.1 hp
        exact List.mem_map.2 ⟨p, hp1, by simpa using hp2⟩
      refine ⟨h.symm, ?_, ?_⟩
      · intro r hrm
        obtain ⟨n, hn⟩ := hloc r hrm
        have hg : goesTo env t n r = true := by simp [goesTo, hn]
        exact ⟨⟨n, hn⟩, (hall n (hset n ⟨r, hrm, hg⟩)).1 r (by rw [hrow]; exact List.mem_filter.2 ⟨hrm, hg⟩)⟩
      · intro n
        have hfm : answers.filterMap kept =
            (setsOf (l.map (·.1))).map fun n => (n, (rowsOf n l).map (rowFor env t)) := by
          rw [← hans, List.filterMap_map, ← List.filterMap_eq_map (f := fun n => (n, (rowsOf n l).map (rowFor env t)))]
          apply List.filterMap_congr
          intro n hn
          simp only [Function.comp_apply, kept, (hall n hn).2]
        unfold Outcome.storedIn
        dsimp only
        rw [hfm, List.filter_map]
        have hc : ((fun e : Nat × List (List (Nat × Bytes) × Row) => decide (e.1 = n)) ∘ fun n => (n, (rowsOf n l).map (rowFor env t))) =
            fun m => decide (m = n) := rfl
        rw [hc, filter_eq_of_nodup (setsOf_nodup _)]
        split
        · simp [hrow]
        · rename_i hn
          rw [List.filter_eq_nil_iff.2]
          · simp
          · intro r hrm hg
            exact hn (hset n ⟨r, hrm, hg⟩)

/-! ## All batches -/

theorem storedIn_append (a b : List (Nat × List (List (Nat × Bytes) × Row))) (r r' r'' : Except Err Nat) (n : Nat) :
    Outcome.storedIn ⟨a ++ b, r⟩ n = Outcome.storedIn ⟨a, r'⟩ n ++ Outcome.storedIn ⟨b, r''⟩ n := by
  simp [Outcome.storedIn]

theorem all_ok {env : Env} {t : Table} (ht : TableOk t) : ∀ (bs : List (Except Err (List (List (Option Val))))) (k : Nat),
    (∀ rows, .ok rows ∈ bs → ∀ r ∈ rows, RowOk t r) →
    (writeAll (writeBatch env.conv env.route env.strict env.up t (some t)) bs).res = .ok k →
    ∃ batches : List (List (List (Option Val))), bs = batches.map .ok ∧ k = batches.flatten.length ∧
      (∀ r ∈ batches.flatten, (∃ n, locate env.conv env.route t r = .ok n) ∧ Fits env.conv t (lineOf t r)) ∧
      ∀ n, (writeAll (writeBatch env.conv env.route env.strict env.up t (some t)) bs).storedIn n =
        (batches.flatten.filter (goesTo env t n)).map (rowFor env t)
  | [], k, _, h => by
    simp only [writeAll, Except.ok.injEq] at h
    exact ⟨[], rfl, by simp [← h], by simp, fun n => by simp [writeAll, Outcome.storedIn]⟩
  | .error e :: bs, k, _, h => by simp [writeAll] at h
  | .ok rows :: bs, k, hr, h => by
    have hr' : ∀ rows, .ok rows ∈ bs → ∀ r ∈ rows, RowOk t r := fun x hx => hr x (by simp [hx])
    unfold writeAll at h ⊢
    by_cases hne : rows = []
    · rw [if_pos hne] at h ⊢
      obtain ⟨batches, h1, h2, h3, h4⟩ := all_ok ht bs k hr' h
      exact ⟨rows :: batches, by rw [h1]; rfl, by simp [hne, h2], by simpa [hne] using h3, fun n => by rw [h4]; simp [hne]⟩
    · rw [if_neg hne] at h ⊢
      cases hw : (writeBatch env.conv env.route env.strict env.up t (some t) rows).res with
      | error e => rw [hw] at h; cases h
      | ok m =>
        rw [hw] at h
        simp only at h ⊢
        cases hb : (writeAll (writeBatch env.conv env.route env.strict env.up t (some t)) bs).res with
        | error e => rw [hb] at h; cases h
        | ok m' =>
          rw [hb] at h
          simp only [Except.map, Except.ok.injEq] at h
          obtain ⟨batches, h1, h2, h3, h4⟩ := all_ok ht bs m' hr' hb
          obtain ⟨b1, b2, b3⟩ := batch_ok ht (hr rows (by simp)) hw
          refine ⟨rows :: batches, by rw [h1]; rfl, by simp [← h, b1, h2], ?_, ?_⟩
          · intro r hrm
            rw [List.flatten_cons, List.mem_append] at hrm
            rcases hrm with hrm | hrm
            · exact b2 r hrm
            · exact h3 r hrm
          · intro n
            rw [storedIn_append _ _ _ (.ok m) (.ok m'), List.flatten_cons, List.filter_append, List.map_append]
            congr 1
            · rw [← b3 n]; rfl
            · rw [← h4 n]; rfl

theorem flatten_map_ok {S : Type} {f : List (Option S) → Except Err (List (Option Val))} : ∀ {src : List (List (List (Option S)))}
    {batches : List (List (List (Option Val)))}, src.map (fun rows => collect (rows.map f)) = batches.map .ok →
    src.flatten.map f = batches.flatten.map .ok
  | [], [], _ => rfl
  | [], _ :: _, h => by simp at h
  | _ :: _, [], h => by simp at h
  | rows :: src, b :: batches, h => by
    simp only [List.map_cons, List.cons.injEq] at h
    rw [List.flatten_cons, List.flatten_cons, List.map_append, List.map_append, (collect_ok _ _).1 h.1, flatten_map_ok h.2]

theorem located_row {S : Type} {cast : Kind → S → Except Err Val} (hco : CastOk cast) {env : Env} {t : Table} (ht : TableOk t)
    {names : List String} (hn : names.Nodup) {row : List (Option S)} (htm : HasTime t names row) {r : List (Option Val)}
    (h : projectRow cast t names row = .ok r) {n : Nat} (hl : locate env.conv env.route t r = .ok n) : Located cast env t names row n := by
  have hr := project_rowOk hco hn htm h
  unfold locate at hl
  cases hc : timeCell t r with
  | none => rw [hc] at hl; cases hl
  | some v =>
    rw [hc] at hl
    simp only at hl
    cases hcv : env.conv v.toInt with
    | none => rw [hcv] at hl; cases hl
    | some ts =>
      rw [hcv] at hl
      simp only at hl
      split at hl
      · refine ⟨hashTags t r, ts, hl, ?_, ?_, ?_⟩
        · unfold hashTags cellsOf
          have : ∀ (cols : List Col) (r : List (Option Val)), r.length = cols.length →
              ((cols.zip r).filterMap fun e => if e.1.kind = .tag then some (e.1.name, match e.2 with | some (.str b) => b | _ => ([] : Bytes)) else none).map (·.1) =
                (cols.filter fun c => decide (c.kind = .tag)).map Col.name := by
            intro cols
            induction cols with
            | nil => intro r _; simp
            | cons c cols ih =>
              intro r hlen
              cases r with
              | nil => simp at hlen
              | cons a r =>
                rw [List.zip_cons_cons, List.filterMap_cons, List.filter_cons]
                by_cases hk : c.kind = .tag
                · simp only [hk, if_true, decide_true, List.map_cons]
                  rw [ih r (by simpa using hlen)]
                · simp only [hk, if_false, decide_false, Bool.false_eq_true]
                  exact ih r (by simpa using hlen)
          exact this t.cols r hr.width
        · intro c hc' hk b hg
          refine List.mem_filterMap.2 ⟨(c, some (.str b)), (cell_iff_gives hn h).2 ⟨hc', hg⟩, ?_⟩
          simp [hk]
        · obtain ⟨c, hc', hk⟩ := ht.hasTime
          obtain ⟨j, hj⟩ := List.getElem?_of_mem hc'
          have hne := hr.time j c hj hk
          cases hv : cellAt r j with
          | none => exact absurd hv hne
          | some w =>
            have hm : (c, some w) ∈ cellsOf t r := (mem_cellsOf hr.width).2 ⟨j, hj, hv⟩
            have h1 := hr.typed j c w hj hv
            rw [hk] at h1
            cases w with
            | int w =>
              rw [timeCell_eq ht hr hm hk] at hc
              cases hc
              exact ⟨c, hc', hk, _, ((cell_iff_gives hn h).1 hm).2, hcv⟩
            | _ => simp [tyOf, tyOfKind] at h1
      · cases hl

/-- An accepted INSERT stores its rows, if it names no column twice and gives every row a time.  Missing from the full
statement: that other INSERTs are refused. -/
theorem C149_insert_partial {S : Type} {cast : Kind → S → Except Err Val} {env : Env} {t : Table} {names : List String} {n : Nat}
    {src : List (List (List (Option S)))} {k : Nat} (hco : CastOk cast) (ht : TableOk t) (hn : (columnNames t names).Nodup)
    (htm : ∀ rows ∈ src, ∀ r ∈ rows, HasTime t (columnNames t names) r)
    (h : (insert cast env t (some t) names n src).res = .ok k) :
    StoredAll cast env t (columnNames t names) src k (insert cast env t (some t) names n src) := by
  unfold insert at h ⊢
  split at h
  · rename_i hck
    rw [if_pos hck]
    have hrows : ∀ rows, .ok rows ∈ src.map (fun rows => collect (rows.map (projectRow cast t (columnNames t names)))) → ∀ r ∈ rows, RowOk t r := by
      intro rows hm r hr
      obtain ⟨sr, hsr, he⟩ := List.mem_map.1 hm
      have h1 := (collect_ok _ _).1 he
      have : (Except.ok r : Except Err _) ∈ rows.map .ok := List.mem_map.2 ⟨r, hr, rfl⟩
      rw [← h1] at this
      obtain ⟨row, hrow, hp⟩ := List.mem_map.1 this
      exact project_rowOk hco hn (htm sr hsr row hrow) hp
    obtain ⟨batches, b1, b2, b3, b4⟩ := all_ok ht _ k hrows h
    have hfl := flatten_map_ok b1
    have hlen : src.flatten.length = batches.flatten.length := by
      have := congrArg List.length hfl
      rwa [List.length_map, List.length_map] at this
    have hget : ∀ (i : Nat) row, src.flatten[i]? = some row → ∃ r, batches.flatten[i]? = some r ∧
        projectRow cast t (columnNames t names) row = .ok r ∧ HasTime t (columnNames t names) row := by
      intro i row hi
      have h1 := congrArg (fun z => z[i]?) hfl
      simp only [List.getElem?_map, hi, Option.map_some] at h1
      cases hb : batches.flatten[i]? with
      | none => rw [hb] at h1; cases h1
      | some r =>
        rw [hb] at h1
        simp only [Option.map_some, Option.some.injEq] at h1
        refine ⟨r, rfl, h1, ?_⟩
        obtain ⟨sr, hsr, hm⟩ := List.mem_flatten.1 (List.mem_of_getElem? hi)
        exact htm sr hsr row hm
    let N := fun r => match locate env.conv env.route t r with | .ok n => n | .error _ => 0
    refine ⟨by rw [b2, hlen], batches.flatten.map fun r => (N r, rowFor env t r), by rw [List.length_map, hlen], ?_, ?_⟩
    · intro i row p hi hp
      obtain ⟨r, hr1, hr2, hr3⟩ := hget i row hi
      rw [List.getElem?_map, hr1] at hp
      cases hp
      obtain ⟨⟨m, hm⟩, hf⟩ := b3 r (List.mem_of_getElem? hr1)
      refine ⟨stored_row hco ht hn hr3 hr2 hf, ?_⟩
      have : N r = m := by simp only [N, hm]
      simp only [this]
      exact located_row hco ht hn hr3 hr2 hm
    · intro m
      rw [b4 m, List.filter_map, List.map_map]
      have hc : ∀ r ∈ batches.flatten, goesTo env t m r = ((fun p : Nat × (List (Nat × Bytes) × Row) => decide (p.1 = m)) ∘ fun r => (N r, rowFor env t r)) r := by
        intro r hr
        obtain ⟨⟨q, hq⟩, _⟩ := b3 r hr
        simp only [goesTo, Function.comp_apply, N, hq]
      rw [List.filter_congr hc]
      rfl
  · cases h

end Verif.Insert
