import Verif.Insert.Props
/-!
# C149: which INSERTs are accepted; C150, C151: UPDATE of fields
-/
namespace Verif.Insert
open Verif.Schema Verif.Write
open Verif.Stats (Val)
open Verif.Utils (Bytes)

/-! ## Accepted INSERTs -/

theorem batch_accept {env : Env} {t : Table} (ht : TableOk t) {rows : List (List (Option Val))} (hr : ∀ r ∈ rows, RowOk t r)
    (hloc : ∀ r ∈ rows, ∃ n, locate env.conv env.route t r = .ok n) (hf : ∀ r ∈ rows, Fits env.conv t (lineOf t r)) (hup : ∀ n, env.up n = true) :
    (writeBatch env.conv env.route env.strict env.up t (some t) rows).res = .ok rows.length := by
  unfold writeBatch
  let N := fun r => match locate env.conv env.route t r with | .ok n => n | .error _ => 0
  have hl : collect (rows.map fun r => (locate env.conv env.route t r).map fun n => (n, r)) = .ok (rows.map fun r => (N r, r)) := by
    rw [collect_ok, List.map_map]
    apply List.map_congr_left
    intro r hrm
    obtain ⟨n, hn⟩ := hloc r hrm
    simp only [hn, Function.comp_apply, N, Except.map]
  rw [hl]
  dsimp only
  rw [firstErr_ok.2]
  · rfl
  · intro a ha
    rw [List.map_map] at ha
    obtain ⟨n, hn, rfl⟩ := List.mem_map.1 ha
    have hsub : ∀ r ∈ rowsOf n (rows.map fun r => (N r, r)), r ∈ rows := by
      intro r hrm
      obtain ⟨p, hp, rfl⟩ := List.mem_map.1 hrm
      obtain ⟨r', hr', rfl⟩ := List.mem_map.1 (List.mem_filter.1 hp).1
      exact hr'
    have hne : rowsOf n (rows.map fun r => (N r, r)) ≠ [] := by
      rw [mem_setsOf, List.mem_map] at hn
      obtain ⟨p, hp, hpn⟩ := hn
      intro h0
      have : p.2 ∈ rowsOf n (rows.map fun r => (N r, r)) := List.mem_map.2 ⟨p, List.mem_filter.2 ⟨hp, by simpa using hpn⟩, rfl⟩
      rw [h0] at this
      cases this
    simp only [Function.comp_apply, hup, if_true]
    rw [write_msgOf_ok env.conv ht (fun r hrm => hr r (hsub r hrm)) hne (fun r hrm => hf r (hsub r hrm))]
    exact ⟨_, rfl⟩

theorem all_accept {write : List (List (Option Val)) → Outcome} : ∀ (bs : List (List (List (Option Val)))),
    (∀ rows ∈ bs, (write rows).res = .ok rows.length) → (writeAll write (bs.map .ok)).res = .ok bs.flatten.length
  | [], _ => by simp [writeAll]
  | rows :: bs, h => by
    rw [List.map_cons]
    unfold writeAll
    have ih := all_accept bs fun r hr => h r (by simp [hr])
    split
    · rename_i hne
      rw [ih, hne]
      simp
    · rw [h rows (by simp)]
      simp only [ih, Except.map, List.flatten_cons, List.length_append]

/-- What a row of the source needs to be accepted. -/
structure Good {S : Type} (cast : Kind → S → Except Err Val) (env : Env) (t : Table) (names : List String) (row : List (Option S)) : Prop where
  /-- its values can be cast to the types of the columns -/
  casts : ∀ c ∈ t.cols, ∀ (j : Nat) s, names[j]? = some c.name → row[j]? = some (some s) → ∃ v, cast c.kind s = .ok v
  /-- it has a time, which can be converted to the precision of the database -/
  time : ∀ c ∈ t.cols, c.kind = .time → ∃ v, Gives cast names row c (.int v) ∧ env.conv v.toInt ≠ none
  /-- and a field -/
  field : ∃ c ∈ t.cols, c.isField = true ∧ ∃ v, Gives cast names row c v

theorem project_good {S : Type} {cast : Kind → S → Except Err Val} {env : Env} {t : Table} {names : List String} (hn : names.Nodup)
    {row : List (Option S)} (hg : Good cast env t names row) : ∃ r, projectRow cast t names row = .ok r := by
  unfold projectRow
  have : ∃ r : List (Option Val), t.cols.map (fun c => match assigned names row c with
    | none => (Except.ok none : Except Err (Option Val))
    | some s => (cast c.kind s).map some) = r.map .ok := by
    have hc := hg.casts
    generalize t.cols = cols at hc
    induction cols with
    | nil => exact ⟨[], rfl⟩
    | cons c cols ih =>
      obtain ⟨r, hr⟩ := ih fun c' hc' => hc c' (by simp [hc'])
      cases ha : assigned names row c with
      | none => exact ⟨none :: r, by rw [List.map_cons, hr, ha]; rfl⟩
      | some s =>
        obtain ⟨j, h1, h2⟩ := (assigned_iff hn).1 ha
        obtain ⟨v, hv⟩ := hc c (by simp) j s h1 h2
        exact ⟨some v :: r, by rw [List.map_cons, hr, ha]; simp only [hv]; rfl⟩
  obtain ⟨r, hr⟩ := this
  exact ⟨r, (collect_ok _ _).2 hr⟩

theorem good_hasTime {S : Type} {cast : Kind → S → Except Err Val} {env : Env} {t : Table} {names : List String} {row : List (Option S)}
    (hg : Good cast env t names row) : HasTime t names row := by
  intro c hc hk
  obtain ⟨v, ⟨j, s, h1, h2, _⟩, _⟩ := hg.time c hc hk
  exact ⟨j, s, h1, h2⟩

theorem good_row {S : Type} {cast : Kind → S → Except Err Val} (hco : CastOk cast) {env : Env} (hroute : ∀ tags ts, ∃ n, env.route tags ts = .ok n)
    {t : Table} (ht : TableOk t) {names : List String} (hn : names.Nodup) {row : List (Option S)} (hg : Good cast env t names row)
    {r : List (Option Val)} (h : projectRow cast t names row = .ok r) :
    (∃ n, locate env.conv env.route t r = .ok n) ∧ Fits env.conv t (lineOf t r) := by
  have hr := project_rowOk hco hn (good_hasTime hg) h
  obtain ⟨c, hc, hk⟩ := ht.hasTime
  obtain ⟨v, hgv, hcv⟩ := hg.time c hc hk
  have hm := (cell_iff_gives hn h).2 ⟨hc, hgv⟩
  have htc := timeCell_eq ht hr hm hk
  obtain ⟨f, hf, hff, w, hgw⟩ := hg.field
  have hmf := (cell_iff_gives hn h).2 ⟨hf, hgw⟩
  constructor
  · unfold locate
    rw [htc]
    simp only
    cases hx : env.conv v.toInt with
    | none => exact absurd hx hcv
    | some ts =>
      simp only
      rw [if_pos]
      · exact hroute _ _
      · exact List.any_eq_true.2 ⟨_, hmf, by simp [hff]⟩
  · refine ⟨?_, ?_, ?_, ?_⟩
    · intro x hx
      obtain ⟨c', hc', _, hn', _⟩ := tag_col hr.width hx
      rw [(column_some ht.wf).2 ⟨hc', hn'⟩]
      simp
    · intro x hx c' hc'
      obtain ⟨d, hd, hdf, hdn, _⟩ := field_col hr.width hx
      rw [(column_some ht.wf).2 ⟨hd, hdn⟩] at hc'
      cases hc'
      exact hdf
    · refine ⟨(f.name, w), (field_mem hr ht hf hff).2 hmf, ?_⟩
      rw [(column_some ht.wf).2 ⟨hf, rfl⟩]
      simp
    · simp only [lineOf, htc, Option.getD_some]
      exact hcv

theorem collect_map_ok {α β : Type} {f : α → Except Err β} : ∀ {l : List α}, (∀ a ∈ l, ∃ b, f a = .ok b) → ∃ bs : List β, l.map f = bs.map .ok
  | [], _ => ⟨[], rfl⟩
  | a :: l, h => by
    obtain ⟨b, hb⟩ := h a (by simp)
    obtain ⟨bs, hbs⟩ := collect_map_ok (l := l) fun x hx => h x (by simp [hx])
    exact ⟨b :: bs, by rw [List.map_cons, List.map_cons, hb, hbs]⟩

/-- An INSERT of columns of the table, none of them twice, whose rows have a time and a field and values that can be cast, is
accepted if every set takes its rows. -/
theorem C149_accepted {S : Type} {cast : Kind → S → Except Err Val} {env : Env} {t : Table} {names : List String} {n : Nat}
    {src : List (List (List (Option S)))} (hco : CastOk cast) (ht : TableOk t) (hn : (columnNames t names).Nodup)
    (hin : ∀ x ∈ names, ∃ c ∈ t.cols, c.name = x) (hlen : (columnNames t names).length ≤ n)
    (hroute : ∀ tags ts, ∃ m, env.route tags ts = .ok m) (hup : ∀ m, env.up m = true)
    (hg : ∀ rows ∈ src, ∀ r ∈ rows, Good cast env t (columnNames t names) r) :
    (insert cast env t (some t) names n src).res = .ok src.flatten.length := by
  have hne : columnNames t names ≠ [] := by
    unfold columnNames
    split
    · obtain ⟨c, hc, _⟩ := ht.hasTime
      intro h0
      rw [List.map_eq_nil_iff] at h0
      rw [h0] at hc
      cases hc
    · assumption
  have hck : check t (columnNames t names) n = true := by
    unfold check
    rw [Bool.and_eq_true, Bool.and_eq_true]
    refine ⟨⟨by simpa using hlen, ?_⟩, ?_⟩
    · rw [Bool.or_eq_true]
      left
      cases hx : columnNames t names with
      | nil => exact absurd hx hne
      | cons => rfl
    · rw [List.all_eq_true]
      intro x hx
      rw [List.any_eq_true]
      unfold columnNames at hx
      split at hx
      · obtain ⟨c, hc, rfl⟩ := List.mem_map.1 hx
        exact ⟨c, hc, by simp⟩
      · obtain ⟨c, hc, hcx⟩ := hin x hx
        exact ⟨c, hc, by simpa using hcx⟩
  unfold insert
  rw [if_pos hck]
  have hb : ∀ rows ∈ src, ∃ b, collect (rows.map (projectRow cast t (columnNames t names))) = .ok b := by
    intro rows hrows
    obtain ⟨bs, hbs⟩ := collect_map_ok (l := rows) (f := projectRow cast t (columnNames t names)) fun r hr => project_good hn (hg rows hrows r hr)
    exact ⟨bs, (collect_ok _ _).2 hbs⟩
  obtain ⟨batches, hbs⟩ := collect_map_ok (l := src) hb
  have hfl := flatten_map_ok hbs
  rw [hbs, all_accept]
  · have := congrArg List.length hfl
    rw [List.length_map, List.length_map] at this
    rw [this]
  · intro rows hrows
    have hrow : ∀ r ∈ rows, ∃ sr ∈ src, ∃ row ∈ sr, projectRow cast t (columnNames t names) row = .ok r := by
      intro r hr
      have : (Except.ok rows : Except Err _) ∈ batches.map .ok := List.mem_map.2 ⟨rows, hrows, rfl⟩
      rw [← hbs] at this
      obtain ⟨sr, hsr, he⟩ := List.mem_map.1 this
      have h1 := (collect_ok _ _).1 he
      have : (Except.ok r : Except Err _) ∈ rows.map .ok := List.mem_map.2 ⟨r, hr, rfl⟩
      rw [← h1] at this
      obtain ⟨row, hrow, hp⟩ := List.mem_map.1 this
      exact ⟨sr, hsr, row, hrow, hp⟩
    apply batch_accept ht _ _ _ hup
    · intro r hr
      obtain ⟨sr, hsr, row, hrm, hp⟩ := hrow r hr
      exact project_rowOk hco hn (good_hasTime (hg sr hsr row hrm)) hp
    · intro r hr
      obtain ⟨sr, hsr, row, hrm, hp⟩ := hrow r hr
      exact (good_row hco hroute ht hn (hg sr hsr row hrm) hp).1
    · intro r hr
      obtain ⟨sr, hsr, row, hrm, hp⟩ := hrow r hr
      exact (good_row hco hroute ht hn (hg sr hsr row hrm) hp).2

/-! ## A table as the rows written to it -/

/-- The rows written to a table, in order. -/
abbrev Hist := List (List (Nat × Bytes) × Row)

/-- The values written to a field of a point. -/
def vals (h : Hist) (k : List (Nat × Bytes)) (ts : Int) (j : Nat) : List Val :=
  h.filterMap fun p => if p.1 = k ∧ p.2.ts = ts then (p.2.fields[j]?).join else none

/-- The value of a field of a point: the newest that is not null (C120, C14). -/
def value (h : Hist) (k : List (Nat × Bytes)) (ts : Int) (j : Nat) : Option Val := (vals h k ts j).getLast?

/-- A point of the table. -/
def Present (h : Hist) (k : List (Nat × Bytes)) (ts : Int) : Prop := ∃ p ∈ h, p.1 = k ∧ p.2.ts = ts

/-- The row a query returns for a point, in the order of the columns. -/
def scanRow (t : Table) (h : Hist) (pt : List (Nat × Bytes) × Int) : List (Option Val) := t.cols.map fun c => match c.kind with
  | .tag => (pt.1.find? fun e => decide (e.1 = c.id)).map fun e => .str e.2
  | .time => some (.int (BitVec.ofInt 64 pt.2))
  | .field _ => ((fieldIds t.cols).idxOf? c.id).bind (value h pt.1 pt.2)

/-- The rows of the table are rows of its schema. -/
structure HistOk (t : Table) (h : Hist) : Prop where
  ids : ∀ p ∈ h, ∀ e ∈ p.1, ∃ c ∈ t.cols, c.id = e.1 ∧ c.kind = .tag
  distinct : ∀ p ∈ h, (p.1.map (·.1)).Nodup
  sorted : ∀ p ∈ h, sortTags p.1 = p.1
  time : ∀ p ∈ h, -2 ^ 63 ≤ p.2.ts ∧ p.2.ts < 2 ^ 63
  typed : ∀ p ∈ h, ∀ (j id : Nat) v, (fieldIds t.cols)[j]? = some id → p.2.fields[j]? = some (some v) →
    ∀ c ∈ t.cols, c.id = id → tyOf v = tyOfKind c.kind

/-- A cast to its own type leaves a value as it is. -/
def CastId (cast : Kind → Val → Except Err Val) : Prop := ∀ k v, tyOf v = tyOfKind k → cast k v = .ok v

/-- The table after a statement. -/
def Outcome.after (o : Outcome) (h : Hist) : Hist := h ++ o.stored.flatMap (·.2)

/-- The points of a table, each once; a scan returns their rows. -/
structure Scan (t : Table) (h : Hist) (pts : List (List (Nat × Bytes) × Int)) (scan : List (List (List (Option Val)))) : Prop where
  once : pts.Nodup
  all : ∀ k ts, (k, ts) ∈ pts ↔ Present h k ts
  rows : scan.flatten = pts.map (scanRow t h)

/-- What an UPDATE sets a column to in a row. -/
def setTo (sets : List (String × (List (Option Val) → Option Val))) (n : String) : Option (List (Option Val) → Option Val) :=
  (sets.find? fun s => decide (s.1 = n)).map (·.2)

/-- An UPDATE of fields changes exactly the columns it names of the rows for which its condition holds, and reports their
number. -/
def Updates (cast : Kind → Val → Except Err Val) (t : Table) (h : Hist) (pts : List (List (Nat × Bytes) × Int))
    (sets : List (String × (List (Option Val) → Option Val))) (p : List (Option Val) → Bool) (n : Nat) (h' : Hist) : Prop :=
  n = (pts.filter fun pt => p (scanRow t h pt)).length ∧
  (∀ k ts, Present h' k ts ↔ Present h k ts) ∧
  ∀ k ts (j : Nat) c, c ∈ t.cols → c.isField = true → (fieldIds t.cols)[j]? = some c.id →
    match setTo sets c.name with
    | none => value h' k ts j = value h k ts j
    | some f =>
      if (k, ts) ∈ pts ∧ p (scanRow t h (k, ts)) = true then
        match f (scanRow t h (k, ts)) with
        | none => value h' k ts j = none
        | some s => ∃ v, cast c.kind s = .ok v ∧ value h' k ts j = some v
      else value h' k ts j = value h k ts j

/-- An accepted UPDATE of fields does what it says. -/
def C150Full : Prop := ∀ (cast : Kind → Val → Except Err Val) (env : Env) (t : Table) (h : Hist) (pts : List (List (Nat × Bytes) × Int))
  (scan : List (List (List (Option Val)))) (sets : List (String × (List (Option Val) → Option Val))) (p : List (Option Val) → Bool) (n : Nat),
  CastOk cast → CastId cast → TableOk t → HistOk t h → Scan t h pts scan → env.conv = some → (sets.map (·.1)).Nodup →
  (update cast env t (some t) sets p scan).res = .ok n →
  Updates cast t h pts sets p n ((update cast env t (some t) sets p scan).after h)

/-! ## Values -/

theorem vals_append (a b : Hist) (k : List (Nat × Bytes)) (ts : Int) (j : Nat) : vals (a ++ b) k ts j = vals a k ts j ++ vals b k ts j :=
  List.filterMap_append

theorem value_append (a b : Hist) (k : List (Nat × Bytes)) (ts : Int) (j : Nat) :
    value (a ++ b) k ts j = (value b k ts j).or (value a k ts j) := by
  unfold value
  rw [vals_append, List.getLast?_append]

theorem value_none_of_absent {h : Hist} {k : List (Nat × Bytes)} {ts : Int} (hp : ¬ Present h k ts) (j : Nat) : value h k ts j = none := by
  unfold value vals
  rw [List.filterMap_eq_nil_iff.2]
  · rfl
  · intro p hpm
    rw [if_neg]
    intro hc
    exact hp ⟨p, hpm, hc⟩

theorem value_of_all {h : Hist} {k : List (Nat × Bytes)} {ts : Int} (hp : Present h k ts) {j : Nat} {w : Option Val}
    (hw : ∀ p ∈ h, p.1 = k → p.2.ts = ts → (p.2.fields[j]?).join = w) : value h k ts j = w := by
  unfold value
  cases w with
  | none =>
    have : vals h k ts j = [] := by
      unfold vals
      rw [List.filterMap_eq_nil_iff]
      intro p hpm
      split
      · rename_i hc; exact hw p hpm hc.1 hc.2
      · rfl
    rw [this]; rfl
  | some v =>
    have hall : ∀ x ∈ vals h k ts j, x = v := by
      intro x hx
      obtain ⟨p, hpm, he⟩ := List.mem_filterMap.1 hx
      split at he
      · rename_i hc
        rw [hw p hpm hc.1 hc.2] at he
        exact (Option.some.inj he).symm
      · cases he
    have hne : vals h k ts j ≠ [] := by
      obtain ⟨p, hpm, h1, h2⟩ := hp
      intro h0
      have := List.filterMap_eq_nil_iff.1 h0 p hpm
      rw [if_pos ⟨h1, h2⟩, hw p hpm h1 h2] at this
      cases this
    cases hx : (vals h k ts j).getLast? with
    | none => exact absurd (List.getLast?_eq_none_iff.1 hx) hne
    | some x => rw [hall x (List.mem_of_getLast? hx)]

theorem value_typed {t : Table} {h : Hist} (hh : HistOk t h) {k : List (Nat × Bytes)} {ts : Int} {j id : Nat} {v : Val}
    (hj : (fieldIds t.cols)[j]? = some id) (hv : value h k ts j = some v) {c : Col} (hc : c ∈ t.cols) (hid : c.id = id) : tyOf v = tyOfKind c.kind := by
  have := List.mem_of_getLast? hv
  obtain ⟨p, hpm, he⟩ := List.mem_filterMap.1 this
  split at he
  · apply hh.typed p hpm j id v hj _ c hc hid
    cases hf : p.2.fields[j]? with
    | none => rw [hf] at he; cases he
    | some w => rw [hf] at he; simp only [Option.join_some] at he; rw [he]
  · cases he

/-! ## The rows of a scan -/

theorem scanRow_width (t : Table) (h : Hist) (pt : List (Nat × Bytes) × Int) : (scanRow t h pt).length = t.cols.length := by simp [scanRow]

theorem scanRow_at (t : Table) (h : Hist) (pt : List (Nat × Bytes) × Int) {j : Nat} {c : Col} (hj : t.cols[j]? = some c) :
    (scanRow t h pt)[j]? = some (match c.kind with
      | .tag => (pt.1.find? fun e => decide (e.1 = c.id)).map fun e => .str e.2
      | .time => some (.int (BitVec.ofInt 64 pt.2))
      | .field _ => ((fieldIds t.cols).idxOf? c.id).bind (value h pt.1 pt.2)) := by
  unfold scanRow
  rw [List.getElem?_map, hj]
  rfl

theorem setRow_at {t : Table} {sets : List (String × (List (Option Val) → Option Val))} {r : List (Option Val)} (hw : r.length = t.cols.length)
    {j : Nat} {c : Col} (hj : t.cols[j]? = some c) : (setRow t sets r)[j]? = some (match setTo sets c.name with
      | some f => f r
      | none => cellAt r j) := by
  unfold setRow cellsOf setTo cellAt
  obtain ⟨hlt, _⟩ := List.getElem?_eq_some_iff.1 hj
  have hlt' : j < r.length := by omega
  have hz : (t.cols.zip r)[j]? = some (c, r[j]) := by
    rw [List.getElem?_zip_eq_some]
    exact ⟨hj, List.getElem?_eq_getElem hlt'⟩
  rw [List.getElem?_map, hz, List.getElem?_eq_getElem hlt']
  simp only [Option.map_some, Option.join_some]
  cases sets.find? fun s => decide (s.1 = c.name) <;> rfl

theorem gives_col {cast : Kind → Val → Except Err Val} {t : Table} (ht : t.WF) {row : List (Option Val)} {c : Col} {i : Nat}
    (hi : t.cols[i]? = some c) {v : Val} :
    Gives cast (t.cols.map Col.name) row c v ↔ ∃ s, row[i]? = some (some s) ∧ cast c.kind s = .ok v := by
  constructor
  · rintro ⟨j, s, h1, h2, h3⟩
    rw [List.getElem?_map] at h1
    cases hj : t.cols[j]? with
    | none => rw [hj] at h1; cases h1
    | some c' =>
      rw [hj] at h1
      simp only [Option.map_some, Option.some.injEq] at h1
      obtain ⟨l1, e1⟩ := List.getElem?_eq_some_iff.1 hj
      obtain ⟨l2, e2⟩ := List.getElem?_eq_some_iff.1 hi
      have := (List.Nodup.getElem_inj_iff ht.names (i := j) (j := i) (hi := by simpa using l1) (hj := by simpa using l2)).1
        (by simp only [List.getElem_map, e1, e2]; exact h1)
      subst this
      exact ⟨s, h2, h3⟩
  · rintro ⟨s, h1, h2⟩
    exact ⟨i, s, by rw [List.getElem?_map, hi]; rfl, h1, h2⟩

theorem updateKind_field {t : Table} {cols : List String} (h : updateKind t cols = some .field) :
    ∀ n ∈ cols, ∃ c, t.column n = some c ∧ c.isField = true := by
  unfold updateKind at h
  split at h
  · cases h
  · rename_i cs hcs
    rw [collect_ok] at hcs
    split at h
    · cases h
    · split at h
      · cases h
      · split at h
        · rename_i hall
          intro n hn
          have : (match t.column n with | some c => (Except.ok c : Except Err Col) | none => .error .error) ∈ cs.map .ok := by
            rw [← hcs]; exact List.mem_map.2 ⟨n, hn, rfl⟩
          obtain ⟨c, hc, he⟩ := List.mem_map.1 this
          cases hcol : t.column n with
          | none => rw [hcol] at he; cases he
          | some c' =>
            rw [hcol] at he
            cases he
            exact ⟨c, rfl, List.all_eq_true.1 hall c hc⟩
        · cases h

/-! ## The rows an UPDATE writes -/

theorem mem_storedIn {o : Outcome} {x : List (Nat × Bytes) × Row} : x ∈ o.stored.flatMap (·.2) ↔ ∃ n, x ∈ o.storedIn n := by
  unfold Outcome.storedIn
  constructor
  · intro hx
    obtain ⟨e, he, hxe⟩ := List.mem_flatMap.1 hx
    exact ⟨e.1, List.mem_flatMap.2 ⟨e, List.mem_filter.2 ⟨he, by simp⟩, hxe⟩⟩
  · rintro ⟨n, hx⟩
    obtain ⟨e, he, hxe⟩ := List.mem_flatMap.1 hx
    exact List.mem_flatMap.2 ⟨e, (List.mem_filter.1 he).1, hxe⟩

theorem storedAll_mem {S : Type} {cast : Kind → S → Except Err Val} {env : Env} {t : Table} {names : List String}
    {src : List (List (List (Option S)))} {n : Nat} {o : Outcome} (h : StoredAll cast env t names src n o) :
    (∀ x ∈ o.stored.flatMap (·.2), ∃ row ∈ src.flatten, Stored cast env.conv t names row x) ∧
    ∀ row ∈ src.flatten, ∃ x ∈ o.stored.flatMap (·.2), Stored cast env.conv t names row x := by
  obtain ⟨_, ps, hl, hp, hs⟩ := h
  constructor
  · intro x hx
    obtain ⟨m, hm⟩ := mem_storedIn.1 hx
    rw [hs] at hm
    obtain ⟨q, hq, rfl⟩ := List.mem_map.1 hm
    obtain ⟨i, hi⟩ := List.getElem?_of_mem (List.mem_filter.1 hq).1
    obtain ⟨hlt, _⟩ := List.getElem?_eq_some_iff.1 hi
    have hlt' : i < src.flatten.length := by omega
    exact ⟨_, List.getElem_mem hlt', (hp i _ q (List.getElem?_eq_getElem hlt') hi).1⟩
  · intro row hrow
    obtain ⟨i, hi⟩ := List.getElem?_of_mem hrow
    obtain ⟨hlt, _⟩ := List.getElem?_eq_some_iff.1 hi
    have hlt' : i < ps.length := by omega
    refine ⟨ps[i].2, mem_storedIn.2 ⟨ps[i].1, ?_⟩, (hp i row _ hi (List.getElem?_eq_getElem hlt')).1⟩
    rw [hs]
    exact List.mem_map.2 ⟨ps[i], List.mem_filter.2 ⟨List.getElem_mem hlt', by simp⟩, rfl⟩

section
variable {cast : Kind → Val → Except Err Val} {t : Table} {h : Hist} {sets : List (String × (List (Option Val) → Option Val))}

/-- A row an UPDATE writes belongs to the point it was read from. -/
theorem point_of_stored (hci : CastId cast) (ht : TableOk t) (hh : HistOk t h)
    (hsf : ∀ n ∈ sets.map (·.1), ∃ c, t.column n = some c ∧ c.isField = true) {k : List (Nat × Bytes)} {ts : Int} (hp : Present h k ts)
    {x : List (Nat × Bytes) × Row} (hx : Stored cast some t (t.cols.map Col.name) (setRow t sets (scanRow t h (k, ts))) x) :
    x.1 = k ∧ x.2.ts = ts := by
  obtain ⟨q, hq, hqk, hqt⟩ := hp
  have hset : ∀ c ∈ t.cols, c.isField = false → setTo sets c.name = none := by
    intro c hc hf
    cases hs : setTo sets c.name with
    | none => rfl
    | some f =>
      unfold setTo at hs
      cases hfd : sets.find? (fun s => decide (s.1 = c.name)) with
      | none => rw [hfd] at hs; cases hs
      | some s =>
        have h1 := List.find?_some hfd
        obtain ⟨c', hc', hf'⟩ := hsf s.1 (List.mem_map.2 ⟨s, List.mem_of_find?_eq_some hfd, rfl⟩)
        rw [of_decide_eq_true h1, (column_some ht.wf).2 ⟨hc, rfl⟩] at hc'
        cases hc'
        rw [hf] at hf'
        cases hf'
  constructor
  · have hmem : ∀ id b, (id, b) ∈ x.1 ↔ (id, b) ∈ k := by
      intro id b
      rw [hx.tags]
      constructor
      · rintro ⟨c, hc, rfl, hk, hg⟩
        obtain ⟨i, hi⟩ := List.getElem?_of_mem hc
        obtain ⟨s, hs1, hs2⟩ := (gives_col ht.wf hi).1 hg
        rw [setRow_at (scanRow_width _ _ _) hi, hset c hc (by simp [Col.isField, hk])] at hs1
        simp only [cellAt, scanRow_at t h (k, ts) hi, hk, Option.join_some, Option.some.injEq] at hs1
        cases hfd : k.find? (fun e => decide (e.1 = c.id)) with
        | none => rw [hfd] at hs1; cases hs1
        | some e =>
          rw [hfd] at hs1
          simp only [Option.map_some, Option.some.injEq] at hs1
          subst hs1
          rw [hk, hci _ _ (by rfl)] at hs2
          cases hs2
          have h1 : e.1 = c.id := by simpa using List.find?_some hfd
          rw [← h1]
          exact List.mem_of_find?_eq_some hfd
      · intro hm
        obtain ⟨c, hc, hid, hk⟩ := hh.ids q hq (id, b) (by rw [hqk]; exact hm)
        refine ⟨c, hc, hid, hk, ?_⟩
        obtain ⟨i, hi⟩ := List.getElem?_of_mem hc
        rw [gives_col ht.wf hi]
        refine ⟨.str b, ?_, by rw [hk]; exact hci _ _ rfl⟩
        rw [setRow_at (scanRow_width _ _ _) hi, hset c hc (by simp [Col.isField, hk])]
        simp only [cellAt, scanRow_at t h (k, ts) hi, hk, Option.join_some, Option.some.injEq]
        cases hfd : k.find? (fun e => decide (e.1 = c.id)) with
        | none =>
          have := List.find?_eq_none.1 hfd _ hm
          simp [hid] at this
        | some e =>
          have h1 : e.1 = c.id := by simpa using List.find?_some hfd
          have hdis := hh.distinct q hq
          rw [hqk] at hdis
          have := eq_of_key hdis (List.mem_of_find?_eq_some hfd) hm (by rw [h1]; exact hid)
          rw [this]
          rfl
    have hdis := hh.distinct q hq
    have hsor := hh.sorted q hq
    rw [hqk] at hdis hsor
    have hperm : x.1.Perm k := (List.perm_ext_iff_of_nodup (nodup_of_map _ hx.distinct) (nodup_of_map _ hdis)).2 fun e => hmem e.1 e.2
    rw [← hx.sorted, ← hsor]
    exact sortTags_perm hperm hx.distinct
  · obtain ⟨c, hc, hk, v, hg, hv⟩ := hx.time
    obtain ⟨i, hi⟩ := List.getElem?_of_mem hc
    obtain ⟨s, hs1, hs2⟩ := (gives_col ht.wf hi).1 hg
    rw [setRow_at (scanRow_width _ _ _) hi, hset c hc (by simp [Col.isField, hk])] at hs1
    simp only [cellAt, scanRow_at t h (k, ts) hi, hk, Option.join_some, Option.some.injEq] at hs1
    subst hs1
    rw [hk, hci _ _ (by rfl)] at hs2
    cases hs2
    have hb := hh.time q hq
    rw [hqt] at hb
    have : (BitVec.ofInt 64 ts).toInt = ts := by
      rw [BitVec.toInt_ofInt]
      exact Int.bmod_eq_of_le (by omega) (by omega)
    rw [this] at hv
    exact (Option.some.inj hv).symm

theorem idx_of_get {l : List Nat} (hn : l.Nodup) {j id : Nat} (hj : l[j]? = some id) : l.idxOf? id = some j := by
  obtain ⟨hlt, he⟩ := List.getElem?_eq_some_iff.1 hj
  rw [List.idxOf?_eq_some_iff]
  refine ⟨hlt, by rw [he], ?_⟩
  intro i hi
  rw [← he]
  intro h0
  have := (List.Nodup.getElem_inj_iff hn (i := i) (j := j) (hi := by omega) (hj := hlt)).1 h0
  omega

/-- The value such a row has for a field. -/
theorem field_of_stored (hci : CastId cast) (ht : TableOk t) (hh : HistOk t h) {k : List (Nat × Bytes)} {ts : Int}
    {x : List (Nat × Bytes) × Row} (hx : Stored cast some t (t.cols.map Col.name) (setRow t sets (scanRow t h (k, ts))) x)
    {j : Nat} {c : Col} (hc : c ∈ t.cols) (hf : c.isField = true) (hj : (fieldIds t.cols)[j]? = some c.id) :
    (∀ v, (x.2.fields[j]?).join = some v ↔ match setTo sets c.name with
      | none => value h k ts j = some v
      | some f => ∃ s, f (scanRow t h (k, ts)) = some s ∧ cast c.kind s = .ok v) := by
  intro v
  have h0 : (x.2.fields[j]?).join = some v ↔ x.2.fields[j]? = some (some v) := by
    cases x.2.fields[j]? with
    | none => simp
    | some w => simp
  rw [h0, hx.values j c.id v hj]
  obtain ⟨i, hi⟩ := List.getElem?_of_mem hc
  have h1 : (∃ c' ∈ t.cols, c'.id = c.id ∧ c'.isField = true ∧ Gives cast (t.cols.map Col.name) (setRow t sets (scanRow t h (k, ts))) c' v) ↔
      Gives cast (t.cols.map Col.name) (setRow t sets (scanRow t h (k, ts))) c v := by
    constructor
    · rintro ⟨c', hc', hid, _, hg⟩
      rw [← eq_of_id ht.wf.ids hc' hc hid]
      exact hg
    · intro hg; exact ⟨c, hc, rfl, hf, hg⟩
  rw [h1, gives_col ht.wf hi, setRow_at (scanRow_width _ _ _) hi]
  cases hs : setTo sets c.name with
  | some f =>
    simp only [Option.some.injEq]
  | none =>
    simp only [cellAt, scanRow_at t h (k, ts) hi, Option.join_some, Option.some.injEq]
    have hkf : ∃ ty, c.kind = .field ty := by
      unfold Col.isField at hf
      cases hck : c.kind <;> simp [hck] at hf
      exact ⟨_, rfl⟩
    obtain ⟨ty, hkf⟩ := hkf
    simp only [hkf, idx_of_get (fieldIds_nodup ht.wf) hj, Option.bind_some]
    constructor
    · rintro ⟨s, h2, h3⟩
      have hty := value_typed hh hj h2 hc rfl
      rw [hkf] at hty
      rw [hci _ _ hty] at h3
      cases h3
      exact h2
    · intro h2
      have hty := value_typed hh hj h2 hc rfl
      rw [hkf] at hty
      exact ⟨v, h2, hci _ _ hty⟩

end

/-! ## UPDATE -/

theorem flatten_filter_map {α β : Type} (p : α → Bool) (f : α → β) (l : List (List α)) :
    (l.map fun rows => (rows.filter p).map f).flatten = (l.flatten.filter p).map f := by
  induction l with
  | nil => rfl
  | cons a l ih => rw [List.map_cons, List.flatten_cons, ih, List.flatten_cons, List.filter_append, List.map_append]

/-- The rows an accepted UPDATE has written: one for every point it was to change, and the rows of other writes `h2` since the
scan stay. -/
theorem update_rows {cast : Kind → Val → Except Err Val} {env : Env} {t : Table} {h : Hist} {pts : List (List (Nat × Bytes) × Int)}
    {scan : List (List (List (Option Val)))} {sets : List (String × (List (Option Val) → Option Val))} {p : List (Option Val) → Bool} {n : Nat}
    (hco : CastOk cast) (ht : TableOk t) (hsc : Scan t h pts scan) (hconv : env.conv = some)
    (hu : (update cast env t (some t) sets p scan).res = .ok n) :
    (∀ m ∈ sets.map (·.1), ∃ c, t.column m = some c ∧ c.isField = true) ∧ n = (pts.filter fun pt => p (scanRow t h pt)).length ∧
    (∀ x ∈ (update cast env t (some t) sets p scan).stored.flatMap (·.2), ∃ pt ∈ pts, p (scanRow t h pt) = true ∧
      Stored cast some t (t.cols.map Col.name) (setRow t sets (scanRow t h pt)) x) ∧
    ∀ pt ∈ pts, p (scanRow t h pt) = true → ∃ x ∈ (update cast env t (some t) sets p scan).stored.flatMap (·.2),
      Stored cast some t (t.cols.map Col.name) (setRow t sets (scanRow t h pt)) x := by
  unfold update at hu ⊢
  split at hu
  · rename_i hk
    rw [if_pos hk]
    have hsf := updateKind_field hk
    have hcn : columnNames t (t.cols.map Col.name) = t.cols.map Col.name := by unfold columnNames; split <;> rfl
    have hfl : (scan.map fun rows => (rows.filter p).map (setRow t sets)).flatten =
        ((pts.filter fun pt => p (scanRow t h pt)).map (scanRow t h)).map (setRow t sets) := by
      rw [flatten_filter_map, hsc.rows, List.filter_map]
      rfl
    have htm : ∀ rows ∈ scan.map (fun rows => (rows.filter p).map (setRow t sets)), ∀ r ∈ rows, HasTime t (columnNames t (t.cols.map Col.name)) r := by
      intro rows hrows r hr c hc hkt
      have : r ∈ (scan.map fun rows => (rows.filter p).map (setRow t sets)).flatten := List.mem_flatten.2 ⟨rows, hrows, hr⟩
      rw [hfl, List.map_map] at this
      obtain ⟨pt, _, rfl⟩ := List.mem_map.1 this
      obtain ⟨i, hi⟩ := List.getElem?_of_mem hc
      refine ⟨i, .int (BitVec.ofInt 64 pt.2), by rw [hcn, List.getElem?_map, hi]; rfl, ?_⟩
      simp only [Function.comp_apply]
      rw [setRow_at (scanRow_width _ _ _) hi]
      have hno : setTo sets c.name = none := by
        cases hs : setTo sets c.name with
        | none => rfl
        | some f =>
          unfold setTo at hs
          cases hfd : sets.find? (fun s => decide (s.1 = c.name)) with
          | none => rw [hfd] at hs; cases hs
          | some s =>
            have h1 := List.find?_some hfd
            obtain ⟨c', hc', hf'⟩ := hsf s.1 (List.mem_map.2 ⟨s, List.mem_of_find?_eq_some hfd, rfl⟩)
            rw [of_decide_eq_true h1, (column_some ht.wf).2 ⟨hc, rfl⟩] at hc'
            cases hc'
            simp [Col.isField, hkt] at hf'
      rw [hno]
      simp only [cellAt, scanRow_at t h pt hi, hkt, Option.join_some]
    have hst := C149_insert_partial hco ht (names := t.cols.map Col.name) (by rw [hcn]; exact ht.wf.names) htm hu
    obtain ⟨m1, m2⟩ := storedAll_mem hst
    rw [hconv, hcn] at m1 m2
    have hn := hst.1
    refine ⟨hsf, ?_, ?_, ?_⟩
    · rw [hn, hfl, List.length_map, List.length_map]
    · intro x hx
      obtain ⟨row, hrow, hs⟩ := m1 x hx
      rw [hfl, List.map_map] at hrow
      obtain ⟨pt, hpt, rfl⟩ := List.mem_map.1 hrow
      obtain ⟨h1, h2⟩ := List.mem_filter.1 hpt
      exact ⟨pt, h1, h2, hs⟩
    · intro pt hpt hp
      apply m2
      rw [hfl, List.map_map]
      exact List.mem_map.2 ⟨pt, List.mem_filter.2 ⟨hpt, hp⟩, rfl⟩
  · cases hu

/-- With other writes `h2` between the scan of an UPDATE and its own: if they are not to the rows the UPDATE changes, and the
UPDATE sets no null, both have their effect. -/
theorem update_beside {cast : Kind → Val → Except Err Val} {env : Env} {t : Table} {h h2 : Hist} {pts : List (List (Nat × Bytes) × Int)}
    {scan : List (List (List (Option Val)))} {sets : List (String × (List (Option Val) → Option Val))} {p : List (Option Val) → Bool} {n : Nat}
    (hco : CastOk cast) (hci : CastId cast) (ht : TableOk t) (hh : HistOk t h) (hsc : Scan t h pts scan) (hconv : env.conv = some)
    (hdis : ∀ pt ∈ pts, p (scanRow t h pt) = true → ¬ Present h2 pt.1 pt.2)
    (hnn : ∀ s ∈ sets, ∀ pt ∈ pts, p (scanRow t h pt) = true → s.2 (scanRow t h pt) ≠ none)
    (hu : (update cast env t (some t) sets p scan).res = .ok n) :
    n = (pts.filter fun pt => p (scanRow t h pt)).length ∧
    (∀ k ts, Present ((update cast env t (some t) sets p scan).after (h ++ h2)) k ts ↔ Present (h ++ h2) k ts) ∧
    ∀ k ts (j : Nat) c, c ∈ t.cols → c.isField = true → (fieldIds t.cols)[j]? = some c.id →
      match setTo sets c.name with
      | none => value ((update cast env t (some t) sets p scan).after (h ++ h2)) k ts j = value (h ++ h2) k ts j
      | some f =>
        if (k, ts) ∈ pts ∧ p (scanRow t h (k, ts)) = true then
          ∃ s, f (scanRow t h (k, ts)) = some s ∧ ∃ v, cast c.kind s = .ok v ∧
            value ((update cast env t (some t) sets p scan).after (h ++ h2)) k ts j = some v
        else value ((update cast env t (some t) sets p scan).after (h ++ h2)) k ts j = value (h ++ h2) k ts j := by
  obtain ⟨hsf, hn, hback, hforth⟩ := update_rows (p := p) hco ht hsc hconv hu
  generalize (update cast env t (some t) sets p scan) = o at hback hforth ⊢
  have hnew : ∀ x ∈ o.stored.flatMap (·.2), (x.1, x.2.ts) ∈ pts ∧ p (scanRow t h (x.1, x.2.ts)) = true ∧
      Stored cast some t (t.cols.map Col.name) (setRow t sets (scanRow t h (x.1, x.2.ts))) x := by
    intro x hx
    obtain ⟨pt, hpt, hp, hs⟩ := hback x hx
    obtain ⟨e1, e2⟩ := point_of_stored hci ht hh hsf ((hsc.all pt.1 pt.2).1 hpt) hs
    have : (x.1, x.2.ts) = pt := Prod.ext e1 e2
    rw [this]
    exact ⟨hpt, hp, hs⟩
  have hpres : ∀ k ts, Present (o.stored.flatMap (·.2)) k ts ↔ (k, ts) ∈ pts ∧ p (scanRow t h (k, ts)) = true := by
    intro k ts
    constructor
    · rintro ⟨x, hx, rfl, rfl⟩
      exact ⟨(hnew x hx).1, (hnew x hx).2.1⟩
    · rintro ⟨h1, h2⟩
      obtain ⟨x, hx, hs⟩ := hforth (k, ts) h1 h2
      obtain ⟨e1, e2⟩ := point_of_stored hci ht hh hsf ((hsc.all k ts).1 h1) hs
      exact ⟨x, hx, e1, e2⟩
  refine ⟨hn, ?_, ?_⟩
  · intro k ts
    constructor
    · rintro ⟨x, hx, e1, e2⟩
      unfold Outcome.after at hx
      rcases List.mem_append.1 hx with hx | hx
      · exact ⟨x, hx, e1, e2⟩
      · obtain ⟨y, hy, f1, f2⟩ := (hsc.all _ _).1 ((hpres k ts).1 ⟨x, hx, e1, e2⟩).1
        exact ⟨y, List.mem_append_left _ hy, f1, f2⟩
    · rintro ⟨x, hx, e1, e2⟩
      exact ⟨x, List.mem_append_left _ hx, e1, e2⟩
  · intro k ts j c hc hf hj
    have hval : value (o.after (h ++ h2)) k ts j = (value (o.stored.flatMap (·.2)) k ts j).or (value (h ++ h2) k ts j) := value_append _ _ _ _ _
    by_cases hm : (k, ts) ∈ pts ∧ p (scanRow t h (k, ts)) = true
    · have hpr := (hpres k ts).2 hm
      have hfield : ∀ x ∈ o.stored.flatMap (·.2), x.1 = k → x.2.ts = ts → ∀ v, (x.2.fields[j]?).join = some v ↔ match setTo sets c.name with
          | none => value h k ts j = some v
          | some f => ∃ s, f (scanRow t h (k, ts)) = some s ∧ cast c.kind s = .ok v := by
        intro x hx e1 e2
        have hs := (hnew x hx).2.2
        rw [e1, e2] at hs
        exact field_of_stored hci ht hh hs hc hf hj
      cases hst : setTo sets c.name with
      | none =>
        rw [hst] at hfield
        simp only at hfield ⊢
        have h3 : value (o.stored.flatMap (·.2)) k ts j = value h k ts j := by
          apply value_of_all hpr
          intro x hx e1 e2
          have := hfield x hx e1 e2
          cases hv : value h k ts j with
          | some v => exact (this v).2 hv
          | none =>
            cases hw : (x.2.fields[j]?).join with
            | none => rfl
            | some w => have := (this w).1 hw; rw [hv] at this; cases this
        rw [hval, h3, value_append, value_none_of_absent (hdis (k, ts) hm.1 hm.2)]
        cases value h k ts j <;> rfl
      | some f =>
        rw [hst] at hfield
        simp only at hfield ⊢
        rw [if_pos hm]
        have hmem : ∃ s ∈ sets, s.2 = f := by
          unfold setTo at hst
          cases hfd : sets.find? (fun s => decide (s.1 = c.name)) with
          | none => rw [hfd] at hst; cases hst
          | some s =>
            rw [hfd] at hst
            exact ⟨s, List.mem_of_find?_eq_some hfd, by simpa using hst⟩
        obtain ⟨s0, hs0, rfl⟩ := hmem
        cases hfs : s0.2 (scanRow t h (k, ts)) with
        | none => exact absurd hfs (hnn s0 hs0 (k, ts) hm.1 hm.2)
        | some s =>
          refine ⟨s, rfl, ?_⟩
          -- the cast succeeded, as the row was stored
          obtain ⟨x, hx, e1, e2⟩ := hpr
          have hex : ∃ v, cast c.kind s = .ok v := by
            obtain ⟨i, hi⟩ := List.getElem?_of_mem hc
            have hs := (hnew x hx).2.2
            rw [e1, e2] at hs
            refine hs.casts c hc i s (by rw [List.getElem?_map, hi]; rfl) ?_
            rw [setRow_at (scanRow_width _ _ _) hi, hst]
            simp only [hfs]
          obtain ⟨v, hv⟩ := hex
          refine ⟨v, hv, ?_⟩
          have h3 : value (o.stored.flatMap (·.2)) k ts j = some v := by
            apply value_of_all ⟨x, hx, e1, e2⟩
            intro y hy f1 f2
            exact (hfield y hy f1 f2 v).2 ⟨s, hfs, hv⟩
          rw [hval, h3]
          rfl
    · have h3 : value (o.stored.flatMap (·.2)) k ts j = none := value_none_of_absent (fun hpr => hm ((hpres k ts).1 hpr)) j
      cases hst : setTo sets c.name with
      | none => simp only; rw [hval, h3]; rfl
      | some f => simp only; rw [if_neg hm, hval, h3]; rfl

/-- An accepted UPDATE of fields does what it says, if it sets no field to null.  Missing from the full statement: nulls. -/
theorem C150_update_partial {cast : Kind → Val → Except Err Val} {env : Env} {t : Table} {h : Hist} {pts : List (List (Nat × Bytes) × Int)}
    {scan : List (List (List (Option Val)))} {sets : List (String × (List (Option Val) → Option Val))} {p : List (Option Val) → Bool} {n : Nat}
    (hco : CastOk cast) (hci : CastId cast) (ht : TableOk t) (hh : HistOk t h) (hsc : Scan t h pts scan) (hconv : env.conv = some)
    (hnn : ∀ s ∈ sets, ∀ pt ∈ pts, p (scanRow t h pt) = true → s.2 (scanRow t h pt) ≠ none)
    (hu : (update cast env t (some t) sets p scan).res = .ok n) :
    Updates cast t h pts sets p n ((update cast env t (some t) sets p scan).after h) := by
  obtain ⟨h1, h2, h3⟩ := update_beside (h2 := []) hco hci ht hh hsc hconv (by rintro pt _ _ ⟨x, hx, _⟩; cases hx) hnn hu
  rw [List.append_nil] at h2 h3
  refine ⟨h1, h2, ?_⟩
  intro k ts j c hc hf hj
  have := h3 k ts j c hc hf hj
  cases hs : setTo sets c.name with
  | none => rw [hs] at this; exact this
  | some f =>
    rw [hs] at this
    simp only at this ⊢
    split
    · rename_i hm
      rw [if_pos hm] at this
      obtain ⟨s, e1, v, e2, e3⟩ := this
      rw [e1]
      exact ⟨v, e2, e3⟩
    · rename_i hm
      rw [if_neg hm] at this
      exact this

/-- An UPDATE leaves the columns it does not set as other statements made them, also if those were written since its scan. -/
def C151Full : Prop := ∀ (cast : Kind → Val → Except Err Val) (env : Env) (t : Table) (h h2 : Hist) (pts : List (List (Nat × Bytes) × Int))
  (scan : List (List (List (Option Val)))) (sets : List (String × (List (Option Val) → Option Val))) (p : List (Option Val) → Bool) (n : Nat),
  CastOk cast → CastId cast → TableOk t → HistOk t h → HistOk t h2 → Scan t h pts scan → env.conv = some →
  (update cast env t (some t) sets p scan).res = .ok n →
  ∀ k ts (j : Nat) c, c ∈ t.cols → c.isField = true → (fieldIds t.cols)[j]? = some c.id → setTo sets c.name = none →
    value ((update cast env t (some t) sets p scan).after (h ++ h2)) k ts j = value (h ++ h2) k ts j

/-- It does if the other statements have not written to the rows it changes. -/
theorem C151_beside_partial {cast : Kind → Val → Except Err Val} {env : Env} {t : Table} {h h2 : Hist} {pts : List (List (Nat × Bytes) × Int)}
    {scan : List (List (List (Option Val)))} {sets : List (String × (List (Option Val) → Option Val))} {p : List (Option Val) → Bool} {n : Nat}
    (hco : CastOk cast) (hci : CastId cast) (ht : TableOk t) (hh : HistOk t h) (hsc : Scan t h pts scan) (hconv : env.conv = some)
    (hdis : ∀ pt ∈ pts, p (scanRow t h pt) = true → ¬ Present h2 pt.1 pt.2)
    (hnn : ∀ s ∈ sets, ∀ pt ∈ pts, p (scanRow t h pt) = true → s.2 (scanRow t h pt) ≠ none)
    (hu : (update cast env t (some t) sets p scan).res = .ok n) :
    ∀ k ts (j : Nat) c, c ∈ t.cols → c.isField = true → (fieldIds t.cols)[j]? = some c.id → setTo sets c.name = none →
      value ((update cast env t (some t) sets p scan).after (h ++ h2)) k ts j = value (h ++ h2) k ts j := by
  intro k ts j c hc hf hj hs
  have := (update_beside hco hci ht hh hsc hconv hdis hnn hu).2.2 k ts j c hc hf hj
  rw [hs] at this
  exact this

/-- A row that has not been written since the scan is not changed by an UPDATE whose condition is not true of it, whatever
else has been written. -/
theorem C151_others {cast : Kind → Val → Except Err Val} {env : Env} {t : Table} {h h2 : Hist} {pts : List (List (Nat × Bytes) × Int)}
    {scan : List (List (List (Option Val)))} {sets : List (String × (List (Option Val) → Option Val))} {p : List (Option Val) → Bool} {n : Nat}
    (hco : CastOk cast) (hci : CastId cast) (ht : TableOk t) (hh : HistOk t h) (hsc : Scan t h pts scan) (hconv : env.conv = some)
    (hu : (update cast env t (some t) sets p scan).res = .ok n) (k : List (Nat × Bytes)) (ts : Int)
    (hno : ¬ ((k, ts) ∈ pts ∧ p (scanRow t h (k, ts)) = true)) (j : Nat) :
    value ((update cast env t (some t) sets p scan).after (h ++ h2)) k ts j = value (h ++ h2) k ts j := by
  obtain ⟨hsf, _, hback, _⟩ := update_rows (p := p) hco ht hsc hconv hu
  unfold Outcome.after
  rw [value_append, value_none_of_absent]
  · rfl
  · rintro ⟨x, hx, e1, e2⟩
    obtain ⟨pt, hpt, hp, hs⟩ := hback x hx
    obtain ⟨f1, f2⟩ := point_of_stored hci ht hh hsf ((hsc.all pt.1 pt.2).1 hpt) hs
    have : (k, ts) = pt := Prod.ext (by rw [← e1, f1]) (by rw [← e2, f2])
    rw [this] at hno
    exact hno ⟨hpt, hp⟩

/-- What an accepted INSERT or UPDATE stores are rows of the schema of the table. -/
theorem C150_rows {S : Type} {cast : Kind → S → Except Err Val} {env : Env} {t : Table} {names : List String}
    {src : List (List (List (Option S)))} {n : Nat} {o : Outcome} (hco : CastOk cast) (ht : TableOk t)
    (hconv : ∀ x y, env.conv x = some y → -2 ^ 63 ≤ y ∧ y < 2 ^ 63) {h : Hist} (hh : HistOk t h) (hs : StoredAll cast env t names src n o) :
    HistOk t (o.after h) := by
  obtain ⟨hm, _⟩ := storedAll_mem hs
  refine ⟨?_, ?_, ?_, ?_, ?_⟩ <;> intro x hx <;> unfold Outcome.after at hx <;> rcases List.mem_append.1 hx with hx | hx
  · exact hh.ids x hx
  · intro e he
    obtain ⟨row, _, hst⟩ := hm x hx
    obtain ⟨c, hc, h1, h2, _⟩ := (hst.tags e.1 e.2).1 he
    exact ⟨c, hc, h1, h2⟩
  · exact hh.distinct x hx
  · obtain ⟨row, _, hst⟩ := hm x hx
    exact hst.distinct
  · exact hh.sorted x hx
  · obtain ⟨row, _, hst⟩ := hm x hx
    exact hst.sorted
  · exact hh.time x hx
  · obtain ⟨row, _, hst⟩ := hm x hx
    obtain ⟨_, _, _, v, _, hv⟩ := hst.time
    exact hconv _ _ hv
  · exact hh.typed x hx
  · intro j id v hj hv c hc hid
    obtain ⟨row, _, hst⟩ := hm x hx
    obtain ⟨c', hc', hid', _, _, s, _, _, hcast⟩ := (hst.values j id v hj).1 hv
    rw [eq_of_id ht.wf.ids hc hc' (by rw [hid, hid'])]
    exact hco _ _ _ hcast

end Verif.Insert
