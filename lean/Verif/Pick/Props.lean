import Verif.Pick.Job
/-!
# Properties of compaction jobs
-/
namespace Verif.Pick

open Verif.Sort Verif.Reader Verif.Compact Verif.Time Verif.Tomb

variable {α : Type}

/-! ## C104: a compaction replaces its files without losing rows -/

/-- Two versions have the same rows: the times of each series, and the times with a value of each column. -/
structure SameTimes (cols : Nat) (s s' : Levels α) : Prop where
  times : ∀ sid t, (∃ p ∈ rowsIn s sid, p.2.ts = t) ↔ ∃ p ∈ rowsIn s' sid, p.2.ts = t
  values : ∀ sid t c, c < cols → ((∃ p ∈ rowsIn s sid, p.2.ts = t ∧ p.2.cell c ≠ none) ↔ ∃ p ∈ rowsIn s' sid, p.2.ts = t ∧ p.2.cell c ≠ none)

/-- What a query may answer for each series is the same in both versions. -/
def SameAnswers (cols : Nat) (s s' : Levels α) : Prop := ∀ sid x, Ans cols (rowsIn s sid) x → Ans cols (rowsIn s' sid) x ∧ ∀ y, Ans cols (rowsIn s' sid) y → y = x

theorem mem_input {q : Req α} {out : Option (Int × Int)} {sid : Nat} {p : Nat × Row α} :
    p ∈ inputRows (q.inputs.map DFile.body) out sid ↔ ∃ f, q.inputs[p.1]? = some f ∧ p.2 ∈ f.body.rows sid ∧ inOut out p.2.ts = true := by
  rw [mem_inputRows]
  constructor
  · rintro ⟨b, hb, hr, ho⟩
    rw [List.getElem?_map] at hb
    obtain ⟨f, hf, rfl⟩ := Option.map_eq_some_iff.1 hb
    exact ⟨f, hf, hr, ho⟩
  · rintro ⟨f, hf, hr, ho⟩
    exact ⟨f.body, by rw [List.getElem?_map, hf]; rfl, hr, ho⟩

/-- The job of a request that fits a version succeeds, and its output has the merged rows. -/
theorem job_ok {cols block : Nat} {s : Levels α} {q : Req α} (hb : 1 ≤ block) (h : Ok cols s) (hq : q.Fits s)
    (hsort : (start (q.inputs.map DFile.body)).Pairwise fun a b => leC a b = true) (id size : Nat) :
    ∃ N ds, (∀ fuel, N < fuel → q.job cols block fuel id size = some (q.edit id size ds)) ∧ Compacted cols (outOf q.out) (q.inputs.map DFile.body) ds := by
  obtain ⟨N, ds, h1, h2⟩ := C38_compact_partial cols block hb (outOf q.out) (q.inputs.map DFile.body) (InputOk.sub h.input (by
    intro f hf
    obtain ⟨g, hg, rfl⟩ := List.mem_map.1 hf
    exact List.mem_map.2 ⟨g, hq.sub g ((mem_inputs hq).1 hg), rfl⟩)) hsort
  exact ⟨N, ds, fun fuel hf => by rw [job_eq, h1 fuel hf]; rfl, h2⟩

theorem mem_of_holds {s : Levels α} {q : Req α} (hh : Holds s q) {f : DFile α} (hf : f ∈ q.files) {sid : Nat} {r : Row α} (hr : r ∈ f.body.rows sid) :
    (f.id, r) ∈ rowsIn s sid := by
  obtain ⟨g, hg, e, eb⟩ := hh.files f hf
  exact mem_rowsIn.2 ⟨g, hg, e.symm, by rw [eb]; exact hr⟩

theorem of_holds {s : Levels α} {q : Req α} (hh : Holds s q) {f : DFile α} (hf : f ∈ q.files) {sid : Nat} {p : Nat × Row α} (hp : p ∈ rowsIn s sid)
    (e : f.id = p.1) : p.2 ∈ f.body.rows sid := by
  obtain ⟨g, hg, e1, eb⟩ := hh.files f hf
  obtain ⟨g', hg', e', hr⟩ := mem_rowsIn.1 hp
  rw [pairwise_id_inj hh.ids hg' hg (by rw [e1, e, e'])] at hr
  rw [← eb]; exact hr

/-- The rows of the output are those of the files of the request in the range. -/
theorem output_row {cols : Nat} {s s' : Levels α} {q : Req α} (hq : q.Fits s) (hh : Holds s' q) {ds : List (Done α)}
    (hc : Compacted cols (outOf q.out) (q.inputs.map DFile.body) ds) {sid : Nat} {r : Row α} (hr : r ∈ (ofSid sid ds).flatMap Done.rows) :
    ∃ p ∈ rowsIn s' sid, p.2.ts = r.ts ∧ ∃ f ∈ q.files, f.id = p.1 := by
  obtain ⟨p, hp, e⟩ := (hc.rows sid).time hr
  obtain ⟨f, hf, hr', _⟩ := mem_input.1 hp
  have hf' := (mem_inputs hq).1 (List.mem_of_getElem? hf)
  exact ⟨_, mem_of_holds hh hf' hr', e, f, hf', rfl⟩

theorem output_value {cols : Nat} {s s' : Levels α} {q : Req α} (hq : q.Fits s) (hh : Holds s' q) {ds : List (Done α)}
    (hc : Compacted cols (outOf q.out) (q.inputs.map DFile.body) ds) {sid : Nat} {r : Row α} (hr : r ∈ (ofSid sid ds).flatMap Done.rows) {c : Nat}
    (hcc : c < cols) {v : α} (hv : r.cell c = some v) :
    ∃ p ∈ rowsIn s' sid, p.2.ts = r.ts ∧ p.2.cell c = some v ∧ inOut (outOf q.out) r.ts = true ∧ ∃ (i : Nat) (f : DFile α), q.inputs[i]? = some f ∧ f.id = p.1 ∧
      ∀ (j : Nat) (g : DFile α), q.inputs[j]? = some g → i < j → ∀ r' ∈ g.body.rows sid, r'.ts = r.ts → r'.cell c = none := by
  obtain ⟨p, hp, e, hpv, hlast⟩ := (hc.rows sid).value r hr c hcc v hv
  obtain ⟨f, hf, hr', ho⟩ := mem_input.1 hp
  have hf' := (mem_inputs hq).1 (List.mem_of_getElem? hf)
  refine ⟨_, mem_of_holds hh hf' hr', e, hpv, by rw [← e]; exact ho, p.1, f, hf, rfl, ?_⟩
  intro j g hg hij r' hr'' e'
  exact hlast (j, r') (mem_input.2 ⟨g, hg, hr'', by simp only; rw [e', ← e]; exact ho⟩) hij e'

/-- A row of a file of the request that is in the range has its time and its values in the output. -/
theorem row_output {cols : Nat} {s : Levels α} {q : Req α} (h : Ok cols s) (hq : q.Fits s) {ds : List (Done α)}
    (hc : Compacted cols (outOf q.out) (q.inputs.map DFile.body) ds) {f : DFile α} (hf : f ∈ q.files) {sid : Nat} {r : Row α} (hr : r ∈ f.body.rows sid)
    (ho : Has q.out r.ts) : ∃ r' ∈ (ofSid sid ds).flatMap Done.rows, r'.ts = r.ts ∧ ∀ c, c < cols → r.cell c ≠ none → r'.cell c ≠ none := by
  obtain ⟨i, hi⟩ := List.getElem?_of_mem ((mem_inputs hq).2 hf)
  have hp : (i, r) ∈ inputRows (q.inputs.map DFile.body) (outOf q.out) sid :=
    mem_input.2 ⟨f, hi, hr, (inOut_outOf (h.i64 (hq.sub f hf) hr)).2 ho⟩
  obtain ⟨r', hr', e⟩ := List.mem_map.1 (((hc.rows sid).times r.ts).2 ⟨_, hp, rfl⟩)
  exact ⟨r', hr', e, fun c hcc hne hn => hne ((hc.rows sid).null r' hr' c hcc hn _ hp e.symm)⟩

/-- No row is lost and none is made by a compaction: after the result of the job of a request is installed in a version that still has the
files of the request as they were, each series has the same times as before, and values of the same columns at them. -/
theorem C104_rows_partial {cols block : Nat} {s s' : Levels α} {q : Req α} (hb : 1 ≤ block) (h : Ok cols s) (hq : q.Fits s)
    (hsort : (start (q.inputs.map DFile.body)).Pairwise fun a b => leC a b = true) (hh : Holds s' q) (id size : Nat) :
    ∃ N e, (∀ fuel, N < fuel → q.job cols block fuel id size = some e) ∧ SameTimes cols s' (install s' e) := by
  obtain ⟨N, ds, h1, hc⟩ := job_ok hb h hq hsort id size
  refine ⟨N, _, h1, ?_⟩
  have hm := mem_rowsIn_install hq hh id size ds
  -- a row of the old version is in the new one, or the output has its time and its values
  have key : ∀ sid, ∀ p ∈ rowsIn s' sid, ∃ p' ∈ rowsIn (install s' (q.edit id size ds)) sid, p'.2.ts = p.2.ts ∧
      ∀ c, c < cols → p.2.cell c ≠ none → p'.2.cell c ≠ none := by
    intro sid p hp
    by_cases hin : ∃ f ∈ q.files, f.id = p.1
    · obtain ⟨f, hf, e⟩ := hin
      have hr := of_holds hh hf hp e
      by_cases hst : q.Stays f p.2.ts
      · exact ⟨p, (hm sid p).2 (.inr (.inl ⟨f, hf, e.symm, hr, hst⟩)), rfl, fun _ _ h => h⟩
      · obtain ⟨r', hr', e', hv⟩ := row_output h hq hc hf hr (out_of_not_stays h hq hf hr hst)
        exact ⟨(id, r'), (hm sid _).2 (.inr (.inr ⟨rfl, hr'⟩)), e', hv⟩
    · exact ⟨p, (hm sid p).2 (.inl ⟨hp, fun f hf e => hin ⟨f, hf, e⟩⟩), rfl, fun _ _ h => h⟩
  have back : ∀ sid, ∀ p ∈ rowsIn (install s' (q.edit id size ds)) sid, p ∈ rowsIn s' sid ∨ p.2 ∈ (ofSid sid ds).flatMap Done.rows := by
    intro sid p hp
    rcases (hm sid p).1 hp with ⟨h1, _⟩ | ⟨f, hf, e, hr, _⟩ | ⟨_, hr⟩
    · exact .inl h1
    · have := mem_of_holds hh hf hr
      rw [← e] at this
      exact .inl this
    · exact .inr hr
  constructor
  · intro sid t
    constructor
    · rintro ⟨p, hp, rfl⟩
      obtain ⟨p', hp', e, _⟩ := key sid p hp
      exact ⟨p', hp', e⟩
    · rintro ⟨p, hp, rfl⟩
      rcases back sid p hp with hp | hr
      · exact ⟨p, hp, rfl⟩
      · obtain ⟨p', hp', e, _⟩ := output_row hq hh hc hr
        exact ⟨p', hp', e⟩
  · intro sid t c hcc
    constructor
    · rintro ⟨p, hp, rfl, hv⟩
      obtain ⟨p', hp', e, h⟩ := key sid p hp
      exact ⟨p', hp', e, h c hcc hv⟩
    · rintro ⟨p, hp, rfl, hv⟩
      rcases back sid p hp with hp | hr
      · exact ⟨p, hp, rfl, hv⟩
      · cases hcell : p.2.cell c with
        | none => exact absurd hcell hv
        | some v =>
          obtain ⟨p', hp', e, hv', _⟩ := output_value hq hh hc hr hcc hcell
          exact ⟨p', hp', e, by rw [hv']; simp⟩

/-- The ids tell which value is newer: the files of a request that have values for one cell come in the order of their ids, the output has
the largest id, and no other file has a newer value for a cell of a row in the range. -/
structure Newest (cols : Nat) (s : Levels α) (q : Req α) (id : Nat) : Prop where
  order : q.inputs.Pairwise fun f g => ∀ sid, ∀ r ∈ f.body.rows sid, ∀ r' ∈ g.body.rows sid, r.ts = r'.ts → Has q.out r.ts →
    ∀ c, c < cols → r.cell c ≠ none → r'.cell c ≠ none → f.id < g.id
  last : ∀ f ∈ s, f.id < id
  other : ∀ sid, ∀ p ∈ rowsIn s sid, (∀ f ∈ q.files, f.id ≠ p.1) → Has q.out p.2.ts → ∀ f ∈ q.files, ∀ r ∈ f.body.rows sid, r.ts = p.2.ts →
    ∀ c, c < cols → p.2.cell c ≠ none → r.cell c ≠ none → p.1 < f.id

theorem InputOk.rows_inc {cols : Nat} {files : List (File α)} (h : InputOk cols files) {f : File α} (hf : f ∈ files) (sid : Nat) :
    (f.rows sid).Pairwise fun x y => x.ts < y.ts := h.inc' hf sid

theorem ts_inj {l : List (Row α)} (h : l.Pairwise fun x y => x.ts < y.ts) {a b : Row α} (ha : a ∈ l) (hb : b ∈ l) (e : a.ts = b.ts) : a = b :=
  inc_inj h ha hb e

/-- A query answers the same before and after the result is installed, if the ids tell which value is newer. -/
theorem C104_read_partial {cols block : Nat} {s s' : Levels α} {q : Req α} (hb : 1 ≤ block) (h : Ok cols s) (hq : q.Fits s)
    (hsort : (start (q.inputs.map DFile.body)).Pairwise fun a b => leC a b = true) (hh : Holds s' q) (hi : InputOk cols (s'.map DFile.body))
    {id : Nat} (hn : Newest cols s' q id) (size : Nat) :
    ∃ N e, (∀ fuel, N < fuel → q.job cols block fuel id size = some e) ∧ SameAnswers cols s' (install s' e) := by
  obtain ⟨N, ds, h1, hc⟩ := job_ok hb h hq hsort id size
  refine ⟨N, _, h1, ?_⟩
  have hm := mem_rowsIn_install hq hh id size ds
  have hlt : ∀ sid, ∀ p ∈ rowsIn s' sid, p.1 < id := by
    intro sid p hp
    obtain ⟨f, hf, e, _⟩ := mem_rowsIn.1 hp
    rw [e]; exact hn.last f hf
  have hinc : ∀ sid, ∀ f ∈ s', (f.body.rows sid).Pairwise fun x y => x.ts < y.ts :=
    fun sid f hf => InputOk.rows_inc hi (List.mem_map.2 ⟨f, hf, rfl⟩) sid
  -- rows with one id and time are one row
  have hcompat : ∀ sid, Compat (rowsIn s' sid) := by
    intro sid p hp p' hp' e et
    obtain ⟨f, hf, e1, hr⟩ := mem_rowsIn.1 hp
    obtain ⟨f', hf', e1', hr'⟩ := mem_rowsIn.1 hp'
    have : f = f' := pairwise_id_inj hh.ids hf hf' (by rw [← e1, ← e1', e])
    subst this
    exact ts_inj (hinc sid f hf) hr hr' et
  have hold : ∀ sid, ∀ p ∈ rowsIn (install s' (q.edit id size ds)) sid, p ∈ rowsIn s' sid ∨ p.1 = id ∧ p.2 ∈ (ofSid sid ds).flatMap Done.rows := by
    intro sid p hp
    rcases (hm sid p).1 hp with ⟨h1, _⟩ | ⟨f, hf, e, hr, _⟩ | hr
    · exact .inl h1
    · have := mem_of_holds hh hf hr
      rw [← e] at this
      exact .inl this
    · exact .inr hr
  have hcompat' : ∀ sid, Compat (rowsIn (install s' (q.edit id size ds)) sid) := by
    intro sid p hp p' hp' e et
    rcases hold sid p hp with h2 | ⟨h2, h3⟩ <;> rcases hold sid p' hp' with h4 | ⟨h4, h5⟩
    · exact hcompat sid p h2 p' h4 e et
    · have := hlt sid p h2; omega
    · have := hlt sid p' h4; omega
    · exact ts_inj (hc.rows sid).inc h3 h5 et
  -- the order of the inputs is that of the ids
  have hord : ∀ (i j : Nat) f g, q.inputs[i]? = some f → q.inputs[j]? = some g → f.id < g.id → ∀ sid, ∀ r ∈ f.body.rows sid, ∀ r' ∈ g.body.rows sid,
      r'.ts = r.ts → Has q.out r'.ts → ∀ c, c < cols → r.cell c ≠ none → r'.cell c ≠ none → i < j := by
    intro i j f g hf hg hid sid r hr r' hr' et ho c hcc hv hv'
    rcases Nat.lt_trichotomy i j with hij | hij | hij
    · exact hij
    · subst hij
      rw [hf] at hg
      cases hg
      omega
    · obtain ⟨hi', rfl⟩ := List.getElem?_eq_some_iff.1 hf
      obtain ⟨hj', rfl⟩ := List.getElem?_eq_some_iff.1 hg
      have := List.pairwise_iff_getElem.1 hn.order j i hj' hi' hij sid r' hr' r hr et ho c hcc hv' hv
      omega
  have hsame := (show SameTimes cols s' (install s' (q.edit id size ds)) by
    obtain ⟨N', e', h3, h4⟩ := C104_rows_partial hb h hq hsort hh id size
    have := (h1 (max N N' + 1) (by omega)).symm.trans (h3 (max N N' + 1) (by omega))
    cases this
    exact h4)
  intro sid x hx
  have hans : Ans cols (rowsIn (install s' (q.edit id size ds)) sid) x := by
    refine ⟨hx.inc, ?_, hx.width, ?_, ?_⟩
    · intro t
      rw [hx.times t]
      exact hsame.times sid t
    · intro r hr c hcc hnull p hp e
      cases hcell : p.2.cell c with
      | none => rfl
      | some v =>
        obtain ⟨p', hp', e', hv⟩ := (hsame.values sid r.ts c hcc).2 ⟨p, hp, e, by rw [hcell]; simp⟩
        exact absurd (hx.null r hr c hcc hnull p' hp' e') hv
    · intro r hr c hcc v hv
      obtain ⟨p, hp, e, hpv, hmax⟩ := hx.value r hr c hcc v hv
      by_cases hin : (∃ f ∈ q.files, f.id = p.1) ∧ Has q.out p.2.ts
      · obtain ⟨⟨f, hf, ef⟩, ho⟩ := hin
        have hrow := of_holds hh hf hp ef
        obtain ⟨r', hr', e', hv'⟩ := row_output h hq hc hf hrow ho
        cases hcell : r'.cell c with
        | none => exact absurd hcell (hv' c hcc (by rw [hpv]; simp))
        | some w =>
          obtain ⟨p', hp', e2, hpw, _, i, f', hf', ei, hlast⟩ := output_value hq hh hc hr' hcc hcell
          have hpp : p.2 = p'.2 := by
            refine hcompat sid p hp p' hp' ?_ (by rw [e2, e'])
            rcases Nat.lt_trichotomy p.1 p'.1 with hl | hl | hl
            · rw [hmax p' hp' hl (by rw [e2, e', e])] at hpw; cases hpw
            · exact hl
            · obtain ⟨j, hj⟩ := List.getElem?_of_mem ((mem_inputs hq).2 hf)
              have hrow' := of_holds hh ((mem_inputs hq).1 (List.mem_of_getElem? hf')) hp' ei
              have := hlast j f hj (hord i j f' f hf' hj (by rw [ei, ef]; exact hl) sid p'.2 hrow' p.2 hrow (by rw [e2, e']) ho c hcc
                (by rw [hpw]; simp) (by rw [hpv]; simp)) p.2 hrow e'.symm
              rw [this] at hpv; cases hpv
          rw [← hpp, hpv] at hpw
          cases hpw
          refine ⟨(id, r'), (hm sid _).2 (.inr (.inr ⟨rfl, hr'⟩)), by rw [← e, ← e'], hcell, ?_⟩
          intro p2 hp2 hl _
          simp only at hl
          rcases hold sid p2 hp2 with h2 | ⟨h2, _⟩
          · have := hlt sid p2 h2; omega
          · omega
      · refine ⟨p, ?_, e, hpv, ?_⟩
        · by_cases hf : ∃ f ∈ q.files, f.id = p.1
          · obtain ⟨f, hf, ef⟩ := hf
            have hrow := of_holds hh hf hp ef
            refine (hm sid p).2 (.inr (.inl ⟨f, hf, ef.symm, hrow, ?_⟩))
            refine Classical.byContradiction fun hns => ?_
            exact hin ⟨⟨f, hf, ef⟩, out_of_not_stays h hq hf hrow hns⟩
          · exact (hm sid p).2 (.inl ⟨hp, fun f hf' e => hf ⟨f, hf', e⟩⟩)
        · intro p2 hp2 hl et
          rcases hold sid p2 hp2 with h2 | ⟨_, h3⟩
          · exact hmax p2 h2 hl et
          · cases hcell : p2.2.cell c with
            | none => rfl
            | some w =>
              obtain ⟨p', hp', e2, hpw, ho, i, f', hf', ei, _⟩ := output_value hq hh hc h3 hcc hcell
              have hff := (mem_inputs hq).1 (List.mem_of_getElem? hf')
              have hrow' := of_holds hh hff hp' ei
              have ho' : Has q.out p2.2.ts := (inOut_outOf (by rw [← e2]; exact h.i64 (hq.sub f' hff) hrow')).1 ho
              have hnf : ∀ f ∈ q.files, f.id ≠ p.1 := by
                intro f hf ef
                exact hin ⟨⟨f, hf, ef⟩, by rw [e, ← et]; exact ho'⟩
              have := hn.other sid p hp hnf (by rw [e, ← et]; exact ho') f' hff p'.2 hrow' (by rw [e2, et, e]) c hcc (by rw [hpv]; simp)
                (by rw [hpw]; simp)
              rw [ei] at this
              rw [hmax p' hp' this (by rw [e2, et])] at hpw
              cases hpw
  exact ⟨hans, fun y hy => Ans.unique (hcompat' sid) hy hans⟩

end Verif.Pick
