import Verif.Compact.MergeSpec
/-!
# The whole compaction
-/
namespace Verif.Compact

open Verif.Sort Verif.Reader

variable {α : Type}

/-- All blocks of the output so far, with the one that waits. -/
def St.all (s : St α) : List (Done α) := s.written ++ s.prev.toList

/-- The blocks of a series in the output. -/
def ofSid (sid : Nat) (l : List (Done α)) : List (Done α) := l.filter fun d => decide (d.sid = sid)

theorem ofSid_append (sid : Nat) (a b : List (Done α)) : ofSid sid (a ++ b) = ofSid sid a ++ ofSid sid b := List.filter_append ..

theorem ofSid_all {sid : Nat} {l : List (Done α)} (h : ∀ d ∈ l, d.sid = sid) : ofSid sid l = l := by
  unfold ofSid
  rw [List.filter_eq_self]
  intro d hd
  simpa using h d hd

theorem ofSid_none {sid : Nat} {l : List (Done α)} (h : ∀ d ∈ l, d.sid ≠ sid) : ofSid sid l = [] := by
  unfold ofSid
  rw [List.filter_eq_nil_iff]
  intro d hd
  simpa using h d hd

theorem mem_ofSid {sid : Nat} {l : List (Done α)} {d : Done α} : d ∈ ofSid sid l ↔ d ∈ l ∧ d.sid = sid := by
  unfold ofSid
  rw [List.mem_filter]
  simp

/-- What holds during a compaction, when `D sid` are the blocks of series `sid` that are merged. -/
structure Inv (cols : Nat) (out : Option (Int × Int)) (D : Nat → List (Block α)) (s : St α) : Prop where
  up : ∀ sid, (ofSid sid s.all).Pairwise fun d e => d.hi ≤ e.lo
  ok : ∀ d ∈ s.all, DoneOk d.sid out d
  upper : ∀ d ∈ s.all, ∀ x, (∀ b ∈ D d.sid, b.hi ≤ x) → d.hi ≤ x
  ans : ∀ sid, Ans cols ((D sid).flatMap (Block.tags out)) ((ofSid sid s.all).flatMap Done.rows)
  prev : ∀ p, s.prev = some p → s.cur = some p.sid
  range : ∀ sid, ∀ b ∈ D sid, ∀ r ∈ b.rows, r.ts ≤ b.hi

theorem write_ok {w : List (Done α)} {d : Done α} (h : ∀ x ∈ w, x.sid = d.sid → x.hi ≤ d.lo) : write w d = some (w ++ [d]) := by
  unfold write
  rw [if_neg]
  simp only [List.any_eq_true, Bool.and_eq_true, decide_eq_true_eq, not_exists, not_and]
  intro x hx e
  have := h x hx e
  omega

theorem writeAll_ok {sid : Nat} {w ds : List (Done α)} (hs : ∀ d ∈ ds, d.sid = sid) (h : ∀ x ∈ w, x.sid = sid → ∀ d ∈ ds, x.hi ≤ d.lo)
    (hp : ds.Pairwise fun d e => d.hi ≤ e.lo) : writeAll w ds = some (w ++ ds) := by
  induction ds generalizing w with
  | nil => simp [writeAll]
  | cons d ds ih =>
    rw [List.pairwise_cons] at hp
    rw [writeAll, write_ok (fun x hx e => h x hx (by rw [e]; exact hs d List.mem_cons_self) d List.mem_cons_self)]
    simp only
    rw [ih (fun d hd => hs d (List.mem_cons_of_mem _ hd)) ?_ hp.2]
    · simp
    · intro x hx e y hy
      rcases List.mem_append.1 hx with hx | hx
      · exact h x hx e y (List.mem_cons_of_mem _ hy)
      · rw [List.mem_singleton.1 hx]; exact hp.1 y hy

theorem Inv.written_prev {cols : Nat} {out : Option (Int × Int)} {D : Nat → List (Block α)} {s : St α} (h : Inv cols out D s) {p : Done α}
    (hp : s.prev = some p) : ∀ x ∈ s.written, x.sid = p.sid → x.hi ≤ p.lo := by
  intro x hx e
  have := h.up p.sid
  unfold St.all at this
  rw [ofSid_append, List.pairwise_append] at this
  exact this.2.2 x (mem_ofSid.2 ⟨hx, e⟩) p (mem_ofSid.2 ⟨by simp [hp], rfl⟩)

theorem turn_spec {cols : Nat} {out : Option (Int × Int)} {D : Nat → List (Block α)} {s : St α} (sid : Nat) (h : Inv cols out D s) :
    ∃ s', s.turn sid = some s' ∧ Inv cols out D s' ∧ s'.cur = some sid ∧ ∀ p, s'.prev = some p → p.sid = sid := by
  obtain ⟨w, pr, cur⟩ := s
  cases pr with
  | none =>
    refine ⟨⟨w, none, some sid⟩, ?_, ⟨h.up, h.ok, h.upper, h.ans, by simp, h.range⟩, rfl, by simp⟩
    unfold St.turn
    cases cur <;> rfl
  | some p =>
    have hc := h.prev p rfl
    simp only at hc
    subst hc
    unfold St.turn
    simp only
    by_cases e : p.sid = sid
    · refine ⟨⟨w, some p, some p.sid⟩, by rw [if_neg (by simpa using e)], h, by rw [e], ?_⟩
      intro q hq
      simp only [Option.some.injEq] at hq
      rw [← hq]; exact e
    · have hw := write_ok (h.written_prev rfl)
      simp only at hw
      have hall : (⟨w ++ [p], none, some sid⟩ : St α).all = (⟨w, some p, some p.sid⟩ : St α).all := by simp [St.all]
      refine ⟨⟨w ++ [p], none, some sid⟩, by rw [if_pos e, hw]; rfl, ?_, rfl, by simp⟩
      exact ⟨by rw [hall]; exact h.up, by rw [hall]; exact h.ok, by rw [hall]; exact h.upper, by rw [hall]; exact h.ans, by simp, h.range⟩

/-- The merged blocks after a group. -/
def plus (D : Nat → List (Block α)) (sid : Nat) (bs : List (Block α)) : Nat → List (Block α) := fun i => if i = sid then D i ++ bs else D i

theorem plus_self (D : Nat → List (Block α)) (sid : Nat) (bs : List (Block α)) : plus D sid bs sid = D sid ++ bs := if_pos rfl

theorem plus_other (D : Nat → List (Block α)) {sid i : Nat} (bs : List (Block α)) (h : i ≠ sid) : plus D sid bs i = D i := if_neg h

theorem take_spec {size sid : Nat} {s : St α} (ds : List (Done α)) (hcur : s.cur = some sid) (hs : ∀ d ∈ ds, d.sid = sid)
    (h : ∀ x ∈ s.written, x.sid = sid → ∀ d ∈ ds, x.hi ≤ d.lo) (hp : ds.Pairwise fun d e => d.hi ≤ e.lo) :
    ∃ s', s.take size ds = some s' ∧ s'.all = s.written ++ ds ∧ ∀ p, s'.prev = some p → s'.cur = some p.sid := by
  unfold St.take
  cases hl : ds.getLast? with
  | none =>
    rw [List.getLast?_eq_none_iff] at hl
    subst hl
    exact ⟨_, rfl, by simp [St.all], by simp⟩
  | some d =>
    simp only
    have hne : ds ≠ [] := by intro e; rw [e] at hl; simp at hl
    have hd : ds.getLast hne = d := by rw [List.getLast?_eq_some_getLast hne] at hl; simpa using hl
    have hcat := List.dropLast_concat_getLast hne
    rw [hd] at hcat
    split
    · rw [writeAll_ok (sid := sid) (fun x hx => hs x (List.dropLast_subset _ hx)) (fun x hx e y hy => h x hx e y (List.dropLast_subset _ hy))
        (hp.sublist (List.dropLast_sublist _))]
      refine ⟨_, rfl, ?_, ?_⟩
      · simp only [St.all, Option.toList_some]
        rw [List.append_assoc, hcat]
      · intro p hp'
        simp only [Option.some.injEq] at hp'
        subst hp'
        have : d ∈ ds := by rw [← hcat]; simp
        rw [hs d this]; exact hcur
    · rw [writeAll_ok hs h hp]
      exact ⟨_, rfl, by simp [St.all], by simp⟩

theorem group_spec {cols size : Nat} {out : Option (Int × Int)} {D : Nat → List (Block α)} {s : St α} {sid : Nat} (hs : 1 ≤ size) (h : Inv cols out D s)
    (g : Grp α) (hne : g.blocks ≠ []) (hok : BlocksOk cols out g.blocks) (hsep : ∀ a ∈ D sid, ∀ b ∈ g.blocks, a.hi < b.lo) :
    ∃ N s', (∀ fuel, N < fuel → s.group cols size fuel out sid g = some s') ∧ Inv cols out (plus D sid g.blocks) s' := by
  obtain ⟨s1, ht, h1, hcur, hps⟩ := turn_spec sid h
  have hpm : ∀ p ∈ s1.prev.toList, s1.prev = some p := by
    intro p hp
    cases hs1 : s1.prev with
    | none => rw [hs1] at hp; simp at hp
    | some q => rw [hs1] at hp; simp at hp; rw [hp]
  have hpall : ∀ p ∈ s1.prev.toList, p ∈ s1.all := fun p hp => List.mem_append_right _ hp
  have hupper : ∀ d ∈ s1.all, d.sid = sid → ∀ b ∈ g.blocks, d.hi < b.lo := by
    intro d hd e b hb
    have := h1.upper d hd (b.lo - 1) (by
      intro a ha
      rw [e] at ha
      have := hsep a ha b hb
      omega)
    omega
  have hprev : ∀ p ∈ s1.prev.toList, DoneOk sid out p ∧ (p.rows.Pairwise fun a b => a.ts < b.ts) ∧ (∀ r ∈ p.rows, r.cells.length = cols) ∧
      ∀ b ∈ g.blocks, p.hi < b.lo := by
    intro p hp
    have e := hps p (hpm p hp)
    have hin : p ∈ ofSid sid s1.all := mem_ofSid.2 ⟨hpall p hp, e⟩
    have hok1 := h1.ok p (hpall p hp)
    rw [e] at hok1
    refine ⟨hok1, ?_, ?_, hupper p (hpall p hp) e⟩
    · have := (h1.ans sid).inc
      rw [List.flatMap_def, List.pairwise_flatten] at this
      exact this.1 p.rows (List.mem_map.2 ⟨p, hin, rfl⟩)
    · intro r hr
      exact (h1.ans sid).width r (List.mem_flatMap.2 ⟨p, hin, hr⟩)
  obtain ⟨N, ds, hm1, hm2⟩ := mergeGroup_spec (size := size) (sid := sid) hs hne hok s1.prev hprev
  have hwlo : ∀ x ∈ s1.written, x.sid = sid → ∀ d ∈ ds, x.hi ≤ d.lo := by
    intro x hx e d hd
    refine (hm2.within d hd).1 x.hi ?_ ?_
    · intro p hp
      exact h1.written_prev (hpm p hp) x hx (by rw [e, hps p (hpm p hp)])
    · intro b hb
      have := hupper x (List.mem_append_left _ hx) e b hb
      omega
  obtain ⟨s', hs', hall, hcur'⟩ := take_spec (size := size) (s := { s1 with cur := some sid }) ds rfl (fun d hd => (hm2.ok d hd).sid) hwlo hm2.up
  simp only at hall
  have hsid : ofSid sid s1.all = ofSid sid s1.written ++ s1.prev.toList := by
    unfold St.all
    rw [ofSid_append, ofSid_all (l := s1.prev.toList) (fun p hp => hps p (hpm p hp))]
  have hds : ofSid sid ds = ds := ofSid_all (fun d hd => (hm2.ok d hd).sid)
  have hoth : ∀ i, i ≠ sid → ofSid i (s1.written ++ ds) = ofSid i s1.all := by
    intro i hi
    unfold St.all
    rw [ofSid_append, ofSid_append, ofSid_none (l := ds), ofSid_none (l := s1.prev.toList)]
    · intro p hp e
      exact hi (by rw [← e, hps p (hpm p hp)])
    · intro d hd e
      exact hi (by rw [← e, (hm2.ok d hd).sid])
  refine ⟨N, s', ?_, ?_, ?_, ?_, ?_, hcur', ?_⟩
  · intro fuel hf
    unfold St.group
    rw [ht]
    simp only
    rw [hm1 fuel hf]
    exact hs'
  · intro i
    rw [hall]
    by_cases hi : i = sid
    · subst hi
      rw [ofSid_append, hds, List.pairwise_append]
      refine ⟨?_, hm2.up, ?_⟩
      · have := h1.up i
        rw [hsid, List.pairwise_append] at this
        exact this.1
      · intro x hx d hd
        obtain ⟨hx1, hx2⟩ := mem_ofSid.1 hx
        exact hwlo x hx1 hx2 d hd
    · rw [hoth i hi]; exact h1.up i
  · intro d hd
    rw [hall] at hd
    rcases List.mem_append.1 hd with hd | hd
    · exact h1.ok d (List.mem_append_left _ hd)
    · have := hm2.ok d hd
      rw [this.sid]; exact this
  · intro d hd x hx
    rw [hall] at hd
    rcases List.mem_append.1 hd with hd | hd
    · refine h1.upper d (List.mem_append_left _ hd) x ?_
      intro b hb
      refine hx b ?_
      unfold plus
      split
      · exact List.mem_append_left _ hb
      · exact hb
    · rw [(hm2.ok d hd).sid, plus_self] at hx
      refine (hm2.within d hd).2 x ?_ (fun b hb => hx b (List.mem_append_right _ hb))
      intro p hp
      refine h1.upper p (hpall p hp) x ?_
      rw [hps p (hpm p hp)]
      exact fun b hb => hx b (List.mem_append_left _ hb)
  · intro i
    rw [hall]
    by_cases hi : i = sid
    · subst hi
      obtain ⟨A, hA, hr⟩ := hm2.rows
      have e : (ofSid i s1.written ++ ds).flatMap Done.rows = (ofSid i s1.all).flatMap Done.rows ++ A := by
        rw [hsid, List.flatMap_append, List.flatMap_append, hr, List.append_assoc]
      rw [plus_self, List.flatMap_append, ofSid_append, hds, e]
      refine (h1.ans i).append hA ?_
      intro p hp q hq
      obtain ⟨a, ha, hp⟩ := List.mem_flatMap.1 hp
      obtain ⟨b, hb, hq⟩ := List.mem_flatMap.1 hq
      have e1 := h1.range i a ha p.2 (mem_tags hp).2.1
      have e2 := (hok.range b hb q.2 (mem_tags hq).2.1).1
      have e3 := hsep a ha b hb
      omega
    · rw [hoth i hi, plus_other D _ hi]; exact h1.ans i
  · intro i b hb
    unfold plus at hb
    split at hb
    · rcases List.mem_append.1 hb with hb | hb
      · exact h1.range i b hb
      · exact fun r hr => (hok.range b hb r hr).2
    · exact h1.range i b hb

theorem plus_plus (D : Nat → List (Block α)) (sid : Nat) (a b : List (Block α)) : plus (plus D sid a) sid b = plus D sid (a ++ b) := by
  funext i
  unfold plus
  split <;> simp

theorem groups_spec {cols size : Nat} {out : Option (Int × Int)} {D : Nat → List (Block α)} {s : St α} {sid : Nat} (hs : 1 ≤ size) (h : Inv cols out D s)
    (gs : List (Grp α)) (hne : ∀ g ∈ gs, g.blocks ≠ []) (hok : ∀ g ∈ gs, BlocksOk cols out g.blocks)
    (hsep : ∀ a ∈ D sid, ∀ g ∈ gs, ∀ b ∈ g.blocks, a.hi < b.lo) (hpw : gs.Pairwise fun g k => ∀ a ∈ g.blocks, ∀ b ∈ k.blocks, a.hi < b.lo) :
    ∃ N s', (∀ fuel, N < fuel → St.groups cols size fuel out sid s gs = some s') ∧ Inv cols out (plus D sid (gs.flatMap Grp.blocks)) s' := by
  induction gs generalizing s D with
  | nil =>
    refine ⟨0, s, fun _ _ => rfl, ?_⟩
    have : plus D sid (([] : List (Grp α)).flatMap Grp.blocks) = D := by
      funext i
      unfold plus
      split <;> simp
    rw [this]; exact h
  | cons g gs ih =>
    rw [List.pairwise_cons] at hpw
    obtain ⟨N1, s1, e1, h1⟩ := group_spec hs h g (hne g List.mem_cons_self) (hok g List.mem_cons_self) (fun a ha b hb => hsep a ha g List.mem_cons_self b hb)
    obtain ⟨N2, s2, e2, h2⟩ := ih h1 (fun k hk => hne k (List.mem_cons_of_mem _ hk)) (fun k hk => hok k (List.mem_cons_of_mem _ hk)) (by
      intro a ha k hk b hb
      rw [plus_self] at ha
      rcases List.mem_append.1 ha with ha | ha
      · exact hsep a ha k (List.mem_cons_of_mem _ hk) b hb
      · exact hpw.1 k hk a ha b hb) hpw.2
    refine ⟨max N1 N2, s2, ?_, ?_⟩
    · intro fuel hf
      rw [St.groups, e1 fuel (by omega)]
      exact e2 fuel (by omega)
    · rw [plus_plus] at h2
      rw [List.flatMap_cons]
      exact h2

/-- The blocks of a series in visits, in the order of the groups. -/
def visited (vs : List (Nat × List (Block α))) (sid : Nat) : List (Block α) :=
  (vs.filter fun v => decide (v.1 = sid)).flatMap fun v => (groupsOf v.2).flatMap Grp.blocks

theorem run_spec {cols size : Nat} {out : Option (Int × Int)} {D : Nat → List (Block α)} {s : St α} (hs : 1 ≤ size) (h : Inv cols out D s)
    (vs : List (Nat × List (Block α))) (hok : ∀ v ∈ vs, BlocksOk cols out v.2) (hnew : ∀ v ∈ vs, D v.1 = []) (hpw : vs.Pairwise fun v w => v.1 < w.1) :
    ∃ N s', (∀ fuel, N < fuel → St.run cols size fuel out s vs = some s') ∧ Inv cols out (fun i => D i ++ visited vs i) s' := by
  induction vs generalizing s D with
  | nil =>
    refine ⟨0, s, fun _ _ => rfl, ?_⟩
    simpa [visited] using h
  | cons v vs ih =>
    rw [List.pairwise_cons] at hpw
    have hv := hok v List.mem_cons_self
    obtain ⟨g1, g2, g3, _⟩ := C39_groups v.2 hv.valid
    obtain ⟨N1, s1, e1, h1⟩ := groups_spec (sid := v.1) hs h (groupsOf v.2) g2
      (fun g hg => hv.mono (fun b hb => g1.mem_iff.1 (List.mem_flatMap.2 ⟨g, hg, hb⟩)))
      (by intro a ha; rw [hnew v List.mem_cons_self] at ha; cases ha) g3
    obtain ⟨N2, s2, e2, h2⟩ := ih h1 (fun w hw => hok w (List.mem_cons_of_mem _ hw)) (by
      intro w hw
      rw [plus_other]
      · exact hnew w (List.mem_cons_of_mem _ hw)
      · have := hpw.1 w hw; omega) hpw.2
    refine ⟨max N1 N2, s2, ?_, ?_⟩
    · intro fuel hf
      rw [St.run, e1 fuel (by omega)]
      exact e2 fuel (by omega)
    · have : (fun i => plus D v.1 ((groupsOf v.2).flatMap Grp.blocks) i ++ visited vs i) = fun i => D i ++ visited (v :: vs) i := by
        funext i
        unfold plus visited
        rw [List.filter_cons]
        by_cases e : v.1 = i
        · simp [e]
        · have : i ≠ v.1 := fun e' => e e'.symm
          simp [e, this]
      rw [this] at h2
      exact h2

/-- What holds for the input files: a series has one chunk in a file; its rows increase strictly over its column groups, they have the
columns of the table and are in the range of their column group.  Without tombstones all rows of the pages are there. -/
structure InputOk (cols : Nat) (files : List (File α)) : Prop where
  once : FilesOk files
  inc : ∀ f ∈ files, ∀ c ∈ f.chunks, (c.2.flatMap Piece.rows).Pairwise fun x y => x.ts < y.ts
  valid : ∀ f ∈ files, ∀ c ∈ f.chunks, ∀ p ∈ c.2, p.lo ≤ p.hi
  range : ∀ f ∈ files, ∀ c ∈ f.chunks, ∀ p ∈ c.2, ∀ r ∈ p.rows, p.lo ≤ r.ts ∧ r.ts ≤ p.hi
  width : ∀ f ∈ files, ∀ c ∈ f.chunks, ∀ p ∈ c.2, ∀ r ∈ p.rows, r.cells.length = cols
  raw : ∀ f ∈ files, f.tomb = false → ∀ c ∈ f.chunks, ∀ p ∈ c.2, p.raw = p.rows

theorem pieces_cases (f : File α) (sid : Nat) : f.pieces sid = [] ∨ ∃ c ∈ f.chunks, f.pieces sid = c.2 := by
  unfold File.pieces
  cases h : f.chunks.find? fun c => decide (c.1 = sid) with
  | none => exact .inl rfl
  | some c => exact .inr ⟨c, List.mem_of_find?_eq_some h, rfl⟩

theorem InputOk.inc' {cols : Nat} {files : List (File α)} (h : InputOk cols files) {f : File α} (hf : f ∈ files) (sid : Nat) :
    ((f.pieces sid).flatMap Piece.rows).Pairwise fun x y => x.ts < y.ts := by
  rcases pieces_cases f sid with e | ⟨c, hc, e⟩
  · rw [e]; exact List.Pairwise.nil
  · rw [e]; exact h.inc f hf c hc

theorem InputOk.piece {cols : Nat} {files : List (File α)} (h : InputOk cols files) {f : File α} (hf : f ∈ files) {sid : Nat} {p : Piece α}
    (hp : p ∈ f.pieces sid) : p.lo ≤ p.hi ∧ ∀ r ∈ p.rows, (p.lo ≤ r.ts ∧ r.ts ≤ p.hi) ∧ r.cells.length = cols := by
  rcases pieces_cases f sid with e | ⟨c, hc, e⟩
  · rw [e] at hp; cases hp
  · rw [e] at hp
    exact ⟨h.valid f hf c hc p hp, fun r hr => ⟨h.range f hf c hc p hp r hr, h.width f hf c hc p hp r hr⟩⟩

theorem InputOk.raw' {cols : Nat} {files : List (File α)} (h : InputOk cols files) {f : File α} (hf : f ∈ files) (ht : f.tomb = false) {sid : Nat}
    {p : Piece α} (hp : p ∈ f.pieces sid) : p.raw = p.rows := by
  rcases pieces_cases f sid with e | ⟨c, hc, e⟩
  · rw [e] at hp; cases hp
  · rw [e] at hp
    exact h.raw f hf ht c hc p hp

theorem mem_blocksOf {files : List (File α)} {out : Option (Int × Int)} {sid i : Nat} {b : Block α} :
    b ∈ blocksOf files out sid i ↔ ∃ f p, files[i]? = some f ∧ p ∈ f.pieces sid ∧ overlapsOut out p.lo p.hi = true ∧
      b = ⟨i, f.tomb, p.lo, p.hi, p.raw, p.rows⟩ := by
  unfold blocksOf
  cases hf : files[i]? with
  | none => simp
  | some f =>
    simp only [List.mem_map, List.mem_filter]
    constructor
    · rintro ⟨p, ⟨h1, h2⟩, rfl⟩
      exact ⟨f, p, rfl, h1, h2, rfl⟩
    · rintro ⟨f', p, e, h1, h2, rfl⟩
      cases e
      exact ⟨p, ⟨h1, h2⟩, rfl⟩

theorem mem_seriesBlocks {files : List (File α)} {out : Option (Int × Int)} {sid : Nat} {b : Block α} :
    b ∈ seriesBlocks files out sid ↔ ∃ i f p, files[i]? = some f ∧ p ∈ f.pieces sid ∧ overlapsOut out p.lo p.hi = true ∧
      b = ⟨i, f.tomb, p.lo, p.hi, p.raw, p.rows⟩ := by
  unfold seriesBlocks
  rw [List.mem_flatMap]
  constructor
  · rintro ⟨i, _, hb⟩
    exact ⟨i, mem_blocksOf.1 hb⟩
  · rintro ⟨i, f, p, hf, h⟩
    refine ⟨i, ?_, mem_blocksOf.2 ⟨f, p, hf, h⟩⟩
    rw [List.mem_range]
    exact (List.getElem?_eq_some_iff.1 hf).1

theorem seriesBlocks_ok {cols : Nat} {files : List (File α)} (h : InputOk cols files) (out : Option (Int × Int)) (sid : Nat) :
    BlocksOk cols out (seriesBlocks files out sid) := by
  refine ⟨?_, ?_, ?_, ?_, ?_, ?_, ?_⟩
  · intro b hb
    obtain ⟨i, f, p, hf, hp, _, rfl⟩ := mem_seriesBlocks.1 hb
    exact (h.piece (List.mem_of_getElem? hf) hp).1
  · intro b hb
    obtain ⟨i, f, p, hf, hp, ho, rfl⟩ := mem_seriesBlocks.1 hb
    exact ho
  · intro b hb
    obtain ⟨i, f, p, hf, hp, _, rfl⟩ := mem_seriesBlocks.1 hb
    have := h.inc' (List.mem_of_getElem? hf) sid
    rw [List.flatMap_def, List.pairwise_flatten] at this
    exact this.1 p.rows (List.mem_map.2 ⟨p, hp, rfl⟩)
  · intro b hb
    obtain ⟨i, f, p, hf, hp, _, rfl⟩ := mem_seriesBlocks.1 hb
    exact fun r hr => ((h.piece (List.mem_of_getElem? hf) hp).2 r hr).1
  · intro b hb
    obtain ⟨i, f, p, hf, hp, _, rfl⟩ := mem_seriesBlocks.1 hb
    exact fun r hr => ((h.piece (List.mem_of_getElem? hf) hp).2 r hr).2
  · intro b hb ht
    obtain ⟨i, f, p, hf, hp, _, rfl⟩ := mem_seriesBlocks.1 hb
    exact h.raw' (List.mem_of_getElem? hf) ht hp
  · intro a ha b hb e x hx y hy et
    obtain ⟨i, f, p, hf, hp, _, rfl⟩ := mem_seriesBlocks.1 ha
    obtain ⟨j, f', q, hf', hq, _, rfl⟩ := mem_seriesBlocks.1 hb
    simp only at e hx hy
    subst e
    rw [hf] at hf'
    cases hf'
    exact inc_inj (h.inc' (List.mem_of_getElem? hf) sid) (List.mem_flatMap.2 ⟨p, hp, hx⟩) (List.mem_flatMap.2 ⟨q, hq, hy⟩) et

/-- The rows of a series in a file. -/
def File.rows (f : File α) (sid : Nat) : List (Row α) := (f.pieces sid).flatMap Piece.rows

/-- The rows of a series that are to be compacted, with the index of their file. -/
def inputRows (files : List (File α)) (out : Option (Int × Int)) (sid : Nat) : List (Nat × Row α) :=
  (files.mapIdx fun i f => tag i ((f.rows sid).filter fun r => inOut out r.ts)).flatten

theorem mem_inputRows {files : List (File α)} {out : Option (Int × Int)} {sid : Nat} {p : Nat × Row α} :
    p ∈ inputRows files out sid ↔ ∃ f, files[p.1]? = some f ∧ p.2 ∈ f.rows sid ∧ inOut out p.2.ts = true := by
  unfold inputRows
  rw [List.mem_flatten]
  constructor
  · rintro ⟨l, hl, hp⟩
    rw [List.mem_mapIdx] at hl
    obtain ⟨i, hi, rfl⟩ := hl
    obtain ⟨h1, h2⟩ := mem_tag.1 hp
    obtain ⟨h3, h4⟩ := List.mem_filter.1 h2
    exact ⟨files[i], by rw [h1]; exact List.getElem?_eq_getElem hi, h3, h4⟩
  · rintro ⟨f, hf, h1, h2⟩
    obtain ⟨hi, e⟩ := List.getElem?_eq_some_iff.1 hf
    refine ⟨tag p.1 ((f.rows sid).filter fun r => inOut out r.ts), ?_, mem_tag.2 ⟨rfl, List.mem_filter.2 ⟨h1, h2⟩⟩⟩
    rw [List.mem_mapIdx]
    exact ⟨p.1, hi, by rw [e]⟩

theorem tags_seriesBlocks {cols : Nat} {files : List (File α)} (h : InputOk cols files) (out : Option (Int × Int)) (sid : Nat) (p : Nat × Row α) :
    p ∈ (seriesBlocks files out sid).flatMap (Block.tags out) ↔ p ∈ inputRows files out sid := by
  rw [mem_inputRows, List.mem_flatMap]
  constructor
  · rintro ⟨b, hb, hp⟩
    obtain ⟨i, f, q, hf, hq, _, rfl⟩ := mem_seriesBlocks.1 hb
    obtain ⟨e1, e2, e3⟩ := mem_tags hp
    simp only at e1 e2
    exact ⟨f, by rw [e1]; exact hf, List.mem_flatMap.2 ⟨q, hq, e2⟩, e3⟩
  · rintro ⟨f, hf, h1, h2⟩
    obtain ⟨q, hq, hr⟩ := List.mem_flatMap.1 h1
    have hov : overlapsOut out q.lo q.hi = true := by
      have := ((h.piece (List.mem_of_getElem? hf) hq).2 p.2 hr).1
      cases out with
      | none => rfl
      | some o =>
        obtain ⟨x, y⟩ := o
        simp only [inOut, Bool.and_eq_true, decide_eq_true_eq] at h2
        simp only [overlapsOut, Bool.not_eq_true', Bool.or_eq_false_iff, decide_eq_false_iff_not]
        omega
    refine ⟨⟨p.1, f.tomb, q.lo, q.hi, q.raw, q.rows⟩, mem_seriesBlocks.2 ⟨p.1, f, q, hf, hq, hov, rfl⟩, ?_⟩
    exact mem_tag.2 ⟨rfl, List.mem_filter.2 ⟨hr, h2⟩⟩

/-- The output of a compaction is right for its input. -/
structure Compacted (cols : Nat) (out : Option (Int × Int)) (files : List (File α)) (ds : List (Done α)) : Prop where
  rows : ∀ sid, Ans cols (inputRows files out sid) ((ofSid sid ds).flatMap Done.rows)
  up : ∀ sid, (ofSid sid ds).Pairwise fun d e => d.hi ≤ e.lo
  range : ∀ d ∈ ds, d.lo ≤ d.hi ∧ ∀ r ∈ d.rows, d.lo ≤ r.ts ∧ r.ts ≤ d.hi

/-- Part of **C38** (compaction keeps the merged contents): when the files of the request are in the order of their first series, the
compaction ends without an error and the rows of each series in the output are the right answer for the rows of that series in the input
files: strictly increasing times, exactly the times of the input in the range to compact, and each cell has the value of the last file of
the request that has a value there.  The column groups of a series come in ascending order and contain their rows.  What is missing are
the other orders of the files (`C38_unsorted_refuted`) and that the last file of the request is not always the newest one
(`C38_order_refuted`). -/
theorem C38_compact_partial (cols size : Nat) (hs : 1 ≤ size) (out : Option (Int × Int)) (files : List (File α)) (h : InputOk cols files)
    (hsort : (start files).Pairwise fun a b => leC a b = true) :
    ∃ N ds, (∀ fuel, N < fuel → compact cols size fuel out files = some ds) ∧ Compacted cols out files ds := by
  obtain ⟨v1, v2, v3⟩ := C40_visits_partial files out h.once hsort
  have h0 : Inv cols out (fun _ => []) (⟨[], none, none⟩ : St α) :=
    ⟨by intro sid; exact List.Pairwise.nil, by simp [St.all], by simp [St.all], by intro sid; exact Ans.nil cols, by simp, by simp⟩
  obtain ⟨N, s, e, hI⟩ := run_spec hs h0 (allVisits files out) (fun v hv => (seriesBlocks_ok h out v.1).mono (fun b hb => (v2 v hv).2.mem_iff.1 hb))
    (fun _ _ => rfl) v1
  have hvis : ∀ sid (b : Block α), b ∈ visited (allVisits files out) sid ↔ b ∈ seriesBlocks files out sid := by
    intro sid b
    unfold visited
    rw [List.mem_flatMap]
    constructor
    · rintro ⟨v, hv, hb⟩
      obtain ⟨hv1, hv2⟩ := List.mem_filter.1 hv
      have hv2 : v.1 = sid := by simpa using hv2
      have hvv : ∀ b ∈ v.2, b.lo ≤ b.hi := fun b hb => (seriesBlocks_ok h out v.1).valid b ((v2 v hv1).2.mem_iff.1 hb)
      have := (C39_groups v.2 hvv).1.mem_iff.1 hb
      rw [← hv2]
      exact (v2 v hv1).2.mem_iff.1 this
    · intro hb
      obtain ⟨v, hv, e⟩ := v3 sid (List.ne_nil_of_mem hb)
      have hvv : ∀ b ∈ v.2, b.lo ≤ b.hi := fun b hb => (seriesBlocks_ok h out v.1).valid b ((v2 v hv).2.mem_iff.1 hb)
      refine ⟨v, List.mem_filter.2 ⟨hv, by simpa using e⟩, ?_⟩
      refine (C39_groups v.2 hvv).1.mem_iff.2 ((v2 v hv).2.mem_iff.2 ?_)
      rw [e]; exact hb
  refine ⟨N, s.all, ?_, ?_, hI.up, ?_⟩
  · intro fuel hf
    unfold compact
    rw [e fuel hf]
    simp only
    cases hp : s.prev with
    | none => simp [St.all, hp]
    | some p =>
      simp only
      rw [write_ok (hI.written_prev hp)]
      simp [St.all, hp]
  · intro sid
    refine (hI.ans sid).congr ?_
    intro p
    rw [← tags_seriesBlocks h]
    simp only [List.nil_append]
    rw [List.mem_flatMap, List.mem_flatMap]
    exact ⟨fun ⟨b, hb, hp⟩ => ⟨b, (hvis sid b).1 hb, hp⟩, fun ⟨b, hb, hp⟩ => ⟨b, (hvis sid b).2 hb, hp⟩⟩
  · intro d hd
    exact ⟨(hI.ok d hd).valid, (hI.ok d hd).range⟩

end Verif.Compact
