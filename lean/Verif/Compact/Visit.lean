import Verif.Compact.Group
/-!
# The series that a compaction visits
-/
namespace Verif.Compact

open Verif.Sort Verif.Reader

variable {α : Type}

/-- The file and series pairs that are left. -/
def rem (cs : List CFile) : List (Nat × Nat) := cs.flatMap fun c => c.sids.map fun s => (c.idx, s)

theorem rem_cons (c : CFile) (cs : List CFile) : rem (c :: cs) = (c.sids.map fun s => (c.idx, s)) ++ rem cs := rfl

theorem rem_length (cs : List CFile) : (rem cs).length = left cs := by
  induction cs with
  | nil => rfl
  | cons c cs ih => rw [rem_cons, List.length_append, ih]; simp [left]

theorem rem_perm {a b : List CFile} (h : a.Perm b) : (rem a).Perm (rem b) := h.flatMap_right _

/-- A file without an entry in the map has no series left. -/
def AliveOk (cs : List CFile) : Prop := ∀ c ∈ cs, c.alive = false → c.sids = []

theorem walk_rem (sid : Nat) (cs : List CFile) : (rem cs).Perm ((walk sid cs).1.map (fun i => (i, sid)) ++ rem (walk sid cs).2) := by
  induction cs with
  | nil => exact List.Perm.refl _
  | cons f fs ih =>
    rw [walk]
    split
    · split
      · rename_i hs
        simp only [rem_cons, hs, List.map_nil, List.nil_append]
        exact ih
      · rename_i s rest hs
        split
        · rename_i e
          subst e
          simp only [rem_cons, hs, List.map_cons, List.cons_append]
          refine List.Perm.cons _ ?_
          refine (List.Perm.append_left _ ih).trans ?_
          rw [← List.append_assoc, ← List.append_assoc]
          exact List.Perm.append_right _ List.perm_append_comm
        · simp
    · simp only [rem_cons]
      refine (List.Perm.append_left _ ih).trans ?_
      rw [← List.append_assoc, ← List.append_assoc]
      exact List.Perm.append_right _ List.perm_append_comm

theorem walk_alive (sid : Nat) (cs : List CFile) (h : AliveOk cs) : AliveOk (walk sid cs).2 := by
  induction cs with
  | nil => exact h
  | cons f fs ih =>
    have ih := ih (fun c hc => h c (List.mem_cons_of_mem _ hc))
    have hf := h f List.mem_cons_self
    rw [walk]
    split
    · split
      · rename_i hs
        intro c hc
        rcases List.mem_cons.1 hc with e | hc
        · rw [e]; simp [hs]
        · exact ih c hc
      · split
        · rename_i ha _ _ _ _ _
          intro c hc
          rcases List.mem_cons.1 hc with e | hc
          · rw [e]; simp [ha]
          · exact ih c hc
        · exact h
    · intro c hc
      rcases List.mem_cons.1 hc with e | hc
      · rw [e]; exact hf
      · exact ih c hc

/-- A series is found as long as one is left. -/
def Led (cs : List CFile) : Prop := rem cs ≠ [] → ∃ s, (cs.head?.bind fun c => c.sids.head?) = some s

theorem leC_trans : ∀ a b c, leC a b = true → leC b c = true → leC a c = true := by
  intro a b c
  unfold leC
  cases a.sids.head? <;> cases b.sids.head? <;> cases c.sids.head? <;> simp
  omega

theorem leC_total : ∀ a b, (leC a b || leC b a) = true := by
  intro a b
  unfold leC
  cases a.sids.head? <;> cases b.sids.head? <;> simp
  omega

theorem led_sorted (cs : List CFile) (h : cs.Pairwise fun a b => leC a b = true) : Led cs := by
  intro hne
  cases cs with
  | nil => exact absurd rfl hne
  | cons c cs =>
    rw [List.pairwise_cons] at h
    cases hc : c.sids with
    | cons s r => exact ⟨s, by simp [hc]⟩
    | nil =>
      exfalso
      apply hne
      rw [rem_cons, hc]
      simp only [List.map_nil, List.nil_append]
      unfold rem
      rw [List.flatMap_eq_nil_iff]
      intro d hd
      have := h.1 d hd
      unfold leC at this
      rw [hc] at this
      cases hd' : d.sids with
      | nil => rfl
      | cons x y => rw [hd'] at this; simp at this

theorem sort_led (cs : List CFile) : Led (sortBy leC cs) := led_sorted _ (sortBy_sorted leC_trans
  (by intro a b; have := leC_total a b; simpa using this) cs)

/-- The head of the files is taken. -/
theorem walk_head {sid : Nat} {cs : List CFile} (h : AliveOk cs) (hs : (cs.head?.bind fun c => c.sids.head?) = some sid) : (walk sid cs).1 ≠ [] := by
  cases cs with
  | nil => simp at hs
  | cons c cs =>
    simp only [List.head?_cons, Option.bind_some] at hs
    cases hc : c.sids with
    | nil => rw [hc] at hs; simp at hs
    | cons s r =>
      rw [hc] at hs
      simp only [List.head?_cons, Option.some.injEq] at hs
      have ha : c.alive = true := by
        cases hal : c.alive with
        | true => rfl
        | false => have := h c List.mem_cons_self hal; rw [hc] at this; cases this
      rw [walk, if_pos ha, hc]
      simp [hs]

theorem walk_left {sid : Nat} {cs : List CFile} (h : AliveOk cs) (hs : (cs.head?.bind fun c => c.sids.head?) = some sid) :
    left (sortBy leC (walk sid cs).2) < left cs := by
  have h1 := (walk_rem sid cs).length_eq
  rw [List.length_append, List.length_map, rem_length, rem_length] at h1
  have h2 : left (sortBy leC (walk sid cs).2) = left (walk sid cs).2 := by
    rw [← rem_length, ← rem_length]
    exact (rem_perm (sortBy_perm _ _)).length_eq
  have := List.length_pos_iff.2 (walk_head h hs)
  omega

theorem AliveOk.sort {cs : List CFile} (h : AliveOk cs) : AliveOk (sortBy leC cs) := fun c hc => h c (mem_sortBy.1 hc)

/-- The blocks of pairs of file and series, with the series. -/
def blocksAt (files : List (File α)) (out : Option (Int × Int)) (l : List (Nat × Nat)) : List (Nat × Block α) :=
  l.flatMap fun p => (blocksOf files out p.2 p.1).map fun b => (p.2, b)

theorem blocksAt_append (files : List (File α)) (out : Option (Int × Int)) (a b : List (Nat × Nat)) :
    blocksAt files out (a ++ b) = blocksAt files out a ++ blocksAt files out b := by simp [blocksAt]

theorem blocksAt_walk (files : List (File α)) (out : Option (Int × Int)) (sid : Nat) (l : List Nat) :
    blocksAt files out (l.map fun i => (i, sid)) = (l.flatMap (blocksOf files out sid)).map fun b => (sid, b) := by
  induction l with
  | nil => rfl
  | cons i l ih => rw [List.map_cons, List.flatMap_cons, List.map_append, ← ih]; rfl

theorem nextSeries_rem (files : List (File α)) (out : Option (Int × Int)) (fuel : Nat) (cs : List CFile) (hf : left cs < fuel)
    (ha : AliveOk cs) (hl : Led cs) :
    match nextSeries files out fuel cs with
    | none => blocksAt files out (rem cs) = []
    | some (sid, blocks, cs') => (blocksAt files out (rem cs)).Perm (blocks.map (fun b => (sid, b)) ++ blocksAt files out (rem cs')) ∧
        blocks ≠ [] ∧ left cs' < left cs ∧ AliveOk cs' ∧ Led cs' := by
  induction fuel generalizing cs with
  | zero => omega
  | succ fuel ih =>
    rw [nextSeries]
    cases hs : (cs.head?.bind fun c => c.sids.head?) with
    | none =>
      simp only
      by_cases he : rem cs = []
      · rw [he]; rfl
      · obtain ⟨s, hs'⟩ := hl he
        rw [hs] at hs'; cases hs'
    | some sid =>
      have hlt := walk_left ha hs
      have ha' := (walk_alive sid cs ha).sort
      have hl' := sort_led (walk sid cs).2
      have hp : (blocksAt files out (rem cs)).Perm (((walk sid cs).1.flatMap (blocksOf files out sid)).map (fun b => (sid, b)) ++
          blocksAt files out (rem (sortBy leC (walk sid cs).2))) := by
        have := (walk_rem sid cs).flatMap_right fun p => (blocksOf files out p.2 p.1).map fun b => (p.2, b)
        refine this.trans ?_
        show (blocksAt files out _).Perm _
        rw [blocksAt_append, blocksAt_walk]
        exact List.Perm.append_left _ ((rem_perm (sortBy_perm _ _)).symm.flatMap_right _)
      simp only
      by_cases he : ((walk sid cs).1.flatMap (blocksOf files out sid)).isEmpty = true
      · rw [if_pos he]
        rw [List.isEmpty_iff] at he
        rw [he] at hp
        have := ih (sortBy leC (walk sid cs).2) (by omega) ha' hl'
        generalize nextSeries files out fuel (sortBy leC (walk sid cs).2) = r at this
        cases r with
        | none =>
          simp only at this ⊢
          rw [this] at hp
          simpa using hp
        | some r =>
          obtain ⟨sid', blocks, cs'⟩ := r
          simp only at this ⊢
          exact ⟨(by simpa using hp : (blocksAt files out (rem cs)).Perm _).trans this.1, this.2.1, by omega, this.2.2.2⟩
      · rw [if_neg he]
        exact ⟨hp, by simpa using he, hlt, ha', hl'⟩

theorem visits_rem (files : List (File α)) (out : Option (Int × Int)) (fuel : Nat) (cs : List CFile) (hf : left cs < fuel)
    (ha : AliveOk cs) (hl : Led cs) :
    ((visits files out fuel cs).flatMap fun v => v.2.map fun b => (v.1, b)).Perm (blocksAt files out (rem cs)) ∧
      ∀ v ∈ visits files out fuel cs, v.2 ≠ [] := by
  induction fuel generalizing cs with
  | zero => omega
  | succ fuel ih =>
    rw [visits]
    have := nextSeries_rem files out (left cs + 1) cs (by omega) ha hl
    generalize nextSeries files out (left cs + 1) cs = r at this
    cases r with
    | none =>
      simp only at this ⊢
      rw [this]
      simp
    | some r =>
      obtain ⟨sid, blocks, cs'⟩ := r
      simp only at this ⊢
      obtain ⟨h1, h2, h3, h4, h5⟩ := this
      obtain ⟨i1, i2⟩ := ih cs' (by omega) h4 h5
      constructor
      · rw [List.flatMap_cons]
        exact (List.Perm.append_left _ i1).trans h1.symm
      · intro v hv
        rcases List.mem_cons.1 hv with e | hv
        · rw [e]; exact h2
        · exact i2 v hv

theorem start_alive (files : List (File α)) : AliveOk (start files) := by
  intro c hc
  unfold start at hc
  rw [List.mem_mapIdx] at hc
  obtain ⟨i, hi, rfl⟩ := hc
  simp [CFile.new]

/-- Part of **C40** (every series of every input file is compacted): whatever the order of the files, if the first file has a series
(or there are no files), the visits take each block of each series of each file exactly once, under its own series.  What is missing
is that a series is visited only once, see `C40_twice_refuted`. -/
theorem C40_each_block_once_partial (files : List (File α)) (out : Option (Int × Int)) (h : ∀ f, files.head? = some f → f.chunks ≠ []) :
    ((allVisits files out).flatMap fun v => v.2.map fun b => (v.1, b)).Perm
      ((start files).flatMap fun c => c.sids.flatMap fun s => (blocksOf files out s c.idx).map fun b => (s, b)) ∧
      ∀ v ∈ allVisits files out, v.2 ≠ [] := by
  have hl : Led (start files) := by
    intro _
    cases files with
    | nil => contradiction
    | cons f fs =>
      have hf := h f rfl
      have hlen : (sortBy (fun a b => decide (a ≤ b)) (f.chunks.map Prod.fst)).length = f.chunks.length := by
        rw [length_sortBy, List.length_map]
      cases hs : sortBy (fun a b => decide (a ≤ b)) (f.chunks.map Prod.fst) with
      | nil =>
        rw [hs] at hlen
        exact absurd (List.length_eq_zero_iff.1 hlen.symm) hf
      | cons s r =>
        refine ⟨s, ?_⟩
        simp [start, List.mapIdx_cons, CFile.new, hs]
  obtain ⟨h1, h2⟩ := visits_rem files out (left (start files) + 1) (start files) (by omega) (start_alive files) hl
  refine ⟨h1.trans ?_, h2⟩
  have : blocksAt files out (rem (start files)) =
      (start files).flatMap fun c => c.sids.flatMap fun s => (blocksOf files out s c.idx).map fun b => (s, b) := by
    unfold blocksAt rem
    rw [List.flatMap_assoc]
    congr 1
    funext c
    rw [List.flatMap_map]
  rw [this]

/-! ## Files in the order of their first series -/

/-- What holds for the files that are left, when they are in order. -/
structure CsOk (cs : List CFile) : Prop where
  sorted : cs.Pairwise fun a b => leC a b = true
  inc : ∀ c ∈ cs, c.sids.Pairwise fun a b => a < b
  alive : AliveOk cs

theorem CsOk.tail {c : CFile} {cs : List CFile} (h : CsOk (c :: cs)) : CsOk cs :=
  ⟨(List.pairwise_cons.1 h.sorted).2, fun d hd => h.inc d (List.mem_cons_of_mem _ hd), fun d hd => h.alive d (List.mem_cons_of_mem _ hd)⟩

theorem CsOk.head_min {c : CFile} {cs : List CFile} (h : CsOk (c :: cs)) {s : Nat} {r : List Nat} (hc : c.sids = s :: r) :
    ∀ d ∈ c :: cs, ∀ x ∈ d.sids, s ≤ x := by
  intro d hd x hx
  have hmin : ∀ (l : List Nat) (y : Nat), l.head? = some y → l.Pairwise (fun a b => a < b) → ∀ x ∈ l, y ≤ x := by
    intro l y hl hp x hx
    cases l with
    | nil => cases hx
    | cons a l =>
      simp only [List.head?_cons, Option.some.injEq] at hl
      rw [List.pairwise_cons] at hp
      rcases List.mem_cons.1 hx with e | hx
      · omega
      · have := hp.1 x hx; omega
  rcases List.mem_cons.1 hd with e | hd'
  · rw [e] at hx
    exact hmin c.sids s (by rw [hc]; rfl) (h.inc c List.mem_cons_self) x hx
  · have h1 := (List.pairwise_cons.1 h.sorted).1 d hd'
    unfold leC at h1
    rw [hc] at h1
    cases hds : d.sids with
    | nil => rw [hds] at hx; cases hx
    | cons y z =>
      rw [hds] at h1
      simp only [List.head?_cons, decide_eq_true_eq] at h1
      have := hmin d.sids y (by rw [hds]; rfl) (h.inc d hd) x hx
      omega

theorem walk_sorted (sid : Nat) (cs : List CFile) (h : CsOk cs) (hmin : ∀ c ∈ cs, ∀ x ∈ c.sids, sid ≤ x) :
    (walk sid cs).1 = (cs.filter fun c => decide (sid ∈ c.sids)).map CFile.idx ∧
      (walk sid cs).2.map (fun c => (c.idx, c.sids)) = cs.map fun c => (c.idx, c.sids.filter fun s => decide (s ≠ sid)) := by
  induction cs with
  | nil => exact ⟨rfl, rfl⟩
  | cons f fs ih =>
    obtain ⟨i1, i2⟩ := ih h.tail (fun c hc => hmin c (List.mem_cons_of_mem _ hc))
    rw [walk]
    split
    · split
      · rename_i hs
        simp [i1, i2, hs]
      · rename_i s rest hs
        split
        · rename_i e
          subst e
          have hinc := h.inc f List.mem_cons_self
          rw [hs, List.pairwise_cons] at hinc
          have hfil : rest.filter (fun x => decide (x ≠ sid)) = rest := by
            rw [List.filter_eq_self]
            intro x hx
            have := hinc.1 x hx
            simp only [ne_eq, decide_not, Bool.not_eq_true', decide_eq_false_iff_not]
            omega
          simp only [List.map_cons]
          rw [i1, i2, hs]
          constructor
          · simp [hs]
          · rw [List.filter_cons_of_neg (by simp), hfil]
        · rename_i hne
          have hgt : ∀ c ∈ f :: fs, ∀ x ∈ c.sids, sid < x := by
            intro c hc x hx
            have h1 := h.head_min hs c hc x hx
            have h2 := hmin f List.mem_cons_self s (by rw [hs]; exact List.mem_cons_self)
            omega
          constructor
          · symm
            rw [List.map_eq_nil_iff, List.filter_eq_nil_iff]
            intro c hc hm
            have := hgt c hc sid (by simpa using hm)
            omega
          · apply List.map_congr_left
            intro c hc
            have : c.sids.filter (fun x => decide (x ≠ sid)) = c.sids := by
              rw [List.filter_eq_self]
              intro x hx
              have := hgt c hc x hx
              simp only [ne_eq, decide_not, Bool.not_eq_true', decide_eq_false_iff_not]
              omega
            rw [this]
    · rename_i hal
      have hs := h.alive f List.mem_cons_self (by simpa using hal)
      simp [i1, i2, hs]

theorem walk_ok {sid : Nat} {cs : List CFile} (h : CsOk cs) (hmin : ∀ c ∈ cs, ∀ x ∈ c.sids, sid ≤ x) : CsOk (sortBy leC (walk sid cs).2) := by
  refine ⟨sortBy_sorted leC_trans (by intro a b; have := leC_total a b; simpa using this) _, ?_, (walk_alive sid cs h.alive).sort⟩
  intro c hc
  have hc := mem_sortBy.1 hc
  have : (c.idx, c.sids) ∈ (walk sid cs).2.map (fun c => (c.idx, c.sids)) := List.mem_map.2 ⟨c, hc, rfl⟩
  rw [(walk_sorted sid cs h hmin).2] at this
  obtain ⟨d, hd, e⟩ := List.mem_map.1 this
  rw [Prod.mk.injEq] at e
  rw [← e.2]
  exact (h.inc d hd).filter _

/-- The pairs left after a walk are those of other series. -/
theorem walk_rem_sorted {sid : Nat} {cs : List CFile} (h : CsOk cs) (hmin : ∀ c ∈ cs, ∀ x ∈ c.sids, sid ≤ x) :
    (rem (sortBy leC (walk sid cs).2)).Perm ((rem cs).filter fun p => decide (p.2 ≠ sid)) := by
  refine (rem_perm (sortBy_perm _ _)).trans ?_
  have e : ∀ l : List CFile, rem l = (l.map fun c => (c.idx, c.sids)).flatMap fun p => p.2.map fun s => (p.1, s) := by
    intro l; unfold rem; rw [List.flatMap_map]
  rw [e, (walk_sorted sid cs h hmin).2]
  have : ((cs.map fun c => (c.idx, c.sids.filter fun s => decide (s ≠ sid))).flatMap fun p => p.2.map fun s => (p.1, s)) =
      (rem cs).filter fun p => decide (p.2 ≠ sid) := by
    unfold rem
    rw [List.flatMap_map, List.filter_flatMap]
    congr 1
    funext c
    rw [List.filter_map]
    rfl
  rw [this]

/-- The files of a series among pairs, in their order. -/
def filesOf (sid : Nat) (l : List (Nat × Nat)) : List Nat := (l.filter fun p => decide (p.2 = sid)).map Prod.fst

theorem walk_files {sid : Nat} {cs : List CFile} (h : CsOk cs) (hmin : ∀ c ∈ cs, ∀ x ∈ c.sids, sid ≤ x) :
    (walk sid cs).1 = filesOf sid (rem cs) := by
  rw [(walk_sorted sid cs h hmin).1]
  have hinc := h.inc
  clear h hmin
  induction cs with
  | nil => rfl
  | cons c cs ih =>
    have ih := ih (fun d hd => hinc d (List.mem_cons_of_mem _ hd))
    unfold filesOf at ih ⊢
    rw [rem_cons, List.filter_append, List.map_append, ← ih, List.filter_cons]
    have hc := hinc c List.mem_cons_self
    have key : ∀ l : List Nat, l.Pairwise (fun a b => a < b) →
        ((l.map fun s => (c.idx, s)).filter fun p => decide (p.2 = sid)).map Prod.fst = if sid ∈ l then [c.idx] else [] := by
      intro l hl
      induction l with
      | nil => rfl
      | cons s l ihl =>
        rw [List.pairwise_cons] at hl
        have ihl := ihl hl.2
        rw [List.map_cons, List.filter_cons]
        by_cases e : s = sid
        · have : sid ∉ l := fun hm => by have := hl.1 sid hm; omega
          rw [if_neg this] at ihl
          simp only [e, decide_true, if_true, List.map_cons, List.mem_cons, true_or]
          rw [ihl]
        · simp only [e, decide_false, Bool.false_eq_true, if_false, ihl, List.mem_cons]
          have : sid ≠ s := fun e' => e e'.symm
          simp [this]
    rw [key _ hc]
    by_cases hm : sid ∈ c.sids
    · simp [hm]
    · simp [hm]

theorem nextSeries_sorted (files : List (File α)) (out : Option (Int × Int)) (fuel : Nat) (cs : List CFile) (hf : left cs < fuel)
    (h : CsOk cs) :
    match nextSeries files out fuel cs with
    | none => ∀ p ∈ rem cs, blocksOf files out p.2 p.1 = []
    | some (sid, blocks, cs') => blocks.Perm ((filesOf sid (rem cs)).flatMap (blocksOf files out sid)) ∧ blocks ≠ [] ∧
        (∀ p ∈ rem cs, p.2 < sid → blocksOf files out p.2 p.1 = []) ∧ CsOk cs' ∧ left cs' < left cs ∧
        (rem cs').Perm ((rem cs).filter fun p => decide (sid < p.2)) := by
  induction fuel generalizing cs with
  | zero => omega
  | succ fuel ih =>
    rw [nextSeries]
    cases hs : (cs.head?.bind fun c => c.sids.head?) with
    | none =>
      simp only
      by_cases he : rem cs = []
      · rw [he]; simp
      · obtain ⟨s, hs'⟩ := led_sorted cs h.sorted he
        rw [hs] at hs'; cases hs'
    | some sid =>
      have hmin : ∀ c ∈ cs, ∀ x ∈ c.sids, sid ≤ x := by
        cases cs with
        | nil => intro c hc; cases hc
        | cons c cs =>
          simp only [List.head?_cons, Option.bind_some] at hs
          cases hc : c.sids with
          | nil => rw [hc] at hs; simp at hs
          | cons s r =>
            rw [hc] at hs
            simp only [List.head?_cons, Option.some.injEq] at hs
            subst hs
            exact h.head_min hc
      have hlt := walk_left h.alive hs
      have hok := walk_ok h hmin
      have hrem := walk_rem_sorted h hmin
      have hfiles := walk_files h hmin
      have hge : ∀ p ∈ rem cs, sid ≤ p.2 := by
        intro p hp
        obtain ⟨c, hc, hp⟩ := List.mem_flatMap.1 hp
        obtain ⟨s, hs, rfl⟩ := List.mem_map.1 hp
        exact hmin c hc s hs
      have hmem : ∀ p, p ∈ rem (sortBy leC (walk sid cs).2) ↔ p ∈ rem cs ∧ p.2 ≠ sid := by
        intro p
        rw [hrem.mem_iff, List.mem_filter]
        simp
      simp only
      by_cases he : ((walk sid cs).1.flatMap (blocksOf files out sid)).isEmpty = true
      · rw [if_pos he]
        rw [List.isEmpty_iff, hfiles, List.flatMap_eq_nil_iff] at he
        have hnil : ∀ p ∈ rem cs, p.2 = sid → blocksOf files out p.2 p.1 = [] := by
          intro p hp e
          rw [e]
          apply he
          unfold filesOf
          exact List.mem_map.2 ⟨p, List.mem_filter.2 ⟨hp, by simpa using e⟩, rfl⟩
        have := ih (sortBy leC (walk sid cs).2) (by omega) hok
        generalize nextSeries files out fuel (sortBy leC (walk sid cs).2) = r at this
        cases r with
        | none =>
          simp only at this ⊢
          intro p hp
          by_cases e : p.2 = sid
          · exact hnil p hp e
          · exact this p ((hmem p).2 ⟨hp, e⟩)
        | some r =>
          obtain ⟨sid', blocks, cs'⟩ := r
          simp only at this ⊢
          obtain ⟨j1, j2, j3, j4, j5, j6⟩ := this
          have hsid : sid < sid' := by
            have : filesOf sid' (rem (sortBy leC (walk sid cs).2)) ≠ [] := by
              intro e; rw [e] at j1; exact j2 (by simpa using j1)
            unfold filesOf at this
            obtain ⟨p, hp⟩ := List.exists_mem_of_ne_nil _ this
            obtain ⟨q, hq, _⟩ := List.mem_map.1 hp
            obtain ⟨hq1, hq2⟩ := List.mem_filter.1 hq
            have h1 := (hmem q).1 hq1
            have h2 := hge q h1.1
            have h3 : q.2 = sid' := by simpa using hq2
            have h4 := h1.2
            omega
          refine ⟨?_, j2, ?_, j4, by omega, ?_⟩
          · refine j1.trans (List.Perm.flatMap_right _ ?_)
            have hp := ((hrem.filter fun p => decide (p.2 = sid')).map Prod.fst)
            rw [List.filter_filter] at hp
            have : ∀ p : Nat × Nat, (decide (p.2 = sid') && decide (p.2 ≠ sid)) = decide (p.2 = sid') := by
              intro p
              by_cases hp : p.2 = sid'
              · simp [hp]; omega
              · simp [hp]
            simp only [this] at hp
            exact hp
          · intro p hp hlt
            by_cases e : p.2 = sid
            · exact hnil p hp e
            · exact j3 p ((hmem p).2 ⟨hp, e⟩) hlt
          · refine j6.trans ((hrem.filter _).trans ?_)
            rw [List.filter_filter]
            have : ∀ p : Nat × Nat, (decide (sid' < p.2) && decide (p.2 ≠ sid)) = decide (sid' < p.2) := by
              intro p
              by_cases hp : sid' < p.2
              · simp [hp]; omega
              · simp [hp]
            simp only [this]
            exact List.Perm.refl _
      · rw [if_neg he]
        refine ⟨by rw [hfiles], by simpa using he, ?_, hok, hlt, ?_⟩
        · intro p hp hlt
          have := hge p hp
          omega
        · refine hrem.trans ?_
          have : (rem cs).filter (fun p => decide (p.2 ≠ sid)) = (rem cs).filter fun p => decide (sid < p.2) := by
            apply List.filter_congr
            intro p hp
            have := hge p hp
            by_cases e : p.2 = sid
            · simp [e]
            · have : sid < p.2 := by omega
              simp [e, this]
          rw [this]

theorem visits_sorted (files : List (File α)) (out : Option (Int × Int)) (fuel : Nat) (cs : List CFile) (hf : left cs < fuel) (h : CsOk cs) :
    ((visits files out fuel cs).Pairwise fun v w => v.1 < w.1) ∧
      (∀ v ∈ visits files out fuel cs, v.2 ≠ [] ∧ v.2.Perm ((filesOf v.1 (rem cs)).flatMap (blocksOf files out v.1))) ∧
      ∀ p ∈ rem cs, blocksOf files out p.2 p.1 ≠ [] → p.2 ∈ (visits files out fuel cs).map Prod.fst := by
  induction fuel generalizing cs with
  | zero => omega
  | succ fuel ih =>
    rw [visits]
    have := nextSeries_sorted files out (left cs + 1) cs (by omega) h
    generalize nextSeries files out (left cs + 1) cs = r at this
    cases r with
    | none =>
      simp only at this ⊢
      refine ⟨List.Pairwise.nil, by simp, ?_⟩
      intro p hp hne
      exact absurd (this p hp) hne
    | some r =>
      obtain ⟨sid, blocks, cs'⟩ := r
      simp only at this ⊢
      obtain ⟨j1, j2, j3, j4, j5, j6⟩ := this
      obtain ⟨i1, i2, i3⟩ := ih cs' (by omega) j4
      have hlater : ∀ v ∈ visits files out fuel cs', sid < v.1 := by
        intro v hv
        obtain ⟨h1, h2⟩ := i2 v hv
        have : filesOf v.1 (rem cs') ≠ [] := by
          intro e; rw [e] at h2; exact h1 (by simpa using h2)
        obtain ⟨q, hq⟩ := List.exists_mem_of_ne_nil _ this
        obtain ⟨p, hp, _⟩ := List.mem_map.1 hq
        obtain ⟨hp1, hp2⟩ := List.mem_filter.1 hp
        have h3 := (List.mem_filter.1 (j6.mem_iff.1 hp1)).2
        simp only [decide_eq_true_eq] at h3 hp2
        omega
      refine ⟨?_, ?_, ?_⟩
      · rw [List.pairwise_cons]
        exact ⟨hlater, i1⟩
      · intro v hv
        rcases List.mem_cons.1 hv with e | hv
        · rw [e]; exact ⟨j2, j1⟩
        · obtain ⟨h1, h2⟩ := i2 v hv
          refine ⟨h1, h2.trans (List.Perm.flatMap_right _ ?_)⟩
          have hlt := hlater v hv
          have hp := (j6.filter fun p => decide (p.2 = v.1)).map Prod.fst
          rw [List.filter_filter] at hp
          have : ∀ p : Nat × Nat, (decide (p.2 = v.1) && decide (sid < p.2)) = decide (p.2 = v.1) := by
            intro p
            by_cases hp : p.2 = v.1
            · simp [hp, hlt]
            · simp [hp]
          simp only [this] at hp
          exact hp
      · intro p hp hne
        rw [List.map_cons]
        rcases Nat.lt_trichotomy p.2 sid with hlt | heq | hgt
        · exact absurd (j3 p hp hlt) hne
        · rw [heq]; exact List.mem_cons_self
        · exact List.mem_cons_of_mem _ (i3 p (j6.mem_iff.2 (List.mem_filter.2 ⟨hp, by simpa using hgt⟩)) hne)

/-- Input files as they are written: no series twice in a file. -/
def FilesOk (files : List (File α)) : Prop := ∀ f ∈ files, (f.chunks.map Prod.fst).Pairwise fun a b => a ≠ b

theorem start_ok {files : List (File α)} (h : FilesOk files) (hs : (start files).Pairwise fun a b => leC a b = true) : CsOk (start files) := by
  refine ⟨hs, ?_, start_alive files⟩
  intro c hc
  unfold start at hc
  rw [List.mem_mapIdx] at hc
  obtain ⟨i, hi, rfl⟩ := hc
  have h1 := h _ (List.getElem_mem hi)
  have h2 : (sortBy (fun a b : Nat => decide (a ≤ b)) (files[i].chunks.map Prod.fst)).Pairwise fun a b => decide (a ≤ b) = true :=
    sortBy_sorted (by intro a b c; simp only [decide_eq_true_eq]; omega) (by intro a b; simp only [decide_eq_true_eq]; omega) _
  have h3 : (sortBy (fun a b : Nat => decide (a ≤ b)) (files[i].chunks.map Prod.fst)).Pairwise fun a b => a ≠ b :=
    (sortBy_perm _ _).symm.pairwise h1 (fun hab => Ne.symm hab)
  refine (h2.and h3).imp ?_
  intro a b hab
  have := hab.1
  simp only [decide_eq_true_eq] at this
  have := hab.2
  omega

/-- All blocks of a series. -/
def seriesBlocks (files : List (File α)) (out : Option (Int × Int)) (sid : Nat) : List (Block α) :=
  (List.range files.length).flatMap (blocksOf files out sid)

theorem blocksOf_absent {files : List (File α)} {out : Option (Int × Int)} {sid i : Nat} (f : File α) (hf : files[i]? = some f)
    (h : sid ∉ f.chunks.map Prod.fst) : blocksOf files out sid i = [] := by
  unfold blocksOf
  rw [hf]
  have : (f.chunks.find? fun c => decide (c.1 = sid)) = none := by
    rw [List.find?_eq_none]
    intro c hc e
    exact h (List.mem_map.2 ⟨c, hc, by simpa using e⟩)
  simp [File.pieces, this]

theorem files_start (files : List (File α)) (h : FilesOk files) (out : Option (Int × Int)) (sid : Nat) :
    (filesOf sid (rem (start files))).flatMap (blocksOf files out sid) = seriesBlocks files out sid := by
  have key : ∀ (l : List (File α)) (k : Nat), FilesOk l → (∀ i (hi : i < l.length), files[k + i]? = some l[i]) →
      (filesOf sid (rem (l.mapIdx fun i f => CFile.new (k + i) f))).flatMap (blocksOf files out sid) =
        ((List.range l.length).map fun i => k + i).flatMap (blocksOf files out sid) := by
    intro l
    induction l with
    | nil => intro k _ _; rfl
    | cons f l ih =>
      intro k hl hat
      have ih := ih (k + 1) (fun g hg => hl g (List.mem_cons_of_mem _ hg)) (by
        intro i hi
        have := hat (i + 1) (by simpa using hi)
        rw [List.getElem_cons_succ] at this
        rw [← this]; congr 1; omega)
      rw [List.mapIdx_cons, rem_cons]
      unfold filesOf at ih ⊢
      rw [List.filter_append, List.map_append, List.flatMap_append]
      have e1 : (fun i (f : File α) => CFile.new (k + (i + 1)) f) = fun i f => CFile.new (k + 1 + i) f := by
        funext i f
        rw [show k + (i + 1) = k + 1 + i by omega]
      rw [e1, ih, List.length_cons, List.range_succ_eq_map, List.map_cons, List.flatMap_cons, List.map_map]
      have e2 : ((fun i => k + i) ∘ Nat.succ) = fun i => k + 1 + i := by funext i; simp only [Function.comp]; omega
      rw [e2]
      congr 1
      have hf := hat 0 (by simp)
      simp only [Nat.add_zero, List.getElem_cons_zero] at hf
      have hsids : (CFile.new (k + 0) f).sids = sortBy (fun a b : Nat => decide (a ≤ b)) (f.chunks.map Prod.fst) := rfl
      have hidx : (CFile.new (k + 0) f).idx = k := rfl
      rw [hsids, hidx]
      have hnd := (sortBy_perm (fun a b : Nat => decide (a ≤ b)) (f.chunks.map Prod.fst)).symm.pairwise (hl f List.mem_cons_self) (fun hab => Ne.symm hab)
      have hmem : sid ∈ sortBy (fun a b : Nat => decide (a ≤ b)) (f.chunks.map Prod.fst) ↔ sid ∈ f.chunks.map Prod.fst := mem_sortBy
      generalize sortBy (fun a b : Nat => decide (a ≤ b)) (f.chunks.map Prod.fst) = l' at hnd hmem
      have k1 : ∀ l' : List Nat, l'.Pairwise (fun a b => a ≠ b) →
          ((l'.map fun s => (k, s)).filter fun p => decide (p.2 = sid)).map Prod.fst = if sid ∈ l' then [k] else [] := by
        intro l' hl'
        induction l' with
        | nil => rfl
        | cons s l' ihl =>
          rw [List.pairwise_cons] at hl'
          have ihl := ihl hl'.2
          rw [List.map_cons, List.filter_cons]
          by_cases e : s = sid
          · have : sid ∉ l' := fun hm => hl'.1 sid hm e
            rw [if_neg this] at ihl
            simp only [e, decide_true, if_true, List.map_cons, List.mem_cons, true_or]
            rw [ihl]
          · simp only [e, decide_false, Bool.false_eq_true, if_false, ihl, List.mem_cons]
            have : sid ≠ s := fun e' => e e'.symm
            simp [this]
      rw [k1 l' hnd]
      by_cases hm : sid ∈ f.chunks.map Prod.fst
      · rw [if_pos (hmem.2 hm)]; simp
      · rw [if_neg (fun h => hm (hmem.1 h)), Nat.add_zero, blocksOf_absent f hf hm]; rfl
  have := key files 0 h (by intro i hi; simp)
  have e1 : (files.mapIdx fun i f => CFile.new (0 + i) f) = start files := by simp [start]
  have e2 : ((List.range files.length).map fun i => 0 + i) = List.range files.length := by simp
  rw [e1, e2] at this
  exact this

theorem mem_start_rem {files : List (File α)} {i s : Nat} {f : File α} (hf : files[i]? = some f) (hs : s ∈ f.chunks.map Prod.fst) :
    (i, s) ∈ rem (start files) := by
  unfold rem
  rw [List.mem_flatMap]
  obtain ⟨hi, e⟩ := List.getElem?_eq_some_iff.1 hf
  refine ⟨CFile.new i f, ?_, ?_⟩
  · unfold start
    rw [List.mem_mapIdx]
    exact ⟨i, hi, by rw [e]⟩
  · exact List.mem_map.2 ⟨s, mem_sortBy.2 hs, rfl⟩

/-- Part of **C40** (every series of every input file is compacted): when the files of the request are in the order of their first
series, every series that has blocks in the range is visited exactly once, in ascending order, and its visit gathers the blocks of that
series from all files.  What is missing are the other orders of the files, see `C40_twice_refuted` and `C40_empty_first_refuted`. -/
theorem C40_visits_partial (files : List (File α)) (out : Option (Int × Int)) (h : FilesOk files)
    (hs : (start files).Pairwise fun a b => leC a b = true) :
    ((allVisits files out).Pairwise fun v w => v.1 < w.1) ∧
      (∀ v ∈ allVisits files out, v.2 ≠ [] ∧ v.2.Perm (seriesBlocks files out v.1)) ∧
      ∀ sid, seriesBlocks files out sid ≠ [] → ∃ v ∈ allVisits files out, v.1 = sid := by
  obtain ⟨h1, h2, h3⟩ := visits_sorted files out (left (start files) + 1) (start files) (by omega) (start_ok h hs)
  refine ⟨h1, ?_, ?_⟩
  · intro v hv
    have := h2 v hv
    rw [files_start files h] at this
    exact this
  · intro sid hne
    obtain ⟨b, hb⟩ := List.exists_mem_of_ne_nil _ hne
    obtain ⟨i, hi, hb⟩ := List.mem_flatMap.1 hb
    rw [List.mem_range] at hi
    have hf : files[i]? = some files[i] := List.getElem?_eq_getElem hi
    have hm : sid ∈ files[i].chunks.map Prod.fst := by
      by_cases hm : sid ∈ files[i].chunks.map Prod.fst
      · exact hm
      · rw [blocksOf_absent _ hf hm] at hb; cases hb
    have := h3 (i, sid) (mem_start_rem hf hm) (by intro e; simp only at e; rw [e] at hb; cases hb)
    obtain ⟨v, hv, e⟩ := List.mem_map.1 this
    exact ⟨v, hv, e⟩

/-- Files for the examples. -/
def exFiles : List (File Nat) :=
  [⟨false, [(1, [⟨1, 4, [⟨1, [some 1]⟩, ⟨4, [some 4]⟩], [⟨1, [some 1]⟩, ⟨4, [some 4]⟩]⟩, ⟨6, 6, [⟨6, [some 6]⟩], [⟨6, [some 6]⟩]⟩]),
    (7, [⟨1, 1, [⟨1, [some 1]⟩], [⟨1, [some 1]⟩]⟩])]⟩,
   ⟨true, [(1, [⟨4, 9, [⟨4, [none]⟩, ⟨6, [some 66]⟩, ⟨8, [some 8]⟩, ⟨9, [some 9]⟩], [⟨4, [none]⟩, ⟨6, [some 66]⟩, ⟨9, [some 9]⟩]⟩]),
    (3, [⟨2, 2, [⟨2, [some 2]⟩], [⟨2, [some 2]⟩]⟩])]⟩]

example : FilesOk exFiles ∧ ((start exFiles).Pairwise fun a b => leC a b = true) ∧
    (allVisits exFiles none).map (fun v => (v.1, v.2.map fun b => (b.idx, b.lo))) = [(1, [(0, 1), (0, 6), (1, 4)]), (3, [(1, 2)]), (7, [(0, 1)])] := by
  unfold FilesOk
  decide +kernel

/-- **C40 fails when the files are not in the order of their first series**: the first round does not sort them, so a series that the
first file begins with is visited before the smaller series of another file, and again with the blocks of that file. -/
theorem C40_twice_refuted :
    ∃ files : List (File Nat), FilesOk files ∧
      (allVisits files none).map (fun v => (v.1, v.2.map fun b => (b.idx, b.lo))) = [(5, [(0, 10)]), (3, [(1, 1)]), (5, [(1, 1)])] := by
  refine ⟨[⟨false, [(5, [⟨10, 10, [], []⟩])]⟩, ⟨false, [(3, [⟨1, 1, [], []⟩]), (5, [⟨1, 1, [], []⟩])]⟩], ?_⟩
  unfold FilesOk
  decide +kernel

/-- **C40 fails when the first file has no series**: nothing is visited at all. -/
theorem C40_empty_first_refuted :
    ∃ files : List (File Nat), FilesOk files ∧ seriesBlocks files none 5 ≠ [] ∧ (allVisits files none).length = 0 := by
  refine ⟨[⟨false, []⟩, ⟨false, [(5, [⟨10, 10, [], []⟩])]⟩], ?_, ?_, ?_⟩
  · unfold FilesOk; decide +kernel
  · intro h
    have : (seriesBlocks ([⟨false, []⟩, ⟨false, [(5, [⟨10, 10, [], []⟩])]⟩] : List (File Nat)) none 5).length = 1 := by decide +kernel
    rw [h] at this; cases this
  · decide +kernel

end Verif.Compact
