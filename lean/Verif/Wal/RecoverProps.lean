import Verif.Wal.Recover
import Mathlib.Data.List.Induction
/-!
# C23 — crash recovery
-/
namespace Verif.Wal.Log

open Verif.Wal.Ring (Cache)

variable {E σ : Type} {idx : E → Nat} {len : E → Nat} {app : σ → E → Option σ} {flushed : σ → Nat}

abbrev rIdx (idx : E → Nat) : Nat × Nat × E → Nat := fun r => idx r.2.2

/-- The effect of marking records. -/
def markAll (idx : E → Nat) (s : Store E) (l : List (Nat × Nat × E)) : Store E :=
  l.foldl (fun s r => s.mark idx r.2.2 r.1 r.2.1) s

theorem markAll_files (l : List (Nat × Nat × E)) (s : Store E) :
    (markAll idx s l).old = s.old ∧ (markAll idx s l).cur = s.cur ∧
    (markAll idx s l).metas = l.foldl (fun ms r => markMetas ms r.1 (idx r.2.2) r.2.1) s.metas ∧
    (markAll idx s l).cache = l.foldl (fun c r => c.put (idx r.2.2) r.2.2) s.cache := by
  induction l generalizing s with
  | nil => exact ⟨rfl, rfl, rfl, rfl⟩
  | cons r l ih =>
    obtain ⟨h1, h2, h3, h4⟩ := ih (s.mark idx r.2.2 r.1 r.2.1)
    exact ⟨h1, h2, h3, h4⟩

theorem mark_items {A : List Meta} {id : Nat} (hA : ∀ m ∈ A, m.id ≠ id) (l : List (Nat × E)) (h : Asc (key idx) l)
    (hb : ∀ y ∈ l, idx y.2 < u64Max) :
    (l.map fun x => (id, x.1, x.2)).foldl (fun ms r => markMetas ms r.1 (idx r.2.2) r.2.1) A = A ++ (mk idx id l).toList := by
  induction l using List.reverseRecOn with
  | nil => simp [mk]
  | append_singleton l x ih =>
    rw [List.map_append, List.foldl_append, ih (h.sublist (List.sublist_append_left _ _)) (fun y hy => hb y (List.mem_append_left _ hy))]
    exact markMetas_eq hA h (fun y hy => hb y (List.mem_append_left _ hy))

theorem recordsOf_append (a b : List (DFile E)) : recordsOf (a ++ b) = recordsOf a ++ recordsOf b := by
  simp [recordsOf]

theorem recordsOf_one (f : DFile E) : recordsOf [f] = f.items.map fun x => (f.id, x.1, x.2) := by
  simp [recordsOf]

theorem mark_files (fs : List (DFile E)) (ids : fs.Pairwise (fun f f' => f.id < f'.id))
    (h : ∀ f ∈ fs, Asc (key idx) f.items ∧ ∀ y ∈ f.items, idx y.2 < u64Max) :
    (recordsOf fs).foldl (fun ms r => markMetas ms r.1 (idx r.2.2) r.2.1) [] = fs.filterMap (metaOf idx 0) := by
  induction fs using List.reverseRecOn with
  | nil => rfl
  | append_singleton fs f ih =>
    obtain ⟨i1, _, i3⟩ := List.pairwise_append.1 ids
    rw [recordsOf_append, List.foldl_append, ih i1 (fun g hg => h g (List.mem_append_left _ hg)), recordsOf_one,
      mark_items ?_ f.items (h f (by simp)).1 (h f (by simp)).2, List.filterMap_append, filterMap_one]
    · unfold metaOf liveOf
      rw [List.filter_eq_self.2 (by simp)]
    · intro m hm
      obtain ⟨g, hg, hgm⟩ := List.mem_filterMap.1 hm
      have := i3 g hg f (by simp)
      rw [mk_id hgm]
      omega

theorem mark_cache (l : List (Nat × Nat × E)) (h : Asc (rIdx idx) l) :
    ∃ k, Ring.Agrees 256 (l.foldl (fun c r => c.put (idx r.2.2) r.2.2) (Cache.new 256)) (look idx (l.map (fun r => r.2.2))) k := by
  induction l using List.reverseRecOn with
  | nil => exact ⟨[], ext_agrees (new_agrees (by decide)) (fun i => rfl)⟩
  | append_singleton l x ih =>
    obtain ⟨k, hk⟩ := ih (h.sublist (List.sublist_append_left _ _))
    have hlt := (List.pairwise_append.1 h).2.2
    have hasc : Asc idx (l.map (fun r => r.2.2)) := List.pairwise_map.2 (h.sublist (List.sublist_append_left _ _))
    obtain ⟨k', hk'⟩ := hk.put (k := idx x.2.2) (v := x.2.2) (.inr (by
      intro i hi
      obtain ⟨e, he⟩ := Option.isSome_iff_exists.1 hi
      obtain ⟨he1, he2⟩ := (look_some hasc).1 he
      obtain ⟨r, hr, rfl⟩ := List.mem_map.1 he1
      have := hlt r hr x (by simp)
      simp only [rIdx] at this
      omega))
    refine ⟨k', ?_⟩
    rw [List.foldl_append]
    refine ext_agrees hk' ?_
    intro i
    unfold Ring.specStep
    simp only [look, List.map_append, List.map_cons, List.map_nil, List.find?_append, List.find?_cons, List.find?_nil]
    by_cases hi : idx x.2.2 = i
    · have : (l.map (fun r => r.2.2)).find? (fun x => decide (idx x = i)) = none := by
        rw [List.find?_eq_none]
        intro e he
        obtain ⟨r, hr, rfl⟩ := List.mem_map.1 he
        have := hlt r hr x (by simp)
        simp only [rIdx] at this
        simp; omega
      rw [this]
      simp [hi]
    · simp [hi]
      omega

/-! ## The phases of the recovery -/

/-- A flush during the recovery covers only entries that were already applied. -/
def FlushOk (idx : E → Nat) (app : σ → E → Option σ) (flushed : σ → Nat) : Prop :=
  ∀ st e st', app st e = some st' → flushed st ≤ flushed st' ∧ flushed st' ≤ max (flushed st) (idx e)

/-- Entries up to the last applied one: marked, and applied if they are not flushed yet. -/
theorem recover_low {a f0 : Nat} (hfl : FlushOk idx app flushed) : ∀ (l rest : List (Nat × Nat × E)) (s : Store E) (st st' : σ),
    Asc (rIdx idx) l → (∀ r ∈ l, idx r.2.2 ≤ a) → f0 ≤ flushed st → (∀ r ∈ l, f0 < idx r.2.2 → flushed st < idx r.2.2) →
    (l.filter (fun r => decide (f0 < idx r.2.2))).foldlM (fun st r => app st r.2.2) st = some st' →
    recoverLoop idx app flushed (some a) (l ++ rest) (s, st) =
      recoverLoop idx app flushed (some a) rest (markAll idx s l, st') := by
  intro l
  induction l with
  | nil =>
    intro rest s st st' _ _ _ _ h
    have : st = st' := by simpa using h
    rw [this]; rfl
  | cons r l ih =>
    intro rest s st st' hasc hle hf hfl' h
    obtain ⟨a1, a2⟩ := List.pairwise_cons.1 hasc
    obtain ⟨id, pos, e⟩ := r
    have hle0 := hle (id, pos, e) (List.mem_cons_self ..)
    simp only [List.cons_append, recoverLoop, recoverRec]
    by_cases h0 : f0 < idx e
    · rw [List.filter_cons_of_pos (by simpa using h0), List.foldlM_cons] at h
      have hlt := hfl' (id, pos, e) (List.mem_cons_self ..) h0
      simp only at hlt hle0
      rw [if_pos ⟨hlt, hle0⟩]
      cases ha : app st e with
      | none => rw [ha] at h; cases h
      | some st1 =>
        obtain ⟨g1, g2⟩ := hfl st e st1 ha
        rw [ha] at h
        simp only [Option.map_some, if_neg (show ¬ a < idx e by omega)]
        refine ih rest (s.mark idx e id pos) st1 st' a2 (fun x hx => hle x (List.mem_cons_of_mem _ hx)) (by omega) ?_ h
        intro x hx hx0
        have b1 := a1 x hx
        have b2 := hfl' x (List.mem_cons_of_mem _ hx) hx0
        simp only [rIdx] at b1
        omega
    · rw [List.filter_cons_of_neg (by simpa using h0)] at h
      simp only at hle0
      rw [if_neg (by omega)]
      simp only [Option.map_some, if_neg (show ¬ a < idx e by omega)]
      exact ih rest (s.mark idx e id pos) st st' a2 (fun x hx => hle x (List.mem_cons_of_mem _ hx)) hf
        (fun x hx => hfl' x (List.mem_cons_of_mem _ hx)) h

/-- The effect of cutting files. -/
def cutAll (s : Store E) (l : List (Nat × Nat × E)) : Store E := l.foldl (fun s r => s.truncate r.1 r.2.1) s

/-- Entries after the last applied one: cut off. -/
theorem recover_high {a : Nat} : ∀ (l : List (Nat × Nat × E)) (s : Store E) (st : σ), (∀ r ∈ l, a < idx r.2.2) →
    recoverLoop idx app flushed (some a) l (s, st) = (cutAll s l, st) := by
  intro l
  induction l with
  | nil => intro s st _; rfl
  | cons r l ih =>
    intro s st h
    obtain ⟨id, pos, e⟩ := r
    have h0 := h (id, pos, e) (List.mem_cons_self ..)
    simp only at h0
    simp only [recoverLoop, recoverRec, if_neg (show ¬ (flushed st < idx e ∧ idx e ≤ a) by omega), Option.map_some, if_pos h0]
    exact ih _ _ (fun x hx => h x (List.mem_cons_of_mem _ hx))

theorem recover_none : ∀ (l : List (Nat × Nat × E)) (s : Store E) (st : σ),
    recoverLoop idx app flushed none l (s, st) = (markAll idx s l, st) := by
  intro l
  induction l with
  | nil => intro s st; rfl
  | cons r l ih => intro s st; exact ih _ _

theorem cut_id (f : DFile E) (p : Nat) : (f.cut p).id = f.id := by unfold DFile.cut; split <;> rfl

def cutBy (f : DFile E) (l : List (Nat × Nat × E)) : DFile E := l.foldl (fun f r => if f.id = r.1 then f.cut r.2.1 else f) f

theorem cutAll_eq (l : List (Nat × Nat × E)) (s : Store E) (h : s.all.Pairwise (fun f f' => f.id < f'.id)) :
    (cutAll s l).all = s.all.map (fun f => cutBy f l) ∧ (cutAll s l).metas = s.metas ∧ (cutAll s l).cache = s.cache := by
  induction l generalizing s with
  | nil => exact ⟨by simp [cutAll, cutBy], rfl, rfl⟩
  | cons r l ih =>
    obtain ⟨t1, t2, t3⟩ := truncate_all h r.1 r.2.1
    have hid : (s.truncate r.1 r.2.1).all.Pairwise (fun f f' => f.id < f'.id) := by
      rw [t1, List.pairwise_map]
      refine h.imp ?_
      intro f f' hlt
      have : ∀ g : DFile E, (if g.id = r.1 then g.cut r.2.1 else g).id = g.id := by
        intro g; split
        · exact cut_id _ _
        · rfl
      rw [this, this]; exact hlt
    obtain ⟨h1, h2, h3⟩ := ih (s.truncate r.1 r.2.1) hid
    refine ⟨h1.trans ?_, h2.trans t2, h3.trans t3⟩
    rw [t1, List.map_map]
    rfl

theorem cutBy_id (l : List (Nat × Nat × E)) (f : DFile E) : (cutBy f l).id = f.id := by
  induction l generalizing f with
  | nil => rfl
  | cons r l ih =>
    show (cutBy (if f.id = r.1 then f.cut r.2.1 else f) l).id = f.id
    rw [ih]
    split
    · exact cut_id _ _
    · rfl

theorem cutBy_le (l : List (Nat × Nat × E)) (f : DFile E) (h : ∀ r ∈ l, r.1 = f.id → f.size ≤ r.2.1) : cutBy f l = f := by
  induction l with
  | nil => rfl
  | cons r l ih =>
    have ih := ih (fun x hx => h x (List.mem_cons_of_mem _ hx))
    show cutBy (if f.id = r.1 then f.cut r.2.1 else f) l = f
    by_cases hr : f.id = r.1
    · rw [if_pos hr]
      have := h r (List.mem_cons_self ..) hr.symm
      unfold DFile.cut
      rw [if_pos this]; exact ih
    · rw [if_neg hr]; exact ih

theorem cutBy_skip (l l' : List (Nat × Nat × E)) (f : DFile E) (h : ∀ r ∈ l, r.1 ≠ f.id) : cutBy f (l ++ l') = cutBy f l' := by
  have : cutBy f (l ++ l') = cutBy (cutBy f l) l' := by unfold cutBy; rw [List.foldl_append]
  rw [this, cutBy_le l f (fun r hr he => absurd he (h r hr))]

/-- Cutting off the entries after the last applied one, file by file. -/
theorem cut_file {fs : List (DFile E)} (h : FilesOk idx fs) {f : DFile E} (hf : f ∈ fs) (a : Nat) :
    let g := cutBy f ((recordsOf fs).filter (fun r => decide (a < idx r.2.2)))
    g.id = f.id ∧ g.items = f.items.filter (fun x => decide (idx x.2 < a + 1)) ∧ 4 ≤ g.size ∧ ∀ x ∈ g.items, 4 ≤ x.1 ∧ x.1 < g.size := by
  obtain ⟨f1, f2, f3, f4, f5⟩ := h.file hf
  intro g
  refine ⟨cutBy_id _ _, ?_⟩
  obtain ⟨p, q, hpq⟩ := List.append_of_mem hf
  have ids := h.ids
  rw [hpq] at ids
  have idp : ∀ f' ∈ p, f'.id ≠ f.id := fun f' hf' => by
    have := (List.pairwise_append.1 ids).2.2 f' hf' f (by simp)
    omega
  have idq : ∀ f' ∈ q, f'.id ≠ f.id := fun f' hf' => by
    have := (List.pairwise_cons.1 (List.pairwise_append.1 ids).2.1).1 f' hf'
    omega
  have hrec : (recordsOf fs).filter (fun r => decide (a < idx r.2.2)) =
      (recordsOf p).filter (fun r => decide (a < idx r.2.2)) ++
      ((f.items.filter (fun x => decide (a < idx x.2))).map (fun x => (f.id, x.1, x.2)) ++
        (recordsOf q).filter (fun r => decide (a < idx r.2.2))) := by
    rw [hpq, show p ++ f :: q = p ++ ([f] ++ q) by simp, recordsOf_append, recordsOf_append, recordsOf_one, List.filter_append,
      List.filter_append, List.filter_map]
    rfl
  have mem_p : ∀ (l : List (DFile E)), (∀ f' ∈ l, f'.id ≠ f.id) → ∀ r ∈ (recordsOf l).filter (fun r => decide (a < idx r.2.2)), r.1 ≠ f.id := by
    intro l hl r hr
    obtain ⟨f', hf', hr'⟩ := List.mem_flatMap.1 (List.mem_filter.1 hr).1
    obtain ⟨x, _, rfl⟩ := List.mem_map.1 hr'
    exact hl f' hf'
  have hg : g = cutBy f ((f.items.filter (fun x => decide (a < idx x.2))).map (fun x => (f.id, x.1, x.2)) ++
        (recordsOf q).filter (fun r => decide (a < idx r.2.2))) := by
    show cutBy f ((recordsOf fs).filter (fun r => decide (a < idx r.2.2))) = _
    rw [hrec, cutBy_skip _ _ _ (mem_p p idp)]
  cases hhi : f.items.filter (fun x => decide (a < idx x.2)) with
  | nil =>
    have hgf : g = f := by
      rw [hg, hhi]
      exact cutBy_le _ _ (fun r hr he => absurd he (mem_p q idq r (by simpa using hr)))
    rw [hgf]
    refine ⟨?_, f4, fun x hx => ⟨(f5 x hx).1, (f5 x hx).2.1⟩⟩
    rw [eq_comm, List.filter_eq_self]
    intro x hx
    have := List.filter_eq_nil_iff.1 hhi x hx
    simp only [decide_eq_true_eq] at this ⊢
    omega
  | cons z zs =>
    have hz : z ∈ f.items.filter (fun x => decide (a < idx x.2)) := by rw [hhi]; simp
    obtain ⟨hz1, hz2⟩ := List.mem_filter.1 hz
    simp only [decide_eq_true_eq] at hz2
    obtain ⟨z1, z2, _⟩ := f5 z hz1
    have hmin : ∀ x ∈ f.items, a < idx x.2 → z.1 ≤ x.1 ∧ idx z.2 ≤ idx x.2 := by
      intro x hx hlt
      have hxm : x ∈ f.items.filter (fun x => decide (a < idx x.2)) := List.mem_filter.2 ⟨hx, by simpa using hlt⟩
      have c1 := Asc.head_le (g := Prod.fst) (f3.filter (fun x => decide (a < idx x.2))) (x := z) (by rw [hhi]; rfl) hxm
      have c2 := Asc.head_le (g := key idx) (f1.filter (fun x => decide (a < idx x.2))) (x := z) (by rw [hhi]; rfl) hxm
      exact ⟨c1, c2⟩
    have hcut : f.cut z.1 = ⟨f.id, f.items.filter (fun x => decide (idx x.2 < a + 1)), z.1⟩ := by
      unfold DFile.cut
      rw [if_neg (by omega)]
      congr 1
      apply List.filter_congr
      intro x hx
      have hs := f3.same f1 hx hz1
      simp only [key] at hs
      rw [decide_eq_decide, hs]
      constructor
      · intro hlt
        by_contra hn
        have := (hmin x hx (by omega)).2
        omega
      · intro hlt
        omega
    have hgf : g = f.cut z.1 := by
      rw [hg, hhi, List.map_cons, List.cons_append]
      show cutBy (if f.id = f.id then f.cut z.1 else f) _ = _
      rw [if_pos rfl]
      apply cutBy_le
      intro r hr he
      rw [hcut]
      rcases List.mem_append.1 hr with hr | hr
      · obtain ⟨x, hx, rfl⟩ := List.mem_map.1 hr
        have hx' : x ∈ f.items.filter (fun x => decide (a < idx x.2)) := by rw [hhi]; exact List.mem_cons_of_mem _ hx
        obtain ⟨hx1, hx2⟩ := List.mem_filter.1 hx'
        exact (hmin x hx1 (by simpa using hx2)).1
      · rw [hcut] at he
        exact absurd he (mem_p q idq r hr)
    rw [hgf, hcut]
    refine ⟨rfl, z1, ?_⟩
    intro x hx
    obtain ⟨hx1, hx2⟩ := List.mem_filter.1 hx
    simp only [decide_eq_true_eq] at hx2
    refine ⟨(f5 x hx1).1, ?_⟩
    have hs := f3.same f1 hx1 hz1
    simp only [key] at hs
    exact hs.2 (by omega)

theorem recordsOf_snd (fs : List (DFile E)) : (recordsOf fs).map (fun r => r.2.2) = (diskOf fs).map Prod.snd := by
  unfold recordsOf diskOf
  rw [List.map_flatMap, List.map_flatMap]
  congr 1
  funext f
  rw [List.map_map]
  rfl

theorem recordsOf_asc {fs : List (DFile E)} (h : Asc (key idx) (diskOf fs)) : Asc (rIdx idx) (recordsOf fs) := by
  have h1 : Asc idx ((diskOf fs).map Prod.snd) := List.pairwise_map.2 h
  rw [← recordsOf_snd] at h1
  exact (List.pairwise_map (R := fun a b => idx a < idx b)).1 h1

theorem flatMap_congr' {α β : Type} {l : List α} {f g : α → List β} (h : ∀ a ∈ l, f a = g a) : l.flatMap f = l.flatMap g := by
  induction l with
  | nil => rfl
  | cons a l ih =>
    rw [List.flatMap_cons, List.flatMap_cons, h a (List.mem_cons_self ..), ih (fun x hx => h x (List.mem_cons_of_mem _ hx))]

/-- What is on disk: the entries in the log files, in order. -/
def Store.disk (s : Store E) : List E := (diskOf s.all).map Prod.snd

theorem reopened {fs : List (DFile E)} {s' : Store E} (h : FilesOk idx fs) (hall : s'.all = fs)
    (hm : s'.metas = fs.filterMap (metaOf idx 0))
    (hc : ∃ k, Ring.Agrees 256 s'.cache (look idx ((diskOf fs).map Prod.snd)) k) :
    Inv idx s' ((diskOf fs).map Prod.snd) 0 := by
  have hl : ∀ f : DFile E, liveOf idx 0 f = f.items := by
    intro f; unfold liveOf; rw [List.filter_eq_self]; simp
  refine ⟨by rw [hall]; exact h, ?_, ?_, by rw [hall]; exact hm, hc⟩
  · intro f _ hne; rw [hl]; exact hne
  · rw [hall, List.filter_eq_self.2 (by simp)]

/-- **C23, as far as it holds.**  After any history, the log is opened again with some last applied index `a`, for an
engine whose flushed index is `f0`.  If applying the entries on disk with indexes after `f0` and up to `a`, one after
the other, succeeds, then the engine ends in exactly this state, and the log consists of exactly the entries on disk up
to `a` (read through the same functions as before the restart). -/
theorem C23_recovery_partial {s : Store E} {es : List E} {lo : Nat} (h : Inv idx s es lo) (hfl : FlushOk idx app flushed)
    (a : Nat) (st st' : σ)
    (hok : (s.disk.filter (fun e => decide (flushed st < idx e ∧ idx e ≤ a))).foldlM app st = some st') :
    (s.recover idx app flushed (some a) st).2 = st' ∧
    Inv idx (s.recover idx app flushed (some a) st).1 (s.disk.filter (fun e => decide (idx e ≤ a))) 0 := by
  have hasc := recordsOf_asc h.files.asc
  have hall : s.reopen.all = s.all := rfl
  set R := recordsOf s.all with hR
  have hsplit : R = R.filter (fun r => decide (idx r.2.2 < a + 1)) ++ R.filter (fun r => decide (a < idx r.2.2)) := by
    have e1 := filter_lt_eq (g := rIdx idx) hasc (a + 1)
    have e2 := filter_ge_eq (g := rIdx idx) hasc (a + 1)
    conv_lhs => rw [← List.takeWhile_append_dropWhile (p := fun r => decide (rIdx idx r < a + 1)) (l := R), ← e1, ← e2]
    rfl
  have hrep : ((R.filter (fun r => decide (idx r.2.2 < a + 1))).filter (fun r => decide (flushed st < idx r.2.2))).foldlM
      (fun st r => app st r.2.2) st = some st' := by
    have : ((R.filter (fun r => decide (idx r.2.2 < a + 1))).filter (fun r => decide (flushed st < idx r.2.2))).map (fun r => r.2.2) =
        s.disk.filter (fun e => decide (flushed st < idx e ∧ idx e ≤ a)) := by
      unfold Store.disk
      rw [← recordsOf_snd, List.filter_filter, List.filter_map]
      congr 1
      apply List.filter_congr
      intro r _
      simp only [Function.comp_apply, ← Bool.decide_and, decide_eq_decide]
      omega
    rw [← this, List.foldlM_map] at hok
    exact hok
  have hrec : recoverLoop idx app flushed (some a) R (s.reopen, st) =
      (cutAll (markAll idx s.reopen (R.filter (fun r => decide (idx r.2.2 < a + 1)))) (R.filter (fun r => decide (a < idx r.2.2))), st') := by
    conv_lhs => rw [hsplit]
    rw [recover_low hfl _ _ _ _ _ (hasc.filter _) ?_ (Nat.le_refl (flushed st)) (fun _ _ h => h) hrep, recover_high]
    · intro r hr; simpa using (List.mem_filter.1 hr).2
    · intro r hr
      have := (List.mem_filter.1 hr).2
      simp only [decide_eq_true_eq] at this
      omega
  unfold Store.recover
  rw [← hR, hrec]
  simp only
  refine ⟨trivial, ?_⟩
  obtain ⟨m1, m2, m3, m4⟩ := markAll_files (idx := idx) (R.filter (fun r => decide (idx r.2.2 < a + 1))) s.reopen
  set s1 := markAll idx s.reopen (R.filter (fun r => decide (idx r.2.2 < a + 1))) with hs1
  have hall1 : s1.all = s.all := by unfold Store.all; rw [m1, m2]; rfl
  obtain ⟨c1, c2, c3⟩ := cutAll_eq (R.filter (fun r => decide (a < idx r.2.2))) s1 (by rw [hall1]; exact h.files.ids)
  rw [hall1] at c1
  set fs := s.all.map (fun f => cutBy f (R.filter (fun r => decide (a < idx r.2.2)))) with hfs
  have hf : ∀ f ∈ s.all, _ := fun f hf => cut_file h.files hf a
  have hdisk : diskOf fs = (diskOf s.all).filter (fun x => decide (idx x.2 < a + 1)) := by
    unfold diskOf
    rw [hfs, List.flatMap_map, List.filter_flatMap]
    apply flatMap_congr'
    intro f hf'
    exact (hf f hf').2.1
  have hrecs : recordsOf fs = R.filter (fun r => decide (idx r.2.2 < a + 1)) := by
    rw [hR]
    unfold recordsOf
    rw [hfs, List.flatMap_map, List.filter_flatMap]
    apply flatMap_congr'
    intro f hf'
    rw [(hf f hf').2.1, (hf f hf').1, List.filter_map]
    rfl
  have hok' : FilesOk idx fs := by
    refine ⟨?_, ?_, ?_, ?_, ?_, ?_⟩
    · rw [hfs, List.pairwise_map]
      refine h.files.ids.imp ?_
      intro f f' hlt
      rw [cutBy_id, cutBy_id]; exact hlt
    · intro g hg
      obtain ⟨f, hf', rfl⟩ := List.mem_map.1 hg
      rw [(hf f hf').2.1]
      exact (h.files.pos f hf').filter _
    · intro g hg
      obtain ⟨f, hf', rfl⟩ := List.mem_map.1 hg
      exact (hf f hf').2.2
    · rw [hdisk]; exact h.files.asc.filter _
    · rw [hdisk]; exact h.files.conv.filter_lt _
    · rw [hdisk]; exact fun x hx => h.files.bnd x (List.mem_filter.1 hx).1
  have hinv : Inv idx (cutAll s1 (R.filter (fun r => decide (a < idx r.2.2)))) ((diskOf fs).map Prod.snd) 0 := by
    refine reopened hok' c1 ?_ ?_
    · rw [c2, m3, ← hrecs]
      exact mark_files fs hok'.ids (fun f hf => ⟨(hok'.file hf).1, fun y hy => ((hok'.file hf).2.2.2.2 y hy).2.2⟩)
    · rw [c3, m4, ← recordsOf_snd, ← hrecs]
      exact mark_cache _ (recordsOf_asc hok'.asc)
  have hfin := after_inv hinv (a + 1)
  have : ((diskOf fs).map Prod.snd).filter (fun e => decide (idx e < a + 1)) = s.disk.filter (fun e => decide (idx e ≤ a)) := by
    unfold Store.disk
    rw [hdisk, filter_map_snd, filter_map_snd, List.filter_filter]
    congr 1
    apply List.filter_congr
    intro x _
    rw [← Bool.decide_and, decide_eq_decide]
    omega
  rw [this] at hfin
  exact hfin

/-- Without a last applied index nothing is applied and the whole log is kept. -/
theorem C23_nothing_applied {s : Store E} {es : List E} {lo : Nat} (h : Inv idx s es lo) (st : σ) :
    (s.recover idx app flushed none st).2 = st ∧ Inv idx (s.recover idx app flushed none st).1 s.disk 0 := by
  unfold Store.recover
  rw [recover_none]
  refine ⟨rfl, ?_⟩
  obtain ⟨m1, m2, m3, m4⟩ := markAll_files (idx := idx) (recordsOf s.all) s.reopen
  refine reopened h.files ?_ ?_ ?_
  · show (markAll idx s.reopen (recordsOf s.all)).old ++ [(markAll idx s.reopen (recordsOf s.all)).cur] = s.all
    rw [m1, m2]; rfl
  · simp only; rw [m3]
    exact mark_files s.all h.files.ids (fun f hf => ⟨(h.files.file hf).1, fun y hy => ((h.files.file hf).2.2.2.2 y hy).2.2⟩)
  · simp only; rw [m4, ← recordsOf_snd]
    exact mark_cache _ (recordsOf_asc h.files.asc)

/-- The entries on disk are those of the log, after entries that were purged but share a file with entries that were
not. -/
theorem disk_eq {s : Store E} {es : List E} {lo : Nat} (h : Inv idx s es lo) : ∃ purged, s.disk = purged ++ es ∧
    ∀ e ∈ purged, ∀ e' ∈ es, idx e < idx e' := by
  have hasc : Asc idx s.disk := List.pairwise_map.2 h.files.asc
  have h1 : es = s.disk.filter (fun e => decide (lo ≤ idx e)) := by
    unfold Store.disk; rw [filter_map_snd]; exact h.log
  refine ⟨s.disk.filter (fun e => decide (idx e < lo)), ?_, ?_⟩
  · rw [h1, filter_lt_eq hasc, filter_ge_eq hasc, List.takeWhile_append_dropWhile]
  · intro e he e' he'
    rw [h1] at he'
    have a1 := (List.mem_filter.1 he).2
    have a2 := (List.mem_filter.1 he').2
    simp only [decide_eq_true_eq] at a1 a2
    omega

/-- The log after the recovery, in terms of the log before: entries up to the last applied one, after some that had
been purged. -/
theorem C23_log_after_recovery {s : Store E} {es : List E} {lo : Nat} (h : Inv idx s es lo) (hfl : FlushOk idx app flushed)
    (a : Nat) (st st' : σ)
    (hok : (s.disk.filter (fun e => decide (flushed st < idx e ∧ idx e ≤ a))).foldlM app st = some st') :
    ∃ purged : List E, (∀ e ∈ purged, ∀ e' ∈ es, idx e < idx e') ∧
    ∀ x y, (s.recover idx app flushed (some a) st).1.entries x y =
      (purged ++ es.filter (fun e => decide (idx e ≤ a))).filter (fun e => decide (x ≤ idx e ∧ idx e < y)) := by
  obtain ⟨_, h2⟩ := C23_recovery_partial h hfl a st st' hok
  obtain ⟨purged, hp1, hp2⟩ := disk_eq h
  refine ⟨purged.filter (fun e => decide (idx e ≤ a)), fun e he => hp2 e (List.mem_filter.1 he).1, fun x y => ?_⟩
  rw [h2.entries, hp1, List.filter_append]

/-- An engine that stores the indexes of the entries applied to it and has flushed up to index 2. -/
def exApp (st : List Nat) (e : Nat) : Option (List Nat) := some (st ++ [e])

example : FlushOk id exApp (fun _ => 2) := by
  intro st e st' _; exact ⟨Nat.le_refl 2, Nat.le_max_left 2 e⟩

example :
    let s := ([1, 2, 3, 4, 5].map Op.append).foldl (Store.step id (fun _ => 20) 40) Store.new
    s.disk.filter (fun e => decide (2 < e ∧ e ≤ 4)) = [3, 4] ∧
    (s.recover id exApp (fun _ => 2) (some 4) [1, 2]).2 = [1, 2, 3, 4] ∧
    (s.recover id exApp (fun _ => 2) (some 4) [1, 2]).1.entries 0 100 = [1, 2, 3, 4] := by decide +kernel

/-- **Refuted** when applying an entry fails: recovery stops there and is reported as successful.  Here entries 1 to 4
are logged and applied up to 4; applying entry 2 again fails; entries 3 and 4 are not applied, and they are no longer
in the log. -/
theorem C23_error_stops_refuted : ∃ (app : List Nat → Nat → Option (List Nat)),
    let s := ([1, 2, 3, 4].map Op.append).foldl (Store.step id (fun _ => 20) 1000) Store.new
    (∀ st e, e ≠ 2 → app st e = some (st ++ [e])) ∧ s.entries 0 100 = [1, 2, 3, 4] ∧
    (s.recover id app (fun _ => 0) (some 4) []).2 = [1] ∧
    (s.recover id app (fun _ => 0) (some 4) []).1.entries 0 100 = [1] := by
  refine ⟨fun st e => if e = 2 then none else some (st ++ [e]), ?_⟩
  refine ⟨fun st e he => by simp [he], ?_, ?_, ?_⟩ <;> decide +kernel

/-- Purged entries come back: after the removal of the entries before 3 and a restart, entries 1 and 2 are in the log
again, because a file is only removed as a whole. -/
theorem C23_purge_not_durable_refuted :
    let s := ([1, 2, 3, 4].map Op.append ++ [Op.before 3]).foldl (Store.step id (fun _ => 20) 1000) Store.new
    s.entries 0 100 = [3, 4] ∧ (s.recover id exApp (fun _ => 4) (some 4) []).1.entries 0 100 = [1, 2, 3, 4] := by
  decide +kernel

end Verif.Wal.Log
