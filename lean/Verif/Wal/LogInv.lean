import Verif.Wal.LogLemmas
/-!
# The operations keep the invariant
-/
namespace Verif.Wal.Log

open Verif.Wal.Ring (Cache)

variable {E : Type} {idx : E → Nat} {len : E → Nat}

theorem ext_agrees {n : Nat} {c : Cache E} {m m' : Nat → Option E} {l : List Nat} (h : Ring.Agrees n c m l) (e : ∀ i, m i = m' i) :
    Ring.Agrees n c m' l := by
  rwa [← funext e]

theorem new_agrees {n : Nat} (hn : 0 < n) : Ring.Agrees n (Cache.new n : Cache E) (fun _ => none) [] :=
  ⟨Ring.holds_new hn, by simp [Cache.new, Ring.Buf.new], by simp [Cache.new], List.Pairwise.nil, by simp [Cache.new], by simp⟩

theorem filterMap_one {α β : Type} (f : α → Option β) (a : α) : [a].filterMap f = (f a).toList := by
  cases h : f a <;> simp [h]

theorem filterMap_congr' {α β : Type} {f g : α → Option β} {l : List α} (h : ∀ a ∈ l, f a = g a) : l.filterMap f = l.filterMap g := by
  induction l with
  | nil => rfl
  | cons a l ih =>
    rw [List.filterMap_cons, List.filterMap_cons, h a (List.mem_cons_self ..), ih (fun x hx => h x (List.mem_cons_of_mem _ hx))]

/-- A new log satisfies the invariant. -/
theorem inv_new (idx : E → Nat) : Inv idx (Store.new : Store E) [] 0 := by
  have hall : (Store.new : Store E).all = [⟨1, [], 4⟩] := rfl
  refine ⟨?_, ?_, ?_, ?_, [], new_agrees (by decide)⟩
  · rw [hall]
    exact ⟨List.pairwise_singleton _ _, by simp, by simp, by simp [diskOf], by simp [diskOf, Conv], by simp [diskOf]⟩
  · rw [hall]; simp
  · rw [hall]; simp [diskOf]
  · rw [hall]; simp [Store.new, metaOf, liveOf, mk]

/-! ## Append -/

theorem roll_inv {s : Store E} {es : List E} {lo : Nat} (h : Inv idx s es lo) :
    Inv idx { s with old := s.old ++ [s.cur], cur := ⟨s.cur.id + 1, [], 4⟩ } es lo := by
  have hall : ({ s with old := s.old ++ [s.cur], cur := ⟨s.cur.id + 1, [], 4⟩ } : Store E).all =
      s.all ++ [⟨s.cur.id + 1, [], 4⟩] := rfl
  have hd : diskOf (s.all ++ [(⟨s.cur.id + 1, [], 4⟩ : DFile E)]) = diskOf s.all := by simp [diskOf]
  have hid : ∀ f ∈ s.all, f.id ≤ s.cur.id := by
    intro f hf
    exact Asc.le_last (g := DFile.id) h.files.ids (by simp [Store.all]) hf
  refine ⟨?_, ?_, ?_, ?_, h.cache⟩
  · rw [hall]
    refine ⟨?_, ?_, ?_, by rw [hd]; exact h.files.asc, by rw [hd]; exact h.files.conv, by rw [hd]; exact h.files.bnd⟩
    · refine List.pairwise_append.2 ⟨h.files.ids, List.pairwise_singleton _ _, ?_⟩
      intro f hf f' hf'
      obtain rfl := List.mem_singleton.1 hf'
      exact Nat.lt_succ_of_le (hid f hf)
    · intro f hf
      rcases List.mem_append.1 hf with hf | hf
      · exact h.files.pos f hf
      · obtain rfl := List.mem_singleton.1 hf; exact List.Pairwise.nil
    · intro f hf
      rcases List.mem_append.1 hf with hf | hf
      · exact h.files.size f hf
      · obtain rfl := List.mem_singleton.1 hf; simp
  · rw [hall]
    intro f hf hne
    rcases List.mem_append.1 hf with hf | hf
    · exact h.live f hf hne
    · obtain rfl := List.mem_singleton.1 hf; exact absurd rfl hne
  · rw [hall, hd]; exact h.log
  · rw [hall, List.filterMap_append]
    simp [metaOf, liveOf, mk, h.metas]

/-- What `mark_write_wal` does to the metadata. -/
def markMetas (ms : List Meta) (id i pos : Nat) : List Meta :=
  if ms.any (fun m => decide (m.id = id)) then ms.map (fun m => if m.id = id then m.mark i pos else m)
  else ms ++ [(⟨id, u64Max, u64Max, []⟩ : Meta).mark i pos]

theorem mk_snoc {id : Nat} {l : List (Nat × E)} {x : Nat × E} (h : Asc (key idx) (l ++ [x]))
    (hb : ∀ y ∈ l, idx y.2 < u64Max) :
    mk idx id (l ++ [x]) = some (((mk idx id l).getD ⟨id, u64Max, u64Max, []⟩).mark (idx x.2) x.1) := by
  rcases mk_cases (idx := idx) id l with ⟨rfl, e⟩ | ⟨a, b, ha, hb', e⟩
  · simp [mk, Meta.mark]
  · rw [e]
    have hne : l ≠ [] := by rintro rfl; cases ha
    have h1 := hb a (List.mem_of_mem_head? ha)
    have h2 := hb b (List.mem_of_getLast? hb')
    have h3 := h.head_le (x := a) (by rw [List.head?_append, ha]; rfl) (List.mem_append_right l (List.mem_singleton_self x))
    have h4 := (List.pairwise_append.1 h).2.2 b (List.mem_of_getLast? hb') x (List.mem_singleton_self x)
    simp only [key] at h3 h4
    unfold mk
    rw [List.head?_append, ha, List.getLast?_append]
    simp only [Option.some_or, List.getLast?_singleton, Option.getD_some, Meta.mark]
    rw [if_neg (by omega), if_pos (by omega), List.map_append]
    rfl

theorem mk_id {id : Nat} {l : List (Nat × E)} {m : Meta} (h : mk idx id l = some m) : m.id = id := by
  rcases mk_cases (idx := idx) id l with ⟨_, e⟩ | ⟨a, b, _, _, e⟩ <;> rw [e] at h
  · cases h
  · rw [← Option.some.inj h]

theorem markMetas_eq {A : List Meta} {id : Nat} {l : List (Nat × E)} {x : Nat × E} (hA : ∀ m ∈ A, m.id ≠ id)
    (h : Asc (key idx) (l ++ [x])) (hb : ∀ y ∈ l, idx y.2 < u64Max) :
    markMetas (A ++ (mk idx id l).toList) id (idx x.2) x.1 = A ++ (mk idx id (l ++ [x])).toList := by
  have hA1 : A.any (fun m => decide (m.id = id)) = false := by
    rw [List.any_eq_false]; intro m hm; simpa using hA m hm
  have hA2 : A.map (fun m => if m.id = id then m.mark (idx x.2) x.1 else m) = A := by
    conv_rhs => rw [← List.map_id A]
    apply List.map_congr_left
    intro m hm
    rw [if_neg (hA m hm)]; rfl
  rw [mk_snoc h hb]
  unfold markMetas
  rw [List.any_append, hA1, Bool.false_or, List.map_append, hA2]
  cases e : mk idx id l with
  | none => simp
  | some m =>
    have := mk_id e
    simp [this]

theorem write_inv {s : Store E} {es : List E} {lo : Nat} (h : Inv idx s es lo) {e : E} (hlen : 0 < len e)
    (hb : idx e < u64Max) (hn : ∀ l, es.getLast? = some l → idx e = idx l + 1) :
    ∃ lo', Inv idx (Store.mark idx { s with cur := ⟨s.cur.id, s.cur.items ++ [(s.cur.size, e)], s.cur.size + len e⟩ } e s.cur.id s.cur.size)
      (es ++ [e]) lo' := by
  have hall : s.all = s.old ++ [s.cur] := rfl
  have hcur : s.cur ∈ s.all := by simp [hall]
  obtain ⟨c1, c2, c3, c4, c5⟩ := h.files.file hcur
  -- all indexes on disk are smaller, and the last one is the predecessor
  have hsmall : (∀ x ∈ diskOf s.all, idx x.2 < idx e) ∧ (∀ x ∈ diskOf s.all, ∀ c, idx x.2 ≤ c → c < idx e → ∃ y ∈ diskOf s.all, idx y.2 = c) ∧
      ∃ lo', (diskOf s.all).filter (fun x => decide (lo' ≤ idx x.2)) = (diskOf s.all).filter (fun x => decide (lo ≤ idx x.2)) ∧
        lo' ≤ idx e ∧ (∀ f ∈ s.all, liveOf idx lo' f = liveOf idx lo f) := by
    by_cases hes : es = []
    · have hd : diskOf s.all = [] := by
        rw [List.eq_nil_iff_forall_not_mem]
        intro x hx
        obtain ⟨f, hf, hxf⟩ := List.mem_flatMap.1 hx
        have hl := h.live f hf (List.ne_nil_of_mem hxf)
        have := h.log
        rw [hes, filter_diskOf, eq_comm, List.map_eq_nil_iff, List.flatMap_eq_nil_iff] at this
        exact hl (this f hf)
      refine ⟨by simp [hd], by simp [hd], 0, by simp [hd], Nat.zero_le _, ?_⟩
      intro f hf
      have : f.items = [] := by
        rw [List.eq_nil_iff_forall_not_mem]
        intro x hx
        have : x ∈ diskOf s.all := List.mem_flatMap.2 ⟨f, hf, hx⟩
        rw [hd] at this; cases this
      simp [liveOf, this]
    · obtain ⟨l, hl⟩ : ∃ l, es.getLast? = some l := ⟨_, List.getLast?_eq_some_getLast hes⟩
      have hle := hn l hl
      have hmem : l ∈ es := List.mem_of_getLast? hl
      rw [h.log] at hmem
      obtain ⟨z, hz, rfl⟩ := List.mem_map.1 hmem
      obtain ⟨hz1, hz2⟩ := List.mem_filter.1 hz
      simp only [decide_eq_true_eq] at hz2
      have hall' : ∀ x ∈ diskOf s.all, idx x.2 ≤ idx z.2 := by
        intro x hx
        by_cases hx2 : lo ≤ idx x.2
        · refine h.asc.le_last hl ?_
          rw [h.log]
          exact List.mem_map.2 ⟨x, List.mem_filter.2 ⟨hx, by simpa using hx2⟩, rfl⟩
        · omega
      refine ⟨fun x hx => by have := hall' x hx; omega, ?_, lo, rfl, by omega, fun _ _ => rfl⟩
      intro x hx c h1 h2
      exact h.files.conv x hx z hz1 c h1 (by simp only [key]; omega)
  obtain ⟨s1, s2, lo', s3, s4, s5⟩ := hsmall
  refine ⟨lo', ?_⟩
  set cur' : DFile E := ⟨s.cur.id, s.cur.items ++ [(s.cur.size, e)], s.cur.size + len e⟩ with hcur'
  have hall' : (Store.mark idx { s with cur := cur' } e s.cur.id s.cur.size).all = s.old ++ [cur'] := rfl
  have hd : diskOf (s.old ++ [cur']) = diskOf s.all ++ [(s.cur.size, e)] := by
    rw [hall, diskOf_append, diskOf_append]; simp [diskOf, hcur']
  have hlive : liveOf idx lo' cur' = liveOf idx lo' s.cur ++ [(s.cur.size, e)] := by
    simp [liveOf, hcur', List.filter_append, s4]
  have ids : (s.old ++ [s.cur]).Pairwise (fun f f' => f.id < f'.id) := h.files.ids
  have hasc : Asc (key idx) (diskOf s.all ++ [(s.cur.size, e)]) := by
    refine List.pairwise_append.2 ⟨h.files.asc, List.pairwise_singleton _ _, ?_⟩
    intro x hx y hy
    rw [List.mem_singleton.1 hy]
    exact s1 x hx
  refine ⟨?_, ?_, ?_, ?_, ?_⟩
  · rw [hall']
    refine ⟨?_, ?_, ?_, by rw [hd]; exact hasc, ?_, ?_⟩
    · obtain ⟨i1, _, i3⟩ := List.pairwise_append.1 ids
      refine List.pairwise_append.2 ⟨i1, List.pairwise_singleton _ _, ?_⟩
      intro f hf f' hf'
      rw [List.mem_singleton.1 hf']
      exact i3 f hf s.cur (by simp)
    · intro f hf
      rcases List.mem_append.1 hf with hf | hf
      · exact h.files.pos f (by simp [hall, hf])
      · rw [List.mem_singleton.1 hf]
        refine List.pairwise_append.2 ⟨c3, List.pairwise_singleton _ _, ?_⟩
        intro x hx y hy
        rw [List.mem_singleton.1 hy]
        exact (c5 x hx).2.1
    · intro f hf
      rcases List.mem_append.1 hf with hf | hf
      · exact h.files.size f (by simp [hall, hf])
      · rw [List.mem_singleton.1 hf]
        refine ⟨by simp only [hcur']; omega, ?_⟩
        intro x hx
        rcases List.mem_append.1 hx with hx | hx
        · have := c5 x hx
          simp only [hcur']; omega
        · rw [List.mem_singleton.1 hx]; simp only [hcur']; omega
    · rw [hd]
      intro x hx y hy c h1 h2
      by_cases hce : c = idx e
      · exact ⟨(s.cur.size, e), by simp, hce.symm⟩
      · have hx' : x ∈ diskOf s.all := by
          rcases List.mem_append.1 hx with hx | hx
          · exact hx
          · rw [List.mem_singleton.1 hx] at h1
            have : idx y.2 ≤ idx e := by
              rcases List.mem_append.1 hy with hy | hy
              · have := s1 y hy; omega
              · rw [List.mem_singleton.1 hy]; exact Nat.le_refl _
            simp only [key] at h1 h2
            omega
        have : idx y.2 ≤ idx e := by
          rcases List.mem_append.1 hy with hy | hy
          · have := s1 y hy; omega
          · rw [List.mem_singleton.1 hy]; exact Nat.le_refl _
        simp only [key] at h1 h2
        obtain ⟨w, hw, hwc⟩ := s2 x hx' c h1 (by omega)
        exact ⟨w, List.mem_append_left _ hw, hwc⟩
    · rw [hd]
      intro x hx
      rcases List.mem_append.1 hx with hx | hx
      · exact h.files.bnd x hx
      · rw [List.mem_singleton.1 hx]; exact hb
  · rw [hall']
    intro f hf hne
    rcases List.mem_append.1 hf with hf | hf
    · rw [s5 f (by simp [hall, hf])]
      exact h.live f (by simp [hall, hf]) hne
    · rw [List.mem_singleton.1 hf, hlive]; simp
  · rw [hall', hd, List.filter_append, s3, List.map_append, ← h.log]
    simp [s4]
  · rw [hall', List.filterMap_append]
    have hm : s.metas = s.old.filterMap (metaOf idx lo') ++ (mk idx s.cur.id (liveOf idx lo' s.cur)).toList := by
      rw [h.metas, hall, List.filterMap_append, s5 s.cur hcur]
      congr 1
      · apply filterMap_congr'
        intro f hf
        unfold metaOf
        rw [s5 f (by simp [hall, hf])]
    show markMetas s.metas s.cur.id (idx e) s.cur.size = _
    rw [hm]
    have := markMetas_eq (idx := idx) (A := s.old.filterMap (metaOf idx lo')) (id := s.cur.id) (l := liveOf idx lo' s.cur)
      (x := (s.cur.size, e)) ?_ ?_ ?_
    · simp only at this
      rw [this, filterMap_one]
      unfold metaOf
      rw [hlive]
    · intro m hm
      obtain ⟨f, hf, hfm⟩ := List.mem_filterMap.1 hm
      rw [mk_id hfm]
      have := (List.pairwise_append.1 ids).2.2 f hf s.cur (by simp)
      omega
    · refine List.pairwise_append.2 ⟨c1.filter _, List.pairwise_singleton _ _, ?_⟩
      intro x hx y hy
      rw [List.mem_singleton.1 hy]
      exact s1 x (List.mem_flatMap.2 ⟨s.cur, hcur, (List.mem_filter.1 hx).1⟩)
    · intro x hx
      exact (c5 x (List.mem_filter.1 hx).1).2.2
  · obtain ⟨l, hc⟩ := h.cache
    obtain ⟨l', hc'⟩ := hc.put (k := idx e) (v := e) (.inr (by
      intro i hi
      obtain ⟨x, hx⟩ := Option.isSome_iff_exists.1 hi
      obtain ⟨hx1, hx2⟩ := (look_some h.asc).1 hx
      rw [h.log] at hx1
      obtain ⟨z, hz, rfl⟩ := List.mem_map.1 hx1
      have := s1 z (List.mem_filter.1 hz).1
      omega))
    refine ⟨l', ext_agrees hc' ?_⟩
    intro i
    unfold Ring.specStep
    simp only [look, List.find?_append, List.find?_cons, List.find?_nil]
    by_cases hi : idx e = i
    · have : es.find? (fun x => decide (idx x = i)) = none := by
        rw [List.find?_eq_none]
        intro x hx
        rw [h.log] at hx
        obtain ⟨z, hz, rfl⟩ := List.mem_map.1 hx
        have := s1 z (List.mem_filter.1 hz).1
        simp; omega
      rw [this]
      simp [hi]
    · simp [hi]
      omega

theorem append_inv {s : Store E} {es : List E} {lo : Nat} (h : Inv idx s es lo) (maxSize : Nat) {e : E} (hlen : 0 < len e)
    (hb : idx e < u64Max) (hn : ∀ l, es.getLast? = some l → idx e = idx l + 1) :
    ∃ lo', Inv idx (s.append idx len maxSize e) (es ++ [e]) lo' := by
  unfold Store.append Store.write
  by_cases hs : s.cur.size > maxSize
  · rw [if_pos hs]
    exact write_inv (roll_inv h) hlen hb hn
  · rw [if_neg hs]
    exact write_inv h hlen hb hn

/-! ## Order between files -/

theorem FilesOk.order {fs : List (DFile E)} (h : FilesOk idx fs) :
    fs.Pairwise (fun f g => ∀ x ∈ f.items, ∀ y ∈ g.items, idx x.2 < idx y.2) :=
  (List.pairwise_flatMap.1 h.asc).2

theorem FilesOk.before {fs : List (DFile E)} (h : FilesOk idx fs) {f g : DFile E} (hf : f ∈ fs) (hg : g ∈ fs) {x y : Nat × E}
    (hx : x ∈ f.items) (hy : y ∈ g.items) (hle : idx x.2 ≤ idx y.2) :
    f = g ∨ ∀ x ∈ f.items, ∀ y ∈ g.items, idx x.2 < idx y.2 := by
  have ho := h.order
  clear h
  induction fs with
  | nil => cases hf
  | cons a fs ih =>
    obtain ⟨h1, h2⟩ := List.pairwise_cons.1 ho
    rcases List.mem_cons.1 hf with hf | hf <;> rcases List.mem_cons.1 hg with hg | hg
    · exact .inl (hf.trans hg.symm)
    · exact .inr (by rw [hf]; exact h1 g hg)
    · have := h1 f hf y (by rw [← hg]; exact hy) x hx
      omega
    · exact ih hf hg h2

/-- A file with entries has metadata. -/
theorem Inv.meta_none {s : Store E} {es : List E} {lo : Nat} (h : Inv idx s es lo) {f : DFile E} (hf : f ∈ s.all)
    (hm : metaOf idx lo f = none) : f.items = [] := by
  by_contra hne
  have := h.live f hf hne
  rcases mk_cases (idx := idx) f.id (liveOf idx lo f) with ⟨e, _⟩ | ⟨x, y, _, _, e⟩
  · exact this e
  · unfold metaOf at hm; rw [e] at hm; cases hm

theorem meta_some {lo : Nat} {f : DFile E} {m : Meta} (hm : metaOf idx lo f = some m) :
    ∃ x y, (liveOf idx lo f).head? = some x ∧ (liveOf idx lo f).getLast? = some y ∧ m.id = f.id ∧ m.min = idx x.2 ∧
      m.max = idx y.2 ∧ m.index = (liveOf idx lo f).map (fun z => (idx z.2, z.1)) ∧
      x ∈ liveOf idx lo f ∧ y ∈ liveOf idx lo f := by
  unfold metaOf at hm
  rcases mk_cases (idx := idx) f.id (liveOf idx lo f) with ⟨_, e⟩ | ⟨x, y, hx, hy, e⟩
  · rw [e] at hm; cases hm
  · rw [e] at hm
    obtain rfl := Option.some.inj hm
    exact ⟨x, y, hx, hy, rfl, rfl, rfl, rfl, List.mem_of_mem_head? hx, List.mem_of_getLast? hy⟩

theorem Inv.metas_ok {s : Store E} {es : List E} {lo : Nat} (h : Inv idx s es lo) :
    s.metas.Pairwise (fun m m' => m.max < m'.min) ∧ s.metas.Pairwise (fun m m' => m.id < m'.id) ∧
    (∀ m ∈ s.metas, m.min ≤ m.max ∧ m.max < u64Max) := by
  rw [h.metas]
  refine ⟨List.pairwise_filterMap.2 ?_, List.pairwise_filterMap.2 ?_, ?_⟩
  · refine h.files.order.imp ?_
    intro f g hfg m hm m' hm'
    obtain ⟨x, y, _, _, _, _, e2, _, _, hy⟩ := meta_some hm
    obtain ⟨x', y', _, _, _, e1, _, _, hx', _⟩ := meta_some hm'
    rw [e2, e1]
    exact hfg y (List.mem_filter.1 hy).1 x' (List.mem_filter.1 hx').1
  · refine h.files.ids.imp ?_
    intro f g hfg m hm m' hm'
    obtain ⟨_, _, _, _, e, _⟩ := meta_some hm
    obtain ⟨_, _, _, _, e', _⟩ := meta_some hm'
    rw [e, e']; exact hfg
  · intro m hm
    obtain ⟨f, hf, hm⟩ := List.mem_filterMap.1 hm
    obtain ⟨l1, _, l3⟩ := liveOf_ok h.files hf lo
    obtain ⟨x, y, hx, hy, _, e1, e2, _, hx', hy'⟩ := meta_some hm
    obtain ⟨_, _, _, _, f5⟩ := h.files.file hf
    rw [e1, e2]
    exact ⟨l1.head_le hx hy', (f5 y (l3 y hy').1).2.2⟩

/-! ## Removing a prefix -/

theorem delBeforeLoop_eq (seq : Nat) : ∀ ms : List Meta, ms.Pairwise (fun m m' => m.max < m'.min) → (∀ m ∈ ms, m.min ≤ m.max) →
    delBeforeLoop seq ms =
      (ms.map (fun m => if m.max < seq then m else if m.min < seq then m.delBefore seq else m),
        (ms.filter (fun m => decide (m.max < seq))).map Meta.id) := by
  intro ms
  induction ms with
  | nil => intro _ _; rfl
  | cons m ms ih =>
    intro hp hm
    obtain ⟨p1, p2⟩ := List.pairwise_cons.1 hp
    have ih := ih p2 (fun x hx => hm x (List.mem_cons_of_mem _ hx))
    have hm0 := hm m (List.mem_cons_self ..)
    unfold delBeforeLoop
    by_cases h1 : m.max < seq
    · rw [if_pos h1, ih]
      simp [h1]
    · rw [if_neg h1]
      by_cases h2 : m.min < seq
      · rw [if_pos h2, ih]
        simp [h1, h2]
      · rw [if_neg h2]
        have hrest : ∀ x ∈ ms, ¬ x.max < seq ∧ ¬ x.min < seq := by
          intro x hx
          have a := p1 x hx
          have b := hm x (List.mem_cons_of_mem _ hx)
          omega
        congr 1
        · rw [List.map_cons, if_neg h1, if_neg h2]
          congr 1
          conv_lhs => rw [← List.map_id ms]
          apply List.map_congr_left
          intro x hx
          rw [if_neg (hrest x hx).1, if_neg (hrest x hx).2]; rfl
        · rw [eq_comm, List.map_eq_nil_iff, List.filter_eq_nil_iff]
          intro x hx
          rcases List.mem_cons.1 hx with rfl | hx
          · simpa using h1
          · simpa using (hrest x hx).1

theorem filter_map_filterMap {α : Type} (l : List α) (g : α → α) (p : α → Bool) (q : α → Bool)
    (h : ∀ a ∈ l, p (g a) = !q a) : (l.map g).filter p = l.filterMap (fun a => if q a then none else some (g a)) := by
  induction l with
  | nil => rfl
  | cons a l ih =>
    have ih := ih (fun x hx => h x (List.mem_cons_of_mem _ hx))
    have ha := h a (List.mem_cons_self ..)
    cases hq : q a <;> simp [hq] at ha
    · rw [List.map_cons, List.filter_cons_of_pos ha, ih, List.filterMap_cons]; simp [hq]
    · rw [List.map_cons, List.filter_cons_of_neg (by simp [ha]), ih, List.filterMap_cons]; simp [hq]

theorem drop_takeWhile {α : Type} (p : α → Bool) (l : List α) : l.drop (l.takeWhile p).length = l.dropWhile p := by
  induction l with
  | nil => rfl
  | cons a l ih =>
    cases h : p a
    · simp [h]
    · simp [h, ih]

theorem take_takeWhile {α : Type} (p : α → Bool) (l : List α) : l.take (l.takeWhile p).length = l.takeWhile p := by
  induction l with
  | nil => rfl
  | cons a l ih =>
    cases h : p a
    · simp [h]
    · simp [h, ih]

theorem liveOf_max (lo seq : Nat) (f : DFile E) :
    liveOf idx (max lo seq) f = (liveOf idx lo f).filter (fun x => decide (seq ≤ idx x.2)) := by
  unfold liveOf
  rw [List.filter_filter]
  apply List.filter_congr
  intro x _
  rw [← Bool.decide_and, decide_eq_decide]
  omega

theorem metaOf_before {fs : List (DFile E)} (h : FilesOk idx fs) {f : DFile E} (hf : f ∈ fs) {lo seq : Nat} {m : Meta}
    (hm : metaOf idx lo f = some m) :
    metaOf idx (max lo seq) f = if m.max < seq then none else some (if m.min < seq then m.delBefore seq else m) := by
  obtain ⟨l1, l2, l3⟩ := liveOf_ok h hf lo
  obtain ⟨_, _, _, _, f5⟩ := h.file hf
  have hm' := hm
  obtain ⟨x, y, hx, hy, e0, e1, e2, e3, hx', hy'⟩ := meta_some hm
  have bx := (f5 x (l3 x hx').1).2.2
  unfold metaOf at hm' ⊢
  rw [liveOf_max]
  by_cases h1 : m.max < seq
  · rw [if_pos h1]
    have : (liveOf idx lo f).filter (fun x => decide (seq ≤ idx x.2)) = [] := by
      rw [List.filter_eq_nil_iff]
      intro z hz
      have := l1.le_last hy hz
      simp only [key] at this
      simp only [decide_eq_true_eq]
      omega
    rw [this]; rfl
  · rw [if_neg h1]
    by_cases h2 : m.min < seq
    · rw [if_pos h2]
      obtain ⟨z, hz, hzc⟩ := l2 x hx' y hy' seq (by simp only [key]; omega) (by simp only [key]; omega)
      set l := liveOf idx lo f with hl
      have hzf : z ∈ l.filter (fun x => decide (seq ≤ idx x.2)) := by
        refine List.mem_filter.2 ⟨hz, ?_⟩
        simp only [key] at hzc
        simp only [decide_eq_true_eq]; omega
      rcases mk_cases (idx := idx) f.id (l.filter (fun x => decide (seq ≤ idx x.2))) with ⟨e, _⟩ | ⟨a, b, ha, hb, e⟩
      · rw [e] at hzf; cases hzf
      · rw [e]
        have ha1 := (l1.filter (fun x => decide (seq ≤ idx x.2))).head_le ha hzf
        have ha2 := (List.mem_filter.1 (List.mem_of_mem_head? ha)).2
        have hb1 := l1.le_last hy (List.mem_filter.1 (List.mem_of_getLast? hb)).1
        have hb2 := (l1.filter (fun x => decide (seq ≤ idx x.2))).le_last hb (y := y)
          (List.mem_filter.2 ⟨hy', by simp only [decide_eq_true_eq]; omega⟩)
        simp only [key, decide_eq_true_eq] at ha1 ha2 hb1 hb2 hzc
        unfold Meta.delBefore
        rw [if_neg (by omega), Option.some.injEq]
        rw [show m = ⟨m.id, m.min, m.max, m.index⟩ from rfl]
        simp only [Meta.mk.injEq]
        refine ⟨e0.symm, by omega, by omega, ?_⟩
        rw [e3]
        unfold lowerBound
        rw [drop_takeWhile, filter_ge_eq (g := key idx) l1, List.dropWhile_map]
        rfl
    · rw [if_neg h2]
      have : (liveOf idx lo f).filter (fun x => decide (seq ≤ idx x.2)) = liveOf idx lo f := by
        rw [List.filter_eq_self]
        intro z hz
        have := l1.head_le hx hz
        simp only [key] at this
        simp only [decide_eq_true_eq]
        omega
      rw [this]; exact hm'

theorem rollback_all (s : Store E) (del : List Nat) :
    (s.rollback del).metas = s.metas ∧ (s.rollback del).cache = s.cache ∧
    ((s.all.filter (fun f => decide (f.id ∉ del)) = [] ∧ (s.rollback del).all = [⟨1, [], 4⟩]) ∨
      (s.rollback del).all = s.all.filter (fun f => decide (f.id ∉ del))) := by
  unfold Store.rollback
  simp only
  generalize s.all.filter (fun f => decide (f.id ∉ del)) = fs
  cases hl : fs.getLast? with
  | none => exact ⟨rfl, rfl, .inl ⟨List.getLast?_eq_none_iff.1 hl, rfl⟩⟩
  | some c =>
    refine ⟨rfl, rfl, .inr ?_⟩
    obtain ⟨l, rfl⟩ := List.getLast?_eq_some_iff.1 hl
    simp [Store.all]

/-- The invariant after choosing the file to write to. -/
theorem inv_of_files {s : Store E} {es : List E} {lo : Nat} {fs : List (DFile E)} (h1 : FilesOk idx fs)
    (h2 : ∀ f ∈ fs, f.items ≠ [] → liveOf idx lo f ≠ [])
    (h3 : es = ((diskOf fs).filter (fun x => decide (lo ≤ idx x.2))).map Prod.snd)
    (h4 : s.metas = fs.filterMap (metaOf idx lo)) (h5 : ∃ l, Ring.Agrees 256 s.cache (look idx es) l)
    (h6 : (fs = [] ∧ s.all = [⟨1, [], 4⟩]) ∨ s.all = fs) : Inv idx s es lo := by
  rcases h6 with ⟨rfl, h6⟩ | rfl
  · have hn := inv_new idx
    have hall : (Store.new : Store E).all = [⟨1, [], 4⟩] := rfl
    refine ⟨?_, ?_, ?_, ?_, h5⟩
    · rw [h6]; exact hn.files
    · rw [h6]; simp
    · rw [h3, h6]; simp [diskOf]
    · rw [h4, h6]; simp [metaOf, liveOf, mk]
  · exact ⟨h1, h2, h3, h4, h5⟩

theorem flatMap_filter_drop {α β : Type} (l : List α) (p : α → Bool) (k : α → List β) (h : ∀ a ∈ l, p a = false → k a = []) :
    (l.filter p).flatMap k = l.flatMap k := by
  induction l with
  | nil => rfl
  | cons a l ih =>
    have ih := ih (fun x hx => h x (List.mem_cons_of_mem _ hx))
    cases hp : p a
    · rw [List.filter_cons_of_neg (by simp [hp]), ih, List.flatMap_cons, h a (List.mem_cons_self ..) hp, List.nil_append]
    · rw [List.filter_cons_of_pos hp, List.flatMap_cons, List.flatMap_cons, ih]

theorem filterMap_filter' {α β : Type} (l : List α) (p : α → Bool) (f : α → Option β) :
    (l.filter p).filterMap f = l.filterMap (fun a => if p a then f a else none) := by
  induction l with
  | nil => rfl
  | cons a l ih =>
    cases hp : p a
    · rw [List.filter_cons_of_neg (by simp [hp]), ih, List.filterMap_cons]; simp [hp]
    · rw [List.filter_cons_of_pos hp, List.filterMap_cons, List.filterMap_cons, ih]; simp [hp]

theorem Inv.min_le {s : Store E} {es : List E} {lo : Nat} (h : Inv idx s es lo) {e : E} (he : e ∈ es) :
    s.minSeq ≤ idx e ∧ idx e ≤ s.maxSeq ∧ s.maxSeq ≠ u64Max := by
  obtain ⟨p1, _, p3⟩ := h.metas_ok
  rw [h.log, filter_diskOf] at he
  obtain ⟨z, hz, rfl⟩ := List.mem_map.1 he
  obtain ⟨f, hf, hz⟩ := List.mem_flatMap.1 hz
  obtain ⟨l1, _, _⟩ := liveOf_ok h.files hf lo
  cases hm : metaOf idx lo f with
  | none =>
    have := h.meta_none hf hm
    rw [show liveOf idx lo f = [] by simp [liveOf, this]] at hz
    cases hz
  | some m =>
    obtain ⟨x, y, hx, hy, _, e1, e2, _⟩ := meta_some hm
    have hmm : m ∈ s.metas := by rw [h.metas]; exact List.mem_filterMap.2 ⟨f, hf, hm⟩
    have a1 := l1.head_le hx hz
    have a2 := l1.le_last hy hz
    simp only [key] at a1 a2
    unfold Store.minSeq Store.maxSeq
    have hne : s.metas ≠ [] := List.ne_nil_of_mem hmm
    rw [List.head?_eq_some_head hne, List.getLast?_eq_some_getLast hne]
    simp only [Option.map_some, Option.getD_some]
    have b1 : (s.metas.head hne).min ≤ m.min := by
      have hh := List.head?_eq_some_head hne
      have hp := p1
      have hp3 := p3
      revert hh hp hp3 hmm
      generalize s.metas.head hne = q
      cases s.metas with
      | nil => intro _ hh; cases hh
      | cons q' ms =>
        intro hmm hh hp hp3
        have : q' = q := by simpa using hh
        subst this
        rcases List.mem_cons.1 hmm with rfl | hmm
        · exact Nat.le_refl _
        · have c1 := (List.pairwise_cons.1 hp).1 m hmm
          have c2 := hp3 q' (by simp)
          omega
    have b2 : m.max ≤ (s.metas.getLast hne).max := by
      have hh := List.getLast?_eq_some_getLast hne
      have hp := p1
      have hp3 := p3
      revert hh hp hp3 hmm
      generalize s.metas.getLast hne = q
      intro hmm hh hp hp3
      obtain ⟨ms, hms⟩ := List.getLast?_eq_some_iff.1 hh
      rw [hms] at hmm hp hp3
      rcases List.mem_append.1 hmm with hmm | hmm
      · have c1 := (List.pairwise_append.1 hp).2.2 m hmm q (by simp)
        have c2 := hp3 q (by simp)
        omega
      · rw [List.mem_singleton.1 hmm]; exact Nat.le_refl _
    have b3 := (p3 _ (List.getLast_mem hne)).2
    omega

theorem before_inv {s : Store E} {es : List E} {lo : Nat} (h : Inv idx s es lo) (seq : Nat) :
    ∃ lo', Inv idx (s.delBefore seq) (es.filter (fun e => decide (seq ≤ idx e))) lo' := by
  unfold Store.delBefore
  by_cases hmin : s.minSeq ≥ seq
  · rw [if_pos hmin, List.filter_eq_self.2 (by
      intro e he
      have := h.min_le he
      simp only [decide_eq_true_eq]; omega)]
    exact ⟨lo, h⟩
  · rw [if_neg hmin]
    obtain ⟨p1, p2, p3⟩ := h.metas_ok
    rw [delBeforeLoop_eq seq s.metas p1 (fun m hm => (p3 m hm).1)]
    simp only
    set del := (s.metas.filter (fun m => decide (m.max < seq))).map Meta.id with hdel
    refine ⟨max lo seq, ?_⟩
    obtain ⟨r1, r2, r3⟩ := rollback_all ({ s with
      metas := (s.metas.map (fun m => if m.max < seq then m else if m.min < seq then m.delBefore seq else m)).filter
        (fun m => decide (m.id ∉ del)), cache := s.cache.delBefore seq } : Store E) del
    have hkeep : ∀ (a b : Prop) (m : Meta) [Decidable a] [Decidable b],
        (if a then m else if b then m.delBefore seq else m).id = m.id := by
      intro a b m _ _
      split
      · rfl
      · split
        · unfold Meta.delBefore; split <;> rfl
        · rfl
    have hmd : ∀ m ∈ s.metas, (m.id ∈ del ↔ m.max < seq) := by
      intro m hm
      rw [hdel]
      constructor
      · intro hx
        obtain ⟨m', hm', he⟩ := List.mem_map.1 hx
        obtain ⟨hm1, hm2⟩ := List.mem_filter.1 hm'
        rw [← Asc.inj (g := Meta.id) p2 hm1 hm he]
        simpa using hm2
      · intro hx
        exact List.mem_map.2 ⟨m, List.mem_filter.2 ⟨hm, by simpa using hx⟩, rfl⟩
    -- which files are removed
    have hfd : ∀ f ∈ s.all, (f.id ∈ del ↔ ∃ m, metaOf idx lo f = some m ∧ m.max < seq) := by
      intro f hf
      constructor
      · intro hx
        rw [hdel] at hx
        obtain ⟨m', hm', he⟩ := List.mem_map.1 hx
        obtain ⟨hm1, hm2⟩ := List.mem_filter.1 hm'
        rw [h.metas] at hm1
        obtain ⟨g, hg, hgm⟩ := List.mem_filterMap.1 hm1
        have : g = f := h.files.unique hg hf (by rw [← he, mk_id hgm])
        subst this
        exact ⟨m', hgm, by simpa using hm2⟩
      · rintro ⟨m, hm, hlt⟩
        have hmm : m ∈ s.metas := by rw [h.metas]; exact List.mem_filterMap.2 ⟨f, hf, hm⟩
        rw [← show m.id = f.id from mk_id hm]
        exact (hmd m hmm).2 hlt
    have hnil : ∀ f ∈ s.all, f.id ∈ del → liveOf idx (max lo seq) f = [] := by
      intro f hf hx
      obtain ⟨m, hm, hlt⟩ := (hfd f hf).1 hx
      have := metaOf_before h.files hf hm (seq := seq)
      rw [if_pos hlt] at this
      rcases mk_cases (idx := idx) f.id (liveOf idx (max lo seq) f) with ⟨e, _⟩ | ⟨_, _, _, _, e⟩
      · exact e
      · unfold metaOf at this; rw [e] at this; cases this
    have hmetas : (s.metas.map (fun m => if m.max < seq then m else if m.min < seq then m.delBefore seq else m)).filter
        (fun m => decide (m.id ∉ del)) =
        (s.all.filter (fun f => decide (f.id ∉ del))).filterMap (metaOf idx (max lo seq)) := by
      rw [filter_map_filterMap s.metas _ _ (fun m => decide (m.max < seq)), filterMap_filter']
      · rw [h.metas, List.filterMap_filterMap]
        apply filterMap_congr'
        intro f hf
        cases hm : metaOf idx lo f with
        | none =>
          have hi := h.meta_none hf hm
          simp [metaOf, liveOf, hi, mk]
        | some m =>
          rw [Option.bind_some, metaOf_before h.files hf hm (seq := seq)]
          by_cases hlt : m.max < seq
          · simp [hlt]
          · have : f.id ∉ del := by
              intro hx
              obtain ⟨m', hm', hlt'⟩ := (hfd f hf).1 hx
              rw [hm] at hm'
              rw [← Option.some.inj hm'] at hlt'
              exact hlt hlt'
            simp [hlt, this]
      · intro m hm
        rw [hkeep, ← decide_not, decide_eq_decide, hmd m hm]
    have hconv : Conv (key idx) (diskOf (s.all.filter (fun f => decide (f.id ∉ del)))) := by
      intro x hx y hy c h1 h2
      have sub := diskOf_sublist (E := E) (List.filter_sublist (l := s.all) (p := fun f => decide (f.id ∉ del)))
      obtain ⟨e, he, hec⟩ := h.files.conv x (sub.subset hx) y (sub.subset hy) c h1 h2
      refine ⟨e, ?_, hec⟩
      obtain ⟨f, hf, hef⟩ := List.mem_flatMap.1 he
      obtain ⟨g, hg, hxg⟩ := List.mem_flatMap.1 hx
      obtain ⟨hg1, hg2⟩ := List.mem_filter.1 hg
      simp only [decide_eq_true_eq] at hg2
      by_cases hfdel : f.id ∈ del
      · exfalso
        obtain ⟨m, hm, hlt⟩ := (hfd f hf).1 hfdel
        cases hgm : metaOf idx lo g with
        | none => rw [h.meta_none hg1 hgm] at hxg; cases hxg
        | some m' =>
          have hge : ¬ m'.max < seq := fun hlt' => hg2 ((hfd g hg1).2 ⟨m', hgm, hlt'⟩)
          obtain ⟨_, y', _, _, _, _, e2, _, _, hy'⟩ := meta_some hgm
          obtain ⟨_, z, _, hz, _, _, e2', _, _, hz'⟩ := meta_some hm
          simp only [key] at h1 hec
          rcases h.files.before hg1 hf hxg hef (by omega) with hfg | hlt2
          · rw [hfg] at hg2; exact hg2 hfdel
          · have := hlt2 y' (List.mem_filter.1 hy').1 z (List.mem_filter.1 hz').1
            omega
      · exact List.mem_flatMap.2 ⟨f, List.mem_filter.2 ⟨hf, by simpa using hfdel⟩, hef⟩
    refine inv_of_files (fs := s.all.filter (fun f => decide (f.id ∉ del))) (h.files.sub List.filter_sublist hconv) ?_ ?_ ?_ ?_ r3
    · intro f hf hne
      obtain ⟨hf1, hf2⟩ := List.mem_filter.1 hf
      simp only [decide_eq_true_eq] at hf2
      cases hm : metaOf idx lo f with
      | none => exact absurd (h.meta_none hf1 hm) hne
      | some m =>
        have hge : ¬ m.max < seq := fun hlt => hf2 ((hfd f hf1).2 ⟨m, hm, hlt⟩)
        have := metaOf_before h.files hf1 hm (seq := seq)
        rw [if_neg hge] at this
        intro hnil'
        unfold metaOf at this
        rw [hnil'] at this
        cases this
    · rw [filter_diskOf, flatMap_filter_drop s.all _ _ (by
        intro f hf hx
        exact hnil f hf (by simpa using hx)), h.log, filter_diskOf, filter_map_snd, List.filter_flatMap]
      congr 2
      funext f
      exact (liveOf_max lo seq f).symm
    · rw [r1]; exact hmetas
    · rw [r2]
      obtain ⟨l, hc⟩ := h.cache
      obtain ⟨l', hc'⟩ := hc.before seq
      refine ⟨l', ext_agrees hc' ?_⟩
      intro i
      unfold Ring.specStep look
      simp only [List.find?_filter]
      by_cases hi : i < seq
      · rw [if_pos hi, eq_comm, List.find?_eq_none]
        intro e _; simp only [decide_eq_true_eq, not_and]; omega
      · rw [if_neg hi]
        congr 1
        funext e
        simp only [decide_eq_true_eq, decide_eq_decide]; omega

/-! ## Removing a suffix -/

/-- What `mark_delete_after` does to the metadata of a file that is not removed. -/
def cutMeta (seq : Nat) (m : Meta) : Meta := if m.min < seq ∧ seq ≤ m.max then (m.delAfter seq).1 else m

theorem delAfterLoop_eq (seq : Nat) : ∀ ms : List Meta, ms.Pairwise (fun m m' => m'.max < m.min) → (∀ m ∈ ms, m.min ≤ m.max) →
    (∀ m ∈ ms, m.min < seq → seq ≤ m.max → (m.delAfter seq).2 > 0) →
    delAfterLoop seq ms = (ms.map (cutMeta seq), (ms.filter (fun m => decide (seq ≤ m.min))).map Meta.id,
      (ms.find? (fun m => decide (m.min < seq ∧ seq ≤ m.max))).map (fun m => (m.id, (m.delAfter seq).2))) := by
  intro ms
  induction ms with
  | nil => intro _ _ _; rfl
  | cons m ms ih =>
    intro hp hm hpos
    obtain ⟨p1, p2⟩ := List.pairwise_cons.1 hp
    have ih := ih p2 (fun x hx => hm x (List.mem_cons_of_mem _ hx)) (fun x hx => hpos x (List.mem_cons_of_mem _ hx))
    have hm0 := hm m (List.mem_cons_self ..)
    unfold delAfterLoop
    by_cases h1 : m.min ≥ seq
    · rw [if_pos h1, ih]
      have h2 : ¬ (m.min < seq ∧ seq ≤ m.max) := by omega
      simp only [List.map_cons, cutMeta, if_neg h2]
      rw [List.filter_cons_of_pos (by simpa using h1), List.find?_cons_of_neg (by simpa using h2)]
      rfl
    · rw [if_neg h1]
      have hrest : ∀ x ∈ ms, x.max < seq ∧ x.min < seq := by
        intro x hx
        have a := p1 x hx
        have b := hm x (List.mem_cons_of_mem _ hx)
        omega
      have hmap : ms.map (cutMeta seq) = ms := by
        conv_rhs => rw [← List.map_id ms]
        apply List.map_congr_left
        intro x hx
        have := hrest x hx
        unfold cutMeta
        rw [if_neg (by omega)]; rfl
      have hfil : (m :: ms).filter (fun m => decide (seq ≤ m.min)) = [] := by
        rw [List.filter_eq_nil_iff]
        intro x hx
        rcases List.mem_cons.1 hx with rfl | hx
        · simpa using h1
        · have := hrest x hx; simp; omega
      rw [List.map_cons, hmap, hfil]
      by_cases h2 : m.max ≥ seq
      · have h3 : m.min < seq ∧ seq ≤ m.max := by omega
        have := hpos m (List.mem_cons_self ..) h3.1 h3.2
        rw [if_pos h2, List.find?_cons_of_pos (by simpa using h3)]
        simp only [cutMeta, if_pos h3, if_pos this]
        rfl
      · have h3 : ¬ (m.min < seq ∧ seq ≤ m.max) := by omega
        rw [if_neg h2, List.find?_cons_of_neg (by simpa using h3), List.find?_eq_none.2 (by
          intro x hx
          have := hrest x hx
          simp only [decide_eq_true_eq]; omega)]
        simp only [cutMeta, if_neg h3]
        rfl

theorem Asc.same {α : Type} {g g' : α → Nat} {l : List α} (h : Asc g l) (h' : Asc g' l) {x z : α} (hx : x ∈ l) (hz : z ∈ l) :
    g x < g z ↔ g' x < g' z := by
  induction l with
  | nil => cases hx
  | cons a l ih =>
    obtain ⟨p1, p2⟩ := List.pairwise_cons.1 h
    obtain ⟨q1, q2⟩ := List.pairwise_cons.1 h'
    rcases List.mem_cons.1 hx with hx | hx <;> rcases List.mem_cons.1 hz with hz | hz
    · rw [hx, hz]; omega
    · rw [hx]
      have a1 := p1 z hz
      have a2 := q1 z hz
      omega
    · rw [hz]
      have a1 := p1 x hx
      have a2 := q1 x hx
      omega
    · exact ih p2 q2 hx hz

/-- Cutting a file in the middle. -/
theorem metaOf_after {fs : List (DFile E)} (h : FilesOk idx fs) {f : DFile E} (hf : f ∈ fs) {lo seq : Nat} {m : Meta}
    (hm : metaOf idx lo f = some m) (h1 : m.min < seq) (h2 : seq ≤ m.max) :
    4 ≤ (m.delAfter seq).2 ∧ (m.delAfter seq).2 < f.size ∧
    (f.cut (m.delAfter seq).2) = ⟨f.id, f.items.filter (fun x => decide (idx x.2 < seq)), (m.delAfter seq).2⟩ ∧
    (∀ x ∈ f.items, idx x.2 < seq → x.1 < (m.delAfter seq).2) ∧
    metaOf idx lo (f.cut (m.delAfter seq).2) = some (m.delAfter seq).1 := by
  obtain ⟨l1, l2, l3⟩ := liveOf_ok h hf lo
  obtain ⟨f1, f2, f3, f4, f5⟩ := h.file hf
  obtain ⟨x, y, hx, hy, e0, e1, e2, e3, hx', hy'⟩ := meta_some hm
  have bY := (f5 y (l3 y hy').1).2.2
  obtain ⟨z, hz, hzc⟩ := l2 x hx' y hy' seq (by simp only [key]; omega) (by simp only [key]; omega)
  obtain ⟨w, hw, hwc⟩ := l2 x hx' y hy' (seq - 1) (by simp only [key]; omega) (by simp only [key]; omega)
  simp only [key] at hzc hwc
  have hidx : m.index.dropWhile (fun x => decide (x.1 < seq)) = ((liveOf idx lo f).filter (fun x => decide (seq ≤ idx x.2))).map (fun z => (idx z.2, z.1)) := by
    rw [e3, filter_ge_eq (g := key idx) l1, List.dropWhile_map]; rfl
  have hpos : (m.delAfter seq).2 = z.1 := by
    unfold Meta.delAfter
    rw [if_neg (by omega), if_neg (by omega)]
    simp only
    have : m.index[lowerBound m.index seq]? = (m.index.drop (lowerBound m.index seq)).head? := by
      rw [List.head?_drop]
    rw [this]
    unfold lowerBound
    rw [drop_takeWhile, hidx, List.head?_map]
    have hzf : z ∈ (liveOf idx lo f).filter (fun x => decide (seq ≤ idx x.2)) :=
      List.mem_filter.2 ⟨hz, by simp only [decide_eq_true_eq]; omega⟩
    obtain ⟨a, ha⟩ : ∃ a, ((liveOf idx lo f).filter (fun x => decide (seq ≤ idx x.2))).head? = some a :=
      ⟨_, List.head?_eq_some_head (List.ne_nil_of_mem hzf)⟩
    have ha1 := (l1.filter (fun x => decide (seq ≤ idx x.2))).head_le ha hzf
    obtain ⟨ha2, ha3⟩ := List.mem_filter.1 (List.mem_of_mem_head? ha)
    simp only [key, decide_eq_true_eq] at ha1 ha3
    have : a = z := l1.inj ha2 hz (by simp only [key]; omega)
    rw [ha, this]
    rfl
  obtain ⟨z1, z2, z3⟩ := f5 z (l3 z hz).1
  have hsame : ∀ v ∈ f.items, (v.1 < z.1 ↔ idx v.2 < seq) := by
    intro v hv
    have := f3.same f1 hv (l3 z hz).1
    simp only [key] at this
    rw [this, hzc]
  have hcut : f.cut z.1 = ⟨f.id, f.items.filter (fun x => decide (idx x.2 < seq)), z.1⟩ := by
    unfold DFile.cut
    rw [if_neg (by omega)]
    congr 1
    apply List.filter_congr
    intro v hv
    rw [decide_eq_decide]; exact hsame v hv
  rw [hpos]
  refine ⟨z1, z2, hcut, fun v hv hlt => (hsame v hv).2 hlt, ?_⟩
  rw [hcut]
  have hlive : liveOf idx lo ⟨f.id, f.items.filter (fun x => decide (idx x.2 < seq)), z.1⟩ =
      (liveOf idx lo f).filter (fun x => decide (idx x.2 < seq)) := by
    unfold liveOf
    rw [List.filter_filter, List.filter_filter]
    apply List.filter_congr
    intro v _
    rw [Bool.and_comm]
  unfold metaOf
  rw [hlive]
  have hwf : w ∈ (liveOf idx lo f).filter (fun x => decide (idx x.2 < seq)) :=
    List.mem_filter.2 ⟨hw, by simp only [decide_eq_true_eq]; omega⟩
  have hxf : x ∈ (liveOf idx lo f).filter (fun x => decide (idx x.2 < seq)) :=
    List.mem_filter.2 ⟨hx', by simp only [decide_eq_true_eq]; omega⟩
  rcases mk_cases (idx := idx) f.id ((liveOf idx lo f).filter (fun x => decide (idx x.2 < seq))) with ⟨e, _⟩ | ⟨a, b, ha, hb, e⟩
  · rw [e] at hwf; cases hwf
  · rw [e]
    have ha1 := (l1.filter (fun x => decide (idx x.2 < seq))).head_le ha hxf
    have ha2 := l1.head_le hx (List.mem_filter.1 (List.mem_of_mem_head? ha)).1
    have hb1 := (l1.filter (fun x => decide (idx x.2 < seq))).le_last hb hwf
    have hb2 := (List.mem_filter.1 (List.mem_of_getLast? hb)).2
    simp only [key, decide_eq_true_eq] at ha1 ha2 hb1 hb2
    unfold Meta.delAfter
    rw [if_neg (by omega), if_neg (by omega)]
    rw [Option.some.injEq]
    simp only [Meta.mk.injEq]
    refine ⟨e0.symm, by omega, by omega, ?_⟩
    unfold lowerBound
    rw [take_takeWhile, e3, filter_lt_eq (g := key idx) l1, List.takeWhile_map]
    rfl

theorem truncate_all {s : Store E} (h : s.all.Pairwise (fun f f' => f.id < f'.id)) (id pos : Nat) :
    (s.truncate id pos).all = s.all.map (fun f => if f.id = id then f.cut pos else f) ∧
    (s.truncate id pos).metas = s.metas ∧ (s.truncate id pos).cache = s.cache := by
  unfold Store.truncate
  by_cases hc : s.cur.id = id
  · rw [if_pos hc]
    refine ⟨?_, rfl, rfl⟩
    simp only [Store.all, List.map_append, List.map_cons, List.map_nil, if_pos hc]
    congr 1
    conv_lhs => rw [← List.map_id s.old]
    apply List.map_congr_left
    intro f hf
    have := (List.pairwise_append.1 h).2.2 f hf s.cur (by simp)
    rw [if_neg (by omega)]; rfl
  · rw [if_neg hc]
    refine ⟨?_, rfl, rfl⟩
    simp only [Store.all, List.map_append, List.map_cons, List.map_nil, if_neg hc]

/-- What `mark_delete_after` does to a file. -/
def aft (idx : E → Nat) (lo seq : Nat) (f : DFile E) : Option (DFile E) :=
  match metaOf idx lo f with
  | none => some f
  | some m => if seq ≤ m.min then none else if seq ≤ m.max then some (f.cut (m.delAfter seq).2) else some f

theorem after_inv {s : Store E} {es : List E} {lo : Nat} (h : Inv idx s es lo) (seq : Nat) :
    Inv idx (s.delAfter seq) (es.filter (fun e => decide (idx e < seq))) lo := by
  unfold Store.delAfter
  by_cases hmax : s.maxSeq < seq ∨ s.maxSeq = u64Max
  · rw [if_pos hmax, List.filter_eq_self.2 (by
      intro e he
      have := h.min_le he
      simp only [decide_eq_true_eq]; omega)]
    exact h
  · rw [if_neg hmax]
    obtain ⟨p1, p2, p3⟩ := h.metas_ok
    have mem_meta : ∀ m ∈ s.metas, ∃ f ∈ s.all, metaOf idx lo f = some m := by
      intro m hm; rw [h.metas] at hm; exact List.mem_filterMap.1 hm
    rw [delAfterLoop_eq seq s.metas.reverse (List.pairwise_reverse.2 p1) (fun m hm => (p3 m (List.mem_reverse.1 hm)).1) (by
      intro m hm h1 h2
      obtain ⟨f, hf, hfm⟩ := mem_meta m (List.mem_reverse.1 hm)
      have := (metaOf_after h.files hf hfm h1 h2).1
      omega)]
    simp only
    rw [← List.map_reverse, List.reverse_reverse]
    set del := (s.metas.reverse.filter (fun m => decide (seq ≤ m.min))).map Meta.id with hdel
    -- the cut
    have hcut : ∃ s' : Store E, s' = (match (s.metas.reverse.find? (fun m => decide (m.min < seq ∧ seq ≤ m.max))).map
          (fun m => (m.id, (m.delAfter seq).2)) with
        | some (id, pos) => s.truncate id pos
        | none => s) ∧ s'.cache = s.cache ∧
        s'.all = s.all.map (fun f => match metaOf idx lo f with
          | some m => if m.min < seq ∧ seq ≤ m.max then f.cut (m.delAfter seq).2 else f
          | none => f) := by
      refine ⟨_, rfl, ?_⟩
      cases hfi : s.metas.reverse.find? (fun m => decide (m.min < seq ∧ seq ≤ m.max)) with
      | none =>
        refine ⟨rfl, ?_⟩
        simp only [Option.map_none]
        conv_lhs => rw [← List.map_id s.all]
        apply List.map_congr_left
        intro f hf
        cases hm : metaOf idx lo f with
        | none => rfl
        | some m =>
          have hmm : m ∈ s.metas := by rw [h.metas]; exact List.mem_filterMap.2 ⟨f, hf, hm⟩
          have := List.find?_eq_none.1 hfi m (List.mem_reverse.2 hmm)
          simp only [decide_eq_true_eq] at this
          simp only [if_neg this]; rfl
      | some m =>
        have hmm := List.mem_reverse.1 (List.mem_of_find?_eq_some hfi)
        have hmr : m.min < seq ∧ seq ≤ m.max := by simpa using List.find?_some hfi
        simp only [Option.map_some]
        obtain ⟨t1, _, t3⟩ := truncate_all h.files.ids m.id (m.delAfter seq).2
        refine ⟨t3, t1.trans ?_⟩
        apply List.map_congr_left
        intro f hf
        cases hm : metaOf idx lo f with
        | none =>
          obtain ⟨g, hg, hgm⟩ := mem_meta m hmm
          have : f.id ≠ m.id := by
            intro he
            have : f = g := h.files.unique hf hg (by rw [he, mk_id hgm])
            rw [this, hgm] at hm; cases hm
          simp only [if_neg this]
        | some m' =>
          have hmm' : m' ∈ s.metas := by rw [h.metas]; exact List.mem_filterMap.2 ⟨f, hf, hm⟩
          by_cases he : f.id = m.id
          · have : m' = m := Asc.inj (g := Meta.id) p2 hmm' hmm (by rw [mk_id hm, he])
            simp only [if_pos he, this, if_pos hmr]
          · have : ¬ (m'.min < seq ∧ seq ≤ m'.max) := by
              intro hr
              have hid : m'.id = f.id := mk_id hm
              have hne : m' ≠ m := fun hx => he (by rw [← hid, hx])
              have hord : m'.max < m.min ∨ m.max < m'.min := by
                have hp := p1
                revert hmm hmm' hp
                generalize s.metas = ms
                intro hmm hmm' hp
                induction ms with
                | nil => cases hmm
                | cons a ms ih =>
                  obtain ⟨q1, q2⟩ := List.pairwise_cons.1 hp
                  rcases List.mem_cons.1 hmm with hx | hx <;> rcases List.mem_cons.1 hmm' with hx' | hx'
                  · exact absurd (hx'.trans hx.symm) hne
                  · right; rw [hx]; exact q1 m' hx'
                  · left; rw [hx']; exact q1 m hx
                  · exact ih hx hx' q2
              omega
            simp only [if_neg he, if_neg this]
    obtain ⟨s', hs', hs'c, hs'all⟩ := hcut
    suffices hgoal : Inv idx (({ s' with metas := (s.metas.map (cutMeta seq)).filter (fun m => decide (m.id ∉ del)), cache := s'.cache.delAfter seq } : Store E).rollback del) (es.filter (fun e => decide (idx e < seq))) lo by
      rw [hs'] at hgoal
      exact hgoal
    obtain ⟨r1, r2, r3⟩ := rollback_all ({ s' with metas := (s.metas.map (cutMeta seq)).filter (fun m => decide (m.id ∉ del)), cache := s'.cache.delAfter seq } : Store E) del
    have hmd : ∀ m ∈ s.metas, (m.id ∈ del ↔ seq ≤ m.min) := by
      intro m hm
      rw [hdel]
      constructor
      · intro hx
        obtain ⟨m', hm', he⟩ := List.mem_map.1 hx
        obtain ⟨hm1, hm2⟩ := List.mem_filter.1 hm'
        rw [← Asc.inj (g := Meta.id) p2 (List.mem_reverse.1 hm1) hm he]
        simpa using hm2
      · intro hx
        exact List.mem_map.2 ⟨m, List.mem_filter.2 ⟨List.mem_reverse.2 hm, by simpa using hx⟩, rfl⟩
    have hfd : ∀ f ∈ s.all, (f.id ∈ del ↔ ∃ m, metaOf idx lo f = some m ∧ seq ≤ m.min) := by
      intro f hf
      constructor
      · intro hx
        rw [hdel] at hx
        obtain ⟨m', hm', he⟩ := List.mem_map.1 hx
        obtain ⟨hm1, hm2⟩ := List.mem_filter.1 hm'
        obtain ⟨g, hg, hgm⟩ := mem_meta m' (List.mem_reverse.1 hm1)
        have : g = f := h.files.unique hg hf (by rw [← he, mk_id hgm])
        subst this
        exact ⟨m', hgm, by simpa using hm2⟩
      · rintro ⟨m, hm, hlt⟩
        have hmm : m ∈ s.metas := by rw [h.metas]; exact List.mem_filterMap.2 ⟨f, hf, hm⟩
        rw [← show m.id = f.id from mk_id hm]
        exact (hmd m hmm).2 hlt
    have hcid : ∀ (f : DFile E) (p : Nat), (f.cut p).id = f.id := by
      intro f p; unfold DFile.cut; split <;> rfl
    have hfs : s'.all.filter (fun f => decide (f.id ∉ del)) = s.all.filterMap (aft idx lo seq) := by
      rw [hs'all]
      rw [filter_map_filterMap s.all _ _ (fun f => decide (f.id ∈ del))]
      · apply filterMap_congr'
        intro f hf
        unfold aft
        cases hm : metaOf idx lo f with
        | none =>
          have : f.id ∉ del := by
            intro hx
            obtain ⟨m, hm', _⟩ := (hfd f hf).1 hx
            rw [hm] at hm'; cases hm'
          simp [this]
        | some m =>
          have : f.id ∈ del ↔ seq ≤ m.min := by
            rw [hfd f hf]
            constructor
            · rintro ⟨m', hm', hx⟩
              rw [hm] at hm'
              rw [Option.some.inj hm']; exact hx
            · exact fun hx => ⟨m, hm, hx⟩
          by_cases hx : seq ≤ m.min
          · simp [this, hx]
          · have hx2 : m.min < seq := by omega
            by_cases hx3 : seq ≤ m.max
            · simp [this, hx, hx2, hx3]
            · simp [this, hx, hx3]
      · intro f hf
        have : (match metaOf idx lo f with
          | some m => if m.min < seq ∧ seq ≤ m.max then f.cut (m.delAfter seq).2 else f
          | none => f).id = f.id := by
          split
          · split
            · exact hcid _ _
            · rfl
          · rfl
        rw [this, decide_not]
    -- the parts of a file that stay
    have haft : ∀ f ∈ s.all, ∀ g, aft idx lo seq f = some g →
        g.id = f.id ∧ g.items = f.items.filter (fun x => decide (idx x.2 < seq)) ∧ Asc Prod.fst g.items ∧
        4 ≤ g.size ∧ (∀ x ∈ g.items, 4 ≤ x.1 ∧ x.1 < g.size) ∧ (g.items ≠ [] → liveOf idx lo g ≠ []) ∧
        metaOf idx lo g = (metaOf idx lo f).map (cutMeta seq) := by
      intro f hf g hg
      obtain ⟨f1, f2, f3, f4, f5⟩ := h.files.file hf
      obtain ⟨l1, _, l3⟩ := liveOf_ok h.files hf lo
      unfold aft at hg
      cases hm : metaOf idx lo f with
      | none =>
        rw [hm] at hg
        obtain rfl := Option.some.inj hg
        have := h.meta_none hf hm
        rw [this]
        exact ⟨rfl, rfl, List.Pairwise.nil, f4, by simp, by simp, hm⟩
      | some m =>
        rw [hm] at hg
        simp only at hg
        by_cases hx : seq ≤ m.min
        · rw [if_pos hx] at hg; cases hg
        · rw [if_neg hx] at hg
          by_cases hx2 : seq ≤ m.max
          · rw [if_pos hx2] at hg
            obtain rfl := Option.some.inj hg
            obtain ⟨a1, a2, a3, a4, a5⟩ := metaOf_after h.files hf hm (by omega) hx2
            have hme : metaOf idx lo (f.cut (m.delAfter seq).2) = some (cutMeta seq m) := by
              rw [a5]; unfold cutMeta; rw [if_pos (by omega)]
            refine ⟨hcid _ _, ?_, ?_, ?_, ?_, ?_, hme⟩
            · rw [a3]
            · rw [a3]; exact f3.filter _
            · rw [a3]; exact a1
            · rw [a3]
              intro x hx
              obtain ⟨hx1, hx2⟩ := List.mem_filter.1 hx
              simp only [decide_eq_true_eq] at hx2
              exact ⟨(f5 x hx1).1, a4 x hx1 hx2⟩
            · intro _ hnil
              unfold metaOf at hme
              rw [hnil] at hme; cases hme
          · rw [if_neg hx2] at hg
            obtain rfl := Option.some.inj hg
            obtain ⟨x, y, hx', hy', _, e1, e2, _, hxm, hym⟩ := meta_some hm
            refine ⟨rfl, ?_, f3, f4, fun x hx => ⟨(f5 x hx).1, (f5 x hx).2.1⟩, h.live f hf, ?_⟩
            · rw [eq_comm, List.filter_eq_self]
              intro v hv
              simp only [decide_eq_true_eq]
              by_cases hv2 : lo ≤ idx v.2
              · have := l1.le_last hy' (List.mem_filter.2 ⟨hv, by simpa using hv2⟩)
                simp only [key] at this
                omega
              · have := (l3 y hym).2
                omega
            · rw [hm, Option.map_some]
              unfold cutMeta
              rw [if_neg (by omega)]
    -- removed files hold only removed entries and entries before all others
    have hgone : ∀ f ∈ s.all, aft idx lo seq f = none → ∀ x ∈ f.items, lo ≤ idx x.2 → seq ≤ idx x.2 := by
      intro f hf hn x hx hlo
      obtain ⟨l1, _, _⟩ := liveOf_ok h.files hf lo
      unfold aft at hn
      cases hm : metaOf idx lo f with
      | none => rw [hm] at hn; cases hn
      | some m =>
        rw [hm] at hn
        simp only at hn
        by_cases hx2 : seq ≤ m.min
        · obtain ⟨a, _, ha, _, _, e1, _⟩ := meta_some hm
          have := l1.head_le ha (List.mem_filter.2 ⟨hx, by simpa using hlo⟩)
          simp only [key] at this
          omega
        · rw [if_neg hx2] at hn
          split at hn <;> cases hn
    have hdisk : ∀ x, x ∈ diskOf (s.all.filterMap (aft idx lo seq)) → x ∈ diskOf s.all ∧ idx x.2 < seq := by
      intro x hx
      obtain ⟨g, hg, hxg⟩ := List.mem_flatMap.1 hx
      obtain ⟨f, hf, hfg⟩ := List.mem_filterMap.1 hg
      rw [(haft f hf g hfg).2.1] at hxg
      obtain ⟨h1, h2⟩ := List.mem_filter.1 hxg
      exact ⟨List.mem_flatMap.2 ⟨f, hf, h1⟩, by simpa using h2⟩
    have hasc : Asc (key idx) (diskOf (s.all.filterMap (aft idx lo seq))) := by
      refine List.pairwise_flatMap.2 ⟨?_, List.pairwise_filterMap.2 (h.files.order.imp_of_mem ?_)⟩
      · intro g hg
        obtain ⟨f, hf, hfg⟩ := List.mem_filterMap.1 hg
        rw [(haft f hf g hfg).2.1]
        exact (h.files.file hf).1.filter _
      · intro f f' hf hf' hff g hg g' hg' x hx y hy
        rw [(haft f hf g hg).2.1] at hx
        rw [(haft f' hf' g' hg').2.1] at hy
        exact hff x (List.mem_filter.1 hx).1 y (List.mem_filter.1 hy).1
    refine inv_of_files (fs := s.all.filterMap (aft idx lo seq)) ?_ ?_ ?_ ?_ ?_ (by rw [← hfs]; exact r3)
    · refine ⟨List.pairwise_filterMap.2 (h.files.ids.imp_of_mem ?_), ?_, ?_, hasc, ?_, ?_⟩
      · intro f f' hf hf' hlt g hg g' hg'
        rw [(haft f hf g hg).1, (haft f' hf' g' hg').1]; exact hlt
      · intro g hg
        obtain ⟨f, hf, hfg⟩ := List.mem_filterMap.1 hg
        exact (haft f hf g hfg).2.2.1
      · intro g hg
        obtain ⟨f, hf, hfg⟩ := List.mem_filterMap.1 hg
        obtain ⟨_, _, _, a, b, _⟩ := haft f hf g hfg
        exact ⟨a, b⟩
      · intro x hx y hy c h1 h2
        obtain ⟨dx, _⟩ := hdisk x hx
        obtain ⟨dy, sy⟩ := hdisk y hy
        obtain ⟨e, he, hec⟩ := h.files.conv x dx y dy c h1 h2
        simp only [key] at h1 h2 hec
        refine ⟨e, ?_, hec⟩
        obtain ⟨f, hf, hef⟩ := List.mem_flatMap.1 he
        cases ha : aft idx lo seq f with
        | some g =>
          refine List.mem_flatMap.2 ⟨g, List.mem_filterMap.2 ⟨f, hf, ha⟩, ?_⟩
          rw [(haft f hf g ha).2.1]
          exact List.mem_filter.2 ⟨hef, by simp only [decide_eq_true_eq]; omega⟩
        | none =>
          exfalso
          have hlo : ¬ lo ≤ idx e.2 := by
            intro hlo
            have := hgone f hf ha e hef hlo
            omega
          obtain ⟨g, hg, hxg⟩ := List.mem_flatMap.1 hx
          obtain ⟨f', hf', hfg'⟩ := List.mem_filterMap.1 hg
          rw [(haft f' hf' g hfg').2.1] at hxg
          have hxf' := (List.mem_filter.1 hxg).1
          rcases h.files.before hf' hf hxf' hef (by omega) with heq | hlt
          · rw [heq, ha] at hfg'; cases hfg'
          · obtain ⟨w, hw⟩ := List.exists_mem_of_ne_nil _ (h.live f' hf' (List.ne_nil_of_mem hxf'))
            obtain ⟨hw1, hw2⟩ := List.mem_filter.1 hw
            simp only [decide_eq_true_eq] at hw2
            have := hlt w hw1 e hef
            omega
      · intro x hx
        exact h.files.bnd x (hdisk x hx).1
    · intro g hg
      obtain ⟨f, hf, hfg⟩ := List.mem_filterMap.1 hg
      exact (haft f hf g hfg).2.2.2.2.2.1
    · rw [filter_diskOf, h.log, filter_diskOf, filter_map_snd, List.filter_flatMap]
      congr 1
      rw [eq_comm]
      apply flatMap_filterMap
      intro f hf
      refine ⟨?_, ?_⟩
      · intro g hg
        unfold liveOf
        rw [(haft f hf g hg).2.1, List.filter_filter, List.filter_filter]
        apply List.filter_congr
        intro v _
        rw [Bool.and_comm]
      · intro hn
        rw [List.filter_eq_nil_iff]
        intro x hx
        obtain ⟨hx1, hx2⟩ := List.mem_filter.1 hx
        simp only [decide_eq_true_eq] at hx2
        have := hgone f hf hn x hx1 hx2
        simp only [decide_eq_true_eq]; omega
    · rw [r1]
      simp only
      rw [filter_map_filterMap s.metas _ _ (fun m => decide (seq ≤ m.min))]
      · rw [h.metas, List.filterMap_filterMap, List.filterMap_filterMap]
        apply filterMap_congr'
        intro f hf
        cases hm : metaOf idx lo f with
        | none =>
          have ha : aft idx lo seq f = some f := by unfold aft; rw [hm]
          rw [ha, Option.bind_some, Option.bind_none, hm]
        | some m =>
          rw [Option.bind_some]
          by_cases hx : seq ≤ m.min
          · have ha : aft idx lo seq f = none := by unfold aft; rw [hm]; simp [hx]
            rw [ha]
            simp [hx]
          · obtain ⟨g, ha⟩ : ∃ g, aft idx lo seq f = some g := by
              unfold aft; rw [hm]
              simp only [if_neg hx]
              split
              · exact ⟨_, rfl⟩
              · exact ⟨_, rfl⟩
            rw [ha, Option.bind_some, (haft f hf g ha).2.2.2.2.2.2, hm]
            simp [hx]
      · intro m hm
        have : (cutMeta seq m).id = m.id := by
          unfold cutMeta Meta.delAfter
          split
          · split
            · rfl
            · split <;> rfl
          · rfl
        rw [this, ← decide_not, decide_eq_decide, hmd m hm]
    · rw [r2]
      simp only [hs'c]
      obtain ⟨l, hc⟩ := h.cache
      obtain ⟨l', hc'⟩ := hc.after seq
      refine ⟨l', ext_agrees hc' ?_⟩
      intro i
      unfold Ring.specStep look
      simp only [List.find?_filter]
      by_cases hi : seq ≤ i
      · rw [if_pos hi, eq_comm, List.find?_eq_none]
        intro e _; simp only [decide_eq_true_eq, not_and]; omega
      · rw [if_neg hi]
        congr 1
        funext e
        simp only [decide_eq_true_eq, decide_eq_decide]; omega

end Verif.Wal.Log
