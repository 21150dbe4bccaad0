import Verif.Compact.Ans
/-!
# Merging one group
-/
namespace Verif.Compact

open Verif.Sort Verif.Reader

variable {α : Type}

/-- The rows of a block that are to be compacted, with the index of its file. -/
def Block.tags (out : Option (Int × Int)) (b : Block α) : List (Nat × Row α) := tag b.idx (b.rows.filter fun r => inOut out r.ts)

/-- What holds for the blocks of a series that are visited. -/
structure BlocksOk (cols : Nat) (out : Option (Int × Int)) (bs : List (Block α)) : Prop where
  valid : ∀ b ∈ bs, b.lo ≤ b.hi
  overlap : ∀ b ∈ bs, overlapsOut out b.lo b.hi = true
  inc : ∀ b ∈ bs, b.rows.Pairwise fun x y => x.ts < y.ts
  range : ∀ b ∈ bs, ∀ r ∈ b.rows, b.lo ≤ r.ts ∧ r.ts ≤ b.hi
  width : ∀ b ∈ bs, ∀ r ∈ b.rows, r.cells.length = cols
  raw : ∀ b ∈ bs, b.tomb = false → b.raw = b.rows
  compat : ∀ a ∈ bs, ∀ b ∈ bs, a.idx = b.idx → ∀ x ∈ a.rows, ∀ y ∈ b.rows, x.ts = y.ts → x = y

theorem BlocksOk.mono {cols : Nat} {out : Option (Int × Int)} {as bs : List (Block α)} (h : BlocksOk cols out bs) (hm : ∀ b ∈ as, b ∈ bs) :
    BlocksOk cols out as :=
  ⟨fun b hb => h.valid b (hm b hb), fun b hb => h.overlap b (hm b hb), fun b hb => h.inc b (hm b hb), fun b hb => h.range b (hm b hb),
    fun b hb => h.width b (hm b hb), fun b hb => h.raw b (hm b hb), fun a ha b hb => h.compat a (hm a ha) b (hm b hb)⟩

/-- What holds for a block that is written: its rows are in its range and in the range to compact. -/
structure DoneOk (sid : Nat) (out : Option (Int × Int)) (d : Done α) : Prop where
  sid : d.sid = sid
  valid : d.lo ≤ d.hi
  range : ∀ r ∈ d.rows, d.lo ≤ r.ts ∧ r.ts ≤ d.hi
  inside : ∀ r ∈ d.rows, inOut out r.ts = true

theorem get_filter {cols : Nat} {out : Option (Int × Int)} {bs : List (Block α)} (h : BlocksOk cols out bs) {b : Block α} (hb : b ∈ bs) :
    b.get out = some (b.rows.filter fun r => inOut out r.ts) := by
  cases out with
  | none =>
    have : b.rows.filter (fun r => inOut none r.ts) = b.rows := by rw [List.filter_eq_self]; intro r _; rfl
    rw [this]; rfl
  | some p =>
    obtain ⟨x, y⟩ := p
    unfold Block.get
    simp only
    rw [if_pos (h.overlap b hb)]
    split
    · rename_i hin
      rw [List.filter_eq_self.2]
      intro r hr
      have := h.range b hb r hr
      simp only [inOut, Bool.and_eq_true, decide_eq_true_eq]
      omega
    · rfl

theorem filter_included {cols : Nat} {out : Option (Int × Int)} {bs : List (Block α)} (h : BlocksOk cols out bs) {b : Block α} (hb : b ∈ bs)
    (hin : b.included out = true) : b.rows.filter (fun r => inOut out r.ts) = b.rows := by
  rw [List.filter_eq_self]
  intro r hr
  cases out with
  | none => rfl
  | some p =>
    obtain ⟨x, y⟩ := p
    have := h.range b hb r hr
    simp only [Block.included, Bool.and_eq_true, decide_eq_true_eq] at hin
    simp only [inOut, Bool.and_eq_true, decide_eq_true_eq]
    omega

theorem tags_included {cols : Nat} {out : Option (Int × Int)} {bs : List (Block α)} (h : BlocksOk cols out bs) {b : Block α} (hb : b ∈ bs)
    (hin : b.included out = true) : b.tags out = tag b.idx b.rows := by
  unfold Block.tags
  rw [filter_included h hb hin]

theorem exists_bound (l : List Nat) : ∃ K, ∀ x ∈ l, x ≤ K := by
  induction l with
  | nil => exact ⟨0, by simp⟩
  | cons a l ih =>
    obtain ⟨K, hK⟩ := ih
    refine ⟨max a K, ?_⟩
    intro x hx
    rcases List.mem_cons.1 hx with e | hx
    · omega
    · have := hK x hx; omega

theorem mem_tags {out : Option (Int × Int)} {b : Block α} {p : Nat × Row α} (h : p ∈ b.tags out) :
    p.1 = b.idx ∧ p.2 ∈ b.rows ∧ inOut out p.2.ts = true := by
  obtain ⟨h1, h2⟩ := mem_tag.1 h
  exact ⟨h1, (List.mem_filter.1 h2).1, (List.mem_filter.1 h2).2⟩

theorem compat_tags {cols : Nat} {out : Option (Int × Int)} {bs : List (Block α)} (h : BlocksOk cols out bs) : Compat (bs.flatMap (Block.tags out)) := by
  intro p hp q hq e et
  obtain ⟨a, ha, hp⟩ := List.mem_flatMap.1 hp
  obtain ⟨b, hb, hq⟩ := List.mem_flatMap.1 hq
  obtain ⟨p1, p2, _⟩ := mem_tags hp
  obtain ⟨q1, q2, _⟩ := mem_tags hq
  exact h.compat a ha b hb (by omega) p.2 p2 q.2 q2 et

theorem head_mem_ts {rows : List (Row α)} (h : rows ≠ []) (sid : Nat) : ∃ r ∈ rows, (Done.ofRows sid rows).lo = r.ts := by
  cases rows with
  | nil => exact absurd rfl h
  | cons r l => exact ⟨r, List.mem_cons_self, rfl⟩

theorem last_mem_ts {rows : List (Row α)} (h : rows ≠ []) (sid : Nat) : ∃ r ∈ rows, (Done.ofRows sid rows).hi = r.ts := by
  refine ⟨rows.getLast h, List.getLast_mem h, ?_⟩
  simp [Done.ofRows, List.getLast?_eq_some_getLast h]

theorem ofRows_range {rows : List (Row α)} (hi : rows.Pairwise fun a b => a.ts < b.ts) (sid : Nat) :
    ∀ r ∈ rows, (Done.ofRows sid rows).lo ≤ r.ts ∧ r.ts ≤ (Done.ofRows sid rows).hi := by
  intro r hr
  have hne : rows ≠ [] := List.ne_nil_of_mem hr
  constructor
  · cases rows with
    | nil => cases hr
    | cons a l =>
      show a.ts ≤ r.ts
      rcases List.mem_cons.1 hr with e | hr
      · rw [e]; omega
      · have := (List.pairwise_cons.1 hi).1 r hr; omega
  · simp only [Done.ofRows, List.getLast?_eq_some_getLast hne, Option.map_some, Option.getD_some]
    have e := List.dropLast_concat_getLast hne
    rw [← e] at hi hr
    rcases List.mem_append.1 hr with hr | hr
    · have := (List.pairwise_append.1 hi).2.2 r hr _ (List.mem_singleton.2 rfl); omega
    · rw [List.mem_singleton.1 hr]; omega

/-- The bounds of what comes out of a group. -/
def Within (prev : List (Done α)) (blocks : List (Block α)) (d : Done α) : Prop :=
  (∀ x, (∀ p ∈ prev, x ≤ p.lo) → (∀ b ∈ blocks, x ≤ b.lo) → x ≤ d.lo) ∧
  ∀ x, (∀ p ∈ prev, p.hi ≤ x) → (∀ b ∈ blocks, b.hi ≤ x) → d.hi ≤ x

/-- What comes out of a group: the rows of the waiting block, then the right answer for the blocks of the group, in blocks whose
ranges go up. -/
structure Merged (cols sid : Nat) (out : Option (Int × Int)) (blocks : List (Block α)) (prev : List (Done α)) (ds : List (Done α)) : Prop where
  rows : ∃ A, Ans cols (blocks.flatMap (Block.tags out)) A ∧ ds.flatMap Done.rows = prev.flatMap Done.rows ++ A
  ok : ∀ d ∈ ds, DoneOk sid out d
  up : ds.Pairwise fun d e => d.hi ≤ e.lo
  within : ∀ d ∈ ds, Within prev blocks d

theorem merge_all_blocks {cols size sid : Nat} {out : Option (Int × Int)} (hs : 1 ≤ size) {bs : List (Block α)} (hne : bs ≠ [])
    (hsort : bs.Pairwise fun a b => a.idx ≤ b.idx) (hok : BlocksOk cols out bs) (prev : Option (Done α))
    (hp : ∀ p ∈ prev.toList, DoneOk sid out p ∧ (p.rows.Pairwise fun a b => a.ts < b.ts) ∧ (∀ r ∈ p.rows, r.cells.length = cols) ∧
      ∀ b ∈ bs, p.hi < b.lo) :
    ∃ N ds, (∀ fuel, N < fuel → mergeRows cols size fuel sid (bs.filterMap (Block.get out) ++ prev.toList.map (Done.decode out)) = some ds) ∧
      Merged cols sid out bs prev.toList ds := by
  obtain ⟨K, hK⟩ := exists_bound (bs.map Block.idx)
  have hK : ∀ b ∈ bs, b.idx ≤ K := fun b hb => hK _ (List.mem_map.2 ⟨b, hb, rfl⟩)
  -- the answer for the group alone
  have hinc1 : ∀ x ∈ bs.map (fun b => (b.idx, b.rows.filter fun r => inOut out r.ts)), x.2.Pairwise fun a b => a.ts < b.ts := by
    intro x hx
    obtain ⟨b, hb, rfl⟩ := List.mem_map.1 hx
    exact (hok.inc b hb).filter _
  have hpw1 : (bs.map fun b => (b.idx, b.rows.filter fun r => inOut out r.ts)).Pairwise fun a b => a.1 ≤ b.1 := by
    rw [List.pairwise_map]; exact hsort
  obtain ⟨_, ds0, _, hA, _⟩ := mergeRows_ans (cols := cols) sid hs (bs.map fun b => (b.idx, b.rows.filter fun r => inOut out r.ts)) (by simpa using hne) hpw1 hinc1
  have htags : (bs.map (fun b => (b.idx, b.rows.filter fun r => inOut out r.ts))).flatMap (fun b => tag b.1 b.2) = bs.flatMap (Block.tags out) := by
    rw [List.flatMap_map]; rfl
  rw [htags] at hA
  have hpdec : ∀ p ∈ prev.toList, p.decode out = p.rows := by
    intro p hp'
    unfold Done.decode
    rw [List.filter_eq_self]
    exact (hp p hp').1.inside
  -- the merge of all
  have hbatches : bs.filterMap (Block.get out) ++ prev.toList.map (Done.decode out) =
      ((bs.map fun b => (b.idx, b.rows.filter fun r => inOut out r.ts)) ++ prev.toList.map fun p => (K, p.rows)).map Prod.snd := by
    rw [List.map_append, List.map_map, List.map_map]
    congr 1
    · have : ∀ l : List (Block α), (∀ b ∈ l, b ∈ bs) → l.filterMap (Block.get out) = l.map (Prod.snd ∘ fun b => (b.idx, b.rows.filter fun r => inOut out r.ts)) := by
        intro l hl
        induction l with
        | nil => rfl
        | cons b l ih =>
          rw [List.filterMap_cons, get_filter hok (hl b List.mem_cons_self), ih (fun c hc => hl c (List.mem_cons_of_mem _ hc))]
          rfl
      exact this bs (fun _ h => h)
    · exact List.map_congr_left hpdec
  have hinc2 : ∀ x ∈ (bs.map fun b => (b.idx, b.rows.filter fun r => inOut out r.ts)) ++ prev.toList.map (fun p => (K, p.rows)),
      x.2.Pairwise fun a b => a.ts < b.ts := by
    intro x hx
    rcases List.mem_append.1 hx with hx | hx
    · exact hinc1 x hx
    · obtain ⟨p, hp', rfl⟩ := List.mem_map.1 hx
      exact (hp p hp').2.1
  have hpw2 : ((bs.map fun b => (b.idx, b.rows.filter fun r => inOut out r.ts)) ++ prev.toList.map fun p => (K, p.rows)).Pairwise fun a b => a.1 ≤ b.1 := by
    rw [List.pairwise_append]
    refine ⟨hpw1, ?_, ?_⟩
    · cases prev <;> simp
    · intro x hx y hy
      obtain ⟨b, hb, rfl⟩ := List.mem_map.1 hx
      obtain ⟨p, _, rfl⟩ := List.mem_map.1 hy
      exact hK b hb
  obtain ⟨N, ds, h1, hM, h3⟩ := mergeRows_ans (cols := cols) sid hs _ (by simp [hne]) hpw2 hinc2
  rw [List.flatMap_append, htags] at hM
  have hPt : (prev.toList.map fun p => (K, p.rows)).flatMap (fun b => tag b.1 b.2) = tag K (prev.toList.flatMap Done.rows) := by
    cases prev <;> simp [tag]
  rw [hPt] at hM
  have hPinc : (prev.toList.flatMap Done.rows).Pairwise fun a b => a.ts < b.ts := by
    cases hpr : prev with
    | none => simp
    | some p => simpa using (hp p (by simp [hpr])).2.1
  have hPw : ∀ r ∈ prev.toList.flatMap Done.rows, r.cells.length = cols := by
    intro r hr
    obtain ⟨p, hp', hr⟩ := List.mem_flatMap.1 hr
    exact (hp p hp').2.2.1 r hr
  have hsep : ∀ p ∈ tag K (prev.toList.flatMap Done.rows), ∀ q ∈ bs.flatMap (Block.tags out), p.2.ts < q.2.ts := by
    intro p hpt q hq
    obtain ⟨d, hd, hr⟩ := List.mem_flatMap.1 (mem_tag.1 hpt).2
    obtain ⟨b, hb, hq⟩ := List.mem_flatMap.1 hq
    have e1 := ((hp d hd).1.range p.2 hr).2
    have e2 := (hp d hd).2.2.2 b hb
    have e3 := (hok.range b hb q.2 (mem_tags hq).2.1).1
    omega
  have happ := ((Ans.self (cols := cols) K hPinc hPw).append hA hsep).congr (b := bs.flatMap (Block.tags out) ++ tag K (prev.toList.flatMap Done.rows))
    (by intro p; rw [List.mem_append, List.mem_append, Or.comm])
  have hcompat : Compat (bs.flatMap (Block.tags out) ++ tag K (prev.toList.flatMap Done.rows)) := by
    intro p hp1 q hq1 e et
    rcases List.mem_append.1 hp1 with hp1 | hp1 <;> rcases List.mem_append.1 hq1 with hq1 | hq1
    · exact compat_tags hok p hp1 q hq1 e et
    · have := hsep q hq1 p hp1; omega
    · have := hsep p hp1 q hq1; omega
    · exact inc_inj hPinc (mem_tag.1 hp1).2 (mem_tag.1 hq1).2 et
  have hrows := Ans.unique hcompat hM happ
  have hrow : ∀ d ∈ ds, ∀ r ∈ d.rows, (∃ p ∈ prev.toList, r ∈ p.rows) ∨ ∃ b ∈ bs, ∃ q ∈ b.rows, q.ts = r.ts ∧ inOut out r.ts = true := by
    intro d hd r hr
    have : r ∈ ds.flatMap Done.rows := List.mem_flatMap.2 ⟨d, hd, hr⟩
    rw [hrows] at this
    rcases List.mem_append.1 this with h | h
    · obtain ⟨p, hp', hr⟩ := List.mem_flatMap.1 h
      exact .inl ⟨p, hp', hr⟩
    · obtain ⟨q, hq, e⟩ := hA.time h
      obtain ⟨b, hb, hq⟩ := List.mem_flatMap.1 hq
      obtain ⟨_, q2, q3⟩ := mem_tags hq
      exact .inr ⟨b, hb, q.2, q2, e, by rw [← e]; exact q3⟩
  have hdinc : ∀ d ∈ ds, d.rows.Pairwise fun a b => a.ts < b.ts := by
    have := hM.inc
    rw [List.flatMap_def, List.pairwise_flatten] at this
    intro d hd
    exact this.1 d.rows (List.mem_map.2 ⟨d, hd, rfl⟩)
  refine ⟨N, ds, ?_, ⟨_, hA, hrows⟩, ?_, ?_, ?_⟩
  · intro fuel hf
    rw [hbatches]
    exact h1 fuel hf
  · intro d hd
    obtain ⟨hdne, he⟩ := h3 d hd
    have hr := ofRows_range (hdinc d hd) sid
    rw [← he] at hr
    refine ⟨by rw [he]; rfl, ?_, hr, ?_⟩
    · obtain ⟨r, hrm⟩ := List.exists_mem_of_ne_nil _ hdne
      have := hr r hrm
      omega
    · intro r hrm
      rcases hrow d hd r hrm with ⟨p, hp', hrp⟩ | ⟨_, _, _, _, _, h⟩
      · exact (hp p hp').1.inside r hrp
      · exact h
  · have := hM.inc
    rw [List.flatMap_def, List.pairwise_flatten] at this
    have h4 := this.2
    rw [List.pairwise_map] at h4
    refine (h4.imp_of_mem ?_)
    intro d e hd he hde
    obtain ⟨x, hx, e1⟩ := last_mem_ts (h3 d hd).1 sid
    obtain ⟨y, hy, e2⟩ := head_mem_ts (h3 e he).1 sid
    rw [← (h3 d hd).2] at e1
    rw [← (h3 e he).2] at e2
    have := hde x hx y hy
    omega
  · intro d hd
    obtain ⟨x, hx, e1⟩ := last_mem_ts (h3 d hd).1 sid
    obtain ⟨y, hy, e2⟩ := head_mem_ts (h3 d hd).1 sid
    rw [← (h3 d hd).2] at e1 e2
    constructor
    · intro z h1 h2
      rcases hrow d hd y hy with ⟨p, hp', hrp⟩ | ⟨b, hb, q, hq, e, _⟩
      · have := ((hp p hp').1.range y hrp).1
        have := h1 p hp'
        omega
      · have := (hok.range b hb q hq).1
        have := h2 b hb
        omega
    · intro z h1 h2
      rcases hrow d hd x hx with ⟨p, hp', hrp⟩ | ⟨b, hb, q, hq, e, _⟩
      · have := ((hp p hp').1.range x hrp).2
        have := h1 p hp'
        omega
      · have := (hok.range b hb q hq).2
        have := h2 b hb
        omega

theorem Merged.perm {cols sid : Nat} {out : Option (Int × Int)} {as bs : List (Block α)} {prev ds : List (Done α)}
    (h : Merged cols sid out as prev ds) (hm : ∀ b, b ∈ as ↔ b ∈ bs) : Merged cols sid out bs prev ds := by
  obtain ⟨⟨A, hA, hr⟩, h2, h3, h4⟩ := h
  refine ⟨⟨A, hA.congr ?_, hr⟩, h2, h3, ?_⟩
  · intro p
    rw [List.mem_flatMap, List.mem_flatMap]
    exact ⟨fun ⟨b, hb, h⟩ => ⟨b, (hm b).1 hb, h⟩, fun ⟨b, hb, h⟩ => ⟨b, (hm b).2 hb, h⟩⟩
  · intro d hd
    exact ⟨fun x h1 h2 => (h4 d hd).1 x h1 (fun b hb => h2 b ((hm b).1 hb)), fun x h1 h2 => (h4 d hd).2 x h1 (fun b hb => h2 b ((hm b).1 hb))⟩

theorem mergeGroup_spec {cols size sid : Nat} {out : Option (Int × Int)} (hs : 1 ≤ size) {blocks : List (Block α)} (hne : blocks ≠ [])
    (hok : BlocksOk cols out blocks) (prev : Option (Done α))
    (hp : ∀ p ∈ prev.toList, DoneOk sid out p ∧ (p.rows.Pairwise fun a b => a.ts < b.ts) ∧ (∀ r ∈ p.rows, r.cells.length = cols) ∧
      ∀ b ∈ blocks, p.hi < b.lo) :
    ∃ N ds, (∀ fuel, N < fuel → mergeGroup cols size fuel out sid blocks prev = some ds) ∧ Merged cols sid out blocks prev.toList ds := by
  have hm : ∀ b, b ∈ sortBy leI blocks ↔ b ∈ blocks := fun b => mem_sortBy
  have hsort : (sortBy leI blocks).Pairwise fun a b => a.idx ≤ b.idx := by
    have : (sortBy leI blocks).Pairwise fun a b => leI a b = true := sortBy_sorted
      (by intro a b c; simp only [leI, decide_eq_true_eq]; omega) (by intro a b; simp only [leI, decide_eq_true_eq]; omega) blocks
    exact this.imp (by intro a b h; simpa [leI] using h)
  have hok' : BlocksOk cols out (sortBy leI blocks) := hok.mono (fun b hb => (hm b).1 hb)
  have hp' : ∀ p ∈ prev.toList, DoneOk sid out p ∧ (p.rows.Pairwise fun a b => a.ts < b.ts) ∧ (∀ r ∈ p.rows, r.cells.length = cols) ∧
      ∀ b ∈ sortBy leI blocks, p.hi < b.lo :=
    fun p hpp => ⟨(hp p hpp).1, (hp p hpp).2.1, (hp p hpp).2.2.1, fun b hb => (hp p hpp).2.2.2 b ((hm b).1 hb)⟩
  have hne' : sortBy leI blocks ≠ [] := by
    intro e
    obtain ⟨b, hb⟩ := List.exists_mem_of_ne_nil _ hne
    have := (hm b).2 hb
    rw [e] at this; cases this
  obtain ⟨N, ds, h1, h2⟩ := merge_all_blocks (size := size) (sid := sid) hs hne' hsort hok' prev hp'
  suffices h : ∃ N ds, (∀ fuel, N < fuel → mergeGroup cols size fuel out sid blocks prev = some ds) ∧
      Merged cols sid out (sortBy leI blocks) prev.toList ds by
    obtain ⟨N, ds, h1, h2⟩ := h
    exact ⟨N, ds, h1, h2.perm hm⟩
  cases hL : sortBy leI blocks with
  | nil => exact absurd hL hne'
  | cons b l =>
    rw [hL] at h1 h2 hok' hp'
    cases l with
    | cons b' l =>
      refine ⟨N, ds, ?_, h2⟩
      intro fuel hf
      unfold mergeGroup
      rw [hL]
      exact h1 fuel hf
    | nil =>
      by_cases hraw : (!b.tomb && b.included out) = true
      · have hin : b.included out = true := by
          rw [Bool.and_eq_true] at hraw; exact hraw.2
        have hbm : b ∈ [b] := List.mem_singleton.2 rfl
        have hrr : b.raw = b.rows := by
          rw [Bool.and_eq_true] at hraw
          exact hok'.raw b hbm (by simpa using hraw.1)
        have hfil := filter_included hok' hbm hin
        have hbA : Ans cols (([b] : List (Block α)).flatMap (Block.tags out)) b.rows := by
          have : ([b] : List (Block α)).flatMap (Block.tags out) = tag b.idx b.rows := by
            simp [tags_included hok' hbm hin]
          rw [this]
          exact Ans.self _ (hok'.inc b hbm) (hok'.width b hbm)
        have hdone : DoneOk sid out ⟨sid, b.lo, b.hi, b.rows⟩ := by
          refine ⟨rfl, hok'.valid b hbm, hok'.range b hbm, ?_⟩
          intro r hr
          simp only at hr
          rw [← hfil] at hr
          exact (List.mem_filter.1 hr).2
        have hwith : ∀ pl : List (Done α), Within pl [b] ⟨sid, b.lo, b.hi, b.rows⟩ := fun pl => ⟨fun x _ h => h b hbm, fun x _ h => h b hbm⟩
        by_cases hsz : size ≤ b.raw.length
        · refine ⟨0, prev.toList ++ [⟨sid, b.lo, b.hi, b.rows⟩], ?_, ⟨⟨b.rows, hbA, by simp⟩, ?_, ?_, ?_⟩⟩
          · intro fuel _
            unfold mergeGroup
            rw [hL]
            simp only
            rw [if_pos hraw, if_pos hsz, hrr]
          · intro d hd
            rcases List.mem_append.1 hd with hd | hd
            · exact (hp' d hd).1
            · rw [List.mem_singleton.1 hd]; exact hdone
          · rw [List.pairwise_append]
            refine ⟨by cases prev <;> simp, by simp, ?_⟩
            intro p hpp d hd
            rw [List.mem_singleton.1 hd]
            have := (hp' p hpp).2.2.2 b hbm
            simp only
            omega
          · intro d hd
            rcases List.mem_append.1 hd with hd | hd
            · refine ⟨fun x h _ => h d hd, fun x h _ => h d hd⟩
            · rw [List.mem_singleton.1 hd]; exact hwith _
        · cases hpr : prev with
          | none =>
            refine ⟨0, [⟨sid, b.lo, b.hi, b.rows⟩], ?_, ⟨⟨b.rows, hbA, by simp⟩, ?_, by simp, ?_⟩⟩
            · intro fuel _
              unfold mergeGroup
              rw [hL]
              simp only
              rw [if_pos hraw, if_neg hsz, hrr]
            · intro d hd
              rw [List.mem_singleton.1 hd]; exact hdone
            · intro d hd
              rw [List.mem_singleton.1 hd]; exact hwith _
          | some p =>
            rw [hpr] at h1 h2
            refine ⟨N, ds, ?_, h2⟩
            intro fuel hf
            unfold mergeGroup
            rw [hL]
            simp only
            rw [if_pos hraw, if_neg hsz, hrr]
            have := h1 fuel hf
            rw [List.filterMap_cons, get_filter hok' hbm, hfil] at this
            simpa using this
      · refine ⟨N, ds, ?_, h2⟩
        intro fuel hf
        unfold mergeGroup
        rw [hL]
        simp only
        rw [if_neg hraw]
        exact h1 fuel hf

end Verif.Compact
