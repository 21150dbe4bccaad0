import Verif.Compact.Columns
import Verif.Compact.Props
/-!
# Compaction of files with different columns: what a reader of some columns sees

`see_compact`: when the versions of the files tell which column group has more of the columns `F`, a reader of these columns sees the
output of the compaction that `Verif.Compact.Model` describes.
-/
namespace Verif.Compact.Cols

open Verif.Sort Verif.Reader

variable {α : Type}

/-! ## One row -/

theorem idxOf?_getElem {ids : List Nat} {id j : Nat} (h : ids.idxOf? id = some j) : ids[j]? = some id := by
  rw [List.idxOf?, List.findIdx?_eq_some_iff_getElem] at h
  obtain ⟨hj, he, _⟩ := h
  rw [List.getElem?_eq_getElem hj]
  simpa using he

theorem idxOf?_lt {ids : List Nat} {id j : Nat} (h : ids.idxOf? id = some j) : j < ids.length := by
  have := idxOf?_getElem h
  refine Decidable.byContradiction fun hn => ?_
  rw [List.getElem?_eq_none (by omega)] at this
  cases this

theorem idxOf?_none {ids : List Nat} {id : Nat} : ids.idxOf? id = none ↔ id ∉ ids := by
  rw [List.idxOf?_eq_none_iff]

/-- A row that is projected to columns with all columns looked at that it has looks the same. -/
theorem see_project {F ids to : List Nat} (h : ∀ id ∈ F, id ∈ ids → id ∈ to) (r : Row α) : see F to (project ids to r) = see F ids r := by
  unfold see project Row.choose
  simp only [Row.mk.injEq, true_and, List.map_map]
  refine List.map_congr_left ?_
  intro id hid
  simp only [Function.comp]
  cases hj : to.idxOf? id with
  | none =>
    have : id ∉ ids := fun hm => idxOf?_none.1 hj (h id hid hm)
    rw [idxOf?_none.2 this]
    rfl
  | some j =>
    simp only [Option.bind_some, List.getElem?_map, idxOf?_getElem hj, Option.map_some, Option.join_some]
    rfl

@[simp] theorem see_ts (F ids : List Nat) (r : Row α) : (see F ids r).ts = r.ts := rfl

theorem filter_see (F ids : List Nat) (p : Int → Bool) (rows : List (Row α)) :
    (rows.map (see F ids)).filter (fun r => p r.ts) = (rows.filter fun r => p r.ts).map (see F ids) := by
  rw [List.filter_map]; rfl

/-! ## Merging -/

/-- The rows of a batch as a reader of the columns `F` sees them. -/
def Tab.see (F : List Nat) (t : Tab α) : List (Row α) := t.rows.map (Cols.see F t.ids)

/-- Of two column groups the one with the newer version has all columns of `F` that the other one has. -/
def Mono (F : List Nat) (H : List (Nat × List Nat)) : Prop := ∀ a ∈ H, ∀ b ∈ H, a.1 ≤ b.1 → ∀ id ∈ F, id ∈ a.2 → id ∈ b.2

theorem target_some {tabs : List (Tab α)} {t : Nat × List Nat} (h : target tabs = some t) :
    (∃ b ∈ tabs, t = (b.ver, b.ids)) ∧ ∀ b ∈ tabs, b.ver ≤ t.1 := by
  induction tabs generalizing t with
  | nil => cases h
  | cons a l ih =>
    unfold target at h
    cases ht : target l with
    | none =>
      rw [ht] at h
      cases l with
      | nil => cases h; exact ⟨⟨a, by simp, rfl⟩, by simp⟩
      | cons x l =>
        unfold target at ht
        split at ht
        · cases ht
        · split at ht <;> cases ht
    | some u =>
      rw [ht] at h
      obtain ⟨⟨b, hb, e⟩, h2⟩ := ih ht
      simp only at h
      split at h
      · cases h
        refine ⟨⟨a, by simp, rfl⟩, ?_⟩
        intro c hc
        rcases List.mem_cons.1 hc with e | hc
        · rw [e]; exact Nat.le_refl _
        · have := h2 c hc; simp only; omega
      · cases h
        refine ⟨⟨b, by simp [hb], e⟩, ?_⟩
        intro c hc
        rcases List.mem_cons.1 hc with e | hc
        · rw [e]; omega
        · exact h2 c hc

theorem target_none {tabs : List (Tab α)} : target tabs = none ↔ tabs = [] := by
  cases tabs with
  | nil => simp [target]
  | cons x l =>
    unfold target
    constructor
    · intro h
      split at h
      · cases h
      · split at h <;> cases h
    · intro h; cases h

theorem ofRows_see (F ids : List Nat) (sid : Nat) (rows : List (Row α)) :
    Compact.Done.ofRows sid (rows.map (see F ids)) = ⟨sid, (Compact.Done.ofRows sid rows).lo, (Compact.Done.ofRows sid rows).hi, rows.map (see F ids)⟩ := by
  unfold Compact.Done.ofRows
  simp only [List.head?_map, List.getLast?_map, Option.map_map]
  rfl

theorem seeFs_ok (F ids : List Nat) : FsOk ids.length (F.map fun id => ids.idxOf? id) := by
  intro o ho c hc
  obtain ⟨id, _, rfl⟩ := List.mem_map.1 ho
  exact idxOf?_lt hc

/-- Merging batches, as a reader of the columns `F` sees it. -/
theorem mergeTabs_see {F : List Nat} {H : List (Nat × List Nat)} (hm : Mono F H) (size fuel sid label : Nat) (tabs : List (Tab α))
    (hh : ∀ b ∈ tabs, (b.ver, b.ids) ∈ H) :
    mergeRows F.length size fuel sid (tabs.map (Tab.see F)) = (mergeTabs size fuel sid label tabs).map (List.map (Done.see F)) := by
  unfold mergeTabs
  cases ht : target tabs with
  | none => rw [target_none.1 ht]; rfl
  | some t =>
    obtain ⟨⟨b, hb, e⟩, hle⟩ := target_some ht
    have hne : tabs ≠ [] := List.ne_nil_of_mem hb
    simp only
    unfold mergeRows
    have h1 : (tabs.map (Tab.see F)).isEmpty = false := by cases tabs <;> simp_all
    have h2 : (tabs.map fun b => b.rows.map (project b.ids t.2)).isEmpty = false := by cases tabs <;> simp_all
    rw [h1, h2]
    simp only [Bool.false_eq_true, if_false]
    have hin : (tabs.map (Tab.see F)).map (fun rows => [Item.batch rows]) =
        (((tabs.map fun b => b.rows.map (project b.ids t.2)).map fun rows => [Item.batch rows])).map
          (List.map (Item.choose (F.map fun id => t.2.idxOf? id))) := by
      simp only [List.map_map]
      refine List.map_congr_left ?_
      intro c hc
      simp only [Function.comp, List.map_cons, List.map_nil, Item.choose, List.cons.injEq, Item.batch.injEq, and_true, Tab.see, List.map_map]
      refine List.map_congr_left ?_
      intro r _
      refine (see_project ?_ r).symm
      intro id hid hidc
      exact hm (c.ver, c.ids) (hh c hc) t (by rw [e]; exact hh b hb) (hle c hc) id hid hidc
    have hl : F.length = (F.map fun id => t.2.idxOf? id).length := by simp
    rw [hin]
    conv => lhs; rw [hl]
    rw [collect_choose (seeFs_ok F t.2)]
    simp only [Option.map_map]
    congr 1
    funext ls
    simp only [Function.comp, List.map_map]
    refine List.map_congr_left ?_
    intro rows _
    simp only [Function.comp]
    exact ofRows_see F t.2 sid rows

/-- What comes out has the version and the columns of one of the batches. -/
theorem mergeTabs_hdr {H : List (Nat × List Nat)} {size fuel sid label : Nat} {tabs : List (Tab α)} (hh : ∀ b ∈ tabs, (b.ver, b.ids) ∈ H)
    {ds : List (Done α)} (h : mergeTabs size fuel sid label tabs = some ds) : ∀ d ∈ ds, d.sid = sid ∧ (d.ver, d.ids) ∈ H := by
  unfold mergeTabs at h
  cases ht : target tabs with
  | none => rw [ht] at h; cases h
  | some t =>
    rw [ht] at h
    simp only [Option.map_eq_some_iff] at h
    obtain ⟨ls, _, rfl⟩ := h
    intro d hd
    obtain ⟨x, _, rfl⟩ := List.mem_map.1 hd
    obtain ⟨⟨b, hb, e⟩, _⟩ := target_some ht
    refine ⟨rfl, ?_⟩
    have := hh b hb
    rw [← e] at this
    exact this

/-! ## A group -/

/-- A block as a reader of the columns `F` sees it. -/
def Block.see (F : List Nat) (b : Block α) : Compact.Block α := ⟨b.idx, b.tomb, b.lo, b.hi, b.raw.map (Cols.see F b.ids), b.rows.map (Cols.see F b.ids)⟩

theorem sortBy_map {β γ : Type} (g : β → γ) (le : γ → γ → Bool) (l : List β) :
    sortBy le (l.map g) = (sortBy (fun a b => le (g a) (g b)) l).map g := by
  have hi : ∀ (a : β) (l : List β), insertBy le (g a) (l.map g) = (insertBy (fun a b => le (g a) (g b)) a l).map g := by
    intro a l
    induction l with
    | nil => rfl
    | cons b l ih =>
      simp only [List.map_cons, insertBy]
      split
      · simp
      · simp [ih]
  induction l with
  | nil => rfl
  | cons a l ih => simp only [List.map_cons, sortBy, ih, hi]

theorem get_see (F : List Nat) (out : Option (Int × Int)) (b : Block α) : (b.see F).get out = (b.get out).map (Tab.see F) := by
  unfold Block.get Compact.Block.get Block.plain Block.see
  cases out with
  | none => rfl
  | some p =>
    simp only
    split
    · simp only [Option.map_some, Option.some.injEq]
      unfold Tab.see
      simp only
      split
      · rfl
      · exact filter_see F b.ids (fun t => inOut (some p) t) b.rows
    · rfl

theorem decode_see (F : List Nat) (out : Option (Int × Int)) (d : Done α) : (d.see F).decode out = (d.decode out).see F :=
  filter_see F d.ids (fun t => inOut out t) d.rows

theorem mergeGroup_see {F : List Nat} {H : List (Nat × List Nat)} (hm : Mono F H) (size fuel : Nat) (out : Option (Int × Int)) (sid : Nat)
    (blocks : List (Block α)) (prev : Option (Done α)) (hb : ∀ b ∈ blocks, (b.ver, b.ids) ∈ H) (hp : ∀ p, prev = some p → (p.ver, p.ids) ∈ H) :
    Compact.mergeGroup F.length size fuel out sid (blocks.map (Block.see F)) (prev.map (Done.see F)) =
      (mergeGroup size fuel out sid blocks prev).map (List.map (Done.see F)) := by
  unfold Compact.mergeGroup mergeGroup
  rw [sortBy_map (Block.see F)]
  have hle : (fun a b : Block α => Compact.leI (a.see F) (b.see F)) = leI := rfl
  rw [hle]
  have hmem : ∀ b ∈ sortBy leI blocks, (b.ver, b.ids) ∈ H := fun b h => hb b (mem_sortBy.1 h)
  generalize sortBy leI blocks = bs at hmem
  have hall : ∀ (ver : Nat), mergeRows F.length size fuel sid ((bs.map (Block.see F)).filterMap (Compact.Block.get out) ++
        (prev.map (Done.see F)).toList.map (Compact.Done.decode out)) =
      (mergeTabs size fuel sid ver (bs.filterMap (Block.get out) ++ prev.toList.map (Done.decode out))).map (List.map (Done.see F)) := by
    intro ver
    rw [← mergeTabs_see hm]
    · congr 1
      rw [List.map_append, List.filterMap_map, List.map_filterMap]
      congr 1
      · congr 1
        funext b
        exact get_see F out b
      · cases prev with
        | none => rfl
        | some p => simp [decode_see]
    · intro t ht
      rcases List.mem_append.1 ht with ht | ht
      · obtain ⟨b, hb', e⟩ := List.mem_filterMap.1 ht
        unfold Block.get at e
        rw [Option.map_eq_some_iff] at e
        obtain ⟨rows, _, rfl⟩ := e
        exact hmem b hb'
      · obtain ⟨p, hp', rfl⟩ := List.mem_map.1 ht
        rw [Option.mem_toList] at hp'
        exact hp p hp'
  cases bs with
  | nil => rfl
  | cons b bs =>
    cases bs with
    | nil =>
      simp only [List.map_cons, List.map_nil, List.isEmpty_nil, Bool.true_and]
      have hinc : (b.see F).included out = b.plain.included out := rfl
      have ht : (b.see F).tomb = b.tomb := rfl
      rw [hinc, ht]
      by_cases hc : (!b.tomb && b.plain.included out) = true
      · rw [if_pos hc, if_pos hc]
        have hl : (b.see F).raw.length = b.raw.length := by simp [Block.see]
        rw [hl]
        by_cases hs : size ≤ b.raw.length
        · rw [if_pos hs, if_pos hs]
          simp only [Option.map_some, List.map_append, List.map_cons, List.map_nil, Option.some.injEq]
          cases prev <;> rfl
        · rw [if_neg hs, if_neg hs]
          cases prev with
          | none => rfl
          | some p =>
            simp only [Option.map_some]
            rw [← mergeTabs_see hm size fuel sid b.ver [⟨b.ver, b.ids, b.raw⟩, p.decode out]]
            · simp only [List.map_cons, List.map_nil, decode_see]
              rfl
            · intro t ht
              simp only [List.mem_cons, List.not_mem_nil, or_false] at ht
              rcases ht with rfl | rfl
              · exact hmem b (by simp)
              · exact hp p rfl
      · rw [if_neg hc, if_neg hc]
        exact hall b.ver
    | cons c bs =>
      simp only [List.map_cons, List.isEmpty_cons, Bool.false_and, Bool.false_eq_true, if_false]
      exact hall b.ver

theorem mergeGroup_hdr {H : List (Nat × List Nat)} {size fuel : Nat} {out : Option (Int × Int)} {sid : Nat} {blocks : List (Block α)}
    {prev : Option (Done α)} (hb : ∀ b ∈ blocks, (b.ver, b.ids) ∈ H) (hp : ∀ p, prev = some p → (p.ver, p.ids) ∈ H)
    {ds : List (Done α)} (h : mergeGroup size fuel out sid blocks prev = some ds) : ∀ d ∈ ds, (d.ver, d.ids) ∈ H := by
  unfold mergeGroup at h
  have hmem : ∀ b ∈ sortBy leI blocks, (b.ver, b.ids) ∈ H := fun b h => hb b (mem_sortBy.1 h)
  generalize sortBy leI blocks = bs at hmem h
  cases bs with
  | nil => cases h; simp
  | cons b bs =>
    simp only at h
    split at h
    · split at h
      · cases h
        intro d hd
        rcases List.mem_append.1 hd with hd | hd
        · rw [Option.mem_toList] at hd; exact hp d hd
        · simp only [List.mem_cons, List.not_mem_nil, or_false] at hd
          subst hd
          exact hmem b (by simp)
      · cases prev with
        | none =>
          cases h
          intro d hd
          simp only [List.mem_cons, List.not_mem_nil, or_false] at hd
          subst hd
          exact hmem b (by simp)
        | some p =>
          intro d hd
          refine (mergeTabs_hdr ?_ h d hd).2
          intro t ht
          simp only [List.mem_cons, List.not_mem_nil, or_false] at ht
          rcases ht with rfl | rfl
          · exact hmem b (by simp)
          · exact hp p rfl
    · intro d hd
      refine (mergeTabs_hdr ?_ h d hd).2
      intro t ht
      rcases List.mem_append.1 ht with ht | ht
      · obtain ⟨b', hb', e⟩ := List.mem_filterMap.1 ht
        unfold Block.get at e
        rw [Option.map_eq_some_iff] at e
        obtain ⟨rows, _, rfl⟩ := e
        exact hmem b' hb'
      · obtain ⟨p, hp', rfl⟩ := List.mem_map.1 ht
        rw [Option.mem_toList] at hp'
        exact hp p hp'

/-! ## Groups, series, files -/

/-- A group as a reader of the columns `F` sees it. -/
def Grp.see (F : List Nat) (g : Grp α) : Compact.Grp α := ⟨g.blocks.map (Block.see F), g.lo, g.hi⟩

theorem absorb_see (F : List Nat) (g : Grp α) (hs : List (Grp α)) :
    Compact.absorb (g.see F) (hs.map (Grp.see F)) = ((absorb g hs).1.see F, (absorb g hs).2.map (Grp.see F)) := by
  induction hs generalizing g with
  | nil => rfl
  | cons h hs ih =>
    have h1 : (h.see F).blocks.isEmpty = h.blocks.isEmpty := by simp [Grp.see]
    have h2 : (g.see F).overlaps (h.see F) = g.overlaps h := rfl
    unfold absorb Compact.absorb
    simp only [List.map_cons]
    rw [h1, h2]
    by_cases e1 : h.blocks.isEmpty = true
    · simp only [if_pos e1, ih, List.map_cons]
    · simp only [if_neg e1]
      by_cases e2 : g.overlaps h = true
      · simp only [if_pos e2]
        have := ih ⟨g.blocks ++ h.blocks, min g.lo h.lo, max g.hi h.hi⟩
        have e3 : Grp.see F ⟨g.blocks ++ h.blocks, min g.lo h.lo, max g.hi h.hi⟩ =
            ⟨(g.see F).blocks ++ (h.see F).blocks, min (g.see F).lo (h.see F).lo, max (g.see F).hi (h.see F).hi⟩ := by simp [Grp.see]
        rw [e3] at this
        rw [this]
        rfl
      · simp only [if_neg e2, ih, List.map_cons]

theorem groupLoop_see (F : List Nat) : ∀ (k : Nat) (gs : List (Grp α)), gs.length ≤ k →
    Compact.groupLoop (gs.map (Grp.see F)) = (groupLoop gs).map (Grp.see F)
  | k, [], _ => by unfold Compact.groupLoop groupLoop; rfl
  | 0, g :: gs, h => by simp at h
  | k + 1, g :: gs, h => by
    have h1 : (g.see F).blocks.isEmpty = g.blocks.isEmpty := by simp [Grp.see]
    unfold Compact.groupLoop groupLoop
    simp only [List.map_cons]
    rw [h1]
    simp only [List.length_cons] at h
    by_cases e1 : g.blocks.isEmpty = true
    · simp only [if_pos e1, List.map_cons]
      rw [groupLoop_see F k gs (by omega)]
    · simp only [if_neg e1, List.map_cons, absorb_see]
      rw [groupLoop_see F k _ (by rw [absorb_length]; omega)]

theorem groupsOf_see (F : List Nat) (blocks : List (Block α)) :
    Compact.groupsOf (blocks.map (Block.see F)) = (groupsOf blocks).map (Grp.see F) := by
  unfold Compact.groupsOf groupsOf
  rw [sortBy_map (Block.see F)]
  have h1 : (fun a b : Block α => leB (a.see F) (b.see F)) = fun a b => leB a.plain b.plain := rfl
  rw [h1, List.map_map]
  have h2 : (Compact.Grp.new ∘ Block.see F : Block α → Compact.Grp α) = Grp.see F ∘ fun b => ⟨[b], b.lo, b.hi⟩ := rfl
  rw [h2, ← List.map_map, groupLoop_see F _ _ (Nat.le_refl _), List.filter_map]
  congr 2
  funext g
  simp [Grp.see]

theorem absorb_mem (g : Grp α) (hs : List (Grp α)) (b : Block α) :
    (b ∈ (absorb g hs).1.blocks ∨ ∃ h ∈ (absorb g hs).2, b ∈ h.blocks) → b ∈ g.blocks ∨ ∃ h ∈ hs, b ∈ h.blocks := by
  induction hs generalizing g with
  | nil => intro h; simpa [absorb] using h
  | cons h hs ih =>
    unfold absorb
    split
    · rintro (hb | ⟨x, hx, hb⟩)
      · rcases ih g (.inl hb) with h1 | ⟨y, hy, h1⟩
        · exact .inl h1
        · exact .inr ⟨y, List.mem_cons_of_mem _ hy, h1⟩
      · rcases List.mem_cons.1 hx with e | hx
        · exact .inr ⟨h, List.mem_cons_self, by rw [← e]; exact hb⟩
        · rcases ih g (.inr ⟨x, hx, hb⟩) with h1 | ⟨y, hy, h1⟩
          · exact .inl h1
          · exact .inr ⟨y, List.mem_cons_of_mem _ hy, h1⟩
    · split
      · have key : (b ∈ g.blocks ++ h.blocks ∨ ∃ y ∈ hs, b ∈ y.blocks) → b ∈ g.blocks ∨ ∃ y ∈ h :: hs, b ∈ y.blocks := by
          rintro (h1 | ⟨y, hy, h1⟩)
          · rcases List.mem_append.1 h1 with h1 | h1
            · exact .inl h1
            · exact .inr ⟨h, List.mem_cons_self, h1⟩
          · exact .inr ⟨y, List.mem_cons_of_mem _ hy, h1⟩
        rintro (hb | ⟨x, hx, hb⟩)
        · exact key (ih _ (.inl hb))
        · rcases List.mem_cons.1 hx with e | hx
          · rw [e] at hb; cases hb
          · exact key (ih _ (.inr ⟨x, hx, hb⟩))
      · rintro (hb | ⟨x, hx, hb⟩)
        · rcases ih g (.inl hb) with h1 | ⟨y, hy, h1⟩
          · exact .inl h1
          · exact .inr ⟨y, List.mem_cons_of_mem _ hy, h1⟩
        · rcases List.mem_cons.1 hx with e | hx
          · exact .inr ⟨h, List.mem_cons_self, by rw [← e]; exact hb⟩
          · rcases ih g (.inr ⟨x, hx, hb⟩) with h1 | ⟨y, hy, h1⟩
            · exact .inl h1
            · exact .inr ⟨y, List.mem_cons_of_mem _ hy, h1⟩

theorem groupLoop_mem : ∀ (k : Nat) (gs : List (Grp α)), gs.length ≤ k → ∀ g ∈ groupLoop gs, ∀ b ∈ g.blocks, ∃ h ∈ gs, b ∈ h.blocks
  | k, [], _ => by unfold groupLoop; simp
  | 0, g :: gs, h => by simp at h
  | k + 1, g :: gs, h => by
    simp only [List.length_cons] at h
    unfold groupLoop
    intro x hx b hb
    split at hx
    · rcases List.mem_cons.1 hx with e | hx
      · exact ⟨g, List.mem_cons_self, by rw [← e]; exact hb⟩
      · obtain ⟨y, hy, h1⟩ := groupLoop_mem k gs (by omega) x hx b hb
        exact ⟨y, List.mem_cons_of_mem _ hy, h1⟩
    · have key : b ∈ (absorb g gs).1.blocks ∨ ∃ y ∈ (absorb g gs).2, b ∈ y.blocks := by
        rcases List.mem_cons.1 hx with e | hx
        · exact .inl (by rw [← e]; exact hb)
        · exact .inr (groupLoop_mem k _ (by rw [absorb_length]; omega) x hx b hb)
      rcases absorb_mem g gs b key with h1 | ⟨y, hy, h1⟩
      · exact ⟨g, List.mem_cons_self, h1⟩
      · exact ⟨y, List.mem_cons_of_mem _ hy, h1⟩

theorem groupsOf_mem {blocks : List (Block α)} {g : Grp α} (hg : g ∈ groupsOf blocks) {b : Block α} (hb : b ∈ g.blocks) : b ∈ blocks := by
  unfold groupsOf at hg
  obtain ⟨h, hh, hb'⟩ := groupLoop_mem _ _ (Nat.le_refl _) g (List.mem_filter.1 hg).1 b hb
  obtain ⟨c, hc, rfl⟩ := List.mem_map.1 hh
  simp only [List.mem_cons, List.not_mem_nil, or_false] at hb'
  rw [hb']
  exact mem_sortBy.1 hc

theorem pieces_see (F : List Nat) (f : File α) (sid : Nat) :
    (f.see F).pieces sid = (f.pieces sid).map fun p => ⟨p.lo, p.hi, p.raw.map (see F p.ids), p.rows.map (see F p.ids)⟩ := by
  unfold Compact.File.pieces File.pieces File.see
  simp only [List.find?_map]
  have : ((fun c : Nat × List (Compact.Piece α) => decide (c.1 = sid)) ∘ fun c : Nat × List (Piece α) =>
      (c.1, c.2.map fun p => (⟨p.lo, p.hi, p.raw.map (see F p.ids), p.rows.map (see F p.ids)⟩ : Compact.Piece α))) =
      fun c => decide (c.1 = sid) := rfl
  rw [this]
  cases f.chunks.find? fun c => decide (c.1 = sid) <;> rfl

theorem blocksOf_see (F : List Nat) (files : List (File α)) (out : Option (Int × Int)) (sid idx : Nat) :
    Compact.blocksOf (files.map (File.see F)) out sid idx = (blocksOf files out sid idx).map (Block.see F) := by
  unfold Compact.blocksOf blocksOf
  rw [List.getElem?_map]
  cases files[idx]? with
  | none => rfl
  | some f =>
    simp only [Option.map_some]
    rw [pieces_see, List.filter_map, List.map_map, List.map_map]
    rfl

theorem nextSeries_see (F : List Nat) (files : List (File α)) (out : Option (Int × Int)) (fuel : Nat) (cs : List CFile) :
    Compact.nextSeries (files.map (File.see F)) out fuel cs =
      (nextSeries files out fuel cs).map fun r => (r.1, r.2.1.map (Block.see F), r.2.2) := by
  induction fuel generalizing cs with
  | zero => rfl
  | succ fuel ih =>
    unfold Compact.nextSeries nextSeries
    cases cs.head?.bind fun c => c.sids.head? with
    | none => rfl
    | some sid =>
      simp only
      have hb : (walk sid cs).1.flatMap (Compact.blocksOf (files.map (File.see F)) out sid) =
          ((walk sid cs).1.flatMap (blocksOf files out sid)).map (Block.see F) := by
        rw [List.map_flatMap]
        congr 1
        funext i
        exact blocksOf_see F files out sid i
      rw [hb]
      have he : (((walk sid cs).1.flatMap (blocksOf files out sid)).map (Block.see F)).isEmpty =
          ((walk sid cs).1.flatMap (blocksOf files out sid)).isEmpty := by simp
      rw [he]
      by_cases e : ((walk sid cs).1.flatMap (blocksOf files out sid)).isEmpty = true
      · rw [if_pos e, if_pos e]; exact ih _
      · rw [if_neg e, if_neg e]; rfl

theorem visits_see (F : List Nat) (files : List (File α)) (out : Option (Int × Int)) (fuel : Nat) (cs : List CFile) :
    Compact.visits (files.map (File.see F)) out fuel cs = (visits files out fuel cs).map fun v => (v.1, v.2.map (Block.see F)) := by
  induction fuel generalizing cs with
  | zero => rfl
  | succ fuel ih =>
    unfold Compact.visits visits
    rw [nextSeries_see]
    cases nextSeries files out (left cs + 1) cs with
    | none => rfl
    | some r =>
      obtain ⟨sid, blocks, cs'⟩ := r
      simp only [Option.map_some, List.map_cons, ih]

theorem start_see (F : List Nat) (files : List (File α)) : Compact.start (files.map (File.see F)) = start files := by
  unfold Compact.start start
  apply List.ext_getElem?
  intro i
  rw [List.getElem?_mapIdx, List.getElem?_mapIdx, List.getElem?_map]
  cases files[i]? with
  | none => rfl
  | some f =>
    simp only [Option.map_some, CFile.new, File.see, List.map_map]
    rfl

theorem allVisits_see (F : List Nat) (files : List (File α)) (out : Option (Int × Int)) :
    Compact.allVisits (files.map (File.see F)) out = (allVisits files out).map fun v => (v.1, v.2.map (Block.see F)) := by
  unfold Compact.allVisits allVisits
  rw [start_see, visits_see]

/-- The versions and columns of the column groups of a series. -/
def hdrs (files : List (File α)) (sid : Nat) : List (Nat × List Nat) := files.flatMap fun f => (f.pieces sid).map fun p => (f.ver, p.ids)

theorem blocksOf_hdr {files : List (File α)} {out : Option (Int × Int)} {sid idx : Nat} {b : Block α} (h : b ∈ blocksOf files out sid idx) :
    (b.ver, b.ids) ∈ hdrs files sid := by
  unfold blocksOf at h
  cases hf : files[idx]? with
  | none => rw [hf] at h; cases h
  | some f =>
    rw [hf] at h
    obtain ⟨p, hp, rfl⟩ := List.mem_map.1 h
    exact List.mem_flatMap.2 ⟨f, List.mem_of_getElem? hf, List.mem_map.2 ⟨p, (List.mem_filter.1 hp).1, rfl⟩⟩

theorem nextSeries_hdr {files : List (File α)} {out : Option (Int × Int)} {fuel : Nat} {cs : List CFile} {r : Nat × List (Block α) × List CFile}
    (h : nextSeries files out fuel cs = some r) : ∀ b ∈ r.2.1, (b.ver, b.ids) ∈ hdrs files r.1 := by
  induction fuel generalizing cs with
  | zero => cases h
  | succ fuel ih =>
    unfold nextSeries at h
    cases hc : cs.head?.bind fun c => c.sids.head? with
    | none => rw [hc] at h; cases h
    | some sid =>
      rw [hc] at h
      simp only at h
      split at h
      · exact ih h
      · cases h
        intro b hb
        obtain ⟨i, _, hb⟩ := List.mem_flatMap.1 hb
        exact blocksOf_hdr hb

theorem visits_hdr {files : List (File α)} {out : Option (Int × Int)} {fuel : Nat} {cs : List CFile} :
    ∀ v ∈ visits files out fuel cs, ∀ b ∈ v.2, (b.ver, b.ids) ∈ hdrs files v.1 := by
  induction fuel generalizing cs with
  | zero => intro v hv; cases hv
  | succ fuel ih =>
    unfold visits
    cases hn : nextSeries files out (left cs + 1) cs with
    | none => intro v hv; cases hv
    | some r =>
      obtain ⟨sid, blocks, cs'⟩ := r
      intro v hv
      rcases List.mem_cons.1 hv with rfl | hv
      · exact nextSeries_hdr hn
      · exact ih v hv

/-- The state of a compaction as a reader of the columns `F` sees it. -/
def St.see (F : List Nat) (s : St α) : Compact.St α := ⟨s.written.map (Done.see F), s.prev.map (Done.see F), s.cur⟩

theorem write_see (F : List Nat) (w : List (Done α)) (d : Done α) :
    Compact.write (w.map (Done.see F)) (d.see F) = (write w d).map (List.map (Done.see F)) := by
  unfold Compact.write write
  rw [List.any_map]
  have : ((fun x : Compact.Done α => decide (x.sid = (d.see F).sid) && decide ((d.see F).lo < x.hi)) ∘ Done.see F) =
      fun x => decide (x.sid = d.sid) && decide (d.lo < x.hi) := rfl
  rw [this]
  split
  · rfl
  · simp

theorem writeAll_see (F : List Nat) (w ds : List (Done α)) :
    Compact.writeAll (w.map (Done.see F)) (ds.map (Done.see F)) = (writeAll w ds).map (List.map (Done.see F)) := by
  induction ds generalizing w with
  | nil => rfl
  | cons d ds ih =>
    unfold Compact.writeAll writeAll
    simp only [List.map_cons]
    rw [write_see]
    cases write w d with
    | none => rfl
    | some w' => exact ih w'

theorem turn_see (F : List Nat) (sid : Nat) (s : St α) : (s.see F).turn sid = (s.turn sid).map (St.see F) := by
  obtain ⟨w, p, c⟩ := s
  unfold Compact.St.turn St.turn St.see
  cases c with
  | none => rfl
  | some c =>
    cases p with
    | none => rfl
    | some p =>
      simp only [Option.map_some]
      by_cases e : c ≠ sid
      · rw [if_pos e, if_pos e, write_see]
        cases write w p <;> rfl
      · rw [if_neg e, if_neg e]; rfl

theorem take_see (F : List Nat) (size : Nat) (s : St α) (ds : List (Done α)) :
    (s.see F).take size (ds.map (Done.see F)) = (s.take size ds).map (St.see F) := by
  unfold Compact.St.take St.take
  rw [List.getLast?_map]
  cases ds.getLast? with
  | none => rfl
  | some d =>
    simp only [Option.map_some]
    have hl : (d.see F).rows.length = d.rows.length := by simp [Done.see]
    rw [hl, ← List.map_dropLast]
    by_cases e : d.rows.length < size
    · rw [if_pos e, if_pos e]
      show (Compact.writeAll (s.written.map (Done.see F)) (ds.dropLast.map (Done.see F))).map _ = _
      rw [writeAll_see]
      cases writeAll s.written ds.dropLast <;> rfl
    · rw [if_neg e, if_neg e]
      show (Compact.writeAll (s.written.map (Done.see F)) (ds.map (Done.see F))).map _ = _
      rw [writeAll_see]
      cases writeAll s.written ds <;> rfl

theorem take_prev {size : Nat} {s s' : St α} {ds : List (Done α)} (h : s.take size ds = some s') :
    s'.cur = s.cur ∧ ∀ p, s'.prev = some p → p ∈ ds := by
  unfold St.take at h
  cases hl : ds.getLast? with
  | none => rw [hl] at h; cases h; exact ⟨rfl, by simp⟩
  | some d =>
    rw [hl] at h
    simp only at h
    split at h
    · rw [Option.map_eq_some_iff] at h
      obtain ⟨w, _, rfl⟩ := h
      refine ⟨rfl, ?_⟩
      intro p hp
      cases hp
      exact List.mem_of_getLast? hl
    · rw [Option.map_eq_some_iff] at h
      obtain ⟨w, _, rfl⟩ := h
      exact ⟨rfl, by simp⟩

/-- The waiting block has the version and the columns of a column group of its series. -/
def PrevOk (files : List (File α)) (s : St α) : Prop := ∀ p, s.prev = some p → ∃ sid, s.cur = some sid ∧ (p.ver, p.ids) ∈ hdrs files sid

theorem turn_prev {files : List (File α)} {s s' : St α} {sid : Nat} (hp : PrevOk files s) (h : s.turn sid = some s') :
    s'.cur = some sid ∧ ∀ p, s'.prev = some p → (p.ver, p.ids) ∈ hdrs files sid := by
  obtain ⟨w, p, c⟩ := s
  unfold St.turn at h
  cases p with
  | none => cases c <;> cases h <;> exact ⟨rfl, by simp⟩
  | some p =>
    obtain ⟨c', e, hh⟩ := hp p rfl
    simp only at e
    subst e
    simp only at h
    split at h
    · rw [Option.map_eq_some_iff] at h
      obtain ⟨w, _, rfl⟩ := h
      exact ⟨rfl, by simp⟩
    · cases h
      rename_i e
      have e : c' = sid := Decidable.not_not.1 e
      subst e
      refine ⟨rfl, ?_⟩
      intro q hq
      cases hq
      exact hh

theorem group_see {F : List Nat} {files : List (File α)} {sid : Nat} (hm : Mono F (hdrs files sid)) (size fuel : Nat) (out : Option (Int × Int))
    (s : St α) (hp : PrevOk files s) (g : Grp α) (hg : ∀ b ∈ g.blocks, (b.ver, b.ids) ∈ hdrs files sid) :
    (s.see F).group F.length size fuel out sid (g.see F) = (s.group size fuel out sid g).map (St.see F) ∧
      ∀ s', s.group size fuel out sid g = some s' → PrevOk files s' := by
  unfold Compact.St.group St.group
  rw [turn_see]
  cases ht : s.turn sid with
  | none => exact ⟨rfl, by simp⟩
  | some s1 =>
    obtain ⟨h1, h2⟩ := turn_prev hp ht
    simp only [Option.map_some]
    have hmg := mergeGroup_see hm size fuel out sid g.blocks s1.prev hg h2
    have e1 : (g.see F).blocks = g.blocks.map (Block.see F) := rfl
    have e2 : (s1.see F).prev = s1.prev.map (Done.see F) := rfl
    rw [e1, e2, hmg]
    cases hd : mergeGroup size fuel out sid g.blocks s1.prev with
    | none => exact ⟨rfl, by simp⟩
    | some ds =>
      simp only [Option.map_some]
      refine ⟨take_see F size { s1 with cur := some sid } ds, ?_⟩
      intro s' hs' p hp'
      obtain ⟨h3, h4⟩ := take_prev hs'
      exact ⟨sid, h3, mergeGroup_hdr hg h2 hd p (h4 p hp')⟩

theorem groups_see {F : List Nat} {files : List (File α)} {sid : Nat} (hm : Mono F (hdrs files sid)) (size fuel : Nat) (out : Option (Int × Int))
    (gs : List (Grp α)) (s : St α) (hp : PrevOk files s) (hg : ∀ g ∈ gs, ∀ b ∈ g.blocks, (b.ver, b.ids) ∈ hdrs files sid) :
    (s.see F).groups F.length size fuel out sid (gs.map (Grp.see F)) = (s.groups size fuel out sid gs).map (St.see F) ∧
      ∀ s', s.groups size fuel out sid gs = some s' → PrevOk files s' := by
  induction gs generalizing s with
  | nil => exact ⟨rfl, by intro s' h; cases h; exact hp⟩
  | cons g gs ih =>
    obtain ⟨h1, h2⟩ := group_see hm size fuel out s hp g (hg g List.mem_cons_self)
    unfold Compact.St.groups St.groups
    simp only [List.map_cons]
    rw [h1]
    cases he : s.group size fuel out sid g with
    | none => exact ⟨rfl, by simp⟩
    | some s1 => exact ih s1 (h2 s1 he) (fun g hg' => hg g (List.mem_cons_of_mem _ hg'))

theorem run_see {F : List Nat} {files : List (File α)} (hm : ∀ sid, Mono F (hdrs files sid)) (size fuel : Nat) (out : Option (Int × Int))
    (vs : List (Nat × List (Block α))) (s : St α) (hp : PrevOk files s) (hv : ∀ v ∈ vs, ∀ b ∈ v.2, (b.ver, b.ids) ∈ hdrs files v.1) :
    (s.see F).run F.length size fuel out (vs.map fun v => (v.1, v.2.map (Block.see F))) = (s.run size fuel out vs).map (St.see F) := by
  induction vs generalizing s with
  | nil => rfl
  | cons v vs ih =>
    obtain ⟨h1, h2⟩ := groups_see (hm v.1) size fuel out (groupsOf v.2) s hp
      (fun g hg b hb => hv v List.mem_cons_self b (groupsOf_mem hg hb))
    unfold Compact.St.run St.run
    simp only [List.map_cons]
    rw [groupsOf_see, h1]
    cases he : s.groups size fuel out v.1 (groupsOf v.2) with
    | none => rfl
    | some s1 => exact ih s1 (h2 s1 he) (fun w hw => hv w (List.mem_cons_of_mem _ hw))

/-- A reader of the columns `F` sees the output of the compaction of what it sees of the input. -/
theorem see_compact {F : List Nat} {files : List (File α)} (hm : ∀ sid, Mono F (hdrs files sid)) (size fuel : Nat) (out : Option (Int × Int)) :
    Compact.compact F.length size fuel out (files.map (File.see F)) = (compact size fuel out files).map (List.map (Done.see F)) := by
  unfold Compact.compact compact
  rw [allVisits_see]
  have h0 : (⟨[], none, none⟩ : Compact.St α) = St.see F ⟨[], none, none⟩ := rfl
  rw [h0, run_see hm size fuel out (allVisits files out) ⟨[], none, none⟩ (by intro p hp; cases hp) visits_hdr]
  cases St.run size fuel out ⟨[], none, none⟩ (allVisits files out) with
  | none => rfl
  | some s =>
    obtain ⟨w, p, c⟩ := s
    cases p with
    | none => rfl
    | some p => exact write_see F w p

end Verif.Compact.Cols
