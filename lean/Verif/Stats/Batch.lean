import Verif.Stats.Model
/-!
# C78: pages read in batches are the pages of the file
-/
namespace Verif.Stats

/-- Pages that follow each other without gaps from a position on. -/
def ContigFrom : Nat → List Spec → Prop
  | _, [] => True
  | o, p :: ps => p.offset = o ∧ ContigFrom (o + p.size) ps

/-- The bytes of some pages. -/
def total (ps : List Spec) : Nat := (ps.map (·.size)).sum

theorem contigFrom_snoc {o : Nat} {ps : List Spec} {p : Spec} (h : ContigFrom o ps) (hp : p.offset = o + total ps) :
    ContigFrom o (ps ++ [p]) := by
  induction ps generalizing o with
  | nil => exact ⟨by simpa [total] using hp, trivial⟩
  | cons x xs ih =>
    refine ⟨h.1, ih h.2 ?_⟩
    rw [hp]; simp [total]; omega

theorem slice_readAt (file : List Byte) (base len off n : Nat) (h : off + n ≤ len) :
    Page.slice (readAt file base len) off (off + n) = some (readAt file (base + off) n) := by
  unfold Page.slice
  have hl : (readAt file base len).length = len := by simp [readAt]
  rw [if_pos ⟨by omega, by omega⟩]
  congr 1
  apply List.ext_getElem?
  intro i
  rw [List.getElem?_drop, List.getElem?_take]
  unfold readAt
  by_cases hi : i < n
  · rw [if_pos (by omega)]
    simp [List.getElem?_map, List.getElem?_range (show off + i < len by omega), List.getElem?_range hi, Nat.add_assoc]
  · rw [if_neg (by omega), List.getElem?_eq_none (by simp; omega)]

theorem cut_eq (file : List Byte) (base len : Nat) :
    ∀ (ps : List Spec) (off : Nat), ContigFrom (base + off) ps → off + total ps ≤ len →
      cut (readAt file base len) off ps = ps.mapM (readOne file) := by
  intro ps
  induction ps with
  | nil => intro _ _ _; rfl
  | cons p ps ih =>
    intro off hc hl
    have hl' : off + p.size + total ps ≤ len := by
      simp only [total, List.map_cons, List.sum_cons] at hl ⊢; omega
    rw [cut, slice_readAt _ _ _ _ _ (by omega), List.mapM_cons, readOne, hc.1]
    simp only [Option.bind_some]
    rw [ih (off + p.size) (by rw [← Nat.add_assoc]; exact hc.2) hl']
    cases Page.crcValidation (readAt file (base + off) p.size) with
    | none => rfl
    | some ok => cases ok <;> simp <;> cases ps.mapM (readOne file) <;> rfl

/-- A batch: pages that follow each other, at least one. -/
def Batch (ps : List Spec) : Prop := ∃ p rest, ps = p :: rest ∧ ContigFrom p.offset ps

theorem readAdjacent_eq (file : List Byte) {ps : List Spec} (h : Batch ps) : readAdjacent file ps = ps.mapM (readOne file) := by
  obtain ⟨p, rest, rfl, hc⟩ := h
  exact cut_eq file p.offset _ _ 0 hc (by simp [total])

/-- The state of the loop after some pages. -/
structure MergeOk (s : List (List Spec) × List Spec × Nat) (seen : List Spec) : Prop where
  flat : s.1.flatten ++ s.2.1 = seen
  batches : ∀ b ∈ s.1, Batch b
  cur : s.2.1 ≠ [] → Batch s.2.1
  last : ∀ p, s.2.1.head? = some p → s.2.2 = p.offset + total s.2.1

theorem mergeStep_ok {s : List (List Spec) × List Spec × Nat} {seen : List Spec} (h : MergeOk s seen) (p : Spec) :
    MergeOk (mergeStep s p) (seen ++ [p]) := by
  obtain ⟨done, cur, last⟩ := s
  unfold mergeStep
  dsimp only
  have hf : done.flatten ++ cur = seen := h.flat
  have hb : ∀ b ∈ done, Batch b := h.batches
  have hcur : cur ≠ [] → Batch cur := h.cur
  have hlast : ∀ p, cur.head? = some p → last = p.offset + total cur := h.last
  split
  · rename_i hc
    cases cur with
    | nil =>
      refine ⟨by simpa using hf, hb, fun _ => ⟨p, [], rfl, rfl, trivial⟩, ?_⟩
      intro x hx
      simp at hx; subst hx; simp [total]
    | cons y ys =>
      have hoff : p.offset = last := by simpa using hc
      obtain ⟨p0, rest, e, hcon⟩ := hcur (by simp)
      cases e
      have hl := hlast y rfl
      refine ⟨by rw [← hf]; simp, hb, fun _ => ⟨y, ys ++ [p], rfl, ?_⟩, ?_⟩
      · have := contigFrom_snoc hcon (p := p) (by rw [hoff, hl])
        simpa using this
      · intro x hx
        simp at hx; subst hx
        dsimp only
        rw [hoff, hl]; simp [total]; omega
  · rename_i hc
    have hne : cur ≠ [] := by intro e; simp [e] at hc
    refine ⟨?_, ?_, fun _ => ⟨p, [], rfl, rfl, trivial⟩, ?_⟩
    · rw [← hf]; simp
    · intro b hb'
      rcases List.mem_append.1 hb' with hb' | hb'
      · exact hb b hb'
      · simp at hb'; subst hb'; exact hcur hne
    · intro x hx
      simp at hx; subst hx; simp [total]

theorem merge_ok (pages : List Spec) : ∀ s seen, MergeOk s seen → MergeOk (pages.foldl mergeStep s) (seen ++ pages) := by
  induction pages with
  | nil => intro s seen h; simpa using h
  | cons p ps ih => intro s seen h; simpa using ih _ _ (mergeStep_ok h p)

/-- **C78** (batches): every page is in exactly one batch, in the same order; each batch is a run of pages
without gaps. -/
theorem C78_batches (pages : List Spec) : (mergeAdjacent pages).flatten = pages ∧ ∀ b ∈ mergeAdjacent pages, Batch b := by
  have h := merge_ok pages ([], [], 0) [] ⟨rfl, by simp, by simp, by simp⟩
  rw [List.nil_append] at h
  unfold mergeAdjacent
  dsimp only
  split
  · rename_i he
    have e : (pages.foldl mergeStep ([], [], 0)).2.1 = [] := by simpa using he
    refine ⟨?_, h.batches⟩
    have := h.flat
    rwa [e, List.append_nil] at this
  · rename_i he
    have e : (pages.foldl mergeStep ([], [], 0)).2.1 ≠ [] := by simpa using he
    refine ⟨by simpa using h.flat, ?_⟩
    intro b hb
    rcases List.mem_append.1 hb with hb | hb
    · exact h.batches b hb
    · simp at hb; subst hb; exact h.cur e

theorem mapM_flatten {α β : Type} (f : α → Option β) (ls : List (List α)) :
    (ls.mapM fun (l : List α) => l.mapM f).map List.flatten = ls.flatten.mapM f := by
  induction ls with
  | nil => rfl
  | cons l ls ih =>
    rw [List.mapM_cons, List.flatten_cons, List.mapM_append, ← ih]
    cases l.mapM f <;> simp
    cases ls.mapM (fun (l : List α) => l.mapM f) <;> rfl

theorem mapM_congr {α β : Type} {f g : α → Option β} {l : List α} (h : ∀ a ∈ l, f a = g a) : l.mapM f = l.mapM g := by
  induction l with
  | nil => rfl
  | cons a l ih =>
    rw [List.mapM_cons, List.mapM_cons, h a (List.mem_cons_self ..), ih fun x hx => h x (List.mem_cons_of_mem _ hx)]

/-- **C78**: reading the pages of a column group in batches gives, in the order of the file, what reading each
page by itself gives: its own bytes; and it fails exactly if one of the pages is damaged. -/
theorem C78_batched_read (file : List Byte) (pages : List Spec) :
    readPages file pages = (Sort.sortBy (fun a b => decide (a.offset ≤ b.offset)) pages).mapM (readOne file) := by
  obtain ⟨h1, h2⟩ := C78_batches (Sort.sortBy (fun a b => decide (a.offset ≤ b.offset)) pages)
  unfold readPages
  rw [mapM_congr fun b hb => readAdjacent_eq file (h2 b hb), mapM_flatten, h1]

theorem mapM_some_iff {α β : Type} {f : α → Option β} {l : List α} {r : List β} (h : l.mapM f = some r) :
    List.Forall₂ (fun a b => f a = some b) l r := by
  induction l generalizing r with
  | nil => cases h; exact .nil
  | cons a l ih =>
    rw [List.mapM_cons] at h
    cases ha : f a with
    | none => rw [ha] at h; cases h
    | some b =>
      cases hl : l.mapM f with
      | none => rw [ha, hl] at h; cases h
      | some bs => rw [ha, hl] at h; cases h; exact .cons ha (ih hl)

/-- **C78** (content): the pages that come back are the wanted ones, each with the bytes at its place in the
file. -/
theorem C78_content (file : List Byte) (pages : List Spec) (out : List (Spec × List Byte)) (h : readPages file pages = some out) :
    (out.map (·.1)).Perm pages ∧ ∀ x ∈ out, x.2 = readAt file x.1.offset x.1.size ∧ Page.crcValidation x.2 = some true := by
  rw [C78_batched_read] at h
  have hf := mapM_some_iff h
  have one : ∀ a b, readOne file a = some b → b.1 = a ∧ b.2 = readAt file a.offset a.size ∧ Page.crcValidation b.2 = some true := by
    intro a b hab
    unfold readOne at hab
    dsimp only at hab
    cases hc : Page.crcValidation (readAt file a.offset a.size) with
    | none => rw [hc] at hab; cases hab
    | some ok =>
      rw [hc] at hab
      cases ok with
      | false => cases hab
      | true => cases hab; exact ⟨rfl, rfl, hc⟩
  have key : ∀ (l : List Spec) (r : List (Spec × List Byte)), List.Forall₂ (fun a b => readOne file a = some b) l r →
      r.map (·.1) = l ∧ ∀ x ∈ r, x.2 = readAt file x.1.offset x.1.size ∧ Page.crcValidation x.2 = some true := by
    intro l r hlr
    induction hlr with
    | nil => simp
    | cons hab _ ih =>
      rename_i a b l r _
      obtain ⟨e1, e2, e3⟩ := one a b hab
      refine ⟨by simp [e1, ih.1], ?_⟩
      intro x hx
      rcases List.mem_cons.1 hx with rfl | hx
      · exact ⟨by rw [e1]; exact e2, e3⟩
      · exact ih.2 x hx
  obtain ⟨e1, e2⟩ := key _ _ hf
  exact ⟨by rw [e1]; exact Sort.sortBy_perm _ _, e2⟩

/-- **C78** (projection): of the wanted columns, exactly those come back that have a page in the column group. -/
theorem C78_projection (file : List Byte) (pages : List Spec) (projection : List Nat) (hn : (pages.map (·.id)).Nodup)
    (out : List (Spec × List Byte)) (h : readPages file (project pages projection) = some out) (p : Spec) :
    p ∈ out.map (·.1) ↔ p ∈ pages ∧ p.id ∈ projection := by
  rw [(C78_content file _ out h).1.mem_iff]
  unfold project
  rw [List.mem_filterMap]
  constructor
  · rintro ⟨c, hc, hf⟩
    have h1 := List.mem_of_find?_eq_some hf
    have h2 := List.find?_some hf
    exact ⟨h1, by rw [of_decide_eq_true h2]; exact hc⟩
  · rintro ⟨h1, h2⟩
    refine ⟨p.id, h2, ?_⟩
    clear h h2
    induction pages with
    | nil => cases h1
    | cons x xs ih =>
      simp only [List.map_cons, List.nodup_cons] at hn
      rw [List.find?_cons]
      rcases List.mem_cons.1 h1 with rfl | h1
      · simp
      · have : x.id ≠ p.id := fun e => hn.1 (by rw [e]; exact List.mem_map.2 ⟨p, h1, rfl⟩)
        rw [decide_eq_false this]
        exact ih hn.2 h1

/-- An empty page (16 bytes of zeros: no rows, no data) at three places; the batches are found. -/
def exSpecs : List Spec := [⟨2, 48, 16⟩, ⟨0, 0, 16⟩, ⟨1, 16, 16⟩]

/-- Witness: two of the three pages are read at once. -/
example : mergeAdjacent (Sort.sortBy (fun a b => decide (a.offset ≤ b.offset)) exSpecs) = [[⟨0, 0, 16⟩, ⟨1, 16, 16⟩], [⟨2, 48, 16⟩]] ∧
    (readPages (List.replicate 64 0) exSpecs).map (·.map (·.1.id)) = some [0, 1, 2] := by
  constructor <;> decide +kernel

end Verif.Stats
