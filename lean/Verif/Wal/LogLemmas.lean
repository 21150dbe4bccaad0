import Verif.Wal.Log
/-!
# Lemmas about the log: the invariant and what the operations do
-/
namespace Verif.Wal.Log

open Verif.Wal.Ring (Cache)

variable {E : Type} {idx : E → Nat} {len : E → Nat}

/-! ## Ascending lists -/

section Asc
variable {α : Type} {g : α → Nat}

/-- Strictly ascending by `g`. -/
abbrev Asc (g : α → Nat) (l : List α) : Prop := l.Pairwise (fun a b => g a < g b)

/-- Without gaps. -/
def Conv (g : α → Nat) (l : List α) : Prop :=
  ∀ a ∈ l, ∀ b ∈ l, ∀ c, g a ≤ c → c ≤ g b → ∃ e ∈ l, g e = c

theorem filter_ge_eq {l : List α} (h : Asc g l) (k : Nat) :
    l.filter (fun x => decide (k ≤ g x)) = l.dropWhile (fun x => decide (g x < k)) := by
  induction l with
  | nil => rfl
  | cons x xs ih =>
    obtain ⟨h1, h2⟩ := List.pairwise_cons.1 h
    by_cases hx : g x < k
    · rw [List.filter_cons_of_neg (by simp; omega), List.dropWhile_cons_of_pos (by simpa using hx), ih h2]
    · rw [List.filter_cons_of_pos (by simp; omega), List.dropWhile_cons_of_neg (by simpa using hx),
        List.filter_eq_self.2]
      intro y hy
      have := h1 y hy
      simp; omega

theorem filter_lt_eq {l : List α} (h : Asc g l) (k : Nat) :
    l.filter (fun x => decide (g x < k)) = l.takeWhile (fun x => decide (g x < k)) := by
  induction l with
  | nil => rfl
  | cons x xs ih =>
    obtain ⟨h1, h2⟩ := List.pairwise_cons.1 h
    by_cases hx : g x < k
    · rw [List.filter_cons_of_pos (by simpa using hx), List.takeWhile_cons_of_pos (by simpa using hx), ih h2]
    · rw [List.filter_cons_of_neg (by simpa using hx), List.takeWhile_cons_of_neg (by simpa using hx),
        List.filter_eq_nil_iff.2]
      intro y hy
      have := h1 y hy
      simp; omega

theorem Asc.filter {l : List α} (h : Asc g l) (p : α → Bool) : Asc g (l.filter p) := h.sublist List.filter_sublist

theorem Asc.inj {l : List α} (h : Asc g l) {a b : α} (ha : a ∈ l) (hb : b ∈ l) (e : g a = g b) : a = b := by
  induction l with
  | nil => cases ha
  | cons x xs ih =>
    obtain ⟨h1, h2⟩ := List.pairwise_cons.1 h
    rcases List.mem_cons.1 ha with ha' | ha' <;> rcases List.mem_cons.1 hb with hb' | hb'
    · rw [ha', hb']
    · have := h1 b hb'; rw [ha'] at e; omega
    · have := h1 a ha'; rw [hb'] at e; omega
    · exact ih h2 ha' hb'

/-- The element with a given key. -/
def look (g : α → Nat) (l : List α) (i : Nat) : Option α := l.find? (fun x => decide (g x = i))

theorem look_some {l : List α} (h : Asc g l) {i : Nat} {x : α} : look g l i = some x ↔ x ∈ l ∧ g x = i := by
  unfold look
  constructor
  · intro hf
    exact ⟨List.mem_of_find?_eq_some hf, by simpa using List.find?_some hf⟩
  · rintro ⟨hx, hi⟩
    cases hf : l.find? (fun x => decide (g x = i)) with
    | none => have := List.find?_eq_none.1 hf x hx; simp [hi] at this
    | some y =>
      have hy := List.mem_of_find?_eq_some hf
      have hyi : g y = i := by simpa using List.find?_some hf
      rw [h.inj hy hx (by omega)]

theorem look_none {l : List α} {i : Nat} : look g l i = none ↔ ∀ x ∈ l, g x ≠ i := by
  unfold look
  rw [List.find?_eq_none]
  simp

/-- Looking up the indexes of a range one after another gives the elements in the range. -/
theorem range_look {l : List α} (h : Asc g l) (a n : Nat) :
    (List.range' a n).filterMap (look g l) = l.filter (fun x => decide (a ≤ g x ∧ g x < a + n)) := by
  induction n with
  | zero =>
    rw [List.range'_zero, List.filterMap_nil, eq_comm, List.filter_eq_nil_iff]
    intro x _; simp only [decide_eq_true_eq]; omega
  | succ n ih =>
    rw [List.range'_concat, List.filterMap_append, ih, Nat.one_mul]
    clear ih
    induction l with
    | nil => rfl
    | cons x xs ih =>
      obtain ⟨h1, h2⟩ := List.pairwise_cons.1 h
      have ih := ih h2
      by_cases hlt : g x < a + n
      · have e1 : look g (x :: xs) (a + n) = look g xs (a + n) := by
          unfold look; rw [List.find?_cons_of_neg (by simp; omega)]
        have : [a + n].filterMap (look g (x :: xs)) = [a + n].filterMap (look g xs) := by
          simp only [List.filterMap_cons, e1, List.filterMap_nil]
        rw [this]
        by_cases hge : a ≤ g x
        · rw [List.filter_cons_of_pos (by simp; omega), List.filter_cons_of_pos (by simp; omega), List.cons_append, ih]
        · rw [List.filter_cons_of_neg (by simp; omega), List.filter_cons_of_neg (by simp; omega), ih]
      · have e0 : (x :: xs).filter (fun x => decide (a ≤ g x ∧ g x < a + n)) = [] := by
          rw [List.filter_eq_nil_iff]
          intro y hy
          rcases List.mem_cons.1 hy with rfl | hy
          · simp; omega
          · have := h1 y hy; simp; omega
        rw [e0, List.nil_append]
        by_cases he : g x = a + n
        · have e1 : look g (x :: xs) (a + n) = some x := by
            unfold look; rw [List.find?_cons_of_pos (by simpa using he)]
          have e2 : xs.filter (fun x => decide (a ≤ g x ∧ g x < a + (n + 1))) = [] := by
            rw [List.filter_eq_nil_iff]
            intro y hy
            have := h1 y hy; simp; omega
          rw [List.filter_cons_of_pos (by simp; omega), e2]
          simp [e1]
        · have e1 : look g (x :: xs) (a + n) = none := by
            rw [look_none]
            intro y hy
            rcases List.mem_cons.1 hy with rfl | hy
            · exact he
            · have := h1 y hy; omega
          have e2 : (x :: xs).filter (fun x => decide (a ≤ g x ∧ g x < a + (n + 1))) = [] := by
            rw [List.filter_eq_nil_iff]
            intro y hy
            rcases List.mem_cons.1 hy with rfl | hy
            · simp; omega
            · have := h1 y hy; simp; omega
          rw [e2]
          simp [e1]

theorem Conv.filter {l : List α} (h : Conv g l) (a b : Nat) :
    Conv g (l.filter (fun x => decide (a ≤ g x ∧ g x < b))) := by
  intro x hx y hy c h1 h2
  obtain ⟨hx, hx'⟩ := List.mem_filter.1 hx
  obtain ⟨hy, hy'⟩ := List.mem_filter.1 hy
  simp only [decide_eq_true_eq] at hx' hy'
  obtain ⟨e, he, hc⟩ := h x hx y hy c h1 h2
  exact ⟨e, List.mem_filter.2 ⟨he, by simp; omega⟩, hc⟩

theorem Conv.filter_ge {l : List α} (h : Conv g l) (a : Nat) : Conv g (l.filter (fun x => decide (a ≤ g x))) := by
  intro x hx y hy c h1 h2
  obtain ⟨hx, hx'⟩ := List.mem_filter.1 hx
  obtain ⟨hy, hy'⟩ := List.mem_filter.1 hy
  simp only [decide_eq_true_eq] at hx' hy'
  obtain ⟨e, he, hc⟩ := h x hx y hy c h1 h2
  exact ⟨e, List.mem_filter.2 ⟨he, by simp; omega⟩, hc⟩

theorem Conv.filter_lt {l : List α} (h : Conv g l) (a : Nat) : Conv g (l.filter (fun x => decide (g x < a))) := by
  intro x hx y hy c h1 h2
  obtain ⟨hx, hx'⟩ := List.mem_filter.1 hx
  obtain ⟨hy, hy'⟩ := List.mem_filter.1 hy
  simp only [decide_eq_true_eq] at hx' hy'
  obtain ⟨e, he, hc⟩ := h x hx y hy c h1 h2
  exact ⟨e, List.mem_filter.2 ⟨he, by simp; omega⟩, hc⟩

theorem Asc.head_le {l : List α} (h : Asc g l) {x y : α} (hx : l.head? = some x) (hy : y ∈ l) : g x ≤ g y := by
  cases l with
  | nil => cases hx
  | cons z zs =>
    have : z = x := by simpa using hx
    subst this
    rcases List.mem_cons.1 hy with rfl | hy
    · exact Nat.le_refl _
    · exact Nat.le_of_lt ((List.pairwise_cons.1 h).1 y hy)

theorem Asc.le_last {l : List α} (h : Asc g l) {x y : α} (hx : l.getLast? = some x) (hy : y ∈ l) : g y ≤ g x := by
  obtain ⟨l', rfl⟩ := List.getLast?_eq_some_iff.1 hx
  rcases List.mem_append.1 hy with hy | hy
  · exact Nat.le_of_lt ((List.pairwise_append.1 h).2.2 y hy x (by simp))
  · rw [List.mem_singleton.1 hy]; exact Nat.le_refl _

end Asc

/-! ## The metadata as a function of the files -/

/-- The metadata of a file with the given entries. -/
def mk (idx : E → Nat) (id : Nat) (l : List (Nat × E)) : Option Meta :=
  match l.head?, l.getLast? with
  | some x, some y => some ⟨id, idx x.2, idx y.2, l.map (fun z => (idx z.2, z.1))⟩
  | _, _ => none

theorem mk_nil (id : Nat) : mk idx id [] = none := rfl

theorem mk_cases (id : Nat) (l : List (Nat × E)) : l = [] ∧ mk idx id l = none ∨
    ∃ x y, l.head? = some x ∧ l.getLast? = some y ∧
      mk idx id l = some ⟨id, idx x.2, idx y.2, l.map (fun z => (idx z.2, z.1))⟩ := by
  cases l with
  | nil => exact .inl ⟨rfl, rfl⟩
  | cons x xs =>
    refine .inr ⟨x, (x :: xs).getLast (by simp), rfl, List.getLast?_eq_some_getLast (by simp), ?_⟩
    unfold mk
    rw [List.getLast?_eq_some_getLast (by simp)]
    rfl

/-- The entries of a file from index `lo` on. -/
def liveOf (idx : E → Nat) (lo : Nat) (f : DFile E) : List (Nat × E) := f.items.filter (fun x => decide (lo ≤ idx x.2))

def metaOf (idx : E → Nat) (lo : Nat) (f : DFile E) : Option Meta := mk idx f.id (liveOf idx lo f)

/-- All entries on disk, in order. -/
def diskOf (fs : List (DFile E)) : List (Nat × E) := fs.flatMap DFile.items

abbrev key (idx : E → Nat) : Nat × E → Nat := fun x => idx x.2

/-- The files are in order. -/
structure FilesOk (idx : E → Nat) (fs : List (DFile E)) : Prop where
  ids : fs.Pairwise (fun f f' => f.id < f'.id)
  pos : ∀ f ∈ fs, Asc Prod.fst f.items
  size : ∀ f ∈ fs, 4 ≤ f.size ∧ ∀ x ∈ f.items, 4 ≤ x.1 ∧ x.1 < f.size
  asc : Asc (key idx) (diskOf fs)
  conv : Conv (key idx) (diskOf fs)
  bnd : ∀ x ∈ diskOf fs, idx x.2 < u64Max

/-- The invariant: all entries from index `lo` on are live, and they make up the log `es`. -/
structure Inv (idx : E → Nat) (s : Store E) (es : List E) (lo : Nat) : Prop where
  files : FilesOk idx s.all
  live : ∀ f ∈ s.all, f.items ≠ [] → liveOf idx lo f ≠ []
  log : es = ((diskOf s.all).filter (fun x => decide (lo ≤ idx x.2))).map Prod.snd
  metas : s.metas = s.all.filterMap (metaOf idx lo)
  cache : ∃ l, Ring.Agrees 256 s.cache (look idx es) l

theorem diskOf_append (a b : List (DFile E)) : diskOf (a ++ b) = diskOf a ++ diskOf b := by
  simp [diskOf]

theorem FilesOk.split {a b : List (DFile E)} {f : DFile E} (h : FilesOk idx (a ++ f :: b)) :
    Asc (key idx) f.items ∧ Conv (key idx) f.items ∧
    (∀ x ∈ diskOf a, ∀ y ∈ f.items, idx x.2 < idx y.2) ∧ (∀ x ∈ f.items, ∀ y ∈ diskOf b, idx x.2 < idx y.2) := by
  have e : diskOf (a ++ f :: b) = diskOf a ++ (f.items ++ diskOf b) := by
    rw [diskOf_append]; simp [diskOf]
  have asc := h.asc
  have conv := h.conv
  rw [e] at asc conv
  obtain ⟨_, a2, a3⟩ := List.pairwise_append.1 asc
  obtain ⟨b1, b2, b3⟩ := List.pairwise_append.1 a2
  have c1 : ∀ x ∈ diskOf a, ∀ y ∈ f.items, idx x.2 < idx y.2 :=
    fun x hx y hy => a3 x hx y (List.mem_append_left _ hy)
  refine ⟨b1, ?_, c1, b3⟩
  intro x hx y hy c h1 h2
  obtain ⟨z, hz, hc⟩ := conv x (by simp [hx]) y (by simp [hy]) c h1 h2
  refine ⟨z, ?_, hc⟩
  rcases List.mem_append.1 hz with hz | hz
  · have := c1 z hz x hx
    simp only [key] at *
    omega
  · rcases List.mem_append.1 hz with hz | hz
    · exact hz
    · have := b3 y hy z hz
      simp only [key] at *
      omega

theorem FilesOk.file {fs : List (DFile E)} (h : FilesOk idx fs) {f : DFile E} (hf : f ∈ fs) :
    Asc (key idx) f.items ∧ Conv (key idx) f.items ∧ Asc Prod.fst f.items ∧ 4 ≤ f.size ∧
    (∀ x ∈ f.items, 4 ≤ x.1 ∧ x.1 < f.size ∧ idx x.2 < u64Max) := by
  obtain ⟨a, b, rfl⟩ := List.append_of_mem hf
  obtain ⟨h1, h2, _, _⟩ := h.split
  refine ⟨h1, h2, h.pos f hf, (h.size f hf).1, ?_⟩
  intro x hx
  refine ⟨((h.size f hf).2 x hx).1, ((h.size f hf).2 x hx).2, h.bnd x ?_⟩
  exact List.mem_flatMap.2 ⟨f, hf, hx⟩

theorem FilesOk.unique {fs : List (DFile E)} (h : FilesOk idx fs) {f f' : DFile E} (hf : f ∈ fs) (hf' : f' ∈ fs)
    (e : f.id = f'.id) : f = f' :=
  Asc.inj (g := DFile.id) h.ids hf hf' e

theorem diskOf_sublist {fs fs' : List (DFile E)} (hs : fs'.Sublist fs) : (diskOf fs').Sublist (diskOf fs) := by
  unfold diskOf
  induction hs with
  | slnil => exact List.Sublist.refl _
  | cons a _ ih => rw [List.flatMap_cons]; exact ih.trans (List.sublist_append_right _ _)
  | cons_cons a _ ih => rw [List.flatMap_cons, List.flatMap_cons]; exact (List.Sublist.refl _).append ih

/-- The files after removing some of them. -/
theorem FilesOk.sub {fs fs' : List (DFile E)} (h : FilesOk idx fs) (hs : fs'.Sublist fs) (hc : Conv (key idx) (diskOf fs')) :
    FilesOk idx fs' := by
  have hd := diskOf_sublist hs
  exact ⟨h.ids.sublist hs, fun f hf => h.pos f (hs.subset hf), fun f hf => h.size f (hs.subset hf), h.asc.sublist hd,
    hc, fun x hx => h.bnd x (hd.subset hx)⟩

/-! ## Reading -/

theorem liveOf_ok {fs : List (DFile E)} (h : FilesOk idx fs) {f : DFile E} (hf : f ∈ fs) (lo : Nat) :
    Asc (key idx) (liveOf idx lo f) ∧ Conv (key idx) (liveOf idx lo f) ∧ ∀ x ∈ liveOf idx lo f, x ∈ f.items ∧ lo ≤ idx x.2 := by
  obtain ⟨a, b, _⟩ := h.file hf
  refine ⟨a.filter _, b.filter_ge lo, fun x hx => ?_⟩
  obtain ⟨h1, h2⟩ := List.mem_filter.1 hx
  exact ⟨h1, by simpa using h2⟩

theorem readAt_eq {fs : List (DFile E)} (h : FilesOk idx fs) {f : DFile E} (hf : f ∈ fs) {x : Nat × E} (hx : x ∈ f.items) :
    readAt fs f.id x.1 = some x.2 := by
  have h1 : fs.find? (fun f' => decide (f'.id = f.id)) = some f := (look_some (g := DFile.id) h.ids).2 ⟨hf, rfl⟩
  have h2 : f.items.find? (fun y => decide (y.1 = x.1)) = some x :=
    (look_some (g := Prod.fst) (h.pos f hf)).2 ⟨hx, rfl⟩
  simp [readAt, h1, h2]

theorem get_eq {fs : List (DFile E)} (h : FilesOk idx fs) {f : DFile E} (hf : f ∈ fs) {lo : Nat} {m : Meta}
    (hm : metaOf idx lo f = some m) (i : Nat) :
    m.get fs i = (look (key idx) (liveOf idx lo f) i).map Prod.snd := by
  obtain ⟨_, _, l3⟩ := liveOf_ok h hf lo
  unfold metaOf at hm
  rcases mk_cases (idx := idx) f.id (liveOf idx lo f) with ⟨_, e⟩ | ⟨x, y, _, _, e⟩
  · rw [e] at hm; cases hm
  · rw [e] at hm
    obtain rfl := Option.some.inj hm
    unfold Meta.get look
    simp only [List.find?_map]
    have : ((fun x : Nat × Nat => decide (x.1 = i)) ∘ fun z : Nat × E => (idx z.2, z.1)) = fun x => decide (key idx x = i) := rfl
    rw [this]
    cases hl : (liveOf idx lo f).find? (fun x => decide (key idx x = i)) with
    | none => rfl
    | some z =>
      have hz := List.mem_of_find?_eq_some hl
      simp only [Option.map_some, Option.bind_some]
      exact readAt_eq h hf (l3 z hz).1

theorem look_map (l : List (Nat × E)) (i : Nat) : (look (key idx) l i).map Prod.snd = look idx (l.map Prod.snd) i := by
  unfold look
  rw [List.find?_map]
  rfl

theorem filter_map_snd (l : List (Nat × E)) (p : E → Bool) :
    (l.map Prod.snd).filter p = (l.filter (fun x => p x.2)).map Prod.snd := by
  rw [List.filter_map]; rfl

/-- The entries of a file in a range of indexes. -/
theorem file_entries {fs : List (DFile E)} (h : FilesOk idx fs) {f : DFile E} (hf : f ∈ fs) {lo : Nat} {m : Meta}
    (hm : metaOf idx lo f = some m) (a b : Nat) :
    (match m.inter a b with
      | some (a', b') => (List.range' a' (b' - a')).filterMap (m.get fs)
      | none => []) = ((liveOf idx lo f).map Prod.snd).filter (fun e => decide (a ≤ idx e ∧ idx e < b)) := by
  obtain ⟨l1, l2, l3⟩ := liveOf_ok h hf lo
  obtain ⟨_, _, _, _, f5⟩ := h.file hf
  have hget : m.get fs = look idx ((liveOf idx lo f).map Prod.snd) := by
    funext i; rw [get_eq h hf hm i, look_map]
  have asc : Asc idx ((liveOf idx lo f).map Prod.snd) := List.pairwise_map.2 l1
  rw [hget]
  clear hget
  unfold metaOf at hm
  rcases mk_cases (idx := idx) f.id (liveOf idx lo f) with ⟨_, e⟩ | ⟨x, y, hx, hy, e⟩
  · rw [e] at hm; cases hm
  · rw [e] at hm
    obtain rfl := Option.some.inj hm
    have bx := f5 x (l3 x (List.mem_of_mem_head? hx)).1
    have bY := f5 y (l3 y (List.mem_of_getLast? hy)).1
    have lo_le : ∀ e ∈ (liveOf idx lo f).map Prod.snd, idx x.2 ≤ idx e ∧ idx e ≤ idx y.2 := by
      intro e he
      obtain ⟨z, hz, rfl⟩ := List.mem_map.1 he
      exact ⟨l1.head_le hx hz, l1.le_last hy hz⟩
    generalize (liveOf idx lo f).map Prod.snd = es at *
    unfold Meta.inter
    simp only
    rw [if_neg (by omega)]
    have hmax : ∀ a b, Nat.max a b = max a b := fun _ _ => rfl
    have hmin : ∀ a b, Nat.min a b = min a b := fun _ _ => rfl
    rw [hmax, hmin]
    by_cases hab : max (idx x.2) a ≤ min (idx y.2 + 1) b
    · rw [if_pos hab]
      simp only
      rw [range_look asc]
      apply List.filter_congr
      intro e he
      have := lo_le e he
      rw [decide_eq_decide]
      omega
    · rw [if_neg hab]
      simp only
      rw [eq_comm, List.filter_eq_nil_iff]
      intro e he
      have := lo_le e he
      simp only [decide_eq_true_eq]
      omega

theorem fromCache_eq {c : Cache E} {look : Nat → Option E} (hs : ∀ i v, c.get i = some v → look i = some v) :
    ∀ (n a : Nat) (l : List E), fromCache c a n = some l → l = (List.range' a n).filterMap look := by
  intro n
  induction n with
  | zero => intro a l h; simpa [fromCache] using h.symm
  | succ n ih =>
    intro a l h
    unfold fromCache at h
    cases hg : c.get a with
    | none => simp [hg] at h
    | some e =>
      rw [hg, Option.bind_some] at h
      obtain ⟨l', h1, rfl⟩ := Option.map_eq_some_iff.1 h
      rw [List.range'_succ, List.filterMap_cons, hs a e hg, ← ih (a + 1) l' h1]

theorem Inv.asc {s : Store E} {es : List E} {lo : Nat} (h : Inv idx s es lo) : Asc idx es := by
  rw [h.log]
  exact List.pairwise_map.2 (h.files.asc.filter _)

theorem filter_diskOf (fs : List (DFile E)) (lo : Nat) :
    (diskOf fs).filter (fun x => decide (lo ≤ idx x.2)) = fs.flatMap (liveOf idx lo) := by
  unfold diskOf liveOf
  rw [List.filter_flatMap]

theorem flatMap_filterMap {α β γ : Type} (l : List α) (f : α → Option β) (g : β → List γ) (k : α → List γ)
    (h : ∀ a ∈ l, (∀ b, f a = some b → g b = k a) ∧ (f a = none → k a = [])) :
    (l.filterMap f).flatMap g = l.flatMap k := by
  induction l with
  | nil => rfl
  | cons a l ih =>
    have ih := ih (fun x hx => h x (List.mem_cons_of_mem _ hx))
    obtain ⟨h1, h2⟩ := h a (List.mem_cons_self ..)
    rw [List.flatMap_cons]
    cases hf : f a with
    | none => rw [List.filterMap_cons, hf, ih, h2 hf, List.nil_append]
    | some b => rw [List.filterMap_cons, hf, List.flatMap_cons, ih, h1 b hf]

theorem Inv.entries {s : Store E} {es : List E} {lo : Nat} (h : Inv idx s es lo) (a b : Nat) :
    s.entries a b = es.filter (fun e => decide (a ≤ idx e ∧ idx e < b)) := by
  unfold Store.entries
  obtain ⟨l, hc⟩ := h.cache
  cases hfc : fromCache s.cache a (b - a) with
  | some l' =>
    have := fromCache_eq (c := s.cache) (look := look idx es) hc.sound _ _ _ hfc
    rw [range_look h.asc] at this
    rw [this]
    apply List.filter_congr
    intro e _
    rw [decide_eq_decide]
    omega
  | none =>
    simp only
    rw [h.metas, flatMap_filterMap s.all (metaOf idx lo) _
      (fun f => ((liveOf idx lo f).map Prod.snd).filter (fun e => decide (a ≤ idx e ∧ idx e < b)))]
    · rw [h.log, filter_diskOf, List.map_flatMap, List.filter_flatMap]
    · intro f hf
      refine ⟨fun m hm => file_entries h.files hf hm a b, fun hm => ?_⟩
      rcases mk_cases (idx := idx) f.id (liveOf idx lo f) with ⟨e, _⟩ | ⟨x, y, _, _, e⟩
      · rw [e]; rfl
      · unfold metaOf at hm; rw [e] at hm; cases hm

theorem Inv.entry {s : Store E} {es : List E} {lo : Nat} (h : Inv idx s es lo) (i : Nat) :
    s.entry i = look idx es i := by
  unfold Store.entry
  obtain ⟨l, hc⟩ := h.cache
  cases hg : s.cache.get i with
  | some e => exact (hc.sound i e hg).symm
  | none =>
    simp only
    have mem_es : ∀ f ∈ s.all, ∀ x ∈ liveOf idx lo f, x.2 ∈ es := by
      intro f hf x hx
      rw [h.log, filter_diskOf]
      exact List.mem_map.2 ⟨x, List.mem_flatMap.2 ⟨f, hf, hx⟩, rfl⟩
    cases hm : s.metas.reverse.find? (fun m => decide (m.min ≤ i ∧ i ≤ m.max)) with
    | some m =>
      have h1 : m ∈ s.metas := List.mem_reverse.1 (List.mem_of_find?_eq_some hm)
      have h2 : m.min ≤ i ∧ i ≤ m.max := by simpa using List.find?_some hm
      rw [h.metas] at h1
      obtain ⟨f, hf, hfm⟩ := List.mem_filterMap.1 h1
      rw [Option.bind_some, get_eq h.files hf hfm]
      obtain ⟨l1, l2, l3⟩ := liveOf_ok h.files hf lo
      rcases mk_cases (idx := idx) f.id (liveOf idx lo f) with ⟨_, e⟩ | ⟨x, y, hx, hy, e⟩
      · unfold metaOf at hfm; rw [e] at hfm; cases hfm
      · unfold metaOf at hfm
        rw [e] at hfm
        obtain rfl := Option.some.inj hfm
        obtain ⟨z, hz, hzi⟩ := l2 x (List.mem_of_mem_head? hx) y (List.mem_of_getLast? hy) i h2.1 h2.2
        rw [(look_some l1).2 ⟨hz, hzi⟩, Option.map_some, eq_comm]
        exact (look_some h.asc).2 ⟨mem_es f hf z hz, hzi⟩
    | none =>
      rw [Option.bind_none, eq_comm, look_none]
      intro e he hi
      rw [h.log, filter_diskOf] at he
      obtain ⟨z, hz, rfl⟩ := List.mem_map.1 he
      obtain ⟨f, hf, hz⟩ := List.mem_flatMap.1 hz
      obtain ⟨l1, l2, l3⟩ := liveOf_ok h.files hf lo
      rcases mk_cases (idx := idx) f.id (liveOf idx lo f) with ⟨e, _⟩ | ⟨x, y, hx, hy, e⟩
      · rw [e] at hz; cases hz
      · have hmem : (⟨f.id, idx x.2, idx y.2, (liveOf idx lo f).map (fun z => (idx z.2, z.1))⟩ : Meta) ∈ s.metas := by
          rw [h.metas]; exact List.mem_filterMap.2 ⟨f, hf, e⟩
        have := List.find?_eq_none.1 hm _ (List.mem_reverse.2 hmem)
        simp only [decide_eq_true_eq] at this
        have a1 := l1.head_le hx hz
        have a2 := l1.le_last hy hz
        simp only [key] at a1 a2
        omega

end Verif.Wal.Log
