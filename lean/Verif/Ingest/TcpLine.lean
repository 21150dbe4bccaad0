import Verif.Ingest.TcpProps
import Verif.Raft.StoreProps
/-!
# Properties: a line of the OpenTSDB service over TCP
-/
namespace Verif.Ingest
variable {F : Type}

/-! ## Words -/

/-- A text is words with white space around them. -/
inductive Words : Str → List Str → Prop
  | nil {s} : s.all isSpace = true → Words s []
  | cons {sp w s ws} : sp.all isSpace = true → w ≠ [] → (∀ c ∈ w, isSpace c = false) → (∀ c, s.head? = some c → isSpace c = true) →
      Words s ws → Words (sp ++ w ++ s) (w :: ws)

theorem wordsFrom_space {sp : Str} (h : sp.all isSpace = true) (s : Str) : wordsFrom [] (sp ++ s) = wordsFrom [] s := by
  induction sp with
  | nil => rfl
  | cons c sp ih =>
    simp only [List.all_cons, Bool.and_eq_true] at h
    rw [List.cons_append, wordsFrom, if_pos h.1]
    exact ih h.2

theorem wordsFrom_word {w : Str} (h : ∀ c ∈ w, isSpace c = false) (cur s : Str) : wordsFrom cur (w ++ s) = wordsFrom (cur ++ w) s := by
  induction w generalizing cur with
  | nil => simp
  | cons c w ih =>
    rw [List.cons_append, wordsFrom, if_neg (by simp [h c List.mem_cons_self]), ih (fun x hx => h x (List.mem_cons_of_mem _ hx))]
    simp

theorem wordsFrom_end {cur : Str} (hc : cur ≠ []) {s : Str} (hs : ∀ c, s.head? = some c → isSpace c = true) :
    wordsFrom cur s = cur :: wordsFrom [] s := by
  have he : cur.isEmpty = false := by simpa using hc
  cases s with
  | nil => simp [wordsFrom, he]
  | cons c s =>
    have := hs c rfl
    simp [wordsFrom, this, he]

theorem Words.words {s : Str} {ws : List Str} (h : Words s ws) : words s = ws := by
  induction h with
  | nil h =>
    have := wordsFrom_space h []
    rw [List.append_nil] at this
    exact this
  | cons h1 h2 h3 h4 _ ih =>
    rw [Ingest.words, List.append_assoc, wordsFrom_space h1, wordsFrom_word h3, List.nil_append, wordsFrom_end h2 h4]
    exact congrArg _ ih

theorem Words.from_ (s : Str) : ∀ cur, (∀ c ∈ cur, isSpace c = false) → Words (cur ++ s) (wordsFrom cur s) := by
  induction s with
  | nil =>
    intro cur h
    rw [wordsFrom, List.append_nil]
    split
    · rename_i he
      rw [List.isEmpty_iff.1 he]
      exact .nil rfl
    · rename_i he
      have := Words.cons (sp := []) (s := []) rfl (by simpa using he) h (by simp) (.nil rfl)
      simpa using this
  | cons c s ih =>
    intro cur h
    rw [wordsFrom]
    split
    · rename_i hc
      have h0 := ih [] (by simp)
      rw [List.nil_append] at h0
      have hcons : ∀ ws, Words s ws → Words (c :: s) ws := by
        intro ws hw
        cases hw with
        | nil hs => exact .nil (by simp [hc, hs])
        | cons h1 h2 h3 h4 h5 =>
          rename_i sp _ _ _
          have := Words.cons (sp := c :: sp) (by simp [hc, h1]) h2 h3 h4 h5
          simpa using this
      split
      · rename_i he
        rw [List.isEmpty_iff.1 he]
        exact hcons _ h0
      · rename_i he
        have := Words.cons (sp := []) (s := c :: s) rfl (by simpa using he) h (by simpa using hc) (hcons _ h0)
        simpa using this
    · rename_i hc
      have := ih (cur ++ [c]) (by
        intro x hx
        rcases List.mem_append.1 hx with hx | hx
        · exact h x hx
        · rw [List.mem_singleton.1 hx]; simpa using hc)
      simpa using this

theorem words_iff {s : Str} {ws : List Str} : words s = ws ↔ Words s ws := by
  constructor
  · rintro rfl
    have := Words.from_ s [] (by simp)
    exact this
  · exact Words.words

/-! ## Tags -/

theorem splitOn_cons (d : Char) (s : Str) : ∃ l ls, splitOn d s = l :: ls := by
  cases s with
  | nil => exact ⟨_, _, rfl⟩
  | cons c s =>
    rw [splitOn]
    split
    · exact ⟨_, _, rfl⟩
    · split <;> exact ⟨_, _, rfl⟩

theorem splitOn_none {d : Char} {s : Str} (h : d ∉ s) : splitOn d s = [s] := by
  induction s with
  | nil => rfl
  | cons c s ih =>
    simp only [List.mem_cons, not_or] at h
    rw [splitOn, if_neg (fun h' => h.1 h'.symm), ih h.2]

theorem splitOn_at {d : Char} {k : Str} (h : d ∉ k) (s : Str) : splitOn d (k ++ d :: s) = k :: splitOn d s := by
  induction k with
  | nil => rw [List.nil_append, splitOn, if_pos rfl]
  | cons c k ih =>
    simp only [List.mem_cons, not_or] at h
    rw [List.cons_append, splitOn, if_neg (fun h' => h.1 h'.symm), ih h.2]

theorem splitOn_one {d : Char} {s a : Str} (h : splitOn d s = [a]) : s = a ∧ d ∉ a := by
  induction s generalizing a with
  | nil => simp only [splitOn, List.cons.injEq, and_true] at h; subst h; simp
  | cons c s ih =>
    rw [splitOn] at h
    split at h
    · obtain ⟨l, ls, e⟩ := splitOn_cons d s
      rw [e] at h
      simp at h
    · rename_i hc
      obtain ⟨l, ls, e⟩ := splitOn_cons d s
      rw [e] at h
      simp only [List.cons.injEq] at h
      obtain ⟨rfl, rfl⟩ := h
      obtain ⟨rfl, h2⟩ := ih e
      exact ⟨rfl, by simp only [List.mem_cons, not_or]; exact ⟨fun h => hc h.symm, h2⟩⟩

theorem splitOn_two {d : Char} {s a b : Str} (h : splitOn d s = [a, b]) : s = a ++ d :: b ∧ d ∉ a ∧ d ∉ b := by
  induction s generalizing a with
  | nil => simp [splitOn] at h
  | cons c s ih =>
    rw [splitOn] at h
    split at h
    · rename_i hc
      simp only [List.cons.injEq] at h
      obtain ⟨rfl, h⟩ := h
      obtain ⟨rfl, h2⟩ := splitOn_one h
      exact ⟨by simp [hc], by simp, h2⟩
    · rename_i hc
      obtain ⟨l, ls, e⟩ := splitOn_cons d s
      rw [e] at h
      simp only [List.cons.injEq] at h
      obtain ⟨rfl, rfl⟩ := h
      obtain ⟨rfl, h2, h3⟩ := ih e
      exact ⟨rfl, by simp only [List.mem_cons, not_or]; exact ⟨fun h => hc h.symm, h2⟩, h3⟩

/-- A tag that a `put` line can have. -/
def PutTag (t : Str × Str) : Prop := t.1 ≠ [] ∧ t.2 ≠ [] ∧ '=' ∉ t.1 ∧ '=' ∉ t.2

theorem tagOf_iff {w : Str} {t : Str × Str} : tagOf w = some t ↔ w = t.1 ++ '=' :: t.2 ∧ PutTag t := by
  obtain ⟨k, v⟩ := t
  constructor
  · intro h
    unfold tagOf at h
    split at h
    · rename_i k' v' hs
      obtain ⟨e, h1, h2⟩ := splitOn_two hs
      split at h
      · exact absurd h (by simp)
      · rename_i hn
        simp only [Option.some.injEq, Prod.mk.injEq] at h
        obtain ⟨rfl, rfl⟩ := h
        simp only [Bool.or_eq_true, List.isEmpty_iff, not_or] at hn
        exact ⟨e, hn.1, hn.2, h1, h2⟩
    · exact absurd h (by simp)
  · rintro ⟨rfl, h1, h2, h3, h4⟩
    simp only at h1 h2 h3 h4
    unfold tagOf
    rw [splitOn_at h3, splitOn_none h4]
    simp [h1, h2]

theorem mapM_tagOf {ws : List Str} {ts : List (Str × Str)} :
    ws.mapM tagOf = some ts ↔ ws = ts.map (fun t => t.1 ++ '=' :: t.2) ∧ ∀ t ∈ ts, PutTag t := by
  induction ws generalizing ts with
  | nil => cases ts <;> simp
  | cons w ws ih =>
    simp only [List.mapM_cons, Option.bind_eq_bind, Option.pure_def, Option.bind_eq_some_iff, Option.some.injEq]
    constructor
    · rintro ⟨t, ht, r, hr, rfl⟩
      obtain ⟨e, hp⟩ := tagOf_iff.1 ht
      obtain ⟨e2, hp2⟩ := ih.1 hr
      refine ⟨by rw [List.map_cons, ← e, ← e2], ?_⟩
      intro x hx
      rcases List.mem_cons.1 hx with rfl | hx
      · exact hp
      · exact hp2 x hx
    · rintro ⟨e, hp⟩
      cases ts with
      | nil => simp at e
      | cons t ts =>
        simp only [List.map_cons, List.cons.injEq] at e
        exact ⟨t, tagOf_iff.2 ⟨e.1, hp t List.mem_cons_self⟩, ts, ih.2 ⟨e.2, fun x hx => hp x (List.mem_cons_of_mem _ hx)⟩, rfl⟩

/-! ## A line -/

/-- Property C129, a line: exactly the lines of the words `put`, metric, time, value and tags `key=value`, with any white
space around them, are taken, and the point has what they say. -/
theorem C129_put {pf : Str → Option F} {line : Str} {p : Pt F} :
    putLine pf line = .ok p ↔ ∃ t v, Words line (['p', 'u', 't'] :: p.table :: t :: v :: p.tags.map (fun t => t.1 ++ '=' :: t.2)) ∧
      parseI64 t = some p.ts ∧ pf v = some p.value ∧ ∀ t ∈ p.tags, PutTag t := by
  obtain ⟨m, tags, x, ts⟩ := p
  constructor
  · intro h
    unfold putLine at h
    split at h
    · rename_i cmd m' t v tags' hw
      split at h
      · rename_i hc
        split at h
        · rename_i ts' x' tg h1 h2 h3
          simp only [Except.ok.injEq, Pt.mk.injEq] at h
          obtain ⟨rfl, rfl, rfl, rfl⟩ := h
          obtain ⟨e, hp⟩ := mapM_tagOf.1 h3
          refine ⟨t, v, ?_, h1, h2, hp⟩
          rw [← words_iff, hw, hc, e]
        · cases h
      · cases h
    · cases h
  · rintro ⟨t, v, hw, h1, h2, h3⟩
    unfold putLine
    rw [words_iff.2 hw]
    simp only [if_true, h1, h2, mapM_tagOf.2 ⟨rfl, h3⟩]

/-! ## Integers -/

/-- An integer as text. -/
def intText (n : Int) : Str := if n < 0 then '-' :: Raft.dec n.natAbs else Raft.dec n.natAbs

theorem natOf_dec (n : Nat) : natOf (Raft.dec n) = n := by
  refine Eq.trans ?_ (Raft.undec_dec n)
  simp only [natOf, Raft.undec, Nat.mul_comm]

theorem dec_isDigit (n : Nat) : (Raft.dec n).all Char.isDigit = true := by
  rw [List.all_eq_true]
  intro c hc
  have := Raft.dec_digits n c hc
  simp only [Char.isDigit, Bool.and_eq_true, decide_eq_true_eq, ge_iff_le]
  exact ⟨by show 48 ≤ c.toNat; omega, by show c.toNat ≤ 57; omega⟩

/-- Property C129, times: the text of an integer is read as that integer if it has 64 bits, and refused if not. -/
theorem C129_time (n : Int) : parseI64 (intText n) = if i64Min ≤ n ∧ n ≤ i64Max then some n else none := by
  have hd := dec_isDigit n.natAbs
  have hn := natOf_dec n.natAbs
  have he : (Raft.dec n.natAbs).isEmpty = false := by simpa using Raft.dec_ne_nil n.natAbs
  unfold intText
  split
  · simp only [parseI64, hd, he, hn, Bool.not_true, Bool.or_self, Bool.false_eq_true, if_false, if_true]
    rw [show (-(n.natAbs : Int)) = n by omega]
  · rename_i h0
    cases hs : Raft.dec n.natAbs with
    | nil => exact absurd hs (Raft.dec_ne_nil _)
    | cons c d =>
      rw [hs] at hd hn he
      have hc : c.isDigit = true := by simp only [List.all_cons, Bool.and_eq_true] at hd; exact hd.1
      have h1 : c ≠ '-' := by rintro rfl; exact absurd hc (by decide)
      have h2 : c ≠ '+' := by rintro rfl; exact absurd hc (by decide)
      unfold parseI64
      split
      · rename_i h; simp only [List.cons.injEq] at h; exact absurd h.1 h1
      · rename_i h; simp only [List.cons.injEq] at h; exact absurd h.1 h2
      · simp only [hd, he, hn, Bool.not_true, Bool.or_self, Bool.false_eq_true, if_false]
        rw [show ((n.natAbs : Nat) : Int) = n by omega]

/-! ## Equal tags -/

theorem strLe_refl (a : Str) : strLe a a = true := by
  induction a with
  | nil => rfl
  | cons c a ih => simp [strLe, ih]

theorem strLe_total (a b : Str) : strLe a b = true ∨ strLe b a = true := by
  induction a generalizing b with
  | nil => simp [strLe]
  | cons c a ih =>
    cases b with
    | nil => simp [strLe]
    | cons d b =>
      simp only [strLe]
      rcases Nat.lt_trichotomy c.toNat d.toNat with h | h | h
      · simp [h]
      · simp [h, ih b]
      · simp [h]

theorem strLe_trans (a b c : Str) (h1 : strLe a b = true) (h2 : strLe b c = true) : strLe a c = true := by
  induction a generalizing b c with
  | nil => rfl
  | cons x a ih =>
    cases b with
    | nil => simp [strLe] at h1
    | cons y b =>
      cases c with
      | nil => simp [strLe] at h2
      | cons z c =>
        simp only [strLe] at h1 h2 ⊢
        split at h1
        · rename_i hxy
          split at h2
          · rw [if_pos (by omega)]
          · split at h2
            · cases h2
            · rw [if_pos (by omega)]
        · split at h1
          · cases h1
          · split at h2
            · rw [if_pos (by omega)]
            · split at h2
              · cases h2
              · rw [if_neg (by omega), if_neg (by omega)]
                exact ih _ _ h1 h2

theorem strLe_antisymm {a b : Str} (h1 : strLe a b = true) (h2 : strLe b a = true) : a = b := by
  induction a generalizing b with
  | nil => cases b with
    | nil => rfl
    | cons => simp [strLe] at h2
  | cons x a ih =>
    cases b with
    | nil => simp [strLe] at h1
    | cons y b =>
      simp only [strLe] at h1 h2
      split at h1
      · rename_i h; rw [if_neg (by omega), if_pos h] at h2; cases h2
      · split at h1
        · cases h1
        · rw [if_neg (by omega), if_neg (by omega)] at h2
          rw [ih h1 h2, Char.toNat_inj.1 (show x.toNat = y.toNat by omega)]

/-- The order of tags. -/
abbrev tagLe (a b : Str × Str) : Bool := strLe a.1 b.1

theorem dedupKey_head {V : Type} (l : List (Str × V)) : (dedupKey l).head? = l.head? := by
  cases l with
  | nil => rfl
  | cons a l =>
    rw [dedupKey]
    split
    · rfl
    · split <;> rfl

theorem dedupKey_spec (l : List (Str × Str)) (h : l.Pairwise (fun a b => tagLe a b = true)) :
    (dedupKey l).Pairwise (fun a b => tagLe a b = true ∧ a.1 ≠ b.1) ∧
    ∀ k, (dedupKey l).find? (fun t => t.1 = k) = l.find? (fun t => t.1 = k) := by
  induction l with
  | nil => exact ⟨.nil, fun k => rfl⟩
  | cons a l ih =>
    obtain ⟨h1, h2⟩ := List.pairwise_cons.1 h
    obtain ⟨i1, i2⟩ := ih h2
    have hsub : ∀ x ∈ dedupKey l, tagLe a x = true := by
      intro x hx
      have : (dedupKey l).find? (fun t => t.1 = x.1) ≠ none := by
        rw [Ne, List.find?_eq_none]
        intro h
        exact h x hx (by simp)
      rw [i2] at this
      obtain ⟨y, hy⟩ := Option.ne_none_iff_exists'.1 this
      have hy1 := List.find?_some hy
      have hy2 := h1 y (List.mem_of_find?_eq_some hy)
      simp only [decide_eq_true_eq] at hy1
      simp only [tagLe, hy1] at hy2
      exact hy2
    rw [dedupKey]
    cases hd : dedupKey l with
    | nil =>
      refine ⟨by simp, fun k => ?_⟩
      have := i2 k
      rw [hd] at this
      simp only [List.find?_nil] at this
      simp only [List.find?_cons, List.find?_nil, ← this]
    | cons b r =>
      rw [hd] at i1 i2 hsub
      simp only
      obtain ⟨j1, j2⟩ := List.pairwise_cons.1 i1
      split
      · rename_i hab
        refine ⟨List.pairwise_cons.2 ⟨fun x hx => ⟨hsub x (List.mem_cons_of_mem _ hx), by rw [hab]; exact (j1 x hx).2⟩, j2⟩, fun k => ?_⟩
        have := i2 k
        simp only [List.find?_cons] at this ⊢
        by_cases hk : a.1 = k
        · simp [hk]
        · rw [hab] at hk
          simp only [hk, decide_false] at this ⊢
          simp only [hab, hk, decide_false]
          exact this
      · rename_i hab
        refine ⟨List.pairwise_cons.2 ⟨fun x hx => ⟨hsub x hx, ?_⟩, i1⟩, fun k => ?_⟩
        · rcases List.mem_cons.1 hx with rfl | hx
          · exact hab
          · intro he
            have e1 := (j1 x hx).1
            have e2 := hsub b List.mem_cons_self
            simp only [tagLe, ← he] at e1 e2
            exact hab (strLe_antisymm e2 e1)
        · rw [List.find?_cons (as := b :: r), List.find?_cons (as := l), i2 k]

/-- Property C129, tags: the tags of a point are in the order of their keys, every key once, with the first value that the
line gives it. -/
theorem C129_tags (p : Pt F) :
    p.norm.tags.Pairwise (fun a b => strLe a.1 b.1 = true ∧ a.1 ≠ b.1) ∧
    (∀ k, p.norm.tags.find? (fun t => t.1 = k) = p.tags.find? (fun t => t.1 = k)) ∧
    p.norm.table = p.table ∧ p.norm.value = p.value ∧ p.norm.ts = p.ts := by
  have hs := Sort.sortBy_sorted (le := tagLe) (fun a b c => strLe_trans _ _ _) (fun a b => strLe_total _ _) p.tags
  obtain ⟨h1, h2⟩ := dedupKey_spec _ hs
  refine ⟨h1, fun k => ?_, rfl, rfl, rfl⟩
  refine (h2 k).trans ?_
  have := Sort.sortBy_filter (le := tagLe) (fun t => decide (t.1 = k)) p.tags (by
    intro a _ b _ ha hb
    simp only [decide_eq_true_eq] at ha hb
    simp only [tagLe, ha, hb, strLe_refl])
  rw [← List.head?_filter, ← List.head?_filter, this]

/-! ## Examples -/

/-- A line that is taken, with a tag given twice; lines that are not: another command, an empty value of a tag, a time of more
than 64 bits. -/
example :
    let line := "put  m -5\t15 b=1 a=2 b=3 ".toList
    Words line ("put".toList :: "m".toList :: "-5".toList :: "15".toList :: ["b=1".toList, "a=2".toList, "b=3".toList]) ∧
    (∃ p : Pt Nat, putLine (fun s => some s.length) line = .ok p ∧
      p.norm = ⟨"m".toList, [("a".toList, "2".toList), ("b".toList, "1".toList)], 2, -5⟩) ∧
    (putLine (fun s => some s.length) "get m 5 15 b=1".toList).toOption = none ∧
    (putLine (fun s => some s.length) "put m 5 15 b=".toList).toOption = none ∧
    (putLine (fun s => some s.length) "put m 9223372036854775808 15".toList).toOption = none := by
  refine ⟨words_iff.1 (by decide +kernel), ⟨⟨"m".toList, [("b".toList, "1".toList), ("a".toList, "2".toList), ("b".toList, "3".toList)], 2, -5⟩, ?_, by decide +kernel⟩,
    by decide +kernel, by decide +kernel, by decide +kernel⟩
  rfl

end Verif.Ingest
