import Verif.Files.Names
/-!
# Names of files and their numbers
-/
namespace Verif.Files
open Verif.Raft

/-! ## Digits -/

theorem undec_from (l : Name) : ∀ n, l.foldl (fun n d => 10 * n + (d.toNat - 48)) n = n * 10 ^ l.length + undec l := by
  induction l with
  | nil => intro n; simp [undec]
  | cons c l ih =>
    intro n
    have h1 := ih (10 * n + (c.toNat - 48))
    have h2 := ih (10 * 0 + (c.toNat - 48))
    unfold undec at h1 h2 ⊢
    rw [List.foldl_cons, List.foldl_cons, h1, h2, List.length_cons, Nat.pow_succ]
    generalize 10 ^ l.length = P
    generalize c.toNat - 48 = d
    have : (10 * n + d) * P = n * (P * 10) + (10 * 0 + d) * P := by
      rw [Nat.add_mul, Nat.add_mul, Nat.mul_comm P 10, ← Nat.mul_assoc, Nat.mul_comm n 10]; simp
    omega

theorem undec_cons (c : Char) (l : Name) : undec (c :: l) = (c.toNat - 48) * 10 ^ l.length + undec l := by
  have := undec_from l (10 * 0 + (c.toNat - 48))
  simpa [undec] using this

theorem digit_bounds {c : Char} (h : isDigit c = true) : 48 ≤ c.toNat ∧ c.toNat < 58 := by
  simpa [isDigit] using h

theorem undec_lt (l : Name) (h : ∀ c ∈ l, isDigit c = true) : undec l < 10 ^ l.length := by
  induction l with
  | nil => simp [undec]
  | cons c l ih =>
    have hc := digit_bounds (h c List.mem_cons_self)
    have hl := ih fun x hx => h x (List.mem_cons_of_mem _ hx)
    rw [undec_cons, List.length_cons, Nat.pow_succ]
    have : (c.toNat - 48 + 1) * 10 ^ l.length ≤ 10 * 10 ^ l.length := Nat.mul_le_mul_right _ (by omega)
    rw [Nat.add_mul, Nat.one_mul] at this
    omega

theorem dec_isDigit (n : Nat) : ∀ c ∈ dec n, isDigit c = true := by
  intro c hc
  have := dec_digits n c hc
  simp [isDigit, this.1, this.2]

theorem dec_length_le (k : Nat) : ∀ n, n < 10 ^ (k + 1) → (dec n).length ≤ k + 1 := by
  induction k with
  | zero =>
    intro n h
    rw [dec, if_pos (by simpa using h)]; simp
  | succ k ih =>
    intro n h
    rw [dec]
    split
    · simp
    · rw [List.length_append]
      have := ih (n / 10) (by rw [Nat.pow_succ] at h; omega)
      simp only [List.length_cons, List.length_nil]; omega

theorem pad6_isDigit (n : Nat) : ∀ c ∈ pad6 n, isDigit c = true := by
  intro c hc
  rcases List.mem_append.1 hc with h | h
  · rw [(List.mem_replicate.1 h).2]; decide
  · exact dec_isDigit n c h

theorem undec_pad6 (n : Nat) : undec (pad6 n) = n := by
  have hz : ∀ k (l : Name), undec (List.replicate k '0' ++ l) = undec l := by
    intro k l
    induction k with
    | zero => rfl
    | succ k ih =>
      rw [List.replicate_succ, List.cons_append, undec_cons, ih]
      simp
  unfold pad6
  rw [hz, undec_dec]

theorem pad6_length (n : Nat) (h : n < 1000000) : (pad6 n).length = 6 := by
  have := dec_length_le 5 n h
  unfold pad6
  rw [List.length_append, List.length_replicate]; omega

theorem pad6_long (n : Nat) (h : 1000000 ≤ n) : 7 ≤ (pad6 n).length := by
  have h1 := undec_lt (pad6 n) (pad6_isDigit n)
  rw [undec_pad6] at h1
  by_cases hc : 7 ≤ (pad6 n).length
  · exact hc
  · have : 10 ^ (pad6 n).length ≤ 10 ^ 6 := Nat.pow_le_pow_right (by decide) (by omega)
    have h6 : (10 : Nat) ^ 6 = 1000000 := by decide
    omega

theorem pad6_ne_nil (n : Nat) : pad6 n ≠ [] := by
  intro h
  have := congrArg List.length h
  unfold pad6 at this
  rw [List.length_append, List.length_replicate, List.length_nil] at this
  have := List.length_pos_iff.2 (dec_ne_nil n)
  omega

theorem parse_digits (l : Name) (h0 : l ≠ []) (h : ∀ c ∈ l, isDigit c = true) (hn : undec l < 18446744073709551616) :
    parse l = some (undec l) := by
  have : unplus l = l := by
    cases l with
    | nil => rfl
    | cons c l =>
      have hc := h c List.mem_cons_self
      have hp : c ≠ '+' := by rintro rfl; exact absurd hc (by decide)
      show (if c = '+' then l else c :: l) = _
      rw [if_neg hp]
  unfold parse
  rw [this, if_neg h0, if_pos (List.all_eq_true.2 h), if_pos hn]

/-! ## C214: a name and its number -/

/-- C214: a number below a million is read from the name that was made of it, for logs and all other kinds of files with the
same pattern. -/
theorem C214_id_partial (suffix : Name) (n : Nat) (h : n < 1000000) : idOf suffix (fileName suffix n) = some n := by
  have hl := pad6_length n h
  have ht : (pad6 n ++ '.' :: suffix).take 6 = pad6 n := by rw [← hl, List.take_left]
  have hd : (pad6 n ++ '.' :: suffix).drop 6 = '.' :: suffix := by rw [← hl, List.drop_left]
  have hm : isMatch ['_'] ('.' :: suffix) (fileName suffix n) = true := by
    unfold fileName isMatch
    rw [Bool.or_eq_true]
    left
    unfold matchHere
    simp only [List.length_cons, List.length_nil, List.drop_succ_cons, List.drop_zero, Nat.zero_add, ht, hd, hl]
    simp only [decide_true, Bool.and_true, Bool.and_eq_true, List.all_eq_true]
    refine ⟨⟨by simp, pad6_isDigit n⟩, ?_⟩
    rw [List.isPrefixOf_iff_prefix]; exact List.prefix_refl _
  unfold idOf
  rw [if_pos hm]
  unfold fileName
  rw [List.drop_succ_cons, List.drop_zero, ht, parse_digits _ (pad6_ne_nil n) (pad6_isDigit n), undec_pad6]
  rw [undec_pad6]; omega

example : fileName "wal".toList 42 = "_000042.wal".toList ∧ idOf "wal".toList "_000042.wal".toList = some 42 := by decide +kernel

theorem not_under {c : Char} (h : isDigit c = true) : c ≠ '_' ∧ c ≠ '.' := by
  have := digit_bounds h
  constructor <;> rintro rfl <;> revert this <;> decide

/-- C214 is false from a million on: no such log is ever recognised. -/
theorem C214_million_refuted (suffix : Name) (hs : '_' ∉ suffix) (n : Nat) (h : 1000000 ≤ n) :
    idOf suffix (fileName suffix n) = none := by
  have hl := pad6_long n h
  have rest : ∀ l : Name, '_' ∉ l → isMatch ['_'] ('.' :: suffix) l = false := by
    intro l
    induction l with
    | nil => intro _; simp [isMatch, matchHere]
    | cons c l ih =>
      intro hc
      have h1 : c ≠ '_' := fun he => hc (he ▸ List.mem_cons_self)
      unfold isMatch
      rw [ih fun hx => hc (List.mem_cons_of_mem _ hx)]
      have : (['_'].isPrefixOf (c :: l)) = false := by
        cases hp : ['_'].isPrefixOf (c :: l) with
        | false => rfl
        | true =>
          rw [List.isPrefixOf_iff_prefix] at hp
          obtain ⟨t, ht⟩ := hp
          simp only [List.cons_append, List.cons.injEq] at ht
          exact absurd ht.1.symm h1
      simp [matchHere, this]
  have hm : isMatch ['_'] ('.' :: suffix) (fileName suffix n) = false := by
    unfold fileName isMatch
    rw [rest]
    · rw [Bool.or_false]
      unfold matchHere
      simp only [List.length_cons, List.length_nil, List.drop_succ_cons, List.drop_zero, Nat.zero_add]
      have : ('.' :: suffix).isPrefixOf ((pad6 n ++ '.' :: suffix).drop 6) = false := by
        have hg : ∃ c r, (pad6 n).drop 6 = c :: r ∧ isDigit c = true := by
          cases hd : (pad6 n).drop 6 with
          | nil =>
            have := congrArg List.length hd
            rw [List.length_drop, List.length_nil] at this; omega
          | cons c r =>
            exact ⟨c, r, rfl, pad6_isDigit n c (List.mem_of_mem_drop (hd ▸ List.mem_cons_self))⟩
        obtain ⟨c, r, he, hc⟩ := hg
        rw [List.drop_append_of_le_length (by omega), he]
        cases hp : ('.' :: suffix).isPrefixOf (c :: r ++ '.' :: suffix) with
        | false => rfl
        | true =>
          rw [List.isPrefixOf_iff_prefix] at hp
          obtain ⟨t, ht⟩ := hp
          simp only [List.cons_append, List.cons.injEq] at ht
          exact absurd ht.1.symm (not_under hc).2
      rw [this, Bool.and_false]
    · intro hx
      rcases List.mem_append.1 hx with h1 | h1
      · exact (not_under (pad6_isDigit n _ h1)).1 rfl
      · rcases List.mem_cons.1 h1 with h2 | h2
        · exact absurd h2 (by decide)
        · exact hs h2
  unfold idOf
  rw [if_neg (by rw [hm]; simp)]

theorem indexOf_split (c : Char) (l r : Name) (h : c ∉ l) : indexOf c (l ++ c :: r) = some l.length := by
  induction l with
  | nil => simp [indexOf]
  | cons x l ih =>
    have hx : x ≠ c := fun he => h (he ▸ List.mem_cons_self)
    show (if x = c then some 0 else (indexOf c (l ++ c :: r)).map (· + 1)) = _
    rw [if_neg hx, ih fun hm => h (List.mem_cons_of_mem _ hm)]; rfl

/-- C214: the number of a data file is read from its name, for all numbers of 64 bits. -/
theorem C214_tsm (suffix : Name) (n : Nat) (h : n < 18446744073709551616) : tsmId (fileName suffix n) = .ok n := by
  have hlen : (fileName suffix n).length ≠ 1 := by
    unfold fileName
    rw [List.length_cons, List.length_append, List.length_cons]; omega
  have h1 : indexOf '_' (fileName suffix n) = some 0 := by unfold fileName; simp [indexOf]
  have h2 : indexOf '.' (fileName suffix n) = some ((pad6 n).length + 1) := by
    have := indexOf_split '.' ('_' :: pad6 n) suffix (by
      intro hx
      rcases List.mem_cons.1 hx with h1 | h1
      · exact absurd h1 (by decide)
      · exact (not_under (pad6_isDigit n _ h1)).2 rfl)
    rw [List.length_cons] at this
    exact this
  unfold tsmId
  rw [if_neg hlen, h1, h2]
  dsimp only [Option.getD_some]
  rw [if_neg (by omega)]
  have h3 : ((fileName suffix n).take ((pad6 n).length + 1)).drop (0 + 1) = pad6 n := by
    unfold fileName
    rw [List.take_succ_cons, List.take_left]; rfl
  rw [h3, parse_digits _ (pad6_ne_nil n) (pad6_isDigit n), undec_pad6]
  rw [undec_pad6]; exact h

/-- C214: different files have different names. -/
theorem C214_distinct (s s' : Name) (n n' : Nat) (h : fileName s n = fileName s' n') : n = n' ∧ s = s' := by
  have key : ∀ (l l' : Name), (∀ c ∈ l, c ≠ '.') → (∀ c ∈ l', c ≠ '.') → ∀ {x y : Name}, l ++ '.' :: x = l' ++ '.' :: y → l = l' ∧ x = y := by
    intro l
    induction l with
    | nil =>
      intro l' _ h' x y he
      cases l' with
      | nil => exact ⟨rfl, by simpa using he⟩
      | cons c l' =>
        simp only [List.nil_append, List.cons_append, List.cons.injEq] at he
        exact absurd he.1.symm (h' c List.mem_cons_self)
    | cons c l ih =>
      intro l' h0 h' x y he
      cases l' with
      | nil =>
        simp only [List.nil_append, List.cons_append, List.cons.injEq] at he
        exact absurd he.1 (h0 c List.mem_cons_self)
      | cons c' l' =>
        simp only [List.cons_append, List.cons.injEq] at he
        obtain ⟨e1, e2⟩ := ih l' (fun a ha => h0 a (List.mem_cons_of_mem _ ha)) (fun a ha => h' a (List.mem_cons_of_mem _ ha)) he.2
        exact ⟨by rw [he.1, e1], e2⟩
  unfold fileName at h
  simp only [List.cons.injEq, true_and] at h
  obtain ⟨e1, e2⟩ := key _ _ (fun c hc => (not_under (pad6_isDigit n c hc)).2) (fun c hc => (not_under (pad6_isDigit n' c hc)).2) h
  exact ⟨by rw [← undec_pad6 n, e1, undec_pad6], e2⟩

/-- C214: the number of a manifest, for all numbers of 64 bits. -/
theorem C214_summary (n : Nat) (h : n < 18446744073709551616) : summaryId (summaryName n) = some n := by
  have h6 : 6 ≤ (pad6 n).length := by
    unfold pad6; rw [List.length_append, List.length_replicate]; omega
  have hd : (summaryName n).drop 8 = pad6 n := by
    unfold summaryName
    exact List.drop_left (l₁ := "summary-".toList)
  have hm : isMatch "summary-".toList [] (summaryName n) = true := by
    have : matchHere "summary-".toList [] (summaryName n) = true := by
      have hlen : ("summary-".toList).length = 8 := by decide
      unfold matchHere
      rw [hlen, hd]
      have hp : ("summary-".toList).isPrefixOf (summaryName n) = true := by
        rw [List.isPrefixOf_iff_prefix]; exact List.prefix_append _ _
      rw [hp, List.length_take, Nat.min_eq_left h6]
      simp only [decide_true, Bool.true_and, Bool.and_eq_true, List.all_eq_true]
      refine ⟨fun c hc => pad6_isDigit n c (List.mem_of_mem_take hc), by simp⟩
    unfold isMatch
    split
    · rename_i he; rw [he] at this; exact this
    · rename_i he; rw [he] at this; rw [this]; rfl
  unfold summaryId
  rw [if_pos hm, hd, parse_digits _ (pad6_ne_nil n) (pad6_isDigit n), undec_pad6]
  rw [undec_pad6]; exact h

/-- C214 is false for foreign names: a copy of a log is taken for the log, and a name with a dot in front makes the reader of
data files panic. -/
theorem C214_foreign_refuted : idOf "wal".toList "_000007.wal.bak".toList = some 7 ∧ tsmId ".tsm".toList = .panic := by
  decide +kernel

/-! ## C215: logs after a start -/

theorem scan_spec (get : Name → Option Nat) (l : List Name) : ∀ st : Nat × Name × Bool,
    st.1 ≤ (scan get l st).1 ∧ (∀ n ∈ l, ∀ id, get n = some id → id ≤ (scan get l st).1) ∧
    ((scan get l st).1 = st.1 ∨ ∃ n ∈ l, get n = some (scan get l st).1) ∧
    ((scan get l st).2.2 = true ↔ st.2.2 = true ∨ ∃ n ∈ l, (get n).isSome = true) := by
  induction l with
  | nil => intro st; exact ⟨Nat.le_refl _, fun n hn => (by cases hn), Or.inl rfl, by simp [scan]⟩
  | cons x l ih =>
    intro st
    unfold scan
    cases hg : get x with
    | none =>
      obtain ⟨a, b, c, d⟩ := ih st
      refine ⟨a, ?_, ?_, ?_⟩
      · intro n hn id hid
        rcases List.mem_cons.1 hn with rfl | hn
        · rw [hg] at hid; cases hid
        · exact b n hn id hid
      · rcases c with c | ⟨n, hn, c⟩
        · exact Or.inl c
        · exact Or.inr ⟨n, List.mem_cons_of_mem _ hn, c⟩
      · rw [d]; simp [hg]
    | some id =>
      dsimp only
      by_cases hlt : st.1 < id
      · rw [if_pos hlt]
        obtain ⟨a, b, c, d⟩ := ih (id, x, true)
        refine ⟨Nat.le_trans (Nat.le_of_lt hlt) a, ?_, ?_, ?_⟩
        · intro n hn id' hid
          rcases List.mem_cons.1 hn with rfl | hn
          · rw [hg] at hid; cases hid; exact a
          · exact b n hn id' hid
        · right
          rcases c with c | ⟨n, hn, c⟩
          · exact ⟨x, List.mem_cons_self, by rw [c, hg]⟩
          · exact ⟨n, List.mem_cons_of_mem _ hn, c⟩
        · rw [d]; simp [hg]
      · rw [if_neg hlt]
        obtain ⟨a, b, c, d⟩ := ih (st.1, st.2.1, true)
        refine ⟨a, ?_, ?_, ?_⟩
        · intro n hn id' hid
          rcases List.mem_cons.1 hn with rfl | hn
          · rw [hg] at hid; cases hid; exact Nat.le_trans (Nat.le_of_not_lt hlt) a
          · exact b n hn id' hid
        · rcases c with c | ⟨n, hn, c⟩
          · exact Or.inl c
          · exact Or.inr ⟨n, List.mem_cons_of_mem _ hn, c⟩
        · rw [d]; simp [hg]

/-- C215: after a start the log with the greatest number is written to, whatever else is in the directory and in any order, if
numbers are below a million. -/
theorem C215_newest_partial (dir : List Name) (ids : List Nat) (hid : ∀ n ∈ ids, n < 1000000) (hne : ids ≠ [])
    (hdir : ∀ x, (∃ n ∈ ids, x = fileName "wal".toList n) → x ∈ dir)
    (hoth : ∀ x ∈ dir, (∃ n ∈ ids, x = fileName "wal".toList n) ∨ idOf "wal".toList x = none) :
    openId dir ∈ ids ∧ ∀ n ∈ ids, n ≤ openId dir := by
  obtain ⟨m, hm⟩ := List.exists_mem_of_ne_nil ids hne
  have hmd := hdir _ ⟨m, hm, rfl⟩
  unfold openId maxSeq
  cases dir with
  | nil => cases hmd
  | cons h t =>
    dsimp only
    obtain ⟨_, b, c, d⟩ := scan_spec (idOf "wal".toList) (h :: t) (0, h, false)
    have hf : (scan (idOf "wal".toList) (h :: t) (0, h, false)).2.2 = true :=
      d.2 (Or.inr ⟨_, hmd, by rw [C214_id_partial _ m (hid m hm)]; rfl⟩)
    rw [if_pos hf]
    dsimp only
    have hle : ∀ n ∈ ids, n ≤ (scan (idOf "wal".toList) (h :: t) (0, h, false)).1 :=
      fun n hn => b _ (hdir _ ⟨n, hn, rfl⟩) n (C214_id_partial _ n (hid n hn))
    refine ⟨?_, hle⟩
    rcases c with c | ⟨x, hx, c⟩
    · have : m = (scan (idOf "wal".toList) (h :: t) (0, h, false)).1 := by
        have := hle m hm
        rw [c] at this ⊢
        exact Nat.le_zero.1 this
      rw [← this]; exact hm
    · rcases hoth x hx with ⟨n, hn, rfl⟩ | h0
      · rw [C214_id_partial _ n (hid n hn)] at c
        cases c; exact hn
      · rw [h0] at c; cases c

/-- Two logs and a stray file. -/
example : openId ["_000009.wal".toList, "_000010.wal".toList, "x".toList] = 10 ∧ idOf "wal".toList "x".toList = none := by decide +kernel

theorem lexLt_irrefl (s : Name) : lexLt s s = false := by
  induction s with
  | nil => rfl
  | cons c s ih => simp [lexLt, ih]

theorem lexLt_digits (x : Name) : ∀ y s : Name, x.length = y.length → (∀ c ∈ x, isDigit c = true) → (∀ c ∈ y, isDigit c = true) →
    (lexLt (x ++ s) (y ++ s) = true ↔ undec x < undec y) := by
  induction x with
  | nil =>
    intro y s hl _ _
    cases y with
    | nil => simp [lexLt_irrefl]
    | cons c y => simp at hl
  | cons a x ih =>
    intro y s hl hx hy
    cases y with
    | nil => simp at hl
    | cons b y =>
      rw [List.length_cons, List.length_cons] at hl
      have hl : x.length = y.length := by omega
      have h1 := ih y s hl (fun c hc => hx c (List.mem_cons_of_mem _ hc)) (fun c hc => hy c (List.mem_cons_of_mem _ hc))
      have ha := digit_bounds (hx a List.mem_cons_self)
      have hb := digit_bounds (hy b List.mem_cons_self)
      have ux := undec_lt x (fun c hc => hx c (List.mem_cons_of_mem _ hc))
      have uy := undec_lt y (fun c hc => hy c (List.mem_cons_of_mem _ hc))
      rw [undec_cons, undec_cons, hl]
      rw [hl] at ux
      show (decide (a.toNat < b.toNat) || (decide (a.toNat = b.toNat) && lexLt (x ++ s) (y ++ s))) = true ↔ _
      rw [Bool.or_eq_true, Bool.and_eq_true, decide_eq_true_eq, decide_eq_true_eq, h1]
      generalize 10 ^ y.length = P at ux uy
      constructor
      · rintro (h | ⟨h, h'⟩)
        · have : (a.toNat - 48 + 1) * P ≤ (b.toNat - 48) * P := Nat.mul_le_mul_right _ (by omega)
          rw [Nat.add_mul, Nat.one_mul] at this
          omega
        · rw [h]; omega
      · intro h
        by_cases h2 : a.toNat < b.toNat
        · exact Or.inl h2
        · right
          by_cases h3 : a.toNat = b.toNat
          · refine ⟨h3, ?_⟩; rw [h3] at h; omega
          · exfalso
            have : (b.toNat - 48 + 1) * P ≤ (a.toNat - 48) * P := Nat.mul_le_mul_right _ (by omega)
            rw [Nat.add_mul, Nat.one_mul] at this
            omega

/-- C215: below a million, names are in the order of their numbers. -/
theorem C215_order_partial (suffix : Name) (a b : Nat) (ha : a < 1000000) (hb : b < 1000000) :
    lexLt (fileName suffix a) (fileName suffix b) = true ↔ a < b := by
  have := lexLt_digits (pad6 a) (pad6 b) ('.' :: suffix) (by rw [pad6_length a ha, pad6_length b hb]) (pad6_isDigit a) (pad6_isDigit b)
  rw [undec_pad6, undec_pad6] at this
  unfold fileName
  rw [← this]
  simp [lexLt]

/-- C215: the logs of a directory are all read, each once, the older ones first, if their numbers are below a million. -/
theorem C215_replay_partial (ids : List Nat) (hid : ∀ n ∈ ids, n < 1000000)
    (hs : (ids.map (fileName "wal".toList)).Pairwise fun x y => lexLt x y = true) :
    recovered (ids.map (fileName "wal".toList)) = ids ∧ ids.Pairwise (· < ·) := by
  constructor
  · unfold recovered
    clear hs
    induction ids with
    | nil => rfl
    | cons n ids ih =>
      rw [List.map_cons, List.filterMap_cons, C214_id_partial _ n (hid n List.mem_cons_self)]
      dsimp only
      rw [ih fun m hm => hid m (List.mem_cons_of_mem _ hm)]
  · rw [List.pairwise_map] at hs
    exact List.Pairwise.imp_of_mem (fun {a b} ha hb h => (C215_order_partial _ a b (hid a ha) (hid b hb)).1 h) hs

example : ([9, 10, 100].map (fileName "wal".toList)).Pairwise fun x y => lexLt x y = true := by
  simp only [List.map_cons, List.map_nil, List.pairwise_cons]; decide +kernel

/-- C215 is false from a million on: with the logs 999999 and 1000000 the older one is written to again, and the newer one is
not read; with the newer one alone, writing starts with number one. -/
theorem C215_million_refuted :
    openId [fileName "wal".toList 1000000, fileName "wal".toList 999999] = 999999 ∧
    recovered [fileName "wal".toList 1000000, fileName "wal".toList 999999] = [999999] ∧
    openId [fileName "wal".toList 1000000] = 1 ∧
    lexLt (fileName "wal".toList 1000000) (fileName "wal".toList 999999) = true := by decide +kernel

/-- C215: a file of number zero is not found by its name: the name is that of the first file of the directory. -/
theorem C215_zero_refuted : maxSeq (idOf "wal".toList) ["LOCK".toList, "_000000.wal".toList] = some ("LOCK".toList, 0) := by
  decide +kernel

/-- C215: the least and the greatest number of a kind of file. -/
theorem C215_range (suffix : Name) (dir : List Name) (a b : Nat) (h : idRange suffix dir = some (a, b)) :
    (∀ x ∈ dir, ∀ n, idOf suffix x = some n → a ≤ n ∧ n ≤ b) := by
  have key : ∀ (dir : List Name) (r : Option (Nat × Nat)) (a b : Nat),
      dir.foldl (fun r n => match idOf suffix n with
        | some id => match r with
          | some (a, b) => some (if id < a then id else a, if b < id then id else b)
          | none => some (id, id)
        | none => r) r = some (a, b) →
      (∀ c d, r = some (c, d) → a ≤ c ∧ d ≤ b) ∧ ∀ x ∈ dir, ∀ n, idOf suffix x = some n → a ≤ n ∧ n ≤ b := by
    intro dir
    induction dir with
    | nil =>
      intro r a b h
      refine ⟨?_, fun x hx => (by cases hx)⟩
      intro c d hr
      rw [List.foldl_nil, hr] at h
      cases h
      exact ⟨Nat.le_refl _, Nat.le_refl _⟩
    | cons x dir ih =>
      intro r a b h
      rw [List.foldl_cons] at h
      obtain ⟨h1, h2⟩ := ih _ a b h
      cases hx : idOf suffix x with
      | none =>
        rw [hx] at h1
        refine ⟨h1, ?_⟩
        intro y hy n hn
        rcases List.mem_cons.1 hy with rfl | hy
        · rw [hx] at hn; cases hn
        · exact h2 y hy n hn
      | some id =>
        rw [hx] at h1
        cases r with
        | none =>
          have h3 := h1 id id rfl
          refine ⟨fun c d hr => (by cases hr), ?_⟩
          intro y hy n hn
          rcases List.mem_cons.1 hy with rfl | hy
          · rw [hx] at hn; cases hn; exact h3
          · exact h2 y hy n hn
        | some q =>
          obtain ⟨c, d⟩ := q
          have h3 := h1 _ _ rfl
          have h4 : a ≤ c ∧ a ≤ id ∧ d ≤ b ∧ id ≤ b := by
            obtain ⟨h5, h6⟩ := h3
            by_cases k1 : id < c <;> by_cases k2 : d < id <;> simp only [k1, k2, if_true, if_false] at h5 h6 <;> omega
          refine ⟨fun c' d' hr => by cases hr; exact ⟨h4.1, h4.2.2.1⟩, ?_⟩
          intro y hy n hn
          rcases List.mem_cons.1 hy with rfl | hy
          · rw [hx] at hn; cases hn; exact ⟨h4.2.1, h4.2.2.2⟩
          · exact h2 y hy n hn
  exact (key dir none a b h).2

end Verif.Files
