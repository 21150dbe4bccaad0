import Verif.Line.Spec
/-!
# Reading back names, values and numbers
-/
namespace Verif.LineProto

variable {F : Type}

/-! ## Escapes -/

theorem quote_nil (sp : Byte → Bool) : quote sp [] = [] := rfl

theorem quote_cons (sp : Byte → Bool) (c : Byte) (l : Bytes) : quote sp (c :: l) = (if sp c then [BS, c] else [c]) ++ quote sp l := rfl

theorem quote_plain {sp : Byte → Bool} {l : Bytes} (h : l.any sp = false) : quote sp l = l := by
  induction l with
  | nil => rfl
  | cons c l ih =>
    simp only [List.any_cons, Bool.or_eq_false_iff] at h
    rw [quote_cons, h.1, ih h.2]
    rfl

theorem unescape_after (l : Bytes) (x : Byte) : unescape (x :: quote inKey l) = .ok (x :: l) := by
  induction l generalizing x with
  | nil => rfl
  | cons c l ih =>
    rw [quote_cons]
    by_cases hc : inKey c = true
    · rw [if_pos hc]
      have h1 : ¬(BS = CM ∨ BS = SP ∨ BS = EQ) := by decide
      have h2 : c = CM ∨ c = SP ∨ c = EQ := by simpa [inKey, or_assoc] using hc
      show unescape (x :: BS :: c :: quote inKey l) = _
      rw [unescape, if_neg h1, unescape, if_pos h2, if_pos rfl, ih]
    · rw [if_neg hc]
      have h2 : ¬(c = CM ∨ c = SP ∨ c = EQ) := by simpa [inKey, or_assoc] using hc
      show unescape (x :: c :: quote inKey l) = _
      rw [unescape, if_neg h2, ih]

theorem unescape_quote {l : Bytes} (h : l ≠ []) : unescape (quote inKey l) = .ok l := by
  cases l with
  | nil => exact absurd rfl h
  | cons c l =>
    rw [quote_cons]
    by_cases hc : inKey c = true
    · rw [if_pos hc]
      have h2 : c = CM ∨ c = SP ∨ c = EQ := by simpa [inKey, or_assoc] using hc
      show unescape (BS :: c :: quote inKey l) = _
      rw [unescape, if_pos h2, if_pos rfl, unescape_after]
    · rw [if_neg hc]
      exact unescape_after l c

/-- A name as the scanner has it is read back. -/
theorem escape_key (l : Bytes) : escape (quote inKey l) (l.any inKey) = .ok l := by
  unfold escape
  cases h : l.any inKey with
  | true =>
    rw [if_pos rfl]
    exact unescape_quote (by rintro rfl; cases h)
  | false => rw [if_neg (by simp), quote_plain h]

theorem quote_table_eq {l : Bytes} (h : EQ ∉ l) : quote inTable l = quote inKey l ∧ l.any inTable = l.any inKey := by
  induction l with
  | nil => exact ⟨rfl, rfl⟩
  | cons c l ih =>
    rw [List.mem_cons, not_or] at h
    have hc : inTable c = inKey c := by
      have : (c == EQ) = false := by simpa using fun e => h.1 e.symm
      simp [inTable, inKey, this]
    rw [quote_cons, quote_cons, hc, (ih h.2).1, List.any_cons, List.any_cons, hc, (ih h.2).2]
    exact ⟨rfl, rfl⟩

theorem escape_table {l : Bytes} (h : EQ ∈ l → CM ∉ l ∧ SP ∉ l) : escape (quote inTable l) (l.any inTable) = .ok l := by
  by_cases he : EQ ∈ l
  · have : l.any inTable = false := by
      rw [List.any_eq_false]
      intro x hx hc
      rcases (by simpa [inTable] using hc : x = CM ∨ x = SP) with rfl | rfl
      · exact (h he).1 hx
      · exact (h he).2 hx
    rw [this, quote_plain this]
    rfl
  · rw [(quote_table_eq he).1, (quote_table_eq he).2]
    exact escape_key l

theorem unescapeStr_after (l : Bytes) (x : Byte) (b : Bool) (h : x ≠ BS ∨ b = true) :
    unescapeStr b (x :: quote inText l) = .ok (x :: l) := by
  induction l generalizing x b with
  | nil => rfl
  | cons c l ih =>
    rw [quote_cons]
    by_cases hc : inText c = true
    · rw [if_pos hc]
      have h2 : c = DQ ∨ c = BS := by simpa [inText] using hc
      show unescapeStr b (x :: BS :: c :: quote inText l) = _
      rw [unescapeStr, if_neg (by rintro ⟨_, _, _, h⟩; exact absurd h (by decide)),
        if_neg (by rintro ⟨h3, _, h4⟩; rcases h with h | h; exact h h3; rw [h] at h4; cases h4), unescapeStr,
        if_neg (by rintro ⟨_, _, h, _⟩; cases h), if_pos ⟨rfl, h2, rfl⟩, ih c true (.inr rfl)]
    · rw [if_neg hc]
      have h2 : ¬(c = DQ ∨ c = BS) := by simpa [inText] using hc
      show unescapeStr b (x :: c :: quote inText l) = _
      rw [unescapeStr, if_neg (fun h => h2 h.2.1), if_neg (fun h => h2 h.2.1), ih c false (.inl fun e => h2 (.inr e))]

theorem escapedStr_quote (l : Bytes) : escapedStr (quote inText l) (l.any inText) = .ok l := by
  unfold escapedStr
  cases h : l.any inText with
  | false => rw [if_neg (by simp), quote_plain h]
  | true =>
    rw [if_pos rfl]
    cases l with
    | nil => cases h
    | cons c l =>
      rw [quote_cons]
      by_cases hc : inText c = true
      · rw [if_pos hc]
        have h2 : c = DQ ∨ c = BS := by simpa [inText] using hc
        show unescapeStr false (BS :: c :: quote inText l) = _
        rw [unescapeStr, if_neg (by rintro ⟨_, _, h, _⟩; cases h), if_pos ⟨rfl, h2, rfl⟩, unescapeStr_after _ _ _ (.inr rfl)]
      · rw [if_neg hc]
        have h2 : ¬(c = DQ ∨ c = BS) := by simpa [inText] using hc
        exact unescapeStr_after l c false (.inl fun e => h2 (.inr e))

/-! ## Numbers -/

theorem digit_toNat {n : Nat} (h : n < 10) : (digit n).toNat = 48 + n := by
  unfold digit
  rw [BitVec.toNat_ofNat]
  omega

theorem digit_isDigit {n : Nat} (h : n < 10) : isDigit (digit n) = true := by
  simp [isDigit, digit_toNat h]
  omega

theorem dec_isDigit (n : Nat) : ∀ c ∈ dec n, isDigit c = true := by
  induction n using Nat.strongRecOn with
  | _ n ih =>
    intro c hc
    rw [dec] at hc
    by_cases h : n < 10
    · rw [if_pos h] at hc
      rw [List.mem_singleton.1 hc]
      exact digit_isDigit h
    · rw [if_neg h, List.mem_append, List.mem_singleton] at hc
      rcases hc with hc | rfl
      · exact ih (n / 10) (by omega) c hc
      · exact digit_isDigit (Nat.mod_lt _ (by omega))

theorem dec_ne_nil (n : Nat) : dec n ≠ [] := by
  rw [dec]
  split <;> simp

theorem natOf_dec (n : Nat) : natOf (dec n) = n := by
  induction n using Nat.strongRecOn with
  | _ n ih =>
    rw [dec]
    by_cases h : n < 10
    · rw [if_pos h]
      simp [natOf, digit_toNat h]
    · rw [if_neg h]
      have := ih (n / 10) (by omega)
      unfold natOf at this ⊢
      rw [List.foldl_append, this]
      simp only [List.foldl_cons, List.foldl_nil, digit_toNat (Nat.mod_lt n (show 0 < 10 by omega))]
      omega

theorem dec_all (n : Nat) : (dec n).all isDigit = true := List.all_eq_true.2 (dec_isDigit n)

theorem atou_dec {n : Nat} (h : n < 2 ^ 64) : atou (dec n) = some n := by
  unfold atou
  rw [natOf_dec, dec_all, if_neg]
  simp only [List.isEmpty_iff, Bool.or_eq_true, Bool.not_true, Bool.false_eq_true, or_false, decide_eq_true_eq, not_or]
  exact ⟨dec_ne_nil n, by omega⟩

theorem not_digit_MI : isDigit MI = false := by decide

theorem atoi_decInt {i : Int} (h : -2 ^ 63 ≤ i ∧ i < 2 ^ 63) : atoi (decInt i) = some i := by
  unfold decInt
  by_cases hi : i < 0
  · rw [if_pos hi]
    simp only [atoi, if_pos]
    rw [natOf_dec, dec_all, if_neg]
    · congr 1
      omega
    · simp only [List.isEmpty_iff, Bool.or_eq_true, Bool.not_true, Bool.false_eq_true, or_false, decide_eq_true_eq, not_or]
      exact ⟨dec_ne_nil _, by omega⟩
  · rw [if_neg hi]
    cases e : dec i.natAbs with
    | nil => exact absurd e (dec_ne_nil _)
    | cons c ds =>
      have hc : c ≠ MI := by
        rintro rfl
        have := dec_isDigit i.natAbs MI (by rw [e]; exact List.mem_cons_self)
        rw [not_digit_MI] at this
        cases this
      simp only [atoi]
      rw [if_neg hc, ← e, natOf_dec, dec_all, if_neg]
      · congr 1
        omega
      · simp only [Bool.or_eq_true, Bool.not_true, Bool.false_eq_true, false_or, decide_eq_true_eq]
        omega

theorem takeWhile_all {l : Bytes} {p : Byte → Bool} (h : l.all p = true) : l.takeWhile p = l := by
  induction l with
  | nil => rfl
  | cons c l ih =>
    simp only [List.all_cons, Bool.and_eq_true] at h
    rw [List.takeWhile_cons, if_pos h.1, ih h.2]

theorem atoiPrefix_decInt {i : Int} (h : -2 ^ 63 ≤ i ∧ i < 2 ^ 63) : atoiPrefix (decInt i) = some i := by
  have hr := atoi_decInt h
  unfold decInt at hr ⊢
  by_cases hi : i < 0
  · rw [if_pos hi] at hr ⊢
    simp only [atoiPrefix, if_pos]
    rw [takeWhile_all (dec_all _)]
    exact hr
  · rw [if_neg hi] at hr ⊢
    cases e : dec i.natAbs with
    | nil => exact absurd e (dec_ne_nil _)
    | cons c ds =>
      have hc : c ≠ MI := by
        rintro rfl
        have := dec_isDigit i.natAbs MI (by rw [e]; exact List.mem_cons_self)
        rw [not_digit_MI] at this
        cases this
      simp only [atoiPrefix]
      rw [if_neg hc, ← e, takeWhile_all (dec_all _)]
      exact hr

/-- A digit or a minus sign. -/
theorem decInt_mem {i : Int} {c : Byte} (h : c ∈ decInt i) : c = MI ∨ isDigit c = true := by
  unfold decInt at h
  split at h
  · rcases List.mem_cons.1 h with h | h
    · exact .inl h
    · exact .inr (dec_isDigit _ _ h)
  · exact .inr (dec_isDigit _ _ h)

theorem decInt_ne_nil (i : Int) : decInt i ≠ [] := by
  unfold decInt
  split
  · simp
  · exact dec_ne_nil _

/-- A byte of a number means nothing else. -/
theorem num_plain {c : Byte} (h : c = MI ∨ isDigit c = true) :
    (c ≠ DQ ∧ c ≠ BS ∧ c ≠ CM ∧ c ≠ SP ∧ c ≠ CR ∧ c ≠ LF) ∧ isWs c = false ∧
      (c ≠ 0x74#8 ∧ c ≠ 0x54#8 ∧ c ≠ 0x66#8 ∧ c ≠ 0x46#8) := by
  rcases h with rfl | h
  · decide
  · have : ∀ d : Byte, isDigit d = true → (d ≠ DQ ∧ d ≠ BS ∧ d ≠ CM ∧ d ≠ SP ∧ d ≠ CR ∧ d ≠ LF) ∧ isWs d = false ∧
      (d ≠ 0x74#8 ∧ d ≠ 0x54#8 ∧ d ≠ 0x66#8 ∧ d ≠ 0x46#8) := by decide +kernel
    exact this c h

/-! ## Values -/

theorem parseValue_number {fast : Bytes → Option F} {buf : Bytes} {need : Bool} {c : Byte} {l : Bytes} (hb : buf = c :: l)
    (hc : c = PL ∨ c = MI ∨ isDigit c = true) : parseValue fast buf need = parseNumeric fast buf := by
  have h : c ≠ 0x74#8 ∧ c ≠ 0x54#8 ∧ c ≠ 0x66#8 ∧ c ≠ 0x46#8 ∧ c ≠ DQ := by
    rcases hc with rfl | hc
    · decide
    · have := num_plain hc
      exact ⟨this.2.2.1, this.2.2.2.1, this.2.2.2.2.1, this.2.2.2.2.2, this.1.1⟩
  subst hb
  simp only [parseValue]
  rw [if_neg (not_or.2 ⟨h.1, h.2.1⟩), if_neg (not_or.2 ⟨h.2.2.1, h.2.2.2.1⟩), if_neg h.2.2.2.2, if_pos hc]

/-- Whether there is a backslash in a value as it is written. -/
def Value.needs : Value F → Bool
  | .str s => s.any inText
  | _ => false

/-- A value as it is written is read back. -/
theorem parseValue_text {fast : Bytes → Option F} {fl : F → Bytes} {v : Value F} (h : ValueOk fast fl v) :
    parseValue fast (valueText fl v) v.needs = .ok v := by
  cases v with
  | i64 v =>
    obtain ⟨c, l, e⟩ := List.exists_cons_of_ne_nil (decInt_ne_nil v)
    rw [parseValue_number (c := c) (l := l ++ [0x69#8]) (by simp [valueText, e])
      (.inr (decInt_mem (i := v) (by rw [e]; exact List.mem_cons_self)))]
    simp only [parseNumeric, valueText, List.getLast?_concat, List.dropLast_concat]
    rw [if_pos trivial, atoi_decInt h]
  | u64 v =>
    obtain ⟨c, l, e⟩ := List.exists_cons_of_ne_nil (dec_ne_nil v)
    rw [parseValue_number (c := c) (l := l ++ [0x75#8]) (by simp [valueText, e])
      (.inr (.inr (dec_isDigit v c (by rw [e]; exact List.mem_cons_self))))]
    simp only [parseNumeric, valueText, List.getLast?_concat, List.dropLast_concat]
    rw [if_neg (by decide), if_pos trivial, atou_dec h]
  | f64 v =>
    obtain ⟨c, l, e, hc⟩ := h.first
    rw [parseValue_number (buf := valueText fl (.f64 v)) (c := c) (l := l) e hc]
    have hn : (fl v) ≠ [] := by rw [e]; simp
    have hl := List.getLast?_eq_some_getLast hn
    have := h.last _ hl
    simp only [parseNumeric, valueText, hl]
    rw [if_neg this.1, if_neg this.2, h.read]
  | str v =>
    simp only [parseValue, valueText, Value.needs]
    rw [if_neg (by decide), if_neg (by decide), if_pos trivial]
    simp only [parseString]
    rw [if_neg (by simp), if_pos ⟨rfl, by rw [← List.cons_append, List.getLast?_concat]⟩, List.tail_cons, List.dropLast_concat,
      escapedStr_quote]
  | bool v => cases v <;> rfl

end Verif.LineProto
