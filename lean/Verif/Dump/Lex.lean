import Verif.Raft.StoreProps

/-!
# The text of dumped statements and its words

The statements of a dump (`common/models/src/sql/mod.rs`, `meta/src/store/dump.rs`) are texts.  A text is written as a list of
pieces: words, names between double quotes, strings between single quotes, numbers, symbols and spaces.  `lex` reads a text as the
tokens of crate `sqlparser` 0.35.0 with `CnosDBDialect` (`query_server/query/src/sql/dialect.rs`:6-23): words, names, strings,
numbers and symbols.  Simplifications: letters of words are ASCII letters; numbers are digits only; comments and operators other than
the symbols of dumped statements are refused.
-/

namespace Verif.Dump

abbrev Text := List Char

/-- Pieces of the format strings of `common/models/src/sql/mod.rs`. -/
inductive Piece where
  /-- text outside quotes: a keyword, a type, a role -/
  | word (w : Text)
  /-- `"{}"`, lines 43, 93, 142, 191-202, 224-229, 239-240, 291, 298, 314: the name as it is between double quotes -/
  | ident (n : Text)
  /-- `SqlParserValue::SingleQuotedString`: between single quotes, with single quotes doubled -/
  | str (s : Text)
  /-- `'{}'` (lines 155-184): the text as it is between single quotes -/
  | raw (s : Text)
  /-- a number -/
  | num (n : Nat)
  /-- one of `( ) , = ; .` -/
  | sym (c : Char)
  /-- a space -/
  | gap
deriving DecidableEq

/-- `Display` of `Value::SingleQuotedString` (sqlparser): every single quote twice. -/
def escape : Text → Text
  | [] => []
  | c :: s => if c = '\'' then '\'' :: '\'' :: escape s else c :: escape s

/-- The text of a piece. -/
def Piece.text : Piece → Text
  | .word w => w
  | .ident n => '"' :: n ++ ['"']
  | .str s => '\'' :: escape s ++ ['\'']
  | .raw s => '\'' :: s ++ ['\'']
  | .num n => Verif.Raft.dec n
  | .sym c => [c]
  | .gap => [' ']

/-- The text of a statement. -/
def render (ps : List Piece) : Text := ps.flatMap Piece.text

/-- Tokens. -/
inductive Tok where
  | word (w : Text)
  | quoted (n : Text)
  | str (s : Text)
  | num (d : Text)
  | sym (c : Char)
deriving DecidableEq

/-- `is_identifier_start` (dialect.rs:7-9), ASCII letters only. -/
def isStart (c : Char) : Bool := c.isAlpha || c = '_' || c = '#' || c = '@'

/-- `is_identifier_part` (dialect.rs:11-18), ASCII letters only. -/
def isPart (c : Char) : Bool := isStart c || c.isDigit || c = '$'

/-- The symbols of dumped statements. -/
def isSym (c : Char) : Bool := c ∈ ['(', ')', ',', '=', ';', '.']

/-- Where the reader is: between tokens, in a word, in a number, in a name, after a quote in a name, in a string, after a quote in a
string. -/
inductive St where
  | gap
  | word (a : Text)
  | num (a : Text)
  | ident (a : Text)
  | identQ (a : Text)
  | str (a : Text)
  | strQ (a : Text)
deriving DecidableEq

/-- The token that ends here, if one may end here. -/
def St.done : St → Option (List Tok)
  | .gap => some []
  | .word a => some [.word a]
  | .num a => some [.num a]
  | .ident _ => none
  | .identQ a => some [.quoted a]
  | .str _ => none
  | .strQ a => some [.str a]

/-- A character between tokens. -/
def start (c : Char) : Option (List Tok × St) :=
  if c.isWhitespace then some ([], .gap)
  else if c = '"' then some ([], .ident [])
  else if c = '\'' then some ([], .str [])
  else if isStart c then some ([], .word [c])
  else if c.isDigit then some ([], .num [c])
  else if isSym c then some ([.sym c], .gap)
  else none

/-- A character: the tokens that end, and where the reader is then.  A doubled quote stands for a quote in names and strings. -/
def step (c : Char) : St → Option (List Tok × St)
  | .gap => start c
  | .word a => if isPart c then some ([], .word (a ++ [c])) else (start c).map fun r => (.word a :: r.1, r.2)
  | .num a => if c.isDigit then some ([], .num (a ++ [c])) else (start c).map fun r => (.num a :: r.1, r.2)
  | .ident a => if c = '"' then some ([], .identQ a) else some ([], .ident (a ++ [c]))
  | .identQ a => if c = '"' then some ([], .ident (a ++ [c])) else (start c).map fun r => (.quoted a :: r.1, r.2)
  | .str a => if c = '\'' then some ([], .strQ a) else some ([], .str (a ++ [c]))
  | .strQ a => if c = '\'' then some ([], .str (a ++ [c])) else (start c).map fun r => (.str a :: r.1, r.2)

/-- The characters of a text. -/
def run : Text → St → Option (List Tok × St)
  | [], s => some ([], s)
  | c :: t, s => match step c s with
    | none => none
    | some (ts, s') => (run t s').map fun r => (ts ++ r.1, r.2)

/-- The tokens of a text. -/
def lex (t : Text) : Option (List Tok) :=
  match run t .gap with
  | none => none
  | some (ts, s) => s.done.map (ts ++ ·)

/-! ## What is written is read -/

/-- Pieces that are read as written: words of letters, names without a double quote, symbols. -/
def Piece.ok : Piece → Prop
  | .word w => (∃ c r, w = c :: r ∧ isStart c = true) ∧ ∀ c ∈ w, isPart c = true
  | .ident n => '"' ∉ n
  | .str _ => True
  | .raw s => '\'' ∉ s
  | .num _ => True
  | .sym c => isSym c = true
  | .gap => True

/-- The token of a piece. -/
def Piece.tok : Piece → List Tok
  | .word w => [.word w]
  | .ident n => [.quoted n]
  | .str s => [.str s]
  | .raw s => [.str s]
  | .num n => [.num (Verif.Raft.dec n)]
  | .sym c => [.sym c]
  | .gap => []

/-- Whether two pieces may stand next to each other. -/
def sep : Piece → Piece → Bool
  | .word _, .word _ => false
  | .word _, .num _ => false
  | .num _, .num _ => false
  | .num _, .word _ => false
  | .ident _, .ident _ => false
  | .str _, .str _ => false
  | .str _, .raw _ => false
  | .raw _, .str _ => false
  | .raw _, .raw _ => false
  | _, _ => true

/-- No two neighbours that run together. -/
def separated : List Piece → Bool
  | [] => true
  | [_] => true
  | p :: q :: r => sep p q && separated (q :: r)

/-- The token that is complete with the last character of a piece. -/
def Piece.ends : Piece → List Tok
  | .sym c => [.sym c]
  | _ => []

/-- Where the reader is after a piece. -/
def Piece.after : Piece → St
  | .word w => .word w
  | .ident n => .identQ n
  | .str s => .strQ s
  | .raw s => .strQ s
  | .num n => .num (Verif.Raft.dec n)
  | .sym _ => .gap
  | .gap => .gap

theorem run_append (a b : Text) (s : St) :
    run (a ++ b) s = match run a s with
      | none => none
      | some (ts, s') => (run b s').map fun r => (ts ++ r.1, r.2) := by
  induction a generalizing s with
  | nil => simp only [List.nil_append, run]; cases run b s <;> simp
  | cons c a ih =>
    simp only [List.cons_append, run]
    cases step c s with
    | none => rfl
    | some x =>
      obtain ⟨ts, s'⟩ := x
      simp only
      rw [ih]
      cases run a s' with
      | none => rfl
      | some y =>
        obtain ⟨us, s''⟩ := y
        simp only [Option.map_some]
        cases run b s'' <;> simp

/-- The token that a state at rest ends with. -/
def St.flush : St → List Tok
  | .word a => [.word a]
  | .num a => [.num a]
  | .identQ a => [.quoted a]
  | .strQ a => [.str a]
  | _ => []

/-- Between pieces the reader is not inside quotes. -/
def St.rest : St → Prop
  | .ident _ => False
  | .str _ => False
  | _ => True

/-- A piece may follow a state. -/
def St.joins : St → Piece → Prop
  | .word _, .word _ => False
  | .word _, .num _ => False
  | .num _, .num _ => False
  | .num _, .word _ => False
  | .identQ _, .ident _ => False
  | .strQ _, .str _ => False
  | .strQ _, .raw _ => False
  | _, _ => True

theorem run_word (a w : Text) (h : ∀ c ∈ w, isPart c = true) : run w (.word a) = some ([], .word (a ++ w)) := by
  induction w generalizing a with
  | nil => simp [run]
  | cons c w ih =>
    have hc := h c List.mem_cons_self
    have := ih (a ++ [c]) fun x hx => h x (List.mem_cons_of_mem _ hx)
    simp only [run, step, if_pos hc, this, Option.map_some, List.nil_append, List.append_assoc, List.singleton_append]

theorem run_num (a w : Text) (h : ∀ c ∈ w, c.isDigit = true) : run w (.num a) = some ([], .num (a ++ w)) := by
  induction w generalizing a with
  | nil => simp [run]
  | cons c w ih =>
    have hc := h c List.mem_cons_self
    have := ih (a ++ [c]) fun x hx => h x (List.mem_cons_of_mem _ hx)
    simp only [run, step, if_pos hc, this, Option.map_some, List.nil_append, List.append_assoc, List.singleton_append]

theorem run_ident (a n : Text) (h : '"' ∉ n) : run (n ++ ['"']) (.ident a) = some ([], .identQ (a ++ n)) := by
  induction n generalizing a with
  | nil => simp [run, step]
  | cons c n ih =>
    simp only [List.mem_cons, not_or] at h
    have hc : ¬ c = '"' := fun e => h.1 e.symm
    have := ih (a ++ [c]) h.2
    simp only [List.cons_append, run, step, if_neg hc, this, Option.map_some, List.nil_append, List.append_assoc,
      List.singleton_append]

theorem run_raw (a n : Text) (h : '\'' ∉ n) : run (n ++ ['\'']) (.str a) = some ([], .strQ (a ++ n)) := by
  induction n generalizing a with
  | nil => simp [run, step]
  | cons c n ih =>
    simp only [List.mem_cons, not_or] at h
    have hc : ¬ c = '\'' := fun e => h.1 e.symm
    have := ih (a ++ [c]) h.2
    simp only [List.cons_append, run, step, if_neg hc, this, Option.map_some, List.nil_append, List.append_assoc,
      List.singleton_append]

theorem run_str (a n : Text) : run (escape n ++ ['\'']) (.str a) = some ([], .strQ (a ++ n)) := by
  induction n generalizing a with
  | nil => simp [escape, run, step]
  | cons c n ih =>
    have := ih (a ++ [c])
    by_cases hc : c = '\''
    · subst hc
      simp only [escape, if_true, List.cons_append, run, step, this, Option.map_some, List.nil_append, List.append_assoc,
        List.singleton_append]
    · simp only [escape, if_neg hc, List.cons_append, run, step, this, Option.map_some, List.nil_append, List.append_assoc,
        List.singleton_append]

theorem isDigit_of {c : Char} (h : 48 ≤ c.toNat ∧ c.toNat < 58) : c.isDigit = true := by
  simp only [Char.isDigit, Bool.and_eq_true, decide_eq_true_eq, ge_iff_le, UInt32.le_iff_toNat_le]
  have e0 : '0'.val.toNat = 48 := rfl
  have e9 : '9'.val.toNat = 57 := rfl
  have e : c.toNat = c.val.toNat := rfl
  omega

theorem dec_isDigit (n : Nat) : ∀ c ∈ Verif.Raft.dec n, c.isDigit = true := fun c hc => isDigit_of (Verif.Raft.dec_digits n c hc)

/-- A character that does not go on a token starts the next one. -/
theorem step_start {c : Char} {s : St} (hr : s.rest) (hw : ∀ a, s = .word a → isPart c = false) (hn : ∀ a, s = .num a → c.isDigit = false)
    (hi : ∀ a, s = .identQ a → c ≠ '"') (hs : ∀ a, s = .strQ a → c ≠ '\'') :
    step c s = (start c).map fun r => (s.flush ++ r.1, r.2) := by
  cases s with
  | gap => simp only [step, St.flush, List.nil_append]; cases start c <;> rfl
  | word a => simp only [step, hw a rfl, St.flush]; cases start c <;> rfl
  | num a => simp only [step, hn a rfl, St.flush]; cases start c <;> rfl
  | ident a => exact absurd hr id
  | identQ a => simp only [step, if_neg (hi a rfl), St.flush]; cases start c <;> rfl
  | str a => exact absurd hr id
  | strQ a => simp only [step, if_neg (hs a rfl), St.flush]; cases start c <;> rfl

theorem digit_not_start {c : Char} (h : c.isDigit = true) : isStart c = false ∧ c.isWhitespace = false ∧ c ≠ '"' ∧ c ≠ '\'' := by
  simp only [Char.isDigit, Bool.and_eq_true, decide_eq_true_eq, ge_iff_le, UInt32.le_iff_toNat_le] at h
  have h1 : 48 ≤ c.val.toNat := h.1
  have h2 : c.val.toNat ≤ 57 := h.2
  clear h
  have eA : 'A'.val.toNat = 65 := rfl
  have ea : 'a'.val.toNat = 97 := rfl
  refine ⟨?_, ?_, ?_, ?_⟩
  · cases hs : isStart c with
    | false => rfl
    | true =>
      simp only [isStart, Char.isAlpha, Char.isUpper, Char.isLower, Bool.or_eq_true, Bool.and_eq_true, decide_eq_true_eq,
        ge_iff_le, UInt32.le_iff_toNat_le] at hs
      rcases hs with (((hs | hs) | rfl) | rfl) | rfl
      · omega
      · omega
      all_goals revert h1 h2; decide
  · simp only [Char.isWhitespace, Bool.or_eq_false_iff, decide_eq_false_iff_not]
    refine ⟨⟨⟨?_, ?_⟩, ?_⟩, ?_⟩ <;> (rintro rfl; revert h1; decide)
  · rintro rfl; revert h1; decide
  · rintro rfl; revert h1; decide

theorem start_not {c : Char} (h : isStart c = true) : c.isWhitespace = false ∧ c ≠ '"' ∧ c ≠ '\'' ∧ c.isDigit = false := by
  refine ⟨?_, ?_, ?_, ?_⟩
  · cases hw : c.isWhitespace with
    | false => rfl
    | true =>
      simp only [Char.isWhitespace, Bool.or_eq_true, decide_eq_true_eq] at hw
      rcases hw with ((rfl | rfl) | rfl) | rfl <;> revert h <;> decide
  · rintro rfl; revert h; decide
  · rintro rfl; revert h; decide
  · cases hd : c.isDigit with
    | false => rfl
    | true => rw [(digit_not_start hd).1] at h; cases h

theorem run_piece {p : Piece} {s : St} (hr : s.rest) (hj : s.joins p) (hp : p.ok) :
    run p.text s = some (s.flush ++ p.ends, p.after) := by
  cases p with
  | word w =>
    obtain ⟨⟨c, r, rfl, hc⟩, hall⟩ := hp
    have hs := start_not hc
    have e : step c s = some (s.flush, .word [c]) := by
      rw [step_start hr ?_ ?_ ?_ ?_]
      · simp [start, hs.1, hs.2.1, hs.2.2.1, hc]
      · rintro a rfl; exact absurd hj id
      · rintro a rfl; exact absurd hj id
      · rintro a rfl; exact hs.2.1
      · rintro a rfl; exact hs.2.2.1
    simp only [Piece.text, run, e, run_word [c] r fun x hx => hall x (List.mem_cons_of_mem _ hx), Option.map_some, Piece.after,
      Piece.ends, List.append_nil, List.singleton_append]
  | ident n =>
    have e : step '"' s = some (s.flush, .ident []) := by
      rw [step_start hr ?_ ?_ ?_ ?_]
      · have : start '"' = some ([], .ident []) := by decide
        simp [this]
      · rintro a rfl; decide
      · rintro a rfl; decide
      · rintro a rfl; exact absurd hj id
      · rintro a rfl; decide
    simp only [Piece.text, List.cons_append, run, e, run_ident [] n hp, Option.map_some, Piece.after, Piece.ends, List.append_nil, List.nil_append]
  | str n =>
    have e : step '\'' s = some (s.flush, .str []) := by
      rw [step_start hr ?_ ?_ ?_ ?_]
      · have : start '\'' = some ([], .str []) := by decide
        simp [this]
      · rintro a rfl; decide
      · rintro a rfl; decide
      · rintro a rfl; decide
      · rintro a rfl; exact absurd hj id
    simp only [Piece.text, List.cons_append, run, e, run_str [] n, Option.map_some, Piece.after, Piece.ends, List.append_nil, List.nil_append]
  | raw n =>
    have e : step '\'' s = some (s.flush, .str []) := by
      rw [step_start hr ?_ ?_ ?_ ?_]
      · have : start '\'' = some ([], .str []) := by decide
        simp [this]
      · rintro a rfl; decide
      · rintro a rfl; decide
      · rintro a rfl; decide
      · rintro a rfl; exact absurd hj id
    simp only [Piece.text, List.cons_append, run, e, run_raw [] n hp, Option.map_some, Piece.after, Piece.ends, List.append_nil, List.nil_append]
  | num n =>
    cases hd : Verif.Raft.dec n with
    | nil => exact absurd hd (Verif.Raft.dec_ne_nil n)
    | cons c r =>
      have hall := dec_isDigit n
      rw [hd] at hall
      have hc := hall c List.mem_cons_self
      have hs := digit_not_start hc
      have e : step c s = some (s.flush, .num [c]) := by
        rw [step_start hr ?_ ?_ ?_ ?_]
        · simp [start, hs.1, hs.2.1, hs.2.2.1, hs.2.2.2, hc]
        · rintro a rfl; exact absurd hj id
        · rintro a rfl; exact absurd hj id
        · rintro a rfl; exact hs.2.2.1
        · rintro a rfl; exact hs.2.2.2
      simp only [Piece.text, hd, run, e, run_num [c] r fun x hx => hall x (List.mem_cons_of_mem _ hx), Option.map_some, Piece.after,
        Piece.ends, List.append_nil, List.singleton_append]
  | sym c =>
    have hc : c = '(' ∨ c = ')' ∨ c = ',' ∨ c = '=' ∨ c = ';' ∨ c = '.' := by
      have : isSym c = true := hp
      simpa [isSym] using this
    have e : step c s = some (s.flush ++ [.sym c], .gap) := by
      rw [step_start hr ?_ ?_ ?_ ?_]
      · rcases hc with rfl | rfl | rfl | rfl | rfl | rfl <;> simp [start, isSym, isStart] <;> decide
      all_goals rintro a rfl
      all_goals rcases hc with rfl | rfl | rfl | rfl | rfl | rfl <;> decide
    simp only [Piece.text, run, e, Option.map_some, Piece.after, Piece.ends, List.append_nil]
  | gap =>
    have e : step ' ' s = some (s.flush, .gap) := by
      rw [step_start hr ?_ ?_ ?_ ?_]
      · have : start ' ' = some ([], .gap) := by decide
        simp [this]
      all_goals rintro a rfl; decide
    simp only [Piece.text, run, e, Option.map_some, Piece.after, Piece.ends, List.append_nil]

theorem after_rest (p : Piece) : p.after.rest := by cases p <;> trivial

theorem after_joins {p q : Piece} (h : sep p q = true) : p.after.joins q := by
  cases p <;> cases q <;> first | trivial | (simp [sep] at h)

theorem flush_done {s : St} (h : s.rest) : s.done = some s.flush := by
  cases s <;> first | rfl | exact absurd h id

theorem after_tok (p : Piece) : p.ends ++ p.after.flush = p.tok := by
  cases p <;> rfl

theorem run_pieces : ∀ (ps : List Piece) {s : St}, s.rest → (∀ p ∈ ps.head?, s.joins p) → (∀ p ∈ ps, p.ok) → separated ps = true →
    ∃ ts s', run (render ps) s = some (ts, s') ∧ s'.rest ∧ ts ++ s'.flush = s.flush ++ ps.flatMap Piece.tok
  | [], s, hr, _, _, _ => ⟨[], s, rfl, hr, by simp⟩
  | p :: ps, s, hr, hj, hok, hsep => by
    have h1 := run_piece hr (hj p rfl) (hok p List.mem_cons_self)
    obtain ⟨ts, s', h2, hr', h3⟩ := run_pieces ps (s := p.after) (after_rest p)
      (by
        intro q hq
        cases ps with
        | nil => cases hq
        | cons x ps =>
          cases hq
          simp only [separated, Bool.and_eq_true] at hsep
          exact after_joins hsep.1)
      (fun q hq => hok q (List.mem_cons_of_mem _ hq))
      (by cases ps with
        | nil => rfl
        | cons x ps => simp only [separated, Bool.and_eq_true] at hsep; exact hsep.2)
    refine ⟨s.flush ++ p.ends ++ ts, s', ?_, hr', ?_⟩
    · show run (p.text ++ render ps) s = _
      rw [run_append, h1]
      simp only [h2, Option.map_some]
    · simp only [List.append_assoc, h3, List.flatMap_cons]
      rw [← after_tok p, List.append_assoc]

/-- A text of separated pieces that are read as written gives their tokens. -/
theorem lex_render {ps : List Piece} (hok : ∀ p ∈ ps, p.ok) (hsep : separated ps = true) :
    lex (render ps) = some (ps.flatMap Piece.tok) := by
  obtain ⟨ts, s', h, hr, he⟩ := run_pieces ps (s := .gap) trivial (by intro p _; cases p <;> trivial) hok hsep
  simp only [lex, h, flush_done hr, Option.map_some, he]
  rfl

end Verif.Dump
