import Verif.Reply.Model

/-!
# Properties: what a reader finds in a CSV or TSV answer
-/
namespace Verif.Reply

/-- Where a CSV reader is. -/
inductive At where
  | line | fieldStart | plain | quoted | quoteEnd
deriving DecidableEq

def eol (c : Char) : Bool := c == '\n' || c == '\r'

/-- A CSV reader (RFC 4180 as the `csv` crate reads it): empty lines are skipped, a quoted field may have anything in it,
two quotes in it stand for one.  `acc` is the field so far, `fs` are the fields so far, both from the end. -/
def readGo (sep : Char) : At → Text → List Text → Text → List (List Text)
  | .line, _, _, [] => []
  | _, acc, fs, [] => [(acc.reverse :: fs).reverse]
  | .line, acc, fs, c :: l =>
    if eol c then readGo sep .line acc fs l
    else if c = '"' then readGo sep .quoted acc fs l
    else if c = sep then readGo sep .fieldStart [] (acc.reverse :: fs) l
    else readGo sep .plain (c :: acc) fs l
  | .fieldStart, acc, fs, c :: l =>
    if eol c then (acc.reverse :: fs).reverse :: readGo sep .line [] [] l
    else if c = '"' then readGo sep .quoted acc fs l
    else if c = sep then readGo sep .fieldStart [] (acc.reverse :: fs) l
    else readGo sep .plain (c :: acc) fs l
  | .plain, acc, fs, c :: l =>
    if eol c then (acc.reverse :: fs).reverse :: readGo sep .line [] [] l
    else if c = sep then readGo sep .fieldStart [] (acc.reverse :: fs) l
    else readGo sep .plain (c :: acc) fs l
  | .quoted, acc, fs, c :: l =>
    if c = '"' then readGo sep .quoteEnd acc fs l else readGo sep .quoted (c :: acc) fs l
  | .quoteEnd, acc, fs, c :: l =>
    if c = '"' then readGo sep .quoted ('"' :: acc) fs l
    else if eol c then (acc.reverse :: fs).reverse :: readGo sep .line [] [] l
    else if c = sep then readGo sep .fieldStart [] (acc.reverse :: fs) l
    else readGo sep .plain (c :: acc) fs l

def readCsv (sep : Char) (t : Text) : List (List Text) := readGo sep .line [] [] t

/-- A separator that can be one. -/
def SepOk (sep : Char) : Prop := sep ≠ '"' ∧ eol sep = false

theorem not_special {sep c : Char} (h : special sep c = false) : c ≠ sep ∧ c ≠ '"' ∧ eol c = false := by
  simp only [special, Bool.or_eq_false_iff, beq_eq_false_iff_ne] at h
  refine ⟨h.1.1.1, h.1.1.2, ?_⟩
  simp only [eol, Bool.or_eq_false_iff, beq_eq_false_iff_ne]
  exact ⟨h.1.2, h.2⟩

theorem read_plain (sep : Char) (t acc : Text) (fs : List Text) (rest : Text) (h : t.any (special sep) = false) :
    readGo sep .plain acc fs (t ++ rest) = readGo sep .plain (t.reverse ++ acc) fs rest := by
  induction t generalizing acc with
  | nil => rfl
  | cons c t ih =>
    simp only [List.any_cons, Bool.or_eq_false_iff] at h
    obtain ⟨h1, _, h3⟩ := not_special h.1
    simp only [List.cons_append, readGo, h3, Bool.false_eq_true, if_false, if_neg h1]
    rw [ih _ h.2]
    simp

theorem read_quoted (sep : Char) (t acc : Text) (fs : List Text) (rest : Text) :
    readGo sep .quoted acc fs (escape t ++ '"' :: rest) = readGo sep .quoteEnd (t.reverse ++ acc) fs rest := by
  induction t generalizing acc with
  | nil => simp [escape, readGo]
  | cons c t ih =>
    by_cases hc : c = '"'
    · subst hc
      simp only [escape, if_true, List.cons_append, readGo]
      rw [ih]
      simp
    · simp only [escape, if_neg hc, List.cons_append, readGo]
      rw [ih]
      simp

/-- The end of a field: a separator or the end of a line. -/
def after (sep c : Char) (f : Text) (fs : List Text) (rest : Text) : List (List Text) :=
  if eol c then (f :: fs).reverse :: readGo sep .line [] [] rest else readGo sep .fieldStart [] (f :: fs) rest

theorem read_field (sep : Char) (hs : SepOk sep) (t : Text) (fs : List Text) (c : Char) (rest : Text)
    (hc : c = sep ∨ c = '\n') :
    readGo sep .fieldStart [] fs (field sep t ++ c :: rest) = after sep c t fs rest := by
  have hq : c ≠ '"' := by
    rcases hc with rfl | rfl
    · exact hs.1
    · decide
  have hend : ∀ acc : Text, (if eol c then (acc.reverse :: fs).reverse :: readGo sep .line [] [] rest
      else if c = sep then readGo sep .fieldStart [] (acc.reverse :: fs) rest else readGo sep .plain (c :: acc) fs rest)
      = after sep c acc.reverse fs rest := by
    intro acc
    rcases hc with rfl | rfl
    · simp [after, hs.2]
    · simp [after, eol]
  unfold field
  cases ha : t.any (special sep) with
  | true =>
    simp only [if_true, List.cons_append, List.append_assoc, List.nil_append]
    have h1 : eol '"' = false := by decide
    simp only [readGo, h1, Bool.false_eq_true, if_false, if_true]
    rw [read_quoted]
    simp only [List.append_nil, readGo, if_neg hq]
    rw [hend]
    simp
  | false =>
    simp only [Bool.false_eq_true, if_false]
    cases t with
    | nil =>
      simp only [List.nil_append, readGo, if_neg hq]
      exact hend []
    | cons d t =>
      simp only [List.any_cons, Bool.or_eq_false_iff] at ha
      obtain ⟨h1, h2, h3⟩ := not_special ha.1
      simp only [List.cons_append, readGo, h3, Bool.false_eq_true, if_false, if_neg h1, if_neg h2]
      rw [read_plain _ _ _ _ _ ha.2]
      simp only [readGo]
      rw [hend]
      simp

theorem read_fields (sep : Char) (hs : SepOk sep) (l : List Text) (hl : l ≠ []) (fs : List Text) (rest : Text) :
    readGo sep .fieldStart [] fs (fields sep l ++ '\n' :: rest) = (fs.reverse ++ l) :: readGo sep .line [] [] rest := by
  induction l generalizing fs with
  | nil => exact absurd rfl hl
  | cons t l ih =>
    cases l with
    | nil =>
      simp only [fields]
      rw [read_field sep hs t fs '\n' rest (Or.inr rfl)]
      simp [after, eol]
    | cons u l =>
      simp only [fields, List.append_assoc, List.cons_append]
      rw [read_field sep hs t fs sep _ (Or.inl rfl)]
      simp only [after, hs.2, Bool.false_eq_true, if_false]
      rw [ih (by simp)]
      simp

/-- At the start of a line that is not empty, the reader is at the start of a field. -/
theorem read_line (sep : Char) (c : Char) (l : Text) (fs : List Text) (h : eol c = false) :
    readGo sep .line [] fs (c :: l) = readGo sep .fieldStart [] fs (c :: l) := by
  simp only [readGo, h, Bool.false_eq_true, if_false]

theorem fields_head (sep : Char) (hs : SepOk sep) (l : List Text) (c : Char) (m : Text) (h : fields sep l = c :: m) : eol c = false := by
  have key : ∀ t : Text, ∀ n : Text, field sep t ++ n = c :: m → (field sep t = [] → ∀ d k, n = d :: k → eol d = false) → field sep t ≠ [] ∨ n ≠ [] → eol c = false := by
    intro t n hn hd _
    unfold field at hn hd
    cases ha : t.any (special sep) with
    | true =>
      rw [ha] at hn
      simp only [if_true, List.cons_append, List.cons.injEq] at hn
      rw [← hn.1]; decide
    | false =>
      rw [ha] at hn hd
      simp only [Bool.false_eq_true, if_false] at hn hd
      cases t with
      | nil => exact hd rfl c m hn
      | cons d t =>
        simp only [List.cons_append, List.cons.injEq] at hn
        simp only [List.any_cons, Bool.or_eq_false_iff] at ha
        rw [← hn.1]
        exact (not_special ha.1).2.2
  cases l with
  | nil => cases h
  | cons t l =>
    cases l with
    | nil =>
      simp only [fields] at h
      exact key t [] (by rw [List.append_nil]; exact h) (by intro _ d k hk; cases hk) (Or.inl (by rw [h]; simp))
    | cons u l =>
      simp only [fields] at h
      refine key t _ h ?_ (Or.inr (by simp))
      intro _ d k hk
      simp only [List.cons.injEq] at hk
      rw [← hk.1]
      exact hs.2

theorem fields_nil {sep : Char} {l : List Text} (h : fields sep l = []) : l = [] ∨ l = [[]] := by
  cases l with
  | nil => exact Or.inl rfl
  | cons t l =>
    cases l with
    | nil =>
      right
      simp only [fields, field] at h
      split at h
      · simp at h
      · rw [h]
    | cons u l => simp [fields] at h

/-- One record is read back. -/
theorem read_record (sep : Char) (hs : SepOk sep) (l : List Text) (hl : l ≠ []) (rest : Text) :
    readGo sep .line [] [] (record sep l ++ rest) = l :: readGo sep .line [] [] rest := by
  unfold record
  by_cases h : fields sep l = []
  · rw [if_pos h]
    rcases fields_nil h with rfl | rfl
    · exact absurd rfl hl
    · simp [readGo, eol]
  · rw [if_neg h]
    have hf := read_fields sep hs l hl [] rest
    cases hm : fields sep l with
    | nil => exact absurd hm h
    | cons c m =>
      have hc := fields_head sep hs l c m hm
      rw [hm] at hf
      simp only [List.cons_append, List.append_assoc, List.nil_append] at hf ⊢
      rw [read_line _ _ _ _ hc, hf]
      simp

theorem read_rows (sep : Char) (hs : SepOk sep) (rows : List Row) (h : ∀ r ∈ rows, r ≠ []) (rest : Text) :
    readGo sep .line [] [] (rowsText sep rows ++ rest) = rows.map (List.map cellText) ++ readGo sep .line [] [] rest := by
  induction rows with
  | nil => rfl
  | cons r rows ih =>
    simp only [rowsText, List.flatMap_cons, List.append_assoc, List.map_cons, List.cons_append]
    rw [read_record sep hs _ (by simpa using h r (by simp))]
    rw [show (List.flatMap (fun r => record sep (List.map cellText r)) rows) = rowsText sep rows from rfl,
      ih fun r hr => h r (by simp [hr])]

theorem rowsText_flatten (sep : Char) (bs : List Batch) : bs.flatMap (rowsText sep) = rowsText sep bs.flatten := by
  induction bs with
  | nil => rfl
  | cons b bs ih => simp [rowsText, List.flatMap_append] at ih ⊢; rw [ih]

/-- The separator of a format that has one. -/
def separator : Format → Option Char
  | .csv => some ','
  | .tsv => some '\t'
  | _ => none

theorem sepOk_of {f : Format} {sep : Char} (h : separator f = some sep) : SepOk sep := by
  cases f <;> simp only [separator, Option.some.injEq, reduceCtorEq] at h <;> subst h <;> exact ⟨by decide, by decide⟩

/-- C194: whatever the texts of names and values are, a reader of the CSV or TSV answer finds the names of the columns and
then all rows in their order, each with as many fields and with the texts of its values. -/
theorem C194_read_back (R : Render) (f : Format) (sep : Char) (hf : separator f = some sep) (names : List Text) (bs : List Batch)
    (hn : names ≠ []) (hb : bs ≠ []) (hr : ∀ r ∈ bs.flatten, r ≠ []) :
    readCsv sep (formatBatches R f names true bs) = names :: bs.flatten.map (List.map cellText) := by
  have hs := sepOk_of hf
  have hcsv : formatBatches R f names true bs = record sep names ++ rowsText sep bs.flatten := by
    unfold formatBatches
    rw [if_neg hb]
    have hc : csvText sep names true bs = record sep names ++ rowsText sep bs.flatten := by
      unfold csvText
      cases bs with
      | nil => exact absurd rfl hb
      | cons b bs =>
        dsimp only
        rw [rowsText_flatten]
        simp
    cases f <;> simp only [separator, Option.some.injEq, reduceCtorEq] at hf <;> subst hf <;> exact hc
  rw [hcsv]
  unfold readCsv
  rw [read_record sep hs names hn]
  have := read_rows sep hs bs.flatten hr []
  rw [List.append_nil] at this
  rw [this]
  simp [readGo]

/-- C194: no two answers with values only are written alike. -/
theorem C194_no_confusion (R : Render) (f : Format) (sep : Char) (hf : separator f = some sep)
    (names names' : List Text) (bs bs' : List Batch) (hn : names ≠ []) (hn' : names' ≠ []) (hb : bs ≠ []) (hb' : bs' ≠ [])
    (hr : ∀ r ∈ bs.flatten, r ≠ [] ∧ ∀ c ∈ r, c ≠ none) (hr' : ∀ r ∈ bs'.flatten, r ≠ [] ∧ ∀ c ∈ r, c ≠ none)
    (h : formatBatches R f names true bs = formatBatches R f names' true bs') :
    names = names' ∧ bs.flatten = bs'.flatten := by
  have h1 := C194_read_back R f sep hf names bs hn hb fun r hr1 => (hr r hr1).1
  have h2 := C194_read_back R f sep hf names' bs' hn' hb' fun r hr1 => (hr' r hr1).1
  rw [h, h2] at h1
  simp only [List.cons.injEq] at h1
  refine ⟨h1.1.symm, ?_⟩
  have cells : ∀ r r' : Row, (∀ c ∈ r, c ≠ none) → (∀ c ∈ r', c ≠ none) → r.map cellText = r'.map cellText → r = r' := by
    intro r
    induction r with
    | nil => intro r' _ _ e; cases r' with
      | nil => rfl
      | cons => simp at e
    | cons c r ih =>
      intro r' hc hc' e
      cases r' with
      | nil => simp at e
      | cons c' r' =>
        simp only [List.map_cons, List.cons.injEq] at e
        rw [ih r' (fun x hx => hc x (by simp [hx])) (fun x hx => hc' x (by simp [hx])) e.2]
        cases c with
        | none => exact absurd rfl (hc none (by simp))
        | some a => cases c' with
          | none => exact absurd rfl (hc' none (by simp))
          | some b => simp only [cellText, Option.getD_some] at e; rw [e.1]
  have rows : ∀ l l' : List Row, (∀ r ∈ l, ∀ c ∈ r, c ≠ none) → (∀ r ∈ l', ∀ c ∈ r, c ≠ none) →
      l.map (List.map cellText) = l'.map (List.map cellText) → l = l' := by
    intro l
    induction l with
    | nil => intro l' _ _ e; cases l' with
      | nil => rfl
      | cons => simp at e
    | cons r l ih =>
      intro l' hc hc' e
      cases l' with
      | nil => simp at e
      | cons r' l' =>
        simp only [List.map_cons, List.cons.injEq] at e
        rw [ih l' (fun x hx => hc x (by simp [hx])) (fun x hx => hc' x (by simp [hx])) e.2,
          cells r r' (hc r (by simp)) (hc' r' (by simp)) e.1]
  exact (rows _ _ (fun r h => (hr' r h).2) (fun r h => (hr r h).2) h1.2).symm

def t (s : String) : Text := s.toList
def noRender : Render := ⟨fun _ _ => t "{}", fun _ _ => t "+--+"⟩

example : formatBatches noRender .csv [t "a", t "b,c"] true [[[some (t "x\"y"), none]], [], [[some (t "1\n2"), some (t "3")]]]
    = t "a,\"b,c\"\n\"x\"\"y\",\n\"1\n2\",3\n" := by decide +kernel
example : readCsv ',' (t "a,\"b,c\"\n\"x\"\"y\",\n\"1\n2\",3\n") = [[t "a", t "b,c"], [t "x\"y", []], [t "1\n2", t "3"]] := by decide +kernel
example : formatBatches noRender .tsv [t "a"] true [[[none], [some (t "x\ty")]]] = t "a\n\"\"\n\"x\ty\"\n" := by decide +kernel
example : SepOk ',' ∧ SepOk '\t' := ⟨⟨by decide, by decide⟩, ⟨by decide, by decide⟩⟩

/-- C194, refuted: NULL and the empty text are the same in the answer. -/
theorem C194_null_refuted :
    formatBatches noRender .csv [t "a"] true [[[none]]] = formatBatches noRender .csv [t "a"] true [[[some []]]] := by decide +kernel

end Verif.Reply
