import Verif.Reply.Csv

/-!
# Properties: chunked and whole answers, errors, limits, negotiation
-/
namespace Verif.Reply

theorem collect_ok (bs : List Batch) : collect (bs.map .ok) = .ok bs := by
  induction bs with
  | nil => rfl
  | cons b bs ih => simp only [List.map_cons, collect, ih, Except.map]

theorem collect_error (bs : List Batch) (e : Text) (l : List (Except Text Batch)) :
    collect (bs.map .ok ++ .error e :: l) = .error e := by
  induction bs with
  | nil => rfl
  | cons b bs ih => simp only [List.map_cons, List.cons_append, collect, ih, Except.map]

/-- Formats whose text is made row by row. -/
def RowWise : Format → Prop
  | .csv => True
  | .tsv => True
  | .ndJson => True
  | _ => False

/-- The text of rows without header. -/
def body (R : Render) (f : Format) (names : List Text) (rows : List Row) : Text :=
  match f with
  | .csv => rowsText ',' rows
  | .tsv => rowsText '\t' rows
  | _ => ndText R names rows

/-- The header of a format that has one. -/
def head (f : Format) (names : List Text) : Text :=
  match f with
  | .csv => record ',' names
  | .tsv => record '\t' names
  | _ => []

theorem format_rowWise (R : Render) (f : Format) (hf : RowWise f) (names : List Text) (h : Bool) (bs : List Batch) (hb : bs ≠ []) :
    formatBatches R f names h bs = (if h then head f names else []) ++ body R f names bs.flatten := by
  unfold formatBatches
  rw [if_neg hb]
  have key : ∀ sep, csvText sep names h bs = (if h then record sep names else []) ++ rowsText sep bs.flatten := by
    intro sep
    unfold csvText
    cases bs with
    | nil => exact absurd rfl hb
    | cons b bs => dsimp only; rw [rowsText_flatten]
  cases f with
  | csv => exact key ','
  | tsv => exact key '\t'
  | json => cases hf
  | table => cases hf
  | ndJson => simp [body, head]

theorem body_append (R : Render) (f : Format) (names : List Text) (a b : List Row) :
    body R f names (a ++ b) = body R f names a ++ body R f names b := by
  cases f <;> simp [body, rowsText, ndText]

/-- Nothing is changed on the way and nothing is limited. -/
def Open (k : Chunking) : Prop := (∀ t, k.enc t = t) ∧ ∀ s n, k.allow s n = true

theorem chunks_rest (R : Render) (f : Format) (hf : RowWise f) (k : Chunking) (hk : Open k) (names : List Text)
    (sent : List Nat) (bs : List Batch) :
    (chunks R f k names false sent (bs.map .ok)).flatten = body R f names bs.flatten := by
  induction bs generalizing sent with
  | nil => cases f <;> simp [chunks, body, rowsText, ndText]
  | cons b bs ih =>
    simp only [List.map_cons, chunks]
    by_cases hb : b = []
    · rw [if_pos hb, ih, hb]; simp
    · rw [if_neg hb]
      simp only [hk.1, hk.2, if_true, List.flatten_cons]
      rw [ih, format_rowWise R f hf names false [b] (by simp), body_append]
      simp

theorem chunks_all (R : Render) (f : Format) (hf : RowWise f) (k : Chunking) (hk : Open k) (names : List Text) (hn : names ≠ [])
    (bs : List Batch) :
    (chunks R f k names true [] (bs.map .ok)).flatten = head f names ++ body R f names bs.flatten := by
  induction bs with
  | nil =>
    simp only [List.map_nil, chunks, hk.1, hk.2, if_true]
    rw [format_rowWise R f hf names _ [[]] (by simp)]
    simp [hn]
  | cons b bs ih =>
    simp only [List.map_cons, chunks]
    by_cases hb : b = []
    · rw [if_pos hb, ih, hb]; simp
    · rw [if_neg hb]
      simp only [hk.1, hk.2, if_true, List.flatten_cons]
      rw [chunks_rest R f hf k hk, format_rowWise R f hf names true [b] (by simp), body_append]
      simp

/-- C195: a CSV, TSV or nd-JSON answer is the same text, whether the client asks for it in chunks or not.  (Whole JSON and tables
see the refutation.) -/
theorem C195_same_body_partial (R : Render) (f : Format) (hf : RowWise f) (k : Chunking) (hk : Open k) (names : List Text)
    (hn : names ≠ []) (bs : List Batch) :
    (sqlReply R f k (.data names (bs.map .ok)) true).body = (sqlReply R f k (.data names (bs.map .ok)) false).body := by
  unfold sqlReply
  simp only [if_true, Bool.false_eq_true, if_false]
  unfold chunked whole chunkResult
  simp only [Output.names, Output.items, Reply.body, collect_ok, Except.map, hk.1]
  rw [chunks_all R f hf k hk names hn]
  by_cases hb : bs = []
  · rw [if_pos hb, hb]
    simp only [List.flatten_cons, List.flatten_nil, List.append_nil]
    rw [format_rowWise R f hf names true [[]] (by simp)]
    simp
  · rw [if_neg hb]
    simp only [List.flatten_cons, List.flatten_nil, List.append_nil]
    rw [format_rowWise R f hf names true bs hb]
    simp

/-- C195: how the rows are spread over batches cannot be seen in an answer that is not chunked, in any format. -/
theorem C195_batches_whole (R : Render) (f : Format) (enc : Text → Text) (names : List Text) (bs bs' : List Batch)
    (h : bs.flatten = bs'.flatten) :
    whole R f enc (.data names (bs.map .ok)) = whole R f enc (.data names (bs'.map .ok)) := by
  have key : ∀ l : List Batch, formatBatches R f names true (if l = [] then [[]] else l) =
      formatBatches R f names true [l.flatten] := by
    intro l
    by_cases hl : l = []
    · rw [if_pos hl, hl]; rfl
    · rw [if_neg hl]
      unfold formatBatches
      rw [if_neg hl, if_neg (by simp)]
      have hc : ∀ sep, csvText sep names true l = csvText sep names true [l.flatten] := by
        intro sep
        unfold csvText
        cases l with
        | nil => exact absurd rfl hl
        | cons b l =>
          dsimp only
          rw [rowsText_flatten, rowsText_flatten]
          simp
      cases f <;> simp [hc]
  unfold whole chunkResult
  simp only [Output.names, collect_ok, Except.map]
  rw [key bs, key bs', h]

/-- C195: nor can it be seen in a chunked answer that is made row by row. -/
theorem C195_batches_chunked (R : Render) (f : Format) (hf : RowWise f) (k : Chunking) (hk : Open k) (names : List Text)
    (hn : names ≠ []) (bs bs' : List Batch) (h : bs.flatten = bs'.flatten) :
    (chunked R f k (.data names (bs.map .ok))).body = (chunked R f k (.data names (bs'.map .ok))).body := by
  unfold chunked
  simp only [Reply.body, Output.names, Output.items]
  rw [chunks_all R f hf k hk names hn, chunks_all R f hf k hk names hn, h]

/-- C194: so a reader finds names and rows in a chunked answer, too. -/
theorem C194_read_back_chunked (R : Render) (f : Format) (sep : Char) (hf : separator f = some sep) (k : Chunking) (hk : Open k)
    (names : List Text) (bs : List Batch) (hn : names ≠ []) (hr : ∀ r ∈ bs.flatten, r ≠ []) (c : Bool) :
    readCsv sep (sqlReply R f k (.data names (bs.map .ok)) c).body = names :: bs.flatten.map (List.map cellText) := by
  have hrw : RowWise f := by cases f <;> simp [separator] at hf <;> trivial
  have hw : readCsv sep (sqlReply R f k (.data names (bs.map .ok)) false).body = names :: bs.flatten.map (List.map cellText) := by
    simp only [sqlReply, Bool.false_eq_true, if_false, whole, chunkResult, collect_ok, Except.map, Output.names, Reply.body, hk.1,
      List.flatten_cons, List.flatten_nil, List.append_nil]
    by_cases hb : bs = []
    · rw [if_pos hb, C194_read_back R f sep hf names [[]] hn (by simp) (by simp), hb]; simp
    · rw [if_neg hb, C194_read_back R f sep hf names bs hn hb hr]
  cases c with
  | false => exact hw
  | true => rw [C195_same_body_partial R f hrw k hk names hn, hw]

/-! ## JSON -/

/-- An array of JSON objects, as far as the model sees it. -/
def IsArray (R : Render) (names : List Text) (rows : List Row) (x : Text) : Prop :=
  x = '[' :: commas (rows.map (R.object names)) ++ [']']

/-- C196: a JSON answer that is not chunked is the array of its rows, if there are rows.  (An answer without rows and a chunked
answer: see the refutations.) -/
theorem C196_array_partial (R : Render) (k : Chunking) (hk : Open k) (names : List Text) (bs : List Batch)
    (h : bs.flatten ≠ []) :
    IsArray R names bs.flatten (sqlReply R .json k (.data names (bs.map .ok)) false).body := by
  have hb : bs ≠ [] := by rintro rfl; exact h rfl
  simp only [sqlReply, Bool.false_eq_true, if_false, whole, chunkResult, collect_ok, Except.map, Output.names, Reply.body, hk.1,
    List.flatten_cons, List.flatten_nil, List.append_nil, if_neg hb]
  unfold formatBatches
  rw [if_neg hb]
  simp only [jsonText, if_neg h, IsArray]

/-- C196: every line of an nd-JSON answer is the object of one row, chunked or not. -/
theorem C196_lines (R : Render) (k : Chunking) (hk : Open k) (names : List Text) (bs : List Batch) (c : Bool) (hn : names ≠ []) :
    (sqlReply R .ndJson k (.data names (bs.map .ok)) c).body = bs.flatten.flatMap fun r => R.object names r ++ ['\n'] := by
  have hw : (sqlReply R .ndJson k (.data names (bs.map .ok)) false).body = bs.flatten.flatMap fun r => R.object names r ++ ['\n'] := by
    simp only [sqlReply, Bool.false_eq_true, if_false, whole, chunkResult, collect_ok, Except.map, Output.names, Reply.body, hk.1,
      List.flatten_cons, List.flatten_nil, List.append_nil]
    by_cases hb : bs = []
    · rw [if_pos hb, hb]; simp [formatBatches, ndText]
    · rw [if_neg hb]
      unfold formatBatches
      rw [if_neg hb]
      rfl
  cases c with
  | false => exact hw
  | true => rw [C195_same_body_partial R .ndJson trivial k hk names hn, hw]

/-! ## Errors -/

/-- C197: if a query fails at any point, an answer that is not chunked is an error without any row; else all rows are in it.
(Chunked answers: see the refutations.) -/
theorem C197_all_or_nothing_partial (R : Render) (f : Format) (k : Chunking) (names : List Text) (items : List (Except Text Batch)) :
    (∃ (bs : List Batch) (e : Text) (l : List (Except Text Batch)), items = bs.map .ok ++ .error e :: l ∧ sqlReply R f k (.data names items) false = .failed e) ∨
    (∃ bs : List Batch, items = bs.map .ok ∧ sqlReply R f k (.data names items) false =
      .ok [k.enc (formatBatches R f names true (if bs = [] then [[]] else bs))]) := by
  have split : (∃ (bs : List Batch) (e : Text) (l : List (Except Text Batch)), items = bs.map .ok ++ .error e :: l) ∨ (∃ bs : List Batch, items = bs.map .ok) := by
    induction items with
    | nil => exact Or.inr ⟨[], rfl⟩
    | cons x items ih =>
      cases x with
      | error e => exact Or.inl ⟨[], e, items, rfl⟩
      | ok b =>
        rcases ih with ⟨bs, e, l, rfl⟩ | ⟨bs, rfl⟩
        · exact Or.inl ⟨b :: bs, e, l, rfl⟩
        · exact Or.inr ⟨b :: bs, rfl⟩
  rcases split with ⟨bs, e, l, rfl⟩ | ⟨bs, rfl⟩
  · left
    refine ⟨bs, e, l, rfl, ?_⟩
    simp only [sqlReply, Bool.false_eq_true, if_false, whole, chunkResult, collect_error, Except.map]
  · right
    refine ⟨bs, rfl, ?_⟩
    simp only [sqlReply, Bool.false_eq_true, if_false, whole, chunkResult, collect_ok, Except.map, Output.names]

theorem chunks_error_rest (R : Render) (f : Format) (hf : RowWise f) (k : Chunking) (hk : Open k) (names : List Text)
    (sent : List Nat) (bs : List Batch) (e : Text) (l : List (Except Text Batch)) :
    (chunks R f k names false sent (bs.map .ok ++ .error e :: l)).flatten = body R f names bs.flatten ++ k.errText e := by
  induction bs generalizing sent with
  | nil => cases f <;> simp [chunks, body, rowsText, ndText]
  | cons b bs ih =>
    simp only [List.map_cons, List.cons_append, chunks]
    by_cases hb : b = []
    · rw [if_pos hb, ih, hb]; simp
    · rw [if_neg hb]
      simp only [hk.1, hk.2, if_true, List.flatten_cons]
      rw [ih, format_rowWise R f hf names false [b] (by simp), body_append]
      simp

/-- C197: a chunked answer of a query that fails has the rows before the error, each once and in order, then the text of the error,
and nothing after it. -/
theorem C197_chunked_error (R : Render) (f : Format) (hf : RowWise f) (k : Chunking) (hk : Open k) (names : List Text)
    (bs : List Batch) (e : Text) (l : List (Except Text Batch)) :
    (chunked R f k (.data names (bs.map .ok ++ .error e :: l))).body =
      (if bs.flatten = [] then [] else head f names) ++ body R f names bs.flatten ++ k.errText e := by
  unfold chunked
  simp only [Reply.body, Output.names, Output.items]
  induction bs with
  | nil => cases f <;> simp [chunks, body, rowsText, ndText]
  | cons b bs ih =>
    simp only [List.map_cons, List.cons_append, chunks]
    by_cases hb : b = []
    · rw [if_pos hb, ih, hb]; simp
    · rw [if_neg hb]
      simp only [hk.1, hk.2, if_true, List.flatten_cons]
      rw [chunks_error_rest R f hf k hk, format_rowWise R f hf names true [b] (by simp), body_append]
      simp [hb]

/-- C197: a chunked answer always has status OK. -/
theorem C197_always_ok (R : Render) (f : Format) (k : Chunking) (o : Output) : ∃ l, sqlReply R f k o true = .ok l :=
  ⟨chunks R f k o.names true [] o.items, by simp only [sqlReply, if_true, chunked]⟩

/-! ## The limit of data -/

theorem chunks_limit (R : Render) (f : Format) (k : Chunking) (names : List Text) (quota : Nat)
    (hq : ∀ s n, k.allow s n = true → s.sum + n ≤ quota) (fresh : Bool) (sent : List Nat) (items : List (Except Text Batch))
    (hs : sent.sum ≤ quota) (m : Nat) (h1 : k.limitText.length ≤ m) (h2 : ∀ e, (k.errText e).length ≤ m) :
    sent.sum + (chunks R f k names fresh sent items).flatten.length ≤ quota + m := by
  induction items generalizing fresh sent with
  | nil =>
    cases fresh with
    | false => simp only [chunks, List.flatten_nil, List.length_nil]; omega
    | true =>
      simp only [chunks]
      split
      · rename_i ha
        have := hq _ _ ha
        simp only [List.flatten_cons, List.flatten_nil, List.append_nil]
        omega
      · simp only [List.flatten_cons, List.flatten_nil, List.append_nil]; omega
  | cons x items ih =>
    cases x with
    | error e =>
      have := h2 e
      simp only [chunks, List.flatten_cons, List.flatten_nil, List.append_nil]
      omega
    | ok b =>
      simp only [chunks]
      by_cases hb : b = []
      · rw [if_pos hb]; exact ih fresh sent hs
      · rw [if_neg hb]
        split
        · rename_i ha
          have hle := hq _ _ ha
          have := ih false ((k.enc (formatBatches R f names fresh [b])).length :: sent)
            (by simp only [List.sum_cons]; omega)
          simp only [List.sum_cons, List.flatten_cons, List.length_append] at this ⊢
          omega
        · simp only [List.flatten_cons, List.flatten_nil, List.append_nil]; omega

/-- C197: a chunked answer is never longer than what the limit leaves, but for one text of an error.  (Answers that are not chunked
know no limit: see the refutation.) -/
theorem C197_limit_partial (R : Render) (f : Format) (k : Chunking) (o : Output) (quota : Nat)
    (hq : ∀ s n, k.allow s n = true → s.sum + n ≤ quota) (m : Nat) (h1 : k.limitText.length ≤ m)
    (h2 : ∀ e, (k.errText e).length ≤ m) :
    (sqlReply R f k o true).body.length ≤ quota + m := by
  have := chunks_limit R f k o.names quota hq true [] o.items (by simp) m h1 h2
  simpa [sqlReply, chunked, Reply.body] using this

/-! ## Negotiation -/

/-- C198: a client that asks for the type that an answer is marked with gets that format. -/
theorem C198_content_type (f : Format) : formatFor (some (contentType f)) = some f := by
  cases f <;> decide +kernel

/-- C198: types of different formats differ. -/
theorem C198_content_type_inj (f g : Format) (h : contentType f = contentType g) : f = g := by
  have := C198_content_type f
  rw [h, C198_content_type g] at this
  simpa using this.symm

/-- C198: without a wish, and with a wish for anything, the answer is CSV. -/
theorem C198_default : formatFor none = some .csv ∧ formatFor (some []) = some .csv ∧
    formatFor (some "*/*".toList) = some .csv ∧ formatFor (some "application/*".toList) = some .csv := by
  refine ⟨?_, ?_, ?_, ?_⟩ <;> decide +kernel

/-- C198: the encoding of an answer is one that the client listed, and the first one of those that the server knows. -/
theorem C198_first_known (s : Text) (e : Encoding) :
    encodingFor (some s) = .ok (some e) ↔
      ∃ a b, (splitComma s).map trim = a ++ e.str :: b ∧ ∀ x ∈ a, ∀ g : Encoding, x ≠ g.str := by
  have known : ∀ e : Encoding, encodingOf e.str = some e := by intro e; cases e <;> decide +kernel
  have back : ∀ x e, encodingOf x = some e → x = e.str := by
    intro x e h
    unfold encodingOf at h
    have := List.find?_some h
    simp only [beq_iff_eq] at this
    exact this.symm
  have unknown : ∀ x, encodingOf x = none ↔ ∀ g : Encoding, x ≠ g.str := by
    intro x
    constructor
    · rintro h g rfl
      rw [known] at h; cases h
    · intro h
      cases hx : encodingOf x with
      | none => rfl
      | some g => exact absurd (back x g hx) (h g)
  have key : ∀ l : List Text, l.findSome? encodingOf = some e ↔ ∃ a b, l = a ++ e.str :: b ∧ ∀ x ∈ a, ∀ g : Encoding, x ≠ g.str := by
    intro l
    induction l with
    | nil => simp
    | cons x l ih =>
      simp only [List.findSome?_cons]
      cases hx : encodingOf x with
      | some g =>
        dsimp only
        have hxg := back x g hx
        constructor
        · intro h
          simp only [Option.some.injEq] at h
          subst h
          exact ⟨[], l, by rw [hxg]; rfl, by simp⟩
        · rintro ⟨a, b, hl, ha⟩
          cases a with
          | nil =>
            simp only [List.nil_append, List.cons.injEq] at hl
            rw [hl.1, known] at hx
            exact hx.symm
          | cons y a =>
            simp only [List.cons_append, List.cons.injEq] at hl
            exact absurd (hl.1 ▸ hxg) (ha y (by simp) g)
      | none =>
        dsimp only
        rw [ih]
        constructor
        · rintro ⟨a, b, rfl, ha⟩
          refine ⟨x :: a, b, rfl, ?_⟩
          intro y hy
          simp only [List.mem_cons] at hy
          rcases hy with rfl | hy
          · exact (unknown y).1 hx
          · exact ha y hy
        · rintro ⟨a, b, hl, ha⟩
          cases a with
          | nil =>
            simp only [List.nil_append, List.cons.injEq] at hl
            rw [hl.1, known] at hx
            cases hx
          | cons y a =>
            simp only [List.cons_append, List.cons.injEq] at hl
            exact ⟨a, b, hl.2, fun z hz => ha z (by simp [hz])⟩
  unfold encodingFor
  dsimp only
  rw [← key]
  cases ((splitComma s).map trim).findSome? encodingOf <;> simp

/-- C198: a request is refused for its encodings only if the server knows none of those listed. -/
theorem C198_refused (s : Text) :
    encodingFor (some s) = .error () ↔ ∀ x ∈ (splitComma s).map trim, ∀ g : Encoding, x ≠ g.str := by
  have known : ∀ e : Encoding, encodingOf e.str = some e := by intro e; cases e <;> decide +kernel
  unfold encodingFor
  dsimp only
  cases h : ((splitComma s).map trim).findSome? encodingOf with
  | some e =>
    simp only [reduceCtorEq, false_iff]
    intro hall
    obtain ⟨x, hx, he⟩ := List.exists_of_findSome?_eq_some h
    have := List.find?_some he
    simp only [beq_iff_eq] at this
    exact hall x hx e this.symm
  | none =>
    simp only [true_iff]
    intro x hx g hg
    have := (List.findSome?_eq_none_iff.1 h) x hx
    rw [hg, known] at this
    cases this

end Verif.Reply
