import Verif.Reply.Props

/-!
# Examples and refutations: answers over HTTP
-/
namespace Verif.Reply.Witness

def R : Render := ⟨fun _ r => ['{'] ++ (r.map cellText).flatten ++ ['}'], fun _ rows => '+' :: (rows.map fun r => (r.map cellText).flatten ++ ['|']).flatten ++ ['+']⟩
def open' : Chunking := ⟨id, fun e => errorText (t "060001") e, t "limit", fun _ _ => true⟩
def v (s : String) : Cell := some (t s)

/-- Two rows in two batches. -/
def two : Output := .data [t "a"] [.ok [[v "1"]], .ok [[v "2"]]]
/-- A row, then an error. -/
def breaks : Output := .data [t "a", t "b"] [.ok [[v "1", v "2"]], .error (t "boom")]

example : Open open' := ⟨fun _ => rfl, fun _ _ => rfl⟩
example : (sqlReply R .csv open' two true) = .ok [t "a\n1\n", t "2\n"] := by decide +kernel
example : (sqlReply R .csv open' two false) = .ok [t "a\n1\n2\n"] := by decide +kernel
example : (sqlReply R .csv open' (.data [t "a"] []) true) = .ok [t "a\n"] := by decide +kernel
example : (sqlReply R .json open' two false) = .ok [t "[{1},{2}]"] := by decide +kernel

/-- C195, refuted: JSON and tables in chunks are not the texts that they are as a whole. -/
theorem C195_same_body_refuted :
    (sqlReply R .json open' two true).body ≠ (sqlReply R .json open' two false).body ∧
    (sqlReply R .table open' two true).body ≠ (sqlReply R .table open' two false).body := by
  constructor <;> decide +kernel

/-- C195, refuted for statements without result: the chunked answer has a header, the other has nothing. -/
theorem C195_nil_refuted :
    (sqlReply R .csv open' (.nil [t "a"]) true).body = t "a\n" ∧ (sqlReply R .csv open' (.nil [t "a"]) false).body = [] := by
  constructor <;> decide +kernel

/-- C196, refuted: the JSON answer of a query without rows is no JSON text at all, it is empty; chunked or not. -/
theorem C196_empty_refuted (c : Bool) :
    (sqlReply R .json open' (.data [t "a"] []) c).body = [] := by
  cases c <;> decide +kernel

/-- C196, refuted: a chunked JSON answer is an array per batch, one after the other. -/
theorem C196_chunked_refuted : (sqlReply R .json open' two true).body = t "[{1}][{2}]" := by decide +kernel

/-- C197, refuted: a query that fails is answered with status OK in chunks, and a CSV reader takes the text of the error for another
row. -/
theorem C197_error_is_row_refuted :
    (∃ l, sqlReply R .csv open' breaks true = .ok l) ∧
    readCsv ',' (sqlReply R .csv open' breaks true).body =
      [[t "a", t "b"], [t "1", t "2"], [t "{\"error_code\": \"060001\"", t " \"error_message\": \"boom\"}"]] := by
  refine ⟨⟨_, rfl⟩, by decide +kernel⟩

/-- C197, refuted: a value that looks like it makes the same answer as an error. -/
theorem C197_indistinguishable_refuted :
    (sqlReply R .ndJson ⟨id, fun e => '{' :: e ++ ['}', '\n'], [], fun _ _ => true⟩ (.data [t "a"] [.ok [[v "x"]], .error (t "boom")]) true).body =
    (sqlReply R .ndJson ⟨id, fun e => '{' :: e ++ ['}', '\n'], [], fun _ _ => true⟩ (.data [t "a"] [.ok [[v "x"], [v "boom"]]]) true).body := by
  decide +kernel

/-- A compressor, as far as it matters: it changes the text. -/
def packed : Chunking := ⟨fun x => 'z' :: x, fun e => errorText (t "060001") e, t "limit", fun _ _ => true⟩

/-- C197, refuted: the text of an error is not compressed, though the answer is marked as compressed. -/
theorem C197_error_not_encoded_refuted :
    ∃ l x, sqlReply R .csv packed breaks true = .ok (l ++ [x]) ∧ ∀ y, x ≠ packed.enc y := by
  refine ⟨[packed.enc (t "a,b\n1,2\n")], errorText (t "060001") (t "boom"), by decide +kernel, ?_⟩
  intro y h
  have h1 : (errorText (t "060001") (t "boom")).head? = some '{' := by decide +kernel
  rw [h] at h1
  simp [packed] at h1

/-- A limit of no data at all. -/
def shut : Chunking := { open' with allow := fun _ _ => false }

/-- C197, refuted: the limit on data that go out holds back nothing of an answer that is not chunked. -/
theorem C197_limit_refuted :
    (sqlReply R .csv shut two true).body = t "limit" ∧ (sqlReply R .csv shut two false).body = t "a\n1\n2\n" := by
  constructor <;> decide +kernel

/-- The hypothesis of `C197_limit_partial` can be met. -/
example : ∀ s n, (fun (s : List Nat) n => decide (s.sum + n ≤ 10)) s n = true → s.sum + n ≤ 10 := by
  intro s n h; simpa using h
example : (sqlReply R .csv { open' with allow := fun s n => decide (s.sum + n ≤ 5) } two true) = .ok [t "a\n1\n", t "limit"] := by
  decide +kernel

/-- The text up to the first quote that is not escaped: what a JSON reader takes for the text of a member. -/
def jsonString : Text → Text
  | [] => []
  | '"' :: _ => []
  | '\\' :: c :: l => c :: jsonString l
  | c :: l => c :: jsonString l

/-- The message that a JSON reader finds in an error with code `c`. -/
def messageIn (code body : Text) : Text := jsonString (body.drop ("{\"error_code\": \"".toList ++ code ++ "\", \"error_message\": \"".toList).length)

theorem jsonString_plain (m rest : Text) (h : '"' ∉ m ∧ '\\' ∉ m) : jsonString (m ++ '"' :: rest) = m := by
  induction m with
  | nil => simp [jsonString]
  | cons c m ih =>
    simp only [List.mem_cons, not_or] at h
    rw [List.cons_append, jsonString]
    · rw [ih ⟨h.1.2, h.2.2⟩]
    · exact fun hc => h.1.1 hc.symm
    · intro d l hc
      exact absurd hc.symm h.2.1

/-- C197: a message without quotes and backslashes is read back. -/
theorem C197_message_partial (code m : Text) (h : '"' ∉ m ∧ '\\' ∉ m) : messageIn code (errorText code m) = m := by
  unfold messageIn errorText
  rw [List.append_assoc (_ ++ _), List.drop_left]
  exact jsonString_plain m ['}'] h

/-- C197, refuted: a message with a quote in it ends there. -/
theorem C197_message_refuted :
    messageIn (t "010001") (errorText (t "010001") (t "no table \"x\"")) = t "no table " := by decide +kernel

/-- C198, refuted: common headers of browsers and libraries are refused. -/
theorem C198_lists_refuted :
    formatFor (some (t "text/csv, */*")) = none ∧ formatFor (some (t "application/json; charset=utf-8")) = none ∧
    formatFor (some (t "text/*")) = none ∧
    encodingFor (some (t "*")) = .error () ∧ encodingFor (some (t "gzip;q=1.0")) = .error () ∧ encodingFor (some []) = .error () := by
  refine ⟨by decide +kernel, by decide +kernel, by decide +kernel, rfl, rfl, rfl⟩

example : encodingFor (some (t "br;q=0, gzip ,deflate")) = .ok (some .gzip) := by rfl
example : encodingFor (some (t "identity, gzip")) = .ok (some .identity) := by rfl
example : formatFor (some (t "application/CSV")) = some .csv ∧ formatFor (some (t "text/ND-json")) = some .ndJson := by
  constructor <;> decide +kernel

end Verif.Reply.Witness
