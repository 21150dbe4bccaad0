import Verif.Reply.Auth

/-!
# Model: the answer to a query over HTTP

* `main/src/http/result_format.rs` (`batches_with_sep`, `format_batches`, `wrap_batches_to_response`, `try_from`, `from_str`)
* `main/src/http/response.rs` (`HttpResponse`: `wrap_batches_to_response`, `wrap_stream_to_response`,
  `handle_opt_result_record_batch`, `poll_next`)
* `query_server/spi/src/query/execution.rs` (`Output::chunk_result`)
* `main/src/http/http_service.rs` (lines 2900-2962: chunked or not)
* `main/src/http/encoding.rs`, `common/http_protocol/src/encoding.rs` (`from_str_opt`), `common/http_protocol/src/response.rs`
* crates `arrow-csv`, `arrow-json` 42 and `csv` 1.3: how their writers put texts together

Columns are given by their names, a cell is the text of its value or nothing for NULL.  The JSON object of a row, the printed
table, the compressors and the data limits are parameters.  The second run of a query on a broken file is left out.
-/
namespace Verif.Reply

abbrev Cell := Option Text
abbrev Row := List Cell
abbrev Batch := List Row

/-- `ResultFormat` (result_format.rs:57-64). -/
inductive Format where
  | csv | tsv | json | ndJson | table
deriving DecidableEq

/-! ## The CSV writer -/

/-- A character that makes the writer quote a field (csv-core, `WriterBuilder::build`). -/
def special (sep c : Char) : Bool := c == sep || c == '"' || c == '\n' || c == '\r'

/-- Quotes in a quoted field are doubled. -/
def escape : Text → Text
  | [] => []
  | c :: l => if c = '"' then '"' :: '"' :: escape l else c :: escape l

/-- A field. -/
def field (sep : Char) (t : Text) : Text :=
  if t.any (special sep) then '"' :: escape t ++ ['"'] else t

/-- Fields with separators between them. -/
def fields (sep : Char) : List Text → Text
  | [] => []
  | [t] => field sep t
  | t :: u :: l => field sep t ++ sep :: fields sep (u :: l)

/-- A record: one that would be an empty line is written as an empty quoted field. -/
def record (sep : Char) (l : List Text) : Text :=
  (if fields sep l = [] then ['"', '"'] else fields sep l) ++ ['\n']

/-- A cell: nothing is written for NULL (arrow-csv, `with_null` unset). -/
def cellText (c : Cell) : Text := c.getD []

/-- The rows of a batch. -/
def rowsText (sep : Char) (b : Batch) : Text := b.flatMap fun r => record sep (r.map cellText)

/-- `batches_with_sep` (result_format.rs:38-54): the header goes before the first batch. -/
def csvText (sep : Char) (names : List Text) (header : Bool) (bs : List Batch) : Text :=
  match bs with
  | [] => []
  | _ => (if header then record sep names else []) ++ bs.flatMap (rowsText sep)

/-! ## Formats -/

/-- What is not modelled: the JSON object of a row, and the printed table. -/
structure Render where
  object : List Text → Row → Text
  pretty : List Text → List Row → Text

/-- Texts with commas between them. -/
def commas : List Text → Text
  | [] => []
  | [t] => t
  | t :: u :: l => t ++ ',' :: commas (u :: l)

/-- `ArrayWriter`: the bracket is opened before the first row and closed if it is open. -/
def jsonText (R : Render) (names : List Text) (rows : List Row) : Text :=
  if rows = [] then [] else '[' :: commas (rows.map (R.object names)) ++ [']']

/-- `LineDelimitedWriter`. -/
def ndText (R : Render) (names : List Text) (rows : List Row) : Text :=
  rows.flatMap fun r => R.object names r ++ ['\n']

/-- `format_batches` (result_format.rs:77-94). -/
def formatBatches (R : Render) (f : Format) (names : List Text) (header : Bool) (bs : List Batch) : Text :=
  if bs = [] then [] else match f with
  | .csv => csvText ',' names header bs
  | .tsv => csvText '\t' names header bs
  | .json => jsonText R names bs.flatten
  | .ndJson => ndText R names bs.flatten
  | .table => R.pretty names bs.flatten

/-! ## The answer -/

/-- `Output` (execution.rs:60-70): what a statement gives, a stream of batches or errors, or nothing. -/
inductive Output where
  | data (names : List Text) (items : List (Except Text Batch))
  | nil (names : List Text)

def Output.names : Output → List Text
  | .data n _ => n
  | .nil n => n

/-- The stream of an output (execution.rs:116-126). -/
def Output.items : Output → List (Except Text Batch)
  | .data _ l => l
  | .nil _ => []

/-- `try_collect`. -/
def collect : List (Except Text Batch) → Except Text (List Batch)
  | [] => .ok []
  | .error e :: _ => .error e
  | .ok b :: l => (collect l).map (b :: ·)

/-- `Output::chunk_result` (execution.rs:84-96). -/
def chunkResult : Output → Except Text (List Batch)
  | .nil _ => .ok []
  | .data _ l => (collect l).map fun bs => if bs = [] then [[]] else bs

/-- An answer: status OK with a body in pieces, or an error instead. -/
inductive Reply where
  | ok (pieces : List Text)
  | failed (e : Text)
deriving DecidableEq

/-- `wrap_batches_to_response` (response.rs:156-164, result_format.rs:96-122). -/
def whole (R : Render) (f : Format) (enc : Text → Text) (o : Output) : Reply :=
  match chunkResult o with
  | .error e => .failed e
  | .ok bs => .ok [enc (formatBatches R f o.names true bs)]

/-- What the text of an error is made of: `errText` of the message of a failed stream, `limitText` of a passed limit. -/
structure Chunking where
  enc : Text → Text
  errText : Text → Text
  limitText : Text
  /-- `check_http_data_out`: whether another answer of this size is within the limit, after those before. -/
  allow : List Nat → Nat → Bool

/-- `poll_next` until the end (response.rs:175-300): `fresh` while nothing has been sent, `sent` the sizes sent so far. -/
def chunks (R : Render) (f : Format) (k : Chunking) (names : List Text) : Bool → List Nat → List (Except Text Batch) → List Text
  | true, sent, [] =>
    let t := k.enc (formatBatches R f names (names ≠ []) [[]])
    [if k.allow sent t.length then t else k.limitText]
  | false, _, [] => []
  | fresh, sent, .ok b :: l =>
    if b = [] then chunks R f k names fresh sent l
    else
      let t := k.enc (formatBatches R f names fresh [b])
      if k.allow sent t.length then t :: chunks R f k names false (t.length :: sent) l else [k.limitText]
  | _, _, .error e :: _ => [k.errText e]

/-- `wrap_stream_to_response` (response.rs:165-173): the status is OK before the first batch has been seen. -/
def chunked (R : Render) (f : Format) (k : Chunking) (o : Output) : Reply :=
  .ok (chunks R f k o.names true [] o.items)

/-- `sql_handle` (http_service.rs:2900-2962). -/
def sqlReply (R : Render) (f : Format) (k : Chunking) (o : Output) (isChunked : Bool) : Reply :=
  if isChunked then chunked R f k o else whole R f k.enc o

/-- The body that the client puts together. -/
def Reply.body : Reply → Text
  | .ok l => l.flatten
  | .failed _ => []

/-- `ErrorResponse` as text (response.rs of http_protocol:30-38). -/
def errorText (code msg : Text) : Text :=
  "{\"error_code\": \"".toList ++ code ++ "\", \"error_message\": \"".toList ++ msg ++ "\"}".toList

/-! ## Negotiation -/

/-- `value_variants` with the names of `clap`. -/
def formatNames : List (Text × Format) :=
  [("csv".toList, .csv), ("tsv".toList, .tsv), ("json".toList, .json), ("nd-json".toList, .ndJson), ("table".toList, .table)]

/-- `eq_ignore_ascii_case`. -/
def sameAscii (a b : Text) : Bool := a.map Char.toLower == b.map Char.toLower

/-- `ResultFormat::from_str` (result_format.rs:149-155). -/
def formatOf (s : Text) : Option Format := (formatNames.find? fun x => sameAscii x.1 s).map (·.2)

/-- `get_http_content_type` (result_format.rs:67-75). -/
def contentType : Format → Text
  | .csv => "text/csv".toList
  | .tsv => "text/tsv".toList
  | .json => "application/json".toList
  | .ndJson => "application/nd-json".toList
  | .table => "text/table".toList

/-- `strip_prefix`. -/
def strip (p s : Text) : Option Text := if s.take p.length = p then some (s.drop p.length) else none

/-- `try_from` (result_format.rs:124-146). -/
def accepts (s : Text) : Option Format :=
  if s = [] ∨ s = "application/*".toList ∨ s = "*/*".toList then some .csv
  else match strip "application/".toList s with
    | some t => formatOf t
    | none => match strip "text/".toList s with
      | some t => formatOf t
      | none => none

/-- `get_accept` (header.rs:61-63). -/
def formatFor (accept : Option Text) : Option Format := accepts (accept.getD "text/csv".toList)

/-- `Encoding` (encoding.rs of http_protocol:19-28). -/
inductive Encoding where
  | gzip | deflate | brotli | zstd | snappy | lz4 | identity
deriving DecidableEq

/-- `as_str`. -/
def Encoding.str : Encoding → Text
  | .gzip => "gzip".toList
  | .deflate => "deflate".toList
  | .brotli => "br".toList
  | .zstd => "zstd".toList
  | .snappy => "snappy".toList
  | .lz4 => "lz4".toList
  | .identity => "identity".toList

def encodings : List Encoding := [.gzip, .deflate, .brotli, .zstd, .snappy, .lz4, .identity]

/-- `from_str_opt`. -/
def encodingOf (s : Text) : Option Encoding := encodings.find? fun e => e.str == s

/-- `split(',')`. -/
def splitComma : Text → List Text
  | [] => [[]]
  | c :: l => if c = ',' then [] :: splitComma l else match splitComma l with
    | [] => [[c]]
    | t :: r => (c :: t) :: r

/-- `trim`: white space of the header is spaces and tabs. -/
def trim (t : Text) : Text :=
  let ws := fun c : Char => c == ' ' || c == '\t'
  ((t.dropWhile ws).reverse.dropWhile ws).reverse

/-- `get_accept_encoding_from_header` (encoding.rs:9-37): `none` is an answer without encoding. -/
def encodingFor : Option Text → Except Unit (Option Encoding)
  | none => .ok none
  | some s => match ((splitComma s).map trim).findSome? encodingOf with
    | some e => .ok (some e)
    | none => .error ()

end Verif.Reply
