import Verif.Common.AMap
import Verif.Ingest.Tcp
import Verif.Raft.StoreProps
/-!
# Model: records made of JSON documents, and lines made of records

* `common/protocol_parser/src/json_protocol/parser.rs:71-101` — `flatten_json`
* `common/protocol_parser/src/json_protocol/parser.rs:103-172` — the documents of a request
* `common/protocol_parser/src/json_protocol/parser.rs:497-561` — `parse_to_line`
* `main/src/http/http_service.rs:2799-2880` — `try_parse_log_req`, `coord_write_log`

Simplifications: the decoded documents are the input.  Numbers are a type `N` with their text and their value as an `i64` or
none.  An object is the list of its entries in the order in which the code runs over them.  Times in text (RFC 3339) are a
parameter.  The hash of the series is never set (`Verif.Utils.jsonHash`).
-/
namespace Verif.Ingest
open Verif.Raft (dec)

/-- `serde_json::Value`. -/
inductive Json (N : Type) where
  | null
  | bool (b : Bool)
  | num (n : N)
  | str (s : Str)
  | arr (l : List (Json N))
  | obj (m : List (Str × Json N))

/-- A value that is neither an array nor an object. -/
inductive Scalar (N : Type) where
  | null
  | bool (b : Bool)
  | num (n : N)
  | str (s : Str)
deriving DecidableEq

variable {N : Type}

/-- `format!("{}.{}", name, k)` unless the name is empty (parser.rs:78-82, 90-94). -/
def under (name k : Str) : Str := if name.isEmpty then k else name ++ '.' :: k

/-- `output.insert` of all entries of another result (parser.rs:77-83, 89-95). -/
def addAll (name : Str) (out r : AMap Str (Scalar N)) : AMap Str (Scalar N) :=
  r.entries.foldl (fun m e => m.set (under name e.1) e.2) out

mutual
/-- `flatten_json` (parser.rs:71-101). -/
def flatten (name : Str) : Json N → AMap Str (Scalar N)
  | .null => AMap.empty.set name .null
  | .bool b => AMap.empty.set name (.bool b)
  | .num n => AMap.empty.set name (.num n)
  | .str s => AMap.empty.set name (.str s)
  | .arr l => flattenArr name 0 l .empty
  | .obj m => flattenObj name m .empty

/-- The loop over an array (parser.rs:86-96). -/
def flattenArr (name : Str) (i : Nat) : List (Json N) → AMap Str (Scalar N) → AMap Str (Scalar N)
  | [], out => out
  | v :: l, out => flattenArr name (i + 1) l (addAll name out (flatten (dec i) v))

/-- The loop over an object (parser.rs:74-84). -/
def flattenObj (name : Str) : List (Str × Json N) → AMap Str (Scalar N) → AMap Str (Scalar N)
  | [], out => out
  | (k, v) :: m, out => flattenObj name m (addAll name out (flatten k v))
end

/-- A record. -/
abbrev JRec (N : Type) := AMap Str (Scalar N)

/-- `parse_json_to_ndjsonlog` (parser.rs:138-153) and `parse_json_to_lokilog` (parser.rs:155-172) on decoded lines. -/
def ndjsonRecs (docs : List (Json N)) : List (JRec N) := docs.map (flatten [])

/-- `parse_json_to_eslog` (parser.rs:103-136) on the lines that are not empty: commands and documents by turns.  A line is a
command, a document, or both; `isCommand` says whether it can be read as `create` or `index`. -/
def eslogRecs (isCommand : Json N → Bool) : List (Json N) → Except Err (List (JRec N))
  | [] => .ok []
  | [_] => .error .error
  | c :: d :: l =>
    match eslogRecs isCommand l with
    | .error e => .error e
    | .ok r => if isCommand c then .ok (flatten [] d :: r) else .error .error

/-! ## A line of a record -/

/-- A field of a line: numbers become floating point numbers (parser.rs:540-541). -/
inductive JField (N : Type) where
  | bool (b : Bool)
  | float (n : N)
  | str (s : Str)
deriving DecidableEq

/-- A line of a record (parser.rs:554-560). -/
structure JLine (N : Type) where
  table : Str
  tags : List (Str × Str)
  fields : List (Str × JField N)
  ts : Int
deriving DecidableEq

/-- A hexadecimal digit. -/
def hexDigit (n : Nat) : Char := if n < 10 then Char.ofNat (48 + n) else Char.ofNat (87 + n)

/-- How `serde_json` writes a character of a string. -/
def escape (c : Char) : Str :=
  if c = '"' then ['\\', '"']
  else if c = '\\' then ['\\', '\\']
  else if c.toNat = 8 then ['\\', 'b']
  else if c.toNat = 12 then ['\\', 'f']
  else if c = '\n' then ['\\', 'n']
  else if c = '\r' then ['\\', 'r']
  else if c = '\t' then ['\\', 't']
  else if c.toNat < 32 then ['\\', 'u', '0', '0', hexDigit (c.toNat / 16), hexDigit (c.toNat % 16)]
  else [c]

/-- `Value::to_string`. -/
def Scalar.json (text : N → Str) : Scalar N → Str
  | .null => ['n', 'u', 'l', 'l']
  | .bool true => ['t', 'r', 'u', 'e']
  | .bool false => ['f', 'a', 'l', 's', 'e']
  | .num n => text n
  | .str s => '"' :: s.flatMap escape ++ ['"']

/-- `str::trim_matches('"')`. -/
def trimQuotes (s : Str) : Str := ((s.dropWhile (· == '"')).reverse.dropWhile (· == '"')).reverse

/-- The value of a tag (parser.rs:509). -/
def tagValue (text : N → Str) (v : Scalar N) : Str := trimQuotes (v.json text)

/-- What `parse_to_line` needs to know: the table, the time column, the tag columns (split at commas, trimmed), the time now,
the text of a number, a number as `i64`, a time as text. -/
structure LineCtx (N : Type) where
  table : Str
  timeCol : Str
  tagCols : List Str
  now : Int
  text : N → Str
  asI64 : N → Option Int
  rfc3339 : Str → Option Int

/-- The loop of `parse_to_line` (parser.rs:507-553) over the entries of a record. -/
def lineLoop (c : LineCtx N) : List (Str × Scalar N) → JLine N → Except Err (JLine N)
  | [], l => .ok l
  | (k, v) :: es, l =>
    if k ∈ c.tagCols then lineLoop c es { l with tags := l.tags ++ [(k, tagValue c.text v)] }
    else if c.timeCol = k then
      match v with
      | .str s => match c.rfc3339 s with
        | none => .error .error
        | some t => lineLoop c es { l with ts := t }
      | .num n => match c.asI64 n with
        | none => .error .error
        | some t => lineLoop c es { l with ts := t }
      | _ => .error .error
    else
      match v with
      | .bool b => lineLoop c es { l with fields := l.fields ++ [(k, .bool b)] }
      | .num n => lineLoop c es { l with fields := l.fields ++ [(k, .float n)] }
      | .str s => lineLoop c es { l with fields := l.fields ++ [(k, .str s)] }
      | .null => .error .error

/-- `parse_to_line` (parser.rs:497-561). -/
def toLine (c : LineCtx N) (r : JRec N) : Except Err (JLine N) := lineLoop c r.entries ⟨c.table, [], [], c.now⟩

/-- The lines of a request (http_service.rs:2859-2864): all or none. -/
def toLines (c : LineCtx N) : List (JRec N) → Except Err (List (JLine N))
  | [] => .ok []
  | r :: rs => match toLine c r with
    | .error e => .error e
    | .ok l => match toLines c rs with
      | .error e => .error e
      | .ok ls => .ok (l :: ls)

end Verif.Ingest
