import Verif.Common.Bytes
import Verif.Common.Sort
/-!
# The line protocol parser

Model of `common/protocol_parser/src/line_protocol/parser.rs` and of `Line` in `common/protocol_parser/src/lib.rs`: one pass over the bytes of
the text with a state and positions of the current key and value.

Simplifications: errors carry no position; the hash of the series is left out (see C57); a text is its bytes (all characters the parser
looks for are ASCII).  `fast_float::parse` is a parameter.  `atoi_simd` is taken as its documentation says: an optional minus sign for
signed numbers, at least one digit, nothing else, an error if the number does not fit.
-/
namespace Verif.LineProto

abbrev Bytes := List Byte

/-- Space. -/
abbrev SP : Byte := 0x20#8
/-- Comma. -/
abbrev CM : Byte := 0x2c#8
/-- Equals sign. -/
abbrev EQ : Byte := 0x3d#8
/-- Backslash. -/
abbrev BS : Byte := 0x5c#8
/-- Double quote. -/
abbrev DQ : Byte := 0x22#8
/-- Single quote. -/
abbrev SQ : Byte := 0x27#8
/-- Carriage return. -/
abbrev CR : Byte := 0x0d#8
/-- Line feed. -/
abbrev LF : Byte := 0x0a#8
/-- Number sign. -/
abbrev HS : Byte := 0x23#8
/-- Minus sign. -/
abbrev MI : Byte := 0x2d#8
/-- Plus sign. -/
abbrev PL : Byte := 0x2b#8

/-- `u8::is_ascii_whitespace` (Rust std). -/
def isWs (c : Byte) : Bool := c == SP || c == 0x09#8 || c == LF || c == 0x0c#8 || c == CR

/-- An index out of bounds (`panic`) or a returned `Error` (parser.rs:9-25). -/
inductive Err where
  | panic
  | err
  deriving DecidableEq

/-- `FieldValue` of `protos`; `F` are the floating point numbers. -/
inductive Value (F : Type) where
  | i64 (v : Int)
  | u64 (v : Nat)
  | f64 (v : F)
  | str (v : Bytes)
  | bool (v : Bool)
  deriving DecidableEq

/-- `struct Line` (lib.rs:35-42) without the hash. -/
structure Line (F : Type) where
  table : Bytes
  tags : List (Bytes × Bytes)
  fields : List (Bytes × Value F)
  timestamp : Int
  deriving DecidableEq

/-- `Line::default()`. -/
def Line.empty (F : Type) : Line F := ⟨[], [], [], 0⟩

/-! ## Numbers -/

/-- `0..=9`. -/
def isDigit (c : Byte) : Bool := decide (48 ≤ c.toNat) && decide (c.toNat ≤ 57)

/-- The number that digits stand for. -/
def natOf (l : Bytes) : Nat := l.foldl (fun n c => n * 10 + (c.toNat - 48)) 0

/-- `atoi_simd::parse_pos::<u64>`. -/
def atou (l : Bytes) : Option Nat :=
  if l.isEmpty || !l.all isDigit || decide (2 ^ 64 ≤ natOf l) then none else some (natOf l)

/-- `atoi_simd::parse::<i64>`. -/
def atoi (l : Bytes) : Option Int :=
  match l with
  | [] => none
  | c :: ds =>
    if c = MI then
      if ds.isEmpty || !ds.all isDigit || decide (2 ^ 63 < natOf ds) then none else some (-(natOf ds : Int))
    else if !l.all isDigit || decide (2 ^ 63 ≤ natOf l) then none else some (natOf l : Int)

/-- `atoi_simd::parse_until_invalid::<i64>`: the number in front of the first byte that is no digit. -/
def atoiPrefix (l : Bytes) : Option Int :=
  match l with
  | [] => none
  | c :: ds => if c = MI then atoi (c :: ds.takeWhile isDigit) else atoi (l.takeWhile isDigit)

/-! ## Escapes and values -/

/-- The loop of `escape` (parser.rs:317-330), over neighbouring bytes. -/
def unescape : Bytes → Except Err Bytes
  | [] => .error .panic
  | [v] => .ok [v]
  | v1 :: v2 :: l =>
    if v2 = CM ∨ v2 = SP ∨ v2 = EQ then
      if v1 = BS then unescape (v2 :: l) else .error .err
    else match unescape (v2 :: l) with
      | .ok r => .ok (v1 :: r)
      | .error e => .error e

/-- `escape` (parser.rs:313-334). -/
def escape (s : Bytes) (need : Bool) : Except Err Bytes := if need then unescape s else .ok s

/-- The loop of `escaped_field_value` (parser.rs:402-417), over neighbouring bytes; `inEsc` is `in_unescape`. -/
def unescapeStr (inEsc : Bool) : Bytes → Except Err Bytes
  | [] => .error .panic
  | [v] => .ok [v]
  | v1 :: v2 :: l =>
    if v1 = BS ∧ (v2 = DQ ∨ v2 = BS) ∧ inEsc = true ∧ v2 = DQ then .error .err
    else if v1 = BS ∧ (v2 = DQ ∨ v2 = BS) ∧ inEsc = false then unescapeStr true (v2 :: l)
    else match unescapeStr false (v2 :: l) with
      | .ok r => .ok (v1 :: r)
      | .error e => .error e

/-- `escaped_field_value` (parser.rs:396-418). -/
def escapedStr (s : Bytes) (need : Bool) : Except Err Bytes := if need then unescapeStr false s else .ok s

/-- `parse_string_field` (parser.rs:379-394). -/
def parseString {F : Type} (buf : Bytes) (need : Bool) : Except Err (Value F) :=
  if buf.length < 2 then .error .err
  else if buf.head? = some DQ ∧ buf.getLast? = some DQ then
    match escapedStr (buf.tail.dropLast) need with
    | .ok s => .ok (.str s)
    | .error e => .error e
  else .error .err

/-- The words for booleans besides single letters (parser.rs:370): true, True, TRUE, false, False, FALSE. -/
def boolWords : List Bytes :=
  [[0x74#8, 0x72#8, 0x75#8, 0x65#8], [0x54#8, 0x72#8, 0x75#8, 0x65#8], [0x54#8, 0x52#8, 0x55#8, 0x45#8],
   [0x66#8, 0x61#8, 0x6c#8, 0x73#8, 0x65#8], [0x46#8, 0x61#8, 0x6c#8, 0x73#8, 0x65#8], [0x46#8, 0x41#8, 0x4c#8, 0x53#8, 0x45#8]]

/-- `parse_boolean_field` (parser.rs:365-377). -/
def parseBool {F : Type} (buf : Bytes) (b : Bool) : Except Err (Value F) :=
  if buf.length = 1 then .ok (.bool b) else if buf ∈ boolWords then .ok (.bool b) else .error .err

/-- `parse_numeric_field` (parser.rs:339-363); `fast` is `fast_float::parse`. -/
def parseNumeric {F : Type} (fast : Bytes → Option F) (buf : Bytes) : Except Err (Value F) :=
  match buf.getLast? with
  | none => .error .panic
  | some l =>
    if l = 0x69#8 then
      match atoi buf.dropLast with
      | some v => .ok (.i64 v)
      | none => .error .err
    else if l = 0x75#8 then
      match atou buf.dropLast with
      | some v => .ok (.u64 v)
      | none => .error .err
    else
      match fast buf with
      | some v => .ok (.f64 v)
      | none => .error .err

/-- `parse_field_value` (parser.rs:336-347): the first byte is read without looking at the length. -/
def parseValue {F : Type} (fast : Bytes → Option F) (buf : Bytes) (need : Bool) : Except Err (Value F) :=
  match buf with
  | [] => .error .panic
  | c :: _ =>
    if c = 0x74#8 ∨ c = 0x54#8 then parseBool buf true
    else if c = 0x66#8 ∨ c = 0x46#8 then parseBool buf false
    else if c = DQ then parseString buf need
    else if c = PL ∨ c = MI ∨ isDigit c = true then parseNumeric fast buf
    else .error .err

/-! ## Lines -/

/-- Order of strings: byte by byte (Rust std). -/
def leBytes : Bytes → Bytes → Bool
  | [], _ => true
  | _ :: _, [] => false
  | a :: as, b :: bs => if a.toNat < b.toNat then true else if b.toNat < a.toNat then false else leBytes as bs

/-- `Vec::dedup_by` on equal keys: an element is dropped if it has the key of the last one kept. -/
def dedupFrom {β : Type} (a : Bytes × β) : List (Bytes × β) → List (Bytes × β)
  | [] => [a]
  | b :: l => if b.1 = a.1 then dedupFrom a l else a :: dedupFrom b l

/-- `Vec::dedup_by` on equal keys. -/
def dedupKeys {β : Type} : List (Bytes × β) → List (Bytes × β)
  | [] => []
  | a :: l => dedupFrom a l

/-- `sort_dedup_and_hash` (lib.rs:120-126). -/
def Line.finish {F : Type} (l : Line F) : Line F :=
  { l with tags := dedupKeys (Sort.sortBy (fun a b => leBytes a.1 b.1) l.tags)
           fields := dedupKeys (Sort.sortBy (fun a b => leBytes a.1 b.1) l.fields) }

/-! ## The scanner -/

/-- `ParseStatus` (parser.rs:29-38). -/
inductive Status where
  | lineBegin | table | tagKey | tagValue | fieldKey | fieldValue | timestamp
  deriving DecidableEq

/-- `key_idx`, `val_idx`: begin, end, whether there is a backslash. -/
structure Idx where
  lo : Nat
  hi : Nat
  esc : Bool

/-- The variables of `parse` (parser.rs:50-60). -/
structure St (F : Type) where
  lines : List (Line F)
  line : Line F
  comment : Bool
  skip : Bool
  nextEsc : Bool
  key : Idx
  val : Idx
  status : Status
  quotes : Bool

/-- Their initial values (parser.rs:50-60). -/
def St.init (F : Type) : St F := ⟨[], Line.empty F, false, false, false, ⟨0, 0, false⟩, ⟨0, 0, false⟩, .lineBegin, false⟩

/-- `&data_bytes[a..b]`. -/
def slice (data : Bytes) (a b : Nat) : Except Err Bytes :=
  if a ≤ b ∧ b ≤ data.length then .ok ((data.drop a).take (b - a)) else .error .panic

/-- The bytes that may follow a backslash in a name (parser.rs:120, 150, 182). -/
def escOkKey (c : Byte) : Bool := c == CM || c == SP || c == EQ || c == BS || c == DQ || c == SQ

/-- The bytes that may follow a backslash in a table name (parser.rs:92). -/
def escOkTable (c : Byte) : Bool := c == CM || c == SP || c == BS || c == DQ || c == SQ

/-- The bytes that may follow a backslash in a field value (parser.rs:211). -/
def escOkValue (c : Byte) : Bool := c == SQ || c == DQ || c == BS

/-- `escape(&data_bytes[key_idx.0..key_idx.1], key_idx.2)?`, `escape(&data_bytes[val_idx.0..index], val_idx.2)?` and the push of a tag
(parser.rs:162-164, 169-171). -/
def pushTag {F : Type} (data : Bytes) (index : Nat) (s : St F) : Except Err (Line F) := do
  let k ← escape (← slice data s.key.lo s.key.hi) s.key.esc
  let v ← escape (← slice data s.val.lo index) s.val.esc
  return { s.line with tags := s.line.tags ++ [(k, v)] }

/-- The same for a field (parser.rs:226-228, 233-235, 240-242). -/
def pushField {F : Type} (fast : Bytes → Option F) (data : Bytes) (index : Nat) (s : St F) : Except Err (Line F) := do
  let k ← escape (← slice data s.key.lo s.key.hi) s.key.esc
  let v ← parseValue fast (← slice data s.val.lo index) s.val.esc
  return { s.line with fields := s.line.fields ++ [(k, v)] }

/-- The body of the loop (parser.rs:66-274); `dflt` is `default_time`. -/
def step {F : Type} (fast : Bytes → Option F) (dflt : Int) (data : Bytes) (index : Nat) (c : Byte) (s : St F) : Except Err (St F) :=
  match s.status with
  | .lineBegin =>
    if s.comment && (c == CR || c == LF) then .ok { s with comment := false }
    else if s.comment || isWs c then .ok s
    else if c = HS then .ok { s with comment := true }
    else .ok { s with key := ⟨index, 0, false⟩, status := .table }
  | .table =>
    if s.skip then
      if c = SP then .ok s else .ok { s with skip := false, key := ⟨index, 0, false⟩, status := .fieldKey }
    else if s.nextEsc then
      if escOkTable c then .ok { s with nextEsc := false } else .error .err
    else if c = BS then .ok { s with nextEsc := true, key := { s.key with esc := true } }
    else if c = CM then do
      let t ← escape (← slice data s.key.lo index) s.key.esc
      return { s with line := { s.line with table := t }, key := ⟨index + 1, 0, false⟩, status := .tagKey }
    else if c = SP then do
      let t ← escape (← slice data s.key.lo index) s.key.esc
      return { s with line := { s.line with table := t }, skip := true }
    else .ok s
  | .tagKey =>
    if s.nextEsc then
      if escOkKey c then .ok { s with nextEsc := false } else .error .err
    else if c = BS then .ok { s with nextEsc := true, key := { s.key with esc := true } }
    else if c = EQ then .ok { s with key := { s.key with hi := index }, val := ⟨index + 1, 0, false⟩, status := .tagValue }
    else .ok s
  | .tagValue =>
    if s.skip then
      if c = SP then .ok s else .ok { s with skip := false, key := ⟨index, 0, false⟩, status := .fieldKey }
    else if s.nextEsc then
      if escOkKey c then .ok { s with nextEsc := false } else .error .err
    else if c = BS then .ok { s with nextEsc := true, val := { s.val with esc := true } }
    else if c = CM then do
      let l ← pushTag data index s
      return { s with line := l, key := ⟨index + 1, 0, false⟩, status := .tagKey }
    else if c = SP then do
      let l ← pushTag data index s
      return { s with line := l, skip := true }
    else .ok s
  | .fieldKey =>
    if s.nextEsc then
      if escOkKey c then .ok { s with nextEsc := false } else .error .err
    else if c = BS then .ok { s with nextEsc := true, key := { s.key with esc := true } }
    else if c = EQ then .ok { s with key := { s.key with hi := index }, val := ⟨index + 1, 0, false⟩, status := .fieldValue }
    else .ok s
  | .fieldValue =>
    if s.skip then
      if c = SP then .ok s else .ok { s with skip := false, key := ⟨index, 0, false⟩, status := .timestamp }
    else if s.nextEsc then
      if escOkValue c then .ok { s with nextEsc := false } else .error .err
    else if c = DQ then .ok { s with quotes := !s.quotes }
    else if c = BS then .ok { s with nextEsc := true, val := { s.val with esc := true } }
    else if c = CM ∧ s.quotes = false then do
      let l ← pushField fast data index s
      return { s with line := l, key := ⟨index + 1, 0, false⟩, status := .fieldKey }
    else if c = SP ∧ s.quotes = false then do
      let l ← pushField fast data index s
      return { s with line := l, key := ⟨index, 0, false⟩, skip := true }
    else if (c = CR ∨ c = LF) ∧ s.quotes = false then do
      let l ← pushField fast data index s
      return { s with lines := s.lines ++ [{ l with timestamp := dflt }.finish], line := Line.empty F, key := ⟨0, 0, false⟩,
                      status := .lineBegin }
    else .ok s
  | .timestamp =>
    if isWs c then do
      let t ← if s.key.lo = index then .ok dflt
        else match atoi (← slice data s.key.lo index) with
          | some t => .ok t
          | none => .error .err
      return { s with lines := s.lines ++ [{ s.line with timestamp := t }.finish], line := Line.empty F, key := ⟨index + 1, 0, false⟩,
                      status := .lineBegin }
    else .ok s

/-- The loop of `parse` (parser.rs:62-275) from position `index` on; `rest` are the bytes from there. -/
def loop {F : Type} (fast : Bytes → Option F) (dflt : Int) (data : Bytes) : Nat → Bytes → St F → Except Err (St F)
  | _, [], s => .ok s
  | index, c :: rest, s =>
    match step fast dflt data index c s with
    | .ok s => loop fast dflt data (index + 1) rest s
    | .error e => .error e

/-- What follows the loop (parser.rs:277-310). -/
def close {F : Type} (fast : Bytes → Option F) (dflt : Int) (data : Bytes) (s : St F) : Except Err (List (Line F)) :=
  match s.status with
  | .timestamp => do
    let t ← if s.key.lo = 0 then .ok dflt
      else match atoiPrefix (← slice data s.key.lo data.length) with
        | some t => .ok t
        | none => .error .err
    return s.lines ++ [{ s.line with timestamp := t }.finish]
  | .fieldValue =>
    if s.quotes then .error .err
    else do
      let l ← if s.key.lo < s.key.hi ∧ s.val.lo < data.length then pushField fast data data.length s else .ok s.line
      return s.lines ++ [{ l with timestamp := dflt }.finish]
  | .lineBegin => .ok s.lines
  | _ => .error .err

/-- `Parser::parse` (parser.rs:49-310). -/
def parse {F : Type} (fast : Bytes → Option F) (dflt : Int) (data : Bytes) : Except Err (List (Line F)) :=
  match loop fast dflt data 0 data (St.init F) with
  | .ok s => close fast dflt data s
  | .error e => .error e

end Verif.LineProto
