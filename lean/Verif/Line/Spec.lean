import Verif.Line.Acc
/-!
# Points as line protocol text

The documented way to write a point: commas and spaces of a table name, commas, spaces and equals signs of tag keys, tag values and field
keys, and quotes and backslashes of text values are preceded by a backslash.
-/
namespace Verif.LineProto

variable {F : Type}

/-- A point as a client has it. -/
structure Point (F : Type) where
  table : Bytes
  tags : List (Bytes × Bytes)
  fields : List (Bytes × Value F)
  time : Option Int

/-- A name with a backslash in front of the special bytes. -/
def quote (special : Byte → Bool) (s : Bytes) : Bytes := s.flatMap fun c => if special c then [BS, c] else [c]

/-- Special in a table name. -/
def inTable (c : Byte) : Bool := c == CM || c == SP

/-- Special in tag keys, tag values and field keys. -/
def inKey (c : Byte) : Bool := c == CM || c == SP || c == EQ

/-- Special in a text value. -/
def inText (c : Byte) : Bool := c == DQ || c == BS

/-- A digit. -/
def digit (n : Nat) : Byte := BitVec.ofNat 8 (48 + n)

/-- Decimal notation. -/
def dec (n : Nat) : Bytes := if n < 10 then [digit n] else dec (n / 10) ++ [digit (n % 10)]

/-- Decimal notation with sign. -/
def decInt (i : Int) : Bytes := if i < 0 then MI :: dec i.natAbs else dec i.natAbs

/-- A field value; `fl` writes floating point numbers. -/
def valueText (fl : F → Bytes) : Value F → Bytes
  | .i64 v => decInt v ++ [0x69#8]
  | .u64 v => dec v ++ [0x75#8]
  | .f64 v => fl v
  | .str v => DQ :: (quote inText v ++ [DQ])
  | .bool true => [0x74#8, 0x72#8, 0x75#8, 0x65#8]
  | .bool false => [0x66#8, 0x61#8, 0x6c#8, 0x73#8, 0x65#8]

/-- A tag with its comma. -/
def tagText (t : Bytes × Bytes) : Bytes := CM :: (quote inKey t.1 ++ EQ :: quote inKey t.2)

/-- A field. -/
def fieldText (fl : F → Bytes) (f : Bytes × Value F) : Bytes := quote inKey f.1 ++ EQ :: valueText fl f.2

/-- Fields separated by commas. -/
def fieldsText (fl : F → Bytes) : List (Bytes × Value F) → Bytes
  | [] => []
  | [f] => fieldText fl f
  | f :: g :: l => fieldText fl f ++ CM :: fieldsText fl (g :: l)

/-- The time of a point, if it has one. -/
def timeText : Option Int → Bytes
  | none => []
  | some t => SP :: decInt t

/-- A point as text. -/
def pointText (fl : F → Bytes) (p : Point F) : Bytes :=
  quote inTable p.table ++ p.tags.flatMap tagText ++ SP :: fieldsText fl p.fields ++ timeText p.time

/-- Points as text, one per line; `nl` says whether the last line is ended. -/
def text (fl : F → Bytes) (nl : Bool) : List (Point F) → Bytes
  | [] => []
  | [p] => pointText fl p ++ if nl then [LF] else []
  | p :: q :: l => pointText fl p ++ LF :: text fl nl (q :: l)

/-- The line says what the point says; the order of tags and fields does not matter. -/
def Same (dflt : Int) (p : Point F) (l : Line F) : Prop :=
  l.table = p.table ∧ l.tags.Perm p.tags ∧ l.fields.Perm p.fields ∧ l.timestamp = p.time.getD dflt

/-- What is asked of the way floating point numbers are written: the parser reads them, and they begin like a number and have no byte with
a meaning in the protocol. -/
structure FloatOk (fast : Bytes → Option F) (fl : F → Bytes) (x : F) : Prop where
  read : fast (fl x) = some x
  first : ∃ c l, fl x = c :: l ∧ (c = PL ∨ c = MI ∨ isDigit c = true)
  last : ∀ c ∈ (fl x).getLast?, c ≠ 0x69#8 ∧ c ≠ 0x75#8
  plain : ∀ c ∈ fl x, c ≠ DQ ∧ c ≠ BS ∧ c ≠ CM ∧ c ≠ SP ∧ c ≠ CR ∧ c ≠ LF

/-- Numbers are in the range of their type. -/
def ValueOk (fast : Bytes → Option F) (fl : F → Bytes) : Value F → Prop
  | .i64 v => -2 ^ 63 ≤ v ∧ v < 2 ^ 63
  | .u64 v => v < 2 ^ 64
  | .f64 v => FloatOk fast fl v
  | _ => True

/-- The points whose text is read back: no backslash in names; the table name is not empty and begins neither with an escaped byte nor with
white space or a number sign, and has no equals sign besides a comma or space; field names are not empty and the first one does not
begin with an escaped byte; tags and fields have different names; there is a field. -/
structure Point.Plain (fast : Bytes → Option F) (fl : F → Bytes) (p : Point F) : Prop where
  noBs : BS ∉ p.table ∧ (∀ t ∈ p.tags, BS ∉ t.1 ∧ BS ∉ t.2) ∧ ∀ f ∈ p.fields, BS ∉ f.1
  first : ∃ c l, p.table = c :: l ∧ isWs c = false ∧ c ≠ HS ∧ c ≠ CM
  equals : EQ ∈ p.table → CM ∉ p.table ∧ SP ∉ p.table
  field : ∃ f l, p.fields = f :: l ∧ ∃ c k, f.1 = c :: k ∧ inKey c = false
  fieldNames : ∀ f ∈ p.fields, f.1 ≠ []
  tagsNodup : (p.tags.map Prod.fst).Nodup
  fieldsNodup : (p.fields.map Prod.fst).Nodup
  values : ∀ f ∈ p.fields, ValueOk fast fl f.2
  time : ∀ t ∈ p.time, -2 ^ 63 ≤ t ∧ t < 2 ^ 63

end Verif.LineProto
