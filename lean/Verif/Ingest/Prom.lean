import Verif.Ingest.Otlp
import Verif.Raft.StoreProps
/-!
# Prometheus: remote write and remote read

`query_server/query/src/prom/remote_server.rs`, `query_server/query/src/prom/time_series/writer.rs`,
`query_server/query/src/prom/mod.rs`.  Not modelled: snappy and protobuf (the request arrives decoded), the execution of the
SQL text, regular expressions (a function from patterns to tests), the order of the series in the answer (that of a hash map).
-/
namespace Verif.Ingest.Prom
open Verif.Ingest (Str Err wrap64)
variable {F : Type}

/-- `Label` of the protocol. -/
structure Label where
  name : Str
  value : Str
deriving DecidableEq, Repr

/-- `Sample` of the protocol: a value and a time in milliseconds. -/
structure Sample (F : Type) where
  value : F
  ts : Int
deriving DecidableEq, Repr

/-- `TimeSeries` of the protocol. -/
structure TimeSeries (F : Type) where
  labels : List Label
  samples : List (Sample F)
deriving DecidableEq, Repr

/-- `METRIC_NAME_LABEL`, mod.rs:4. -/
def metricName : Str := "__name__".toList

/-- `DEFAULT_PROM_TABLE_NAME`, mod.rs:8. -/
def defaultTable : Str := "prom_metric_not_specified".toList

/-- A line for the write path: the table, the tags, the only field `value` and the time in nanoseconds. -/
structure PLine (F : Type) where
  table : Str
  tags : List (Str × Str)
  value : F
  ts : Int
deriving DecidableEq, Repr

/-- The table of a series, remote_server.rs:80-92: the value of the last label `__name__`. -/
def tableOf (labels : List Label) : Str := labels.foldl (fun t l => if l.name = metricName then l.value else t) defaultTable

/-- `sample.timestamp * 1000000`, remote_server.rs:101: 64 bits, wrapping. -/
def toNs (ms : Int) : Int := wrap64 (ms * 1000000)

/-- `prom_write_request_to_lines`, remote_server.rs:77-111: one line for every sample, all labels are tags. -/
def toLines (req : List (TimeSeries F)) : List (PLine F) :=
  req.flatMap fun s => s.samples.map fun x => ⟨tableOf s.labels, s.labels.map fun l => (l.name, l.value), x.value, toNs x.ts⟩

/-! ## The answer to a read -/

/-- A row of the result of the query: the values of the tag columns (a missing one reads as the empty string), the value and
the time in nanoseconds. -/
structure Row (F : Type) where
  tags : List Str
  value : F
  time : Int
deriving DecidableEq, Repr

/-- The parts of a list of strings with a separator between. -/
def join (sep : Char) : List Str → Str
  | [] => []
  | [a] => a
  | a :: b :: r => a ++ sep :: join sep (b :: r)

/-- The separator, writer.rs:231. -/
def sep : Char := Char.ofNat 1

/-- `concat_labels`, writer.rs:223-232: names and values alternating, joined by the character 1. -/
def concatLabels (ls : List Label) : Str := join sep (ls.flatMap fun l => [l.name, l.value])

/-- The labels of a row, writer.rs:32-53: every tag column of the table, also those without a value. -/
def labelsOf (names : List Str) (r : Row F) : List Label := (names.zip r.tags).map fun x => ⟨x.1, x.2⟩

/-- The sample of a row, writer.rs:80-122: nanoseconds divided by a million, rounding towards zero. -/
def sampleOf (r : Row F) : Sample F := ⟨r.value, r.time.tdiv 1000000⟩

/-- The series found so far, by joined labels. -/
abbrev Found (F : Type) := AMap Str (TimeSeries F)

/-- `apply`, writer.rs:124-140: the sample is added to the series of the joined labels. -/
def apply (names : List Str) (m : Found F) (r : Row F) : Found F :=
  let ls := labelsOf names r
  let k := concatLabels ls
  match m.get k with
  | some s => m.set k { s with samples := s.samples ++ [sampleOf r] }
  | none => m.set k ⟨ls, [sampleOf r]⟩

/-- `transform_time_series`, remote_server.rs:353-378. -/
def found (names : List Str) (rows : List (Row F)) : Found F := rows.foldl (apply names) .empty

/-! ## The query for a read -/

/-- The types of a matcher. -/
inductive MType where
  | eq | neq | re | nre
deriving DecidableEq, Repr

/-- `LabelMatcher` of the protocol. -/
structure Matcher where
  type : MType
  name : Str
  value : Str
deriving DecidableEq, Repr

/-- What the query builder knows: the tables of the database (in some order), and what a pattern matches somewhere in a text
(`none`: the pattern is not valid). -/
structure Db where
  tables : List Str
  re : Str → Option (Str → Bool)

/-- The tables asked for, remote_server.rs:283-332: every matcher on `__name__` replaces those of the matchers before. -/
def selectTables (db : Db) : List Matcher → List Str → Except Err (List Str)
  | [], ts => .ok ts
  | m :: ms, ts =>
    if m.name = metricName then
      match m.type with
      | .eq => if m.value ∈ db.tables then selectTables db ms [m.value] else .error .error
      | .re =>
        match db.re m.value with
        | some f => selectTables db ms (db.tables.filter f)
        | none => .error .error
      | _ => .error .error
    else selectTables db ms ts

/-- The operators, remote_server.rs:334-347. -/
def MType.op : MType → Str
  | .eq => "=".toList
  | .neq => "!=".toList
  | .re => "~".toList
  | .nre => "!~".toList

/-- One filter, remote_server.rs:334-347: name and value stand in the text as they are. -/
def filterText (m : Matcher) : Str := m.name ++ ' ' :: m.type.op ++ ' ' :: '\'' :: m.value ++ ['\'']

/-- A number in the text. -/
def decInt (i : Int) : Str := if i < 0 then '-' :: Verif.Raft.dec i.natAbs else Verif.Raft.dec i.natAbs

/-- The filters of a query, remote_server.rs:334-351: the matchers but those on `__name__`, then the range of time. -/
def filters (ms : List Matcher) (lo hi : Int) : List Str :=
  (ms.filter fun m => m.name ≠ metricName).map filterText ++
    ["time >= ".toList ++ decInt (toNs lo), "time <= ".toList ++ decInt (toNs hi)]

/-- `filters.join(" AND ")`. -/
def joinAnd : List Str → Str
  | [] => []
  | [a] => a
  | a :: b :: r => a ++ ' ' :: 'A' :: 'N' :: 'D' :: ' ' :: joinAnd (b :: r)

/-- The condition of the query. -/
def condition (ms : List Matcher) (lo hi : Int) : Str := joinAnd (filters ms lo hi)

/-- The SQL text for a table, remote_server.rs:356-361. -/
def sqlText (table cond : Str) : Str :=
  "SELECT * FROM \"".toList ++ table ++ "\" WHERE ".toList ++ cond ++ " order by time".toList

/-- `build_sql_with_table`, remote_server.rs:265-367: the tables with the text for each. -/
def buildSql (db : Db) (ms : List Matcher) (lo hi : Int) : Except Err (List (Str × Str)) :=
  match selectTables db ms [] with
  | .error e => .error e
  | .ok ts => .ok (ts.map fun t => (t, sqlText t (condition ms lo hi)))

/-! ## Reading a condition -/

/-- The words of SQL that matter here: words and texts in quotes. -/
inductive Tok where
  | word (s : Str)
  | text (s : Str)
deriving DecidableEq, Repr

/-- Where the reading of SQL stands. -/
inductive LexSt where
  | gap
  | word (a : Str)
  | text (a : Str)
  | quote (a : Str)

/-- The words of a piece of SQL: texts stand in single quotes, two quotes inside are one, words end at a space or quote.  This is
how the SQL parser (the crate sqlparser, not part of the repository) reads it; operators have spaces around them here. -/
def lexGo : Str → LexSt → Option (List Tok)
  | [], .gap => some []
  | [], .word a => some [.word a]
  | [], .text _ => none
  | [], .quote a => some [.text a]
  | c :: s, .gap => if c = ' ' then lexGo s .gap else if c = '\'' then lexGo s (.text []) else lexGo s (.word [c])
  | c :: s, .word a =>
    if c = ' ' then (lexGo s .gap).map (.word a :: ·)
    else if c = '\'' then (lexGo s (.text [])).map (.word a :: ·)
    else lexGo s (.word (a ++ [c]))
  | c :: s, .text a => if c = '\'' then lexGo s (.quote a) else lexGo s (.text (a ++ [c]))
  | c :: s, .quote a =>
    if c = '\'' then lexGo s (.text (a ++ [c]))
    else if c = ' ' then (lexGo s .gap).map (.text a :: ·)
    else (lexGo s (.word [c])).map (.text a :: ·)

def lex (s : Str) : Option (List Tok) := lexGo s .gap

end Verif.Ingest.Prom
