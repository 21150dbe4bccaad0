import Verif.Common.Sort
import Verif.Ingest.Otlp
import Verif.Repair.Model
/-!
# Model: reading traces through the Jaeger API

* `main/src/opentelemetry/otlp_to_jaeger.rs:321-700` — `to_jaeger_span_kind`, `recordbatch_to_span`
* `main/src/opentelemetry/otlp_to_jaeger.rs:146-262` — the filters of a search for traces
* `main/src/opentelemetry/otlp_to_jaeger.rs:703-890` — `parse_duration`, `leading_int`, `leading_fraction`, `unit_map`
* `main/src/http/http_service.rs:1890-1950, 2005-2056` — traces made of record batches
* `main/src/http/http_service.rs:1735-1760` — the columns that are tags of a table of traces

Simplifications: numbers are whole (`Float64` columns only hold counts, times, flags and lengths here); the sum
`(f as f64 * (unit as f64 / scale)) as u64` of a fraction is a parameter; a scan gives the rows of a series as batches of at
most 4096 rows in the order of time, one series after the other.
-/
namespace Verif.Jaeger
open Verif.Ingest Verif.Raft

/-! ## Columns and rows -/

/-- A column of a record batch: its name, and whether it holds numbers (`Float64Array`) or texts (`StringArray`). -/
structure Col where
  name : Str
  num : Bool
deriving DecidableEq

/-- A row: the column `time` and the other cells; what is missing is null. -/
structure Row where
  time : Int
  cells : Rec

/-- `as u64` of a `Float64`. -/
def asU64 (n : Int) : Nat := if n < 0 then 0 else min (Repair.f64OfNat n.toNat) (2 ^ 64 - 1)

/-- `as i64` of a `Float64`. -/
def asI64 (n : Int) : Int := max (-(2 ^ 63)) (min (Repair.f64OfInt n) (2 ^ 63 - 1))

/-- `as u32` of a `Float64`. -/
def asU32 (n : Int) : Nat := if n < 0 then 0 else min (Repair.f64OfNat n.toNat) (2 ^ 32 - 1)

/-- A text cell: null reads as the empty text (`StringArray::value` does not look at the null buffer). -/
def strOf (r : Row) (name : Str) : Str := match r.cells.get name with
  | some (.str s) => s
  | _ => []

/-- A number cell: null reads as zero. -/
def numOf (r : Row) (name : Str) : Int := match r.cells.get name with
  | some (.num n) => n
  | _ => 0

/-- `batch.column_by_name`. -/
def colOf (cs : List Col) (name : Str) : Option Col := cs.find? fun c => decide (c.name = name)

/-- A text column by name: outside, whether there was an error (the column is of another type); inside, whether the column
exists. -/
def strCol (cs : List Col) (r : Row) (name : Str) : Option (Option Str) := match colOf cs name with
  | none => some none
  | some c => if c.num then none else some (some (strOf r name))

/-- A number column by name. -/
def numCol (cs : List Col) (r : Row) (name : Str) : Option (Option Int) := match colOf cs name with
  | none => some none
  | some c => if c.num then some (some (numOf r name)) else none

/-! ## What Jaeger gets (jaeger_model.rs) -/

inductive Value where
  | str (s : Str)
  | bool (b : Bool)
  | int (n : Int)
deriving DecidableEq

structure KV where
  key : Str
  val : Value
deriving DecidableEq

structure Log where
  timestamp : Nat
  fields : List KV
deriving DecidableEq

structure Process where
  service : Str
  tags : List KV
deriving DecidableEq

/-- `Span` (jaeger_model.rs:49-91); every reference is `ChildOf`. -/
structure JSpan where
  trace : Str
  span : Str
  parent : Option Str
  flags : Option Nat
  op : Str
  refs : List (Str × Str)
  start : Nat
  duration : Nat
  tags : List KV
  logs : List Log
  process : Process
deriving DecidableEq

/-! ## Names of columns (otlp_to_jaeger.rs:31-58) -/

def traceCol : Str := key spanPrefix "trace_id"
def spanCol : Str := key spanPrefix "span_id"
def parentCol : Str := key spanPrefix "parent_span_id"
def flagsCol : Str := key spanPrefix "flags"
def opCol : Str := key spanPrefix "name"
def kindCol : Str := key spanPrefix "kind"
def durationCol : Str := key spanPrefix "duration_nano"
def codeCol : Str := key spanPrefix "Status/code"
def messageCol : Str := key spanPrefix "Status/message"
def libNameCol : Str := key scopePrefix "InstrumentationScope/name"
def libVersionCol : Str := key scopePrefix "InstrumentationScope/version"
def serviceCol : Str := key resPrefix "Resource/attributes/service.name"
def resDroppedCol : Str := key resPrefix "Resource/dropped_attributes_count"
def droppedCols : List Str :=
  [key spanPrefix "dropped_attributes_count", key spanPrefix "dropped_events_count", key spanPrefix "dropped_links_count"]
def stateCol : Str := key spanPrefix "trace_state"
def resAttrs : Str := key resPrefix "Resource/attributes"
def spanAttrs : Str := key spanPrefix "attributes/"
def eventPrefix (i : Nat) : Str := spanPrefix ++ "Event_".toList ++ dec i ++ ['/']
def linkPrefix (i : Nat) : Str := spanPrefix ++ "Link_".toList ++ dec i ++ ['/']

/-- `to_jaeger_span_kind` (otlp_to_jaeger.rs:321-332). -/
def jaegerKind (s : Str) : Str :=
  if s = "SPAN_KIND_INTERNAL".toList then "internal".toList
  else if s = "SPAN_KIND_SERVER".toList then "server".toList
  else if s = "SPAN_KIND_CLIENT".toList then "client".toList
  else if s = "SPAN_KIND_PRODUCER".toList then "producer".toList
  else if s = "SPAN_KIND_CONSUMER".toList then "consumer".toList
  else "unspecified".toList

/-- `col_name.split('/').last()`. -/
def lastPart (s : Str) : Str := ((splitOn '/' s).getLast?).getD s

/-! ## `recordbatch_to_span` (otlp_to_jaeger.rs:334-701) -/

/-- A tag of a text that may be missing. -/
def textKV (name : String) : Option Str → List KV
  | none => []
  | some x => [⟨name.toList, .str x⟩]

/-- The columns with fixed names (otlp_to_jaeger.rs:335-530). -/
def head (cs : List Col) (r : Row) : Option JSpan :=
  match strCol cs r traceCol, strCol cs r spanCol, strCol cs r parentCol, numCol cs r flagsCol, strCol cs r opCol,
      strCol cs r kindCol, numCol cs r durationCol, strCol cs r codeCol, strCol cs r messageCol, strCol cs r libNameCol,
      strCol cs r libVersionCol, strCol cs r serviceCol with
  | some t, some s, some p, some f, some o, some k, some d, some c, some m, some n, some v, some w =>
    some {
      trace := t.getD [], span := s.getD [], parent := p, flags := f.map asU32, op := o.getD [], refs := [],
      start := (r.time.tdiv 1000 % 2 ^ 64).toNat,
      duration := match d with
        | none => 0
        | some d => asU64 d / 1000,
      tags := textKV "span.kind" (k.map jaegerKind), logs := [],
      process := {
        service := w.getD [],
        tags := textKV "otel.status_code" c ++
          (if c = some "STATUS_CODE_ERROR".toList then [⟨"error".toList, .bool true⟩] else []) ++
          textKV "otel.status_description" m ++ textKV "otel.library.name" n ++ textKV "otel.library.version" v } }
  | _, _, _, _, _, _, _, _, _, _, _, _ => none

/-- `convert_column_to_any_value` and `normal_decode_kv` (otlp_to_jaeger.rs:301-317, 893-920): an attribute. -/
def attrKV (r : Row) (c : Col) : Option KV := if c.num then none else some ⟨c.name, .str (strOf r c.name)⟩

/-- The inner loop over the columns of an event (otlp_to_jaeger.rs:609-657): the fields of the log, and the tags of the process. -/
def eventLoop (r : Row) (p : Str) : List Col → Option (List KV × List KV)
  | [] => some ([], [])
  | c :: cs =>
    if (key p "attributes/").isPrefixOf c.name then
      match attrKV r c, eventLoop r p cs with
      | some kv, some (fs, ts) => some (fs, kv :: ts)
      | _, _ => none
    else if c.name = key p "name" then
      if c.num then none
      else match eventLoop r p cs with
        | some (fs, ts) => some (⟨"name".toList, .str (strOf r c.name)⟩ :: fs, ts)
        | none => none
    else if c.name = key p "dropped_attributes_count" then
      if c.num then match eventLoop r p cs with
        | some (fs, ts) => some (⟨"dropped_attributes_count".toList, .int (asI64 (numOf r c.name))⟩ :: fs, ts)
        | none => none
      else none
    else eventLoop r p cs

/-- What the loop over the columns carries: the number of the next event, that of the next link, the span. -/
structure Acc where
  event : Nat
  link : Nat
  out : JSpan
deriving DecidableEq

def Acc.ptag (a : Acc) (l : List KV) : Acc :=
  { a with out := { a.out with process := { a.out.process with tags := a.out.process.tags ++ l } } }
def Acc.tag (a : Acc) (kv : KV) : Acc := { a with out := { a.out with tags := a.out.tags ++ [kv] } }

/-- A column in the loop over all columns (otlp_to_jaeger.rs:539-697). -/
def step (cs : List Col) (r : Row) (a : Acc) (c : Col) : Option Acc :=
  if resAttrs.isPrefixOf c.name && decide (c.name ≠ serviceCol) then (attrKV r c).map fun kv => a.ptag [kv]
  else if c.name = resDroppedCol then
    if c.num then some (a.ptag [⟨"dropped_attributes_count".toList, .int (asI64 (numOf r c.name))⟩]) else none
  else if spanAttrs.isPrefixOf c.name then (attrKV r c).map fun kv => a.ptag [kv]
  else if c.name ∈ droppedCols then
    if c.num then some (a.tag ⟨lastPart c.name, .int (asI64 (numOf r c.name))⟩) else none
  else if c.name = stateCol then
    if c.num then none else some (a.tag ⟨lastPart c.name, .str (strOf r c.name)⟩)
  else if (eventPrefix a.event).isPrefixOf c.name then
    match numCol cs r (key (eventPrefix a.event) "time_unix_nano"), eventLoop r (eventPrefix a.event) cs with
    | some (some t), some (fs, ts) =>
      let b := a.ptag ts
      some { b with event := a.event + 1, out := { b.out with logs := b.out.logs ++ [⟨asU64 t, fs⟩] } }
    | _, _ => none
  else if (linkPrefix a.link).isPrefixOf c.name then
    match strCol cs r (key (linkPrefix a.link) "trace_id"), strCol cs r (key (linkPrefix a.link) "span_id") with
    | some (some t), some (some s) =>
      some { a with link := a.link + 1, out := { a.out with refs := a.out.refs ++ [(t, s)] } }
    | _, _ => none
  else some a

/-- The loop over all columns. -/
def loop (cs : List Col) (r : Row) : List Col → Acc → Option Acc
  | [], a => some a
  | c :: l, a => match step cs r a c with
    | none => none
    | some b => loop cs r l b

/-- `recordbatch_to_span`: the columns besides `time`, a row. -/
def toSpan (cs : List Col) (r : Row) : Option JSpan :=
  match head cs r with
  | none => none
  | some j => (loop cs r cs ⟨0, 0, j⟩).map (·.out)

/-! ## Traces made of batches -/

/-- The tag columns of a table of traces (http_service.rs:1743-1756). -/
def tagCols : List Str := [libNameCol, libVersionCol, codeCol, spanCol, opCol, parentCol, traceCol, stateCol, serviceCol]

/-- The series of a row. -/
def series (r : Row) : List Str := tagCols.map (strOf r)

/-- Batches of at most `n` rows. -/
def chunks {A : Type} (n : Nat) : Nat → List A → List (List A)
  | _, [] => []
  | 0, l => [l]
  | f + 1, l => l.take n :: chunks n f (l.drop n)

/-- What a scan gives: for each series the rows that meet the filter. -/
def scan (p : Row → Bool) (rows : List Row) : List (List Row) :=
  ((rows.filter p).map series).eraseDups.flatMap fun k =>
    let l := (rows.filter p).filter fun r => decide (series r = k)
    chunks 4096 l.length l

/-- Batches read as spans: the first row of every batch (`(0..len).next()`, http_service.rs:2042-2050), or an error. -/
def heads (cs : List Col) : List (List Row) → Option (List JSpan)
  | [] => some []
  | [] :: bs => heads cs bs
  | (r :: _) :: bs => match toSpan cs r, heads cs bs with
    | some j, some js => some (j :: js)
    | _, _ => none

/-- `get_trace_inner` (http_service.rs:1985-2058): the spans of the trace. -/
def getTrace (cs : List Col) (rows : List Row) (id : Str) : Option (List JSpan) :=
  heads cs (scan (fun r => decide (strOf r traceCol = id)) rows)

/-- A trace that was found: its spans with the ids of their processes, and the processes. -/
structure Trace where
  id : Str
  spans : List (JSpan × Str)
  processes : AMap Str Process

/-- A span put into the traces (http_service.rs:1920-1945). -/
def addSpan (ts : List Trace) (j : JSpan) : List Trace :=
  if ts.any fun t => decide (t.id = j.trace) then
    ts.map fun t =>
      if t.id = j.trace then
        let pid := 'p' :: dec t.spans.length
        { t with spans := t.spans ++ [(j, pid)], processes := t.processes.set pid j.process }
      else t
  else ts ++ [⟨j.trace, [(j, ['p', '1'])], (AMap.empty : AMap Str Process).set ['p', '1'] j.process⟩]

/-- The traces made of spans (http_service.rs:1902-1948), those of `heads`. -/
def traces (js : List JSpan) : List Trace := js.foldl addSpan []

/-! ## What is searched for -/

/-- `leading_int` (otlp_to_jaeger.rs:834-847): sums wrap. -/
def leadingInt : Nat → Str → Nat × Str
  | v, [] => (v, [])
  | v, c :: s => if c.isDigit then leadingInt ((v * 10 + (c.toNat - 48)) % 2 ^ 64) s else (v, c :: s)

/-- `unit_map` (otlp_to_jaeger.rs:865-875). -/
def unitOf (u : Str) : Option Nat :=
  if u = "ns".toList then some 1
  else if u = "us".toList then some 1000
  else if u = "µs".toList then some 1000
  else if u = "ms".toList then some 1000000
  else if u = "s".toList then some 1000000000
  else if u = "m".toList then some 60000000000
  else if u = "h".toList then some 3600000000000
  else none

/-- Does a unit end here (otlp_to_jaeger.rs:767-769)? -/
def unitEnd (c : Char) : Bool := c == '.' || c.isDigit

/-- The sum of a number with its unit (otlp_to_jaeger.rs:790-812). -/
def withUnit (frac : Nat → Nat → Nat → Nat) (v f digits unit : Nat) : Option Nat :=
  if v > 2 ^ 63 / unit then none
  else if f > 0 then
    let w := (v * unit + frac f digits unit) % 2 ^ 64
    if w > 2 ^ 63 then none else some w
  else some (v * unit)

/-- The loop of `parse_duration` (otlp_to_jaeger.rs:725-820); `fuel` bounds the number of rounds by the length of the text. -/
def durLoop (frac : Nat → Nat → Nat → Nat) : Nat → Nat → Str → Option Nat
  | _, d, [] => some d
  | 0, _, _ :: _ => none
  | fuel + 1, d, c :: s0 =>
    if unitEnd c then
      let (v, s1) := leadingInt 0 (c :: s0)
      let pre := c.isDigit
      let (f, digits, s2) := match s1 with
        | '.' :: s1 => let (f, s2) := leadingInt 0 s1; (f, s1.length - s2.length, s2)
        | _ => (0, 0, s1)
      if !pre && digits == 0 then none
      else
        let u := s2.takeWhile fun c => !unitEnd c
        let s3 := s2.dropWhile fun c => !unitEnd c
        if u.isEmpty then none
        else match unitOf u with
          | none => none
          | some unit => match withUnit frac v f digits unit with
            | none => none
            | some w =>
              let d := (d + w) % 2 ^ 64
              if d > 2 ^ 63 then none else durLoop frac fuel d s3
    else none

/-- The end of `parse_duration` (otlp_to_jaeger.rs:709-733, 822-831) after the sign. -/
def durBody (frac : Nat → Nat → Nat → Nat) (neg : Bool) (s : Str) : Option Nat :=
  if s = ['0'] then some 0
  else if s.isEmpty then none
  else match durLoop frac s.length 0 s with
    | none => none
    | some d => if neg then some ((2 ^ 64 - d) % 2 ^ 64) else if d > 2 ^ 62 then none else some d

/-- `parse_duration` (otlp_to_jaeger.rs:703-832). -/
def parseDuration (frac : Nat → Nat → Nat → Nat) : Str → Option Nat
  | '-' :: s => durBody frac true s
  | '+' :: s => durBody frac false s
  | s => durBody frac false s

/-- The parameter `tag` (otlp_to_jaeger.rs:195-203): the attributes asked for; pieces without exactly one colon are passed over. -/
def tagMap (s : Str) : AMap Str Str :=
  (splitOn ',' s).foldl (fun m item => match splitOn ':' item with
    | [k, v] => m.set k v
    | _ => m) AMap.empty

/-- The parameter `tags` (otlp_to_jaeger.rs:204-211): pieces read as JSON objects of texts (`obj`); `none` is the panic of
`unwrap`. -/
def tagsMap (obj : Str → Option (List (Str × Str))) (m : AMap Str Str) (s : Str) : Option (AMap Str Str) :=
  (splitOn ',' s).foldl (fun m item => match m, obj item with
    | some m, some l => some (l.foldl (fun m e => m.set e.1 e.2) m)
    | _, _ => none) (some m)

/-- The parameters of a search (`FindTracesParam`); durations are parsed. -/
structure Find where
  service : Option Str
  operation : Option Str
  start : Option Int
  stop : Option Int
  tags : AMap Str Str
  min : Option Nat
  max : Option Nat

/-- Is the cell the given text?  A null is not. -/
def isText (r : Row) (c v : Str) : Bool := r.cells.get c == some (.str v)

/-- The filter of a search (otlp_to_jaeger.rs:148-250): what the expression gives for a row.  Both sides of a comparison of numbers
are doubles. -/
def Find.holds (q : Find) (r : Row) : Bool :=
  (match q.service with
    | some s => s.isEmpty || isText r serviceCol s
    | none => true) &&
  (match q.operation with
    | some s => s.isEmpty || isText r opCol s
    | none => true) &&
  (match q.start with
    | some t => decide (wrap64 (t * 1000) ≤ r.time)
    | none => true) &&
  (match q.stop with
    | some t => match r.cells.get (key spanPrefix "end_time_unix_nano") with
      | some (.num n) => decide (Repair.f64OfInt n ≤ Repair.f64OfInt (wrap64 (t * 1000)))
      | _ => false
    | none => true) &&
  (q.tags.entries.all fun e => isText r (spanAttrs ++ e.1) e.2) &&
  (match q.min with
    | some d => match r.cells.get durationCol with
      | some (.num n) => decide ((Repair.f64OfNat d : Int) ≤ Repair.f64OfInt n)
      | _ => false
    | none => true) &&
  (match q.max with
    | some d => match r.cells.get durationCol with
      | some (.num n) => decide (Repair.f64OfInt n ≤ (Repair.f64OfNat d : Int))
      | _ => false
    | none => true)

/-- A search for traces. -/
def find (cs : List Col) (rows : List Row) (q : Find) : Option (List Trace) := (heads cs (scan q.holds rows)).map traces

/-! ## A table -/

/-- The row of a record: the column `time` is `start_time_unix_nano` (http_service.rs:1737). -/
def rowOf (m : Rec) : Row :=
  match m.get (key spanPrefix "start_time_unix_nano") with
  | some (.num n) => ⟨n, m⟩
  | _ => ⟨0, m⟩

/-- Is a value a number? -/
def Leaf.isNum : Leaf → Bool
  | .num _ => true
  | .str _ => false

/-- The columns that a request adds to a table: those not yet there, in the order of their names (lines_convert.rs:202-207).  The time
column is not among them. -/
def addCols (cs : List Col) (ms : List Rec) : List Col :=
  (Sort.sortBy (fun a b => strLe a.1 b.1) (ms.flatMap (·.entries))).foldl (fun cs e =>
    if e.1 = key spanPrefix "start_time_unix_nano" ∨ e.1 ∈ cs.map (·.name) then cs else cs ++ [⟨e.1, Leaf.isNum e.2⟩]) cs

/-- The columns and the rows of a table to which requests were written. -/
def tableOf (rs : List ResourceSpans) : List Col × List Row :=
  (rs.foldl (fun cs r => addCols cs (otlpRecs [r])) [], (otlpRecs rs).map rowOf)

end Verif.Jaeger
