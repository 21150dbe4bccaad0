import Verif.Common.AMap
import Verif.Ingest.Tcp
import Verif.Raft.StoreProps
/-!
# Model: records made of OTLP traces and of Loki pushes

* `common/protocol_parser/src/json_protocol/parser.rs:216-480` — `parse_protobuf_to_otlptrace`
* `common/protocol_parser/src/json_protocol/parser.rs:174-214` — `parse_protobuf_to_lokilog`

Simplifications: the decoded messages are the input; ids are given as the hexadecimal text that the code makes of them, the
kind and the status code as their names; a value of an attribute that is not a string is given as the text that the code makes
of it.
-/
namespace Verif.Ingest
open Verif.Raft (dec)

/-- A value of a record (`serde_json::Value`): a string or a number. -/
inductive Leaf where
  | str (s : Str)
  | num (n : Int)
deriving DecidableEq

/-- A record: `BTreeMap<String, serde_json::Value>`. -/
abbrev Rec := AMap Str Leaf

/-- `AnyValue.value`: a string, another value as text, or nothing (the empty text). -/
inductive AnyVal where
  | str (s : Str)
  | other (s : Str)
  | unset
deriving DecidableEq

/-- The text of an attribute (parser.rs:243-250 and the same elsewhere). -/
def AnyVal.text : AnyVal → Str
  | .str s => s
  | .other s => s
  | .unset => []

/-- `KeyValue`. -/
structure Attr where
  key : Str
  val : Option AnyVal

structure Event where
  time : Nat
  name : Str
  attrs : List Attr
  dropped : Nat

structure Link where
  trace : Str
  span : Str
  state : Str
  attrs : List Attr
  dropped : Nat
  flags : Nat

structure Status where
  code : Str
  message : Str

structure Span where
  trace : Str
  span : Str
  state : Str
  parent : Str
  flags : Nat
  name : Str
  kind : Str
  start : Nat
  stop : Nat
  attrs : List Attr
  dropped : Nat
  events : List Event
  droppedEvents : Nat
  links : List Link
  droppedLinks : Nat
  status : Option Status

structure Scope where
  name : Str
  version : Str
  attrs : List Attr
  dropped : Nat

structure ScopeSpans where
  scope : Option Scope
  schema : Str
  spans : List Span

structure Resource where
  attrs : List Attr
  dropped : Nat

structure ResourceSpans where
  resource : Option Resource
  schema : Str
  scopes : List ScopeSpans

/-- What is inserted into a record, in order. -/
abbrev Items := List (Str × Leaf)

/-- A key: the prefixes and the name. -/
def key (p : Str) (name : String) : Str := p ++ name.toList

/-- Attributes (parser.rs:285-303, 357-374, 391-408, 440-457): those with a value. -/
def attrItems (p : Str) (l : List Attr) : Items :=
  l.filterMap fun a => a.val.map fun v => (key p "attributes/" ++ a.key, Leaf.str v.text)

def resPrefix : Str := "ResourceSpans/".toList
def scopePrefix : Str := resPrefix ++ "ScopeSpans/".toList
def spanPrefix : Str := scopePrefix ++ "Span/".toList

/-- The attributes of a resource (parser.rs:231-258): `service.name` only if it is a string. -/
def resAttrItems (p : Str) (l : List Attr) : Items :=
  l.filterMap fun a =>
    if a.key = "service.name".toList then
      match a.val with
      | some (.str s) => some (key p "attributes/" ++ a.key, Leaf.str s)
      | _ => none
    else a.val.map fun v => (key p "attributes/" ++ a.key, Leaf.str v.text)

/-- What a resource inserts (parser.rs:229-268). -/
def resItems (r : ResourceSpans) : Items :=
  (match r.resource with
    | none => []
    | some x =>
      let p := resPrefix ++ "Resource/".toList
      resAttrItems p x.attrs ++ [(key p "dropped_attributes_count", .num x.dropped)]) ++
  [(key resPrefix "schema_url", .str r.schema)]

/-- What a scope inserts (parser.rs:270-312). -/
def scopeItems (s : ScopeSpans) : Items :=
  (match s.scope with
    | none => []
    | some x =>
      let p := scopePrefix ++ "InstrumentationScope/".toList
      [(key p "name", .str x.name), (key p "version", .str x.version)] ++ attrItems p x.attrs ++
        [(key p "dropped_attributes_count", .num x.dropped)]) ++
  [(key scopePrefix "schema_url", .str s.schema)]

/-- What an event inserts (parser.rs:379-415). -/
def eventItems (i : Nat) (e : Event) : Items :=
  let p := spanPrefix ++ "Event_".toList ++ dec i ++ ['/']
  [(key p "time_unix_nano", .num e.time), (key p "name", .str e.name)] ++ attrItems p e.attrs ++
    [(key p "dropped_attributes_count", .num e.dropped)]

/-- What a link inserts (parser.rs:420-468). -/
def linkItems (i : Nat) (l : Link) : Items :=
  let p := spanPrefix ++ "Link_".toList ++ dec i ++ ['/']
  [(key p "trace_id", .str l.trace), (key p "span_id", .str l.span), (key p "trace_state", .str l.state)] ++ attrItems p l.attrs ++
    [(key p "dropped_attributes_count", .num l.dropped), (key p "flags", .num l.flags)]

/-- Numbered items. -/
def numbered {A : Type} (f : Nat → A → Items) : Nat → List A → Items
  | _, [] => []
  | i, a :: l => f i a ++ numbered f (i + 1) l

/-- What the status inserts (parser.rs:473-484). -/
def statusItems : Option Status → Items
  | none => []
  | some s =>
    let p := spanPrefix ++ "Status/".toList
    [(key p "code", .str s.code), (key p "message", .str s.message)]

/-- What a span inserts (parser.rs:313-489).  The duration is a difference of `u64` that wraps. -/
def spanItems (s : Span) : Items :=
  let p := spanPrefix
  [(key p "trace_id", .str s.trace), (key p "span_id", .str s.span), (key p "trace_state", .str s.state),
    (key p "parent_span_id", .str s.parent), (key p "flags", .num s.flags), (key p "name", .str s.name),
    (key p "kind", .str s.kind), (key p "start_time_unix_nano", .num s.start), (key p "end_time_unix_nano", .num s.stop)] ++
  attrItems p s.attrs ++ [(key p "dropped_attributes_count", .num s.dropped)] ++
  numbered eventItems 0 s.events ++ [(key p "dropped_events_count", .num s.droppedEvents)] ++
  numbered linkItems 0 s.links ++ [(key p "dropped_links_count", .num s.droppedLinks)] ++
  statusItems s.status ++ [(key p "duration_nano", .num ((2 ^ 64 + s.stop - s.start) % 2 ^ 64 : Nat))]

/-- `fields.insert` of many. -/
def insertAll (m : Rec) (l : Items) : Rec := l.foldl (fun m e => m.set e.1 e.2) m

/-- The loop over the spans of a scope (parser.rs:313-491): the records, and `fields` as it is left. -/
def spanRecs : List Span → Rec → List Rec × Rec
  | [], f => ([], f)
  | s :: ss, f =>
    let f := insertAll f (spanItems s)
    let (rs, g) := spanRecs ss f
    (f :: rs, g)

/-- The loop over the scopes of a resource (parser.rs:269-493). -/
def scopeRecs : List ScopeSpans → Rec → List Rec
  | [], _ => []
  | s :: ss, f =>
    let (rs, f) := spanRecs s.spans (insertAll f (scopeItems s))
    rs ++ scopeRecs ss f

/-- `parse_protobuf_to_otlptrace` (parser.rs:216-500): `fields` is cleared for every resource. -/
def otlpRecs (rs : List ResourceSpans) : List Rec := rs.flatMap fun r => scopeRecs r.scopes (insertAll .empty (resItems r))

/-! ## Loki -/

/-- `i64` arithmetic without overflow checks. -/
def wrap64 (n : Int) : Int := (n + 9223372036854775808) % 18446744073709551616 - 9223372036854775808

/-- An entry of a stream; no timestamp is time 0. -/
structure Entry where
  seconds : Int
  nanos : Int
  line : Str

structure LokiStream where
  labels : Str
  entries : List Entry

/-- The time of an entry (parser.rs:201-202). -/
def Entry.time (e : Entry) : Int := wrap64 (e.seconds * 1000000000 + e.nanos)

/-- The loop over the entries of a stream (parser.rs:200-210). -/
def entryRecs : List Entry → Rec → List Rec
  | [], _ => []
  | e :: es, f =>
    let f := (f.set "time".toList (.num e.time)).set "msg".toList (.str e.line)
    f :: entryRecs es f

/-- `parse_protobuf_to_lokilog` (parser.rs:174-214). -/
def lokiRecs (l : List LokiStream) : List Rec :=
  l.flatMap fun s => entryRecs s.entries ((AMap.empty : Rec).set "lables".toList (.str s.labels))

end Verif.Ingest
