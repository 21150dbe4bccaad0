import Verif.Ingest.Tcp
/-!
# Model: the OpenTSDB text protocol over HTTP

* `common/protocol_parser/src/open_tsdb/parser.rs:20-108` — the lines of a request
* `common/protocol_parser/src/lib.rs:128-280` — the metric, a number, a set of tags

Simplifications as in `Verif.Ingest.Tcp`: texts are ASCII, so the number of a character is its place in the text and
`char::is_alphanumeric`, `char::is_numeric` are letters and digits.
-/
namespace Verif.Ingest
variable {F : Type}

/-- `&buf[b..e]`. -/
def slice (s : Str) (b e : Nat) : Except Err Str :=
  if b ≤ e ∧ e ≤ s.length then .ok ((s.take e).drop b) else .error .panic

/-- The loop of `next_metric` (lib.rs:142-168): where the metric begins and ends.  `escaped` is never looked at. -/
def metricLoop : Str → Nat → Option Nat → Option Nat × Option Nat
  | [], _, b => (b, none)
  | c :: s, i, b =>
    if c = '\\' then metricLoop s (i + 1) (b.or (some i))
    else match b with
      | some b => if c = ' ' then (some b, some i) else metricLoop s (i + 1) (some b)
      | none => metricLoop s (i + 1) (if c.isAlphanum then some i else none)

/-- `next_metric` (lib.rs:137-174). -/
def nextMetric (buf : Str) : Except Err (Option (Str × Nat)) :=
  match metricLoop buf 0 none with
  | (none, _) => .ok none
  | (some b, e) =>
    let e := e.getD buf.length
    (slice buf b e).map fun m => some (m, e + 1)

/-- The loop of `next_value` (lib.rs:256-270). -/
def valueLoop : Str → Nat → Option Nat → Option Nat × Option Nat
  | [], _, b => (b, none)
  | c :: s, i, b =>
    match b with
    | some b => if !c.isDigit then (some b, some i) else valueLoop s (i + 1) (some b)
    | none => valueLoop s (i + 1) (if c == '-' || c.isDigit then some i else none)

/-- `next_value` (lib.rs:252-277). -/
def nextValue (buf : Str) : Except Err (Option (Str × Nat)) :=
  match valueLoop buf 0 none with
  | (none, _) => .ok none
  | (some b, e) =>
    let e := e.getD buf.length
    (slice buf b e).map fun m => some (m, e + 1)

/-- `is_tagset_character` (lib.rs:176-178). -/
def isTagChar (c : Char) : Bool := c.isAlphanum || c == '\\'

/-- The state of `next_tag_set` (lib.rs:181-188): the three `tok_offsets` and the tags so far. -/
structure TagState where
  escaped : Bool
  found : Bool
  o0 : Nat
  o1 : Nat
  o2 : Nat
  tags : List (Str × Str)

/-- The end of the loop of `next_tag_set`: `Ok(None)`, or where the set ends (if a space was found). -/
inductive TagEnd where
  | nothing
  | at (st : TagState) (e : Option Nat)

/-- The loop of `next_tag_set` (lib.rs:189-232). -/
def tagLoop (buf : Str) : Str → Nat → TagState → Except Err TagEnd
  | [], _, st => .ok (.at st none)
  | c :: s, i, st =>
    if !st.escaped && c == '\\' then
      tagLoop buf s (i + 1) { st with escaped := true, found := true, o0 := if st.found then st.o0 else i }
    else if st.found then
      if !st.escaped && c == '=' then
        if buf.length ≤ i + 1 then .ok .nothing
        else tagLoop buf s (i + 1) { st with o1 := i, o2 := i + 1, escaped := false }
      else if !st.escaped && c == ',' then
        match slice buf st.o0 st.o1, slice buf st.o2 i with
        | .ok k, .ok v =>
          if buf.length ≤ i + 1 then .ok .nothing
          else tagLoop buf s (i + 1) { st with o0 := i + 1, tags := st.tags ++ [(k, v)], escaped := false }
        | _, _ => .error .panic
      else if !st.escaped && c == ' ' then .ok (.at st (some i))
      else tagLoop buf s (i + 1) { st with escaped := false }
    else if isTagChar c then tagLoop buf s (i + 1) { st with found := true, o0 := i, escaped := false }
    else tagLoop buf s (i + 1) { st with escaped := false }

/-- `next_tag_set` (lib.rs:180-250).  A space is never the first character of a set, so `tok_end == 0` says that none was
found. -/
def nextTagSet (buf : Str) : Except Err (Option (List (Str × Str) × Nat)) :=
  match tagLoop buf buf 0 ⟨false, false, 0, 0, 0, []⟩ with
  | .error e => .error e
  | .ok .nothing => .ok none
  | .ok (.at st e) =>
    if st.found then
      let e := e.getD (if buf.getLast? = some '\n' then buf.length - 1 else buf.length)
      if st.o0 = st.o1 then .error .error
      else match slice buf st.o0 st.o1, slice buf st.o2 e with
        | .ok k, .ok v => .ok (some (st.tags ++ [(k, v)], e + 1))
        | _, _ => .error .panic
    else .ok none

/-- The loop over the sets of tags (open_tsdb/parser.rs:86-93): the tags, and the position behind them.  A set takes at least
one character; the loop stops at the end of the text. -/
def tagSets (buf : Str) (pos : Nat) : Except Err (List (Str × Str) × Nat) :=
  match nextTagSet (buf.drop pos) with
  | .error e => .error e
  | .ok none => .ok ([], pos)
  | .ok (some (ts, n)) =>
    if h : pos + n < buf.length ∧ 0 < n then
      match tagSets buf (pos + n) with
      | .error e => .error e
      | .ok (r, p) => .ok (ts ++ r, p)
    else .ok (ts, pos + n)
termination_by buf.length - pos
decreasing_by omega

/-- `next_line` (open_tsdb/parser.rs:31-108) behind the metric. -/
def afterMetric (pf : Str → Option F) (now : Int) (buf : Str) (m : Str) (pos : Nat) : Except Err (Pt F × Nat) :=
  if ¬ pos < buf.length then .error .error
  else match nextValue (buf.drop pos) with
    | .error e => .error e
    | .ok t =>
      match (match t with | none => some now | some x => parseI64 x.1) with
      | none => .error .error
      | some ts =>
        let pos := match t with | none => pos | some x => pos + x.2
        if ¬ pos < buf.length then .error .error
        else match nextValue (buf.drop pos) with
          | .error e => .error e
          | .ok none => .error .error
          | .ok (some (v, n)) =>
            match pf v with
            | none => .error .error
            | some v =>
              if ¬ pos + n < buf.length then .error .error
              else match tagSets buf (pos + n) with
                | .error e => .error e
                | .ok (tags, p) => .ok (⟨m, tags, v, ts⟩, p)

/-- `next_line` (open_tsdb/parser.rs:31-108); the second component is the position behind the line. -/
def nextLine (pf : Str → Option F) (now : Int) (buf : Str) (pos : Nat) : Except Err (Option (Pt F × Nat)) :=
  if pos > buf.length then .ok none
  else match nextMetric (buf.drop pos) with
    | .error e => .error e
    | .ok none => .ok none
    | .ok (some (m, n)) =>
      match afterMetric pf now buf m (pos + n) with
      | .error e => .error e
      | .ok r => .ok (some r)

/-- `Parser::parse` (open_tsdb/parser.rs:20-29).  A line takes at least one character. -/
def parseFrom (pf : Str → Option F) (now : Int) (buf : Str) (pos : Nat) : Except Err (List (Pt F)) :=
  match nextLine pf now buf pos with
  | .error e => .error e
  | .ok none => .ok []
  | .ok (some (p, q)) =>
    if h : pos ≤ buf.length ∧ pos < q then
      match parseFrom pf now buf q with
      | .error e => .error e
      | .ok r => .ok (p.norm :: r)
    else .ok [p.norm]
termination_by buf.length + 1 - pos
decreasing_by omega

/-- `open_tsdb_to_lines`: the points of a request; `now` is the time of a point without one. -/
def parseText (pf : Str → Option F) (now : Int) (buf : Str) : Except Err (List (Pt F)) := parseFrom pf now buf 0

end Verif.Ingest
