import Verif.Ingest.TcpProps
import Verif.Ingest.TsdbProps
import Verif.Ingest.OtlpProps
import Verif.Ingest.JsonProps
import Verif.Ingest.PromProps
/-!
# What the other protocols for writes get wrong, and examples for what they get right
-/
namespace Verif.Ingest

/-- Results can be compared. -/
instance decExcept {E A : Type} [DecidableEq E] [DecidableEq A] : DecidableEq (Except E A)
  | .ok a, .ok b => if h : a = b then .isTrue (by rw [h]) else .isFalse (by simpa using h)
  | .error a, .error b => if h : a = b then .isTrue (by rw [h]) else .isFalse (by simpa using h)
  | .ok _, .error _ => .isFalse (by simp)
  | .error _, .ok _ => .isFalse (by simp)

/-! ## OpenTSDB over TCP -/

/-- Numbers for the examples: a text of digits, dots and signs stands for itself. -/
def num (s : Str) : Option Str := if s.any Char.isDigit && s.all (fun c => c.isDigit || c == '.' || c == '-') then some s else none

def tcpLine : Str := "put m 1000000000001 15 a=b".toList
def tcpCut1 : Str := "put m 1000000000001 1".toList
def tcpCut2 : Str := "5 a=b\r\n".toList

/-- Property C129 does not hold: the line `put m 1000000000001 15 a=b`, read in two pieces, is written with the value 1 and
without its tag, and the task of the connection panics. -/
theorem C129_cut_refuted : tcpCut1 ++ tcpCut2 = stream [tcpLine] ∧
    (Conn.new.run num [stream [tcpLine]] = ⟨[], [⟨"m".toList, [("a".toList, "b".toList)], "15".toList, 1000000000001⟩], .alive⟩) ∧
    (Conn.new.run num [tcpCut1, tcpCut2]).out = [⟨"m".toList, [], "1".toList, 1000000000001⟩] ∧
    (Conn.new.run num [tcpCut1, tcpCut2]).task = .panicked := by
  decide +kernel

def tcpBlank : Str := "\r\n\r\nput m 1000000000001 1\r\n".toList
def tcpNext : Str := "put m 1000000000002 2\r\n".toList

/-- Property C129 does not hold: empty lines are skipped but not counted.  After two of them four characters of the point before
are left in the buffer, ` 1\r\n`, and no later point is written. -/
theorem C129_blank_refuted :
    (Conn.new.run num [tcpBlank, tcpNext]).out = [⟨"m".toList, [], "1".toList, 1000000000001⟩] ∧
    (Conn.new.run num [tcpBlank, tcpNext]).buf = " 1\r\nput m 1000000000002 2\r\n".toList := by
  decide +kernel

/-- Property C131 does not hold: seconds, milliseconds and nanoseconds of the same instant (1 700 000 000 s, the year 2023) are all
given to the coordinator as 1 700 000 000 000 nanoseconds, which is 28 minutes after the beginning of 1970. -/
theorem C131_instant_refuted : fixTime 1700000000 = some 1700000000000 ∧ fixTime 1700000000000 = some 1700000000000 ∧
    fixTime 1700000000000000000 = some 1700000000000 ∧ (1700000000000 : Int) / 1000000000 / 60 = 28 := by
  decide +kernel

/-- Property C131 does not hold: a later point may land before an earlier one, two points at different times at the same, and a
point with the time 0 keeps its task busy for ever, whatever number of turns the loop takes. -/
theorem C131_order_refuted : (fixTime 9 = some 9000000000000 ∧ fixTime 10 = some 1000000000000) ∧
    (fixTime 17000000000001 = some 1700000000000 ∧ fixTime 17000000000002 = some 1700000000000) ∧ ∀ n, fixTimeIn n 0 = none := by
  refine ⟨by decide +kernel, by decide +kernel, fun n => ?_⟩
  have h : ∀ n, up n 0 = none := by
    intro n
    induction n with
    | zero => decide
    | succ n ih => rw [up, if_pos (by decide)]; exact ih
  cases n with
  | zero => decide
  | succ n => rw [fixTimeIn, down, if_neg (by decide), Option.bind_some]; exact h _

/-- Whole lines, in two reads: the hypotheses of `C129_tcp_partial`. -/
example : Goods num [tcpLine, "put m 1000000000002 7 a=c".toList]
    [⟨"m".toList, [("a".toList, "b".toList)], "15".toList, 1000000000001⟩, ⟨"m".toList, [("a".toList, "c".toList)], "7".toList, 1000000000002⟩] :=
  .cons ⟨by decide, by decide +kernel, _, rfl, by decide +kernel⟩ (.cons ⟨by decide, by decide +kernel, _, rfl, by decide +kernel⟩ .nil)

/-- A read may end within a line where the piece is refused. -/
example : (Conn.new.run num ["put m 1000".toList, "000000001 15 a=b\r\n".toList]).out =
    [⟨"m".toList, [("a".toList, "b".toList)], "15".toList, 1000000000001⟩] := by decide +kernel

/-- A line that is refused blocks the connection (`C130_bad_line_blocks`). -/
example : Conn.new.run num ["get x\r\n".toList, tcpNext, tcpNext] = ⟨"get x\r\n".toList ++ tcpNext ++ tcpNext, [], .alive⟩ := by
  decide +kernel

example : fixTime 42 = some 4200000000000 := by decide +kernel

/-! ## OpenTSDB over HTTP -/

def tsdb1 : Str := "m 1 15 a=b".toList
def tsdbFraction : Str := "m 1 1.5 a=b".toList
def tsdb2 : Str := "m 1 15 a=b\nm 2 2 c=d".toList
def tsdbPanic : Str := "m 1 15 a=b,c".toList
def tsdbMisread : Str := "m 5 a=b1 c=d".toList

/-- Property C132 does not hold: a value that is not an integer is refused. -/
theorem C132_fraction_refuted : parseText num 0 tsdb1 = .ok [⟨"m".toList, [("a".toList, "b".toList)], "15".toList, 1⟩] ∧
    parseText num 0 tsdbFraction = .error .error ∧ num "1.5".toList = some "1.5".toList := by
  decide +kernel

/-- Property C132 does not hold: a request of two points is refused. -/
theorem C132_lines_refuted : parseText num 0 tsdb2 = .error .error ∧
    parseText num 0 "m 2 2 c=d".toList = .ok [⟨"m".toList, [("c".toList, "d".toList)], "2".toList, 2⟩] := by
  decide +kernel

/-- Property C132 does not hold: a request of a user makes the parser panic. -/
theorem C132_panic_refuted : parseText num 0 tsdbPanic = .error .panic := by
  decide +kernel

/-- Property C132 does not hold: a text without a value is read as one with the value 1. -/
theorem C132_misread_refuted : parseText num 0 tsdbMisread = .ok [⟨"m".toList, [("c".toList, "d".toList)], "1".toList, 5⟩] := by
  decide +kernel

/-- The hypotheses of `C132_line_partial`. -/
example : TagOk ("host".toList, "a-1".toList) ∧ IntText "-15".toList ∧ LineEnd ['\n'] ∧
    parseText num 0 (lineText "cpu".toList "1".toList "-15".toList [[("host".toList, "a-1".toList), ("x".toList, "y".toList)], [("b".toList, "c".toList)]] ++ ['\n']) =
      .ok [⟨"cpu".toList, [("b".toList, "c".toList), ("host".toList, "a-1".toList), ("x".toList, "y".toList)], "-15".toList, 1⟩] := by
  refine ⟨⟨by unfold Plain; decide, ⟨_, _, rfl, by decide⟩, by unfold Plain; decide, by decide⟩, ⟨_, _, rfl, by decide, by decide⟩, ?_, by decide +kernel⟩
  simp [LineEnd]

/-! ## OpenTelemetry and Loki -/

/-- A span with a name and attributes. -/
def span (name : String) (attrs : List Attr) : Span :=
  ⟨[], [], [], [], 0, name.toList, [], 0, 0, attrs, 0, [], 0, [], 0, none⟩

/-- Two spans; only the first has the attribute `error`. -/
def twoSpans : ResourceSpans := ⟨none, [], [⟨none, [], [span "a" [⟨"error".toList, some (.str "yes".toList)⟩], span "b" []]⟩]⟩

def errorKey : Str := spanPrefix ++ "attributes/error".toList
def nameKey : Str := spanPrefix ++ "name".toList

/-- Property C133 does not hold: the record of the second span has the attribute of the first. -/
theorem C133_leak_refuted : (otlpRecs [twoSpans]).map (fun m => (m.get nameKey, m.get errorKey)) =
    [(some (.str "a".toList), some (.str "yes".toList)), (some (.str "b".toList), some (.str "yes".toList))] ∧
    lastOf (own twoSpans ⟨none, [], [span "a" [⟨"error".toList, some (.str "yes".toList)⟩], span "b" []]⟩ (span "b" [])) errorKey = none := by
  decide +kernel

/-- The record of a Loki entry. -/
example : (lokiRecs [⟨"{a=\"b\"}".toList, [⟨1, 5, "x".toList⟩, ⟨2, 0, "y".toList⟩]⟩]).map (fun m => (m.get "time".toList, m.get "msg".toList)) =
    [(some (.num 1000000005), some (.str "x".toList)), (some (.num 2000000000), some (.str "y".toList))] := by
  decide +kernel

/-! ## JSON -/

def jsonDots : Json Nat := .obj [("a".toList, .obj [("b".toList, .num 1)]), ("a.b".toList, .num 2)]
def jsonEmptyKey : Json Nat := .obj [([], .obj [("a".toList, .num 1)]), ("a".toList, .num 2)]
def jsonNested : Json Nat := .obj [("a".toList, .obj [("b".toList, .num 1)]), ("c".toList, .arr [.str "x".toList, .null])]

/-- Property C135 does not hold: a key with a dot and a nested key are one column; one of the values is lost. -/
theorem C135_dots_refuted : (flatten [] jsonDots).entries = [("a.b".toList, .num 2)] ∧
    leaves jsonDots = [(["a".toList, "b".toList], .num 1), (["a.b".toList], .num 2)] := by
  decide +kernel

/-- Property C135 does not hold: an empty key disappears from the path; one of the values is lost. -/
theorem C135_empty_key_refuted : (flatten [] jsonEmptyKey).entries = [("a".toList, .num 2)] ∧
    leaves jsonEmptyKey = [([[], "a".toList], .num 1), (["a".toList], .num 2)] := by
  decide +kernel

/-- The hypotheses of `C135_flatten_partial`. -/
example : jsonNested.Ok := by
  refine .obj _ (by decide) ?_ ?_
  · intro e he
    simp only [List.mem_cons, List.not_mem_nil, or_false] at he
    rcases he with rfl | rfl <;> exact ⟨by decide, by decide⟩
  · intro e he
    simp only [List.mem_cons, List.not_mem_nil, or_false] at he
    rcases he with rfl | rfl
    · refine .obj _ (by decide) ?_ ?_
      · intro e he
        simp only [List.mem_cons, List.not_mem_nil, or_false] at he
        subst he; exact ⟨by decide, by decide⟩
      · intro e he
        simp only [List.mem_cons, List.not_mem_nil, or_false] at he
        subst he; exact .num _
    · refine .arr _ fun v hv => ?_
      simp only [List.mem_cons, List.not_mem_nil, or_false] at hv
      rcases hv with rfl | rfl
      · exact .str _
      · exact .null

example : (flatten [] jsonNested).get "a.b".toList = some (.num 1) ∧ (flatten [] jsonNested).get "c.0".toList = some (.str "x".toList) := by
  decide +kernel

def jsonCtx : LineCtx Nat := ⟨"t".toList, "time".toList, ["host".toList], 99, dec, fun n => some n, fun _ => none⟩
where dec := Verif.Raft.dec

/-- A line with a tag, a field and a time (`C136_line`). -/
example : toLine jsonCtx (flatten [] (.obj [("host".toList, .str "h".toList), ("v".toList, .num 5), ("time".toList, .num 7)])) =
    .ok ⟨"t".toList, [("host".toList, "h".toList)], [("v".toList, .float 5)], 7⟩ := by
  decide +kernel

/-- A document with a null among its fields, and with it the whole request, is refused. -/
example : (match toLines jsonCtx [flatten [] (.obj [("v".toList, .num 5)]), flatten [] (.obj [("v".toList, .null)])] with
    | .ok _ => true
    | .error _ => false) = false := by
  decide +kernel

/-- Property C137 does not hold: a tag is stored with the escapes of JSON, and without the quotes at its ends. -/
theorem C137_tag_refuted : tagValue jsonCtx.text (.str "a\"b".toList) = "a\\\"b".toList ∧
    tagValue jsonCtx.text (.str "C:\\x".toList) = "C:\\\\x".toList ∧ tagValue jsonCtx.text (.str "x\"".toList) = "x\\".toList := by
  decide +kernel

/-- Property C137 does not hold: null, a number and the texts of these are the same tag, so they name the same series. -/
theorem C137_kind_refuted : tagValue jsonCtx.text .null = tagValue jsonCtx.text (.str "null".toList) ∧
    tagValue jsonCtx.text (.num 5) = tagValue jsonCtx.text (.str "5".toList) := by
  decide +kernel

example : tagValue jsonCtx.text (.str "eu west-1 é".toList) = "eu west-1 é".toList := C137_tag_partial (by decide)

/-! ## Prometheus -/
namespace Prom

/-- Property C138 does not hold: a time of a few centuries from now is stored as another, and the range of a read that is open at
its end (the largest number of milliseconds) ends before 1970. -/
theorem C138_time_refuted : toNs 9223372036855 = -9223372036854551616 ∧ (toNs 9223372036854775807).tdiv 1000000 = -1 := by
  decide +kernel

/-- The hypotheses of `C138_time_partial`. -/
example : (toNs 1700000000123).tdiv 1000000 = 1700000000123 := (C138_time_partial (by decide) (by decide)).2

example : toLines [⟨[⟨metricName, "up".toList⟩, ⟨"job".toList, "a".toList⟩], [⟨(5 : Nat), 7⟩, ⟨6, 8⟩]⟩] =
    [⟨"up".toList, [(metricName, "up".toList), ("job".toList, "a".toList)], 5, 7000000⟩,
     ⟨"up".toList, [(metricName, "up".toList), ("job".toList, "a".toList)], 6, 8000000⟩] := by decide +kernel

def names : List Str := ["a".toList, "b".toList]

/-- Two rows with different tags: the character 1 stands within a value. -/
def rowsMerged : List (Row Nat) :=
  [⟨["x".toList ++ sep :: "b".toList ++ sep :: "y".toList, "z".toList], 1, 5⟩, ⟨["x".toList, "y".toList ++ sep :: "b".toList ++ sep :: "z".toList], 2, 6⟩]

/-- Property C139 does not hold: two different series are answered as one, with the labels of one of them. -/
theorem C139_merged_refuted : (answer names rowsMerged).length = 1 ∧ (answer names rowsMerged).map (fun s => s.samples.length) = [2] ∧
    rowsMerged.map (·.tags) = [["x\x01b\x01y".toList, "z".toList], ["x".toList, "y\x01b\x01z".toList]] := by
  decide +kernel

/-- Rows of two series (`C139_series_partial`). -/
example : (answer names [⟨["x".toList, "y".toList], (1 : Nat), 5000000⟩, ⟨["x".toList, "z".toList], 2, 6000000⟩, ⟨["x".toList, "y".toList], 3, 7000000⟩]) =
    [⟨[⟨"a".toList, "x".toList⟩, ⟨"b".toList, "y".toList⟩], [⟨1, 5⟩, ⟨3, 7⟩]⟩, ⟨[⟨"a".toList, "x".toList⟩, ⟨"b".toList, "z".toList⟩], [⟨2, 6⟩]⟩] := by
  decide +kernel

/-- A database with three tables; patterns of letters match where the letters stand. -/
def db : Db := ⟨["up".toList, "backup".toList, "cpu".toList], fun p => some fun s => (List.range (s.length + 1)).any fun i => p.isPrefixOf (s.drop i)⟩

/-- Property C140 does not hold: a read without a matcher on the name answers nothing. -/
theorem C140_no_name_refuted (db : Db) (ms : List Matcher) (h : ∀ m ∈ ms, m.name ≠ metricName) (lo hi : Int) :
    buildSql db ms lo hi = .ok [] := by
  have := selectTables_skip (db := db) (ms := []) (ts := []) h
  rw [List.append_nil] at this
  rw [buildSql, this]
  rfl

/-- Property C140 does not hold: of several matchers on the name only the last counts; this read asks for the names that are `cpu`
and have `up` in them, of which there are none. -/
theorem C140_several_refuted : selectTables db [⟨.eq, metricName, "cpu".toList⟩, ⟨.re, metricName, "up".toList⟩] [] = .ok ["up".toList, "backup".toList] := by
  decide +kernel

/-- Property C140 does not hold: Prometheus compares a pattern with the whole name, here a part of the name is enough. -/
theorem C140_anchored_refuted : selectTables db [⟨.re, metricName, "up".toList⟩] [] = .ok ["up".toList, "backup".toList] := by
  decide +kernel

example : selectTables db [⟨.eq, "job".toList, "x".toList⟩, ⟨.eq, metricName, "cpu".toList⟩] [] = .ok ["cpu".toList] := by decide +kernel

def quoted : List Matcher := [⟨.eq, "job".toList, "a' OR job != 'a".toList⟩]
def apart : List Matcher := [⟨.eq, "job".toList, "a' AND inst = 'b".toList⟩]
def together : List Matcher := [⟨.eq, "job".toList, "a".toList⟩, ⟨.eq, "inst".toList, "b".toList⟩]

/-- Property C141 does not hold: a quote in a value ends the text, what follows is read as SQL.  The value `a' OR job != 'a` makes
the condition `job = 'a' OR job != 'a' AND …`. -/
theorem C141_quote_refuted : lex (condition quoted 0 1) = some ([.word "job".toList, .word "=".toList, .text "a".toList, .word "OR".toList,
      .word "job".toList, .word "!=".toList, .text "a".toList, .word andWord, .word "time".toList, .word ">=".toList, .word "0".toList,
      .word andWord, .word "time".toList, .word "<=".toList, .word "1000000".toList]) ∧
    meaning quoted 0 1 = ([.word "job".toList, .word "=".toList, .text "a' OR job != 'a".toList, .word andWord, .word "time".toList,
      .word ">=".toList, .word "0".toList, .word andWord, .word "time".toList, .word "<=".toList, .word "1000000".toList]) := by
  decide +kernel

/-- Property C141 does not hold: two reads that ask for different things are the same query. -/
theorem C141_same_refuted : (∀ lo hi, condition apart lo hi = condition together lo hi) ∧ meaning apart 0 1 ≠ meaning together 0 1 := by
  refine ⟨fun lo hi => ?_, by decide +kernel⟩
  rfl

/-- The hypotheses of `C141_condition_partial`. -/
example : lex (condition together 0 1) = some (meaning together 0 1) := by
  refine C141_condition_partial ?_ ?_ <;>
  · intro m hm
    simp only [together, List.mem_cons, List.not_mem_nil, or_false] at hm
    rcases hm with rfl | rfl <;> first | exact ⟨by decide, by decide, by decide⟩ | decide

end Prom
end Verif.Ingest
