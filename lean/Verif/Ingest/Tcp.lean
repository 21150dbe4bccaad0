import Verif.Common.Sort
import Verif.Utils.Model
/-!
# Model: the OpenTSDB service over TCP

* `main/src/tcp/tcp_service.rs:36-107` — the loop of a connection: read, parse all that is there, write, drop what was parsed
* `common/protocol_parser/src/open_tsdb/parser.rs:110-186` — the lines of a buffer, a `put` line
* `common/protocol_parser/src/lib.rs:120-126` — `sort_dedup_and_hash`

Simplifications: texts are ASCII, so a character is a byte and white space is ASCII white space (`from_utf8` does not fail).
`str::parse::<f64>` is a parameter.  Writes of the coordinator succeed (an error ends the connection).  The only field of a
point is `value`, so a point carries its value; the hash of the series is left out (see C57).  Errors carry no text.
-/
namespace Verif.Ingest

/-- ASCII text. -/
abbrev Str := List Char

/-- An error is reported; a panic kills the task. -/
inductive Err where
  | error
  | panic
deriving DecidableEq, Repr

/-- `struct Line` (protocol_parser/src/lib.rs:38-46) with the single field `value`; `F` are the floating point numbers. -/
structure Pt (F : Type) where
  table : Str
  tags : List (Str × Str)
  value : F
  ts : Int
deriving DecidableEq, Repr

/-! ## A line -/

/-- `i64::MIN`, `i64::MAX`. -/
def i64Min : Int := -9223372036854775808
def i64Max : Int := 9223372036854775807

/-- The number that digits stand for. -/
def natOf (s : Str) : Nat := s.foldl (fun n c => n * 10 + (c.toNat - 48)) 0

/-- `str::parse::<i64>`: a sign or none, at least one digit, nothing else, in range. -/
def parseI64 (s : Str) : Option Int :=
  let go (neg : Bool) (d : Str) : Option Int :=
    if d.isEmpty || !d.all Char.isDigit then none
    else
      let n : Int := if neg then -(natOf d) else natOf d
      if i64Min ≤ n ∧ n ≤ i64Max then some n else none
  match s with
  | '-' :: d => go true d
  | '+' :: d => go false d
  | d => go false d

/-- `char::is_whitespace` on ASCII. -/
def isSpace (c : Char) : Bool := c == ' ' || c == '\t' || c == '\n' || c == '\r' || c == '\x0b' || c == '\x0c'

/-- `str::split_whitespace`: `cur` is the word that is being read. -/
def wordsFrom : Str → Str → List Str
  | cur, [] => if cur.isEmpty then [] else [cur]
  | cur, c :: s =>
    if isSpace c then if cur.isEmpty then wordsFrom [] s else cur :: wordsFrom [] s
    else wordsFrom (cur ++ [c]) s

/-- `str::split_whitespace`. -/
def words (s : Str) : List Str := wordsFrom [] s

/-- `str::split(c)`. -/
def splitOn (d : Char) : Str → List Str
  | [] => [[]]
  | c :: s =>
    if c = d then [] :: splitOn d s
    else match splitOn d s with
      | [] => [[c]]
      | l :: ls => (c :: l) :: ls

/-- A tag of a `put` line (open_tsdb/parser.rs:163-171). -/
def tagOf (t : Str) : Option (Str × Str) :=
  match splitOn '=' t with
  | [k, v] => if k.isEmpty || v.isEmpty then none else some (k, v)
  | _ => none

/-- `next_tcp_line` (open_tsdb/parser.rs:127-185) on a line that is not empty. -/
def putLine {F : Type} (pf : Str → Option F) (line : Str) : Except Err (Pt F) :=
  match words line with
  | cmd :: m :: t :: v :: tags =>
    if cmd = ['p', 'u', 't'] then
      match parseI64 t, pf v, tags.mapM tagOf with
      | some ts, some v, some tags => .ok ⟨m, tags, v, ts⟩
      | _, _, _ => .error .error
    else .error .error
  | _ => .error .error

/-- Byte-wise comparison of texts. -/
def strLe : Str → Str → Bool
  | [], _ => true
  | _ :: _, [] => false
  | a :: as, b :: bs => if a.toNat < b.toNat then true else if b.toNat < a.toNat then false else strLe as bs

/-- `Vec::dedup_by` on equal keys: keeps the first of a run. -/
def dedupKey {V : Type} : List (Str × V) → List (Str × V)
  | [] => []
  | a :: l => match dedupKey l with
    | [] => [a]
    | b :: r => if a.1 = b.1 then a :: r else a :: b :: r

/-- `sort_dedup_and_hash` (lib.rs:120-126). -/
def Pt.norm {F : Type} (p : Pt F) : Pt F :=
  { p with tags := dedupKey (Sort.sortBy (fun a b => strLe a.1 b.1) p.tags) }

/-! ## A buffer -/

/-- `str::split("\r\n")`. -/
def splitCrlf : Str → List Str
  | [] => [[]]
  | c :: s =>
    if c = '\r' ∧ s.head? = some '\n' then [] :: splitCrlf s.tail
    else match splitCrlf s with
      | [] => [[c]]
      | l :: ls => (c :: l) :: ls
termination_by s => s.length
decreasing_by
  all_goals simp only [List.length_cons, List.length_tail]
  all_goals omega

/-- The loop of `parse_tcp_opentsdb` (open_tsdb/parser.rs:116-124): points and how many bytes they took. -/
def parseLines {F : Type} (pf : Str → Option F) : List Str → Except Err (List (Pt F) × Nat)
  | [] => .ok ([], 0)
  | l :: ls =>
    if l.isEmpty then parseLines pf ls
    else match putLine pf l with
      | .error e => .error e
      | .ok p => match parseLines pf ls with
        | .error e => .error e
        | .ok (ps, n) => .ok (p.norm :: ps, l.length + 2 + n)

/-- `parse_tcp_opentsdb` (open_tsdb/parser.rs:110-125). -/
def parseTcp {F : Type} (pf : Str → Option F) (buf : Str) : Except Err (List (Pt F) × Nat) := parseLines pf (splitCrlf buf)

/-! ## The time of a point -/

/-- `MILLISECOND_TIMESTAMP` (tcp_service.rs:15). -/
def ms : Int := 1000000000000

/-- `while bit > 10` (tcp_service.rs:67-70), at most `n` turns; `none` if it is not over then. -/
def down : Nat → Int → Option Int
  | 0, ts => if ts.tdiv ms > 10 then none else some ts
  | n + 1, ts => if ts.tdiv ms > 10 then down n (ts.tdiv 10) else some ts

/-- `while bit == 0` (tcp_service.rs:71-74), at most `n` turns; `none` if it is not over then.  The product of a number
below 10^12 and 10 does not wrap. -/
def up : Nat → Int → Option Int
  | 0, ts => if ts.tdiv ms = 0 then none else some ts
  | n + 1, ts => if ts.tdiv ms = 0 then up n (ts * 10) else some ts

/-- Both loops (tcp_service.rs:65-75), at most `n` turns each. -/
def fixTimeIn (n : Nat) (ts : Int) : Option Int := (down n ts).bind (up n)

/-- Both loops.  That 20 turns are enough, if any number is, is `fixTime_enough`. -/
def fixTime (ts : Int) : Option Int := fixTimeIn 20 ts

/-- The times of the points of a buffer; `none` if a loop does not end. -/
def Pt.fix {F : Type} (p : Pt F) : Option (Pt F) := (fixTime p.ts).map fun t => { p with ts := t }

/-! ## A connection -/

/-- What has become of the task of a connection. -/
inductive Task where
  | alive
  | panicked
  | spinning
deriving DecidableEq, Repr

/-- A connection: its buffer, and what it has given to the coordinator (with precision nanoseconds). -/
structure Conn (F : Type) where
  buf : Str
  out : List (Pt F)
  task : Task
deriving DecidableEq, Repr

/-- A new connection (tcp_service.rs:48-49). -/
def Conn.new {F : Type} : Conn F := ⟨[], [], .alive⟩

/-- A read that returns `chunk`, and what follows (tcp_service.rs:51-95).  `Vec::drain` panics if the range is longer than
the buffer. -/
def Conn.read {F : Type} (pf : Str → Option F) (c : Conn F) (chunk : Str) : Conn F :=
  if c.task ≠ .alive then c
  else
    let buf := c.buf ++ chunk
    match parseTcp pf buf with
    | .error _ => { c with buf := buf }
    | .ok (ls, pos) =>
      if ls.isEmpty then { c with buf := buf }
      else match ls.mapM Pt.fix with
        | none => { c with buf := buf, task := .spinning }
        | some ls =>
          if pos ≤ buf.length then ⟨buf.drop pos, c.out ++ ls, .alive⟩
          else ⟨buf, c.out ++ ls, .panicked⟩

/-- The reads of a connection. -/
def Conn.run {F : Type} (pf : Str → Option F) (c : Conn F) (chunks : List Str) : Conn F := chunks.foldl (Conn.read pf) c

end Verif.Ingest
