import Verif.Raft.StoreProps
/-!
# Model: names of data files, logs and manifests, and the numbers in them

* `tskv/src/file_utils.rs` (all of it)
* `tskv/src/wal/mod.rs:120-134` (`open_writer`), `tskv/src/wal/wal_store.rs:429-446` (`recover`: which files are read)
* `tskv/src/file_system/async_filesystem.rs:100-124` (`list_file_names`)

Names are lists of ASCII characters (`\d` of a pattern is a digit of ASCII), so that slices never cut a character in two.
A directory is the list of its names in the order of `sort_by_file_name`.
-/
namespace Verif.Files
open Verif.Raft (dec undec)

abbrev Name := List Char

def isDigit (c : Char) : Bool := decide (48 ≤ c.toNat) && decide (c.toNat < 58)

/-- `{:06}`. -/
def pad6 (n : Nat) : Name := List.replicate (6 - (dec n).length) '0' ++ dec n

/-- `make_wal_file`, `make_tsm_file_name`, `make_index_binlog_file`, `make_tsm_tombstone_file_name`, `make_delta_file_name`,
`make_file_name` (file_utils.rs:71-74, 101-104, 130-132, 166-168, 175-177, 223-225): they differ in the suffix only. -/
def fileName (suffix : Name) (n : Nat) : Name := '_' :: (pad6 n ++ '.' :: suffix)

/-- `make_summary_file` (file_utils.rs:21-24). -/
def summaryName (n : Nat) : Name := "summary-".toList ++ pad6 n

/-- A plus sign in front of a number. -/
def unplus : Name → Name
  | [] => []
  | c :: l => if c = '+' then l else c :: l

/-- `u64::from_str`: a plus sign is allowed. -/
def parse (t : Name) : Option Nat :=
  if unplus t = [] then none
  else if (unplus t).all isDigit then
    if undec (unplus t) < 18446744073709551616 then some (undec (unplus t)) else none
  else none

/-- The pattern `p\d{6}s` at the beginning of a text. -/
def matchHere (p s t : Name) : Bool :=
  p.isPrefixOf t && decide (((t.drop p.length).take 6).length = 6) && ((t.drop p.length).take 6).all isDigit &&
    s.isPrefixOf ((t.drop p.length).drop 6)

/-- `is_match`: the pattern anywhere. -/
def isMatch (p s : Name) : Name → Bool
  | [] => matchHere p s []
  | c :: l => matchHere p s (c :: l) || isMatch p s l

/-- `get_wal_file_id`, `get_index_binlog_file_id` and the closure of `get_file_id_range` (file_utils.rs:82-98, 112-128, 237-255). -/
def idOf (suffix : Name) (name : Name) : Option Nat :=
  if isMatch ['_'] ('.' :: suffix) name then parse ((name.drop 1).take 6) else none

/-- `get_summary_file_id` (file_utils.rs:52-68). -/
def summaryId (name : Name) : Option Nat :=
  if isMatch "summary-".toList [] name then parse (name.drop 8) else none

/-- The result of a function that may panic. -/
inductive Res where
  | ok (n : Nat) | bad | panic
deriving DecidableEq

/-- `str::find` of a character. -/
def indexOf (c : Char) : Name → Option Nat
  | [] => none
  | x :: l => if x = c then some 0 else (indexOf c l).map (· + 1)

/-- `get_tsm_file_id_by_path` (file_utils.rs:140-164). -/
def tsmId (name : Name) : Res :=
  if name.length = 1 then .bad
  else
    let start := (indexOf '_' name).getD 0 + 1
    let stop := (indexOf '.' name).getD name.length
    if stop < start then .panic
    else match parse ((name.take stop).drop start) with
      | some n => .ok n
      | none => .bad

/-- The loop of `get_max_sequence_file_name` (file_utils.rs:199-211): greatest number, its file, whether any was found. -/
def scan (get : Name → Option Nat) : List Name → Nat × Name × Bool → Nat × Name × Bool
  | [], st => st
  | n :: l, st => match get n with
    | some id => if st.1 < id then scan get l (id, n, true) else scan get l (st.1, st.2.1, true)
    | none => scan get l st

/-- `get_max_sequence_file_name` (file_utils.rs:185-219). -/
def maxSeq (get : Name → Option Nat) (dir : List Name) : Option (Name × Nat) :=
  match dir with
  | [] => none
  | h :: _ =>
    let r := scan get dir (0, h, false)
    if r.2.2 then some (r.2.1, r.1) else none

/-- `open_writer` (wal/mod.rs:120-134): the file that is written to after a start. -/
def openId (dir : List Name) : Nat :=
  match maxSeq (idOf "wal".toList) dir with
  | some r => r.2
  | none => 1

/-- `recover` (wal_store.rs:434-447): the files that are read, in order. -/
def recovered (dir : List Name) : List Nat := dir.filterMap (idOf "wal".toList)

/-- Order of names by their bytes. -/
def lexLt : Name → Name → Bool
  | _, [] => false
  | [], _ :: _ => true
  | a :: l, b :: r => decide (a.toNat < b.toNat) || (decide (a.toNat = b.toNat) && lexLt l r)

/-- `get_file_id_range` (file_utils.rs:231-278). -/
def idRange (suffix : Name) (dir : List Name) : Option (Nat × Nat) :=
  dir.foldl (fun r n => match idOf suffix n with
    | some id => match r with
      | some (a, b) => some (if id < a then id else a, if b < id then id else b)
      | none => some (id, id)
    | none => r) none

end Verif.Files
