import Verif.Common.AMap
import Verif.Time.Model
import Verif.Wal.Record
import Mathlib.Data.List.Dedup
/-!
# Model: deletion records of a data file (`tskv/src/tsm/tombstone.rs`)

* `TsmTombstone` — the deletion records of one data file: `open`, `add_range`, `add_range_and_compact_to_tmp`,
  `replace_with_compact_tmp`
* `TsmTombstoneCache` — `insert`, `insert_batch`, `compact`, `load_from`, `save_to`, the queries
* the byte format: `encode_field_time_ranges`, `decode_v1`, `decode_v2`, `decode_time_ranges`

Simplifications.  I/O never fails.  One operation at a time (locks are not modelled).  The counter
`column_excluded_size`, used only for statistics, is left out.  Identifiers are natural numbers (`u32` in the code).
-/
namespace Verif.Tomb
open Verif.Time Verif.Wal

/-- `TombstoneField` (tombstone.rs:63-66): one column of one series, or everything in the file. -/
inductive Field where
  | one (sid cid : Nat)
  | all
deriving DecidableEq

/-- `Tombstone` (tombstone.rs:69-72). -/
structure Stone where
  field : Field
  ranges : List TimeRange
deriving DecidableEq

/-- `MAX_RECORD_LEN` (tombstone.rs:49). -/
def maxRecordLen : Nat := 131072
/-- `MAX_RECORD_TIME_RANGES_NUM` (tombstone.rs:50). -/
def maxRanges : Nat := 1000

/-- `i64::to_be_bytes`. -/
def encI64 (x : Int) : Bytes := be64 (BitVec.ofInt 64 x)
/-- `decode_be_i64` (byte_utils.rs). -/
def decI64 (b : Bytes) : Int := (ofBe64 b).toInt

/-- One range (tombstone.rs:200-203). -/
def encRange (r : TimeRange) : Bytes := encI64 r.minTs ++ encI64 r.maxTs

/-- The part in front of the number of ranges (tombstone.rs:191-197). -/
def encHead : Field → Bytes
  | .one s c => 0#8 :: (beEnc 4 s ++ beEnc 4 c)
  | .all => [1#8]

/-- `encode_field_time_ranges` (tombstone.rs:186-205): the bytes appended and how many ranges they hold. -/
def encField (f : Field) (rs : List TimeRange) : Bytes × Nat :=
  let n := min rs.length maxRanges
  (encHead f ++ (beEnc 4 n ++ (rs.take n).flatMap encRange), n)

/-- The loop of `decode_time_ranges` (tombstone.rs:174-180). -/
def decRangesLoop : Nat → Bytes → List TimeRange
  | 0, _ => []
  | n + 1, b => ⟨decI64 (b.take 8), decI64 ((b.drop 8).take 8)⟩ :: decRangesLoop n (b.drop 16)

/-- `decode_time_ranges` (tombstone.rs:163-184): `none` if the block is too short. -/
def decRanges (b : Bytes) (n : Nat) : Option (List TimeRange) :=
  if b.length < 16 * n then none else some (decRangesLoop n b)

/-- `decode_v2` (tombstone.rs:122-161): `none` is an error.  `fuel` bounds the loop by the number of bytes. -/
def decV2 : Nat → Bytes → Option (List Stone)
  | 0, b => if b = [] then some [] else none
  | fuel + 1, b =>
    match b with
    | [] => some []
    | x :: _ =>
      if x = 1#8 then
        if b.length < 5 then none else
        let n := beDec ((b.drop 1).take 4)
        match decRanges (b.drop 5) n with
        | none => none
        | some rs => (decV2 fuel (b.drop (5 + 16 * n))).map (⟨.all, rs⟩ :: ·)
      else
        if b.length < 13 then none else
        let sid := beDec ((b.drop 1).take 4)
        let cid := beDec ((b.drop 5).take 4)
        let n := beDec ((b.drop 9).take 4)
        match decRanges (b.drop 13) n with
        | none => none
        | some rs => (decV2 fuel (b.drop (13 + 16 * n))).map (⟨.one sid cid, rs⟩ :: ·)

/-- `decode_v1` (tombstone.rs:114-120): `none` is a slice out of bounds. -/
def decV1 (b : Bytes) : Option ((Nat × Nat) × TimeRange) :=
  if b.length < 24 then none else
  some ((beDec (b.take 4), beDec ((b.drop 4).take 4)),
    ⟨decI64 ((b.drop 8).take 8), decI64 ((b.drop 16).take 8)⟩)

/-! ## The cache -/

/-- `TsmTombstoneCache` (tombstone.rs:407-418). -/
structure Cache where
  cols : AMap (Nat × Nat) TimeRanges
  all : TimeRanges

namespace Cache

/-- `Default` (tombstone.rs:420-428). -/
def empty : Cache := ⟨AMap.empty, TimeRanges.empty⟩

/-- The ranges of a column, `TimeRanges::empty` if there are none (the `or_insert_with` of the callers). -/
def col (c : Cache) (k : Nat × Nat) : TimeRanges := (c.cols.get k).getD TimeRanges.empty

/-- `entry(k).or_insert_with(TimeRanges::empty).extend_from_slice(rs)`. -/
def extendCol (c : Cache) (k : Nat × Nat) (rs : List TimeRange) : Cache :=
  { c with cols := c.cols.set k ((c.col k).extend rs) }

/-- `insert` for all fields (tombstone.rs:440-461), the only use outside tests. -/
def insertAll (c : Cache) (r : TimeRange) : Cache :=
  if r.isNone then c else { c with all := c.all.push r }

/-- `insert_batch` (tombstone.rs:463-472). -/
def insertBatch (c : Cache) (batch : List ((Nat × Nat) × List TimeRange)) : Cache :=
  batch.foldl (fun c e => c.extendCol e.1 e.2) c

/-- `compact` (tombstone.rs:474-504). -/
def compact (c : Cache) : Cache :=
  let es := c.cols.entries.map fun e => (e.1, e.2.extend c.all.ranges)
  if es.all (fun e => e.2.ranges.all c.all.includes) then { c with cols := AMap.empty }
  else { c with cols := ⟨es, by
    have : (es.map Prod.fst) = c.cols.entries.map Prod.fst := by simp [es, Function.comp_def]
    rw [this]; exact c.cols.nodup⟩ }

/-- `get_column_overlapped_time_ranges` (tombstone.rs:522-538). -/
def columnRanges (c : Cache) (sid cid : Nat) (tr : TimeRange) : List TimeRange :=
  match c.cols.get (sid, cid) with
  | some rs => rs.ranges.filter fun t => t.overlaps tr
  | none => []

/-- `get_all_fields_excluded_time_range` (tombstone.rs:544-552). -/
def allRanges (c : Cache) (tr : TimeRange) : List TimeRange := c.all.ranges.filter fun t => t.overlaps tr

/-- One decoded tombstone goes into the cache (tombstone.rs:601-612). -/
def load1 (c : Cache) (t : Stone) : Cache :=
  match t.field with
  | .one s k => c.extendCol (s, k) t.ranges
  | .all => { c with all := c.all.extend t.ranges }

/-- One record (tombstone.rs:588-619): `none` is a panic. A record that does not decode is skipped. -/
def loadRec (c : Cache) (typ : Byte) (data : Bytes) : Option Cache :=
  if typ = 4#8 then
    match decV1 data with
    | none => none
    | some (k, r) => some { c with cols := c.cols.set k ((c.col k).push r) }
  else
    match decV2 data.length data with
    | some ts => some (ts.foldl load1 c)
    | none => some c

/-- All records, in order. -/
def loadRecs (c : Cache) : List Rec → Option Cache
  | [] => some c
  | x :: xs => match c.loadRec x.typ x.data with
    | none => none
    | some c => c.loadRecs xs

end Cache

variable (crc : Bytes → BitVec 32)

/-- `load_from(reader, false)` (tombstone.rs:565-627) on a file: `none` is an error or a panic. -/
def loadFile (f : Bytes) : Option Cache :=
  match readFile crc Policy.tomb f with
  | (xs, some .eof) => Cache.empty.loadRecs xs
  | _ => none

/-- `load_from(reader, true)`, used when compactions are picked: errors end the reading. -/
def loadLenient (f : Bytes) : Option Cache :=
  match readFile crc Policy.tomb f with
  | (_, some .panic) => none
  | (xs, _) => Cache.empty.loadRecs xs

/-- Encoding fields one after another into a buffer that is cut into a record when it reaches
`MAX_RECORD_LEN` (tombstone.rs:227-247, 634-647, 651-663).  Returns the rest of the buffer and the records. -/
def saveLoop (f : Field) : Nat → List TimeRange → Bytes × List Bytes → Bytes × List Bytes
  | 0, _, s => s
  | fuel + 1, rs, (buf, out) =>
    if rs = [] then (buf, out) else
    let (e, n) := encField f rs
    let buf := buf ++ e
    if buf.length ≥ maxRecordLen then saveLoop f fuel (rs.drop n) ([], out ++ [buf])
    else saveLoop f fuel (rs.drop n) (buf, out)

/-- The final write (tombstone.rs:248-250, 664-666): all records to be written. -/
def finish (s : Bytes × List Bytes) : List Bytes := if s.1 = [] then s.2 else s.2 ++ [s.1]

/-- `save_to` (tombstone.rs:629-669); `entries` are the columns in the order of the hash map. -/
def saveRecs (entries : List ((Nat × Nat) × TimeRanges)) (all : TimeRanges) : List Bytes :=
  let s := entries.foldl (fun s e => saveLoop (.one e.1.1 e.1.2) e.2.ranges.length e.2.ranges s) ([], [])
  finish (saveLoop .all all.ranges.length all.ranges s)

/-- The records of `add_range` (tombstone.rs:227-250) for the columns that pass the filter. -/
def addRecs (cols : List (Nat × Nat)) (r : TimeRange) : List Bytes :=
  finish (cols.foldl (fun s k => saveLoop (.one k.1 k.2) 1 [r] s) ([], []))

/-- `write_tombstone_record` (tombstone.rs:370-381) for all records; `none` is an error. -/
def writeRecs (f : Bytes) : List Bytes → Option Bytes
  | [] => some f
  | d :: ds => match writeRec crc f ⟨1#8, 5#8, d⟩ with
    | none => none
    | some f => writeRecs f ds

/-- `TsmTombstone` (tombstone.rs:74-84) with its files. -/
structure St where
  cache : Cache
  /-- the deletion file, if it exists -/
  file : Option Bytes
  /-- the file of a compaction not yet installed, if it exists -/
  tmp : Option Bytes
  /-- a writer is open -/
  writer : Bool

/-- A data file without deletions. -/
def St.fresh : St := ⟨Cache.empty, none, none, false⟩

/-- `TsmTombstone::open` (tombstone.rs:87-109) on the files left by a previous process. -/
def St.reopen (s : St) : Option St :=
  match s.file with
  | none => some { s with cache := Cache.empty, writer := false }
  | some f => match loadFile crc f with
    | none => none
    | some c => some { s with cache := c, file := some (openWriter crc f), writer := true }

/-- `tomb_tmp` of `add_range` (tombstone.rs:225-246): the range as often as the column is listed. -/
def batchOf (cols : List (Nat × Nat)) (r : TimeRange) : List ((Nat × Nat) × List TimeRange) :=
  cols.dedup.map fun k => (k, List.replicate (cols.count k) r)

/-- `add_range` (tombstone.rs:211-253); `maybe` is the bloom filter of the data file. -/
def St.add (maybe : Nat → Bool) (cols : List (Nat × Nat)) (r : TimeRange) (s : St) : Option St :=
  let f := if s.writer then s.file.getD [] else openWriter crc (s.file.getD [])
  let cols := cols.filter fun k => maybe k.1
  match writeRecs crc f (addRecs cols r) with
  | none => none
  | some f => some { s with cache := s.cache.insertBatch (batchOf cols r), file := some f, writer := true }

/-- `add_range_and_compact_to_tmp` (tombstone.rs:275-294); `ord` is the order of the hash map. -/
def St.compactTmp (ord : List ((Nat × Nat) × TimeRanges) → List ((Nat × Nat) × TimeRanges)) (r : TimeRange)
    (s : St) : Option St :=
  let c := (s.cache.insertAll r).compact
  match writeRecs crc (openWriter crc (s.tmp.getD [])) (saveRecs (ord c.cols.entries) c.all) with
  | none => none
  | some f => some { s with tmp := some f }

/-- `replace_with_compact_tmp` (tombstone.rs:297-322). -/
def St.replace (s : St) : Option St :=
  match s.tmp with
  | none => some { s with writer := false }
  | some f => match loadFile crc f with
    | none => none
    | some c => some { cache := c, file := some f, tmp := none, writer := false }

/-- A point of a column counts as deleted. -/
def Cache.Deleted (c : Cache) (sid cid : Nat) (t : Int) : Prop :=
  (c.col (sid, cid)).contains t = true ∨ c.all.contains t = true

end Verif.Tomb
