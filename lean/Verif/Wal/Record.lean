import Verif.Common.Bytes
/-!
# Model: record files (`tskv/src/record_file`)

* `writer.rs` — appending records, reopening a file
* `reader.rs` — the buffered reader, `read_record`
* `tskv/src/wal/reader.rs:34-52`, `wal/wal_store.rs:443-485` — the loop reading a whole log

Simplifications.  The file does not change while it is read (what happens when it does is in `Verif.Wal.Log`).
I/O never fails.  `crc` stands for `crc32fast::hash`, any function.
-/
namespace Verif.Wal

abbrev Bytes := List Byte

/-- `"RECO"` (record_file/mod.rs:47). -/
def fileMagic : Bytes := [0x52#8, 0x45#8, 0x43#8, 0x4f#8]
/-- `"FlOg"` (record_file/mod.rs:66). -/
def recMagic : Bytes := [0x46#8, 0x6c#8, 0x4f#8, 0x67#8]

/-- `struct Record` (record.rs). -/
structure Rec where
  ver : Byte
  typ : Byte
  data : Bytes
  pos : Nat
deriving DecidableEq

/-- A record to be written: version, type, data. -/
structure Put where
  ver : Byte
  typ : Byte
  data : Bytes
deriving DecidableEq

variable (crc : Bytes → BitVec 32)

/-- The bytes of the header that the checksum covers (writer.rs:93-104). -/
def crcSrc (p : Put) : Bytes := p.ver :: p.typ :: (beEnc 4 p.data.length ++ p.data)

/-- The bytes of one record (writer.rs:106-114). -/
def encRec (p : Put) : Bytes :=
  recMagic ++ (p.ver :: p.typ :: (beEnc 4 p.data.length ++ (beEnc 4 (crc (crcSrc p)).toNat ++ p.data)))

/-- `Writer::write_record` (writer.rs:72-124): `none` if the length does not fit in 32 bits. -/
def writeRec (f : Bytes) (p : Put) : Option Bytes :=
  if p.data.length < 2 ^ 32 then some (f ++ encRec crc p) else none

/-- `file_crc_source_len` (record_file/mod.rs:55-61) with the footer length 32. -/
def crcSrcLen (n : Nat) : Nat := if n > 4 + 1024 + 32 then 1024 else n - (4 + 32)

/-- `read_footer_from` (reader.rs:33-69): the position of the footer, if the file has one. -/
def footerAt (f : Bytes) : Option Nat :=
  if f.length < 4 + 32 then none
  else if crc ((f.drop 4).take (crcSrcLen f.length)) = BitVec.ofNat 32 (beDec ((f.drop (f.length - 32 + 4)).take 4))
    then some (f.length - 32) else none

/-- `Writer::open` (writer.rs:25-69): the file contents after opening; a footer is cut off. -/
def openWriter (f : Bytes) : Bytes :=
  if f = [] then fileMagic else
  match footerAt crc f with
  | some p => f.take p
  | none => f

/-- `struct Reader` (reader.rs:71-81).  `buf` is the whole vector, of which `len` bytes are valid. -/
structure Rd where
  pos : Nat
  buf : Bytes
  len : Nat
  used : Nat
  fileLen : Nat
  footerPos : Nat

/-- `Reader::open` (reader.rs:84-118).  For a file shorter than the magic number the code's buffer size wraps
around and is 64 MiB instead of 0, which has no effect on what is read. -/
def openReader (f : Bytes) : Rd :=
  let recordsLen := match footerAt crc f with
    | some _ => f.length - 32 - 4
    | none => f.length - 4
  { pos := 4, buf := List.replicate (min recordsLen (1024 * 1024 * 64)) 0#8, len := 0, used := 0,
    fileLen := f.length, footerPos := (footerAt crc f).getD f.length }

/-- `load_buf` (reader.rs:303-318); bytes beyond those read stay as they were. -/
def Rd.load (f : Bytes) (r : Rd) : Rd :=
  let d := (f.drop r.pos).take r.buf.length
  { r with buf := d ++ r.buf.drop d.length, len := d.length, used := 0 }

/-- `read_buf` (reader.rs:320-329): the new state and the slice. -/
def Rd.read (f : Bytes) (n : Nat) (r : Rd) : Rd × Bytes :=
  let r := if r.buf.length < n then { r with buf := r.buf ++ List.replicate (n - r.buf.length) 0#8 } else r
  let r := if r.len - r.used < n then r.load f else r
  (r, (r.buf.drop r.used).take (min (r.used + n) r.len - r.used))

/-- `set_pos` (reader.rs:147-182); `false` is the error `Eof`. -/
def Rd.setPos (f : Bytes) (p : Nat) (r : Rd) : Rd × Bool :=
  if r.pos - r.used = p then ({ r with pos := p, used := 0 }, true)
  else if p > r.fileLen then (r, false)
  else if r.pos > p then
    if r.used > r.pos - p then ({ r with pos := p, used := r.used - (r.pos - p) }, true)
    else (({ r with pos := p } : Rd).load f, true)
  else if r.pos < p then
    if r.len - r.used > p - r.pos then ({ r with pos := p, used := r.used + (p - r.pos) }, true)
    else (({ r with pos := p } : Rd).load f, true)
  else (r, true)

/-- `find_record_header` (reader.rs:185-198).  `decode_be_u32` reads four bytes from the start of the slice
without looking at its length (byte_utils.rs:7-9), so near the end of the file it sees old buffer contents.
The position of the header is the `pos` of the new state.  `fuel` bounds the number of rounds. -/
def Rd.findHeader (f : Bytes) : Nat → Rd → Rd × Option Bytes
  | 0, r => (r, none)
  | fuel + 1, r =>
    let r := (r.read f 4).1
    if (r.buf.drop r.used).take 4 = recMagic then
      let (r, h) := r.read f 14
      (r, some h)
    else
      match r.setPos f (r.pos + 1) with
      | (r, true) => findHeader f fuel r
      | (r, false) => (r, none)

/-- What `read_record` returns: a record or one of its errors; `panic` is an index out of bounds. -/
inductive Out where
  | ok (r : Rec)
  | eof
  | badSize
  | badCrc
  | panic
deriving DecidableEq

/-- The checks of `read_record` after the header was found (reader.rs:213-291). -/
def Rd.body (f : Bytes) (r : Rd) (h : Bytes) : Rd × Out :=
  if h.length < 14 then (r, .panic) else
  let p := r.pos
  let ver := h.getD 4 0#8
  let typ := h.getD 5 0#8
  let n := beDec ((h.drop 6).take 4)
  let c := BitVec.ofNat 32 (beDec ((h.drop 10).take 4))
  match r.setPos f (p + 14) with
  | (r, false) => (r, .eof)
  | (r, true) =>
    let (r, data) := r.read f n
    if data.length < n then (r, .badSize) else
    match r.setPos f (p + 14 + n) with
    | (r, false) => (r, .eof)
    | (r, true) =>
      if crc ((h.drop 4).take 6 ++ data) = c then (r, .ok ⟨ver, typ, data, p⟩)
      else
        match r.setPos f (p + 1) with
        | (r, false) => (r, .eof)
        | (r, true) => (r, .badCrc)

/-- `read_record` (reader.rs:205-291). -/
def Rd.next (f : Bytes) (r : Rd) : Rd × Out :=
  if r.pos + 14 ≥ r.footerPos then (r, .eof) else
  match r.findHeader f (f.length + 2 - r.pos) with
  | (r, none) => (r, .eof)
  | (r, some h) => r.body crc f h

/-- After which errors a caller goes on reading. -/
structure Policy where
  onCrc : Bool
  onSize : Bool

/-- Recovery of the write-ahead log: `next_wal_entry` skips wrong checksums (wal/reader.rs:41-44) and turns a
wrong size into `WalTruncated` (wal/reader.rs:45-49), after which the loop of `recover` continues
(wal_store.rs:479-482). -/
def Policy.wal : Policy := ⟨true, true⟩
/-- Recovery of the manifest: a wrong size is an error (summary.rs:64-83). -/
def Policy.summary : Policy := ⟨true, false⟩
/-- Tombstones: stop at the first error (tombstone.rs:573-585). -/
def Policy.tomb : Policy := ⟨false, false⟩

/-- Reading a whole file: the records and how it ended; `none` if `fuel` calls were not enough. -/
def readAll (P : Policy) (f : Bytes) : Nat → Rd → List Rec × Option Out
  | 0, _ => ([], none)
  | fuel + 1, r =>
    match r.next crc f with
    | (r, .ok x) => let (xs, o) := readAll P f fuel r; (x :: xs, o)
    | (r, .badCrc) => if P.onCrc then readAll P f fuel r else ([], some .badCrc)
    | (r, .badSize) => if P.onSize then readAll P f fuel r else ([], some .badSize)
    | (_, o) => ([], some o)

/-- Open a file and read it to the end. -/
def readFile (P : Policy) (f : Bytes) : List Rec × Option Out :=
  readAll crc P f (f.length + 2) (openReader crc f)

/-- The file after writing records to an empty one. -/
def fileOf (ps : List Put) : Bytes := fileMagic ++ (ps.map (encRec crc)).flatten

end Verif.Wal
