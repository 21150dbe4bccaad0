/-!
# Model: the buffered writer of data files and logs, on an operating system that may fail

* `tskv/src/file_system/file/stream_writer.rs` (all of `FileStreamWriter`)
* `tskv/src/file_system/file/async_file.rs` (`write_at`, `truncate`, `file_size`, `open`)
* `tskv/src/file_system/file/raw_file.rs` (`write_all_at`, lines 51-78)
* `tskv/src/wal/writer.rs` (`WalWriter`), `tskv/src/wal/mod.rs:180-193` (`write_raft_entry`)

A file is a list of bytes.  What the operating system does is a list of outcomes, one for each call; when the list is used
up, calls succeed.  Positions are natural numbers (no overflow of `usize`); a read-only handle of the file sees the same
bytes.  Not modelled: loss of bytes that were written but not synchronised when the machine stops, io_uring, memory maps.
-/
namespace Verif.Files

/-- Outcome of one call: `n` bytes written (at most those asked for), interrupted, or an error. -/
inductive Out where
  | wrote (n : Nat) | again | fail
deriving DecidableEq

/-- `pwrite` (POSIX): writing behind the end fills the gap with zeros; writing nothing changes nothing. -/
def overlay (d : List Nat) (pos : Nat) (b : List Nat) : List Nat :=
  if b = [] then d else d.take pos ++ List.replicate (pos - d.length) 0 ++ b ++ d.drop (pos + b.length)

/-- `write_all_at` (raw_file.rs:51-78): whether it answers `Ok(len)`, the file, the remaining outcomes. -/
def writeAll : List Out → List Nat → Nat → List Nat → Bool × List Nat × List Out
  | [], d, pos, b => (true, overlay d pos b, [])
  | o :: os, d, pos, b =>
    if b = [] then (true, d, o :: os)
    else match o with
      | .wrote n =>
        if min n b.length = 0 then (true, d, os)
        else writeAll os (overlay d pos (b.take (min n b.length))) (pos + min n b.length) (b.drop (min n b.length))
      | .again => writeAll os d pos b
      | .fail => (false, d, os)

/-- `FileStreamWriter` with its `AsyncFile` (`size` is the remembered size). -/
structure W where
  disk : List Nat
  size : Nat
  pos : Nat
  buf : List Nat
  cap : Nat
  os : List Out
deriving DecidableEq

/-- `open` and `new` (async_file.rs:62-84, stream_writer.rs:53-61). -/
def W.opened (disk : List Nat) (cap : Nat) (os : List Out) : W := ⟨disk, disk.length, disk.length, [], cap, os⟩

/-- `write_at(self.pos, &self.buf.consume_data())` and `set_pos` (stream_writer.rs:86-90, 95-99; async_file.rs:19-23). -/
def W.drain (w : W) : Bool × W :=
  let r := writeAll w.os w.disk w.pos w.buf
  if r.1 then
    (true, { w with disk := r.2.1, os := r.2.2, size := max w.size (w.pos + w.buf.length), pos := w.pos + w.buf.length, buf := [] })
  else (false, { w with disk := r.2.1, os := r.2.2, buf := [] })

/-- A call without data: `sync_data`, `set_len`.  The standard library repeats it if it is interrupted. -/
def W.call (w : W) : Bool × W :=
  match w.os with
  | .fail :: os => (false, { w with os := os })
  | _ :: os => (true, { w with os := os })
  | [] => (true, w)

/-- `write`, `try_flush` (stream_writer.rs:67-92). -/
def W.write (w : W) (b : List Nat) : Bool × W :=
  let w' := { w with buf := w.buf ++ b }
  if w'.cap ≤ w'.buf.length then w'.drain else (true, w')

/-- `write_vec` (stream_writer.rs:73-79). -/
def W.writeVec (w : W) (bs : List (List Nat)) : Bool × W :=
  let w' := bs.foldl (fun w b => { w with buf := w.buf ++ b }) w
  if w'.cap ≤ w'.buf.length then w'.drain else (true, w')

/-- `flush` (stream_writer.rs:94-102). -/
def W.flush (w : W) : Bool × W :=
  let r := w.drain
  if r.1 then r.2.call else r

/-- `len` (stream_writer.rs:134-136). -/
def W.len (w : W) : Nat := w.size + w.buf.length

/-- `SeekFrom`. -/
inductive From where
  | start (p : Nat) | ending (d : Int) | current (d : Int)
deriving DecidableEq

/-- The position sought: `checked_add` and `checked_sub` (stream_writer.rs:106-123). -/
def From.target (len pos : Nat) : From → Option Nat
  | .start p => some p
  | .ending d => if 0 ≤ (len : Int) + d then some ((len : Int) + d).toNat else none
  | .current d => if 0 ≤ (pos : Int) + d then some ((pos : Int) + d).toNat else none

/-- `seek` (stream_writer.rs:104-125). -/
def W.seek (w : W) (f : From) : Bool × W :=
  let r := w.flush
  if r.1 then match f.target r.2.len r.2.pos with
    | some p => (true, { r.2 with pos := p })
    | none => (false, r.2)
  else r

/-- `set_len`: cuts the file or fills it up with zeros. -/
def resize (d : List Nat) (n : Nat) : List Nat := d.take n ++ List.replicate (n - d.length) 0

/-- `truncate` (stream_writer.rs:127-132; async_file.rs:33-36 remembers the size before the call). -/
def W.truncate (w : W) (n : Nat) : Bool × W :=
  let r := w.flush
  if r.1 then
    let c := W.call { r.2 with size := n }
    if c.1 then (true, { c.2 with disk := resize c.2.disk n, pos := n }) else c
  else r

/-- What is done to a writer. -/
inductive Op where
  | write (b : List Nat) | writeVec (bs : List (List Nat)) | flush | seek (f : From) | truncate (n : Nat)
deriving DecidableEq

def W.op (w : W) : Op → Bool × W
  | .write b => w.write b
  | .writeVec bs => w.writeVec bs
  | .flush => w.flush
  | .seek f => w.seek f
  | .truncate n => w.truncate n

/-- One after the other, whether or not they fail: the answers and the writer. -/
def W.run (w : W) : List Op → List Bool × W
  | [] => ([], w)
  | o :: l => let r := w.op o; let q := r.2.run l; (r.1 :: q.1, q.2)

/-! ## The log -/

/-- `WalWriter` (wal/writer.rs:11-17): the file and the size it believes the file to have; `sync` is the setting `wal_sync`. -/
structure Wal where
  file : W
  size : Nat
  sync : Bool
deriving DecidableEq

/-- `append_raft_entry` (wal/writer.rs:40-67) of a record, as bytes, and the position that `write_raft_entry` answers
(wal/mod.rs:180-193); `none` is an error. -/
def Wal.append (s : Wal) (r : List (List Nat)) : Option Nat × Wal :=
  let a := s.file.writeVec r
  if a.1 then
    if s.sync then
      let f := a.2.flush
      if f.1 then (some s.size, { s with file := f.2, size := s.size + r.flatten.length }) else (none, { s with file := f.2 })
    else (some s.size, { s with file := a.2, size := s.size + r.flatten.length })
  else (none, { s with file := a.2 })

/-- `WalWriter::truncate` (wal/writer.rs:84-92): the error is dropped. -/
def Wal.truncate (s : Wal) (n : Nat) : Wal :=
  if s.size ≤ n then s else { s with file := (s.file.truncate n).2, size := n }

/-- Records one after the other. -/
def Wal.run (s : Wal) : List (List (List Nat)) → List (Option Nat) × Wal
  | [] => ([], s)
  | r :: l => let a := s.append r; let q := a.2.run l; (a.1 :: q.1, q.2)

/-- What lies at a position. -/
def at' (d : List Nat) (p n : Nat) : List Nat := (d.drop p).take n

end Verif.Files
