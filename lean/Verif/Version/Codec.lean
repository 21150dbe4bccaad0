import Verif.Version.Model
/-!
# Model: edits as bytes

* `VersionEdit::encode`, `decode` (version.rs:458-464) — `bincode` 1.x: fields in order, integers of fixed width with the lowest
  byte first, `Vec` and `String` as a length of 8 bytes and the elements, enums as a number of 4 bytes, bytes behind the value
  are ignored
* `VersionEdit::encode_vec`, `decode_vec` (version.rs:466-497)
* `Summary::write_record` (summary.rs:218-230), the reading loop of `Summary::recover` (summary.rs:61-83)

Simplifications: the crate `bincode` is not part of the repository, its format is taken from its documentation; a name is a list
of bytes, and the check that it is UTF-8 is left out (the encoder only writes strings).
-/
namespace Verif.Version
open Verif.Time Verif.Wal

/-! ## Integers -/

/-- `to_le_bytes`. -/
def leEnc (n x : Nat) : Bytes := (beEnc n x).reverse
/-- `from_le_bytes`. -/
def leDec (b : Bytes) : Nat := beDec b.reverse

/-- The 64 bits of an `i64`. -/
def i64Enc (x : Int) : Bytes := leEnc 8 (BitVec.ofInt 64 x).toNat

/-- A decoder: the value and the bytes that are left, or an error. -/
abbrev Dec (α : Type) := Bytes → Option (α × Bytes)

/-- Reading an unsigned integer of `n` bytes. -/
def decNat (n : Nat) : Dec Nat := fun b => if b.length < n then none else some (leDec (b.take n), b.drop n)

/-- Reading an `i64`. -/
def decI64 : Dec Int := fun b => (decNat 8 b).map fun p => ((BitVec.ofNat 64 p.1).toInt, p.2)

/-- Reading a `bool`: bytes other than 0 and 1 are an error. -/
def decBool : Dec Bool := fun b => (decNat 1 b).bind fun p =>
  if p.1 = 0 then some (false, p.2) else if p.1 = 1 then some (true, p.2) else none

/-- Reading `k` values. -/
def decMany {α : Type} (d : Dec α) : Nat → Dec (List α)
  | 0, b => some ([], b)
  | k + 1, b => (d b).bind fun p => (decMany d k p.2).map fun q => (p.1 :: q.1, q.2)

/-- Reading a `Vec`. -/
def decVec {α : Type} (d : Dec α) : Dec (List α) := fun b => (decNat 8 b).bind fun p => decMany d p.1 p.2

/-- Writing a `Vec`. -/
def encVec {α : Type} (e : α → Bytes) (l : List α) : Bytes := leEnc 8 l.length ++ (l.map e).flatten

/-- Reading a `String`. -/
def decStr : Dec Bytes := fun b => (decNat 8 b).bind fun p =>
  if p.2.length < p.1 then none else some (p.2.take p.1, p.2.drop p.1)

/-! ## The types -/

/-- `CompactMeta` (version.rs:244-253). -/
def encMeta (m : Meta) : Bytes :=
  leEnc 8 m.id ++ (leEnc 8 m.size ++ (leEnc 4 m.vnode ++ (leEnc 4 m.level ++
    (i64Enc m.minTs ++ (i64Enc m.maxTs ++ leEnc 1 (if m.delta then 1 else 0))))))

def decMeta : Dec Meta := fun b =>
  (decNat 8 b).bind fun (id, b) => (decNat 8 b).bind fun (size, b) => (decNat 4 b).bind fun (vnode, b) =>
  (decNat 4 b).bind fun (level, b) => (decI64 b).bind fun (lo, b) => (decI64 b).bind fun (hi, b) =>
  (decBool b).bind fun (delta, b) => some (⟨id, size, vnode, level, lo, hi, delta⟩, b)

/-- `VnodeAction` (version.rs:534-539): the position of the variant. -/
def Action.tag : Action → Nat
  | .add => 0
  | .delete => 1
  | .update => 2

def decAction : Dec Action := fun b => (decNat 4 b).bind fun p =>
  if p.1 = 0 then some (.add, p.2) else if p.1 = 1 then some (.delete, p.2) else if p.1 = 2 then some (.update, p.2) else none

/-- `VersionEdit::encode` (version.rs:458-460); `partly_del_files` is skipped. -/
def encEdit (e : Edit) : Bytes :=
  leEnc 8 e.seq ++ (leEnc 8 e.fileId ++ (i64Enc e.maxLevelTs ++ (encVec encMeta e.add ++ (encVec encMeta e.del ++
    (leEnc 4 e.act.tag ++ (leEnc 4 e.vnode ++ (leEnc 8 e.name.length ++ e.name)))))))

def decEditAt : Dec Edit := fun b =>
  (decNat 8 b).bind fun (seq, b) => (decNat 8 b).bind fun (fileId, b) => (decI64 b).bind fun (ts, b) =>
  (decVec decMeta b).bind fun (add, b) => (decVec decMeta b).bind fun (del, b) => (decAction b).bind fun (act, b) =>
  (decNat 4 b).bind fun (vnode, b) => (decStr b).bind fun (name, b) => some (⟨seq, fileId, ts, add, del, [], act, vnode, name⟩, b)

/-- `VersionEdit::decode` (version.rs:462-464). -/
def decEdit (b : Bytes) : Option Edit := (decEditAt b).map Prod.fst

/-! ## Batches -/

/-- `VersionEdit::encode_vec` (version.rs:466-477): each edit behind its length, 4 bytes with the highest first. -/
def encodeVec (es : List Edit) : Bytes := (es.map fun e => beEnc 4 (encEdit e).length ++ encEdit e).flatten

/-- `VersionEdit::decode_vec` (version.rs:479-497); `none` is an error of `decode`. -/
def decodeVec (b : Bytes) : Option (List Edit) :=
  if b.length < 4 then some []
  else
    let n := beDec (b.take 4)
    let r := b.drop 4
    if r.length < n then some []
    else (decEdit (r.take n)).bind fun e => (decodeVec (r.drop n)).map fun es => e :: es
termination_by b.length
decreasing_by simp only [List.length_drop]; omega

/-! ## The manifest file -/

/-- The record of an edit (summary.rs:218-230, record_file/mod.rs:74-88). -/
def editPut (e : Edit) : Put := ⟨1#8, 1#8, encEdit e⟩

/-- `Summary::recover` from the bytes of the file (summary.rs:53-131); `none` is an error or a panic. -/
def recoverFile (crc : Bytes → BitVec 32) (vnode : Nat) (order : List (Nat × Meta) → List (Nat × Meta)) (f : Bytes) :
    Option (Option (Ver × Nat)) :=
  match readFile crc Policy.summary f with
  | (rs, some .eof) => (rs.mapM fun r => decEdit r.data).bind (recover vnode order)
  | _ => none

end Verif.Version
