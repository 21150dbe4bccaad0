import Verif.Codec.Integer
/-!
# Model: timestamp columns — `tskv/src/tsm/codec/timestamp.rs`

`i64` values are represented by their 64-bit pattern; arithmetic wraps as in release builds.
`none` stands for `Err` or a panic.  The divisor `div`, always a power of ten, is represented by its
exponent; `((div as f64).log10()) as u8` is taken to be that exponent (floating-point `log10` is
trusted to be exact on the powers of ten up to 10^12).
-/
namespace Verif.Codec.Timestamp

/-- `Encoding::DeltaTs as u8` (common/models/src/codec.rs:51). -/
def tagDeltaTs : Byte := 11

/-- `deltas[1..]` after the loop timestamp.rs:59-64 (from the back, so `deltas[i - 1]` is original). -/
def diffs (prev : U64) : List U64 → List U64
  | [] => []
  | x :: xs => (x - prev) :: diffs x xs

/-- `use_rle` (timestamp.rs:65-71), only reached when there is at least one delta. -/
def useRle : List U64 → Bool
  | [] => false
  | d1 :: ds => ds.all (fun d => d1 = d)

/-- `while div > 1 && delta % div != 0 { div /= 10; }` (timestamp.rs:103-105, 145-147) started at
`div = 10^e`. -/
def shrink (delta : Nat) : Nat → Nat
  | 0 => 0
  | e + 1 => if delta % 10 ^ (e + 1) = 0 then e + 1 else shrink delta e

/-- The search for the common divisor (timestamp.rs:98-106).  The `break` at `div <= 1` is the same
as going on, `shrink` leaving exponent 0 alone. -/
def findScale (ds : List U64) : Nat := ds.foldl (fun e d => shrink d.toNat e) 12

/-- `encode_rle` and `dst[1] |= Rle << 4` (timestamp.rs:74-79, 133-172); `dst` holds one byte on
entry.  `delta / div` for `div = 1` is `delta`, so the two branches of timestamp.rs:154-165 are one. -/
def encodeRle (v delta : U64) (count : Nat) : List Byte :=
  let e := shrink delta.toNat 12
  [(2#8 <<< 4) ||| BitVec.ofNat 8 e] ++ be64 v ++ varEnc (delta.toNat / 10 ^ e)
    ++ varEnc (count % 2 ^ 64)

/-- `ts_zigzag_simple8b_encode` (timestamp.rs:51-121) with an empty `dst`. -/
def encode : List U64 → Option (List Byte)
  | [] => some []
  | first :: rest =>
    let ds := diffs first rest
    if useRle ds then
      some (tagDeltaTs :: encodeRle first (ds.headD 0) (ds.length + 1))
    else if Simple8b.maxValue < (Integer.maxOf ds).toNat then
      some (tagDeltaTs :: (0#8 <<< 4) :: (first :: ds).flatMap be64)
    else
      let e := findScale ds
      (Simple8b.encode (ds.map fun d => BitVec.ofNat 64 (d.toNat / 10 ^ e))).map fun packed =>
        tagDeltaTs :: ((1#8 <<< 4) ||| BitVec.ofNat 8 e) :: be64 first ++ packed

/-- The loop of `decode_uncompressed_to_array` (timestamp.rs:209-221); `src` is `src[i..]`.
When the bytes are exhausted nothing is appended. -/
def decodeUncompressedLoop : List Bool → List Byte → U64 → Option (List (Option U64))
  | [], _, _ => some []
  | false :: m, src, prev => (decodeUncompressedLoop m src prev).map (none :: ·)
  | true :: m, src, prev =>
    if src = [] then decodeUncompressedLoop m src prev
    else if src.length < 8 then none
    else
      let next := prev + ofBe64 (src.take 8)
      (decodeUncompressedLoop m (src.drop 8) next).map (some next :: ·)

/-- `decode_uncompressed_to_array` (timestamp.rs:199-223). -/
def decodeUncompressed (src : List Byte) (mask : List Bool) : Option (List (Option U64)) :=
  if src = [] ∨ src.length % 8 ≠ 0 then none else decodeUncompressedLoop mask src 0

/-- The loop of `decode_rle_to_array` (timestamp.rs:243-257). -/
def decodeRleLoop (delta : U64) : List Bool → Bool → U64 → List (Option U64)
  | [], _, _ => []
  | false :: m, isFirst, first => none :: decodeRleLoop delta m isFirst first
  | true :: m, true, first => some first :: decodeRleLoop delta m false first
  | true :: m, false, first => some (first + delta) :: decodeRleLoop delta m false (first + delta)

/-- `decode_rle_to_array` (timestamp.rs:225-259); `hd` is `src[0]`, `body` is `src[1..]`. -/
def decodeRle (hd : Byte) (body : List Byte) (mask : List Bool) : Option (List (Option U64)) :=
  if body.length < 8 then none
  else (varDec (body.drop 8)).map fun p =>
    decodeRleLoop (BitVec.ofNat 64 (p.1 * 10 ^ (hd &&& 0x0f).toNat)) mask true
      (ofBe64 (body.take 8))

/-- The `while idx < bit_set.len()` loop of `decode_simple8b_to_array` (timestamp.rs:284-299). -/
def decodeSimple8bRest (e : Nat) : List Bool → List U64 → U64 → List (Option U64)
  | [], _, _ => []
  | false :: m, vs, next => none :: decodeSimple8bRest e m vs next
  | true :: m, v :: vs, next =>
    let next' := next + BitVec.ofNat 64 (v.toNat * 10 ^ e)
    some next' :: decodeSimple8bRest e m vs next'
  | true :: m, [], next => decodeSimple8bRest e m [] next

/-- `decode_simple8b_to_array` (timestamp.rs:261-301).  The first row always consumes the first
value, valid or not (timestamp.rs:274-279). -/
def decodeSimple8b (hd : Byte) (body : List Byte) (mask : List Bool) :
    Option (List (Option U64)) :=
  if body.length < 8 then none
  else match mask with
    | [] => none
    | b :: m =>
      let next := ofBe64 (body.take 8)
      (Simple8b.decode (body.drop 8)).map fun res =>
        (if b then some next else none) :: decodeSimple8bRest (hd &&& 0x0f).toNat m res next

/-- `ts_zigzag_simple8b_decode_to_array` (timestamp.rs:174-197). -/
def decode (src : List Byte) (mask : List Bool) : Option (List (Option U64)) :=
  match src with
  | [] => some (List.replicate mask.length none)
  | [_] => none
  | _ :: b :: body =>
    if b >>> 4 = 0 then decodeUncompressed body mask
    else if b >>> 4 = 2 then decodeRle b body mask
    else if b >>> 4 = 1 then decodeSimple8b b body mask
    else none

/-- `ts_without_compress_encode` (timestamp.rs:21-31), also `i64_without_compress_encode`
(integer.rs:30-32), `u64_without_compress_encode` (unsigned.rs:25-28) and
`f64_without_compress_encode` (float.rs, same text on bit patterns). -/
def plainEncode (src : List U64) : List Byte :=
  if src = [] then [] else Integer.tagNull :: src.flatMap be64

/-- The loop of `ts_without_compress_decode_to_array` (timestamp.rs:313-324): `src.chunks(8)`, an
exhausted iterator appends nothing.  A last chunk shorter than 8 bytes would be read out of bounds
(`decode_be_i64` is unsafe); that is `none` here. -/
def plainDecodeLoop : List Bool → List Byte → Option (List (Option U64))
  | [], _ => some []
  | false :: m, src => (plainDecodeLoop m src).map (none :: ·)
  | true :: m, src =>
    if src = [] then plainDecodeLoop m src
    else if src.length < 8 then none
    else (plainDecodeLoop m (src.drop 8)).map (some (ofBe64 (src.take 8)) :: ·)

/-- `ts_without_compress_decode_to_array` (timestamp.rs:303-326). -/
def plainDecode (src : List Byte) (mask : List Bool) : Option (List (Option U64)) :=
  match src with
  | [] => some (List.replicate mask.length none)
  | _ :: body => plainDecodeLoop mask body

end Verif.Codec.Timestamp
