import Verif.Codec.Simple8b
/-!
# Model: signed and unsigned integer columns — `tskv/src/tsm/codec/integer.rs`, `unsigned.rs`

`i64` values are represented by their 64-bit pattern, so `x as u64` and `x as i64` are the identity.
Arithmetic wraps: the code uses `wrapping_sub`/`wrapping_add` except in `decode_simple8b_to_array`,
where `next += ..` (integer.rs:244) wraps in release builds only (`overflow-checks = false`).
`none` stands for `Err` or a panic.
-/
namespace Verif.Codec.Integer

/-- `Encoding::Delta as u8` (common/models/src/codec.rs:43). -/
def tagDelta : Byte := 2
/-- `Encoding::Null as u8` (common/models/src/codec.rs:42). -/
def tagNull : Byte := 1

/-- `zig_zag_encode` (integer.rs:101-103): `((v << 1) ^ (v >> 63)) as u64`, the right shift is
arithmetic. -/
def zigZagEncode (v : U64) : U64 := (v <<< 1) ^^^ (v.sshiftRight 63)

/-- `zig_zag_decode` (integer.rs:107-109):
`((v >> 1) ^ ((((v & 1) as i64) << 63) >> 63) as u64) as i64`. -/
def zigZagDecode (v : U64) : U64 := (v >>> 1) ^^^ (((v &&& 1#64) <<< 63).sshiftRight 63)

/-- `deltas[1..]` after the loop of integer.rs:48-53.  The loop runs from the back, so every
`deltas[i - 1]` it reads is still the original value. -/
def diffs (prev : U64) : List U64 → List U64
  | [] => []
  | x :: xs => zigZagEncode (x - prev) :: diffs x xs

/-- `max` after the loop of integer.rs:48-53. -/
def maxOf (ds : List U64) : U64 := ds.foldl (fun m d => if m < d then d else m) 0#64

/-- `use_rle` (integer.rs:58-65): at least two deltas and all equal to the first one. -/
def useRle : List U64 → Bool
  | d1 :: d2 :: ds => (d2 :: ds).all (fun d => d1 = d)
  | _ => false

/-- `encode_rle` together with `dst[1] |= Rle << 4` (integer.rs:71-72, 122-138); `dst` holds one
byte (the tag) on entry, so that the fixed offset 10 is the end of the first value. -/
def encodeRle (v delta : U64) (count : Nat) : List Byte :=
  [(2#8 <<< 4)] ++ be64 v ++ varEnc delta.toNat ++ varEnc (count % 2 ^ 64)

/-- `i64_zigzag_simple8b_encode` (integer.rs:40-94) with an empty `dst`. -/
def encode : List U64 → Option (List Byte)
  | [] => some []
  | first :: rest =>
    let ds := diffs first rest
    let d0 := zigZagEncode first
    if useRle ds then
      some (tagDelta :: encodeRle d0 (ds.headD 0) ds.length)
    else if Simple8b.maxValue < (maxOf ds).toNat then
      some (tagDelta :: (0#8 <<< 4) :: (d0 :: ds).flatMap be64)
    else
      (Simple8b.encode ds).map fun packed => tagDelta :: (1#8 <<< 4) :: be64 d0 ++ packed

/-- `decode_uncompressed_to_array`, the loop (integer.rs:169-178); `src` is `src[i..]`. -/
def decodeUncompressedLoop : List Bool → List Byte → U64 → Option (List (Option U64))
  | [], _, _ => some []
  | false :: m, src, prev => (decodeUncompressedLoop m src prev).map (none :: ·)
  | true :: m, src, prev =>
    if src.length < 8 then none
    else
      let next := prev + zigZagDecode (ofBe64 (src.take 8))
      (decodeUncompressedLoop m (src.drop 8) next).map (some next :: ·)

/-- `decode_uncompressed_to_array` (integer.rs:161-180). -/
def decodeUncompressed (src : List Byte) (mask : List Bool) : Option (List (Option U64)) :=
  if src = [] ∨ src.length % 8 ≠ 0 then none else decodeUncompressedLoop mask src 0

/-- The loop of `decode_rle_to_array` (integer.rs:195-208). -/
def decodeRleLoop (deltaZ : U64) : List Bool → Bool → U64 → List (Option U64)
  | [], _, _ => []
  | false :: m, isFirst, first => none :: decodeRleLoop deltaZ m isFirst first
  | true :: m, true, first => some first :: decodeRleLoop deltaZ m false first
  | true :: m, false, first => some (first + deltaZ) :: decodeRleLoop deltaZ m false (first + deltaZ)

/-- `decode_rle_to_array` (integer.rs:182-210). -/
def decodeRle (src : List Byte) (mask : List Bool) : Option (List (Option U64)) :=
  if src.length < 8 then none
  else (varDec (src.drop 8)).map fun p =>
    decodeRleLoop (zigZagDecode (BitVec.ofNat 64 p.1)) mask true (zigZagDecode (ofBe64 (src.take 8)))

/-- The loop of `decode_simple8b_to_array` (integer.rs:225-247) once the first value was emitted;
`vs` is the iterator over the unpacked words. -/
def decodeSimple8bRest : List Bool → List U64 → U64 → List (Option U64)
  | [], _, _ => []
  | false :: m, vs, next => none :: decodeSimple8bRest m vs next
  | true :: m, v :: vs, next =>
    some (next + zigZagDecode v) :: decodeSimple8bRest m vs (next + zigZagDecode v)
  | true :: m, [], next => decodeSimple8bRest m [] next

/-- The loop of `decode_simple8b_to_array` (integer.rs:225-247) before the first valid row: the
packed words are only unpacked at the first valid row. -/
def decodeSimple8bLoop (src : List Byte) : List Bool → Option (List (Option U64))
  | [] => some []
  | false :: m => (decodeSimple8bLoop src m).map (none :: ·)
  | true :: m =>
    let next := zigZagDecode (ofBe64 (src.take 8))
    (Simple8b.decode (src.drop 8)).map fun res => some next :: decodeSimple8bRest m res next

/-- `decode_simple8b_to_array` (integer.rs:212-249). -/
def decodeSimple8b (src : List Byte) (mask : List Bool) : Option (List (Option U64)) :=
  if src.length < 8 then none else decodeSimple8bLoop src mask

/-- `i64_zigzag_simple8b_decode_to_array` (integer.rs:140-159). -/
def decode (src : List Byte) (mask : List Bool) : Option (List (Option U64)) :=
  match src with
  | [] => some (List.replicate mask.length none)
  | [_] => none
  | _ :: b :: body =>
    if b >>> 4 = 0 then decodeUncompressed body mask
    else if b >>> 4 = 2 then decodeRle body mask
    else if b >>> 4 = 1 then decodeSimple8b body mask
    else none

/-- `u64_zigzag_simple8b_encode` (unsigned.rs:15-18): reinterpret as `i64`. -/
def encodeU (src : List U64) : Option (List Byte) := encode src

/-- `u64_zigzag_simple8b_decode` (unsigned.rs:31-45): decode as `i64`, reinterpret the buffer. -/
def decodeU (src : List Byte) (mask : List Bool) : Option (List (Option U64)) :=
  if src = [] then some (List.replicate mask.length none) else decode src mask

end Verif.Codec.Integer
