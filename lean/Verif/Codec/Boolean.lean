import Verif.Common.Bytes
/-!
# Model: boolean columns — `tskv/src/tsm/codec/boolean.rs`

`none` stands for `Err` or a panic (index out of bounds).
-/
namespace Verif.Codec.Boolean

/-- `Encoding::BitPack as u8` (common/models/src/codec.rs:50). -/
def tagBitPack : Byte := 10
/-- `Encoding::Null as u8` (common/models/src/codec.rs:42). -/
def tagNull : Byte := 1

/-- `dst[i..].copy_from_slice(bs)`: overwrite in place. -/
def writeAt (dst : List Byte) (i : Nat) (bs : List Byte) : Option (List Byte) :=
  if i + bs.length ≤ dst.length then some (dst.take i ++ bs ++ dst.drop (i + bs.length)) else none

/-- `dst[index + 1] |= 128 >> (n & 7)` or `dst[index + 1] &= !(128 >> (n & 7))` with
`index = n >> 3` (boolean.rs:44-50). -/
def writeBit (dst : List Byte) (n : Nat) (v : Bool) : Option (List Byte) :=
  if n / 8 + 1 < dst.length then
    some (dst.modify (n / 8 + 1) fun b =>
      if v then b ||| (128#8 >>> (n % 8)) else b &&& ~~~(128#8 >>> (n % 8)))
  else none

/-- The loop `for &v in src` (boolean.rs:43-52). -/
def writeBits : List Byte → Nat → List Bool → Option (List Byte)
  | dst, _, [] => some dst
  | dst, n, v :: vs => (writeBit dst n v).bind fun dst' => writeBits dst' (n + 1) vs

/-- `bool_bitpack_encode` (boolean.rs:24-63) with an empty `dst`. -/
def encode (src : List Bool) : Option (List Byte) :=
  if src = [] then some []
  else
    let size := 1 + 8 + (src.length + 7) / 8
    let dst := (tagBitPack :: List.replicate size 0#8).set 1 (1#8 <<< 4)
    let ve := varEnc src.length
    (writeAt dst 2 ve).bind fun dst =>
      let n := 8 + ve.length * 8
      (writeBits dst n src).map fun dst =>
        let n' := n + src.length
        let length := if n' % 8 > 0 then n' / 8 + 1 else n' / 8
        dst.take (length + 1)

/-- The loop of `bool_bitpack_decode` (boolean.rs:94-106). -/
def decodeLoop (src : List Byte) (count : Nat) : List Bool → Nat → Option (List (Option Bool))
  | [], _ => some []
  | false :: m, i => (decodeLoop src count m i).map (none :: ·)
  | true :: m, i =>
    if count ≤ i then none
    else match src[i / 8]? with
      | none => none
      | some byte =>
        (decodeLoop src count m (i + 1)).map
          (some (decide ((byte >>> (7 - i % 8)) &&& 1#8 = 1#8)) :: ·)

/-- `bool_bitpack_decode` (boolean.rs:79-109). -/
def decode (src : List Byte) (mask : List Bool) : Option (List (Option Bool)) :=
  match src with
  | [] => some (List.replicate mask.length none)
  | [_] => none
  | _ :: b :: body =>
    if b = (1#8 <<< 4) then
      (varDec body).bind fun p => decodeLoop (body.drop p.2) p.1 mask 0
    else none

/-- `bool_without_compress_encode` (boolean.rs:65-75): the tag is written even for no values. -/
def plainEncode (src : List Bool) : List Byte :=
  tagNull :: src.map (fun b => if b then 1#8 else 0#8)

/-- The loop of `bool_without_compress_decode` (boolean.rs:121-133). -/
def plainDecodeLoop : List Bool → List Byte → List (Option Bool)
  | [], _ => []
  | false :: m, src => none :: plainDecodeLoop m src
  | true :: m, v :: src => some (decide (v = 1#8)) :: plainDecodeLoop m src
  | true :: m, [] => plainDecodeLoop m []

/-- `bool_without_compress_decode` (boolean.rs:110-136). -/
def plainDecode (src : List Byte) (mask : List Bool) : List (Option Bool) :=
  match src with
  | [] => []
  | _ :: body => plainDecodeLoop mask body

end Verif.Codec.Boolean
