import Verif.Common.Bytes
/-!
# Model: string columns — `tskv/src/tsm/codec/string.rs`

The general-purpose compressors (snap, zstd, flate2, bzip2) are parameters.  `validUtf8` is
`String::from_utf8(..).is_ok()`.  `none` stands for `Err` or a panic.
-/
namespace Verif.Codec.Str

/-- A lossless byte compressor (external crate). -/
structure Compressor where
  compress : List Byte → List Byte
  decompress : List Byte → Option (List Byte)
  lossless : ∀ x, decompress (compress x) = some x

/-- `Encoding` tags (common/models/src/codec.rs:42-49). -/
inductive Kind where
  | null | snappy | zstd | gzip | bzip | zlib
deriving DecidableEq

/-- The tag bytes (common/models/src/codec.rs:42-49). -/
def Kind.tag : Kind → Byte
  | .null => 1 | .gzip => 4 | .bzip => 5 | .snappy => 7 | .zstd => 8 | .zlib => 9

/-- The body built by `str_snappy_encode` (string.rs:66-74): variable-length length, then bytes. -/
def frameVar : List (List Byte) → List Byte
  | [] => []
  | s :: ss => varEnc s.length ++ s ++ frameVar ss

/-- The body built by the other encoders (string.rs:94-98, 108-112, ...): 8-byte length, then bytes. -/
def frame64 : List (List Byte) → List Byte
  | [] => []
  | s :: ss => beEnc 8 s.length ++ s ++ frame64 ss

/-- `str_snappy_encode` (string.rs:31-88): tag, header byte `1 << 4`, compressed frame.  Strings of
`i32::MAX` bytes or more panic (`assert!(len < MAX_I32)`); buffer sizing is not modelled. -/
def snappyEncode (c : Compressor) (src : List (List Byte)) : Option (List Byte) :=
  if src = [] then some []
  else if src.all (fun s => s.length < 2 ^ 31 - 1) then
    some (Kind.snappy.tag :: (1#8 <<< 4) :: c.compress (frameVar src))
  else none

/-- `str_zstd_encode`, `str_gzip_encode`, `str_bzip_encode`, `str_zlib_encode`
(string.rs:90-164), which differ in tag and compressor. -/
def encode64 (k : Kind) (c : Compressor) (src : List (List Byte)) : List Byte :=
  if src = [] then [] else k.tag :: c.compress (frame64 src)

/-- `str_without_compress_encode` (string.rs:166-180). -/
def plainEncode (src : List (List Byte)) : List Byte :=
  if src = [] then [] else Kind.null.tag :: frame64 src

/-- The loop of `str_snappy_decode_to_array` (string.rs:244-272); `src` is `decoded_bytes[i..]`. -/
def splitVar (validUtf8 : List Byte → Bool) : List Bool → List Byte → Option (List (Option (List Byte)))
  | [], _ => some []
  | false :: m, src => (splitVar validUtf8 m src).map (none :: ·)
  | true :: m, src =>
    if src = [] then splitVar validUtf8 m src
    else match varDec src with
      | none => none
      | some (len, n) =>
        if src.length < n + len then none
        else
          let s := (src.drop n).take len
          if validUtf8 s then (splitVar validUtf8 m (src.drop (n + len))).map (some s :: ·) else none

/-- `split_stream_to_array` (string.rs:290-310); slicing out of bounds panics. -/
def split64 (validUtf8 : List Byte → Bool) : List Bool → List Byte → Option (List (Option (List Byte)))
  | [], _ => some []
  | false :: m, src => (split64 validUtf8 m src).map (none :: ·)
  | true :: m, src =>
    if src.length < 8 then none
    else
      let len := beDec (src.take 8)
      if src.length < 8 + len then none
      else
        let s := (src.drop 8).take len
        if validUtf8 s then (split64 validUtf8 m (src.drop (8 + len))).map (some s :: ·) else none

/-- `str_snappy_decode_to_array` (string.rs:226-274). -/
def snappyDecode (c : Compressor) (validUtf8 : List Byte → Bool) (src : List Byte) (mask : List Bool) :
    Option (List (Option (List Byte))) :=
  match src with
  | [] => some (List.replicate mask.length none)
  | [_] => none
  | _ :: _ :: body => (c.decompress body).bind (splitVar validUtf8 mask)

/-- `str_{zstd,gzip,bzip,zlib}_decode_to_array` (string.rs:325-446). -/
def decode64 (c : Compressor) (validUtf8 : List Byte → Bool) (src : List Byte) (mask : List Bool) :
    Option (List (Option (List Byte))) :=
  match src with
  | [] => some (List.replicate mask.length none)
  | _ :: body => (c.decompress body).bind (split64 validUtf8 mask)

/-- `str_without_compress_decode_to_array` (string.rs:461-472). -/
def plainDecode (validUtf8 : List Byte → Bool) (src : List Byte) (mask : List Bool) :
    Option (List (Option (List Byte))) :=
  match src with
  | [] => some (List.replicate mask.length none)
  | _ :: body => split64 validUtf8 mask body

end Verif.Codec.Str
