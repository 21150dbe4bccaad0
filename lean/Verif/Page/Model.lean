import Verif.Common.Crc32
import Verif.Codec.Column
import Verif.Codec.Integer
import Verif.Codec.Timestamp
import Verif.Codec.Boolean
import Verif.Codec.Str
import Verif.Codec.Float
/-!
# Model: data pages — `tskv/src/tsm/page.rs`, `tskv/src/tsm/reader.rs`, `tskv/src/tsm/codec/mod.rs`

A page is a byte string: length of the null bitmap, number of rows, checksum, null bitmap, encoded
values.  `none` stands for `Err` or a panic (slicing out of bounds).  `i64`, `u64` and `f64` values are
64-bit patterns.  `Page::col_to_page` is only called by tests and left out.  The metadata stored beside
a page is modelled in `Verif/Stats`.
-/
namespace Verif.Page
open Verif.Codec

/-! ## Choice of the codec -/

/-- `Encoding` (common/models/src/codec.rs:38-53). -/
inductive Encoding where
  | default | null | delta | quantile | gzip | bzip | gorilla | snappy | zstd | zlib | bitPack | deltaTs | unknown
deriving DecidableEq

/-- `impl From<u8> for Encoding` (common/models/src/codec.rs:118-136). -/
def Encoding.ofByte (b : Byte) : Encoding :=
  match b.toNat with
  | 0 => .default | 1 => .null | 2 => .delta | 3 => .quantile | 4 => .gzip | 5 => .bzip | 6 => .gorilla
  | 7 => .snappy | 8 => .zstd | 9 => .zlib | 10 => .bitPack | 11 => .deltaTs | _ => .unknown

/-- `get_encoding` (tsm/codec/mod.rs:59-64, instance.rs). -/
def getEncoding : List Byte → Encoding
  | [] => .unknown
  | b :: _ => Encoding.ofByte b

/-- The number compressor of crate `pco` (`simpler_compress`, `simple_decompress`), trusted to be
lossless; its output is never empty (it begins with a header). -/
structure Pco where
  compress : List U64 → Option (List Byte)
  decompress : List Byte → Option (List U64)
  lossless : ∀ xs b, compress xs = some b → decompress b = some xs
  header : ∀ xs b, compress xs = some b → b ≠ []

/-- The external compressors and the UTF-8 check. -/
structure Lib where
  pcoInt : Pco
  pcoFloat : Pco
  gzip : Str.Compressor
  bzip : Str.Compressor
  snappy : Str.Compressor
  zstd : Str.Compressor
  zlib : Str.Compressor
  utf8 : List Byte → Bool

/-- `Encoding::Quantile as u8` (common/models/src/codec.rs:44). -/
def tagQuantile : Byte := 3

/-- `ts_pco_encode` (timestamp.rs:33-42), `i64_pco_encode`, `u64_pco_encode`, `f64_pco_encode`
(float.rs:245-254). -/
def pcoEncode (p : Pco) (src : List U64) : Option (List Byte) :=
  if src = [] then some [] else (p.compress src).map (tagQuantile :: ·)

/-- `ts_pco_decode_to_array` (timestamp.rs:325-346), also for `i64` and `u64`: when values run out
nothing is appended. -/
def pcoDecode (p : Pco) (src : List Byte) (mask : List Bool) : Option (List (Option U64)) :=
  match src with
  | [] => some (List.replicate mask.length none)
  | _ :: body => (p.decompress body).map (place mask)

/-- `f64_pco_decode` (float.rs:361-385): the tag alone means all NULL, too few values are an error. -/
def pcoDecodeF (p : Pco) (src : List Byte) (mask : List Bool) : Option (List (Option U64)) :=
  match src with
  | [] => some (List.replicate mask.length none)
  | _ :: body => if body = [] then some (List.replicate mask.length none) else (p.decompress body).bind (Float.spread mask)

/-- A codec object (tsm/codec/instance.rs). -/
structure Codec (α : Type) where
  enc : List α → Option (List Byte)
  dec : List Byte → List Bool → Option (List (Option α))

/-- `NullTimestampCodec`, `NullIntegerCodec`, `NullUnsignedCodec`. -/
def nullInt : Codec U64 := ⟨fun vs => some (Timestamp.plainEncode vs), Timestamp.plainDecode⟩
/-- `DeltaTsTimestampCodec`. -/
def deltaTs : Codec U64 := ⟨Timestamp.encode, Timestamp.decode⟩
/-- `DeltaIntegerCodec`. -/
def deltaInt : Codec U64 := ⟨Integer.encode, Integer.decode⟩
/-- `DeltaUnsignedCodec`. -/
def deltaUInt : Codec U64 := ⟨Integer.encodeU, Integer.decodeU⟩
/-- `QuantileTimestampCodec`, `QuantileIntegerCodec`, `QuantileUnsignedCodec`. -/
def quantileInt (L : Lib) : Codec U64 := ⟨pcoEncode L.pcoInt, pcoDecode L.pcoInt⟩

/-- `get_ts_codec` (tsm/codec/mod.rs:66-74). -/
def tsCodec (L : Lib) : Encoding → Codec U64
  | .null => nullInt | .delta => deltaInt | .deltaTs => deltaTs | .quantile => quantileInt L | _ => deltaTs

/-- `get_i64_codec` (tsm/codec/mod.rs:76-84). -/
def intCodec (L : Lib) : Encoding → Codec U64
  | .null => nullInt | .delta => deltaInt | .deltaTs => deltaTs | .quantile => quantileInt L | _ => deltaInt

/-- `get_u64_codec` (tsm/codec/mod.rs:86-93). -/
def uintCodec (L : Lib) : Encoding → Codec U64
  | .null => nullInt | .delta => deltaUInt | .quantile => quantileInt L | _ => deltaUInt

/-- `get_f64_codec` (tsm/codec/mod.rs:95-102). -/
def floatCodec (L : Lib) : Encoding → Codec U64
  | .null => ⟨fun vs => some (Float.plainEncode vs), Float.plainDecode⟩
  | .quantile => ⟨pcoEncode L.pcoFloat, pcoDecodeF L.pcoFloat⟩
  | .gorilla => ⟨Float.encode, Float.decode⟩
  | _ => ⟨Float.encode, Float.decode⟩

/-- `get_str_codec` (tsm/codec/mod.rs:104-114). -/
def strCodec (L : Lib) : Encoding → Codec (List Byte)
  | .null => ⟨fun vs => some (Str.plainEncode vs), Str.plainDecode L.utf8⟩
  | .gzip => ⟨fun vs => some (Str.encode64 .gzip L.gzip vs), Str.decode64 L.gzip L.utf8⟩
  | .bzip => ⟨fun vs => some (Str.encode64 .bzip L.bzip vs), Str.decode64 L.bzip L.utf8⟩
  | .snappy => ⟨Str.snappyEncode L.snappy, Str.snappyDecode L.snappy L.utf8⟩
  | .zstd => ⟨fun vs => some (Str.encode64 .zstd L.zstd vs), Str.decode64 L.zstd L.utf8⟩
  | .zlib => ⟨fun vs => some (Str.encode64 .zlib L.zlib vs), Str.decode64 L.zlib L.utf8⟩
  | _ => ⟨Str.snappyEncode L.snappy, Str.snappyDecode L.snappy L.utf8⟩

/-- `get_bool_codec` (tsm/codec/mod.rs:116-122). -/
def boolCodec : Encoding → Codec Bool
  | .null => ⟨fun vs => some (Boolean.plainEncode vs), fun b m => some (Boolean.plainDecode b m)⟩
  | .bitPack => ⟨Boolean.encode, Boolean.decode⟩
  | _ => ⟨Boolean.encode, Boolean.decode⟩

/-- `PhysicalCType` of a column; tags are stored like strings. -/
inductive Kind where
  | time | int | uint | float | bool | str
deriving DecidableEq

/-- The values of a column. -/
def Kind.Val : Kind → Type
  | .time | .int | .uint | .float => U64
  | .bool => Bool
  | .str => List Byte

/-- Which of the six functions above is called for a column: `arrow_array_to_page` (page.rs:107-331),
`colref_to_page` (page.rs:520-575), `data_buf_to_arrow_array` (reader.rs:663-729). -/
def codec (L : Lib) : (k : Kind) → Encoding → Codec k.Val
  | .time => tsCodec L
  | .int => intCodec L
  | .uint => uintCodec L
  | .float => floatCodec L
  | .bool => boolCodec
  | .str => strCodec L

/-! ## Null bitmaps -/

/-- Bit `i` of a bitmap, least significant bit first (arrow `bit_util::get_bit`). -/
def getBit (buf : List Byte) (i : Nat) : Option Bool := buf[i / 8]?.map (·.getLsbD (i % 8))

/-- `BooleanBufferBuilder::append` (arrow-buffer): room for one more bit, then `set_bit`. -/
def appendBit (s : List Byte × Nat) (v : Bool) : List Byte × Nat :=
  let buf := s.1 ++ List.replicate ((s.2 + 1 + 7) / 8 - s.1.length) 0#8
  (if v then buf.modify (s.2 / 8) (· ||| (1#8 <<< (s.2 % 8))) else buf, s.2 + 1)

/-- The bytes of a builder after `append`ing the bits of a mask; also `BooleanBuffer::new_set`. -/
def packBits (m : List Bool) : List Byte := (m.foldl appendBit ([], 0)).1

/-- `append_packed_range(0..n, buf)`: out of bounds panics. -/
def unpackBits (buf : List Byte) (n : Nat) : Option (List Bool) := (List.range n).mapM (getBit buf)

/-! ## Writing -/

/-- The bytes of a page: length of the bitmap, number of rows, checksum, bitmap, data
(page.rs:341-346, 587-592). -/
def layout (lenBitset : Nat) (bitset : List Byte) (rows : Nat) (crc : BitVec 32) (data : List Byte) : List Byte :=
  beEnc 4 lenBitset ++ beEnc 8 rows ++ beEnc 4 crc.toNat ++ bitset ++ data

/-- Putting the bytes of a page together (page.rs:333-347, 580-592). -/
def assemble (lenBitset : Nat) (bitset : List Byte) (rows : Nat) (data : List Byte) : List Byte :=
  layout lenBitset bitset rows (Crc32.crc32 data) data

/-- `Page::colref_to_page` (page.rs:512-603), used when the memory cache is flushed: `valid` the null
mask, `vals` the non-NULL values (`ColumnDataRef::push`, column_data_ref.rs:78-158). -/
def colrefToPage (L : Lib) (k : Kind) (e : Encoding) (valid : List Bool) (vals : List k.Val) : Option (List Byte) :=
  ((codec L k e).enc vals).map fun data => assemble ((valid.length + 7) / 8) (packBits valid) valid.length data

/-- The null buffer of an arrow array: bytes and the bit position of the first row (arrow
`NullBuffer`: `buffer()` are all the bytes, `offset()` the position). -/
structure NullBuf where
  buf : List Byte
  offset : Nat

/-- An arrow array: rows, and how the NULLs are represented.  `nulls = none` means no row is NULL. -/
structure Arr (α : Type) where
  rows : List (Option α)
  nulls : Option NullBuf

/-- What arrow guarantees: the null buffer and the rows agree. -/
def Arr.Valid {α : Type} (a : Arr α) : Prop :=
  match a.nulls with
  | none => ∀ r ∈ a.rows, r.isSome
  | some nb => ∀ i r, a.rows[i]? = some r → getBit nb.buf (nb.offset + i) = some r.isSome

/-- `Page::arrow_array_to_page` (page.rs:101-353), used by compaction: the bytes of the null buffer are
copied, whatever the bit position of the first row. -/
def arrowToPage (L : Lib) (k : Kind) (e : Encoding) (a : Arr k.Val) : Option (List Byte) :=
  let bitset := match a.nulls with
    | none => packBits (List.replicate a.rows.length true)
    | some nb => nb.buf
  ((codec L k e).enc (values a.rows)).map fun data => assemble bitset.length bitset a.rows.length data

/-! ## Reading -/

/-- `bytes[from..to]`: out of bounds panics. -/
def slice (bytes : List Byte) (lo hi : Nat) : Option (List Byte) :=
  if lo ≤ hi ∧ hi ≤ bytes.length then some ((bytes.take hi).drop lo) else none

/-- `decode_be_u32(&bytes[0..4]) as usize` (page.rs:87, 92). -/
def bitsetLen (bytes : List Byte) : Option Nat := (slice bytes 0 4).map beDec

/-- `decode_be_u64(&bytes[4..12]) as usize` (page.rs:79). -/
def rowCount (bytes : List Byte) : Option Nat := (slice bytes 4 12).map beDec

/-- `Page::null_bitset_slice` (page.rs:86-89). -/
def nullBitsetSlice (bytes : List Byte) : Option (List Byte) :=
  (bitsetLen bytes).bind fun n => slice bytes 16 (16 + n)

/-- `Page::data_buffer` (page.rs:91-94). -/
def dataBuffer (bytes : List Byte) : Option (List Byte) :=
  (bitsetLen bytes).bind fun n => slice bytes (16 + n) bytes.length

/-- `Page::null_bitset` (page.rs:78-84). -/
def nullBitset (bytes : List Byte) : Option (List Bool) :=
  (rowCount bytes).bind fun n => (nullBitsetSlice bytes).bind fun buf => unpackBits buf n

/-- `Page::crc_validation` (page.rs:57-76): `some false` is the error `TsmPageFileHashCheckFailed`,
`none` a panic. -/
def crcValidation (bytes : List Byte) : Option Bool :=
  (slice bytes 12 16).bind fun crc => (dataBuffer bytes).map fun data => decide (beDec crc = (Crc32.crc32 data).toNat)

/-- `Page::to_arrow_array`, `data_buf_to_arrow_array` (page.rs:96-98, reader.rs:658-731): the codec is
chosen by the column type and the first byte of the data. -/
def toArrow (L : Lib) (k : Kind) (bytes : List Byte) : Option (List (Option k.Val)) :=
  (dataBuffer bytes).bind fun data => (nullBitset bytes).bind fun mask => (codec L k (getEncoding data)).dec data mask

/-- Reading one page of a data file: `read_page`, `read_adjacent_pages`, `decode_buf_to_pages`
(reader.rs:235-266, 355-386, 476-493), then `decode_pages` without deletions (reader.rs:543-550): the
checksum is checked first. -/
def readPage (L : Lib) (k : Kind) (bytes : List Byte) : Option (List (Option k.Val)) :=
  (crcValidation bytes).bind fun ok => if ok then toArrow L k bytes else none

end Verif.Page
