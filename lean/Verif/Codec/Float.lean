import Verif.Common.Bytes
/-!
# Model: floating point columns — `tskv/src/tsm/codec/float.rs`

A DOUBLE is its 64-bit pattern (`to_bits`), so `f64::from_bits` is the identity.  `usize` and `u8` counters are natural numbers; where a
`u8` subtraction can wrap (`overflow-checks = false`) it is written with `subU8`.  `none` stands for `Err` or a panic (index out of bounds).
The PCO codec (`f64_pco_encode`, float.rs:245-254, 361-384) is an external compressor and not modelled.
-/
namespace Verif.Codec.Float

/-- `Encoding::Gorilla as u8` (common/models/src/codec.rs:47). -/
def tagGorilla : Byte := 6
/-- `Encoding::Null as u8` (common/models/src/codec.rs:42). -/
def tagNull : Byte := 1

/-- `SENTINEL` (float.rs:16). -/
def sentinel : U64 := 0x7ff80000000000ff#64

/-- `u64::leading_zeros` (Rust std): the place of the first one, 64 if there is none. -/
def leadingZeros (x : U64) : Nat := (List.range 64).findIdx fun j => x.getMsbD j

/-- `u64::trailing_zeros` (Rust std): the place of the last one, counted from the end. -/
def trailingZeros (x : U64) : Nat := (List.range 64).findIdx fun j => x.getLsbD j

/-! ## Encoder -/

/-- `while k >= dst.len() { dst.push(0) }` (float.rs:73-75 and others). -/
def grow (dst : List Byte) (k : Nat) : List Byte := dst ++ List.replicate (k + 1 - dst.length) 0#8

/-- `if k >= dst.len() { dst.push(0) }` (float.rs:92-94 and others). -/
def growOne (dst : List Byte) (k : Nat) : List Byte := if dst.length ≤ k then dst ++ [0#8] else dst

/-- `dst[i] |= b`. -/
def orAt (dst : List Byte) (i : Nat) (b : Byte) : Option (List Byte) :=
  if i < dst.length then some (dst.modify i (· ||| b)) else none

/-- `dst[(n >> 3) + 1] |= 128 >> (n & 7)` (float.rs:81, 136). -/
def setBit (dst : List Byte) (n : Nat) : Option (List Byte) := orAt dst (n / 8 + 1) (128#8 >>> (n % 8))

/-- `dst[k..k + 8].clone_from_slice(&vv.to_be_bytes())` (float.rs:128, 229). -/
def writeWord (dst : List Byte) (k : Nat) (v : U64) : Option (List Byte) :=
  if k + 8 ≤ dst.length then some (dst.take k ++ be64 v ++ dst.drop (k + 8)) else none

/-- Write the `l` (5 or 6) top bits of `v` at bit `n` (float.rs:144-168 with `l = 5`, `m <= 3`; 180-198 with `l = 6`, `m <= 2`). -/
def putShort (dst : List Byte) (n l : Nat) (v : U64) : Option (List Byte × Nat) :=
  let m := n % 8
  let mask := v >>> 56
  if m ≤ 8 - l then do
    let dst ← orAt dst (n / 8 + 1) ((mask >>> m).setWidth 8)
    return (dst, n + l)
  else do
    let written := 8 - m
    let dst ← orAt dst (n / 8 + 1) ((mask >>> m).setWidth 8)
    let n := n + written
    let mask := (v <<< written) >>> 56
    let dst ← orAt dst (n / 8 + 1) ((mask >>> (n % 8)).setWidth 8)
    return (dst, n + (l - written))

/-- Whole bytes at bit `n` (float.rs:119-130, 218-231): `vv` is written, `l` bits of it count. -/
def putRest (dst : List Byte) (n l : Nat) (vv : U64) : Option (List Byte × Nat) := do
  let dst := grow dst (n / 8 + 8 + 1)
  let dst ← writeWord dst (n / 8 + 1) vv
  return (dst, n + l)

/-- Write the `l` top bits of `v` at bit `n`, the rest of `v` being zero (float.rs:105-130 and, the same with other types, 197-231). -/
def putLong (dst : List Byte) (n l : Nat) (v : U64) : Option (List Byte × Nat) :=
  let m := n % 8
  if 0 < m then do
    let written := if l < 8 - m then l else 8 - m
    let mask := v >>> 56
    let dst ← orAt dst (n / 8 + 1) ((mask >>> m).setWidth 8)
    if l - written = 0 then return (dst, n + written)
    else putRest dst (n + written) (l - written) (v <<< written)
  else putRest dst n l (v <<< 0)

/-- The variables of `f64_gorilla_encode` (float.rs:43-52). -/
structure Enc where
  dst : List Byte
  n : Nat
  prev : U64
  prevLeading : Nat
  prevTrailing : Nat
  deriving Repr

/-- `!0u64`, the initial `prev_leading` (float.rs:52). -/
def noLeading : Nat := 2 ^ 64 - 1

/-- The body of the loop once `cur` is known (float.rs:65-234). -/
def encStep (s : Enc) (cur : U64) : Option Enc :=
  let delta := cur ^^^ s.prev
  if delta = 0#64 then some { s with n := s.n + 1, prev := cur }
  else do
    let dst := grow s.dst (s.n / 8 + 1)
    let dst ← setBit dst s.n
    let n := s.n + 1
    let leading := leadingZeros delta % 32
    let trailing := trailingZeros delta
    let dst := growOne dst ((n + 2) / 8 + 1)
    if s.prevLeading ≠ noLeading ∧ s.prevLeading ≤ leading ∧ s.prevTrailing ≤ trailing then
      let n := n + 1
      let l := 64 - s.prevLeading - s.prevTrailing
      let dst := grow dst ((n + 1) / 8 + 1)
      let (dst, n) ← putLong dst n l ((delta >>> s.prevTrailing) <<< (64 - l))
      return ⟨dst, n, cur, s.prevLeading, s.prevTrailing⟩
    else
      let dst ← setBit dst n
      let n := n + 1
      let dst := growOne dst ((n + 5) / 8 + 1)
      let (dst, n) ← putShort dst n 5 (BitVec.ofNat 64 leading <<< 59)
      let sigBits := 64 - leading - trailing
      let dst := growOne dst ((n + 6) / 8 + 1)
      let (dst, n) ← putShort dst n 6 (BitVec.ofNat 64 sigBits <<< 58)
      let dst := grow dst ((n + sigBits) / 8 + 1)
      let (dst, n) ← putLong dst n sigBits ((delta >>> trailing) <<< (64 - sigBits))
      return ⟨dst, n, cur, leading, trailing⟩

/-- The loop over `src[1..]` and the closing sentinel (float.rs:54-235). -/
def encLoop (s : Enc) : List U64 → Option Enc
  | [] => encStep s sentinel
  | x :: xs => if x = sentinel then none else (encStep s x).bind fun s => encLoop s xs

/-- `f64_gorilla_encode` (float.rs:32-243) with an empty `dst`. -/
def encode : List U64 → Option (List Byte)
  | [] => some []
  | first :: rest =>
    (encLoop ⟨tagGorilla :: (1#8 <<< 4) :: be64 first, 8 + 64, first, noLeading, 0⟩ rest).map fun s =>
      s.dst.take (if 0 < s.n % 8 then s.n / 8 + 1 + 1 else s.n / 8 + 1)

/-! ## Decoder -/

/-- `BIT_MASK` (float.rs:283-348). -/
def bitMask : List U64 :=
  [0xffffffffffffffff, 0x1, 0x3, 0x7, 0xf, 0x1f, 0x3f, 0x7f, 0xff, 0x1ff, 0x3ff, 0x7ff, 0xfff, 0x1fff, 0x3fff, 0x7fff,
   0xffff, 0x1ffff, 0x3ffff, 0x7ffff, 0xfffff, 0x1fffff, 0x3fffff, 0x7fffff, 0xffffff, 0x1ffffff, 0x3ffffff, 0x7ffffff,
   0xfffffff, 0x1fffffff, 0x3fffffff, 0x7fffffff, 0xffffffff, 0x1ffffffff, 0x3ffffffff, 0x7ffffffff, 0xfffffffff,
   0x1fffffffff, 0x3fffffffff, 0x7fffffffff, 0xffffffffff, 0x1ffffffffff, 0x3ffffffffff, 0x7ffffffffff, 0xfffffffffff,
   0x1fffffffffff, 0x3fffffffffff, 0x7fffffffffff, 0xffffffffffff, 0x1ffffffffffff, 0x3ffffffffffff, 0x7ffffffffffff,
   0xfffffffffffff, 0x1fffffffffffff, 0x3fffffffffffff, 0x7fffffffffffff, 0xffffffffffffff, 0x1ffffffffffffff,
   0x3ffffffffffffff, 0x7ffffffffffffff, 0xfffffffffffffff, 0x1fffffffffffffff, 0x3fffffffffffffff, 0x7fffffffffffffff]

/-- `BIT_MASK[(k & 0x3f) as usize]`. -/
def maskOf (k : Nat) : U64 := bitMask.getD (k % 64) 0#64

/-- A wrapping subtraction of `u8`. -/
def subU8 (a b : Nat) : Nat := (a + 256 - b % 256) % 256

/-- `br_cached_val`, `br_valid_bits` and `i` (float.rs:440-475). -/
structure Cache where
  word : U64
  valid : Nat
  i : Nat
  deriving Repr

/-- `refill_cache` (float.rs:445-463) and the assignments after it. -/
def refill (src : List Byte) (i : Nat) : Option Cache :=
  let remaining := src.length - i
  if 8 ≤ remaining then some ⟨ofBe64 ((src.drop i).take 8), 64, i + 8⟩
  else if 0 < remaining then
    let w := (src.drop i).foldl (fun (a : U64) v => (a <<< 8) ||| v.setWidth 64) 0#64
    some ⟨w.rotateRight (remaining * 8), remaining * 8, i + (src.drop i).length⟩
  else none

/-- Read one control bit (float.rs:481-495, 500-514). -/
def readBit (src : List Byte) (c : Cache) : Option (Bool × Cache) :=
  (if c.valid = 0 then refill src c.i else some c).bind fun c =>
    let w := c.word.rotateLeft 1
    some (w.getLsbD 0, ⟨w, c.valid - 1, c.i⟩)

/-- Read `k` bits; they are the `k` last bits of the word returned (float.rs:516-543 for `k = 11`, 557-582 for `k = meaningful_n`). -/
def readBits (src : List Byte) (k : Nat) (c : Cache) : Option (U64 × Cache) :=
  if k ≤ c.valid then
    let w := c.word.rotateLeft k
    some (w, ⟨w, c.valid - k, c.i⟩)
  else do
    let m := if 0 < c.valid then k - c.valid else k
    let bits := if 0 < c.valid then c.word.rotateLeft k else 0#64
    let c ← refill src c.i
    let w := c.word.rotateLeft m
    return ((bits &&& ~~~maskOf m) ||| (w &&& maskOf m), ⟨w, subU8 c.valid m, c.i⟩)

/-- The variables of the loop of `decode_with_sentinel` (float.rs:428-478). -/
structure Dec where
  c : Cache
  val : U64
  trailingN : Nat
  meaningfulN : Nat
  deriving Repr

/-- The widths of the next value: read, or those of the last one (float.rs:514-555). -/
def readWidths (src : List Byte) (s : Dec) (b : Bool) (c : Cache) : Option (Nat × Nat × Cache) :=
  if b then do
    let (lm, c) ← readBits src 11 c
    let lm := lm &&& 0x7ff#64
    let leadingN := ((lm >>> 6).toNat % 256) % 32
    let mn := (lm &&& 0x3f#64).toNat
    if 0 < mn then return (subU8 (subU8 64 leadingN) mn, mn, c) else return (0, 64, c)
  else some (s.trailingN, s.meaningfulN, c)

/-- One turn of the loop (float.rs:480-591): the new state and whether the sentinel was read. -/
def decStep (src : List Byte) (s : Dec) : Option (Dec × Bool) :=
  match readBit src s.c with
  | none => none
  | some (false, c) => some ({ s with c := c }, false)
  | some (true, c) =>
    match readBit src c with
    | none => none
    | some (b, c) =>
      match readWidths src s b c with
      | none => none
      | some (tn, mn, c) =>
        match readBits src mn c with
        | none => none
        | some (bits, c) =>
          let val := s.val ^^^ ((bits &&& maskOf mn) <<< (tn % 64))
          some (⟨c, val, tn, mn⟩, decide (val = sentinel))

/-- The loop (float.rs:480-591): the values pushed.  Every turn takes bits (`decStep_lt`), so that the bound on the number of turns that
`decode` gives is never reached. -/
def decLoop (src : List Byte) : Nat → Dec → Option (List U64)
  | 0, _ => none
  | fuel + 1, s =>
    match decStep src s with
    | none => none
    | some (_, true) => some []
    | some (s, false) => (decLoop src fuel s).map (s.val :: ·)

/-- The loop over the null bitset (float.rs:593-603): too few values are an error. -/
def spread {α : Type} : List Bool → List α → Option (List (Option α))
  | [], _ => some []
  | false :: m, vs => (spread m vs).map (none :: ·)
  | true :: m, v :: vs => (spread m vs).map (some v :: ·)
  | true :: _, [] => none

/-- `decode_with_sentinel` (float.rs:418-606), the values. -/
def decodeValues (src : List Byte) : Option (List U64) :=
  if src.length < 9 then none
  else
    let val := ofBe64 ((src.drop 1).take 8)
    (refill src 9).bind fun c => (decLoop src (256 * src.length + 256) ⟨c, val, 0, 64⟩).map (val :: ·)

/-- `f64_gorilla_decode` (float.rs:351-359) with `decode_with_sentinel` (float.rs:418-606). -/
def decode (src : List Byte) (mask : List Bool) : Option (List (Option U64)) :=
  match src with
  | [] => some (List.replicate mask.length none)
  | _ :: src => if src = [] then some [] else (decodeValues src).bind (spread mask)

/-- `f64_without_compress_encode` (float.rs:256-267). -/
def plainEncode (src : List U64) : List Byte := if src = [] then [] else tagNull :: src.flatMap be64

/-- The loop of `f64_without_compress_decode` (float.rs:401-410) with `decode_be_f64` (byte_utils.rs); the last chunk of 8 may be shorter,
then `decode_be_f64` reads beyond its end; this is `none` too. -/
def plainLoop : List Bool → List Byte → Option (List (Option U64))
  | [], _ => some []
  | false :: m, src => (plainLoop m src).map (none :: ·)
  | true :: m, src => if src.length < 8 then none else (plainLoop m (src.drop 8)).map (some (ofBe64 (src.take 8)) :: ·)

/-- `f64_without_compress_decode` (float.rs:387-414). -/
def plainDecode (src : List Byte) (mask : List Bool) : Option (List (Option U64)) :=
  match src with
  | [] => some (List.replicate mask.length none)
  | _ :: src => plainLoop mask src

end Verif.Codec.Float

