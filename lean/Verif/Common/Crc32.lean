import Verif.Common.Bytes
/-!
# CRC-32 as computed by crate `crc32fast`

`crc32fast::Hasher` (not part of /repo) computes the CRC-32 of IEEE 802.3 (reflected, polynomial
`0xEDB88320`, initial value and final xor `0xFFFFFFFF`); here it is written down bit by bit.  That the
crate, with its tables and vector instructions, computes this function is trusted.
-/
namespace Verif.Crc32

/-- One bit of the division. -/
def shift1 (s : BitVec 32) : BitVec 32 := if s.getLsbD 0 then (s >>> 1) ^^^ 0xEDB88320#32 else s >>> 1

/-- `shift1`, `n` times. -/
def shiftN : Nat → BitVec 32 → BitVec 32
  | 0, s => s
  | n + 1, s => shiftN n (shift1 s)

/-- Take one byte in. -/
def update (s : BitVec 32) (b : Byte) : BitVec 32 := shiftN 8 (s ^^^ b.setWidth 32)

/-- `Hasher::new`, `update`, `finalize`. -/
def crc32 (bs : List Byte) : BitVec 32 := bs.foldl update 0xFFFFFFFF#32 ^^^ 0xFFFFFFFF#32

/-- The published check value of CRC-32: the checksum of the text `123456789`. -/
example : crc32 [0x31, 0x32, 0x33, 0x34, 0x35, 0x36, 0x37, 0x38, 0x39] = 0xCBF43926#32 := by decide +kernel

end Verif.Crc32
