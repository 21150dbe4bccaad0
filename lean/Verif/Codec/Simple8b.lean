import Verif.Common.Bytes
/-!
# Model: simple8b bit packing — `tskv/src/tsm/codec/simple8b.rs`
-/
namespace Verif.Codec.Simple8b

/-- `MAX_VALUE` (simple8b.rs:5). -/
def maxValue : Nat := 2 ^ 60 - 1

/-- `NUM_BITS` (simple8b.rs:7-22): how many integers of how many bits go into a word. -/
def numBits : List (Nat × Nat) :=
  [(60, 1), (30, 2), (20, 3), (15, 4), (12, 5), (10, 6), (8, 7), (7, 8), (6, 10), (5, 12),
   (4, 15), (3, 20), (2, 30), (1, 60)]

/-- The inner loop over `src[i..]` (simple8b.rs:57-67).  `none` is `continue 'codes`.
`& 0x3f` on the shift amounts is kept. -/
def packLoop (intN bitN : Nat) : Nat → U64 → List U64 → Option U64
  | _, val, [] => some val
  | k, val, v :: vs =>
    if k < intN then
      if (1#64 <<< (bitN &&& 0x3f)) ≤ v then none
      else packLoop intN bitN (k + 1) (val ||| (v <<< ((k * bitN) &&& 0x3f))) vs
    else some val

/-- The loop over `NUM_BITS` (simple8b.rs:49-71) from entry `idx` on; `src` is `src[i..]`.
Returns the packed word and the number of integers in it; `none` is falling out of the loop. -/
def tryCodes (src : List U64) : Nat → List (Nat × Nat) → Option (U64 × Nat)
  | _, [] => none
  | idx, (intN, bitN) :: codes =>
    if src.length < intN then tryCodes src (idx + 1) codes
    else match packLoop intN bitN 0 (BitVec.ofNat 64 (idx + 2) <<< 60) src with
      | none => tryCodes src (idx + 1) codes
      | some w => some (w, intN)

/-- `a.iter().take_while(|x| **x == 1).count()` (simple8b.rs:39) with `a` the next 240 or 120
values (simple8b.rs:32-36). -/
def onesRun (src : List U64) : Nat :=
  ((if 240 ≤ src.length then src.take 240 else src.take 120).takeWhile (· = 1#64)).length

/-- One word: the body of `'next_value` (simple8b.rs:28-72) at `src[i..]`.
Result: the word and how far `i` moves; `none` is the error "value out of bounds". -/
def encodeWord (src : List U64) : Option (U64 × Nat) :=
  if 120 ≤ src.length ∧ onesRun src = 240 then some (0#64, 240)
  else if 120 ≤ src.length ∧ 120 ≤ onesRun src then some (1#64 <<< 60, 120)
  else tryCodes src 0 numBits

theorem tryCodes_pos {src : List U64} {idx : Nat} {codes : List (Nat × Nat)} {w : U64} {n : Nat}
    (h : tryCodes src idx codes = some (w, n)) (hc : ∀ c ∈ codes, 0 < c.1) : 0 < n := by
  induction codes generalizing idx with
  | nil => simp [tryCodes] at h
  | cons c cs ih =>
    obtain ⟨a, b⟩ := c
    rw [tryCodes] at h
    split at h
    · exact ih h (fun c hm => hc c (List.mem_cons_of_mem _ hm))
    · split at h
      · exact ih h (fun c hm => hc c (List.mem_cons_of_mem _ hm))
      · simp at h
        have := hc (a, b) (List.mem_cons_self ..)
        simp at this; omega

theorem encodeWord_pos {src : List U64} {w : U64} {n : Nat}
    (h : encodeWord src = some (w, n)) : 0 < n := by
  unfold encodeWord at h
  split at h
  · simp at h; omega
  · split at h
    · simp at h; omega
    · exact tryCodes_pos h (by decide)

/-- `simple8b::encode` (simple8b.rs:26-75), the bytes appended to `dst`.  `none` is the error
"value out of bounds".  The loop index `i` is represented by dropping the consumed prefix. -/
def encode (src : List U64) : Option (List Byte) :=
  if _hs : src = [] then some []
  else match _h : encodeWord src with
    | none => none
    | some (w, n) => do
      let rest ← encode (src.drop n)
      pure (be64 w ++ rest)
termination_by src.length
decreasing_by
  have := encodeWord_pos _h
  have : 0 < src.length := List.length_pos_iff.2 _hs
  simp only [List.length_drop]; omega

/-- The loops `for i in &mut dst[0..n] { *i = v & mask; v >>= sh }` of `decode_value`
(simple8b.rs:98-185). -/
def unpack : Nat → U64 → Nat → U64 → List U64
  | 0, _, _, _ => []
  | n + 1, mask, sh, v => (v &&& mask) :: unpack n mask sh (v >>> sh)

/-- `decode_value` (simple8b.rs:95-202), returning the values written.  Selector 12 is unrolled in
the code (`(v >> 15) & 0x7fff`, ...); it is written here with the same loop. -/
def decodeValue (v : U64) : List U64 :=
  match (v >>> 60).toNat with
  | 0 => List.replicate 240 1#64
  | 1 => List.replicate 120 1#64
  | 2 => unpack 60 0x01 1 v
  | 3 => unpack 30 0x03 2 v
  | 4 => unpack 20 0x07 3 v
  | 5 => unpack 15 0x0f 4 v
  | 6 => unpack 12 0x1f 5 v
  | 7 => unpack 10 0x3f 6 v
  | 8 => unpack 8 0x7f 7 v
  | 9 => unpack 7 0xff 8 v
  | 10 => unpack 6 0x03ff 10 v
  | 11 => unpack 5 0x0fff 12 v
  | 12 => unpack 4 0x7fff 15 v
  | 13 => unpack 3 0x000fffff 20 v
  | 14 => unpack 2 0x3fffffff 30 v
  | 15 => unpack 1 0x0fffffffffffffff 60 v
  | _ => []

/-- `simple8b::decode` (simple8b.rs:79-93).  `none` is the panic of `src[i..i + 8]` when the length
is no multiple of eight. -/
def decode (src : List Byte) : Option (List U64) :=
  if _hs : src = [] then some []
  else if src.length < 8 then none
  else do
    let rest ← decode (src.drop 8)
    pure (decodeValue (ofBe64 (src.take 8)) ++ rest)
termination_by src.length
decreasing_by
  have : 0 < src.length := List.length_pos_iff.2 _hs
  simp only [List.length_drop]; omega

end Verif.Codec.Simple8b
