import Verif.Codec.FloatLemmas
import Verif.Codec.TimestampLemmas
import Verif.Codec.BooleanLemmas
import Verif.Codec.StrLemmas
/-!
# Properties C01–C08: column compression is lossless

A column is a list of optional values (`Verif.Codec.Column`).  The writer compresses `values rows` and
stores `validity rows` beside it; the reader decompresses with that mask.  Lossless means: for every
column the writer succeeds and the reader returns the column.
-/
namespace Verif.Codec

/-- What it means that a compressor/decompressor pair preserves the column `rows`. -/
def Preserves {α : Type} (enc : List α → Option (List Byte))
    (dec : List Byte → List Bool → Option (List (Option α))) (rows : List (Option α)) : Prop :=
  ∃ bytes, enc (values rows) = some bytes ∧ dec bytes (validity rows) = some rows

/-- C01. Every BIGINT column, of any length and with any NULLs, survives the delta codec. -/
theorem C01_integer_roundtrip (rows : List (Option U64)) :
    Preserves Integer.encode Integer.decode rows := by
  have h := Integer.decode_encode (values rows) (validity rows) (count_validity rows)
  rwa [place_validity_values] at h

/-- C01, codec `NULL` (no compression). -/
theorem C01_integer_plain_roundtrip (rows : List (Option U64)) :
    Preserves (fun vs => some (Timestamp.plainEncode vs)) Timestamp.plainDecode rows := by
  refine ⟨_, rfl, ?_⟩
  rw [Timestamp.plainDecode_encode _ _ (count_validity rows), place_validity_values]

/-- The codec really compresses: the simple8b path, the RLE path and the raw path are all used. -/
example : Integer.encode [5, 5 + 3, 5 + 6, 5 + 9] = some (2 :: 0x20 :: be64 10 ++ [6, 3]) := by
  decide +kernel
example : Integer.encode [0, 0x7fffffffffffffff, 0] ≠ none ∧
    (Integer.encode [0, 0x7fffffffffffffff, 0]).map (·.length) = some 26 := by decide +kernel

/-- C02. Every BIGINT UNSIGNED column survives the delta codec. -/
theorem C02_unsigned_roundtrip (rows : List (Option U64)) :
    Preserves Integer.encodeU Integer.decodeU rows := by
  obtain ⟨bytes, h1, h2⟩ := C01_integer_roundtrip rows
  refine ⟨bytes, h1, ?_⟩
  unfold Integer.decodeU
  split
  · rename_i hb
    subst hb
    exact h2
  · exact h2

/-- C03. Every sequence of timestamps (any order, any gaps) survives when all rows are valid. -/
theorem C03_timestamp_roundtrip (ts : List U64) :
    Preserves Timestamp.encode Timestamp.decode (ts.map some) := by
  have hv : (validity (ts.map some)).headD true = true := by cases ts <;> simp [validity]
  have h := Timestamp.decode_encode (values (ts.map some)) (validity (ts.map some))
    (count_validity _) hv
  rwa [place_validity_values] at h

/-- C03, extended: NULLs may follow once the first row is valid. -/
theorem C03_timestamp_roundtrip_first_valid (t : U64) (rows : List (Option U64)) :
    Preserves Timestamp.encode Timestamp.decode (some t :: rows) := by
  have h := Timestamp.decode_encode (values (some t :: rows)) (validity (some t :: rows))
    (count_validity _) (by simp [validity])
  rwa [place_validity_values] at h

/-- The restriction of C03 is needed: with a NULL in the first row the packed path loses the last
value (the column comes back one row short). -/
theorem C03_null_first_refuted :
    ¬ ∀ rows : List (Option U64), Preserves Timestamp.encode Timestamp.decode rows := by
  intro h
  obtain ⟨bytes, h1, h2⟩ := h [none, some 5, some 7, some 10]
  have e : Timestamp.encode [5, 7, 10] =
      some (11 :: 0x10 :: be64 5 ++ [0xe0, 0, 0, 0, 0xc0, 0, 0, 2]) := by
    decide +kernel
  have : bytes = 11 :: 0x10 :: be64 5 ++ [0xe0, 0, 0, 0, 0xc0, 0, 0, 2] := by
    have h1' : Timestamp.encode [5, 7, 10] = some bytes := h1
    rw [e] at h1'
    exact (Option.some.inj h1').symm
  subst this
  revert h2
  decide +kernel

/-- C03, codec `NULL`. -/
theorem C03_timestamp_plain_roundtrip (rows : List (Option U64)) :
    Preserves (fun vs => some (Timestamp.plainEncode vs)) Timestamp.plainDecode rows :=
  C01_integer_plain_roundtrip rows

/-- C04. Packing succeeds exactly when every value is below `2^60`, and whatever packing succeeds
with is unpacked to the same list. -/
theorem C04_simple8b_roundtrip (src : List U64) :
    ((∀ v ∈ src, v.toNat < 2 ^ 60) →
      ∃ bytes, Simple8b.encode src = some bytes ∧ Simple8b.decode bytes = some src) ∧
    ((∃ v ∈ src, 2 ^ 60 ≤ v.toNat) → Simple8b.encode src = none) := by
  have hiff := Simple8b.encode_isSome_iff src
  constructor
  · intro h
    obtain ⟨bytes, hb⟩ := Option.isSome_iff_exists.1 (hiff.2 (fun v hv => by
      have := h v hv; unfold Simple8b.maxValue; omega))
    exact ⟨bytes, hb, Simple8b.decode_encode hb⟩
  · rintro ⟨v, hv, hge⟩
    cases he : Simple8b.encode src with
    | none => rfl
    | some b =>
      have := hiff.1 (by rw [he]; rfl) v hv
      unfold Simple8b.maxValue at this; omega

example : Simple8b.encode [7, 2 ^ 60 - 1, 3] ≠ none ∧ Simple8b.encode [7, 2 ^ 60, 3] = none := by
  decide +kernel

/-- C05. Every boolean column survives bit packing (lengths below 2^56, which memory enforces). -/
theorem C05_boolean_roundtrip (rows : List (Option Bool)) (hsize : (values rows).length < 2 ^ 56) :
    Preserves Boolean.encode Boolean.decode rows := by
  have h := Boolean.decode_encode (values rows) (validity rows) (count_validity rows) hsize
  rwa [place_validity_values] at h

/-- C05, codec `NULL`. -/
theorem C05_boolean_plain_roundtrip (rows : List (Option Bool)) :
    Preserves (fun vs => some (Boolean.plainEncode vs)) (fun b m => some (Boolean.plainDecode b m))
      rows := by
  refine ⟨_, rfl, ?_⟩
  unfold Boolean.plainEncode Boolean.plainDecode
  simp only
  rw [Boolean.plainDecodeLoop_eq, place_validity_values]

example : Boolean.encode [true, false, true, true, false, true, true, true, true]
    = some [10, 0x10, 9, 0xb7, 0x80] := by decide +kernel

/-- C06, snappy: every column of UTF-8 strings shorter than `i32::MAX` bytes survives. -/
theorem C06_string_snappy_roundtrip (c : Str.Compressor) (utf8 : List Byte → Bool)
    (rows : List (Option (List Byte)))
    (hutf : ∀ s ∈ values rows, utf8 s = true) (hlen : ∀ s ∈ values rows, s.length < 2 ^ 31 - 1) :
    Preserves (Str.snappyEncode c) (Str.snappyDecode c utf8) rows := by
  unfold Preserves Str.snappyEncode
  by_cases hv : values rows = []
  · refine ⟨[], by rw [if_pos hv], ?_⟩
    have hc := count_validity rows
    rw [hv] at hc
    have := place_no_true hc (values rows)
    rw [place_validity_values] at this
    rw [Str.snappyDecode, ← this]
  · rw [if_neg hv, if_pos (by simpa using hlen)]
    refine ⟨_, rfl, ?_⟩
    simp only [Str.snappyDecode, c.lossless, Option.bind_some]
    rw [Str.splitVar_eq utf8 _ _ (count_validity rows), place_validity_values]
    intro s hs
    have := hlen s hs
    exact ⟨hutf s hs, by omega⟩

/-- C06, zstd, gzip, bzip, zlib. -/
theorem C06_string_roundtrip (k : Str.Kind) (c : Str.Compressor) (utf8 : List Byte → Bool)
    (rows : List (Option (List Byte)))
    (hutf : ∀ s ∈ values rows, utf8 s = true) (hlen : ∀ s ∈ values rows, s.length < 2 ^ 64) :
    Preserves (fun vs => some (Str.encode64 k c vs)) (Str.decode64 c utf8) rows := by
  refine ⟨_, rfl, ?_⟩
  unfold Str.encode64
  split
  · rename_i hv
    have hc := count_validity rows
    rw [hv] at hc
    have := place_no_true hc (values rows)
    rw [place_validity_values] at this
    rw [Str.decode64, ← this]
  · simp only [Str.decode64, c.lossless, Option.bind_some]
    rw [Str.split64_eq utf8 _ _ (count_validity rows), place_validity_values]
    exact fun s hs => ⟨hutf s hs, hlen s hs⟩

/-- C06, no compression. -/
theorem C06_string_plain_roundtrip (utf8 : List Byte → Bool) (rows : List (Option (List Byte)))
    (hutf : ∀ s ∈ values rows, utf8 s = true) (hlen : ∀ s ∈ values rows, s.length < 2 ^ 64) :
    Preserves (fun vs => some (Str.plainEncode vs)) (Str.plainDecode utf8) rows := by
  refine ⟨_, rfl, ?_⟩
  unfold Str.plainEncode
  split
  · rename_i hv
    have hc := count_validity rows
    rw [hv] at hc
    have := place_no_true hc (values rows)
    rw [place_validity_values] at this
    rw [Str.plainDecode, ← this]
  · simp only [Str.plainDecode]
    rw [Str.split64_eq utf8 _ _ (count_validity rows), place_validity_values]
    exact fun s hs => ⟨hutf s hs, hlen s hs⟩

/-- A column with an empty string, a NULL and a long string meets the hypotheses of C06. -/
example : (∀ s ∈ values [some [], none, some [0x61, 0x62, 0x63, 0x64]],
    (fun _ => true) s = true) ∧
    (∀ s ∈ values [some [], none, some [0x61, 0x62, 0x63, 0x64]],
      s.length < 2 ^ 31 - 1) := by
  decide

/-- C07. Every DOUBLE column survives the XOR codec bit for bit, NaNs, infinities and signed zeros included, unless the reserved NaN pattern
is one of the values; it may only be the first of several. -/
theorem C07_float_roundtrip_partial (rows : List (Option U64)) (hx : ∀ v ∈ (values rows).tail, v ≠ Float.sentinel)
    (hp : values rows ≠ [Float.sentinel]) : Preserves Float.encode Float.decode rows := by
  have h := Float.decode_encode (values rows) (validity rows) (count_validity rows) hx hp
  rwa [place_validity_values] at h

/-- Two rows that meet the hypotheses, the first one being the reserved pattern: the values need all three forms of code words. -/
example : Preserves Float.encode Float.decode
    [some Float.sentinel, none, some 0x3ff0000000000000#64, some 0x3ff0000000000000#64, some 0x4000000000000000#64] :=
  C07_float_roundtrip_partial _ (by simp [values, Float.sentinel]) (by simp [values])

/-- C07. What comes back is never different from what was written, whatever the values. -/
theorem C07_never_different (rows : List (Option U64)) (bytes : List Byte) (out : List (Option U64))
    (he : Float.encode (values rows) = some bytes) (hd : Float.decode bytes (validity rows) = some out) : out = rows := by
  have key : Preserves Float.encode Float.decode rows → out = rows := by
    rintro ⟨b, h1, h2⟩
    rw [he] at h1
    injection h1 with h1
    subst h1
    rw [hd] at h2
    exact Option.some.inj h2
  by_cases hp : values rows = [Float.sentinel]
  · rw [hp] at he
    have e : Float.encode [Float.sentinel] = some (6 :: 0x10 :: be64 Float.sentinel) := by decide +kernel
    rw [e] at he
    injection he with he
    subst he
    have hn : Float.decodeValues (0x10 :: be64 Float.sentinel) = none := by decide +kernel
    rw [Float.decode, if_neg (by simp), hn] at hd
    cases hd
  · by_cases hx : ∀ v ∈ (values rows).tail, v ≠ Float.sentinel
    · exact key (C07_float_roundtrip_partial rows hx hp)
    · have hm : Float.sentinel ∈ (values rows).tail := by
        apply Classical.byContradiction
        intro hn
        exact hx fun v hv e => hn (e ▸ hv)
      cases hv : values rows with
      | nil => rw [hv] at hm; cases hm
      | cons v vs =>
        rw [hv] at hm he
        rw [List.tail_cons] at hm
        rw [Float.encode, Float.encLoop_sentinel hm] at he
        cases he

/-- C07. The reserved pattern in any place but the first is refused by the encoder. -/
theorem C07_sentinel_refused (v : U64) (vs : List U64) (h : Float.sentinel ∈ vs) : Float.encode (v :: vs) = none := by
  rw [Float.encode, Float.encLoop_sentinel h]
  rfl

/-- C07 fails for one column: the reserved pattern alone is written without an error, and cannot be read. -/
theorem C07_sentinel_refuted :
    ¬ ∀ rows : List (Option U64), Float.encode (values rows) = none ∨ Preserves Float.encode Float.decode rows := by
  intro h
  rcases h [some Float.sentinel] with h | ⟨b, h1, h2⟩
  · revert h
    decide +kernel
  · have e : Float.encode (values [some Float.sentinel]) = some (6 :: 0x10 :: be64 Float.sentinel) := by decide +kernel
    rw [e] at h1
    injection h1 with h1
    subst h1
    revert h2
    decide +kernel

/-- C07, codec `NULL`. -/
theorem C07_float_plain_roundtrip (rows : List (Option U64)) :
    Preserves (fun vs => some (Float.plainEncode vs)) Float.plainDecode rows := by
  refine ⟨_, rfl, ?_⟩
  unfold Float.plainEncode
  split
  · rename_i hv
    have hc := count_validity rows
    rw [hv] at hc
    have := place_no_true hc (values rows)
    rw [place_validity_values] at this
    rw [Float.plainDecode, ← this]
  · simp only [Float.plainDecode]
    rw [Float.plainLoop_eq _ _ (count_validity rows), place_validity_values]

/-- C08. A variable-length integer in front of any bytes reads back as itself and leaves exactly
those bytes. -/
theorem C08_varint_self_delimiting (n : Nat) (h : n < 2 ^ 64) (rest : List Byte) :
    (varDec (varEnc n ++ rest)).map (fun p => (p.1, (varEnc n ++ rest).drop p.2))
      = some (n, rest) := by
  rw [varDec_varEnc h]
  simp

example : varEnc 300 = [0xac, 0x02] ∧ varDec ([0xac, 0x02] ++ [7]) = some (300, 2) := by decide +kernel

end Verif.Codec
