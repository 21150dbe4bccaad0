import Verif.Page.Lemmas
import Verif.Common.Crc32Lemmas
/-!
# Property C09: a page read back is the page written, and damage to its values is noticed
-/
namespace Verif.Page
open Verif.Codec

/-- What a column must fulfil to survive; everything else does.
* Timestamps are never NULL (`convert_to_page` checks this).
* A BIGINT column with codec DELTATS must not begin with a NULL (unless all rows are NULL).
* A DOUBLE column with codec GORILLA or DEFAULT must not consist of the reserved NaN alone.
* Sizes are below the limits of the format; strings are UTF-8. -/
def Fits (L : Lib) : (k : Kind) → Encoding → List (Option k.Val) → Prop
  | .time, _, rows => ∀ r ∈ rows, r.isSome
  | .int, e, rows => e = .deltaTs → rows.head? = some none → values rows = []
  | .uint, _, _ => True
  | .float, e, rows => e ≠ .null → e ≠ .quantile → values rows ≠ [Float.sentinel]
  | .bool, _, rows => (values rows).length < 2 ^ 56
  | .str, _, rows => ∀ s ∈ values rows, L.utf8 s = true ∧ s.length < 2 ^ 64

theorem recovers_ts (L : Lib) (e : Encoding) (rows : List (Option U64)) (h : rows.head? = some none → values rows = []) :
    Recovers (tsCodec L) e rows := by
  have hnil : ∀ m, (tsCodec L .unknown).dec [] m = some (List.replicate m.length none) := fun _ => rfl
  have hts : ∀ e, tsCodec L e = deltaTs → Recovers (tsCodec L) e rows := by
    intro e he
    refine recovers_of (fun data hd => ?_) hnil (fun data hd _ => ?_) (fun _ => .inl (by rw [he]; rfl))
    · rw [he] at hd ⊢
      rcases tag_ts hd with h | h
      · exact .inl h
      · rw [h]; exact .inr rfl
    · rw [he] at hd ⊢
      exact preserves_some (ts_first_valid h) hd
  cases e with
  | null =>
    refine recovers_of (fun data hd => ?_) hnil (fun data hd _ => ?_) (fun _ => .inl rfl)
    · rcases tag_plain hd with h | h
      · exact .inl h
      · rw [h]; exact .inr rfl
    · exact preserves_some (C01_integer_plain_roundtrip rows) hd
  | delta =>
    refine recovers_of (fun data hd => ?_) hnil (fun data hd _ => ?_) (fun _ => .inl rfl)
    · rcases tag_int hd with h | h
      · exact .inl h
      · rw [h]; exact .inr rfl
    · exact preserves_some (C01_integer_roundtrip rows) hd
  | quantile =>
    refine recovers_of (fun data hd => ?_) hnil (fun data hd _ => ?_) (fun _ => .inl rfl)
    · rcases tag_pco hd with h | h
      · exact .inl h
      · rw [h]; exact .inr rfl
    · exact pco_roundtrip hd
  | _ => exact hts _ rfl

theorem recovers_int (L : Lib) (e : Encoding) (rows : List (Option U64)) (h : e = .deltaTs → rows.head? = some none → values rows = []) :
    Recovers (intCodec L) e rows := by
  have hnil : ∀ m, (intCodec L .unknown).dec [] m = some (List.replicate m.length none) := fun _ => rfl
  have hi : ∀ e, intCodec L e = deltaInt → Recovers (intCodec L) e rows := by
    intro e he
    refine recovers_of (fun data hd => ?_) hnil (fun data hd _ => ?_) (fun _ => .inl (by rw [he]; rfl))
    · rw [he] at hd ⊢
      rcases tag_int hd with h | h
      · exact .inl h
      · rw [h]; exact .inr rfl
    · rw [he] at hd ⊢
      exact preserves_some (C01_integer_roundtrip rows) hd
  cases e with
  | null =>
    refine recovers_of (fun data hd => ?_) hnil (fun data hd _ => ?_) (fun _ => .inl rfl)
    · rcases tag_plain hd with h | h
      · exact .inl h
      · rw [h]; exact .inr rfl
    · exact preserves_some (C01_integer_plain_roundtrip rows) hd
  | deltaTs =>
    refine recovers_of (fun data hd => ?_) hnil (fun data hd _ => ?_) (fun _ => .inl rfl)
    · rcases tag_ts hd with h | h
      · exact .inl h
      · rw [h]; exact .inr rfl
    · exact preserves_some (ts_first_valid (h rfl)) hd
  | quantile =>
    refine recovers_of (fun data hd => ?_) hnil (fun data hd _ => ?_) (fun _ => .inl rfl)
    · rcases tag_pco hd with h | h
      · exact .inl h
      · rw [h]; exact .inr rfl
    · exact pco_roundtrip hd
  | _ => exact hi _ rfl

theorem recovers_uint (L : Lib) (e : Encoding) (rows : List (Option U64)) : Recovers (uintCodec L) e rows := by
  have hnil : ∀ m, (uintCodec L .unknown).dec [] m = some (List.replicate m.length none) := fun _ => rfl
  have hi : ∀ e, uintCodec L e = deltaUInt → Recovers (uintCodec L) e rows := by
    intro e he
    refine recovers_of (fun data hd => ?_) hnil (fun data hd _ => ?_) (fun _ => .inl (by rw [he]; rfl))
    · rw [he] at hd ⊢
      rcases tag_int hd with h | h
      · exact .inl h
      · rw [h]; exact .inr rfl
    · rw [he] at hd ⊢
      exact preserves_some (C02_unsigned_roundtrip rows) hd
  cases e with
  | null =>
    refine recovers_of (fun data hd => ?_) hnil (fun data hd _ => ?_) (fun _ => .inl rfl)
    · rcases tag_plain hd with h | h
      · exact .inl h
      · rw [h]; exact .inr rfl
    · exact preserves_some (C01_integer_plain_roundtrip rows) hd
  | quantile =>
    refine recovers_of (fun data hd => ?_) hnil (fun data hd _ => ?_) (fun _ => .inl rfl)
    · rcases tag_pco hd with h | h
      · exact .inl h
      · rw [h]; exact .inr rfl
    · exact pco_roundtrip hd
  | _ => exact hi _ rfl

theorem recovers_float (L : Lib) (e : Encoding) (rows : List (Option U64))
    (h : e ≠ .null → e ≠ .quantile → values rows ≠ [Float.sentinel]) : Recovers (floatCodec L) e rows := by
  have hnil : ∀ m, (floatCodec L .unknown).dec [] m = some (List.replicate m.length none) := fun _ => rfl
  have hi : ∀ e, floatCodec L e = ⟨Float.encode, Float.decode⟩ → values rows ≠ [Float.sentinel] → Recovers (floatCodec L) e rows := by
    intro e he hs
    refine recovers_of (fun data hd => ?_) hnil (fun data hd _ => ?_) (fun _ => .inl (by rw [he]; rfl))
    · rw [he] at hd ⊢
      rcases tag_float hs hd with h | h
      · exact .inl h
      · rw [h]; exact .inr rfl
    · rw [he] at hd ⊢
      refine preserves_some (C07_float_roundtrip_partial rows (fun v hv e => ?_) hs) hd
      simp only at hd
      cases hvs : values rows with
      | nil => rw [hvs] at hv; cases hv
      | cons a vs =>
        rw [hvs] at hv hd
        subst e
        rw [C07_sentinel_refused a vs hv] at hd
        cases hd
  cases e with
  | null =>
    refine recovers_of (fun data hd => ?_) hnil (fun data hd _ => ?_) (fun _ => .inl rfl)
    · rcases tag_plainF hd with h | h
      · exact .inl h
      · rw [h]; exact .inr rfl
    · exact preserves_some (C07_float_plain_roundtrip rows) hd
  | quantile =>
    refine recovers_of (fun data hd => ?_) hnil (fun data hd _ => ?_) (fun _ => .inl rfl)
    · rcases tag_pco hd with h | h
      · exact .inl h
      · rw [h]; exact .inr rfl
    · exact pco_roundtripF hd
  | _ => exact hi _ rfl (h (by simp) (by simp))

theorem recovers_bool (e : Encoding) (rows : List (Option Bool)) (h : (values rows).length < 2 ^ 56) : Recovers boolCodec e rows := by
  have hnil : ∀ m, (boolCodec .unknown).dec [] m = some (List.replicate m.length none) := fun _ => rfl
  have hi : ∀ e, boolCodec e = ⟨Boolean.encode, Boolean.decode⟩ → Recovers boolCodec e rows := by
    intro e he
    refine recovers_of (fun data hd => ?_) hnil (fun data hd _ => ?_) (fun _ => .inl (by rw [he]; rfl))
    · rw [he] at hd ⊢
      rcases tag_bool h hd with h | h
      · exact .inl h
      · rw [h]; exact .inr rfl
    · rw [he] at hd ⊢
      exact preserves_some (C05_boolean_roundtrip rows h) hd
  cases e with
  | null =>
    have key : ∀ data, (boolCodec .null).enc (values rows) = some data → (boolCodec .null).dec data (validity rows) = some rows :=
      fun data hd => preserves_some (C05_boolean_plain_roundtrip rows) hd
    refine recovers_of (fun data hd => ?_) hnil (fun data hd _ => key data hd) (fun _ => .inr key)
    right
    have hd : some (Boolean.plainEncode (values rows)) = some data := hd
    injection hd with hd
    subst hd
    rfl
  | _ => exact hi _ rfl

theorem recovers_str (L : Lib) (e : Encoding) (rows : List (Option (List Byte)))
    (h : ∀ s ∈ values rows, L.utf8 s = true ∧ s.length < 2 ^ 64) : Recovers (strCodec L) e rows := by
  have hnil : ∀ m, (strCodec L .unknown).dec [] m = some (List.replicate m.length none) := fun _ => rfl
  have hsn : ∀ e, strCodec L e = ⟨Str.snappyEncode L.snappy, Str.snappyDecode L.snappy L.utf8⟩ → Recovers (strCodec L) e rows := by
    intro e he
    refine recovers_of (fun data hd => ?_) hnil (fun data hd hv => ?_) (fun _ => .inl (by rw [he]; rfl))
    · rw [he] at hd ⊢
      rcases tag_snappy hd with h | h
      · exact .inl h
      · rw [h]; exact .inr rfl
    · rw [he] at hd ⊢
      have hlen : ∀ s ∈ values rows, s.length < 2 ^ 31 - 1 := by
        have hd : Str.snappyEncode L.snappy (values rows) = some data := hd
        unfold Str.snappyEncode at hd
        rw [if_neg hv] at hd
        split at hd
        · rename_i hall
          simpa using hall
        · cases hd
      exact preserves_some (C06_string_snappy_roundtrip L.snappy L.utf8 rows (fun s hs => (h s hs).1) hlen) hd
  have h64 : ∀ e k c, strCodec L e = ⟨fun vs => some (Str.encode64 k c vs), Str.decode64 c L.utf8⟩ → Encoding.ofByte k.tag = e →
      Recovers (strCodec L) e rows := by
    intro e k c he hk
    refine recovers_of (fun data hd => ?_) hnil (fun data hd hv => ?_) (fun _ => .inl (by rw [he]; rfl))
    · rw [he] at hd
      rcases tag_str64 hd with h | h
      · exact .inl h
      · rw [h, hk]; exact .inr rfl
    · rw [he] at hd ⊢
      exact preserves_some (C06_string_roundtrip k c L.utf8 rows (fun s hs => (h s hs).1) (fun s hs => (h s hs).2)) hd
  cases e with
  | null =>
    refine recovers_of (fun data hd => ?_) hnil (fun data hd _ => ?_) (fun _ => .inl rfl)
    · rcases tag_strPlain hd with h | h
      · exact .inl h
      · rw [h]; exact .inr rfl
    · exact preserves_some (C06_string_plain_roundtrip L.utf8 rows (fun s hs => (h s hs).1) (fun s hs => (h s hs).2)) hd
  | gzip => exact h64 _ .gzip L.gzip rfl rfl
  | bzip => exact h64 _ .bzip L.bzip rfl rfl
  | zstd => exact h64 _ .zstd L.zstd rfl rfl
  | zlib => exact h64 _ .zlib L.zlib rfl rfl
  | _ => exact hsn _ rfl

theorem recovers (L : Lib) (k : Kind) (e : Encoding) (rows : List (Option k.Val)) (h : Fits L k e rows) :
    Recovers (codec L k) e rows := by
  cases k with
  | time =>
    refine recovers_ts L e rows (fun hh => ?_)
    cases rows with
    | nil => cases hh
    | cons r rows =>
      injection hh with hh
      have := h r (List.mem_cons_self ..)
      rw [hh] at this
      cases this
  | int => exact recovers_int L e rows h
  | uint => exact recovers_uint L e rows
  | float => exact recovers_float L e rows h
  | bool => exact recovers_bool e rows h
  | str => exact recovers_str L e rows h

/-- What reading a page must give. -/
structure ReadsAs (L : Lib) (k : Kind) (bytes : List Byte) (rows : List (Option k.Val)) : Prop where
  count : rowCount bytes = some rows.length
  mask : nullBitset bytes = some (validity rows)
  intact : crcValidation bytes = some true
  values : readPage L k bytes = some rows

theorem readsAs_layout {L : Lib} {k : Kind} {rows : List (Option k.Val)} {n : Nat} {bitset data : List Byte}
    (hn : n < 256 ^ 4) (hb : bitset.length = n) (hr : rows.length < 256 ^ 8) (hu : unpackBits bitset rows.length = some (validity rows))
    (hd : (codec L k (getEncoding data)).dec data (validity rows) = some rows) :
    ReadsAs L k (assemble n bitset rows.length data) rows := by
  have h1 : nullBitset (assemble n bitset rows.length data) = some (validity rows) := by
    rw [assemble, nullBitset_layout hn hb hr, hu]
  have h2 : crcValidation (assemble n bitset rows.length data) = some true := by
    rw [assemble, crcValidation_layout hn hb]; simp
  refine ⟨rowCount_layout hr, h1, h2, ?_⟩
  rw [readPage, h2, Option.bind_some, if_pos rfl, toArrow, h1]
  rw [assemble, dataBuffer_layout hn hb, Option.bind_some, Option.bind_some, hd]

/-- **C09**, pages written by a flush.  For every kind of column, every codec and every column with any
NULLs that `Fits`, a page that could be written is read back with the same number of rows, null mask
and values, and passes the checksum check.

Partial: `Fits` excludes BIGINT columns with codec DELTATS that begin with a NULL (they are damaged, see
`C09_bigint_deltats_refuted`) and the single reserved NaN (C07). -/
theorem C09_page_roundtrip_partial (L : Lib) (k : Kind) (e : Encoding) (rows : List (Option k.Val)) (hfit : Fits L k e rows)
    (hsize : rows.length < 2 ^ 32) (bytes : List Byte) (hw : colrefToPage L k e (validity rows) (values rows) = some bytes) :
    ReadsAs L k bytes rows := by
  unfold colrefToPage at hw
  rw [Option.map_eq_some_iff] at hw
  obtain ⟨data, hd, hw⟩ := hw
  subst hw
  have hv : (validity rows).length = rows.length := by simp [validity]
  rw [hv]
  refine readsAs_layout (by omega) (by rw [length_packBits, hv]) (by omega) ?_ (recovers L k e rows hfit data hd)
  rw [← hv]
  exact unpackBits_packBits _

/-- **C09**, pages written by compaction, when the null buffer of the array starts at its first bit.  The
buffer may be longer than the array. -/
theorem C09_page_roundtrip_compaction_partial (L : Lib) (k : Kind) (e : Encoding) (a : Arr k.Val) (hvalid : a.Valid)
    (hoff : ∀ nb, a.nulls = some nb → nb.offset = 0 ∧ nb.buf.length < 2 ^ 32) (hfit : Fits L k e a.rows)
    (hsize : a.rows.length < 2 ^ 32) (bytes : List Byte) (hw : arrowToPage L k e a = some bytes) :
    ReadsAs L k bytes a.rows := by
  obtain ⟨rows, nulls⟩ := a
  unfold arrowToPage at hw
  simp only at hw hfit hsize hoff
  rw [Option.map_eq_some_iff] at hw
  obtain ⟨data, hd, hw⟩ := hw
  subst hw
  have hrec := recovers L k e rows hfit data hd
  cases nulls with
  | none =>
    simp only [Arr.Valid] at hvalid
    have hv : validity rows = List.replicate rows.length true := by
      apply List.eq_replicate_iff.2
      refine ⟨by simp [validity], fun b hb => ?_⟩
      simp only [validity, List.mem_map] at hb
      obtain ⟨r, hr, rfl⟩ := hb
      exact hvalid r hr
    refine readsAs_layout ?_ rfl (by omega) ?_ hrec
    · rw [length_packBits, List.length_replicate]; omega
    · have := unpackBits_packBits (List.replicate rows.length true)
      rw [List.length_replicate] at this
      rw [this, hv]
  | some nb =>
    simp only [Arr.Valid] at hvalid
    obtain ⟨h0, hl⟩ := hoff nb rfl
    refine readsAs_layout (by simpa using hl) rfl (by omega) ?_ hrec
    have hv : (validity rows).length = rows.length := by simp [validity]
    rw [← hv]
    apply unpackBits_eq
    intro i b hb
    simp only [validity, List.getElem?_map, Option.map_eq_some_iff] at hb
    obtain ⟨r, hr, rfl⟩ := hb
    have := hvalid i r hr
    rwa [h0, Nat.zero_add] at this

/-- **C09**, damage.  Whatever stands in the value section instead of what was written, the check fails
unless the two have the same checksum; then nothing is returned. -/
theorem C09_damage_noticed (L : Lib) (k : Kind) (n : Nat) (bitset : List Byte) (rows : Nat) (data data' : List Byte)
    (hn : n < 2 ^ 32) (hb : bitset.length = n) (hne : Crc32.crc32 data ≠ Crc32.crc32 data') :
    let damaged := layout n bitset rows (Crc32.crc32 data) data'
    crcValidation damaged = some false ∧ readPage L k damaged = none := by
  intro damaged
  have h : crcValidation damaged = some false := by
    rw [crcValidation_layout (by omega) hb, decide_eq_false hne]
  refine ⟨h, ?_⟩
  rw [readPage, h]
  rfl

/-- **C09**, damage that is always noticed: bits of the value section changed, all of them within 32
consecutive bits (in the order of the bytes, lowest bit of a byte first). -/
theorem C09_burst_noticed (L : Lib) (k : Kind) (n : Nat) (bitset : List Byte) (rows : Nat) (data data' : List Byte)
    (hn : n < 2 ^ 32) (hb : bitset.length = n) (pre x y post : List Bool) (hd : Crc32.bitsOf data = pre ++ x ++ post)
    (hd' : Crc32.bitsOf data' = pre ++ y ++ post) (hl : x.length = y.length) (h32 : x.length ≤ 32) (hne : x ≠ y) :
    let damaged := layout n bitset rows (Crc32.crc32 data) data'
    crcValidation damaged = some false ∧ readPage L k damaged = none :=
  C09_damage_noticed L k n bitset rows data data' hn hb (Crc32.burst hd hd' hl h32 hne)

/-- In bytes: any change of up to four consecutive bytes of the value section is noticed. -/
theorem C09_four_bytes_noticed (L : Lib) (k : Kind) (n : Nat) (bitset : List Byte) (rows : Nat) (a u v c : List Byte)
    (hn : n < 2 ^ 32) (hb : bitset.length = n) (hl : u.length = v.length) (h4 : u.length ≤ 4) (hne : u ≠ v) :
    let damaged := layout n bitset rows (Crc32.crc32 (a ++ u ++ c)) (a ++ v ++ c)
    crcValidation damaged = some false ∧ readPage L k damaged = none :=
  C09_damage_noticed L k n bitset rows _ _ hn hb (Crc32.four_bytes hl h4 hne)

/-! ## Witnesses -/

/-- A compressor that changes nothing; the theorems hold for every lossless one. -/
def idCompressor : Str.Compressor := ⟨id, some, fun _ => rfl⟩

/-- Numbers out of eight bytes each. -/
def words (b : List Byte) : List U64 := (List.range (b.length / 8)).map fun i => ofBe64 ((b.drop (8 * i)).take 8)

theorem words_be64 (xs : List U64) : words (xs.flatMap be64) = xs := by
  have hl : ∀ xs : List U64, (xs.flatMap be64).length = 8 * xs.length := by
    intro xs
    induction xs with
    | nil => rfl
    | cons x xs ih => simp [ih]; omega
  unfold words
  rw [hl, Nat.mul_div_cancel_left _ (by omega)]
  induction xs with
  | nil => rfl
  | cons x xs ih =>
    rw [List.length_cons, List.range_succ_eq_map, List.map_cons, List.map_map, List.flatMap_cons]
    refine congr (congrArg _ ?_) ?_
    · rw [Nat.mul_zero, List.drop_zero, List.take_left' (be64_length x), ofBe64_be64]
    · conv => rhs; rw [← ih]
      apply List.map_congr_left
      intro i _
      simp only [Function.comp]
      rw [show 8 * (i + 1) = (be64 x).length + 8 * i by rw [be64_length]; omega, List.drop_append, Nat.add_sub_cancel_left,
        List.drop_eq_nil_of_le (by omega), List.nil_append]

/-- A number compressor for the examples: a header byte, then eight bytes per number. -/
def plainPco : Pco where
  compress xs := some (7 :: xs.flatMap be64)
  decompress b := some (words b.tail)
  lossless := by
    intro xs b h
    injection h with h
    subst h
    rw [List.tail_cons, words_be64]
  header := by
    intro xs b h
    injection h with h
    subst h
    simp

/-- Libraries for the examples. -/
def exLib : Lib :=
  ⟨plainPco, plainPco, idCompressor, idCompressor, idCompressor, idCompressor, idCompressor, fun s => s.all (· < 128)⟩

/-- A VARCHAR column with codec ZSTD and a NULL, and what its page looks like. -/
example : ∃ bytes, colrefToPage exLib .str .zstd (validity [some [0x61, 0x62], none, some []]) (values [some [0x61, 0x62], none, some []])
      = some bytes ∧ bytes.length = 16 + 1 + 19 ∧ ReadsAs exLib .str bytes [some [0x61, 0x62], none, some []] := by
  refine ⟨_, rfl, by decide +kernel, C09_page_roundtrip_partial exLib .str .zstd _ ?_ (by decide) _ rfl⟩
  show ∀ s ∈ values [some [0x61#8, 0x62#8], none, some []], exLib.utf8 s = true ∧ s.length < 2 ^ 64
  decide

/-- A BIGINT column with codec QUANTILE as compaction writes it: the null buffer is longer than needed. -/
example : ∃ bytes, arrowToPage exLib .int .quantile ⟨[some 5#64, none, some 7#64], some ⟨[0x0d, 0xff], 0⟩⟩ = some bytes ∧
    ReadsAs exLib .int bytes [some 5#64, none, some 7#64] := by
  refine ⟨_, rfl, C09_page_roundtrip_compaction_partial exLib .int .quantile
    ⟨[some 5#64, none, some 7#64], some ⟨[0x0d, 0xff], 0⟩⟩ ?_ ?_ (fun h => by cases h) (by decide) _ rfl⟩
  · intro i r h
    have : i < 3 := (List.getElem?_eq_some_iff.1 h).1
    match i, h with
    | 0, h => injection h with h; subst h; decide
    | 1, h => injection h with h; subst h; decide
    | 2, h => injection h with h; subst h; decide
  · intro nb h
    injection h with h
    subst h
    decide

/-- One bit of a value flipped. -/
example : crcValidation (layout 1 [1] 1 (Crc32.crc32 [1, 0, 0, 0, 0, 0, 0, 0, 5]) [1, 0, 0, 0, 0, 0, 0, 0, 4]) = some false :=
  (C09_four_bytes_noticed exLib .int 1 [1] 1 [1, 0, 0, 0, 0, 0, 0, 0] [5] [4] [] (by decide) rfl rfl (by decide) (by decide)).1

/-! ## What does not hold -/

/-- **C09 fails** for BIGINT columns with codec DELTATS, which `CREATE TABLE` accepts: the codec for
timestamps is used, and when the first row is NULL a value is lost (the column comes back with fewer
rows, so that the record batch cannot be built). -/
theorem C09_bigint_deltats_refuted (L : Lib) :
    ¬ ∀ (rows : List (Option U64)) (bytes : List Byte), rows.length < 2 ^ 32 →
      colrefToPage L .int .deltaTs (validity rows) (values rows) = some bytes → readPage L .int bytes = some rows := by
  intro h
  have e : Timestamp.encode [5, 7, 10] = some (11 :: 0x10 :: be64 5 ++ [0xe0, 0, 0, 0, 0xc0, 0, 0, 2]) := by decide +kernel
  have := h [none, some 5, some 7, some 10] (assemble 1 (packBits [false, true, true, true]) 4
    (11 :: 0x10 :: be64 5 ++ [0xe0, 0, 0, 0, 0xc0, 0, 0, 2])) (by decide) (by
      show (Timestamp.encode [5, 7, 10]).map _ = _
      rw [e]
      rfl)
  rw [readPage, assemble, crcValidation_layout (by decide) (by decide)] at this
  simp only [decide_true, Option.bind_some, if_true] at this
  rw [toArrow, dataBuffer_layout (by decide) (by decide), nullBitset_layout (by decide) (by decide) (by decide)] at this
  have e2 : unpackBits (packBits [false, true, true, true]) 4 = some [false, true, true, true] := by decide
  rw [e2] at this
  simp only [Option.bind_some] at this
  have e3 : getEncoding (11 :: 0x10 :: be64 5 ++ [0xe0, 0, 0, 0, 0xc0, 0, 0, 2]) = .deltaTs := rfl
  rw [e3] at this
  have e4 : Timestamp.decode (11 :: 0x10 :: be64 5 ++ [0xe0, 0, 0, 0, 0xc0, 0, 0, 2]) [false, true, true, true]
      ≠ some [none, some 5, some 7, some 10] := by decide +kernel
  exact e4 this

/-- **C09 fails** for arrays whose null buffer does not start at its first bit (a slice of an array): the
offset is ignored, the page has a wrong null mask and passes all checks.  No caller passes such an array
today. -/
theorem C09_sliced_nulls_refuted (L : Lib) :
    ¬ ∀ (a : Arr U64) (bytes : List Byte), a.Valid → arrowToPage L .uint .null a = some bytes → readPage L .uint bytes = some a.rows := by
  intro h
  have hv : (⟨[none, some 2#64], some ⟨[5], 1⟩⟩ : Arr U64).Valid := by
    intro i r hi
    have : i < 2 := (List.getElem?_eq_some_iff.1 hi).1
    match i, hi with
    | 0, hi => injection hi with hi; subst hi; decide
    | 1, hi => injection hi with hi; subst hi; decide
  have := h ⟨[none, some 2#64], some ⟨[5], 1⟩⟩ _ hv rfl
  have e : readPage L .uint (assemble 1 [5] 2 (1 :: be64 2)) = some [some 2#64, none] := by
    rw [readPage, assemble, crcValidation_layout (by decide) (by decide)]
    simp only [decide_true, Option.bind_some, if_true]
    rw [toArrow, dataBuffer_layout (by decide) (by decide), nullBitset_layout (by decide) (by decide) (by decide)]
    rw [Option.bind_some, show getEncoding (1 :: be64 2) = .null from rfl]
    show (unpackBits [5] 2).bind (fun m => Timestamp.plainDecode (1 :: be64 2) m) = some [some 2#64, none]
    decide +kernel
  have e2 : readPage L .uint (assemble 1 [5] 2 (1 :: be64 2)) = some [none, some 2#64] := this
  rw [e] at e2
  have e3 : (some [some 2#64, none] : Option (List (Option U64))) ≠ some [none, some 2#64] := by decide
  exact e3 e2

/-- **Damage elsewhere in a page is not noticed**: the checksum covers the values only.  Changing the null
bitmap moves a value to another row, without an error. -/
theorem C09_bitmap_damage_refuted (L : Lib) :
    ¬ ∀ (rows : List (Option U64)) (bytes bytes' : List Byte), colrefToPage L .uint .null (validity rows) (values rows) = some bytes →
      bytes'.length = bytes.length → readPage L .uint bytes' = none ∨ readPage L .uint bytes' = some rows := by
  intro h
  have := h [some 2#64, none] _ (assemble 1 [2] 2 (1 :: be64 2)) rfl (by decide)
  have e : readPage L .uint (assemble 1 [2] 2 (1 :: be64 2)) = some [none, some 2#64] := by
    rw [readPage, assemble, crcValidation_layout (by decide) (by decide)]
    simp only [decide_true, Option.bind_some, if_true]
    rw [toArrow, dataBuffer_layout (by decide) (by decide), nullBitset_layout (by decide) (by decide) (by decide)]
    rw [Option.bind_some, show getEncoding (1 :: be64 2) = .null from rfl]
    show (unpackBits [2] 2).bind (fun m => Timestamp.plainDecode (1 :: be64 2) m) = some [none, some 2#64]
    decide +kernel
  rw [e] at this
  have e3 : ¬ ((some [none, some 2#64] : Option (List (Option U64))) = none ∨
    (some [none, some 2#64] : Option (List (Option U64))) = some [some 2#64, none]) := by decide
  exact e3 this

/-- **Damage to the length of the bitmap crashes the checksum check** instead of being reported. -/
theorem C09_header_damage_refuted (L : Lib) :
    ¬ ∀ (rows : List (Option U64)) (bytes bytes' : List Byte), colrefToPage L .uint .null (validity rows) (values rows) = some bytes →
      bytes'.length = bytes.length → crcValidation bytes' ≠ none := by
  intro h
  exact h [some 2#64, none] _ (layout 0xffffffff [1] 2 (Crc32.crc32 (1 :: be64 2)) (1 :: be64 2)) rfl (by decide) (by decide +kernel)

end Verif.Page
