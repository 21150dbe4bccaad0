import Verif.Page.Bits
import Verif.Codec.Props
/-! # Every codec finds its own data; taking a page apart -/
namespace Verif.Page
open Verif.Codec

/-! ## The first byte leads to the codec that wrote it -/

/-- Reading back with the codec chosen by the first byte. -/
def Recovers {α : Type} (f : Encoding → Codec α) (e : Encoding) (rows : List (Option α)) : Prop :=
  ∀ data, (f e).enc (values rows) = some data → (f (getEncoding data)).dec data (validity rows) = some rows

theorem rows_of_no_values {α : Type} {rows : List (Option α)} (h : values rows = []) :
    rows = List.replicate (validity rows).length none := by
  have hc := count_validity rows
  rw [h] at hc
  have := place_no_true hc (values rows)
  rw [place_validity_values] at this
  exact this

/-- Enough: the data starts with a tag that chooses the same codec, or there are no values, no data,
and the default codec reads no data as all NULL. -/
theorem recovers_of {α : Type} {f : Encoding → Codec α} {e : Encoding} {rows : List (Option α)}
    (htag : ∀ data, (f e).enc (values rows) = some data → data = [] ∧ values rows = [] ∨ f (getEncoding data) = f e)
    (hnil : ∀ m, (f .unknown).dec [] m = some (List.replicate m.length none))
    (hpres : ∀ data, (f e).enc (values rows) = some data → values rows ≠ [] → (f e).dec data (validity rows) = some rows)
    (hnone : values rows = [] → (f e).enc [] = some [] ∨
      ∀ data, (f e).enc (values rows) = some data → (f e).dec data (validity rows) = some rows) : Recovers f e rows := by
  intro data hd
  by_cases hv : values rows = []
  · rcases htag data hd with ⟨h1, -⟩ | h1
    · subst h1
      show (f Encoding.unknown).dec [] _ = _
      rw [hnil, ← rows_of_no_values hv]
    · rcases hnone hv with h2 | h2
      · rw [hv, h2] at hd
        injection hd with hd
        subst hd
        show (f Encoding.unknown).dec [] _ = _
        rw [hnil, ← rows_of_no_values hv]
      · rw [h1]
        exact h2 data hd
  · rcases htag data hd with ⟨-, h1⟩ | h1
    · exact absurd h1 hv
    · rw [h1]
      exact hpres data hd hv

theorem preserves_some {α : Type} {enc : List α → Option (List Byte)} {dec : List Byte → List Bool → Option (List (Option α))}
    {rows : List (Option α)} (h : Preserves enc dec rows) {data : List Byte} (hd : enc (values rows) = some data) :
    dec data (validity rows) = some rows := by
  obtain ⟨b, h1, h2⟩ := h
  rw [hd] at h1
  injection h1 with h1
  rw [h1]
  exact h2

/-! Tags. -/

theorem tag_ts {vs : List U64} {data : List Byte} (h : Timestamp.encode vs = some data) :
    data = [] ∧ vs = [] ∨ getEncoding data = .deltaTs := by
  cases vs with
  | nil => injection h with h; exact .inl ⟨h.symm, rfl⟩
  | cons v vs =>
    right
    rw [Timestamp.encode] at h
    simp only at h
    split at h
    · injection h with h; subst h; rfl
    · split at h
      · injection h with h; subst h; rfl
      · rw [Option.map_eq_some_iff] at h
        obtain ⟨_, -, h⟩ := h
        subst h; rfl

theorem tag_int {vs : List U64} {data : List Byte} (h : Integer.encode vs = some data) :
    data = [] ∧ vs = [] ∨ getEncoding data = .delta := by
  cases vs with
  | nil => injection h with h; exact .inl ⟨h.symm, rfl⟩
  | cons v vs =>
    right
    rw [Integer.encode] at h
    split at h
    · injection h with h; subst h; rfl
    · split at h
      · injection h with h; subst h; rfl
      · rw [Option.map_eq_some_iff] at h
        obtain ⟨_, -, h⟩ := h
        subst h; rfl

theorem tag_plain {vs : List U64} {data : List Byte} (h : some (Timestamp.plainEncode vs) = some data) :
    data = [] ∧ vs = [] ∨ getEncoding data = .null := by
  injection h with h
  unfold Timestamp.plainEncode at h
  split at h
  · exact .inl ⟨h.symm, by assumption⟩
  · subst h; exact .inr rfl

theorem tag_plainF {vs : List U64} {data : List Byte} (h : some (Float.plainEncode vs) = some data) :
    data = [] ∧ vs = [] ∨ getEncoding data = .null := by
  injection h with h
  unfold Float.plainEncode at h
  split at h
  · exact .inl ⟨h.symm, by assumption⟩
  · subst h; exact .inr rfl

theorem tag_pco {p : Pco} {vs : List U64} {data : List Byte} (h : pcoEncode p vs = some data) :
    data = [] ∧ vs = [] ∨ getEncoding data = .quantile := by
  unfold pcoEncode at h
  split at h
  · injection h with h; exact .inl ⟨h.symm, by assumption⟩
  · rw [Option.map_eq_some_iff] at h
    obtain ⟨_, -, h⟩ := h
    subst h; exact .inr rfl

theorem tag_float {vs : List U64} {data : List Byte} (hs : vs ≠ [Float.sentinel]) (h : Float.encode vs = some data) :
    data = [] ∧ vs = [] ∨ getEncoding data = .gorilla := by
  cases vs with
  | nil => injection h with h; exact .inl ⟨h.symm, rfl⟩
  | cons v vs =>
    right
    have hx : ∀ x ∈ vs, x ≠ Float.sentinel := by
      intro x hx e
      subst e
      rw [C07_sentinel_refused v vs hx] at h
      cases h
    obtain ⟨b, src, e, -, -, hb⟩ := Float.decodeValues_encode v vs hx (fun h1 h2 => hs (by rw [h1, h2]))
    rw [e] at h
    injection h with h
    subst h
    rw [hb]
    rfl

theorem tag_bool {vs : List Bool} {data : List Byte} (hs : vs.length < 2 ^ 56) (h : Boolean.encode vs = some data) :
    data = [] ∧ vs = [] ∨ getEncoding data = .bitPack := by
  by_cases hv : vs = []
  · subst hv
    injection h with h
    exact .inl ⟨h.symm, rfl⟩
  · right
    obtain ⟨b, e, -, ht⟩ := Boolean.decode_encode_tag vs (List.replicate vs.length true) (by simp) hs
    rw [e] at h
    injection h with h
    subst h
    have := ht hv
    cases b with
    | nil => cases this
    | cons x b =>
      injection this with this
      rw [this]
      rfl

theorem tag_snappy {c : Str.Compressor} {vs : List (List Byte)} {data : List Byte} (h : Str.snappyEncode c vs = some data) :
    data = [] ∧ vs = [] ∨ getEncoding data = .snappy := by
  unfold Str.snappyEncode at h
  split at h
  · injection h with h; exact .inl ⟨h.symm, by assumption⟩
  · split at h
    · injection h with h; subst h; exact .inr rfl
    · cases h

theorem tag_str64 {k : Str.Kind} {c : Str.Compressor} {vs : List (List Byte)} {data : List Byte} (h : some (Str.encode64 k c vs) = some data) :
    data = [] ∧ vs = [] ∨ getEncoding data = Encoding.ofByte k.tag := by
  injection h with h
  unfold Str.encode64 at h
  split at h
  · exact .inl ⟨h.symm, by assumption⟩
  · subst h; exact .inr rfl

theorem tag_strPlain {vs : List (List Byte)} {data : List Byte} (h : some (Str.plainEncode vs) = some data) :
    data = [] ∧ vs = [] ∨ getEncoding data = .null := by
  injection h with h
  unfold Str.plainEncode at h
  split at h
  · exact .inl ⟨h.symm, by assumption⟩
  · subst h; exact .inr rfl

theorem pco_roundtrip {p : Pco} {rows : List (Option U64)} {data : List Byte} (h : pcoEncode p (values rows) = some data) :
    pcoDecode p data (validity rows) = some rows := by
  unfold pcoEncode at h
  split at h
  · rename_i hv
    injection h with h
    subst h
    rw [pcoDecode, ← rows_of_no_values hv]
  · rw [Option.map_eq_some_iff] at h
    obtain ⟨b, hb, h⟩ := h
    subst h
    rw [pcoDecode, p.lossless _ _ hb, Option.map_some, place_validity_values]

theorem pco_roundtripF {p : Pco} {rows : List (Option U64)} {data : List Byte} (h : pcoEncode p (values rows) = some data) :
    pcoDecodeF p data (validity rows) = some rows := by
  unfold pcoEncode at h
  split at h
  · rename_i hv
    injection h with h
    subst h
    rw [pcoDecodeF, ← rows_of_no_values hv]
  · rw [Option.map_eq_some_iff] at h
    obtain ⟨b, hb, h⟩ := h
    subst h
    rw [pcoDecodeF, if_neg (p.header _ _ hb), p.lossless _ _ hb, Option.bind_some, Float.spread_eq _ _ (count_validity rows),
      place_validity_values]

theorem ts_first_valid {rows : List (Option U64)} (h : rows.head? = some none → values rows = []) :
    Preserves Timestamp.encode Timestamp.decode rows := by
  cases rows with
  | nil => exact C03_timestamp_roundtrip []
  | cons r rows =>
    cases r with
    | some t => exact C03_timestamp_roundtrip_first_valid t rows
    | none =>
      have hv := h rfl
      refine ⟨[], by rw [hv]; rfl, ?_⟩
      rw [Timestamp.decode, ← rows_of_no_values hv]

/-! ## Taking a page apart -/

theorem slice_mid {a b c : List Byte} {lo hi : Nat} (h1 : lo = a.length) (h2 : hi = a.length + b.length) :
    slice (a ++ b ++ c) lo hi = some b := by
  subst h1 h2
  unfold slice
  rw [if_pos (by simp)]
  congr 1
  rw [← List.length_append, List.take_left', List.drop_left]
  rfl

variable {n rows : Nat} {bitset data : List Byte} {crc : BitVec 32}

theorem bitsetLen_layout (h : n < 256 ^ 4) : bitsetLen (layout n bitset rows crc data) = some n := by
  unfold bitsetLen
  have : layout n bitset rows crc data = [] ++ beEnc 4 n ++ (beEnc 8 rows ++ beEnc 4 crc.toNat ++ bitset ++ data) := by
    simp [layout]
  rw [this, slice_mid (by simp) (by simp), Option.map_some, beDec_beEnc_of_lt h]

theorem rowCount_layout (h : rows < 256 ^ 8) : rowCount (layout n bitset rows crc data) = some rows := by
  unfold rowCount
  have : layout n bitset rows crc data = beEnc 4 n ++ beEnc 8 rows ++ (beEnc 4 crc.toNat ++ bitset ++ data) := by
    simp [layout]
  rw [this, slice_mid (by simp) (by simp), Option.map_some, beDec_beEnc_of_lt h]

theorem nullBitsetSlice_layout (h : n < 256 ^ 4) (hb : bitset.length = n) :
    nullBitsetSlice (layout n bitset rows crc data) = some bitset := by
  unfold nullBitsetSlice
  rw [bitsetLen_layout h, Option.bind_some]
  have : layout n bitset rows crc data = (beEnc 4 n ++ beEnc 8 rows ++ beEnc 4 crc.toNat) ++ bitset ++ data := by
    simp [layout]
  rw [this, slice_mid (by simp) (by simp [hb])]

theorem dataBuffer_layout (h : n < 256 ^ 4) (hb : bitset.length = n) : dataBuffer (layout n bitset rows crc data) = some data := by
  unfold dataBuffer
  rw [bitsetLen_layout h, Option.bind_some]
  have : layout n bitset rows crc data = (beEnc 4 n ++ beEnc 8 rows ++ beEnc 4 crc.toNat ++ bitset) ++ data ++ [] := by
    simp [layout]
  rw [this, slice_mid (by simp [hb]; omega) (by simp; omega)]

theorem nullBitset_layout (h : n < 256 ^ 4) (hb : bitset.length = n) (hr : rows < 256 ^ 8) :
    nullBitset (layout n bitset rows crc data) = unpackBits bitset rows := by
  unfold nullBitset
  rw [rowCount_layout hr, nullBitsetSlice_layout h hb]
  rfl

theorem crcValidation_layout (h : n < 256 ^ 4) (hb : bitset.length = n) :
    crcValidation (layout n bitset rows crc data) = some (decide (crc = Crc32.crc32 data)) := by
  unfold crcValidation
  have hs : slice (layout n bitset rows crc data) 12 16 = some (beEnc 4 crc.toNat) := by
    have : layout n bitset rows crc data = (beEnc 4 n ++ beEnc 8 rows) ++ beEnc 4 crc.toNat ++ (bitset ++ data) := by simp [layout]
    rw [this, slice_mid (by simp) (by simp)]
  rw [hs, dataBuffer_layout h hb, Option.bind_some, Option.map_some, beDec_beEnc_of_lt (by have := crc.isLt; omega)]
  congr 1
  rw [decide_eq_decide]
  exact BitVec.toNat_inj

end Verif.Page
