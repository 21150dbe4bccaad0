import Verif.Wal.RecordProps
import Verif.Codec.Str
/-!
# Model: log entries — `tskv/src/wal/{mod,reader,writer}.rs`; C24

A log entry becomes bytes in three steps: `bincode` (the functions `ser`, `deser`), the string codec chosen in the
configuration (`walEnc`, `walDec`, over the compressors of `Verif.Codec.Str`), and a header of type and index.
-/
namespace Verif.Wal.Entry

open Verif.Codec.Str

/-- `enum WalType` (wal/mod.rs:64-71). -/
inductive WalType where
  | blank | normal | membership | unknown
deriving DecidableEq

/-- `WalType as u8` (wal/mod.rs:66-70). -/
def WalType.code : WalType → Byte
  | .blank => 101
  | .normal => 102
  | .membership => 103
  | .unknown => 127

/-- `From<u8> for WalType` (wal/mod.rs:73-82). -/
def WalType.ofByte (b : Byte) : WalType :=
  if b = 101 then .blank else if b = 102 then .normal else if b = 103 then .membership else .unknown

/-- `openraft::EntryPayload`. -/
inductive Payload where
  | blank | normal | membership
deriving DecidableEq

/-- The type written for a payload (wal/writer.rs:44-48). -/
def typeOf : Payload → WalType
  | .blank => .normal
  | .normal => .normal
  | .membership => .membership

/-- The loop of `str_snappy_decode` (tsm/codec/string.rs:202-222); `fuel` at least the length. -/
def splitAllVar : Nat → Bytes → Option (List Bytes)
  | _, [] => some []
  | 0, _ => none
  | fuel + 1, src =>
    match varDec src with
    | none => none
    | some (len, n) =>
      if src.length < n + len then none
      else (splitAllVar fuel (src.drop (n + len))).map ((src.drop n).take len :: ·)

/-- `split_stream` (tsm/codec/string.rs:278-290); `none` is the panic of a slice out of bounds. -/
def splitAll64 : Nat → Bytes → Option (List Bytes)
  | _, [] => some []
  | 0, _ => none
  | fuel + 1, src =>
    if src.length < 8 then none
    else
      let len := beDec (src.take 8)
      if src.length < 8 + len then none
      else (splitAll64 fuel (src.drop (8 + len))).map ((src.drop 8).take len :: ·)

/-- `StringCodec::decode` (tsm/codec/string.rs:188-224, 314-325, 340-356, …, 448-459).  The first byte, naming the
codec, is skipped. -/
def strDecode (k : Kind) (c : Compressor) (src : Bytes) : Option (List Bytes) :=
  match src with
  | [] => some []
  | _ :: body =>
    match k with
    | .null => splitAll64 body.length body
    | .snappy => match body with
      | [] => none
      | _ :: body => (c.decompress body).bind fun d => splitAllVar d.length d
    | _ => (c.decompress body).bind fun d => splitAll64 d.length d

/-- `WalEntryCodec::encode` (wal/mod.rs:256-263): a column of one string. -/
def walEnc (k : Kind) (c : Compressor) (data : Bytes) : Option Bytes :=
  match k with
  | .null => some (plainEncode [data])
  | .snappy => snappyEncode c [data]
  | k => some (encode64 k c [data])

/-- `WalEntryCodec::decode` (wal/mod.rs:248-254): the first string. -/
def walDec (k : Kind) (c : Compressor) (src : Bytes) : Option Bytes := (strDecode k c src).bind List.head?

variable {E : Type}

/-- What the code knows about an entry: `log_id.index`, the payload, and `bincode`. -/
structure Ser (E : Type) where
  idx : E → U64
  payload : E → Payload
  ser : E → Bytes
  deser : Bytes → Option E

/-- `WalWriter::append_raft_entry` (wal/writer.rs:40-61): the record, version `V1`, type `Wal`. -/
def encEntry (S : Ser E) (k : Kind) (c : Compressor) (e : E) : Option Put :=
  (walEnc k c (S.ser e)).map fun d => ⟨1#8, 8#8, (typeOf (S.payload e)).code :: (be64 (S.idx e) ++ d)⟩

/-- `struct WalRecordData` (wal/reader.rs:90-95). -/
structure WalRec (E : Type) where
  pos : Nat
  typ : WalType
  seq : U64
  block : E
deriving DecidableEq

/-- `WalRecordData::new` (wal/reader.rs:97-118) with `decode_wal_raft_entry` (wal/mod.rs:266-273).  `k` is the codec of
the configuration, not the one named in the data. -/
def parse (S : Ser E) (k : Kind) (c : Compressor) (buf : Bytes) (pos : Nat) : Option (WalRec E) :=
  if buf.length < 9 then none
  else
    ((walDec k c (buf.drop 9)).bind S.deser).map fun e =>
      ⟨pos, WalType.ofByte (buf.headD 0#8), ofBe64 ((buf.drop 1).take 8), e⟩

/-! ## Lossless -/

theorem splitAllVar_one (s : Bytes) (h : s.length < 2 ^ 64) : ∀ fuel, 0 < fuel →
    splitAllVar fuel (frameVar [s]) = some [s]
  | fuel + 1, _ => by
    have hv : varDec (varEnc s.length ++ s) = some (s.length, (varEnc s.length).length) := varDec_varEnc h s
    have hne : varEnc s.length ++ s ≠ [] := by simp [varEnc_ne_nil]
    simp only [frameVar, List.append_nil]
    unfold splitAllVar
    split
    · rename_i heq; exact absurd heq hne
    · rename_i heq _; cases heq
    · rename_i x fu heq
      rw [hv]
      simp only
      rw [if_neg (by simp)]
      have d1 : (varEnc s.length ++ s).drop ((varEnc s.length).length + s.length) = [] :=
        List.drop_of_length_le (by simp)
      have d2 : (varEnc s.length ++ s).drop (varEnc s.length).length = s := by simp
      rw [d1, d2]
      simp [splitAllVar]

theorem splitAll64_one (s : Bytes) (h : s.length < 2 ^ 64) : ∀ fuel, 0 < fuel →
    splitAll64 fuel (frame64 [s]) = some [s]
  | fuel + 1, _ => by
    have e : frame64 [s] = beEnc 8 s.length ++ s := by simp [frame64]
    have hd : beDec ((beEnc 8 s.length ++ s).take 8) = s.length := by
      rw [List.take_append_of_le_length (by simp), List.take_of_length_le (by simp),
        beDec_beEnc_of_lt (by omega)]
    have hne : beEnc 8 s.length ++ s ≠ [] := by
      intro h0
      have := congrArg List.length h0
      simp at this
    rw [e]
    unfold splitAll64
    split
    · rename_i heq; exact absurd heq hne
    · rename_i heq _; cases heq
    · rename_i x fu heq
      rw [if_neg (by simp)]
      simp only [hd]
      have d1 : (beEnc 8 s.length ++ s).drop (8 + s.length) = [] := List.drop_of_length_le (by simp)
      have d2 : (beEnc 8 s.length ++ s).drop 8 = s := by
        rw [List.drop_append_of_le_length (by simp), List.drop_of_length_le (by simp)]; rfl
      rw [if_neg (by simp), d1, d2]
      simp [splitAll64]

theorem walDec_walEnc (k : Kind) (c : Compressor) (d x : Bytes) (hl : d.length < 2 ^ 64)
    (h : walEnc k c d = some x) : walDec k c x = some d := by
  have f64 : 0 < (frame64 [d]).length := by simp [frame64]; omega
  have fv : 0 < (frameVar [d]).length := by
    have := List.length_pos_iff.2 (varEnc_ne_nil d.length)
    simp only [frameVar, List.length_append]; omega
  cases k <;> simp only [walEnc] at h
  case null =>
    cases h
    simp [walDec, strDecode, plainEncode, splitAll64_one d hl _ f64]
  case snappy =>
    unfold snappyEncode at h
    rw [if_neg (by simp)] at h
    split at h
    · cases h
      simp [walDec, strDecode, c.lossless, splitAllVar_one d hl _ fv]
    · cases h
  all_goals
    cases h
    simp [walDec, strDecode, encode64, c.lossless, splitAll64_one d hl _ f64]

/-- **C24**: type, index and contents are recovered exactly from the record, for every codec. -/
theorem C24_entry_roundtrip (S : Ser E) (hS : ∀ e, S.deser (S.ser e) = some e) (k : Kind) (c : Compressor) (e : E)
    (hl : (S.ser e).length < 2 ^ 64) (p : Put) (h : encEntry S k c e = some p) (pos : Nat) :
    parse S k c p.data pos = some ⟨pos, typeOf (S.payload e), S.idx e, e⟩ := by
  unfold encEntry at h
  obtain ⟨d, hd, rfl⟩ := Option.map_eq_some_iff.1 h
  have ht : ∀ t : WalType, WalType.ofByte t.code = t := by intro t; cases t <;> rfl
  unfold parse
  simp only [List.length_cons, List.length_append, be64_length]
  rw [if_neg (by omega)]
  have e1 : ((typeOf (S.payload e)).code :: (be64 (S.idx e) ++ d)).drop 9 = d := by
    rw [List.drop_succ_cons, List.drop_append_of_le_length (by simp), List.drop_of_length_le (by simp)]; rfl
  have e2 : (((typeOf (S.payload e)).code :: (be64 (S.idx e) ++ d)).drop 1).take 8 = be64 (S.idx e) := by
    rw [List.drop_succ_cons, List.drop_zero, List.take_append_of_le_length (by simp), List.take_of_length_le (by simp)]
  rw [e1, e2, walDec_walEnc k c _ _ hl hd, ofBe64_be64]
  simp [hS, ht]

/-- Encoding succeeds for entries shorter than 2 GiB. -/
theorem C24_encodes (S : Ser E) (k : Kind) (c : Compressor) (e : E) (hl : (S.ser e).length < 2 ^ 31 - 1) :
    (encEntry S k c e).isSome = true := by
  unfold encEntry
  rw [Option.isSome_map]
  cases k <;> simp only [walEnc, Option.isSome_some]
  unfold snappyEncode
  rw [if_neg (by simp), if_pos (by simpa using hl)]
  rfl

/-- Every 8-bit type is read back, up to the types that are not in use. -/
theorem C24_type_byte (b : Byte) : (WalType.ofByte b).code = b ∨ WalType.ofByte b = .unknown := by
  unfold WalType.ofByte
  split
  · rename_i h; exact .inl h.symm
  · split
    · rename_i h; exact .inl h.symm
    · split
      · rename_i h; exact .inl h.symm
      · exact .inr rfl

/-- **C24** for a whole file: the entries of a log file, with types, indexes and positions. -/
theorem C24_log_roundtrip (S : Ser E) (hS : ∀ e, S.deser (S.ser e) = some e) (k : Kind) (c : Compressor)
    (crc : Bytes → BitVec 32) (es : List (E × Put)) (hl : ∀ x ∈ es, (S.ser x.1).length < 2 ^ 64)
    (hp : ∀ x ∈ es, encEntry S k c x.1 = some x.2) (hsz : ∀ x ∈ es, x.2.data.length < 2 ^ 32)
    (hft : footerAt crc (fileOf crc (es.map Prod.snd)) = none) :
    (readFile crc Policy.wal (fileOf crc (es.map Prod.snd))).1.map
        (fun r => (parse S k c r.data r.pos).map fun w => (w.typ, w.seq, w.block)) =
      es.map fun x => some (typeOf (S.payload x.1), S.idx x.1, x.1) := by
  have hne : ∀ x ∈ es, x.2.data ≠ [] := by
    intro x hx
    have := hp x hx
    unfold encEntry at this
    obtain ⟨d, _, hd⟩ := Option.map_eq_some_iff.1 this
    rw [← hd]
    simp
  rw [(C18_read_back_partial Policy.wal _ (by simpa using fun a b h => hsz (b, a) h) (by
    intro p hp'
    obtain ⟨x, hx, rfl⟩ := List.mem_map.1 (List.mem_of_getLast? hp')
    exact hne x hx) hft).2.2]
  generalize (4 : Nat) = off
  clear hft
  induction es generalizing off with
  | nil => rfl
  | cons x es ih =>
    simp only [List.map_cons, located]
    rw [C24_entry_roundtrip S hS k c x.1 (hl x List.mem_cons_self) x.2 (hp x List.mem_cons_self)]
    rw [ih (fun y hy => hl y (List.mem_cons_of_mem _ hy)) (fun y hy => hp y (List.mem_cons_of_mem _ hy))
      (fun y hy => hsz y (List.mem_cons_of_mem _ hy)) (fun y hy => hne y (List.mem_cons_of_mem _ hy))]
    rfl

/-- **Refuted** for the type of blank entries: they come back as normal ones (their contents do not). -/
theorem C24_blank_type_refuted (S : Ser E) (hS : ∀ e, S.deser (S.ser e) = some e) (k : Kind) (c : Compressor) (e : E)
    (hb : S.payload e = .blank) (hl : (S.ser e).length < 2 ^ 31 - 1) : ∃ p w, encEntry S k c e = some p ∧
    parse S k c p.data 4 = some w ∧ w.typ = .normal ∧ w.block = e := by
  obtain ⟨p, hp⟩ := Option.isSome_iff_exists.1 (C24_encodes S k c e hl)
  refine ⟨p, _, hp, C24_entry_roundtrip S hS k c e (by omega) p hp 4, ?_, rfl⟩
  rw [hb]; rfl

/-- **Refuted** across a change of the configured compression, although the data names its codec: entries written with
snappy (the default) are not readable with `Null`, whatever they are. -/
theorem C24_changed_compression_refuted (S : Ser E) (c : Compressor) (e : E) (p : Put)
    (h : encEntry S .snappy c e = some p) (hl : p.data.length < 2 ^ 60) (pos : Nat) :
    parse S .null c p.data pos = none := by
  unfold encEntry at h
  obtain ⟨d, hd, rfl⟩ := Option.map_eq_some_iff.1 h
  simp only [List.length_cons, List.length_append, be64_length] at hl
  have e1 : ((typeOf (S.payload e)).code :: (be64 (S.idx e) ++ d)).drop 9 = d := by
    rw [List.drop_succ_cons, List.drop_append_of_le_length (by simp), List.drop_of_length_le (by simp)]; rfl
  have hw : walDec .null c d = none := by
    simp only [walEnc] at hd
    unfold snappyEncode at hd
    rw [if_neg (by simp)] at hd
    split at hd
    · cases hd
      generalize c.compress (frameVar [S.ser e]) = x at hl
      simp only [List.length_cons] at hl
      simp only [walDec, strDecode, List.length_cons]
      unfold splitAll64
      simp only [List.length_cons]
      split
      · rfl
      · rename_i h8
        have hlt : 2 ^ 60 ≤ beDec (((1#8 <<< 4) :: x).take 8) := by
          rw [List.take_succ_cons]
          obtain ⟨a, b, cc, dd, ee, ff, gg, hh, hx⟩ : ∃ a b cc dd ee ff gg hh, x =
              (a :: b :: cc :: dd :: ee :: ff :: gg :: hh : Bytes) := by
            match x, h8 with
            | a :: b :: cc :: dd :: ee :: ff :: gg :: hh, _ => exact ⟨a, b, cc, dd, ee, ff, gg, hh, rfl⟩
            | [], h | [_], h | [_, _], h | [_, _, _], h | [_, _, _, _], h | [_, _, _, _, _], h
            | [_, _, _, _, _, _], h => simp at h
          subst hx
          simp only [List.take_succ_cons, List.take_zero, beDec, List.foldl_cons, List.foldl_nil]
          have : (1#8 <<< 4 : Byte).toNat = 16 := by decide
          rw [this]
          omega
        rw [if_pos (by omega)]
        rfl
    · cases hd
  unfold parse
  rw [if_neg (by simp), e1, hw]
  rfl

/-! ## Examples -/

/-- A compressor that does nothing, and entries that are an index and one byte. -/
private def cid : Compressor := ⟨id, some, fun _ => rfl⟩
private def exS : Ser (U64 × Byte) where
  idx e := e.1
  payload e := if e.2 = 0 then .blank else .normal
  ser e := be64 e.1 ++ [e.2]
  deser b := if b.length = 9 then some (ofBe64 (b.take 8), b.getD 8 0) else none

example : ∀ e, exS.deser (exS.ser e) = some e := by
  intro e
  have h1 : (be64 e.1 ++ [e.2]).take 8 = be64 e.1 := by
    rw [List.take_append_of_le_length (by simp), List.take_of_length_le (by simp)]
  have h2 : (be64 e.1 ++ [e.2]).getD 8 0 = e.2 := by
    simp [List.getD_eq_getElem?_getD]
  simp only [exS, h1, h2, ofBe64_be64]
  rw [if_pos (by simp)]

example : ((encEntry exS .snappy cid (5, 3)).bind fun p => parse exS .snappy cid p.data 4) =
    some ⟨4, .normal, 5, (5, 3)⟩ := by decide +kernel
example : ((encEntry exS .snappy cid (5, 3)).bind fun p => parse exS .null cid p.data 4) = none := by decide +kernel
example : ((encEntry exS .zstd cid (5, 0)).bind fun p => parse exS .zstd cid p.data 4) =
    some ⟨4, .normal, 5, (5, 0)⟩ := by decide +kernel

end Verif.Wal.Entry
