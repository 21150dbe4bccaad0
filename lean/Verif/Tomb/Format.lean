import Verif.Tomb.Model
import Verif.Wal.RecordProps
/-! The byte format of deletion records: decoding undoes encoding. -/
namespace Verif.Tomb
open Verif.Time Verif.Wal

theorem decI64_encI64 {x : Int} (h : IsI64 x) : decI64 (encI64 x) = x := by
  unfold decI64 encI64
  rw [ofBe64_be64, BitVec.toInt_ofInt]
  unfold IsI64 at h
  exact Int.bmod_eq_of_le (by omega) (by omega)

@[simp] theorem encI64_length (x : Int) : (encI64 x).length = 8 := by simp [encI64]
@[simp] theorem encRange_length (r : TimeRange) : (encRange r).length = 16 := by simp [encRange]

/-- Both ends are 64-bit integers. -/
def RangeOk (r : TimeRange) : Prop := IsI64 r.minTs ∧ IsI64 r.maxTs

theorem flatMap_encRange_length (rs : List TimeRange) : (rs.flatMap encRange).length = 16 * rs.length := by
  induction rs with
  | nil => rfl
  | cons r rs ih => simp only [List.flatMap_cons, List.length_append, encRange_length, ih, List.length_cons]; omega

theorem decRangesLoop_enc (rs : List TimeRange) (h : ∀ r ∈ rs, RangeOk r) (rest : Bytes) :
    decRangesLoop rs.length (rs.flatMap encRange ++ rest) = rs := by
  induction rs with
  | nil => rfl
  | cons r rs ih =>
    obtain ⟨h1, h2⟩ := h r (List.mem_cons_self ..)
    simp only [List.length_cons, decRangesLoop, List.flatMap_cons, encRange, List.append_assoc]
    have e1 : (encI64 r.minTs ++ (encI64 r.maxTs ++ (rs.flatMap encRange ++ rest))).take 8 = encI64 r.minTs := by
      rw [List.take_append_of_le_length (by simp), List.take_of_length_le (by simp)]
    have e2 : (encI64 r.minTs ++ (encI64 r.maxTs ++ (rs.flatMap encRange ++ rest))).drop 8 =
        encI64 r.maxTs ++ (rs.flatMap encRange ++ rest) := by
      rw [List.drop_append_of_le_length (by simp), List.drop_of_length_le (by simp)]; rfl
    have e3 : (encI64 r.maxTs ++ (rs.flatMap encRange ++ rest)).take 8 = encI64 r.maxTs := by
      rw [List.take_append_of_le_length (by simp), List.take_of_length_le (by simp)]
    have e4 : (encI64 r.minTs ++ (encI64 r.maxTs ++ (rs.flatMap encRange ++ rest))).drop 16 =
        rs.flatMap encRange ++ rest := by
      rw [show 16 = 8 + 8 from rfl, ← List.drop_drop, e2, List.drop_append_of_le_length (by simp),
        List.drop_of_length_le (by simp)]; rfl
    rw [e1, e2, e3, e4, decI64_encI64 h1, decI64_encI64 h2, ih (fun x hx => h x (List.mem_cons_of_mem _ hx))]

/-- What can be encoded as one field. -/
def Stone.Ok (t : Stone) : Prop :=
  t.ranges.length ≤ maxRanges ∧ (∀ r ∈ t.ranges, RangeOk r) ∧
  match t.field with
  | .one s c => s < 2 ^ 32 ∧ c < 2 ^ 32
  | .all => True

/-- The bytes of one field. -/
def encStone (t : Stone) : Bytes := (encField t.field t.ranges).1
/-- The bytes of fields written one after another. -/
def encStones (ts : List Stone) : Bytes := ts.flatMap encStone

theorem encStone_eq {t : Stone} (h : t.Ok) :
    encStone t = encHead t.field ++ (beEnc 4 t.ranges.length ++ t.ranges.flatMap encRange) := by
  have := h.1
  unfold encStone encField
  simp only [Nat.min_eq_left this, List.take_length]

theorem encHead_length (f : Field) : 1 ≤ (encHead f).length ∧ (encHead f).length ≤ 9 := by
  cases f <;> simp [encHead]

theorem encStone_length {t : Stone} (h : t.Ok) : 1 ≤ (encStone t).length ∧ (encStone t).length ≤ 16013 := by
  rw [encStone_eq h]
  have h1 := encHead_length t.field
  have h2 := h.1
  unfold maxRanges at h2
  simp only [List.length_append, beEnc_length, flatMap_encRange_length]
  omega

theorem decRanges_enc (rs : List TimeRange) (h : ∀ r ∈ rs, RangeOk r) (rest : Bytes) :
    decRanges (rs.flatMap encRange ++ rest) rs.length = some rs := by
  have : ¬ (rs.flatMap encRange ++ rest).length < 16 * rs.length := by
    rw [List.length_append, flatMap_encRange_length]; omega
  simp only [decRanges, this, if_false, decRangesLoop_enc rs h]

theorem take_drop_mid (a x b : Bytes) {n m : Nat} (ha : a.length = n) (hx : x.length = m) :
    ((a ++ (x ++ b)).drop n).take m = x := by
  subst ha hx; simp

theorem drop_all (a b : Bytes) {n : Nat} (ha : a.length = n) : (a ++ b).drop n = b := by
  subst ha; simp

/-- One field is decoded and the rest of the bytes is left for the following ones. -/
theorem decV2_step {t : Stone} (h : t.Ok) (fuel : Nat) (rest : Bytes) :
    decV2 (fuel + 1) (encStone t ++ rest) = (decV2 fuel rest).map (t :: ·) := by
  have hn : t.ranges.length < 256 ^ 4 := by have := h.1; unfold maxRanges at this; omega
  obtain ⟨f, rs⟩ := t
  rw [encStone_eq h]
  obtain ⟨h1, h2, h3⟩ := h
  simp only at h1 h2 h3 hn ⊢
  cases f with
  | all =>
    simp only [encHead, List.cons_append, List.nil_append, List.append_assoc]
    rw [decV2]
    simp only [if_true]
    have hl : ¬ (1#8 :: (beEnc 4 rs.length ++ (rs.flatMap encRange ++ rest))).length < 5 := by
      simp only [List.length_cons, List.length_append, beEnc_length]; omega
    rw [if_neg hl]
    have e1 : (((1#8 :: (beEnc 4 rs.length ++ (rs.flatMap encRange ++ rest))).drop 1).take 4) = beEnc 4 rs.length :=
      take_drop_mid [1#8] _ _ rfl (beEnc_length 4 _)
    have e2 : (1#8 :: (beEnc 4 rs.length ++ (rs.flatMap encRange ++ rest))).drop 5 = rs.flatMap encRange ++ rest := by
      have := drop_all (1#8 :: beEnc 4 rs.length) (rs.flatMap encRange ++ rest) (n := 5) (by simp)
      exact this
    rw [e1, e2, beDec_beEnc_of_lt hn, decRanges_enc rs h2]
    have e3 : (1#8 :: (beEnc 4 rs.length ++ (rs.flatMap encRange ++ rest))).drop (5 + 16 * rs.length) = rest := by
      rw [← List.drop_drop, e2]
      exact drop_all _ _ (flatMap_encRange_length rs)
    rw [e3]
  | one s c =>
    simp only [encHead, List.cons_append, List.append_assoc]
    rw [decV2]
    rw [if_neg (by decide)]
    have hl : ¬ (0#8 :: (beEnc 4 s ++ (beEnc 4 c ++ (beEnc 4 rs.length ++ (rs.flatMap encRange ++ rest))))).length < 13 := by
      simp only [List.length_cons, List.length_append, beEnc_length]; omega
    rw [if_neg hl]
    have e1 : (((0#8 :: (beEnc 4 s ++ (beEnc 4 c ++ (beEnc 4 rs.length ++ (rs.flatMap encRange ++ rest))))).drop 1).take 4)
        = beEnc 4 s := take_drop_mid [0#8] _ _ rfl (beEnc_length 4 _)
    have e2 : (((0#8 :: (beEnc 4 s ++ (beEnc 4 c ++ (beEnc 4 rs.length ++ (rs.flatMap encRange ++ rest))))).drop 5).take 4)
        = beEnc 4 c := by
      have := take_drop_mid (0#8 :: beEnc 4 s) (beEnc 4 c) (beEnc 4 rs.length ++ (rs.flatMap encRange ++ rest))
        (n := 5) (m := 4) (by simp) (by simp)
      simpa using this
    have e3 : (((0#8 :: (beEnc 4 s ++ (beEnc 4 c ++ (beEnc 4 rs.length ++ (rs.flatMap encRange ++ rest))))).drop 9).take 4)
        = beEnc 4 rs.length := by
      have := take_drop_mid (0#8 :: (beEnc 4 s ++ beEnc 4 c)) (beEnc 4 rs.length) (rs.flatMap encRange ++ rest)
        (n := 9) (m := 4) (by simp) (by simp)
      simpa using this
    have e4 : (0#8 :: (beEnc 4 s ++ (beEnc 4 c ++ (beEnc 4 rs.length ++ (rs.flatMap encRange ++ rest))))).drop 13
        = rs.flatMap encRange ++ rest := by
      have := drop_all (0#8 :: (beEnc 4 s ++ (beEnc 4 c ++ beEnc 4 rs.length))) (rs.flatMap encRange ++ rest) (n := 13) (by simp)
      simpa using this
    have e5 : (0#8 :: (beEnc 4 s ++ (beEnc 4 c ++ (beEnc 4 rs.length ++ (rs.flatMap encRange ++ rest))))).drop
        (13 + 16 * rs.length) = rest := by
      rw [← List.drop_drop, e4]
      exact drop_all _ _ (flatMap_encRange_length rs)
    simp only [e1, e2, e3, e4, beDec_beEnc_of_lt hn, beDec_beEnc_of_lt (show s < 256 ^ 4 by simpa using h3.1),
      beDec_beEnc_of_lt (show c < 256 ^ 4 by simpa using h3.2), decRanges_enc rs h2, e5]

theorem decV2_enc : ∀ (ts : List Stone) (fuel : Nat), (∀ t ∈ ts, t.Ok) → ts.length ≤ fuel →
    decV2 fuel (encStones ts) = some ts
  | [], fuel, _, _ => by cases fuel <;> rfl
  | t :: ts, fuel, h, hf => by
    obtain ⟨fuel, rfl⟩ : ∃ k, fuel = k + 1 := ⟨fuel - 1, by simp only [List.length_cons] at hf; omega⟩
    have ht := h t (List.mem_cons_self ..)
    simp only [encStones, List.flatMap_cons]
    rw [decV2_step ht]
    have := decV2_enc ts fuel (fun x hx => h x (List.mem_cons_of_mem _ hx)) (by simpa using hf)
    unfold encStones at this
    rw [this]
    rfl

theorem length_le_encStones (ts : List Stone) (h : ∀ t ∈ ts, t.Ok) : ts.length ≤ (encStones ts).length := by
  induction ts with
  | nil => simp
  | cons t ts ih =>
    have := (encStone_length (h t (List.mem_cons_self ..))).1
    have := ih (fun x hx => h x (List.mem_cons_of_mem _ hx))
    simp only [encStones, List.flatMap_cons, List.length_append, List.length_cons] at this ⊢
    omega

/-- **C16.** Decoding a record gives back exactly the fields and ranges that were encoded into it, for any number
of fields. -/
theorem C16_format_roundtrip (ts : List Stone) (h : ∀ t ∈ ts, t.Ok) :
    decV2 (encStones ts).length (encStones ts) = some ts :=
  decV2_enc ts _ h (length_le_encStones ts h)

/-- Two columns and a whole-file range, with the extreme timestamps. -/
example : (∀ t ∈ [Stone.mk (.one 7 3) [⟨-5, 10⟩], ⟨.all, [⟨i64Min, -6⟩, ⟨11, i64Max⟩]⟩], t.Ok) := by
  intro t ht
  simp only [List.mem_cons, List.not_mem_nil, or_false] at ht
  rcases ht with rfl | rfl <;>
  · unfold Stone.Ok RangeOk IsI64; decide

/-! ## Cutting into records -/

/-- The buffer and the records written so far hold the fields `ts`. -/
structure Buffered (s : Bytes × List Bytes) (ts : List Stone) : Prop where
  ex : ∃ (gs : List (List Stone)) (bs : List Stone), s.2 = gs.map encStones ∧ s.1 = encStones bs ∧
    gs.flatten ++ bs = ts ∧ (∀ t ∈ ts, t.Ok) ∧ (∀ g ∈ gs, g ≠ [] ∧ (encStones g).length < 2 ^ 32) ∧
    s.1.length < maxRecordLen

theorem buffered_nil : Buffered ([], []) [] :=
  ⟨[], [], rfl, rfl, rfl, by simp, by simp, by simp [maxRecordLen]⟩

theorem Buffered.step {buf : Bytes} {out : List Bytes} {ts : List Stone} (h : Buffered (buf, out) ts) {t : Stone}
    (ht : t.Ok) : Buffered (if (buf ++ encStone t).length ≥ maxRecordLen then ([], out ++ [buf ++ encStone t])
      else (buf ++ encStone t, out)) (ts ++ [t]) := by
  obtain ⟨gs, bs, h1, h2, h3, h4, h5, h6⟩ := h.ex
  simp only at h1 h2 h6
  have e : buf ++ encStone t = encStones (bs ++ [t]) := by simp [encStones, h2]
  have hok : ∀ x ∈ ts ++ [t], x.Ok := by
    intro x hx
    rcases List.mem_append.1 hx with hx | hx
    · exact h4 x hx
    · rw [List.mem_singleton.1 hx]; exact ht
  have hlen := (encStone_length ht).2
  split
  · refine ⟨gs ++ [bs ++ [t]], [], by simp [h1, e], rfl, by simp [← h3], hok, ?_, by simp [maxRecordLen]⟩
    intro g hg
    rcases List.mem_append.1 hg with hg | hg
    · exact h5 g hg
    · rw [List.mem_singleton.1 hg]
      refine ⟨by simp, ?_⟩
      rw [← e, List.length_append]
      unfold maxRecordLen at h6
      omega
  · rename_i hc
    exact ⟨gs, bs ++ [t], h1, e, by simp [← h3], hok, h5, by simpa using hc⟩

/-- The pieces of at most 1000 ranges a field is saved in. -/
def pieces (f : Field) : Nat → List TimeRange → List Stone
  | 0, _ => []
  | fuel + 1, rs => if rs = [] then [] else ⟨f, rs.take maxRanges⟩ :: pieces f fuel (rs.drop maxRanges)

theorem take_min (rs : List TimeRange) (k : Nat) : rs.take (min rs.length k) = rs.take k := by
  rcases Nat.le_total rs.length k with h | h
  · rw [Nat.min_eq_left h, List.take_length, List.take_of_length_le h]
  · rw [Nat.min_eq_right h]

theorem drop_min (rs : List TimeRange) (k : Nat) : rs.drop (min rs.length k) = rs.drop k := by
  rcases Nat.le_total rs.length k with h | h
  · rw [Nat.min_eq_left h, List.drop_length, List.drop_of_length_le h]
  · rw [Nat.min_eq_right h]

theorem encStone_piece (f : Field) (rs : List TimeRange) :
    encStone ⟨f, rs.take maxRanges⟩ = (encField f rs).1 ∧ rs.drop (encField f rs).2 = rs.drop maxRanges := by
  unfold encStone encField
  simp only [List.length_take, take_min, drop_min]
  rw [Nat.min_comm maxRanges, Nat.min_assoc, Nat.min_self]
  refine ⟨?_, trivial⟩
  rw [List.take_take]
  simp only [take_min, Nat.min_assoc, Nat.min_self]

/-- The field can be encoded. -/
def Field.Ok : Field → Prop
  | .one s c => s < 2 ^ 32 ∧ c < 2 ^ 32
  | .all => True

theorem Buffered.saveLoop {f : Field} (hf : f.Ok) : ∀ (fuel : Nat) (rs : List TimeRange) (s : Bytes × List Bytes)
    (ts : List Stone), (∀ r ∈ rs, RangeOk r) → Buffered s ts →
    Buffered (saveLoop f fuel rs s) (ts ++ pieces f fuel rs)
  | 0, _, s, ts, _, h => by simpa [Tomb.saveLoop, pieces] using h
  | fuel + 1, rs, (buf, out), ts, hr, h => by
    simp only [Tomb.saveLoop, pieces]
    split
    · simpa using h
    · obtain ⟨e1, e2⟩ := encStone_piece f rs
      have ok : Stone.Ok ⟨f, rs.take maxRanges⟩ := by
        refine ⟨by simp only [List.length_take]; omega, fun r h => hr r (List.mem_of_mem_take h), ?_⟩
        cases f <;> exact hf
      have st := h.step ok
      rw [e1] at st
      have hr' : ∀ r ∈ rs.drop maxRanges, RangeOk r := fun r h => hr r (List.mem_of_mem_drop h)
      rw [e2]
      have := fun s h => Buffered.saveLoop hf fuel (rs.drop maxRanges) s (ts ++ [⟨f, rs.take maxRanges⟩]) hr' h
      simp only [List.append_assoc, List.singleton_append] at this
      split
      · rename_i hc; rw [if_pos hc] at st; exact this _ st
      · rename_i hc; rw [if_neg hc] at st; exact this _ st

/-- Records that hold the fields `ts`, all of them decodable. -/
structure Recorded (ds : List Bytes) (ts : List Stone) : Prop where
  ex : ∃ gs : List (List Stone), ds = gs.map encStones ∧ gs.flatten = ts ∧ (∀ t ∈ ts, t.Ok) ∧
    (∀ g ∈ gs, g ≠ [] ∧ (encStones g).length < 2 ^ 32)

theorem encStones_ne_nil {g : List Stone} (h : ∀ t ∈ g, t.Ok) : encStones g = [] ↔ g = [] := by
  constructor
  · intro e
    have := length_le_encStones g h
    rw [e] at this
    exact List.length_eq_zero_iff.1 (Nat.le_zero.1 this)
  · rintro rfl; rfl

theorem Buffered.finish {s : Bytes × List Bytes} {ts : List Stone} (h : Buffered s ts) : Recorded (finish s) ts := by
  obtain ⟨gs, bs, h1, h2, h3, h4, h5, h6⟩ := h.ex
  have hb : ∀ t ∈ bs, t.Ok := fun t ht => h4 t (by rw [← h3]; simp [ht])
  unfold Tomb.finish
  split
  · rename_i hc
    rw [h2, encStones_ne_nil hb] at hc
    subst hc
    exact ⟨gs, h1, by simpa using h3, h4, h5⟩
  · rename_i hc
    rw [h2, encStones_ne_nil hb] at hc
    refine ⟨gs ++ [bs], by simp [h1, h2], by simpa using h3, h4, ?_⟩
    intro g hg
    rcases List.mem_append.1 hg with hg | hg
    · exact h5 g hg
    · rw [List.mem_singleton.1 hg]
      refine ⟨hc, ?_⟩
      rw [← h2]; unfold maxRecordLen at h6; omega

/-- What `save_to` writes. -/
def saveStones (entries : List ((Nat × Nat) × TimeRanges)) (all : TimeRanges) : List Stone :=
  entries.flatMap (fun e => pieces (.one e.1.1 e.1.2) e.2.ranges.length e.2.ranges) ++
    pieces .all all.ranges.length all.ranges

theorem saveRecs_recorded (entries : List ((Nat × Nat) × TimeRanges)) (all : TimeRanges)
    (hk : ∀ e ∈ entries, e.1.1 < 2 ^ 32 ∧ e.1.2 < 2 ^ 32) (hr : ∀ e ∈ entries, ∀ r ∈ e.2.ranges, RangeOk r)
    (ha : ∀ r ∈ all.ranges, RangeOk r) : Recorded (saveRecs entries all) (saveStones entries all) := by
  have gen : ∀ (es : List ((Nat × Nat) × TimeRanges)), (∀ e ∈ es, e ∈ entries) → ∀ s ts, Buffered s ts →
      Buffered (es.foldl (fun s e => Tomb.saveLoop (.one e.1.1 e.1.2) e.2.ranges.length e.2.ranges s) s)
        (ts ++ es.flatMap fun e => pieces (.one e.1.1 e.1.2) e.2.ranges.length e.2.ranges) := by
    intro es
    induction es with
    | nil => intro _ s ts h; simpa using h
    | cons e es ih =>
      intro hs s ts h
      have he := hs e (List.mem_cons_self ..)
      have := ih (fun x hx => hs x (List.mem_cons_of_mem _ hx)) _ _
        (h.saveLoop (f := .one e.1.1 e.1.2) (hk e he) e.2.ranges.length e.2.ranges _ _ (hr e he))
      simpa [List.append_assoc] using this
  have := gen entries (fun _ h => h) ([], []) [] buffered_nil
  simp only [List.nil_append] at this
  exact (this.saveLoop (f := .all) trivial all.ranges.length all.ranges _ _ ha).finish

/-- What `add_range` writes. -/
def addStones (cols : List (Nat × Nat)) (r : TimeRange) : List Stone := cols.map fun k => ⟨.one k.1 k.2, [r]⟩

theorem addRecs_recorded (cols : List (Nat × Nat)) (r : TimeRange) (hk : ∀ k ∈ cols, k.1 < 2 ^ 32 ∧ k.2 < 2 ^ 32)
    (hr : RangeOk r) : Recorded (addRecs cols r) (addStones cols r) := by
  have gen : ∀ (ks : List (Nat × Nat)), (∀ k ∈ ks, k ∈ cols) → ∀ s ts, Buffered s ts →
      Buffered (ks.foldl (fun s k => Tomb.saveLoop (.one k.1 k.2) 1 [r] s) s) (ts ++ addStones ks r) := by
    intro es
    induction es with
    | nil => intro _ s ts h; simpa [addStones] using h
    | cons e es ih =>
      intro hs s ts h
      have he := hs e (List.mem_cons_self ..)
      have := ih (fun x hx => hs x (List.mem_cons_of_mem _ hx)) _ _
        (h.saveLoop (f := .one e.1 e.2) (hk e he) 1 [r] _ _ (by simpa using hr))
      simpa [addStones, pieces, maxRanges] using this
  have := gen cols (fun _ h => h) ([], []) [] buffered_nil
  simp only [List.nil_append] at this
  exact this.finish

/-! ## Files -/

variable {crc : Bytes → BitVec 32}

/-- The record of a piece of data. -/
def putOf (d : Bytes) : Put := ⟨1#8, 5#8, d⟩

theorem writeRecs_fileOf : ∀ (ds : List Bytes) (ps : List Put), (∀ d ∈ ds, d.length < 2 ^ 32) →
    writeRecs crc (fileOf crc ps) ds = some (fileOf crc (ps ++ ds.map putOf))
  | [], ps, _ => by simp [writeRecs]
  | d :: ds, ps, h => by
    have hd := h d (List.mem_cons_self ..)
    have e : writeRec crc (fileOf crc ps) ⟨1#8, 5#8, d⟩ = some (fileOf crc (ps ++ [putOf d])) := by
      simp only [writeRec, if_pos hd]
      simp [fileOf, putOf]
    rw [writeRecs, e]
    simp only
    rw [writeRecs_fileOf ds _ (fun x hx => h x (List.mem_cons_of_mem _ hx))]
    simp

/-- A file holding the fields `ts`. -/
def FileHas (crc : Bytes → BitVec 32) (f : Bytes) (ts : List Stone) : Prop :=
  ∃ ds, f = fileOf crc (ds.map putOf) ∧ Recorded ds ts

theorem Recorded.append {ds ds' : List Bytes} {ts ts' : List Stone} (h : Recorded ds ts) (h' : Recorded ds' ts') :
    Recorded (ds ++ ds') (ts ++ ts') := by
  obtain ⟨gs, a1, a2, a3, a4⟩ := h.ex
  obtain ⟨gs', b1, b2, b3, b4⟩ := h'.ex
  refine ⟨gs ++ gs', by simp [a1, b1], by simp [a2, b2], ?_, ?_⟩
  · intro t ht
    rcases List.mem_append.1 ht with ht | ht
    · exact a3 t ht
    · exact b3 t ht
  · intro t ht
    rcases List.mem_append.1 ht with ht | ht
    · exact a4 t ht
    · exact b4 t ht

theorem Recorded.small {ds : List Bytes} {ts : List Stone} (h : Recorded ds ts) : ∀ d ∈ ds, d.length < 2 ^ 32 ∧ d ≠ [] := by
  obtain ⟨gs, a1, a2, a3, a4⟩ := h.ex
  intro d hd
  rw [a1] at hd
  obtain ⟨g, hg, rfl⟩ := List.mem_map.1 hd
  refine ⟨(a4 g hg).2, ?_⟩
  rw [Ne, encStones_ne_nil]
  · exact (a4 g hg).1
  · intro t ht; exact a3 t (by rw [← a2]; exact List.mem_flatten.2 ⟨g, hg, ht⟩)

theorem FileHas.write {f : Bytes} {ts ts' : List Stone} {ds : List Bytes} (h : FileHas crc f ts)
    (hd : Recorded ds ts') : ∃ f', writeRecs crc f ds = some f' ∧ FileHas crc f' (ts ++ ts') := by
  obtain ⟨ds0, rfl, h0⟩ := h
  refine ⟨_, writeRecs_fileOf ds _ (fun d h => (hd.small d h).1), ds0 ++ ds, by simp, h0.append hd⟩

theorem fileHas_new : FileHas crc (openWriter crc []) [] :=
  ⟨[], by simp [openWriter, fileOf], [], rfl, rfl, by simp, by simp⟩

theorem FileHas.open {f : Bytes} {ts : List Stone} (h : FileHas crc f ts) (hft : footerAt crc f = none) :
    openWriter crc f = f := by
  obtain ⟨ds0, rfl, h0⟩ := h
  have hne : fileOf crc (ds0.map putOf) ≠ [] := by simp [fileOf, fileMagic]
  simp only [openWriter, if_neg hne, hft]

theorem loadRecs_located : ∀ (gs : List (List Stone)) (off : Nat) (c : Cache), (∀ g ∈ gs, ∀ t ∈ g, t.Ok) →
    c.loadRecs (located off ((gs.map encStones).map putOf)) = some (gs.flatten.foldl Cache.load1 c)
  | [], _, c, _ => rfl
  | g :: gs, off, c, h => by
    simp only [List.map_cons, located, Cache.loadRecs, Cache.loadRec, putOf, show ¬ (5#8 = 4#8) by decide, if_false]
    rw [C16_format_roundtrip g (h g (List.mem_cons_self ..))]
    simp only
    have := loadRecs_located gs (off + 14 + (encStones g).length) (g.foldl Cache.load1 c)
      (fun g hg => h g (List.mem_cons_of_mem _ hg))
    rw [this, List.flatten_cons, List.foldl_append]

/-- Loading a file gives what its fields say, one after another. -/
theorem FileHas.load {f : Bytes} {ts : List Stone} (h : FileHas crc f ts) (hft : footerAt crc f = none) :
    loadFile crc f = some (ts.foldl Cache.load1 Cache.empty) := by
  obtain ⟨ds, rfl, h0⟩ := h
  have hs := h0.small
  obtain ⟨gs, a1, a2, a3, a4⟩ := h0.ex
  obtain ⟨_, r2, r3⟩ := C18_read_back_partial (crc := crc) Policy.tomb (ds.map putOf)
    (by intro p hp; obtain ⟨d, hd, rfl⟩ := List.mem_map.1 hp; exact (hs d hd).1)
    (by intro p hp; obtain ⟨d, hd, rfl⟩ := List.mem_map.1 (List.mem_of_getLast? hp); exact (hs d hd).2) hft
  unfold loadFile
  have e : readFile crc Policy.tomb (fileOf crc (ds.map putOf)) = (located 4 (ds.map putOf), some .eof) :=
    Prod.ext r3 r2
  rw [e]
  simp only
  rw [a1, loadRecs_located gs 4 Cache.empty ?_, a2]
  intro g hg t ht
  exact a3 t (by rw [← a2]; exact List.mem_flatten.2 ⟨g, hg, ht⟩)

end Verif.Tomb
