import Verif.Common.Bytes
import Verif.Utils.Props
/-!
# Model: the byte keys of the series index

* `tskv/src/index/ts_index.rs:23-26, 523-650` — prefixes, key encodings, scan bounds

A table name is the list of its UTF-8 bytes.
-/
namespace Verif.Index
open Verif.Utils (Bytes bytesLe)

/-- `struct SeriesKey` (common/models/src/series_info.rs:14-18); a tag is `(key, value)`. -/
structure SKey where
  table : Bytes
  tags : List (Bytes × Bytes)
deriving DecidableEq

/-- `SERIES_ID_PREFIX` `"_id_"` (ts_index.rs:23-26). -/
def idPrefix : Bytes := [0x5f#8, 0x69#8, 0x64#8, 0x5f#8]
/-- `SERIES_KEY_PREFIX` `"_key_"`. -/
def keyPrefix : Bytes := [0x5f#8, 0x6b#8, 0x65#8, 0x79#8, 0x5f#8]
/-- `TOMBSTONE_PREFIX` `"_tomb_"`. -/
def tombPrefix : Bytes := [0x5f#8, 0x74#8, 0x6f#8, 0x6d#8, 0x62#8, 0x5f#8]
/-- `AUTO_INCR_ID_KEY` `"_auto_incr_id"`. -/
def autoKey : Bytes := [0x5f#8, 0x61#8, 0x75#8, 0x74#8, 0x6f#8, 0x5f#8, 0x69#8, 0x6e#8, 0x63#8, 0x72#8,
  0x5f#8, 0x69#8, 0x64#8]

/-- A length-prefixed string: `(len as u16).to_be_bytes()` (the length is truncated to 16 bits) and the
bytes. -/
def lp (b : Bytes) : Bytes := beEnc 2 b.length ++ b

/-- The tag part of `encode_series_key_with_prefix` (ts_index.rs:641-647). -/
def encTags (tags : List (Bytes × Bytes)) : Bytes := (tags.map fun t => lp t.1 ++ lp t.2).flatten

/-- `encode_series_key_with_prefix` (ts_index.rs:630-650). -/
def encWith (pre : Bytes) (k : SKey) : Bytes := pre ++ lp k.table ++ encTags k.tags

/-- `encode_series_key` (ts_index.rs:622-624). -/
def encKey (k : SKey) : Bytes := encWith keyPrefix k

/-- `encode_tombstone_series_key` (ts_index.rs:626-628). -/
def encTomb (k : SKey) : Bytes := encWith tombPrefix k

/-- `encode_series_id_key` (ts_index.rs:581-588). -/
def encId (id : Nat) : Bytes := idPrefix ++ beEnc 4 id

/-- `encode_inverted_index_key` (ts_index.rs:611-620): `table.tag=value`. -/
def invKey (t k v : Bytes) : Bytes := t ++ 0x2e#8 :: (k ++ 0x3d#8 :: v)
/-- `encode_inverted_min_index_key` (ts_index.rs:600-608): `table.tag<`. -/
def invMin (t k : Bytes) : Bytes := t ++ 0x2e#8 :: (k ++ [0x3c#8])
/-- `encode_inverted_max_index_key` (ts_index.rs:590-598): `table.tag>`. -/
def invMax (t k : Bytes) : Bytes := t ++ 0x2e#8 :: (k ++ [0x3e#8])

/-- `std::ops::Bound`. -/
inductive Bnd where
  | incl (v : Bytes)
  | excl (v : Bytes)
  | unb
deriving DecidableEq

/-- `RangeBounds::contains` for byte strings: both `memcmp` order (the storage) and `Vec<u8>` order (the
cache). -/
def inRange (lo hi : Bnd) (s : Bytes) : Bool :=
  (match lo with
    | .incl v => bytesLe v s
    | .excl v => bytesLe v s && decide (v ≠ s)
    | .unb => true) &&
  (match hi with
    | .incl v => bytesLe s v
    | .excl v => bytesLe s v && decide (v ≠ s)
    | .unb => true)

/-- `filter_range_to_index_key_range` (ts_index.rs:523-555), lower bound. -/
def keyLo (t k : Bytes) : Bnd → Bnd
  | .incl v => .incl (invKey t k v)
  | .excl v => .excl (invKey t k v)
  | .unb => .incl (invMin t k)

/-- `filter_range_to_index_key_range` (ts_index.rs:523-555), upper bound. -/
def keyHi (t k : Bytes) : Bnd → Bnd
  | .incl v => .incl (invKey t k v)
  | .excl v => .excl (invKey t k v)
  | .unb => .incl (invMax t k)

/-! ## Lemmas -/

theorem lp_inj {a b r s : Bytes} (ha : a.length < 65536) (hb : b.length < 65536)
    (h : lp a ++ r = lp b ++ s) : a = b ∧ r = s := by
  unfold lp at h
  rw [List.append_assoc, List.append_assoc] at h
  have h1 := List.append_inj h (by simp)
  have hl : a.length = b.length := beEnc_inj (n := 2) (by omega) (by omega) h1.1
  exact List.append_inj h1.2 hl

/-- A series all of whose strings are shorter than 65536 bytes. -/
def Short (k : SKey) : Prop :=
  k.table.length < 65536 ∧ ∀ t ∈ k.tags, t.1.length < 65536 ∧ t.2.length < 65536

theorem encTags_inj : ∀ {a b : List (Bytes × Bytes)},
    (∀ t ∈ a, t.1.length < 65536 ∧ t.2.length < 65536) →
    (∀ t ∈ b, t.1.length < 65536 ∧ t.2.length < 65536) → encTags a = encTags b → a = b
  | [], [], _, _, _ => rfl
  | [], t :: b, _, _, h => by
    have := congrArg List.length h
    simp [encTags, lp] at this
    omega
  | t :: a, [], _, _, h => by
    have := congrArg List.length h
    simp [encTags, lp] at this
  | (k, v) :: a, (k', v') :: b, ha, hb, h => by
    have e : ∀ (x : Bytes × Bytes) l, encTags (x :: l) = lp x.1 ++ (lp x.2 ++ encTags l) := by
      intro x l; simp [encTags]
    rw [e, e] at h
    have ha1 := ha _ List.mem_cons_self
    have hb1 := hb _ List.mem_cons_self
    have h1 := lp_inj ha1.1 hb1.1 h
    have h2 := lp_inj ha1.2 hb1.2 h1.2
    rw [encTags_inj (fun t ht => ha t (List.mem_cons_of_mem _ ht))
      (fun t ht => hb t (List.mem_cons_of_mem _ ht)) h2.2]
    simp only at h1 h2
    rw [h1.1, h2.1]

theorem encWith_inj {pre : Bytes} {a b : SKey} (ha : Short a) (hb : Short b)
    (h : encWith pre a = encWith pre b) : a = b := by
  unfold encWith at h
  rw [List.append_assoc, List.append_assoc] at h
  have h1 := List.append_cancel_left h
  have h2 := lp_inj ha.1 hb.1 h1
  have h3 := encTags_inj ha.2 hb.2 h2.2
  obtain ⟨t, g⟩ := a; obtain ⟨t', g'⟩ := b
  simp only at h2 h3
  rw [h2.1, h3]

/-- Splitting at the first byte of a class is unambiguous. -/
theorem split_inj {P : BitVec 8 → Prop} : ∀ {a b r s : Bytes} {x y : BitVec 8},
    (∀ c ∈ a, ¬ P c) → (∀ c ∈ b, ¬ P c) → P x → P y → a ++ x :: r = b ++ y :: s →
    a = b ∧ x = y ∧ r = s
  | [], [], _, _, _, _, _, _, _, _, h => by simp at h; exact ⟨rfl, h⟩
  | [], c :: b, _, _, _, _, _, hb, hx, _, h => by
    simp at h; exact absurd (h.1 ▸ hx) (hb _ List.mem_cons_self)
  | c :: a, [], _, _, _, _, ha, _, _, hy, h => by
    simp at h; exact absurd (h.1 ▸ hy) (ha _ List.mem_cons_self)
  | c :: a, d :: b, _, _, _, _, ha, hb, hx, hy, h => by
    simp only [List.cons_append, List.cons.injEq] at h
    have := split_inj (fun c hc => ha c (List.mem_cons_of_mem _ hc))
      (fun c hc => hb c (List.mem_cons_of_mem _ hc)) hx hy h.2
    exact ⟨by rw [h.1, this.1], this.2⟩

/-- A table name without a dot. -/
def Dotless (t : Bytes) : Prop := 0x2e#8 ∉ t

/-- A tag key as the index sees it: a decimal column id (or the empty key of a series without tags). -/
def Digits (k : Bytes) : Prop := ∀ c ∈ k, 0x30 ≤ c.toNat ∧ c.toNat ≤ 0x39

theorem invKey_inj {t t' k k' v v' : Bytes} (ht : Dotless t) (ht' : Dotless t') (hk : Digits k)
    (hk' : Digits k') (h : invKey t k v = invKey t' k' v') : t = t' ∧ k = k' ∧ v = v' := by
  unfold invKey at h
  obtain ⟨h1, _, h2⟩ := split_inj (P := (· = 0x2e#8)) (fun c hc e => ht (e ▸ hc))
    (fun c hc e => ht' (e ▸ hc)) rfl rfl h
  obtain ⟨h3, _, h4⟩ := split_inj (P := (· = 0x3d#8)) (fun c hc e => by subst e; simpa using hk _ hc)
    (fun c hc e => by subst e; simpa using hk' _ hc) rfl rfl h2
  exact ⟨h1, h3, h4⟩

theorem bytesLe_append (p a b : Bytes) : bytesLe (p ++ a) (p ++ b) = bytesLe a b := by
  induction p with
  | nil => rfl
  | cons x p ih => simp [bytesLe, ih]

/-- Keys between `p<` and `p>` continue `p` with one of `<`, `=`, `>`. -/
theorem between {p s : Bytes} (h1 : bytesLe (p ++ [0x3c#8]) s) (h2 : bytesLe s (p ++ [0x3e#8])) :
    ∃ c r, s = p ++ c :: r ∧ (c = 0x3c#8 ∨ c = 0x3d#8 ∨ c = 0x3e#8) := by
  induction p generalizing s with
  | nil =>
    cases s with
    | nil => simp [bytesLe] at h1
    | cons c r =>
      simp [bytesLe] at h1 h2
      refine ⟨c, r, rfl, ?_⟩
      have : c.toNat = 0x3c ∨ c.toNat = 0x3d ∨ c.toNat = 0x3e := by omega
      rcases this with h | h | h
      · left; apply BitVec.eq_of_toNat_eq; simpa using h
      · right; left; apply BitVec.eq_of_toNat_eq; simpa using h
      · right; right; apply BitVec.eq_of_toNat_eq; simpa using h
  | cons x p ih =>
    cases s with
    | nil => simp [bytesLe] at h1
    | cons c r =>
      simp [bytesLe] at h1 h2
      have hx : x = c := by apply BitVec.eq_of_toNat_eq; omega
      subst hx
      simp at h1 h2
      obtain ⟨c, r, rfl, hc⟩ := ih h1 h2
      exact ⟨c, r, rfl, hc⟩

end Verif.Index
