import Mathlib.Tactic.Common
import Mathlib.Data.List.Induction
/-!
# Model: the cache of recent log entries — `common/cache/src/circular_kvcache.rs`

Keys are the 64-bit log indexes, as natural numbers; the default key is `0`.
-/
namespace Verif.Wal.Ring

/-- `struct CircularBuffer` (circular_kvcache.rs:13-19). -/
structure Buf where
  buf : List Nat
  head : Nat
  tail : Nat
  empty : Bool
deriving DecidableEq

/-- `CircularBuffer::new` (circular_kvcache.rs:25-32). -/
def Buf.new (n : Nat) : Buf := ⟨List.replicate n 0, 0, 0, true⟩

/-- `is_full` (circular_kvcache.rs:38-40). -/
def Buf.isFull (b : Buf) : Bool := decide ((b.tail + 1) % b.buf.length = b.head)

/-- `take` (circular_kvcache.rs:42-44): the buffer afterwards; the value is `buf[i]`. -/
def Buf.clear (b : Buf) (i : Nat) : Buf := { b with buf := b.buf.set i 0 }

/-- `get_tail` (circular_kvcache.rs:46-52). -/
def Buf.getTail (b : Buf) : Option Nat := if b.empty then none else some (b.buf.getD b.tail 0)

/-- `push` (circular_kvcache.rs:54-66). -/
def Buf.push (b : Buf) (k : Nat) : Buf :=
  if b.empty then { b with empty := false, buf := b.buf.set b.tail k } else
  let tail := (b.tail + 1) % b.buf.length
  let head := if tail = b.head then (b.head + 1) % b.buf.length else b.head
  { b with buf := b.buf.set tail k, head := head, tail := tail }

/-- `pop` (circular_kvcache.rs:69-82). -/
def Buf.pop (b : Buf) : Buf × Option Nat :=
  if b.empty then (b, none) else
  let k := b.buf.getD b.head 0
  let b := b.clear b.head
  if b.head = b.tail then ({ b with empty := true }, some k)
  else ({ b with head := (b.head + 1) % b.buf.length }, some k)

/-- The loop of `del_before` (circular_kvcache.rs:87-111); `fuel` bounds the rounds. -/
def Buf.delBefore (key : Nat) : Nat → Buf → Buf × List Nat
  | 0, b => (b, [])
  | fuel + 1, b =>
    if b.empty then (b, []) else
    let k := b.buf.getD b.head 0
    if k < key then
      let b := b.clear b.head
      if b.head = b.tail then ({ b with empty := true }, [k])
      else
        let (b, l) := delBefore key fuel { b with head := (b.head + 1) % b.buf.length }
        (b, k :: l)
    else (b, [])

/-- The loop of `del_after` (circular_kvcache.rs:116-145). -/
def Buf.delAfter (key : Nat) : Nat → Buf → Buf × List Nat
  | 0, b => (b, [])
  | fuel + 1, b =>
    if b.empty then (b, []) else
    let k := b.buf.getD b.tail 0
    if key ≤ k then
      let b := b.clear b.tail
      if b.head = b.tail then ({ b with empty := true }, [k])
      else
        let t := if b.tail = 0 then b.buf.length - 1 else (b.tail - 1) % b.buf.length
        let (b, l) := delAfter key fuel { b with tail := t }
        (b, k :: l)
    else (b, [])

variable {V : Type}

/-- `struct CircularKVCache` (circular_kvcache.rs:173-177).  The hash map as a function. -/
structure Cache (V : Type) where
  map : Nat → Option V
  buf : Buf

/-- `CircularKVCache::new` (circular_kvcache.rs:183-188). -/
def Cache.new (n : Nat) : Cache V := ⟨fun _ => none, Buf.new n⟩

/-- `HashMap::insert`. -/
def ins (m : Nat → Option V) (k : Nat) (v : V) : Nat → Option V := fun i => if i = k then some v else m i
/-- `HashMap::remove`. -/
def rem (m : Nat → Option V) (k : Nat) : Nat → Option V := fun i => if i = k then none else m i

/-- `get` (circular_kvcache.rs:190-192). -/
def Cache.get (c : Cache V) (k : Nat) : Option V := c.map k

/-- `last` (circular_kvcache.rs:194-200). -/
def Cache.last (c : Cache V) : Option V := c.buf.getTail.bind c.map

/-- `del_before` (circular_kvcache.rs:202-207). -/
def Cache.delBefore (c : Cache V) (k : Nat) : Cache V :=
  let (b, l) := c.buf.delBefore k (c.buf.buf.length + 1)
  ⟨l.foldl rem c.map, b⟩

/-- `del_after` (circular_kvcache.rs:209-214). -/
def Cache.delAfter (c : Cache V) (k : Nat) : Cache V :=
  let (b, l) := c.buf.delAfter k (c.buf.buf.length + 1)
  ⟨l.foldl rem c.map, b⟩

/-- `put` (circular_kvcache.rs:216-230). -/
def Cache.put (c : Cache V) (k : Nat) (v : V) : Cache V :=
  if (c.map k).isSome then { c with map := ins c.map k v } else
  let c : Cache V := if c.buf.isFull then
      match c.buf.pop with
      | (b, some old) => ⟨rem c.map old, b⟩
      | (b, none) => { c with buf := b }
    else c
  ⟨ins c.map k v, c.buf.push k⟩

/-! ## What the ring contains -/

theorem wrap {n h i : Nat} (hh : h < n) (hi : i ≤ n) : (h + i) % n = if h + i < n then h + i else h + i - n := by
  split
  · exact Nat.mod_eq_of_lt ‹_›
  · rw [Nat.mod_eq_sub_mod (by omega)]
    exact Nat.mod_eq_of_lt (by omega)

/-- The ring holds the keys `l`, oldest first. -/
structure Holds (b : Buf) (l : List Nat) : Prop where
  pos : 0 < b.buf.length
  hd : b.head < b.buf.length
  len : l.length ≤ b.buf.length
  emp : b.empty = true ↔ l = []
  tail : b.tail = (b.head + (l.length - 1)) % b.buf.length
  at' : ∀ i, i < l.length → b.buf.getD ((b.head + i) % b.buf.length) 0 = l.getD i 0

theorem Holds.tl {b : Buf} {l} (h : Holds b l) : b.tail < b.buf.length := by
  rw [h.tail]; exact Nat.mod_lt _ h.pos

theorem holds_new {n : Nat} (hn : 0 < n) : Holds (Buf.new n) [] := by
  refine ⟨by simpa [Buf.new], by simpa [Buf.new], by simp, by simp [Buf.new], ?_, by intro i h; simp at h⟩
  simp [Buf.new]

theorem Holds.tail_eq {b : Buf} {l} (h : Holds b l) (hl : l ≠ []) : b.buf.getD b.tail 0 = l.getLast hl := by
  have := List.length_pos_iff.2 hl
  rw [h.tail, h.at' _ (by omega), List.getLast_eq_getElem]
  simp [List.getD_eq_getElem?_getD, List.getElem?_eq_getElem (show l.length - 1 < l.length by omega)]

theorem getD_set {l : List Nat} {i j k : Nat} (hi : i < l.length) :
    (l.set i k).getD j 0 = if j = i then k else l.getD j 0 := by
  simp only [List.getD_eq_getElem?_getD, List.getElem?_set]
  by_cases h : i = j
  · subst h; simp [hi]
  · simp [h, Ne.symm h]

theorem getD_append_left {l l' : List Nat} {i : Nat} (h : i < l.length) : (l ++ l').getD i 0 = l.getD i 0 := by
  simp only [List.getD_eq_getElem?_getD, List.getElem?_append_left h]

theorem Holds.full {b : Buf} {l} (h : Holds b l) (h1 : 1 < b.buf.length) :
    b.isFull = true ↔ l.length = b.buf.length := by
  unfold Buf.isFull
  rw [decide_eq_true_iff]
  have t := h.tail
  have hl := h.len
  have hh := h.hd
  rw [wrap hh (by omega)] at t
  have ht := h.tl
  rw [wrap ht (by omega)]
  by_cases he : l.length = 0
  · rw [he] at t ⊢
    simp only [Nat.zero_sub, Nat.add_zero, if_pos hh] at t
    rw [t]
    constructor
    · intro hq; split at hq <;> omega
    · omega
  · constructor
    · intro hq
      split at hq <;> split at t <;> omega
    · intro hq
      split <;> split at t <;> omega

theorem Holds.head_eq {b : Buf} {l} (h : Holds b l) {k : Nat} (hl : l.head? = some k) :
    b.buf.getD b.head 0 = k := by
  cases l with
  | nil => cases hl
  | cons x xs =>
    have := h.at' 0 (by simp)
    rw [Nat.add_zero, Nat.mod_eq_of_lt h.hd] at this
    rw [this]
    simpa using hl

/-- Removing the oldest key. -/
theorem Holds.dropHead {b : Buf} {k : Nat} {l} (h : Holds b (k :: l)) :
    (b.head = b.tail ↔ l = []) ∧
    (l = [] → Holds { b.clear b.head with empty := true } []) ∧
    (l ≠ [] → Holds { b.clear b.head with head := (b.head + 1) % b.buf.length } l) := by
  have t := h.tail
  have hl := h.len
  have hh := h.hd
  have hp := h.pos
  simp only [List.length_cons] at t hl
  rw [show l.length + 1 - 1 = l.length by omega, wrap hh (by omega)] at t
  refine ⟨?_, ?_, ?_⟩
  · rw [← List.length_eq_zero_iff, t]
    split <;> omega
  · rintro rfl
    refine ⟨by simpa [Buf.clear] using hp, by simpa [Buf.clear] using hh, by simp, by simp, ?_,
      by intro i hi; simp at hi⟩
    simp only [Buf.clear, List.length_nil, List.length_set, Nat.zero_sub, Nat.add_zero] at t ⊢
    rw [Nat.mod_eq_of_lt hh, t, if_pos hh]
  · intro hne
    have hlp := List.length_pos_iff.2 hne
    have e : b.empty = false := by
      cases hb : b.empty with
      | false => rfl
      | true => exact absurd (h.emp.1 hb) (by simp)
    refine ⟨by simpa [Buf.clear] using hp, ?_, ?_, ?_, ?_, ?_⟩
    · simp only [Buf.clear, List.length_set]; exact Nat.mod_lt _ hp
    · simp only [Buf.clear, List.length_set]; omega
    · simp [Buf.clear, e, hne]
    · simp only [Buf.clear, List.length_set]
      rw [t, Nat.mod_add_mod, show b.head + 1 + (l.length - 1) = b.head + l.length by omega, wrap hh (by omega)]
    · intro i hi
      simp only [Buf.clear, List.length_set]
      rw [getD_set hh, Nat.mod_add_mod, show b.head + 1 + i = b.head + (i + 1) by omega]
      rw [if_neg]
      · have := h.at' (i + 1) (by simpa using hi)
        rw [this]; simp
      · rw [wrap hh (by omega)]
        split <;> omega

/-- Removing the newest key. -/
theorem Holds.dropTail {b : Buf} {k : Nat} {l} (h : Holds b (l ++ [k])) :
    b.buf.getD b.tail 0 = k ∧ (b.head = b.tail ↔ l = []) ∧
    (l = [] → Holds { b.clear b.tail with empty := true } []) ∧
    (l ≠ [] → Holds { b.clear b.tail with
      tail := if b.tail = 0 then b.buf.length - 1 else (b.tail - 1) % b.buf.length } l) := by
  have t := h.tail
  have hl := h.len
  have hh := h.hd
  have hp := h.pos
  have ht := h.tl
  simp only [List.length_append, List.length_cons, List.length_nil, Nat.zero_add] at t hl
  rw [show l.length + 1 - 1 = l.length by omega, wrap hh (by omega)] at t
  refine ⟨?_, ?_, ?_, ?_⟩
  · rw [h.tail_eq (by simp)]; simp
  · rw [← List.length_eq_zero_iff, t]
    split <;> omega
  · rintro rfl
    refine ⟨by simpa [Buf.clear] using hp, by simpa [Buf.clear] using hh, by simp, by simp, ?_,
      by intro i hi; simp at hi⟩
    simp only [Buf.clear, List.length_nil, List.length_set, Nat.zero_sub, Nat.add_zero] at t ⊢
    rw [Nat.mod_eq_of_lt hh, t, if_pos hh]
  · intro hne
    have hlp := List.length_pos_iff.2 hne
    have e : b.empty = false := by
      cases hb : b.empty with
      | false => rfl
      | true => exact absurd (h.emp.1 hb) (by simp)
    refine ⟨by simpa [Buf.clear] using hp, by simpa [Buf.clear] using hh, ?_, ?_, ?_, ?_⟩
    · simp only [Buf.clear, List.length_set]; omega
    · simp [Buf.clear, e, hne]
    · simp only [Buf.clear, List.length_set]
      rw [wrap hh (by omega)]
      by_cases h0 : b.tail = 0
      · rw [if_pos h0]
        split <;> split at t <;> omega
      · rw [if_neg h0, Nat.mod_eq_of_lt (by omega)]
        split <;> split at t <;> omega
    · intro i hi
      simp only [Buf.clear, List.length_set]
      rw [getD_set ht, if_neg]
      · rw [h.at' i (by simp; omega), getD_append_left hi]
      · rw [wrap hh (by omega)]
        split <;> split at t <;> omega

/-- Adding a key when there is room. -/
theorem Holds.push {b : Buf} {l} (h : Holds b l) (hr : l.length < b.buf.length) (k : Nat) :
    Holds (b.push k) (l ++ [k]) ∧ (b.push k).buf.length = b.buf.length := by
  have t := h.tail
  have hl := h.len
  have hh := h.hd
  have hp := h.pos
  have ht := h.tl
  unfold Buf.push
  by_cases he : b.empty = true
  · have := h.emp.1 he
    subst this
    simp only [List.length_nil, Nat.zero_sub, Nat.add_zero, Nat.mod_eq_of_lt hh] at t
    rw [if_pos he]
    refine ⟨⟨by simpa using hp, by simpa using hh, by simp; omega, by simp, ?_, ?_⟩, by simp⟩
    · simp [Nat.mod_eq_of_lt hh, t]
    · intro i hi
      simp only [List.nil_append, List.length_cons, List.length_nil, Nat.zero_add, Nat.lt_one_iff] at hi
      subst hi
      simp only [List.length_set, Nat.add_zero, List.nil_append]
      rw [getD_set ht, Nat.mod_eq_of_lt hh, if_pos t.symm]
      rfl
  · rw [if_neg he]
    have hne : l ≠ [] := fun hx => he (h.emp.2 hx)
    have hlp := List.length_pos_iff.2 hne
    have tt : (b.tail + 1) % b.buf.length = (b.head + l.length) % b.buf.length := by
      rw [t, Nat.mod_add_mod, show b.head + (l.length - 1) + 1 = b.head + l.length by omega]
    have hneq : (b.tail + 1) % b.buf.length ≠ b.head := by
      rw [tt, wrap hh (by omega)]
      split <;> omega
    simp only [if_neg hneq]
    refine ⟨⟨by simpa using hp, by simpa using hh, by simp; omega, ?_, ?_, ?_⟩, by simp⟩
    · simp [he]
    · simp only [List.length_set, List.length_append, List.length_cons, List.length_nil]
      rw [tt]; congr 1
    · intro i hi
      simp only [List.length_set]
      rw [getD_set (Nat.mod_lt _ hp), tt]
      simp only [List.length_append, List.length_cons, List.length_nil] at hi
      by_cases hil : i = l.length
      · subst hil
        rw [if_pos rfl]
        simp
      · rw [if_neg, h.at' i (by omega), getD_append_left (by omega)]
        rw [wrap hh (by omega), wrap hh (by omega)]
        split <;> split <;> omega

/-- **C22, full ring.** Adding a key to a full ring drops the oldest key and nothing else. -/
theorem C22_full_ring {b : Buf} {x : Nat} {l} (h : Holds b (x :: l)) (hr : l.length + 1 = b.buf.length) (k : Nat) :
    Holds (b.push k) (l ++ [k]) ∧ (b.push k).buf.length = b.buf.length := by
  have t := h.tail
  have hh := h.hd
  have hp := h.pos
  have he : ¬ b.empty = true := fun hx => by cases h.emp.1 hx
  unfold Buf.push
  rw [if_neg he]
  simp only [List.length_cons, Nat.add_sub_cancel] at t
  have tt : (b.tail + 1) % b.buf.length = b.head := by
    rw [t, Nat.mod_add_mod, show b.head + l.length + 1 = b.head + b.buf.length by omega, Nat.add_mod_right,
      Nat.mod_eq_of_lt hh]
  simp only [tt, if_true]
  have hm : (b.head + 1) % b.buf.length < b.buf.length := Nat.mod_lt _ hp
  refine ⟨⟨by simpa using hp, by simpa using hm, by simp; omega, by simp [he], ?_, ?_⟩, by simp⟩
  · simp only [List.length_set, List.length_append, List.length_cons, List.length_nil, Nat.zero_add, Nat.add_sub_cancel]
    rw [Nat.mod_add_mod, show b.head + 1 + l.length = b.head + b.buf.length by omega, Nat.add_mod_right,
      Nat.mod_eq_of_lt hh]
  · intro i hi
    simp only [List.length_append, List.length_cons, List.length_nil] at hi
    simp only [List.length_set]
    rw [getD_set hh, Nat.mod_add_mod]
    by_cases hil : i = l.length
    · subst hil
      rw [if_pos (by rw [show b.head + 1 + l.length = b.head + b.buf.length by omega, Nat.add_mod_right,
        Nat.mod_eq_of_lt hh])]
      simp
    · rw [if_neg, show b.head + 1 + i = b.head + (i + 1) by omega, h.at' (i + 1) (by simp; omega),
        getD_append_left (by omega)]
      · rfl
      · rw [show b.head + 1 + i = b.head + (i + 1) by omega, wrap hh (by omega)]
        split <;> omega

theorem holds_delBefore (key : Nat) : ∀ (fuel : Nat) (b : Buf) (l : List Nat), Holds b l → l.length < fuel →
    Holds (b.delBefore key fuel).1 (l.dropWhile (· < key)) ∧ (b.delBefore key fuel).2 = l.takeWhile (· < key) ∧
    (b.delBefore key fuel).1.buf.length = b.buf.length
  | 0, _, _, _, hf => by omega
  | fuel + 1, b, [], h, _ => by
    have he : b.empty = true := h.emp.2 rfl
    simp only [Buf.delBefore, he]
    exact ⟨h, rfl, rfl⟩
  | fuel + 1, b, k :: l, h, hf => by
    have he : ¬ b.empty = true := fun hx => by cases h.emp.1 hx
    have hk : b.buf.getD b.head 0 = k := h.head_eq rfl
    obtain ⟨d1, d2, d3⟩ := h.dropHead
    simp only [Buf.delBefore, if_neg he, hk]
    by_cases hlt : k < key
    · simp only [hlt, if_true, List.dropWhile_cons_of_pos (p := fun x => decide (x < key)) (a := k) (by simpa using hlt),
        List.takeWhile_cons_of_pos (p := fun x => decide (x < key)) (a := k) (by simpa using hlt)]
      by_cases hl : l = []
      · have : (b.clear b.head).head = (b.clear b.head).tail := d1.2 hl
        rw [if_pos this]
        subst hl
        exact ⟨d2 rfl, rfl, by simp [Buf.clear]⟩
      · have : ¬ (b.clear b.head).head = (b.clear b.head).tail := fun hx => hl (d1.1 hx)
        rw [if_neg this]
        have hbl : (b.clear b.head).buf.length = b.buf.length := by simp [Buf.clear]
        obtain ⟨i1, i2, i3⟩ := holds_delBefore key fuel _ l (d3 hl) (by simpa using hf)
        simp only [hbl]
        refine ⟨i1, ?_, ?_⟩
        · exact congrArg (k :: ·) i2
        · exact i3.trans hbl
    · simp only [hlt, if_false, List.dropWhile_cons_of_neg (p := fun x => decide (x < key)) (a := k) (by simpa using hlt),
        List.takeWhile_cons_of_neg (p := fun x => decide (x < key)) (a := k) (by simpa using hlt)]
      exact ⟨h, trivial, trivial⟩

theorem holds_delAfter (key : Nat) : ∀ (fuel : Nat) (b : Buf) (l : List Nat), Holds b l → l.length < fuel →
    Holds (b.delAfter key fuel).1 (l.reverse.dropWhile (key ≤ ·)).reverse ∧
    (b.delAfter key fuel).2 = l.reverse.takeWhile (key ≤ ·) ∧
    (b.delAfter key fuel).1.buf.length = b.buf.length := by
  intro fuel
  induction fuel with
  | zero => intro b l _ hf; omega
  | succ fuel ih =>
    intro b l h hf
    rcases List.eq_nil_or_concat l with rfl | ⟨l, k, rfl⟩
    · have he : b.empty = true := h.emp.2 rfl
      simp only [Buf.delAfter, he]
      exact ⟨h, rfl, rfl⟩
    · simp only [List.concat_eq_append] at h hf ⊢
      have he : ¬ b.empty = true := fun hx => by have := h.emp.1 hx; simp at this
      obtain ⟨hk, d1, d2, d3⟩ := h.dropTail
      simp only [Buf.delAfter, if_neg he, hk, List.reverse_append, List.reverse_cons, List.reverse_nil, List.nil_append,
        List.singleton_append]
      by_cases hle : key ≤ k
      · simp only [hle, if_true, List.dropWhile_cons_of_pos (p := fun x => decide (key ≤ x)) (a := k) (by simpa using hle),
          List.takeWhile_cons_of_pos (p := fun x => decide (key ≤ x)) (a := k) (by simpa using hle)]
        by_cases hl : l = []
        · have : (b.clear b.tail).head = (b.clear b.tail).tail := d1.2 hl
          rw [if_pos this]
          subst hl
          exact ⟨d2 rfl, rfl, by simp [Buf.clear]⟩
        · have : ¬ (b.clear b.tail).head = (b.clear b.tail).tail := fun hx => hl (d1.1 hx)
          rw [if_neg this]
          have hbl : (b.clear b.tail).buf.length = b.buf.length := by simp [Buf.clear]
          obtain ⟨i1, i2, i3⟩ := ih _ l (d3 hl) (by simpa using hf)
          simp only [hbl]
          refine ⟨i1, ?_, ?_⟩
          · exact congrArg (k :: ·) i2
          · exact i3.trans hbl
      · simp only [hle, if_false, List.dropWhile_cons_of_neg (p := fun x => decide (key ≤ x)) (a := k) (by simpa using hle),
          List.takeWhile_cons_of_neg (p := fun x => decide (key ≤ x)) (a := k) (by simpa using hle)]
        refine ⟨?_, trivial, trivial⟩
        simpa using h

/-! ## Histories -/

/-- One call. -/
inductive Op (V : Type) where
  | put (k : Nat) (v : V)
  | before (k : Nat)
  | after (k : Nat)

/-- The effect of a call on the cache. -/
def Cache.step (c : Cache V) : Op V → Cache V
  | .put k v => c.put k v
  | .before k => c.delBefore k
  | .after k => c.delAfter k

/-- The effect of a call on the log. -/
def specStep (m : Nat → Option V) : Op V → (Nat → Option V)
  | .put k v => fun i => if i = k then some v else m i
  | .before k => fun i => if i < k then none else m i
  | .after k => fun i => if k ≤ i then none else m i

/-- Run a history on both; `none` if some put is out of order: its index is neither in the cache nor larger than all
indexes in the log. -/
def Ordered (c : Cache V) (m : Nat → Option V) : List (Op V) → Prop
  | [] => True
  | op :: ops => (match op with
      | .put k _ => (c.get k).isSome ∨ ∀ i, (m i).isSome → i < k
      | _ => True) ∧ Ordered (c.step op) (specStep m op) ops

/-- The cache agrees with the log. -/
structure Agrees (n : Nat) (c : Cache V) (m : Nat → Option V) (l : List Nat) : Prop where
  ring : Holds c.buf l
  size : c.buf.buf.length = n
  keys : ∀ i, (c.map i).isSome ↔ i ∈ l
  asc : l.Pairwise (· < ·)
  sound : ∀ i v, c.map i = some v → m i = some v
  newest : ∀ i ∈ l, ∀ j, i ≤ j → (m j).isSome → j ∈ l

theorem foldl_rem (l : List Nat) (m : Nat → Option V) (i : Nat) :
    l.foldl rem m i = if i ∈ l then none else m i := by
  induction l generalizing m with
  | nil => simp
  | cons k l ih =>
    rw [List.foldl_cons, ih]
    unfold rem
    by_cases h : i = k
    · subst h; simp
    · simp [h]

theorem takeWhile_lt_mem {l : List Nat} {k i : Nat} (ha : l.Pairwise (· < ·)) :
    (i ∈ l.takeWhile (· < k) ↔ i ∈ l ∧ i < k) ∧ (i ∈ l.dropWhile (· < k) ↔ i ∈ l ∧ k ≤ i) := by
  induction l with
  | nil => simp
  | cons x xs ih =>
    obtain ⟨h1, h2⟩ := List.pairwise_cons.1 ha
    obtain ⟨i1, i2⟩ := ih h2
    by_cases hx : x < k
    · rw [List.takeWhile_cons_of_pos (by simpa using hx), List.dropWhile_cons_of_pos (by simpa using hx)]
      rw [i2, List.mem_cons, i1, List.mem_cons]
      constructor
      · constructor
        · rintro (rfl | ⟨a, b⟩)
          · exact ⟨.inl rfl, hx⟩
          · exact ⟨.inr a, b⟩
        · rintro ⟨rfl | a, b⟩
          · exact .inl rfl
          · exact .inr ⟨a, b⟩
      · constructor
        · rintro ⟨a, b⟩; exact ⟨.inr a, b⟩
        · rintro ⟨rfl | a, b⟩
          · omega
          · exact ⟨a, b⟩
    · rw [List.takeWhile_cons_of_neg (by simpa using hx), List.dropWhile_cons_of_neg (by simpa using hx)]
      constructor
      · constructor
        · intro h; cases h
        · rintro ⟨h, hlt⟩
          rcases List.mem_cons.1 h with rfl | h
          · exact absurd hlt hx
          · have := h1 i h; omega
      · constructor
        · intro h
          refine ⟨h, ?_⟩
          rcases List.mem_cons.1 h with rfl | h
          · omega
          · have := h1 i h; omega
        · exact fun h => h.1

theorem takeWhile_ge_mem {l : List Nat} {k i : Nat} (ha : l.Pairwise (· > ·)) :
    (i ∈ l.takeWhile (k ≤ ·) ↔ i ∈ l ∧ k ≤ i) ∧ (i ∈ l.dropWhile (k ≤ ·) ↔ i ∈ l ∧ i < k) := by
  induction l with
  | nil => simp
  | cons x xs ih =>
    obtain ⟨h1, h2⟩ := List.pairwise_cons.1 ha
    obtain ⟨i1, i2⟩ := ih h2
    by_cases hx : k ≤ x
    · rw [List.takeWhile_cons_of_pos (by simpa using hx), List.dropWhile_cons_of_pos (by simpa using hx)]
      rw [i2, List.mem_cons, i1, List.mem_cons]
      constructor
      · constructor
        · rintro (rfl | ⟨a, b⟩)
          · exact ⟨.inl rfl, hx⟩
          · exact ⟨.inr a, b⟩
        · rintro ⟨rfl | a, b⟩
          · exact .inl rfl
          · exact .inr ⟨a, b⟩
      · constructor
        · rintro ⟨a, b⟩; exact ⟨.inr a, b⟩
        · rintro ⟨rfl | a, b⟩
          · omega
          · exact ⟨a, b⟩
    · rw [List.takeWhile_cons_of_neg (by simpa using hx), List.dropWhile_cons_of_neg (by simpa using hx)]
      constructor
      · constructor
        · intro h; cases h
        · rintro ⟨h, hlt⟩
          rcases List.mem_cons.1 h with rfl | h
          · exact absurd hlt hx
          · have := h1 i h; omega
      · constructor
        · intro h
          refine ⟨h, ?_⟩
          rcases List.mem_cons.1 h with rfl | h
          · omega
          · have := h1 i h; omega
        · exact fun h => h.1

variable {n : Nat} {c : Cache V} {m : Nat → Option V} {l : List Nat}

theorem Agrees.before (h : Agrees n c m l) (k : Nat) : ∃ l', Agrees n (c.delBefore k) (specStep m (.before k)) l' := by
  obtain ⟨r1, r2, r3⟩ := holds_delBefore k (c.buf.buf.length + 1) c.buf l h.ring (by have := h.ring.len; omega)
  have key : ∀ i, (c.delBefore k).map i = if i < k then none else c.map i := by
    intro i
    show List.foldl rem c.map (c.buf.delBefore k (c.buf.buf.length + 1)).2 i = _
    rw [r2, foldl_rem]
    have hm := (takeWhile_lt_mem (k := k) (i := i) h.asc).1
    by_cases hi : i < k
    · rw [if_pos hi]
      by_cases hl : i ∈ l
      · rw [if_pos (hm.2 ⟨hl, hi⟩)]
      · rw [if_neg (fun hx => hl (hm.1 hx).1)]
        have := (h.keys i).not.2 hl
        simpa using this
    · rw [if_neg hi, if_neg (fun hx => hi (hm.1 hx).2)]
  refine ⟨l.dropWhile (· < k), ⟨r1, r3.trans h.size, ?_, h.asc.sublist (List.dropWhile_sublist _), ?_, ?_⟩⟩
  · intro i
    rw [key, (takeWhile_lt_mem h.asc).2, ← h.keys]
    split <;> rename_i hi
    · simp; intro _; exact hi
    · simp; intro _; omega
  · intro i v hv
    rw [key] at hv
    unfold specStep
    simp only
    split at hv
    · cases hv
    · rename_i hi; rw [if_neg hi]; exact h.sound i v hv
  · intro i hi j hij hj
    have hi' := (takeWhile_lt_mem h.asc).2.1 hi
    unfold specStep at hj
    simp only at hj
    split at hj
    · cases hj
    · exact (takeWhile_lt_mem h.asc).2.2 ⟨h.newest i hi'.1 j hij hj, by omega⟩

theorem Agrees.after (h : Agrees n c m l) (k : Nat) : ∃ l', Agrees n (c.delAfter k) (specStep m (.after k)) l' := by
  obtain ⟨r1, r2, r3⟩ := holds_delAfter k (c.buf.buf.length + 1) c.buf l h.ring (by have := h.ring.len; omega)
  have ha : l.reverse.Pairwise (· > ·) := List.pairwise_reverse.2 h.asc
  have key : ∀ i, (c.delAfter k).map i = if k ≤ i then none else c.map i := by
    intro i
    show List.foldl rem c.map (c.buf.delAfter k (c.buf.buf.length + 1)).2 i = _
    rw [r2, foldl_rem]
    have hm := (takeWhile_ge_mem (k := k) (i := i) ha).1
    by_cases hi : k ≤ i
    · rw [if_pos hi]
      by_cases hl : i ∈ l
      · rw [if_pos (hm.2 ⟨List.mem_reverse.2 hl, hi⟩)]
      · rw [if_neg (fun hx => hl (List.mem_reverse.1 (hm.1 hx).1))]
        have := (h.keys i).not.2 hl
        simpa using this
    · rw [if_neg hi, if_neg (fun hx => hi (hm.1 hx).2)]
  have mem : ∀ i, i ∈ (l.reverse.dropWhile (k ≤ ·)).reverse ↔ i ∈ l ∧ i < k := by
    intro i
    rw [List.mem_reverse, (takeWhile_ge_mem ha).2, List.mem_reverse]
  refine ⟨(l.reverse.dropWhile (k ≤ ·)).reverse, ⟨r1, r3.trans h.size, ?_, ?_, ?_, ?_⟩⟩
  · intro i
    rw [key, mem, ← h.keys]
    split <;> rename_i hi
    · simp; intro _; omega
    · simp; intro _; omega
  · refine List.pairwise_reverse.2 ?_
    exact ha.sublist (List.dropWhile_sublist _)
  · intro i v hv
    rw [key] at hv
    unfold specStep
    simp only
    split at hv
    · cases hv
    · rename_i hi; rw [if_neg hi]; exact h.sound i v hv
  · intro i hi j hij hj
    have hi' := (mem i).1 hi
    unfold specStep at hj
    simp only at hj
    split at hj
    · cases hj
    · exact (mem j).2 ⟨h.newest i hi'.1 j hij hj, by omega⟩

theorem Agrees.push (h : Agrees n c m l) (hr : l.length < n) {k : Nat} {v : V} (hk : ∀ i, (m i).isSome → i < k)
    (hml : ∀ i ∈ l, i < k) :
    Agrees n ⟨ins c.map k v, c.buf.push k⟩ (specStep m (.put k v)) (l ++ [k]) := by
  obtain ⟨p1, p2⟩ := h.ring.push (by rw [h.size]; exact hr) k
  refine ⟨p1, p2.trans h.size, ?_, ?_, ?_, ?_⟩
  · intro i
    simp only [ins, List.mem_append, List.mem_singleton]
    by_cases hi : i = k
    · simp [hi]
    · rw [if_neg hi, h.keys]; simp [hi]
  · rw [List.pairwise_append]
    exact ⟨h.asc, by simp, by simpa using hml⟩
  · intro i w hw
    simp only [ins] at hw
    unfold specStep
    simp only
    split at hw
    · rename_i hi; rw [if_pos hi]; exact hw
    · rename_i hi; rw [if_neg hi]; exact h.sound i w hw
  · intro i hi j hij hj
    unfold specStep at hj
    simp only at hj
    rw [List.mem_append, List.mem_singleton]
    split at hj
    · exact .inr ‹_›
    · refine .inl ?_
      rcases List.mem_append.1 hi with hi | hi
      · exact h.newest i hi j hij hj
      · rw [List.mem_singleton] at hi
        have := hk j hj
        omega

theorem Agrees.popped (h : Agrees n c m l) {k : Nat} {l'} (hl : l = k :: l') :
    ∃ b, c.buf.pop = (b, some k) ∧ Agrees n ⟨rem c.map k, b⟩ m l' := by
  subst hl
  have he : ¬ c.buf.empty = true := fun hx => by cases h.ring.emp.1 hx
  have hk : c.buf.buf.getD c.buf.head 0 = k := h.ring.head_eq rfl
  obtain ⟨d1, d2, d3⟩ := h.ring.dropHead
  obtain ⟨a1, a2⟩ := List.pairwise_cons.1 h.asc
  have hno : k ∉ l' := fun hx => by have := a1 k hx; omega
  have rest : ∀ b : Buf, Holds b l' → b.buf.length = c.buf.buf.length → Agrees n ⟨rem c.map k, b⟩ m l' := by
    intro b hb hs
    refine ⟨hb, hs.trans h.size, ?_, a2, ?_, ?_⟩
    · intro i
      simp only [rem]
      by_cases hi : i = k
      · subst hi; simp [hno]
      · rw [if_neg hi, h.keys, List.mem_cons]; simp [hi]
    · intro i w hw
      simp only [rem] at hw
      split at hw
      · cases hw
      · exact h.sound i w hw
    · intro i hi j hij hj
      have := h.newest i (List.mem_cons_of_mem _ hi) j hij hj
      rcases List.mem_cons.1 this with rfl | h'
      · have := a1 i hi; omega
      · exact h'
  unfold Buf.pop
  rw [if_neg he]
  simp only [hk]
  by_cases hl : l' = []
  · have : (c.buf.clear c.buf.head).head = (c.buf.clear c.buf.head).tail := d1.2 hl
    rw [if_pos this]
    refine ⟨_, rfl, rest _ ?_ (by simp [Buf.clear])⟩
    rw [hl]; exact d2 hl
  · have : ¬ (c.buf.clear c.buf.head).head = (c.buf.clear c.buf.head).tail := fun hx => hl (d1.1 hx)
    rw [if_neg this]
    refine ⟨_, rfl, rest _ ?_ (by simp [Buf.clear])⟩
    have hbl : (c.buf.clear c.buf.head).buf.length = c.buf.buf.length := by simp [Buf.clear]
    rw [hbl]
    exact d3 hl

theorem Agrees.put (h : Agrees n c m l) {k : Nat} {v : V} (hk : (c.get k).isSome ∨ ∀ i, (m i).isSome → i < k) :
    ∃ l', Agrees n (c.put k v) (specStep m (.put k v)) l' := by
  unfold Cache.put
  by_cases hin : (c.map k).isSome
  · rw [if_pos hin]
    refine ⟨l, ⟨h.ring, h.size, ?_, h.asc, ?_, ?_⟩⟩
    · intro i
      simp only [ins]
      by_cases hi : i = k
      · subst hi; simp [(h.keys i).1 hin]
      · rw [if_neg hi]; exact h.keys i
    · intro i w hw
      simp only [ins] at hw
      unfold specStep
      simp only
      split at hw
      · rename_i hi; rw [if_pos hi]; exact hw
      · rename_i hi; rw [if_neg hi]; exact h.sound i w hw
    · intro i hi j hij hj
      unfold specStep at hj
      simp only at hj
      split at hj
      · rename_i hjk; subst hjk; exact (h.keys j).1 hin
      · exact h.newest i hi j hij hj
  · rw [if_neg hin]
    have hk : ∀ i, (m i).isSome → i < k := by
      rcases hk with hk | hk
      · exact absurd hk hin
      · exact hk
    have hml : ∀ i ∈ l, i < k := by
      intro i hi
      refine hk i ?_
      obtain ⟨w, hw⟩ := Option.isSome_iff_exists.1 ((h.keys i).2 hi)
      rw [h.sound i w hw]; rfl
    have hsz := h.size
    have hp := h.ring.pos
    have hlen := h.ring.len
    by_cases h1 : 1 < n
    · have hfull := h.ring.full (by omega)
      by_cases hf : c.buf.isFull = true
      · obtain ⟨x, l', rfl⟩ : ∃ x l', l = x :: l' := List.exists_cons_of_length_pos (by rw [hfull.1 hf]; omega)
        obtain ⟨b, hb1, hb2⟩ := h.popped rfl
        simp only [hf, if_true, hb1]
        refine ⟨_, hb2.push ?_ hk (fun i hi => hml i (List.mem_cons_of_mem _ hi))⟩
        simp only [List.length_cons] at hlen; omega
      · simp only [hf]
        refine ⟨_, h.push ?_ hk hml⟩
        have := hfull.not.1 hf
        omega
    · have hn : n = 1 := by omega
      have hf : c.buf.isFull = true := by
        unfold Buf.isFull
        have := h.ring.hd
        rw [hsz, hn, Nat.mod_one, decide_eq_true_iff]; omega
      simp only [hf, if_true]
      cases hl : l with
      | nil =>
        subst hl
        have he : c.buf.empty = true := h.ring.emp.2 rfl
        have : c.buf.pop = (c.buf, none) := by unfold Buf.pop; rw [if_pos he]
        simp only [this]
        exact ⟨_, h.push (by simp; omega) hk hml⟩
      | cons x l' =>
        subst hl
        obtain ⟨b, hb1, hb2⟩ := h.popped rfl
        simp only [hb1]
        refine ⟨_, hb2.push ?_ hk (fun i hi => hml i (List.mem_cons_of_mem _ hi))⟩
        simp only [List.length_cons] at hlen; omega

theorem run_agrees : ∀ (ops : List (Op V)) (c : Cache V) (m : Nat → Option V) (l : List Nat), Agrees n c m l →
    Ordered c m ops → ∃ l', Agrees n (ops.foldl Cache.step c) (ops.foldl specStep m) l'
  | [], _, _, l, h, _ => ⟨l, h⟩
  | op :: ops, c, m, l, h, ho => by
    obtain ⟨h1, h2⟩ := ho
    rw [List.foldl_cons, List.foldl_cons]
    cases op with
    | put k v =>
      obtain ⟨l', h'⟩ := h.put (v := v) h1
      exact run_agrees ops _ _ l' h' h2
    | before k =>
      obtain ⟨l', h'⟩ := h.before k
      exact run_agrees ops _ _ l' h' h2
    | after k =>
      obtain ⟨l', h'⟩ := h.after k
      exact run_agrees ops _ _ l' h' h2

/-- The cache and the log after a history. -/
abbrev run (n : Nat) (ops : List (Op V)) : Cache V := ops.foldl Cache.step (Cache.new n)
abbrev log (ops : List (Op V)) : Nat → Option V := ops.foldl specStep (fun _ => none)

/-- **C22**: after any history of puts in ascending order and deletions, for any capacity: what the cache returns for an
index is what was last stored under it and not deleted since; it returns something for at most `n` indexes; an
index newer than a cached one is cached; and `last` is the value of the newest cached index, which is the newest
in the log. -/
theorem C22_cache_agrees (n : Nat) (hn : 0 < n) (ops : List (Op V)) (ho : Ordered (Cache.new n) (fun _ => none) ops) :
    (∀ i v, (run n ops).get i = some v → log ops i = some v) ∧
    (∃ keys : List Nat, keys.Nodup ∧ keys.length ≤ n ∧ ∀ i, ((run n ops).get i).isSome ↔ i ∈ keys) ∧
    (∀ i j, i ≤ j → ((run n ops).get i).isSome → (log ops j).isSome → (run n ops).get j = log ops j) ∧
    (∀ v, (run n ops).last = some v ↔
      ∃ i, (run n ops).get i = some v ∧ log ops i = some v ∧ ∀ j, (log ops j).isSome → j ≤ i) := by
  obtain ⟨l, h⟩ := run_agrees (n := n) ops (Cache.new n) (fun _ => none) []
    ⟨holds_new hn, by simp [Cache.new, Buf.new], by simp [Cache.new], List.Pairwise.nil, by simp [Cache.new], by simp⟩ ho
  have lastEq : (run n ops).last = l.getLast?.bind (run n ops).map := by
    unfold Cache.last Buf.getTail
    by_cases hl : l = []
    · have := h.ring.emp.2 hl
      rw [if_pos this, hl]; rfl
    · have : ¬ (run n ops).buf.empty = true := fun hx => hl (h.ring.emp.1 hx)
      rw [if_neg this, h.ring.tail_eq hl, List.getLast?_eq_some_getLast hl]
  have agree : ∀ j, ((run n ops).map j).isSome → (run n ops).map j = log ops j := by
    intro j hj
    obtain ⟨v, hv⟩ := Option.isSome_iff_exists.1 hj
    exact hv.trans (h.sound j v hv).symm
  refine ⟨h.sound, ⟨l, h.asc.imp (fun h => by omega), ?_, h.keys⟩, ?_, ?_⟩
  · have := h.ring.len
    rw [h.size] at this
    exact this
  · intro i j hij hi hj
    exact agree j ((h.keys j).2 (h.newest i ((h.keys i).1 hi) j hij hj))
  · intro v
    rw [lastEq]
    constructor
    · intro hv
      obtain ⟨i, hi, hv⟩ := Option.bind_eq_some_iff.1 hv
      refine ⟨i, hv, h.sound i v hv, ?_⟩
      intro j hj
      by_contra hlt
      have hil : i ∈ l := List.mem_of_getLast? hi
      have hjl := h.newest i hil j (by omega) hj
      obtain ⟨l', rfl⟩ := List.getLast?_eq_some_iff.1 hi
      have := (List.pairwise_append.1 h.asc).2.2
      rcases List.mem_append.1 hjl with hjl | hjl
      · have := this j hjl i (by simp); omega
      · rw [List.mem_singleton] at hjl; omega
    · rintro ⟨i, h1, h2, h3⟩
      have hil : i ∈ l := (h.keys i).1 (by rw [show (run n ops).map i = some v from h1]; rfl)
      have hne : l ≠ [] := List.ne_nil_of_mem hil
      have hlast : l.getLast? = some (l.getLast hne) := List.getLast?_eq_some_getLast hne
      have hml : l.getLast hne ∈ l := List.getLast_mem hne
      obtain ⟨w, hw⟩ := Option.isSome_iff_exists.1 ((h.keys _).2 hml)
      have h4 := h3 (l.getLast hne) (by rw [show log ops _ = _ from h.sound _ w hw]; rfl)
      have h5 : i = l.getLast hne := by
        obtain ⟨l', hl'⟩ := List.getLast?_eq_some_iff.1 hlast
        have ha := h.asc
        rw [hl'] at ha hil
        have := (List.pairwise_append.1 ha).2.2
        rcases List.mem_append.1 hil with hil | hil
        · have := this i hil (l.getLast hne) (by simp); omega
        · simpa using hil
      rw [hlast]
      simp only [Option.bind_some]
      rw [← h5]
      exact h1

/-- What a put does to the other keys. -/
theorem Agrees.put_get (h : Agrees n c m l) (k : Nat) (v : V) : (c.put k v).get k = some v ∧
    ∀ i w, i ≠ k → c.get i = some w → (c.put k v).get i = some w ∨
      c.get k = none ∧ l.length = n ∧ ∀ j ∈ l, i ≤ j := by
  unfold Cache.put
  by_cases hin : (c.map k).isSome
  · rw [if_pos hin]
    refine ⟨by simp [Cache.get, ins], ?_⟩
    intro i w hi hw
    exact .inl (by simpa [Cache.get, ins, hi] using hw)
  · rw [if_neg hin]
    refine ⟨by simp [Cache.get, ins], ?_⟩
    intro i w hi hw
    have hkn : c.get k = none := by simpa [Cache.get] using hin
    by_cases hf : c.buf.isFull = true
    · simp only [hf, if_true]
      have hil : i ∈ l := (h.keys i).1 (by rw [show c.map i = some w from hw]; rfl)
      cases hl : l with
      | nil => rw [hl] at hil; cases hil
      | cons x l' =>
        obtain ⟨b, hb1, _⟩ := h.popped hl
        simp only [hb1]
        by_cases hix : i = x
        · refine .inr ⟨hkn, ?_, ?_⟩
          · rw [← hl]
            have hsz := h.size
            have hlp := List.length_pos_of_mem hil
            have hle := h.ring.len
            by_cases h1 : 1 < n
            · rw [(h.ring.full (by omega)).1 hf, hsz]
            · omega
          · intro j hj
            have ha := h.asc
            rw [hl] at ha
            rcases List.mem_cons.1 hj with rfl | hj
            · omega
            · have := (List.pairwise_cons.1 ha).1 j hj; omega
        · exact .inl (by simpa [Cache.get, ins, rem, hi, hix] using hw)
    · simp only [hf]
      exact .inl (by simpa [Cache.get, ins, hi] using hw)

/-- **C22, what is kept**: a value just put is returned; putting drops another value only when `n` indexes are cached,
and then only the oldest one; deleting before (after) an index keeps everything from it on (before it). -/
theorem C22_keeps (n : Nat) (hn : 0 < n) (ops : List (Op V)) (ho : Ordered (Cache.new n) (fun _ => none) ops) (k : Nat)
    (v : V) :
    ((run n ops).put k v).get k = some v ∧
    (∀ i w, i ≠ k → (run n ops).get i = some w → ((run n ops).put k v).get i = some w ∨
      (run n ops).get k = none ∧ (∀ j, ((run n ops).get j).isSome → i ≤ j) ∧
      ∃ keys : List Nat, keys.Nodup ∧ keys.length = n ∧ ∀ j ∈ keys, ((run n ops).get j).isSome) ∧
    (∀ i, k ≤ i → ((run n ops).delBefore k).get i = (run n ops).get i) ∧
    (∀ i, i < k → ((run n ops).delAfter k).get i = (run n ops).get i) := by
  obtain ⟨l, h⟩ := run_agrees (n := n) ops (Cache.new n) (fun _ => none) []
    ⟨holds_new hn, by simp [Cache.new, Buf.new], by simp [Cache.new], List.Pairwise.nil, by simp [Cache.new], by simp⟩ ho
  obtain ⟨p1, p2⟩ := h.put_get k v
  refine ⟨p1, ?_, ?_, ?_⟩
  · intro i w hi hw
    rcases p2 i w hi hw with hp | ⟨a, b, d⟩
    · exact .inl hp
    · exact .inr ⟨a, fun j hj => d j ((h.keys j).1 hj), l, h.asc.imp (fun h => by omega), b,
        fun j hj => (h.keys j).2 hj⟩
  · intro i hi
    obtain ⟨r1, r2, r3⟩ := holds_delBefore k ((run n ops).buf.buf.length + 1) (run n ops).buf l h.ring
      (Nat.lt_succ_of_le h.ring.len)
    show List.foldl rem (run n ops).map ((run n ops).buf.delBefore k ((run n ops).buf.buf.length + 1)).2 i = _
    rw [r2, foldl_rem, if_neg]
    · rfl
    · intro hx
      have := ((takeWhile_lt_mem (k := k) (i := i) h.asc).1.1 hx).2
      omega
  · intro i hi
    obtain ⟨r1, r2, r3⟩ := holds_delAfter k ((run n ops).buf.buf.length + 1) (run n ops).buf l h.ring
      (Nat.lt_succ_of_le h.ring.len)
    show List.foldl rem (run n ops).map ((run n ops).buf.delAfter k ((run n ops).buf.buf.length + 1)).2 i = _
    rw [r2, foldl_rem, if_neg]
    · rfl
    · intro hx
      have := ((takeWhile_ge_mem (k := k) (i := i) (List.pairwise_reverse.2 h.asc)).1.1 hx).2
      omega

/-- An ordered history with eviction, wrap-around and both kinds of deletion. -/
example : Ordered (Cache.new 3) (fun _ => (none : Option String))
    [.put 1 "a", .put 2 "b", .put 3 "c", .put 4 "d", .after 4, .put 4 "e", .before 3] := by
  simp [Ordered, Cache.new, Cache.get, Cache.step, specStep, Cache.put, Buf.new, Buf.isFull, ins, Buf.push, Buf.pop,
    Buf.clear, rem, Cache.delAfter, Buf.delAfter]
  refine ⟨?_, ?_, ?_⟩ <;> intro i <;> repeat' split
  all_goals simp
  all_goals omega
example : (run 3 [Op.put 1 "a", .put 2 "b", .put 3 "c", .put 4 "d", .after 4, .put 4 "e", .before 3]).last = some "e" := by
  decide

end Verif.Wal.Ring
