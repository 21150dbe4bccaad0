import Verif.Watch.Model
/-!
# The log of changes (C107)

The ring buffer behaves as the list of everything appended, cut to the capacity.
-/
namespace Verif.Watch

/-- The ring buffer `b` of capacity `cap` holds the end of the list `h`. -/
structure Holds (cap : Nat) (h : List Entry) (b : CircleBuf) : Prop where
  pos : 0 < cap
  capacity : b.capacity = cap
  len : b.buf.length = cap
  count : b.count = min h.length cap
  writer : b.writer = h.length % cap
  cell : ∀ i, i < h.length → h.length ≤ i + cap → b.buf[i % cap]? = h[i]?

theorem Holds.new {cap : Nat} (h : 0 < cap) : Holds cap [] (CircleBuf.new cap) where
  pos := h
  capacity := rfl
  len := by simp [CircleBuf.new]
  count := by simp [CircleBuf.new]
  writer := by simp [CircleBuf.new]
  cell := by simp

theorem mod_succ {n cap : Nat} (h : 0 < cap) : (if n % cap + 1 = cap then 0 else n % cap + 1) = (n + 1) % cap := by
  have hlt := Nat.mod_lt n h
  split
  · rename_i he
    rw [Nat.add_mod]
    rcases Nat.lt_or_ge 1 cap with h1 | h1
    · rw [Nat.mod_eq_of_lt h1, he, Nat.mod_self]
    · have : cap = 1 := by omega
      subst this; simp [Nat.mod_one]
  · rename_i he
    have h1 : 1 < cap := by omega
    rw [Nat.add_mod n 1 cap, Nat.mod_eq_of_lt h1, Nat.mod_eq_of_lt (show n % cap + 1 < cap by omega)]

/-- Cells of two positions less than the capacity apart are different. -/
theorem mod_ne {i j cap : Nat} (h1 : i < j) (h2 : j < i + cap) : i % cap ≠ j % cap := by
  intro h
  have hd : (j - i) % cap = 0 := Nat.sub_mod_eq_zero_of_mod_eq h.symm
  have : 0 < cap := by omega
  rw [Nat.mod_eq_of_lt (by omega)] at hd
  omega

theorem Holds.append {cap : Nat} {h : List Entry} {b : CircleBuf} (hb : Holds cap h b) (e : Entry) :
    Holds cap (h ++ [e]) (b.append e) where
  pos := hb.pos
  capacity := hb.capacity
  len := by simp [CircleBuf.append, hb.len]
  count := by
    simp only [CircleBuf.append, hb.count, hb.capacity, List.length_append, List.length_cons, List.length_nil]
    split <;> omega
  writer := by
    simp only [CircleBuf.append, hb.writer, hb.capacity, List.length_append, List.length_cons, List.length_nil]
    exact mod_succ hb.pos
  cell := by
    intro i hi hi2
    simp only [List.length_append, List.length_cons, List.length_nil] at hi hi2
    simp only [CircleBuf.append, hb.writer]
    by_cases hl : i = h.length
    · subst hl
      rw [List.getElem?_set, if_pos rfl, if_pos (by rw [hb.len]; exact Nat.mod_lt _ hb.pos)]
      simp
    · have hlt : i < h.length := by omega
      rw [List.getElem?_set_ne (Ne.symm (mod_ne hlt (by omega))), hb.cell i hlt (by omega),
        List.getElem?_append_left hlt]

theorem Holds.at {cap : Nat} {h : List Entry} {b : CircleBuf} (hb : Holds cap h b) {i : Nat} (hi : i < h.length)
    (hi2 : h.length ≤ i + cap) : b.at (i % cap) = h[i] := by
  rw [CircleBuf.at, List.getD_eq_getElem?_getD, hb.cell i hi hi2, List.getElem?_eq_getElem hi]; rfl

theorem mod_pred {n cap : Nat} (h : 0 < cap) (hn : 0 < n) :
    (if n % cap = 0 then cap - 1 else n % cap - 1) = (n - 1) % cap := by
  obtain ⟨m, rfl⟩ : ∃ m, n = m + 1 := ⟨n - 1, by omega⟩
  rw [← mod_succ h]
  have := Nat.mod_lt m h
  simp only [Nat.add_sub_cancel]
  by_cases he : m % cap + 1 = cap
  · rw [if_pos he]; simp; omega
  · rw [if_neg he]; simp

/-- The search finds the cell of the last of the searched entries that is not newer than `ver`. -/
theorem Holds.findLoop {cap : Nat} {h : List Entry} {b : CircleBuf} (hb : Holds cap h b) (ver : Nat) :
    ∀ n p, n ≤ p → p ≤ h.length → h.length ≤ p - n + cap →
      (∃ (j : Nat) (hj : j < h.length), p - n ≤ j ∧ j < p ∧ b.findLoop ver n (p % cap) = some (j % cap) ∧
        (h[j]'hj).ver ≤ ver ∧ ∀ i (hi : i < h.length), j < i → i < p → ver < (h[i]'hi).ver) ∨
      (b.findLoop ver n (p % cap) = none ∧ ∀ i (hi : i < h.length), p - n ≤ i → i < p → ver < (h[i]'hi).ver) := by
  intro n
  induction n with
  | zero =>
    intro p _ _ _
    exact .inr ⟨rfl, fun i hi h1 h2 => by omega⟩
  | succ n ih =>
    intro p hnp hp hcap
    rw [CircleBuf.findLoop]
    simp only [hb.capacity]
    rw [mod_pred hb.pos (by omega), hb.at (i := p - 1) (by omega) (by omega)]
    by_cases hv : (h[p - 1]'(by omega)).ver ≤ ver
    · refine .inl ⟨p - 1, by omega, by omega, by omega, by rw [if_pos hv], hv, fun i hi h1 h2 => by omega⟩
    · rw [if_neg hv]
      have hlast : ∀ i (hi : i < h.length), i = p - 1 → ver < (h[i]'hi).ver := by
        intro i hi he; subst he; omega
      rcases ih (p - 1) (by omega) (by omega) (by omega) with ⟨j, hj, h1, h2, h3, h4, h5⟩ | ⟨h1, h2⟩
      · refine .inl ⟨j, hj, by omega, by omega, h3, h4, fun i hi hi1 hi2 => ?_⟩
        by_cases he : i = p - 1
        · exact hlast i hi he
        · exact h5 i hi hi1 (by omega)
      · refine .inr ⟨h1, fun i hi hi1 hi2 => ?_⟩
        by_cases he : i = p - 1
        · exact hlast i hi he
        · exact h2 i hi (by omega) (by omega)

/-- Reading from a cell gives everything appended after it that passes the filter. -/
theorem Holds.readLoop {cap : Nat} {h : List Entry} {b : CircleBuf} (hb : Holds cap h b) (f : Entry → Bool) :
    ∀ n p, p ≤ h.length → h.length < p + cap → h.length ≤ p + n → b.readLoop f n (p % cap) = (h.drop p).filter f := by
  intro n
  induction n with
  | zero =>
    intro p hp _ hn
    rw [CircleBuf.readLoop, List.drop_eq_nil_of_le (by omega)]; rfl
  | succ n ih =>
    intro p hp hc hn
    rw [CircleBuf.readLoop, hb.writer]
    by_cases he : p = h.length
    · subst he
      rw [if_pos rfl, List.drop_eq_nil_of_le (Nat.le_refl _)]; rfl
    · have hlt : p < h.length := by omega
      rw [if_neg (mod_ne hlt hc), hb.at hlt (by omega), hb.capacity]
      have : (p % cap + 1) % cap = (p + 1) % cap := by rw [Nat.add_mod, Nat.mod_mod, ← Nat.add_mod]
      rw [this, ih (p + 1) (by omega) (by omega) (by omega), List.drop_eq_getElem_cons hlt, List.filter_cons]

/-- `find_index` finds nothing only if the log is empty or all its entries are newer. -/
theorem Holds.readEntryLogs {cap : Nat} {h : List Entry} {b : CircleBuf} (hb : Holds cap h b) (c : Name) (ts : List Name)
    (base : Nat) (hsorted : h.Pairwise fun a b => a.ver < b.ver) :
    (b.readEntryLogs c ts base = some (h.filter fun e => decide (base < e.ver) && interested c ts e) ∧
      ∃ (j : Nat) (hj : j < h.length), h.length ≤ j + cap ∧ (h[j]'hj).ver ≤ base) ∨
    (b.readEntryLogs c ts base = none ∧ ∀ i (hi : i < h.length), h.length ≤ i + cap → base < (h[i]'hi).ver) := by
  rw [CircleBuf.readEntryLogs, CircleBuf.findIndex]
  by_cases h0 : b.count = 0
  · refine .inr ⟨by rw [if_pos h0], fun i hi => ?_⟩
    have := hb.count; have := hb.pos; omega
  rw [if_neg h0, hb.writer, hb.count]
  have hc := hb.count
  have hp := hb.pos
  rcases hb.findLoop base (min h.length cap) h.length (by omega) (Nat.le_refl _) (by omega) with
    ⟨j, hj, h1, h2, h3, h4, h5⟩ | ⟨h1, h2⟩
  · refine .inl ⟨?_, j, hj, by omega, h4⟩
    rw [h3]
    simp only [CircleBuf.readEntrys, hb.capacity]
    have : (j % cap + 1) % cap = (j + 1) % cap := by rw [Nat.add_mod, Nat.mod_mod, ← Nat.add_mod]
    rw [this, hb.readLoop _ cap (j + 1) (by omega) (by omega) (by omega)]
    congr 1
    conv => rhs; rw [← List.take_append_drop (j + 1) h]
    rw [List.filter_append]
    have htake : (h.take (j + 1)).filter (fun e => decide (base < e.ver) && interested c ts e) = [] := by
      rw [List.filter_eq_nil_iff]
      intro e he
      obtain ⟨i, hi, rfl⟩ := List.mem_iff_getElem.1 he
      rw [List.length_take] at hi
      rw [List.getElem_take]
      have : (h[i]'(by omega)).ver ≤ (h[j]'hj).ver := by
        by_cases hij : i = j
        · subst hij; exact Nat.le_refl _
        · exact Nat.le_of_lt (List.pairwise_iff_getElem.1 hsorted i j (by omega) hj (by omega))
      have hn : ¬ base < (h[i]'(by omega)).ver := by omega
      simp [hn]
    rw [htake, List.nil_append]
    apply List.filter_congr
    intro e he
    obtain ⟨i, hi, rfl⟩ := List.mem_iff_getElem.1 he
    rw [List.length_drop] at hi
    rw [List.getElem_drop]
    have := h5 (j + 1 + i) (by omega) (by omega) (by omega)
    simp [this]
  · refine .inr ⟨by rw [h1], fun i hi hi2 => h2 i hi (by omega) hi⟩

theorem Holds.maxVersion {cap : Nat} {h : List Entry} {b : CircleBuf} (hb : Holds cap h b) :
    b.maxVersion = h.getLast?.map Entry.ver := by
  rw [CircleBuf.maxVersion]
  have hc := hb.count
  have hp := hb.pos
  by_cases h0 : b.count = 0
  · rw [if_pos h0]
    have : h = [] := List.eq_nil_of_length_eq_zero (by omega)
    subst this; rfl
  · rw [if_neg h0, hb.capacity, hb.writer, mod_pred hp (by omega), hb.at (by omega) (by omega), List.getLast?_eq_getElem?,
      List.getElem?_eq_getElem (by omega)]
    rfl

theorem Holds.minVersion {cap : Nat} {h : List Entry} {b : CircleBuf} (hb : Holds cap h b) :
    b.minVersion = h[h.length - cap]?.map Entry.ver := by
  rw [CircleBuf.minVersion]
  have hc := hb.count
  have hp := hb.pos
  by_cases h0 : b.count = 0
  · rw [if_pos h0]
    have : h = [] := List.eq_nil_of_length_eq_zero (by omega)
    subst this; rfl
  · rw [if_neg h0, hb.capacity]
    have hidx : (if b.count = cap then b.writer else 0) = (h.length - cap) % cap := by
      split
      · rename_i he
        rw [hb.writer, Nat.mod_eq_sub_mod (by omega)]
      · rename_i he
        rw [show h.length - cap = 0 from by omega, Nat.zero_mod]
    rw [hidx, hb.at (by omega) (by omega), List.getElem?_eq_getElem (by omega)]
    rfl

/-! ## Histories of the store -/

/-- One write of the state machine. -/
inductive Op where
  | insert (k : Key) (v : Val)
  | remove (k : Key)
deriving DecidableEq

def Store.apply (s : Store) : Op → Store
  | .insert k v => s.insert k v
  | .remove k => s.remove k

/-- The change an `Op` makes at version `ver`. -/
def Op.entry (ver : Nat) : Op → Entry
  | .insert k v => ⟨true, ver, k, v⟩
  | .remove k => ⟨false, ver, k, .raw []⟩

/-- What happens to a meta server. -/
inductive Event where
  | op (o : Op)
  /-- an id is taken: neither logged nor counted (storage.rs:217-228) -/
  | retain (c : Name) (n : Nat)
  | restart
deriving DecidableEq

def Store.event (s : Store) : Event → Store
  | .op o => s.apply o
  | .retain c n => { s with db := s.db.set (KeyPath.incrId c) (.num n) }
  | .restart => s.reopen

/-- The changes that events make, from version `ver` on. -/
def changes : Nat → List Event → List Entry
  | _, [] => []
  | ver, .op o :: es => o.entry (ver + 1) :: changes (ver + 1) es
  | ver, _ :: es => changes ver es

/-- A server that starts with an empty database. -/
def Store.run (cap : Nat) (es : List Event) : Store := es.foldl Store.event (Store.init cap)

theorem changes_append (ver : Nat) (a b : List Event) :
    changes ver (a ++ b) = changes ver a ++ changes (ver + (changes ver a).length) b := by
  induction a generalizing ver with
  | nil => simp [changes]
  | cons e a ih =>
    cases e with
    | op o => simp only [List.cons_append, changes, ih, List.length_cons, List.append_cancel_left_eq,
        List.cons.injEq, true_and]; congr 1; omega
    | retain c n => simp only [List.cons_append, changes, ih]
    | restart => simp only [List.cons_append, changes, ih]

theorem changes_ver (ver : Nat) (es : List Event) (i : Nat) (hi : i < (changes ver es).length) :
    ((changes ver es)[i]).ver = ver + i + 1 := by
  induction es generalizing ver i with
  | nil => simp [changes] at hi
  | cons e es ih =>
    cases e with
    | op o =>
      simp only [changes]
      cases i with
      | zero => cases o <;> simp [Op.entry]
      | succ i =>
        simp only [List.getElem_cons_succ]
        rw [ih]; omega
    | retain c n => exact ih ver i hi
    | restart => exact ih ver i hi

theorem changes_sorted (ver : Nat) (es : List Event) : (changes ver es).Pairwise fun a b => a.ver < b.ver := by
  rw [List.pairwise_iff_getElem]
  intro i j hi hj hij
  rw [changes_ver, changes_ver]; omega

/-- The store of a run: its version counts the changes, and its log holds those since the last restart. -/
theorem run_inv {cap : Nat} (hcap : 0 < cap) (es : List Event) :
    (Store.run cap es).ver = (changes 0 es).length ∧
      ∃ k, k ≤ (changes 0 es).length ∧ Holds cap ((changes 0 es).drop k) (Store.run cap es).log := by
  suffices H : ∀ (n : Nat) (es : List Event), es.length = n → (Store.run cap es).ver = (changes 0 es).length ∧
      ∃ k, k ≤ (changes 0 es).length ∧ Holds cap ((changes 0 es).drop k) (Store.run cap es).log from H _ es rfl
  intro n
  induction n with
  | zero =>
    intro es hes
    obtain rfl := List.eq_nil_of_length_eq_zero hes
    exact ⟨rfl, 0, Nat.le_refl _, Holds.new hcap⟩
  | succ n ih =>
    intro es hes
    rcases List.eq_nil_or_concat es with rfl | ⟨es', e, rfl⟩
    · simp at hes
    rw [List.concat_eq_append] at hes ⊢
    obtain ⟨h1, k, hk, h2⟩ := ih es' (by simpa using hes)
    have hrun : Store.run cap (es' ++ [e]) = (Store.run cap es').event e := by
      simp [Store.run, List.foldl_append]
    rw [hrun, changes_append, Nat.zero_add]
    cases e with
    | op o =>
      simp only [changes, List.length_append, List.length_cons, List.length_nil, Store.event]
      refine ⟨?_, k, by omega, ?_⟩
      · cases o <;> simp [Store.apply, Store.insert, Store.remove, h1]
      · rw [List.drop_append_of_le_length hk, ← h1]
        cases o <;> exact h2.append _
    | retain c m =>
      simp only [changes, List.append_nil, Store.event]
      exact ⟨h1, k, hk, h2⟩
    | restart =>
      simp only [changes, List.append_nil, Store.event, Store.reopen]
      refine ⟨h1, (changes 0 es').length, Nat.le_refl _, ?_⟩
      rw [List.drop_length, h2.capacity]
      exact Holds.new hcap

end Verif.Watch
