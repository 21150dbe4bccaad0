import Verif.Dump.Lex

/-!
# Durations as text

Model of `CnosDuration` (`common/utils/src/duration.rs`) with `format_duration` and `parse_duration` of crate humantime 2.2.0: the text
of a duration, and the duration of a text.
-/

namespace Verif.Dump

open Verif.Raft (dec undec undec_dec dec_ne_nil)

/-- `CnosDuration` (duration.rs:12-15): infinite, or seconds and nanoseconds. -/
inductive Dur where
  | inf
  | of (secs nanos : Nat)
deriving DecidableEq

/-- A `std::time::Duration`: seconds in 64 bits, less than a second of nanoseconds. -/
def Dur.Fits : Dur → Prop
  | .inf => True
  | .of s n => s < 2 ^ 64 ∧ n < 10 ^ 9

/-- `item_plural` (humantime): an `s` after the unit if there is more than one. -/
def plural (n : Nat) (u : Text) : Text := if n > 1 then u ++ ['s'] else u

/-- The items of `FormattedDuration` (humantime): number, unit, seconds and nanoseconds of the unit. -/
def allItems (s n : Nat) : List (Nat × Text × Nat × Nat) :=
  [ (s / 31557600, plural (s / 31557600) "year".toList, 31557600, 0),
    (s % 31557600 / 2630016, plural (s % 31557600 / 2630016) "month".toList, 2630016, 0),
    (s % 31557600 % 2630016 / 86400, plural (s % 31557600 % 2630016 / 86400) "day".toList, 86400, 0),
    (s % 31557600 % 2630016 % 86400 / 3600, "h".toList, 3600, 0),
    (s % 31557600 % 2630016 % 86400 % 3600 / 60, "m".toList, 60, 0),
    (s % 31557600 % 2630016 % 86400 % 60, "s".toList, 1, 0),
    (n / 1000000, "ms".toList, 0, 1000000),
    (n / 1000 % 1000, "us".toList, 0, 1000),
    (n % 1000, "ns".toList, 0, 1) ]

/-- Items with a space between. -/
def joinItems : List (Nat × Text × Nat × Nat) → Text
  | [] => []
  | [i] => dec i.1 ++ i.2.1
  | i :: j :: r => dec i.1 ++ i.2.1 ++ ' ' :: joinItems (j :: r)

/-- `Display for CnosDuration` (duration.rs:17-25) and `format_duration` (humantime). -/
def Dur.text : Dur → Text
  | .inf => "INF".toList
  | .of s n => if s = 0 ∧ n = 0 then "0s".toList else joinItems ((allItems s n).filter fun i => i.1 > 0)

/-- `parse_unit` (humantime): seconds and nanoseconds of a unit. -/
def unitOf (u : Text) : Option (Nat × Nat) :=
  if u ∈ ["nanos".toList, "nsec".toList, "ns".toList] then some (0, 1)
  else if u ∈ ["usec".toList, "us".toList] then some (0, 1000)
  else if u ∈ ["millis".toList, "msec".toList, "ms".toList] then some (0, 1000000)
  else if u ∈ ["seconds".toList, "second".toList, "secs".toList, "sec".toList, "s".toList] then some (1, 0)
  else if u ∈ ["minutes".toList, "minute".toList, "min".toList, "mins".toList, "m".toList] then some (60, 0)
  else if u ∈ ["hours".toList, "hour".toList, "hr".toList, "hrs".toList, "h".toList] then some (3600, 0)
  else if u ∈ ["days".toList, "day".toList, "d".toList] then some (86400, 0)
  else if u ∈ ["weeks".toList, "week".toList, "w".toList] then some (604800, 0)
  else if u ∈ ["months".toList, "month".toList, "M".toList] then some (2630016, 0)
  else if u ∈ ["years".toList, "year".toList, "y".toList] then some (31557600, 0)
  else none

/-- `parse_unit` (humantime): `n` units more; 64 bits, full seconds of nanoseconds are carried. -/
def addUnit (n : Nat) (u : Text) (acc : Nat × Nat) : Option (Nat × Nat) :=
  match unitOf u with
  | none => none
  | some (a, b) =>
    let ns := acc.2 + n * b
    if n * a ≥ 2 ^ 64 ∨ ns ≥ 2 ^ 64 then none
    else
      let s := acc.1 + n * a + (if ns > 10 ^ 9 then ns / 10 ^ 9 else 0)
      if s ≥ 2 ^ 64 then none else some (s, if ns > 10 ^ 9 then ns % 10 ^ 9 else ns)

/-- Where the reader of a duration is: before the first number, before a number, in a number, in a unit. -/
inductive DSt where
  | first
  | next
  | num (n : Nat)
  | unit (n : Nat) (u : Text)

/-- `parse_duration` (humantime): numbers and units. -/
def durGo : Text → DSt → Nat × Nat → Option (Nat × Nat)
  | [], .first, _ => none
  | [], .next, acc => some acc
  | [], .num n, acc => addUnit n [] acc
  | [], .unit n u, acc => addUnit n u acc
  | c :: t, .first, acc =>
    if c.isWhitespace then durGo t .first acc else if c.isDigit then durGo t (.num (c.toNat - 48)) acc else none
  | c :: t, .next, acc =>
    if c.isWhitespace then durGo t .next acc else if c.isDigit then durGo t (.num (c.toNat - 48)) acc else none
  | c :: t, .num n, acc =>
    if c.isDigit then (if 10 * n + (c.toNat - 48) ≥ 2 ^ 64 then none else durGo t (.num (10 * n + (c.toNat - 48))) acc)
    else if c.isWhitespace then durGo t (.num n) acc
    else if c.isAlpha then durGo t (.unit n [c]) acc
    else none
  | c :: t, .unit n u, acc =>
    if c.isDigit then (match addUnit n u acc with | none => none | some a => durGo t (.num (c.toNat - 48)) a)
    else if c.isWhitespace then (match addUnit n u acc with | none => none | some a => durGo t .next a)
    else if c.isAlpha then durGo t (.unit n (u ++ [c])) acc
    else none

/-- `text.parse::<u64>()`. -/
def parseU64 (t : Text) : Option Nat :=
  if t ≠ [] ∧ (t.all Char.isDigit) = true ∧ undec t < 2 ^ 64 then some (undec t) else none

/-- Upper case of ASCII letters. -/
def upper (t : Text) : Text := t.map Char.toUpper

/-- `CnosDuration::new` (duration.rs:55-72) with `new_with_day` (:28-36): a number is a number of days. -/
def Dur.parse (t : Text) : Option Dur :=
  match parseU64 t with
  | some d => if 2 ^ 64 - 1 < d * 86400 then some .inf else some (.of (d * 86400) 0)
  | none =>
    if upper t = "INF".toList then some .inf
    else (durGo t .first (0, 0)).map fun r => .of r.1 r.2

/-! ## A duration is read as written -/

theorem foldl_ge (ds : Text) : ∀ a : Nat, a ≤ ds.foldl (fun acc c => 10 * acc + (c.toNat - 48)) a := by
  induction ds with
  | nil => intro a; exact Nat.le_refl _
  | cons c ds ih =>
    intro a
    rw [List.foldl_cons]
    exact Nat.le_trans (by omega) (ih _)

theorem durGo_digits (ds : Text) (h : ∀ c ∈ ds, c.isDigit = true) : ∀ (a : Nat) (t : Text) (acc : Nat × Nat),
    ds.foldl (fun acc c => 10 * acc + (c.toNat - 48)) a < 2 ^ 64 →
    durGo (ds ++ t) (.num a) acc = durGo t (.num (ds.foldl (fun acc c => 10 * acc + (c.toNat - 48)) a)) acc := by
  induction ds with
  | nil => intros; rfl
  | cons c ds ih =>
    intro a t acc hlt
    rw [List.foldl_cons] at hlt
    have h1 := foldl_ge ds (10 * a + (c.toNat - 48))
    rw [List.cons_append, durGo, if_pos (h c List.mem_cons_self), if_neg (by omega), List.foldl_cons]
    exact ih (fun x hx => h x (List.mem_cons_of_mem _ hx)) _ _ _ hlt

theorem durGo_dec {n : Nat} (h : n < 2 ^ 64) (t : Text) (acc : Nat × Nat) :
    durGo (dec n ++ t) .first acc = durGo t (.num n) acc ∧ durGo (dec n ++ t) .next acc = durGo t (.num n) acc := by
  have hd := dec_isDigit n
  have hu := undec_dec n
  cases he : dec n with
  | nil => exact absurd he (dec_ne_nil n)
  | cons c ds =>
    rw [he] at hd hu
    have hc := hd c List.mem_cons_self
    have hw := (digit_not_start hc).2.1
    simp only [undec, List.foldl_cons, Nat.mul_zero, Nat.zero_add] at hu
    have := durGo_digits ds (fun x hx => hd x (List.mem_cons_of_mem _ hx)) (c.toNat - 48) t acc (by omega)
    rw [hu] at this
    constructor
    · rw [List.cons_append, durGo, hw, if_neg (by decide), if_pos hc, this]
    · rw [List.cons_append, durGo, hw, if_neg (by decide), if_pos hc, this]

/-- A letter. -/
def Letters (u : Text) : Prop := ∀ c ∈ u, c.isAlpha = true ∧ c.isDigit = false ∧ c.isWhitespace = false

theorem durGo_unit (u : Text) (h : Letters u) : ∀ (n : Nat) (v t : Text) (acc : Nat × Nat),
    durGo (u ++ t) (.unit n v) acc = durGo t (.unit n (v ++ u)) acc := by
  induction u with
  | nil => intros; simp
  | cons c u ih =>
    intro n v t acc
    have ⟨h1, h2, h3⟩ := h c List.mem_cons_self
    rw [List.cons_append, durGo, h2, h3, if_neg (by decide), if_neg (by decide), if_pos h1,
      ih (fun x hx => h x (List.mem_cons_of_mem _ hx)), List.append_assoc, List.singleton_append]

theorem durGo_num_unit {u : Text} (hne : u ≠ []) (h : Letters u) (n : Nat) (t : Text) (acc : Nat × Nat) :
    durGo (u ++ t) (.num n) acc = durGo t (.unit n u) acc := by
  cases u with
  | nil => exact absurd rfl hne
  | cons c u =>
    have ⟨h1, h2, h3⟩ := h c List.mem_cons_self
    rw [List.cons_append, durGo, h2, h3, if_neg (by decide), if_neg (by decide), if_pos h1,
      durGo_unit u (fun x hx => h x (List.mem_cons_of_mem _ hx))]
    rfl

/-- An item as it is written: a 64-bit number and a unit that is read with the stated length. -/
structure ItemOk (i : Nat × Text × Nat × Nat) : Prop where
  num : i.1 < 2 ^ 64
  ne : i.2.1 ≠ []
  letters : Letters i.2.1
  unit : unitOf i.2.1 = some (i.2.2.1, i.2.2.2)

def sumSecs (l : List (Nat × Text × Nat × Nat)) : Nat := (l.map fun i => i.1 * i.2.2.1).sum
def sumNanos (l : List (Nat × Text × Nat × Nat)) : Nat := (l.map fun i => i.1 * i.2.2.2).sum

theorem addUnit_ok {i : Nat × Text × Nat × Nat} (h : ItemOk i) {acc : Nat × Nat} (h1 : acc.1 + i.1 * i.2.2.1 < 2 ^ 64)
    (h2 : acc.2 + i.1 * i.2.2.2 < 10 ^ 9) : addUnit i.1 i.2.1 acc = some (acc.1 + i.1 * i.2.2.1, acc.2 + i.1 * i.2.2.2) := by
  have h3 : (10 : Nat) ^ 9 < 2 ^ 64 := by decide
  simp only [addUnit, h.unit]
  have h4 : ¬ acc.2 + i.1 * i.2.2.2 > 10 ^ 9 := by omega
  rw [if_neg (by omega), if_neg h4, if_neg h4, if_neg (by omega), Nat.add_zero]

theorem durGo_items : ∀ (l : List (Nat × Text × Nat × Nat)), l ≠ [] → (∀ i ∈ l, ItemOk i) → ∀ acc : Nat × Nat,
    acc.1 + sumSecs l < 2 ^ 64 → acc.2 + sumNanos l < 10 ^ 9 →
    durGo (joinItems l) .first acc = some (acc.1 + sumSecs l, acc.2 + sumNanos l) ∧
    durGo (joinItems l) .next acc = some (acc.1 + sumSecs l, acc.2 + sumNanos l)
  | [], h, _, _, _, _ => absurd rfl h
  | [i], _, hok, acc, h1, h2 => by
    have hi := hok i List.mem_cons_self
    simp only [sumSecs, sumNanos, List.map_cons, List.map_nil, List.sum_cons, List.sum_nil, Nat.add_zero] at h1 h2 ⊢
    have ha := addUnit_ok hi h1 h2
    have hd := durGo_dec hi.num i.2.1 acc
    have hu := durGo_num_unit hi.ne hi.letters i.1 [] acc
    rw [List.append_nil] at hu
    simp only [joinItems]
    rw [hd.1, hd.2, hu, durGo, ha]
    exact ⟨rfl, rfl⟩
  | i :: j :: r, _, hok, acc, h1, h2 => by
    have hi := hok i List.mem_cons_self
    have es : sumSecs (i :: j :: r) = i.1 * i.2.2.1 + sumSecs (j :: r) := by simp [sumSecs]
    have en : sumNanos (i :: j :: r) = i.1 * i.2.2.2 + sumNanos (j :: r) := by simp [sumNanos]
    rw [es] at h1 ⊢
    rw [en] at h2 ⊢
    have ha := addUnit_ok hi (acc := acc) (by omega) (by omega)
    have hd := durGo_dec hi.num (i.2.1 ++ ' ' :: joinItems (j :: r)) acc
    have hu := durGo_num_unit hi.ne hi.letters i.1 (' ' :: joinItems (j :: r)) acc
    have hr := durGo_items (j :: r) (by simp) (fun x hx => hok x (List.mem_cons_of_mem _ hx))
      (acc.1 + i.1 * i.2.2.1, acc.2 + i.1 * i.2.2.2) (by simp only; omega) (by simp only; omega)
    have hsp : durGo (' ' :: joinItems (j :: r)) (.unit i.1 i.2.1) acc =
        durGo (joinItems (j :: r)) .next (acc.1 + i.1 * i.2.2.1, acc.2 + i.1 * i.2.2.2) := by
      rw [durGo, if_neg (by decide), if_pos (by decide), ha]
    simp only [joinItems, List.append_assoc]
    rw [hd.1, hd.2, hu, hsp, hr.2]
    simp only [Nat.add_assoc, and_self]

theorem sum_filter (f : (Nat × Text × Nat × Nat) → Nat) (hf : ∀ i, i.1 = 0 → f i = 0) (l : List (Nat × Text × Nat × Nat)) :
    ((l.filter fun i => i.1 > 0).map f).sum = (l.map f).sum := by
  induction l with
  | nil => rfl
  | cons i l ih =>
    by_cases h : i.1 > 0
    · rw [List.filter_cons_of_pos (by simpa using h)]
      simp only [List.map_cons, List.sum_cons, ih]
    · rw [List.filter_cons_of_neg (by simpa using h)]
      simp only [List.map_cons, List.sum_cons, ih, hf i (by omega), Nat.zero_add]

theorem sumSecs_filter (l : List (Nat × Text × Nat × Nat)) : sumSecs (l.filter fun i => i.1 > 0) = sumSecs l :=
  sum_filter _ (by intro i h; simp [h]) l

theorem sumNanos_filter (l : List (Nat × Text × Nat × Nat)) : sumNanos (l.filter fun i => i.1 > 0) = sumNanos l :=
  sum_filter _ (by intro i h; simp [h]) l

theorem sumSecs_cons (n : Nat) (u : Text) (a b : Nat) (l : List (Nat × Text × Nat × Nat)) :
    sumSecs ((n, u, a, b) :: l) = n * a + sumSecs l := by simp [sumSecs]

theorem sumNanos_cons (n : Nat) (u : Text) (a b : Nat) (l : List (Nat × Text × Nat × Nat)) :
    sumNanos ((n, u, a, b) :: l) = n * b + sumNanos l := by simp [sumNanos]

theorem sumSecs_nil : sumSecs [] = 0 := rfl
theorem sumNanos_nil : sumNanos [] = 0 := rfl

theorem allItems_secs (s n : Nat) : sumSecs ((allItems s n).filter fun i => i.1 > 0) = s := by
  rw [sumSecs_filter, allItems]
  simp only [sumSecs_cons, sumSecs_nil, Nat.mul_zero, Nat.add_zero]
  have h1 := Nat.div_add_mod s 31557600
  generalize s / 31557600 = y at h1 ⊢
  generalize s % 31557600 = r1 at h1 ⊢
  have h2 := Nat.div_add_mod r1 2630016
  generalize r1 / 2630016 = mo at h2 ⊢
  generalize r1 % 2630016 = r2 at h2 ⊢
  have h3 := Nat.div_add_mod r2 86400
  generalize r2 / 86400 = dy at h3 ⊢
  generalize r2 % 86400 = r3 at h3 ⊢
  have h4 := Nat.div_add_mod r3 3600
  have h6 : r3 % 3600 % 60 = r3 % 60 := Nat.mod_mod_of_dvd r3 (by decide)
  rw [← h6]
  generalize r3 / 3600 = ho at h4 ⊢
  generalize r3 % 3600 = r4 at h4 ⊢
  have h5 := Nat.div_add_mod r4 60
  generalize r4 / 60 = mi at h5 ⊢
  generalize r4 % 60 = se at h5 ⊢
  omega

theorem allItems_nanos (s n : Nat) : sumNanos ((allItems s n).filter fun i => i.1 > 0) = n := by
  rw [sumNanos_filter, allItems]
  simp only [sumNanos_cons, sumNanos_nil, Nat.mul_zero, Nat.zero_add, Nat.add_zero]
  have h1 := Nat.div_add_mod n 1000
  have h2 := Nat.div_add_mod (n / 1000) 1000
  rw [Nat.div_div_eq_div_mul] at h2
  generalize n % 1000 = x at h1 ⊢
  generalize n / 1000 % 1000 = y at h2 ⊢
  generalize n / 1000 = z at h1 h2
  generalize n / 1000000 = w at h2 ⊢
  omega

theorem plural_ok {n : Nat} {u : Text} {a b : Nat} (hn : n < 2 ^ 64) (h1 : ItemOk (0, u, a, b)) (h2 : ItemOk (0, u ++ ['s'], a, b)) :
    ItemOk (n, plural n u, a, b) := by
  simp only [plural]
  split
  · exact ⟨hn, h2.ne, h2.letters, h2.unit⟩
  · exact ⟨hn, h1.ne, h1.letters, h1.unit⟩

theorem item_ok {n : Nat} {u : Text} {a b : Nat} (hn : n < 2 ^ 64) (h : ItemOk (0, u, a, b)) : ItemOk (n, u, a, b) :=
  ⟨hn, h.ne, h.letters, h.unit⟩

theorem allItems_ok {s n : Nat} (hs : s < 2 ^ 64) (hn : n < 10 ^ 9) : ∀ i ∈ allItems s n, ItemOk i := by
  have hb : (10 : Nat) ^ 9 < 2 ^ 64 := by decide
  have hle : ∀ {x y : Nat}, x ≤ y → y < 2 ^ 64 → x < 2 ^ 64 := fun h1 h2 => Nat.lt_of_le_of_lt h1 h2
  have hn' : n < 2 ^ 64 := Nat.lt_trans hn hb
  have d (x k : Nat) : x / k ≤ x := Nat.div_le_self x k
  have m (x k : Nat) : x % k ≤ x := Nat.mod_le x k
  have m1 := m s 31557600
  have m2 := Nat.le_trans (m (s % 31557600) 2630016) m1
  have m3 := Nat.le_trans (m (s % 31557600 % 2630016) 86400) m2
  have m4 := Nat.le_trans (m (s % 31557600 % 2630016 % 86400) 3600) m3
  intro i hi
  simp only [allItems, List.mem_cons, List.not_mem_nil, or_false] at hi
  rcases hi with rfl | rfl | rfl | rfl | rfl | rfl | rfl | rfl | rfl
  · exact plural_ok (hle (d _ _) hs) ⟨by decide, by decide, by unfold Letters; decide, by decide⟩ ⟨by decide, by decide, by unfold Letters; decide, by decide⟩
  · exact plural_ok (hle (Nat.le_trans (d _ _) m1) hs) ⟨by decide, by decide, by unfold Letters; decide, by decide⟩ ⟨by decide, by decide, by unfold Letters; decide, by decide⟩
  · exact plural_ok (hle (Nat.le_trans (d _ _) m2) hs) ⟨by decide, by decide, by unfold Letters; decide, by decide⟩ ⟨by decide, by decide, by unfold Letters; decide, by decide⟩
  · exact item_ok (hle (Nat.le_trans (d _ _) m3) hs) ⟨by decide, by decide, by unfold Letters; decide, by decide⟩
  · exact item_ok (hle (Nat.le_trans (d _ _) m4) hs) ⟨by decide, by decide, by unfold Letters; decide, by decide⟩
  · exact item_ok (hle (Nat.le_trans (m _ _) m3) hs) ⟨by decide, by decide, by unfold Letters; decide, by decide⟩
  · exact item_ok (hle (d _ _) hn') ⟨by decide, by decide, by unfold Letters; decide, by decide⟩
  · exact item_ok (hle (Nat.le_trans (m _ _) (d _ _)) hn') ⟨by decide, by decide, by unfold Letters; decide, by decide⟩
  · exact item_ok (hle (m _ _) hn') ⟨by decide, by decide, by unfold Letters; decide, by decide⟩

theorem joinItems_letter {l : List (Nat × Text × Nat × Nat)} (hne : l ≠ []) (hok : ∀ i ∈ l, ItemOk i) :
    (∃ c ∈ joinItems l, c.isDigit = false) ∧ ∃ c t, joinItems l = c :: t ∧ c.isDigit = true := by
  cases l with
  | nil => exact absurd rfl hne
  | cons i l =>
    have hi := hok i List.mem_cons_self
    have hd := dec_isDigit i.1
    cases hu : i.2.1 with
    | nil => exact absurd hu hi.ne
    | cons c u =>
      have hc := hi.letters c (by rw [hu]; exact List.mem_cons_self)
      cases he : dec i.1 with
      | nil => exact absurd he (dec_ne_nil _)
      | cons d ds =>
        rw [he] at hd
        have hdd := hd d List.mem_cons_self
        cases l with
        | nil =>
          simp only [joinItems, hu, he]
          exact ⟨⟨c, by simp, hc.2.1⟩, d, _, rfl, hdd⟩
        | cons j r =>
          simp only [joinItems, hu, he]
          exact ⟨⟨c, by simp, hc.2.1⟩, d, _, rfl, hdd⟩

theorem Dur.parse_zero : Dur.parse "0s".toList = some (.of 0 0) := by decide

/-- The text of a duration is read as that duration. -/
theorem Dur.parse_text (d : Dur) (h : d.Fits) : Dur.parse d.text = some d := by
  cases d with
  | inf => decide
  | of s n =>
    simp only [Dur.text]
    split
    · rename_i h0
      rw [h0.1, h0.2]
      exact Dur.parse_zero
    · rename_i h0
      have hs := allItems_secs s n
      have hn := allItems_nanos s n
      have hok : ∀ i ∈ (allItems s n).filter fun i => i.1 > 0, ItemOk i := fun i hi => allItems_ok h.1 h.2 i (List.mem_filter.1 hi).1
      generalize hl : (allItems s n).filter (fun i => i.1 > 0) = l at hs hn hok
      have hne : l ≠ [] := by
        rintro rfl
        simp only [sumSecs, sumNanos, List.map_nil, List.sum_nil] at hs hn
        exact h0 ⟨hs.symm, hn.symm⟩
      have hg := (durGo_items l hne hok (0, 0) (by simpa [hs] using h.1) (by simpa [hn] using h.2)).1
      obtain ⟨⟨c, hc, hcd⟩, d, t, ht, hd⟩ := joinItems_letter hne hok
      have hp : parseU64 (joinItems l) = none := by
        rw [parseU64, if_neg]
        intro hh
        have := List.all_eq_true.1 hh.2.1 c hc
        rw [hcd] at this
        cases this
      have hi : upper (joinItems l) ≠ "INF".toList := by
        rw [ht]
        intro e
        have e1 : d.toUpper = 'I' := (List.cons.inj e).1
        have : d.toUpper = d := by
          simp only [Char.toUpper]
          rw [dif_neg]
          simp only [Char.isDigit, Bool.and_eq_true, decide_eq_true_eq, ge_iff_le, UInt32.le_iff_toNat_le] at hd
          have h9 : d.val.toNat ≤ 57 := hd.2
          simp only [UInt32.le_iff_toNat_le]
          have ea : 'a'.val.toNat = 97 := rfl
          omega
        rw [this] at e1
        rw [e1] at hd
        exact absurd hd (by decide)
      rw [Dur.parse, hp]
      simp only
      rw [if_neg hi, hg]
      simp [hs, hn]

end Verif.Dump
