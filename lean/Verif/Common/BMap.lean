import Verif.Common.Bytes
/-!
# Ordered maps

`BTreeMap` as the list of its entries in the order of the keys, for the places where the order is visible (what is written to
disk).  `lt` is the order of the keys.
-/
namespace Verif.BMap

variable {κ ν : Type}

/-- What `Ord` promises: a strict total order. -/
structure Strict (lt : κ → κ → Bool) : Prop where
  irrefl : ∀ a, lt a a = false
  trans : ∀ a b c, lt a b = true → lt b c = true → lt a c = true
  total : ∀ a b, lt a b = false → lt b a = false → a = b

/-- The keys ascend. -/
def Sorted (lt : κ → κ → Bool) (l : List (κ × ν)) : Prop := l.Pairwise fun a b => lt a.1 b.1 = true

/-- `BTreeMap::insert`. -/
def insert (lt : κ → κ → Bool) (k : κ) (v : ν) : List (κ × ν) → List (κ × ν)
  | [] => [(k, v)]
  | (a, b) :: l => if lt k a then (k, v) :: (a, b) :: l else if lt a k then (a, b) :: insert lt k v l else (k, v) :: l

/-- `BTreeMap::get`. -/
def get [DecidableEq κ] : List (κ × ν) → κ → Option ν
  | [], _ => none
  | (a, b) :: l, k => if a = k then some b else get l k

/-- `from_iter`. -/
def ofList (lt : κ → κ → Bool) (l : List (κ × ν)) : List (κ × ν) := l.foldl (fun m e => insert lt e.1 e.2 m) []

variable {lt : κ → κ → Bool}

theorem mem_insert {k : κ} {v : ν} {l : List (κ × ν)} {e : κ × ν} (h : e ∈ insert lt k v l) : e = (k, v) ∨ e ∈ l := by
  induction l with
  | nil => simp [insert] at h; exact .inl h
  | cons x l ih =>
    obtain ⟨a, b⟩ := x
    unfold insert at h
    split at h
    · simpa using h
    · split at h
      · rcases List.mem_cons.1 h with h | h
        · exact .inr (by simp [h])
        · rcases ih h with h | h
          · exact .inl h
          · exact .inr (by simp [h])
      · rcases List.mem_cons.1 h with h | h
        · exact .inl h
        · exact .inr (by simp [h])

theorem insert_sorted (hs : Strict lt) {k : κ} {v : ν} {l : List (κ × ν)} (h : Sorted lt l) : Sorted lt (insert lt k v l) := by
  unfold Sorted at *
  induction l with
  | nil => simp [insert]
  | cons x l ih =>
    obtain ⟨a, b⟩ := x
    have ⟨h1, h2⟩ := List.pairwise_cons.1 h
    unfold insert
    cases hka : lt k a with
    | true =>
      rw [if_pos rfl]
      refine List.pairwise_cons.2 ⟨?_, h⟩
      intro e he
      rcases List.mem_cons.1 he with rfl | he
      · exact hka
      · exact hs.trans _ _ _ hka (h1 e he)
    | false =>
      rw [if_neg (by simp)]
      cases hak : lt a k with
      | true =>
        rw [if_pos rfl]
        refine List.pairwise_cons.2 ⟨?_, ih h2⟩
        intro e he
        rcases mem_insert he with rfl | he
        · exact hak
        · exact h1 e he
      | false =>
        rw [if_neg (by simp)]
        obtain rfl := hs.total _ _ hka hak
        exact List.pairwise_cons.2 ⟨fun e he => h1 e he, h2⟩

theorem get_insert [DecidableEq κ] (hs : Strict lt) (k : κ) (v : ν) (l : List (κ × ν)) (k' : κ) :
    get (insert lt k v l) k' = if k' = k then some v else get l k' := by
  induction l with
  | nil => simp [insert, get, eq_comm]
  | cons x l ih =>
    obtain ⟨a, b⟩ := x
    unfold insert
    cases hka : lt k a with
    | true =>
      rw [if_pos rfl]
      by_cases h : k' = k
      · subst h; simp [get]
      · simp [get, h, Ne.symm h]
    | false =>
      rw [if_neg (by simp)]
      cases hak : lt a k with
      | true =>
        rw [if_pos rfl, get, ih]
        by_cases h : k' = k
        · subst h
          have : a ≠ k' := by rintro rfl; rw [hs.irrefl] at hak; cases hak
          simp [this]
        · simp [get, h]
      | false =>
        rw [if_neg (by simp)]
        obtain rfl := hs.total _ _ hka hak
        by_cases h : k' = k
        · subst h; simp [get]
        · simp [get, h, Ne.symm h]

theorem get_mem [DecidableEq κ] {l : List (κ × ν)} {k : κ} {v : ν} (h : get l k = some v) : (k, v) ∈ l := by
  induction l with
  | nil => cases h
  | cons x l ih =>
    obtain ⟨a, b⟩ := x
    unfold get at h
    split at h
    · rename_i h1; subst h1; cases h; simp
    · exact List.mem_cons_of_mem _ (ih h)

theorem get_of_mem [DecidableEq κ] (hs : Strict lt) {l : List (κ × ν)} (hl : Sorted lt l) {k : κ} {v : ν} (h : (k, v) ∈ l) :
    get l k = some v := by
  induction l with
  | nil => cases h
  | cons x l ih =>
    obtain ⟨a, b⟩ := x
    have ⟨h1, h2⟩ := List.pairwise_cons.1 hl
    rcases List.mem_cons.1 h with h | h
    · cases h; simp [get]
    · have : a ≠ k := by
        rintro rfl
        have := h1 _ h
        rw [hs.irrefl] at this
        cases this
      rw [get, if_neg this]
      exact ih h2 h

theorem get_eq_none [DecidableEq κ] {l : List (κ × ν)} {k : κ} : get l k = none ↔ ∀ v, (k, v) ∉ l := by
  induction l with
  | nil => simp [get]
  | cons x l ih =>
    obtain ⟨a, b⟩ := x
    unfold get
    split
    · rename_i h
      subst h
      simp only [reduceCtorEq, false_iff]
      intro h
      exact h b (by simp)
    · rename_i h
      rw [ih]
      simp only [List.mem_cons, Prod.mk.injEq, not_or, not_and]
      constructor
      · intro h1 v
        exact ⟨fun h2 => absurd h2.symm h, h1 v⟩
      · intro h1 v
        exact (h1 v).2

/-- A key behind all the others is put at the end. -/
theorem insert_last (hs : Strict lt) {k : κ} {v : ν} {l : List (κ × ν)} (h : ∀ e ∈ l, lt e.1 k = true) :
    insert lt k v l = l ++ [(k, v)] := by
  induction l with
  | nil => rfl
  | cons x l ih =>
    obtain ⟨a, b⟩ := x
    have h1 : lt a k = true := h (a, b) (by simp)
    have h2 : lt k a = false := by
      cases h3 : lt k a with
      | false => rfl
      | true =>
        have := hs.trans _ _ _ h1 h3
        rw [hs.irrefl] at this
        cases this
    rw [insert, h2, h1, if_neg (by simp), if_pos rfl, ih fun e he => h e (by simp [he])]
    rfl

theorem foldl_insert_append (hs : Strict lt) (l : List (κ × ν)) : ∀ m, Sorted lt (m ++ l) →
    l.foldl (fun m e => insert lt e.1 e.2 m) m = m ++ l := by
  induction l with
  | nil => intro m _; simp
  | cons e l ih =>
    intro m h
    have hp := List.pairwise_append.1 h
    rw [List.foldl_cons, insert_last hs fun x hx => hp.2.2 x hx e (by simp), ih]
    · simp
    · simpa using h

/-- Reading back the entries of a map gives the map. -/
theorem ofList_sorted (hs : Strict lt) {l : List (κ × ν)} (h : Sorted lt l) : ofList lt l = l := by
  have := foldl_insert_append hs l [] (by simpa using h)
  simpa [ofList] using this

theorem foldl_insert_sorted (hs : Strict lt) (l : List (κ × ν)) : ∀ m, Sorted lt m → Sorted lt (l.foldl (fun m e => insert lt e.1 e.2 m) m) := by
  induction l with
  | nil => intro m h; exact h
  | cons e l ih => intro m h; exact ih _ (insert_sorted hs h)

/-- A map over the values keeps the order. -/
theorem sorted_map {μ : Type} {l : List (κ × ν)} (h : Sorted lt l) (f : κ × ν → μ) : Sorted lt (l.map fun e => (e.1, f e)) := by
  unfold Sorted at *
  rw [List.pairwise_map]
  exact h

theorem get_map [DecidableEq κ] {μ : Type} (l : List (κ × ν)) (f : κ → ν → μ) (k : κ) :
    get (l.map fun e => (e.1, f e.1 e.2)) k = (get l k).map (f k) := by
  induction l with
  | nil => rfl
  | cons e l ih =>
    obtain ⟨a, b⟩ := e
    simp only [List.map_cons, get]
    split
    · rename_i h; subst h; rfl
    · exact ih

theorem nodup_of_sorted (hs : Strict lt) {l : List (κ × ν)} (h : Sorted lt l) : (l.map Prod.fst).Nodup := by
  unfold Sorted at h
  unfold List.Nodup
  rw [List.pairwise_map]
  refine h.imp fun {a b} hab he => ?_
  rw [he, hs.irrefl] at hab
  cases hab

/-- Maps with the same entries are the same list. -/
theorem ext [DecidableEq κ] (hs : Strict lt) : ∀ {l m : List (κ × ν)}, Sorted lt l → Sorted lt m → (∀ k, get l k = get m k) → l = m := by
  intro l
  induction l with
  | nil =>
    intro m _ _ h
    cases m with
    | nil => rfl
    | cons x m =>
      have := h x.1
      simp [get] at this
  | cons x l ih =>
    obtain ⟨a, b⟩ := x
    intro m hl hm h
    cases m with
    | nil =>
      have := h a
      simp [get] at this
    | cons y m =>
      obtain ⟨c, d⟩ := y
      have ⟨hl1, hl2⟩ := List.pairwise_cons.1 hl
      have ⟨hm1, hm2⟩ := List.pairwise_cons.1 hm
      have hac : a = c := by
        by_cases hac : a = c
        · exact hac
        · have h1 := h a
          have h2 := h c
          simp only [get, if_true, hac, Ne.symm hac, if_false] at h1 h2
          have h3 := hm1 _ (get_mem h1.symm)
          have h4 := hl1 _ (get_mem h2)
          have := hs.trans _ _ _ h3 h4
          rw [hs.irrefl] at this
          cases this
      subst hac
      have h1 := h a
      simp only [get, if_true] at h1
      cases h1
      rw [ih hl2 hm2 ?_]
      intro k
      by_cases hk : a = k
      · subst hk
        have e1 : get l a = none := get_eq_none.2 fun v hv => by
          have := hl1 _ hv
          rw [hs.irrefl] at this
          cases this
        have e2 : get m a = none := get_eq_none.2 fun v hv => by
          have := hm1 _ hv
          rw [hs.irrefl] at this
          cases this
        rw [e1, e2]
      · have := h k
        simpa only [get, hk, if_false] using this

/-! ## The orders of the keys -/

/-- The order of numbers. -/
def natLt (a b : Nat) : Bool := decide (a < b)

theorem natLt_strict : Strict natLt where
  irrefl := by simp [natLt]
  trans := by simp only [natLt, decide_eq_true_eq]; omega
  total := by simp only [natLt, decide_eq_false_iff_not]; omega

/-- The order of `String` and `Vec<u8>`: byte by byte. -/
def bytesLt : List Byte → List Byte → Bool
  | _, [] => false
  | [], _ :: _ => true
  | a :: l, b :: m => decide (a.toNat < b.toNat) || (decide (a = b) && bytesLt l m)

theorem bytesLt_strict : Strict bytesLt where
  irrefl := by
    intro a
    induction a with
    | nil => rfl
    | cons b l ih => simp [bytesLt, ih]
  trans := by
    intro a
    induction a with
    | nil => intro b c h1 h2; cases b <;> cases c <;> simp_all [bytesLt]
    | cons x a ih =>
      intro b c h1 h2
      cases b with
      | nil => simp [bytesLt] at h1
      | cons y b =>
        cases c with
        | nil => simp [bytesLt] at h2
        | cons z c =>
          simp only [bytesLt, Bool.or_eq_true, decide_eq_true_eq, Bool.and_eq_true] at *
          rcases h1 with h1 | ⟨rfl, h1⟩
          · rcases h2 with h2 | ⟨rfl, h2⟩
            · left; omega
            · left; exact h1
          · rcases h2 with h2 | ⟨rfl, h2⟩
            · left; exact h2
            · right; exact ⟨rfl, ih _ _ h1 h2⟩
  total := by
    intro a
    induction a with
    | nil => intro b h1 h2; cases b <;> simp_all [bytesLt]
    | cons x a ih =>
      intro b h1 h2
      cases b with
      | nil => simp [bytesLt] at h2
      | cons y b =>
        simp only [bytesLt, Bool.or_eq_false_iff, decide_eq_false_iff_not, Bool.and_eq_false_iff] at *
        have hxy : x = y := BitVec.eq_of_toNat_eq (by omega)
        subst hxy
        rw [ih b (by simpa using h1.2) (by simpa using h2.2)]

end Verif.BMap
