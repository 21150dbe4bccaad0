/-!
# Finite maps

A computable finite map with unique keys, used for `HashMap`, `BTreeMap` and the embedded key-value
stores.  Only lookups and the set of entries are ever observed.
-/
namespace Verif

/-- A finite map: a list of entries with pairwise different keys. -/
structure AMap (κ ν : Type) [DecidableEq κ] where
  entries : List (κ × ν)
  nodup : (entries.map Prod.fst).Nodup

namespace AMap
variable {κ ν : Type} [DecidableEq κ]

def empty : AMap κ ν := ⟨[], List.nodup_nil⟩

def get (m : AMap κ ν) (k : κ) : Option ν := (m.entries.find? fun e => decide (e.1 = k)).map Prod.snd

def del (m : AMap κ ν) (k : κ) : AMap κ ν where
  entries := m.entries.filter fun e => decide (e.1 ≠ k)
  nodup := m.nodup.sublist (List.filter_sublist.map _)

def set (m : AMap κ ν) (k : κ) (v : ν) : AMap κ ν where
  entries := (k, v) :: (m.del k).entries
  nodup := by
    simp only [List.map_cons, List.nodup_cons]
    refine ⟨?_, (m.del k).nodup⟩
    simp only [del, List.mem_map, List.mem_filter]
    rintro ⟨e, ⟨_, he⟩, rfl⟩
    simp at he

theorem mem_entries {m : AMap κ ν} {k : κ} {v : ν} : (k, v) ∈ m.entries ↔ m.get k = some v := by
  obtain ⟨l, h⟩ := m
  simp only [get]
  induction l with
  | nil => simp
  | cons e l ih =>
    simp only [List.map_cons, List.nodup_cons] at h
    obtain ⟨a, b⟩ := e
    rw [List.find?_cons]
    by_cases hk : a = k
    · subst hk
      simp only [decide_true, List.mem_cons, Prod.mk.injEq, true_and, Option.map_some, Option.some.injEq]
      constructor
      · rintro (h1 | h1)
        · exact h1.symm
        · exact absurd (List.mem_map.2 ⟨_, h1, rfl⟩) h.1
      · exact fun h1 => .inl h1.symm
    · simp only [List.mem_cons, Prod.mk.injEq, decide_eq_false hk]
      rw [← ih h.2]
      constructor
      · rintro (h1 | h1)
        · exact absurd h1.1.symm hk
        · exact h1
      · exact .inr

theorem get_eq_none {m : AMap κ ν} {k : κ} : m.get k = none ↔ ∀ v, (k, v) ∉ m.entries := by
  constructor
  · intro h v hv
    rw [mem_entries.1 hv] at h; cases h
  · intro h
    cases hg : m.get k with
    | none => rfl
    | some v => exact absurd (mem_entries.2 hg) (h v)

@[simp] theorem get_empty (k : κ) : (empty : AMap κ ν).get k = none := rfl

theorem get_del (m : AMap κ ν) (k k' : κ) : (m.del k).get k' = if k' = k then none else m.get k' := by
  split
  · rename_i h; subst h
    rw [get_eq_none]
    intro v hv
    simp [del, List.mem_filter] at hv
  · rename_i h
    cases hg : m.get k' with
    | none =>
      rw [get_eq_none] at hg ⊢
      intro v hv
      exact hg v (List.mem_filter.1 hv).1
    | some v =>
      rw [← mem_entries] at hg ⊢
      simp only [del, List.mem_filter]
      exact ⟨hg, by simpa using h⟩

theorem get_set (m : AMap κ ν) (k k' : κ) (v : ν) :
    (m.set k v).get k' = if k' = k then some v else m.get k' := by
  split
  · rename_i h; subst h
    rw [← mem_entries]; simp [set]
  · rename_i h
    have := get_del m k k'
    rw [if_neg h] at this
    rw [← this]
    cases hg : (m.del k).get k' with
    | none =>
      rw [get_eq_none] at hg ⊢
      intro w hw
      simp only [set, List.mem_cons, Prod.mk.injEq] at hw
      rcases hw with hw | hw
      · exact h hw.1
      · exact hg w hw
    | some w =>
      rw [← mem_entries] at hg ⊢
      simp only [set, List.mem_cons]
      exact .inr hg

variable {ε : Type}

theorem get_foldl_set_of_not_mem (f : ε → κ) (g : ε → ν) (es : List ε) (m : AMap κ ν) (k : κ)
    (h : ∀ e ∈ es, f e ≠ k) : (es.foldl (fun m e => m.set (f e) (g e)) m).get k = m.get k := by
  induction es generalizing m with
  | nil => rfl
  | cons e es ih =>
    rw [List.foldl_cons, ih _ fun e he => h e (List.mem_cons_of_mem _ he), get_set,
      if_neg fun hk => h e List.mem_cons_self hk.symm]

theorem get_foldl_set_of_mem (f : ε → κ) (g : ε → ν) (es : List ε) (m : AMap κ ν) (e : ε) (he : e ∈ es)
    (hd : (es.map f).Nodup) : (es.foldl (fun m e => m.set (f e) (g e)) m).get (f e) = some (g e) := by
  induction es generalizing m with
  | nil => cases he
  | cons a es ih =>
    simp only [List.map_cons, List.nodup_cons] at hd
    rw [List.foldl_cons]
    rcases List.mem_cons.1 he with rfl | he
    · rw [get_foldl_set_of_not_mem, get_set, if_pos rfl]
      intro e' he' h
      exact hd.1 (List.mem_map.2 ⟨e', he', h⟩)
    · exact ih _ he hd.2

/-- Folding `set` over entries with different keys: the lookup finds the new entry or the old one. -/
theorem get_foldl_set_iff (f : ε → κ) (g : ε → ν) (es : List ε) (m : AMap κ ν) (k : κ) (v : ν)
    (hd : (es.map f).Nodup) : (es.foldl (fun m e => m.set (f e) (g e)) m).get k = some v ↔
      (∃ e ∈ es, f e = k ∧ g e = v) ∨ ((∀ e ∈ es, f e ≠ k) ∧ m.get k = some v) := by
  by_cases h : ∃ e ∈ es, f e = k
  · obtain ⟨e, he, rfl⟩ := h
    rw [get_foldl_set_of_mem f g es m e he hd]
    constructor
    · intro hv
      exact .inl ⟨e, he, rfl, Option.some.inj hv⟩
    · rintro (⟨e', he', hk, rfl⟩ | ⟨h, _⟩)
      · rw [← get_foldl_set_of_mem f g es m e he hd, ← get_foldl_set_of_mem f g es m e' he' hd, hk]
      · exact absurd rfl (h e he)
  · have h' : ∀ e ∈ es, f e ≠ k := fun e he hk => h ⟨e, he, hk⟩
    rw [get_foldl_set_of_not_mem f g es m k h']
    constructor
    · exact fun hv => .inr ⟨h', hv⟩
    · rintro (⟨e, he, hk, _⟩ | ⟨_, hv⟩)
      · exact absurd hk (h' e he)
      · exact hv

end AMap
end Verif
