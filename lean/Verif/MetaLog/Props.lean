import Verif.MetaLog.Model
import Verif.Wal.LogProps
/-!
# The Raft log of a meta server (C216, C217)
-/
namespace Verif.MetaLog
open Verif.Raft (LogId)
open BMap (natLt natLt_strict)

/-- The log is kept by index, every entry under its own. -/
structure Ok (l : Log) : Prop where
  sorted : BMap.Sorted natLt l
  own : ∀ x ∈ l, x.2.id.index = x.1

theorem ok_nil : Ok [] := ⟨List.Pairwise.nil, by simp⟩

theorem ok_filter {l : Log} (h : Ok l) (p : Nat × Entry → Bool) : Ok (l.filter p) :=
  ⟨h.sorted.filter _, fun x hx => h.own x (List.mem_filter.mp hx).1⟩

theorem ok_put (es : List Entry) : ∀ {l : Log}, Ok l → Ok (put es l) := by
  induction es with
  | nil => intro l h; exact h
  | cons e es ih =>
    intro l h
    refine ih (l := BMap.insert natLt e.id.index e l) ⟨BMap.insert_sorted natLt_strict h.sorted, ?_⟩
    intro x hx
    rcases BMap.mem_insert hx with rfl | hx
    · rfl
    · exact h.own x hx

theorem tx_ok (s : State) (t : Tx) (h : Ok s.log) : Ok (t.run s).log := by
  cases t with
  | delAfter i => exact ok_filter h _
  | put es => exact ok_put es h
  | delBefore i => exact ok_filter h _
  | purged l => exact h
  | applied l => exact h
  | command r => exact h

theorem txs_ok (ts : List Tx) : ∀ s : State, Ok s.log → Ok (ts.foldl Tx.run s).log := by
  induction ts with
  | nil => intro s h; exact h
  | cons t ts ih => intro s h; exact ih _ (tx_ok s t h)

theorem run_ok (es : List Event) : ∀ s : State, Ok s.log → Ok (s.run es).log := by
  induction es with
  | nil => intro s h; exact h
  | cons e es ih => intro s h; exact ih _ (txs_ok _ s h)

theorem get_filter {l : Log} (h : Ok l) (p : Nat → Bool) (i : Nat) :
    entry i (l.filter fun x => p x.1) = if p i then entry i l else none := by
  have hf := ok_filter h fun x => p x.1
  unfold entry
  by_cases hp : p i = true
  · rw [if_pos hp]
    cases hg : BMap.get l i with
    | none =>
      rw [BMap.get_eq_none]
      intro v hv
      exact BMap.get_eq_none.mp hg v (List.mem_filter.mp hv).1
    | some v =>
      exact BMap.get_of_mem natLt_strict hf.sorted (List.mem_filter.mpr ⟨BMap.get_mem hg, hp⟩)
  · rw [if_neg hp, BMap.get_eq_none]
    intro v hv
    exact hp (List.mem_filter.mp hv).2

/-- **C216**: whatever the Raft library has asked for and wherever the server has stopped, an entry is read under its index, and a range of
indexes gives exactly the entries that are read one by one under these indexes, in the order of their indexes. -/
theorem C216_range (es : List Event) (a b : Nat) :
    (∀ e, e ∈ entries a b (State.new.run es).log ↔ a ≤ e.id.index ∧ e.id.index < b ∧ entry e.id.index (State.new.run es).log = some e) ∧
    (entries a b (State.new.run es).log).Pairwise (fun x y => x.id.index < y.id.index) ∧
    (∀ i e, entry i (State.new.run es).log = some e → e.id.index = i) := by
  have h := run_ok es State.new ok_nil
  generalize (State.new.run es).log = l at h
  refine ⟨?_, ?_, ?_⟩
  · intro e
    simp only [entries, List.mem_map, List.mem_filter, decide_eq_true_eq]
    constructor
    · rintro ⟨⟨k, x⟩, ⟨hm, h1, h2⟩, rfl⟩
      have := h.own _ hm
      dsimp only at this ⊢
      rw [this]
      exact ⟨h1, h2, BMap.get_of_mem natLt_strict h.sorted hm⟩
    · rintro ⟨h1, h2, h3⟩
      exact ⟨(e.id.index, e), ⟨BMap.get_mem h3, h1, h2⟩, rfl⟩
  · have hf := ok_filter h fun x => decide (a ≤ x.1 ∧ x.1 < b)
    rw [entries, List.pairwise_map]
    refine List.Pairwise.imp_of_mem ?_ hf.sorted
    intro x y hx hy hxy
    rw [hf.own x hx, hf.own y hy]
    simpa [natLt] using hxy
  · intro i e he
    exact h.own _ (BMap.get_mem he)

theorem put_get (es : List Entry) : ∀ (l : Log) (i : Nat), (∀ e ∈ es, e.id.index ≠ i) → entry i (put es l) = entry i l := by
  induction es with
  | nil => intro l i _; rfl
  | cons e es ih =>
    intro l i h
    show entry i (put es (BMap.insert natLt e.id.index e l)) = _
    rw [ih _ i fun x hx => h x (by simp [hx])]
    unfold entry
    rw [BMap.get_insert natLt_strict, if_neg (fun he => h e (by simp) he.symm)]

/-- **C216**: appended entries are read, entries with greater indexes are gone, those before stay. -/
theorem C216_append (l : Log) (h : Ok l) (e : Entry) (es : List Entry) (hs : (e :: es).Pairwise fun x y => x.id.index < y.id.index) (i : Nat) :
    entry i (((Op.append (e :: es)).txs.foldl Tx.run { State.new with log := l }).log) =
      match (e :: es).find? fun x => decide (x.id.index = i) with
      | some x => some x
      | none => if i < e.id.index then entry i l else none := by
  show entry i (put (e :: es) (delAfter e.id.index l)) = _
  have key : ∀ (xs : List Entry) (m : Log), xs.Pairwise (fun x y => x.id.index < y.id.index) →
      entry i (put xs m) = match xs.find? fun x => decide (x.id.index = i) with | some x => some x | none => entry i m := by
    intro xs
    induction xs with
    | nil => intro m _; rfl
    | cons x xs ih =>
      intro m hp
      rw [List.pairwise_cons] at hp
      by_cases hx : x.id.index = i
      · rw [List.find?_cons_of_pos (by simpa using hx)]
        show entry i (put xs (BMap.insert natLt x.id.index x m)) = some x
        rw [put_get xs _ i fun y hy => by have := hp.1 y hy; omega]
        unfold entry
        rw [BMap.get_insert natLt_strict, if_pos hx.symm]
      · rw [List.find?_cons_of_neg (by simpa using hx)]
        show entry i (put xs (BMap.insert natLt x.id.index x m)) = _
        rw [ih _ hp.2]
        have : entry i (BMap.insert natLt x.id.index x m) = entry i m := by
          unfold entry
          rw [BMap.get_insert natLt_strict, if_neg fun h => hx h.symm]
        rw [this]
  rw [key _ _ hs]
  have := get_filter h (fun k => decide (k < e.id.index)) i
  unfold delAfter
  rw [this]
  simp only [decide_eq_true_eq]

/-- **C216**: conflicting entries are removed from an index on, purged ones up to an index; the others stay. -/
theorem C216_remove (s : State) (h : Ok s.log) (i k : Nat) (l : LogId) :
    entry k ((Op.truncate i).txs.foldl Tx.run s).log = (if k < i then entry k s.log else none) ∧
    entry k ((Op.purge l).txs.foldl Tx.run s).log = (if l.index < k then entry k s.log else none) := by
  constructor
  · have := get_filter h (fun k => decide (k < i)) k
    show entry k (delAfter i s.log) = _
    unfold delAfter
    rw [this]
    simp only [decide_eq_true_eq]
  · have := get_filter h (fun k => decide (l.index + 1 ≤ k)) k
    show entry k (delBefore (l.index + 1) s.log) = _
    unfold delBefore
    rw [this]
    simp only [decide_eq_true_eq]
    rfl

/-- **C216**: the last entry is the one with the greatest index, and there is none only if there are no entries. -/
theorem C216_last (l : Log) (h : Ok l) :
    (∀ e, lastEntry l = some e → entry e.id.index l = some e ∧ maxSeq l = e.id.index ∧ ∀ i x, entry i l = some x → i ≤ e.id.index) ∧
    (lastEntry l = none → ∀ i, entry i l = none) := by
  rcases List.eq_nil_or_concat l with rfl | ⟨pre, y, rfl⟩
  · exact ⟨fun e he => by simp [lastEntry] at he, fun _ i => rfl⟩
  · rw [List.concat_eq_append] at h ⊢
    have hl : lastEntry (pre ++ [y]) = some y.2 := by simp [lastEntry]
    refine ⟨fun e he => ?_, fun hn => by rw [hl] at hn; cases hn⟩
    rw [hl] at he
    injection he with he
    subst he
    have hy := h.own y (by simp)
    refine ⟨?_, by simp [maxSeq, hl], ?_⟩
    · rw [hy]
      exact BMap.get_of_mem natLt_strict h.sorted (by simp)
    · intro i x hx
      have hm := BMap.get_mem hx
      rw [hy]
      rcases List.mem_append.mp hm with hm | hm
      · have := (List.pairwise_append.mp h.sorted).2.2 _ hm y (by simp)
        exact Nat.le_of_lt (of_decide_eq_true this)
      · rw [List.mem_singleton] at hm
        rw [← hm]
        exact Nat.le_refl _

/-- **C216**: the least index of the metrics is that of an entry, and no entry has a smaller one. -/
theorem C216_first (l : Log) (h : Ok l) (hne : l ≠ []) : (∃ e, entry (minSeq l) l = some e) ∧ ∀ i x, entry i l = some x → minSeq l ≤ i := by
  cases l with
  | nil => exact absurd rfl hne
  | cons y l =>
    have hy : minSeq (y :: l) = y.1 := h.own y (by simp)
    rw [hy]
    refine ⟨⟨y.2, BMap.get_of_mem natLt_strict h.sorted (by simp)⟩, ?_⟩
    intro i x hx
    rcases List.mem_cons.mp (BMap.get_mem hx) with hm | hm
    · rw [← hm]; exact Nat.le_refl _
    · exact Nat.le_of_lt (of_decide_eq_true ((List.pairwise_cons.mp h.sorted).1 _ hm))

/-- A log with two entries meets the hypotheses of the theorems above. -/
example : Ok (put [⟨⟨4, 1⟩, some 7⟩, ⟨⟨3, 1⟩, none⟩] []) ∧ minSeq (put [⟨⟨4, 1⟩, some 7⟩, ⟨⟨3, 1⟩, none⟩] []) = 3 :=
  ⟨ok_put _ ok_nil, by decide +kernel⟩

/-! ## The same log as that of a data node -/

/-- The log of a meta server under the changes that are modelled for data nodes. -/
def same (l : Log) : Wal.Log.Op Entry → Log
  | .append e => put [e] l
  | .before i => delBefore i l
  | .after i => delAfter i l

/-- An entry under its index. -/
def tag (e : Entry) : Nat × Entry := (e.id.index, e)

theorem same_spec (ops : List (Wal.Log.Op Entry)) : ∀ es : List Entry, es.Pairwise (fun x y => x.id.index < y.id.index) →
    Wal.Log.Ordered (fun e : Entry => e.id.index) es ops →
    ops.foldl same (es.map tag) = (ops.foldl (Wal.Log.specStep fun e : Entry => e.id.index) es).map tag := by
  induction ops with
  | nil => intro es _ _; rfl
  | cons op ops ih =>
    intro es hp ho
    have hstep : same (es.map tag) op = (Wal.Log.specStep (fun e : Entry => e.id.index) es op).map tag := by
      cases op with
      | append e =>
        show BMap.insert natLt e.id.index e (es.map tag) = (es ++ [e]).map tag
        rw [BMap.insert_last natLt_strict]
        · rw [List.map_append]; rfl
        · intro x hx
          obtain ⟨y, hy, rfl⟩ := List.mem_map.mp hx
          have hl := ho.1.2
          rcases List.eq_nil_or_concat es with rfl | ⟨pre, z, rfl⟩
          · simp at hy
          · rw [List.concat_eq_append] at hl hy hp
            have h1 := hl z (by simp)
            dsimp only at h1
            rw [List.pairwise_append] at hp
            rw [List.mem_append] at hy
            have h2 : y.id.index ≤ z.id.index := by
              rcases hy with hy | hy
              · exact Nat.le_of_lt (hp.2.2 y hy z (by simp))
              · rw [List.mem_singleton] at hy; subst hy; exact Nat.le_refl _
            have : y.id.index < e.id.index := by omega
            exact decide_eq_true this
      | before i =>
        show (es.map tag).filter _ = (es.filter _).map tag
        rw [List.filter_map]; rfl
      | after i =>
        show (es.map tag).filter _ = (es.filter _).map tag
        rw [List.filter_map]; rfl
    rw [List.foldl_cons, List.foldl_cons, hstep]
    refine ih _ ?_ ho.2
    cases op with
    | append e =>
      show (es ++ [e]).Pairwise _
      rw [List.pairwise_append]
      refine ⟨hp, by simp, ?_⟩
      intro x hx y hy
      rw [List.mem_singleton] at hy; subst hy
      have hl := ho.1.2
      rcases List.eq_nil_or_concat es with rfl | ⟨pre, z, rfl⟩
      · simp at hx
      · rw [List.concat_eq_append] at hl hx hp
        have h1 := hl z (by simp)
        dsimp only at h1
        rw [List.pairwise_append] at hp
        rw [List.mem_append] at hx
        rcases hx with hx | hx
        · have := hp.2.2 x hx z (by simp); omega
        · rw [List.mem_singleton] at hx; subst hx; omega
    | before i => exact hp.filter _
    | after i => exact hp.filter _

/-- **C216**: for every history that the Raft library may ask for, the log of a meta server in LMDB and the log of a data node in files
answer the same, for every range and every index. -/
theorem C216_as_data_nodes (len : Entry → Nat) (hlen : ∀ e, 0 < len e) (maxSize : Nat) (ops : List (Wal.Log.Op Entry))
    (ho : Wal.Log.Ordered (fun e : Entry => e.id.index) [] ops) (a b i : Nat) :
    entries a b (ops.foldl same []) =
      (ops.foldl (Wal.Log.Store.step (fun e : Entry => e.id.index) len maxSize) Wal.Log.Store.new).entries a b ∧
    entry i (ops.foldl same []) = (ops.foldl (Wal.Log.Store.step (fun e : Entry => e.id.index) len maxSize) Wal.Log.Store.new).entry i := by
  have h := Wal.Log.C21_log_is_one_sequence (idx := fun e : Entry => e.id.index) hlen maxSize ops ho
  have hs := same_spec ops [] List.Pairwise.nil ho
  rw [List.map_nil] at hs
  rw [hs, h.1, h.2.1]
  generalize (ops.foldl (Wal.Log.specStep fun e : Entry => e.id.index) []) = es
  constructor
  · unfold entries
    rw [List.filter_map, List.map_map]
    show (es.filter _).map (fun e => e) = _
    rw [List.map_id']
    rfl
  · unfold entry
    induction es with
    | nil => rfl
    | cons e es ih =>
      rw [List.map_cons, List.find?_cons]
      show BMap.get ((e.id.index, e) :: es.map tag) i = _
      rw [BMap.get]
      by_cases he : e.id.index = i
      · simp [he]
      · simp only [he, if_false, decide_false]
        exact ih

example : Wal.Log.Ordered (fun e : Entry => e.id.index) [] [.append ⟨⟨0, 1⟩, some 5⟩, .append ⟨⟨1, 1⟩, none⟩, .after 1, .append ⟨⟨1, 2⟩, some 6⟩, .before 1] := by
  simp [Wal.Log.Ordered, Wal.Log.specStep, Wal.Log.u64Max]

end Verif.MetaLog
