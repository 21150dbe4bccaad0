import Verif.Wal.Recover
import Mathlib.Data.List.Induction
/-!
# Theorems about the replicated log
-/
namespace Verif.Wal.Log

open Verif.Wal.Ring (Cache)

variable {E σ : Type} {idx : E → Nat} {len : E → Nat} {app : σ → E → Option σ} {flushed : σ → Nat}

/-! ## C21 — the log as one sequence -/

theorem step_inv {s : Store E} {es : List E} {lo : Nat} (h : Inv idx s es lo) (hlen : ∀ e, 0 < len e) (maxSize : Nat)
    (op : Op E) (hop : ∀ e, op = .append e → idx e < u64Max ∧ ∀ l, es.getLast? = some l → idx e = idx l + 1) :
    ∃ lo', Inv idx (s.step idx len maxSize op) (specStep idx es op) lo' := by
  cases op with
  | append e => exact append_inv h maxSize (hlen e) (hop e rfl).1 (hop e rfl).2
  | before i => exact before_inv h i
  | after i => exact ⟨lo, after_inv h i⟩

theorem run_inv (hlen : ∀ e, 0 < len e) (maxSize : Nat) : ∀ (ops : List (Op E)) (s : Store E) (es : List E) (lo : Nat),
    Inv idx s es lo → Ordered idx es ops →
    ∃ lo', Inv idx (ops.foldl (Store.step idx len maxSize) s) (ops.foldl (specStep idx) es) lo' := by
  intro ops
  induction ops with
  | nil => intro s es lo h _; exact ⟨lo, h⟩
  | cons op ops ih =>
    intro s es lo h ho
    obtain ⟨lo', h'⟩ := step_inv h hlen maxSize op (by
      rintro e rfl
      exact ho.1)
    exact ih _ _ _ h' ho.2

/-- **C21.**  After any history of appends, prefix removals and suffix truncations, for any file size limit and any
sizes of the entries: reading a range of indexes returns exactly the entries of the sequence with these indexes, in
order; reading one index returns the entry with this index, if there is one. -/
theorem C21_log_is_one_sequence (hlen : ∀ e, 0 < len e) (maxSize : Nat) (ops : List (Op E)) (ho : Ordered idx [] ops) :
    (∀ a b, (ops.foldl (Store.step idx len maxSize) Store.new).entries a b =
      (ops.foldl (specStep idx) []).filter (fun e => decide (a ≤ idx e ∧ idx e < b))) ∧
    (∀ i, (ops.foldl (Store.step idx len maxSize) Store.new).entry i =
      (ops.foldl (specStep idx) []).find? (fun e => decide (idx e = i))) ∧
    (ops.foldl (specStep idx) []).Pairwise (fun e e' => idx e < idx e') := by
  obtain ⟨lo, h⟩ := run_inv hlen maxSize ops Store.new [] 0 (inv_new idx) ho
  exact ⟨h.entries, h.entry, h.asc⟩

/-- What reading returns for a sequence of histories written out: an append is visible under its index until it is
removed. -/
theorem C21_append_visible (hlen : ∀ e, 0 < len e) (maxSize : Nat) (ops : List (Op E)) (e : E)
    (ho : Ordered idx [] (ops ++ [Op.append e])) :
    ((ops ++ [Op.append e]).foldl (Store.step idx len maxSize) Store.new).entry (idx e) = some e := by
  have hspec : ∀ (ops : List (Op E)) (es : List E), Ordered idx es (ops ++ [Op.append e]) →
      (ops ++ [Op.append e]).foldl (specStep idx) es = ops.foldl (specStep idx) es ++ [e] := by
    intro ops es _
    rw [List.foldl_append]; rfl
  obtain ⟨lo, h⟩ := run_inv hlen maxSize _ Store.new [] 0 (inv_new idx) ho
  rw [h.entry, look_some h.asc, hspec _ _ ho]
  simp

/-- Entries are pairs of index and payload, 20 bytes each, in files of about 40 bytes. -/
def exHist : List (Op (Nat × Nat)) :=
  [.append (1, 10), .append (2, 20), .append (3, 30), .append (4, 40), .append (5, 50), .before 2, .after 4,
    .append (4, 41), .append (5, 51), .append (6, 61), .append (7, 71), .before 4, .after 7]

example : Ordered Prod.fst [] exHist := by
  simp [exHist, Ordered, specStep, u64Max]

example : (exHist.foldl (Store.step Prod.fst (fun _ => 20) 40) Store.new).old.length = 1 ∧
    exHist.foldl (specStep Prod.fst) [] = [(4, 41), (5, 51), (6, 61)] := by decide +kernel

/-- **Refuted** for `last_entry`: it looks only into the cache of the 256 newest entries.  After 260 appends and the
removal of the entries from 4 on, the log has 3 entries, but there is no last entry; `get_log_state` then reports
the log as empty after the last purged entry. -/
theorem C21_last_entry_refuted : ∃ ops : List (Op Nat), Ordered id [] ops ∧
    (ops.foldl (specStep id) []).length = 3 ∧
    (ops.foldl (Store.step id (fun _ => 1) (2 ^ 30)) Store.new).entry 3 = some 3 ∧
    (ops.foldl (Store.step id (fun _ => 1) (2 ^ 30)) Store.new).lastEntry = none := by
  refine ⟨(List.range' 1 260).map .append ++ [.after 4], ?_, ?_, ?_, ?_⟩
  · have : ∀ (n : Nat) (es : List Nat) (k : Nat), k + n < u64Max → (∀ l, es.getLast? = some l → k = l + 1) →
        Ordered id es ((List.range' k n).map .append ++ [.after 4]) := by
      intro n
      induction n with
      | zero => intro es k _ _; exact ⟨trivial, trivial⟩
      | succ n ih =>
        intro es k hk hl
        rw [List.range'_succ, List.map_cons, List.cons_append]
        refine ⟨⟨by simp only [id]; omega, hl⟩, ih _ (k + 1) (by omega) ?_⟩
        intro l h
        simp only [specStep, List.getLast?_append, List.getLast?_singleton, Option.some_or, Option.some.injEq] at h
        omega
    exact this 260 [] 1 (by unfold u64Max; omega) (by simp)
  · decide +kernel
  · decide +kernel
  · decide +kernel

end Verif.Wal.Log
