import Verif.Files.Log
/-!
# Seeking in a file (C211)
-/
namespace Verif.Files

/-- C211: where a seek goes: from the start, from the end that the writer tells, from where it is; positions before the start are refused. -/
theorem C211_seek (len pos n : Nat) :
    From.target len pos (.start n) = some n ∧
    From.target len pos (.ending n) = some (len + n) ∧
    From.target len pos (.current n) = some (pos + n) ∧
    From.target len pos (.ending (-n)) = (if n ≤ len then some (len - n) else none) ∧
    From.target len pos (.current (-n)) = (if n ≤ pos then some (pos - n) else none) := by
  refine ⟨rfl, ?_, ?_, ?_, ?_⟩
  · unfold From.target; dsimp only; rw [if_pos (by omega)]; congr 1
  · unfold From.target; dsimp only; rw [if_pos (by omega)]; congr 1
  · unfold From.target; dsimp only
    by_cases h : n ≤ len
    · rw [if_pos h, if_pos (by omega)]; congr 1; omega
    · rw [if_neg h, if_neg (by omega)]
  · unfold From.target; dsimp only
    by_cases h : n ≤ pos
    · rw [if_pos h, if_pos (by omega)]; congr 1; omega
    · rw [if_neg h, if_neg (by omega)]

end Verif.Files
