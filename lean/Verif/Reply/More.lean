import Verif.Reply.Auth
import Verif.Reply.Props
/-!
# Base64 as in RFC 4648, separators of a JSON array and the spelling of what a client asks for
-/
namespace Verif.Reply

/-- C199: the alphabet is that of RFC 4648, section 4. -/
theorem C199_alphabet :
    (List.range 64).map digit = "ABCDEFGHIJKLMNOPQRSTUVWXYZabcdefghijklmnopqrstuvwxyz0123456789+/".toList ∧
    encode64 [102, 111, 111, 98, 97, 114] = "Zm9vYmFy".toList ∧ encode64 [102, 111, 111, 98] = "Zm9vYg==".toList ∧
    encode64 [251, 255] = "+/8=".toList := by decide +kernel

/-- C196: between the rows of an array, and nowhere else, is one comma. -/
theorem C196_commas (R : Render) (names : List Text) (rows : List Row) (h : rows ≠ []) :
    jsonText R names rows = '[' :: List.intercalate [','] (rows.map (R.object names)) ++ [']'] := by
  have hc : ∀ l : List Text, commas l = List.intercalate [','] l := by
    intro l
    induction l with
    | nil => rfl
    | cons t l ih =>
      cases l with
      | nil => simp [commas, List.intercalate]
      | cons u l =>
        unfold commas
        rw [ih]
        simp [List.intercalate, List.intersperse]
  unfold jsonText
  rw [if_neg h, hc]

/-- C198: formats are known by their names in any case. -/
theorem C198_any_case (s s' : Text) (h : s.map Char.toLower = s'.map Char.toLower) : formatOf s = formatOf s' := by
  unfold formatOf sameAscii
  rw [h]

example : ("Nd-JSON".toList).map Char.toLower = ("nd-json".toList).map Char.toLower ∧
    formatOf "Nd-JSON".toList = some .ndJson := by decide +kernel

/-- C198: blanks around the name of an encoding do not matter. -/
theorem C198_blanks (e : Encoding) (a b : Text) (ha : ∀ c ∈ a, c = ' ' ∨ c = '\t') (hb : ∀ c ∈ b, c = ' ' ∨ c = '\t') :
    trim (a ++ e.str ++ b) = e.str := by
  have drop : ∀ (a r : Text), (∀ c ∈ a, c = ' ' ∨ c = '\t') →
      (a ++ r).dropWhile (fun c : Char => c == ' ' || c == '\t') = r.dropWhile (fun c : Char => c == ' ' || c == '\t') := by
    intro a r h
    induction a with
    | nil => rfl
    | cons c a ih =>
      have hc := h c List.mem_cons_self
      rw [List.cons_append, List.dropWhile_cons_of_pos (by simpa using hc)]
      exact ih fun x hx => h x (List.mem_cons_of_mem _ hx)
  unfold trim
  dsimp only
  rw [List.append_assoc, drop a _ ha]
  have h1 : (e.str ++ b).dropWhile (fun c : Char => c == ' ' || c == '\t') = e.str ++ b := by
    cases e <;> rfl
  rw [h1, List.reverse_append, drop _ _ (by simpa using hb)]
  cases e <;> decide +kernel

example : trim (" ".toList ++ Encoding.zstd.str ++ "\t ".toList) = Encoding.zstd.str := by decide +kernel

end Verif.Reply
