import Verif.Codec.Str
import Verif.Codec.Column
/-! Helper lemmas for the string codec. -/
namespace Verif.Codec.Str
open Verif.Codec

theorem splitVar_eq (ok : List Byte → Bool) (m : List Bool) : ∀ (vs : List (List Byte)),
    m.count true = vs.length → (∀ s ∈ vs, ok s = true ∧ s.length < 2 ^ 64) →
    splitVar ok m (frameVar vs) = some (place m vs) := by
  induction m with
  | nil => intros; rfl
  | cons b m ih =>
    intro vs h hok
    cases b with
    | false =>
      simp at h
      rw [splitVar, ih vs (by simpa using h) hok]
      rfl
    | true =>
      cases vs with
      | nil => simp at h
      | cons s vs =>
        simp only [List.count_cons_self, List.length_cons] at h
        obtain ⟨h1, h2⟩ := hok s (List.mem_cons_self ..)
        have hne : varEnc s.length ++ (s ++ frameVar vs) ≠ [] := by
          intro h0
          exact varEnc_ne_nil _ (List.append_eq_nil_iff.1 h0).1
        have ht : (s ++ frameVar vs).take s.length = s := by simp
        rw [frameVar, List.append_assoc, splitVar, if_neg hne, varDec_varEnc h2]
        simp only [List.drop_left, List.drop_length_add_append, ht, h1, if_true]
        rw [if_neg (by simp), ih vs (by omega) (fun x hx => hok x (List.mem_cons_of_mem _ hx))]
        rfl

theorem split64_eq (ok : List Byte → Bool) (m : List Bool) : ∀ (vs : List (List Byte)),
    m.count true = vs.length → (∀ s ∈ vs, ok s = true ∧ s.length < 2 ^ 64) →
    split64 ok m (frame64 vs) = some (place m vs) := by
  induction m with
  | nil => intros; rfl
  | cons b m ih =>
    intro vs h hok
    cases b with
    | false =>
      simp at h
      rw [split64, ih vs (by simpa using h) hok]
      rfl
    | true =>
      cases vs with
      | nil => simp at h
      | cons s vs =>
        simp only [List.count_cons_self, List.length_cons] at h
        obtain ⟨h1, h2⟩ := hok s (List.mem_cons_self ..)
        have hl := beEnc_length 8 s.length
        have ht : (s ++ frame64 vs).take s.length = s := by simp
        have ht8 : (beEnc 8 s.length ++ (s ++ frame64 vs)).take 8 = beEnc 8 s.length := by
          conv => lhs; rw [← hl]
          simp
        have hd8 : (beEnc 8 s.length ++ (s ++ frame64 vs)).drop 8 = s ++ frame64 vs := by
          conv => lhs; rw [← hl]
          simp
        have hd : (beEnc 8 s.length ++ (s ++ frame64 vs)).drop (8 + s.length) = frame64 vs := by
          rw [← List.drop_drop, hd8, List.drop_left]
        rw [frame64, List.append_assoc, split64, if_neg (by simp)]
        simp only [ht8, hd8, beDec_beEnc_of_lt (by omega : s.length < 256 ^ 8), hd, ht, h1, if_true]
        rw [if_neg (by simp), ih vs (by omega) (fun x hx => hok x (List.mem_cons_of_mem _ hx))]
        rfl

end Verif.Codec.Str
