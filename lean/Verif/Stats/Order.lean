import Verif.Stats.Model
import Verif.Utils.Props
/-!
# The comparisons of the query engine, and the statistics as bounds
-/
namespace Verif.Stats
open Verif.Utils (bytesLe bytesLe_total bytesLe_antisymm bytesLe_trans)

theorem bytesLe_refl (a : List Byte) : bytesLe a a = true := by
  rcases bytesLe_total a a with h | h <;> exact h

theorem tkey_inj {a b : U64} (h : tkey a = tkey b) : a = b := by
  unfold tkey at h
  have key : ∀ x : U64, x.msb = true → (x &&& 0x7fffffffffffffff#64).toNat + 2 ^ 63 = x.toNat := by
    intro x hx
    rw [BitVec.toNat_and]
    have : (0x7fffffffffffffff#64).toNat = 2 ^ 63 - 1 := by decide
    rw [this, Nat.and_two_pow_sub_one_eq_mod]
    rw [BitVec.msb_eq_decide] at hx
    have := of_decide_eq_true hx
    have := x.isLt
    omega
  apply BitVec.eq_of_toNat_eq
  split at h <;> split at h
  · rename_i h1 h2
    have := key a h1; have := key b h2; omega
  · omega
  · omega
  · omega

theorem fkey_le_of_tkey_le {a b : U64} (h : tkey a ≤ tkey b) : fkey a ≤ fkey b := by
  unfold tkey at h; unfold fkey
  split at h <;> split at h <;> simp_all <;> omega

theorem tkey_le_of_fkey_lt {a b : U64} (h : fkey a < fkey b) : tkey a < tkey b := by
  unfold fkey at h; unfold tkey
  split at h <;> split at h <;> simp_all <;> omega

section
variable {q : FloatCmp} {a b c : Val}

theorem le_trans (h1 : le q a b = true) (h2 : le q b c = true) : le q a c = true := by
  cases a <;> cases b <;> cases c <;> cases q <;> simp_all [le]
  all_goals first | omega | exact bytesLe_trans _ _ _ h1 h2 | skip
  all_goals (rename_i x y z; cases x <;> cases y <;> cases z <;> simp_all)

theorem le_lt_trans (h1 : le q a b = true) (h2 : lt q b c = true) : lt q a c = true := by
  cases a <;> cases b <;> cases c <;> cases q <;> simp_all [le, lt, fltLt]
  all_goals first
    | omega
    | (rename_i x y z
       cases h : bytesLe z x with
       | false => rfl
       | true => rw [bytesLe_trans z x y h h1] at h2; cases h2)
    | (rename_i x y z; cases x <;> cases y <;> cases z <;> simp_all)

theorem lt_le_trans (h1 : lt q a b = true) (h2 : le q b c = true) : lt q a c = true := by
  cases a <;> cases b <;> cases c <;> cases q <;> simp_all [le, lt, fltLt]
  all_goals first
    | omega
    | (rename_i x y z
       cases h : bytesLe z x with
       | false => rfl
       | true => rw [bytesLe_trans y z x h2 h] at h1; cases h1)
    | (rename_i x y z; cases x <;> cases y <;> cases z <;> simp_all)

theorem le_antisymm (h1 : le q a b = true) (h2 : le q b a = true) : eq q a b = true := by
  cases a <;> cases b <;> cases q <;> simp_all [le, eq]
  all_goals first
    | omega
    | (apply BitVec.eq_of_toInt_eq; omega)
    | (apply BitVec.eq_of_toNat_eq; omega)
    | exact bytesLe_antisymm _ _ h1 h2
    | (apply tkey_inj; omega)
    | (rename_i x y; cases x <;> cases y <;> simp_all)

theorem le_of_eq (h : eq q a b = true) : le q a b = true := by
  cases a <;> cases b <;> cases q <;> simp_all [le, eq]
  all_goals first
    | omega
    | exact bytesLe_refl _

theorem le_of_eq' (h : eq q a b = true) : le q b a = true := by
  cases a <;> cases b <;> cases q <;> simp_all [le, eq]
  all_goals first
    | omega
    | exact bytesLe_refl _

theorem sameKind_of_le (h : le q a b = true) : sameKind a b = true := by
  cases a <;> cases b <;> simp_all [le, sameKind]

theorem sameKind_trans (h1 : sameKind a b = true) (h2 : sameKind b c = true) : sameKind a c = true := by
  cases a <;> cases b <;> cases c <;> simp_all [sameKind]

theorem sameKind_symm (h1 : sameKind a b = true) : sameKind b a = true := by
  cases a <;> cases b <;> simp_all [sameKind]

end

/-! ## Statistics as bounds -/

section
variable {α : Type} (lt : α → α → Bool) (R : α → α → Prop) (P : α → Prop)

/-- The running values only move apart, and each value is between them. -/
theorem foldl_bump (hrefl : ∀ a, R a a) (htrans : ∀ a b c, R a b → R b c → R a c)
    (hlt : ∀ a b, P a → P b → lt a b = true → R a b) (hnlt : ∀ a b, P a → P b → lt a b = false → R b a) :
    ∀ (vals : List α), (∀ v ∈ vals, P v) → ∀ s : α × α, P s.1 → P s.2 →
      (P (vals.foldl (bump lt) s).1 ∧ P (vals.foldl (bump lt) s).2) ∧
      (R (vals.foldl (bump lt) s).1 s.1 ∧ R s.2 (vals.foldl (bump lt) s).2) ∧
      ∀ v ∈ vals, R (vals.foldl (bump lt) s).1 v ∧ R v (vals.foldl (bump lt) s).2 := by
  intro vals
  induction vals with
  | nil => intro _ s p1 p2; exact ⟨⟨p1, p2⟩, ⟨hrefl _, hrefl _⟩, by simp⟩
  | cons v vs ih =>
    intro hP s p1 p2
    have hv := hP v (List.mem_cons_self ..)
    have e1 : P (bump lt s v).1 ∧ R (bump lt s v).1 s.1 ∧ R (bump lt s v).1 v := by
      unfold bump; dsimp only
      split
      · rename_i h; exact ⟨hv, hlt _ _ hv p1 h, hrefl _⟩
      · rename_i h; exact ⟨p1, hrefl _, hnlt _ _ hv p1 (by simpa using h)⟩
    have e2 : P (bump lt s v).2 ∧ R s.2 (bump lt s v).2 ∧ R v (bump lt s v).2 := by
      unfold bump; dsimp only
      split
      · rename_i h; exact ⟨hv, hlt _ _ p2 hv h, hrefl _⟩
      · rename_i h; exact ⟨p2, hrefl _, hnlt _ _ p2 hv (by simpa using h)⟩
    obtain ⟨p, ⟨a, b⟩, c⟩ := ih (fun x hx => hP x (List.mem_cons_of_mem _ hx)) (bump lt s v) e1.1 e2.1
    refine ⟨p, ⟨htrans _ _ _ a e1.2.1, htrans _ _ _ e2.2.1 b⟩, ?_⟩
    intro x hx
    rcases List.mem_cons.1 hx with rfl | hx
    · exact ⟨htrans _ _ _ a e1.2.2, htrans _ _ _ e2.2.2 b⟩
    · exact c x hx

end

/-- The smallest and greatest value of the statistics, if known, are bounds for a value. -/
def Within (q : FloatCmp) (utf8 : List Byte → Bool) (st : PageStat) (v : Val) : Prop :=
  (∀ m, st.lower utf8 = some m → le q m v = true) ∧ (∀ m, st.upper utf8 = some m → le q v m = true)

theorem within_int (q : FloatCmp) (utf8 : List Byte → Bool) (vals : List U64) :
    ∀ v ∈ vals, Within q utf8 (.int (bounds ltI (i64MaxBits, i64MinBits) vals)) (.int v) := by
  intro v hv
  obtain ⟨_, _, h⟩ := foldl_bump ltI (fun a b => a.toInt ≤ b.toInt) (fun _ => True) (fun _ => Int.le_refl _)
    (fun _ _ _ => Int.le_trans) (fun a b _ _ h => by unfold ltI at h; simp at h; omega)
    (fun a b _ _ h => by unfold ltI at h; simp at h; omega) vals (fun _ _ => trivial) (i64MaxBits, i64MinBits) trivial trivial
  constructor <;> intro m hm <;> simp [PageStat.lower, PageStat.upper, bounds] at hm <;> subst hm <;> simp only [le, decide_eq_true_eq]
  · exact (h v hv).1
  · exact (h v hv).2

theorem within_uint (q : FloatCmp) (utf8 : List Byte → Bool) (vals : List U64) :
    ∀ v ∈ vals, Within q utf8 (.uint (bounds ltU (u64MaxBits, 0#64) vals)) (.uint v) := by
  intro v hv
  obtain ⟨_, _, h⟩ := foldl_bump ltU (fun a b => a.toNat ≤ b.toNat) (fun _ => True) (fun _ => Nat.le_refl _)
    (fun _ _ _ => Nat.le_trans) (fun a b _ _ h => by unfold ltU at h; simp at h; omega)
    (fun a b _ _ h => by unfold ltU at h; simp at h; omega) vals (fun _ _ => trivial) (u64MaxBits, 0#64) trivial trivial
  constructor <;> intro m hm <;> simp [PageStat.lower, PageStat.upper, bounds] at hm <;> subst hm <;> simp only [le, decide_eq_true_eq]
  · exact (h v hv).1
  · exact (h v hv).2

/-- Lower and upper value of byte strings. -/
theorem bounds_str (s : List Byte) (vals : List (List Byte)) :
    let r := vals.foldl (bump ltS) (s, s)
    (bytesLe r.1 s = true ∧ bytesLe s r.2 = true) ∧ ∀ v ∈ vals, bytesLe r.1 v = true ∧ bytesLe v r.2 = true := by
  obtain ⟨_, h⟩ := foldl_bump ltS (fun a b => bytesLe a b = true) (fun _ => True) bytesLe_refl
    bytesLe_trans (fun a b _ _ h => by unfold ltS at h; rcases bytesLe_total a b with h' | h' <;> simp_all)
    (fun a b _ _ h => by unfold ltS at h; simpa using h) vals (fun _ _ => trivial) (s, s) trivial trivial
  exact h

theorem within_str_of {q : FloatCmp} {utf8 : List Byte → Bool} {st : Stat (List Byte)} {v : List Byte}
    (h1 : ∀ m, st.min = some m → bytesLe m v = true) (h2 : ∀ m, st.max = some m → bytesLe v m = true) :
    Within q utf8 (.str st) (.str v) := by
  constructor <;> intro m hm <;> simp [PageStat.lower, PageStat.upper] at hm <;> obtain ⟨x, hx, rfl⟩ := hm
  · exact h1 x hx.1
  · exact h2 x hx.1

theorem within_str_flush (q : FloatCmp) (utf8 : List Byte → Bool) (vals : List (List Byte)) :
    ∀ v ∈ vals, Within q utf8 (.str (bounds ltS ([], []) vals)) (.str v) := by
  intro v hv
  obtain ⟨_, h⟩ := bounds_str [] vals
  apply within_str_of <;> intro m hm <;> simp [bounds] at hm <;> subst hm
  · exact (h v hv).1
  · exact (h v hv).2

theorem within_str_compact (q : FloatCmp) (utf8 : List Byte → Bool) (vals : List (List Byte)) :
    ∀ v ∈ vals, Within q utf8 (.str (strBounds vals)) (.str v) := by
  intro v hv
  cases vals with
  | nil => cases hv
  | cons x xs =>
    obtain ⟨h0, h⟩ := bounds_str x xs
    apply within_str_of <;> intro m hm <;> simp [strBounds, bounds] at hm <;> subst hm <;>
      rcases List.mem_cons.1 hv with rfl | hv
    · exact h0.1
    · exact (h v hv).1
    · exact h0.2
    · exact (h v hv).2

theorem foldl_bump_bool (vals : List Bool) : vals.foldl (bump ltB) (false, true) = (false, true) := by
  induction vals with
  | nil => rfl
  | cons v vs ih => cases v <;> simpa [bump, ltB] using ih

theorem within_bool_flush (q : FloatCmp) (utf8 : List Byte → Bool) (vals : List Bool) (v : Bool) :
    Within q utf8 (.bool (bounds ltB (false, true) vals)) (.bool v) := by
  constructor <;> intro m hm <;> simp [PageStat.lower, PageStat.upper, bounds, foldl_bump_bool] at hm <;> subst hm <;>
    cases v <;> rfl

/-- The key of a float in the order of the query engine. -/
def qkey : FloatCmp → U64 → Int
  | .ieee => fkey
  | .total => tkey

/-- A float without surprises. -/
def PlainOne (q : FloatCmp) (v : U64) : Prop := isNan v = false ∧ (q = .total → v ≠ 0x8000000000000000#64)

theorem tkey_eq {v : U64} (h : v ≠ 0x8000000000000000#64) : tkey v = if v.msb then fkey v - 1 else fkey v := by
  unfold tkey fkey; split <;> simp_all

theorem fkey_neg {v : U64} (h : v ≠ 0x8000000000000000#64) (hm : v.msb = true) : fkey v < 0 := by
  unfold fkey
  rw [if_pos hm]
  have : (v &&& 0x7fffffffffffffff#64).toNat ≠ 0 := by
    intro h0
    apply h
    apply BitVec.eq_of_toNat_eq
    rw [BitVec.toNat_and, show (0x7fffffffffffffff#64).toNat = 2 ^ 63 - 1 by decide, Nat.and_two_pow_sub_one_eq_mod] at h0
    rw [BitVec.msb_eq_decide] at hm
    have := of_decide_eq_true hm
    have := v.isLt
    have e : (0x8000000000000000#64).toNat = 2 ^ 63 := by decide
    rw [e]
    omega
  omega

theorem fkey_nonneg {v : U64} (hm : v.msb = false) : 0 ≤ fkey v := by
  unfold fkey; rw [if_neg (by simp [hm])]; omega

theorem qkey_le {q : FloatCmp} {a b : U64} (ha : PlainOne q a) (hb : PlainOne q b) (h : fkey a ≤ fkey b) : qkey q a ≤ qkey q b := by
  cases q with
  | ieee => exact h
  | total =>
    show tkey a ≤ tkey b
    have ha := ha.2 rfl
    have hb := hb.2 rfl
    rw [tkey_eq ha, tkey_eq hb]
    cases hma : a.msb <;> cases hmb : b.msb
    · simpa using h
    · have := fkey_neg hb hmb; have := fkey_nonneg hma; omega
    · simp; omega
    · simp; omega

theorem within_float {q : FloatCmp} (utf8 : List Byte → Bool) {vals : List U64} (hp : ∀ v ∈ vals, PlainOne q v) :
    ∀ v ∈ vals, Within q utf8 (.float (bounds fltLt (f64Max, f64Min) vals)) (.float v) := by
  intro v hv
  obtain ⟨hP, _, h⟩ := foldl_bump fltLt (fun a b => qkey q a ≤ qkey q b) (PlainOne q) (fun _ => Int.le_refl _)
    (fun _ _ _ => Int.le_trans)
    (fun a b pa pb h => by
      unfold fltLt at h; simp at h
      exact qkey_le pa pb (by omega))
    (fun a b pa pb h => by
      unfold fltLt at h
      rw [pa.1, pb.1] at h
      simp at h
      exact qkey_le pb pa (by omega)) vals hp (f64Max, f64Min) ⟨by decide, by intro; decide⟩ ⟨by decide, by intro; decide⟩
  have key : ∀ a b : U64, PlainOne q a → PlainOne q b → qkey q a ≤ qkey q b → le q (.float a) (.float b) = true := by
    intro a b pa pb h
    cases q with
    | ieee => simp only [le, pa.1, pb.1]; simpa [qkey] using h
    | total => simpa [le, qkey] using h
  constructor <;> intro m hm <;> simp [PageStat.lower, PageStat.upper, bounds] at hm <;> subst hm
  · exact key _ _ hP.1 (hp v hv) (h v hv).1
  · exact key _ _ (hp v hv) hP.2 (h v hv).2

end Verif.Stats
