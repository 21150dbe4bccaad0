import Verif.Repair.More
import Verif.Jaeger.Witness
/-!
# Kinds of spans and the series of a row (C183, C182)
-/
namespace Verif.Jaeger
open Verif.Ingest

/-- C183: every kind of span that OTLP knows has a word of its own, and everything else is "unspecified". -/
theorem C183_kinds (s : Str) :
    (jaegerKind s = "internal".toList ↔ s = "SPAN_KIND_INTERNAL".toList) ∧
    (jaegerKind s = "server".toList ↔ s = "SPAN_KIND_SERVER".toList) ∧
    (jaegerKind s = "client".toList ↔ s = "SPAN_KIND_CLIENT".toList) ∧
    (jaegerKind s = "producer".toList ↔ s = "SPAN_KIND_PRODUCER".toList) ∧
    (jaegerKind s = "consumer".toList ↔ s = "SPAN_KIND_CONSUMER".toList) := by
  unfold jaegerKind
  by_cases h1 : s = "SPAN_KIND_INTERNAL".toList
  · subst h1; decide +kernel
  by_cases h2 : s = "SPAN_KIND_SERVER".toList
  · subst h2; decide +kernel
  by_cases h3 : s = "SPAN_KIND_CLIENT".toList
  · subst h3; decide +kernel
  by_cases h4 : s = "SPAN_KIND_PRODUCER".toList
  · subst h4; decide +kernel
  by_cases h5 : s = "SPAN_KIND_CONSUMER".toList
  · subst h5; decide +kernel
  rw [if_neg h1, if_neg h2, if_neg h3, if_neg h4, if_neg h5]
  refine ⟨⟨fun h => ?_, fun h => absurd h h1⟩, ⟨fun h => ?_, fun h => absurd h h2⟩, ⟨fun h => ?_, fun h => absurd h h3⟩,
    ⟨fun h => ?_, fun h => absurd h h4⟩, ⟨fun h => ?_, fun h => absurd h h5⟩⟩ <;>
    exact absurd h (by decide +kernel)

/-- C182: rows of the same series are spans with the same trace id, span id, parent, name and service. -/
theorem C182_series (r q : Row) (h : series r = series q) :
    strOf r traceCol = strOf q traceCol ∧ strOf r spanCol = strOf q spanCol ∧ strOf r parentCol = strOf q parentCol ∧
    strOf r opCol = strOf q opCol ∧ strOf r serviceCol = strOf q serviceCol := by
  simp only [series, tagCols, List.map_cons, List.map_nil, List.cons.injEq] at h
  exact ⟨h.2.2.2.2.2.2.1, h.2.2.2.1, h.2.2.2.2.2.1, h.2.2.2.2.1, h.2.2.2.2.2.2.2.2.1⟩

theorem f64_close {n : Nat} (h : n < 2 ^ 63) : n ≤ Repair.f64OfNat n + 512 ∧ Repair.f64OfNat n ≤ n + 512 := by
  rcases Nat.lt_or_ge n (2 ^ 53) with hn | hn
  · rw [Repair.f64OfNat_small (by omega)]; omega
  · obtain ⟨s, q, r, hs, he, hr, hq, -, hf⟩ := Repair.f64OfNat_big hn
    have hs' : s ≤ 10 := by
      refine Nat.le_of_not_lt fun hc => ?_
      have h1 : 2 ^ 11 ≤ 2 ^ s := Nat.pow_le_pow_right (by omega) (by omega)
      have h2 : 2 ^ 52 * 2 ^ 11 ≤ q * 2 ^ s := Nat.mul_le_mul hq h1
      omega
    have h9 : 2 ^ (s - 1) ≤ 2 ^ 9 := Nat.pow_le_pow_right (by omega) (by omega)
    have h2 : 2 ^ s = 2 * 2 ^ (s - 1) := by
      rw [show s = s - 1 + 1 by omega, Nat.pow_succ]
      simp only [Nat.add_sub_cancel]
      omega
    rw [hf]
    split
    · omega
    · rw [Nat.add_mul, Nat.one_mul]
      omega

/-- C185: what a search with an end finds has an end that is at most 1024 ns later (both are compared as doubles). -/
theorem C185_end_partial {q : Find} {r : Row} (h : q.holds r = true) (t : Int) (ht : q.stop = some t) (h0 : 0 ≤ t)
    (h1 : t * 1000 < 2 ^ 63) :
    ∃ n, r.cells.get (key spanPrefix "end_time_unix_nano") = some (.num n) ∧ (0 ≤ n → n < 2 ^ 63 → n ≤ t * 1000 + 1024) := by
  unfold Find.holds at h
  simp only [Bool.and_eq_true] at h
  obtain ⟨⟨⟨⟨⟨⟨-, -⟩, -⟩, h4⟩, -⟩, -⟩, -⟩ := h
  rw [ht] at h4
  dsimp only at h4
  split at h4
  · rename_i n hn
    refine ⟨n, hn, fun hn0 hn1 => ?_⟩
    have hw : wrap64 (t * 1000) = t * 1000 := by unfold wrap64; omega
    rw [hw] at h4
    have h4 := of_decide_eq_true h4
    have a := f64_close (n := n.natAbs) (by omega)
    have b := f64_close (n := (t * 1000).natAbs) (by omega)
    unfold Repair.f64OfInt at h4
    rw [if_neg (by omega), if_neg (by omega)] at h4
    omega
  · cases h4

/-- C185: the units of a duration in nanoseconds; there are no others. -/
theorem C185_units :
    unitOf "ns".toList = some 1 ∧ unitOf "us".toList = some 1000 ∧ unitOf "µs".toList = some 1000 ∧ unitOf "ms".toList = some 1000000 ∧
    unitOf "s".toList = some 1000000000 ∧ unitOf "m".toList = some 60000000000 ∧ unitOf "h".toList = some 3600000000000 ∧
    ∀ u n, unitOf u = some n → u ∈ ["ns".toList, "us".toList, "µs".toList, "ms".toList, "s".toList, "m".toList, "h".toList] := by
  refine ⟨by decide +kernel, by decide +kernel, by decide +kernel, by decide +kernel, by decide +kernel, by decide +kernel, by decide +kernel, ?_⟩
  intro u n h
  unfold unitOf at h
  repeat' split at h
  all_goals first
    | (cases h; done)
    | (rename_i hu; rw [hu]; simp)

end Verif.Jaeger
