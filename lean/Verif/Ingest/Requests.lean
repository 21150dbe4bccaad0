import Verif.Ingest.JsonProps
import Verif.Ingest.PromProps
/-!
# What requests of documents and reads of Prometheus mean as a whole
-/
namespace Verif.Ingest
variable {N : Type}

/-- Property C135: a bulk request is accepted exactly if it is made of pairs of a command and a document, and its records are those
of the documents, one each, in order. -/
theorem C135_bulk {isCommand : Json N → Bool} : ∀ {l : List (Json N)} {r : List (JRec N)},
    eslogRecs isCommand l = .ok r ↔
      ∃ ps : List (Json N × Json N), l = ps.flatMap (fun e => [e.1, e.2]) ∧ (∀ e ∈ ps, isCommand e.1 = true) ∧
        r = ps.map fun e => flatten [] e.2
  | [], r => by
    constructor
    · intro h
      simp only [eslogRecs, Except.ok.injEq] at h
      exact ⟨[], rfl, fun e he => (nomatch he), h.symm⟩
    · rintro ⟨ps, hl, _, rfl⟩
      cases ps with
      | nil => rfl
      | cons e ps => simp at hl
  | [x], r => by
    constructor
    · intro h; simp [eslogRecs] at h
    · rintro ⟨ps, hl, _, _⟩
      cases ps with
      | nil => simp at hl
      | cons e ps => simp at hl
  | c :: d :: l, r => by
    constructor
    · intro h
      rw [eslogRecs] at h
      cases hr : eslogRecs isCommand l with
      | error e => rw [hr] at h; simp at h
      | ok r' =>
        rw [hr] at h
        obtain ⟨ps, hl, hc, he⟩ := C135_bulk.1 hr
        by_cases hcc : isCommand c = true
        · simp only [hcc, if_true, Except.ok.injEq] at h
          refine ⟨(c, d) :: ps, by simp [hl], ?_, by rw [← h, he]; rfl⟩
          intro e hm
          rcases List.mem_cons.1 hm with rfl | hm
          · exact hcc
          · exact hc e hm
        · simp [hcc] at h
    · rintro ⟨ps, hl, hc, rfl⟩
      rw [hl]
      exact eslogRecs_pairs hc

/-- A bulk request of one pair. -/
example : ∃ r, eslogRecs (N := Nat) (fun j => match j with | .str _ => true | _ => false) [.str "index".toList, .obj [("a".toList, .num 1)]] = .ok r :=
  ⟨_, C135_bulk.2 ⟨[(.str "index".toList, .obj [("a".toList, .num 1)])], rfl, fun e he => by rw [List.mem_singleton.1 he], rfl⟩⟩

/-- Property C135: a request of lines has one record for each document, in order. -/
theorem C135_lines (docs : List (Json N)) (i : Nat) : (ndjsonRecs docs)[i]? = docs[i]?.map (flatten []) := by
  simp [ndjsonRecs]

namespace Prom
variable {F : Type}

/-- Property C138, partial: a sample that was written is answered with its value and its time, if the time fits 64 bits in
nanoseconds.  Missing: the other times (`C138_time_refuted`). -/
theorem C138_answer_partial (tags : List Str) (x : Sample F) (h1 : -2 ^ 63 ≤ x.ts * 1000000) (h2 : x.ts * 1000000 < 2 ^ 63) :
    sampleOf ⟨tags, x.value, toNs x.ts⟩ = x := by
  have : toNs x.ts = x.ts * 1000000 := by
    rw [toNs, wrap64]
    omega
  cases x with
  | mk v t =>
    simp only [sampleOf, this, Sample.mk.injEq, true_and]
    exact Int.mul_tdiv_cancel _ (by decide)

example : sampleOf ⟨[], (5 : Nat), toNs 1700000000123⟩ = ⟨5, 1700000000123⟩ := C138_answer_partial [] ⟨5, 1700000000123⟩ (by decide) (by decide)

/-- Property C140, partial: whatever the matchers, an accepted read asks exactly the tables of the last matcher on the name: the one
table of that name, which exists, or all those in whose name the pattern is found. -/
theorem C140_last_partial {db : Db} {a b : List Matcher} {m : Matcher} {ts : List Str} (hm : m.name = metricName)
    (hb : ∀ x ∈ b, x.name ≠ metricName) (h : selectTables db (a ++ m :: b) [] = .ok ts) :
    (m.type = .eq ∧ m.value ∈ db.tables ∧ ts = [m.value]) ∨ (m.type = .re ∧ ∃ f, db.re m.value = some f ∧ ts = db.tables.filter f) := by
  have hb' : ∀ ts, selectTables db b ts = .ok ts := fun ts => by
    have := selectTables_skip (db := db) (ms := []) (ts := ts) hb
    rwa [List.append_nil] at this
  have key : ∀ (a : List Matcher) (t : List Str), selectTables db (a ++ m :: b) t = .ok ts →
      (m.type = .eq ∧ m.value ∈ db.tables ∧ ts = [m.value]) ∨ (m.type = .re ∧ ∃ f, db.re m.value = some f ∧ ts = db.tables.filter f) := by
    intro a
    induction a with
    | nil =>
      intro t h
      rw [List.nil_append, selectTables, if_pos hm] at h
      cases ht : m.type with
      | eq =>
        simp only [ht] at h
        split at h
        · rename_i hv
          rw [hb'] at h
          exact Or.inl ⟨rfl, hv, (Except.ok.inj h).symm⟩
        · cases h
      | re =>
        simp only [ht] at h
        cases hr : db.re m.value with
        | none => simp [hr] at h
        | some f =>
          simp only [hr, hb', Except.ok.injEq] at h
          exact Or.inr ⟨rfl, f, rfl, h.symm⟩
      | neq => simp [ht] at h
      | nre => simp [ht] at h
    | cons y a ih =>
      intro t h
      rw [List.cons_append, selectTables] at h
      split at h
      · split at h
        · split at h
          · exact ih _ h
          · cases h
        · split at h
          · exact ih _ h
          · cases h
        · cases h
      · exact ih _ h
  exact key a [] h

/-- A read with two matchers on the name. -/
example : selectTables ⟨["up".toList, "cpu".toList], fun _ => none⟩ [⟨.eq, metricName, "up".toList⟩, ⟨.eq, metricName, "cpu".toList⟩] [] =
    .ok ["cpu".toList] := by with_unfolding_all rfl

/-- What an operator of SQL says of a value and a text; `re` is what a pattern matches. -/
def sqlTest (re : Str → Str → Bool) (op v t : Str) : Option Bool :=
  if op = "=".toList then some (v == t) else if op = "!=".toList then some (!(v == t))
  else if op = "~".toList then some (re t v) else if op = "!~".toList then some (!re t v) else none

/-- What a matcher says of the value of its label. -/
def Matcher.test (re : Str → Str → Bool) (m : Matcher) (v : Str) : Bool :=
  match m.type with
  | .eq => v == m.value
  | .neq => !(v == m.value)
  | .re => re m.value v
  | .nre => !re m.value v

/-- Property C141: the operator of a filter is the one the matcher asks for. -/
theorem C141_operator (re : Str → Str → Bool) (m : Matcher) (v : Str) : sqlTest re m.type.op v m.value = some (m.test re v) := by
  cases m with
  | mk ty n t => cases ty <;> rfl

end Prom
end Verif.Ingest
