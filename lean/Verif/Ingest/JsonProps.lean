import Verif.Ingest.Json
/-!
# Properties: records made of JSON documents, and lines made of records
-/
namespace Verif.Ingest
open Verif.Raft (dec dec_inj dec_digits dec_ne_nil)
variable {N : Type}

/-! ## The values of a document, with the path to each -/

mutual
/-- The values of a document that are neither arrays nor objects, each with the keys and numbers that lead to it. -/
def leaves : Json N → List (List Str × Scalar N)
  | .null => [([], .null)]
  | .bool b => [([], .bool b)]
  | .num n => [([], .num n)]
  | .str s => [([], .str s)]
  | .arr l => leavesArr 0 l
  | .obj m => leavesObj m

def leavesArr (i : Nat) : List (Json N) → List (List Str × Scalar N)
  | [] => []
  | v :: l => (leaves v).map (fun x => (dec i :: x.1, x.2)) ++ leavesArr (i + 1) l

def leavesObj : List (Str × Json N) → List (List Str × Scalar N)
  | [] => []
  | (k, v) :: m => (leaves v).map (fun x => (k :: x.1, x.2)) ++ leavesObj m
end

/-- A key that is not empty and has no dot. -/
structure KeyOk (k : Str) : Prop where
  some : k ≠ []
  dot : '.' ∉ k

/-- All keys of a document are like that, and an object has no key twice. -/
inductive Json.Ok : Json N → Prop
  | null : Ok .null
  | bool (b : Bool) : Ok (.bool b)
  | num (n : N) : Ok (.num n)
  | str (s : Str) : Ok (.str s)
  | arr (l : List (Json N)) : (∀ v ∈ l, Ok v) → Ok (.arr l)
  | obj (m : List (Str × Json N)) : (m.map Prod.fst).Nodup → (∀ e ∈ m, KeyOk e.1) → (∀ e ∈ m, Ok e.2) → Ok (.obj m)

/-- A path as one key: with dots between its parts. -/
def dots : List Str → Str
  | [] => []
  | [a] => a
  | a :: b :: r => a ++ '.' :: dots (b :: r)

theorem dot_append_inj {a b x y : Str} (ha : '.' ∉ a) (hb : '.' ∉ b) (h : a ++ '.' :: x = b ++ '.' :: y) : a = b ∧ x = y := by
  induction a generalizing b with
  | nil =>
    cases b with
    | nil => simpa using h
    | cons c b =>
      simp only [List.nil_append, List.cons_append, List.cons.injEq] at h
      exact absurd (by rw [← h.1]; exact List.mem_cons_self) hb
  | cons c a ih =>
    cases b with
    | nil =>
      simp only [List.nil_append, List.cons_append, List.cons.injEq] at h
      exact absurd (by rw [h.1]; exact List.mem_cons_self) ha
    | cons d b =>
      simp only [List.cons_append, List.cons.injEq] at h
      simp only [List.mem_cons, not_or] at ha hb
      obtain ⟨h1, h2⟩ := ih ha.2 hb.2 h.2
      exact ⟨by rw [h.1, h1], h2⟩

theorem dots_inj {p q : List Str} (hp : ∀ k ∈ p, KeyOk k) (hq : ∀ k ∈ q, KeyOk k) (h : dots p = dots q) : p = q := by
  induction p generalizing q with
  | nil =>
    cases q with
    | nil => rfl
    | cons a q =>
      have ha := (hq a List.mem_cons_self).some
      cases q with
      | nil => exact absurd h.symm ha
      | cons _ _ => simp [dots] at h
  | cons a p ih =>
    have ha := hp a List.mem_cons_self
    cases q with
    | nil =>
      cases p with
      | nil => exact absurd h ha.some
      | cons _ _ => simp [dots] at h
    | cons b q =>
      have hb := hq b List.mem_cons_self
      cases p with
      | nil =>
        cases q with
        | nil => simp only [dots] at h; rw [h]
        | cons c q =>
          simp only [dots] at h
          exact absurd (by rw [h]; simp) ha.dot
      | cons c p =>
        cases q with
        | nil =>
          simp only [dots] at h
          exact absurd (by rw [← h]; simp) hb.dot
        | cons d q =>
          simp only [dots] at h
          obtain ⟨h1, h2⟩ := dot_append_inj ha.dot hb.dot h
          rw [h1, ih (fun k hk => hp k (List.mem_cons_of_mem _ hk)) (fun k hk => hq k (List.mem_cons_of_mem _ hk)) h2]

/-- The key under which `flatten` puts the value at a path. -/
def joinPath (name : Str) (p : List Str) : Str := if p.isEmpty then name else under name (dots p)

theorem under_inj {name a b : Str} (h : under name a = under name b) : a = b := by
  rw [under, under] at h
  split at h
  · exact h
  · exact (List.cons.inj (List.append_cancel_left h)).2

theorem joinPath_key {k : Str} (hk : KeyOk k) (p : List Str) : joinPath k p = dots (k :: p) := by
  cases p with
  | nil => rfl
  | cons a p =>
    have : k.isEmpty = false := by
      cases k with
      | nil => exact absurd rfl hk.some
      | cons _ _ => rfl
    simp [joinPath, under, this, dots]

/-- Array elements as entries of an object. -/
def index (i : Nat) : List (Json N) → List (Str × Json N)
  | [] => []
  | v :: l => (dec i, v) :: index (i + 1) l

theorem flattenArr_eq (name : Str) (i : Nat) (l : List (Json N)) (out : JRec N) :
    flattenArr name i l out = flattenObj name (index i l) out := by
  induction l generalizing i out with
  | nil => simp [flattenArr, flattenObj, index]
  | cons v l ih => simp only [flattenArr, flattenObj, index, ih]

theorem leavesArr_eq (i : Nat) (l : List (Json N)) : leavesArr i l = leavesObj (index i l) := by
  induction l generalizing i with
  | nil => simp [leavesArr, leavesObj, index]
  | cons v l ih => simp only [leavesArr, leavesObj, index, ih]

theorem index_mem {i : Nat} {l : List (Json N)} {e : Str × Json N} (h : e ∈ index i l) :
    e.2 ∈ l ∧ ∃ j, i ≤ j ∧ e.1 = dec j := by
  induction l generalizing i with
  | nil => cases h
  | cons v l ih =>
    rcases List.mem_cons.1 h with rfl | h
    · exact ⟨List.mem_cons_self, i, Nat.le_refl _, rfl⟩
    · obtain ⟨h1, j, h2, h3⟩ := ih h
      exact ⟨List.mem_cons_of_mem _ h1, j, by omega, h3⟩

theorem index_nodup (i : Nat) (l : List (Json N)) : ((index i l).map Prod.fst).Nodup := by
  induction l generalizing i with
  | nil => exact List.nodup_nil
  | cons v l ih =>
    simp only [index, List.map_cons, List.nodup_cons]
    refine ⟨?_, ih _⟩
    rw [List.mem_map]
    rintro ⟨e, he, h⟩
    obtain ⟨_, j, hj, hk⟩ := index_mem he
    have := dec_inj (hk.symm.trans h)
    omega

theorem dec_ok (i : Nat) : KeyOk (dec i) := by
  refine ⟨dec_ne_nil i, fun h => ?_⟩
  have := dec_digits i _ h
  simp at this

theorem mem_leavesObj {m : List (Str × Json N)} {p : List Str} {v : Scalar N} :
    (p, v) ∈ leavesObj m ↔ ∃ e ∈ m, ∃ q, p = e.1 :: q ∧ (q, v) ∈ leaves e.2 := by
  induction m with
  | nil => simp [leavesObj]
  | cons e m ih =>
    obtain ⟨k, j⟩ := e
    simp only [leavesObj, List.mem_append, List.mem_map, Prod.mk.injEq, ih, List.mem_cons]
    constructor
    · rintro (⟨x, hx, rfl, rfl⟩ | ⟨e, he, q, rfl, hq⟩)
      · exact ⟨(k, j), .inl rfl, x.1, rfl, hx⟩
      · exact ⟨e, .inr he, q, rfl, hq⟩
    · rintro ⟨e, rfl | he, q, rfl, hq⟩
      · exact .inl ⟨(q, v), hq, rfl, rfl⟩
      · exact .inr ⟨e, he, q, rfl, hq⟩

theorem leaves_ok {j : Json N} (h : j.Ok) : ∀ {p : List Str} {v : Scalar N}, (p, v) ∈ leaves j → ∀ k ∈ p, KeyOk k := by
  have hobj : ∀ (m : List (Str × Json N)), (∀ e ∈ m, KeyOk e.1) →
      (∀ e ∈ m, ∀ {p : List Str} {v : Scalar N}, (p, v) ∈ leaves e.2 → ∀ k ∈ p, KeyOk k) →
      ∀ {p : List Str} {v : Scalar N}, (p, v) ∈ leavesObj m → ∀ k ∈ p, KeyOk k := by
    intro m h1 h2 p v hp k hk
    obtain ⟨e, he, q, rfl, hq⟩ := mem_leavesObj.1 hp
    rcases List.mem_cons.1 hk with rfl | hk
    · exact h1 e he
    · exact h2 e he hq k hk
  induction h with
  | arr l _ ih =>
    intro p v hp
    simp only [leaves, leavesArr_eq] at hp
    refine hobj _ ?_ ?_ hp
    · intro e he
      obtain ⟨_, j, _, hk⟩ := index_mem he
      rw [hk]; exact dec_ok j
    · intro e he
      exact fun hq => ih _ (index_mem he).1 hq
  | obj m _ hk _ ih =>
    intro p v hp
    simp only [leaves] at hp
    exact hobj m hk (fun e he => ih e he) hp
  | _ =>
    intro p v hp
    simp only [leaves, List.mem_singleton, Prod.mk.injEq] at hp
    simp [hp.1]

/-! ## Every value is found under its path -/

theorem get_addAll {name : Str} {out r : JRec N} {k : Str} {v : Scalar N} :
    (addAll name out r).get k = some v ↔
      (∃ e, r.get e = some v ∧ under name e = k) ∨ ((∀ e w, r.get e = some w → under name e ≠ k) ∧ out.get k = some v) := by
  have hn : (r.entries.map fun e => under name e.1).Nodup := by
    have := r.nodup
    generalize r.entries = l at this ⊢
    induction l with
    | nil => exact List.nodup_nil
    | cons e l ih =>
      simp only [List.map_cons, List.nodup_cons, List.mem_map] at this ⊢
      refine ⟨?_, ih this.2⟩
      rintro ⟨x, hx, h⟩
      exact this.1 ⟨x, hx, under_inj h⟩
  rw [addAll, AMap.get_foldl_set_iff (fun e : Str × Scalar N => under name e.1) Prod.snd r.entries out k v hn]
  constructor
  · rintro (⟨e, he, h1, h2⟩ | ⟨h1, h2⟩)
    · exact .inl ⟨e.1, by rw [← h2]; exact AMap.mem_entries.1 he, h1⟩
    · exact .inr ⟨fun e w hw => h1 (e, w) (AMap.mem_entries.2 hw), h2⟩
  · rintro (⟨e, he, h1⟩ | ⟨h1, h2⟩)
    · exact .inl ⟨(e, v), AMap.mem_entries.2 he, h1, rfl⟩
    · exact .inr ⟨fun e he => h1 e.1 e.2 (AMap.mem_entries.1 he), h2⟩

/-- What `flatten` should give: under every key the value whose path is that key. -/
def Spec (name : Str) (j : Json N) : Prop :=
  ∀ k v, (flatten name j).get k = some v ↔ ∃ p, (p, v) ∈ leaves j ∧ k = joinPath name p

theorem flattenObj_spec {name : Str} {m : List (Str × Json N)} (hn : (m.map Prod.fst).Nodup) (hk : ∀ e ∈ m, KeyOk e.1)
    (ho : ∀ e ∈ m, e.2.Ok) (hs : ∀ e ∈ m, Spec e.1 e.2) (out : JRec N) (k : Str) (v : Scalar N) :
    (flattenObj name m out).get k = some v ↔
      (∃ p, (p, v) ∈ leavesObj m ∧ k = under name (dots p)) ∨
        ((∀ p w, (p, w) ∈ leavesObj m → k ≠ under name (dots p)) ∧ out.get k = some v) := by
  induction m generalizing out with
  | nil => simp [flattenObj, leavesObj]
  | cons e m ih =>
    obtain ⟨key, j⟩ := e
    simp only [List.map_cons, List.nodup_cons] at hn
    have ih := ih hn.2 (fun e he => hk e (List.mem_cons_of_mem _ he)) (fun e he => ho e (List.mem_cons_of_mem _ he))
      (fun e he => hs e (List.mem_cons_of_mem _ he))
    have hkey := hk _ List.mem_cons_self
    have hj := ho _ List.mem_cons_self
    have hsj := hs _ List.mem_cons_self
    simp only at hkey hj hsj
    -- what the first entry gives
    have h1 : ∀ w, (∃ e, (flatten key j).get e = some w ∧ under name e = k) ↔
        ∃ q, (q, w) ∈ leaves j ∧ k = under name (dots (key :: q)) := by
      intro w
      constructor
      · rintro ⟨e, he, rfl⟩
        obtain ⟨p, hp, rfl⟩ := (hsj e w).1 he
        exact ⟨p, hp, by rw [joinPath_key hkey]⟩
      · rintro ⟨q, hq, rfl⟩
        exact ⟨_, (hsj _ w).2 ⟨q, hq, rfl⟩, by rw [joinPath_key hkey]⟩
    -- the first entry and the others do not meet
    have hx : ∀ q w p w', (q, w) ∈ leaves j → k = under name (dots (key :: q)) → (p, w') ∈ leavesObj m →
        k = under name (dots p) → False := by
      intro q w p w' hq e1 hp e2
      obtain ⟨e, he, r, rfl, hr⟩ := mem_leavesObj.1 hp
      have h := under_inj (e1.symm.trans e2)
      have hc := dots_inj (p := key :: q) (q := e.1 :: r) ?_ ?_ h
      · simp only [List.cons.injEq] at hc
        exact hn.1 (List.mem_map.2 ⟨e, he, hc.1.symm⟩)
      · intro x hxm
        rcases List.mem_cons.1 hxm with rfl | hxm
        · exact hkey
        · exact leaves_ok hj hq x hxm
      · intro x hxm
        rcases List.mem_cons.1 hxm with rfl | hxm
        · exact hk e (List.mem_cons_of_mem _ he)
        · exact leaves_ok (ho e (List.mem_cons_of_mem _ he)) hr x hxm
    have hmem : ∀ p w, (p, w) ∈ leavesObj ((key, j) :: m) ↔ (∃ q, p = key :: q ∧ (q, w) ∈ leaves j) ∨ (p, w) ∈ leavesObj m := by
      intro p w
      simp only [leavesObj, List.mem_append, List.mem_map, Prod.mk.injEq]
      constructor
      · rintro (⟨x, hx, rfl, rfl⟩ | h)
        · exact .inl ⟨x.1, rfl, hx⟩
        · exact .inr h
      · rintro (⟨q, rfl, hq⟩ | h)
        · exact .inl ⟨(q, w), hq, rfl, rfl⟩
        · exact .inr h
    rw [flattenObj, ih, get_addAll, h1]
    constructor
    · rintro (⟨p, hp, e⟩ | ⟨hno, ⟨q, hq, e⟩ | ⟨hne, hout⟩⟩)
      · exact .inl ⟨p, (hmem _ _).2 (.inr hp), e⟩
      · exact .inl ⟨key :: q, (hmem _ _).2 (.inl ⟨q, rfl, hq⟩), e⟩
      · refine .inr ⟨fun p w hp e => ?_, hout⟩
        rcases (hmem _ _).1 hp with ⟨q, rfl, hq⟩ | hp
        · obtain ⟨e', h2, h3⟩ := (h1 w).2 ⟨q, hq, e⟩
          exact hne e' w h2 h3
        · exact hno p w hp e
    · rintro (⟨p, hp, e⟩ | ⟨hno, hout⟩)
      · rcases (hmem _ _).1 hp with ⟨q, rfl, hq⟩ | hp
        · exact .inr ⟨fun p' w' hp' e' => hx q v p' w' hq e hp' e', .inl ⟨q, hq, e⟩⟩
        · exact .inl ⟨p, hp, e⟩
      · refine .inr ⟨fun p w hp => hno p w ((hmem _ _).2 (.inr hp)), .inr ⟨fun e w he hk' => ?_, hout⟩⟩
        obtain ⟨q, hq, e'⟩ := (h1 w).1 ⟨e, he, hk'⟩
        exact hno _ w ((hmem _ _).2 (.inl ⟨q, rfl, hq⟩)) e'

theorem spec_obj {name : Str} {m : List (Str × Json N)} (h : ∀ k v, (flattenObj name m .empty).get k = some v ↔
      (∃ p, (p, v) ∈ leavesObj m ∧ k = under name (dots p)) ∨
        ((∀ p w, (p, w) ∈ leavesObj m → k ≠ under name (dots p)) ∧ (AMap.empty : JRec N).get k = some v)) (k : Str) (v : Scalar N) :
    (flattenObj name m .empty).get k = some v ↔ ∃ p, (p, v) ∈ leavesObj m ∧ k = joinPath name p := by
  rw [h]
  constructor
  · rintro (⟨p, hp, e⟩ | ⟨_, hout⟩)
    · refine ⟨p, hp, ?_⟩
      obtain ⟨_, _, q, rfl, _⟩ := mem_leavesObj.1 hp
      simpa [joinPath] using e
    · simp at hout
  · rintro ⟨p, hp, e⟩
    refine .inl ⟨p, hp, ?_⟩
    obtain ⟨_, _, q, rfl, _⟩ := mem_leavesObj.1 hp
    simpa [joinPath] using e

theorem flatten_spec {j : Json N} (h : j.Ok) : ∀ name, Spec name j := by
  induction h with
  | arr l hl ih =>
    intro name k v
    simp only [flatten, leaves, flattenArr_eq, leavesArr_eq]
    refine spec_obj (flattenObj_spec (index_nodup 0 l) ?_ ?_ ?_ .empty) k v
    · intro e he
      obtain ⟨_, j, _, hk⟩ := index_mem he
      rw [hk]; exact dec_ok j
    · exact fun e he => hl _ (index_mem he).1
    · exact fun e he => ih _ (index_mem he).1 e.1
  | obj m hn hk ho ih =>
    intro name k v
    simp only [flatten, leaves]
    exact spec_obj (flattenObj_spec hn hk ho (fun e he => ih e he e.1) .empty) k v
  | _ =>
    intro name k v
    simp only [flatten, leaves, AMap.get_set, AMap.get_empty, List.mem_singleton, Prod.mk.injEq]
    constructor
    · intro h
      split at h
      · rename_i hk
        exact ⟨[], ⟨rfl, (Option.some.inj h).symm⟩, hk⟩
      · cases h
    · rintro ⟨p, ⟨rfl, rfl⟩, hk⟩
      have : k = name := hk
      rw [if_pos this]

/-- Property C135, partial: if no key of a document is empty or has a dot in it, the record of the document has every value of
the document under its path, with dots between the parts, and nothing else.  Missing: keys with dots
(`C135_dots_refuted`) and empty keys (`C135_empty_key_refuted`). -/
theorem C135_flatten_partial {j : Json N} (h : j.Ok) (k : Str) (v : Scalar N) :
    (flatten [] j).get k = some v ↔ ∃ p, (p, v) ∈ leaves j ∧ k = dots p := by
  rw [flatten_spec h [] k v]
  constructor
  · rintro ⟨p, hp, rfl⟩
    refine ⟨p, hp, ?_⟩
    cases p <;> simp [joinPath, under, dots]
  · rintro ⟨p, hp, rfl⟩
    refine ⟨p, hp, ?_⟩
    cases p <;> simp [joinPath, under, dots]

/-- Property C135, partial: under the same conditions no two values get the same key. -/
theorem C135_distinct_partial {j : Json N} (h : j.Ok) {p q : List Str} {v w : Scalar N} (hp : (p, v) ∈ leaves j)
    (hq : (q, w) ∈ leaves j) (hd : dots p = dots q) : p = q ∧ v = w := by
  refine ⟨dots_inj (leaves_ok h hp) (leaves_ok h hq) hd, ?_⟩
  have h1 := (C135_flatten_partial h (dots p) v).2 ⟨p, hp, rfl⟩
  have h2 := (C135_flatten_partial h (dots p) w).2 ⟨q, hq, hd⟩
  exact Option.some.inj (h1.symm.trans h2)

/-- The records of a bulk request are those of its documents, every second line. -/
theorem eslogRecs_pairs {isCommand : Json N → Bool} {l : List (Json N × Json N)} (h : ∀ e ∈ l, isCommand e.1 = true) :
    eslogRecs isCommand (l.flatMap fun e => [e.1, e.2]) = .ok (l.map fun e => flatten [] e.2) := by
  induction l with
  | nil => rfl
  | cons e l ih =>
    simp only [List.flatMap_cons, List.cons_append, List.nil_append, eslogRecs, List.map_cons]
    rw [ih fun x hx => h x (List.mem_cons_of_mem _ hx)]
    simp [h e List.mem_cons_self]

/-! ## The line of a record -/

/-- The field that a value becomes; null becomes none. -/
def fieldOf : Scalar N → Option (JField N)
  | .bool b => some (.bool b)
  | .num n => some (.float n)
  | .str s => some (.str s)
  | .null => none

/-- The time that a value stands for. -/
def timeOf (c : LineCtx N) : Scalar N → Option Int
  | .str s => c.rfc3339 s
  | .num n => c.asI64 n
  | _ => none

/-- The role of a column: a tag, the time, or a field. -/
inductive Role where
  | tag | time | field
deriving DecidableEq

/-- A column that is asked for as a tag is a tag, also if it is the time column. -/
def role (c : LineCtx N) (k : Str) : Role := if k ∈ c.tagCols then .tag else if c.timeCol = k then .time else .field

/-- The entries that become tags. -/
def tagEntries (c : LineCtx N) (es : List (Str × Scalar N)) : List (Str × Str) :=
  es.filterMap fun e => if role c e.1 = .tag then some (e.1, tagValue c.text e.2) else none

/-- The entries that become fields. -/
def fieldEntries (c : LineCtx N) (es : List (Str × Scalar N)) : List (Str × JField N) :=
  es.filterMap fun e => if role c e.1 = .field then (fieldOf e.2).map (e.1, ·) else none

/-- The last time among entries. -/
def timeEntries (c : LineCtx N) (es : List (Str × Scalar N)) (t : Int) : Int :=
  es.foldl (fun t e => if role c e.1 = .time then (timeOf c e.2).getD t else t) t

/-- An entry that can be stored. -/
def Storable (c : LineCtx N) (e : Str × Scalar N) : Prop :=
  match role c e.1 with
  | .tag => True
  | .time => (timeOf c e.2).isSome
  | .field => (fieldOf e.2).isSome

theorem lineLoop_ok (c : LineCtx N) (es : List (Str × Scalar N)) (l : JLine N) (h : ∀ e ∈ es, Storable c e) :
    lineLoop c es l = .ok ⟨l.table, l.tags ++ tagEntries c es, l.fields ++ fieldEntries c es, timeEntries c es l.ts⟩ := by
  induction es generalizing l with
  | nil => simp [lineLoop, tagEntries, fieldEntries, timeEntries]
  | cons e es ih =>
    obtain ⟨k, v⟩ := e
    have h1 := h _ List.mem_cons_self
    have ih := fun l => ih l fun e he => h e (List.mem_cons_of_mem _ he)
    simp only [Storable, role] at h1
    simp only [lineLoop, tagEntries, fieldEntries, timeEntries, List.filterMap_cons, List.foldl_cons, role]
    by_cases hk : k ∈ c.tagCols
    · simp only [if_pos hk, ih, tagEntries, fieldEntries, timeEntries, role]
      simp
    · simp only [if_neg hk] at h1 ⊢
      by_cases ht : c.timeCol = k
      · simp only [if_pos ht] at h1 ⊢
        cases v with
        | str s =>
          simp only [timeOf] at h1 ⊢
          cases hs : c.rfc3339 s with
          | none => rw [hs] at h1; cases h1
          | some t =>
            simp only [hs, ih, tagEntries, fieldEntries, timeEntries, role, Option.getD_some, timeOf]
            simp
        | num n =>
          simp only [timeOf] at h1 ⊢
          cases hs : c.asI64 n with
          | none => rw [hs] at h1; cases h1
          | some t =>
            simp only [hs, ih, tagEntries, fieldEntries, timeEntries, role, Option.getD_some, timeOf]
            simp
        | null => simp [timeOf] at h1
        | bool b => simp [timeOf] at h1
      · simp only [if_neg ht] at h1 ⊢
        cases v with
        | null => simp [fieldOf] at h1
        | _ =>
          simp only [ih, tagEntries, fieldEntries, timeEntries, role, fieldOf]
          simp

theorem lineLoop_error (c : LineCtx N) (es : List (Str × Scalar N)) (l : JLine N) (h : ∃ e ∈ es, ¬ Storable c e) :
    lineLoop c es l = .error .error := by
  induction es generalizing l with
  | nil => obtain ⟨e, he, _⟩ := h; cases he
  | cons e es ih =>
    obtain ⟨x, hx, hn⟩ := h
    rcases List.mem_cons.1 hx with rfl | hx
    · obtain ⟨k, v⟩ := x
      simp only [Storable, role] at hn
      simp only [lineLoop]
      by_cases hk : k ∈ c.tagCols
      · simp [hk] at hn
      · simp only [if_neg hk] at hn ⊢
        by_cases ht : c.timeCol = k
        · simp only [if_pos ht] at hn ⊢
          cases v with
          | str s =>
            simp only [timeOf] at hn
            cases hs : c.rfc3339 s with
            | none => simp [hs]
            | some t => rw [hs] at hn; simp at hn
          | num n =>
            simp only [timeOf] at hn
            cases hs : c.asI64 n with
            | none => simp [hs]
            | some t => rw [hs] at hn; simp at hn
          | null => rfl
          | bool b => rfl
        · simp only [if_neg ht] at hn ⊢
          cases v with
          | null => rfl
          | _ => simp [fieldOf] at hn
    · have ih := fun l => ih l ⟨x, hx, hn⟩
      obtain ⟨k, v⟩ := e
      simp only [lineLoop]
      repeat' split
      all_goals first | rfl | exact ih _

theorem timeEntries_none {c : LineCtx N} {es : List (Str × Scalar N)} (h : ∀ e ∈ es, role c e.1 ≠ .time) (t : Int) :
    timeEntries c es t = t := by
  induction es with
  | nil => rfl
  | cons e es ih =>
    simp only [timeEntries, List.foldl_cons, if_neg (h e List.mem_cons_self)]
    exact ih fun x hx => h x (List.mem_cons_of_mem _ hx)

theorem role_time {c : LineCtx N} {k : Str} (h : role c k = .time) : c.timeCol = k := by
  simp only [role] at h
  split at h
  · cases h
  · split at h
    · assumption
    · cases h

theorem timeEntries_one {c : LineCtx N} {es : List (Str × Scalar N)} (hs : ∀ e ∈ es, Storable c e)
    (hn : (es.map Prod.fst).Nodup) {k : Str} {v : Scalar N} (hme : (k, v) ∈ es) (hr : role c k = .time) (t : Int) :
    timeOf c v = some (timeEntries c es t) := by
  induction es generalizing t with
  | nil => cases hme
  | cons e es ih =>
    simp only [List.map_cons, List.nodup_cons] at hn
    rw [timeEntries, List.foldl_cons]
    rcases List.mem_cons.1 hme with rfl | hme
    · simp only [hr, if_true]
      have h1 := hs _ List.mem_cons_self
      simp only [Storable, hr] at h1
      obtain ⟨t', ht'⟩ := Option.isSome_iff_exists.1 h1
      rw [ht', Option.getD_some]
      have h2 : ∀ e ∈ es, role c e.1 ≠ .time := by
        intro e he hre
        exact hn.1 (List.mem_map.2 ⟨e, he, by rw [← role_time hre, role_time hr]⟩)
      exact congrArg some (timeEntries_none h2 t').symm
    · exact ih (fun e he => hs e (List.mem_cons_of_mem _ he)) hn.2 hme _

/-- Property C136: the line of a record.  A record becomes a line exactly if none of its fields is null and its time can be
read.  Its tags are the columns asked for as tags, its fields all others but the time column, its time that of the time
column, or the time now if the record has none. -/
theorem C136_line (c : LineCtx N) (r : JRec N) :
    ((∀ k v, r.get k = some v → Storable c (k, v)) ↔ ∃ l, toLine c r = .ok l) ∧
    ∀ l, toLine c r = .ok l → l.table = c.table ∧
      (∀ k x, (k, x) ∈ l.tags ↔ role c k = .tag ∧ ∃ v, r.get k = some v ∧ x = tagValue c.text v) ∧
      (∀ k x, (k, x) ∈ l.fields ↔ role c k = .field ∧ ∃ v, r.get k = some v ∧ fieldOf v = some x) ∧
      ((∀ k v, r.get k = some v → role c k ≠ .time) → l.ts = c.now) ∧
      (∀ k v, r.get k = some v → role c k = .time → timeOf c v = some l.ts) := by
  have hiff : (∀ k v, r.get k = some v → Storable c (k, v)) ↔ ∀ e ∈ r.entries, Storable c e :=
    ⟨fun h e he => h e.1 e.2 (AMap.mem_entries.1 he), fun h k v hv => h (k, v) (AMap.mem_entries.2 hv)⟩
  refine ⟨⟨fun h => ⟨_, lineLoop_ok c _ _ (hiff.1 h)⟩, ?_⟩, ?_⟩
  · rintro ⟨l, hl⟩
    rw [hiff]
    refine Classical.byContradiction fun hn => ?_
    have : ∃ e ∈ r.entries, ¬ Storable c e := by
      refine Classical.byContradiction fun hn' => hn fun e he => Classical.byContradiction fun hs => hn' ⟨e, he, hs⟩
    rw [toLine, lineLoop_error c _ _ this] at hl
    cases hl
  · intro l hl
    have hs : ∀ e ∈ r.entries, Storable c e := by
      refine Classical.byContradiction fun hn => ?_
      have : ∃ e ∈ r.entries, ¬ Storable c e := by
        refine Classical.byContradiction fun hn' => hn fun e he => Classical.byContradiction fun hs => hn' ⟨e, he, hs⟩
      rw [toLine, lineLoop_error c _ _ this] at hl
      cases hl
    rw [toLine, lineLoop_ok c _ _ hs] at hl
    simp only [Except.ok.injEq] at hl
    subst hl
    refine ⟨rfl, ?_, ?_, ?_, ?_⟩
    · intro k x
      simp only [List.nil_append, tagEntries, List.mem_filterMap]
      constructor
      · rintro ⟨e, he, h⟩
        split at h
        · rename_i hr
          simp only [Option.some.injEq, Prod.mk.injEq] at h
          obtain ⟨rfl, rfl⟩ := h
          exact ⟨hr, e.2, AMap.mem_entries.1 he, rfl⟩
        · cases h
      · rintro ⟨hr, v, hv, rfl⟩
        exact ⟨(k, v), AMap.mem_entries.2 hv, by simp [hr]⟩
    · intro k x
      simp only [List.nil_append, fieldEntries, List.mem_filterMap]
      constructor
      · rintro ⟨e, he, h⟩
        split at h
        · rename_i hr
          rw [Option.map_eq_some_iff] at h
          obtain ⟨y, hy, h⟩ := h
          simp only [Prod.mk.injEq] at h
          obtain ⟨rfl, rfl⟩ := h
          exact ⟨hr, e.2, AMap.mem_entries.1 he, hy⟩
        · cases h
      · rintro ⟨hr, v, hv, hf⟩
        exact ⟨(k, v), AMap.mem_entries.2 hv, by simp [hr, hf]⟩
    · intro hno
      exact timeEntries_none (fun e he => hno e.1 e.2 (AMap.mem_entries.1 he)) c.now
    · intro k v hv hr
      exact timeEntries_one hs r.nodup (AMap.mem_entries.2 hv) hr c.now

/-- Property C136: a request is written in full or not at all: it is refused if one of its records is. -/
theorem C136_all_or_none (c : LineCtx N) (rs : List (JRec N)) :
    (∀ ls, toLines c rs = .ok ls → ls.length = rs.length ∧ ∀ (i : Nat) r l, rs[i]? = some r → ls[i]? = some l → toLine c r = .ok l) ∧
    ((∃ r ∈ rs, ∃ e, toLine c r = .error e) → ∃ e, toLines c rs = .error e) := by
  induction rs with
  | nil => simp [toLines]
  | cons r rs ih =>
    refine ⟨?_, ?_⟩
    · intro ls h
      simp only [toLines] at h
      cases h1 : toLine c r with
      | error e => rw [h1] at h; cases h
      | ok l =>
        rw [h1] at h
        cases h2 : toLines c rs with
        | error e => rw [h2] at h; cases h
        | ok ls' =>
          rw [h2] at h
          simp only [Except.ok.injEq] at h
          subst h
          obtain ⟨h3, h4⟩ := ih.1 ls' h2
          refine ⟨by simp [h3], ?_⟩
          intro i r' l' hr' hl'
          cases i with
          | zero =>
            simp only [List.getElem?_cons_zero, Option.some.injEq] at hr' hl'
            rw [← hr', ← hl', h1]
          | succ i =>
            simp only [List.getElem?_cons_succ] at hr' hl'
            exact h4 i r' l' hr' hl'
    · rintro ⟨x, hx, e, he⟩
      simp only [toLines]
      cases h1 : toLine c r with
      | error e => exact ⟨e, rfl⟩
      | ok l =>
        rcases List.mem_cons.1 hx with rfl | hx
        · rw [h1] at he; cases he
        · obtain ⟨e', he'⟩ := ih.2 ⟨x, hx, e, he⟩
          rw [he']
          exact ⟨e', rfl⟩

/-! ## The value of a tag -/

theorem flatMap_escape {s : Str} (h : ∀ ch ∈ s, ch ≠ '"' ∧ ch ≠ '\\' ∧ 32 ≤ ch.toNat) : s.flatMap escape = s := by
  induction s with
  | nil => rfl
  | cons ch s ih =>
    obtain ⟨h1, h2, h3⟩ := h ch List.mem_cons_self
    rw [List.flatMap_cons, ih fun x hx => h x (List.mem_cons_of_mem _ hx)]
    have hn : ch ≠ '\n' := by rintro rfl; simp at h3
    have hr : ch ≠ '\r' := by rintro rfl; simp at h3
    have ht : ch ≠ '\t' := by rintro rfl; simp at h3
    simp only [escape, if_neg h1, if_neg h2, if_neg hn, if_neg hr, if_neg ht, if_neg (show ¬ ch.toNat = 8 by omega),
      if_neg (show ¬ ch.toNat = 12 by omega), if_neg (show ¬ ch.toNat < 32 by omega)]
    rfl

theorem dropWhile_none {s : Str} (h : ∀ ch ∈ s, ch ≠ '"') : s.dropWhile (· == '"') = s := by
  cases s with
  | nil => rfl
  | cons ch s => rw [List.dropWhile_cons_of_neg]; simpa using h ch List.mem_cons_self

/-- Property C137, partial: the value of a tag is the string in the record, if that has no quote, no backslash and no control
character.  Missing: strings with one of these (`C137_tag_refuted`). -/
theorem C137_tag_partial {text : N → Str} {s : Str} (h : ∀ ch ∈ s, ch ≠ '"' ∧ ch ≠ '\\' ∧ 32 ≤ ch.toNat) :
    tagValue text (.str s) = s := by
  simp only [tagValue, Scalar.json, flatMap_escape h, trimQuotes]
  have h1 : ∀ ch ∈ s, ch ≠ '"' := fun ch hc => (h ch hc).1
  rw [List.cons_append, List.dropWhile_cons_of_pos (by simp)]
  cases s with
  | nil => simp
  | cons a s =>
    rw [List.cons_append, List.dropWhile_cons_of_neg (by simpa using h1 a List.mem_cons_self), ← List.cons_append,
      List.reverse_append, List.reverse_singleton, List.singleton_append, List.dropWhile_cons_of_pos (by simp),
      dropWhile_none (fun ch hc => h1 ch (List.mem_reverse.1 hc)), List.reverse_reverse]

end Verif.Ingest
