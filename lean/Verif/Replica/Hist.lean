import Verif.Replica.Model
/-!
# What the log says, and histories of stored values

The specification of a vnode (`Spec`), the events that commands cause in terms of series ids (`Ev`), and how the values found
in files and caches relate to them.
-/
namespace Verif.Replica

/-! ## Specification -/

/-- What the commands of the log say: which series exist and their values. -/
structure Spec where
  has : Nat → Bool
  val : Nat → Int → Option Nat

def Spec.init : Spec := ⟨fun _ => false, fun _ _ => none⟩

def Spec.put (σ : Spec) (r : Nat × Int × Nat) : Spec :=
  ⟨fun k => decide (k = r.1) || σ.has k, fun k t => if k = r.1 ∧ t = r.2.1 then some r.2.2 else σ.val k t⟩

/-- The effect of a command.  Tags are changed for all the named series or, when a series would get the name of another one, for none. -/
def Spec.step (σ : Spec) : Cmd → Spec
  | .blank => σ
  | .write rows => rows.foldl Spec.put σ
  | .delete p lo hi => ⟨σ.has, fun k t => if p k = true ∧ lo ≤ t ∧ t ≤ hi then none else σ.val k t⟩
  | .rename f ms =>
    let found := ms.filter σ.has
    if (found.all fun k => !σ.has (f k)) && decide ((found.map f).Nodup) then
      ⟨fun k => decide (k ∈ found.map f) || (σ.has k && !decide (k ∈ found)),
       fun k t =>
        match found.find? fun o => decide (f o = k) with
        | some o => σ.val o t
        | none => if k ∈ found then none else σ.val k t⟩
    else σ

def specOf (log : List Cmd) : Spec := log.foldl Spec.step .init

theorem specOf_snoc (log : List Cmd) (c : Cmd) : specOf (log ++ [c]) = (specOf log).step c := by
  simp [specOf]

def Cmd.isRename : Cmd → Bool
  | .rename .. => true
  | _ => false

def NoRename (l : List Cmd) : Prop := ∀ c ∈ l, c.isRename = false

theorem NoRename.append {a b : List Cmd} : NoRename (a ++ b) ↔ NoRename a ∧ NoRename b := by
  simp only [NoRename, List.mem_append]
  exact ⟨fun h => ⟨fun c hc => h c (.inl hc), fun c hc => h c (.inr hc)⟩, fun h c hc => hc.elim (h.1 c) (h.2 c)⟩

/-! ## Events -/

/-- What happens to cells; a delete has the number of its command and the condition on keys. -/
inductive Ev where
  | put (c : Cell)
  | del (q : Nat) (p : Nat → Bool) (d : List Nat × Int × Int)

def Ev.at (sid : Nat) (ts : Int) : Ev → Option (Option Nat)
  | .put c => if c.sid = sid ∧ c.ts = ts then some (some c.val) else none
  | .del _ _ d => if covers d sid ts then some none else none

/-- The last event of a cell. -/
def lastEv (sid : Nat) (ts : Int) : List Ev → Option (Option Nat)
  | [] => none
  | e :: l => (lastEv sid ts l).or (e.at sid ts)

def hasDel (sid : Nat) (ts : Int) (l : List Ev) : Bool := l.any fun e => decide (e.at sid ts = some none)

theorem lastEv_append (sid : Nat) (ts : Int) (a b : List Ev) : lastEv sid ts (a ++ b) = (lastEv sid ts b).or (lastEv sid ts a) := by
  induction a with
  | nil => simp [lastEv]
  | cons e a ih => simp [lastEv, ih, Option.or_assoc]

theorem hasDel_append (sid : Nat) (ts : Int) (a b : List Ev) : hasDel sid ts (a ++ b) = (hasDel sid ts a || hasDel sid ts b) := by
  simp [hasDel]

theorem lastEv_none {sid : Nat} {ts : Int} {l : List Ev} (h : lastEv sid ts l = none) : hasDel sid ts l = false := by
  induction l with
  | nil => rfl
  | cons e l ih =>
    simp only [lastEv, Option.or_eq_none_iff] at h
    have h1 := ih h.1
    simp only [hasDel] at h1 ⊢
    simp [h.2, h1]

theorem lastEv_del {sid : Nat} {ts : Int} {l : List Ev} (h : lastEv sid ts l = some none) : hasDel sid ts l = true := by
  induction l with
  | nil => cases h
  | cons e l ih =>
    simp only [lastEv] at h
    simp only [hasDel, List.any_cons, Bool.or_eq_true, decide_eq_true_eq]
    cases hl : lastEv sid ts l with
    | none => rw [hl] at h; exact .inl (by simpa using h)
    | some r => rw [hl] at h; simp at h; subst h; exact .inr (ih hl)

theorem mem_of_lastEv {sid : Nat} {ts : Int} {l : List Ev} {x : Nat} (h : lastEv sid ts l = some (some x)) : .put ⟨sid, ts, x⟩ ∈ l := by
  induction l with
  | nil => cases h
  | cons e l ih =>
    simp only [lastEv] at h
    cases hl : lastEv sid ts l with
    | some r => rw [hl] at h; simp at h; subst h; exact List.mem_cons_of_mem _ (ih hl)
    | none =>
      rw [hl] at h
      simp only [Option.none_or] at h
      cases e with
      | del q p d => simp only [Ev.at] at h; split at h <;> cases h
      | put c =>
        simp only [Ev.at] at h
        split at h
        · rename_i hc
          cases h
          obtain ⟨rfl, rfl⟩ := hc
          exact List.mem_cons_self
        · cases h

theorem lastEv_put (sid : Nat) (ts : Int) (l : List Ev) (c : Cell) :
    lastEv sid ts (l ++ [.put c]) = if c.sid = sid ∧ c.ts = ts then some (some c.val) else lastEv sid ts l := by
  rw [lastEv_append]
  by_cases h : c.sid = sid ∧ c.ts = ts <;> simp [lastEv, Ev.at, h]

theorem lastEv_snoc_del (sid : Nat) (ts : Int) (l : List Ev) (q : Nat) (p : Nat → Bool) (d : List Nat × Int × Int) :
    lastEv sid ts (l ++ [.del q p d]) = if covers d sid ts then some none else lastEv sid ts l := by
  rw [lastEv_append]
  by_cases h : covers d sid ts = true <;> simp [lastEv, Ev.at, h]

/-! ## Values of sources against events -/

/-- The last value of a list of sources. -/
def newest : List (Option Nat) → Option Nat
  | [] => none
  | x :: l => (newest l).or x

theorem newest_append (a b : List (Option Nat)) : newest (a ++ b) = (newest b).or (newest a) := by
  induction a with
  | nil => simp [newest]
  | cons x a ih => simp [newest, ih, Option.or_assoc]

theorem pick_mem : ∀ (l : List (Nat × Option Nat)) (j w : Nat), pick l = some (j, w) → (j, some w) ∈ l
  | [], _, _, h => by cases h
  | (i, none) :: l, j, w, h => List.mem_cons_of_mem _ (pick_mem l j w h)
  | (i, some v) :: l, j, w, h => by
    simp only [pick] at h
    cases hp : pick l with
    | none => rw [hp] at h; cases h; exact List.mem_cons_self
    | some r =>
      obtain ⟨j', w'⟩ := r
      rw [hp] at h
      simp only at h
      split at h
      · cases h; exact List.mem_cons_of_mem _ (pick_mem l j w hp)
      · cases h; exact List.mem_cons_self

/-- With growing ids the value is that of the last source. -/
theorem pick_eq : ∀ (l : List (Nat × Option Nat)), (l.map Prod.fst).Pairwise (· < ·) → (pick l).map Prod.snd = newest (l.map Prod.snd)
  | [], _ => rfl
  | (i, none) :: l, h => by
    simp only [List.map_cons, List.pairwise_cons] at h
    simp [pick, newest, pick_eq l h.2]
  | (i, some v) :: l, h => by
    simp only [List.map_cons, List.pairwise_cons] at h
    have h1 := pick_eq l h.2
    simp only [pick, List.map_cons, newest, ← h1]
    cases hp : pick l with
    | none => rfl
    | some r =>
      obtain ⟨j, w⟩ := r
      have : i < j := h.1 j (List.mem_map.2 ⟨_, pick_mem l j w hp, rfl⟩)
      simp [Nat.le_of_lt this]

/-- Each source has its own last value, unless a later delete has taken it away. -/
def Good (sid : Nat) (ts : Int) : List (Option Nat) → List (List Ev) → Prop
  | [], [] => True
  | v :: vs, e :: es => v = (if es.any (hasDel sid ts) then none else (lastEv sid ts e).join) ∧ Good sid ts vs es
  | _, _ => False

theorem Good.length {sid : Nat} {ts : Int} : ∀ {vs : List (Option Nat)} {es : List (List Ev)}, Good sid ts vs es → vs.length = es.length
  | [], [], _ => rfl
  | _ :: _, _ :: _, h => by simp [Good.length h.2]
  | [], _ :: _, h => h.elim
  | _ :: _, [], h => h.elim

theorem any_hasDel (sid : Nat) (ts : Int) (es : List (List Ev)) : es.any (hasDel sid ts) = hasDel sid ts es.flatten := by
  induction es with
  | nil => rfl
  | cons e es ih => simp only [List.any_cons, List.flatten_cons, hasDel_append, ih]

theorem Good.newest {sid : Nat} {ts : Int} : ∀ {vs : List (Option Nat)} {es : List (List Ev)}, Good sid ts vs es →
    newest vs = (lastEv sid ts es.flatten).join
  | [], [], _ => rfl
  | v :: vs, e :: es, h => by
    have ih := Good.newest h.2
    simp only [Replica.newest, List.flatten_cons, lastEv_append, ih]
    have h1 := h.1
    rw [any_hasDel] at h1
    cases hl : lastEv sid ts es.flatten with
    | none => rw [lastEv_none hl] at h1; simp [h1]
    | some r =>
      cases r with
      | none => rw [lastEv_del hl] at h1; simp [h1]
      | some x => simp
  | [], _ :: _, h => h.elim
  | _ :: _, [], h => h.elim

theorem merge_val {sid : Nat} {ts : Int} {e1 e2 : List Ev} {es : List (List Ev)} {a b : Option Nat}
    (ha : a = if (e2 :: es).any (hasDel sid ts) then none else (lastEv sid ts e1).join)
    (hb : b = if es.any (hasDel sid ts) then none else (lastEv sid ts e2).join) :
    b.or a = if es.any (hasDel sid ts) then none else (lastEv sid ts (e1 ++ e2)).join := by
  simp only [List.any_cons] at ha
  by_cases hd : es.any (hasDel sid ts) = true
  · simp [hd] at ha hb ⊢; simp [ha, hb]
  · have hd : es.any (hasDel sid ts) = false := by simpa using hd
    simp only [hd, Bool.or_false, Bool.false_eq_true, if_false] at ha hb ⊢
    rw [lastEv_append]
    cases hl : lastEv sid ts e2 with
    | none => rw [lastEv_none hl] at ha; simp [hl] at hb; simp [ha, hb]
    | some r =>
      cases r with
      | none => rw [lastEv_del hl] at ha; simp [hl] at hb; simp [ha, hb]
      | some x => simp [hl] at hb; simp [hb]

/-- The first two sources become one. -/
theorem Good.merge {sid : Nat} {ts : Int} {a b : Option Nat} {vs : List (Option Nat)} {e1 e2 : List Ev} {es : List (List Ev)}
    (h : Good sid ts (a :: b :: vs) (e1 :: e2 :: es)) : Good sid ts (b.or a :: vs) ((e1 ++ e2) :: es) :=
  ⟨merge_val h.1 h.2.1, h.2.2⟩

/-- Changing the end of the lists, when this does not change which cells are deleted there. -/
theorem Good.onEnd {sid : Nat} {ts : Int} {x x' : List (Option Nat)} {y y' : List (List Ev)}
    (hd : y.any (hasDel sid ts) = y'.any (hasDel sid ts)) (h2 : Good sid ts x y → Good sid ts x' y') (hl : x.length = y.length) :
    ∀ {vs : List (Option Nat)} {es : List (List Ev)}, Good sid ts (vs ++ x) (es ++ y) → Good sid ts (vs ++ x') (es ++ y')
  | [], [], h => h2 h
  | v :: vs, e :: es, h => by
    refine ⟨?_, Good.onEnd hd h2 hl h.2⟩
    have h1 : v = if (es ++ y).any (hasDel sid ts) then none else (lastEv sid ts e).join := h.1
    show v = if (es ++ y').any (hasDel sid ts) then none else (lastEv sid ts e).join
    rw [List.any_append] at h1 ⊢
    rw [← hd]; exact h1
  | [], e :: es, h => by
    have := Good.length h
    simp at this
    omega
  | v :: vs, [], h => by
    have := Good.length h
    simp at this
    omega

/-- The last two sources become one. -/
theorem Good.mergeLast {sid : Nat} {ts : Int} {a b : Option Nat} {vs : List (Option Nat)} {e1 e2 : List Ev} {es : List (List Ev)}
    (h : Good sid ts (vs ++ [a, b]) (es ++ [e1, e2])) : Good sid ts (vs ++ [b.or a]) (es ++ [e1 ++ e2]) := by
  refine Good.onEnd (x := [a, b]) (y := [e1, e2]) ?_ ?_ rfl h
  · simp [hasDel_append]
  · exact fun h => Good.merge h

/-- A value in the last source. -/
theorem Good.put {sid : Nat} {ts : Int} {a : Option Nat} {vs : List (Option Nat)} {e : List Ev} {es : List (List Ev)} (c : Cell)
    (h : Good sid ts (vs ++ [a]) (es ++ [e])) :
    Good sid ts (vs ++ [if c.sid = sid ∧ c.ts = ts then some c.val else a]) (es ++ [e ++ [.put c]]) := by
  refine Good.onEnd (x := [a]) (y := [e]) ?_ ?_ rfl h
  · simp only [List.any_cons, List.any_nil, hasDel_append, Bool.or_false]
    have : hasDel sid ts [.put c] = false := by
      simp only [hasDel, List.any_cons, List.any_nil, Bool.or_false, Ev.at]
      split <;> simp
    rw [this]; simp
  · intro h
    refine ⟨?_, trivial⟩
    have h1 := h.1
    simp only [List.any_nil, Bool.false_eq_true, if_false] at h1 ⊢
    rw [lastEv_put, h1]
    split <;> simp

/-- A new source. -/
theorem Good.snoc {sid : Nat} {ts : Int} : ∀ {vs : List (Option Nat)} {es : List (List Ev)}, Good sid ts vs es →
    Good sid ts (vs ++ [none]) (es ++ [[]])
  | [], [], _ => ⟨by simp [lastEv], trivial⟩
  | v :: vs, e :: es, h => by
    refine ⟨?_, Good.snoc h.2⟩
    have h1 := h.1
    show v = if (es ++ [[]]).any (hasDel sid ts) then none else (lastEv sid ts e).join
    rw [List.any_append, show List.any [[]] (hasDel sid ts) = false from rfl, Bool.or_false]
    exact h1
  | [], _ :: _, h => h.elim
  | _ :: _, [], h => h.elim

/-- A delete. -/
theorem Good.del {sid : Nat} {ts : Int} (q : Nat) (p : Nat → Bool) (d : List Nat × Int × Int) : ∀ {vs : List (Option Nat)} {es : List (List Ev)}
    {e : List Ev}, Good sid ts vs (es ++ [e]) →
    Good sid ts (vs.map fun v => if covers d sid ts then none else v) (es ++ [e ++ [.del q p d]])
  | [], [], _, h => h.elim
  | [], _ :: _, _, h => h.elim
  | v :: vs, [], e, h => by
    have hv : vs = [] := by
      have := Good.length h
      simp at this
      exact this
    subst hv
    have h1 := h.1
    refine ⟨?_, trivial⟩
    simp only [List.any_nil, Bool.false_eq_true, if_false] at h1 ⊢
    rw [lastEv_snoc_del, h1]
    split <;> simp
  | v :: vs, e' :: es, e, h => by
    refine ⟨?_, Good.del q p d h.2⟩
    have h1 : v = if (es ++ [e]).any (hasDel sid ts) then none else (lastEv sid ts e').join := h.1
    show (if covers d sid ts then none else v) =
      if (es ++ [e ++ [Ev.del q p d]]).any (hasDel sid ts) then none else (lastEv sid ts e').join
    simp only [List.any_append, List.any_cons, List.any_nil, Bool.or_false, hasDel_append] at h1 ⊢
    by_cases hc : covers d sid ts = true
    · have : hasDel sid ts [.del q p d] = true := by simp [hasDel, Ev.at, hc]
      simp [hc, this]
    · have : hasDel sid ts [.del q p d] = false := by simp [hasDel, Ev.at, hc]
      rw [this]
      simp only [hc, Bool.false_eq_true, if_false, Bool.or_false]
      exact h1

end Verif.Replica
