import Verif.Line.Model
/-!
# The parser with the current texts instead of positions

`aparse` keeps the bytes of the current key and value where `parse` keeps positions.  Both agree on every text (`parse_eq_aparse`); in
particular no slice of `parse` is out of bounds.
-/
namespace Verif.LineProto

variable {F : Type}

/-- A text being read and whether there is a backslash in it. -/
structure Acc where
  text : Bytes
  esc : Bool

/-- The variables of `parse` with texts for positions. -/
structure ASt (F : Type) where
  lines : List (Line F)
  line : Line F
  comment : Bool
  skip : Bool
  nextEsc : Bool
  key : Acc
  val : Acc
  status : Status
  quotes : Bool

def ASt.init (F : Type) : ASt F := ⟨[], Line.empty F, false, false, false, ⟨[], false⟩, ⟨[], false⟩, .lineBegin, false⟩

def Acc.add (a : Acc) (c : Byte) : Acc := { a with text := a.text ++ [c] }

def Acc.addEsc (a : Acc) (c : Byte) : Acc := ⟨a.text ++ [c], true⟩

def apushTag (s : ASt F) : Except Err (Line F) := do
  let k ← escape s.key.text s.key.esc
  let v ← escape s.val.text s.val.esc
  return { s.line with tags := s.line.tags ++ [(k, v)] }

def apushField (fast : Bytes → Option F) (s : ASt F) : Except Err (Line F) := do
  let k ← escape s.key.text s.key.esc
  let v ← parseValue fast s.val.text s.val.esc
  return { s.line with fields := s.line.fields ++ [(k, v)] }

def astep (fast : Bytes → Option F) (dflt : Int) (c : Byte) (s : ASt F) : Except Err (ASt F) :=
  match s.status with
  | .lineBegin =>
    if s.comment && (c == CR || c == LF) then .ok { s with comment := false }
    else if s.comment || isWs c then .ok s
    else if c = HS then .ok { s with comment := true }
    else .ok { s with key := ⟨[c], false⟩, status := .table }
  | .table =>
    if s.skip then
      if c = SP then .ok s else .ok { s with skip := false, key := ⟨[c], false⟩, status := .fieldKey }
    else if s.nextEsc then
      if escOkTable c then .ok { s with nextEsc := false, key := s.key.add c } else .error .err
    else if c = BS then .ok { s with nextEsc := true, key := s.key.addEsc c }
    else if c = CM then do
      let t ← escape s.key.text s.key.esc
      return { s with line := { s.line with table := t }, key := ⟨[], false⟩, status := .tagKey }
    else if c = SP then do
      let t ← escape s.key.text s.key.esc
      return { s with line := { s.line with table := t }, skip := true }
    else .ok { s with key := s.key.add c }
  | .tagKey =>
    if s.nextEsc then
      if escOkKey c then .ok { s with nextEsc := false, key := s.key.add c } else .error .err
    else if c = BS then .ok { s with nextEsc := true, key := s.key.addEsc c }
    else if c = EQ then .ok { s with val := ⟨[], false⟩, status := .tagValue }
    else .ok { s with key := s.key.add c }
  | .tagValue =>
    if s.skip then
      if c = SP then .ok s else .ok { s with skip := false, key := ⟨[c], false⟩, status := .fieldKey }
    else if s.nextEsc then
      if escOkKey c then .ok { s with nextEsc := false, val := s.val.add c } else .error .err
    else if c = BS then .ok { s with nextEsc := true, val := s.val.addEsc c }
    else if c = CM then do
      let l ← apushTag s
      return { s with line := l, key := ⟨[], false⟩, status := .tagKey }
    else if c = SP then do
      let l ← apushTag s
      return { s with line := l, skip := true }
    else .ok { s with val := s.val.add c }
  | .fieldKey =>
    if s.nextEsc then
      if escOkKey c then .ok { s with nextEsc := false, key := s.key.add c } else .error .err
    else if c = BS then .ok { s with nextEsc := true, key := s.key.addEsc c }
    else if c = EQ then .ok { s with val := ⟨[], false⟩, status := .fieldValue }
    else .ok { s with key := s.key.add c }
  | .fieldValue =>
    if s.skip then
      if c = SP then .ok s else .ok { s with skip := false, key := ⟨[c], false⟩, status := .timestamp }
    else if s.nextEsc then
      if escOkValue c then .ok { s with nextEsc := false, val := s.val.add c } else .error .err
    else if c = DQ then .ok { s with quotes := !s.quotes, val := s.val.add c }
    else if c = BS then .ok { s with nextEsc := true, val := s.val.addEsc c }
    else if c = CM ∧ s.quotes = false then do
      let l ← apushField fast s
      return { s with line := l, key := ⟨[], false⟩, status := .fieldKey }
    else if c = SP ∧ s.quotes = false then do
      let l ← apushField fast s
      return { s with line := l, skip := true }
    else if (c = CR ∨ c = LF) ∧ s.quotes = false then do
      let l ← apushField fast s
      return { s with lines := s.lines ++ [{ l with timestamp := dflt }.finish], line := Line.empty F, status := .lineBegin }
    else .ok { s with val := s.val.add c }
  | .timestamp =>
    if isWs c then
      match atoi s.key.text with
      | some t => .ok { s with lines := s.lines ++ [{ s.line with timestamp := t }.finish], line := Line.empty F, status := .lineBegin }
      | none => .error .err
    else .ok { s with key := s.key.add c }

def aloop (fast : Bytes → Option F) (dflt : Int) : Bytes → ASt F → Except Err (ASt F)
  | [], s => .ok s
  | c :: rest, s =>
    match astep fast dflt c s with
    | .ok s => aloop fast dflt rest s
    | .error e => .error e

def aclose (fast : Bytes → Option F) (dflt : Int) (s : ASt F) : Except Err (List (Line F)) :=
  match s.status with
  | .timestamp =>
    match atoiPrefix s.key.text with
    | some t => .ok (s.lines ++ [{ s.line with timestamp := t }.finish])
    | none => .error .err
  | .fieldValue =>
    if s.quotes then .error .err
    else do
      let l ← if s.skip = false ∧ s.key.text ≠ [] ∧ s.val.text ≠ [] then apushField fast s else .ok s.line
      return s.lines ++ [{ l with timestamp := dflt }.finish]
  | .lineBegin => .ok s.lines
  | _ => .error .err

def aparse (fast : Bytes → Option F) (dflt : Int) (data : Bytes) : Except Err (List (Line F)) :=
  match aloop fast dflt data (ASt.init F) with
  | .ok s => aclose fast dflt s
  | .error e => .error e

/-! ## Both agree -/

/-- The text from the position is the one read so far. -/
def At (data : Bytes) (i : Nat) (x : Idx) (a : Acc) : Prop :=
  x.lo ≤ i ∧ (data.drop x.lo).take (i - x.lo) = a.text ∧ x.esc = a.esc

/-- The text between the positions is the one read. -/
def Done (data : Bytes) (i : Nat) (x : Idx) (a : Acc) : Prop :=
  x.lo ≤ x.hi ∧ x.hi ≤ i ∧ (data.drop x.lo).take (x.hi - x.lo) = a.text ∧ x.esc = a.esc

/-- What the positions and texts have to do with each other, by status. -/
def Ties (data : Bytes) (i : Nat) (st : Status) (skip : Bool) (k : Idx) (v : Idx) (ka va : Acc) : Prop :=
  match st with
  | .lineBegin => True
  | .table => 0 < i ∧ (skip = false → At data i k ka)
  | .tagKey => 0 < i ∧ At data i k ka
  | .fieldKey => skip = false ∧ 0 < i ∧ At data i k ka
  | .tagValue => 0 < i ∧ (skip = false → Done data i k ka ∧ At data i v va)
  | .fieldValue => 0 < i ∧ (skip = false → Done data i k ka ∧ At data i v va) ∧ (skip = true → k.hi ≤ k.lo)
  | .timestamp => 0 < k.lo ∧ k.lo < i ∧ At data i k ka

/-- The states agree. -/
structure Rel (data : Bytes) (i : Nat) (s : St F) (a : ASt F) : Prop where
  lines : s.lines = a.lines
  line : s.line = a.line
  comment : s.comment = a.comment
  skip : s.skip = a.skip
  nextEsc : s.nextEsc = a.nextEsc
  status : s.status = a.status
  quotes : s.quotes = a.quotes
  le : i ≤ data.length
  ties : Ties data i s.status s.skip s.key s.val a.key a.val

/-- Same outcome, up to a relation. -/
def Sim {A B : Type} (R : A → B → Prop) : Except Err A → Except Err B → Prop
  | .ok a, .ok b => R a b
  | .error e, .error e' => e = e'
  | _, _ => False

theorem At.add {data : Bytes} {i : Nat} {x : Idx} {a : Acc} {c : Byte} (h : At data i x a) (hc : data[i]? = some c) :
    At data (i + 1) x (a.add c) := by
  obtain ⟨h1, h2, h3⟩ := h
  refine ⟨by omega, ?_, h3⟩
  have : i + 1 - x.lo = (i - x.lo) + 1 := by omega
  rw [this, List.take_add_one, h2, List.getElem?_drop, show x.lo + (i - x.lo) = i by omega, hc]
  rfl

theorem At.addEsc {data : Bytes} {i : Nat} {x : Idx} {a : Acc} {c : Byte} (h : At data i x a) (hc : data[i]? = some c) :
    At data (i + 1) { x with esc := true } (a.addEsc c) := by
  obtain ⟨h1, h2, h3⟩ := h.add hc
  exact ⟨h1, h2, rfl⟩

theorem At.one {data : Bytes} {i : Nat} {c : Byte} (hc : data[i]? = some c) : At data (i + 1) ⟨i, 0, false⟩ ⟨[c], false⟩ := by
  refine ⟨by simp, ?_, rfl⟩
  simp only [show i + 1 - i = 0 + 1 by omega, List.take_add_one, List.getElem?_drop, List.take_zero]
  simp [hc]

theorem At.nil {data : Bytes} {i : Nat} : At data i ⟨i, 0, false⟩ ⟨[], false⟩ := by
  refine ⟨Nat.le_refl _, ?_, rfl⟩
  simp

theorem At.done {data : Bytes} {i : Nat} {x : Idx} {a : Acc} (h : At data i x a) : Done data (i + 1) { x with hi := i } a :=
  ⟨h.1, Nat.le_succ _, h.2.1, h.2.2⟩

theorem Done.succ {data : Bytes} {i : Nat} {x : Idx} {a : Acc} (h : Done data i x a) : Done data (i + 1) x a :=
  ⟨h.1, by have := h.2.1; omega, h.2.2⟩

theorem At.slice {data : Bytes} {i : Nat} {x : Idx} {a : Acc} (h : At data i x a) (hl : i ≤ data.length) :
    slice data x.lo i = .ok a.text := by
  unfold LineProto.slice
  rw [if_pos ⟨h.1, hl⟩, h.2.1]

theorem Done.slice {data : Bytes} {i : Nat} {x : Idx} {a : Acc} (h : Done data i x a) (hl : i ≤ data.length) :
    slice data x.lo x.hi = .ok a.text := by
  unfold LineProto.slice
  rw [if_pos ⟨h.1, by have := h.2.1; omega⟩, h.2.2.1]

theorem pushTag_eq {data : Bytes} {i : Nat} {s : St F} {a : ASt F} (hl : i ≤ data.length) (hline : s.line = a.line)
    (hk : Done data i s.key a.key) (hv : At data i s.val a.val) : pushTag data i s = apushTag a := by
  unfold pushTag apushTag
  rw [hk.slice hl, hv.slice hl, hk.2.2.2, hv.2.2, hline]
  rfl

theorem pushField_eq {fast : Bytes → Option F} {data : Bytes} {i : Nat} {s : St F} {a : ASt F} (hl : i ≤ data.length)
    (hline : s.line = a.line) (hk : Done data i s.key a.key) (hv : At data i s.val a.val) :
    pushField fast data i s = apushField fast a := by
  unfold pushField apushField
  rw [hk.slice hl, hv.slice hl, hk.2.2.2, hv.2.2, hline]
  rfl

theorem Sim.bind {A B C D : Type} {R : C → D → Prop} {S : A → B → Prop} {x : Except Err A} {y : Except Err B} {f : A → Except Err C}
    {g : B → Except Err D} (h : Sim S x y) (hf : ∀ a b, S a b → Sim R (f a) (g b)) : Sim R (x >>= f) (y >>= g) := by
  cases x <;> cases y <;> simp_all [Sim, Bind.bind, Except.bind]

theorem Sim.refl {A : Type} (x : Except Err A) : Sim Eq x x := by
  cases x <;> simp [Sim]

theorem step_sim (fast : Bytes → Option F) (dflt : Int) {data : Bytes} {i : Nat} {c : Byte} {s : St F} {a : ASt F}
    (h : Rel data i s a) (hc : data[i]? = some c) : Sim (Rel data (i + 1)) (step fast dflt data i c s) (astep fast dflt c a) := by
  have hl : i + 1 ≤ data.length := by
    have := (List.getElem?_eq_some_iff.1 hc).1
    omega
  obtain ⟨lines, line, comment, skip, nextEsc, key, val, status, quotes⟩ := s
  obtain ⟨lines', line', comment', skip', nextEsc', ka, va, status', quotes'⟩ := a
  obtain ⟨h1, h2, h3, h4, h5, h6, h7, hle, ht⟩ := h
  simp only at h1 h2 h3 h4 h5 h6 h7 ht
  subst h1 h2 h3 h4 h5 h6 h7
  cases status with
  | lineBegin =>
    simp only [step, astep]
    split
    · exact ⟨rfl, rfl, rfl, rfl, rfl, rfl, rfl, hl, trivial⟩
    · split
      · exact ⟨rfl, rfl, rfl, rfl, rfl, rfl, rfl, hl, trivial⟩
      · split
        · exact ⟨rfl, rfl, rfl, rfl, rfl, rfl, rfl, hl, trivial⟩
        · exact ⟨rfl, rfl, rfl, rfl, rfl, rfl, rfl, hl, Nat.succ_pos _, fun _ => At.one hc⟩
  | table =>
    obtain ⟨hp, hk⟩ := ht
    simp only [step, astep]
    cases skip with
    | true =>
      simp only [if_true]
      split
      · exact ⟨rfl, rfl, rfl, rfl, rfl, rfl, rfl, hl, Nat.succ_pos _, fun h => by cases h⟩
      · exact ⟨rfl, rfl, rfl, rfl, rfl, rfl, rfl, hl, rfl, Nat.succ_pos _, At.one hc⟩
    | false =>
      have hk := hk rfl
      simp only [Bool.false_eq_true, if_false]
      cases nextEsc with
      | true =>
        simp only [if_true]
        split
        · exact ⟨rfl, rfl, rfl, rfl, rfl, rfl, rfl, hl, Nat.succ_pos _, fun _ => hk.add hc⟩
        · exact rfl
      | false =>
        simp only [Bool.false_eq_true, if_false]
        split
        · exact ⟨rfl, rfl, rfl, rfl, rfl, rfl, rfl, hl, Nat.succ_pos _, fun _ => hk.addEsc hc⟩
        · split
          · rw [hk.slice hle, hk.2.2]
            refine Sim.bind (x := escape ka.text ka.esc) (Sim.refl _) ?_
            rintro t _ rfl
            exact ⟨rfl, rfl, rfl, rfl, rfl, rfl, rfl, hl, Nat.succ_pos _, At.nil⟩
          · split
            · rw [hk.slice hle, hk.2.2]
              refine Sim.bind (x := escape ka.text ka.esc) (Sim.refl _) ?_
              rintro t _ rfl
              exact ⟨rfl, rfl, rfl, rfl, rfl, rfl, rfl, hl, Nat.succ_pos _, fun h => by cases h⟩
            · exact ⟨rfl, rfl, rfl, rfl, rfl, rfl, rfl, hl, Nat.succ_pos _, fun _ => hk.add hc⟩
  | tagKey =>
    obtain ⟨hp, hk⟩ := ht
    simp only [step, astep]
    cases nextEsc with
    | true =>
      simp only [if_true]
      split
      · exact ⟨rfl, rfl, rfl, rfl, rfl, rfl, rfl, hl, Nat.succ_pos _, hk.add hc⟩
      · exact rfl
    | false =>
      simp only [Bool.false_eq_true, if_false]
      split
      · exact ⟨rfl, rfl, rfl, rfl, rfl, rfl, rfl, hl, Nat.succ_pos _, hk.addEsc hc⟩
      · split
        · exact ⟨rfl, rfl, rfl, rfl, rfl, rfl, rfl, hl, Nat.succ_pos _, fun _ => ⟨hk.done, At.nil⟩⟩
        · exact ⟨rfl, rfl, rfl, rfl, rfl, rfl, rfl, hl, Nat.succ_pos _, hk.add hc⟩
  | tagValue =>
    obtain ⟨hp, hk⟩ := ht
    simp only [step, astep]
    cases skip with
    | true =>
      simp only [if_true]
      split
      · exact ⟨rfl, rfl, rfl, rfl, rfl, rfl, rfl, hl, Nat.succ_pos _, fun h => by cases h⟩
      · exact ⟨rfl, rfl, rfl, rfl, rfl, rfl, rfl, hl, rfl, Nat.succ_pos _, At.one hc⟩
    | false =>
      obtain ⟨hk, hv⟩ := hk rfl
      simp only [Bool.false_eq_true, if_false]
      cases nextEsc with
      | true =>
        simp only [if_true]
        split
        · exact ⟨rfl, rfl, rfl, rfl, rfl, rfl, rfl, hl, Nat.succ_pos _, fun _ => ⟨hk.succ, hv.add hc⟩⟩
        · exact rfl
      | false =>
        simp only [Bool.false_eq_true, if_false]
        split
        · exact ⟨rfl, rfl, rfl, rfl, rfl, rfl, rfl, hl, Nat.succ_pos _, fun _ => ⟨hk.succ, hv.addEsc hc⟩⟩
        · split
          · rw [pushTag_eq (a := ⟨lines, line, comment, false, false, ka, va, .tagValue, quotes⟩) hle rfl hk hv]
            refine Sim.bind (Sim.refl _) ?_
            rintro t _ rfl
            exact ⟨rfl, rfl, rfl, rfl, rfl, rfl, rfl, hl, Nat.succ_pos _, At.nil⟩
          · split
            · rw [pushTag_eq (a := ⟨lines, line, comment, false, false, ka, va, .tagValue, quotes⟩) hle rfl hk hv]
              refine Sim.bind (Sim.refl _) ?_
              rintro t _ rfl
              exact ⟨rfl, rfl, rfl, rfl, rfl, rfl, rfl, hl, Nat.succ_pos _, fun h => by cases h⟩
            · exact ⟨rfl, rfl, rfl, rfl, rfl, rfl, rfl, hl, Nat.succ_pos _, fun _ => ⟨hk.succ, hv.add hc⟩⟩
  | fieldKey =>
    obtain ⟨hsk, hp, hk⟩ := ht
    simp only [step, astep]
    cases nextEsc with
    | true =>
      simp only [if_true]
      split
      · exact ⟨rfl, rfl, rfl, rfl, rfl, rfl, rfl, hl, hsk, Nat.succ_pos _, hk.add hc⟩
      · exact rfl
    | false =>
      simp only [Bool.false_eq_true, if_false]
      split
      · exact ⟨rfl, rfl, rfl, rfl, rfl, rfl, rfl, hl, hsk, Nat.succ_pos _, hk.addEsc hc⟩
      · split
        · exact ⟨rfl, rfl, rfl, rfl, rfl, rfl, rfl, hl, Nat.succ_pos _, fun _ => ⟨hk.done, At.nil⟩, fun h => by cases hsk.symm.trans h⟩
        · exact ⟨rfl, rfl, rfl, rfl, rfl, rfl, rfl, hl, hsk, Nat.succ_pos _, hk.add hc⟩
  | fieldValue =>
    obtain ⟨hp, hk, hs⟩ := ht
    simp only [step, astep]
    cases skip with
    | true =>
      simp only [if_true]
      split
      · exact ⟨rfl, rfl, rfl, rfl, rfl, rfl, rfl, hl, Nat.succ_pos _, (fun h => by cases h), hs⟩
      · exact ⟨rfl, rfl, rfl, rfl, rfl, rfl, rfl, hl, hp, Nat.lt_succ_self _, At.one hc⟩
    | false =>
      obtain ⟨hk, hv⟩ := hk rfl
      simp only [Bool.false_eq_true, if_false]
      cases nextEsc with
      | true =>
        simp only [if_true]
        split
        · exact ⟨rfl, rfl, rfl, rfl, rfl, rfl, rfl, hl, Nat.succ_pos _, fun _ => ⟨hk.succ, hv.add hc⟩, hs⟩
        · exact rfl
      | false =>
        simp only [Bool.false_eq_true, if_false]
        have e := pushField_eq (fast := fast) (s := ⟨lines, line, comment, false, false, key, val, .fieldValue, quotes⟩)
          (a := ⟨lines, line, comment, false, false, ka, va, .fieldValue, quotes⟩) hle rfl hk hv
        split
        · exact ⟨rfl, rfl, rfl, rfl, rfl, rfl, rfl, hl, Nat.succ_pos _, fun _ => ⟨hk.succ, hv.add hc⟩, hs⟩
        · split
          · exact ⟨rfl, rfl, rfl, rfl, rfl, rfl, rfl, hl, Nat.succ_pos _, fun _ => ⟨hk.succ, hv.addEsc hc⟩, hs⟩
          · split
            · rw [e]
              refine Sim.bind (Sim.refl _) ?_
              rintro t _ rfl
              exact ⟨rfl, rfl, rfl, rfl, rfl, rfl, rfl, hl, rfl, Nat.succ_pos _, At.nil⟩
            · split
              · rw [e]
                refine Sim.bind (Sim.refl _) ?_
                rintro t _ rfl
                exact ⟨rfl, rfl, rfl, rfl, rfl, rfl, rfl, hl, Nat.succ_pos _, (fun h => by cases h), fun _ => Nat.zero_le _⟩
              · split
                · rw [e]
                  refine Sim.bind (Sim.refl _) ?_
                  rintro t _ rfl
                  exact ⟨rfl, rfl, rfl, rfl, rfl, rfl, rfl, hl, trivial⟩
                · exact ⟨rfl, rfl, rfl, rfl, rfl, rfl, rfl, hl, Nat.succ_pos _, fun _ => ⟨hk.succ, hv.add hc⟩, hs⟩
  | timestamp =>
    obtain ⟨hp, hk, ha⟩ := ht
    simp only [step, astep]
    split
    · rw [if_neg (by omega), ha.slice hle]
      simp only [Bind.bind, Except.bind]
      cases atoi ka.text with
      | none => exact rfl
      | some t => exact ⟨rfl, rfl, rfl, rfl, rfl, rfl, rfl, hl, trivial⟩
    · exact ⟨rfl, rfl, rfl, rfl, rfl, rfl, rfl, hl, hp, Nat.lt_succ_of_lt hk, ha.add hc⟩

theorem loop_sim (fast : Bytes → Option F) (dflt : Int) {data : Bytes} (rest : Bytes) {i : Nat} {s : St F} {a : ASt F}
    (h : Rel data i s a) (hr : data.drop i = rest) :
    Sim (Rel data (i + rest.length)) (loop fast dflt data i rest s) (aloop fast dflt rest a) := by
  induction rest generalizing i s a with
  | nil => exact h
  | cons c rest ih =>
    have hc : data[i]? = some c := by
      have := congrArg (fun l => l[0]?) hr
      simpa [List.getElem?_drop] using this
    have hs := step_sim fast dflt h hc
    have hr' : data.drop (i + 1) = rest := by
      rw [← List.drop_drop, hr]; rfl
    rw [loop, aloop]
    cases e1 : step fast dflt data i c s with
    | ok s' =>
      cases e2 : astep fast dflt c a with
      | ok a' =>
        rw [e1, e2] at hs
        have := ih hs hr'
        simp only [List.length_cons]
        rw [show i + (rest.length + 1) = i + 1 + rest.length by omega]
        exact this
      | error e => rw [e1, e2] at hs; exact hs.elim
    | error e =>
      cases e2 : astep fast dflt c a with
      | ok a' => rw [e1, e2] at hs; exact hs.elim
      | error e' => rw [e1, e2] at hs; exact hs

theorem close_sim (fast : Bytes → Option F) (dflt : Int) {data : Bytes} {s : St F} {a : ASt F} (h : Rel data data.length s a) :
    close fast dflt data s = aclose fast dflt a := by
  obtain ⟨lines, line, comment, skip, nextEsc, key, val, status, quotes⟩ := s
  obtain ⟨lines', line', comment', skip', nextEsc', ka, va, status', quotes'⟩ := a
  obtain ⟨h1, h2, h3, h4, h5, h6, h7, hle, ht⟩ := h
  simp only at h1 h2 h3 h4 h5 h6 h7 ht
  subst h1 h2 h3 h4 h5 h6 h7
  cases status with
  | timestamp =>
    obtain ⟨hp, hk, ha⟩ := ht
    simp only [close, aclose]
    rw [if_neg (Nat.ne_of_gt hp), ha.slice hle]
    simp only [Bind.bind, Except.bind]
    cases atoiPrefix ka.text <;> rfl
  | fieldValue =>
    obtain ⟨hp, hk, hs⟩ := ht
    simp only [close, aclose]
    cases quotes with
    | true => rfl
    | false =>
      simp only [Bool.false_eq_true, if_false]
      cases skip with
      | true =>
        rw [if_neg (by have := hs rfl; omega), if_neg (by simp)]
      | false =>
        obtain ⟨hk, hv⟩ := hk rfl
        have e := pushField_eq (fast := fast) (s := ⟨lines, line, comment, false, nextEsc, key, val, .fieldValue, false⟩)
          (a := ⟨lines, line, comment, false, nextEsc, ka, va, .fieldValue, false⟩) hle rfl hk hv
        have c1 : key.lo < key.hi ↔ ka.text ≠ [] := by
          rw [← List.length_pos_iff, ← hk.2.2.1, List.length_take, List.length_drop]
          have := hk.1; have := hk.2.1
          omega
        have c2 : val.lo < data.length ↔ va.text ≠ [] := by
          rw [← List.length_pos_iff, ← hv.2.1, List.length_take, List.length_drop]
          have := hv.1
          omega
        by_cases hq : key.lo < key.hi ∧ val.lo < data.length
        · rw [if_pos hq, if_pos ⟨rfl, c1.1 hq.1, c2.1 hq.2⟩, e]
        · rw [if_neg hq, if_neg (by rw [← c1, ← c2]; exact fun h => hq h.2)]
  | lineBegin => rfl
  | table => rfl
  | tagKey => rfl
  | tagValue => rfl
  | fieldKey => rfl

/-- The parser with positions and the one with texts agree on every text. -/
theorem parse_eq_aparse (fast : Bytes → Option F) (dflt : Int) (data : Bytes) : parse fast dflt data = aparse fast dflt data := by
  have h := loop_sim fast dflt (data := data) data (i := 0) (s := St.init F) (a := ASt.init F)
    ⟨rfl, rfl, rfl, rfl, rfl, rfl, rfl, Nat.zero_le _, trivial⟩ rfl
  unfold parse aparse
  cases e1 : loop fast dflt data 0 data (St.init F) with
  | ok s =>
    cases e2 : aloop fast dflt data (ASt.init F) with
    | ok a =>
      rw [e1, e2, Nat.zero_add] at h
      exact close_sim fast dflt h
    | error e => rw [e1, e2] at h; exact h.elim
  | error e =>
    cases e2 : aloop fast dflt data (ASt.init F) with
    | ok a => rw [e1, e2] at h; exact h.elim
    | error e' => rw [e1, e2] at h; exact congrArg _ h

end Verif.LineProto
