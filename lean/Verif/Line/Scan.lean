import Verif.Line.Text
/-!
# Scanning the text of a point
-/
namespace Verif.LineProto

variable {F : Type} (fast : Bytes → Option F) (dflt : Int)

theorem aloop_append (x y : Bytes) (s : ASt F) :
    aloop fast dflt (x ++ y) s = match aloop fast dflt x s with
      | .ok s => aloop fast dflt y s
      | .error e => .error e := by
  induction x generalizing s with
  | nil => rfl
  | cons c x ih =>
    rw [List.cons_append, aloop, aloop]
    cases astep fast dflt c s with
    | ok s' => exact ih s'
    | error e => rfl

/-- Reading the text brings one state to another. -/
def Runs (x : Bytes) (s s' : ASt F) : Prop := aloop fast dflt x s = .ok s'

variable {fast dflt}

theorem Runs.append {x y : Bytes} {s s' s'' : ASt F} (h : Runs fast dflt x s s') (h' : Runs fast dflt y s' s'') :
    Runs fast dflt (x ++ y) s s'' := by
  unfold Runs at *
  rw [aloop_append, h]
  exact h'

theorem Runs.nil (s : ASt F) : Runs fast dflt [] s s := rfl

theorem Runs.one {c : Byte} {s s' : ASt F} (h : astep fast dflt c s = .ok s') : Runs fast dflt [c] s s' := by
  unfold Runs
  rw [aloop, h]
  rfl

theorem Runs.cons {c : Byte} {x : Bytes} {s s' s'' : ASt F} (h : astep fast dflt c s = .ok s') (h' : Runs fast dflt x s' s'') :
    Runs fast dflt (c :: x) s s'' := (Runs.one h).append h'

theorem inKey_false {c : Byte} (h : inKey c = false) : c ≠ CM ∧ c ≠ SP ∧ c ≠ EQ := by
  simpa [inKey, and_assoc] using h

theorem inKey_escOk {c : Byte} (h : inKey c = true) : escOkKey c = true := by
  simp only [inKey, escOkKey, Bool.or_eq_true] at *
  tauto

theorem inTable_escOk {c : Byte} (h : inTable c = true) : escOkTable c = true := by
  simp only [inTable, escOkTable, Bool.or_eq_true] at *
  tauto

/-- A text read so far with more behind it. -/
def Acc.more (a : Acc) (x : Bytes) (e : Bool) : Acc := ⟨a.text ++ x, a.esc || e⟩

theorem Acc.more_nil (a : Acc) : a.more [] false = a := by simp [Acc.more]

/-- Reading a quoted text, for a state `f` in which it is read and a state `g` behind a backslash. -/
theorem runs_quote {sp : Byte → Bool} {f g : Acc → ASt F} (n : Bytes) (a : Acc)
    (h1 : ∀ a, astep fast dflt BS (f a) = .ok (g (a.addEsc BS)))
    (h2 : ∀ a, ∀ c ∈ n, sp c = true → astep fast dflt c (g a) = .ok (f (a.add c)))
    (h3 : ∀ a, ∀ c ∈ n, sp c = false → astep fast dflt c (f a) = .ok (f (a.add c))) :
    Runs fast dflt (quote sp n) (f a) (f (a.more (quote sp n) (n.any sp))) := by
  induction n generalizing a with
  | nil => rw [quote_nil, List.any_nil, Acc.more_nil]; exact Runs.nil _
  | cons c n ih =>
    have ih := fun a => ih a (fun a c hc => h2 a c (List.mem_cons_of_mem _ hc)) (fun a c hc => h3 a c (List.mem_cons_of_mem _ hc))
    rw [quote_cons]
    cases hs : sp c with
    | true =>
      have e : a.more ([BS, c] ++ quote sp n) ((c :: n).any sp) = ((a.addEsc BS).add c).more (quote sp n) (n.any sp) := by
        simp [Acc.more, Acc.add, Acc.addEsc, hs]
      rw [if_pos rfl, e]
      exact ((Runs.one (h1 a)).append (Runs.one (h2 _ c List.mem_cons_self hs))).append (ih _)
    | false =>
      have e : a.more ([c] ++ quote sp n) ((c :: n).any sp) = (a.add c).more (quote sp n) (n.any sp) := by
        simp [Acc.more, Acc.add, hs]
      rw [if_neg (by simp), e]
      exact (Runs.one (h3 a c List.mem_cons_self hs)).append (ih _)

variable (L : List (Line F)) (ln : Line F)

/-- A state of the scanner between two bytes of a line, outside of escapes. -/
def at_ (L : List (Line F)) (ln : Line F) (st : Status) (k v : Acc) : ASt F := ⟨L, ln, false, false, false, k, v, st, false⟩

theorem ne_of_not_mem {n : Bytes} {c : Byte} (h : BS ∉ n) (hc : c ∈ n) : c ≠ BS := by
  rintro rfl
  exact h hc

theorem runs_tagKey (v : Acc) (n : Bytes) (k : Acc) (h : BS ∉ n) :
    Runs fast dflt (quote inKey n) (at_ L ln .tagKey k v) (at_ L ln .tagKey (k.more (quote inKey n) (n.any inKey)) v) := by
  refine runs_quote (f := fun k => at_ L ln .tagKey k v) (g := fun k => { at_ L ln .tagKey k v with nextEsc := true }) n k ?_ ?_ ?_
  · intro a; simp [astep, at_]
  · intro a c _ hc; simp [astep, at_, inKey_escOk hc]
  · intro a c hm hc; simp [astep, at_, ne_of_not_mem h hm, inKey_false hc]

theorem runs_fieldKey (v : Acc) (n : Bytes) (k : Acc) (h : BS ∉ n) :
    Runs fast dflt (quote inKey n) (at_ L ln .fieldKey k v) (at_ L ln .fieldKey (k.more (quote inKey n) (n.any inKey)) v) := by
  refine runs_quote (f := fun k => at_ L ln .fieldKey k v) (g := fun k => { at_ L ln .fieldKey k v with nextEsc := true }) n k ?_ ?_ ?_
  · intro a; simp [astep, at_]
  · intro a c _ hc; simp [astep, at_, inKey_escOk hc]
  · intro a c hm hc; simp [astep, at_, ne_of_not_mem h hm, inKey_false hc]

theorem runs_tagValue (k : Acc) (n : Bytes) (v : Acc) (h : BS ∉ n) :
    Runs fast dflt (quote inKey n) (at_ L ln .tagValue k v) (at_ L ln .tagValue k (v.more (quote inKey n) (n.any inKey))) := by
  refine runs_quote (f := fun v => at_ L ln .tagValue k v) (g := fun v => { at_ L ln .tagValue k v with nextEsc := true }) n v ?_ ?_ ?_
  · intro a; simp [astep, at_]
  · intro a c _ hc; simp [astep, at_, inKey_escOk hc]
  · intro a c hm hc; simp [astep, at_, ne_of_not_mem h hm, inKey_false hc]

theorem runs_table (v : Acc) (n : Bytes) (k : Acc) (h : BS ∉ n) :
    Runs fast dflt (quote inTable n) (at_ L ln .table k v) (at_ L ln .table (k.more (quote inTable n) (n.any inTable)) v) := by
  refine runs_quote (f := fun k => at_ L ln .table k v) (g := fun k => { at_ L ln .table k v with nextEsc := true }) n k ?_ ?_ ?_
  · intro a; simp [astep, at_]
  · intro a c _ hc; simp [astep, at_, inTable_escOk hc]
  · intro a c hm hc
    have : c ≠ CM ∧ c ≠ SP := by simpa [inTable] using hc
    simp [astep, at_, ne_of_not_mem h hm, this]

theorem runs_string (k : Acc) (n : Bytes) (v : Acc) :
    Runs fast dflt (quote inText n) { at_ L ln .fieldValue k v with quotes := true }
      { at_ L ln .fieldValue k (v.more (quote inText n) (n.any inText)) with quotes := true } := by
  refine runs_quote (f := fun v => { at_ L ln .fieldValue k v with quotes := true })
    (g := fun v => { at_ L ln .fieldValue k v with quotes := true, nextEsc := true }) n v ?_ ?_ ?_
  · intro a; simp [astep, at_, show BS ≠ DQ by decide]
  · intro a c _ hc
    have : escOkValue c = true := by
      rcases (by simpa [inText] using hc : c = DQ ∨ c = BS) with rfl | rfl <;> rfl
    simp [astep, at_, this]
  · intro a c _ hc
    have : c ≠ DQ ∧ c ≠ BS := by simpa [inText] using hc
    simp [astep, at_, this]

theorem runs_plain (k : Acc) (n : Bytes) (v : Acc) (h : ∀ c ∈ n, c ≠ DQ ∧ c ≠ BS ∧ c ≠ CM ∧ c ≠ SP ∧ c ≠ CR ∧ c ≠ LF) :
    Runs fast dflt n (at_ L ln .fieldValue k v) (at_ L ln .fieldValue k (v.more n false)) := by
  induction n generalizing v with
  | nil => rw [Acc.more_nil]; exact Runs.nil _
  | cons c n ih =>
    have hc := h c List.mem_cons_self
    have e : v.more (c :: n) false = (v.add c).more n false := by simp [Acc.more, Acc.add]
    rw [e]
    refine Runs.cons ?_ (ih _ fun c hc => h c (List.mem_cons_of_mem _ hc))
    simp [astep, at_, hc]

theorem runs_value {fl : F → Bytes} (k : Acc) {x : Value F} (h : ValueOk fast fl x) :
    Runs fast dflt (valueText fl x) (at_ L ln .fieldValue k ⟨[], false⟩) (at_ L ln .fieldValue k ⟨valueText fl x, x.needs⟩) := by
  have plain : ∀ n : Bytes, (∀ c ∈ n, c ≠ DQ ∧ c ≠ BS ∧ c ≠ CM ∧ c ≠ SP ∧ c ≠ CR ∧ c ≠ LF) →
      Runs fast dflt n (at_ L ln .fieldValue k ⟨[], false⟩) (at_ L ln .fieldValue k ⟨n, false⟩) :=
    fun n h => runs_plain L ln k n ⟨[], false⟩ h
  cases x with
  | i64 v =>
    refine plain _ fun c hc => ?_
    rcases List.mem_append.1 hc with hc | hc
    · exact (num_plain (decInt_mem hc)).1
    · rw [List.mem_singleton.1 hc]; decide
  | u64 v =>
    refine plain _ fun c hc => ?_
    rcases List.mem_append.1 hc with hc | hc
    · exact (num_plain (.inr (dec_isDigit _ _ hc))).1
    · rw [List.mem_singleton.1 hc]; decide
  | f64 v => exact plain _ h.plain
  | bool v =>
    refine plain _ ?_
    cases v <;> (simp only [valueText]; decide)
  | str v =>
    refine Runs.cons (s' := { at_ L ln .fieldValue k ⟨[DQ], false⟩ with quotes := true }) ?_ ?_
    · simp [astep, at_, Acc.add]
    · refine Runs.append (runs_string L ln k v ⟨[DQ], false⟩) (Runs.one ?_)
      simp [astep, at_, Acc.add, Acc.more, valueText, Value.needs]

theorem runs_digits (n : Bytes) (k v : Acc) (h : ∀ c ∈ n, isWs c = false) :
    Runs fast dflt n (at_ L ln .timestamp k v) (at_ L ln .timestamp (k.more n false) v) := by
  induction n generalizing k with
  | nil => rw [Acc.more_nil]; exact Runs.nil _
  | cons c n ih =>
    have e : k.more (c :: n) false = (k.add c).more n false := by simp [Acc.more, Acc.add]
    rw [e]
    refine Runs.cons ?_ (ih _ fun c hc => h c (List.mem_cons_of_mem _ hc))
    simp [astep, at_, h c List.mem_cons_self]

theorem runs_time (t : Int) (k v : Acc) :
    Runs fast dflt (decInt t) { at_ L ln .fieldValue k v with skip := true } (at_ L ln .timestamp ⟨decInt t, false⟩ v) := by
  have hm : ∀ c ∈ decInt t, isWs c = false := fun c hc => (num_plain (decInt_mem hc)).2.1
  have hp : ∀ c ∈ decInt t, c ≠ SP := fun c hc => (num_plain (decInt_mem hc)).1.2.2.2.1
  obtain ⟨c, l, e⟩ := List.exists_cons_of_ne_nil (decInt_ne_nil t)
  rw [e] at hm hp ⊢
  refine Runs.cons (s' := at_ L ln .timestamp ⟨[c], false⟩ v) ?_ ?_
  · simp [astep, at_, hp c List.mem_cons_self]
  · exact runs_digits L ln l ⟨[c], false⟩ v fun c hc => hm c (List.mem_cons_of_mem _ hc)

/-! ## Tags -/

theorem runs_tag (t : Bytes × Bytes) (v : Acc) (h : BS ∉ t.1 ∧ BS ∉ t.2) :
    Runs fast dflt (quote inKey t.1 ++ EQ :: quote inKey t.2) (at_ L ln .tagKey ⟨[], false⟩ v)
      (at_ L ln .tagValue ⟨quote inKey t.1, t.1.any inKey⟩ ⟨quote inKey t.2, t.2.any inKey⟩) := by
  refine (runs_tagKey L ln v t.1 ⟨[], false⟩ h.1).append ?_
  refine Runs.cons (s' := at_ L ln .tagValue ⟨quote inKey t.1, t.1.any inKey⟩ ⟨[], false⟩) ?_ ?_
  · simp [astep, at_, Acc.more]
    decide
  · exact runs_tagValue L ln ⟨quote inKey t.1, t.1.any inKey⟩ t.2 ⟨[], false⟩ h.2

theorem push_tag (t : Bytes × Bytes) :
    apushTag (at_ L ln .tagValue ⟨quote inKey t.1, t.1.any inKey⟩ ⟨quote inKey t.2, t.2.any inKey⟩) =
      .ok { ln with tags := ln.tags ++ [t] } := by
  simp only [apushTag, at_, escape_key]
  rfl

theorem runs_tags (l : List (Bytes × Bytes)) (t : Bytes × Bytes) (ln : Line F) (v : Acc)
    (h : ∀ x ∈ t :: l, BS ∉ x.1 ∧ BS ∉ x.2) :
    ∃ k v', Runs fast dflt (quote inKey t.1 ++ EQ :: quote inKey t.2 ++ (l.flatMap tagText ++ [SP])) (at_ L ln .tagKey ⟨[], false⟩ v)
      { at_ L { ln with tags := ln.tags ++ t :: l } .tagValue k v' with skip := true } := by
  induction l generalizing t ln v with
  | nil =>
    refine ⟨⟨quote inKey t.1, t.1.any inKey⟩, ⟨quote inKey t.2, t.2.any inKey⟩,
      (runs_tag L ln t v (h t List.mem_cons_self)).append (Runs.one ?_)⟩
    have := push_tag L ln t
    simp only [at_] at this
    simp [astep, at_, this, Bind.bind, Except.bind, pure, Except.pure, show ¬SP = BS by decide, show ¬SP = CM by decide]
  | cons u l ih =>
    obtain ⟨k, v', h'⟩ := ih u { ln with tags := ln.tags ++ [t] } ⟨quote inKey t.2, t.2.any inKey⟩
      (fun x hx => h x (List.mem_cons_of_mem _ hx))
    refine ⟨k, v', (runs_tag L ln t v (h t List.mem_cons_self)).append ?_⟩
    have e : (u :: l).flatMap tagText ++ [SP] = CM :: (quote inKey u.1 ++ EQ :: quote inKey u.2 ++ (l.flatMap tagText ++ [SP])) := by
      simp [tagText]
    rw [e]
    refine Runs.cons (s' := at_ L { ln with tags := ln.tags ++ [t] } .tagKey ⟨[], false⟩ ⟨quote inKey t.2, t.2.any inKey⟩) ?_ ?_
    · have := push_tag L ln t
      simp only [at_] at this
      simp [astep, at_, this, Bind.bind, Except.bind, pure, Except.pure, show ¬CM = BS by decide]
    · have e2 : ({ ln with tags := ln.tags ++ [t] } : Line F).tags ++ u :: l = ln.tags ++ t :: u :: l := by simp
      rw [e2] at h'
      exact h'

/-! ## Fields -/

theorem push_field {fl : F → Bytes} (f : Bytes × Value F) (h : ValueOk fast fl f.2) :
    apushField fast (at_ L ln .fieldValue ⟨quote inKey f.1, f.1.any inKey⟩ ⟨valueText fl f.2, f.2.needs⟩) =
      .ok { ln with fields := ln.fields ++ [f] } := by
  simp only [apushField, at_, escape_key, parseValue_text h, Bind.bind, Except.bind]
  rfl

theorem valueText_ne_nil {fl : F → Bytes} {x : Value F} (h : ValueOk fast fl x) : valueText fl x ≠ [] := by
  cases x with
  | i64 v => simp [valueText]
  | u64 v => simp [valueText]
  | f64 v =>
    obtain ⟨c, l, e, _⟩ := h.first
    simp [valueText, e]
  | str v => simp [valueText]
  | bool v => cases v <;> simp [valueText]

theorem quote_ne_nil {sp : Byte → Bool} {n : Bytes} (h : n ≠ []) : quote sp n ≠ [] := by
  cases n with
  | nil => exact absurd rfl h
  | cons c n => rw [quote_cons]; split <;> simp

/-- At the last byte of a value: what is pushed, and that there is something to push. -/
def Full (fast : Bytes → Option F) (L : List (Line F)) (ln : Line F) (s : ASt F) : Prop :=
  ∃ ln' k v, s = at_ L ln' .fieldValue k v ∧ k.text ≠ [] ∧ v.text ≠ [] ∧ apushField fast s = .ok ln

theorem runs_fields {fl : F → Bytes} (l : List (Bytes × Value F)) (f : Bytes × Value F) (ln : Line F) (v : Acc)
    (hb : ∀ x ∈ f :: l, BS ∉ x.1) (hn : ∀ x ∈ f :: l, x.1 ≠ []) (hv : ∀ x ∈ f :: l, ValueOk fast fl x.2) :
    ∃ s, Full fast L { ln with fields := ln.fields ++ f :: l } s ∧
      Runs fast dflt (EQ :: valueText fl f.2 ++ l.flatMap (fun g => CM :: fieldText fl g))
        (at_ L ln .fieldKey ⟨quote inKey f.1, f.1.any inKey⟩ v) s := by
  have h1 : Runs fast dflt (EQ :: valueText fl f.2) (at_ L ln .fieldKey ⟨quote inKey f.1, f.1.any inKey⟩ v)
      (at_ L ln .fieldValue ⟨quote inKey f.1, f.1.any inKey⟩ ⟨valueText fl f.2, f.2.needs⟩) := by
    refine Runs.cons (s' := at_ L ln .fieldValue ⟨quote inKey f.1, f.1.any inKey⟩ ⟨[], false⟩) ?_ ?_
    · simp [astep, at_]
      decide
    · exact runs_value L ln _ (hv f List.mem_cons_self)
  have hp := push_field L ln f (hv f List.mem_cons_self)
  induction l generalizing f ln v with
  | nil =>
    refine ⟨_, ⟨ln, _, _, rfl, quote_ne_nil (hn f List.mem_cons_self), valueText_ne_nil (hv f List.mem_cons_self), hp⟩, ?_⟩
    rw [List.flatMap_nil, List.append_nil]
    exact h1
  | cons g l ih =>
    have hg : g ∈ f :: g :: l := List.mem_cons_of_mem _ List.mem_cons_self
    have h2 : ∀ v, Runs fast dflt (EQ :: valueText fl g.2)
        (at_ L { ln with fields := ln.fields ++ [f] } .fieldKey ⟨quote inKey g.1, g.1.any inKey⟩ v)
        (at_ L { ln with fields := ln.fields ++ [f] } .fieldValue ⟨quote inKey g.1, g.1.any inKey⟩ ⟨valueText fl g.2, g.2.needs⟩) := by
      intro v
      refine Runs.cons (s' := at_ L { ln with fields := ln.fields ++ [f] } .fieldValue ⟨quote inKey g.1, g.1.any inKey⟩ ⟨[], false⟩) ?_ ?_
      · simp [astep, at_]
        decide
      · exact runs_value L _ _ (hv g hg)
    obtain ⟨s, hs, hr⟩ := ih g { ln with fields := ln.fields ++ [f] } ⟨valueText fl f.2, f.2.needs⟩
      (fun x hx => hb x (List.mem_cons_of_mem _ hx)) (fun x hx => hn x (List.mem_cons_of_mem _ hx))
      (fun x hx => hv x (List.mem_cons_of_mem _ hx)) (h2 _) (push_field L _ g (hv g hg))
    refine ⟨s, ?_, ?_⟩
    · have e2 : ({ ln with fields := ln.fields ++ [f] } : Line F).fields ++ g :: l = ln.fields ++ f :: g :: l := by simp
      rw [e2] at hs
      exact hs
    · refine h1.append ?_
      have e : (g :: l).flatMap (fun g => CM :: fieldText fl g) =
          CM :: (quote inKey g.1 ++ (EQ :: valueText fl g.2 ++ l.flatMap (fun g => CM :: fieldText fl g))) := by
        simp [fieldText]
      rw [e]
      refine Runs.cons (s' := at_ L { ln with fields := ln.fields ++ [f] } .fieldKey ⟨[], false⟩ ⟨valueText fl f.2, f.2.needs⟩) ?_ ?_
      · simp only [at_] at hp
        simp [astep, at_, hp, Bind.bind, Except.bind, pure, Except.pure, show ¬CM = BS by decide, show ¬CM = DQ by decide]
      · exact (runs_fieldKey L _ _ g.1 ⟨[], false⟩ (hb g hg)).append hr

theorem fieldsText_cons {fl : F → Bytes} (f : Bytes × Value F) (l : List (Bytes × Value F)) :
    fieldsText fl (f :: l) = fieldText fl f ++ l.flatMap (fun g => CM :: fieldText fl g) := by
  induction l generalizing f with
  | nil => simp [fieldsText]
  | cons g l ih => rw [fieldsText, ih]; simp

/-! ## A line -/

/-- Before a line, with the lines `L` read. -/
def Fresh (L : List (Line F)) (s : ASt F) : Prop := ∃ k v, s = at_ L (Line.empty F) .lineBegin k v

/-- The line that a point becomes. -/
def Point.line (dflt : Int) (p : Point F) : Line F := ({ table := p.table, tags := p.tags, fields := p.fields, timestamp := p.time.getD dflt } : Line F).finish

/-- The part of a point in front of its time. -/
theorem runs_body {fl : F → Bytes} {p : Point F} (hp : p.Plain fast fl) {s : ASt F} (hs : Fresh L s) :
    ∃ s', Full fast L ⟨p.table, p.tags, p.fields, 0⟩ s' ∧
      Runs fast dflt (quote inTable p.table ++ p.tags.flatMap tagText ++ SP :: fieldsText fl p.fields) s s' := by
  obtain ⟨k, v, rfl⟩ := hs
  obtain ⟨c, tl, ht, hws, hhs, hcm⟩ := hp.first
  obtain ⟨f, fs, hf, d, nm, hd, hdk⟩ := hp.field
  have hsp : c ≠ SP := by rintro rfl; cases hws
  have hct : inTable c = false := by simp [inTable, hcm, hsp]
  -- the table name
  have h1 : Runs fast dflt (quote inTable p.table) (at_ L (Line.empty F) .lineBegin k v)
      (at_ L (Line.empty F) .table ⟨quote inTable p.table, p.table.any inTable⟩ v) := by
    rw [ht, quote_cons, hct]
    refine Runs.append (s' := at_ L (Line.empty F) .table ⟨[c], false⟩ v) (Runs.one ?_) ?_
    · simp [astep, at_, hws, hhs]
    · have hb : BS ∉ tl := fun h => hp.noBs.1 (by rw [ht]; exact List.mem_cons_of_mem _ h)
      have := runs_table (fast := fast) (dflt := dflt) L (Line.empty F) v tl ⟨[c], false⟩ hb
      simpa [Acc.more, hct] using this
  have het := escape_table hp.equals
  -- up to the first byte of the first field
  have h2 : ∃ v', Runs fast dflt (p.tags.flatMap tagText ++ [SP] ++ [d])
      (at_ L (Line.empty F) .table ⟨quote inTable p.table, p.table.any inTable⟩ v)
      (at_ L ⟨p.table, p.tags, [], 0⟩ .fieldKey ⟨[d], false⟩ v') := by
    have hdsp : d ≠ SP := (inKey_false hdk).2.1
    cases hts : p.tags with
    | nil =>
      refine ⟨v, Runs.append (s' := { at_ L ⟨p.table, [], [], 0⟩ .table ⟨quote inTable p.table, p.table.any inTable⟩ v with skip := true })
        (Runs.one ?_) (Runs.one ?_)⟩
      · simp [astep, at_, het, Bind.bind, Except.bind, pure, Except.pure, Line.empty, show ¬SP = BS by decide, show ¬SP = CM by decide]
      · simp [astep, at_, hdsp]
    | cons t l =>
      have hbt : ∀ x ∈ t :: l, BS ∉ x.1 ∧ BS ∉ x.2 := fun x hx => hp.noBs.2.1 x (by rw [hts]; exact hx)
      obtain ⟨k', v', hr⟩ := runs_tags (fast := fast) (dflt := dflt) L l t ⟨p.table, [], [], 0⟩ v hbt
      refine ⟨v', Runs.append ?_ (Runs.one (s := { at_ L ⟨p.table, t :: l, [], 0⟩ .tagValue k' v' with skip := true }) ?_)⟩
      · have e : (t :: l).flatMap tagText ++ [SP] = CM :: (quote inKey t.1 ++ EQ :: quote inKey t.2 ++ (l.flatMap tagText ++ [SP])) := by
          simp [tagText]
        rw [e]
        refine Runs.cons (s' := at_ L ⟨p.table, [], [], 0⟩ .tagKey ⟨[], false⟩ v) ?_ hr
        simp [astep, at_, het, Bind.bind, Except.bind, pure, Except.pure, Line.empty, show ¬CM = BS by decide]
      · simp [astep, at_, hdsp]
  obtain ⟨v', h2⟩ := h2
  have hbf : ∀ x ∈ f :: fs, BS ∉ x.1 := fun x hx => hp.noBs.2.2 x (by rw [hf]; exact hx)
  have hq : quote inKey f.1 = d :: quote inKey nm ∧ f.1.any inKey = nm.any inKey := by
    rw [hd, quote_cons, hdk]
    simp [hdk]
  obtain ⟨s', hs', h4⟩ := runs_fields (fast := fast) (dflt := dflt) (fl := fl) L fs f ⟨p.table, p.tags, [], 0⟩ v' hbf
    (fun x hx => hp.fieldNames x (by rw [hf]; exact hx)) (fun x hx => hp.values x (by rw [hf]; exact hx))
  refine ⟨s', ?_, ?_⟩
  · rw [hf]; exact hs'
  · have h3 : Runs fast dflt (quote inKey nm) (at_ L ⟨p.table, p.tags, [], 0⟩ .fieldKey ⟨[d], false⟩ v')
        (at_ L ⟨p.table, p.tags, [], 0⟩ .fieldKey ⟨quote inKey f.1, f.1.any inKey⟩ v') := by
      have hb : BS ∉ nm := fun h => hbf f List.mem_cons_self (by rw [hd]; exact List.mem_cons_of_mem _ h)
      have := runs_fieldKey (fast := fast) (dflt := dflt) L ⟨p.table, p.tags, [], 0⟩ v' nm ⟨[d], false⟩ hb
      rw [hq.1, hq.2]
      simpa [Acc.more] using this
    have := h1.append (h2.append (h3.append h4))
    have e : quote inTable p.table ++ (p.tags.flatMap tagText ++ [SP] ++ [d] ++ (quote inKey nm ++
        (EQ :: valueText fl f.2 ++ fs.flatMap (fun g => CM :: fieldText fl g)))) =
        quote inTable p.table ++ p.tags.flatMap tagText ++ SP :: fieldsText fl p.fields := by
      rw [hf, fieldsText_cons, fieldText, hq.1]
      simp
    rw [e] at this
    exact this

theorem runs_point_lf {fl : F → Bytes} {p : Point F} (hp : p.Plain fast fl) {s : ASt F} (hs : Fresh L s) :
    ∃ s', Fresh (L ++ [p.line dflt]) s' ∧ Runs fast dflt (pointText fl p ++ [LF]) s s' := by
  obtain ⟨s1, ⟨ln', k, v, rfl, hk, hv, hpush⟩, hr⟩ := runs_body (dflt := dflt) L hp hs
  unfold pointText
  cases ht : p.time with
  | none =>
    refine ⟨_, ⟨k, v, rfl⟩, ?_⟩
    simp only [timeText, List.append_nil]
    refine hr.append (Runs.one ?_)
    simp only [at_] at hpush
    simp [astep, at_, hpush, Bind.bind, Except.bind, pure, Except.pure, show ¬LF = BS by decide, show ¬LF = DQ by decide,
      show ¬LF = CM by decide, show ¬LF = SP by decide, Point.line, ht]
  | some t =>
    refine ⟨_, ⟨⟨decInt t, false⟩, v, rfl⟩, ?_⟩
    simp only [timeText]
    rw [List.append_assoc]
    refine hr.append ?_
    refine Runs.cons (s' := { at_ L ⟨p.table, p.tags, p.fields, 0⟩ .fieldValue k v with skip := true }) ?_ ?_
    · simp only [at_] at hpush
      simp [astep, at_, hpush, Bind.bind, Except.bind, pure, Except.pure, show ¬SP = BS by decide, show ¬SP = DQ by decide,
        show ¬SP = CM by decide]
    · refine (runs_time L _ t k v).append (Runs.one ?_)
      simp [astep, at_, atoi_decInt (hp.time t ht), show isWs LF = true by decide, Point.line, ht]

theorem close_point {fl : F → Bytes} {p : Point F} (hp : p.Plain fast fl) {s : ASt F} (hs : Fresh L s) :
    ∃ s', Runs fast dflt (pointText fl p) s s' ∧ aclose fast dflt s' = .ok (L ++ [p.line dflt]) := by
  obtain ⟨s1, ⟨ln', k, v, rfl, hk, hv, hpush⟩, hr⟩ := runs_body (dflt := dflt) L hp hs
  unfold pointText
  cases ht : p.time with
  | none =>
    refine ⟨_, by simpa only [timeText, List.append_nil] using hr, ?_⟩
    simp only [at_] at hpush
    simp [aclose, at_, hpush, hk, hv, Bind.bind, Except.bind, pure, Except.pure, Point.line, ht]
  | some t =>
    refine ⟨at_ L ⟨p.table, p.tags, p.fields, 0⟩ .timestamp ⟨decInt t, false⟩ v, ?_, ?_⟩
    · simp only [timeText]
      refine hr.append ?_
      refine Runs.cons (s' := { at_ L ⟨p.table, p.tags, p.fields, 0⟩ .fieldValue k v with skip := true }) ?_ ?_
      · simp only [at_] at hpush
        simp [astep, at_, hpush, Bind.bind, Except.bind, pure, Except.pure, show ¬SP = BS by decide, show ¬SP = DQ by decide,
          show ¬SP = CM by decide]
      · exact runs_time L _ t k v
    · simp [aclose, at_, atoiPrefix_decInt (hp.time t ht), Point.line, ht]

end Verif.LineProto
