import Verif.Line.Scan
/-!
# Properties of the line protocol parser
-/
namespace Verif.LineProto

variable {F : Type}

/-! ## C55: points survive the text form -/

theorem dedupFrom_nodup {β : Type} (a : Bytes × β) (l : List (Bytes × β)) (h : ((a :: l).map Prod.fst).Nodup) :
    dedupFrom a l = a :: l := by
  induction l generalizing a with
  | nil => rfl
  | cons b l ih =>
    rw [List.map_cons, List.nodup_cons] at h
    have hne : b.1 ≠ a.1 := fun e => h.1 (by rw [← e]; exact List.mem_map.2 ⟨b, List.mem_cons_self, rfl⟩)
    rw [dedupFrom, if_neg hne, ih b h.2]

theorem dedupKeys_nodup {β : Type} (l : List (Bytes × β)) (h : (l.map Prod.fst).Nodup) : dedupKeys l = l := by
  cases l with
  | nil => rfl
  | cons a l => exact dedupFrom_nodup a l h

theorem finish_perm {β : Type} (l : List (Bytes × β)) (h : (l.map Prod.fst).Nodup) :
    (dedupKeys (Sort.sortBy (fun a b => leBytes a.1 b.1) l)).Perm l := by
  have hp := Sort.sortBy_perm (fun a b : Bytes × β => leBytes a.1 b.1) l
  rw [dedupKeys_nodup _ ((hp.map Prod.fst).nodup_iff.2 h)]
  exact hp

theorem Point.line_same {fast : Bytes → Option F} {fl : F → Bytes} (dflt : Int) {p : Point F} (h : p.Plain fast fl) : Same dflt p (p.line dflt) :=
  ⟨rfl, finish_perm _ h.tagsNodup, finish_perm _ h.fieldsNodup, rfl⟩

theorem runs_text {fast : Bytes → Option F} {fl : F → Bytes} (dflt : Int) (nl : Bool) (pts : List (Point F)) (L : List (Line F))
    (h : ∀ p ∈ pts, p.Plain fast fl) {s : ASt F} (hs : Fresh L s) :
    ∃ s', Runs fast dflt (text fl nl pts) s s' ∧ aclose fast dflt s' = .ok (L ++ pts.map (Point.line dflt)) := by
  induction pts generalizing L s with
  | nil =>
    obtain ⟨k, v, rfl⟩ := hs
    exact ⟨_, Runs.nil _, by simp [aclose, at_]⟩
  | cons p l ih =>
    have hp := h p List.mem_cons_self
    have hl := fun q hq => h q (List.mem_cons_of_mem p hq)
    cases l with
    | nil =>
      cases nl with
      | true =>
        obtain ⟨s', ⟨k, v, rfl⟩, hr⟩ := runs_point_lf (dflt := dflt) L hp hs
        exact ⟨_, hr, by simp [aclose, at_]⟩
      | false =>
        obtain ⟨s', hr, hc⟩ := close_point (dflt := dflt) L hp hs
        refine ⟨s', ?_, hc⟩
        simpa [text] using hr
    | cons q l =>
      obtain ⟨s', hf, hr⟩ := runs_point_lf (dflt := dflt) L hp hs
      obtain ⟨s'', hr', hc⟩ := ih (L ++ [p.line dflt]) hl hf
      refine ⟨s'', ?_, ?_⟩
      · have e : text fl nl (p :: q :: l) = (pointText fl p ++ [LF]) ++ text fl nl (q :: l) := by simp [text]
        rw [e]
        exact hr.append hr'
      · rw [hc]
        simp

/-- **C55, for plain points**: points written as text, one per line, with or without a line end behind the last one, are read back: one line
for each point, in order, with the same table, tags, fields and time (the given time if the point has none).  Missing: the names that
`Point.Plain` excludes; for these the property is false, see below. -/
theorem C55_round_trip_partial (fast : Bytes → Option F) (fl : F → Bytes) (dflt : Int) (nl : Bool) (pts : List (Point F))
    (h : ∀ p ∈ pts, p.Plain fast fl) :
    ∃ lines, parse fast dflt (text fl nl pts) = .ok lines ∧ List.Forall₂ (Same dflt) pts lines := by
  refine ⟨pts.map (Point.line dflt), ?_, ?_⟩
  · rw [parse_eq_aparse]
    obtain ⟨s', hr, hc⟩ := runs_text dflt nl pts [] h (s := ASt.init F) ⟨_, _, rfl⟩
    unfold Runs at hr
    unfold aparse
    rw [hr]
    exact hc
  · clear nl
    induction pts with
    | nil => exact .nil
    | cons p l ih => exact .cons (p.line_same dflt (h p List.mem_cons_self)) (ih fun q hq => h q (List.mem_cons_of_mem _ hq))

/-- Bytes of an ASCII text, for the examples. -/
def ascii (s : String) : Bytes := s.toList.map fun c => BitVec.ofNat 8 c.toNat

/-- A point with special bytes in all its names, for the example. -/
def exPoint : Point Nat :=
  ⟨ascii "a b,c", [(ascii "k=,", ascii " v"), (ascii "", ascii "=")],
    [(ascii "f= ", .str (ascii "x\"\\\n, ")), (ascii " g", .i64 (-12)), (ascii "h", .f64 7), (ascii "i", .u64 0), (ascii "j", .bool true)],
    some (-5)⟩

theorem exPoint_plain : exPoint.Plain atou dec := by
  refine ⟨by decide +kernel, ⟨_, _, rfl, by decide +kernel, by decide +kernel, by decide +kernel⟩, by decide +kernel,
    ⟨_, _, rfl, _, _, rfl, by decide +kernel⟩, by decide +kernel, by decide +kernel, by decide +kernel, ?_, ?_⟩
  · intro f hf
    simp only [exPoint, List.mem_cons, List.not_mem_nil, or_false] at hf
    rcases hf with rfl | rfl | rfl | rfl | rfl
    · trivial
    · exact ⟨by decide, by decide⟩
    · refine ⟨by decide +kernel, ⟨0x37#8, [], by decide +kernel, .inr (.inr (by decide +kernel))⟩, ?_, ?_⟩
      · have : dec 7 = [0x37#8] := by decide +kernel
        rw [this]
        decide
      · have : dec 7 = [0x37#8] := by decide +kernel
        rw [this]
        decide
    · show (0 : Nat) < 2 ^ 64
      decide
    · trivial
  · intro t ht
    cases ht
    decide

example : ∃ pts : List (Point Nat), pts ≠ [] ∧ ∀ p ∈ pts, p.Plain atou dec :=
  ⟨[exPoint, exPoint], by simp, by
    intro p hp
    simp only [List.mem_cons, List.not_mem_nil, or_false, or_self] at hp
    rw [hp]
    exact exPoint_plain⟩

/-- A point with a table, one tag and one field. -/
def point (table tag value field : String) : Point Nat := ⟨ascii table, [(ascii tag, ascii value)], [(ascii field, .u64 1)], some 3⟩

/-- **C55 fails for a table name that begins with a space or comma**: the backslash in front is not seen, the line is refused. -/
theorem C55_table_first_refuted : parse atou 0 (text dec true [point " a" "t" "v" "f"]) = .error .err := by decide +kernel

/-- **C55 fails for a first field name that begins with a space**: the backslash becomes part of the name. -/
theorem C55_field_first_refuted :
    parse atou 0 (text dec true [point "a" "t" "v" " f"]) = .ok [⟨ascii "a", [(ascii "t", ascii "v")], [(ascii "\\ f", .u64 1)], 3⟩] := by
  decide +kernel

/-- **C55 fails for a table name with an equals sign and a space**: escaping the equals sign is refused by the scanner, leaving it as it is is
refused when the name is taken out. -/
theorem C55_table_equals_refuted :
    parse atou 0 (text dec true [point "a=b c" "t" "v" "f"]) = .error .err ∧
      parse atou 0 (ascii "a\\=b\\ c,t=v f=1u 3\n") = .error .err := by decide +kernel

/-- **C55 fails for a backslash in a name**: alone it is refused, doubled it stays doubled. -/
theorem C55_backslash_refuted :
    parse atou 0 (text dec true [point "a" "t" "v\\w" "f"]) = .error .err ∧
      parse atou 0 (ascii "a,t=v\\\\w f=1u 3\n") = .ok [⟨ascii "a", [(ascii "t", ascii "v\\\\w")], [(ascii "f", .u64 1)], 3⟩] := by
  decide +kernel

/-- **C55 fails for a table name that begins with a number sign**: the point is taken for a comment and silently left out. -/
theorem C55_comment_refuted : parse atou 0 (text dec true [point "#a" "t" "v" "f"]) = .ok [] := by decide +kernel

/-- **C55 fails for points with an empty field name at the end of the text**: the field is silently left out, but not if a line end
follows. -/
theorem C55_empty_field_name_refuted :
    parse atou 0 (ascii "a f=1u,=2u") = .ok [⟨ascii "a", [], [(ascii "f", .u64 1)], 0⟩] ∧
      parse atou 0 (ascii "a f=1u,=2u\n") = .ok [⟨ascii "a", [], [(ascii "", .u64 2), (ascii "f", .u64 1)], 0⟩] := by decide +kernel

/-- A space at the end of a line without time makes the text unreadable. -/
theorem C55_trailing_space_refuted : parse atou 0 (ascii "a f=1u \nb f=2u\n") = .error .err ∧
    (parse atou 0 (ascii "a f=1u\nb f=2u\n")).toBool = true := by decide +kernel

/-- Comment lines and white space in front of the text do not matter. -/
theorem C55_comment_ignored (fast : Bytes → Option F) (dflt : Int) (ws t data : Bytes) (hw : ∀ c ∈ ws, isWs c = true)
    (ht : CR ∉ t ∧ LF ∉ t) : parse fast dflt (ws ++ HS :: (t ++ LF :: data)) = parse fast dflt data := by
  have h1 : ∀ ws : Bytes, (∀ c ∈ ws, isWs c = true) → Runs fast dflt ws (ASt.init F) (ASt.init F) := by
    intro ws hw
    induction ws with
    | nil => exact Runs.nil _
    | cons c ws ih =>
      refine Runs.cons ?_ (ih fun c hc => hw c (List.mem_cons_of_mem _ hc))
      simp [astep, ASt.init, hw c List.mem_cons_self]
  have h2 : ∀ t : Bytes, (CR ∉ t ∧ LF ∉ t) → Runs fast dflt t { ASt.init F with comment := true } { ASt.init F with comment := true } := by
    intro t ht
    induction t with
    | nil => exact Runs.nil _
    | cons c t ih =>
      simp only [List.mem_cons, not_or] at ht
      have hc : c ≠ CR ∧ c ≠ LF := ⟨fun e => ht.1.1 e.symm, fun e => ht.2.1 e.symm⟩
      refine Runs.cons ?_ (ih ⟨ht.1.2, ht.2.2⟩)
      simp [astep, ASt.init, hc]
  have h3 : Runs fast dflt [HS] (ASt.init F) { ASt.init F with comment := true } := by
    refine Runs.one ?_
    simp [astep, ASt.init, show isWs HS = false by decide]
  have h4 : Runs fast dflt [LF] { ASt.init F with comment := true } (ASt.init F) := by
    refine Runs.one ?_
    simp [astep, ASt.init]
  have h := (h1 ws hw).append (h3.append ((h2 t ht).append h4))
  have e : ws ++ HS :: (t ++ LF :: data) = (ws ++ ([HS] ++ (t ++ [LF]))) ++ data := by simp
  rw [parse_eq_aparse, parse_eq_aparse]
  unfold Runs at h
  unfold aparse
  rw [e, aloop_append, h]

example : parse atou 0 (ascii " \n# a, b=\n" ++ text dec true [point "a" "t" "v" "f"]) = parse atou 0 (text dec true [point "a" "t" "v" "f"]) :=
  C55_comment_ignored atou 0 (ascii " \n") (ascii " a, b=") _ (by decide +kernel) (by decide +kernel)

/-! ## C76: malformed text is refused -/

/-- A field value is missing somewhere: an equals sign is followed by a comma, space or line end. -/
def MissingValue (data : Bytes) : Prop :=
  ∃ x c y, data = x ++ EQ :: c :: y ∧ (c = CM ∨ c = SP ∨ c = CR ∨ c = LF)

/-- **C76 fails if a field value is missing**: the parser panics. -/
theorem C76_missing_value_refuted : parse atou 0 (ascii "a f=,g=1u\n") = .error .panic := by decide +kernel

/-- No panic. -/
def Calm {A : Type} (x : Except Err A) : Prop := x ≠ .error .panic

theorem Calm.ok {A : Type} (a : A) : Calm (.ok a : Except Err A) := by intro h; cases h

theorem Calm.err {A : Type} : Calm (.error .err : Except Err A) := by intro h; cases h

theorem Calm.bind {A B : Type} {x : Except Err A} {f : A → Except Err B} (h : Calm x) (hf : ∀ a, x = .ok a → Calm (f a)) : Calm (x >>= f) := by
  cases x with
  | ok a => exact hf a rfl
  | error e =>
    intro he
    injection he with he
    subst he
    exact h rfl

theorem unescape_calm (l : Bytes) (h : l ≠ []) : Calm (unescape l) := by
  induction l with
  | nil => exact absurd rfl h
  | cons v1 l ih =>
    cases l with
    | nil => exact Calm.ok _
    | cons v2 l =>
      have ih := ih (by simp)
      rw [unescape]
      split
      · split
        · exact ih
        · exact Calm.err
      · cases hu : unescape (v2 :: l) with
        | ok r => exact Calm.ok _
        | error e => rw [hu] at ih; cases e with
          | panic => exact absurd rfl ih
          | err => exact Calm.err

theorem unescapeStr_calm (l : Bytes) (b : Bool) (h : l ≠ []) : Calm (unescapeStr b l) := by
  induction l generalizing b with
  | nil => exact absurd rfl h
  | cons v1 l ih =>
    cases l with
    | nil => exact Calm.ok _
    | cons v2 l =>
      have ih := fun b => ih b (by simp)
      rw [unescapeStr]
      split
      · exact Calm.err
      · split
        · exact ih true
        · cases hu : unescapeStr false (v2 :: l) with
          | ok r => exact Calm.ok _
          | error e => have := ih false; rw [hu] at this; cases e with
            | panic => exact absurd rfl this
            | err => exact Calm.err

/-- A backslash was seen only if there is one. -/
def Acc.Ok (a : Acc) : Prop := a.esc = true → BS ∈ a.text

theorem escape_calm {a : Acc} (h : a.Ok) : Calm (escape a.text a.esc) := by
  unfold escape
  split
  · rename_i he
    exact unescape_calm _ (List.ne_nil_of_mem (h he))
  · exact Calm.ok _

theorem parseValue_calm {fast : Bytes → Option F} {a : Acc} (h : a.Ok) (hn : a.text ≠ []) : Calm (parseValue fast a.text a.esc) := by
  obtain ⟨t, e⟩ := a
  cases t with
  | nil => exact absurd rfl hn
  | cons c l =>
    simp only [parseValue]
    have hb : ∀ b, Calm (parseBool (F := F) (c :: l) b) := by
      intro b
      unfold parseBool
      split
      · exact Calm.ok _
      · split
        · exact Calm.ok _
        · exact Calm.err
    split
    · exact hb _
    · split
      · exact hb _
      · split
        · unfold parseString
          split
          · exact Calm.err
          · split
            · rename_i hlen hq
              have : Calm (escapedStr (c :: l).tail.dropLast e) := by
                unfold escapedStr
                split
                · rename_i he
                  refine unescapeStr_calm _ _ ?_
                  intro hnil
                  have hmem := h he
                  cases l with
                  | nil => simp at hlen
                  | cons d l =>
                    cases l with
                    | nil =>
                      have h1 : c = DQ := by simpa using hq.1
                      have h2 : d = DQ := by simpa using hq.2
                      subst h1 h2
                      have : BS ∉ [DQ, DQ] := by decide
                      exact this hmem
                    | cons x l => simp at hnil
                · exact Calm.ok _
              cases hx : escapedStr (c :: l).tail.dropLast e with
              | ok s => exact Calm.ok _
              | error e' => cases e' with
                | panic => exact absurd hx this
                | err => exact Calm.err
            · exact Calm.err
        · split
          · unfold parseNumeric
            cases hl : (c :: l).getLast? with
            | none => simp at hl
            | some z =>
              simp only []
              split
              · cases atoi (c :: l).dropLast with
                | some v => exact Calm.ok _
                | none => exact Calm.err
              · split
                · cases atou (c :: l).dropLast with
                  | some v => exact Calm.ok _
                  | none => exact Calm.err
                · cases fast (c :: l) with
                  | some v => exact Calm.ok _
                  | none => exact Calm.err
          · exact Calm.err

theorem pushTag_calm {s : ASt F} (hk : s.key.Ok) (hv : s.val.Ok) : Calm (apushTag s) :=
  (escape_calm hk).bind fun _ _ => (escape_calm hv).bind fun _ _ => Calm.ok _

theorem pushField_calm {fast : Bytes → Option F} {s : ASt F} (hk : s.key.Ok) (hv : s.val.Ok) (hn : s.val.text ≠ []) :
    Calm (apushField fast s) :=
  (escape_calm hk).bind fun _ _ => (parseValue_calm hv hn).bind fun _ _ => Calm.ok _

/-- What holds after reading `pre`. -/
structure Safe (pre : Bytes) (s : ASt F) : Prop where
  key : s.key.Ok
  val : s.val.Ok
  empty : s.status = .fieldValue → s.skip = false → s.val.text = [] → pre.getLast? = some EQ

theorem Acc.Ok.add {a : Acc} (h : a.Ok) (c : Byte) : (a.add c).Ok := fun e => List.mem_append_left _ (h e)

theorem Acc.Ok.addEsc (a : Acc) : (a.addEsc BS).Ok := fun _ => List.mem_append_right _ List.mem_cons_self

theorem Acc.Ok.new (t : Bytes) : (⟨t, false⟩ : Acc).Ok := fun e => by cases e

theorem Acc.add_ne {a : Acc} {c : Byte} : (a.add c).text ≠ [] := by simp [Acc.add]

theorem Acc.addEsc_ne {a : Acc} {c : Byte} : (a.addEsc c).text ≠ [] := by simp [Acc.addEsc]

/-- A good outcome: no panic, and a safe state if it goes on. -/
def Good (pre : Bytes) (x : Except Err (ASt F)) : Prop := Calm x ∧ ∀ s, x = .ok s → Safe pre s

theorem Good.ok {pre : Bytes} {s : ASt F} (h : Safe pre s) : Good pre (.ok s) :=
  ⟨Calm.ok _, fun s' e => by cases e; exact h⟩

theorem Good.err {pre : Bytes} : Good (F := F) pre (.error .err) := ⟨Calm.err, fun s' e => by cases e⟩

theorem Good.bind {A : Type} {pre : Bytes} {x : Except Err A} {f : A → Except Err (ASt F)} (h : Calm x) (hf : ∀ a, x = .ok a → Good pre (f a)) :
    Good pre (x >>= f) := by
  cases x with
  | ok a => exact hf a rfl
  | error e =>
    refine ⟨fun he => ?_, fun s hs => by cases hs⟩
    injection he with he
    subst he
    exact h rfl

theorem step_good (fast : Bytes → Option F) (dflt : Int) {pre : Bytes} {c : Byte} {s : ASt F} (h : Safe pre s)
    (hc : pre.getLast? = some EQ → c ≠ CM ∧ c ≠ SP ∧ c ≠ CR ∧ c ≠ LF) : Good (pre ++ [c]) (astep fast dflt c s) := by
  obtain ⟨hk, hv, he⟩ := h
  obtain ⟨lines, line, comment, skip, nextEsc, key, val, status, quotes⟩ := s
  cases status with
  | lineBegin =>
    simp only [astep]
    split
    · exact Good.ok ⟨hk, hv, fun h => by cases h⟩
    · split
      · exact Good.ok ⟨hk, hv, fun h => by cases h⟩
      · split
        · exact Good.ok ⟨hk, hv, fun h => by cases h⟩
        · exact Good.ok ⟨Acc.Ok.new _, hv, fun h => by cases h⟩
  | table =>
    simp only [astep]
    split
    · split
      · exact Good.ok ⟨hk, hv, fun h => by cases h⟩
      · exact Good.ok ⟨Acc.Ok.new _, hv, fun h => by cases h⟩
    · split
      · split
        · exact Good.ok ⟨hk.add c, hv, fun h => by cases h⟩
        · exact Good.err
      · split
        · rename_i hb; subst hb
          exact Good.ok ⟨Acc.Ok.addEsc _, hv, fun h => by cases h⟩
        · split
          · exact Good.bind (escape_calm hk) fun _ _ => Good.ok ⟨Acc.Ok.new _, hv, fun h => by cases h⟩
          · split
            · exact Good.bind (escape_calm hk) fun _ _ => Good.ok ⟨hk, hv, fun h => by cases h⟩
            · exact Good.ok ⟨hk.add c, hv, fun h => by cases h⟩
  | tagKey =>
    simp only [astep]
    split
    · split
      · exact Good.ok ⟨hk.add c, hv, fun h => by cases h⟩
      · exact Good.err
    · split
      · rename_i hb; subst hb
        exact Good.ok ⟨Acc.Ok.addEsc _, hv, fun h => by cases h⟩
      · split
        · exact Good.ok ⟨hk, Acc.Ok.new _, fun h => by cases h⟩
        · exact Good.ok ⟨hk.add c, hv, fun h => by cases h⟩
  | tagValue =>
    simp only [astep]
    split
    · split
      · exact Good.ok ⟨hk, hv, fun h => by cases h⟩
      · exact Good.ok ⟨Acc.Ok.new _, hv, fun h => by cases h⟩
    · split
      · split
        · exact Good.ok ⟨hk, hv.add c, fun h => by cases h⟩
        · exact Good.err
      · split
        · rename_i hb; subst hb
          exact Good.ok ⟨hk, Acc.Ok.addEsc _, fun h => by cases h⟩
        · split
          · exact Good.bind (pushTag_calm hk hv) fun _ _ => Good.ok ⟨Acc.Ok.new _, hv, fun h => by cases h⟩
          · split
            · exact Good.bind (pushTag_calm hk hv) fun _ _ => Good.ok ⟨hk, hv, fun h => by cases h⟩
            · exact Good.ok ⟨hk, hv.add c, fun h => by cases h⟩
  | fieldKey =>
    simp only [astep]
    split
    · split
      · exact Good.ok ⟨hk.add c, hv, fun h => by cases h⟩
      · exact Good.err
    · split
      · rename_i hb; subst hb
        exact Good.ok ⟨Acc.Ok.addEsc _, hv, fun h => by cases h⟩
      · split
        · rename_i hq
          exact Good.ok ⟨hk, Acc.Ok.new _, fun _ _ _ => by rw [List.getLast?_concat, hq]⟩
        · exact Good.ok ⟨hk.add c, hv, fun h => by cases h⟩
  | fieldValue =>
    simp only [astep]
    split
    · rename_i hsk
      split
      · exact Good.ok ⟨hk, hv, fun _ h => by simp only at h hsk; rw [hsk] at h; cases h⟩
      · exact Good.ok ⟨Acc.Ok.new _, hv, fun h => by cases h⟩
    · rename_i hsk
      have hsk : skip = false := by simpa using hsk
      split
      · split
        · exact Good.ok ⟨hk, hv.add c, fun _ _ h => absurd h Acc.add_ne⟩
        · exact Good.err
      · split
        · exact Good.ok ⟨hk, hv.add c, fun _ _ h => absurd h Acc.add_ne⟩
        · split
          · rename_i hb; subst hb
            exact Good.ok ⟨hk, Acc.Ok.addEsc _, fun _ _ h => absurd h Acc.addEsc_ne⟩
          · have hne : (c = CM ∨ c = SP ∨ c = CR ∨ c = LF) → val.text ≠ [] := by
              intro h hnil
              have := hc (he rfl hsk hnil)
              rcases h with h | h | h | h
              · exact this.1 h
              · exact this.2.1 h
              · exact this.2.2.1 h
              · exact this.2.2.2 h
            split
            · rename_i hq
              exact Good.bind (pushField_calm hk hv (hne (.inl hq.1))) fun _ _ => Good.ok ⟨Acc.Ok.new _, hv, fun h => by cases h⟩
            · split
              · rename_i hq
                exact Good.bind (pushField_calm hk hv (hne (.inr (.inl hq.1)))) fun _ _ => Good.ok ⟨hk, hv, fun _ h => by cases h⟩
              · split
                · rename_i hq
                  exact Good.bind (pushField_calm hk hv (hne (.inr (.inr hq.1)))) fun _ _ => Good.ok ⟨hk, hv, fun h => by cases h⟩
                · exact Good.ok ⟨hk, hv.add c, fun _ _ h => absurd h Acc.add_ne⟩
  | timestamp =>
    simp only [astep]
    split
    · cases atoi key.text with
      | some t => exact Good.ok ⟨hk, hv, fun h => by cases h⟩
      | none => exact Good.err
    · exact Good.ok ⟨hk.add c, hv, fun h => by cases h⟩

theorem loop_good (fast : Bytes → Option F) (dflt : Int) {data : Bytes} (hm : ¬MissingValue data) (rest pre : Bytes) {s : ASt F}
    (h : Safe pre s) (hd : data = pre ++ rest) : Good data (aloop fast dflt rest s) := by
  induction rest generalizing pre s with
  | nil =>
    rw [List.append_nil] at hd
    subst hd
    exact Good.ok h
  | cons c rest ih =>
    rw [aloop]
    have hc : pre.getLast? = some EQ → c ≠ CM ∧ c ≠ SP ∧ c ≠ CR ∧ c ≠ LF := by
      intro hl
      obtain ⟨x, rfl⟩ := List.getLast?_eq_some_iff.1 hl
      have hx : data = x ++ EQ :: c :: rest := by rw [hd]; simp
      exact ⟨fun e => hm ⟨x, c, rest, hx, .inl e⟩, fun e => hm ⟨x, c, rest, hx, .inr (.inl e)⟩,
        fun e => hm ⟨x, c, rest, hx, .inr (.inr (.inl e))⟩, fun e => hm ⟨x, c, rest, hx, .inr (.inr (.inr e))⟩⟩
    have hs := step_good fast dflt h hc
    cases e : astep fast dflt c s with
    | ok s' => exact ih (pre ++ [c]) (hs.2 s' e) (by rw [hd]; simp)
    | error e' =>
      rw [e] at hs
      exact ⟨fun h => hs.1 h, fun _ h => by cases h⟩

theorem close_calm (fast : Bytes → Option F) (dflt : Int) {data : Bytes} {s : ASt F} (h : Safe data s) : Calm (aclose fast dflt s) := by
  unfold aclose
  cases s.status with
  | timestamp =>
    simp only []
    cases atoiPrefix s.key.text with
    | some t => exact Calm.ok _
    | none => exact Calm.err
  | fieldValue =>
    simp only []
    split
    · exact Calm.err
    · split
      · rename_i hq
        exact Calm.bind (pushField_calm h.key h.val hq.2.2) fun _ _ => Calm.ok _
      · exact Calm.ok _
  | lineBegin => exact Calm.ok _
  | table => exact Calm.err
  | tagKey => exact Calm.err
  | tagValue => exact Calm.err
  | fieldKey => exact Calm.err

/-- **C76, for texts without a missing value**: every such text is read or refused; the parser does not panic. -/
theorem C76_no_panic_partial (fast : Bytes → Option F) (dflt : Int) (data : Bytes) (h : ¬MissingValue data) :
    parse fast dflt data ≠ .error .panic := by
  rw [parse_eq_aparse]
  have hs : Safe [] (ASt.init F) := ⟨Acc.Ok.new _, Acc.Ok.new _, fun h => by cases h⟩
  have hg := loop_good fast dflt h data [] hs rfl
  unfold aparse
  cases e : aloop fast dflt data (ASt.init F) with
  | ok s => exact close_calm fast dflt (hg.2 s e)
  | error e' =>
    rw [e] at hg
    exact fun h => hg.1 (by cases h; rfl)

/-- Whether two neighbours are as in `MissingValue`. -/
def missing : Bytes → Bool
  | a :: b :: l => (a == EQ && (b == CM || b == SP || b == CR || b == LF)) || missing (b :: l)
  | _ => false

theorem missing_of {data : Bytes} (h : MissingValue data) : missing data = true := by
  obtain ⟨x, c, y, rfl, hc⟩ := h
  induction x with
  | nil => rcases hc with rfl | rfl | rfl | rfl <;> rfl
  | cons a x ih =>
    cases x with
    | nil =>
      rw [List.nil_append] at ih
      rw [List.cons_append, List.nil_append, missing, ih, Bool.or_true]
    | cons b x =>
      rw [List.cons_append] at ih
      rw [List.cons_append, List.cons_append, missing, ih, Bool.or_true]

example : ¬MissingValue (ascii "a b=\"c,d=e,f,==") := fun h => absurd (missing_of h) (by decide +kernel)

end Verif.LineProto
