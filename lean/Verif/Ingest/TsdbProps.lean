import Verif.Ingest.Tsdb
/-!
# Properties: the OpenTSDB text protocol over HTTP
-/
namespace Verif.Ingest
variable {F : Type}

/-- Characters that mean nothing in a tag. -/
def plainChar (c : Char) : Bool := c != ' ' && c != ',' && c != '=' && c != '\\' && c != '\n'

/-- The text of a tag key or value. -/
def Plain (s : Str) : Prop := s.all plainChar = true

/-- A tag that can be written down: the key begins with a letter or a digit, the value is not empty. -/
structure TagOk (t : Str × Str) : Prop where
  key : Plain t.1
  first : ∃ c r, t.1 = c :: r ∧ c.isAlphanum = true
  val : Plain t.2
  some : t.2 ≠ []

/-- An integer in decimal digits: what `next_value` can read. -/
def IntText (s : Str) : Prop := ∃ c r, s = c :: r ∧ (c = '-' ∨ c.isDigit = true) ∧ r.all Char.isDigit = true

/-- A tag as text. -/
def tagText (t : Str × Str) : Str := t.1 ++ '=' :: t.2

/-- A set of tags as text, with commas between them. -/
def commaText : List (Str × Str) → Str
  | [] => []
  | [t] => tagText t
  | t :: u :: ts => tagText t ++ ',' :: commaText (u :: ts)

/-- A set of tags that can be written down. -/
def SetOk (ts : List (Str × Str)) : Prop := ts ≠ [] ∧ ∀ t ∈ ts, TagOk t

/-- Sets of tags as text, with spaces between them. -/
def tagsText : List (List (Str × Str)) → Str
  | [] => []
  | [t] => commaText t
  | t :: u :: ts => commaText t ++ ' ' :: tagsText (u :: ts)

/-! ## The parts -/

theorem metricLoop_found (m s : Str) (i b : Nat) (h : ' ' ∉ m) :
    metricLoop (m ++ ' ' :: s) i (some b) = (some b, some (i + m.length)) := by
  induction m generalizing i with
  | nil => simp [metricLoop]
  | cons c m ih =>
    simp only [List.mem_cons, not_or] at h
    rw [List.cons_append, metricLoop]
    split
    · simp only [Option.some_or, ih _ h.2, List.length_cons]
      congr 2; omega
    · simp only [if_neg (fun h' => h.1 (Eq.symm h')), ih _ h.2, List.length_cons]
      congr 2; omega

theorem slice_prefix (a s : Str) : slice (a ++ s) 0 a.length = .ok a := by
  rw [slice, if_pos ⟨Nat.zero_le _, by simp⟩]
  simp

theorem nextMetric_text (m s : Str) (h : ' ' ∉ m) (h1 : ∃ c r, m = c :: r ∧ c.isAlphanum = true) :
    nextMetric (m ++ ' ' :: s) = .ok (some (m, m.length + 1)) := by
  obtain ⟨c, r, rfl, hc⟩ := h1
  have hl : metricLoop ((c :: r) ++ ' ' :: s) 0 none = (some 0, some (c :: r).length) := by
    rw [List.cons_append, metricLoop]
    have h2 : ' ' ∉ r := fun h' => h (List.mem_cons_of_mem _ h')
    split
    · rw [Option.none_or, metricLoop_found _ _ _ _ h2, List.length_cons]
      congr 2; omega
    · rw [metricLoop_found _ _ _ _ h2, List.length_cons]
      congr 2; omega
  rw [nextMetric, hl]
  simp only [Option.getD_some, slice_prefix, Except.map]

theorem valueLoop_found (d s : Str) (c : Char) (i b : Nat) (h : d.all Char.isDigit = true) (hc : c.isDigit = false) :
    valueLoop (d ++ c :: s) i (some b) = (some b, some (i + d.length)) := by
  induction d generalizing i with
  | nil => simp [valueLoop, hc]
  | cons x d ih =>
    simp only [List.all_cons, Bool.and_eq_true] at h
    rw [List.cons_append, valueLoop]
    simp only [h.1, Bool.not_true, Bool.false_eq_true, if_false, ih _ h.2, List.length_cons]
    congr 2; omega

theorem nextValue_text (d s : Str) (c : Char) (h : IntText d) (hc : c.isDigit = false) :
    nextValue (d ++ c :: s) = .ok (some (d, d.length + 1)) := by
  obtain ⟨x, r, rfl, hx, hr⟩ := h
  have hl : valueLoop ((x :: r) ++ c :: s) 0 none = (some 0, some (x :: r).length) := by
    rw [List.cons_append, valueLoop]
    have : (x == '-' || x.isDigit) = true := by
      rcases hx with rfl | hx
      · rfl
      · simp [hx]
    simp only [this, if_true, valueLoop_found _ _ _ _ _ hr hc, List.length_cons]
    congr 2; omega
  rw [nextValue, hl]
  simp only [Option.getD_some, slice_prefix, Except.map]

/-- Plain characters are passed over. -/
theorem tagLoop_plain (buf w s : Str) (i o0 o1 o2 : Nat) (tags : List (Str × Str)) (h : Plain w) :
    tagLoop buf (w ++ s) i ⟨false, true, o0, o1, o2, tags⟩ = tagLoop buf s (i + w.length) ⟨false, true, o0, o1, o2, tags⟩ := by
  induction w generalizing i with
  | nil => rfl
  | cons c w ih =>
    simp only [Plain, List.all_cons, Bool.and_eq_true] at h
    have hc := h.1
    simp only [plainChar, Bool.and_eq_true, bne_iff_ne, ne_eq] at hc
    obtain ⟨⟨⟨⟨h1, h2⟩, h3⟩, h4⟩, h5⟩ := hc
    rw [List.cons_append, tagLoop]
    simp only [Bool.not_false, Bool.true_and, beq_iff_eq, h1, h2, h3, h4, if_false, if_true]
    rw [ih _ h.2, List.length_cons]
    congr 1; omega

theorem TagOk.key_pos {t : Str × Str} (h : TagOk t) : 0 < t.1.length := by
  obtain ⟨c, r, hkr, _⟩ := h.first
  rw [hkr]; simp

theorem tagText_length (t : Str × Str) : (tagText t).length = t.1.length + 1 + t.2.length := by
  simp only [tagText, List.length_append, List.length_cons]; omega

/-- The first character of a set. -/
theorem tagLoop_first (buf : Str) (c : Char) (r : Str) (hb : buf = c :: r) (hc : c.isAlphanum = true) (hp : plainChar c = true) :
    tagLoop buf buf 0 ⟨false, false, 0, 0, 0, []⟩ = tagLoop buf buf 0 ⟨false, true, 0, 0, 0, []⟩ := by
  simp only [plainChar, Bool.and_eq_true, bne_iff_ne, ne_eq] at hp
  obtain ⟨⟨⟨⟨h1, h2⟩, h3⟩, h4⟩, h5⟩ := hp
  have e : ∀ st, tagLoop buf buf 0 st = tagLoop buf (c :: r) 0 st := fun st => by rw [← hb]
  rw [e, e, tagLoop, tagLoop]
  simp only [Bool.not_false, Bool.true_and, beq_iff_eq, h1, h2, h3, h4, if_false, if_true, isTagChar, hc, Bool.true_or]
  simp

/-- A tag. -/
theorem tagLoop_tag (buf pre : Str) (t : Str × Str) (s : Str) (o1 o2 : Nat) (acc : List (Str × Str)) (h : TagOk t)
    (hb : buf = pre ++ tagText t ++ s) :
    tagLoop buf (tagText t ++ s) pre.length ⟨false, true, pre.length, o1, o2, acc⟩ =
      tagLoop buf s (pre.length + (tagText t).length) ⟨false, true, pre.length, pre.length + t.1.length, pre.length + t.1.length + 1, acc⟩ := by
  have hlen : ¬ buf.length ≤ pre.length + t.1.length + 1 := by
    have := List.length_pos_iff.2 h.some
    rw [hb, List.length_append, List.length_append, tagText_length]
    omega
  rw [tagText, List.append_assoc, tagLoop_plain _ _ _ _ _ _ _ _ h.key, List.cons_append, tagLoop]
  simp only [Bool.not_false, Bool.true_and, beq_iff_eq, Char.reduceEq, if_false, if_true, hlen]
  rw [tagLoop_plain _ _ _ _ _ _ _ _ h.val]
  simp only [List.length_cons, List.length_append]
  congr 1; omega

theorem slice_mid (a b s : Str) (n : Nat) (hn : n = a.length + b.length) : slice (a ++ b ++ s) a.length n = .ok b := by
  subst hn
  rw [slice, if_pos ⟨by omega, by simp⟩]
  have : (List.take (a.length + b.length) (a ++ b ++ s)) = a ++ b := by
    rw [← List.length_append, List.take_left]
  rw [this, List.drop_left]

theorem slice_key (pre : Str) (t : Str × Str) (s : Str) :
    slice (pre ++ tagText t ++ s) pre.length (pre.length + t.1.length) = .ok t.1 := by
  have := slice_mid pre t.1 ('=' :: t.2 ++ s) _ rfl
  simpa [tagText] using this

theorem slice_val (pre : Str) (t : Str × Str) (s : Str) :
    slice (pre ++ tagText t ++ s) (pre.length + t.1.length + 1) (pre.length + (tagText t).length) = .ok t.2 := by
  have := slice_mid (pre ++ t.1 ++ ['=']) t.2 s (pre.length + (tagText t).length) (by simp [tagText]; omega)
  simpa [tagText, Nat.add_assoc] using this

theorem commaText_pos {ts : List (Str × Str)} (h : ts ≠ []) : 0 < (commaText ts).length := by
  cases ts with
  | nil => exact absurd rfl h
  | cons t ts =>
    cases ts with
    | nil => simp only [commaText, tagText_length]; omega
    | cons u ts => simp only [commaText, List.length_append, tagText_length]; omega

/-- A set of tags: the last tag is left in the offsets. -/
theorem tagLoop_set (buf s : Str) (ts : List (Str × Str)) (hn : ts ≠ []) (h : ∀ t ∈ ts, TagOk t) (pre : Str) (o1 o2 : Nat)
    (acc : List (Str × Str)) (hb : buf = pre ++ commaText ts ++ s) :
    ∃ q t l, pre ++ commaText ts = q ++ tagText t ∧ ts = l ++ [t] ∧
      tagLoop buf (commaText ts ++ s) pre.length ⟨false, true, pre.length, o1, o2, acc⟩ =
      tagLoop buf s (pre.length + (commaText ts).length) ⟨false, true, q.length, q.length + t.1.length, q.length + t.1.length + 1, acc ++ l⟩ := by
  induction ts generalizing pre o1 o2 acc with
  | nil => exact absurd rfl hn
  | cons t ts ih =>
    have ht := h t List.mem_cons_self
    cases ts with
    | nil => exact ⟨pre, t, [], rfl, rfl, by rw [List.append_nil]; exact tagLoop_tag buf pre t s o1 o2 acc ht hb⟩
    | cons u ts =>
      simp only [commaText, List.append_assoc, List.cons_append] at hb ⊢
      have hb1 : buf = pre ++ tagText t ++ (',' :: (commaText (u :: ts) ++ s)) := by rw [hb]; simp
      rw [tagLoop_tag buf pre t _ o1 o2 acc ht hb1, tagLoop]
      have hpos := commaText_pos (ts := u :: ts) (by simp)
      have hlen : ¬ buf.length ≤ pre.length + (tagText t).length + 1 := by
        rw [hb1]; simp only [List.length_append, List.length_cons]; omega
      have h1 : slice buf pre.length (pre.length + t.1.length) = .ok t.1 := by rw [hb1]; exact slice_key _ _ _
      have h2 : slice buf (pre.length + t.1.length + 1) (pre.length + (tagText t).length) = .ok t.2 := by rw [hb1]; exact slice_val _ _ _
      simp only [Bool.not_false, Bool.true_and, beq_iff_eq, Char.reduceEq, if_false, if_true, h1, h2, hlen]
      obtain ⟨q, t', l, e1, e2, e3⟩ := ih (by simp) (fun x hx => h x (List.mem_cons_of_mem _ hx)) (pre ++ tagText t ++ [','])
        (pre.length + t.1.length) (pre.length + t.1.length + 1) (acc ++ [(t.1, t.2)]) (by rw [hb1]; simp)
      have hl : (pre ++ tagText t ++ [',']).length = pre.length + (tagText t).length + 1 := by
        simp only [List.length_append, List.length_singleton]
      rw [hl] at e3
      refine ⟨q, t', t :: l, by rw [← e1]; simp, by rw [e2]; rfl, ?_⟩
      rw [e3]
      simp only [List.length_append, List.length_cons, List.append_assoc, List.singleton_append]
      congr 1; omega

theorem SetOk.first {ts : List (Str × Str)} (h : SetOk ts) : ∃ c r, commaText ts = c :: r ∧ c.isAlphanum = true ∧ plainChar c = true := by
  obtain ⟨hn, h⟩ := h
  cases ts with
  | nil => exact absurd rfl hn
  | cons t ts =>
    have ht := h t List.mem_cons_self
    obtain ⟨c, r, hkr, hc⟩ := ht.first
    have hp : plainChar c = true := by
      have := ht.key
      rw [Plain, hkr, List.all_cons, Bool.and_eq_true] at this
      exact this.1
    cases ts with
    | nil => exact ⟨c, _, (by simp only [commaText, tagText, hkr, List.cons_append]; rfl), hc, hp⟩
    | cons u ts => exact ⟨c, _, (by simp only [commaText, tagText, hkr, List.cons_append]; rfl), hc, hp⟩

theorem nextTagSet_at (ts : List (Str × Str)) (s : Str) (h : SetOk ts) (e : Option Nat)
    (he : ∀ st, st.found = true → st.escaped = false → tagLoop (commaText ts ++ s) s (commaText ts).length st = .ok (.at st e))
    (hel : e.getD (if (commaText ts ++ s).getLast? = some '\n' then (commaText ts ++ s).length - 1 else (commaText ts ++ s).length) = (commaText ts).length) :
    nextTagSet (commaText ts ++ s) = .ok (some (ts, (commaText ts).length + 1)) := by
  obtain ⟨c, r, hcr, hc, hp⟩ := h.first
  obtain ⟨q, t, l, e1, e2, e3⟩ := tagLoop_set (commaText ts ++ s) s ts h.1 h.2 [] 0 0 [] rfl
  simp only [List.nil_append, List.length_nil, Nat.zero_add] at e1 e3
  rw [nextTagSet, tagLoop_first _ c (r ++ s) (by rw [hcr]; rfl) hc hp, e3, he _ rfl rfl]
  simp only [if_true, hel]
  have ht : TagOk t := h.2 t (by rw [e2]; simp)
  have hk := ht.key_pos
  rw [if_neg (by omega)]
  have h1 : slice (commaText ts ++ s) q.length (q.length + t.1.length) = .ok t.1 := by rw [e1]; exact slice_key _ _ _
  have h2 : slice (commaText ts ++ s) (q.length + t.1.length + 1) (commaText ts).length = .ok t.2 := by
    rw [e1, List.length_append]; exact slice_val _ _ _
  rw [h1, h2]
  simp only [e2]

theorem nextTagSet_space (ts : List (Str × Str)) (s : Str) (h : SetOk ts) :
    nextTagSet (commaText ts ++ ' ' :: s) = .ok (some (ts, (commaText ts).length + 1)) := by
  refine nextTagSet_at ts (' ' :: s) h (some (commaText ts).length) (fun st h1 h2 => ?_) rfl
  rw [tagLoop]
  simp [h1, h2]

theorem getLast_tag (t : Str × Str) (q : Str) (h : TagOk t) : (q ++ tagText t).getLast? ≠ some '\n' := by
  obtain ⟨x, r, hr⟩ : ∃ x r, t.2 = r ++ [x] := by
    refine ⟨t.2.getLast h.some, t.2.dropLast, (List.dropLast_concat_getLast h.some).symm⟩
  have hx : plainChar x = true := by
    have := h.val
    rw [Plain, hr, List.all_append, Bool.and_eq_true] at this
    simpa using this.2
  simp only [tagText, hr]
  rw [show q ++ (t.1 ++ '=' :: (r ++ [x])) = (q ++ t.1 ++ '=' :: r) ++ [x] by simp, List.getLast?_concat]
  rintro h'
  simp only [Option.some.injEq] at h'
  subst h'
  simp [plainChar] at hx

theorem getLast_set (ts : List (Str × Str)) (h : SetOk ts) : (commaText ts).getLast? ≠ some '\n' := by
  obtain ⟨q, t, l, e1, e2, _⟩ := tagLoop_set (commaText ts) [] ts h.1 h.2 [] 0 0 [] (by simp)
  rw [List.nil_append] at e1
  rw [e1]
  exact getLast_tag t q (h.2 t (by rw [e2]; simp))

theorem nextTagSet_end (ts : List (Str × Str)) (h : SetOk ts) : nextTagSet (commaText ts) = .ok (some (ts, (commaText ts).length + 1)) := by
  have := nextTagSet_at ts [] h none (fun st _ _ => by rw [tagLoop]) (by simp [getLast_set ts h])
  rwa [List.append_nil] at this

theorem nextTagSet_newline (ts : List (Str × Str)) (h : SetOk ts) :
    nextTagSet (commaText ts ++ ['\n']) = .ok (some (ts, (commaText ts).length + 1)) := by
  refine nextTagSet_at ts ['\n'] h none (fun st h1 h2 => ?_) ?_
  · obtain ⟨e, f, o0, o1, o2, tg⟩ := st
    simp only at h1 h2
    subst h1 h2
    rw [tagLoop]
    simp [tagLoop]
  · simp

/-- The end of a line: nothing, or a line feed. -/
def LineEnd (e : Str) : Prop := e = [] ∨ e = ['\n']

theorem tagSets_last {buf : Str} {pos n : Nat} {ts : List (Str × Str)} (h : nextTagSet (buf.drop pos) = .ok (some (ts, n)))
    (hn : ¬ pos + n < buf.length) : tagSets buf pos = .ok (ts, pos + n) := by
  rw [tagSets, h]
  simp only
  rw [dif_neg (fun h => hn h.1)]

theorem tagSets_more {buf : Str} {pos n p : Nat} {ts r : List (Str × Str)} (h : nextTagSet (buf.drop pos) = .ok (some (ts, n)))
    (hn : pos + n < buf.length) (h0 : 0 < n) (hr : tagSets buf (pos + n) = .ok (r, p)) : tagSets buf pos = .ok (ts ++ r, p) := by
  rw [tagSets, h]
  simp only
  rw [dif_pos ⟨hn, h0⟩, hr]

theorem tagSets_text (pre : Str) (ts : List (List (Str × Str))) (e : Str) (he : LineEnd e) (hn : ts ≠ []) (h : ∀ t ∈ ts, SetOk t)
    (buf : Str) (hb : buf = pre ++ tagsText ts ++ e) :
    tagSets buf pre.length = .ok (ts.flatten, pre.length + (tagsText ts).length + 1) := by
  induction ts generalizing pre with
  | nil => exact absurd rfl hn
  | cons t ts ih =>
    have ht := h t List.mem_cons_self
    have hd : buf.drop pre.length = tagsText (t :: ts) ++ e := by rw [hb, List.append_assoc, List.drop_left]
    have hlen : buf.length = pre.length + (tagsText (t :: ts)).length + e.length := by
      rw [hb, List.length_append, List.length_append]
    have hl : e.length ≤ 1 := by rcases he with rfl | rfl <;> simp
    cases ts with
    | nil =>
      simp only [tagsText, List.flatten_cons, List.flatten_nil, List.append_nil] at hd hlen ⊢
      refine tagSets_last (ts := t) (n := (commaText t).length + 1) ?_ (by omega)
      rw [hd]
      rcases he with rfl | rfl
      · rw [List.append_nil]; exact nextTagSet_end t ht
      · exact nextTagSet_newline t ht
    | cons u ts =>
      simp only [tagsText, List.append_assoc, List.cons_append, List.length_append, List.length_cons] at hd hlen ⊢
      have hpos : 0 < (tagsText (u :: ts)).length := by
        have := commaText_pos (h u (by simp)).1
        cases ts with
        | nil => simpa only [tagsText] using this
        | cons _ _ => simp only [tagsText, List.length_append, List.length_cons]; omega
      have hs : nextTagSet (buf.drop pre.length) = .ok (some (t, (commaText t).length + 1)) := by
        rw [hd]; exact nextTagSet_space t _ ht
      have hr := ih (pre ++ commaText t ++ [' ']) (by simp) (fun x hx => h x (List.mem_cons_of_mem _ hx)) (by rw [hb]; simp [tagsText])
      have e2 : (pre ++ commaText t ++ [' ']).length = pre.length + ((commaText t).length + 1) := by
        rw [List.length_append, List.length_append, List.length_singleton]; omega
      rw [e2] at hr
      rw [tagSets_more hs (by omega) (Nat.succ_pos _) hr]
      simp only [List.flatten_cons]
      congr 2; omega

/-! ## A line -/

/-- The text of a point: the metric, the time, the value and at least one set of tags, with a space between two
of them. -/
def lineText (m d v : Str) (ts : List (List (Str × Str))) : Str := m ++ ' ' :: (d ++ ' ' :: (v ++ ' ' :: tagsText ts))

/-- Property C132, partial: a request of a single point with an integer as its value and at least one tag, tags separated by
spaces or commas, is read as it was written, with or without a line feed at its end.  Missing: a value that is not an integer (`C132_fraction_refuted`), a second
line (`C132_lines_refuted`), and that no request makes the parser panic (`C132_panic_refuted`). -/
theorem C132_line_partial {pf : Str → Option F} {now ts : Int} {m d v e : Str} {x : F} {tags : List (List (Str × Str))}
    (hm : ' ' ∉ m) (hm1 : ∃ c r, m = c :: r ∧ c.isAlphanum = true) (hd : IntText d) (hts : parseI64 d = some ts)
    (hv : IntText v) (hx : pf v = some x) (hn : tags ≠ []) (ht : ∀ t ∈ tags, SetOk t) (he : LineEnd e) :
    parseText pf now (lineText m d v tags ++ e) = .ok [(⟨m, tags.flatten, x, ts⟩ : Pt F).norm] := by
  have hsp : Char.isDigit ' ' = false := by decide
  have hlt : 0 < (tagsText tags).length := by
    cases tags with
    | nil => exact absurd rfl hn
    | cons t ts =>
      have := commaText_pos (ht t (by simp)).1
      cases ts with
      | nil => simpa only [tagsText] using this
      | cons _ _ => simp only [tagsText, List.length_append, List.length_cons]; omega
  have hel : e.length ≤ 1 := by rcases he with rfl | rfl <;> simp
  generalize hbuf : lineText m d v tags ++ e = buf
  have hlen : buf.length = m.length + 1 + (d.length + 1) + (v.length + 1) + (tagsText tags).length + e.length := by
    rw [← hbuf, lineText]; simp only [List.length_append, List.length_cons]; omega
  have b1 : buf = m ++ ' ' :: (d ++ ' ' :: (v ++ ' ' :: (tagsText tags ++ e))) := by
    rw [← hbuf, lineText]; simp
  have b2 : buf.drop (m.length + 1) = d ++ ' ' :: (v ++ ' ' :: (tagsText tags ++ e)) := by
    rw [b1, show m ++ ' ' :: (d ++ ' ' :: (v ++ ' ' :: (tagsText tags ++ e))) =
      (m ++ [' ']) ++ (d ++ ' ' :: (v ++ ' ' :: (tagsText tags ++ e))) by simp]
    exact List.drop_left' (by simp)
  have b3 : buf.drop (m.length + 1 + (d.length + 1)) = v ++ ' ' :: (tagsText tags ++ e) := by
    rw [b1, show m ++ ' ' :: (d ++ ' ' :: (v ++ ' ' :: (tagsText tags ++ e))) =
      (m ++ ' ' :: (d ++ [' '])) ++ (v ++ ' ' :: (tagsText tags ++ e)) by simp]
    exact List.drop_left' (by simp only [List.length_append, List.length_cons, List.length_nil]; omega)
  have b4 : tagSets buf (m.length + 1 + (d.length + 1) + (v.length + 1)) =
      .ok (tags.flatten, m.length + 1 + (d.length + 1) + (v.length + 1) + (tagsText tags).length + 1) := by
    have := tagSets_text (m ++ ' ' :: (d ++ ' ' :: (v ++ [' ']))) tags e he hn ht buf (by rw [b1]; simp)
    have e2 : (m ++ ' ' :: (d ++ ' ' :: (v ++ [' ']))).length = m.length + 1 + (d.length + 1) + (v.length + 1) := by
      simp only [List.length_append, List.length_cons, List.length_nil]; omega
    rw [e2] at this
    exact this
  have hl : nextLine pf now buf 0 =
      .ok (some (⟨m, tags.flatten, x, ts⟩, m.length + 1 + (d.length + 1) + (v.length + 1) + (tagsText tags).length + 1)) := by
    rw [nextLine, if_neg (by omega), List.drop_zero]
    have h1 := nextMetric_text m (d ++ ' ' :: (v ++ ' ' :: (tagsText tags ++ e))) hm hm1
    rw [← b1] at h1
    simp only [h1, Nat.zero_add, afterMetric, b2, nextValue_text d _ ' ' hd hsp, hts, b3, nextValue_text v _ ' ' hv hsp, hx, b4]
    simp only [show m.length + 1 < buf.length by omega, show m.length + 1 + (d.length + 1) < buf.length by omega,
      show m.length + 1 + (d.length + 1) + (v.length + 1) < buf.length by omega, not_true_eq_false, if_false]
  rw [parseText, parseFrom, hl]
  simp only
  rw [dif_pos ⟨by omega, by omega⟩, parseFrom]
  have hend : nextLine pf now buf (m.length + 1 + (d.length + 1) + (v.length + 1) + (tagsText tags).length + 1) = .ok none := by
    rw [nextLine]
    split
    · rfl
    · rw [List.drop_eq_nil_of_le (by omega)]
      rfl
  rw [hend]

end Verif.Ingest
