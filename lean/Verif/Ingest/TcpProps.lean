import Verif.Ingest.Tcp
/-!
# Properties: the OpenTSDB service over TCP
-/
namespace Verif.Ingest
variable {F : Type}

/-! ## The lines of a buffer -/

theorem splitCrlf_ne_nil (s : Str) : splitCrlf s ≠ [] := by
  induction s with
  | nil => simp [splitCrlf]
  | cons c s ih =>
    rw [splitCrlf]
    split
    · simp
    · split <;> simp

theorem splitCrlf_plain (l s : Str) (hl : '\r' ∉ l) : splitCrlf (l ++ '\r' :: '\n' :: s) = l :: splitCrlf s := by
  induction l with
  | nil => rw [List.nil_append, splitCrlf]; simp
  | cons c l ih =>
    simp only [List.mem_cons, not_or] at hl
    rw [List.cons_append, splitCrlf, if_neg (by rintro ⟨h, _⟩; exact hl.1 h.symm), ih hl.2]

theorem splitCrlf_none (l : Str) (hl : '\r' ∉ l) : splitCrlf l = [l] := by
  induction l with
  | nil => simp [splitCrlf]
  | cons c l ih =>
    simp only [List.mem_cons, not_or] at hl
    rw [splitCrlf, if_neg (by rintro ⟨h, _⟩; exact hl.1 h.symm), ih hl.2]

theorem splitCrlf_cr (l : Str) (hl : '\r' ∉ l) : splitCrlf (l ++ ['\r']) = [l ++ ['\r']] := by
  induction l with
  | nil => rw [List.nil_append, splitCrlf]; simp [splitCrlf]
  | cons c l ih =>
    simp only [List.mem_cons, not_or] at hl
    rw [List.cons_append, splitCrlf, if_neg (by rintro ⟨h, _⟩; exact hl.1 h.symm), ih hl.2]

/-- The text of lines: every line is ended by a carriage return and a line feed. -/
def stream (ls : List Str) : Str := ls.flatMap (· ++ ['\r', '\n'])

@[simp] theorem stream_nil : stream [] = [] := rfl

theorem stream_cons (l : Str) (ls : List Str) : stream (l :: ls) = l ++ '\r' :: '\n' :: stream ls := by
  simp [stream]

theorem stream_append (a b : List Str) : stream (a ++ b) = stream a ++ stream b := by simp [stream]

theorem splitCrlf_stream (ls : List Str) (h : ∀ l ∈ ls, '\r' ∉ l) (t : Str) :
    splitCrlf (stream ls ++ t) = ls ++ splitCrlf t := by
  induction ls with
  | nil => rfl
  | cons l ls ih =>
    rw [stream_cons, List.append_assoc, List.cons_append, List.cons_append, splitCrlf_plain _ _ (h l List.mem_cons_self),
      ih fun x hx => h x (List.mem_cons_of_mem _ hx), List.cons_append]

/-- What stands behind the last line end. -/
def rest (s : Str) : Str := (splitCrlf s).getLast?.getD []

theorem rest_stream (ls : List Str) (h : ∀ l ∈ ls, '\r' ∉ l) (t : Str) : rest (stream ls ++ t) = rest t := by
  simp only [rest, splitCrlf_stream ls h t, List.getLast?_append]
  cases hs : (splitCrlf t).getLast? with
  | none => exact absurd (List.getLast?_eq_none_iff.1 hs) (splitCrlf_ne_nil t)
  | some _ => rfl

/-- A part of a stream is some of its lines and a piece of the next. -/
theorem stream_prefix (ls : List Str) (h : ∀ l ∈ ls, '\r' ∉ l) (x y : Str) (he : x ++ y = stream ls) :
    ∃ a b t, ls = a ++ b ∧ x = stream a ++ t ∧ splitCrlf t = [t] ∧ t ++ y = stream b := by
  induction ls generalizing x with
  | nil =>
    obtain ⟨rfl, rfl⟩ := List.append_eq_nil_iff.1 he
    exact ⟨[], [], [], rfl, rfl, by simp [splitCrlf], rfl⟩
  | cons l ls ih =>
    have hl := h l List.mem_cons_self
    rw [stream_cons] at he
    rcases List.append_eq_append_iff.1 he with ⟨z, hz1, hz2⟩ | ⟨z, hz1, hz2⟩
    · refine ⟨[], l :: ls, x, rfl, rfl, splitCrlf_none x ?_, by rw [he, stream_cons]⟩
      intro hx; exact hl (by rw [hz1]; exact List.mem_append_left _ hx)
    · cases z with
      | nil =>
        refine ⟨[], l :: ls, x, rfl, rfl, splitCrlf_none x ?_, by rw [he, stream_cons]⟩
        rw [hz1, List.append_nil]; exact hl
      | cons c z =>
        simp only [List.cons_append, List.cons.injEq] at hz2
        obtain ⟨rfl, hz2⟩ := hz2
        cases z with
        | nil =>
          refine ⟨[], l :: ls, x, rfl, rfl, ?_, by rw [he, stream_cons]⟩
          rw [hz1]; exact splitCrlf_cr l hl
        | cons d z =>
          simp only [List.cons_append, List.cons.injEq] at hz2
          obtain ⟨rfl, hz2⟩ := hz2
          obtain ⟨a, b, t, h1, h2, h3, h4⟩ := ih (fun x hx => h x (List.mem_cons_of_mem _ hx)) z hz2.symm
          refine ⟨l :: a, b, t, by rw [h1]; rfl, ?_, h3, h4⟩
          rw [hz1, h2, stream_cons]; simp

/-! ## What is parsed -/

/-- A line that is accepted, with the point it stands for, as it is given to the coordinator. -/
structure Good (pf : Str → Option F) (l : Str) (p : Pt F) : Prop where
  cr : '\r' ∉ l
  some : l ≠ []
  put : ∃ q, putLine pf l = .ok q ∧ q.norm.fix = .some p

/-- Lines and their points. -/
inductive Goods (pf : Str → Option F) : List Str → List (Pt F) → Prop
  | nil : Goods pf [] []
  | cons {l : Str} {p : Pt F} {ls : List Str} {ps : List (Pt F)} : Good pf l p → Goods pf ls ps → Goods pf (l :: ls) (p :: ps)

theorem Goods.cr {pf : Str → Option F} {ls : List Str} {ps : List (Pt F)} (h : Goods pf ls ps) : ∀ l ∈ ls, '\r' ∉ l := by
  induction h with
  | nil => simp
  | cons h _ ih =>
    intro l hl
    rcases List.mem_cons.1 hl with rfl | hl
    · exact h.cr
    · exact ih l hl

theorem parseLines_good {pf : Str → Option F} {ls : List Str} {ps : List (Pt F)} (h : Goods pf ls ps) (t : List Str) :
    ∃ qs, qs.length = ls.length ∧ qs.mapM Pt.fix = .some ps ∧
      parseLines pf (ls ++ t) = match parseLines pf t with
        | .error e => .error e
        | .ok (r, n) => .ok (qs ++ r, (stream ls).length + n) := by
  induction h with
  | nil =>
    refine ⟨[], rfl, rfl, ?_⟩
    simp only [List.nil_append, stream_nil, List.length_nil, Nat.zero_add]
    cases parseLines pf t <;> rfl
  | @cons l p ls ps h _ ih =>
    obtain ⟨qs, h0, h1, h2⟩ := ih
    obtain ⟨q, hq1, hq2⟩ := h.put
    refine ⟨q.norm :: qs, by simp [h0], by simp [List.mapM_cons, hq2, h1], ?_⟩
    have he : l.isEmpty = false := by
      cases l with
      | nil => exact absurd rfl h.some
      | cons _ _ => rfl
    rw [List.cons_append, parseLines, he, if_neg (by simp), hq1, h2]
    cases parseLines pf t with
    | error e => rfl
    | ok r =>
      obtain ⟨r, n⟩ := r
      simp only [stream_cons, List.length_append, List.length_cons, Except.ok.injEq, Prod.mk.injEq, List.cons_append, true_and]
      omega

/-- A read after which the buffer ends with a line end. -/
theorem read_whole {pf : Str → Option F} {c : Conn F} {chunk : Str} {ls : List Str} {ps : List (Pt F)} (ha : c.task = .alive)
    (h : Goods pf ls ps) (hb : c.buf ++ chunk = stream ls) : c.read pf chunk = ⟨[], c.out ++ ps, .alive⟩ := by
  obtain ⟨qs, h0, h1, h2⟩ := parseLines_good h [[]]
  have hp : parseTcp pf (stream ls) = .ok (qs, (stream ls).length) := by
    have := splitCrlf_stream ls h.cr []
    rw [List.append_nil] at this
    rw [parseTcp, this, show splitCrlf [] = [[]] by simp [splitCrlf], h2]
    simp [parseLines]
  rw [Conn.read, if_neg (by simp [ha])]
  simp only [hb, hp]
  split
  · rename_i he
    rw [List.isEmpty_iff] at he
    subst he
    cases ls with
    | nil =>
      cases h
      cases c
      simp_all
    | cons _ _ => simp at h0
  · rw [h1]
    simp

/-- A read after which the buffer ends with a piece of a line that is refused. -/
theorem read_piece {pf : Str → Option F} {c : Conn F} {chunk t : Str} {ls : List Str} {ps : List (Pt F)} {e : Err}
    (ha : c.task = .alive) (h : Goods pf ls ps) (hb : c.buf ++ chunk = stream ls ++ t) (ht : splitCrlf t = [t]) (hn : t ≠ [])
    (hr : putLine pf t = .error e) : c.read pf chunk = { c with buf := c.buf ++ chunk } := by
  obtain ⟨qs, _, _, h2⟩ := parseLines_good h [t]
  have he : t.isEmpty = false := by
    cases t with
    | nil => exact absurd rfl hn
    | cons _ _ => rfl
  have hp : parseTcp pf (stream ls ++ t) = .error e := by
    rw [parseTcp, splitCrlf_stream ls h.cr, ht, h2]
    simp [parseLines, he, hr]
  rw [Conn.read, if_neg (by simp [ha])]
  simp only [hb, hp]

theorem run_good {pf : Str → Option F} {chunks : List Str} {c : Conn F} {ls : List Str} {ps : List (Pt F)}
    (ha : c.task = .alive) (h : Goods pf ls ps) (hb : c.buf ++ chunks.flatten = stream ls)
    (hc : ∀ k, 0 < k → k ≤ chunks.length →
      rest (c.buf ++ (chunks.take k).flatten) = [] ∨ ∃ e, putLine pf (rest (c.buf ++ (chunks.take k).flatten)) = .error e)
    (h0 : chunks = [] → c.buf = []) :
    c.run pf chunks = ⟨[], c.out ++ ps, .alive⟩ := by
  induction chunks generalizing c ls ps with
  | nil =>
    rw [h0 rfl] at hb
    simp only [List.flatten_nil, List.nil_append] at hb
    cases h with
    | nil =>
      cases c
      simp_all [Conn.run]
    | cons _ _ => simp [stream_cons] at hb
  | cons x xs ih =>
    rw [Conn.run, List.foldl_cons, ← Conn.run]
    rw [List.flatten_cons, ← List.append_assoc] at hb
    obtain ⟨a, b, t, h1, h2, h3, h4⟩ := stream_prefix ls h.cr _ _ hb
    subst h1
    obtain ⟨pa, pb, ga, gb, rfl⟩ : ∃ pa pb, Goods pf a pa ∧ Goods pf b pb ∧ ps = pa ++ pb := by
      clear hb h2 h4
      induction a generalizing ps with
      | nil => exact ⟨[], ps, .nil, h, rfl⟩
      | cons l a iha =>
        cases h with
        | cons hl h =>
          obtain ⟨pa, pb, ga, gb, rfl⟩ := iha h
          exact ⟨_ :: pa, pb, .cons hl ga, gb, rfl⟩
    have hrest : rest (c.buf ++ x) = t := by
      rw [h2, rest_stream a ga.cr, rest, h3]
      rfl
    have h1' := hc 1 Nat.one_pos (by simp)
    simp only [List.take_succ_cons, List.take_zero, List.flatten_cons, List.flatten_nil, List.append_nil, hrest] at h1'
    rcases Classical.em (t = []) with rfl | ht
    · rw [read_whole ha ga (by rw [h2, List.append_nil])]
      simp only [List.nil_append] at h4
      rw [ih rfl gb (by simpa using h4)]
      · simp
      · intro k hk hk'
        have := hc (k + 1) (Nat.succ_pos _) (by simp; omega)
        simp only [List.take_succ_cons, List.flatten_cons, ← List.append_assoc, h2, List.append_nil] at this
        simp only [rest_stream a ga.cr] at this
        simpa using this
      · simp
    · rcases h1' with h1' | ⟨e, h1'⟩
      · exact absurd h1' ht
      · rw [read_piece ha ga h2 h3 ht h1']
        have : xs ≠ [] := by
          rintro rfl
          simp only [List.flatten_nil, List.append_nil] at h4
          have h5 := splitCrlf_stream b gb.cr []
          rw [List.append_nil, ← h4, h3] at h5
          simp only [splitCrlf] at h5
          have h6 : b = [] := by
            cases b with
            | nil => rfl
            | cons y ys => cases ys <;> simp at h5
          subst h6
          exact ht (by simpa using h4)
        rw [ih (c := { c with buf := c.buf ++ x }) ha h hb ?_ (fun h => absurd h this)]
        intro k hk hk'
        have := hc (k + 1) (Nat.succ_pos _) (by simp; omega)
        simpa only [List.take_succ_cons, List.flatten_cons, ← List.append_assoc] using this

/-- Property C129, partial: a stream of accepted `put` lines is written in full, in order, and leaves the connection empty
and alive, if no read ends within a line at a place where the piece of the line that is there is accepted as a line.
Missing: reads that end at any place (`C129_cut_refuted`), empty lines (`C129_blank_refuted`). -/
theorem C129_tcp_partial {pf : Str → Option F} {chunks : List Str} {ls : List Str} {ps : List (Pt F)}
    (hg : Goods pf ls ps) (hb : chunks.flatten = stream ls)
    (hc : ∀ k ≤ chunks.length, rest (chunks.take k).flatten = [] ∨ ∃ e, putLine pf (rest (chunks.take k).flatten) = .error e) :
    Conn.new.run pf chunks = ⟨[], ps, .alive⟩ := by
  have := run_good (c := Conn.new) (pf := pf) (chunks := chunks) rfl hg (by simpa [Conn.new] using hb)
    (fun k _ hk => by simpa [Conn.new] using hc k hk) (fun _ => rfl)
  simpa [Conn.new] using this

/-- If a read ends within a line and the piece that is there is accepted as a line, the piece is written as a point and the
task panics: the piece is counted with a line end that is not there. -/
theorem read_cut {pf : Str → Option F} {c : Conn F} {chunk t : Str} {ls : List Str} {ps : List (Pt F)} {p : Pt F}
    (ha : c.task = .alive) (h : Goods pf ls ps) (hb : c.buf ++ chunk = stream ls ++ t) (ht : splitCrlf t = [t]) (hn : t ≠ [])
    (hr : ∃ q, putLine pf t = .ok q ∧ q.norm.fix = .some p) :
    c.read pf chunk = ⟨c.buf ++ chunk, c.out ++ ps ++ [p], .panicked⟩ := by
  obtain ⟨q, hq, hp⟩ := hr
  obtain ⟨qs, _, h1, h2⟩ := parseLines_good h [t]
  have he : t.isEmpty = false := by
    cases t with
    | nil => exact absurd rfl hn
    | cons _ _ => rfl
  have hpt : parseTcp pf (stream ls ++ t) = .ok (qs ++ [q.norm], (stream ls).length + (t.length + 2)) := by
    rw [parseTcp, splitCrlf_stream ls h.cr, ht, h2]
    simp [parseLines, he, hq]
  rw [Conn.read, if_neg (by simp [ha])]
  simp only [hb, hpt]
  rw [if_neg (by simp), List.mapM_append, h1]
  simp [List.mapM_cons, hp]

/-- A task that has come to its end reads nothing any more. -/
theorem run_dead {pf : Str → Option F} {c : Conn F} (h : c.task ≠ .alive) (chunks : List Str) : c.run pf chunks = c := by
  induction chunks with
  | nil => rfl
  | cons x xs ih => rw [Conn.run, List.foldl_cons, ← Conn.run, Conn.read, if_pos h, ih]

/-- Property C129, the opposite: wherever a read ends within a line at a place where the piece of the line that is there is
accepted as a line, the piece is written as a point, the task panics, and nothing that comes later is written. -/
theorem C129_cut_loses {pf : Str → Option F} {chunk t : Str} {ls : List Str} {ps : List (Pt F)} {p : Pt F}
    (h : Goods pf ls ps) (hb : chunk = stream ls ++ t) (ht : splitCrlf t = [t]) (hn : t ≠ [])
    (hr : ∃ q, putLine pf t = .ok q ∧ q.norm.fix = .some p) (later : List Str) :
    (Conn.new.run pf (chunk :: later)).out = ps ++ [p] ∧ (Conn.new.run pf (chunk :: later)).task = .panicked := by
  have := read_cut (c := Conn.new) (chunk := chunk) rfl h (by simpa [Conn.new] using hb) ht hn hr
  rw [Conn.run, List.foldl_cons, ← Conn.run, this, run_dead (by simp)]
  simp [Conn.new]

/-! ## A bad line -/

theorem parseLines_bad {pf : Str → Option F} {l : Str} (hn : l ≠ []) {e : Err} (he : putLine pf l = .error e) (b : List Str) :
    ∀ a : List Str, ∃ e', parseLines pf (a ++ l :: b) = .error e' := by
  intro a
  induction a with
  | nil =>
    have : l.isEmpty = false := by
      cases l with
      | nil => exact absurd rfl hn
      | cons _ _ => rfl
    exact ⟨e, by simp [parseLines, this, he]⟩
  | cons x a ih =>
    obtain ⟨e', ih⟩ := ih
    rw [List.cons_append, parseLines]
    split
    · exact ⟨e', ih⟩
    · split
      · exact ⟨_, rfl⟩
      · rw [ih]; exact ⟨e', rfl⟩

/-- Property C130: a complete line that is refused stops the connection for good.  Whatever is read after it, nothing is
written any more and nothing leaves the buffer: not the lines before it that are in the buffer, nor any line after it. -/
theorem C130_bad_line_blocks {pf : Str → Option F} {c : Conn F} {a : List Str} {l s : Str} {e : Err} (ha : c.task = .alive)
    (hcr : ∀ x ∈ a, '\r' ∉ x) (hl : '\r' ∉ l) (hn : l ≠ []) (he : putLine pf l = .error e)
    (hb : c.buf = stream a ++ stream [l] ++ s) (chunks : List Str) :
    c.run pf chunks = { c with buf := c.buf ++ chunks.flatten } := by
  induction chunks generalizing c s with
  | nil => simp [Conn.run]
  | cons x xs ih =>
    rw [Conn.run, List.foldl_cons, ← Conn.run]
    have hx : c.read pf x = { c with buf := c.buf ++ x } := by
      have hp : ∃ e', parseTcp pf (c.buf ++ x) = .error e' := by
        rw [parseTcp, hb, List.append_assoc, List.append_assoc, splitCrlf_stream a hcr,
          splitCrlf_stream [l] (by simpa using hl)]
        exact parseLines_bad hn he _ a
      obtain ⟨e', hp⟩ := hp
      rw [Conn.read, if_neg (by simp [ha])]
      simp only [hp]
    rw [hx, ih (c := { c with buf := c.buf ++ x }) (s := s ++ x) ha (by simp only [hb, List.append_assoc])]
    simp

/-! ## The time of a point -/

theorem tdiv_ms_gt {ts : Int} : ts.tdiv ms > 10 ↔ 11 * ms ≤ ts := by
  simp only [ms]
  rcases Int.le_total 0 ts with h | h
  · rw [Int.tdiv_eq_ediv_of_nonneg h]; omega
  · have : ts.tdiv 1000000000000 ≤ 0 := by
      have h2 := Int.neg_tdiv ts 1000000000000
      have h3 : 0 ≤ (-ts).tdiv 1000000000000 := Int.tdiv_nonneg (by omega) (by omega)
      omega
    omega

theorem tdiv_ms_zero {ts : Int} : ts.tdiv ms = 0 ↔ -ms < ts ∧ ts < ms := by
  simp only [ms]
  rcases Int.le_total 0 ts with h | h
  · rw [Int.tdiv_eq_ediv_of_nonneg h]; omega
  · have h2 := Int.neg_tdiv ts 1000000000000
    rw [Int.tdiv_eq_ediv_of_nonneg (by omega)] at h2
    omega

theorem down_low {n : Nat} {ts : Int} (h : ts < 11 * ms) : down n ts = some ts := by
  have : ¬ ts.tdiv ms > 10 := by rw [tdiv_ms_gt]; omega
  cases n <;> simp [down, this]

theorem up_high {n : Nat} {ts : Int} (h : ts ≤ -ms ∨ ms ≤ ts) : up n ts = some ts := by
  have : ¬ ts.tdiv ms = 0 := by rw [tdiv_ms_zero]; simp only [ms] at *; omega
  cases n <;> simp [up, this]

theorem up_zero (n : Nat) : up n 0 = none := by
  induction n with
  | zero => rfl
  | succ n ih => rw [up, if_pos (by decide), Int.zero_mul]; exact ih

/-- The second loop does not end for time 0, however long one waits. -/
theorem fixTime_zero (n : Nat) : fixTimeIn n 0 = none := by
  rw [fixTimeIn, down_low (by decide)]
  exact up_zero n

theorem down_ends {n : Nat} {ts : Int} (h : ts < 11 * ms * 10 ^ n) (h0 : 11 * ms ≤ ts) :
    ∃ r, down n ts = some r ∧ ms ≤ r ∧ r < 11 * ms := by
  induction n generalizing ts with
  | zero => simp at h; omega
  | succ n ih =>
    rw [down, if_pos (tdiv_ms_gt.2 h0), Int.tdiv_eq_ediv_of_nonneg (by simp only [ms] at h0; omega)]
    rcases Classical.em (11 * ms ≤ ts / 10) with h1 | h1
    · refine ih ?_ h1
      rw [Int.pow_succ, ← Int.mul_assoc] at h
      omega
    · exact ⟨ts / 10, down_low (by omega), by simp only [ms] at *; omega, by omega⟩

theorem up_ends_pos {n : Nat} {ts : Int} (h0 : 0 < ts) (h1 : ts < 11 * ms) (h : ms ≤ ts * 10 ^ n) :
    ∃ r, up n ts = some r ∧ ms ≤ r ∧ r < 11 * ms := by
  rcases Classical.em (ms ≤ ts) with h2 | h2
  · exact ⟨ts, up_high (.inr h2), h2, h1⟩
  · induction n generalizing ts with
    | zero => simp at h; omega
    | succ n ih =>
      rw [up, if_pos (tdiv_ms_zero.2 (by simp only [ms] at *; omega))]
      rcases Classical.em (ms ≤ ts * 10) with h3 | h3
      · exact ⟨ts * 10, up_high (.inr h3), h3, by simp only [ms] at *; omega⟩
      · refine ih (by omega) (by simp only [ms] at *; omega) ?_ h3
        rw [Int.pow_succ, Int.mul_comm (10 ^ n) 10, ← Int.mul_assoc] at h
        exact h

theorem up_ends_neg {n : Nat} {ts : Int} (h0 : ts < 0) (h : ts * 10 ^ n ≤ -ms) :
    ∃ r, up n ts = some r ∧ r ≤ -ms := by
  rcases Classical.em (ts ≤ -ms) with h2 | h2
  · exact ⟨ts, up_high (.inl h2), h2⟩
  · induction n generalizing ts with
    | zero => simp at h; omega
    | succ n ih =>
      rw [up, if_pos (tdiv_ms_zero.2 (by simp only [ms] at *; omega))]
      rcases Classical.em (ts * 10 ≤ -ms) with h3 | h3
      · exact ⟨ts * 10, up_high (.inl h3), h3⟩
      · refine ih (by omega) ?_ h3
        rw [Int.pow_succ, Int.mul_comm (10 ^ n) 10, ← Int.mul_assoc] at h
        exact h

/-- Property C131: every point with a positive time lands in the first eleven thousand seconds of 1970: the time that is
given to the coordinator as nanoseconds lies between 10^12 and 11·10^12. -/
theorem C131_where {ts : Int} (h : 0 < ts) (hm : ts ≤ i64Max) : ∃ r, fixTime ts = some r ∧ ms ≤ r ∧ r < 11 * ms := by
  rw [fixTime, fixTimeIn]
  rcases Classical.em (11 * ms ≤ ts) with h1 | h1
  · obtain ⟨r, h2, h3, h4⟩ := down_ends (n := 20) (ts := ts) (by simp only [ms, i64Max] at *; omega) h1
    exact ⟨r, by rw [h2, Option.bind_some, up_high (.inr h3)], h3, h4⟩
  · rw [down_low (by omega), Option.bind_some]
    exact up_ends_pos h (by omega) (by simp only [ms] at *; omega)

/-- Times before 1970 end up at or before -10^12. -/
theorem fixTime_neg {ts : Int} (h : ts < 0) : ∃ r, fixTime ts = some r ∧ r ≤ -ms := by
  rw [fixTime, fixTimeIn, down_low (by simp only [ms]; omega), Option.bind_some]
  exact up_ends_neg h (by simp only [ms]; omega)

theorem down_mono {n m : Nat} {ts r : Int} (h : down n ts = some r) (hm : n ≤ m) : down m ts = some r := by
  induction n generalizing m ts with
  | zero =>
    rw [down] at h
    split at h
    · cases h
    · rename_i hn
      simp only [Option.some.injEq] at h; subst h
      exact down_low (by rw [tdiv_ms_gt] at hn; omega)
  | succ n ih =>
    obtain ⟨m, rfl⟩ : ∃ k, m = k + 1 := ⟨m - 1, by omega⟩
    rw [down] at h ⊢
    split at h
    · rename_i hp
      rw [if_pos hp]; exact ih h (by omega)
    · rename_i hp
      rw [if_neg hp]; exact h

theorem up_mono {n m : Nat} {ts r : Int} (h : up n ts = some r) (hm : n ≤ m) : up m ts = some r := by
  induction n generalizing m ts with
  | zero =>
    rw [up] at h
    split at h
    · cases h
    · rename_i hn
      simp only [Option.some.injEq] at h; subst h
      exact up_high (by rw [tdiv_ms_zero] at hn; simp only [ms] at *; omega)
  | succ n ih =>
    obtain ⟨m, rfl⟩ : ∃ k, m = k + 1 := ⟨m - 1, by omega⟩
    rw [up] at h ⊢
    split at h
    · rename_i hp
      rw [if_pos hp]; exact ih h (by omega)
    · rename_i hp
      rw [if_neg hp]; exact h

/-- Twenty turns are enough: what the loops give after any number of turns, they give after twenty. -/
theorem fixTime_enough {ts : Int} (h1 : ts ≤ i64Max) {n : Nat} {r : Int} (h : fixTimeIn n ts = some r) : fixTime ts = some r := by
  have h2 : fixTime ts ≠ none := by
    rcases Int.lt_trichotomy ts 0 with h0 | h0 | h0
    · obtain ⟨r, h2, _⟩ := fixTime_neg h0; rw [h2]; simp
    · subst h0; rw [fixTime_zero] at h; cases h
    · obtain ⟨r, h2, _⟩ := C131_where h0 h1; rw [h2]; simp
  obtain ⟨r', h3⟩ := Option.ne_none_iff_exists'.1 h2
  rw [h3]
  rw [fixTime] at h3
  have hmono : ∀ {a b : Nat} {r : Int}, a ≤ b → fixTimeIn a ts = some r → fixTimeIn b ts = some r := by
    intro a b r hab hr
    rw [fixTimeIn, Option.bind_eq_some_iff] at hr ⊢
    obtain ⟨x, hx1, hx2⟩ := hr
    exact ⟨x, down_mono hx1 hab, up_mono hx2 hab⟩
  rcases Nat.le_total n 20 with hn | hn
  · have := hmono hn h; rw [this] at h3; exact h3.symm
  · have := hmono hn h3; rw [this] at h; exact h

/-- Property C131, partial: a time of 13 digits (milliseconds of this age) goes to the coordinator unchanged.  Missing: it is
a number of milliseconds and is taken for a number of nanoseconds (`C131_instant_refuted`). -/
theorem C131_kept_partial {ts : Int} (h : ms ≤ ts) (h1 : ts < 11 * ms) : fixTime ts = some ts := by
  rw [fixTime, fixTimeIn, down_low h1, Option.bind_some, up_high (.inr h)]

end Verif.Ingest
