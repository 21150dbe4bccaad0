import Verif.Ingest.Prom
/-!
# Properties: Prometheus remote write and remote read
-/
namespace Verif.Ingest.Prom
open Verif.Ingest (Str Err wrap64)
open Verif.Raft (dec dec_digits dec_ne_nil)
variable {F : Type}

/-! ## Write -/

/-- Property C138, partial: a time survives writing and reading, if in nanoseconds it fits into 64 bits.  Missing: times beyond
(`C138_time_refuted`). -/
theorem C138_time_partial {ms : Int} (h1 : -9223372036854 ≤ ms) (h2 : ms ≤ 9223372036854) :
    toNs ms = ms * 1000000 ∧ (toNs ms).tdiv 1000000 = ms := by
  have h : toNs ms = ms * 1000000 := by
    rw [toNs, wrap64]
    omega
  rw [h]
  exact ⟨rfl, Int.mul_tdiv_cancel _ (by decide)⟩

/-- Property C138, partial: every sample of a request becomes one line, in order, in the table that its series names, with all
labels as tags. -/
theorem C138_lines_partial (req : List (TimeSeries F)) :
    (toLines req).length = (req.map fun s => s.samples.length).sum ∧
    ∀ l, l ∈ toLines req ↔ ∃ s ∈ req, ∃ x ∈ s.samples, l = ⟨tableOf s.labels, s.labels.map fun l => (l.name, l.value), x.value, toNs x.ts⟩ := by
  constructor
  · simp [toLines, List.length_flatMap]
  · intro l
    simp only [toLines, List.mem_flatMap, List.mem_map]
    constructor
    · rintro ⟨s, hs, x, hx, rfl⟩; exact ⟨s, hs, x, hx, rfl⟩
    · rintro ⟨s, hs, x, hx, rfl⟩; exact ⟨s, hs, x, hx, rfl⟩

/-- The table of a series with one label `__name__` is its value; without, it is the one for all such series. -/
theorem C138_table {a b : List Label} {t : Str} (ha : ∀ l ∈ a, l.name ≠ metricName) (hb : ∀ l ∈ b, l.name ≠ metricName) :
    tableOf (a ++ ⟨metricName, t⟩ :: b) = t ∧ tableOf a = defaultTable := by
  have h : ∀ (l : List Label) (d : Str), (∀ x ∈ l, x.name ≠ metricName) →
      l.foldl (fun t l => if l.name = metricName then l.value else t) d = d := by
    intro l
    induction l with
    | nil => intro d _; rfl
    | cons x l ih =>
      intro d hl
      rw [List.foldl_cons, if_neg (hl x List.mem_cons_self)]
      exact ih d fun y hy => hl y (List.mem_cons_of_mem _ hy)
  refine ⟨?_, h a _ ha⟩
  rw [tableOf, List.foldl_append, List.foldl_cons, if_pos rfl]
  exact h b _ hb

/-! ## The series of an answer -/

/-- The key of a row. -/
def rowKey (names : List Str) (r : Row F) : Str := concatLabels (labelsOf names r)

/-- The series that the rows with a key make. -/
def seriesOf (names : List Str) : List (Row F) → Option (TimeSeries F)
  | [] => none
  | r :: rs => some ⟨labelsOf names r, (r :: rs).map sampleOf⟩

theorem seriesOf_snoc (names : List Str) (l : List (Row F)) (r : Row F) :
    seriesOf names (l ++ [r]) = some (match seriesOf names l with
      | some s => { s with samples := s.samples ++ [sampleOf r] }
      | none => ⟨labelsOf names r, [sampleOf r]⟩) := by
  cases l with
  | nil => rfl
  | cons x l => simp [seriesOf]

theorem found_snoc (names : List Str) (rows : List (Row F)) (r : Row F) : found names (rows ++ [r]) = apply names (found names rows) r := by
  simp [found]

/-- Under a key stand the rows with that key. -/
theorem found_get (names : List Str) (rows : List (Row F)) (k : Str) :
    (found names rows).get k = seriesOf names (rows.filter fun r => rowKey names r = k) := by
  suffices h : ∀ rs : List (Row F), (found names rs.reverse).get k = seriesOf names (rs.reverse.filter fun r => rowKey names r = k) by
    have := h rows.reverse
    rwa [List.reverse_reverse] at this
  intro rs
  induction rs generalizing k with
  | nil => rfl
  | cons r rs ih =>
    rw [List.reverse_cons, found_snoc, List.filter_append]
    have hk := ih (rowKey names r)
    by_cases h : rowKey names r = k
    · subst h
      rw [List.filter_cons_of_pos (by simp), List.filter_nil, seriesOf_snoc, ← hk]
      simp only [apply]
      rw [show concatLabels (labelsOf names r) = rowKey names r from rfl]
      cases hg : (found names rs.reverse).get (rowKey names r) with
      | none => simp [AMap.get_set]
      | some s => simp [AMap.get_set]
    · rw [List.filter_cons_of_neg (by simpa using h), List.filter_nil, List.append_nil, ← ih k]
      simp only [apply]
      rw [show concatLabels (labelsOf names r) = rowKey names r from rfl]
      have h' : ¬ k = rowKey names r := fun e => h e.symm
      cases hg : (found names rs.reverse).get (rowKey names r) with
      | none => simp [AMap.get_set, h']
      | some s => simp [AMap.get_set, h']

theorem sep_append_inj {c : Char} {a b x y : Str} (ha : c ∉ a) (hb : c ∉ b) (h : a ++ c :: x = b ++ c :: y) : a = b ∧ x = y := by
  induction a generalizing b with
  | nil =>
    cases b with
    | nil => simpa using h
    | cons d b =>
      simp only [List.nil_append, List.cons_append, List.cons.injEq] at h
      exact absurd (by rw [← h.1]; exact List.mem_cons_self) hb
  | cons d a ih =>
    cases b with
    | nil =>
      simp only [List.nil_append, List.cons_append, List.cons.injEq] at h
      exact absurd (by rw [h.1]; exact List.mem_cons_self) ha
    | cons e b =>
      simp only [List.cons_append, List.cons.injEq] at h
      simp only [List.mem_cons, not_or] at ha hb
      obtain ⟨h1, h2⟩ := ih ha.2 hb.2 h.2
      exact ⟨by rw [h.1, h1], h2⟩

theorem join_inj {c : Char} {p q : List Str} (hl : p.length = q.length) (hp : ∀ k ∈ p, c ∉ k) (hq : ∀ k ∈ q, c ∉ k)
    (h : join c p = join c q) : p = q := by
  induction p generalizing q with
  | nil => cases q with
    | nil => rfl
    | cons _ _ => simp at hl
  | cons a p ih =>
    cases q with
    | nil => simp at hl
    | cons b q =>
      have ha := hp a List.mem_cons_self
      have hb := hq b List.mem_cons_self
      cases p with
      | nil =>
        cases q with
        | nil => simp only [join] at h; rw [h]
        | cons _ _ => simp at hl
      | cons d p =>
        cases q with
        | nil => simp at hl
        | cons e q =>
          simp only [join] at h
          obtain ⟨h1, h2⟩ := sep_append_inj ha hb h
          rw [h1, ih (by simpa using hl) (fun k hk => hp k (List.mem_cons_of_mem _ hk)) (fun k hk => hq k (List.mem_cons_of_mem _ hk)) h2]

/-- A row of a table with given tag columns, without the character 1 in its tags. -/
structure RowOk (names : List Str) (r : Row F) : Prop where
  len : r.tags.length = names.length
  sep : ∀ v ∈ r.tags, sep ∉ v

theorem rowKey_inj {names : List Str} (hn : ∀ n ∈ names, sep ∉ n) {r s : Row F} (hr : RowOk names r) (hs : RowOk names s)
    (h : rowKey names r = rowKey names s) : r.tags = s.tags := by
  have hmem : ∀ (t : Row F), RowOk names t → ∀ k ∈ (labelsOf names t).flatMap (fun l => [l.name, l.value]), sep ∉ k := by
    intro t ht k hk
    simp only [labelsOf, List.mem_flatMap, List.mem_map, List.mem_cons, List.not_mem_nil, or_false] at hk
    obtain ⟨l, ⟨x, hx, rfl⟩, rfl | rfl⟩ := hk
    · exact hn _ (List.of_mem_zip hx).1
    · exact ht.sep _ (List.of_mem_zip hx).2
  have hlen : ∀ (t : Row F), RowOk names t → ((labelsOf names t).flatMap fun l => [l.name, l.value]).length = 2 * names.length := by
    intro t ht
    have : (labelsOf names t).length = names.length := by simp [labelsOf, ht.len]
    rw [← this]
    generalize labelsOf names t = ls
    clear this
    induction ls with
    | nil => rfl
    | cons a ls ih => simp only [List.flatMap_cons, List.length_append, ih, List.length_cons, List.length_nil]; omega
  have hj := join_inj ((hlen r hr).trans (hlen s hs).symm) (hmem r hr) (hmem s hs) h
  have hr' := hr.len
  have hs' := hs.len
  simp only [labelsOf] at hj
  clear hmem hlen hr hs hn h
  generalize r.tags = a at *
  generalize s.tags = b at *
  induction names generalizing a b with
  | nil =>
    rw [List.eq_nil_of_length_eq_zero hr', List.eq_nil_of_length_eq_zero hs']
  | cons n names ih =>
    cases a with
    | nil => simp at hr'
    | cons x a =>
      cases b with
      | nil => simp at hs'
      | cons y b =>
        simp only [List.zip_cons_cons, List.map_cons, List.flatMap_cons, List.cons_append, List.nil_append, List.cons.injEq,
          true_and] at hj
        rw [hj.1, ih a (by simpa using hr') b (by simpa using hs') hj.2]

/-- The series of the answer, in some order. -/
def answer (names : List Str) (rows : List (Row F)) : List (TimeSeries F) := (found names rows).entries.map Prod.snd

/-- Property C139, partial: if no tag has the character 1 in it, the answer has exactly one series for each combination of tag
values, with the samples of the rows with these values, in the order of the rows.  Missing: tags with that character
(`C139_merged_refuted`). -/
theorem C139_series_partial {names : List Str} {rows : List (Row F)} (hn : ∀ n ∈ names, sep ∉ n) (hr : ∀ r ∈ rows, RowOk names r) :
    (∀ s, s ∈ answer names rows ↔ ∃ r ∈ rows, s = ⟨labelsOf names r, (rows.filter fun x => x.tags = r.tags).map sampleOf⟩) ∧
    ((answer names rows).map fun s => concatLabels s.labels).Nodup := by
  have hfil : ∀ r ∈ rows, (rows.filter fun x => rowKey names x = rowKey names r) = rows.filter fun x => x.tags = r.tags := by
    intro r hm
    apply List.filter_congr
    intro x hx
    simp only [decide_eq_decide]
    constructor
    · exact rowKey_inj hn (hr x hx) (hr r hm)
    · intro h; simp only [rowKey, labelsOf, h]
  -- the series under a key
  have hget : ∀ k s, (found names rows).get k = some s → k = concatLabels s.labels ∧
      ∃ r ∈ rows, s = ⟨labelsOf names r, (rows.filter fun x => x.tags = r.tags).map sampleOf⟩ := by
    intro k s h
    rw [found_get] at h
    cases hf : rows.filter fun r => rowKey names r = k with
    | nil => rw [hf] at h; cases h
    | cons r rs =>
      rw [hf] at h
      have hm : r ∈ rows.filter fun r => rowKey names r = k := by rw [hf]; exact List.mem_cons_self
      rw [List.mem_filter] at hm
      have hk : rowKey names r = k := by simpa using hm.2
      have hs : s = ⟨labelsOf names r, (r :: rs).map sampleOf⟩ := (Option.some.inj h).symm
      subst hs
      refine ⟨hk.symm, r, hm.1, ?_⟩
      rw [← hf, ← hk, hfil r hm.1]
  refine ⟨fun s => ⟨?_, ?_⟩, ?_⟩
  · intro h
    rw [answer, List.mem_map] at h
    obtain ⟨e, he, rfl⟩ := h
    exact (hget e.1 e.2 (AMap.mem_entries.1 he)).2
  · rintro ⟨r, hm, rfl⟩
    rw [answer, List.mem_map]
    have h := found_get names rows (rowKey names r)
    rw [hfil r hm] at h
    cases hf : rows.filter fun x => x.tags = r.tags with
    | nil =>
      have : r ∈ rows.filter fun x => x.tags = r.tags := List.mem_filter.2 ⟨hm, by simp⟩
      rw [hf] at this
      cases this
    | cons x xs =>
      rw [hf] at h
      have hx : x ∈ rows.filter fun x => x.tags = r.tags := by rw [hf]; exact List.mem_cons_self
      rw [List.mem_filter] at hx
      have ht : x.tags = r.tags := by simpa using hx.2
      have hl : labelsOf names x = labelsOf names r := by simp only [labelsOf, ht]
      rw [seriesOf, hl] at h
      exact ⟨(rowKey names r, _), AMap.mem_entries.2 h, rfl⟩
  · rw [answer, List.map_map]
    have : (found names rows).entries.map ((fun s => concatLabels s.labels) ∘ Prod.snd) = (found names rows).entries.map Prod.fst := by
      apply List.map_congr_left
      intro e he
      exact (hget e.1 e.2 (AMap.mem_entries.1 he)).1.symm
    rw [this]
    exact (found names rows).nodup

/-- Property C139: every row is a sample of the answer, whatever the tags: no sample is lost. -/
theorem C139_none_lost (names : List Str) (rows : List (Row F)) (r : Row F) (h : r ∈ rows) :
    ∃ s ∈ answer names rows, sampleOf r ∈ s.samples := by
  have hg := found_get names rows (rowKey names r)
  cases hf : rows.filter fun x => rowKey names x = rowKey names r with
  | nil =>
    have : r ∈ rows.filter fun x => rowKey names x = rowKey names r := List.mem_filter.2 ⟨h, by simp⟩
    rw [hf] at this
    cases this
  | cons x xs =>
    rw [hf] at hg
    refine ⟨_, List.mem_map.2 ⟨(rowKey names r, _), AMap.mem_entries.2 hg, rfl⟩, ?_⟩
    have : r ∈ x :: xs := by rw [← hf]; exact List.mem_filter.2 ⟨h, by simp⟩
    exact List.mem_map.2 ⟨r, this, rfl⟩

/-! ## The tables of a read -/

theorem selectTables_skip {db : Db} : ∀ {a : List Matcher} {ms : List Matcher} {ts : List Str},
    (∀ m ∈ a, m.name ≠ metricName) → selectTables db (a ++ ms) ts = selectTables db ms ts
  | [], _, _, _ => rfl
  | m :: a, ms, ts, h => by
    rw [List.cons_append, selectTables, if_neg (h m List.mem_cons_self)]
    exact selectTables_skip fun x hx => h x (List.mem_cons_of_mem _ hx)

/-- Property C140, partial: a read with one matcher on the name, `=`, asks the table of that name, and is refused if there is none;
with `=~` it asks the tables in whose name the pattern is found.  Missing: no matcher on the name
(`C140_no_name_refuted`), several (`C140_several_refuted`), patterns for the whole name (`C140_anchored_refuted`). -/
theorem C140_tables_partial {db : Db} {a b : List Matcher} {v : Str} (ha : ∀ m ∈ a, m.name ≠ metricName)
    (hb : ∀ m ∈ b, m.name ≠ metricName) :
    selectTables db (a ++ ⟨.eq, metricName, v⟩ :: b) [] = (if v ∈ db.tables then .ok [v] else .error .error) ∧
    ∀ f, db.re v = some f → selectTables db (a ++ ⟨.re, metricName, v⟩ :: b) [] = .ok (db.tables.filter f) := by
  have hb' : ∀ ts, selectTables db b ts = .ok ts := fun ts => by
    have := selectTables_skip (db := db) (ms := []) (ts := ts) hb
    rwa [List.append_nil] at this
  constructor
  · rw [selectTables_skip ha, selectTables, if_pos rfl]
    simp only [hb']
  · intro f hf
    rw [selectTables_skip ha, selectTables, if_pos rfl]
    simp only [hf, hb']

/-! ## The condition of a read -/

/-- A word: some characters, no space, no quote. -/
structure Word (w : Str) : Prop where
  some : w ≠ []
  space : ' ' ∉ w
  quote : '\'' ∉ w

theorem lexGo_word (a w s : Str) (h1 : ' ' ∉ w) (h2 : '\'' ∉ w) :
    lexGo (w ++ ' ' :: s) (.word a) = (lexGo s .gap).map (.word (a ++ w) :: ·) ∧ lexGo w (.word a) = some [.word (a ++ w)] := by
  induction w generalizing a with
  | nil => simp [lexGo]
  | cons c w ih =>
    simp only [List.mem_cons, not_or] at h1 h2
    have hc1 : ¬ c = ' ' := fun e => h1.1 e.symm
    have hc2 : ¬ c = '\'' := fun e => h2.1 e.symm
    have := ih (a ++ [c]) h1.2 h2.2
    simp only [List.append_assoc, List.singleton_append] at this
    simp only [List.cons_append, lexGo, if_neg hc1, if_neg hc2]
    exact this

theorem lex_word {w : Str} (h : Word w) (s : Str) :
    lexGo (w ++ ' ' :: s) .gap = (lexGo s .gap).map (.word w :: ·) ∧ lexGo w .gap = some [.word w] := by
  obtain ⟨h0, h1, h2⟩ := h
  cases w with
  | nil => exact absurd rfl h0
  | cons c w =>
    simp only [List.mem_cons, not_or] at h1 h2
    have hc1 : ¬ c = ' ' := fun e => h1.1 e.symm
    have hc2 : ¬ c = '\'' := fun e => h2.1 e.symm
    have := lexGo_word [c] w s h1.2 h2.2
    simp only [List.cons_append, lexGo, if_neg hc1, if_neg hc2]
    exact this

theorem lexGo_text (a v s : Str) (h : '\'' ∉ v) : lexGo (v ++ '\'' :: s) (.text a) = lexGo s (.quote (a ++ v)) := by
  induction v generalizing a with
  | nil => simp [lexGo]
  | cons c v ih =>
    simp only [List.mem_cons, not_or] at h
    have hc : ¬ c = '\'' := fun e => h.1 e.symm
    simp only [List.cons_append, lexGo, if_neg hc]
    rw [ih (a ++ [c]) h.2, List.append_assoc]
    rfl

/-- The words of a matcher. -/
def Matcher.toks (m : Matcher) : List Tok := [.word m.name, .word m.type.op, .text m.value]

def andWord : Str := ['A', 'N', 'D']

/-- The words of conditions with AND between. -/
def joinToks : List (List Tok) → List Tok
  | [] => []
  | [a] => a
  | a :: b :: r => a ++ .word andWord :: joinToks (b :: r)

/-- The words of the condition that a read means: the matchers but those on the name, and the range. -/
def meaning (ms : List Matcher) (lo hi : Int) : List Tok :=
  joinToks ((ms.filter fun m => m.name ≠ metricName).map Matcher.toks ++
    [[.word "time".toList, .word ">=".toList, .word (decInt (toNs lo))], [.word "time".toList, .word "<=".toList, .word (decInt (toNs hi))]])

/-- A text that reads as given words, at the end and before other text. -/
def Reads (s : Str) (t : List Tok) : Prop :=
  lexGo s .gap = some t ∧ ∀ r, lexGo (s ++ ' ' :: r) .gap = (lexGo r .gap).map (t ++ ·)

theorem reads_word {w : Str} (h : Word w) {s : Str} {t : List Tok} (hs : Reads s t) : Reads (w ++ ' ' :: s) (.word w :: t) := by
  refine ⟨?_, fun r => ?_⟩
  · rw [(lex_word h s).1, hs.1]; rfl
  · rw [List.append_assoc, List.cons_append, (lex_word h _).1, hs.2 r, Option.map_map]
    rfl

theorem reads_last {w : Str} (h : Word w) : Reads w [.word w] := ⟨(lex_word h []).2, fun r => (lex_word h r).1⟩

theorem reads_text {v : Str} (h : '\'' ∉ v) : Reads ('\'' :: v ++ ['\'']) [.text v] := by
  refine ⟨?_, fun r => ?_⟩
  · rw [List.cons_append, lexGo, if_neg (by decide), if_pos rfl, lexGo_text _ _ _ h]
    rfl
  · rw [List.append_assoc, List.cons_append, lexGo, if_neg (by decide), if_pos rfl, List.singleton_append, lexGo_text _ _ _ h, lexGo,
      if_neg (by decide), if_pos rfl]
    rfl

theorem op_word (t : MType) : Word t.op := by
  cases t <;> exact ⟨by decide, by decide, by decide⟩

theorem decInt_word (i : Int) : Word (decInt i) := by
  have hd : ∀ n, ' ' ∉ dec n ∧ '\'' ∉ dec n := fun n =>
    ⟨fun h => by simpa using dec_digits n _ h, fun h => by simpa using dec_digits n _ h⟩
  rw [decInt]
  split
  · exact ⟨by simp, by simp [(hd _).1], by simp [(hd _).2]⟩
  · exact ⟨dec_ne_nil _, (hd _).1, (hd _).2⟩

theorem reads_joinAnd : ∀ (l : List (Str × List Tok)), l ≠ [] → (∀ e ∈ l, Reads e.1 e.2) →
    Reads (joinAnd (l.map Prod.fst)) (joinToks (l.map Prod.snd))
  | [], h, _ => absurd rfl h
  | [e], _, h => h e List.mem_cons_self
  | e :: f :: l, _, h => by
    have ih := reads_joinAnd (f :: l) (by simp) fun x hx => h x (List.mem_cons_of_mem _ hx)
    have he := h e List.mem_cons_self
    have ha : Word andWord := ⟨by decide, by decide, by decide⟩
    have h2 := reads_word ha ih
    show Reads (e.1 ++ ' ' :: (andWord ++ ' ' :: joinAnd ((f :: l).map Prod.fst))) (e.2 ++ .word andWord :: joinToks ((f :: l).map Prod.snd))
    refine ⟨?_, fun r => ?_⟩
    · rw [he.2, h2.1]; rfl
    · rw [List.append_assoc, List.cons_append, he.2, h2.2, Option.map_map]
      congr 1
      funext x
      simp

/-- Property C141, partial: if no value has a quote and every name is a word, the condition of the query reads as what the
matchers say.  Missing: values with quotes (`C141_quote_refuted`). -/
theorem C141_condition_partial {ms : List Matcher} {lo hi : Int} (hn : ∀ m ∈ ms, Word m.name) (hv : ∀ m ∈ ms, '\'' ∉ m.value) :
    lex (condition ms lo hi) = some (meaning ms lo hi) := by
  have ht : ∀ (op : Str) (i : Int), Word op → Reads ("time".toList ++ ' ' :: (op ++ ' ' :: decInt i)) [.word "time".toList, .word op, .word (decInt i)] :=
    fun op i ho => reads_word ⟨by decide, by decide, by decide⟩ (reads_word ho (reads_last (decInt_word i)))
  have hm : ∀ m ∈ ms, Reads (filterText m) m.toks := by
    intro m hm
    have := reads_word (hn m hm) (reads_word (op_word m.type) (reads_text (hv m hm)))
    simpa [filterText, Matcher.toks] using this
  have h := reads_joinAnd ((ms.filter fun m => m.name ≠ metricName).map (fun m => (filterText m, m.toks)) ++
    [("time >= ".toList ++ decInt (toNs lo), [.word "time".toList, .word ">=".toList, .word (decInt (toNs lo))]),
     ("time <= ".toList ++ decInt (toNs hi), [.word "time".toList, .word "<=".toList, .word (decInt (toNs hi))])]) (by simp) ?_
  · have h1 := h.1
    rw [lex, condition, filters, meaning]
    simpa [List.map_append, List.map_map, Function.comp_def] using h1
  · intro e he
    simp only [List.mem_append, List.mem_map, List.mem_filter, List.mem_cons, List.not_mem_nil, or_false] at he
    rcases he with ⟨m, ⟨h1, _⟩, rfl⟩ | rfl | rfl
    · exact hm m h1
    · exact ht ">=".toList (toNs lo) ⟨by decide, by decide, by decide⟩
    · exact ht "<=".toList (toNs hi) ⟨by decide, by decide, by decide⟩

end Verif.Ingest.Prom
