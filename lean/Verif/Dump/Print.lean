import Verif.Dump.Parse

/-!
# Printed statements are lines of text that are read as tokens
-/

namespace Verif.Dump

open Verif.Raft (dec)

/-- A piece that is read as written and stays on its line. -/
def Piece.Fine (p : Piece) : Prop := p.ok ∧ '\n' ∉ p.text

/-- Words of letters. -/
def wordOk (x : Text) : Bool := (match x with | c :: _ => isStart c | [] => false) && x.all isPart

theorem isPart_nl : isPart '\n' = false := by decide

theorem fine_word {x : Text} (h : wordOk x = true) : (Piece.word x).Fine := by
  simp only [wordOk, Bool.and_eq_true, List.all_eq_true] at h
  refine ⟨⟨?_, h.2⟩, ?_⟩
  · cases x with
    | nil => exact absurd h.1 (by simp)
    | cons c r => exact ⟨c, r, rfl, h.1⟩
  · intro hn
    have := h.2 '\n' hn
    rw [isPart_nl] at this
    cases this

theorem fine_w {s : String} (h : wordOk s.toList = true) : (w s).Fine := fine_word h

theorem fine_gap : Piece.gap.Fine := ⟨trivial, by decide⟩

theorem fine_sym {c : Char} (h : isSym c = true) : (Piece.sym c).Fine := by
  refine ⟨h, ?_⟩
  intro hn
  have e : '\n' = c := by simpa [Piece.text] using hn
  rw [← e] at h
  exact absurd h (by decide)

theorem fine_ident {n : Text} (h1 : '"' ∉ n) (h2 : '\n' ∉ n) : (Piece.ident n).Fine := by
  refine ⟨h1, ?_⟩
  simp only [Piece.text, List.mem_append, List.mem_cons, List.not_mem_nil, or_false, not_or]
  exact ⟨by simp [h2], by decide⟩

theorem escape_nl {s : Text} (h : '\n' ∉ s) : '\n' ∉ escape s := by
  induction s with
  | nil => simp [escape]
  | cons c s ih =>
    simp only [List.mem_cons, not_or] at h
    rw [escape]
    split
    · simp [ih h.2]
    · simp [ih h.2, h.1]

theorem fine_str {s : Text} (h : '\n' ∉ s) : (Piece.str s).Fine := by
  refine ⟨trivial, ?_⟩
  simp only [Piece.text, List.mem_append, List.mem_cons, List.not_mem_nil, or_false, not_or]
  exact ⟨⟨by decide, escape_nl h⟩, by decide⟩

theorem fine_raw {s : Text} (h1 : '\'' ∉ s) (h2 : '\n' ∉ s) : (Piece.raw s).Fine := by
  refine ⟨h1, ?_⟩
  simp only [Piece.text, List.mem_append, List.mem_cons, List.not_mem_nil, or_false, not_or]
  exact ⟨⟨by decide, h2⟩, by decide⟩

theorem fine_num (n : Nat) : (Piece.num n).Fine := by
  refine ⟨trivial, ?_⟩
  intro h
  have := dec_isDigit n _ h
  exact absurd this (by decide)

/-! ### Neighbours -/

/-- A space or a symbol. -/
def loose : Piece → Bool
  | .gap => true
  | .sym _ => true
  | _ => false

def endsLoose (a : List Piece) : Bool := match a.getLast? with | none => true | some p => loose p
def startsLoose (b : List Piece) : Bool := match b with | [] => true | p :: _ => loose p

theorem sep_left {p q : Piece} (h : loose p = true) : sep p q = true := by
  cases p <;> first | (cases q <;> rfl) | cases h

theorem sep_right {p q : Piece} (h : loose q = true) : sep p q = true := by
  cases q <;> first | (cases p <;> rfl) | cases h

theorem separated_append_l : ∀ {a b : List Piece}, separated a = true → endsLoose a = true → separated b = true → separated (a ++ b) = true
  | [], _, _, _, hb => hb
  | [p], b, _, he, hb => by
    cases b with
    | nil => rfl
    | cons q b =>
      have : loose p = true := he
      simp only [List.cons_append, List.nil_append, separated, sep_left this, hb, Bool.and_self]
  | p :: q :: r, b, ha, he, hb => by
    simp only [separated, Bool.and_eq_true] at ha
    have he' : endsLoose (q :: r) = true := by
      simp only [endsLoose, List.getLast?_cons_cons] at he ⊢
      exact he
    have := separated_append_l ha.2 he' hb
    simp only [List.cons_append, separated, Bool.and_eq_true] at this ⊢
    exact ⟨ha.1, this⟩

theorem separated_append_r : ∀ {a b : List Piece}, separated a = true → separated b = true → startsLoose b = true → separated (a ++ b) = true
  | [], _, _, hb, _ => hb
  | [p], b, _, hb, he => by
    cases b with
    | nil => rfl
    | cons q b =>
      have : loose q = true := he
      simp only [List.cons_append, List.nil_append, separated, sep_right this, hb, Bool.and_self]
  | p :: q :: r, b, ha, hb, he => by
    simp only [separated, Bool.and_eq_true] at ha
    have := separated_append_r ha.2 hb he
    simp only [List.cons_append, separated, Bool.and_eq_true] at this ⊢
    exact ⟨ha.1, this⟩

theorem endsLoose_append {a b : List Piece} (hb : endsLoose b = true) (hne : b ≠ []) : endsLoose (a ++ b) = true := by
  simp only [endsLoose, List.getLast?_append]
  cases h : b.getLast? with
  | none => exact absurd (List.getLast?_eq_none_iff.1 h) hne
  | some p =>
    simp only [endsLoose, h] at hb
    simpa using hb

theorem last_append {a b : List Piece} {x : Piece} (h : b.getLast? = some x) : (a ++ b).getLast? = some x := by
  rw [List.getLast?_append, h]; rfl

/-! ### Printed statements -/

/-- A line that is read as a statement. -/
structure Printed (ps : List Piece) (st : Stmt) : Prop where
  fine : ∀ p ∈ ps, p.Fine
  sep : separated ps = true
  head : ∃ c x r, ps = .word (c :: x) :: r ∧ c.isAlpha = true
  last : ps.getLast? = some (.sym ';')
  parse : parseSql (toks ps) = some st

theorem Printed.lex {ps : List Piece} {st : Stmt} (h : Printed ps st) : (lex (render ps)).bind parseSql = some st := by
  rw [lex_render (fun p hp => (h.fine p hp).1) h.sep]
  exact h.parse

theorem Printed.nl {ps : List Piece} {st : Stmt} (h : Printed ps st) : '\n' ∉ render ps := by
  intro hn
  obtain ⟨p, hp, ht⟩ := List.mem_flatMap.1 hn
  exact (h.fine p hp).2 ht

/-- A name that may be printed. -/
structure NameFine (n : Text) : Prop where
  ok : nameOk n = true
  quote : '"' ∉ n
  nl : '\n' ∉ n

theorem NameFine.piece {n : Text} (h : NameFine n) : (Piece.ident n).Fine := fine_ident h.quote h.nl

theorem printed_role {n : Text} (h : NameFine n) (i : Option Sys) : Printed (roleSql n i) (.createRole false n (i.map Sys.text)) := by
  refine ⟨?_, ?_, ⟨'c', _, _, rfl, by decide⟩, ?_, parse_role h.ok i⟩
  · have hi := h.piece
    cases i with
    | none =>
      simp (disch := decide) only [roleSql, List.forall_mem_append, List.forall_mem_cons, fine_w, fine_gap, fine_sym, hi, List.not_mem_nil,
        false_implies, implies_true, and_self]
    | some s =>
      have hs : (Piece.word s.text).Fine := by cases s <;> exact fine_word (by decide)
      simp (disch := decide) only [roleSql, List.forall_mem_append, List.forall_mem_cons, fine_w, fine_gap, fine_sym, hi, hs,
        List.not_mem_nil, false_implies, implies_true, and_self]
  · cases i <;> rfl
  · exact last_append rfl

theorem printed_grant {r : Text} (h : NameFine r) {p : Text × Priv} (hp : NameFine p.1) : Printed (grantSql r p) (.grant [(p.2, p.1)] r) := by
  refine ⟨?_, rfl, ⟨'g', _, _, rfl, by decide⟩, rfl, parse_grant r p⟩
  have h1 := h.piece
  have h2 := hp.piece
  have hs : (Piece.word p.2.text).Fine := by cases p.2 <;> exact fine_word (by decide)
  simp (disch := decide) only [grantSql, List.forall_mem_cons, fine_w, fine_gap, fine_sym, h1, h2, hs, List.not_mem_nil, false_implies,
    implies_true, and_self]

theorem printed_member {t u r : Text} (h1 : NameFine t) (h2 : NameFine u) (h3 : NameFine r) :
    Printed (memberSql t u r) (.addMember t u r) := by
  refine ⟨?_, rfl, ⟨'a', _, _, rfl, by decide⟩, rfl, parse_member t u r⟩
  have h1 := h1.piece
  have h2 := h2.piece
  have h3 := h3.piece
  simp (disch := decide) only [memberSql, List.forall_mem_cons, fine_w, fine_gap, fine_sym, h1, h2, h3, List.not_mem_nil, false_implies,
    implies_true, and_self]

theorem ine_fine (e : Bool) : ∀ p ∈ ine e, p.Fine := by
  cases e with
  | false => intro p hp; cases hp
  | true =>
    simp (disch := decide) only [ine, List.forall_mem_cons, fine_w, fine_gap, List.not_mem_nil, false_implies, implies_true, and_self]

theorem ine_sep (e : Bool) : separated (ine e) = true ∧ endsLoose (ine e) = true := by cases e <;> exact ⟨rfl, rfl⟩

theorem optList_fine : ∀ {os : List (Piece × Piece)}, (∀ o ∈ os, o.1.Fine ∧ o.2.Fine) → ∀ p ∈ optList os, p.Fine
  | [], _ => by intro p hp; cases hp
  | [o], h => by
    have ho := h o List.mem_cons_self
    simp (disch := decide) only [optList, List.forall_mem_cons, ho.1, ho.2, fine_sym, List.not_mem_nil, false_implies, implies_true, and_self]
  | o :: q :: r, h => by
    have ho := h o List.mem_cons_self
    have ih := optList_fine (os := q :: r) fun x hx => h x (List.mem_cons_of_mem _ hx)
    rw [optList_cons]
    simp (disch := decide) only [List.forall_mem_append, List.forall_mem_cons, ho.1, ho.2, fine_sym, fine_gap, List.not_mem_nil,
      false_implies, implies_true, and_self, true_and]
    exact ih

theorem optList_sep : ∀ os : List (Piece × Piece), separated (optList os) = true
  | [] => rfl
  | [o] => by simp [optList, separated, sep_left (p := .sym '=') rfl, sep_right (q := .sym '=') rfl]
  | o :: q :: r => by
    rw [optList_cons]
    refine separated_append_l ?_ rfl (optList_sep (q :: r))
    simp [separated, sep_left (p := .sym '=') rfl, sep_right (q := .sym '=') rfl, sep_right (q := .sym ',') rfl, sep_left (p := .sym ',') rfl]

theorem withOpts_fine {os : List (Piece × Piece)} (h : ∀ o ∈ os, o.1.Fine ∧ o.2.Fine) : ∀ p ∈ withOpts os, p.Fine := by
  cases os with
  | nil => intro p hp; cases hp
  | cons o r =>
    have := optList_fine h
    simp (disch := decide) only [withOpts, List.forall_mem_append, List.forall_mem_cons, fine_w, fine_gap, List.not_mem_nil, false_implies,
      implies_true, and_self, true_and]
    exact this

theorem withOpts_sep (os : List (Piece × Piece)) : separated (withOpts os) = true := by
  cases os with
  | nil => rfl
  | cons o r => exact separated_append_l (a := [w "with", .gap]) rfl rfl (optList_sep (o :: r))

/-- Durations are printed without quotes and line feeds. -/
theorem joinItems_chars : ∀ (l : List (Nat × Text × Nat × Nat)), (∀ i ∈ l, ItemOk i) → ∀ c ∈ joinItems l, c = ' ' ∨ c.isDigit = true ∨ c.isAlpha = true
  | [], _ => by intro c hc; cases hc
  | [i], h => by
    intro c hc
    rw [joinItems] at hc
    rcases List.mem_append.1 hc with h1 | h1
    · exact .inr (.inl (dec_isDigit _ c h1))
    · exact .inr (.inr ((h i List.mem_cons_self).letters c h1).1)
  | i :: j :: r, h => by
    intro c hc
    rw [joinItems] at hc
    rcases List.mem_append.1 hc with h1 | h1
    · rcases List.mem_append.1 h1 with h1 | h1
      · exact .inr (.inl (dec_isDigit _ c h1))
      · exact .inr (.inr ((h i List.mem_cons_self).letters c h1).1)
    · rcases List.mem_cons.1 h1 with h1 | h1
      · exact .inl h1
      · exact joinItems_chars (j :: r) (fun x hx => h x (List.mem_cons_of_mem _ hx)) c h1

theorem Dur.text_chars {d : Dur} (h : d.Fits) : ∀ c ∈ d.text, c = ' ' ∨ c.isDigit = true ∨ c.isAlpha = true := by
  cases d with
  | inf => decide
  | of s n =>
    intro c hc
    simp only [Dur.text] at hc
    split at hc
    · revert c; decide
    · exact joinItems_chars _ (fun i hi => allItems_ok h.1 h.2 i (List.mem_filter.1 hi).1) c hc

theorem Dur.text_plain {d : Dur} (h : d.Fits) : '\'' ∉ d.text ∧ '\n' ∉ d.text := by
  constructor
  · intro hc
    have := Dur.text_chars h _ hc
    revert this; decide
  · intro hc
    have := Dur.text_chars h _ hc
    revert this; decide

/-- Options of a tenant that can be printed. -/
structure TenantOpts.Fine (o : TenantOpts) : Prop where
  comment : ∀ c, o.comment = some c → '\n' ∉ c
  dropAfter : ∀ d, o.dropAfter = some d → d.Fits
  limiter : o.limiter = none

theorem tenant_list_fine {o : TenantOpts} (h : o.Fine) : ∀ x ∈ o.list, x.1.Fine ∧ x.2.Fine := by
  intro x hx
  simp only [TenantOpts.list, h.limiter, Option.map_none, Option.toList_none, List.append_nil, List.mem_append, Option.mem_toList,
    Option.map_eq_some_iff] at hx
  rcases hx with ⟨c, hc, rfl⟩ | ⟨d, hd, rfl⟩
  · exact ⟨fine_w (by decide), fine_str (h.comment c hc)⟩
  · exact ⟨fine_w (by decide), fine_str (Dur.text_plain (h.dropAfter d hd)).2⟩

theorem printed_tenant {n : Text} (hn : NameFine n) (e : Bool) {o : TenantOpts} (h : o.Fine) :
    Printed (tenantSql e n o) (.createTenant e n (o.list.map tenantRead)) := by
  have hf := tenant_list_fine h
  have hi := hn.piece
  have he := ine_fine e
  have hs := ine_sep e
  refine ⟨?_, ?_, ⟨'c', _, _, rfl, by decide⟩, last_append rfl, parse_tenant hn.ok e h.limiter⟩
  · simp only [tenantSql]
    generalize o.list = os at hf
    cases os with
    | nil =>
      simp (disch := decide) only [List.forall_mem_append, List.forall_mem_cons, fine_w, fine_gap, fine_sym, hi, List.not_mem_nil,
        false_implies, implies_true, and_self, true_and, and_true]
      exact he
    | cons x xs =>
      have hw := withOpts_fine hf
      simp (disch := decide) only [List.forall_mem_append, List.forall_mem_cons, fine_w, fine_gap, fine_sym, hi, List.not_mem_nil,
        false_implies, implies_true, and_self, true_and, and_true]
      exact ⟨he, hw⟩
  · simp only [tenantSql]
    generalize o.list = os
    refine separated_append_r (separated_append_l (separated_append_l rfl rfl hs.1) ?_ ?_) rfl rfl
    · cases e <;> rfl
    · cases os with
      | nil => rfl
      | cons x xs => exact separated_append_l (a := [.ident n, .gap]) rfl rfl (withOpts_sep _)

/-- Options of a user that can be printed. -/
structure UserOpts.Fine (o : UserOpts) : Prop where
  hash : ∀ c, o.hash = some c → '\n' ∉ c
  comment : ∀ c, o.comment = some c → '\n' ∉ c
  rsa : ∀ c, o.rsa = some c → '\n' ∉ c

theorem boolPiece_fine (b : Bool) : (boolPiece b).Fine := by cases b <;> exact fine_w (by decide)

theorem user_list_fine {o : UserOpts} (h : o.Fine) : ∀ x ∈ o.list, x.1.Fine ∧ x.2.Fine := by
  intro x hx
  simp only [UserOpts.list, List.mem_append, Option.mem_toList, Option.map_eq_some_iff] at hx
  rcases hx with (((⟨c, hc, rfl⟩ | ⟨c, hc, rfl⟩) | ⟨c, _, rfl⟩) | ⟨c, hc, rfl⟩) | ⟨c, _, rfl⟩
  · exact ⟨fine_w (by decide), fine_str (h.hash c hc)⟩
  · exact ⟨fine_w (by decide), fine_str (h.comment c hc)⟩
  · exact ⟨fine_w (by decide), boolPiece_fine c⟩
  · exact ⟨fine_w (by decide), fine_str (h.rsa c hc)⟩
  · exact ⟨fine_w (by decide), boolPiece_fine c⟩

theorem printed_user {n : Text} (hn : NameFine n) (e : Bool) {o : UserOpts} (h : o.Fine) :
    Printed (userSql e n o) (.createUser e n (o.list.map userRead)) := by
  have hf := withOpts_fine (user_list_fine h)
  have hi := hn.piece
  have he := ine_fine e
  have hs := ine_sep e
  refine ⟨?_, ?_, ⟨'c', _, _, rfl, by decide⟩, last_append rfl, parse_user hn.ok e o⟩
  · simp only [userSql]
    simp (disch := decide) only [List.forall_mem_append, List.forall_mem_cons, fine_w, fine_gap, fine_sym, hi, List.not_mem_nil,
      false_implies, implies_true, and_self, true_and, and_true]
    exact ⟨he, hf⟩
  · simp only [userSql]
    refine separated_append_r (separated_append_l (separated_append_l (separated_append_l rfl rfl hs.1) ?_ rfl) ?_ (withOpts_sep _)) rfl rfl
    · cases e <;> rfl
    · exact endsLoose_append rfl (by simp)

/-- Sizes that the environment reads as it prints them. -/
structure SizeOk (env : Env) (n : Nat) : Prop where
  read : env.parseBytes (env.fmtBytes n) = some n
  quote : '\'' ∉ env.fmtBytes n
  nl : '\n' ∉ env.fmtBytes n

theorem boolText_plain (b : Bool) : '\'' ∉ boolText b ∧ '\n' ∉ boolText b := by cases b <;> decide

theorem printed_db {n : Text} (hn : NameFine n) (env : Env) (e : Bool) {d : Db} (h : d.Fits) (h1 : SizeOk env d.maxMem)
    (h2 : SizeOk env d.walMax) : Printed (dbSql env e n d) (.createDb e n (dbRead env d)) := by
  have hi := hn.piece
  have he := ine_fine e
  have hs := ine_sep e
  refine ⟨?_, ?_, ⟨'c', _, _, rfl, by decide⟩, ?_, parse_db hn.ok env e h⟩
  · have a1 := fine_raw h1.quote h1.nl
    have a2 := fine_raw h2.quote h2.nl
    have a3 := fine_raw (boolText_plain d.walSync).1 (boolText_plain d.walSync).2
    have a4 := fine_raw (boolText_plain d.strict).1 (boolText_plain d.strict).2
    have a5 := fine_raw (Dur.text_plain h.ttl).1 (Dur.text_plain h.ttl).2
    have a6 := fine_raw (Dur.text_plain h.vnodeDur).1 (Dur.text_plain h.vnodeDur).2
    have a7 : (Piece.str d.prec.text).Fine := fine_str (by cases d.prec <;> decide)
    simp only [dbSql]
    simp (disch := decide) only [List.forall_mem_append, List.forall_mem_cons, fine_w, fine_gap, fine_sym, fine_num, hi, a1, a2, a3, a4,
      a5, a6, a7, List.not_mem_nil, false_implies, implies_true, and_self, true_and, and_true]
    exact he
  · simp only [dbSql]
    exact separated_append_l (separated_append_l rfl rfl hs.1) (by cases e <;> rfl) rfl
  · exact last_append rfl

theorem nameList_fine : ∀ {ns : List Text}, (∀ n ∈ ns, (Piece.ident n).Fine) → ∀ p ∈ nameList ns, p.Fine
  | [], _ => by intro p hp; cases hp
  | [n], h => by
    intro p hp
    rw [List.mem_singleton.1 hp]
    exact h n List.mem_cons_self
  | n :: m :: r, h => by
    have hn := h n List.mem_cons_self
    have ih := nameList_fine (ns := m :: r) fun x hx => h x (List.mem_cons_of_mem _ hx)
    rw [nameList_cons]
    simp (disch := decide) only [List.forall_mem_append, List.forall_mem_cons, hn, fine_sym, fine_gap, List.not_mem_nil, false_implies,
      implies_true, and_self, true_and]
    exact ih

theorem nameList_sep : ∀ ns : List Text, separated (nameList ns) = true
  | [] => rfl
  | [_] => rfl
  | n :: m :: r => by
    rw [nameList_cons]
    exact separated_append_l rfl rfl (nameList_sep (m :: r))

theorem vt_fine (t : VT) : ∀ p ∈ t.pieces, p.Fine := by
  cases t <;> simp (disch := decide) only [VT.pieces, List.forall_mem_cons, fine_w, fine_gap, List.not_mem_nil, false_implies, implies_true,
    and_self]

theorem codec_fine (e : Enc) : ∀ p ∈ codecSql e, p.Fine := by
  have he : (Piece.word e.text).Fine := by cases e <;> exact fine_word (by decide)
  rw [codecSql]
  split
  · intro p hp; cases hp
  · simp (disch := decide) only [List.forall_mem_cons, fine_w, fine_gap, fine_sym, he, List.not_mem_nil, false_implies, implies_true, and_self]

theorem field_fine {f : Field} (h : (Piece.ident f.1).Fine) : ∀ p ∈ fieldSql f.col, p.Fine := by
  have h1 := vt_fine f.2.1
  have h2 := codec_fine f.2.2
  simp only [fieldSql, Field.col]
  simp (disch := decide) only [List.forall_mem_append, List.forall_mem_cons, fine_gap, fine_sym, h, List.not_mem_nil,
    false_implies, implies_true, and_self, true_and, and_true]
  exact ⟨h1, h2⟩

theorem field_sep (f : Field) : separated (fieldSql f.col) = true ∧ endsLoose (fieldSql f.col) = true := by
  obtain ⟨n, t, e⟩ := f
  constructor
  · cases t <;> cases e <;> rfl
  · exact endsLoose_append rfl (by simp)

theorem fields_sep : ∀ fs : List Field, separated ((fs.map Field.col).flatMap fieldSql) = true ∧
    endsLoose ((fs.map Field.col).flatMap fieldSql) = true
  | [] => ⟨rfl, rfl⟩
  | f :: fs => by
    have ih := fields_sep fs
    have h := field_sep f
    rw [List.map_cons, List.flatMap_cons]
    refine ⟨separated_append_l h.1 h.2 ih.1, ?_⟩
    cases fs with
    | nil => simpa using h.2
    | cons g gs =>
      refine endsLoose_append ih.2 ?_
      intro e
      have h3 := congrArg toks e
      obtain ⟨q, hq⟩ := fieldSql_head g
      rw [List.map_cons, List.flatMap_cons, toks_append, hq] at h3
      cases h3

/-- Names of a table that can be printed: no double quote, no line feed. -/
structure ColsFine (fs : List Field) (tags : List Text) : Prop where
  fields : ∀ f ∈ fs, '"' ∉ f.1 ∧ '\n' ∉ f.1
  tags : ∀ n ∈ tags, '"' ∉ n ∧ '\n' ∉ n

theorem printed_table {d n : Text} (hn : nameOk (d ++ '.' :: n) = true) (hd : (Piece.ident d).Fine) (hnn : (Piece.ident n).Fine) (e : Bool)
    {cols : List Col} {p : Prec} {fs : List Field} {tags : List Text} (h : TableOk cols p fs tags) (hc : ColsFine fs tags) :
    Printed (tableSql e d n cols) (.createTable e d n fs tags) := by
  have he := ine_fine e
  have hs := ine_sep e
  refine ⟨?_, ?_, ⟨'c', _, _, rfl, by decide⟩, ?_, parse_table hn e h⟩
  · have h1 : ∀ p ∈ (fs.map Field.col).flatMap fieldSql, p.Fine := by
      intro p hp
      obtain ⟨c, hcm, hp⟩ := List.mem_flatMap.1 hp
      obtain ⟨f, hf, rfl⟩ := List.mem_map.1 hcm
      exact field_fine (fine_ident (hc.fields f hf).1 (hc.fields f hf).2) p hp
    have h2 := nameList_fine (ns := tags) fun n hn => fine_ident (hc.tags n hn).1 (hc.tags n hn).2
    rw [h.cols]
    simp only [tableSql, planCols_fields, planCols_tags]
    simp (disch := decide) only [List.forall_mem_append, List.forall_mem_cons, fine_w, fine_gap, fine_sym, hd, hnn, List.not_mem_nil,
      false_implies, implies_true, and_self, true_and, and_true]
    exact ⟨⟨he, h1⟩, h2⟩
  · have hf := fields_sep fs
    rw [h.cols]
    simp only [tableSql, planCols_fields, planCols_tags]
    refine separated_append_r (separated_append_l (separated_append_l (separated_append_l (separated_append_l (separated_append_l rfl rfl hs.1)
      (by cases e <;> rfl) rfl) (endsLoose_append rfl (by simp)) hf.1) ?_ rfl) (endsLoose_append rfl (by simp)) (nameList_sep tags)) rfl rfl
    cases fs with
    | nil => exact absurd rfl h.ne
    | cons g gs =>
      refine endsLoose_append hf.2 ?_
      intro e
      have h3 := congrArg toks e
      obtain ⟨q, hq⟩ := fieldSql_head g
      rw [List.map_cons, List.flatMap_cons, toks_append, hq] at h3
      cases h3
  · exact last_append rfl

end Verif.Dump
