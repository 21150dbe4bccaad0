import Verif.Dump.Print

/-!
# What the client does with the lines of a dump
-/

namespace Verif.Dump

open Verif.Raft (dec)

/-! ### Lines -/

theorem linesGo_line {t : Text} (h : '\n' ∉ t) (r a : Text) : linesGo (t ++ '\n' :: r) a = (a ++ t) :: linesGo r [] := by
  induction t generalizing a with
  | nil => simp [linesGo]
  | cons c t ih =>
    simp only [List.mem_cons, not_or] at h
    rw [List.cons_append, linesGo, if_neg (fun e => h.1 e.symm), ih h.2]
    simp

theorem lines_dump : ∀ {is : List Item}, (∀ i ∈ is, '\n' ∉ i.text) → lines (dumpText is) = is.map Item.text
  | [], _ => rfl
  | i :: is, h => by
    have ih := lines_dump (is := is) fun x hx => h x (List.mem_cons_of_mem _ hx)
    rw [lines] at ih ⊢
    rw [dumpText, List.flatMap_cons, List.append_assoc, List.singleton_append, linesGo_line (h i List.mem_cons_self)]
    rw [dumpText] at ih
    rw [ih]
    rfl

theorem dropWhile_head {c : Char} {t : Text} (h : c.isWhitespace = false) : (c :: t).dropWhile Char.isWhitespace = c :: t := by
  rw [List.dropWhile_cons, h, if_neg (by decide)]

theorem trimEnd_last {c : Char} (t : Text) (h : c.isWhitespace = false) : trimEnd (t ++ [c]) = t ++ [c] := by
  rw [trimEnd, List.reverse_append, List.reverse_singleton, List.singleton_append, dropWhile_head h, List.reverse_cons, List.reverse_reverse]

theorem alpha_not {c : Char} (h : c.isAlpha = true) : c.isWhitespace = false ∧ c ≠ '-' ∧ c ≠ '\\' := by
  refine ⟨(start_not (by simp [isStart, h])).1, ?_, ?_⟩
  · rintro rfl; exact absurd h (by decide)
  · rintro rfl; exact absurd h (by decide)

theorem isPrefixOf_ne {a c : Char} (h : a ≠ c) (p t : Text) : (a :: p).isPrefixOf (c :: t) = false := by
  simp [List.isPrefixOf, h]

theorem dashes : "--".toList = ['-', '-'] := rfl

theorem backslash_c : "\\c".toList = ['\\', 'c'] := rfl

theorem changeTenant_cons : changeTenant = '\\' :: "change_tenant".toList := rfl

/-- A printed statement is sent as it is. -/
theorem line_printed {ps : List Piece} {st : Stmt} (h : Printed ps st) (env : Env) (t : Text) (m : Meta) (fl : List Text) :
    Client.line env ⟨[], t, m, fl⟩ (render ps) = match exec env t m st with
      | some m' => ⟨[], t, m', fl⟩
      | none => ⟨[], t, m, fl ++ [render ps]⟩ := by
  obtain ⟨c, x, r, he, hc⟩ := h.head
  have ha := alpha_not hc
  obtain ⟨ys, hy⟩ := List.getLast?_eq_some_iff.1 h.last
  have hl : render ps = c :: (x ++ render r) := by rw [he]; simp [render, Piece.text]
  have hl2 : render ps = render ys ++ [';'] := by rw [hy]; simp [render, Piece.text]
  have hte : trimEnd (render ps) = render ps := by rw [hl2]; exact trimEnd_last _ (by decide)
  have ht : trim (render ps) = render ps := by rw [trim, hl, dropWhile_head ha.1, ← hl, hte]
  have h1 : "--".toList.isPrefixOf (render ps) = false := by
    rw [hl, dashes]; exact isPrefixOf_ne (fun e => ha.2.1 e.symm) _ _
  have h2 : changeTenant.isPrefixOf (render ps) = false := by
    rw [hl, changeTenant_cons]; exact isPrefixOf_ne (fun e => ha.2.2 e.symm) _ _
  have h3 : "\\c".toList.isPrefixOf (render ps) = false := by
    rw [hl, backslash_c]; exact isPrefixOf_ne (fun e => ha.2.2 e.symm) _ _
  have h4 : (render ps).getLast? = some ';' := by rw [hl2]; simp
  simp only [Client.line, ht, hte, h1, h2, h3, h4, List.nil_append, Client.send, sql, h.lex, Option.bind_some]
  cases exec env t m st <;> rfl

theorem line_ok {ps : List Piece} {st : Stmt} (h : Printed ps st) {env : Env} {t : Text} {m m' : Meta} (he : exec env t m st = some m')
    (fl : List Text) : Client.line env ⟨[], t, m, fl⟩ (render ps) = ⟨[], t, m', fl⟩ := by
  rw [line_printed h, he]

theorem line_note (env : Env) (c : Client) (t : Text) : c.line env (Item.note t).text = c := by
  have h : "--".toList.isPrefixOf (Item.note t).text = true := by
    rw [dashes, List.isPrefixOf_iff_prefix]
    exact ⟨' ' :: t, rfl⟩
  rw [Client.line, if_pos h]

/-- A name with no white space at its ends. -/
structure Trimmed (t : Text) : Prop where
  first : ∃ c r, t = c :: r ∧ c.isWhitespace = false
  last : ∃ r c, t = r ++ [c] ∧ c.isWhitespace = false

theorem line_change {t : Text} (h : Trimmed t) (env : Env) (c : Client) : c.line env (Item.change t).text = { c with tenant := t } := by
  obtain ⟨a, r, h1, ha⟩ := h.first
  obtain ⟨s, b, h2, hb⟩ := h.last
  have hx : (Item.change t).text = '\\' :: ("change_tenant ".toList ++ t) := rfl
  have hy : (Item.change t).text = ("\\change_tenant ".toList ++ s) ++ [b] := by rw [List.append_assoc, ← h2]; rfl
  have ht : trim (Item.change t).text = (Item.change t).text := by
    rw [trim, hx, dropWhile_head (by decide), ← hx, hy, trimEnd_last _ hb]
  have hz : (Item.change t).text = changeTenant ++ (' ' :: t) := rfl
  have hp : changeTenant.isPrefixOf (Item.change t).text = true := by rw [List.isPrefixOf_iff_prefix]; exact ⟨' ' :: t, hz.symm⟩
  have h0 : "--".toList.isPrefixOf (Item.change t).text = false := by
    rw [hx, dashes]; exact isPrefixOf_ne (by decide) _ _
  have hlen : (Item.change t).text.length = t.length + 13 + 1 + 1 := by
    rw [hz, List.length_append, List.length_cons]
    have : changeTenant.length = 14 := rfl
    omega
  have hs : trimStart changeTenant (Item.change t).text.length (Item.change t).text = ' ' :: t := by
    rw [hlen, trimStart, hp, if_pos rfl, hz, List.drop_left, trimStart]
    rw [if_neg]
    rw [changeTenant_cons, isPrefixOf_ne (by decide)]
    exact Bool.false_ne_true
  have hf : trim (' ' :: t) = t := by
    rw [trim, List.dropWhile_cons, if_pos (by decide), h1, dropWhile_head ha, ← h1, h2, trimEnd_last _ hb]
  simp only [Client.line, ht, h0, hp, hs, hf, if_true, Bool.false_eq_true, if_false]

/-! ### Objects -/

/-- An object of a cluster, with the tenant it belongs to, as it is printed. -/
inductive Obj where
  | tenant (n : Text) (o : TenantOpts)
  | user (e : Bool) (n : Text) (o : UserOpts)
  | db (t n : Text) (d : Db)
  | role (t n : Text) (inh : Option Sys) (privs : List (Text × Priv))
  | member (t u r : Text)
  | table (e : Bool) (t d n : Text) (cols : List Col)

def Obj.key : Obj → Key
  | .tenant n _ => .tenant n
  | .user _ n _ => .user n
  | .db t n _ => .db t n
  | .role t n _ _ => .role t n
  | .member t u _ => .member t u
  | .table _ t d n _ => .table t d n

/-- The privilege granted on a database. -/
def privOf (ps : List (Text × Priv)) : Text → Option Priv := fun d => (ps.find? fun p => decide (p.1 = d)).map (·.2)

def Obj.val : Obj → Entry
  | .tenant _ o => .tenant o
  | .user _ _ o => .user o
  | .db _ _ d => .db d
  | .role _ _ i ps => .role i (privOf ps)
  | .member _ _ r => .member r
  | .table _ _ _ _ cols => .table cols

/-- The lines of an object. -/
def Obj.items (env : Env) : Obj → List Item
  | .tenant n o => [.stmt (tenantSql true n o)]
  | .user e n o => [.stmt (userSql e n o)]
  | .db _ n d => [.stmt (dbSql env true n d)]
  | .role _ n i ps => dumpRole (n, i, ps)
  | .member t u r => [.stmt (memberSql t u r)]
  | .table e _ d n cols => [.stmt (tableSql e d n cols)]

/-- Whether the statement says `if not exists`. -/
def Obj.ine : Obj → Bool
  | .tenant _ _ => true
  | .user e _ _ => e
  | .db _ _ _ => true
  | .role _ _ _ _ => false
  | .member _ _ _ => false
  | .table e _ _ _ _ => e

/-- The object is new, or it is there already and the statement says `if not exists`. -/
def Obj.Fresh (o : Obj) (m : Meta) : Prop := m o.key = none ∨ (o.ine = true ∧ m o.key = some o.val)

/-- What can be printed and read again. -/
def Obj.Static (env : Env) : Obj → Prop
  | .tenant n o => NameFine n ∧ o.Fine
  | .user _ n o => NameFine n ∧ o.Fine
  | .db _ n d => NameFine n ∧ d.Fits ∧ SizeOk env d.maxMem ∧ SizeOk env d.walMax ∧ d.replica ≤ env.nodes
  | .role _ n _ ps => NameFine n ∧ Sys.parse n = none ∧ (ps.map (·.1)).Nodup ∧ ∀ p ∈ ps, NameFine p.1
  | .member t u r => NameFine t ∧ NameFine u ∧ NameFine r
  | .table _ _ d n cols => nameOk (d ++ '.' :: n) = true ∧ (Piece.ident d).Fine ∧ (Piece.ident n).Fine ∧ distinct (cols.map Col.name) = true ∧
    ∃ p fs tags, TableOk cols p fs tags ∧ ColsFine fs tags

/-- What must be there before, in a session of tenant `s`. -/
def Obj.Deps (s : Text) (m : Meta) : Obj → Prop
  | .tenant _ _ => True
  | .user _ _ _ => True
  | .db t _ _ => s = t ∧ (m (.tenant t)).isSome = true
  | .role t _ _ ps => s = t ∧ (m (.tenant t)).isSome = true ∧ ∀ p ∈ ps, (m (.db t p.1)).isSome = true
  | .member t u r => (m (.tenant t)).isSome = true ∧ (m (.user u)).isSome = true ∧ ((m (.role t r)).isSome = true ∨ (Sys.parse r).isSome = true)
  | .table _ t d _ cols => s = t ∧ ∃ c, m (.db t d) = some (.db c) ∧ ∃ r, cols = ⟨"time".toList, .time c.prec, .default⟩ :: r

/-- The lines of a dump are given to the client. -/
def runItems (env : Env) (c : Client) (is : List Item) : Client := is.foldl (fun c i => c.line env i.text) c

theorem runItems_cons (env : Env) (c : Client) (i : Item) (is : List Item) : runItems env c (i :: is) = runItems env (c.line env i.text) is := rfl

theorem runItems_append (env : Env) (c : Client) (a b : List Item) : runItems env c (a ++ b) = runItems env (runItems env c a) b := by
  rw [runItems, List.foldl_append]; rfl

theorem run_stmt {ps : List Piece} {st : Stmt} (h : Printed ps st) {env : Env} {t : Text} {m m' : Meta} (he : exec env t m st = some m')
    (fl : List Text) (is : List Item) : runItems env ⟨[], t, m, fl⟩ (.stmt ps :: is) = runItems env ⟨[], t, m', fl⟩ is := by
  rw [runItems_cons]
  exact congrArg (fun c => runItems env c is) (line_ok h he fl)

theorem put_same {k : Key} {v : Entry} {m : Meta} (h : m k = some v) : put k v m = m := by
  funext x
  simp only [put]
  split
  · rename_i e; rw [e, h]
  · rfl

theorem put_put (k : Key) (v v' : Entry) (m : Meta) : put k v (put k v' m) = put k v m := by
  funext x
  simp only [put]
  split <;> rfl

theorem put_get (k : Key) (v : Entry) (m : Meta) : put k v m k = some v := by simp [put]

theorem put_ne {k x : Key} (h : x ≠ k) (v : Entry) (m : Meta) : put k v m x = m x := by simp [put, h]

theorem create_fresh {e : Bool} {k : Key} {v : Entry} {m : Meta} (h : m k = none ∨ (e = true ∧ m k = some v)) :
    create e k v m = some (put k v m) := by
  rcases h with h | ⟨he, h⟩
  · simp only [create, h]
  · simp only [create, h, he, if_true, put_same h]

theorem planTenant_read {o : TenantOpts} (h : o.Fine) : planTenant (o.list.map tenantRead) ⟨none, none, none⟩ = some o := by
  obtain ⟨c, d, l⟩ := o
  have hl : l = none := h.limiter
  subst hl
  cases d with
  | none => cases c <;> rfl
  | some d =>
    have hd := Dur.parse_text d (h.dropAfter d rfl)
    cases c with
    | none =>
      rw [show planTenant ((TenantOpts.mk none (some d) none).list.map tenantRead) ⟨none, none, none⟩ =
        (Dur.parse d.text).bind fun d => some ⟨none, some d, none⟩ from rfl, hd]
      rfl
    | some c =>
      rw [show planTenant ((TenantOpts.mk (some c) (some d) none).list.map tenantRead) ⟨none, none, none⟩ =
        (Dur.parse d.text).bind fun d => some ⟨some c, some d, none⟩ from rfl, hd]
      rfl

theorem planUser_read (o : UserOpts) : planUser (o.list.map userRead) ⟨none, none, none, none, none⟩ = some o := by
  obtain ⟨h, c, m, r, a⟩ := o
  cases h <;> cases c <;> cases r <;> (cases m with
    | none => cases a with
      | none => rfl
      | some a => cases a <;> rfl
    | some m => cases m <;> (cases a with
      | none => rfl
      | some a => cases a <;> rfl))

theorem planDb_read {env : Env} {d : Db} (h : d.Fits) (h1 : SizeOk env d.maxMem) (h2 : SizeOk env d.walMax) :
    planDb env (dbRead env d) = some d := by
  have hp : Prec.parse d.prec.text = some d.prec := by cases d.prec <;> decide
  have b1 : parseBool (boolText d.walSync) = some d.walSync := by cases d.walSync <;> decide
  have b2 : parseBool (boolText d.strict) = some d.strict := by cases d.strict <;> decide
  simp only [planDb, dbRead, orDflt, hp, h1.read, h2.read, b1, b2, Dur.parse_text _ h.ttl, Dur.parse_text _ h.vnodeDur, Option.bind_eq_bind,
    Option.bind_some, Option.getD_some]

/-! ### A role and its grants -/

theorem grants_one {t : Text} {m : Meta} {d : Text} (h : (m (.db t d)).isSome = true) (v : Priv) (p : Text → Option Priv) :
    grants t m [(v, d)] p = some (grantTo p d v) := by simp [grants, h]

theorem run_grants {env : Env} {t n : Text} {i : Option Sys} (hn : NameFine n) (hs : Sys.parse n = none) (fl : List Text) :
    ∀ (ps : List (Text × Priv)) (p0 : Text → Option Priv) (m : Meta), (∀ p ∈ ps, NameFine p.1) → (∀ p ∈ ps, (m (.db t p.1)).isSome = true) →
      runItems env ⟨[], t, put (.role t n) (.role i p0) m, fl⟩ (ps.map fun p => .stmt (grantSql n p)) =
        ⟨[], t, put (.role t n) (.role i (ps.foldl (fun f p => grantTo f p.1 p.2) p0)) m, fl⟩
  | [], _, _, _, _ => rfl
  | p :: ps, p0, m, hf, hd => by
    have ih := run_grants (env := env) (i := i) hn hs fl ps (grantTo p0 p.1 p.2) m (fun x hx => hf x (List.mem_cons_of_mem _ hx))
      (fun x hx => hd x (List.mem_cons_of_mem _ hx))
    have hd1 : ((put (.role t n) (.role i p0) m) (.db t p.1)).isSome = true := by
      rw [put_ne (by simp)]
      exact hd p List.mem_cons_self
    have he : exec env t (put (.role t n) (.role i p0) m) (.grant [(p.2, p.1)] n) =
        some (put (.role t n) (.role i (grantTo p0 p.1 p.2)) m) := by
      simp only [exec, hs, Option.isSome_none, Bool.false_eq_true, if_false, put_get, grants_one hd1, Option.map_some, put_put]
    rw [List.map_cons, run_stmt (printed_grant hn (hf p List.mem_cons_self)) he]
    exact ih

theorem find_append_miss {ps : List (Text × Priv)} {d : Text} (h : d ∉ ps.map (·.1)) : (ps.find? fun p => decide (p.1 = d)) = none := by
  rw [List.find?_eq_none]
  intro p hp e
  exact h (List.mem_map.2 ⟨p, hp, by simpa using e⟩)

theorem foldl_grants : ∀ (ps : List (Text × Priv)) (p0 : Text → Option Priv), (ps.map (·.1)).Nodup → ∀ d,
    ps.foldl (fun f p => grantTo f p.1 p.2) p0 d = (privOf ps d).or (p0 d)
  | [], _, _, _ => rfl
  | p :: ps, p0, h, d => by
    rw [List.map_cons, List.nodup_cons] at h
    rw [List.foldl_cons, foldl_grants ps _ h.2]
    by_cases e : d = p.1
    · rw [e]
      have := find_append_miss h.1
      simp [privOf, grantTo, this]
    · simp [privOf, grantTo, e, show p.1 ≠ d from fun x => e x.symm]

/-! ### An object is restored -/

theorem run_obj {env : Env} {o : Obj} {s : Text} {m : Meta} (hs : o.Static env) (hd : o.Deps s m) (hf : o.Fresh m) (fl : List Text) :
    runItems env ⟨[], s, m, fl⟩ (o.items env) = ⟨[], s, put o.key o.val m, fl⟩ := by
  cases o with
  | tenant n o =>
    obtain ⟨h1, h2⟩ := hs
    have he : exec env s m (.createTenant true n (o.list.map tenantRead)) = some (put (.tenant n) (.tenant o) m) := by
      simp only [exec, planTenant_read h2, Option.bind_some]
      exact create_fresh hf
    exact run_stmt (printed_tenant h1 true h2) he fl []
  | user e n o =>
    obtain ⟨h1, h2⟩ := hs
    have he : exec env s m (.createUser e n (o.list.map userRead)) = some (put (.user n) (.user o) m) := by
      simp only [exec, planUser_read, Option.bind_some]
      exact create_fresh hf
    exact run_stmt (printed_user h1 e h2) he fl []
  | db t n d =>
    obtain ⟨h1, h2, h3, h4, h5⟩ := hs
    obtain ⟨rfl, ht⟩ := hd
    have he : exec env s m (.createDb true n (dbRead env d)) = some (put (.db s n) (.db d) m) := by
      simp only [exec, planDb_read h2 h3 h4, Option.bind_some]
      rcases hf with hf | hf
      · have hf : m (.db s n) = none := hf
        simp only [hf]
        rw [if_pos ⟨ht, h5, h2.shardPos⟩]
      · have hf : m (.db s n) = some (.db d) := hf.2
        simp only [hf, if_true, put_same hf]
    exact run_stmt (printed_db h1 env true h2 h3 h4) he fl []
  | role t n i ps =>
    obtain ⟨h1, h2, h3, h4⟩ := hs
    obtain ⟨rfl, ht, hdb⟩ := hd
    have hk : m (.role s n) = none := by
      rcases hf with hf | hf
      · exact hf
      · exact absurd hf.1 (by simp [Obj.ine])
    clear hf
    have he : exec env s m (.createRole false n (i.map Sys.text)) = some (put (.role s n) (.role i fun _ => none) m) := by
      cases i with
      | none => simp only [exec, h2, Option.isSome_none, Bool.false_eq_true, if_false, Option.map_none, ht, if_true, create, hk]
      | some x =>
        have hx : Sys.parse x.text = some x := by cases x <;> decide
        simp only [exec, h2, Option.isSome_none, Bool.false_eq_true, if_false, Option.map_some, hx, Option.bind_some, ht, if_true, create, hk]
    have hp : ps.foldl (fun f p => grantTo f p.1 p.2) (fun _ => none) = privOf ps := by
      funext d
      rw [foldl_grants ps _ h3]
      simp
    have hg := run_grants (env := env) (t := s) (i := i) h1 h2 fl ps (fun _ => none) m h4 hdb
    rw [hp] at hg
    exact (run_stmt (printed_role h1 i) he fl _).trans hg
  | member t u r =>
    obtain ⟨h1, h2, h3⟩ := hs
    have hf : m (.member t u) = none := by
      rcases hf with hf | hf
      · exact hf
      · exact absurd hf.1 (by simp [Obj.ine])
    have he : exec env s m (.addMember t u r) = some (put (.member t u) (.member r) m) := by
      simp only [exec, hf]
      rw [if_pos ⟨hd.1, hd.2.1, rfl, hd.2.2⟩]
    exact run_stmt (printed_member h1 h2 h3) he fl []
  | table e t d n cols =>
    obtain ⟨h1, h2, h3, h4, p, fs, tags, h5, h6⟩ := hs
    obtain ⟨rfl, c, hc, r, hr⟩ := hd
    have hp : p = c.prec := by
      have := h5.cols
      rw [hr, planCols, List.cons_append] at this
      have h := (List.cons.inj this).1
      simp only [Col.mk.injEq, Kind.time.injEq] at h
      exact h.2.1.symm
    have he : exec env s m (.createTable e d n fs tags) = some (put (.table s d n) (.table cols) m) := by
      have ha : (fs.all fun f => encOk f.2.1 f.2.2) = true := List.all_eq_true.2 fun f hfm => (h5.fields f hfm).1
      simp only [exec, hc]
      rw [← hp, ← h5.cols, if_pos ⟨ha, h4⟩]
      exact create_fresh hf
    exact run_stmt (printed_table h1 h2 h3 e h5 h6) he fl []

/-! ### Steps -/

/-- A step of a dump. -/
inductive Step where
  | note (t : Text)
  | change (t : Text)
  | obj (o : Obj)

def Step.items (env : Env) : Step → List Item
  | .note t => [.note t]
  | .change t => [.change t]
  | .obj o => o.items env

/-- Every step meets what it needs. -/
def Good (env : Env) : List Step → Text → Meta → Prop
  | [], _, _ => True
  | .note _ :: r, s, m => Good env r s m
  | .change t :: r, _, m => Trimmed t ∧ Good env r t m
  | .obj o :: r, s, m => o.Static env ∧ o.Deps s m ∧ o.Fresh m ∧ Good env r s (put o.key o.val m)

/-- The session and the store after some steps. -/
def after : List Step → Text → Meta → Text × Meta
  | [], s, m => (s, m)
  | .note _ :: r, s, m => after r s m
  | .change t :: r, _, m => after r t m
  | .obj o :: r, s, m => after r s (put o.key o.val m)

theorem run_good {env : Env} {fl : List Text} (l : List Step) : ∀ {s : Text} {m : Meta}, Good env l s m →
    runItems env ⟨[], s, m, fl⟩ (l.flatMap (Step.items env)) = ⟨[], (after l s m).1, (after l s m).2, fl⟩ := by
  induction l with
  | nil => exact fun _ => rfl
  | cons x l ih =>
    intro s m h
    cases x with
    | note t =>
      rw [List.flatMap_cons, Step.items, List.singleton_append, runItems_cons, line_note]
      exact ih h
    | change t =>
      rw [List.flatMap_cons, Step.items, List.singleton_append, runItems_cons, line_change h.1]
      exact ih h.2
    | obj o =>
      rw [List.flatMap_cons, Step.items, runItems_append, run_obj h.1 h.2.1 h.2.2.1 fl]
      exact ih h.2.2.2

theorem good_append {env : Env} (a : List Step) {b : List Step} : ∀ {s : Text} {m : Meta}, Good env a s m →
    Good env b (after a s m).1 (after a s m).2 → Good env (a ++ b) s m := by
  induction a with
  | nil => exact fun _ hb => hb
  | cons x a ih =>
    intro s m ha hb
    cases x with
    | note _ => exact ih ha hb
    | change _ => exact ⟨ha.1, ih ha.2 hb⟩
    | obj _ => exact ⟨ha.1, ha.2.1, ha.2.2.1, ih ha.2.2.2 hb⟩

theorem after_append : ∀ (a b : List Step) (s : Text) (m : Meta), after (a ++ b) s m = after b (after a s m).1 (after a s m).2
  | [], _, _, _ => rfl
  | .note _ :: a, b, s, m => after_append a b s m
  | .change t :: a, b, _, m => after_append a b t m
  | .obj o :: a, b, s, m => after_append a b s (put o.key o.val m)

/-- Objects put into the store one after another. -/
def puts (l : List Obj) (m : Meta) : Meta := l.foldl (fun m o => put o.key o.val m) m

theorem after_objs (l : List Obj) (s : Text) (m : Meta) : after (l.map .obj) s m = (s, puts l m) := by
  induction l generalizing m with
  | nil => rfl
  | cons o l ih => exact ih _

theorem puts_not {l : List Obj} {k : Key} (h : ∀ o ∈ l, o.key ≠ k) (m : Meta) : puts l m k = m k := by
  induction l generalizing m with
  | nil => rfl
  | cons o l ih =>
    rw [puts, List.foldl_cons]
    have := ih (fun x hx => h x (List.mem_cons_of_mem _ hx)) (put o.key o.val m)
    rw [puts] at this
    rw [this, put_ne (fun e => h o List.mem_cons_self e.symm)]

theorem puts_keep {l : List Obj} {k : Key} {v : Entry} (h : ∀ x ∈ l, x.key = k → x.val = v) {m : Meta} (hm : m k = some v) :
    puts l m k = some v := by
  induction l generalizing m with
  | nil => exact hm
  | cons o l ih =>
    rw [puts, List.foldl_cons]
    apply ih (fun x hx => h x (List.mem_cons_of_mem _ hx))
    by_cases e : o.key = k
    · rw [← e, put_get, h o List.mem_cons_self e]
    · rw [put_ne (fun x => e x.symm), hm]

theorem puts_mem {l : List Obj} {o : Obj} (ho : o ∈ l) (h : ∀ x ∈ l, x.key = o.key → x.val = o.val) (m : Meta) : puts l m o.key = some o.val := by
  induction l generalizing m with
  | nil => cases ho
  | cons x l ih =>
    rw [puts, List.foldl_cons]
    rcases List.mem_cons.1 ho with rfl | ho
    · exact puts_keep (fun x hx => h x (List.mem_cons_of_mem _ hx)) (put_get _ _ _)
    · exact ih ho (fun x hx => h x (List.mem_cons_of_mem _ hx)) _

end Verif.Dump
