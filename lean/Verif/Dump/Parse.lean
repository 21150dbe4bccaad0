import Verif.Dump.Model

/-!
# Printed statements are parsed as what they were printed for
-/

namespace Verif.Dump

open Verif.Raft (dec undec undec_dec dec_ne_nil)

theorem word?_hit {k : String} {x : Text} {r : List Tok} (h : upper x = k.toList) : word? k (.word x :: r) = some r := by
  simp [word?, h]

theorem word?_miss {k : String} {x : Text} {r : List Tok} (h : upper x ≠ k.toList) : word? k (.word x :: r) = none := by
  simp [word?, h]

theorem word?_quoted {k : String} {x : Text} {r : List Tok} : word? k (.quoted x :: r) = none := rfl
theorem word?_sym {k : String} {c : Char} {r : List Tok} : word? k (.sym c :: r) = none := rfl
theorem word?_str {k : String} {c : Text} {r : List Tok} : word? k (.str c :: r) = none := rfl
theorem sym?_hit {c : Char} {r : List Tok} : sym? c (.sym c :: r) = some r := by simp [sym?]
theorem sym?_miss {c d : Char} {r : List Tok} (h : d ≠ c) : sym? c (.sym d :: r) = none := by simp [sym?, h]
theorem sym?_quoted {c : Char} {x : Text} {r : List Tok} : sym? c (.quoted x :: r) = none := rfl
theorem sym?_str {c : Char} {x : Text} {r : List Tok} : sym? c (.str x :: r) = none := rfl
theorem sym?_num {c : Char} {x : Text} {r : List Tok} : sym? c (.num x :: r) = none := rfl
theorem sym?_word {c : Char} {x : Text} {r : List Tok} : sym? c (.word x :: r) = none := rfl
theorem ident_quoted {x : Text} {r : List Tok} : ident (.quoted x :: r) = some (x, r) := rfl
theorem ident_word {x : Text} {r : List Tok} : ident (.word x :: r) = some (lower x, r) := rfl
theorem string_str {x : Text} {r : List Tok} : string (.str x :: r) = some (x, r) := rfl
theorem value_str {x : Text} {r : List Tok} : value (.str x :: r) = some (.str x, r) := rfl

theorem newName_quoted {x : Text} {r : List Tok} (h : nameOk x = true) : newName (.quoted x :: r) = some (x, r) := by
  simp [newName, ident, h]

theorem ine?_ine (e : Bool) (n : Text) (r : List Tok) : ine? ((ine e).flatMap Piece.tok ++ .quoted n :: r) = (e, .quoted n :: r) := by
  cases e <;> rfl

/-- The tokens of a list of pieces. -/
def toks (ps : List Piece) : List Tok := ps.flatMap Piece.tok

theorem toks_append (a b : List Piece) : toks (a ++ b) = toks a ++ toks b := by simp [toks]
theorem toks_cons (a : Piece) (b : List Piece) : toks (a :: b) = a.tok ++ toks b := by simp [toks]
theorem toks_nil : toks [] = [] := rfl

theorem parse_role {n : Text} (hn : nameOk n = true) (i : Option Sys) :
    parseSql (toks (roleSql n i)) = some (.createRole false n (i.map Sys.text)) := by
  cases i with
  | none =>
    simp only [roleSql, toks_append, toks_cons, toks_nil, w, Piece.tok, List.nil_append, List.cons_append, List.append_nil]
    simp (disch := decide) only [parseSql, statement, word?_hit, word?_miss, parseRole]
    rw [show ine? [Tok.quoted n, .sym ';'] = (false, [Tok.quoted n, .sym ';']) from rfl]
    simp only [newName_quoted hn, word?_sym]
    rfl
  | some s =>
    simp only [roleSql, toks_append, toks_cons, toks_nil, w, Piece.tok, List.nil_append, List.cons_append, List.append_nil]
    simp (disch := decide) only [parseSql, statement, word?_hit, word?_miss, parseRole]
    rw [show ine? [Tok.quoted n, .word "inherit".toList, .word s.text, .sym ';'] = (false, [Tok.quoted n, .word "inherit".toList, .word s.text, .sym ';']) from rfl]
    simp (disch := decide) only [newName_quoted hn, word?_hit, ident_word]
    cases s <;> rfl

/-! ### Options -/

theorem optList_cons (o p : Piece × Piece) (r : List (Piece × Piece)) :
    optList (o :: p :: r) = [o.1, .sym '=', o.2, .sym ',', .gap] ++ optList (p :: r) := rfl

theorem optList_length : ∀ os : List (Piece × Piece), os.length ≤ (toks (optList os)).length
  | [] => Nat.zero_le _
  | [o] => by
    simp only [optList, toks_cons, toks_nil, Piece.tok, List.length_append, List.length_cons, List.length_nil]
    omega
  | o :: p :: r => by
    have := optList_length (p :: r)
    simp only [optList_cons, toks_append, toks_cons, Piece.tok, List.length_append, List.length_cons, List.length_nil] at this ⊢
    omega

theorem tok_sym (c : Char) : (Piece.sym c).tok = [.sym c] := rfl
theorem tok_gap : Piece.gap.tok = [] := rfl

theorem commas_optList {α : Type} (f : List Tok → Option (α × List Tok)) (res : Piece × Piece → α) (t : List Tok)
    (ht : sym? ',' t = none) : ∀ (os : List (Piece × Piece)), os ≠ [] →
    (∀ o ∈ os, ∀ r, f (o.1.tok ++ .sym '=' :: (o.2.tok ++ r)) = some (res o, r)) → ∀ k, os.length ≤ k →
    commas f k (toks (optList os) ++ t) = some (os.map res, t)
  | [], h, _, _, _ => absurd rfl h
  | [o], _, hf, k, hk => by
    cases k with
    | zero => simp at hk
    | succ k =>
      have h := hf o List.mem_cons_self t
      simp only [optList, toks_cons, toks_nil, tok_sym, tok_gap, List.append_nil, List.append_assoc, List.cons_append, List.nil_append, commas]
      rw [h]
      simp only [ht, List.map_cons, List.map_nil]
  | o :: p :: r, _, hf, k, hk => by
    cases k with
    | zero => simp at hk
    | succ k =>
      have h := hf o List.mem_cons_self (.sym ',' :: (toks (optList (p :: r)) ++ t))
      have ih := commas_optList f res t ht (p :: r) (by simp) (fun x hx => hf x (List.mem_cons_of_mem _ hx)) k
        (by simp only [List.length_cons] at hk ⊢; omega)
      simp only [optList_cons, toks_append, toks_cons, tok_sym, tok_gap, toks_nil, List.append_assoc, List.cons_append, List.nil_append, commas]
      rw [h]
      simp only [sym?_hit, ih, Option.map_some, List.map_cons]

/-- What is read for a printed option of a tenant. -/
def tenantRead (o : Piece × Piece) : Bool × Text :=
  match o.2 with
  | .str s => (decide (o.1 = w "comment"), s)
  | _ => (false, [])

theorem tenantOpts_read {o : TenantOpts} (hl : o.limiter = none) : ∀ x ∈ o.list, ∀ r,
    tenantOption (x.1.tok ++ .sym '=' :: (x.2.tok ++ r)) = some (tenantRead x, r) := by
  intro x hx r
  simp only [TenantOpts.list, hl, Option.map_none, Option.toList_none, List.append_nil, List.mem_append, Option.mem_toList,
    Option.map_eq_some_iff] at hx
  rcases hx with ⟨c, _, rfl⟩ | ⟨c, _, rfl⟩ <;> rfl

theorem ine?_toks (e : Bool) (n : Text) (r : List Tok) : ine? (toks (ine e) ++ .quoted n :: r) = (e, .quoted n :: r) := ine?_ine e n r

theorem parse_tenant {n : Text} (hn : nameOk n = true) (e : Bool) {o : TenantOpts} (hl : o.limiter = none) :
    parseSql (toks (tenantSql e n o)) = some (.createTenant e n (o.list.map tenantRead)) := by
  have hr := tenantOpts_read hl
  simp only [tenantSql]
  generalize o.list = os at hr
  cases os with
  | nil =>
    simp only [toks_append, toks_cons, toks_nil, w, Piece.tok, List.nil_append, List.cons_append, List.append_nil, List.append_assoc]
    simp (disch := decide) only [parseSql, statement, word?_hit, word?_miss, parseTenant, ine?_toks, newName_quoted hn, word?_sym]
    rfl
  | cons x xs =>
    simp only [withOpts, toks_append, toks_cons, toks_nil, w, Piece.tok, List.nil_append, List.cons_append, List.append_nil, List.append_assoc]
    simp (disch := decide) only [parseSql, statement, word?_hit, word?_miss, parseTenant, ine?_toks, newName_quoted hn, word?_sym]
    rw [commas_optList tenantOption tenantRead [.sym ';'] rfl (x :: xs) (by simp) hr _
      (by have := optList_length (x :: xs); rw [List.length_append]; omega)]
    rfl

/-- What is read for a printed option of a user. -/
def userRead (o : Piece × Piece) : Text × Val :=
  (match o.1 with | .word x => x | _ => [],
   match o.2 with | .str s => .str s | .word x => .bool (decide (upper x = "TRUE".toList)) | _ => .str [])

theorem userOpts_read (o : UserOpts) : ∀ x ∈ o.list, ∀ r, sqlOption (x.1.tok ++ .sym '=' :: (x.2.tok ++ r)) = some (userRead x, r) := by
  intro x hx r
  simp only [UserOpts.list, List.mem_append, Option.mem_toList, Option.map_eq_some_iff] at hx
  rcases hx with (((⟨c, _, rfl⟩ | ⟨c, _, rfl⟩) | ⟨c, _, rfl⟩) | ⟨c, _, rfl⟩) | ⟨c, _, rfl⟩
  · rfl
  · rfl
  · cases c <;> rfl
  · rfl
  · cases c <;> rfl

theorem parse_user {n : Text} (hn : nameOk n = true) (e : Bool) (o : UserOpts) :
    parseSql (toks (userSql e n o)) = some (.createUser e n (o.list.map userRead)) := by
  have hr := userOpts_read o
  simp only [userSql]
  generalize o.list = os at hr
  cases os with
  | nil =>
    simp only [withOpts, toks_append, toks_cons, toks_nil, w, Piece.tok, List.nil_append, List.cons_append, List.append_nil, List.append_assoc]
    simp (disch := decide) only [parseSql, statement, word?_hit, word?_miss, parseUser, ine?_toks, newName_quoted hn, word?_sym]
    rfl
  | cons x xs =>
    simp only [withOpts, toks_append, toks_cons, toks_nil, w, Piece.tok, List.nil_append, List.cons_append, List.append_nil, List.append_assoc]
    simp (disch := decide) only [parseSql, statement, word?_hit, word?_miss, parseUser, ine?_toks, newName_quoted hn, word?_sym]
    rw [commas_optList sqlOption userRead [.sym ';'] rfl (x :: xs) (by simp) hr _
      (by have := optList_length (x :: xs); rw [List.length_append]; omega)]
    rfl

/-! ### Databases -/

theorem parseU64_dec {n : Nat} (h : n < 2 ^ 64) : parseU64 (dec n) = some n := by
  rw [parseU64, if_pos ⟨dec_ne_nil n, List.all_eq_true.2 (dec_isDigit n), by rw [undec_dec]; exact h⟩, undec_dec]

theorem dbOption_ttl (s : Text) (r : List Tok) (o : DbRaw) :
    dbOption (.word "ttl".toList :: .str s :: r) o = some (some ({ o with ttl := some s }, r)) := rfl
theorem dbOption_vnode (s : Text) (r : List Tok) (o : DbRaw) :
    dbOption (.word "vnode_duration".toList :: .str s :: r) o = some (some ({ o with vnodeDur := some s }, r)) := rfl
theorem dbOption_prec (s : Text) (r : List Tok) (o : DbRaw) :
    dbOption (.word "precision".toList :: .str s :: r) o = some (some ({ o with prec := some s }, r)) := rfl
theorem dbOption_mem (s : Text) (r : List Tok) (o : DbRaw) :
    dbOption (.word "max_memcache_size".toList :: .str s :: r) o = some (some ({ o with maxMem := some s }, r)) := rfl
theorem dbOption_wal (s : Text) (r : List Tok) (o : DbRaw) :
    dbOption (.word "wal_max_file_size".toList :: .str s :: r) o = some (some ({ o with walMax := some s }, r)) := rfl
theorem dbOption_sync (s : Text) (r : List Tok) (o : DbRaw) :
    dbOption (.word "wal_sync".toList :: .str s :: r) o = some (some ({ o with walSync := some s }, r)) := rfl
theorem dbOption_strict (s : Text) (r : List Tok) (o : DbRaw) :
    dbOption (.word "strict_write".toList :: .str s :: r) o = some (some ({ o with strict := some s }, r)) := rfl
theorem dbOption_parts (n : Nat) (h : n < 2 ^ 64) (r : List Tok) (o : DbRaw) :
    dbOption (.word "memcache_partitions".toList :: .num (dec n) :: r) o = some (some ({ o with parts := some n }, r)) := by
  rw [show dbOption (.word "memcache_partitions".toList :: .num (dec n) :: r) o =
    ((parseU64 (dec n)).map fun x => (x, r)).map fun x => some ({ o with parts := some x.1 }, x.2) from rfl, parseU64_dec h]
  rfl
theorem dbOption_readers (n : Nat) (h : n < 2 ^ 64) (r : List Tok) (o : DbRaw) :
    dbOption (.word "max_cache_readers".toList :: .num (dec n) :: r) o = some (some ({ o with readers := some n }, r)) := by
  rw [show dbOption (.word "max_cache_readers".toList :: .num (dec n) :: r) o =
    ((parseU64 (dec n)).map fun x => (x, r)).map fun x => some ({ o with readers := some x.1 }, x.2) from rfl, parseU64_dec h]
  rfl
theorem dbOption_shard (n : Nat) (h : n < 2 ^ 64) (h0 : n ≠ 0) (r : List Tok) (o : DbRaw) :
    dbOption (.word "shard".toList :: .num (dec n) :: r) o = some (some ({ o with shard := some n }, r)) := by
  rw [show dbOption (.word "shard".toList :: .num (dec n) :: r) o =
    ((parseU64 (dec n)).map fun x => (x, r)).bind fun x => if x.1 = 0 then none else some (some ({ o with shard := some x.1 }, x.2)) from rfl,
    parseU64_dec h]
  simp [h0]
theorem dbOption_replica (n : Nat) (h : n < 2 ^ 64) (h0 : n ≠ 0) (r : List Tok) (o : DbRaw) :
    dbOption (.word "replica".toList :: .num (dec n) :: r) o = some (some ({ o with replica := some n }, r)) := by
  rw [show dbOption (.word "replica".toList :: .num (dec n) :: r) o =
    ((parseU64 (dec n)).map fun x => (x, r)).bind fun x => if x.1 = 0 then none else some (some ({ o with replica := some x.1 }, x.2)) from rfl,
    parseU64_dec h]
  simp [h0]
theorem dbOption_end (r : List Tok) (o : DbRaw) : dbOption (.sym ';' :: r) o = some none := rfl

/-- Numbers of a database fit into 64 bits; there is at least one shard and one replica. -/
structure Db.Fits (d : Db) : Prop where
  parts : d.parts < 2 ^ 64
  readers : d.readers < 2 ^ 64
  shard : d.shard < 2 ^ 64
  shardPos : d.shard ≠ 0
  replica : d.replica < 2 ^ 64
  replicaPos : d.replica ≠ 0
  ttl : d.ttl.Fits
  vnodeDur : d.vnodeDur.Fits

/-- What is read for a printed database. -/
def dbRead (env : Env) (d : Db) : DbRaw :=
  { prec := some d.prec.text, maxMem := some (env.fmtBytes d.maxMem), parts := some d.parts, walMax := some (env.fmtBytes d.walMax),
    walSync := some (boolText d.walSync), strict := some (boolText d.strict), readers := some d.readers, ttl := some d.ttl.text,
    shard := some d.shard, replica := some d.replica, vnodeDur := some d.vnodeDur.text }

theorem parse_db {n : Text} (hn : nameOk n = true) (env : Env) (e : Bool) {d : Db} (h : d.Fits) :
    parseSql (toks (dbSql env e n d)) = some (.createDb e n (dbRead env d)) := by
  simp only [dbSql, toks_append, toks_cons, toks_nil, w, Piece.tok, List.nil_append, List.cons_append, List.append_nil, List.append_assoc]
  simp (disch := decide) only [parseSql, statement, word?_hit, word?_miss, parseDb, ine?_toks, newName_quoted hn]
  simp only [List.length_cons, List.length_nil, dbOptions, dbOption_ttl, dbOption_vnode, dbOption_prec, dbOption_mem, dbOption_wal,
    dbOption_sync, dbOption_strict, dbOption_parts _ h.parts, dbOption_readers _ h.readers, dbOption_shard _ h.shard h.shardPos,
    dbOption_replica _ h.replica h.replicaPos, dbOption_end, Option.map_some]
  rfl

/-! ### Grants and members -/

theorem parse_grant (r : Text) (p : Text × Priv) : parseSql (toks (grantSql r p)) = some (.grant [(p.2, p.1)] r) := by
  obtain ⟨d, p⟩ := p
  cases p <;> rfl

theorem parse_member (t u r : Text) : parseSql (toks (memberSql t u r)) = some (.addMember t u r) := rfl

/-! ### Tables -/

theorem nameList_cons (n m : Text) (r : List Text) : nameList (n :: m :: r) = [.ident n, .sym ',', .gap] ++ nameList (m :: r) := rfl

theorem nameList_length : ∀ ns : List Text, ns.length ≤ (toks (nameList ns)).length
  | [] => Nat.zero_le _
  | [n] => Nat.le_refl _
  | n :: m :: r => by
    have := nameList_length (m :: r)
    simp only [nameList_cons, toks_append, toks_cons, toks_nil, Piece.tok, List.length_append, List.length_cons, List.length_nil] at this ⊢
    omega

theorem commas_nameList (t : List Tok) (ht : sym? ',' t = none) : ∀ ns : List Text, ns ≠ [] → ∀ k, ns.length ≤ k →
    commas ident k (toks (nameList ns) ++ t) = some (ns, t)
  | [], h, _, _ => absurd rfl h
  | [n], _, k, hk => by
    cases k with
    | zero => simp at hk
    | succ k =>
      simp only [nameList, toks_cons, toks_nil, Piece.tok, List.append_nil, List.cons_append, List.nil_append, commas, ident_quoted, ht]
  | n :: m :: r, _, k, hk => by
    cases k with
    | zero => simp at hk
    | succ k =>
      have ih := commas_nameList t ht (m :: r) (by simp) k (by simp only [List.length_cons] at hk ⊢; omega)
      simp only [nameList_cons, toks_append, toks_cons, Piece.tok, toks_nil, List.cons_append, List.nil_append, commas, ident_quoted,
        sym?_hit, ih, Option.map_some]

theorem nameList_head {ns : List Text} (h : ns ≠ []) : ∃ n r, toks (nameList ns) = .quoted n :: r := by
  cases ns with
  | nil => exact absurd rfl h
  | cons n ns =>
    cases ns with
    | nil => exact ⟨n, [], rfl⟩
    | cons m r => exact ⟨n, .sym ',' :: toks (nameList (m :: r)), rfl⟩

theorem tagList_names (ns : List Text) (r : List Tok) : tagList (.sym '(' :: (toks (nameList ns) ++ .sym ')' :: r)) = some (ns, r) := by
  cases ns with
  | nil => simp only [nameList, toks_nil, List.nil_append, tagList, sym?_hit]
  | cons n ns =>
    obtain ⟨a, b, he⟩ := nameList_head (ns := n :: ns) (by simp)
    have h1 : sym? ')' (toks (nameList (n :: ns)) ++ .sym ')' :: r) = none := by rw [he]; rfl
    have h2 := commas_nameList (.sym ')' :: r) rfl (n :: ns) (by simp) (toks (nameList (n :: ns)) ++ .sym ')' :: r).length
      (by have := nameList_length (n :: ns); rw [List.length_append]; omega)
    simp only [tagList, sym?_hit, h1, h2, Option.map_some]

/-- Fields that can be printed: of a type other than geometry, with an encoding of the type. -/
def Field.Ok (f : Field) : Prop := encOk f.2.1 f.2.2 = true ∧ ∀ s, f.2.1 ≠ .geometry s

/-- The column of a field. -/
def Field.col (f : Field) : Col := ⟨f.1, .field f.2.1, f.2.2⟩

theorem field_read {f : Field} (h : f.Ok) (r : List Tok) : field (toks (fieldSql f.col) ++ r) = some (f, .sym ',' :: r) := by
  obtain ⟨n, t, e⟩ := f
  obtain ⟨h, hg⟩ := h
  cases t with
  | geometry s => exact absurd rfl (hg s)
  | unknown => cases h
  | float => cases e <;> first | rfl | (simp [encOk] at h)
  | int => cases e <;> first | rfl | (simp [encOk] at h)
  | uint => cases e <;> first | rfl | (simp [encOk] at h)
  | bool => cases e <;> first | rfl | (simp [encOk] at h)
  | str => cases e <;> first | rfl | (simp [encOk] at h)

theorem fieldSql_head (f : Field) : ∃ r, toks (fieldSql f.col) = .quoted f.1 :: r := ⟨_, rfl⟩

theorem columnsGo_fields (ns : List Text) (t : List Tok) : ∀ fs : List Field, fs ≠ [] → (∀ f ∈ fs, f.Ok) → ∀ k, fs.length ≤ k →
    columnsGo k (toks ((fs.map Field.col).flatMap fieldSql) ++
      (.word "tags".toList :: .sym '(' :: (toks (nameList ns) ++ .sym ')' :: .sym ')' :: t))) = some ((fs, ns), t)
  | [], h, _, _, _ => absurd rfl h
  | [f], _, hf, k, hk => by
    cases k with
    | zero => simp at hk
    | succ k =>
      have h := field_read (hf f List.mem_cons_self)
        (.word "tags".toList :: .sym '(' :: (toks (nameList ns) ++ .sym ')' :: .sym ')' :: t))
      simp only [List.map_cons, List.map_nil, List.flatMap_cons, List.flatMap_nil, List.append_nil, columnsGo]
      rw [h]
      simp (disch := decide) only [sym?_hit, word?_hit, tagList_names, Option.map_some]
  | f :: g :: r, _, hf, k, hk => by
    cases k with
    | zero => simp at hk
    | succ k =>
      have ih := columnsGo_fields ns t (g :: r) (by simp) (fun x hx => hf x (List.mem_cons_of_mem _ hx)) k
        (by simp only [List.length_cons] at hk ⊢; omega)
      obtain ⟨q, hq⟩ := fieldSql_head g
      have hm : ∀ u, word? "TAGS" (toks (((g :: r).map Field.col).flatMap fieldSql) ++ u) = none := by
        intro u
        rw [List.map_cons, List.flatMap_cons, toks_append, hq]
        rfl
      rw [List.map_cons, List.flatMap_cons, toks_append, List.append_assoc, columnsGo, field_read (hf f List.mem_cons_self)]
      simp only [sym?_hit, hm, ih, Option.map_some]

theorem fields_length (fs : List Field) : fs.length ≤ (toks ((fs.map Field.col).flatMap fieldSql)).length := by
  induction fs with
  | nil => exact Nat.zero_le _
  | cons f fs ih =>
    obtain ⟨q, hq⟩ := fieldSql_head f
    rw [List.map_cons, List.flatMap_cons, toks_append, hq, List.length_append]
    simp only [List.length_cons]
    omega

/-- The columns of a table as they are when the table is created: time, tags, fields. -/
structure TableOk (cols : List Col) (p : Prec) (fs : List Field) (tags : List Text) : Prop where
  cols : cols = planCols p fs tags
  ne : fs ≠ []
  fields : ∀ f ∈ fs, f.Ok

theorem planCols_fields (p : Prec) (fs : List Field) (tags : List Text) : (planCols p fs tags).filter Col.isField = fs.map Field.col := by
  have h1 : (tags.map fun n => (⟨n, .tag, .default⟩ : Col)).filter Col.isField = [] := by
    rw [List.filter_eq_nil_iff]
    intro c hc
    obtain ⟨n, _, rfl⟩ := List.mem_map.1 hc
    simp [Col.isField]
  have h2 : (fs.map fun f => (⟨f.1, .field f.2.1, f.2.2⟩ : Col)).filter Col.isField = fs.map Field.col := by
    rw [List.filter_eq_self.2]
    · rfl
    · intro c hc
      obtain ⟨f, _, rfl⟩ := List.mem_map.1 hc
      rfl
  rw [planCols, List.cons_append, List.filter_cons_of_neg (by simp [Col.isField]), List.filter_append, h1, h2, List.nil_append]

theorem planCols_tags (p : Prec) (fs : List Field) (tags : List Text) : ((planCols p fs tags).filter Col.isTag).map Col.name = tags := by
  have h1 : (fs.map fun f => (⟨f.1, .field f.2.1, f.2.2⟩ : Col)).filter Col.isTag = [] := by
    rw [List.filter_eq_nil_iff]
    intro c hc
    obtain ⟨f, _, rfl⟩ := List.mem_map.1 hc
    simp [Col.isTag]
  have h2 : (tags.map fun n => (⟨n, .tag, .default⟩ : Col)).filter Col.isTag = tags.map fun n => (⟨n, .tag, .default⟩ : Col) := by
    rw [List.filter_eq_self.2]
    intro c hc
    obtain ⟨n, _, rfl⟩ := List.mem_map.1 hc
    rfl
  rw [planCols, List.cons_append, List.filter_cons_of_neg (by simp [Col.isTag]), List.filter_append, h1, h2, List.append_nil, List.map_map]
  exact List.map_id _

theorem parse_table {d n : Text} (hn : nameOk (d ++ '.' :: n) = true) (e : Bool) {cols : List Col} {p : Prec} {fs : List Field}
    {tags : List Text} (h : TableOk cols p fs tags) :
    parseSql (toks (tableSql e d n cols)) = some (.createTable e d n fs tags) := by
  rw [h.cols]
  simp only [tableSql, planCols_fields, planCols_tags, toks_append, toks_cons, toks_nil, w, Piece.tok, List.nil_append, List.cons_append,
    List.append_nil, List.append_assoc]
  obtain ⟨q, hq⟩ : ∃ q : Text × List Tok, ∀ u, toks ((fs.map Field.col).flatMap fieldSql) ++ u = .quoted q.1 :: (q.2 ++ u) := by
    cases fs with
    | nil => exact absurd rfl h.ne
    | cons f fs =>
      obtain ⟨q, hq⟩ := fieldSql_head f
      refine ⟨(f.1, q ++ toks ((fs.map Field.col).flatMap fieldSql)), ?_⟩
      intro u
      rw [List.map_cons, List.flatMap_cons, toks_append, hq]
      simp
  have hc := columnsGo_fields tags [.sym ';'] fs h.ne h.fields
    (toks ((fs.map Field.col).flatMap fieldSql) ++
      (Tok.word "tags".toList :: Tok.sym '(' :: (toks (nameList tags) ++ [Tok.sym ')', Tok.sym ')', Tok.sym ';']))).length
    (by have := fields_length fs; rw [List.length_append]; omega)
  have hs : sym? ')' (toks ((fs.map Field.col).flatMap fieldSql) ++
      (Tok.word "tags".toList :: Tok.sym '(' :: (toks (nameList tags) ++ [Tok.sym ')', Tok.sym ')', Tok.sym ';']))) = none := by
    rw [hq]; rfl
  simp (disch := decide) only [parseSql, statement, word?_hit, parseTable, ine?_toks, ident_quoted, sym?_hit, Option.bind_some]
  rw [if_pos hn]
  simp only [columns, sym?_hit, hs, hc, Option.map_some]
  rfl

end Verif.Dump
