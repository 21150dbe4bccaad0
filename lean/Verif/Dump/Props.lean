import Verif.Dump.Restore

/-!
# Properties of dumps
-/

namespace Verif.Dump

/-! ## A cluster for examples -/

def env0 : Env := ⟨Verif.Raft.dec, parseU64, ⟨.ns, 1, 1, 1, false, false, 1, .inf, 1, 1, .inf⟩, 1⟩

def db0 : Db := ⟨.ns, 512, 16, 1024, false, false, 32, .inf, 1, 1, .of 31536000 0⟩

def init0 : Init :=
  ⟨⟨some "system tenant".toList, none, none⟩, ⟨some "h".toList, some "system admin".toList, some true, none, none⟩, [(publicDb, db0)]⟩

/-- A cluster with more than a new one. -/
def base (dbs : List (Text × Db × List Table)) (roles : List (Text × Option Sys × List (Text × Priv))) (members : List (Text × Text))
    (others : List Tenant) (us : List (Text × UserOpts)) : Source :=
  ⟨⟨cnosdb, init0.tenant, (publicDb, db0, []) :: dbs, roles, members⟩ :: others, (rootName, init0.root) :: us⟩

def noOpts : UserOpts := ⟨none, none, none, none, none⟩

/-- What a new cluster is after a dump of `s` was given to it. -/
def restored (env : Env) (i : Init) (s : Source) : Client := restore env ⟨[], cnosdb, i.store, []⟩ (dumpText (dump env none s))

/-- Names are unique, members are users, the tenant of the system and the administrator are there. -/
def Source.sound (s : Source) : Bool :=
  distinct (s.tenants.map Tenant.name) && distinct (s.users.map (·.1)) &&
    s.tenants.any (fun t => t.name = cnosdb && t.dbs.any fun d => d.1 = publicDb) && s.users.any (fun u => u.1 = rootName) &&
    s.tenants.all fun t => distinct (t.dbs.map (·.1)) && distinct (t.roles.map (·.1)) && distinct (t.members.map (·.1)) &&
      (t.members.all fun m => s.users.any fun u => u.1 = m.1) && (t.dbs.all fun d => distinct (d.2.2.map (·.1)))

/-! ## C161: statements of objects -/

/-- Full statement: the statements printed for an object make that object where it is not yet. -/
def StatementsMakeObjects : Prop :=
  ∀ (env : Env) (o : Obj) (s : Text) (m : Meta), o.Deps s m → m o.key = none →
    runItems env ⟨[], s, m, []⟩ (o.items env) = ⟨[], s, put o.key o.val m, []⟩

/-- **C161** (partial): the statements printed for a tenant, user, database, role, member or table make that object, if its names have no
double quote or line feed, it has no limiter, fields have types and encodings of statements (`Obj.Static`). -/
theorem C161_objects_partial {env : Env} {o : Obj} {s : Text} {m : Meta} (hs : o.Static env) (hd : o.Deps s m) (hf : m o.key = none) :
    runItems env ⟨[], s, m, []⟩ (o.items env) = ⟨[], s, put o.key o.val m, []⟩ :=
  run_obj hs hd (.inl hf) []

/-- A statement with `if not exists` leaves the object as it is. -/
theorem C161_again {env : Env} {o : Obj} {s : Text} {m : Meta} (hs : o.Static env) (hd : o.Deps s m) (hi : o.ine = true)
    (hf : m o.key = some o.val) : runItems env ⟨[], s, m, []⟩ (o.items env) = ⟨[], s, m, []⟩ := by
  rw [run_obj hs hd (.inr ⟨hi, hf⟩) [], put_same hf]

/-- What a statement of a printed object changes: nothing but that object. -/
theorem C161_others {env : Env} {o : Obj} {s : Text} {m : Meta} (hs : o.Static env) (hd : o.Deps s m) (hf : m o.key = none) {k : Key}
    (hk : k ≠ o.key) : (runItems env ⟨[], s, m, []⟩ (o.items env)).store k = m k := by
  rw [C161_objects_partial hs hd hf]
  exact put_ne hk _ _

theorem nameFine {n : Text} (h : (nameOk n && !n.contains '"' && !n.contains '\n') = true) : NameFine n := by
  simp only [Bool.and_eq_true, Bool.not_eq_true', List.contains_eq_mem, decide_eq_false_iff_not] at h
  exact ⟨h.1.1, h.1.2, h.2⟩

example : (Obj.role cnosdb "a'b c".toList (some .member) [(publicDb, .read)]).Static env0 :=
  ⟨nameFine (by decide), by decide, by decide, fun p hp => by
    rw [List.mem_singleton.1 hp]; exact nameFine (by decide)⟩

example : (Obj.role cnosdb "a'b c".toList (some .member) [(publicDb, .read)]).Deps cnosdb init0.store :=
  ⟨rfl, by decide, fun p hp => by rw [List.mem_singleton.1 hp]; decide⟩

/-- **C161** is refuted: the name of a role is printed as it is, so a role of the name `x" inherit "owner` becomes a role `x` with all
rights of an owner. -/
theorem C161_name_refuted :
    let o := Obj.role cnosdb "x\" inherit \"owner".toList none []
    o.Deps cnosdb init0.store ∧
      (match (runItems env0 ⟨[], cnosdb, init0.store, []⟩ (o.items env0)).store (.role cnosdb "x".toList) with
        | some (.role i _) => i
        | _ => none) = some Sys.owner ∧
      ((runItems env0 ⟨[], cnosdb, init0.store, []⟩ (o.items env0)).store o.key).isSome = false :=
  ⟨⟨rfl, by decide, fun p hp => by cases hp⟩, by decide +kernel, by decide +kernel⟩

theorem C161_refuted : ¬StatementsMakeObjects := by
  intro h
  have h1 := C161_name_refuted
  have := h env0 (Obj.role cnosdb "x\" inherit \"owner".toList none []) cnosdb init0.store h1.1 rfl
  have h2 := h1.2.2
  rw [this] at h2
  exact absurd h2 (by simp [put])

/-- The limiter of a tenant is printed as an option that no statement has. -/
theorem C161_limiter_refuted :
    (restored env0 init0 (base [] [] [] [⟨"t".toList, ⟨none, none, some "{}".toList⟩, [], [], []⟩] [])).failed =
      ["create tenant if not exists \"t\" with _limiter='{}';".toList] := by decide +kernel

/-- The type of a geometry is printed without its kind. -/
theorem C161_geometry_refuted :
    (restored env0 init0 (base [("d".toList, db0, [("g".toList,
      [⟨"time".toList, .time .ns, .default⟩, ⟨"p".toList, .field (.geometry "POINT".toList), .default⟩])])] [] [] [] [])).failed =
      ["create table \"d\".\"g\" (\"p\" GEOMETRY, tags ());".toList] := by decide +kernel

/-- `ALTER TABLE … ALTER … SET CODEC` (planner.rs:1166-1192) does not check that the encoding fits the type: the table cannot be made
again. -/
theorem C161_codec_refuted :
    (restored env0 init0 (base [("d".toList, db0, [("g".toList,
      [⟨"time".toList, .time .ns, .default⟩, ⟨"p".toList, .field .float, .delta⟩])])] [] [] [] [])).failed =
      ["create table \"d\".\"g\" (\"p\" DOUBLE CODEC(DELTA), tags ());".toList] := by decide +kernel

/-! ## C162: durations -/

/-- **C162**: every duration is read as it was printed. -/
theorem C162_durations (d : Dur) (h : d.Fits) : Dur.parse d.text = some d := Dur.parse_text d h

/-- Durations that differ are printed differently. -/
theorem C162_injective {a b : Dur} (ha : a.Fits) (hb : b.Fits) (h : a.text = b.text) : a = b := by
  have h1 := Dur.parse_text a ha
  rw [h, Dur.parse_text b hb] at h1
  exact (Option.some.inj h1).symm

example : (Dur.of 31557601 5).Fits := by simp [Dur.Fits]
example : (Dur.of 90061 5000001).text = "1day 1h 1m 1s 5ms 1ns".toList := by decide +kernel

/-! ## C163: whole dumps -/

/-- Full statement: a dump given to a new cluster makes a cluster with the same objects, and no statement fails. -/
def DumpsRestore : Prop :=
  ∀ (env : Env) (i : Init) (s : Source), s.sound = true → (restored env i s).store = s.store ∧ (restored env i s).failed = []

/-- **C163** (partial): so it is for clusters whose objects can be printed (`Source.Fine`). -/
theorem C163_restore_partial {env : Env} {i : Init} {s : Source} (h : s.Fine env i) :
    (restored env i s).store = s.store ∧ (restored env i s).failed = [] := by
  obtain ⟨x, hx⟩ := restore_dump h
  rw [restored, hx]
  exact ⟨rfl, rfl⟩

/-- Clusters with the same dump have the same objects. -/
theorem C163_injective {env : Env} {i : Init} {s s' : Source} (h : s.Fine env i) (h' : s'.Fine env i)
    (he : dumpText (dump env none s) = dumpText (dump env none s')) : s.store = s'.store := by
  rw [← (C163_restore_partial h).1, ← (C163_restore_partial h').1, restored, restored, he]

def cols0 : List Col := planCols .ns [("f".toList, .float, .gorilla), ("g'".toList, .str, .default)] ["a".toList, "b".toList]

/-- A cluster with two tenants. -/
def source0 : Source :=
  base [("d".toList, db0, [("m".toList, cols0)])] [] [("u".toList, "member".toList)]
    [⟨"t".toList, ⟨some "it's".toList, some (.of 60 0), none⟩, [("d".toList, db0, [("m".toList, cols0)])],
      [("r".toList, some .member, [("d".toList, .read)])], [("u".toList, "r".toList)]⟩]
    [("u".toList, { noOpts with comment := some "a;b".toList, admin := some false })]

theorem size0 (n : Nat) (h : n < 2 ^ 64) (h2 : '\'' ∉ Verif.Raft.dec n ∧ '\n' ∉ Verif.Raft.dec n) : SizeOk env0 n :=
  ⟨parseU64_dec h, h2.1, h2.2⟩

theorem db0_fine : db0.Fits ∧ SizeOk env0 db0.maxMem ∧ SizeOk env0 db0.walMax ∧ db0.replica ≤ env0.nodes :=
  ⟨⟨by decide, by decide, by decide, by decide, by decide, by decide, trivial, by simp [Dur.Fits, db0]⟩,
    size0 512 (by decide) (by decide +kernel), size0 1024 (by decide) (by decide +kernel), by decide⟩

theorem cols0_ok : TableOk cols0 .ns [("f".toList, .float, .gorilla), ("g'".toList, .str, .default)] ["a".toList, "b".toList] ∧
    ColsFine [("f".toList, .float, .gorilla), ("g'".toList, .str, .default)] ["a".toList, "b".toList] := by
  refine ⟨⟨rfl, by simp, ?_⟩, ?_, ?_⟩
  · simp only [List.forall_mem_cons, List.not_mem_nil, false_implies, implies_true, and_true]
    exact ⟨⟨by decide, by simp⟩, ⟨by decide, by simp⟩⟩
  · decide
  · decide

theorem tenant_fine {env : Env} {us : List (Text × UserOpts)} {t : Tenant} (hx : (nameOk t.name && !t.name.contains '"' && !t.name.contains '\n') = true)
    (ht : Trimmed t.name) (ho : t.name ≠ cnosdb → t.opts.Fine)
    (hd : ∀ d ∈ t.dbs, NameFine d.1 ∧ d.2.1.Fits ∧ SizeOk env d.2.1.maxMem ∧ SizeOk env d.2.1.walMax ∧ d.2.1.replica ≤ env.nodes)
    (hn : (t.dbs.map (·.1)).Nodup ∧ (t.roles.map (·.1)).Nodup ∧ (t.members.map (·.1)).Nodup)
    (h1 : ∀ d ∈ t.dbs, (d.2.2.map (·.1)).Nodup) (h2 : ∀ d ∈ t.dbs, ∀ x ∈ d.2.2, TableFine d.2.1.prec d.1 x)
    (h3 : ∀ r ∈ t.roles, NameFine r.1 ∧ Sys.parse r.1 = none ∧ (r.2.2.map (·.1)).Nodup)
    (h4 : ∀ r ∈ t.roles, ∀ p ∈ r.2.2, p.1 ∈ t.dbs.map (·.1))
    (h5 : ∀ m ∈ t.members, NameFine m.1 ∧ NameFine m.2 ∧ m.1 ∈ us.map (·.1) ∧ (m.2 ∈ t.roles.map (·.1) ∨ (Sys.parse m.2).isSome = true))
    (h6 : ∀ m ∈ t.members, ¬(same m.1 rootName = true ∧ same t.name cnosdb = true)) : TenantFine env us t :=
  ⟨nameFine hx, ht, ho, hn.1, hd, h1, h2, hn.2.1, h3, h4, hn.2.2, h5, h6⟩

theorem source0_fine : source0.Fine env0 init0 := by
  have hdb : ∀ n, NameFine n → NameFine n ∧ db0.Fits ∧ SizeOk env0 db0.maxMem ∧ SizeOk env0 db0.walMax ∧ db0.replica ≤ env0.nodes :=
    fun n hn => ⟨hn, db0_fine⟩
  have htab : TableFine .ns "d".toList ("m".toList, cols0) :=
    ⟨by decide, by decide, by decide, by decide, _, _, cols0_ok.1, cols0_ok.2⟩
  have hpub : NameFine publicDb := nameFine (by decide)
  have hd : NameFine "d".toList := nameFine (by decide)
  refine ⟨by decide, by decide, ?_, ?_, List.mem_cons_self, ?_, by decide, by decide, by decide, by decide⟩
  · intro u hu
    rcases List.mem_cons.1 hu with rfl | hu
    · exact ⟨nameFine (by decide), fun h => absurd rfl h⟩
    · rw [List.mem_singleton.1 hu]
      refine ⟨nameFine (by decide), fun _ => ⟨?_, ?_, ?_⟩⟩
      · intro c hc; cases hc
      · intro c hc
        rw [← Option.some.inj hc]; decide
      · intro c hc; cases hc
  · intro t ht
    rcases List.mem_cons.1 ht with rfl | ht
    · refine tenant_fine (by decide) ⟨⟨'c', _, rfl, by decide⟩, ⟨"cnosd".toList, 'b', by decide, by decide⟩⟩ (fun h => absurd rfl h) ?_ (by decide) ?_ ?_ ?_ ?_ ?_ ?_
      · simp only [List.forall_mem_cons, List.not_mem_nil, false_implies, implies_true, and_true]
        exact ⟨hdb _ hpub, hdb _ hd⟩
      · decide
      · simp only [List.forall_mem_cons, List.not_mem_nil, false_implies, implies_true, and_true]
        exact ⟨trivial, htab⟩
      · intro r hr; cases hr
      · intro r hr; cases hr
      · simp only [List.forall_mem_cons, List.not_mem_nil, false_implies, implies_true, and_true]
        exact ⟨nameFine (by decide), nameFine (by decide), by decide, .inr (by decide)⟩
      · decide
    · rw [List.mem_singleton.1 ht]
      refine tenant_fine (by decide) ⟨⟨'t', _, rfl, by decide⟩, ⟨[], 't', by decide, by decide⟩⟩ (fun _ => ⟨?_, ?_, rfl⟩) ?_ (by decide) ?_ ?_ ?_ ?_ ?_ ?_
      · intro c hc
        rw [← Option.some.inj hc]; decide
      · intro d hd
        rw [← Option.some.inj hd]; simp [Dur.Fits]
      · simp only [List.forall_mem_cons, List.not_mem_nil, false_implies, implies_true, and_true]
        exact hdb _ hd
      · decide
      · simp only [List.forall_mem_cons, List.not_mem_nil, false_implies, implies_true, and_true]
        exact htab
      · simp only [List.forall_mem_cons, List.not_mem_nil, false_implies, implies_true, and_true]
        exact ⟨nameFine (by decide), by decide, by decide⟩
      · decide
      · simp only [List.forall_mem_cons, List.not_mem_nil, false_implies, implies_true, and_true]
        exact ⟨nameFine (by decide), nameFine (by decide), by decide, .inl (by decide)⟩
      · decide
  · refine ⟨_, List.mem_cons_self, rfl, rfl, ?_⟩
    intro n d hl
    have := mem_lookup hl
    cases List.mem_singleton.1 this
    exact ⟨[], List.mem_cons_self⟩

example : (restored env0 init0 source0).store = source0.store ∧ (restored env0 init0 source0).failed = [] :=
  C163_restore_partial source0_fine

/-- **C163** is refuted: dropping a database leaves the grants on it in roles (storage.rs:1004-1019), and they are printed; the statement
fails. -/
theorem C163_grant_refuted :
    let s := base [] [("r".toList, none, [("gone".toList, .read)])] [] [] []
    s.sound = true ∧ (restored env0 init0 s).failed = ["grant Read on database \"gone\" to \"r\";".toList] :=
  ⟨by decide +kernel, by decide +kernel⟩

/-- Dropping a role leaves its members (storage.rs:1544-1560): the statement that adds them fails and they are lost. -/
theorem C163_member_refuted :
    let s := base [] [] [("u".toList, "gone".toList)] [] [("u".toList, noOpts)]
    s.sound = true ∧ (restored env0 init0 s).failed = ["alter tenant \"cnosdb\" add user \"u\" as \"gone\";".toList] ∧
      (s.store (.member cnosdb "u".toList)).isSome = true ∧ ((restored env0 init0 s).store (.member cnosdb "u".toList)).isSome = false :=
  ⟨by decide +kernel, by decide +kernel, by decide +kernel, by decide +kernel⟩

/-- A tenant of the name `CnosDB` is taken for the tenant of the system: it is not printed and nothing in it can be restored. -/
theorem C163_tenant_case_refuted :
    let s := base [] [] [] [⟨"CnosDB".toList, ⟨none, none, none⟩, [("d".toList, db0, [])], [], []⟩] []
    s.sound = true ∧ ((restored env0 init0 s).store (.tenant "CnosDB".toList)).isSome = false ∧
      ((restored env0 init0 s).store (.db "CnosDB".toList "d".toList)).isSome = false :=
  ⟨by decide +kernel, by decide +kernel, by decide +kernel⟩

/-- A user of the name `Root` is not printed. -/
theorem C163_user_case_refuted :
    let s := base [] [] [] [] [("Root".toList, noOpts)]
    s.sound = true ∧ ((restored env0 init0 s).store (.user "Root".toList)).isSome = false ∧ (restored env0 init0 s).failed = [] :=
  ⟨by decide +kernel, by decide +kernel, by decide +kernel⟩

/-- A database `PUBLIC` of the tenant of the system is not printed; its tables are, and fail. -/
theorem C163_db_case_refuted :
    let s := base [("PUBLIC".toList, db0, [("m".toList, cols0)])] [] [] [] []
    s.sound = true ∧ ((restored env0 init0 s).store (.db cnosdb "PUBLIC".toList)).isSome = false ∧
      (restored env0 init0 s).failed.length = 1 :=
  ⟨by decide +kernel, by decide +kernel, by decide +kernel⟩

/-- The options of a user in a store. -/
def userOf (m : Meta) (n : Text) : Option UserOpts := match m (.user n) with | some (.user o) => some o | _ => none

/-- The options of a database in a store. -/
def dbOf (m : Meta) (t n : Text) : Option Db := match m (.db t n) with | some (.db d) => some d | _ => none

/-- The columns of a table in a store. -/
def tableOf (m : Meta) (t d n : Text) : Option (List Col) := match m (.table t d n) with | some (.table c) => some c | _ => none

/-- The options of the database `public` of the tenant of the system are not printed: a changed TTL is lost and no statement fails. -/
theorem C163_public_refuted :
    let s : Source := ⟨[⟨cnosdb, init0.tenant, [(publicDb, { db0 with ttl := .of 86400 0 }, [])], [], []⟩], [(rootName, init0.root)]⟩
    s.sound = true ∧ (restored env0 init0 s).failed = [] ∧
      dbOf s.store cnosdb publicDb = some { db0 with ttl := .of 86400 0 } ∧ dbOf (restored env0 init0 s).store cnosdb publicDb = some db0 :=
  ⟨by decide +kernel, by decide +kernel, by decide +kernel, by decide +kernel⟩

/-- The password of the administrator is not printed: the new cluster keeps its first one. -/
theorem C163_root_refuted :
    let s : Source := ⟨[⟨cnosdb, init0.tenant, [(publicDb, db0, [])], [], []⟩], [(rootName, { init0.root with hash := some "new".toList })]⟩
    s.sound = true ∧ (restored env0 init0 s).failed = [] ∧
      userOf s.store rootName ≠ userOf (restored env0 init0 s).store rootName :=
  ⟨by decide +kernel, by decide +kernel, by decide +kernel⟩

/-- A tag added later (`ALTER TABLE … ADD TAG`) comes after the fields; in the restored table it comes before them. -/
theorem C163_order_refuted :
    let c : List Col := [⟨"time".toList, .time .ns, .default⟩, ⟨"a".toList, .tag, .default⟩, ⟨"f".toList, .field .float, .default⟩,
      ⟨"b".toList, .tag, .default⟩]
    let s := base [("d".toList, db0, [("m".toList, c)])] [] [] [] []
    s.sound = true ∧ (restored env0 init0 s).failed = [] ∧ tableOf s.store cnosdb "d".toList "m".toList = some c ∧
      (tableOf (restored env0 init0 s).store cnosdb "d".toList "m".toList).map (·.map Col.name) =
        some ["time".toList, "a".toList, "b".toList, "f".toList] :=
  ⟨by decide +kernel, by decide +kernel, by decide +kernel, by decide +kernel⟩

theorem C163_refuted : ¬DumpsRestore := by
  intro h
  have h1 := C163_grant_refuted
  have := (h env0 init0 _ h1.1).2
  rw [h1.2] at this
  cases this

/-! ## C164: lines of a file -/

/-- A line of a statement: not a comment, not a command of the client. -/
structure PlainLine (l : Text) : Prop where
  dashes : "--".toList.isPrefixOf l = false
  change : changeTenant.isPrefixOf (trim l) = false
  connect : "\\c".toList.isPrefixOf l = false
  nl : '\n' ∉ l

/-- A statement on some lines: only the last ends with `;`. -/
structure Statement (ls : List Text) (last : Text) : Prop where
  plain : ∀ l ∈ ls, PlainLine l
  open_ : ∀ l ∈ ls, (trimEnd l).getLast? ≠ some ';'
  plainLast : PlainLine last
  closed : (trimEnd last).getLast? = some ';'

/-- The text that is sent for a statement: its lines without spaces at their ends, with line feeds between. -/
def Statement.text (ls : List Text) (last : Text) : Text := (ls.flatMap fun l => trimEnd l ++ ['\n']) ++ trimEnd last

theorem line_open {env : Env} {l : Text} (h : PlainLine l) (ho : (trimEnd l).getLast? ≠ some ';') (c : Client) :
    c.line env l = { c with query := c.query ++ trimEnd l ++ ['\n'] } := by
  simp only [Client.line, h.dashes, h.change, h.connect, Bool.false_eq_true, if_false, if_neg ho]

theorem line_closed {env : Env} {l : Text} (h : PlainLine l) (ho : (trimEnd l).getLast? = some ';') (c : Client) :
    c.line env l = c.send env (c.query ++ trimEnd l) := by
  simp only [Client.line, h.dashes, h.change, h.connect, Bool.false_eq_true, if_false, if_pos ho]

theorem lines_open {env : Env} : ∀ {ls : List Text}, (∀ l ∈ ls, PlainLine l) → (∀ l ∈ ls, (trimEnd l).getLast? ≠ some ';') → ∀ c : Client,
    ls.foldl (Client.line env) c = { c with query := c.query ++ ls.flatMap fun l => trimEnd l ++ ['\n'] }
  | [], _, _, c => by simp
  | l :: ls, h, ho, c => by
    rw [List.foldl_cons, line_open (h l List.mem_cons_self) (ho l List.mem_cons_self),
      lines_open (fun x hx => h x (List.mem_cons_of_mem _ hx)) (fun x hx => ho x (List.mem_cons_of_mem _ hx))]
    simp

theorem statement_sent {env : Env} {ls : List Text} {last : Text} (h : Statement ls last) (c : Client) (hq : c.query = []) :
    (ls ++ [last]).foldl (Client.line env) c = c.send env (Statement.text ls last) := by
  rw [List.foldl_append, lines_open h.plain h.open_, List.foldl_cons, List.foldl_nil, line_closed h.plainLast h.closed, hq]
  simp only [Client.send, Statement.text, List.nil_append]

theorem send_query (env : Env) (c : Client) (x : Text) : (c.send env x).query = [] := by
  rw [Client.send]
  split <;> rfl

theorem statements_sent {env : Env} : ∀ {ss : List (List Text × Text)}, (∀ s ∈ ss, Statement s.1 s.2) → ∀ c : Client, c.query = [] →
    (ss.flatMap fun s => s.1 ++ [s.2]).foldl (Client.line env) c = ss.foldl (fun c s => c.send env (Statement.text s.1 s.2)) c
  | [], _, _, _ => rfl
  | s :: ss, h, c, hq => by
    rw [List.flatMap_cons, List.foldl_append, statement_sent (h s List.mem_cons_self) c hq, List.foldl_cons]
    exact statements_sent (fun x hx => h x (List.mem_cons_of_mem _ hx)) _ (send_query env c _)

theorem lines_join : ∀ {ls : List Text}, (∀ l ∈ ls, '\n' ∉ l) → lines (ls.flatMap fun l => l ++ ['\n']) = ls
  | [], _ => rfl
  | l :: ls, h => by
    have ih := lines_join (ls := ls) fun x hx => h x (List.mem_cons_of_mem _ hx)
    rw [lines] at ih ⊢
    rw [List.flatMap_cons, List.append_assoc, List.singleton_append, linesGo_line (h l List.mem_cons_self), ih]
    rfl

/-- **C164** (partial): a file of statements on one or more lines is sent statement by statement, each as its lines without spaces at
their ends; a line that ends with `;` ends a statement and no line begins with `--` or a command of the client. -/
theorem C164_statements_partial {env : Env} {ss : List (List Text × Text)} (h : ∀ s ∈ ss, Statement s.1 s.2) {c : Client} (hq : c.query = []) :
    restore env c ((ss.flatMap fun s => s.1 ++ [s.2]).flatMap fun l => l ++ ['\n']) =
      ss.foldl (fun c s => c.send env (Statement.text s.1 s.2)) c := by
  have hl : ∀ l ∈ ss.flatMap (fun s => s.1 ++ [s.2]), '\n' ∉ l := by
    intro l hl
    obtain ⟨s, hs, hl⟩ := List.mem_flatMap.1 hl
    rcases List.mem_append.1 hl with hl | hl
    · exact ((h s hs).plain l hl).nl
    · rw [List.mem_singleton.1 hl]; exact (h s hs).plainLast.nl
  have hf : ∀ (ss : List (List Text × Text)) (c : Client), c.query = [] →
      (ss.foldl (fun c s => c.send env (Statement.text s.1 s.2)) c).query = [] := by
    intro ss
    induction ss with
    | nil => exact fun _ h => h
    | cons s ss ih => exact fun c _ => ih _ (send_query env c _)
  have he : ∀ x, restore env c x = if ((lines x).foldl (Client.line env) c).query = [] then (lines x).foldl (Client.line env) c
      else ((lines x).foldl (Client.line env) c).send env ((lines x).foldl (Client.line env) c).query := fun _ => rfl
  rw [he, lines_join hl, statements_sent h c hq, if_pos (hf ss c hq)]

example : Statement ["create user".toList] "u;  ".toList :=
  ⟨fun l hl => by
    rw [List.mem_singleton.1 hl]; exact ⟨by decide, by decide, by decide, by decide⟩, by decide,
    ⟨by decide, by decide, by decide, by decide⟩, by decide⟩

/-- **C164** is refuted: a line feed in a comment ends the line.  The rest of the comment is taken for a statement: here it makes an
administrator that the dumped cluster does not have. -/
theorem C164_injection_refuted :
    let s := base [] [] [] [] [("u".toList, { noOpts with comment := some "x;\ncreate user eve with granted_admin=true;\n--".toList })]
    s.sound = true ∧ userOf s.store "eve".toList = none ∧
      userOf (restored env0 init0 s).store "eve".toList = some { noOpts with admin := some true } ∧
      userOf (restored env0 init0 s).store "u".toList = none :=
  ⟨by decide +kernel, by decide +kernel, by decide +kernel, by decide +kernel⟩

/-- A line of a comment that begins with `--` is lost, and no statement fails. -/
theorem C164_dashes_refuted :
    let s := base [] [] [] [] [("u".toList, { noOpts with comment := some "a\n-- b\nc".toList })]
    s.sound = true ∧ (restored env0 init0 s).failed = [] ∧ (userOf s.store "u".toList).bind (·.comment) = some "a\n-- b\nc".toList ∧
      (userOf (restored env0 init0 s).store "u".toList).bind (·.comment) = some "a\nc".toList :=
  ⟨by decide +kernel, by decide +kernel, by decide +kernel, by decide +kernel⟩

/-- Spaces at the end of a line of a comment are lost. -/
theorem C164_spaces_refuted :
    let s := base [] [] [] [] [("u".toList, { noOpts with comment := some "a \nb".toList })]
    s.sound = true ∧ (restored env0 init0 s).failed = [] ∧
      (userOf (restored env0 init0 s).store "u".toList).bind (·.comment) = some "a\nb".toList :=
  ⟨by decide +kernel, by decide +kernel, by decide +kernel⟩

end Verif.Dump
