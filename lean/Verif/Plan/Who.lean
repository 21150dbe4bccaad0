import Verif.Plan.Change
/-!
# C124 – C128: administrators, owners, members, tokens
-/
namespace Verif.Plan
open Verif.Auth

/-! ## Which rights a user has -/

/-- The user is owner of the tenant: by the system role, or by a custom role that inherits from it. -/
def OwnerOf (s : Sec) (t : Name) (i : Oid) : Prop :=
  s.members t i = some (.system .owner) ∨
    ∃ n r, s.members t i = some (.custom n) ∧
      (s.roles t (idName i) = some r ∨ s.roles t (idName i) = none ∧ s.roles t n = some r) ∧ r.sys = some .owner

/-- A session of a user who is not an administrator: where its rights come from. -/
theorem session_rights {s : Sec} {u t d : Name} {x : Session} (h : session s u t d = some x) :
    ∃ U T, s.users u = some U ∧ s.tenants t = some T ∧ x.user = U ∧ x.tenant = t ∧ x.tenantId = T.id ∧ x.db = d ∧
      T.hidden = false ∧ rightsOf s t T.id U = some x.rights := by
  unfold session at h
  cases hu : s.users u with
  | none => simp [hu] at h
  | some U =>
    cases ht : s.tenants t with
    | none => simp [hu, ht] at h
    | some T =>
      cases hr : rightsOf s t T.id U with
      | none => simp [hu, ht, hr] at h
      | some rs =>
        simp only [hu, ht, hr] at h
        split at h
        · cases h
        · rename_i hh
          cases h
          exact ⟨U, T, rfl, rfl, rfl, rfl, rfl, rfl, by simpa using hh, hr⟩

/-- A right of a role, held in a tenant. -/
inductive Held (owner : Prop) (t : Oid) : Right → Prop
  | database (p : DbPriv) (d : Option Name) : Held owner t (.tenantObject (.database p d) (some t))
  | tenant (h : owner) : Held owner t (.global (.tenant (some t)))
  | object (h : owner) (p : TenPriv Name) : Held owner t (.tenantObject p (some t))

theorem sys_held {t : Oid} {r : SysRole} {q : Right} {o : Prop} (ho : r = .owner → o)
    (h : q ∈ (r.privs t : List Right)) : Held o t q := by
  cases r with
  | owner =>
    simp only [SysRole.privs, List.mem_cons, List.not_mem_nil, or_false] at h
    rcases h with rfl | rfl | rfl | rfl | rfl
    · exact .tenant (ho rfl)
    · exact .object (ho rfl) _
    · exact .object (ho rfl) _
    · exact .object (ho rfl) _
    · exact .object (ho rfl) _
  | member =>
    simp only [SysRole.privs, List.mem_cons, List.not_mem_nil, or_false] at h
    subst h
    exact .database _ _

theorem role_held {t : Oid} {r : Role Name} {q : Right} {o : Prop} (ho : r.sys = some .owner → o)
    (h : q ∈ (r.privs t : List Right)) : Held o t q := by
  unfold Role.privs at h
  rcases List.mem_append.1 h with h | h
  · cases hs : r.sys with
    | none => simp [hs] at h
    | some y =>
      simp only [hs] at h
      exact sys_held (fun hy => ho (by rw [hs, hy])) h
  · obtain ⟨e, -, rfl⟩ := List.mem_map.1 h
    exact .database _ _

theorem member_held {s : Sec} {t : Name} {tid i : Oid} {rs : List Right} (h : memberRights s t tid i = some rs)
    {q : Right} (hq : q ∈ rs) : Held (OwnerOf s t i) tid q := by
  unfold memberRights at h
  cases hm : s.members t i with
  | none => simp [hm] at h
  | some r =>
    cases r with
    | system y =>
      simp only [hm] at h
      cases h
      exact sys_held (fun hy => Or.inl (by rw [hm, hy])) hq
    | custom n =>
      simp only [hm] at h
      cases h1 : s.roles t (idName i) with
      | some r =>
        simp only [h1] at h
        cases h
        exact role_held (fun hy => Or.inr ⟨n, r, hm, Or.inl h1, hy⟩) hq
      | none =>
        simp only [h1] at h
        cases h
        cases h2 : s.roles t n with
        | none => simp [h2] at hq
        | some r =>
          simp only [h2] at hq
          exact role_held (fun hy => Or.inr ⟨n, r, hm, Or.inr ⟨h1, h2⟩, hy⟩) hq

/-- What a user who is not an administrator can be found to have. -/
theorem holds_cases {s : Sec} {u t d : Name} {x : Session} (h : session s u t d = some x) (ha : x.user.isAdmin = false)
    {q : Right} (hq : x.holds q = true) :
    q = .global (.user (some x.user.id)) ∨
      (∃ p, q = .tenantObject p (some x.tenantId) ∧ ((∃ y e, p = .database y e) ∨ OwnerOf s t x.user.id)) ∨
      q = .global (.tenant (some x.tenantId)) ∧ OwnerOf s t x.user.id := by
  obtain ⟨U, T, hu, ht, rfl, h2, h3, -, -, hr⟩ := session_rights h
  simp only [rightsOf, ha, Bool.false_eq_true, if_false, Option.map_eq_some_iff] at hr
  obtain ⟨ps, hps, hrs⟩ := hr
  unfold Session.holds userCheck at hq
  rw [← hrs, List.any_eq_true] at hq
  obtain ⟨r, hmem, hc⟩ := hq
  rcases List.mem_cons.1 hmem with rfl | hmem
  · left
    cases q with
    | tenantObject p y => simp [Priv.check] at hc
    | global g =>
      rcases g with _ | (_ | g) | (_ | g) <;> simp [Priv.check, GlobPriv.check] at hc
      rw [hc]
  · right
    have hh := member_held hps hmem
    rw [h3]
    cases hh with
    | database p dd =>
      left
      cases q with
      | global g => simp [Priv.check] at hc
      | tenantObject p' y =>
        cases y with
        | none => simp [Priv.check] at hc
        | some y =>
          simp only [Priv.check, Bool.and_eq_true, decide_eq_true_eq] at hc
          obtain ⟨hy, hc⟩ := hc
          subst hy
          obtain ⟨o, e, rfl, -, -⟩ := TenPriv.check_db hc
          exact ⟨_, rfl, Or.inl ⟨o, e, rfl⟩⟩
    | tenant ho =>
      right
      cases q with
      | tenantObject p y => simp [Priv.check] at hc
      | global g =>
        rcases g with _ | (_ | g) | (_ | g) <;> simp [Priv.check, GlobPriv.check] at hc
        rw [hc]
        exact ⟨rfl, ho⟩
    | object ho p =>
      left
      cases q with
      | global g => simp [Priv.check] at hc
      | tenantObject p' y =>
        cases y with
        | none => simp [Priv.check] at hc
        | some y =>
          simp only [Priv.check, Bool.and_eq_true, decide_eq_true_eq] at hc
          obtain ⟨hy, -⟩ := hc
          subst hy
          exact ⟨_, rfl, Or.inr ho⟩

/-! ## Requests -/

theorem step_some {e : Env} {a : Bool} {s s' : Sec} {r : Req} {es : List Effect} (h : step e a s r = some (es, s')) :
    ∃ x p, session s r.user r.tenant r.db = some x ∧ accept e s a x r.stmt = some p ∧
      exec e s a x r.stmt = some s' ∧ es = p.effects := by
  unfold step at h
  cases hx : session s r.user r.tenant r.db with
  | none => simp [hx] at h
  | some x =>
    cases hp : accept e s a x r.stmt with
    | none => simp [hx, hp] at h
    | some p =>
      simp only [hx, hp, Option.map_eq_some_iff] at h
      obtain ⟨s'', h1, h2⟩ := h
      cases h2
      exact ⟨x, p, rfl, hp, h1, rfl⟩

/-- C124: a request of a user with credentials. -/
theorem C124_requests_partial {e : Env} {a : Bool} {s s' : Sec} {r : Req} {es : List Effect}
    (h : step e a s r = some (es, s')) :
    ∃ x, session s r.user r.tenant r.db = some x ∧
      (Careful x r.stmt → ∀ f ∈ es, f.inside = true → May e s x f) := by
  obtain ⟨x, p, hx, hp, -, rfl⟩ := step_some h
  exact ⟨x, hx, fun hc => C124_statements_partial (session_of hx) hp hc⟩

/-- C124: a request with a token: the rights that count are those at login, but only in the tenant they were given in. -/
theorem C124_tokens_partial {e : Env} {a : Bool} {s s' : Sec} {ts ts' : Nat → Option Token} {now k : Nat} {t d : Name}
    {st : Stmt} {es : List Effect} (h : tokenStep e a s ts now k t d st = some (es, s', ts')) :
    ∃ x y, tokenSession s ts now k t d = some (x, y) ∧
      (Careful x st → ∀ f ∈ es, f.inside = true → May e s x f) := by
  unfold tokenStep at h
  cases hx : tokenSession s ts now k t d with
  | none => simp [hx] at h
  | some xt =>
    obtain ⟨x, y⟩ := xt
    cases hp : accept e s a x st with
    | none => simp [hx, hp] at h
    | some p =>
      simp only [hx, hp, Option.map_eq_some_iff] at h
      obtain ⟨s'', h1, h2⟩ := h
      cases h2
      exact ⟨x, _, rfl, fun hc => C124_statements_partial (tokenSession_of hx) hp hc⟩

/-- C124: points are written, and Prometheus queries read, only with the right to the database; for these requests
there is nothing to exclude. -/
theorem C124_http_partial {e : Env} {s : Sec} {a : Bool} {user : Option Name} {q : HttpReq} {es : List Effect}
    (h : http e s a user q = some es) (hq : (∃ t d, q = .write t d) ∨ ∃ t d ts, q = .promRead t d ts) :
    ∃ u x t d, user = some u ∧ session s u t d = some x ∧ ∀ f ∈ es, May e s x f := by
  rcases hq with ⟨t, d, rfl⟩ | ⟨t, d, ts, rfl⟩
  · simp only [http] at h
    cases user with
    | none => simp at h
    | some u =>
      simp only [Option.bind_some] at h
      cases hx : session s u t d with
      | none => simp [hx] at h
      | some x =>
        simp only [hx] at h
        split at h
        · cases h
        · split at h
          · cases h
            refine ⟨u, x, t, d, rfl, hx, ?_⟩
            intro f hf
            simp only [List.mem_cons, List.not_mem_nil, or_false] at hf
            subst hf
            have ht : x.tenant = t := by
              obtain ⟨_, _, _, _, _, h', _⟩ := session_rights hx
              exact h'
            rw [← ht]
            exact In.mk (session_of hx) (by assumption)
          · cases h
  · simp only [http] at h
    cases user with
    | none => simp at h
    | some u =>
      simp only [Option.bind_some] at h
      cases hx : session s u t d with
      | none => simp [hx] at h
      | some x =>
        simp only [hx] at h
        split at h
        · cases h
        · rename_i hm
          simp only [Option.map_eq_some_iff] at h
          obtain ⟨p, hp, rfl⟩ := h
          refine ⟨u, x, t, d, rfl, hx, ?_⟩
          intro f hf
          refine C124_statements_partial (session_of hx) hp trivial f hf ?_
          obtain ⟨hp', -⟩ := accept_some hp
          simp only [plan, hm] at hp'
          simp only [planInner, Bool.false_eq_true, if_false, Option.map_eq_some_iff] at hp'
          obtain ⟨ds, -, rfl⟩ := hp'
          obtain ⟨d', -, rfl⟩ := List.mem_map.1 hf
          rfl

/-! ## Members only read -/

/-- What a member (system role) can do. -/
def MemberMay (x : Session) : Effect → Prop
  | .read t _ => t = x.tenant
  | .list t => t = x.tenant
  | .user i admin => i = x.user.id ∧ admin = false
  | .kill _ => True
  | .writeFile => True
  | _ => False

/-- The session has the rights of the system role `member`. -/
def ReadOnly (x : Session) : Prop := x.rights = userPrivs x.user.id (SysRole.privs x.tenantId .member)

theorem holds_member {x : Session} (hx : ReadOnly x) {q : Right} (hq : x.holds q = true) :
    q = .global (.user (some x.user.id)) ∨ ∃ d, q = dbRight x .read d := by
  unfold Session.holds userCheck at hq
  rw [hx, List.any_eq_true] at hq
  obtain ⟨r, hmem, hc⟩ := hq
  rcases List.mem_cons.1 hmem with rfl | hmem
  · left
    cases q with
    | tenantObject p y => simp [Priv.check] at hc
    | global g =>
      rcases g with _ | (_ | g) | (_ | g) <;> simp [Priv.check, GlobPriv.check] at hc
      rw [hc]
  · right
    simp only [SysRole.privs, List.mem_cons, List.not_mem_nil, or_false] at hmem
    subst hmem
    cases q with
    | global g => simp [Priv.check] at hc
    | tenantObject p' y =>
      cases y with
      | none => simp [Priv.check] at hc
      | some y =>
        simp only [Priv.check, Bool.and_eq_true, decide_eq_true_eq] at hc
        obtain ⟨hy, hc⟩ := hc
        subst hy
        obtain ⟨o, e, rfl, ho, -⟩ := TenPriv.check_db hc
        cases o <;> simp [DbPriv.check] at ho
        exact ⟨e, rfl⟩

theorem member_no_db {x : Session} (hx : ReadOnly x) {p : DbPriv} (hp : p ≠ .read) {d : Option Name} :
    ¬ x.holds (dbRight x p d) = true := by
  intro h
  rcases holds_member hx h with h | ⟨d', h⟩
  · cases h
  · simp only [dbRight] at h
    cases h
    exact hp rfl

theorem member_no_object {x : Session} (hx : ReadOnly x) {p : TenPriv Name} (hp : ∀ y d, p ≠ .database y d)
    {t : Option Oid} : ¬ x.holds (.tenantObject p t) = true := by
  intro h
  rcases holds_member hx h with h | ⟨d', h⟩
  · cases h
  · simp only [dbRight] at h
    cases h
    exact hp _ _ rfl

theorem member_no_global {x : Session} (hx : ReadOnly x) {g : GlobPriv Oid} (hg : g ≠ .user (some x.user.id)) :
    ¬ x.holds (.global g) = true := by
  intro h
  rcases holds_member hx h with h | ⟨d', h⟩
  · cases h; exact hg rfl
  · cases h

theorem planUser_member {e : Env} {s : Sec} {x : Session} {m : Bool} {n : Name} {op : UserOp} {p : Planned}
    (hx : ReadOnly x) (h : planUser e s x m n op = some p) (hr : p.rights.all x.holds = true) :
    ∀ f ∈ p.effects, MemberMay x f := by
  have key : ∀ (b : Bool) (i : Oid), x.holds (if b then .global .system else .global (.user (some i))) = true →
      MemberMay x (.user i b) := by
    intro b i hb
    cases b with
    | true => exact absurd hb (member_no_global hx (by intro h; cases h))
    | false =>
      rcases holds_member hx hb with h | ⟨d', h⟩
      · simp only [Bool.false_eq_true, if_false, Priv.global.injEq, GlobPriv.user.injEq, Option.some.injEq] at h
        exact ⟨h, rfl⟩
      · cases h
  unfold planUser at h
  cases hu : s.users n with
  | none => simp [hu] at h
  | some u =>
    simp only [hu] at h
    intro f hf
    cases op with
    | renameTo m =>
      simp only at h
      cases h
      simp only [List.mem_cons, List.not_mem_nil, or_false] at hf
      simp only [List.all_cons, List.all_nil, Bool.and_true] at hr
      subst hf
      exact key false _ hr
    | set o =>
      simp only at h
      split at h
      · cases h
      · split at h
        · cases h
        · split at h
          · cases h
          · split at h
            · cases h
            · cases h
              simp only [List.mem_cons, List.not_mem_nil, or_false] at hf
              simp only [List.all_cons, List.all_nil, Bool.and_true] at hr
              subst hf
              exact key _ _ hr

theorem planInner_member {e : Env} {s : Sec} {x : Session} (hx : ReadOnly x) : ∀ {st : Stmt} {p : Planned},
    planInner e s x st = some p → p.rights.all x.holds = true → ∀ f ∈ p.effects, MemberMay x f := by
  intro st
  have reads : ∀ (ds : List Name) f, f ∈ ds.map (Effect.read x.tenant) → MemberMay x f := by
    intro ds f hf
    obtain ⟨d, -, rfl⟩ := List.mem_map.1 hf
    rfl
  induction st with
  | explain st ih =>
    intro p h hr f hf
    simp only [planInner] at h
    cases hp : planInner e s x st with
    | none => simp [hp] at h
    | some q =>
      simp only [hp] at h
      split at h
      · cases h; exact ih hp hr f hf
      · cases h
  | query ts =>
    intro p h hr f hf
    simp only [planInner, Option.map_eq_some_iff] at h
    obtain ⟨ds, -, rfl⟩ := h
    exact reads _ _ hf
  | insert tg ts =>
    intro p h hr f hf
    simp only [planInner] at h
    split at h
    · cases h
      simp only [List.all_append, Bool.and_eq_true] at hr
      exact absurd (all_db hr.1 List.mem_cons_self) (member_no_db hx (by decide))
    · cases h
  | update t fr subs =>
    intro p h hr f hf
    simp only [planInner] at h
    split at h
    · cases h
      exact absurd (all_db hr List.mem_cons_self) (member_no_db hx (by decide))
    · cases h
  | showSeries t subs =>
    intro p h hr f hf
    simp only [planInner] at h
    split at h
    · cases h; exact reads _ _ hf
    · cases h
  | showTagValues t subs =>
    intro p h hr f hf
    simp only [planInner] at h
    split at h
    · cases h; exact reads _ _ hf
    · cases h
  | copyIntoLocation ts =>
    intro p h hr f hf
    simp only [planInner, Option.map_eq_some_iff] at h
    obtain ⟨ds, -, rfl⟩ := h
    rcases List.mem_cons.1 hf with rfl | hf
    · trivial
    · exact reads _ _ hf
  | alterTenant n op =>
    intro p h hr f hf
    have := planTenant_may (e := e) h hr f hf
    simp only [planInner] at h
    unfold planTenant at h
    cases ht : s.tenants n with
    | none => simp [ht] at h
    | some T =>
      simp only [ht] at h
      cases op <;> simp only [] at h
      all_goals repeat' (split at h)
      all_goals first
        | (cases h; done)
        | (cases h
           simp only [List.all_cons, List.all_nil, Bool.and_true] at hr
           first
           | exact absurd hr (member_no_object hx (by intro y d h; cases h))
           | exact absurd hr (member_no_global hx (by intro h; cases h)))
  | alterUser n op =>
    intro p h hr f hf
    exact planUser_member hx h hr f hf
  | _ =>
    intro p h hr f hf
    simp only [planInner] at h
    repeat' (split at h)
    all_goals first
      | (cases h; done)
      | (cases h
         simp only [List.all_cons, List.all_nil, Bool.and_true] at hr
         simp only [List.mem_cons, List.not_mem_nil, or_false] at hf
         first
         | (subst hf; first | rfl | trivial)
         | exact absurd hr (member_no_db hx (by decide))
         | exact absurd hr (member_no_object hx (by intro y d h; cases h))
         | exact absurd hr (member_no_global hx (by intro h; cases h)))
      | (simp only [Option.map_eq_some_iff] at h
         obtain ⟨d, _, rfl⟩ := h
         simp only [List.all_cons, List.all_nil, Bool.and_true] at hr
         simp only [List.mem_cons, List.not_mem_nil, or_false] at hf
         first
         | (subst hf; rfl)
         | exact absurd hr (member_no_db hx (by decide)))

/-- C124: whoever has only the system role `member` gets, of the database, nothing done but reading in their own
tenant and changing their own options. -/
theorem C124_member {e : Env} {s : Sec} {a : Bool} {x : Session} {st : Stmt} {p : Planned} (hx : ReadOnly x)
    (h : accept e s a x st = some p) : ∀ f ∈ p.effects, MemberMay x f := by
  obtain ⟨hp, hr⟩ := accept_some h
  unfold plan at hp
  split at hp
  · split at hp
    · exact planUser_member hx hp hr
    · cases hp
  · exact planInner_member hx hp hr

/-- C124: and the metadata they change are at most their own options. -/
theorem C124_member_metadata {e : Env} {s s' : Sec} {a : Bool} {x : Session} {st : Stmt} {p : Planned} (hx : ReadOnly x)
    (h : accept e s a x st = some p) (hx' : exec e s a x st = some s') :
    s'.tenants = s.tenants ∧ s'.members = s.members ∧ s'.roles = s.roles ∧ s'.dbs = s.dbs ∧
      ∀ v, s'.users v ≠ s.users v → ∃ u, s.users v = some u ∧ u.id = x.user.id := by
  have hc := accept_exec h hx'
  refine ⟨?_, ?_, ?_, ?_, ?_⟩
  · exact Classical.byContradiction fun hn => member_no_global hx (by intro h; cases h) (hc.tenants hn)
  · funext t i
    exact Classical.byContradiction fun hn => by
      obtain ⟨T, -, hh⟩ := hc.members t i hn
      exact member_no_object hx (by intro y d h; cases h) hh
  · funext t n
    exact Classical.byContradiction fun hn =>
      member_no_object hx (by intro y d h; cases h) (hc.roles t n hn).2
  · funext t d
    exact Classical.byContradiction fun hn => member_no_db hx (by decide) (hc.dbs t d hn).2
  · intro v hv
    rcases hc.users v hv with h | ⟨u, o, hu, -, hh | hh, -⟩
    · exact absurd h.2 (member_no_global hx (by intro h; cases h))
    · exact absurd hh (member_no_global hx (by intro h; cases h))
    · refine ⟨u, hu, ?_⟩
      rcases holds_member hx hh.1 with h | ⟨d', h⟩
      · simpa using h
      · cases h

/-! ## C125: nobody gives themselves rights -/

/-- The rights of a user in a tenant; `none`: they cannot connect. -/
def power (s : Sec) (v t : Name) : Option (List Right) :=
  match s.users v, s.tenants t with
  | some u, some T => rightsOf s t T.id u
  | _, _ => none

/-- Tenants have different ids. -/
def Distinct (s : Sec) : Prop := ∀ t t' T T', s.tenants t = some T → s.tenants t' = some T' → T.id = T'.id → t = t'

/-- Neither administrator nor owner of the tenant. -/
def Weak (s : Sec) (t v : Name) : Prop := ∀ u, s.users v = some u → u.isAdmin = false ∧ ¬ OwnerOf s t u.id

theorem merge_granted {a b : UserOpts} (h : a.grantedAdmin = none) : (a.merge b).grantedAdmin = b.grantedAdmin := by
  simp [UserOpts.merge, h]

theorem userOptsOf_granted {e : Env} {a : Bool} {x : Session} {o : UserOpt} (h : (o.apply e {}).grantedAdmin = none) :
    (userOptsOf e a x o).grantedAdmin = none := by
  unfold userOptsOf
  simp only
  split <;> exact h

/-- What stays the same when a user who is weak in a tenant makes a request. -/
structure Same (s s' : Sec) (t : Name) : Prop where
  tenants : s'.tenants = s.tenants
  members : ∀ i, s'.members t i = s.members t i
  roles : ∀ n, s'.roles t n = s.roles t n
  users : ∀ v, (s'.users v).map (fun u => (u.id, u.isAdmin)) = (s.users v).map (fun u => (u.id, u.isAdmin))

theorem step_same {e : Env} {a : Bool} {s s' : Sec} {r : Req} {es : List Effect} {t : Name} (hd : Distinct s)
    (hw : Weak s t r.user) (h : step e a s r = some (es, s')) : Same s s' t := by
  obtain ⟨x, p, hx, hp, hs, -⟩ := step_some h
  have hc := accept_exec hp hs
  obtain ⟨U, T, hu, ht, hU, hxt, hid, -⟩ := session_rights hx
  subst hU
  obtain ⟨ha, ho⟩ := hw _ hu
  have hg : ∀ g, x.holds (.global g) = true → g = .user (some x.user.id) ∨ g = .tenant (some x.tenantId) := by
    intro g hgg
    rcases holds_cases hx ha hgg with h | ⟨p, h, -⟩ | ⟨h, -⟩
    · cases h; exact Or.inl rfl
    · cases h
    · cases h; exact Or.inr rfl
  have hobj : ∀ (q : TenPriv Name) i, (∀ y d, q ≠ .database y d) → x.holds (.tenantObject q (some i)) = true →
      i = x.tenantId ∧ OwnerOf s r.tenant x.user.id := by
    intro q i hq hh
    rcases holds_cases hx ha hh with h | ⟨p, h, h'⟩ | ⟨h, -⟩
    · cases h
    · cases h
      refine ⟨rfl, ?_⟩
      rcases h' with ⟨y, d, h'⟩ | h'
      · exact absurd h' (hq y d)
      · exact h'
    · cases h
  refine ⟨?_, ?_, ?_, ?_⟩
  · exact Classical.byContradiction fun hn => by
      rcases hg _ (hc.tenants hn) with h | h <;> cases h
  · intro i
    exact Classical.byContradiction fun hn => by
      obtain ⟨T', hT', hh⟩ := hc.members t i hn
      obtain ⟨h1, h2⟩ := hobj _ _ (by intro y d h; cases h) hh
      have : t = r.tenant := hd _ _ _ _ hT' ht (by rw [h1, hid])
      subst this
      exact ho h2
  · intro n
    exact Classical.byContradiction fun hn => by
      obtain ⟨h0, hh⟩ := hc.roles t n hn
      obtain ⟨-, h2⟩ := hobj _ _ (by intro y d h; cases h) hh
      rw [h0, hxt] at ho
      exact ho h2
  · intro v
    by_cases hv : s'.users v = s.users v
    · rw [hv]
    · rcases hc.users v hv with h | ⟨u, o, hu', hu'', hh | hh, -⟩
      · rcases hg _ h.2 with h | h <;> cases h
      · rcases hg _ hh with h | h <;> cases h
      · rw [hu', hu'']
        simp only [Option.map_some, UserDesc.isAdmin, merge_granted (userOptsOf_granted hh.2.1)]

theorem Same.rights {s s' : Sec} {t : Name} (h : Same s s' t) (v : Name) : power s' v t = power s v t := by
  have hm : ∀ tid i, memberRights s' t tid i = memberRights s t tid i := by
    intro tid i
    simp only [memberRights, h.members, h.roles]
  have hu := h.users v
  unfold power
  rw [h.tenants]
  cases h1 : s.users v with
  | none =>
    rw [h1] at hu
    cases h2 : s'.users v with
    | none => rfl
    | some u => rw [h2] at hu; cases hu
  | some u =>
    rw [h1] at hu
    cases h2 : s'.users v with
    | none => rw [h2] at hu; cases hu
    | some u' =>
      rw [h2] at hu
      simp only [Option.map_some, Option.some.injEq, Prod.mk.injEq] at hu
      cases h3 : s.tenants t with
      | none => rfl
      | some T => simp only [rightsOf, hu.1, hu.2, hm]

theorem Same.weak {s s' : Sec} {t : Name} (h : Same s s' t) {v : Name} (hw : Weak s t v) : Weak s' t v := by
  intro u' hu'
  have hu := h.users v
  rw [hu'] at hu
  cases h1 : s.users v with
  | none => rw [h1] at hu; cases hu
  | some u =>
    rw [h1] at hu
    simp only [Option.map_some, Option.some.injEq, Prod.mk.injEq] at hu
    obtain ⟨w1, w2⟩ := hw u h1
    refine ⟨by rw [hu.2]; exact w1, ?_⟩
    rw [hu.1]
    intro ho
    apply w2
    simpa only [OwnerOf, h.members, h.roles] using ho

/-- C125: whoever changes anybody's rights in a tenant is an administrator or an owner of that tenant who is connected
to it. -/
theorem C125_rights {e : Env} {a : Bool} {s s' : Sec} {r : Req} {es : List Effect} (hd : Distinct s)
    (h : step e a s r = some (es, s')) {v t : Name} (hne : power s' v t ≠ power s v t) :
    ∃ u, s.users r.user = some u ∧ (u.isAdmin = true ∨ OwnerOf s t u.id) := by
  obtain ⟨x, p, hx, -, -, -⟩ := step_some h
  obtain ⟨U, T, hu, -⟩ := session_rights hx
  refine ⟨U, hu, ?_⟩
  exact Classical.byContradiction fun hn => by
    simp only [not_or, Bool.not_eq_true] at hn
    apply hne
    refine (step_same (t := t) hd ?_ h).rights v
    intro u hu'
    rw [hu] at hu'
    cases hu'
    exact hn

/-- C125: however many requests users make who are neither administrators nor owners of a tenant, in whichever tenants
and together, the rights of everybody in that tenant stay as they are. -/
theorem C125_run {e : Env} {a : Bool} {t : Name} : ∀ (rs : List Req) {s : Sec}, Distinct s →
    (∀ r ∈ rs, Weak s t r.user) → ∀ v, power (run e a s rs) v t = power s v t
  | [], _, _, _, _ => rfl
  | r :: rs, s, hd, hw, v => by
    unfold run
    cases hs : step e a s r with
    | none =>
      simp only
      exact C125_run rs hd (fun r hr => hw r (List.mem_cons_of_mem _ hr)) v
    | some es =>
      obtain ⟨es, s'⟩ := es
      simp only
      have hsame := step_same hd (hw r List.mem_cons_self) hs
      rw [C125_run rs ?_ (fun r hr => hsame.weak (hw r (List.mem_cons_of_mem _ hr))) v]
      · exact hsame.rights v
      · intro t1 t2 T1 T2 h1 h2 h3
        rw [hsame.tenants] at h1 h2
        exact hd _ _ _ _ h1 h2 h3

/-- An administrator has the right to the system, nobody else has. -/
theorem holds_system {s : Sec} {u t d : Name} {x : Session} (h : session s u t d = some x) :
    x.holds (.global .system) = true ↔ x.user.isAdmin = true := by
  constructor
  · intro hh
    exact Classical.byContradiction fun hn => by
      simp only [Bool.not_eq_true] at hn
      rcases holds_cases h hn hh with h | ⟨p, h, -⟩ | ⟨h, -⟩ <;> cases h
  · intro ha
    obtain ⟨U, T, hu, ht, rfl, -, -, -, -, hr⟩ := session_rights h
    simp only [rightsOf, ha, if_true, Option.some.injEq] at hr
    simp [Session.holds, ← hr, userPrivs, userCheck, dbaPrivs, Priv.check, GlobPriv.check]

/-- C124: an administrator is never refused for want of a right: what can be planned is accepted. -/
theorem C124_admin {e : Env} {s : Sec} {a : Bool} {u t d : Name} {x : Session} {st : Stmt}
    (h : session s u t d = some x) (ha : x.user.isAdmin = true) : accept e s a x st = plan e s a x st := by
  have hall : ∀ q, x.holds q = true := by
    intro q
    obtain ⟨U, T, hu, ht, rfl, -, -, -, -, hr⟩ := session_rights h
    simp only [rightsOf, ha, if_true, Option.some.injEq] at hr
    unfold Session.holds userCheck
    rw [← hr, List.any_eq_true]
    cases q with
    | global g =>
      cases g with
      | system => exact ⟨.global .system, by simp [userPrivs, dbaPrivs], by simp [Priv.check, GlobPriv.check]⟩
      | user i => exact ⟨.global (.user none), by simp [userPrivs, dbaPrivs], by simp [Priv.check, GlobPriv.check]⟩
      | tenant i => exact ⟨.global (.tenant none), by simp [userPrivs, dbaPrivs], by simp [Priv.check, GlobPriv.check]⟩
    | tenantObject p y =>
      cases p with
      | system => exact ⟨.tenantObject .system none, by simp [userPrivs, dbaPrivs], by simp [Priv.check, TenPriv.check]⟩
      | memberFull =>
        exact ⟨.tenantObject .memberFull none, by simp [userPrivs, dbaPrivs], by simp [Priv.check, TenPriv.check]⟩
      | roleFull =>
        exact ⟨.tenantObject .roleFull none, by simp [userPrivs, dbaPrivs], by simp [Priv.check, TenPriv.check]⟩
      | database w b =>
        exact ⟨.tenantObject (.database .full none) none, by simp [userPrivs, dbaPrivs],
          by simp [Priv.check, TenPriv.check, DbPriv.check]⟩
  unfold accept
  cases plan e s a x st with
  | none => rfl
  | some p =>
    simp only
    rw [if_pos (List.all_eq_true.2 fun q _ => hall q)]

/-- C125: the record of a user (password, keys, options, being an administrator) is only changed by administrators and
by the user; making somebody an administrator, or the contrary, only by administrators. -/
theorem C125_users {e : Env} {a : Bool} {s s' : Sec} {r : Req} {es : List Effect}
    (h : step e a s r = some (es, s')) {v : Name} (hne : s'.users v ≠ s.users v) :
    ∃ u, s.users r.user = some u ∧ (u.isAdmin = true ∨
      ∃ w w', s.users v = some w ∧ s'.users v = some w' ∧ w.id = u.id ∧ w'.id = w.id ∧ w'.isAdmin = w.isAdmin) := by
  obtain ⟨x, p, hx, hp, hs, -⟩ := step_some h
  have hc := accept_exec hp hs
  obtain ⟨U, T, hu, ht, rfl, -⟩ := session_rights hx
  refine ⟨_, hu, ?_⟩
  exact Classical.byContradiction fun hn => by
    simp only [not_or, Bool.not_eq_true] at hn
    rcases hc.users v hne with h | ⟨w, o, hw, hw', hh | hh, -⟩
    · rcases holds_cases hx hn.1 h.2 with h | ⟨p, h, -⟩ | ⟨h, -⟩ <;> cases h
    · rw [(holds_system hx).1 hh] at hn; cases hn.1
    · apply hn.2
      refine ⟨w, _, hw, hw', ?_, rfl, ?_⟩
      · rcases holds_cases hx hn.1 hh.1 with h | ⟨p, h, -⟩ | ⟨h, -⟩
        · simpa using h
        · cases h
        · cases h
      · simp only [UserDesc.isAdmin, merge_granted (userOptsOf_granted hh.2.1)]

/-- C125: the record of the root user is only changed by a root user. -/
theorem C125_root {e : Env} {a : Bool} {s s' : Sec} {r : Req} {es : List Effect}
    (h : step e a s r = some (es, s')) {w : UserDesc} (hw : s.users root = some w) (hr : w.isRoot = true)
    (hne : s'.users root ≠ s.users root) : ∃ u, s.users r.user = some u ∧ u.isRoot = true := by
  obtain ⟨x, p, hx, hp, hs, -⟩ := step_some h
  have hc := accept_exec hp hs
  obtain ⟨U, T, hu, ht, rfl, -⟩ := session_rights hx
  refine ⟨_, hu, ?_⟩
  rcases hc.users root hne with h | ⟨w', o, hw', -, -, hh⟩
  · rcases h.1 with h | h
    · exact absurd rfl h
    · rw [hw] at h; cases h
  · rw [hw] at hw'
    cases hw'
    exact hh hr

/-! ## C126: a password that must be changed -/

/-- C126: when a user must change the password, the only request that succeeds sets their own password, and then they
no longer must. -/
theorem C126_only_password {e : Env} {s s' : Sec} {r : Req} {es : List Effect} {u : UserDesc}
    (hu : s.users r.user = some u) (hm : u.opts.mustChange = some true) (h : step e true s r = some (es, s')) :
    ∃ n w o, r.stmt = .alterUser n (.set o) ∧ s.users n = some w ∧ w.id = u.id ∧ (o.apply e {}).hash.isSome = true ∧
      ∃ w', s'.users n = some w' ∧ w'.opts.mustChange = some false ∧ w'.opts.hash = (o.apply e {}).hash ∧
        s' = { s with users := upd s.users n (some w') } := by
  obtain ⟨x, p, hx, hp, hs, -⟩ := step_some h
  obtain ⟨U, T, hu', ht, rfl, -⟩ := session_rights hx
  rw [hu] at hu'
  cases hu'
  obtain ⟨hp, hr⟩ := accept_some hp
  simp only [plan, hm, Option.getD_some, Bool.and_self, if_true] at hp
  cases hst : r.stmt with
  | alterUser n op =>
    rw [hst] at hp hs
    simp only at hp
    cases op with
    | renameTo m => simp [exec] at hs
    | set o =>
      obtain ⟨w, hw, h1, -⟩ := planUser_set hp hr
      obtain ⟨h1, h2⟩ := h1 rfl
      simp only [exec, hw, Option.some.injEq] at hs
      refine ⟨n, w, o, rfl, hw, h1.symm, h2, _, ?_, ?_, ?_, hs.symm⟩
      · rw [← hs]; exact upd_same _ _ _
      · simp [userOptsOf, hm, UserOpts.merge]
      · cases ho : (o.apply e {}).hash with
        | none => rw [ho] at h2; cases h2
        | some y => simp [userOptsOf, hm, UserOpts.merge, ho]
  | _ => rw [hst] at hp; cases hp

/-- C126: other requests are refused too: writing points and reading traces. -/
theorem C126_http {e : Env} {s : Sec} {n : Name} {u : UserDesc} (hu : s.users n = some u)
    (hm : u.opts.mustChange = some true) (q : HttpReq) (h1 : q ≠ .dumpDdl) (h2 : q ≠ .printMeta) :
    http e s true (some n) q = none := by
  have key : ∀ t d x, session s n t d = some x → (true && x.user.opts.mustChange.getD false) = true := by
    intro t d x hx
    obtain ⟨U, T, hu', ht, rfl, -⟩ := session_rights hx
    rw [hu] at hu'
    cases hu'
    simp [hm]
  cases q with
  | write t d =>
    simp only [http, Option.bind_some]
    cases hx : session s n t d with
    | none => rfl
    | some x => simp only [key t d x hx, if_true]
  | promRead t d ts =>
    simp only [http, Option.bind_some]
    cases hx : session s n t d with
    | none => rfl
    | some x => simp only [key t d x hx, if_true]
  | traces t d =>
    simp only [http, Option.bind_some]
    cases hx : session s n t d with
    | none => rfl
    | some x => simp only [key t d x hx, if_true]
  | dumpDdl => exact absurd rfl h1
  | printMeta => exact absurd rfl h2

/-! ## C127: a member has the rights of their role -/

/-- The rights of a role of a tenant. -/
def roleRights (s : Sec) (t : Name) (tid : Oid) : RoleId → List Right
  | .system r => r.privs tid
  | .custom n => match s.roles t n with | some r => r.privs tid | none => []

/-- C127 (partial): a member has exactly the rights of the role they were given, if no role is called like their id. -/
theorem C127_role_partial {s : Sec} {t : Name} {tid i : Oid} (hn : s.roles t (idName i) = none) :
    memberRights s t tid i = (s.members t i).map (roleRights s t tid) := by
  unfold memberRights
  cases s.members t i with
  | none => rfl
  | some r =>
    cases r with
    | system y => rfl
    | custom n => simp only [hn, Option.map_some]; rfl

/-! ## C128: tokens -/

/-- Requests with one token at the times `now :: later`, whatever happens to the metadata in between. -/
def tokenRun (ts : Nat → Option Token) (k : Nat) : List (Nat × Sec × Name × Name) → Option (Nat → Option Token)
  | [] => some ts
  | (now, s, t, d) :: l =>
    match tokenSession s ts now k t d with
    | some (_, ts') => tokenRun ts' k l
    | none => none

/-- The user and rights of a token never change; only a login makes a token. -/
theorem C128_snapshot_partial {s : Sec} {ts ts' : Nat → Option Token} {now k : Nat} {t d : Name} {x : Session}
    (h : tokenSession s ts now k t d = some (x, ts')) :
    ∃ w, ts k = some w ∧ x.user = w.user ∧ x.rights = w.rights ∧ now < w.last + idle ∧
      ts' k = some { w with last := now } := by
  unfold tokenSession at h
  cases hk : ts k with
  | none => simp [hk] at h
  | some w =>
    cases ht : s.tenants t with
    | none => simp [hk, ht] at h
    | some T =>
      simp only [hk, ht] at h
      split at h
      · cases h
      · rename_i hn
        cases h
        exact ⟨w, rfl, rfl, rfl, by omega, upd_same _ _ _⟩

/-- C128 (partial): a token that was not used for ten minutes is refused, and stays refused. -/
theorem C128_idle_partial {ts : Nat → Option Token} {k : Nat} {w : Token} (hk : ts k = some w)
    (l : List (Nat × Sec × Name × Name)) (hl : l ≠ []) (hlate : ∀ q ∈ l, w.last + idle ≤ q.1) :
    tokenRun ts k l = none := by
  cases l with
  | nil => exact absurd rfl hl
  | cons q l =>
    obtain ⟨now, s, t, d⟩ := q
    unfold tokenRun
    cases h : tokenSession s ts now k t d with
    | none => rfl
    | some r =>
      obtain ⟨x, ts'⟩ := r
      obtain ⟨w', hw', -, -, hlt, -⟩ := C128_snapshot_partial h
      rw [hk] at hw'
      cases hw'
      have := hlate _ List.mem_cons_self
      simp only at this
      omega

/-- Times with less than ten minutes between them. -/
def Often (last : Nat) : List (Nat × Sec × Name × Name) → Prop
  | [] => True
  | (now, s, t, _) :: l => now < last + idle ∧ (∃ T, s.tenants t = some T ∧ T.hidden = false) ∧ Often now l

/-- C128 refuted: a token that is used often enough is accepted for ever, with the user and rights of the login,
whatever the metadata say meanwhile about the user. -/
theorem C128_outlives_refuted {k : Nat} : ∀ (l : List (Nat × Sec × Name × Name)) {ts : Nat → Option Token} {w : Token},
    ts k = some w → Often w.last l →
    ∃ ts' last, tokenRun ts k l = some ts' ∧ ts' k = some { w with last := last }
  | [], ts, w, hk, _ => ⟨ts, w.last, rfl, hk⟩
  | (now, s, t, d) :: l, ts, w, hk, ho => by
    obtain ⟨h1, ⟨T, hT, hh⟩, h2⟩ := ho
    have hs : tokenSession s ts now k t d =
        some (⟨w.user, w.rights, t, T.id, d⟩, upd ts k (some { w with last := now })) := by
      unfold tokenSession
      simp only [hk, hT]
      rw [if_neg]
      rw [hh]
      simp only [Bool.false_eq_true, or_false]
      omega
    obtain ⟨ts', last, h3, h4⟩ := C128_outlives_refuted l (ts := upd ts k (some { w with last := now }))
      (w := { w with last := now }) (upd_same _ _ _) h2
    refine ⟨ts', last, ?_, h4⟩
    unfold tokenRun
    rw [hs]
    exact h3

end Verif.Plan
