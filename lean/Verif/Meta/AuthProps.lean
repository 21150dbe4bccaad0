import Verif.Meta.Auth
/-!
# C50, C60, C61: privileges, roles, login cache
-/
namespace Verif.Auth

section
variable {T S : Type} [DecidableEq T] [DecidableEq S]

/-! ## C50 -/

theorem DbPriv.check_trans (a b c : DbPriv) (h1 : a.check b = true) (h2 : b.check c = true) :
    a.check c = true := by
  cases a <;> cases b <;> cases c <;> simp_all [DbPriv.check]

theorem DbPriv.check_refl (a : DbPriv) : a.check a = true := by cases a <;> rfl

theorem TenPriv.check_refl (a : TenPriv S) : a.check a = true := by
  cases a with
  | database p d => cases d <;> simp [TenPriv.check, DbPriv.check_refl]
  | _ => rfl

theorem TenPriv.check_db {s : DbPriv} {d : Option S} {q : TenPriv S} (h : (TenPriv.database s d).check q = true) :
    ∃ o e, q = .database o e ∧ s.check o = true ∧ (d = none ∨ d = e) := by
  cases q with
  | database o e =>
    cases d with
    | none => exact ⟨o, e, rfl, h, Or.inl rfl⟩
    | some a =>
      cases e with
      | none => simp [TenPriv.check] at h
      | some b =>
        simp only [TenPriv.check, Bool.and_eq_true, decide_eq_true_eq] at h
        exact ⟨o, some b, rfl, h.2, Or.inr (by rw [h.1])⟩
  | _ => cases d <;> simp [TenPriv.check] at h

theorem TenPriv.db_check {s o : DbPriv} {d e : Option S} (h : s.check o = true) (hd : d = none ∨ d = e) :
    (TenPriv.database s d).check (.database o e) = true := by
  cases d with
  | none => exact h
  | some a =>
    rcases hd with hd | rfl
    · cases hd
    · simp [TenPriv.check, h]

theorem TenPriv.check_trans (a b c : TenPriv S) (h1 : a.check b = true) (h2 : b.check c = true) :
    a.check c = true := by
  cases a with
  | database s d =>
    obtain ⟨o, e, rfl, h3, h4⟩ := TenPriv.check_db h1
    obtain ⟨o', e', rfl, h5, h6⟩ := TenPriv.check_db h2
    apply TenPriv.db_check (DbPriv.check_trans _ _ _ h3 h5)
    rcases h4 with h4 | rfl
    · exact Or.inl h4
    · exact h6
  | system => cases b <;> simp [TenPriv.check] at h1 <;> exact h2
  | memberFull => cases b <;> simp [TenPriv.check] at h1 <;> exact h2
  | roleFull => cases b <;> simp [TenPriv.check] at h1 <;> exact h2

theorem GlobPriv.check_trans (a b c : GlobPriv T) (h1 : a.check b = true) (h2 : b.check c = true) :
    a.check c = true := by
  rcases a with _ | (_ | a) | (_ | a) <;> rcases b with _ | (_ | b) | (_ | b) <;>
    rcases c with _ | (_ | c) | (_ | c) <;> simp_all [GlobPriv.check]

/-- C50: covering is reflexive. -/
theorem C50_refl (a : Priv T S) : a.check a = true := by
  cases a with
  | global g => rcases g with _ | (_ | g) | (_ | g) <;> simp [Priv.check, GlobPriv.check]
  | tenantObject p t => cases t <;> simp [Priv.check, TenPriv.check_refl]

/-- C50: covering is transitive. -/
theorem C50_trans (a b c : Priv T S) (h1 : a.check b = true) (h2 : b.check c = true) :
    a.check c = true := by
  cases a with
  | global g =>
    cases b with
    | global g' =>
      cases c with
      | global g'' => exact GlobPriv.check_trans g g' g'' h1 h2
      | tenantObject p t => simp [Priv.check] at h2
    | tenantObject p t => simp [Priv.check] at h1
  | tenantObject p t =>
    cases b with
    | global g => cases t <;> simp [Priv.check] at h1
    | tenantObject q u =>
      cases c with
      | global g => cases u <;> simp [Priv.check] at h2
      | tenantObject r v =>
        cases t with
        | none =>
          have h2' : q.check r = true := by
            cases u with
            | none => exact h2
            | some u => cases v with
              | none => simp [Priv.check] at h2
              | some v => simp only [Priv.check, Bool.and_eq_true] at h2; exact h2.2
          exact TenPriv.check_trans p q r h1 h2'
        | some t =>
          cases u with
          | none => simp [Priv.check] at h1
          | some u =>
            cases v with
            | none => simp [Priv.check] at h2
            | some v =>
              simp only [Priv.check, Bool.and_eq_true, decide_eq_true_eq] at *
              exact ⟨h1.1.trans h2.1, TenPriv.check_trans p q r h1.2 h2.2⟩

/-- C50: a privilege scoped to a tenant covers only privileges scoped to that tenant. -/
theorem C50_tenant_scope (p : TenPriv S) (t : T) (q : Priv T S)
    (h : (Priv.tenantObject p (some t)).check q = true) :
    ∃ p', q = .tenantObject p' (some t) ∧ p.check p' = true := by
  cases q with
  | global g => simp [Priv.check] at h
  | tenantObject p' u =>
    cases u with
    | none => simp [Priv.check] at h
    | some u =>
      simp only [Priv.check, Bool.and_eq_true, decide_eq_true_eq] at h
      exact ⟨p', by rw [h.1], h.2⟩

/-- C50: a privilege on one database of one tenant covers only privileges on the same database of the
same tenant, no stronger than itself; in particular never "all databases" or tenant administration. -/
theorem C50_database_scope (s : DbPriv) (db : S) (t : T) (q : Priv T S)
    (h : (Priv.tenantObject (.database s (some db)) (some t)).check q = true) :
    ∃ o, q = .tenantObject (.database o (some db)) (some t) ∧ s.check o = true := by
  obtain ⟨p', rfl, h'⟩ := C50_tenant_scope _ _ _ h
  obtain ⟨o, e, rfl, h3, h4⟩ := TenPriv.check_db h'
  rcases h4 with h4 | rfl
  · cases h4
  · exact ⟨o, rfl, h3⟩

/-- C50: reading covers only reading, writing does not cover full. -/
theorem C50_db_levels (a b : DbPriv) :
    a.check b = true ↔ (a = .full ∨ (a = .write ∧ b ≠ .full) ∨ (a = .read ∧ b = .read)) := by
  cases a <;> cases b <;> simp [DbPriv.check]

/-- C50: administration of one user (tenant) covers no other user (tenant). -/
theorem C50_global_scope (t : T) (q : Priv T S) :
    ((Priv.global (.user (some t))).check q = true → q = .global (.user (some t))) ∧
    ((Priv.global (.tenant (some t))).check q = true → q = .global (.tenant (some t))) := by
  constructor
  · intro h
    rcases q with g | ⟨p, u⟩
    · rcases g with _ | (_ | g) | (_ | g) <;> simp_all [Priv.check, GlobPriv.check]
    · simp [Priv.check] at h
  · intro h
    rcases q with g | ⟨p, u⟩
    · rcases g with _ | (_ | g) | (_ | g) <;> simp_all [Priv.check, GlobPriv.check]
    · simp [Priv.check] at h

example : (Priv.tenantObject (.database .full none) (some 1) : Priv Nat Nat).check
      (.tenantObject (.database .write (some 7)) (some 1)) = true ∧
    (Priv.tenantObject (.database .write (some 7)) (some 1) : Priv Nat Nat).check
      (.tenantObject (.database .read (some 7)) (some 1)) = true ∧
    (Priv.tenantObject (.database .full none) (some 1) : Priv Nat Nat).check
      (.tenantObject (.database .read (some 7)) (some 2)) = false := by decide

/-! ## C60 roles -/

/-- C60: what a member of tenant `t` with a custom role may do to a database: exactly what its system role
or its grant on that very database allows, in that very tenant. -/
theorem C60_custom_role_exact (id t t' : T) (r : Role S) (p : DbPriv) (db : S) :
    userCheck (userPrivs id (r.privs t)) (.tenantObject (.database p (some db)) (some t')) = true ↔
      t = t' ∧ (r.sys = some .owner ∨ (r.sys = some .member ∧ p = .read) ∨
        ∃ q, (db, q) ∈ r.additional ∧ q.check p = true) := by
  have hadd : (r.additional.any fun e => decide (t = t') && (decide (e.1 = db) && e.2.check p)) = true ↔
      t = t' ∧ ∃ q, (db, q) ∈ r.additional ∧ q.check p = true := by
    simp only [List.any_eq_true, Bool.and_eq_true, decide_eq_true_eq]
    constructor
    · rintro ⟨⟨d, q⟩, hm, ht, rfl, hq⟩; exact ⟨ht, q, hm, hq⟩
    · rintro ⟨ht, q, hm, hq⟩; exact ⟨(db, q), hm, ht, rfl, hq⟩
  have hexp : userCheck (userPrivs id (r.privs t)) (.tenantObject (.database p (some db)) (some t')) =
      ((match r.sys with
        | some .owner => decide (t = t')
        | some .member => decide (t = t') && DbPriv.check .read p
        | none => false) ||
      (r.additional.any fun e => decide (t = t') && (decide (e.1 = db) && e.2.check p))) := by
    unfold userCheck userPrivs Role.privs
    rw [List.any_cons, List.any_append, List.any_map]
    have e1 : (Priv.global (.user (some id)) : Priv T S).check (.tenantObject (.database p (some db)) (some t')) = false := rfl
    rw [e1, Bool.false_or]
    congr 1
    rcases r.sys with _ | (_ | _) <;> simp [SysRole.privs, Priv.check, TenPriv.check, DbPriv.check]
  rw [hexp, Bool.or_eq_true, hadd]
  rcases r.sys with _ | (_ | _)
  · simp
  · simp
    intro h _ _ _; exact h
  · have : DbPriv.check .read p = true ↔ p = .read := by cases p <;> simp [DbPriv.check]
    simp only [Bool.and_eq_true, decide_eq_true_eq, this]
    constructor
    · rintro (⟨h1, h2⟩ | ⟨h1, h2⟩)
      · exact ⟨h1, Or.inr (Or.inl ⟨trivial, h2⟩)⟩
      · exact ⟨h1, Or.inr (Or.inr h2)⟩
    · rintro ⟨h1, h2 | h2 | h2⟩
      · cases h2
      · exact Or.inl ⟨h1, h2.2⟩
      · exact Or.inr ⟨h1, h2⟩

/-- C60: a member never administers the system, other users, other tenants, nor (without the owner role)
the roles and members of its tenant. -/
theorem C60_member_never_admin (id t : T) (r : Role S) (q : Priv T S)
    (h : userCheck (userPrivs id (r.privs t)) q = true) :
    q = .global (.user (some id)) ∨ q = .global (.tenant (some t)) ∨ ∃ p, q = .tenantObject p (some t) ∧
      ((p = .system ∨ p = .memberFull ∨ p = .roleFull) → r.sys = some .owner) := by
  unfold userCheck userPrivs at h
  rw [List.any_eq_true] at h
  obtain ⟨x, hx, hc⟩ := h
  rcases List.mem_cons.1 hx with rfl | hx
  · exact Or.inl ((C50_global_scope id q).1 hc)
  · right
    unfold Role.privs at hx
    rcases List.mem_append.1 hx with hx | hx
    · cases hs : r.sys with
      | none => rw [hs] at hx; simp at hx
      | some s =>
        rw [hs] at hx
        cases s with
        | owner =>
          simp only [SysRole.privs, List.mem_cons, List.not_mem_nil, or_false] at hx
          rcases hx with rfl | rfl | rfl | rfl | rfl
          · exact Or.inl ((C50_global_scope t q).2 hc)
          all_goals
            obtain ⟨p', rfl, _⟩ := C50_tenant_scope _ _ _ hc
            exact Or.inr ⟨p', rfl, fun _ => rfl⟩
        | member =>
          simp only [SysRole.privs, List.mem_singleton] at hx
          subst hx
          obtain ⟨p', rfl, h'⟩ := C50_tenant_scope _ _ _ hc
          obtain ⟨o, e, rfl, _, _⟩ := TenPriv.check_db h'
          exact Or.inr ⟨_, rfl, by rintro (h | h | h) <;> cases h⟩
    · rw [List.mem_map] at hx
      obtain ⟨e, _, rfl⟩ := hx
      obtain ⟨o, rfl, _⟩ := C50_database_scope _ _ _ _ hc
      exact Or.inr ⟨_, rfl, by rintro (h | h | h) <;> cases h⟩

/-- One entry per database, as in a hash map. -/
def Role.Wf (r : Role S) : Prop := (r.additional.map Prod.fst).Nodup

theorem Role.grant_wf {r : Role S} (h : r.Wf) (db : S) (p : DbPriv) : (r.grant db p).Wf := by
  unfold Role.Wf Role.grant at *
  simp only [List.map_cons, List.nodup_cons]
  constructor
  · intro hc
    rw [List.mem_map] at hc
    obtain ⟨e, he, h2⟩ := hc
    have := (List.mem_filter.1 he).2
    simp at this
    exact this h2
  · exact h.sublist (List.filter_sublist.map _)

/-- C60: right after a grant on a database the holder has that privilege, and its rights on other
databases are unchanged. -/
theorem C60_grant_effective (r : Role S) (db : S) (p : DbPriv) :
    (db, p) ∈ (r.grant db p).additional ∧
    ∀ db' q, db' ≠ db → ((db', q) ∈ (r.grant db p).additional ↔ (db', q) ∈ r.additional) := by
  unfold Role.grant
  refine ⟨by simp, ?_⟩
  intro db' q hne
  simp [hne]

/-- C60: after a successful revoke nothing granted on that database is left, other databases are
unchanged; and it succeeds exactly when that very privilege was granted. -/
theorem C60_revoke_effective (r : Role S) (hr : r.Wf) (db : S) (p : DbPriv) :
    ((∃ r', r.revoke db p = some r') ↔ (db, p) ∈ r.additional) ∧
    ∀ r', r.revoke db p = some r' → r'.sys = r.sys ∧ r'.Wf ∧ (∀ q, (db, q) ∉ r'.additional) ∧
      ∀ db' q, db' ≠ db → ((db', q) ∈ r'.additional ↔ (db', q) ∈ r.additional) := by
  have hget : ∀ q, r.get db = some q ↔ (db, q) ∈ r.additional := by
    intro q
    unfold Role.get Role.Wf at *
    generalize r.additional = l at hr ⊢
    induction l with
    | nil => simp
    | cons e l ih =>
      rw [List.map_cons, List.nodup_cons] at hr
      rw [List.find?_cons]
      by_cases he : e.1 = db
      · simp only [he, decide_true, Option.map_some, Option.some.injEq, List.mem_cons]
        constructor
        · rintro rfl; left; rw [← he]
        · rintro (h | h)
          · rw [← h]
          · exact absurd (List.mem_map.2 ⟨_, h, rfl⟩) (by rw [← he]; exact hr.1)
      · simp only [he, decide_false, List.mem_cons, ih hr.2]
        constructor
        · exact Or.inr
        · rintro (h | h)
          · rw [← h] at he; exact absurd rfl he
          · exact h
  constructor
  · unfold Role.revoke
    rw [← hget]
    cases r.get db with
    | none => simp
    | some q => by_cases hq : q = p <;> simp [hq]
  · intro r' h
    unfold Role.revoke at h
    split at h
    · split at h
      · cases h
        refine ⟨rfl, ?_, ?_, ?_⟩
        · exact List.Nodup.sublist (List.filter_sublist.map _) hr
        · intro q; simp
        · intro db' q hne; simp [hne]
      · cases h
    · cases h

example : ((⟨none, []⟩ : Role Nat).grant 1 .read).Wf ∧
    ((⟨none, []⟩ : Role Nat).grantAll (fun _ => true) [(.read, 1), (.full, 2)]).isSome := by
  unfold Role.Wf; decide

/-- C60 is false in one point users expect of `GRANT`: granting a weaker privilege on a database takes
the stronger one away. -/
theorem C60_grant_downgrades_refuted :
    ∃ (r : Role Nat) (db : Nat) (p q : DbPriv),
      userCheck (userPrivs (0 : Nat) (r.privs 1)) (.tenantObject (.database q (some db)) (some 1)) = true ∧
      userCheck (userPrivs (0 : Nat) ((r.grant db p).privs 1)) (.tenantObject (.database q (some db)) (some 1)) = false :=
  ⟨⟨none, [(5, .full)]⟩, 5, .read, .write, by decide, by decide⟩

/-- C60: granting a privilege at least as strong as the present one never takes rights away. -/
theorem C60_grant_monotone_partial (id t t' : T) (r : Role S) (db db' : S) (p q : DbPriv)
    (hle : ∀ o, (db, o) ∈ r.additional → p.check o = true)
    (h : userCheck (userPrivs id (r.privs t)) (.tenantObject (.database q (some db')) (some t')) = true) :
    userCheck (userPrivs id ((r.grant db p).privs t)) (.tenantObject (.database q (some db')) (some t')) = true := by
  rw [C60_custom_role_exact] at h ⊢
  refine ⟨h.1, ?_⟩
  rcases h.2 with h | h | ⟨o, h1, h2⟩
  · exact Or.inl h
  · exact Or.inr (Or.inl h)
  · right; right
    by_cases hd : db' = db
    · subst hd
      exact ⟨p, (C60_grant_effective r db' p).1, DbPriv.check_trans _ _ _ (hle o h1) h2⟩
    · exact ⟨o, ((C60_grant_effective r db p).2 db' o hd).2 h1, h2⟩

theorem Role.get_grant (r : Role S) (db db' : S) (p : DbPriv) :
    (r.grant db p).get db' = if db = db' then some p else r.get db' := by
  unfold Role.get Role.grant
  rw [List.find?_cons]
  by_cases h : db = db'
  · simp [h]
  · simp only [h, decide_false, if_false]
    congr 1
    rw [List.find?_filter]
    congr 1
    funext e
    by_cases h2 : e.1 = db'
    · subst h2; simp [Ne.symm h]
    · simp [h2]

/-- C60: a `GRANT` statement with several items takes effect only if every database exists, and then
each database has the last privilege listed for it, or what it had before if it is not listed. -/
theorem C60_grant_statement (ex : S → Bool) (r r' : Role S) (l : List (DbPriv × S))
    (h : r.grantAll ex l = some r') :
    (∀ x ∈ l, ex x.2 = true) ∧ r'.sys = r.sys ∧
    ∀ db, r'.get db = ((l.reverse.find? fun x => decide (x.2 = db)).map (·.1)).or (r.get db) := by
  induction l generalizing r with
  | nil => cases h; simp
  | cons x l ih =>
    obtain ⟨p, db⟩ := x
    rw [Role.grantAll] at h
    split at h
    · rename_i hex
      obtain ⟨h1, h2, h3⟩ := ih _ h
      refine ⟨?_, h2, ?_⟩
      · intro x hx
        rcases List.mem_cons.1 hx with rfl | hx
        · exact hex
        · exact h1 x hx
      · intro db'
        rw [h3 db', Role.get_grant, List.reverse_cons, List.find?_append]
        cases hf : (l.reverse.find? fun x => decide (x.2 = db')) with
        | some y => simp
        | none => by_cases hd : db = db' <;> simp [hd]
    · cases h

/-- C60: if a database does not exist, the whole statement is refused. -/
theorem C60_grant_statement_refused (ex : S → Bool) (r : Role S) (l : List (DbPriv × S))
    (h : ∃ x ∈ l, ex x.2 = false) : r.grantAll ex l = none := by
  cases hg : r.grantAll ex l with
  | none => rfl
  | some r' =>
    obtain ⟨x, hx, he⟩ := h
    rw [(C60_grant_statement ex r r' l hg).1 x hx] at he
    cases he

/-- C60: a `REVOKE` statement with several items that succeeds leaves nothing on the listed databases
and does not touch the others. -/
theorem C60_revoke_statement (r r' : Role S) (hr : r.Wf) (l : List (DbPriv × S))
    (h : r.revokeAll l = some r') :
    (∀ x ∈ l, (x.2, x.1) ∈ r.additional) ∧ r'.sys = r.sys ∧ (∀ x ∈ l, ∀ q, (x.2, q) ∉ r'.additional) ∧
    ∀ db q, (∀ x ∈ l, x.2 ≠ db) → ((db, q) ∈ r'.additional ↔ (db, q) ∈ r.additional) := by
  induction l generalizing r with
  | nil => cases h; simp
  | cons x l ih =>
    obtain ⟨p, db⟩ := x
    rw [Role.revokeAll] at h
    split at h
    · rename_i r1 h1
      obtain ⟨e1, e2⟩ := C60_revoke_effective r hr db p
      obtain ⟨f1, f2, f3, f4⟩ := e2 r1 h1
      obtain ⟨g1, g2, g3, g4⟩ := ih r1 f2 h
      have hsub : ∀ x ∈ l, x.2 ≠ db := fun x hx hd => f3 x.1 (hd ▸ g1 x hx)
      refine ⟨?_, g2.trans f1, ?_, ?_⟩
      · intro x hx
        rcases List.mem_cons.1 hx with rfl | hx
        · exact e1.1 ⟨r1, h1⟩
        · exact (f4 x.2 x.1 (hsub x hx)).1 (g1 x hx)
      · intro x hx q
        rcases List.mem_cons.1 hx with rfl | hx
        · intro hc; exact f3 q ((g4 db q hsub).1 hc)
        · exact g3 x hx q
      · intro db' q hne
        rw [g4 db' q (fun x hx => hne x (by simp [hx]))]
        exact f4 db' q (Ne.symm (hne (p, db) (by simp)))
    · cases h

/-- C60: the administrator role allows everything. -/
theorem C60_dba_allows_all (q : Priv T S) : userCheck dbaPrivs q = true := by
  rcases q with g | ⟨p, t⟩
  · rcases g with _ | u | u <;> simp [userCheck, dbaPrivs, Priv.check, GlobPriv.check]
  · rcases p with _ | _ | _ | ⟨p, d⟩ <;> simp [userCheck, dbaPrivs, Priv.check, TenPriv.check, DbPriv.check]

end

/-! ## C61 login cache -/

section
variable {α U : Type} [DecidableEq α]

/-- Every entry stems from a successful check, of a login seen by this server, with the same authorization
text and tenant. -/
def Sourced (colon : α) (ttl : Nat) (check : Nat → Login α → List α → Option U) (es : List (Event α U))
    (c : List (Entry α U)) : Prop :=
  ∀ e ∈ c, ∃ t l, Event.login t l e.tenant ∈ es ∧ l.authorization colon = e.auth ∧
    check t l e.tenant = some e.user ∧ e.expires = t + ttl

theorem Sourced.login {colon : α} {ttl : Nat} {check : Nat → Login α → List α → Option U} {es : List (Event α U)}
    {c : List (Entry α U)} (h : Sourced colon ttl check es c) (now : Nat) (l : Login α) (tenant : List α)
    (hmem : Event.login now l tenant ∈ es) :
    Sourced colon ttl check es (authenticate colon ttl check c now l tenant).1 := by
  unfold authenticate
  split
  · split
    · exact h
    · split
      · rename_i u hu
        intro e he
        rcases List.mem_cons.1 he with rfl | he
        · exact ⟨now, l, hmem, rfl, hu, rfl⟩
        · exact h e (List.mem_filter.1 he).1
      · exact h
  · split
    · rename_i u hu
      intro e he
      rcases List.mem_cons.1 he with rfl | he
      · exact ⟨now, l, hmem, rfl, hu, rfl⟩
      · exact h e he
    · exact h

theorem Sourced.run {colon : α} {ttl : Nat} {check : Nat → Login α → List α → Option U}
    {all es : List (Event α U)} (hsub : ∀ e ∈ es, e ∈ all)
    {c : List (Entry α U)} (h : Sourced colon ttl check all c) :
    Sourced colon ttl check all (cacheRun colon ttl check c es) := by
  induction es generalizing c with
  | nil => exact h
  | cons e es ih =>
    apply ih (fun x hx => hsub x (by simp [hx]))
    cases e with
    | login now l t => exact h.login now l t (hsub _ (by simp))
    | evict keep => exact fun e he => h e (List.mem_filter.1 he).1
    | removeUser now which => exact fun e he => h e (List.mem_filter.1 he).1
    | clear => intro e he; cases he

omit [DecidableEq α] in
theorem authorization_inj {colon : α} {l l' : Login α} (h1 : colon ∉ l.user) (h2 : colon ∉ l'.user)
    (h : l.authorization colon = l'.authorization colon) : l.user = l'.user ∧ l.password = l'.password := by
  obtain ⟨u, p, k⟩ := l
  obtain ⟨u', p', k'⟩ := l'
  unfold Login.authorization at h
  simp only at *
  clear k k'
  induction u generalizing u' with
  | nil =>
    cases u' with
    | nil => exact ⟨rfl, (List.cons.inj h).2⟩
    | cons b u' =>
      have := (List.cons.inj h).1
      rw [this] at h2; simp at h2
  | cons a u ih =>
    cases u' with
    | nil =>
      have := (List.cons.inj h).1
      rw [← this] at h1; simp at h1
    | cons b u' =>
      obtain ⟨e1, e2⟩ := List.cons.inj h
      have := ih (fun hc => h1 (by simp [hc])) u' (fun hc => h2 (by simp [hc])) e2
      exact ⟨by rw [e1, this.1], this.2⟩

/-- C61: whenever a login is accepted, either the real check accepts it now, or an earlier login at this
server with the same user name, password and tenant was accepted by the real check as the same user less
than the entry life time ago.  Missing for the full claim: the earlier login may have presented another
private key, and user names must not contain the separator. -/
theorem C61_login_was_checked_partial (colon : α) (ttl : Nat) (check : Nat → Login α → List α → Option U)
    (hcolon : ∀ t l tenant u, check t l tenant = some u → colon ∉ l.user)
    (es : List (Event α U)) (now : Nat) (l : Login α) (hl : colon ∉ l.user) (tenant : List α) (u : U)
    (h : (authenticate colon ttl check (cacheRun colon ttl check [] es) now l tenant).2 = some u) :
    check now l tenant = some u ∨ ∃ t l', Event.login t l' tenant ∈ es ∧ now < t + ttl ∧ l'.user = l.user ∧
      l'.password = l.password ∧ check t l' tenant = some u := by
  have hs : Sourced colon ttl check es (cacheRun colon ttl check [] es) :=
    Sourced.run (fun _ h => h) (fun e he => by cases he)
  unfold authenticate at h
  split at h
  · rename_i e he
    have hm := List.mem_of_find?_eq_some he
    have hk := List.find?_some he
    simp only [Bool.and_eq_true, decide_eq_true_eq] at hk
    split at h
    · rename_i hexp
      cases h
      obtain ⟨t, l', h0, h1, h2, h3⟩ := hs e hm
      have := authorization_inj (hcolon _ _ _ _ h2) hl (h1.trans hk.1)
      rw [hk.2] at h0 h2
      exact Or.inr ⟨t, l', h0, by omega, this.1, this.2, h2⟩
    · split at h
      · rename_i u' hu
        cases h
        exact Or.inl hu
      · cases h
  · split at h
    · rename_i u' hu
      cases h
      exact Or.inl hu
    · cases h

/-- C61: so if the real check looks only at user name and password, and its answers do not change, then
exactly the logins it accepts are accepted. -/
theorem C61_password_users_exact_partial (colon : α) (ttl : Nat) (check : List α → List α → List α → Option U)
    (hcolon : ∀ n p tenant u, check n p tenant = some u → colon ∉ n)
    (es : List (Event α U)) (now : Nat) (l : Login α) (hl : colon ∉ l.user) (tenant : List α) (u : U)
    (h : (authenticate colon ttl (fun _ l t => check l.user l.password t)
      (cacheRun colon ttl (fun _ l t => check l.user l.password t) [] es) now l tenant).2 = some u) :
    check l.user l.password tenant = some u := by
  rcases C61_login_was_checked_partial colon ttl (fun _ l t => check l.user l.password t)
    (fun _ l t u h => hcolon _ _ _ _ h) es now l hl tenant u h with h | ⟨t, l', _, _, h1, h2, h3⟩
  · exact h
  · rw [← h1, ← h2]; exact h3

/-- C61: after invalidating a user, a login is accepted as that user only if the real check accepts it
now (cache entries that have already expired cannot be used either). -/
theorem C61_invalidation_effective (colon : α) (ttl : Nat) (check : Nat → Login α → List α → Option U)
    (c : List (Entry α U)) (t₀ now : Nat) (hnow : t₀ ≤ now) (which : U → Bool) (l : Login α) (tenant : List α)
    (u : U) (hu : which u = true)
    (h : (authenticate colon ttl check (cacheStep colon ttl check c (.removeUser t₀ which)) now l tenant).2 = some u) :
    check now l tenant = some u := by
  unfold authenticate at h
  split at h
  · rename_i e he
    have hm := List.mem_of_find?_eq_some he
    split at h
    · rename_i hexp
      cases h
      simp only [cacheStep, List.mem_filter, Bool.not_eq_true', Bool.and_eq_false_iff,
        Bool.not_eq_false', decide_eq_true_eq] at hm
      rcases hm.2 with h2 | h2
      · rw [hu] at h2; cases h2
      · omega
    · split at h
      · rename_i u' hu'; cases h; exact hu'
      · cases h
  · split at h
    · rename_i u' hu'; cases h; exact hu'
    · cases h

/-- The password check as an example of a real check: accepts user `1` with password `[2]`. -/
example : (authenticate (α := Nat) 0 60 (fun _ l _ => if l.user = [1] ∧ l.password = [2] then some 7 else none)
    [] 5 ⟨[1], [2], none⟩ [9]).2 = some 7 := by decide

/-- C61 is false for users with an RSA key: the private key is not part of the cache key, so after one
correct login anybody who knows the password is accepted without the key. -/
theorem C61_private_key_ignored_refuted :
    ∃ (check : Nat → Login Nat → List Nat → Option Nat) (good bad : Login Nat) (tenant : List Nat),
      check 1 bad tenant = none ∧
      (authenticate 0 60 check (cacheRun 0 60 check [] [.login 0 good tenant]) 1 bad tenant).2 ≠ none :=
  ⟨fun _ l _ => if l.privateKey = some [5] then some 7 else none, ⟨[1], [2], some [5]⟩, ⟨[1], [2], none⟩, [9],
    by decide, by decide⟩

/-- C61 is false for user names with the separator: another user name with another password is accepted
from the cache. -/
theorem C61_separator_refuted :
    ∃ (check : Nat → Login Nat → List Nat → Option Nat) (good bad : Login Nat) (tenant : List Nat),
      good.user ≠ bad.user ∧ check 1 bad tenant = none ∧
      (authenticate 0 60 check (cacheRun 0 60 check [] [.login 0 good tenant]) 1 bad tenant).2 ≠ none :=
  ⟨fun _ l _ => if l.user = [1, 0, 3] ∧ l.password = [2] then some 7 else none, ⟨[1, 0, 3], [2], none⟩,
    ⟨[1], [3, 0, 2], none⟩, [9], by decide, by decide, by decide⟩

end
end Verif.Auth
