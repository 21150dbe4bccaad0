import Verif.Plan.Props
/-!
# C125 – C127: who can change rights
-/
namespace Verif.Plan
open Verif.Auth

/-- What the execution of an accepted statement may change, and with which right. -/
structure Change (s s' : Sec) (e : Env) (a : Bool) (x : Session) : Prop where
  tenants : s'.tenants ≠ s.tenants → x.holds (.global (.tenant none)) = true
  members : ∀ t i, s'.members t i ≠ s.members t i →
    ∃ T, s.tenants t = some T ∧ x.holds (.tenantObject .memberFull (some T.id)) = true
  roles : ∀ t n, s'.roles t n ≠ s.roles t n →
    t = x.tenant ∧ x.holds (.tenantObject .roleFull (some x.tenantId)) = true
  dbs : ∀ t d, s'.dbs t d ≠ s.dbs t d → t = x.tenant ∧ x.holds (dbRight x .write (some d)) = true
  users : ∀ v, s'.users v ≠ s.users v → (v ≠ root ∨ s.users v = none) ∧ x.holds (.global (.user none)) = true ∨
    ∃ u o, s.users v = some u ∧ s'.users v = some { u with opts := (userOptsOf e a x o).merge u.opts } ∧
      (x.holds (.global .system) = true ∨
        x.holds (.global (.user (some u.id))) = true ∧ (o.apply e {}).grantedAdmin = none ∧ (o.apply e {}).mustChange = none) ∧
      (u.isRoot = true → x.user.isRoot = true)

theorem Change.refl (s : Sec) (e : Env) (a : Bool) (x : Session) : Change s s e a x where
  tenants h := absurd rfl h
  members _ _ h := absurd rfl h
  roles _ _ h := absurd rfl h
  dbs _ _ h := absurd rfl h
  users _ h := absurd rfl h

theorem upd_ne {α β : Type} [DecidableEq α] {f : α → β} {a x : α} {b : β} (h : upd f a b x ≠ f x) : x = a := by
  unfold upd at h
  split at h
  · assumption
  · exact absurd rfl h

theorem upd2_ne {α β γ : Type} [DecidableEq α] [DecidableEq β] {f : α → β → γ} {a x : α} {b y : β} {c : γ}
    (h : upd2 f a b c x y ≠ f x y) : x = a ∧ y = b := by
  unfold upd2 at h
  split at h
  · assumption
  · exact absurd rfl h

theorem upd_same {α β : Type} [DecidableEq α] (f : α → β) (a : α) (b : β) : upd f a b a = b := by simp [upd]

theorem addMember_some {s s' : Sec} {t : Name} {i : Oid} {r : RoleId} (h : addMember s t i r = some s') :
    s' = { s with members := upd2 s.members t i (some r) } := by
  unfold addMember at h
  split at h
  · cases h; rfl
  · cases h

theorem setMember_some {s s' : Sec} {t : Name} {i : Oid} {r : RoleId} (h : setMember s t i r = some s') :
    s' = { s with members := upd2 s.members t i (some r) } := by
  unfold setMember at h
  split at h
  · cases h; rfl
  · cases h

theorem removeMember_some {s s' : Sec} {t : Name} {i : Oid} (h : removeMember s t i = some s') :
    s' = { s with members := upd2 s.members t i none } := by
  unfold removeMember at h
  split at h
  · cases h; rfl
  · cases h

theorem Change.ofMembers {s : Sec} {e : Env} {a : Bool} {x : Session} {t : Name} {T : Tenant} (i : Oid)
    (m : Option RoleId) (ht : s.tenants t = some T) (h : x.holds (.tenantObject .memberFull (some T.id)) = true) :
    Change s { s with members := upd2 s.members t i m } e a x where
  tenants h := absurd rfl h
  members t' i' hne := by
    have := upd2_ne hne
    rw [this.1]
    exact ⟨T, ht, h⟩
  roles _ _ h := absurd rfl h
  dbs _ _ h := absurd rfl h
  users _ h := absurd rfl h

theorem Change.ofRoles {s : Sec} {e : Env} {a : Bool} {x : Session} (n : Name) (r : Option (Role Name))
    (h : x.holds (.tenantObject .roleFull (some x.tenantId)) = true) :
    Change s { s with roles := upd2 s.roles x.tenant n r } e a x where
  tenants h := absurd rfl h
  members _ _ h := absurd rfl h
  roles t' n' hne := ⟨(upd2_ne hne).1, h⟩
  dbs _ _ h := absurd rfl h
  users _ h := absurd rfl h

theorem Change.ofDbs {s : Sec} {e : Env} {a : Bool} {x : Session} (d : Name) (b : Option Bool)
    (h : x.holds (dbRight x .write (some d)) = true) :
    Change s { s with dbs := upd2 s.dbs x.tenant d b } e a x where
  tenants h := absurd rfl h
  members _ _ h := absurd rfl h
  roles _ _ h := absurd rfl h
  dbs t' d' hne := by
    have := upd2_ne hne
    rw [this.2]
    exact ⟨this.1, h⟩
  users _ h := absurd rfl h

theorem Change.ofTenants {s : Sec} {e : Env} {a : Bool} {x : Session} (f : Name → Option Tenant)
    (h : x.holds (.global (.tenant none)) = true) : Change s { s with tenants := f } e a x where
  tenants _ := h
  members _ _ h := absurd rfl h
  roles _ _ h := absurd rfl h
  dbs _ _ h := absurd rfl h
  users _ h := absurd rfl h

theorem full_write {x : Session} {d : Option Name} (h : x.holds (dbRight x .full d) = true) :
    x.holds (dbRight x .write d) = true :=
  holds_mono h (by cases d <;> simp [dbRight, Priv.check, TenPriv.check, DbPriv.check])

theorem any_write {x : Session} {d : Name} (h : x.holds (dbRight x .write none) = true) :
    x.holds (dbRight x .write (some d)) = true :=
  holds_mono h (by simp [dbRight, Priv.check, TenPriv.check, DbPriv.check])

/-- What `planUser` asks for. -/
theorem planUser_set {e : Env} {s : Sec} {x : Session} {m : Bool} {n : Name} {o : UserOpt} {p : Planned}
    (h : planUser e s x m n (.set o) = some p) (hr : p.rights.all x.holds = true) :
    ∃ u, s.users n = some u ∧
      (m = true → x.user.id = u.id ∧ (o.apply e {}).hash.isSome = true) ∧ samePassword e o u = false ∧
      (u.isRoot = true → x.user.isRoot = true) ∧
      (x.holds (.global .system) = true ∨
        x.holds (.global (.user (some u.id))) = true ∧ (o.apply e {}).grantedAdmin = none ∧
          (o.apply e {}).mustChange = none) := by
  unfold planUser at h
  cases hu : s.users n with
  | none => simp [hu] at h
  | some u =>
    simp only [hu] at h
    split at h
    · cases h
    · rename_i h1
      split at h
      · cases h
      · rename_i h2
        split at h
        · cases h
        · rename_i h3
          split at h
          · cases h
          · cases h
            refine ⟨u, rfl, ?_, by simpa using h2, by simpa using h3, ?_⟩
            · intro hm; subst hm; simpa [Option.isSome_iff_ne_none] using h1
            · simp only [List.all_cons, List.all_nil, Bool.and_true] at hr
              split at hr
              · exact Or.inl hr
              · rename_i h4
                refine Or.inr ⟨hr, ?_⟩
                simpa [Option.isSome_iff_ne_none, and_comm] using h4

theorem planUser_exec {e : Env} {s s' : Sec} {a : Bool} {x : Session} {m : Bool} {n : Name} {op : UserOp} {p : Planned}
    (h : planUser e s x m n op = some p) (hr : p.rights.all x.holds = true)
    (hx : exec e s a x (.alterUser n op) = some s') : Change s s' e a x := by
  cases op with
  | renameTo m => simp [exec] at hx
  | set o =>
    obtain ⟨u, hu, -, -, h3, h4⟩ := planUser_set h hr
    simp only [exec, hu] at hx
    cases hx
    refine ⟨fun h => absurd rfl h, fun _ _ h => absurd rfl h, fun _ _ h => absurd rfl h, fun _ _ h => absurd rfl h, ?_⟩
    intro v hv
    have := upd_ne hv
    subst this
    exact Or.inr ⟨u, o, hu, upd_same _ _ _, h4, h3⟩

/-- The plan of a tenant's members asks for `memberFull` on the tenant. -/
theorem planTenant_member {s : Sec} {x : Session} {n : Name} {op : TenantOp} {p : Planned}
    (h : planTenant s n op = some p) (hr : p.rights.all x.holds = true) :
    (∃ T, s.tenants n = some T ∧ x.holds (.tenantObject .memberFull (some T.id)) = true) ∨
      ((∀ u r, op ≠ .addUser u r) ∧ (∀ u r, op ≠ .setUser u r) ∧ ∀ u, op ≠ .removeUser u) := by
  unfold planTenant at h
  cases ht : s.tenants n with
  | none => simp [ht] at h
  | some T =>
    simp only [ht] at h
    cases op <;> simp only [] at h
    all_goals first
      | (right
         refine ⟨fun _ _ h => ?_, fun _ _ h => ?_, fun _ h => ?_⟩ <;> cases h
         done)
      | (left
         split at h
         · cases h
           simp only [List.all_cons, List.all_nil, Bool.and_true] at hr
           exact ⟨T, rfl, hr⟩
         · cases h)

theorem planTenant_exec {e : Env} {s s' : Sec} {a : Bool} {x : Session} {n : Name} {op : TenantOp} {p : Planned}
    (h : planTenant s n op = some p) (hr : p.rights.all x.holds = true)
    (hx : exec e s a x (.alterTenant n op) = some s') : Change s s' e a x := by
  have hm := planTenant_member h hr
  have member : ∀ i m, s' = { s with members := upd2 s.members n i m } →
      (∃ T, s.tenants n = some T ∧ x.holds (.tenantObject .memberFull (some T.id)) = true) → Change s s' e a x := by
    rintro i m rfl ⟨T, hT, hh⟩
    exact Change.ofMembers i m hT hh
  cases op with
  | addUser u r =>
    simp only [exec] at hx
    cases hu : s.users u with
    | none => simp [hu] at hx
    | some d =>
      simp only [hu] at hx
      refine member _ _ (addMember_some hx) (hm.resolve_right fun hn => hn.1 _ _ rfl)
  | setUser u r =>
    simp only [exec] at hx
    cases hu : s.users u with
    | none => simp [hu] at hx
    | some d =>
      simp only [hu] at hx
      refine member _ _ (setMember_some hx) (hm.resolve_right fun hn => hn.2.1 _ _ rfl)
  | removeUser u =>
    simp only [exec] at hx
    cases hu : s.users u with
    | none => simp [hu] at hx
    | some d =>
      simp only [hu] at hx
      refine member _ _ (removeMember_some hx) (hm.resolve_right fun hn => hn.2.2 _ rfl)
  | _ =>
    simp only [exec] at hx
    repeat' (split at hx)
    all_goals first | (cases hx; done) | (cases hx; exact Change.refl _ _ _ _)

theorem planInner_exec {e : Env} {s s' : Sec} {a : Bool} {x : Session} {st : Stmt} {p : Planned}
    (h : planInner e s x st = some p) (hr : p.rights.all x.holds = true) (hx : exec e s a x st = some s') :
    Change s s' e a x := by
  cases st with
  | alterTenant n op => exact planTenant_exec h hr hx
  | alterUser n op => exact planUser_exec h hr hx
  | createDatabase d i =>
    simp only [planInner] at h
    split at h
    · cases h
    · cases h
      simp only [List.all_cons, List.all_nil, Bool.and_true] at hr
      simp only [exec] at hx
      repeat' (split at hx)
      all_goals first
        | (cases hx; done)
        | (cases hx; exact Change.refl _ _ _ _)
        | (cases hx; exact Change.ofDbs _ _ (any_write hr))
  | dropDatabase d =>
    simp only [planInner] at h
    split at h
    · cases h
    · cases h
      simp only [List.all_cons, List.all_nil, Bool.and_true] at hr
      simp only [exec] at hx
      split at hx
      · cases hx; exact Change.ofDbs _ _ (full_write hr)
      · cases hx
  | recoverDatabase d =>
    simp only [planInner] at h
    cases h
    simp only [List.all_cons, List.all_nil, Bool.and_true] at hr
    simp only [exec] at hx
    split at hx
    · cases hx; exact Change.ofDbs _ _ (full_write hr)
    · cases hx
  | createTenant n i =>
    simp only [planInner] at h
    cases h
    simp only [List.all_cons, List.all_nil, Bool.and_true] at hr
    simp only [exec] at hx
    split at hx
    · cases hx
    · cases hx; exact Change.ofTenants _ hr
  | dropTenant n =>
    simp only [planInner] at h
    split at h
    · cases h
    · cases h
      simp only [List.all_cons, List.all_nil, Bool.and_true] at hr
      simp only [exec] at hx
      split at hx
      · cases hx; exact Change.ofTenants _ hr
      · cases hx
  | recoverTenant n =>
    simp only [planInner] at h
    cases h
    simp only [List.all_cons, List.all_nil, Bool.and_true] at hr
    simp only [exec] at hx
    split at hx
    · cases hx; exact Change.ofTenants _ hr
    · cases hx
  | createUser n i os =>
    simp only [planInner] at h
    cases h
    simp only [List.all_cons, List.all_nil, Bool.and_true] at hr
    simp only [exec] at hx
    split at hx
    · cases hx
    · rename_i hn
      cases hx
      refine ⟨fun h => absurd rfl h, fun _ _ h => absurd rfl h, fun _ _ h => absurd rfl h, fun _ _ h => absurd rfl h, ?_⟩
      intro v hv
      have := upd_ne hv
      subst this
      refine Or.inl ⟨Or.inr ?_, hr⟩
      cases hs : s.users v with
      | none => rfl
      | some u => simp [hs] at hn
  | dropUser n =>
    simp only [planInner] at h
    cases h
    simp only [List.all_cons, List.all_nil, Bool.and_true] at hr
    simp only [exec] at hx
    split at hx
    · cases hx
    · rename_i hn
      split at hx
      · cases hx
        refine ⟨fun h => absurd rfl h, fun _ _ h => absurd rfl h, fun _ _ h => absurd rfl h, fun _ _ h => absurd rfl h, ?_⟩
        intro v hv
        have := upd_ne hv
        subst this
        exact Or.inl ⟨Or.inl hn, hr⟩
      · cases hx
  | createRole n i =>
    simp only [planInner] at h
    split at h
    · cases h
    · split at h
      · cases h
        simp only [List.all_cons, List.all_nil, Bool.and_true] at hr
        simp only [exec] at hx
        split at hx
        · cases hx
        · cases hx; exact Change.ofRoles _ _ hr
      · cases h
  | dropRole n =>
    simp only [planInner] at h
    split at h
    · cases h
    · cases h
      simp only [List.all_cons, List.all_nil, Bool.and_true] at hr
      simp only [exec] at hx
      split at hx
      · cases hx; exact Change.ofRoles _ _ hr
      · cases hx
  | grantRevoke g ps n =>
    simp only [planInner] at h
    split at h
    · cases h
    · cases h
      simp only [List.all_cons, List.all_nil, Bool.and_true] at hr
      simp only [exec] at hx
      split at hx
      · cases hx
      · split at hx
        · cases hx; exact Change.ofRoles _ _ hr
        · cases hx
  | _ =>
    simp only [exec] at hx
    cases hx
    exact Change.refl _ _ _ _

/-- Everything a request changes is covered by a right of the user. -/
theorem accept_exec {e : Env} {s s' : Sec} {a : Bool} {x : Session} {st : Stmt} {p : Planned}
    (h : accept e s a x st = some p) (hx : exec e s a x st = some s') : Change s s' e a x := by
  obtain ⟨hp, hr⟩ := accept_some h
  unfold plan at hp
  split at hp
  · split at hp
    · exact planUser_exec hp hr hx
    · cases hp
  · exact planInner_exec hp hr hx

end Verif.Plan
