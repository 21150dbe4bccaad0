import Verif.Catalog.Listing
/-!
# Texts of the catalogue and who may see roles
-/
namespace Verif.Catalog
open Verif.Auth Verif.Plan

/-- C190: the engines and kinds of columns are shown under the documented words. -/
theorem C190_words :
    ([Kind.tskv, .external, .stream].map Kind.engine = ["TSKV".toList, "EXTERNAL".toList, "STREAM".toList]) ∧
    ([ColKind.tag, .field, .time].map ColKind.text = ["TAG".toList, "FIELD".toList, "TIME".toList]) := by
  decide +kernel

/-- C190: tables of different engines, and columns of different kinds, are shown with different words. -/
theorem C190_words_differ (k k' : Kind) (c c' : ColKind) :
    (k.engine = k'.engine → k = k') ∧ (c.text = c'.text → c = c') := by
  cases k <;> cases k' <;> cases c <;> cases c' <;> decide +kernel

/-- C192: rights are shown under the documented words, different ones for different rights. -/
theorem C192_words : ([DbPriv.read, .write, .full].map privText = ["Read".toList, "Write".toList, "All".toList]) ∧
    ∀ p p', privText p = privText p' → p = p' := by
  refine ⟨by decide +kernel, ?_⟩
  intro p p'
  cases p <;> cases p' <;> decide +kernel

/-- C192: a member always sees the one role they have. -/
theorem C192_enabled (v : Viewer) (w : World) (r : RoleId) (h : get w.members v.id = some r) :
    enabledRows v w = [.enabled r.name] := by
  unfold enabledRows
  rw [h]

/-- C192: the owner of a tenant sees its roles. -/
theorem C192_owner (v : Viewer) (tid : Oid) (h : ∀ p ∈ (SysRole.owner.privs tid : List Right), p ∈ v.privs) :
    canRoles v tid = true := by
  unfold canRoles userCheck
  rw [List.any_eq_true]
  refine ⟨.tenantObject .roleFull (some tid), h _ (by simp [SysRole.privs]), ?_⟩
  simp [Priv.check, TenPriv.check]

/-- C192: a member of the tenant who holds no more than the rights of the system role `member` and rights on databases
does not see them. -/
theorem C192_no_roles (v : Viewer) (tid : Oid) (r : Role Name) (hs : r.sys ≠ some .owner)
    (h : ∀ p ∈ v.privs, p ∈ r.privs tid) : canRoles v tid = false := by
  cases hc : canRoles v tid with
  | false => rfl
  | true =>
    unfold canRoles userCheck at hc
    rw [List.any_eq_true] at hc
    obtain ⟨p, hp, hc⟩ := hc
    have hp := h p hp
    unfold Role.privs at hp
    rw [List.mem_append] at hp
    rcases hp with hp | hp
    · cases hsys : r.sys with
      | none => rw [hsys] at hp; cases hp
      | some s =>
        cases s with
        | owner => exact absurd hsys hs
        | member =>
          rw [hsys] at hp
          simp [SysRole.privs] at hp
          subst hp
          simp [Priv.check, TenPriv.check] at hc
    · obtain ⟨e, _, rfl⟩ := List.mem_map.1 hp
      simp [Priv.check, TenPriv.check] at hc

/-- A custom role that inherits from `member` and may write one database. -/
example : (⟨some .member, [("db".toList, .write)]⟩ : Role Name).sys ≠ some .owner := by simp

/-- C190: every table of `information_schema` is found under its own name. -/
theorem C190_names :
    ["DATABASES", "Tables", "columns", "enabled_roles", "roles", "database_privileges", "members", "resource_status"].map
      (fun t => route "t".toList "information_schema".toList t.toList) =
    [Info.databases, .tables, .columns, .enabledRoles, .roles, .databasePrivileges, .members, .resourceStatus].map
      (fun i => some (.info i)) := by decide +kernel

/-- C192: the tables of users and tenants are those of the system tenant. -/
theorem C192_cluster : route cnosdb clusterSchema "users".toList = some .users ∧
    route cnosdb clusterSchema "tenants".toList = some .tenants ∧
    ∀ t d n, sameIgnoringCase t cnosdb = false → route t d n ≠ some .users ∧ route t d n ≠ some .tenants := by
  refine ⟨by decide +kernel, by decide +kernel, ?_⟩
  intro t d n h
  unfold route
  rw [h]
  split
  · cases get infoNames (n.map Char.toLower) <;> simp
  · split
    · split <;> simp
    · simp

example : sameIgnoringCase "t".toList cnosdb = false := by decide +kernel

/-- C191: nothing is read from, and nothing is told of, a database that is dropped but not yet removed. -/
theorem C191_dropped (v : Viewer) (w : World) (db table : Name) (i : Db) (h : get w.dbs db = some i) (hi : i.hidden = true)
    (hp : route w.tenant db table = some .plain) :
    scan v w db table = none ∧ ∀ t, dbExists w db t = false := by
  constructor
  · unfold scan
    rw [hp, h]
    simp [hi]
  · intro t
    unfold dbExists
    rw [h]
    simp [hi]

example : route "t".toList "db".toList "m".toList = some .plain := by decide +kernel

end Verif.Catalog
