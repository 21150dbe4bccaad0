import Verif.Watch.CmdLegal
/-!
# Examples and refutations for C108 to C113
-/
namespace Verif.Watch

namespace Ex
def c : Name := "c".toList
def t : Name := "t".toList
def u : Name := "7".toList
def d : Name := "d".toList
def m : Name := "m".toList
def env : Env := ⟨0, 0, fun _ => true, id, id⟩
def opts : DbOpts := ⟨1, 1, 100, 1000, false, 0⟩
/-- A cluster with one data node, a user and a tenant. -/
def base : List (Env × Cmd) := [(env, .addNode c 1 1), (env, .metrics c 1 true 5), (env, .createUser c u u 0),
  (env, .createTenant c t false 0 none)]
/-- One member, one database and one table. -/
def cmds : List (Env × Cmd) := base ++ [(env, .addMember c t u "owner".toList), (env, .createDb c t d opts),
  (env, .createTable c t d m false 0 3), (env, .createBucket c t d 50)]
def s0 : Store := Store.init 10
end Ex

open Ex

/-! ## C107 to C109 -/

theorem cmds_fine : AllFine c t s0 cmds := by
  simp only [cmds, base, List.cons_append, List.nil_append, AllFine, Cmd.Fine]
  decide +kernel

/-- The commands of the example are legal, so `C108_follows_partial` and `C109_partial` apply to their histories. -/
example : Legal c t (history s0 cmds) := (C108_commands_legal (by decide) (by decide) 10 cmds cmds_fine).1

/-- A node that starts, opens the tenant, begins to watch it, and then polls after the member, the database, the table and the bucket
are created. -/
def exSteps : List Step := [.openTenant t, .manage, .poll] ++ ((history s0 cmds).drop 6).map .server ++ [.poll]

example : ((Sys.start 10 c ((history s0 cmds).take 6)).run 10 c exSteps).es = history s0 cmds := by decide +kernel

example : Calm 10 c (Sys.start 10 c ((history s0 cmds).take 6)) exSteps := by
  simp only [exSteps]
  have : ((history s0 cmds).drop 6).map Step.server = [.server (.op (.insert (KeyPath.member c t u) (.member "owner".toList))),
    .server (.op (.insert (KeyPath.db c t d) (.db d opts))), .server (.op (.insert (KeyPath.table c t d m) (.table d m false 0 3))),
    .server (.retain c 2), .server (.retain c 4),
    .server (.op (.insert (KeyPath.bucket c t d ['1']) (.bucket ⟨1, 0, 100, [⟨2, 1, 3, [⟨3, 1⟩]⟩]⟩)))] := by
    have h : (history s0 cmds).drop 6 = [(.op (.insert (KeyPath.member c t u) (.member "owner".toList))),
      (.op (.insert (KeyPath.db c t d) (.db d opts))), (.op (.insert (KeyPath.table c t d m) (.table d m false 0 3))),
      (.retain c 2), (.retain c 4),
      (.op (.insert (KeyPath.bucket c t d ['1']) (.bucket ⟨1, 0, 100, [⟨2, 1, 3, [⟨3, 1⟩]⟩]⟩)))] := by decide +kernel
    rw [h]; rfl
  rw [this]
  refine ⟨nofun, nofun, fun _ => ?_, nofun, nofun, nofun, nofun, nofun, nofun, fun _ => ?_, trivial⟩
  · decide +kernel
  · decide +kernel

/-- The tenant's cache after these steps: it shows the table. -/
example : (((Sys.start 10 c ((history s0 cmds).take 6)).run 10 c exSteps).node.tenants.get t).map
    (fun x => x.2.obs (.table d m)) = some (some (.table d m false 0 3)) := by decide +kernel

example : ((Sys.start 10 c ((history s0 cmds).take 6)).run 10 c exSteps).node.watchVer = (s0.commands cmds).ver := by decide +kernel

/-- **C108 refuted** for all histories: an update of a table whose database was dropped is stored, and comes to light when the database is
created again; a cache that followed all changes does not show it.  -/
theorem C108_refuted : ∃ (l1 l2 : List (Env × Cmd)) (data : TenantData),
    (s0.commands l1).toTenantData c t = some data ∧
    (((changes 0 (history s0 (l1 ++ l2))).filter fun e => decide ((s0.commands l1).ver < e.ver) && interested c [t] e).foldl
      (deliver c t) data).obs (.table d m) = none ∧
    (s0.commands (l1 ++ l2)).obs c t (.table d m) = some (.table d m false 1 4) := by
  refine ⟨cmds ++ [(env, .dropDb c t d), (env, .updateTable c t d m false 1 4)], [(env, .createDb c t d opts)], ?_⟩
  have h : ((s0.commands (cmds ++ [(env, .dropDb c t d), (env, .updateTable c t d m false 1 4)])).toTenantData c t).isSome = true := by
    decide +kernel
  obtain ⟨data, hd⟩ := Option.isSome_iff_exists.1 h
  refine ⟨data, hd, ?_, by decide +kernel⟩
  have h2 : ((s0.commands (cmds ++ [(env, .dropDb c t d), (env, .updateTable c t d m false 1 4)])).toTenantData c t).map (fun data =>
    (((changes 0 (history s0 (cmds ++ [(env, .dropDb c t d), (env, .updateTable c t d m false 1 4)] ++ [(env, .createDb c t d opts)]))).filter
      fun e => decide ((s0.commands (cmds ++ [(env, .dropDb c t d), (env, .updateTable c t d m false 1 4)])).ver < e.ver) &&
        interested c [t] e).foldl (deliver c t) data).obs (.table d m)) = some none := by decide +kernel
  rw [hd] at h2
  exact Option.some.inj h2

/-- The commands of the race: a member is removed. -/
def raceCmds : List (Env × Cmd) := cmds ++ [(env, .removeMember c t u)]

/-- The race: between the reading of the tenant and the moment at which it is watched, the member is removed and a request is answered. -/
def raceSteps : List Step := [.openTenant t, .server (.op (.remove (KeyPath.member c t u))), .poll, .manage, .poll]

/-- **C109 refuted** for all schedules: the node has the version of the store, nothing is pending, it watches the tenant, and yet
a member that was removed is a member for it. -/
theorem C109_refuted : Legal c t ((Sys.start 10 c (history s0 cmds)).run 10 c raceSteps).es ∧
    let y := (Sys.start 10 c (history s0 cmds)).run 10 c raceSteps
    y.node.watchVer = (Store.run 10 y.es).ver ∧ y.node.pending = [] ∧ t ∈ y.node.watchTenants ∧
    (Store.run 10 y.es).obs c t (.member u) = none ∧
    ∃ r data, y.node.tenants.get t = some (r, data) ∧ data.obs (.member u) = some (.member "owner".toList) := by
  have hfine : AllFine c t s0 raceCmds := by
    simp only [raceCmds, cmds, base, List.cons_append, List.nil_append, AllFine, Cmd.Fine]
    decide +kernel
  have hes : ((Sys.start 10 c (history s0 cmds)).run 10 c raceSteps).es = history s0 raceCmds := by decide +kernel
  refine ⟨?_, by decide +kernel, by decide +kernel, by decide +kernel, by decide +kernel, ?_⟩
  · rw [hes]
    exact (C108_commands_legal (by decide) (by decide) 10 raceCmds hfine).1
  · have h : (((Sys.start 10 c (history s0 cmds)).run 10 c raceSteps).node.tenants.get t).map (fun x => x.2.obs (.member u)) =
        some (some (.member "owner".toList)) := by decide +kernel
    obtain ⟨x, hx, hx2⟩ := Option.map_eq_some_iff.1 h
    exact ⟨x.1, x.2, hx, hx2⟩

/-! ## C110: the record of a tenant -/

/-- A change never touches the record of a tenant: neither its options nor whether it is there. -/
theorem processEntries_record (c t : Name) (es : List Entry) (n : Node) :
    ((es.foldl (Node.processEntry c) n).tenants.get t).map Prod.fst = (n.tenants.get t).map Prod.fst := by
  rw [(processEntries_tenant c t es n).1, Option.map_map]
  rfl

/-- **C110, the negative.**  A node that uses a tenant keeps the tenant and the record it has of it, whatever is done to the tenant in the
store, until it is told to read everything again. -/
theorem C110_record_fixed (c t : Name) (n : Node) (s : Store)
    (h : (s.readChangeLogs c n.watchTenants n.watchVer).fullSync = false) :
    ((n.poll c s).tenants.get t).map Prod.fst = (n.tenants.get t).map Prod.fst := by
  rw [Node.poll]
  simp only [h, Bool.false_eq_true, if_false]
  exact processEntries_record c t _ n

/-- C110: a tenant that is opened has the record that is stored, and no tenant is opened that is not stored or is hidden. -/
theorem C110_open_partial (c : Name) (n : Node) (s : Store) (t : Name) (hn : n.tenants.get t = none) {r : Val} {data : TenantData}
    (h : (n.openTenant c s t).tenants.get t = some (r, data)) :
    s.db.get (KeyPath.tenant c t) = some r ∧ s.toTenantData c t = some data ∧ ∃ nm o l, r = .tenant nm false o l := by
  rw [Node.openTenant, hn] at h
  simp only [Option.isSome_none, Bool.false_eq_true, if_false] at h
  cases hk : s.db.get (KeyPath.tenant c t) with
  | none => simp [hk, hn] at h
  | some v =>
    cases v with
    | tenant nm hid o l =>
      cases hid with
      | true => simp [hk, hn] at h
      | false =>
        rw [hk] at h
        simp only at h
        cases hd : s.toTenantData c t with
        | none => rw [hd] at h; simp [hn] at h
        | some d' =>
          rw [hd] at h
          simp only [AMap.get_set, if_true, Option.some.injEq, Prod.mk.injEq] at h
          obtain ⟨rfl, rfl⟩ := h
          exact ⟨rfl, rfl, nm, o, l, rfl⟩
    | _ => simp [hk, hn] at h

/-- The steps of a node that opens and watches the tenant, and polls after the commands `l`. -/
def watchAfter (l : List (Env × Cmd)) : Sys :=
  (Sys.start 10 c (history s0 cmds)).run 10 c
    ([.openTenant t, .manage] ++ ((history (s0.commands cmds) l).map .server) ++ [.poll])

/-- **C110 refuted.**  The tenant is changed or dropped, the node has the version of the store, and still has the tenant with its old
record.  -/
theorem C110_refuted :
    ((watchAfter [(env, .alterTenant c t false 9 (some 3))]).node.watchVer =
        (Store.run 10 (watchAfter [(env, .alterTenant c t false 9 (some 3))]).es).ver ∧
      (Store.run 10 (watchAfter [(env, .alterTenant c t false 9 (some 3))]).es).db.get (KeyPath.tenant c t) =
        some (.tenant t false 9 (some 3)) ∧
      ((watchAfter [(env, .alterTenant c t false 9 (some 3))]).node.tenants.get t).map Prod.fst = some (.tenant t false 0 none)) ∧
    ((watchAfter [(env, .dropTenant c t)]).node.watchVer = (Store.run 10 (watchAfter [(env, .dropTenant c t)]).es).ver ∧
      (Store.run 10 (watchAfter [(env, .dropTenant c t)]).es).db.get (KeyPath.tenant c t) = none ∧
      ((watchAfter [(env, .dropTenant c t)]).node.tenants.get t).map Prod.fst = some (.tenant t false 0 none)) := by
  decide +kernel

/-! ## C111: dropping -/

/-- The hypotheses of `C111_drop_db` are met, and the database has something in it. -/
example : (s0.commands cmds).contains (KeyPath.table c t d m) = true ∧
    (s0.commands (cmds ++ [(env, .dropDb c t d)])).contains (KeyPath.table c t d m) = false := by decide +kernel

theorem removeAll_ok {s : Store} {ks : List Key} (h : (s.removeAll ks).2 = true) :
    (s.removeAll ks).1 = ks.map fun k => Event.op (.remove k) := by
  induction ks with
  | nil => rfl
  | cons k ks ih =>
    rw [Store.removeAll] at h ⊢
    split
    · rename_i hk
      rw [if_pos hk] at h
      simp only [List.map_cons]
      rw [ih h]
    · rename_i hk
      rw [if_neg hk] at h
      cases h

/-- The keys that dropping a tenant removes. -/
theorem dropTenant_events (env : Env) (s : Store) (c t : Name) (h : (s.exec env (.dropTenant c t)).2 = true) :
    ∃ ms us roles, s.readMembers c t = some ms ∧ s.readUsers c = some us ∧ s.readRoles c t = some roles ∧
      (s.exec env (.dropTenant c t)).1 = (((us.filter fun u => ms.contains u.2).map fun u => KeyPath.member c t u.1) ++
        (roles.map fun n => KeyPath.role c t n) ++ [KeyPath.tenant c t, KeyPath.limiter c t]).map fun k => Event.op (.remove k) := by
  simp only [Store.exec] at h ⊢
  cases hms : s.readMembers c t with
  | none => simp [hms] at h
  | some ms =>
  cases hus : s.readUsers c with
  | none => simp [hms, hus] at h
  | some us =>
  simp only [hms, hus] at h ⊢
  split at h
  · rename_i h1
    rw [if_pos h1]
    cases hr : s.readRoles c t with
    | none => simp [hr] at h
    | some roles =>
      simp only [hr] at h ⊢
      split at h
      · rename_i h2
        refine ⟨ms, us, roles, rfl, rfl, rfl, ?_⟩
        rw [if_pos h2, removeAll_ok h1, removeAll_ok h2]
        simp [List.map_append]
      · cases h
  · rename_i h1
    exact absurd h (by simp)

/-- C111, tenants: what dropping a tenant does remove: its record, its limiter, its roles, and its members who are users. -/
theorem C111_drop_tenant_partial (env : Env) (s : Store) {c t : Name} (hc : Plain c) (ht : Plain t)
    (h : (s.exec env (.dropTenant c t)).2 = true) :
    (s.command env (.dropTenant c t)).db.get (KeyPath.tenant c t) = none ∧
    (s.command env (.dropTenant c t)).db.get (KeyPath.limiter c t) = none ∧
    (∀ r oid p, GoodName r → s.db.get (KeyPath.role c t r) = some (.role oid r p) →
      (s.command env (.dropTenant c t)).db.get (KeyPath.role c t r) = none) ∧
    (∀ u id o, GoodName u → GoodName id → s.db.get (KeyPath.user c u) = some (.user id u o) →
      (s.command env (.dropTenant c t)).db.get (KeyPath.member c t id) = none) := by
  obtain ⟨ms, us, roles, hms, hus, hroles, hev⟩ := dropTenant_events env s c t h
  obtain ⟨p1, p2, p3, p4, p5, p6, p7, p8, p9, p10, p11, p12, p13⟩ := plain_consts
  have hget : ∀ k, k ≠ KeyPath.version → (s.command env (.dropTenant c t)).db.get k =
      if k ∈ (((us.filter fun u => ms.contains u.2).map fun u => KeyPath.member c t u.1) ++
        (roles.map fun n => KeyPath.role c t n) ++ [KeyPath.tenant c t, KeyPath.limiter c t]) then none else s.db.get k := by
    intro k hk
    rw [Store.command, hev, removes_get _ _ _ hk]
  have hv : splitSlash KeyPath.version = [[], "data_version".toList] := by decide
  refine ⟨?_, ?_, ?_, ?_⟩
  · rw [hget, if_pos (by simp)]
    intro hh
    rw [← hh, KeyPath.tenant, splitSlash_path (by simp [*])] at hv
    simp at hv
  · rw [hget, if_pos (by simp)]
    intro hh
    rw [← hh, KeyPath.limiter, splitSlash_path (by simp [*])] at hv
    simp at hv
  · intro r oid p hr hk
    rw [hget (KeyPath.role c t r) (Item.key_ne_version hc ht (i := .role r) hr.2), if_pos]
    have : r ∈ roles := by
      rw [Store.readRoles, Option.map_eq_some_iff] at hroles
      obtain ⟨l, hl, rfl⟩ := hroles
      rw [Store.values, Option.map_eq_some_iff] at hl
      obtain ⟨m, hm, rfl⟩ := hl
      have hg := childrenData_get (last_roles c t) hm r
      rw [if_pos hr, KeyPath.roles, child_path] at hg
      have hg2 : m.get r = some (.role oid r p) := by rw [hg]; exact hk
      rw [List.mem_filterMap]
      exact ⟨.role oid r p, List.mem_map.2 ⟨_, AMap.mem_entries.2 hg2, rfl⟩, rfl⟩
    exact List.mem_append_left _ (List.mem_append_right _ (List.mem_map.2 ⟨r, this, rfl⟩))
  · intro u id o hu hid hk
    rw [hget (KeyPath.member c t id) (Item.key_ne_version hc ht (i := .member id) hid.2)]
    split
    · rfl
    · rename_i hn
      cases hmem : s.db.get (KeyPath.member c t id) with
      | none => rfl
      | some v =>
        exfalso
        apply hn
        rw [Store.readMembers, hus] at hms
        cases hcm : s.childrenData Val.isMember (KeyPath.members c t) with
        | none => simp [hcm] at hms
        | some mm =>
          simp only [hcm, Option.some.injEq] at hms
          have hu2 : (id, u) ∈ us := by
            rw [Store.readUsers, Option.map_eq_some_iff] at hus
            obtain ⟨l, hl, rfl⟩ := hus
            rw [Store.values, Option.map_eq_some_iff] at hl
            obtain ⟨m, hm, rfl⟩ := hl
            have hg := childrenData_get (getLast_path [c] sUsers (by decide) (by decide)) hm u
            rw [if_pos hu, child_path] at hg
            have hg2 : m.get u = some (.user id u o) := by rw [hg]; exact hk
            rw [List.mem_filterMap]
            exact ⟨.user id u o, List.mem_map.2 ⟨_, AMap.mem_entries.2 hg2, rfl⟩, rfl⟩
          have hg := childrenData_get (last_members c t) hcm id
          rw [if_pos hid, KeyPath.members, child_path] at hg
          have hg2 : mm.get id = some v := by rw [hg]; exact hmem
          have hm2 : u ∈ ms := by
            rw [← hms]
            refine List.mem_map.2 ⟨(id, u), List.mem_filter.2 ⟨hu2, ?_⟩, rfl⟩
            simp [hg2]
          refine List.mem_append_left _ (List.mem_append_left _ (List.mem_map.2 ⟨(id, u), List.mem_filter.2 ⟨hu2, ?_⟩, rfl⟩))
          simpa using hm2

/-- **C111 refuted** for users, tenants and roles.  A dropped user is still a member of the tenant; the database and the table of a
dropped tenant are still stored, and a new tenant with the name has them; a member keeps a role that was dropped. -/
theorem C111_refuted :
    ((s0.commands (cmds ++ [(env, .dropUser c u)])).contains (KeyPath.user c u) = false ∧
      (s0.commands (cmds ++ [(env, .dropUser c u)])).contains (KeyPath.member c t u) = true) ∧
    ((s0.commands (cmds ++ [(env, .dropTenant c t)])).contains (KeyPath.tenant c t) = false ∧
      (s0.commands (cmds ++ [(env, .dropTenant c t)])).contains (KeyPath.table c t d m) = true ∧
      (s0.commands (cmds ++ [(env, .dropTenant c t), (env, .createTenant c t false 0 none)])).obs c t (.table d m) =
        some (.table d m false 0 3)) ∧
    ((s0.commands (cmds ++ [(env, .createRole c t m 0), (env, .reassign c t u m), (env, .dropRole c t m)])).contains (KeyPath.role c t m) =
        false ∧
      (s0.commands (cmds ++ [(env, .createRole c t m 0), (env, .reassign c t u m), (env, .dropRole c t m)])).obs c t (.member u) =
        some (.member m)) := by
  decide +kernel

/-! ## C112: replicas -/

/-- Commands whose writes depend on nothing but the state and the command. -/
def Cmd.pure : Cmd → Bool
  | .createBucket .. | .createRole .. | .limiterRequest .. | .dropUser .. | .dropTenant .. => false
  | _ => true

theorem dbValid_env (env env' : Env) (h : ∀ l, (env.order l).Perm l) (h' : ∀ l, (env'.order l).Perm l) (s : Store) (c : Name) (o : DbOpts) :
    s.dbValid env c o = s.dbValid env' c o := by
  simp only [Store.dbValid, Store.validNodes]
  cases s.childrenData Val.isNode (KeyPath.nodes c) with
  | none => rfl
  | some ns =>
    cases s.childrenData Val.isMetrics (KeyPath.nodesMetrics c) with
    | none => rfl
    | some ms =>
      simp only [List.length_map]
      rw [(Sort.sortBy_perm _ _).length_eq, (Sort.sortBy_perm _ _).length_eq, (h _).length_eq, (h' _).length_eq]

/-- **C112.**  Two replicas that apply the same commands hold the same metadata, whatever the clock, the ids drawn and the servers that
answer: for commands that create no bucket and no role, ask no limiter, and drop no user or tenant. -/
theorem C112_partial (l l' : List (Env × Cmd)) (hcmd : l.map Prod.snd = l'.map Prod.snd) (hp : ∀ e ∈ l, e.2.pure = true)
    (ho : ∀ e ∈ l ++ l', ∀ x, (e.1.order x).Perm x) (s : Store) : s.commands l = s.commands l' := by
  induction l generalizing l' s with
  | nil =>
    cases l' with
    | nil => rfl
    | cons _ _ => simp at hcmd
  | cons e l ih =>
    cases l' with
    | nil => simp at hcmd
    | cons e' l' =>
      simp only [List.map_cons, List.cons.injEq] at hcmd
      have hstep : s.command e.1 e.2 = s.command e'.1 e'.2 := by
        rw [← hcmd.1]
        have hv := fun c o => dbValid_env e.1 e'.1 (ho e (by simp)) (ho e' (by simp)) s c o
        have hpe := hp e List.mem_cons_self
        rw [Store.command, Store.command]
        cases hc : e.2 <;> rw [hc] at hpe <;> simp only [Cmd.pure, Bool.false_eq_true] at hpe <;> simp only [Store.exec, hv]
      have := ih l' hcmd.2 (fun x hx => hp x (List.mem_cons_of_mem _ hx)) (by
        intro x hx
        rcases List.mem_append.1 hx with hx | hx
        · exact ho x (by simp [hx])
        · exact ho x (by simp [hx])) (s.command e.1 e.2)
      rw [Store.commands, List.foldl_cons]
      rw [Store.commands] at this
      rw [this, hstep]
      rfl

/-- The hypotheses are met by the commands of the example without the bucket. -/
example : ∀ e ∈ base ++ [(env, Cmd.createDb c t d opts), (env, .createTable c t d m false 0 3)], e.2.pure = true := by decide

/-- A second replica, at another time, from which the data node cannot be reached. -/
def env2 : Env := ⟨1, 5000, fun _ => false, id, id⟩

/-- **C112 refuted** for all commands: two replicas that apply the same commands from the same state have different roles, and a bucket is
there on one of them only. -/
theorem C112_refuted :
    (s0.commands base).command env (.createRole c t m 0) ≠ (s0.commands base).command env2 (.createRole c t m 0) ∧
    ((s0.commands (cmds.take 7)).command env (.createBucket c t d 50)).contains (KeyPath.bucket c t d ['1']) = true ∧
    ((s0.commands (cmds.take 7)).command env2 (.createBucket c t d 50)).contains (KeyPath.bucket c t d ['1']) = false := by
  refine ⟨?_, by decide +kernel, by decide +kernel⟩
  intro h
  have := congrArg (fun s : Store => s.db.get (KeyPath.role c t m)) h
  revert this
  decide +kernel

/-! ## C113: keys -/

/-- The objects of a cluster that are stored under a key of their own. -/
inductive Obj where
  | tenant (t : Name)
  | limiter (t : Name)
  | user (u : Name)
  | node (n : Name)
  | nodeMetrics (n : Name)
  | resource (n : Name)
  | query (n : Name)
  | ids
  | item (t : Name) (i : Item)
deriving DecidableEq

def Obj.key (c : Name) : Obj → Key
  | .tenant t => KeyPath.tenant c t
  | .limiter t => KeyPath.limiter c t
  | .user u => KeyPath.user c u
  | .node n => KeyPath.node c n
  | .nodeMetrics n => KeyPath.nodeMetrics c n
  | .resource n => KeyPath.resource c n
  | .query n => KeyPath.query c n
  | .ids => KeyPath.incrId c
  | .item t i => i.key c t

def Obj.Plain : Obj → Prop
  | .tenant t | .limiter t | .user t | .node t | .nodeMetrics t | .resource t | .query t => Watch.Plain t
  | .ids => True
  | .item t i => Watch.Plain t ∧ i.Plain

/-- The parts of the key of an object. -/
def Obj.segs (c : Name) : Obj → List Name
  | .tenant t => [c, sTenants, t]
  | .limiter t => [c, sTenants, t, sLimiter]
  | .user u => [c, sUsers, u]
  | .node n => [c, sNodes, n]
  | .nodeMetrics n => [c, sMetrics, n]
  | .resource n => [c, sResource, n]
  | .query n => [c, sQueries, n]
  | .ids => [c, sIncr]
  | .item t i => i.segs c t

/-- The object with a key. -/
def Obj.ofSegs : List Name → Option (Name × Obj)
  | [c, _] => some (c, .ids)
  | [c, k, n] =>
    if k = sTenants then some (c, .tenant n) else if k = sUsers then some (c, .user n) else if k = sNodes then some (c, .node n)
    else if k = sMetrics then some (c, .nodeMetrics n) else if k = sResource then some (c, .resource n)
    else some (c, .query n)
  | [c, _, t, _] => some (c, .limiter t)
  | [c, _, t, k, x] =>
    if k = sMembers then some (c, .item t (.member x)) else if k = sRoles then some (c, .item t (.role x)) else some (c, .item t (.db x))
  | [c, _, t, _, x, k, y] => if k = sSchemas then some (c, .item t (.table x y)) else some (c, .item t (.bucket x y))
  | _ => none

theorem Obj.ofSegs_segs (c : Name) (o : Obj) : Obj.ofSegs (o.segs c) = some (c, o) := by
  cases o with
  | item t i => cases i <;> rfl
  | _ => rfl

/-- **C113.**  Different objects of different or the same clusters are stored under different keys, when no name has a slash. -/
theorem C113_partial {c c' : Name} (hc : Plain c) (hc' : Plain c') {o o' : Obj} (ho : o.Plain) (ho' : o'.Plain)
    (h : o.key c = o'.key c') : c = c' ∧ o = o' := by
  have hp : ∀ {c : Name} {o : Obj}, Plain c → o.Plain → o.key c = path (o.segs c) ∧ ∀ s ∈ o.segs c, Plain s := by
    intro c o hc ho
    obtain ⟨p1, p2, p3, p4, p5, p6, p7, p8, p9, p10, p11, p12, p13⟩ := plain_consts
    cases o with
    | item t i =>
      obtain ⟨h1, h2⟩ := ho
      cases i <;> simp only [Item.Plain] at h2 <;> exact ⟨rfl, by simp [Obj.segs, Item.segs, *]⟩
    | ids => exact ⟨rfl, by simp [Obj.segs, *]⟩
    | _ => simp only [Obj.Plain] at ho; exact ⟨rfl, by simp [Obj.segs, *]⟩
  obtain ⟨e1, q1⟩ := hp hc ho
  obtain ⟨e2, q2⟩ := hp hc' ho'
  rw [e1, e2] at h
  have hs := path_inj q1 q2 h
  have := congrArg Obj.ofSegs hs
  rw [Obj.ofSegs_segs, Obj.ofSegs_segs, Option.some.injEq, Prod.mk.injEq] at this
  exact this

/-- **C113 refuted** with a slash in a name: a table and a database have the same key; and a table whose name has a slash, which a
write may create, is stored but is not found when the tenant is read. -/
theorem C113_refuted :
    (Obj.item t (.table d m)).key c = (Obj.item t (.db "d/schemas/m".toList)).key c ∧
    ((s0.commands cmds).exec env (.createTable c t d "a/b".toList false 0 3)).2 = true ∧
    (((s0.commands cmds).command env (.createTable c t d "a/b".toList false 0 3)).toTenantData c t).map
      (fun x => x.obs (.table d "a/b".toList)) = some none := by
  decide +kernel

end Verif.Watch
