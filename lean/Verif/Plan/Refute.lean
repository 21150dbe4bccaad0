import Verif.Plan.Who
/-!
# C124, C126, C127, C128: what does not hold, and examples
-/
namespace Verif.Plan
open Verif.Auth

def t1 : Name := "t1".toList
def t2 : Name := "t2".toList
def dbA : Name := "a".toList
def dbB : Name := "b".toList
def tab : Name := "m".toList
def alice : Name := "alice".toList
def bob : Name := "bob".toList
def carol : Name := "carol".toList
def dave : Name := "dave".toList
def erin : Name := "erin".toList
def readerRole : Name := "reader".toList
def makerRole : Name := "maker".toList

/-- Every database `a`, `b` has a table `m`; query 7 is that of the root user; the hash of a password is itself with a
sign in front. -/
def world : Env where
  runs q := if q = 7 then some 1 else none
  hasTable _ d t := (d = dbA || d = dbB) && t = tab
  hash p := '$' :: p
  verify p h := h = '$' :: p

/-- Alice owns `t1`, Bob is a member, Carol may read database `a`, Dave may do everything in database `a`, Erin is a
member who must change the password; nobody of them has anything in `t2`. -/
def sec : Sec where
  users n :=
    if n = root then some ⟨1, {}, true⟩ else if n = alice then some ⟨2, {}, false⟩
    else if n = bob then some ⟨3, {}, false⟩ else if n = carol then some ⟨4, {}, false⟩
    else if n = dave then some ⟨5, {}, false⟩
    else if n = erin then some ⟨6, { hash := some "$old".toList, mustChange := some true }, false⟩ else none
  tenants n :=
    if n = cnosdb then some ⟨10, false⟩ else if n = t1 then some ⟨11, false⟩
    else if n = t2 then some ⟨12, false⟩ else none
  members t i :=
    if t = t1 then
      if i = 2 then some (.system .owner) else if i = 3 ∨ i = 6 then some (.system .member)
      else if i = 4 then some (.custom readerRole) else if i = 5 then some (.custom makerRole) else none
    else none
  roles t n :=
    if t = t1 then
      if n = readerRole then some ⟨none, [(dbA, .read)]⟩
      else if n = makerRole then some ⟨none, [(dbA, .full)]⟩ else none
    else none
  dbs t d := if (t = t1 ∨ t = t2) ∧ (d = dbA ∨ d = dbB) then some false else none

def req (u : Name) (st : Stmt) : Req := ⟨u, t1, dbA, st⟩

/-- The effects of a request, if it succeeds. -/
def done (s : Sec) (r : Req) : Option (List Effect) := (step world true s r).map (·.1)
def after (s : Sec) (r : Req) : Sec := match step world true s r with | some (_, s') => s' | none => s

def sessionOf (u : Name) : Option Session := session sec u t1 dbA
/-- Whether the user of the session has a right in a tenant, as a truth value. -/
def has (u t : Name) (p : TenPriv Name) : Bool :=
  match sessionOf u, sec.tenants t with
  | some x, some T => x.holds (.tenantObject p (some T.id))
  | _, _ => false

theorem not_in {u t : Name} {p : TenPriv Name} {x : Session} (hx : sessionOf u = some x) (h : has u t p = false) :
    ¬ In sec x t p := by
  rintro ⟨T, hT, hh⟩
  unfold has at h
  rw [hx, hT] at h
  simp only at h
  rw [hh] at h
  cases h

theorem done_session {u : Name} {st : Stmt} {es : List Effect} (h : done sec (req u st) = some es) :
    ∃ x, sessionOf u = some x := by
  unfold done at h
  simp only [Option.map_eq_some_iff] at h
  obtain ⟨⟨es', s'⟩, h1, -⟩ := h
  obtain ⟨x, -, hx, -⟩ := step_some h1
  exact ⟨x, hx⟩

/-- C124 refuted: a user with all rights on the database `a` of one tenant creates an external table in the database
`a` of *another* tenant, of which they are not a member, by writing that tenant's name in front. -/
theorem C124_external_refuted :
    done sec (req dave (.createExternal [t2, dbA, tab])) = some [.tables t2 dbA, .readFile] ∧
      session sec dave t2 dbA = none ∧
      ∃ x, sessionOf dave = some x ∧ ¬ May world sec x (.tables t2 dbA) := by
  have h : done sec (req dave (.createExternal [t2, dbA, tab])) = some [.tables t2 dbA, .readFile] := by decide +kernel
  obtain ⟨x, hx⟩ := done_session h
  have hn : (session sec dave t2 dbA).isNone = true := by decide +kernel
  exact ⟨h, by simpa using hn, x, hx, not_in hx (by decide +kernel)⟩

/-- C124 refuted: SHOW SERIES with a subquery in its condition reads a database the user has no right to; the same
subquery in a SELECT is refused. -/
theorem C124_show_refuted :
    done sec (req carol (.showSeries [dbA, tab] [[dbB, tab]])) = some [.read t1 dbA, .read t1 dbB] ∧
      done sec (req carol (.query [[dbA, tab], [dbB, tab]])) = none ∧
      ∃ x, sessionOf carol = some x ∧ ¬ May world sec x (.read t1 dbB) := by
  have h : done sec (req carol (.showSeries [dbA, tab] [[dbB, tab]])) = some [.read t1 dbA, .read t1 dbB] := by
    decide +kernel
  obtain ⟨x, hx⟩ := done_session h
  exact ⟨h, by decide +kernel, x, hx, not_in hx (by decide +kernel)⟩

/-- C124 refuted: any user ends any running query, here that of the root user. -/
theorem C124_kill_refuted :
    done sec (req carol (.kill 7)) = some [.kill 7] ∧
      ∃ x, sessionOf carol = some x ∧ ¬ May world sec x (.kill 7) := by
  have h : done sec (req carol (.kill 7)) = some [.kill 7] := by decide +kernel
  obtain ⟨x, hx⟩ := done_session h
  refine ⟨h, x, hx, ?_⟩
  have h1 : (match sessionOf carol with
    | some x => !(decide (world.runs 7 = some x.user.id)) && !x.holds (.global .system)
    | none => false) = true := by decide +kernel
  rw [hx] at h1
  simp only [Bool.and_eq_true, Bool.not_eq_true', decide_eq_false_iff_not] at h1
  rintro (h2 | h2)
  · exact h1.1 h2
  · rw [h1.2] at h2; cases h2

/-- C124 refuted: a user without any right on any database writes files on the server: `COPY INTO 'file:…' FROM
(SELECT 1)`. -/
theorem C124_file_refuted :
    done (after sec (req alice (.dropRole readerRole))) (req carol (.copyIntoLocation [])) = some [.writeFile] ∧
      (match session (after sec (req alice (.dropRole readerRole))) carol t1 dbA with
        | some x => x.rights
        | none => []) = [.global (.user (some 4))] := by
  constructor <;> decide +kernel

/-- C124 refuted: the requests for traces of spans read a database without the right to it. -/
theorem C124_traces_refuted :
    http world sec true (some carol) (.traces t1 dbB) = some [.read t1 dbB] ∧
      has carol t1 (.database .read (some dbB)) = false := by
  constructor <;> decide +kernel

/-- C124 refuted: the definitions of all tenants, users, databases and tables are given to anybody, without login. -/
theorem C124_ddl_refuted (e : Env) (s : Sec) (a : Bool) : (http e s a none .dumpDdl).isSome = true := rfl

/-- The statements of C124 at work: what is accepted and what is refused. -/
example :
    done sec (req carol (.query [[tab]])) = some [.read t1 dbA] ∧
    done sec (req carol (.query [[dbB, tab]])) = none ∧
    done sec (req carol (.insert [tab] [])) = none ∧
    done sec (req dave (.insert [tab] [[tab]])) = some [.write t1 dbA, .read t1 dbA] ∧
    done sec (req dave (.insert [tab] [[dbB, tab]])) = none ∧
    done sec (req bob (.insert [tab] [])) = none ∧
    done sec (req bob (.createDatabase "c".toList false)) = none ∧
    done sec (req alice (.createDatabase "c".toList false)) = some [.createDb t1 "c".toList] ∧
    done sec (req alice (.alterTenant t2 (.addUser alice ownerName))) = none ∧
    done sec (req alice (.alterTenant t1 (.addUser root ownerName))) = some [.members t1] ∧
    done sec (req alice (.createTenant "t3".toList 13)) = none ∧
    done sec (req dave (.grantRevoke true [(.full, dbB)] makerRole)) = none ∧
    done sec (req dave (.explain (.query [[dbB, tab]]))) = none ∧
    done sec (req bob (.explain (.query [[dbB, tab]]))) = some [.read t1 dbB] ∧
    done sec (req dave (.createExternal [dbA, tab])) = some [.tables t1 dbA, .readFile] ∧
    done sec (req dave (.dropTable [t2, dbA, tab])) = none := by
  decide +kernel

/-- The hypothesis of C124 for members: Bob's session. -/
example : ∃ x, sessionOf bob = some x ∧ ReadOnly x := by
  cases h : sessionOf bob with
  | none =>
    have : (sessionOf bob).isSome = true := by decide +kernel
    rw [h] at this; cases this
  | some x =>
    refine ⟨x, rfl, ?_⟩
    have : (match sessionOf bob with
      | some x => decide (x.rights = userPrivs x.user.id (SysRole.privs x.tenantId .member))
      | none => false) = true := by decide +kernel
    rw [h] at this
    simpa only [decide_eq_true_eq, ReadOnly] using this

/-- The hypotheses of C125: Alice, owner, changes Bob's rights; Dave and Carol are weak. -/
example : power (after sec (req alice (.alterTenant t1 (.setUser bob ownerName)))) bob t1 ≠ power sec bob t1 ∧
    power (run world true sec
      [req dave (.alterTenant t1 (.setUser dave ownerName)), req dave (.alterUser dave (.set (.grantedAdmin true))),
        req carol (.grantRevoke true [(.full, dbA)] readerRole), req carol (.alterUser carol (.set (.password "x".toList)))])
      dave t1 = power sec dave t1 := by
  decide +kernel

example : Weak sec t1 dave := by
  intro u hu
  have : sec.users dave = some ⟨5, {}, false⟩ := by decide +kernel
  rw [this] at hu
  cases hu
  refine ⟨rfl, ?_⟩
  rintro (h | ⟨n, r, h, h', hr⟩)
  · have : sec.members t1 5 = some (.custom makerRole) := by decide +kernel
    rw [this] at h; cases h
  · have h0 : sec.members t1 5 = some (.custom makerRole) := by decide +kernel
    rw [h0] at h
    cases h
    have h1 : (sec.roles t1 (idName 5)).isNone = true := by decide +kernel
    have h2 : (match sec.roles t1 makerRole with | some r => decide (r.sys = none) | none => false) = true := by
      decide +kernel
    rcases h' with h' | ⟨-, h'⟩
    · rw [h'] at h1; cases h1
    · rw [h'] at h2
      simp only [decide_eq_true_eq] at h2
      rw [h2] at hr; cases hr

example : Distinct sec := by
  intro a b A B ha hb h
  simp only [sec] at ha hb
  repeat' (split at ha)
  all_goals repeat' (split at hb)
  all_goals first
    | (cases ha; done)
    | (cases hb; done)
    | (subst_vars; rfl)
    | (simp only [Option.some.injEq] at ha hb
       subst ha; subst hb
       simp at h)

/-- C126 at work: Erin can only set the password. -/
example :
    done sec (req erin (.query [[tab]])) = none ∧
    done sec (req erin (.alterUser erin (.set (.password "old".toList)))) = none ∧
    done sec (req erin (.alterUser erin (.set (.comment "x".toList)))) = none ∧
    done sec (req erin (.alterUser erin (.set (.password "new".toList)))) = some [.user 6 false] ∧
    done (after sec (req erin (.alterUser erin (.set (.password "new".toList))))) (req erin (.query [[tab]])) =
      some [.read t1 dbA] := by
  decide +kernel

/-- C126 refuted: the password need not become a different one; the option `hash_password` with the hash of the old
password is taken as a change. -/
theorem C126_different_refuted :
    let r := req erin (.alterUser erin (.set (.hashPassword "$old".toList)))
    done sec r = some [.user 6 false] ∧
      ((after sec r).users erin).map (·.opts) = some { hash := some "$old".toList, mustChange := some false } ∧
      done (after sec r) (req erin (.query [[tab]])) = some [.read t1 dbA] := by
  decide +kernel

/-- C127 refuted: a role that is called like the id of a user is what that user has, if they have any custom role:
Carol has the role `reader`, which reads database `a`; after the role `4` was created, which nobody was given, and
given rights on database `b`, Carol writes to `b` and can no longer read `a`. -/
theorem C127_role_refuted :
    let s1 := after sec (req alice (.createRole "4".toList none))
    let s2 := after s1 (req alice (.grantRevoke true [(.full, dbB)] "4".toList))
    s2.members t1 4 = some (.custom readerRole) ∧
      done s2 (req carol (.insert [dbB, tab] [])) = some [.write t1 dbB] ∧
      done s2 (req carol (.query [[tab]])) = none ∧
      done sec (req carol (.insert [dbB, tab] [])) = none := by
  decide +kernel

/-- C128 refuted, an example: Dave logs in, is dropped, and goes on writing with the token, one request in five
minutes. -/
theorem C128_dropped_refuted :
    let s' := after sec ⟨root, cnosdb, publicDb, .dropUser dave⟩
    (s'.users dave).isNone = true ∧ session s' dave t1 dbA = none ∧
      ((login sec (fun _ => none) 0 99 dave t1 dbA).bind fun ts =>
        (tokenStep world true s' ts 300 99 t1 dbA (.insert [tab] [])).bind fun r =>
          (tokenStep world true s' r.2.2 600 99 t1 dbA (.insert [tab] [])).map fun r => r.1) =
        some [.write t1 dbA] := by
  have h : (session (after sec ⟨root, cnosdb, publicDb, .dropUser dave⟩) dave t1 dbA).isNone = true := by decide +kernel
  refine ⟨by decide +kernel, by simpa using h, by decide +kernel⟩

end Verif.Plan
