import Verif.Plan.Model
import Verif.Meta.AuthProps
/-!
# C124 – C128: rights of requests

The requirements are stated without reference to the planner: `May` says which right a user must have for
something to be done on their behalf.
-/
namespace Verif.Plan
open Verif.Auth

/-- The user of the session has the right in the tenant *named* `t`. -/
def In (s : Sec) (x : Session) (t : Name) (p : TenPriv Name) : Prop :=
  ∃ T, s.tenants t = some T ∧ x.holds (.tenantObject p (some T.id)) = true

/-- Which right each thing needs. -/
def May (e : Env) (s : Sec) (x : Session) : Effect → Prop
  | .read t d => In s x t (.database .read (some d))
  | .write t d => In s x t (.database .write (some d))
  | .tables t d => In s x t (.database .full (some d))
  | .list t => In s x t (.database .read none)
  | .createDb t _ => In s x t (.database .write none)
  | .database t d => In s x t (.database .full (some d))
  | .members t => In s x t .memberFull
  | .roles t => In s x t .roleFull
  | .tenant t => ∃ T, s.tenants t = some T ∧ x.holds (.global (.tenant (some T.id))) = true
  | .limiter _ => x.holds (.global .system) = true
  | .tenants => x.holds (.global (.tenant none)) = true
  | .users => x.holds (.global (.user none)) = true
  | .user id admin => x.holds (if admin then .global .system else .global (.user (some id))) = true
  | .cluster => x.holds (.global .system) = true
  | .kill q => e.runs q = some x.user.id ∨ x.holds (.global .system) = true
  | .readFile => x.holds (.global .system) = true
  | .writeFile => x.holds (.global .system) = true

/-- Effects on the data and metadata of the database, not on its files and running queries. -/
def Effect.inside : Effect → Bool
  | .kill _ => false
  | .readFile => false
  | .writeFile => false
  | _ => true

/-- The statement names tables of other databases only where their databases are asked for. -/
def Careful (x : Session) : Stmt → Prop
  | .showSeries t subs => ∀ n ∈ subs, (resolve x n).map (·.1) = (resolve x t).map (·.1)
  | .showTagValues t subs => ∀ n ∈ subs, (resolve x n).map (·.1) = (resolve x t).map (·.1)
  | .createExternal n => ∀ c d t, n = [c, d, t] → c = x.tenant
  | .explain st => Careful x st
  | _ => True

/-- The id of the session is that of its tenant. -/
def Session.Of (x : Session) (s : Sec) : Prop := ∃ T, s.tenants x.tenant = some T ∧ T.id = x.tenantId

theorem session_of {s : Sec} {u t d : Name} {x : Session} (h : session s u t d = some x) : x.Of s := by
  unfold session at h
  cases hu : s.users u with
  | none => simp [hu] at h
  | some U =>
    cases ht : s.tenants t with
    | none => simp [hu, ht] at h
    | some T =>
      cases hr : rightsOf s t T.id U with
      | none => simp [hu, ht, hr] at h
      | some rs =>
        simp only [hu, ht, hr] at h
        split at h
        · cases h
        · cases h; exact ⟨T, ht, rfl⟩

theorem tokenSession_of {s : Sec} {ts ts' : Nat → Option Token} {now k : Nat} {t d : Name} {x : Session}
    (h : tokenSession s ts now k t d = some (x, ts')) : x.Of s := by
  unfold tokenSession at h
  cases hk : ts k with
  | none => simp [hk] at h
  | some w =>
    cases ht : s.tenants t with
    | none => simp [hk, ht] at h
    | some T =>
      simp only [hk, ht] at h
      split at h
      · cases h
      · cases h; exact ⟨T, ht, rfl⟩

theorem In.mk {s : Sec} {x : Session} (ho : x.Of s) {p : TenPriv Name}
    (h : x.holds (.tenantObject p (some x.tenantId)) = true) : In s x x.tenant p := by
  obtain ⟨T, hT, hid⟩ := ho
  exact ⟨T, hT, by rw [hid]; exact h⟩

/-- A right that covers another. -/
theorem holds_mono {x : Session} {p q : Right} (h : x.holds p = true) (hc : p.check q = true) : x.holds q = true := by
  unfold Session.holds userCheck at *
  rw [List.any_eq_true] at *
  obtain ⟨r, hr, hp⟩ := h
  exact ⟨r, hr, C50_trans _ _ _ hp hc⟩

theorem sources_mem {e : Env} {x : Session} : ∀ {ns : List (List Name)} {ds : List Name} {d : Name},
    sources e x ns = some ds → d ∈ ds → ∃ n ∈ ns, source e x n = some d
  | [], ds, d, h, hd => by simp only [sources] at h; cases h; cases hd
  | n :: ns, ds, d, h, hd => by
    simp only [sources] at h
    cases h1 : source e x n with
    | none => simp [h1] at h
    | some d1 =>
      cases h2 : sources e x ns with
      | none => simp [h1, h2] at h
      | some ds1 =>
        simp only [h1, h2] at h
        cases h
        rcases List.mem_cons.1 hd with rfl | hd
        · exact ⟨n, List.mem_cons_self, h1⟩
        · obtain ⟨m, hm, hs⟩ := sources_mem h2 hd
          exact ⟨m, List.mem_cons_of_mem _ hm, hs⟩

theorem source_resolve {e : Env} {x : Session} {n : List Name} {d : Name} (h : source e x n = some d) :
    (resolve x n).map (·.1) = some d := by
  unfold source at h
  cases hr : resolve x n with
  | none => simp [hr] at h
  | some dt =>
    obtain ⟨d', t⟩ := dt
    simp only [hr] at h
    split at h
    · cases h; rfl
    · cases h

theorem sources_same {e : Env} {x : Session} {t : List Name} {subs : List (List Name)} {d d' : Name} {ds : List Name}
    (hc : ∀ n ∈ subs, (resolve x n).map (·.1) = (resolve x t).map (·.1)) (h1 : source e x t = some d)
    (h2 : sources e x subs = some ds) (hd : d' ∈ ds) : d' = d := by
  obtain ⟨n, hn, hs⟩ := sources_mem h2 hd
  have h := hc n hn
  rw [source_resolve hs, source_resolve h1] at h
  exact Option.some.inj h

theorem all_db {x : Session} {p : DbPriv} {ds : List Name} (h : (dbRights x p ds).all x.holds = true) {d : Name}
    (hd : d ∈ ds) : x.holds (dbRight x p (some d)) = true :=
  List.all_eq_true.1 h _ (List.mem_map.2 ⟨d, hd, rfl⟩)

theorem write_read {x : Session} {d : Option Name} (h : x.holds (dbRight x .write d) = true) :
    x.holds (dbRight x .read d) = true :=
  holds_mono h (by cases d <;> simp [dbRight, Priv.check, TenPriv.check, DbPriv.check])

theorem planTenant_may {e : Env} {s : Sec} {x : Session} {n : Name} {op : TenantOp} {p : Planned}
    (h : planTenant s n op = some p) (hr : p.rights.all x.holds = true) : ∀ f ∈ p.effects, May e s x f := by
  unfold planTenant at h
  cases ht : s.tenants n with
  | none => simp [ht] at h
  | some T =>
    simp only [ht] at h
    intro f hf
    cases op <;> simp only [] at h
    all_goals repeat' (split at h)
    all_goals first
      | (cases h; done)
      | (cases h
         simp only [List.mem_cons, List.not_mem_nil, or_false] at hf
         simp only [List.all_cons, List.all_nil, Bool.and_true] at hr
         subst hf
         first | exact ⟨T, ht, hr⟩ | exact hr)

theorem planUser_may {e : Env} {s : Sec} {x : Session} {m : Bool} {n : Name} {op : UserOp} {p : Planned}
    (h : planUser e s x m n op = some p) (hr : p.rights.all x.holds = true) : ∀ f ∈ p.effects, May e s x f := by
  unfold planUser at h
  cases hu : s.users n with
  | none => simp [hu] at h
  | some u =>
    simp only [hu] at h
    intro f hf
    cases op with
    | renameTo m =>
      simp only at h
      cases h
      simp only [List.mem_cons, List.not_mem_nil, or_false] at hf
      simp only [List.all_cons, List.all_nil, Bool.and_true] at hr
      subst hf
      exact hr
    | set o =>
      simp only at h
      split at h
      · cases h
      · split at h
        · cases h
        · split at h
          · cases h
          · split at h
            · cases h
            · cases h
              simp only [List.mem_cons, List.not_mem_nil, or_false] at hf
              simp only [List.all_cons, List.all_nil, Bool.and_true] at hr
              subst hf
              exact hr

theorem read_all {s : Sec} {x : Session} (e : Env) (ho : x.Of s) {ds : List Name}
    (h : ∀ d ∈ ds, x.holds (dbRight x .read (some d)) = true) {f : Effect} (hf : f ∈ ds.map (Effect.read x.tenant)) :
    May e s x f := by
  obtain ⟨d, hd, rfl⟩ := List.mem_map.1 hf
  exact In.mk ho (h d hd)

theorem planInner_may {e : Env} {s : Sec} {x : Session} (ho : x.Of s) : ∀ {st : Stmt} {p : Planned},
    planInner e s x st = some p → p.rights.all x.holds = true → Careful x st →
    ∀ f ∈ p.effects, f.inside = true → May e s x f := by
  intro st
  induction st with
  | explain st ih =>
    intro p h hr hc f hf hi
    simp only [planInner] at h
    cases hp : planInner e s x st with
    | none => simp [hp] at h
    | some q =>
      simp only [hp] at h
      split at h
      · cases h; exact ih hp hr hc f hf hi
      · cases h
  | query ts =>
    intro p h hr hc f hf hi
    simp only [planInner] at h
    cases hs : sources e x ts with
    | none => simp [hs] at h
    | some ds =>
      simp only [hs, Option.map_some] at h
      cases h
      exact read_all e ho (fun d hd => all_db hr hd) hf
  | insert tg ts =>
    intro p h hr hc f hf hi
    simp only [planInner] at h
    cases hs : sources e x ts with
    | none => simp [hs] at h
    | some ds =>
      cases hd : source e x tg with
      | none => simp [hs, hd] at h
      | some d =>
        simp only [hs, hd] at h
        cases h
        simp only [List.all_append, Bool.and_eq_true] at hr
        rcases List.mem_cons.1 hf with rfl | hf
        · exact In.mk ho (all_db hr.1 (List.mem_cons_self))
        · exact read_all e ho (fun d hd => all_db hr.2 hd) hf
  | update t fr subs =>
    intro p h hr hc f hf hi
    simp only [planInner] at h
    cases hd : source e x (fr.getD t) with
    | none => simp [hd] at h
    | some d =>
      cases hs : sources e x subs with
      | none => simp [hs, hd] at h
      | some ds =>
        simp only [hs, hd] at h
        cases h
        rcases List.mem_cons.1 hf with rfl | hf
        · exact In.mk ho (all_db hr (List.mem_cons_self))
        · exact read_all e ho (fun d hd => write_read (all_db hr hd)) hf
  | kill id =>
    intro p h hr hc f hf hi
    simp only [planInner] at h
    cases h
    simp only [List.mem_cons, List.not_mem_nil, or_false] at hf
    subst hf
    cases hi
  | createExternal n =>
    intro p h hr hc f hf hi
    simp only [planInner] at h
    cases hn : resolveExternal x n with
    | none => simp [hn] at h
    | some cdt =>
      obtain ⟨c, d, t⟩ := cdt
      simp only [hn] at h
      split at h
      · cases h
        have hct : c = x.tenant := by
          unfold resolveExternal at hn
          split at hn
          · cases hn; rfl
          · cases hn; rfl
          · cases hn; exact hc _ _ _ rfl
          · cases hn
        subst hct
        simp only [List.all_cons, List.all_nil, Bool.and_true] at hr
        simp only [List.mem_cons, List.not_mem_nil, or_false] at hf
        rcases hf with rfl | rfl
        · exact In.mk ho hr
        · cases hi
      · cases h
  | showSeries t subs =>
    intro p h hr hc f hf hi
    simp only [planInner] at h
    cases hd : source e x t with
    | none => simp [hd] at h
    | some d =>
      cases hs : sources e x subs with
      | none => simp [hs, hd] at h
      | some ds =>
        simp only [hs, hd] at h
        cases h
        simp only [List.all_cons, List.all_nil, Bool.and_true] at hr
        refine read_all e ho (fun d' hd' => ?_) hf
        rcases List.mem_cons.1 hd' with rfl | hd'
        · exact hr
        · rw [sources_same hc hd hs hd']; exact hr
  | showTagValues t subs =>
    intro p h hr hc f hf hi
    simp only [planInner] at h
    cases hd : source e x t with
    | none => simp [hd] at h
    | some d =>
      cases hs : sources e x subs with
      | none => simp [hs, hd] at h
      | some ds =>
        simp only [hs, hd] at h
        cases h
        simp only [List.all_cons, List.all_nil, Bool.and_true] at hr
        refine read_all e ho (fun d' hd' => ?_) hf
        rcases List.mem_cons.1 hd' with rfl | hd'
        · exact hr
        · rw [sources_same hc hd hs hd']; exact hr
  | copyIntoTable t =>
    intro p h hr hc f hf hi
    simp only [planInner] at h
    cases hd : source e x t with
    | none => simp [hd] at h
    | some d =>
      simp only [hd, Option.map_some] at h
      cases h
      simp only [List.all_cons, List.all_nil, Bool.and_true] at hr
      simp only [List.mem_cons, List.not_mem_nil, or_false] at hf
      rcases hf with rfl | rfl
      · exact In.mk ho hr
      · cases hi
  | copyIntoLocation ts =>
    intro p h hr hc f hf hi
    simp only [planInner] at h
    cases hs : sources e x ts with
    | none => simp [hs] at h
    | some ds =>
      simp only [hs, Option.map_some] at h
      cases h
      rcases List.mem_cons.1 hf with rfl | hf
      · cases hi
      · exact read_all e ho (fun d hd => all_db hr hd) hf
  | alterTenant n op =>
    intro p h hr hc f hf hi
    exact planTenant_may h hr f hf
  | alterUser n op =>
    intro p h hr hc f hf hi
    exact planUser_may h hr f hf
  | _ =>
    intro p h hr hc f hf hi
    simp only [planInner] at h
    repeat' (split at h)
    all_goals first
      | cases h; done
      | (cases h
         simp only [List.all_cons, List.all_nil, Bool.and_true] at hr
         simp only [List.mem_cons, List.not_mem_nil, or_false] at hf
         subst hf
         first | exact hr | exact In.mk ho hr)
      | (simp only [Option.map_eq_some_iff] at h
         obtain ⟨d, _, rfl⟩ := h
         simp only [List.all_cons, List.all_nil, Bool.and_true] at hr
         simp only [List.mem_cons, List.not_mem_nil, or_false] at hf
         subst hf
         exact In.mk ho hr)

theorem accept_some {e : Env} {s : Sec} {a : Bool} {x : Session} {st : Stmt} {p : Planned}
    (h : accept e s a x st = some p) : plan e s a x st = some p ∧ p.rights.all x.holds = true := by
  unfold accept at h
  cases hp : plan e s a x st with
  | none => simp [hp] at h
  | some q =>
    simp only [hp] at h
    split at h
    · cases h; exact ⟨rfl, by assumption⟩
    · cases h

/-- C124 (partial): an accepted statement reads, writes and changes only what the user has the right to, in the tenant
it is in.  Excluded: the files of the server and running queries; external tables named with another tenant; tables of
other databases in the conditions of SHOW SERIES and SHOW TAG VALUES. -/
theorem C124_statements_partial {e : Env} {s : Sec} {a : Bool} {x : Session} {st : Stmt} {p : Planned} (ho : x.Of s)
    (h : accept e s a x st = some p) (hc : Careful x st) :
    ∀ f ∈ p.effects, f.inside = true → May e s x f := by
  obtain ⟨hp, hr⟩ := accept_some h
  unfold plan at hp
  split at hp
  · split at hp
    · intro f hf _; exact planUser_may hp hr f hf
    · cases hp
  · exact planInner_may ho hp hr hc

end Verif.Plan
