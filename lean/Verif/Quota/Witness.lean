import Verif.Quota.Members
/-!
# Limits on the objects of a tenant: changed limits, IF NOT EXISTS, examples, and what does not hold
-/
namespace Verif.Quota

def one : Options := ⟨1, 1, .nanos 0⟩
def m : Name := ['m']

/-- `C205_one_node_partial`, `C205_prompt_partial`, `C206_created_partial`: statements with a limit of two, one of which is refused. -/
example :
    let ops := [Op.createDb 0 ['a'] one false, .createDb 0 ['b'] one false, .createDb 0 ['c'] one false, .dropDb ['a'],
      .deliver 0, .createDb 0 ['c'] one false]
    let c := (start { databases := some 2, shards := some 1 } 3).run ops
    c.data.dbs.get ['b'] = some one ∧ c.data.dbs.get ['c'] = some one ∧ c.data.dbs.entries.length = 2 ∧
      (c.step (.createDb 0 ['d'] one false)).2 = .limit := by decide +kernel

/-- **C205 is false**: with two nodes there is one database more than the limit, so that `C205_bound` cannot be improved. -/
theorem C205_refuted :
    let c := (start { databases := some 1 } 3).run [.createDb 0 ['a'] one false, .createDb 1 ['b'] one false]
    c.data.dbs.entries.length = 2 := by decide +kernel

/-- With each further node there can be one more. -/
example :
    let c := (start { databases := some 1 } 3).run
      [.createDb 0 ['a'] one false, .createDb 1 ['b'] one false, .createDb 2 ['c'] one false, .createDb 0 ['d'] one false]
    c.data.dbs.entries.length = 3 := by decide +kernel

/-- **C206 is false**: ALTER DATABASE does not ask for the limits. -/
theorem C206_alter_refuted :
    let c := (start { shards := some 2, replicas := some 1, days := some 30 } 3).run
      [.createDb 0 ['a'] one false, .alterDb 0 ['a'] { shards := some 1000, replica := some 3, ttl := some .inf }]
    c.data.dbs.get ['a'] = some ⟨3, 1000, .inf⟩ := by decide +kernel

/-- A limit of more days than an `i64` has nanoseconds is no limit. -/
theorem C206_days_refuted : ({ days := some 106752 } : Limits).allow ⟨1, 1, .inf⟩ = true := by decide +kernel

/-! ## C208: changed limits -/

/-- **C208, the statement.**  After ALTER TENANT SET the limits that are stored are those of the statement, and for kinds it does not
name those from before; the node of the statement uses them at once, and so does any node that starts after it. -/
theorem C208_altered (c : Cluster) (n : Nat) (l : Limits) :
    let c' := (c.step (.alterTenant n (some l))).1
    c'.limits = ⟨l.users.or c.limits.users, l.databases.or c.limits.databases, l.shards.or c.limits.shards,
      l.replicas.or c.limits.replicas, l.days.or c.limits.days⟩ ∧
    (c'.copy n).limits = c'.limits ∧ ∀ k, (((c'.step (.reopen k)).1).copy k).limits = c'.limits := by
  refine ⟨rfl, ?_, fun k => ?_⟩
  · show ((Cluster.setCopy _ n _).copy n).limits = _
    rw [copy_setCopy, if_pos rfl]; rfl
  · show ((Cluster.setCopy _ k _).copy k).limits = _
    rw [copy_setCopy, if_pos rfl]; rfl

/-- C208: UNSET removes all limits. -/
theorem C208_unset (c : Cluster) (n : Nat) :
    let c' := (c.step (.alterTenant n none)).1
    c'.limits = {} ∧ (c'.copy n).limits = {} := by
  refine ⟨rfl, ?_⟩
  show ((Cluster.setCopy _ n _).copy n).limits = _
  rw [copy_setCopy, if_pos rfl]; rfl

/-- Neither ALTER TENANT on the node nor its start. -/
def Op.Away (n : Nat) : Op → Prop
  | .alterTenant k _ => k ≠ n
  | .reopen k => k ≠ n
  | _ => True

theorem step_away (c : Cluster) (n : Nat) (op : Op) (h : op.Away n) : ((c.step op).1.copy n).limits = (c.copy n).limits := by
  cases op with
  | createDb k d o e =>
    simp only [Cluster.step]
    unfold Cluster.createDb
    split
    · rfl
    · split
      · rfl
      · split
        · rfl
        · rw [sync_limits]
  | alterDb k d b =>
    simp only [Cluster.step]
    unfold Cluster.alterDb
    split
    · rfl
    · split
      · rfl
      · split
        · rfl
        · rw [sync_limits]
  | dropDb d => rfl
  | addMember k u r =>
    simp only [Cluster.step]
    unfold Cluster.addMember
    split
    · rfl
    · split <;> rfl
  | setRole u r => simp only [Cluster.step]; split <;> rfl
  | removeMember u => simp only [Cluster.step]; split <;> rfl
  | alterTenant k l =>
    show ((Cluster.setCopy _ k _).copy n).limits = _
    rw [copy_setCopy, if_neg (fun e => h e.symm)]
  | ask k u => exact (ask_copy c k u n).1
  | answer k => exact (answer_copy c k n).1
  | deliver k => exact (deliver_copy c k n).1
  | sync k => exact sync_limits c k n
  | reopen k =>
    show ((Cluster.setCopy _ k _).copy n).limits = _
    rw [copy_setCopy, if_neg (fun e => h e.symm)]

/-- **C208 is false on other nodes**: whatever a node hears, its limits stay those of the time when it opened the tenant, until it starts
again or the statement is given to it. -/
theorem C208_never_heard_refuted (c : Cluster) (n : Nat) (ops : List Op) (h : ∀ op ∈ ops, op.Away n) :
    ((c.run ops).copy n).limits = (c.copy n).limits := by
  induction ops generalizing c with
  | nil => rfl
  | cons op ops ih =>
    have := ih (c.step op).1 fun o ho => h o (List.mem_cons_of_mem _ ho)
    exact this.trans (step_away c n op (h op List.mem_cons_self))

/-- So a limit that is set holds on one node only: node 1 has heard of everything and goes on. -/
theorem C208_refuted :
    let c := (start {} 3).run [.createDb 0 ['a'] one false, .deliver 1, .alterTenant 0 (some { databases := some 1 }), .sync 1,
      .createDb 1 ['b'] one false, .createDb 1 ['c'] one false]
    c.limits.databases = some 1 ∧ c.data.dbs.entries.length = 3 ∧ (c.step (.createDb 0 ['d'] one false)).2 = .limit ∧
      (c.step (.createDb 1 ['d'] one false)).2 = .ok := by decide +kernel

/-! ## C209: roles -/

/-- A removed member is no longer known once the change has been heard (`C209_heard_partial`). -/
example :
    let c := (start {} 3).run (atomically [.addMember 0 7 m, .ask 1 7, .removeMember 7, .deliver 1, .deliver 1])
    c.data.members.get 7 = none ∧ c.roleAt 1 7 = none := by decide +kernel

/-- **C209 is false**: an answer that was under way when the change was heard brings a removed member back, for good. -/
theorem C209_refuted :
    let c := (start {} 3).run [.addMember 0 7 m, .ask 1 7, .deliver 1, .removeMember 7, .deliver 1, .answer 1]
    c.data.members.get 7 = none ∧ c.roleAt 1 7 = some m ∧ (c.copy 1).seen = c.log.length := by decide +kernel

/-- The same with a role: the member keeps the rights of an owner. -/
theorem C209_role_refuted :
    let c := (start {} 3).run [.addMember 0 7 ['o'], .ask 1 7, .deliver 1, .setRole 7 m, .deliver 1, .answer 1]
    c.data.members.get 7 = some m ∧ c.roleAt 1 7 = some ['o'] ∧ (c.copy 1).seen = c.log.length := by decide +kernel

/-- C209: in all executions a member whose changes have been heard is known. -/
theorem C209_known (l : Limits) (alive : Nat) (ops : List Op) (n u : Nat) (h : Heard ((start l alive).run ops) n u)
    (hm : (((start l alive).run ops).data.members.get u).isSome) : (((start l alive).run ops).roleAt n u).isSome :=
  (knows_member ops (start l alive) ⟨fun _ => Nat.le_refl _, fun _ _ _ h => h⟩).rel n u h hm

/-! ## C210: IF NOT EXISTS -/

/-- **C210, below the limits.**  CREATE DATABASE IF NOT EXISTS of a database that is there succeeds and changes nothing, if the limits
would allow a further one with these options. -/
theorem C210_exists_partial (c : Cluster) (n : Nat) (d : Name) (o : Options) (hc : c.checkCreate n o = true)
    (hd : (c.data.dbs.get d).isSome) : c.createDb n d o true = (c, .ok) ∧ c.createDb n d o false = (c, .exists') := by
  unfold Cluster.createDb
  simp [hc, hd]

/-- C210: whatever the answer, it never changes what is there. -/
theorem C210_unchanged (c : Cluster) (n : Nat) (d : Name) (o : Options) (e : Bool) (hd : (c.data.dbs.get d).isSome) :
    (c.createDb n d o e).1 = c := by
  unfold Cluster.createDb
  split
  · rfl
  · simp [hd]

/-- **C210 is false**: a tenant that has as many databases as it may is refused a database that it has. -/
theorem C210_refuted :
    let c := (start { databases := some 1 } 3).run [.createDb 0 ['a'] one true]
    (c.step (.createDb 0 ['a'] one true)).2 = .limit := by decide +kernel

end Verif.Quota
