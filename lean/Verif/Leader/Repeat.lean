import Verif.Leader.Model
import Verif.Watch.CmdLegal
import Verif.Meta.BucketProps
/-!
# A command that is sent again (C175)
-/
namespace Verif.Leader
open Verif.Watch

/-- Two stores with the same values. -/
def Same (s s' : Store) : Prop := ∀ k, s.db.get k = s'.db.get k

theorem Same.refl (s : Store) : Same s s := fun _ => rfl
theorem Same.symm {s s' : Store} (h : Same s s') : Same s' s := fun k => (h k).symm
theorem Same.trans {s s' s'' : Store} (h : Same s s') (h' : Same s' s'') : Same s s'' := fun k => (h k).trans (h' k)

theorem Same.contains {s s' : Store} (h : Same s s') (k : Key) : s.contains k = s'.contains k := by
  rw [Store.contains, Store.contains, h k]

/-! ## Keys -/

theorem path_ne_version (a b : Name) (l : List Name) : path (a :: b :: l) ≠ KeyPath.version := by
  intro h
  have h1 : (path (a :: b :: l)).count '/' = 1 := by rw [h]; decide +kernel
  rw [path, List.flatMap_cons, List.flatMap_cons, List.cons_append, List.cons_append, List.count_cons_self, List.count_append,
    List.count_cons_self] at h1
  omega

theorem limiter_ne_tenant (c t : Name) : KeyPath.limiter c t ≠ KeyPath.tenant c t := by
  intro h
  have := congrArg List.length h
  simp [KeyPath.limiter, KeyPath.tenant, path, sTenants, sLimiter] at this

theorem mark_ne_node (c n : Name) : KeyPath.mark c ≠ KeyPath.node c n := by
  intro h
  rw [KeyPath.mark, KeyPath.node, show [c, "resourceinfosmark".toList] = [c] ++ ["resourceinfosmark".toList] from rfl,
    show [c, sNodes, n] = [c] ++ [sNodes, n] from rfl, path_append, path_append, List.append_cancel_left_eq] at h
  have h1 : (path ["resourceinfosmark".toList])[1]? = some 'r' := by decide +kernel
  have h2 : (path [sNodes, n])[1]? = some 'd' := rfl
  rw [h, h2] at h1
  exact absurd h1 (by decide)

/-! ## Writes that change nothing -/

theorem insert_get (s : Store) (k x : Key) (v : Val) :
    (s.insert k v).db.get x = if x = k ∧ k ≠ KeyPath.version then some v else s.db.get x := by
  simp only [Store.insert]
  by_cases h : k = KeyPath.version
  · simp [h]
  · rw [if_neg h, AMap.get_set]; simp [h]

theorem remove_get (s : Store) (k x : Key) :
    (s.remove k).db.get x = if x = k ∧ k ≠ KeyPath.version then none else s.db.get x := by
  simp only [Store.remove]
  by_cases h : k = KeyPath.version
  · simp [h]
  · rw [if_neg h, AMap.get_del]; simp [h]

theorem same_insert {s : Store} {k : Key} {v : Val} (h : k ≠ KeyPath.version → s.db.get k = some v) : Same (s.insert k v) s := by
  intro x
  rw [insert_get]
  split
  · rename_i hx; rw [hx.1, h hx.2]
  · rfl

theorem same_remove {s : Store} {k : Key} (h : k ≠ KeyPath.version → s.db.get k = none) : Same (s.remove k) s := by
  intro x
  rw [remove_get]
  split
  · rename_i hx; rw [hx.1, h hx.2]
  · rfl

theorem command_nil {s : Store} {env : Env} {cmd : Cmd} (h : (s.exec env cmd).1 = []) : s.command env cmd = s := by
  rw [Store.command, h]; rfl

theorem command_one {s : Store} {env : Env} {cmd : Cmd} {k : Key} {v : Val} (h : (s.exec env cmd).1 = [.op (.insert k v)]) :
    s.command env cmd = s.insert k v := by
  rw [Store.command, h]; rfl

theorem command_del {s : Store} {env : Env} {cmd : Cmd} {k : Key} (h : (s.exec env cmd).1 = [.op (.remove k)]) :
    s.command env cmd = s.remove k := by
  rw [Store.command, h]; rfl

/-- Commands that can be sent again: all but those that draw an id, take from a limiter, add a vnode to a replication set, or
drop a tenant. -/
def Repeats : Cmd → Bool
  | .createBucket .. => false
  | .retainId .. => false
  | .limiterRequest .. => false
  | .dropTenant .. => false
  | .updateReplSet _ _ _ _ _ _ add => add.isEmpty
  | _ => true

/-- A command that fails writes nothing. -/
theorem failed_nothing {cmd : Cmd} (hr : Repeats cmd = true) (s : Store) (env : Env) (h : (s.exec env cmd).2 = false) :
    (s.exec env cmd).1 = [] := by
  cases cmd with
  | createBucket | retainId | limiterRequest | dropTenant => cases hr
  | _ =>
    revert h
    simp only [Store.exec]
    repeat' split
    all_goals first
      | (intro h; rfl)
      | (intro h; cases h; done)

/-! ## Updating a replication set -/

theorem update_twice (r : Meta.ReplSet) (del : List Meta.Vnode) : (r.update del []).update del [] = r.update del [] := by
  have key : ∀ vs : List Meta.Vnode, (vs.filter fun v => !del.any fun d => decide (v.id = d.id) && decide (v.node = d.node)) = vs →
      ∀ r' : Meta.ReplSet, r'.vnodes = vs → (vs.any fun v => decide (v.id = r'.leaderVnode)) = true ∨ vs = [] → r'.update del [] = r' := by
    intro vs hf r' hr h
    simp only [Meta.ReplSet.update, List.append_nil, hr, hf]
    rcases h with h | h
    · rw [if_pos h, ← hr]
    · subst h
      simp [← hr]
  have hf : ∀ l : List Meta.Vnode, (l.filter fun v => !del.any fun d => decide (v.id = d.id) && decide (v.node = d.node)).filter
      (fun v => !del.any fun d => decide (v.id = d.id) && decide (v.node = d.node)) =
      l.filter fun v => !del.any fun d => decide (v.id = d.id) && decide (v.node = d.node) := by
    intro l; rw [List.filter_filter]; simp
  conv => lhs; arg 1; rw [Meta.ReplSet.update]
  conv => rhs; rw [Meta.ReplSet.update]
  simp only [List.append_nil]
  split
  · rename_i h
    exact key _ (hf r.vnodes) _ rfl (.inl h)
  · split
    · rename_i h
      exact key [] rfl _ rfl (.inr rfl)
    · rename_i v vs h
      refine key _ (hf r.vnodes) _ rfl (.inl ?_)
      simp [h]

theorem bucket_update_twice (b b' : Meta.Bucket) (repl : Nat) (del : List Meta.Vnode) (h : b.update repl del [] = some b') :
    b'.update repl del [] = some b' := by
  simp only [Meta.Bucket.update] at h
  split at h
  · cases h
  · rename_i hne
    have hb := Option.some.inj h
    subst hb
    simp only [Meta.Bucket.update]
    have hs : (((b.shards.map fun r => if r.id ≠ repl then r else r.update del []).filter fun r => !r.vnodes.isEmpty).map
        fun r => if r.id ≠ repl then r else r.update del []) =
        (b.shards.map fun r => if r.id ≠ repl then r else r.update del []).filter fun r => !r.vnodes.isEmpty := by
      refine (List.map_congr_left ?_).trans (List.map_id _)
      intro r hr
      obtain ⟨r0, _, rfl⟩ := List.mem_map.1 (List.mem_filter.1 hr).1
      have hid : ∀ r0 : Meta.ReplSet, (r0.update del []).id = r0.id := by
        intro r0
        simp only [Meta.ReplSet.update]
        repeat' split
        all_goals rfl
      by_cases he : r0.id = repl
      · simp only [he, ne_eq, not_true_eq_false, if_false, hid, id_eq, update_twice]
      · simp [he]
    rw [hs, List.filter_filter]
    simp only [Bool.and_self]
    rw [if_neg hne]

/-! ## Once is enough -/

theorem inserted {s s' : Store} {k : Key} {v : Val} (h : Same (s.insert k v) s') (hk : k ≠ KeyPath.version) : s'.db.get k = some v := by
  rw [← h k, insert_get, if_pos ⟨rfl, hk⟩]

theorem removed {s s' : Store} {k : Key} (h : Same (s.remove k) s') (hk : k ≠ KeyPath.version) : s'.db.get k = none := by
  rw [← h k, remove_get, if_pos ⟨rfl, hk⟩]

theorem contains_some {s : Store} {k : Key} {v : Val} (h : s.db.get k = some v) : s.contains k = true := by
  rw [Store.contains, h]; rfl

theorem contains_none {s : Store} {k : Key} (h : s.db.get k = none) : s.contains k = false := by
  rw [Store.contains, h]; rfl

theorem addNode_again {s s' : Store} {env env' : Env} {c : Name} {id addr : Nat} (h : (s.exec env (.addNode c id addr)).2 = true)
    (hs : Same (s.command env (.addNode c id addr)) s') : Same (s'.command env' (.addNode c id addr)) s' := by
  have hnv : KeyPath.node c (decName id) ≠ KeyPath.version := path_ne_version _ _ _
  have hmv : KeyPath.mark c ≠ KeyPath.version := path_ne_version _ _ _
  have hn : s'.db.get (KeyPath.node c (decName id)) = some (.node id addr) ∧
      ∃ x, s'.db.get (KeyPath.mark c) = some (.mark x true) := by
    simp only [Store.command] at hs
    simp only [Store.exec] at h hs
    split at h
    · cases h
    · split at h
      · cases h
      · rename_i l hl hc
        simp only [hl, hc, Bool.false_eq_true, if_false] at hs
        split at hs
        · rename_i x hm
          refine ⟨inserted hs hnv, x, ?_⟩
          rw [← hs, List.foldl_cons, List.foldl_nil]
          simp only [Store.event, Store.apply, insert_get]
          rw [if_neg (fun hh => mark_ne_node c _ hh.1), hm]
        · simp only [List.foldl_cons, List.foldl_nil, Store.event, Store.apply] at hs
          refine ⟨?_, id, inserted hs hmv⟩
          rw [← hs, insert_get, if_neg (fun hh => mark_ne_node c _ hh.1.symm), insert_get, if_pos ⟨rfl, hnv⟩]
  obtain ⟨hn, x, hm⟩ := hn
  simp only [Store.command, Store.exec]
  split
  · exact Same.refl _
  · split
    · exact Same.refl _
    · rw [hm]
      exact same_insert fun _ => hn

theorem dropDb_again {s s' : Store} {env env' : Env} {c t d : Name} (hs : Same (s.command env (.dropDb c t d)) s') :
    Same (s'.command env' (.dropDb c t d)) s' := by
  have hb : (KeyPath.buckets c t d).getLast? ≠ some '/' := by
    have : KeyPath.buckets c t d = path [c, sTenants, t, sDbs, d] ++ ['/', 'b', 'u', 'c', 'k', 'e', 't', 's'] := by
      rw [KeyPath.buckets, show [c, sTenants, t, sDbs, d, sBuckets] = [c, sTenants, t, sDbs, d] ++ [sBuckets] from rfl, path_append]
      rfl
    rw [this, List.getLast?_append]; simp
  have hsc : (KeyPath.schemas c t d).getLast? ≠ some '/' := by
    have : KeyPath.schemas c t d = path [c, sTenants, t, sDbs, d] ++ ['/', 's', 'c', 'h', 'e', 'm', 'a', 's'] := by
      rw [KeyPath.schemas, show [c, sTenants, t, sDbs, d, sSchemas] = [c, sTenants, t, sDbs, d] ++ [sSchemas] from rfl, path_append]
      rfl
    rw [this, List.getLast?_append]; simp
  have hev : ∀ (s : Store) env, (s.exec env (.dropDb c t d)).1 =
      (KeyPath.db c t d :: (s.childrenFullpath (KeyPath.buckets c t d) ++ s.childrenFullpath (KeyPath.schemas c t d))).map
        fun k => Event.op (.remove k) := by
    intro s env
    simp [Store.exec]
  intro k
  by_cases hk : k = KeyPath.version
  · subst hk
    rw [Store.command, hev]
    generalize KeyPath.db c t d :: (s'.childrenFullpath (KeyPath.buckets c t d) ++ s'.childrenFullpath (KeyPath.schemas c t d)) = ks
    clear hs hev
    induction ks generalizing s' with
    | nil => rfl
    | cons x ks ih =>
      rw [List.map_cons, List.foldl_cons, ih]
      simp only [Store.event, Store.apply, remove_get]
      split
      · rename_i hx; exact absurd hx.1.symm hx.2
      · rfl
  · rw [Store.command, hev, removes_get _ _ _ hk]
    split
    · rename_i hm
      have hs1 := hs k
      rw [Store.command, hev, removes_get _ _ _ hk] at hs1
      split at hs1
      · exact hs1
      · rename_i hn
        exfalso
        simp only [List.mem_cons, List.mem_append, not_or] at hm hn
        rcases hm with rfl | hm | hm
        · exact hn.1 rfl
        · obtain ⟨n, h1, h2, h3⟩ := (mem_childrenFullpath hb).1 hm
          exact hn.2.1 ((mem_childrenFullpath hb).2 ⟨n, h1, h2, by rw [hs1]; exact h3⟩)
        · obtain ⟨n, h1, h2, h3⟩ := (mem_childrenFullpath hsc).1 hm
          exact hn.2.2 ((mem_childrenFullpath hsc).2 ⟨n, h1, h2, by rw [hs1]; exact h3⟩)
    · rfl

end Verif.Leader
