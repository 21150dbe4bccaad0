import Verif.Watch.History
/-!
# C109: a node sees all changes of the tenants it uses
-/
namespace Verif.Watch

/-- What happens in a cluster with one meta server and one data node. -/
inductive Step where
  | server (e : Event)
  | poll
  | openTenant (t : Name)
  | manage

/-- The events at the server and the state of the node. -/
structure Sys where
  es : List Event
  node : Node

/-- A node starts when the events `es` have happened. -/
def Sys.start (cap : Nat) (c : Name) (es : List Event) : Sys := ⟨es, Node.start c (Store.run cap es)⟩

def Sys.step (cap : Nat) (c : Name) (y : Sys) : Step → Sys
  | .server e => { y with es := y.es ++ [e] }
  | .poll => { y with node := y.node.poll c (Store.run cap y.es) }
  | .openTenant t => { y with node := y.node.openTenant c (Store.run cap y.es) t }
  | .manage => { y with node := y.node.manage }

def Sys.run (cap : Nat) (c : Name) (y : Sys) (ss : List Step) : Sys := ss.foldl (Sys.step cap c) y

/-- No request is sent between the reading of a tenant and the moment at which the watching of it begins. -/
def Calm (cap : Nat) (c : Name) : Sys → List Step → Prop
  | _, [] => True
  | y, s :: ss => (s = .poll → y.node.pending = []) ∧ Calm cap c (y.step cap c s) ss

/-- What holds for the cache of a tenant at any moment. -/
def NodeInv (c t : Name) (y : Sys) : Prop :=
  y.node.watchVer ≤ (ops y.es).length ∧
  ∀ r d, y.node.tenants.get t = some (r, d) →
    (t ∈ y.node.watchTenants ∨ [] ∈ y.node.watchTenants ∨ t ∈ y.node.pending.map Prod.fst) ∧ d.version ≤ (ops y.es).length ∧
      Upto c t (ops y.es) d (max d.version y.node.watchVer)

theorem processEntry_tenant (c t : Name) (n : Node) (e : Entry) :
    (n.processEntry c e).tenants.get t = (n.tenants.get t).map (fun x => (x.1, deliver c t x.2 e)) ∧
      (n.processEntry c e).watchTenants = n.watchTenants ∧ (n.processEntry c e).pending = n.pending ∧
      (n.processEntry c e).watchVer = n.watchVer := by
  have hid : ∀ (o : Option (Val × TenantData)), o = o.map (fun x => (x.1, x.2)) := by intro o; cases o <;> rfl
  rw [Node.processEntry]
  rcases hs : splitSlash e.key with _ | ⟨a, _ | ⟨c', _ | ⟨s2, _ | ⟨x, rest⟩⟩⟩⟩ <;> simp only [deliver, hs]
  · exact ⟨hid _, by simp⟩
  · exact ⟨hid _, by simp⟩
  · exact ⟨hid _, by simp⟩
  · exact ⟨hid _, by simp⟩
  · by_cases hcc : c' = c
    · subst hcc
      simp only [ne_eq, not_true_eq_false, if_false, true_and]
      by_cases h2 : s2 = sTenants
      · subst h2
        simp only [if_true, true_and]
        cases hx : n.tenants.get x with
        | none =>
          refine ⟨?_, rfl, rfl, rfl⟩
          simp only
          by_cases hxt : x = t
          · subst hxt; rw [hx]; rfl
          · simp only [hxt, if_false]; exact hid _
        | some rd =>
          obtain ⟨r, d⟩ := rd
          simp only [AMap.get_set, and_self, and_true]
          by_cases hxt : x = t
          · subst hxt; simp [hx]
          · rw [if_neg (fun h => hxt h.symm)]
            simp only [hxt, if_false]; exact hid _
      · simp only [h2, if_false, false_and]
        split
        · exact ⟨hid _, by simp⟩
        · exact ⟨hid _, by simp⟩
    · simp only [ne_eq, hcc, not_false_eq_true, if_true, false_and, if_false]
      exact ⟨hid _, by simp⟩

theorem processEntries_tenant (c t : Name) (es : List Entry) (n : Node) :
    (es.foldl (Node.processEntry c) n).tenants.get t = (n.tenants.get t).map (fun x => (x.1, es.foldl (deliver c t) x.2)) ∧
      (es.foldl (Node.processEntry c) n).watchTenants = n.watchTenants ∧ (es.foldl (Node.processEntry c) n).pending = n.pending := by
  induction es generalizing n with
  | nil => exact ⟨by rw [List.foldl_nil]; cases n.tenants.get t <;> rfl, rfl, rfl⟩
  | cons e es ih =>
    obtain ⟨h1, h2, h3, _⟩ := processEntry_tenant c t n e
    obtain ⟨g1, g2, g3⟩ := ih (n.processEntry c e)
    refine ⟨?_, by rw [List.foldl_cons, g2, h2], by rw [List.foldl_cons, g3, h3]⟩
    rw [List.foldl_cons, g1, h1]
    cases n.tenants.get t <;> rfl

theorem fullSync_cases (c : Name) (n : Node) (s : Store) :
    n.fullSync c s = n ∨ ((n.fullSync c s).tenants = .empty ∧ (n.fullSync c s).watchVer = s.ver) := by
  rw [Node.fullSync]
  split
  · exact .inl rfl
  · exact .inr ⟨rfl, rfl⟩

theorem nodeInv_fullSync {c t : Name} {cap : Nat} (hcap : 0 < cap) {y : Sys} (h : NodeInv c t y) :
    NodeInv c t { y with node := y.node.fullSync c (Store.run cap y.es) } := by
  rcases fullSync_cases c y.node (Store.run cap y.es) with hf | ⟨h1, h2⟩
  · rw [hf]; exact h
  · refine ⟨?_, ?_⟩
    · simp only [h2, run_ver hcap]; exact Nat.le_refl _
    · intro r d hd
      simp only [h1, AMap.get_empty] at hd
      cases hd

theorem nodeInv_step {c t : Name} (hc : Plain c) (ht : Plain t) {cap : Nat} (hcap : 0 < cap) {y : Sys} (s : Step)
    (hl : Legal c t (y.step cap c s).es) (hcalm : s = .poll → y.node.pending = []) (h : NodeInv c t y) :
    NodeInv c t (y.step cap c s) := by
  cases s with
  | server e =>
    simp only [Sys.step] at hl ⊢
    have hlen : (ops (y.es ++ [e])).length = (ops y.es).length + (ops [e]).length := by rw [ops_append, List.length_append]
    refine ⟨by have := h.1; simp only at hlen ⊢; omega, ?_⟩
    intro r d hd
    obtain ⟨h1, h2, h3⟩ := h.2 r d hd
    refine ⟨h1, by simp only at hlen ⊢; omega, ?_⟩
    simp only [ops_append]
    exact upto_more _ (by have := h.1; omega) h3
  | poll =>
    simp only [Sys.step] at hl ⊢
    rw [Node.poll]
    simp only
    split
    · exact nodeInv_fullSync hcap h
    · rename_i hw
      have hw : ((Store.run cap y.es).readChangeLogs c y.node.watchTenants y.node.watchVer).fullSync = false := by simpa using hw
      have hmax := maxVer_run hcap y.es c y.node.watchTenants y.node.watchVer
      have hlogs := C107_changes_partial hcap y.es c y.node.watchTenants y.node.watchVer (by rw [run_ver hcap]; exact h.1) hw
      rw [filter_since] at hlogs
      obtain ⟨g1, g2, g3⟩ := processEntries_tenant c t
        ((Store.run cap y.es).readChangeLogs c y.node.watchTenants y.node.watchVer).logs y.node
      have hmax' : ((Store.run cap y.es).readChangeLogs c y.node.watchTenants y.node.watchVer).maxVer ≤ (ops y.es).length := by
        rw [run_ver hcap] at hmax; omega
      refine ⟨hmax', ?_⟩
      intro r d' hd'
      simp only [g1, Option.map_eq_some_iff, Prod.mk.injEq] at hd'
      obtain ⟨⟨r0, d⟩, hd, -, hd'⟩ := hd'
      simp only at hd'
      obtain ⟨h1, h2, h3⟩ := h.2 r0 d hd
      have hts : t ∈ y.node.watchTenants ∨ [] ∈ y.node.watchTenants := by
        rw [hcalm rfl] at h1
        simpa using h1
      rw [hlogs] at hd'
      obtain ⟨u1, u2⟩ := upto_all hc ht hl (interested c y.node.watchTenants) (interested_item hc ht _ hts)
        ((ops y.es).length - y.node.watchVer) y.node.watchVer d (by have := h.1; omega) h2
        (by rw [Nat.max_comm]; exact h3)
      rw [hd'] at u1 u2
      refine ⟨?_, u2, ?_⟩
      · simp only [g2]
        rcases hts with h | h
        · exact .inl h
        · exact .inr (.inl h)
      · intro v v1 v2 v3
        exact u1 v v1 v3 v3
  | openTenant t' =>
    simp only [Sys.step] at hl ⊢
    rw [Node.openTenant]
    split
    · exact h
    split
    · rename_i nm o l hrec
      split
      · rename_i d' hread
        refine ⟨h.1, ?_⟩
        intro r d hd
        simp only [AMap.get_set] at hd ⊢
        by_cases htt : t = t'
        · subst htt
          simp only [if_true, Option.some.injEq, Prod.mk.injEq] at hd
          obtain ⟨-, rfl⟩ := hd
          obtain ⟨hv, hu⟩ := upto_read hc ht hcap [] hl.1 hread
          rw [List.append_nil] at hu
          refine ⟨.inr (.inr (by simp)), by omega, ?_⟩
          intro v v1 v2 v3
          exact hu v v1 v3 v3
        · rw [if_neg htt] at hd
          obtain ⟨h1, h2, h3⟩ := h.2 r d hd
          refine ⟨?_, h2, h3⟩
          rcases h1 with h1 | h1 | h1
          · exact .inl h1
          · exact .inr (.inl h1)
          · exact .inr (.inr (by simp only [List.map_append, List.mem_append]; exact .inl h1))
      · exact h
    · exact h
  | manage =>
    simp only [Sys.step] at hl ⊢
    rw [Node.manage]
    split
    · exact h
    · rename_i t' v rest hp
      refine ⟨h.1, ?_⟩
      intro r d hd
      obtain ⟨h1, h2, h3⟩ := h.2 r d hd
      refine ⟨?_, h2, h3⟩
      simp only [List.mem_cons]
      rw [hp] at h1
      by_cases he : t' = []
      · exact .inr (.inl (.inl he.symm))
      · rw [if_neg he]
        rcases h1 with h1 | h1 | h1
        · exact .inl (.inr h1)
        · exact .inr (.inl (.inr h1))
        · simp only [List.map_cons, List.mem_cons] at h1
          rcases h1 with h1 | h1
          · exact .inl (.inl h1)
          · exact .inr (.inr h1)

theorem run_es_prefix (cap : Nat) (c : Name) (ss : List Step) (y : Sys) : ∃ b, (y.run cap c ss).es = y.es ++ b := by
  induction ss generalizing y with
  | nil => exact ⟨[], by simp [Sys.run]⟩
  | cons s ss ih =>
    obtain ⟨b, hb⟩ := ih (y.step cap c s)
    have : (y.run cap c (s :: ss)) = ((y.step cap c s).run cap c ss) := rfl
    rw [this, hb]
    cases s <;> simp only [Sys.step]
    · exact ⟨_ :: b, by rw [List.append_assoc]; rfl⟩
    · exact ⟨b, rfl⟩
    · exact ⟨b, rfl⟩
    · exact ⟨b, rfl⟩

theorem nodeInv_run {c t : Name} (hc : Plain c) (ht : Plain t) {cap : Nat} (hcap : 0 < cap) (ss : List Step) (y : Sys)
    (hl : Legal c t (y.run cap c ss).es) (hcalm : Calm cap c y ss) (h : NodeInv c t y) : NodeInv c t (y.run cap c ss) := by
  induction ss generalizing y with
  | nil => exact h
  | cons s ss ih =>
    have hr : (y.run cap c (s :: ss)) = ((y.step cap c s).run cap c ss) := rfl
    rw [hr] at hl ⊢
    refine ih _ hl hcalm.2 ?_
    obtain ⟨b, hb⟩ := run_es_prefix cap c ss (y.step cap c s)
    rw [hb] at hl
    exact nodeInv_step hc ht hcap s hl.prefix hcalm.1 h

theorem nodeInv_start {c t : Name} {cap : Nat} (hcap : 0 < cap) (es : List Event) : NodeInv c t (Sys.start cap c es) := by
  have h0 : NodeInv c t ⟨es, ⟨0, [], .empty, .empty, []⟩⟩ :=
    ⟨Nat.zero_le _, by intro r d hd; simp at hd⟩
  exact nodeInv_fullSync hcap h0

/-- **C109.**  Whatever happens to the server and the node, if no request for changes is sent between the reading of a tenant
and the moment at which the watching of it begins: when the node has the version of the store, it sees of every
tenant it uses exactly what is stored. -/
theorem C109_partial {c t : Name} (hc : Plain c) (ht : Plain t) {cap : Nat} (hcap : 0 < cap) (es : List Event) (ss : List Step)
    (hl : Legal c t ((Sys.start cap c es).run cap c ss).es) (hcalm : Calm cap c (Sys.start cap c es) ss) {r : Val} {d : TenantData}
    (hd : ((Sys.start cap c es).run cap c ss).node.tenants.get t = some (r, d))
    (hv : ((Sys.start cap c es).run cap c ss).node.watchVer = (Store.run cap ((Sys.start cap c es).run cap c ss).es).ver) :
    Follows c t d (Store.run cap ((Sys.start cap c es).run cap c ss).es) := by
  have h := nodeInv_run hc ht hcap ss _ hl hcalm (nodeInv_start hcap es)
  obtain ⟨_, h2, h3⟩ := h.2 r d hd
  rw [run_ver hcap] at hv
  exact upto_end hc ht cap hl h2 (by omega) h3

end Verif.Watch
