import Verif.Quota.Model
import Mathlib.Data.List.Nodup
import Mathlib.Data.List.Perm.Subperm
/-!
# Limits on objects: lemmas about counting and about steps
-/
namespace Verif.Quota

section AMap
variable {κ ν : Type} [DecidableEq κ]

theorem length_del_le (m : AMap κ ν) (k : κ) : (m.del k).entries.length ≤ m.entries.length := List.length_filter_le _ _

theorem length_le_of_isSome {ν' : Type} (a : AMap κ ν) (b : AMap κ ν') (h : ∀ k, (a.get k).isSome → (b.get k).isSome) :
    a.entries.length ≤ b.entries.length := by
  have := (List.subperm_of_subset a.nodup (l₂ := b.entries.map Prod.fst) (by
    intro k hk
    obtain ⟨⟨k', v⟩, hv, rfl⟩ := List.mem_map.1 hk
    have := h k' (by rw [AMap.mem_entries.1 hv]; rfl)
    obtain ⟨w, hw⟩ := Option.isSome_iff_exists.1 this
    exact List.mem_map.2 ⟨(k', w), AMap.mem_entries.2 hw, rfl⟩)).length_le
  simpa using this

theorem length_set_new (m : AMap κ ν) (k : κ) (v : ν) (h : m.get k = none) : (m.set k v).entries.length = m.entries.length + 1 := by
  have : (m.del k).entries = m.entries := by
    refine List.filter_eq_self.2 fun e he => ?_
    have := AMap.get_eq_none.1 h e.2
    simp only [decide_eq_true_eq]
    rintro rfl
    exact this he
  simp only [AMap.set, List.length_cons, this]

theorem length_set_old (m : AMap κ ν) (k : κ) (v : ν) (h : (m.get k).isSome) : (m.set k v).entries.length ≤ m.entries.length := by
  apply length_le_of_isSome
  intro k' hk'
  rw [AMap.get_set] at hk'
  by_cases e : k' = k
  · rw [e]; exact h
  · rwa [if_neg e] at hk'

theorem length_set_le (m : AMap κ ν) (k : κ) (v : ν) : (m.set k v).entries.length ≤ m.entries.length + 1 := by
  cases h : m.get k with
  | none => exact Nat.le_of_eq (length_set_new m k v h)
  | some w => exact Nat.le_trans (length_set_old m k v (by rw [h]; rfl)) (Nat.le_succ _)

end AMap

theorem replay_append (a b : List Event) : replay (a ++ b) = b.foldl Data.apply (replay a) := List.foldl_append

theorem replay_snoc (a : List Event) (e : Event) : replay (a ++ [e]) = (replay a).apply e := replay_append a [e]

/-- The number of databases after the first `t` changes. -/
def cnt (log : List Event) (t : Nat) : Nat := (replay (log.take t)).dbs.entries.length

theorem cnt_snoc {log : List Event} {t : Nat} (e : Event) (h : t ≤ log.length) : cnt (log ++ [e]) t = cnt log t := by
  rw [cnt, List.take_append_of_le_length h, cnt]

theorem cnt_all (log : List Event) : cnt log log.length = (replay log).dbs.entries.length := by rw [cnt, List.take_length]

theorem countP_lt {α : Type} (p q : α → Bool) (l : List α) (h : ∀ x, p x = true → q x = true) (x : α) (hx : x ∈ l) (hp : p x = false)
    (hq : q x = true) : l.countP p + 1 ≤ l.countP q := by
  induction l with
  | nil => cases hx
  | cons y l ih =>
    rw [List.countP_cons, List.countP_cons]
    have hm : l.countP p ≤ l.countP q := List.countP_mono_left fun z _ => h z
    rcases List.mem_cons.1 hx with rfl | hx
    · simp [hp, hq]; exact hm
    · have := ih hx
      cases hpy : p y with
      | false => simp; split <;> omega
      | true => simp [h y hpy]; omega


theorem copy_setCopy (c : Cluster) (n m : Nat) (x : Copy) : (c.setCopy n x).copy m = if m = n then x else c.copy m := rfl

theorem sync_log (c : Cluster) (n : Nat) : (c.sync n).log = c.log := by unfold Cluster.sync; split <;> rfl

theorem sync_alive (c : Cluster) (n : Nat) : (c.sync n).alive = c.alive := by unfold Cluster.sync; split <;> rfl

theorem sync_clusterLimits (c : Cluster) (n : Nat) : (c.sync n).limits = c.limits := by unfold Cluster.sync; split <;> rfl

theorem sync_seen (c : Cluster) (n : Nat) (h : (c.copy n).seen ≤ c.log.length) : ((c.sync n).copy n).seen = c.log.length := by
  unfold Cluster.sync
  split
  · rw [copy_setCopy, if_pos rfl]
  · omega

theorem sync_other (c : Cluster) (n m : Nat) (h : m ≠ n) : (c.sync n).copy m = c.copy m := by
  unfold Cluster.sync
  split
  · rw [copy_setCopy, if_neg h]
  · rfl

theorem sync_limits (c : Cluster) (n m : Nat) : ((c.sync n).copy m).limits = (c.copy m).limits := by
  unfold Cluster.sync
  split
  · rw [copy_setCopy]; split
    · rename_i h; rw [h]
    · rfl
  · rfl

theorem sync_members (c : Cluster) (n : Nat) (h : (c.copy n).seen < c.log.length) :
    ((c.sync n).copy n).members = c.data.members := by
  unfold Cluster.sync
  rw [if_pos h, copy_setCopy, if_pos rfl]

theorem deliver_log (c : Cluster) (n : Nat) : (c.deliver n).log = c.log ∧ (c.deliver n).limits = c.limits ∧ (c.deliver n).alive = c.alive := by
  unfold Cluster.deliver; split <;> exact ⟨rfl, rfl, rfl⟩

theorem deliver_copy (c : Cluster) (n m : Nat) : ((c.deliver n).copy m).limits = (c.copy m).limits ∧
    (c.copy m).seen ≤ ((c.deliver n).copy m).seen ∧ ((c.copy m).seen ≤ c.log.length → ((c.deliver n).copy m).seen ≤ c.log.length) := by
  unfold Cluster.deliver
  cases h : c.log[(c.copy n).seen]? with
  | none => exact ⟨rfl, Nat.le_refl _, id⟩
  | some e =>
    dsimp only
    rw [copy_setCopy]
    have hl := (List.getElem?_eq_some_iff.1 h).1
    by_cases hm : m = n
    · subst hm; rw [if_pos rfl]; exact ⟨rfl, by dsimp only; omega, fun _ => by dsimp only; omega⟩
    · rw [if_neg hm]; exact ⟨rfl, Nat.le_refl _, id⟩

theorem ask_copy (c : Cluster) (n u m : Nat) : ((c.ask n u).copy m).limits = (c.copy m).limits ∧
    ((c.ask n u).copy m).seen = (c.copy m).seen ∧ ((c.ask n u).copy m).members = (c.copy m).members := by
  unfold Cluster.ask
  split
  · exact ⟨rfl, rfl, rfl⟩
  · rw [copy_setCopy]; split
    · rename_i h; subst h; exact ⟨rfl, rfl, rfl⟩
    · exact ⟨rfl, rfl, rfl⟩

theorem ask_log (c : Cluster) (n u : Nat) : (c.ask n u).log = c.log ∧ (c.ask n u).limits = c.limits ∧ (c.ask n u).alive = c.alive := by
  unfold Cluster.ask; split <;> exact ⟨rfl, rfl, rfl⟩

theorem answer_copy (c : Cluster) (n m : Nat) : ((c.answer n).copy m).limits = (c.copy m).limits ∧
    ((c.answer n).copy m).seen = (c.copy m).seen := by
  unfold Cluster.answer
  split
  · exact ⟨rfl, rfl⟩
  · rw [copy_setCopy]; split
    · rename_i h; subst h; exact ⟨rfl, rfl⟩
    · exact ⟨rfl, rfl⟩

theorem answer_log (c : Cluster) (n : Nat) : (c.answer n).log = c.log ∧ (c.answer n).limits = c.limits ∧ (c.answer n).alive = c.alive := by
  unfold Cluster.answer; split <;> exact ⟨rfl, rfl, rfl⟩

end Verif.Quota
