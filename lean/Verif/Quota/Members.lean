import Verif.Quota.Props
/-!
# Members of a tenant: their number and their roles on the nodes (C207, C209)
-/
namespace Verif.Quota

/-- A change is about a member. -/
def touches (u : Nat) : Event → Bool
  | .setMember v _ => decide (v = u)
  | .delMember v => decide (v = u)
  | _ => false

theorem apply_untouched (d : Data) (e : Event) (u : Nat) (h : touches u e = false) : (d.apply e).members.get u = d.members.get u := by
  cases e with
  | setDb | delDb => rfl
  | setMember v r =>
    simp only [touches, decide_eq_false_iff_not] at h
    simp only [Data.apply]; rw [AMap.get_set, if_neg (fun e => h e.symm)]
  | delMember v =>
    simp only [touches, decide_eq_false_iff_not] at h
    simp only [Data.apply]; rw [AMap.get_del, if_neg (fun e => h e.symm)]

theorem foldl_untouched (es : List Event) (d : Data) (u : Nat) (h : ∀ e ∈ es, touches u e = false) :
    (es.foldl Data.apply d).members.get u = d.members.get u := by
  induction es generalizing d with
  | nil => rfl
  | cons e es ih =>
    rw [List.foldl_cons, ih _ (fun x hx => h x (List.mem_cons_of_mem _ hx)), apply_untouched d e u (h e List.mem_cons_self)]

/-- What a node knows of a member, if all changes of this member have been heard. -/
def Heard (c : Cluster) (n u : Nat) : Prop := ∀ e ∈ c.log.drop (c.copy n).seen, touches u e = false

/-- A relation between what is stored and what a node has of a member that holds for all that have been heard of. -/
structure Knows (R : Option Name → Option Name → Prop) (c : Cluster) : Prop where
  seen : ∀ n, (c.copy n).seen ≤ c.log.length
  rel : ∀ n u, Heard c n u → R (c.data.members.get u) ((c.copy n).members.get u)

theorem Knows.sync {R : Option Name → Option Name → Prop} (hr : ∀ x, R x x) {c : Cluster} (h : Knows R c) (n : Nat) : Knows R (c.sync n) := by
  refine ⟨fun k => by rw [sync_log]; exact sync_le c n k h.seen, fun k u hh => ?_⟩
  have hd : (c.sync n).data = c.data := by unfold Cluster.data; rw [sync_log]
  rw [hd]
  by_cases hlt : (c.copy n).seen < c.log.length
  · by_cases e : k = n
    · subst e; rw [sync_members c k hlt]; exact hr _
    · rw [sync_other c n k e]
      refine h.rel k u ?_
      unfold Heard at hh ⊢
      rwa [sync_log, sync_other c n k e] at hh
  · have : c.sync n = c := by unfold Cluster.sync; rw [if_neg hlt]
    rw [this] at hh ⊢
    exact h.rel k u hh

/-- A change is added and its node gets all metadata: for the other nodes it has not been heard of. -/
theorem Knows.tell {R : Option Name → Option Name → Prop} {c : Cluster} (h : Knows R c) (e : Event) :
    Knows R { c with log := c.log ++ [e] } := by
  refine ⟨fun k => by have := h.seen k; simp only [List.length_append, List.length_singleton]; omega, fun k u hh => ?_⟩
  unfold Heard at hh
  rw [List.drop_append_of_le_length (h.seen k)] at hh
  have he : touches u e = false := hh e (by simp)
  show R ((replay (c.log ++ [e])).members.get u) _
  rw [replay_snoc, apply_untouched _ e u he]
  exact h.rel k u fun x hx => hh x (List.mem_append_left _ hx)

theorem Knows.write {R : Option Name → Option Name → Prop} (hr : ∀ x, R x x) {c : Cluster} (h : Knows R c) (e : Event) (n : Nat) :
    Knows R (({ c with log := c.log ++ [e] } : Cluster).sync n) := (h.tell e).sync hr n

theorem Knows.deliver {R : Option Name → Option Name → Prop} (hr : ∀ x, R x x) {c : Cluster} (h : Knows R c) (n : Nat) :
    Knows R (c.deliver n) := by
  refine ⟨fun k => by rw [(deliver_log c n).1]; exact (deliver_copy c n k).2.2 (h.seen k), fun k u hh => ?_⟩
  have hd : (c.deliver n).data = c.data := by unfold Cluster.data; rw [(deliver_log c n).1]
  rw [hd]
  unfold Heard at hh
  rw [(deliver_log c n).1] at hh
  unfold Cluster.deliver at hh ⊢
  cases hx : c.log[(c.copy n).seen]? with
  | none => rw [hx] at hh; exact h.rel k u hh
  | some e =>
    rw [hx] at hh
    dsimp only at hh ⊢
    rw [copy_setCopy] at hh ⊢
    by_cases hk : k = n
    · subst hk
      rw [if_pos rfl] at hh ⊢
      dsimp only at hh ⊢
      obtain ⟨hlt, hg⟩ := List.getElem?_eq_some_iff.1 hx
      have hdrop : c.log.drop (c.copy k).seen = e :: c.log.drop ((c.copy k).seen + 1) := by
        rw [List.drop_eq_getElem_cons hlt, hg]
      have hdata : c.data = (c.log.drop ((c.copy k).seen + 1)).foldl Data.apply ((replay (c.log.take (c.copy k).seen)).apply e) := by
        unfold Cluster.data
        conv => lhs; rw [← List.take_append_drop (c.copy k).seen c.log]
        rw [replay_append, hdrop, List.foldl_cons]
      by_cases ht : touches u e = true
      · rw [hdata, foldl_untouched _ _ u hh]
        cases e with
        | setDb | delDb => cases ht
        | setMember v r =>
          simp only [touches, decide_eq_true_eq] at ht
          subst ht
          simp only [Data.apply]; rw [AMap.get_set, AMap.get_set, if_pos rfl, if_pos rfl]; exact hr _
        | delMember v =>
          simp only [touches, decide_eq_true_eq] at ht
          subst ht
          simp only [Data.apply]; rw [AMap.get_del, AMap.get_del, if_pos rfl, if_pos rfl]; exact hr _
      · have ht : touches u e = false := by simpa using ht
        have hR := h.rel k u (by
          unfold Heard; rw [hdrop]
          intro x hx
          rcases List.mem_cons.1 hx with rfl | hx
          · exact ht
          · exact hh x hx)
        cases e with
        | setDb | delDb => exact hR
        | setMember v r =>
          simp only [touches, decide_eq_false_iff_not] at ht
          dsimp only; rw [AMap.get_set, if_neg (fun e => ht e.symm)]; exact hR
        | delMember v =>
          simp only [touches, decide_eq_false_iff_not] at ht
          dsimp only; rw [AMap.get_del, if_neg (fun e => ht e.symm)]; exact hR
    · rw [if_neg hk] at hh ⊢; exact h.rel k u hh

/-- All steps but questions and answers. -/
def Op.Plain : Op → Prop
  | .ask _ _ | .answer _ => False
  | _ => True

theorem Knows.fresh {R : Option Name → Option Name → Prop} (hr : ∀ x, R x x) {c : Cluster} (h : Knows R c) (n : Nat) (l : Limits) :
    Knows R (({ c with limits := l } : Cluster).setCopy n ({ c with limits := l } : Cluster).fresh) := by
  refine ⟨fun k => ?_, fun k u hh => ?_⟩
  · rw [copy_setCopy]; split
    · exact Nat.le_refl _
    · exact h.seen k
  · unfold Heard at hh
    rw [copy_setCopy] at hh ⊢
    by_cases hk : k = n
    · rw [if_pos hk]; exact hr _
    · rw [if_neg hk] at hh ⊢; exact h.rel k u hh

theorem Knows.step {R : Option Name → Option Name → Prop} (hr : ∀ x, R x x) {c : Cluster} (h : Knows R c) (op : Op) (hp : op.Plain) :
    Knows R (c.step op).1 := by
  cases op with
  | createDb n d o e =>
    simp only [Cluster.step]
    unfold Cluster.createDb
    split
    · exact h
    · split
      · exact h
      · split
        · exact h
        · exact h.write hr _ n
  | alterDb n d b =>
    simp only [Cluster.step]
    unfold Cluster.alterDb
    split
    · exact h
    · split
      · exact h
      · split
        · exact h
        · exact h.write hr _ n
  | dropDb d => exact h.tell _
  | addMember n u r =>
    simp only [Cluster.step]
    unfold Cluster.addMember
    split
    · exact h
    · split
      · exact h
      · exact h.tell _
  | setRole u r =>
    simp only [Cluster.step]
    split
    · exact h
    · exact h.tell _
  | removeMember u =>
    simp only [Cluster.step]
    split
    · exact h
    · exact h.tell _
  | alterTenant n l => exact h.fresh hr n _
  | ask n u => exact hp.elim
  | answer n => exact hp.elim
  | deliver n => exact h.deliver hr n
  | sync n => exact h.sync hr n
  | reopen n => exact h.fresh hr n c.limits

/-! ## C209: the roles of members -/

theorem Heard.congr {c c' : Cluster} {n u : Nat} (hl : c'.log = c.log) (hs : (c'.copy n).seen = (c.copy n).seen) :
    Heard c' n u ↔ Heard c n u := by unfold Heard; rw [hl, hs]

/-- Executions in which an answer arrives before anything else happens. -/
def atomically (ops : List Op) : List Op := ops.flatMap fun
  | .ask n u => [.ask n u, .answer n]
  | .answer _ => []
  | op => [op]

/-- What is known is right, and no answer is under way. -/
structure Right (c : Cluster) : Prop where
  knows : Knows (· = ·) c
  quiet : ∀ n, (c.copy n).answers = []

theorem answers_step (c : Cluster) (op : Op) (hp : op.Plain) (n : Nat) (h : (c.copy n).answers = []) :
    ((c.step op).1.copy n).answers = [] := by
  have hsync : ∀ (c : Cluster) (k : Nat), (c.copy n).answers = [] → ((c.sync k).copy n).answers = [] := by
    intro c k h
    unfold Cluster.sync
    split
    · rw [copy_setCopy]; split
      · rename_i e; subst e; exact h
      · exact h
    · exact h
  cases op with
  | createDb k d o e =>
    simp only [Cluster.step]
    unfold Cluster.createDb
    split
    · exact h
    · split
      · exact h
      · split
        · exact h
        · exact hsync _ k h
  | alterDb k d b =>
    simp only [Cluster.step]
    unfold Cluster.alterDb
    split
    · exact h
    · split
      · exact h
      · split
        · exact h
        · exact hsync _ k h
  | dropDb d => exact h
  | addMember k u r =>
    simp only [Cluster.step]
    unfold Cluster.addMember
    split
    · exact h
    · split
      · exact h
      · exact h
  | setRole u r =>
    simp only [Cluster.step]
    split
    · exact h
    · exact h
  | removeMember u =>
    simp only [Cluster.step]
    split
    · exact h
    · exact h
  | alterTenant k l =>
    simp only [Cluster.step, Cluster.alterTenant]
    rw [copy_setCopy]; split
    · rfl
    · exact h
  | ask k u => exact hp.elim
  | answer k => exact hp.elim
  | deliver k =>
    simp only [Cluster.step]
    unfold Cluster.deliver
    split
    · exact h
    · rw [copy_setCopy]; split
      · rename_i e; subst e; exact h
      · exact h
  | sync k => exact hsync c k h
  | reopen k =>
    simp only [Cluster.step]
    rw [copy_setCopy]; split
    · rfl
    · exact h

theorem Right.askAnswer {c : Cluster} (h : Right c) (n u : Nat) : Right ((c.ask n u).answer n) := by
  cases hm : (c.copy n).members.get u with
  | some r =>
    have h1 : c.ask n u = c := by unfold Cluster.ask; rw [hm]
    have h2 : c.answer n = c := by unfold Cluster.answer; rw [h.quiet n]
    rw [h1, h2]; exact h
  | none =>
    have h1 : (c.ask n u).answer n = c.setCopy n { c.copy n with
        members := match c.data.members.get u with | some r => (c.copy n).members.set u r | none => (c.copy n).members } := by
      have ha : (c.ask n u) = c.setCopy n { c.copy n with answers := [(u, c.data.members.get u)] } := by
        unfold Cluster.ask; rw [hm]; dsimp only; rw [h.quiet n]; rfl
      rw [ha]
      unfold Cluster.answer
      rw [copy_setCopy, if_pos rfl]
      dsimp only
      unfold Cluster.setCopy
      simp only [Cluster.mk.injEq, true_and]
      funext m
      by_cases e : m = n
      · simp only [e, if_true]; rw [h.quiet n]; cases c.data.members.get u <;> rfl
      · simp only [e, if_false]
    rw [h1]
    refine ⟨⟨fun k => ?_, fun k v hh => ?_⟩, fun k => ?_⟩
    · rw [copy_setCopy]; split
      · exact h.knows.seen n
      · exact h.knows.seen k
    · show c.data.members.get v = _
      rw [copy_setCopy]
      by_cases hk : k = n
      · subst hk
        have hh' : Heard c k v := by unfold Heard at hh ⊢; rw [copy_setCopy, if_pos rfl] at hh; exact hh
        rw [if_pos rfl]
        dsimp only
        have hR := h.knows.rel k v hh'
        cases hd : c.data.members.get u with
        | none => exact hR
        | some r =>
          dsimp only
          rw [AMap.get_set]
          split
          · rename_i e; rw [e, hd]
          · exact hR
      · rw [if_neg hk]
        exact h.knows.rel k v (by unfold Heard at hh ⊢; rw [copy_setCopy, if_neg hk] at hh; exact hh)
    · rw [copy_setCopy]; split
      · exact h.quiet n
      · exact h.quiet k

theorem run_append (c : Cluster) (a b : List Op) : c.run (a ++ b) = (c.run a).run b := List.foldl_append

theorem right_run (ops : List Op) (c : Cluster) (h : Right c) : Right (c.run (atomically ops)) := by
  induction ops generalizing c with
  | nil => exact h
  | cons op ops ih =>
    unfold atomically
    rw [List.flatMap_cons, run_append]
    refine ih _ ?_
    have plain : ∀ op : Op, op.Plain → Right (c.run [op]) := fun op hp =>
      ⟨h.knows.step (fun _ => rfl) op hp, fun n => answers_step c op hp n (h.quiet n)⟩
    cases op with
    | ask n u => exact h.askAnswer n u
    | answer n => exact h
    | _ => exact plain _ trivial

theorem start_right (l : Limits) (alive : Nat) : Right (start l alive) :=
  ⟨⟨fun _ => Nat.le_refl _, fun _ _ _ => rfl⟩, fun _ => rfl⟩

/-- **C209, if answers arrive at once.**  A node that has heard of the changes of a member has the role of this member as it is
stored; one that was removed is not known any more. -/
theorem C209_heard_partial (l : Limits) (alive : Nat) (ops : List Op) (n u : Nat)
    (h : Heard ((start l alive).run (atomically ops)) n u) :
    ((start l alive).run (atomically ops)).roleAt n u = ((start l alive).run (atomically ops)).data.members.get u :=
  ((right_run ops _ (start_right l alive)).knows.rel n u h).symm

/-- C209: in all executions, a node that has heard of the changes of a member knows of the member, if the role is stored. -/
theorem knows_member (ops : List Op) (c : Cluster) (h : Knows (fun a b => a.isSome → b.isSome) c) :
    Knows (fun a b => a.isSome → b.isSome) (c.run ops) := by
  induction ops generalizing c with
  | nil => exact h
  | cons op ops ih =>
    refine ih _ ?_
    cases op with
    | ask n u =>
      refine ⟨fun k => ?_, fun k v hh => ?_⟩
      · show ((c.ask n u).copy k).seen ≤ (c.ask n u).log.length
        rw [(ask_copy c n u k).2.1, (ask_log c n u).1]; exact h.seen k
      · show ((replay (c.ask n u).log).members.get v).isSome → (((c.ask n u).copy k).members.get v).isSome
        rw [(ask_copy c n u k).2.2, (ask_log c n u).1]
        exact h.rel k v ((Heard.congr (ask_log c n u).1 (ask_copy c n u k).2.1).1 hh)
    | answer n =>
      refine ⟨fun k => ?_, fun k v hh => ?_⟩
      · show ((c.answer n).copy k).seen ≤ (c.answer n).log.length
        rw [(answer_copy c n k).2, (answer_log c n).1]; exact h.seen k
      · show ((replay (c.answer n).log).members.get v).isSome → (((c.answer n).copy k).members.get v).isSome
        rw [(answer_log c n).1]
        intro hv
        have hR := h.rel k v ((Heard.congr (answer_log c n).1 (answer_copy c n k).2).1 hh) hv
        unfold Cluster.answer
        split
        · exact hR
        · rw [copy_setCopy]
          by_cases hk : k = n
          · subst hk
            rw [if_pos rfl]
            dsimp only
            split
            · rw [AMap.get_set]; split
              · rfl
              · exact hR
            · exact hR
          · rw [if_neg hk]; exact hR
    | _ => exact h.step (fun _ => id) _ trivial

/-! ## C207: the number of members -/

/-- The number of members after a step. -/
theorem step_members (c : Cluster) (op : Op) : (c.step op).1.data.members.entries.length ≤ c.data.members.entries.length ∨
    ∃ n u r, op = .addMember n u r ∧ c.checkAdd n = true ∧
      (c.step op).1.data.members.entries.length ≤ c.data.members.entries.length + 1 := by
  cases op with
  | createDb n d o e =>
    left
    simp only [Cluster.step]
    unfold Cluster.createDb
    split
    · exact Nat.le_refl _
    · split
      · exact Nat.le_refl _
      · split
        · exact Nat.le_refl _
        · show (replay (Cluster.sync _ n).log).members.entries.length ≤ _
          rw [sync_log]; dsimp only; rw [replay_snoc]; exact Nat.le_refl _
  | alterDb n d b =>
    left
    simp only [Cluster.step]
    unfold Cluster.alterDb
    split
    · exact Nat.le_refl _
    · split
      · exact Nat.le_refl _
      · split
        · exact Nat.le_refl _
        · show (replay (Cluster.sync _ n).log).members.entries.length ≤ _
          rw [sync_log]; dsimp only; rw [replay_snoc]; exact Nat.le_refl _
  | dropDb d => left; show (replay (c.log ++ [.delDb d])).members.entries.length ≤ _; rw [replay_snoc]; exact Nat.le_refl _
  | addMember n u r =>
    simp only [Cluster.step]
    unfold Cluster.addMember
    cases hc : c.checkAdd n with
    | false => left; simp
    | true =>
      cases hm : c.data.members.get u with
      | some _ => left; simp
      | none =>
        right
        refine ⟨n, u, r, rfl, hc, ?_⟩
        simp only [Bool.not_true, Bool.false_eq_true, if_false, Option.isSome_none]
        show (replay (c.log ++ [.setMember u r])).members.entries.length ≤ _
        rw [replay_snoc]; exact length_set_le _ _ _
  | setRole u r =>
    left
    simp only [Cluster.step]
    split
    · exact Nat.le_refl _
    · rename_i hm
      show (replay (c.log ++ [.setMember u r])).members.entries.length ≤ _
      rw [replay_snoc]
      refine length_set_old _ _ _ ?_
      cases hx : (replay c.log).members.get u with
      | none => exact absurd (by rw [Cluster.data, hx]; rfl) hm
      | some _ => rfl
  | removeMember u =>
    left
    simp only [Cluster.step]
    split
    · exact Nat.le_refl _
    · show (replay (c.log ++ [.delMember u])).members.entries.length ≤ _
      rw [replay_snoc]; exact length_del_le _ _
  | alterTenant n l => left; exact Nat.le_refl _
  | ask n u => left; show (replay (c.ask n u).log).members.entries.length ≤ _; rw [(ask_log c n u).1]; exact Nat.le_refl _
  | answer n => left; show (replay (c.answer n).log).members.entries.length ≤ _; rw [(answer_log c n).1]; exact Nat.le_refl _
  | deliver n => left; show (replay (c.deliver n).log).members.entries.length ≤ _; rw [(deliver_log c n).1]; exact Nat.le_refl _
  | sync n => left; show (replay (c.sync n).log).members.entries.length ≤ _; rw [sync_log]; exact Nat.le_refl _
  | reopen n => left; exact Nat.le_refl _

/-- **C207, prompt.**  If each ADD USER is done by a node that has heard of all changes, there are never more members than the limit,
even with answers that come late. -/
theorem C207_prompt_partial (l : Limits) (alive m : Nat) (ops : List Op) (hl : l.users = some m)
    (hs : ∀ op ∈ ops, op.Steady) (hp : Prompt (start l alive) ops) :
    ((start l alive).run ops).data.members.entries.length ≤ m := by
  suffices H : ∀ (ops : List Op) (c : Cluster), Base l c → Knows (fun a b => a.isSome → b.isSome) c →
      c.data.members.entries.length ≤ m → (∀ op ∈ ops, op.Steady) → Prompt c ops →
      (c.run ops).data.members.entries.length ≤ m from
    H ops _ (start_base l alive) ⟨fun _ => Nat.le_refl _, fun _ _ _ h => h⟩ (Nat.zero_le _) hs hp
  intro ops
  induction ops with
  | nil => intro c _ _ h _ _; exact h
  | cons op ops ih =>
    intro c hb hk h hs hp
    refine ih _ (step_base hb op (hs op List.mem_cons_self)) (knows_member [op] c hk) ?_
      (fun o ho => hs o (List.mem_cons_of_mem _ ho)) hp.2
    rcases step_members c op with h1 | ⟨n, u, r, rfl, hc, h1⟩
    · exact Nat.le_trans h1 h
    · have hseen : (c.copy n).seen = c.log.length := hp.1
      simp only [Cluster.checkAdd, hb.limits n, hl, below, decide_eq_true_eq] at hc
      have := length_le_of_isSome c.data.members (c.copy n).members fun v => hk.rel n v (by
        unfold Heard; rw [hseen, List.drop_length]; intro e he; cases he)
      exact Nat.le_trans h1 (by omega)

/-- The changes that a run of ADD USER makes. -/
def adds (k : Nat) : List Event := (List.range k).map fun i => .setMember i ['m']

theorem adds_get (k j : Nat) : (replay (adds k)).members.get j = if j < k then some ['m'] else none := by
  induction k with
  | zero => rfl
  | succ k ih =>
    rw [adds, List.range_succ, List.map_append, List.map_singleton, replay_snoc]
    simp only [Data.apply]
    rw [AMap.get_set]
    by_cases e : j = k
    · rw [if_pos e, if_pos (by omega)]
    · rw [if_neg e]
      rw [adds] at ih
      rw [ih]
      by_cases hlt : j < k
      · rw [if_pos hlt, if_pos (by omega)]
      · rw [if_neg hlt, if_neg (by omega)]

theorem adds_length (k : Nat) : (replay (adds k)).members.entries.length = k := by
  induction k with
  | zero => rfl
  | succ k ih =>
    have hg := adds_get k k
    rw [if_neg (Nat.lt_irrefl k)] at hg
    rw [adds, List.range_succ, List.map_append, List.map_singleton, replay_snoc]
    simp only [Data.apply]
    rw [← adds, length_set_new _ _ _ hg, ih]

theorem adds_run (l : Limits) (alive m k : Nat) (hl : l.users = some (m + 1)) :
    (start l alive).run ((List.range k).map fun i => .addMember 0 i ['m']) = { start l alive with log := adds k } := by
  induction k with
  | zero => rfl
  | succ k ih =>
    have hg := adds_get k k
    rw [if_neg (Nat.lt_irrefl k)] at hg
    rw [List.range_succ, List.map_append, List.map_singleton, run_append, ih]
    show (Cluster.addMember _ 0 k ['m']).1 = _
    unfold Cluster.addMember
    have hc : Cluster.checkAdd { start l alive with log := adds k } 0 = true := by
      show below 0 l.users = true
      rw [hl]; simp [below]
    rw [hc]
    have hd : (Cluster.data { start l alive with log := adds k }).members.get k = none := hg
    rw [hd]
    simp only [Bool.not_true, Bool.false_eq_true, if_false, Option.isSome_none]
    rw [adds, adds, List.range_succ, List.map_append, List.map_singleton]

/-- **C207 is false**: the node that adds members does not count those it has just added.  With any limit above 0, any number of members
can be added by one node before the first change arrives. -/
theorem C207_refuted (m k : Nat) :
    ((start { users := some (m + 1) } 1).run ((List.range k).map fun i => .addMember 0 i ['m'])).data.members.entries.length = k := by
  rw [adds_run _ 1 m k rfl]
  exact adds_length k

end Verif.Quota
