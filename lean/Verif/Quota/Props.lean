import Verif.Quota.Basic
/-!
# Limits on the objects of a tenant: properties (C205–C210)
-/
namespace Verif.Quota

/-! ## C205: the number of databases -/

/-- The node that a statement or a message is at. -/
def Op.node : Op → Nat
  | .createDb n _ _ _ | .alterDb n _ _ | .addMember n _ _ | .alterTenant n _ | .ask n _ | .answer n | .deliver n | .sync n | .reopen n => n
  | .dropDb _ | .setRole _ _ | .removeMember _ => 0

/-- Not ALTER TENANT: the limits stay. -/
def Op.Steady : Op → Prop
  | .alterTenant _ _ => False
  | _ => True

/-- `t` is the last time at which there were fewer databases than the limit `m`; each node that has made one since knows of it. -/
structure Inv (m N : Nat) (c : Cluster) : Prop where
  limit : c.limits.databases = some m
  limits : ∀ n, (c.copy n).limits.databases = some m
  seen : ∀ n, (c.copy n).seen ≤ c.log.length
  last : ∃ t, t ≤ c.log.length ∧ cnt c.log t < m ∧ (∀ t', t < t' → t' ≤ c.log.length → m ≤ cnt c.log t') ∧
    cnt c.log c.log.length + 1 ≤ m + (List.range N).countP fun i => decide (t < (c.copy i).seen)

theorem Inv.same {m N : Nat} {c c' : Cluster} (h : Inv m N c) (hl : c'.limits = c.limits)
    (hls : ∀ n, (c'.copy n).limits = (c.copy n).limits ∨ (c'.copy n).limits = c.limits) (hlog : c'.log = c.log)
    (hup : ∀ n, (c.copy n).seen ≤ (c'.copy n).seen) (hle : ∀ n, (c'.copy n).seen ≤ c'.log.length) : Inv m N c' := by
  refine ⟨by rw [hl, h.limit], fun n => ?_, hle, ?_⟩
  · rcases hls n with e | e <;> rw [e]
    · exact h.limits n
    · exact h.limit
  · obtain ⟨t, h1, h2, h3, h4⟩ := h.last
    rw [hlog]
    refine ⟨t, h1, h2, h3, Nat.le_trans h4 (Nat.add_le_add_left ?_ _)⟩
    refine List.countP_mono_left fun i _ hi => ?_
    have := hup i
    simp only [decide_eq_true_eq] at hi ⊢
    omega

theorem Inv.snoc {m N : Nat} {c c' : Cluster} {e : Event} (h : Inv m N c) (hl : c'.limits = c.limits)
    (hls : ∀ n, (c'.copy n).limits = (c.copy n).limits) (hlog : c'.log = c.log ++ [e])
    (hup : ∀ n, (c.copy n).seen ≤ (c'.copy n).seen) (hle : ∀ n, (c'.copy n).seen ≤ c'.log.length)
    (hc : (replay c'.log).dbs.entries.length ≤ (replay c.log).dbs.entries.length ∨
      (replay c'.log).dbs.entries.length ≤ (replay c.log).dbs.entries.length + 1 ∧
        ∃ i < N, cnt c.log (c.copy i).seen < m ∧ (c'.copy i).seen = c'.log.length) : Inv m N c' := by
  refine ⟨by rw [hl, h.limit], fun n => by rw [hls]; exact h.limits n, hle, ?_⟩
  have hlen : c'.log.length = c.log.length + 1 := by rw [hlog]; simp
  by_cases hm : cnt c'.log c'.log.length < m
  · exact ⟨c'.log.length, Nat.le_refl _, hm, fun t' h1 h2 => by omega, by omega⟩
  · obtain ⟨t, h1, h2, h3, h4⟩ := h.last
    have hold : ∀ t', t' ≤ c.log.length → cnt c'.log t' = cnt c.log t' := fun t' ht => by rw [hlog]; exact cnt_snoc e ht
    refine ⟨t, by omega, by rw [hold t h1]; exact h2, fun t' ha hb => ?_, ?_⟩
    · by_cases ht : t' ≤ c.log.length
      · rw [hold t' ht]; exact h3 t' ha ht
      · have : t' = c'.log.length := by omega
        rw [this]; omega
    · have mono : ((List.range N).countP fun i => decide (t < (c.copy i).seen)) ≤
          (List.range N).countP fun i => decide (t < (c'.copy i).seen) := by
        refine List.countP_mono_left fun i _ hi => ?_
        have := hup i
        simp only [decide_eq_true_eq] at hi ⊢
        omega
      rw [cnt_all] at h4 ⊢
      rcases hc with hc | ⟨hc, i, hi, hs, hn⟩
      · omega
      · have hti : ¬ t < (c.copy i).seen := fun hlt => by have := h3 _ hlt (h.seen i); omega
        have := countP_lt (fun i => decide (t < (c.copy i).seen)) (fun i => decide (t < (c'.copy i).seen)) (List.range N)
          (fun j hj => by have := hup j; simp only [decide_eq_true_eq] at hj ⊢; omega) i (List.mem_range.2 hi)
          (by simpa using Nat.le_of_not_lt hti) (by simp only [decide_eq_true_eq]; omega)
        omega

theorem sync_up (c : Cluster) (n m : Nat) : (c.copy m).seen ≤ ((c.sync n).copy m).seen := by
  unfold Cluster.sync
  split
  · rw [copy_setCopy]; split
    · rename_i h1 h2; subst h2; exact Nat.le_of_lt h1
    · exact Nat.le_refl _
  · exact Nat.le_refl _

theorem sync_le (c : Cluster) (n m : Nat) (h : ∀ k, (c.copy k).seen ≤ c.log.length) : ((c.sync n).copy m).seen ≤ c.log.length := by
  by_cases e : m = n
  · subst e; exact Nat.le_of_eq (sync_seen c m (h m))
  · rw [sync_other c n m e]; exact h m

/-- What a statement that adds a change does, when its node then gets all metadata. -/
theorem Inv.write {m N : Nat} {c : Cluster} (h : Inv m N c) (e : Event) (n : Nat)
    (hc : (replay (c.log ++ [e])).dbs.entries.length ≤ (replay c.log).dbs.entries.length ∨
      (replay (c.log ++ [e])).dbs.entries.length ≤ (replay c.log).dbs.entries.length + 1 ∧ n < N ∧ cnt c.log (c.copy n).seen < m) :
    Inv m N (({ c with log := c.log ++ [e] } : Cluster).sync n) := by
  have hle : ∀ k, (({ c with log := c.log ++ [e] } : Cluster).copy k).seen ≤ (c.log ++ [e]).length := fun k => by
    have := h.seen k
    simp only [List.length_append, List.length_singleton]; omega
  refine h.snoc (e := e) (sync_clusterLimits _ n) (fun k => sync_limits _ n k) (sync_log _ n) (fun k => sync_up { c with log := c.log ++ [e] } n k) (fun k => ?_) ?_
  · rw [sync_log]; exact sync_le _ n k hle
  · rw [sync_log]
    rcases hc with hc | ⟨hc, hn, hs⟩
    · exact .inl hc
    · exact .inr ⟨hc, n, hn, hs, sync_seen _ n (hle n)⟩

/-- The same for a statement after which its node waits for the change like others. -/
theorem Inv.tell {m N : Nat} {c : Cluster} (h : Inv m N c) (e : Event)
    (hc : (replay (c.log ++ [e])).dbs.entries.length ≤ (replay c.log).dbs.entries.length) :
    Inv m N { c with log := c.log ++ [e] } :=
  h.snoc (e := e) rfl (fun _ => rfl) rfl (fun _ => Nat.le_refl _) (fun k => by
    have := h.seen k
    simp only [List.length_append, List.length_singleton]; omega) (.inl hc)

theorem create_inv {m N : Nat} {c : Cluster} (h : Inv m N c) (n : Nat) (d : Name) (o : Options) (e : Bool) (hn : n < N) :
    Inv m N (c.createDb n d o e).1 := by
  unfold Cluster.createDb
  split
  · exact h
  · rename_i hch
    split
    · exact h
    · rename_i hg
      split
      · exact h
      · refine h.write _ n (.inr ⟨?_, hn, ?_⟩)
        · rw [replay_snoc]; exact length_set_le _ _ _
        · simp only [Bool.not_eq_true', Bool.not_eq_false, Cluster.checkCreate, Bool.and_eq_true, h.limits n, below,
            decide_eq_true_eq] at hch
          exact hch.1

theorem step_inv {m N : Nat} {c : Cluster} (h : Inv m N c) (op : Op) (hn : op.node < N) (hs : op.Steady) :
    Inv m N (c.step op).1 := by
  cases op with
  | createDb n d o e => exact create_inv h n d o e hn
  | alterDb n d b =>
    simp only [Cluster.step]
    unfold Cluster.alterDb
    split
    · exact h
    · split
      · exact h
      · rename_i o _ hg
        split
        · exact h
        · refine h.write _ n (.inl ?_)
          rw [replay_snoc]
          refine length_set_old _ _ _ ?_
          have : ¬ ((replay c.log).dbs.get d).isNone := by simpa [Cluster.data] using hg
          cases hx : (replay c.log).dbs.get d with
          | none => rw [hx] at this; exact absurd rfl this
          | some _ => rfl
  | dropDb d => exact h.tell _ (by rw [replay_snoc]; exact length_del_le _ _)
  | addMember n u r =>
    simp only [Cluster.step]
    unfold Cluster.addMember
    split
    · exact h
    · split
      · exact h
      · exact h.tell _ (by rw [replay_snoc]; exact Nat.le_refl _)
  | setRole u r =>
    simp only [Cluster.step]
    split
    · exact h
    · exact h.tell _ (by rw [replay_snoc]; exact Nat.le_refl _)
  | removeMember u =>
    simp only [Cluster.step]
    split
    · exact h
    · exact h.tell _ (by rw [replay_snoc]; exact Nat.le_refl _)
  | alterTenant n l => exact hs.elim
  | ask n u =>
    exact h.same (ask_log c n u).2.1 (fun k => .inl (ask_copy c n u k).1) (ask_log c n u).1
      (fun k => Nat.le_of_eq (ask_copy c n u k).2.1.symm) (fun k => by
        show ((c.ask n u).copy k).seen ≤ (c.ask n u).log.length
        rw [(ask_copy c n u k).2.1, (ask_log c n u).1]; exact h.seen k)
  | answer n =>
    exact h.same (answer_log c n).2.1 (fun k => .inl (answer_copy c n k).1) (answer_log c n).1
      (fun k => Nat.le_of_eq (answer_copy c n k).2.symm) (fun k => by
        show ((c.answer n).copy k).seen ≤ (c.answer n).log.length
        rw [(answer_copy c n k).2, (answer_log c n).1]; exact h.seen k)
  | deliver n =>
    exact h.same (deliver_log c n).2.1 (fun k => .inl (deliver_copy c n k).1) (deliver_log c n).1
      (fun k => (deliver_copy c n k).2.1) (fun k => by
        show ((c.deliver n).copy k).seen ≤ (c.deliver n).log.length
        rw [(deliver_log c n).1]; exact (deliver_copy c n k).2.2 (h.seen k))
  | sync n =>
    exact h.same (sync_clusterLimits c n) (fun k => .inl (sync_limits c n k)) (sync_log c n) (fun k => sync_up c n k) (fun k => by
      show ((c.sync n).copy k).seen ≤ (c.sync n).log.length
      rw [sync_log]; exact sync_le c n k h.seen)
  | reopen n =>
    refine h.same rfl (fun k => ?_) rfl (fun k => ?_) (fun k => ?_)
    · show ((c.setCopy n c.fresh).copy k).limits = _ ∨ ((c.setCopy n c.fresh).copy k).limits = _
      rw [copy_setCopy]; split
      · exact .inr rfl
      · exact .inl rfl
    · show _ ≤ ((c.setCopy n c.fresh).copy k).seen
      rw [copy_setCopy]; split
      · exact h.seen k
      · exact Nat.le_refl _
    · show ((c.setCopy n c.fresh).copy k).seen ≤ c.log.length
      rw [copy_setCopy]; split
      · exact Nat.le_refl _
      · exact h.seen k

theorem run_inv {m N : Nat} (ops : List Op) (c : Cluster) (h : Inv m N c) (hn : ∀ op ∈ ops, op.node < N) (hs : ∀ op ∈ ops, op.Steady) :
    Inv m N (c.run ops) := by
  induction ops generalizing c with
  | nil => exact h
  | cons op ops ih =>
    exact ih _ (step_inv h op (hn op List.mem_cons_self) (hs op List.mem_cons_self)) (fun o ho => hn o (List.mem_cons_of_mem _ ho))
      (fun o ho => hs o (List.mem_cons_of_mem _ ho))

/-- **C205, bound.**  With `N` nodes there are at most `N - 1` databases more than the limit, whatever the order of statements and
messages, as each node that has made one too many knows of it. -/
theorem C205_bound (l : Limits) (alive N m : Nat) (ops : List Op) (hl : l.databases = some m) (hm : 0 < m)
    (hn : ∀ op ∈ ops, op.node < N) (hs : ∀ op ∈ ops, op.Steady) :
    ((start l alive).run ops).data.dbs.entries.length + 1 ≤ m + max N 1 := by
  have h0 : Inv m N (start l alive) := by
    refine ⟨hl, fun _ => hl, fun _ => Nat.le_refl _, 0, Nat.le_refl _, hm, fun t' h1 h2 => ?_, ?_⟩
    · have : t' ≤ 0 := h2
      omega
    · show 0 + 1 ≤ _
      omega
  obtain ⟨t, _, _, _, h4⟩ := (run_inv ops _ h0 hn hs).last
  rw [cnt_all] at h4
  have : ((List.range N).countP fun i => decide (t < (((start l alive).run ops).copy i).seen)) ≤ N := by
    simpa using List.countP_le_length (p := fun i => decide (t < (((start l alive).run ops).copy i).seen)) (l := List.range N)
  show (replay _).dbs.entries.length + 1 ≤ _
  omega

/-- **C205, one node.**  If all statements go to one node, there are never more databases than the limit. -/
theorem C205_one_node_partial (l : Limits) (alive m : Nat) (ops : List Op) (hl : l.databases = some m) (hm : 0 < m)
    (hn : ∀ op ∈ ops, op.node = 0) (hs : ∀ op ∈ ops, op.Steady) :
    ((start l alive).run ops).data.dbs.entries.length ≤ m := by
  have := C205_bound l alive 1 m ops hl hm (fun op ho => by rw [hn op ho]; exact Nat.one_pos) hs
  simpa using this

/-- Each CREATE DATABASE and each ADD USER is done by a node that has heard of all changes. -/
def Prompt : Cluster → List Op → Prop
  | _, [] => True
  | c, op :: ops => (match op with
      | .createDb n _ _ _ | .addMember n _ _ => (c.copy n).seen = c.log.length
      | _ => True) ∧ Prompt (c.step op).1 ops

/-- The limits of all copies, and no change is known before it is made. -/
structure Base (l : Limits) (c : Cluster) : Prop where
  limit : c.limits = l
  limits : ∀ n, (c.copy n).limits = l
  seen : ∀ n, (c.copy n).seen ≤ c.log.length

theorem Base.write {l : Limits} {c : Cluster} (h : Base l c) (e : Event) (n : Nat) :
    Base l (({ c with log := c.log ++ [e] } : Cluster).sync n) := by
  refine ⟨by rw [sync_clusterLimits]; exact h.limit, fun k => by rw [sync_limits]; exact h.limits k, fun k => ?_⟩
  rw [sync_log]
  refine sync_le _ n k fun j => ?_
  have := h.seen j
  simp only [List.length_append, List.length_singleton]; omega

theorem Base.tell {l : Limits} {c : Cluster} (h : Base l c) (e : Event) : Base l { c with log := c.log ++ [e] } :=
  ⟨h.limit, h.limits, fun k => by have := h.seen k; simp only [List.length_append, List.length_singleton]; omega⟩

theorem step_base {l : Limits} {c : Cluster} (h : Base l c) (op : Op) (hs : op.Steady) : Base l (c.step op).1 := by
  cases op with
  | createDb n d o e =>
    simp only [Cluster.step]
    unfold Cluster.createDb
    split
    · exact h
    · split
      · exact h
      · split
        · exact h
        · exact h.write _ n
  | alterDb n d b =>
    simp only [Cluster.step]
    unfold Cluster.alterDb
    split
    · exact h
    · split
      · exact h
      · split
        · exact h
        · exact h.write _ n
  | dropDb d => exact h.tell _
  | addMember n u r =>
    simp only [Cluster.step]
    unfold Cluster.addMember
    split
    · exact h
    · split
      · exact h
      · exact h.tell _
  | setRole u r =>
    simp only [Cluster.step]
    split
    · exact h
    · exact h.tell _
  | removeMember u =>
    simp only [Cluster.step]
    split
    · exact h
    · exact h.tell _
  | alterTenant n l => exact hs.elim
  | ask n u =>
    refine ⟨(ask_log c n u).2.1.trans h.limit, fun k => (ask_copy c n u k).1.trans (h.limits k), fun k => ?_⟩
    show ((c.ask n u).copy k).seen ≤ (c.ask n u).log.length
    rw [(ask_copy c n u k).2.1, (ask_log c n u).1]; exact h.seen k
  | answer n =>
    refine ⟨(answer_log c n).2.1.trans h.limit, fun k => (answer_copy c n k).1.trans (h.limits k), fun k => ?_⟩
    show ((c.answer n).copy k).seen ≤ (c.answer n).log.length
    rw [(answer_copy c n k).2, (answer_log c n).1]; exact h.seen k
  | deliver n =>
    refine ⟨(deliver_log c n).2.1.trans h.limit, fun k => (deliver_copy c n k).1.trans (h.limits k), fun k => ?_⟩
    show ((c.deliver n).copy k).seen ≤ (c.deliver n).log.length
    rw [(deliver_log c n).1]; exact (deliver_copy c n k).2.2 (h.seen k)
  | sync n =>
    refine ⟨(sync_clusterLimits c n).trans h.limit, fun k => (sync_limits c n k).trans (h.limits k), fun k => ?_⟩
    show ((c.sync n).copy k).seen ≤ (c.sync n).log.length
    rw [sync_log]; exact sync_le c n k h.seen
  | reopen n =>
    refine ⟨h.limit, fun k => ?_, fun k => ?_⟩
    · show ((c.setCopy n c.fresh).copy k).limits = l
      rw [copy_setCopy]; split
      · exact h.limit
      · exact h.limits k
    · show ((c.setCopy n c.fresh).copy k).seen ≤ c.log.length
      rw [copy_setCopy]; split
      · exact Nat.le_refl _
      · exact h.seen k

theorem start_base (l : Limits) (alive : Nat) : Base l (start l alive) := ⟨rfl, fun _ => rfl, fun _ => Nat.le_refl _⟩

theorem dbsAt_current (c : Cluster) (n : Nat) (h : (c.copy n).seen = c.log.length) : c.dbsAt n = c.data.dbs := by
  unfold Cluster.dbsAt Cluster.data
  rw [h, List.take_length]

/-- The databases after a step. -/
theorem step_dbs (c : Cluster) (op : Op) : (c.step op).1.data.dbs = match op with
    | .createDb n d o _ => if c.checkCreate n o && (c.data.dbs.get d).isNone && c.valid o then c.data.dbs.set d o else c.data.dbs
    | .alterDb n d b => match (c.dbsAt n).get d with
      | none => c.data.dbs
      | some o => if (c.data.dbs.get d).isSome && c.valid (b.apply o) then c.data.dbs.set d (b.apply o) else c.data.dbs
    | .dropDb d => c.data.dbs.del d
    | _ => c.data.dbs := by
  cases op with
  | createDb n d o e =>
    simp only [Cluster.step]
    unfold Cluster.createDb
    cases h1 : c.checkCreate n o with
    | false => simp
    | true =>
      cases h2 : c.data.dbs.get d with
      | some x => simp
      | none =>
        cases h3 : c.valid o with
        | false => simp
        | true =>
          simp only [Bool.not_true, Bool.false_eq_true, if_false, Option.isSome_none, Option.isNone_none, Bool.and_true, if_true]
          unfold Cluster.data
          rw [sync_log, replay_snoc]; rfl
  | alterDb n d b =>
    simp only [Cluster.step]
    unfold Cluster.alterDb
    cases h1 : (c.dbsAt n).get d with
    | none => rfl
    | some o =>
      dsimp only
      cases h2 : c.data.dbs.get d with
      | none => simp
      | some x =>
        cases h3 : c.valid (b.apply o) with
        | false => simp
        | true =>
          simp only [Option.isNone_some, Bool.not_true, Bool.false_eq_true, if_false, Option.isSome_some, Bool.and_true, if_true]
          unfold Cluster.data
          rw [sync_log, replay_snoc]; rfl
  | dropDb d => show (replay (c.log ++ [.delDb d])).dbs = _; rw [replay_snoc]; rfl
  | addMember n u r =>
    simp only [Cluster.step]
    unfold Cluster.addMember
    split
    · rfl
    · split
      · rfl
      · show (replay _).dbs = _; rw [replay_snoc]; rfl
  | setRole u r =>
    simp only [Cluster.step]
    split
    · rfl
    · show (replay _).dbs = _; rw [replay_snoc]; rfl
  | removeMember u =>
    simp only [Cluster.step]
    split
    · rfl
    · show (replay _).dbs = _; rw [replay_snoc]; rfl
  | alterTenant n l => rfl
  | ask n u => show (replay (c.ask n u).log).dbs = _; rw [(ask_log c n u).1]; rfl
  | answer n => show (replay (c.answer n).log).dbs = _; rw [(answer_log c n).1]; rfl
  | deliver n => show (replay (c.deliver n).log).dbs = _; rw [(deliver_log c n).1]; rfl
  | sync n => show (replay (c.sync n).log).dbs = _; rw [sync_log]; rfl
  | reopen n => rfl

/-- **C205, prompt.**  If each CREATE DATABASE is done by a node that has heard of all changes, there are never more databases than
the limit, on any number of nodes. -/
theorem C205_prompt_partial (l : Limits) (alive m : Nat) (ops : List Op) (hl : l.databases = some m)
    (hs : ∀ op ∈ ops, op.Steady) (hp : Prompt (start l alive) ops) :
    ((start l alive).run ops).data.dbs.entries.length ≤ m := by
  suffices H : ∀ (ops : List Op) (c : Cluster), Base l c → c.data.dbs.entries.length ≤ m → (∀ op ∈ ops, op.Steady) → Prompt c ops →
      (c.run ops).data.dbs.entries.length ≤ m from H ops _ (start_base l alive) (Nat.zero_le _) hs hp
  intro ops
  induction ops with
  | nil => intro c _ h _ _; exact h
  | cons op ops ih =>
    intro c hb h hs hp
    refine ih _ (step_base hb op (hs op List.mem_cons_self)) ?_ (fun o ho => hs o (List.mem_cons_of_mem _ ho)) hp.2
    rw [step_dbs]
    cases op with
    | createDb n d o e =>
      dsimp only
      by_cases hc : (c.checkCreate n o && (c.data.dbs.get d).isNone && c.valid o) = true
      · rw [if_pos hc]
        simp only [Bool.and_eq_true, Cluster.checkCreate, hb.limits n, hl, below, decide_eq_true_eq,
          dbsAt_current c n hp.1] at hc
        exact Nat.le_trans (length_set_le _ _ _) hc.1.1.1
      · rw [if_neg hc]; exact h
    | alterDb n d b =>
      dsimp only
      split
      · exact h
      · split
        · rename_i hc
          simp only [Bool.and_eq_true] at hc
          exact Nat.le_trans (length_set_old _ _ _ hc.1) h
        · exact h
    | dropDb d => exact Nat.le_trans (length_del_le _ _) h
    | _ => exact h

/-- **C205, decision.**  On a node that has heard of everything, CREATE DATABASE of a new name is refused for a limit exactly if
there are as many databases as the limit says or an option is above its limit. -/
theorem C205_decision (c : Cluster) (n : Nat) (d : Name) (o : Options) (e : Bool) (hs : (c.copy n).seen = c.log.length)
    (hl : (c.copy n).limits = c.limits) :
    (c.createDb n d o e).2 = .limit ↔
      (∃ m, c.limits.databases = some m ∧ m ≤ c.data.dbs.entries.length) ∨ (∃ m, c.limits.replicas = some m ∧ m < o.replica) ∨
      (∃ m, c.limits.shards = some m ∧ m < o.shards) ∨ ∃ m, c.limits.days = some m ∧ (ofDays m).ns < o.ttl.ns := by
  have h1 : (c.createDb n d o e).2 = .limit ↔ c.checkCreate n o = false := by
    unfold Cluster.createDb
    cases h1 : c.checkCreate n o with
    | false => simp
    | true =>
      simp only [Bool.not_true, Bool.false_eq_true, if_false]
      constructor
      · intro h; exfalso
        split at h
        · cases e <;> cases h
        · split at h <;> cases h
      · intro h; cases h
  rw [h1, Cluster.checkCreate, hl, dbsAt_current c n hs, Limits.allow]
  cases hd : c.limits.databases <;> cases hr : c.limits.replicas <;> cases hh : c.limits.shards <;> cases ht : c.limits.days <;>
    simp [below, within] <;> (try grind)

/-! ## C206: options -/

/-- Not ALTER DATABASE. -/
def Op.Unaltered : Op → Prop
  | .alterDb _ _ _ => False
  | _ => True

/-- **C206, created.**  As long as there is no ALTER DATABASE, all databases keep within the limits on replicas, shards and retention,
whatever the nodes have heard. -/
theorem C206_created_partial (l : Limits) (alive : Nat) (ops : List Op) (hs : ∀ op ∈ ops, op.Steady) (ha : ∀ op ∈ ops, op.Unaltered)
    (d : Name) (o : Options) (h : ((start l alive).run ops).data.dbs.get d = some o) : l.allow o = true := by
  suffices H : ∀ (ops : List Op) (c : Cluster), Base l c → (∀ d o, c.data.dbs.get d = some o → l.allow o = true) →
      (∀ op ∈ ops, op.Steady) → (∀ op ∈ ops, op.Unaltered) → ∀ d o, (c.run ops).data.dbs.get d = some o → l.allow o = true from
    H ops _ (start_base l alive) (fun d o h => by cases h) hs ha d o h
  intro ops
  induction ops with
  | nil => intro c _ h _ _; exact h
  | cons op ops ih =>
    intro c hb h hs ha
    refine ih _ (step_base hb op (hs op List.mem_cons_self)) ?_ (fun o ho => hs o (List.mem_cons_of_mem _ ho))
      (fun o ho => ha o (List.mem_cons_of_mem _ ho))
    intro d' o'
    rw [step_dbs]
    cases op with
    | createDb n d o e =>
      dsimp only
      by_cases hc : (c.checkCreate n o && (c.data.dbs.get d).isNone && c.valid o) = true
      · rw [if_pos hc, AMap.get_set]
        simp only [Bool.and_eq_true, Cluster.checkCreate, hb.limits n] at hc
        split
        · intro he; cases he; exact hc.1.1.2
        · exact h d' o'
      · rw [if_neg hc]; exact h d' o'
    | alterDb n d b => exact (ha _ List.mem_cons_self).elim
    | dropDb d =>
      dsimp only
      rw [AMap.get_del]
      split
      · intro he; cases he
      · exact h d' o'
    | _ => exact h d' o'

/-- C206: what the limits allow. -/
theorem C206_allow (l : Limits) (o : Options) : l.allow o = true ↔
    (∀ m, l.replicas = some m → o.replica ≤ m) ∧ (∀ m, l.shards = some m → o.shards ≤ m) ∧
      ∀ m, l.days = some m → o.ttl.ns ≤ (ofDays m).ns := by
  unfold Limits.allow
  cases hr : l.replicas <;> cases hh : l.shards <;> cases ht : l.days <;> simp [within] <;> (try grind)

/-- C206: a limit of days that fits is a limit on nanoseconds; databases that never expire are allowed only if it does not. -/
theorem C206_days (d : Nat) (h : d ≤ 106751) : (ofDays d).ns = d * 86400000000000 ∧ (ofDays d).ns < Ttl.inf.ns := by
  have : ofDays d = .nanos (d * 24 * 60 * 60 * 1000000000) := by
    unfold ofDays u64Max; rw [if_neg (by omega)]
  rw [this]
  simp only [Ttl.ns, i64Max]
  omega

end Verif.Quota
