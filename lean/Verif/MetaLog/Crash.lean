import Verif.MetaLog.Props
/-!
# A meta server that stops and starts again: its log has no holes (C217), its commands (C218)
-/
namespace Verif.MetaLog
open Verif.Raft (LogId)
open BMap (natLt natLt_strict)

/-! ## C217 -/

/-- Entries with the indexes from `n` on, without a gap. -/
def Chain : Nat → List Entry → Prop
  | _, [] => True
  | n, e :: es => e.id.index = n ∧ Chain (n + 1) es

/-- What the Raft library asks for: it appends behind the last log id, removes entries that are not purged, and purges more and more. -/
def Legal (s : State) : Op → Prop
  | .append es => Chain (after s.lastId) es
  | .truncate i => after s.purged ≤ i
  | .purge l => after s.purged ≤ l.index + 1
  | .apply _ => True

/-- The server stops anywhere but in the middle of a purge of entries that it does not have. -/
def Mild (s : State) : Event → Prop
  | .done _ => True
  | .crash (.purge l) _ => l.index < after s.lastId
  | .crash _ _ => True

def Event.op : Event → Op
  | .done op => op
  | .crash op _ => op

/-- All along a history. -/
def Along (P : State → Event → Prop) : State → List Event → Prop
  | _, [] => True
  | s, e :: es => P s e ∧ Along P (s.step e) es

instance decChain : (n : Nat) → (es : List Entry) → Decidable (Chain n es)
  | _, [] => .isTrue trivial
  | n, e :: es => @instDecidableAnd _ _ (Nat.decEq e.id.index n) (decChain (n + 1) es)

instance (s : State) (op : Op) : Decidable (Legal s op) := by
  cases op <;> (unfold Legal; infer_instance)

instance (s : State) (e : Event) : Decidable (Mild s e) := by
  cases e with
  | done op => exact .isTrue trivial
  | crash op k => cases op <;> (unfold Mild; infer_instance)

instance decAlong (P : State → Event → Prop) [d : ∀ s e, Decidable (P s e)] : (s : State) → (es : List Event) → Decidable (Along P s es)
  | _, [] => .isTrue trivial
  | s, e :: es => @instDecidableAnd _ _ (d s e) (decAlong P (s.step e) es)

/-- The indexes of the log are all numbers from `a` to below `a + n`, and the log is purged to somewhere in between. -/
structure Whole (s : State) (a n : Nat) : Prop where
  ok : Ok s.log
  keys : s.log.map Prod.fst = List.range' a n
  low : a ≤ after s.purged
  high : after s.purged ≤ a + n

theorem lastEntry_keys {l : Log} {a n : Nat} (h : Ok l) (hk : l.map Prod.fst = List.range' a (n + 1)) :
    ∃ e, lastEntry l = some e ∧ e.id.index = a + n := by
  rcases List.eq_nil_or_concat l with rfl | ⟨pre, x, rfl⟩
  · simp at hk
  · rw [List.concat_eq_append] at hk h ⊢
    refine ⟨x.2, by simp [lastEntry], ?_⟩
    rw [h.own x (by simp)]
    rw [List.range'_concat, List.map_append, List.map_singleton] at hk
    have := List.append_inj_right' hk rfl
    simpa using this

theorem lastEntry_none {l : Log} {a : Nat} (hk : l.map Prod.fst = List.range' a 0) : lastEntry l = none := by
  have : l = [] := by simpa using hk
  rw [this]; rfl

theorem whole_last {s : State} {a n : Nat} (h : Whole s a n) : after s.lastId = a + n := by
  cases n with
  | zero =>
    have h1 := h.low
    have h2 := h.high
    unfold State.lastId
    rw [lastEntry_none h.keys]
    show after s.purged = a + 0
    omega
  | succ n =>
    obtain ⟨e, h1, h2⟩ := lastEntry_keys h.ok h.keys
    unfold State.lastId
    rw [h1]
    show e.id.index + 1 = _
    omega

theorem keys_filter (l : Log) (p : Nat → Bool) : (l.filter fun x => p x.1).map Prod.fst = (l.map Prod.fst).filter p := by
  rw [List.filter_map]; rfl

theorem range_lt (a i : Nat) : ∀ n, (List.range' a n).filter (fun k => decide (k < i)) = List.range' a (min n (i - a)) := by
  intro n
  induction n with
  | zero => simp
  | succ n ih =>
    rw [List.range'_concat, List.filter_append, ih]
    by_cases h : a + n < i
    · have h1 : min n (i - a) = n := by omega
      have h2 : min (n + 1) (i - a) = n + 1 := by omega
      rw [h1, h2, List.range'_concat]
      simp [h]
    · have h1 : min (n + 1) (i - a) = min n (i - a) := by omega
      rw [h1]
      simp [h]

theorem range_ge (i : Nat) : ∀ n a, a ≤ i → (List.range' a n).filter (fun k => decide (i ≤ k)) = List.range' i (n - (i - a)) := by
  intro n
  induction n with
  | zero => intro a _; simp
  | succ n ih =>
    intro a h
    rw [List.range'_succ, List.filter_cons]
    by_cases ha : a = i
    · subst ha
      have h1 : n + 1 - (a - a) = n + 1 := by omega
      rw [if_pos (by simp), h1, List.range'_succ]
      congr 1
      apply List.filter_eq_self.mpr
      intro x hx
      rw [List.mem_range'] at hx
      obtain ⟨j, _, rfl⟩ := hx
      simp only [decide_eq_true_eq]
      omega
    · rw [if_neg (by simp; omega), ih (a + 1) (by omega)]
      congr 1
      omega

theorem put_keys (es : List Entry) : ∀ (l : Log) (a n : Nat), l.map Prod.fst = List.range' a n → Chain (a + n) es →
    (put es l).map Prod.fst = List.range' a (n + es.length) := by
  induction es with
  | nil => intro l a n h _; exact h
  | cons e es ih =>
    intro l a n h hc
    have h1 : BMap.insert natLt e.id.index e l = l ++ [(e.id.index, e)] := by
      apply BMap.insert_last natLt_strict
      intro x hx
      have hm : x.1 ∈ l.map Prod.fst := List.mem_map.mpr ⟨x, hx, rfl⟩
      rw [h, List.mem_range'] at hm
      obtain ⟨j, hj, he⟩ := hm
      have h2 := hc.1
      exact decide_eq_true (by omega)
    show (put es (BMap.insert natLt e.id.index e l)).map Prod.fst = _
    have h2 := ih (BMap.insert natLt e.id.index e l) a (n + 1) (by
      rw [h1, List.map_append, h, List.range'_concat, List.map_singleton, hc.1]
      simp) (by
        have := hc.2
        rwa [Nat.add_assoc] at this)
    rw [h2, List.length_cons]
    congr 1
    omega

theorem whole_truncate {s : State} {a n i : Nat} (h : Whole s a n) (hi : after s.purged ≤ i) :
    Whole ((Tx.delAfter i).run s) a (min n (i - a)) := by
  refine ⟨tx_ok s _ h.ok, ?_, h.low, ?_⟩
  · show (delAfter i s.log).map Prod.fst = _
    unfold delAfter
    rw [keys_filter s.log fun k => decide (k < i), h.keys, range_lt]
  · show after s.purged ≤ _
    have h1 := h.low
    have h2 := h.high
    omega

theorem whole_append {s : State} {a n : Nat} (h : Whole s a n) (e : Entry) (es : List Entry) (hc : Chain (a + n) (e :: es)) :
    Whole ((Tx.delAfter e.id.index).run s) a n ∧ Whole ((Tx.put (e :: es)).run ((Tx.delAfter e.id.index).run s)) a (n + es.length + 1) := by
  have h1 : Whole ((Tx.delAfter e.id.index).run s) a n := by
    have := whole_truncate h (i := e.id.index) (by rw [hc.1]; exact h.high)
    rw [hc.1] at this ⊢
    have he : min n (a + n - a) = n := by omega
    rwa [he] at this
  refine ⟨h1, tx_ok _ _ h1.ok, ?_, h.low, ?_⟩
  · have := put_keys (e :: es) _ a n h1.keys hc
    exact this
  · show after s.purged ≤ _
    have := h.high
    omega

theorem whole_purge {s : State} {a n : Nat} (h : Whole s a n) (l : LogId) (hl : after s.purged ≤ l.index + 1) :
    Whole ((Tx.delBefore (l.index + 1)).run ((Tx.purged l).run s)) (l.index + 1) (n - (l.index + 1 - a)) := by
  refine ⟨tx_ok _ _ h.ok, ?_, ?_, ?_⟩
  · show (delBefore (l.index + 1) s.log).map Prod.fst = _
    unfold delBefore
    have := h.low
    rw [keys_filter s.log fun k => decide (l.index + 1 ≤ k), h.keys, range_ge _ _ _ (by omega)]
  · exact Nat.le_refl _
  · exact Nat.le_add_right _ _

theorem whole_half {s : State} {a n : Nat} (h : Whole s a n) (l : LogId) (hl : after s.purged ≤ l.index + 1) (hm : l.index < a + n) :
    Whole ((Tx.purged l).run s) a n := by
  refine ⟨h.ok, h.keys, ?_, ?_⟩
  · show a ≤ l.index + 1
    have := h.low
    omega
  · exact hm

/-- A transaction that changes neither the log nor what is purged. -/
def Tx.aside : Tx → Prop
  | .applied _ => True
  | .command _ => True
  | _ => False

theorem whole_aside (ts : List Tx) : ∀ {s : State} {a n : Nat}, Whole s a n → (∀ t ∈ ts, t.aside) → Whole (ts.foldl Tx.run s) a n := by
  induction ts with
  | nil => intro s a n h _; exact h
  | cons t ts ih =>
    intro s a n h ht
    refine ih ?_ fun x hx => ht x (by simp [hx])
    have := ht t (by simp)
    cases t with
    | applied l => exact ⟨h.ok, h.keys, h.low, h.high⟩
    | command r => exact ⟨h.ok, h.keys, h.low, h.high⟩
    | delAfter i => exact this.elim
    | put es => exact this.elim
    | delBefore i => exact this.elim
    | purged l => exact this.elim

theorem apply_aside (es : List Entry) : ∀ t ∈ (Op.apply es).txs, t.aside := by
  intro t ht
  simp only [Op.txs, List.mem_flatMap, applyTxs, List.mem_cons, List.mem_map] at ht
  obtain ⟨e, _, rfl | ⟨r, _, rfl⟩⟩ := ht
  · trivial
  · trivial

theorem whole_step {s : State} {a n : Nat} (h : Whole s a n) (e : Event) (hl : Legal s e.op) (hm : Mild s e) : ∃ a n, Whole (s.step e) a n := by
  have hlast := whole_last h
  cases e with
  | done op =>
    cases op with
    | append es =>
      cases es with
      | nil => exact ⟨a, n, h⟩
      | cons e es =>
        have hc : Chain (after s.lastId) (e :: es) := hl
        rw [hlast] at hc
        exact ⟨_, _, (whole_append h e es hc).2⟩
    | truncate i => exact ⟨_, _, whole_truncate h hl⟩
    | purge l => exact ⟨_, _, whole_purge h l hl⟩
    | apply es => exact ⟨_, _, whole_aside _ h (apply_aside es)⟩
  | crash op k =>
    cases op with
    | append es =>
      cases es with
      | nil => exact ⟨a, n, by simpa [State.step, Event.txs, Op.txs] using h⟩
      | cons e es =>
        have hc : Chain (after s.lastId) (e :: es) := hl
        rw [hlast] at hc
        match k with
        | 0 => exact ⟨_, _, h⟩
        | 1 => exact ⟨_, _, (whole_append h e es hc).1⟩
        | k + 2 =>
          have : (Event.crash (.append (e :: es)) (k + 2)).txs = (Op.append (e :: es)).txs := by simp [Event.txs, Op.txs]
          unfold State.step
          rw [this]
          exact ⟨_, _, (whole_append h e es hc).2⟩
    | truncate i =>
      match k with
      | 0 => exact ⟨_, _, h⟩
      | k + 1 =>
        have : (Event.crash (.truncate i) (k + 1)).txs = (Op.truncate i).txs := by simp [Event.txs, Op.txs]
        unfold State.step
        rw [this]
        exact ⟨_, _, whole_truncate h hl⟩
    | purge l =>
      have hm' : l.index < after s.lastId := hm
      rw [hlast] at hm'
      match k with
      | 0 => exact ⟨_, _, h⟩
      | 1 => exact ⟨_, _, whole_half h l hl hm'⟩
      | k + 2 =>
        have : (Event.crash (.purge l) (k + 2)).txs = (Op.purge l).txs := by simp [Event.txs, Op.txs]
        unfold State.step
        rw [this]
        exact ⟨_, _, whole_purge h l hl⟩
    | apply es => exact ⟨_, _, whole_aside _ h fun t ht => apply_aside es t (List.mem_of_mem_take ht)⟩

theorem whole_run (es : List Event) : ∀ {s : State} {a n : Nat}, Whole s a n → Along (fun s e => Legal s e.op ∧ Mild s e) s es →
    ∃ a n, Whole (s.run es) a n := by
  induction es with
  | nil => intro s a n h _; exact ⟨a, n, h⟩
  | cons e es ih =>
    intro s a n h hl
    obtain ⟨a', n', h'⟩ := whole_step h e hl.1.1 hl.1.2
    exact ih h' hl.2

/-- What the Raft library expects of a log: nothing is missing between what is purged and the last log id, there is nothing behind it, and
what is purged does not go beyond it. -/
def Sound (s : State) : Prop :=
  after s.purged ≤ after s.lastId ∧
  (∀ i, after s.purged ≤ i → i < after s.lastId → ∃ e, entry i s.log = some e) ∧
  (∀ i, after s.lastId ≤ i → entry i s.log = none)

theorem whole_sound {s : State} {a n : Nat} (h : Whole s a n) : Sound s := by
  have hlast := whole_last h
  refine ⟨by rw [hlast]; exact h.high, ?_, ?_⟩
  · intro i h1 h2
    rw [hlast] at h2
    have h3 := h.low
    have hm : i ∈ s.log.map Prod.fst := by
      rw [h.keys, List.mem_range']
      exact ⟨i - a, by omega, by omega⟩
    obtain ⟨x, hx, rfl⟩ := List.mem_map.mp hm
    exact ⟨x.2, BMap.get_of_mem natLt_strict h.ok.sorted hx⟩
  · intro i h1
    rw [hlast] at h1
    unfold entry
    rw [BMap.get_eq_none]
    intro v hv
    have hm : i ∈ s.log.map Prod.fst := List.mem_map.mpr ⟨_, hv, rfl⟩
    rw [h.keys, List.mem_range'] at hm
    obtain ⟨j, hj, he⟩ := hm
    omega

/-- **C217** (partial): after all that the Raft library may ask for, and wherever the server has stopped in between, but for the middle of a
purge beyond the last entry, the log is sound. -/
theorem C217_sound_partial (es : List Event) (h : Along (fun s e => Legal s e.op ∧ Mild s e) State.new es) : Sound (State.new.run es) := by
  obtain ⟨a, n, hw⟩ := whole_run es (s := State.new) (a := 0) (n := 0) ⟨ok_nil, rfl, Nat.le_refl _, Nat.le_refl _⟩ h
  exact whole_sound hw

/-- A command with this index. -/
def cmd (i : Nat) : Entry := ⟨⟨i, 1⟩, some (100 + i)⟩

/-- Three entries, the first is purged but the server stops before it is removed; then two more. -/
def exEvents : List Event :=
  [.done (.append [cmd 0, cmd 1, cmd 2]), .crash (.purge ⟨0, 1⟩) 1, .done (.truncate 2), .crash (.append [cmd 2, cmd 3]) 1,
   .done (.append [cmd 2, cmd 3]), .done (.purge ⟨1, 1⟩)]

example : Along (fun s e => Legal s e.op ∧ Mild s e) State.new exEvents := by decide +kernel

example : ((State.new.run exEvents).lastId, (State.new.run exEvents).purged, entries 0 9 (State.new.run exEvents).log) =
    (some ⟨3, 1⟩, some ⟨1, 1⟩, [cmd 2, cmd 3]) := by decide +kernel

/-- **C217 is false** in general: when a snapshot with newer entries has been installed, the log is purged beyond its end.  A server that
stops between the two transactions comes back with a last log id before what is purged. -/
theorem C217_sound_refuted : ¬ ∀ es : List Event, Along (fun s e => Legal s e.op) State.new es → Sound (State.new.run es) := by
  intro h
  have := (h [.done (.append [cmd 0, cmd 1]), .crash (.purge ⟨5, 2⟩) 1] (by decide +kernel)).1
  revert this
  decide +kernel

/-! ## C218 -/

/-- The commands of the first `n` entries of a committed sequence. -/
def cmds (c : Nat → Entry) (n : Nat) : List Nat := (List.range n).filterMap fun i => (c i).req

/-- Entries are applied from the one after that applied last on, as they are committed. -/
def Next (c : Nat → Entry) (s : State) : Op → Prop
  | .apply es => ∃ k, es = (List.range' (after s.applied) k).map c
  | _ => True

/-- The server does not stop while it applies entries. -/
def Calm : Event → Prop
  | .crash (.apply _) _ => False
  | _ => True

/-- A transaction on the log only. -/
def Tx.log : Tx → Prop
  | .applied _ => False
  | .command _ => False
  | _ => True

theorem log_keep (ts : List Tx) : ∀ s : State, (∀ t ∈ ts, t.log) → (ts.foldl Tx.run s).applied = s.applied ∧ (ts.foldl Tx.run s).machine = s.machine := by
  induction ts with
  | nil => intro s _; exact ⟨rfl, rfl⟩
  | cons t ts ih =>
    intro s h
    have h1 := ih (t.run s) fun x hx => h x (by simp [hx])
    have h2 := h t (by simp)
    rw [List.foldl_cons, h1.1, h1.2]
    cases t with
    | applied l => exact h2.elim
    | command r => exact h2.elim
    | delAfter i => exact ⟨rfl, rfl⟩
    | put es => exact ⟨rfl, rfl⟩
    | delBefore i => exact ⟨rfl, rfl⟩
    | purged l => exact ⟨rfl, rfl⟩

theorem op_log (op : Op) (h : ∀ es, op ≠ .apply es) : ∀ t ∈ op.txs, t.log := by
  intro t ht
  cases op with
  | append es =>
    cases es with
    | nil => simp [Op.txs] at ht
    | cons e es => simp only [Op.txs, List.mem_cons, List.not_mem_nil, or_false] at ht; rcases ht with rfl | rfl <;> trivial
  | truncate i => simp only [Op.txs, List.mem_singleton] at ht; subst ht; trivial
  | purge l => simp only [Op.txs, List.mem_cons, List.not_mem_nil, or_false] at ht; rcases ht with rfl | rfl <;> trivial
  | apply es => exact absurd rfl (h es)

theorem cmds_succ (c : Nat → Entry) (n : Nat) : cmds c (n + 1) = cmds c n ++ (c n).req.toList := by
  unfold cmds
  rw [List.range_succ, List.filterMap_append]
  cases h : (c n).req <;> simp [h]

theorem apply_one (s : State) (e : Entry) :
    ((applyTxs e).foldl Tx.run s).applied = some e.id ∧ ((applyTxs e).foldl Tx.run s).machine = s.machine ++ e.req.toList := by
  unfold applyTxs
  cases e.req with
  | none => exact ⟨rfl, by simp [Tx.run]⟩
  | some r => exact ⟨rfl, rfl⟩

theorem apply_all (c : Nat → Entry) (hc : ∀ i, (c i).id.index = i) (k : Nat) : ∀ s : State, 
    s.machine = cmds c (after s.applied) →
    ((((List.range' (after s.applied) k).map c).flatMap applyTxs).foldl Tx.run s).machine =
      cmds c (after ((((List.range' (after s.applied) k).map c).flatMap applyTxs).foldl Tx.run s).applied) := by
  induction k with
  | zero => intro s h; exact h
  | succ k ih =>
    intro s h
    rw [List.range'_succ, List.map_cons, List.flatMap_cons, List.foldl_append]
    have h1 := apply_one s (c (after s.applied))
    have h2 : after ((applyTxs (c (after s.applied))).foldl Tx.run s).applied = after s.applied + 1 := by
      rw [h1.1]
      show (c (after s.applied)).id.index + 1 = _
      rw [hc]
    have h3 := ih ((applyTxs (c (after s.applied))).foldl Tx.run s) (by rw [h1.2, h2, cmds_succ, h])
    rw [h2] at h3
    exact h3

/-- **C218** (partial): if a meta server never stops while it applies entries, its data has seen exactly the commands of the committed
entries up to the one noted as applied last, each once and in order. -/
theorem C218_applied_partial (c : Nat → Entry) (hc : ∀ i, (c i).id.index = i) (es : List Event) : ∀ s : State,
    s.machine = cmds c (after s.applied) → Along (fun s e => Next c s e.op ∧ Calm e) s es →
    (s.run es).machine = cmds c (after (s.run es).applied) := by
  induction es with
  | nil => intro s h _; exact h
  | cons e es ih =>
    intro s h hl
    refine ih (s.step e) ?_ hl.2
    have keep : ∀ op k, (∀ es, op ≠ .apply es) → (s.step (.crash op k)).machine = cmds c (after (s.step (.crash op k)).applied) := by
      intro op k hop
      have := log_keep (op.txs.take k) s fun t ht => op_log op hop t (List.mem_of_mem_take ht)
      show ((op.txs.take k).foldl Tx.run s).machine = cmds c (after ((op.txs.take k).foldl Tx.run s).applied)
      rw [this.1, this.2, h]
    have keep' : ∀ op, (∀ es, op ≠ .apply es) → (s.step (.done op)).machine = cmds c (after (s.step (.done op)).applied) := by
      intro op hop
      have := log_keep op.txs s (op_log op hop)
      show (op.txs.foldl Tx.run s).machine = cmds c (after (op.txs.foldl Tx.run s).applied)
      rw [this.1, this.2, h]
    cases e with
    | done op =>
      cases op with
      | apply xs =>
        obtain ⟨k, hk⟩ := hl.1.1
        subst hk
        exact apply_all c hc k s h
      | append xs => exact keep' _ fun _ h => by cases h
      | truncate i => exact keep' _ fun _ h => by cases h
      | purge l => exact keep' _ fun _ h => by cases h
    | crash op k =>
      cases op with
      | apply xs => exact hl.1.2.elim
      | append xs => exact keep _ k fun _ h => by cases h
      | truncate i => exact keep _ k fun _ h => by cases h
      | purge l => exact keep _ k fun _ h => by cases h

theorem sub_app (c : Nat → Entry) {l : List Nat} {n : Nat} (h : List.Sublist l (cmds c n)) : List.Sublist l (cmds c (n + 1)) := by
  rw [cmds_succ]
  exact h.trans (List.sublist_append_left _ _)

theorem once_all (c : Nat → Entry) (hc : ∀ i, (c i).id.index = i) (k : Nat) : ∀ (s : State) (j : Nat),
    List.Sublist s.machine (cmds c (after s.applied)) →
    List.Sublist (((((List.range' (after s.applied) k).map c).flatMap applyTxs).take j).foldl Tx.run s).machine
      (cmds c (after (((((List.range' (after s.applied) k).map c).flatMap applyTxs).take j).foldl Tx.run s).applied)) := by
  induction k with
  | zero => intro s j h; simpa using h
  | succ k ih =>
    intro s j h
    rw [List.range'_succ, List.map_cons, List.flatMap_cons, List.take_append, List.foldl_append]
    have h1 := apply_one s (c (after s.applied))
    by_cases hj : (applyTxs (c (after s.applied))).length ≤ j
    · rw [List.take_of_length_le hj]
      have h2 : after ((applyTxs (c (after s.applied))).foldl Tx.run s).applied = after s.applied + 1 := by
        rw [h1.1]
        show (c (after s.applied)).id.index + 1 = _
        rw [hc]
      have h3 := ih ((applyTxs (c (after s.applied))).foldl Tx.run s) (j - (applyTxs (c (after s.applied))).length)
        (by rw [h1.2, h2, cmds_succ]; exact h.append (List.Sublist.refl _))
      rw [h2] at h3
      exact h3
    · have h0 : j - (applyTxs (c (after s.applied))).length = 0 := by omega
      rw [h0, List.take_zero, List.foldl_nil]
      match j with
      | 0 => exact h
      | j + 1 =>
        have hlen : (applyTxs (c (after s.applied))).length ≤ 2 := by
          unfold applyTxs
          cases (c (after s.applied)).req <;> simp
        have hj0 : j = 0 := by omega
        subst hj0
        show List.Sublist s.machine (cmds c ((c (after s.applied)).id.index + 1))
        rw [hc]
        exact sub_app c h

/-- **C218**: wherever the server stops, also while it applies entries, its data sees no command twice, none that is not committed, and none
before an earlier one. -/
theorem C218_once (c : Nat → Entry) (hc : ∀ i, (c i).id.index = i) (es : List Event) : ∀ s : State,
    List.Sublist s.machine (cmds c (after s.applied)) → Along (fun s e => Next c s e.op) s es →
    List.Sublist (s.run es).machine (cmds c (after (s.run es).applied)) := by
  induction es with
  | nil => intro s h _; exact h
  | cons e es ih =>
    intro s h hl
    refine ih (s.step e) ?_ hl.2
    have keep : ∀ op k, (∀ es, op ≠ .apply es) → List.Sublist (s.step (.crash op k)).machine (cmds c (after (s.step (.crash op k)).applied)) := by
      intro op k hop
      have := log_keep (op.txs.take k) s fun t ht => op_log op hop t (List.mem_of_mem_take ht)
      show List.Sublist ((op.txs.take k).foldl Tx.run s).machine (cmds c (after ((op.txs.take k).foldl Tx.run s).applied))
      rw [this.1, this.2]
      exact h
    have full : ∀ op, s.step (.done op) = s.step (.crash op op.txs.length) := by
      intro op
      show op.txs.foldl Tx.run s = (op.txs.take op.txs.length).foldl Tx.run s
      rw [List.take_of_length_le (Nat.le_refl _)]
    cases e with
    | done op =>
      rw [full]
      cases op with
      | apply xs =>
        obtain ⟨k, hk⟩ := hl.1
        subst hk
        exact once_all c hc k s _ h
      | append xs => exact keep _ _ fun _ h => by cases h
      | truncate i => exact keep _ _ fun _ h => by cases h
      | purge l => exact keep _ _ fun _ h => by cases h
    | crash op k =>
      cases op with
      | apply xs =>
        obtain ⟨k', hk⟩ := hl.1
        subst hk
        exact once_all c hc k' s k h
      | append xs => exact keep _ _ fun _ h => by cases h
      | truncate i => exact keep _ _ fun _ h => by cases h
      | purge l => exact keep _ _ fun _ h => by cases h

example : Along (fun s e => Next cmd s e.op ∧ Calm e) State.new
    [.done (.append [cmd 0, cmd 1]), .done (.apply [cmd 0]), .crash (.append [cmd 2]) 1, .done (.apply [cmd 1])] :=
  ⟨⟨trivial, trivial⟩, ⟨⟨1, rfl⟩, trivial⟩, ⟨trivial, trivial⟩, ⟨⟨1, rfl⟩, trivial⟩, trivial⟩

/-- **C218 is false** in general: an entry is noted as applied before its command is carried out, in another environment.  If the server
stops in between, it goes on with the next entry, and its data never sees the command. -/
theorem C218_applied_refuted : ¬ ∀ (c : Nat → Entry) (es : List Event), (∀ i, (c i).id.index = i) → Along (fun s e => Next c s e.op) State.new es →
    (State.new.run es).machine = cmds c (after (State.new.run es).applied) := by
  intro h
  have := h cmd [.done (.append [cmd 0, cmd 1]), .crash (.apply [cmd 0]) 1, .done (.apply [cmd 1])] (fun _ => rfl)
    ⟨trivial, ⟨1, rfl⟩, ⟨1, rfl⟩, trivial⟩
  revert this
  decide +kernel

end Verif.MetaLog
