import Verif.Cluster.Inv
/-!
# C120, C121: a database spread over replication sets behaves like one table
-/
namespace Verif.Cluster
open Meta (Db Bucket ReplSet bucketByTimestamp)

/-! ## What a query sees -/

theorem mem_prune {db : Db} {lo hi : Int} {r : ReplSet} :
    r ∈ prune db lo hi ↔ ∃ b ∈ Meta.mappingBucket db.buckets lo hi, r ∈ b.shards := by
  simp [prune, List.mem_flatMap]

theorem prune_ids {db : Db} {lo hi : Int} (h : (setIds db.buckets).Nodup) : ((prune db lo hi).map (·.id)).Nodup := by
  have : ((prune db lo hi).map (·.id)).Sublist (setIds db.buckets) := by
    unfold prune Meta.mappingBucket setIds
    generalize db.buckets = bs
    induction bs with
    | nil => exact List.Sublist.refl _
    | cons b bs ih =>
      rw [List.filter_cons]
      split
      · rw [List.flatMap_cons, List.map_append, List.map_cons, List.flatten_cons]
        exact (List.Sublist.refl _).append ih
      · rw [List.map_cons, List.flatten_cons]
        exact ih.trans (List.sublist_append_right _ _)
  exact h.sublist this

theorem prune_sub {db : Db} {lo hi : Int} {r : ReplSet} (h : r ∈ prune db lo hi) : r.id ∈ setIds db.buckets := by
  obtain ⟨b, hb, hr⟩ := mem_prune.1 h
  exact mem_setIds.2 ⟨b, List.mem_of_mem_filter hb, r, hr, rfl⟩

/-- The set of a cell is asked by every query over its time. -/
theorem home_pruned {H : Series → Nat} {db : Db} {c : Cell} {i : Nat} (h : homeIn H db.buckets c = some i) {lo hi : Int}
    (h1 : lo ≤ c.time) (h2 : c.time ≤ hi) : ∃ r ∈ prune db lo hi, r.id = i := by
  obtain ⟨b, hb, hbt, _, r, hr, _, e⟩ := homeIn_some h
  exact ⟨r, mem_prune.2 ⟨b, Meta.C48_mapping_complete db.buckets b hb lo hi c.time hbt h1 h2, hr⟩, e⟩

/-- Exactly one of the asked sets can answer. -/
theorem filterMap_one {α β : Type} (l : List α) (id : α → Nat) (f : α → Option β) (i : Nat) (x : Option β)
    (hn : (l.map id).Nodup) (hin : ∃ a ∈ l, id a = i) (h1 : ∀ a ∈ l, id a = i → f a = x) (h2 : ∀ a ∈ l, id a ≠ i → f a = none) :
    l.filterMap f = x.toList := by
  induction l with
  | nil => obtain ⟨a, ha, _⟩ := hin; cases ha
  | cons a l ih =>
    rw [List.map_cons, List.nodup_cons] at hn
    rw [List.filterMap_cons]
    by_cases e : id a = i
    · have hrest : l.filterMap f = [] := by
        rw [List.filterMap_eq_nil_iff]
        intro b hb
        refine h2 b (List.mem_cons_of_mem _ hb) ?_
        intro e'
        exact hn.1 (List.mem_map.2 ⟨b, hb, e'.trans e.symm⟩)
      rw [h1 a (List.mem_cons_self ..) e, hrest]
      cases x <;> rfl
    · rw [h2 a (List.mem_cons_self ..) e]
      obtain ⟨b, hb, eb⟩ := hin
      rcases List.mem_cons.1 hb with rfl | hb
      · exact absurd eb e
      · exact ih hn.2 ⟨b, hb, eb⟩ (fun y hy => h1 y (List.mem_cons_of_mem _ hy)) (fun y hy => h2 y (List.mem_cons_of_mem _ hy))

/-- A prefix of a log of a set, as far as cells are concerned that later commands leave alone. -/
theorem Inv.query {H : Series → Nat} {dbp : Precision} {s : State} {m : Content} (h : Inv H dbp s m) (lo hi : Int)
    (pick : ReplSet → Nat) (c : Cell) (h1 : lo ≤ c.time) (h2 : c.time ≤ hi)
    (hread : ∀ r ∈ prune s.db lo hi, (s.group r.id).shows dbp (pick r) c = content dbp (s.group r.id).log c) :
    (s.query dbp lo hi pick).filterMap (fun answer => answer c) = (m c).toList := by
  unfold State.query
  rw [List.filterMap_map]
  have hnone : ∀ r ∈ prune s.db lo hi, homeIn H s.db.buckets c ≠ some r.id →
      ((fun answer : Content => answer c) ∘ fun r => (s.group r.id).shows dbp (pick r)) r = none := by
    intro r hr hne
    show (s.group r.id).shows dbp (pick r) c = none
    rw [hread r hr]
    cases hc : content dbp (s.group r.id).log c with
    | none => rfl
    | some v => exact absurd (h.place r.id (prune_sub hr) c (by rw [hc]; exact fun e => by cases e)) hne
  have ht := h.table c
  cases hh : homeIn H s.db.buckets c with
  | none =>
    rw [hh] at ht
    rw [ht]
    simp only [Option.toList_none]
    rw [List.filterMap_eq_nil_iff]
    intro r hr
    exact hnone r hr (by rw [hh]; exact fun e => by cases e)
  | some i =>
    rw [hh] at ht
    rw [ht]
    refine filterMap_one (prune s.db lo hi) (·.id) _ i _ (prune_ids h.cat.nodup) (home_pruned hh h1 h2) ?_ ?_
    · intro r hr e
      show (s.group r.id).shows dbp (pick r) c = content dbp (s.group i).log c
      rw [hread r hr, e]
    · intro r hr e
      exact hnone r hr (by rw [hh]; exact fun e' => e (Option.some.inj e').symm)

/-- C120: whatever happened to a database — requests routed, commands committed late, never or twice, replicas moved, leaders changed,
buckets made and removed — a query over a time span gets for every cell of the span exactly what the one table holds: one answer with its
value if it has one, and none otherwise.  No set answers for a cell of another one, and no cell is missed or doubled. -/
theorem C120_one_table_partial (H : Series → Nat) (word : Nat) (dbp : Precision) (db : Db) (h0 : db.buckets = [])
    (hd : db.duration ≤ i64Max) (ops : List Op) (hl : Legal H word dbp { db := db } ops) (lo hi : Int) (pick : ReplSet → Nat)
    (hread : ∀ r ∈ prune (State.run word dbp { db := db } ops).db lo hi,
      ((State.run word dbp { db := db } ops).group r.id).applied (pick r) =
        ((State.run word dbp { db := db } ops).group r.id).log.length)
    (c : Cell) (h1 : lo ≤ c.time) (h2 : c.time ≤ hi) :
    ((State.run word dbp { db := db } ops).query dbp lo hi pick).filterMap (fun answer => answer c) =
      (table dbp (events H word dbp { db := db } ops) c).toList := by
  refine ((Inv.init H dbp db h0 hd).run ops hl).query lo hi pick c h1 h2 ?_
  intro r hr
  unfold Group.shows
  rw [hread r hr, List.take_length]

/-! ## The commands of a request together are the request -/

/-- Committing changes neither the commands sent nor where cells live. -/
theorem commit_same (H : Series → Nat) (word : Nat) (dbp : Precision) (s : State) (i : Nat) (ack : Option Nat) :
    (s.step word dbp (.commit i ack)).issued = s.issued ∧
    ∀ c, homeIn H (s.step word dbp (.commit i ack)).db.buckets c = homeIn H s.db.buckets c := by
  simp only [State.step]
  cases hi : s.issued[i]? with
  | none => exact ⟨rfl, fun _ => rfl⟩
  | some x =>
    obtain ⟨set, cmd⟩ := x
    cases ack with
    | none => exact ⟨rfl, fun _ => rfl⟩
    | some v => exact ⟨rfl, fun c => homeIn_congr H (setLeader_shape s.db set v) c⟩

/-- The changes that a series of commits makes. -/
theorem commits_events (H : Series → Nat) (word : Nat) (dbp : Precision) (c : Cell) (x : Option Val) (ks : List (Nat × Option Nat)) :
    ∀ (s : State), (events H word dbp s (ks.map fun k => Op.commit k.1 k.2)).foldl (Ev.at dbp c) x =
      (ks.filterMap fun k => s.issued[k.1]?).foldl
        (fun y q => if homeIn H s.db.buckets c = some q.1 then q.2.at dbp c y else y) x := by
  induction ks generalizing x with
  | nil => intro s; rfl
  | cons k ks ih =>
    intro s
    obtain ⟨e1, e2⟩ := commit_same H word dbp s k.1 k.2
    rw [List.map_cons, events, List.foldl_append, ih, e1, List.filterMap_cons]
    simp only [e2]
    cases hi : s.issued[k.1]? with
    | none => simp [evOf, hi]
    | some q =>
      simp only [List.foldl_cons, evOf, hi, List.foldl_nil, Ev.at, decide_eq_true_eq]

/-- The numbers of the commands that a step sent. -/
def sent (word : Nat) (dbp : Precision) (s : State) (op : Op) : List Nat :=
  List.range' s.issued.length ((s.step word dbp op).issued.length - s.issued.length)

/-- At most one of the commands is for the set of a cell; or all of them say the same. -/
theorem foldl_one {dbp : Precision} (c : Cell) (home : Option Nat) (q : Req) (cmds : List (Nat × Req)) (x : Option Val)
    (hsame : ∀ k ∈ cmds, home = some k.1 → ∀ y, k.2.at dbp c y = q.at dbp c y) (hidem : q.at dbp c (q.at dbp c x) = q.at dbp c x)
    (hex : (∃ k ∈ cmds, home = some k.1) ∨ q.at dbp c x = x) :
    cmds.foldl (fun y k => if home = some k.1 then k.2.at dbp c y else y) x = q.at dbp c x := by
  have fix : ∀ (l : List (Nat × Req)), (∀ k ∈ l, home = some k.1 → ∀ y, k.2.at dbp c y = q.at dbp c y) →
      l.foldl (fun y k => if home = some k.1 then k.2.at dbp c y else y) (q.at dbp c x) = q.at dbp c x := by
    intro l
    induction l with
    | nil => intro _; rfl
    | cons k l ih =>
      intro h
      rw [List.foldl_cons]
      by_cases e : home = some k.1
      · rw [if_pos e, h k (List.mem_cons_self ..) e, hidem]
        exact ih fun k' hk' => h k' (List.mem_cons_of_mem _ hk')
      · rw [if_neg e]
        exact ih fun k' hk' => h k' (List.mem_cons_of_mem _ hk')
  rcases hex with hex | hex
  · induction cmds with
    | nil => obtain ⟨k, hk, _⟩ := hex; cases hk
    | cons k l ih =>
      rw [List.foldl_cons]
      by_cases e : home = some k.1
      · rw [if_pos e, hsame k (List.mem_cons_self ..) e]
        exact fix l fun k' hk' => hsame k' (List.mem_cons_of_mem _ hk')
      · rw [if_neg e]
        obtain ⟨k', hk', e'⟩ := hex
        rcases List.mem_cons.1 hk' with rfl | hk'
        · exact absurd e' e
        · exact ih (fun k'' hk'' => hsame k'' (List.mem_cons_of_mem _ hk'')) ⟨k', hk', e'⟩
  · have := fix cmds hsame
    rw [hex] at this
    rw [this, hex]

theorem at_idem (dbp : Precision) (q : Req) (c : Cell) (x : Option Val) : q.at dbp c (q.at dbp c x) = q.at dbp c x := by
  cases q with
  | write p lines => simp only [Req.at]; cases written p dbp lines c <;> rfl
  | delete t r s => simp only [Req.at]; split <;> rfl

/-- The routed groups of a request. -/
theorem Inv.routed {H : Series → Nat} {word : Nat} {dbp : Precision} {s : State} {m : Content} (h : Inv H dbp s m)
    {p : Precision} {lines : List (Line × Env)} (hok : (Op.write p lines).Ok H word dbp s) {gs : List (Nat × List Line)}
    (hr : (route word p dbp s.db [] lines).2 = some gs) :
    Grouped H p dbp (route word p dbp s.db [] lines).1 (lines.map (·.1)) gs := by
  obtain ⟨_, _, c3⟩ := route_spec (H := H) lines s.db [] [] h.cat hok.1 hok.2 (by simp) ⟨by simp, by simp, by simp, by simp [written]⟩
  simpa using c3 gs hr

theorem events_append (H : Series → Nat) (word : Nat) (dbp : Precision) (a : List Op) : ∀ (b : List Op) (s : State),
    events H word dbp s (a ++ b) = events H word dbp s a ++ events H word dbp (s.run word dbp a) b := by
  induction a with
  | nil => intro b s; rfl
  | cons o a ih => intro b s; rw [List.cons_append, events, events, ih, List.append_assoc]; rfl

theorem legal_append {H : Series → Nat} {word : Nat} {dbp : Precision} (a : List Op) : ∀ (b : List Op) (s : State),
    Legal H word dbp s (a ++ b) → Legal H word dbp s a ∧ Legal H word dbp (s.run word dbp a) b := by
  induction a with
  | nil => intro b s h; exact ⟨trivial, h⟩
  | cons o a ih => intro b s h; exact ⟨⟨h.1, (ih b _ h.2).1⟩, (ih b _ h.2).2⟩

theorem run_snoc (word : Nat) (dbp : Precision) (s : State) (ops : List Op) (op : Op) :
    s.run word dbp (ops ++ [op]) = (s.run word dbp ops).step word dbp op := by
  unfold State.run
  rw [List.foldl_append]
  rfl

/-- The commands committed are those sent. -/
theorem commits_mem {issued new : List (Nat × Req)} {ks : List (Nat × Option Nat)}
    (hks : ∀ i, i ∈ ks.map (·.1) ↔ issued.length ≤ i ∧ i < issued.length + new.length) (k : Nat × Req) :
    k ∈ (ks.filterMap fun k => (issued ++ new)[k.1]?) ↔ k ∈ new := by
  rw [List.mem_filterMap]
  constructor
  · rintro ⟨a, ha, e⟩
    obtain ⟨i1, i2⟩ := (hks a.1).1 (List.mem_map.2 ⟨a, ha, rfl⟩)
    rw [List.getElem?_append_right i1] at e
    exact List.mem_of_getElem? e
  · intro h
    obtain ⟨n, hn, e⟩ := List.mem_iff_getElem.1 h
    obtain ⟨a, ha, e'⟩ := List.mem_map.1 ((hks (issued.length + n)).2 ⟨by omega, by omega⟩)
    refine ⟨a, ha, ?_⟩
    rw [e', List.getElem?_append_right (by omega), Nat.add_sub_cancel_left, List.getElem?_eq_getElem hn, e]

/-- C120: when all commands of an accepted write request are committed, in any order and any of them several times, the table changes as if
the whole request was applied at once: every cell named gets the value of the last line that names it, and no other cell changes. -/
theorem C120_write_is_one_request (H : Series → Nat) (word : Nat) (dbp : Precision) (db : Db) (h0 : db.buckets = [])
    (hd : db.duration ≤ i64Max) (ops : List Op) (p : Precision) (lines : List (Line × Env)) (ks : List (Nat × Option Nat))
    (hl : Legal H word dbp { db := db } (ops ++ [.write p lines]))
    (hacc : (route word p dbp (State.run word dbp { db := db } ops).db [] lines).2 ≠ none)
    (hks : ∀ i, i ∈ ks.map (·.1) ↔ i ∈ sent word dbp (State.run word dbp { db := db } ops) (.write p lines)) (c : Cell) :
    table dbp (events H word dbp { db := db } (ops ++ [.write p lines] ++ ks.map fun k => Op.commit k.1 k.2)) c =
      (written p dbp (lines.map (·.1)) c).or (table dbp (events H word dbp { db := db } ops) c) := by
  obtain ⟨hl1, hl2⟩ := legal_append ops _ _ hl
  have hinv := (Inv.init H dbp db h0 hd).run ops hl1
  rw [events_append, events_append, run_snoc]
  generalize State.run word dbp { db := db } ops = s at *
  have hok : (Op.write p lines).Ok H word dbp s := hl2.1
  unfold table
  rw [List.foldl_append, List.foldl_append, commits_events]
  have he : events H word dbp s [.write p lines] = [] := rfl
  rw [he, List.foldl_nil]
  cases hr : (route word p dbp s.db [] lines).2 with
  | none => exact absurd hr hacc
  | some gs =>
    have hstep : s.step word dbp (.write p lines) = { s with
        db := (route word p dbp s.db [] lines).1,
        issued := s.issued ++ gs.map fun g => (g.1, Req.write p g.2) } := by
      simp only [State.step, hr]
    have hg := hinv.routed hok hr
    have hmem := commits_mem (issued := s.issued) (new := gs.map fun g => (g.1, Req.write p g.2)) (ks := ks) (by
      intro i
      rw [hks i, sent, hstep]
      simp only [List.length_append, Nat.add_sub_cancel_left, List.mem_range'_1])
    rw [hstep]
    simp only
    show _ = Req.at dbp (.write p (lines.map (·.1))) c _
    refine foldl_one c _ (.write p (lines.map (·.1))) _ _ ?_ (at_idem dbp _ c _) ?_
    · intro k hk hhome y
      obtain ⟨g, hgs, rfl⟩ := List.mem_map.1 ((hmem k).1 hk)
      simp only [Req.at]
      rw [hg.same g hgs c hhome]
    · cases hw : written p dbp (lines.map (·.1)) c with
      | none => right; simp [Req.at, hw]
      | some v =>
        left
        obtain ⟨g, hgs, e⟩ := hg.found c (by rw [hw]; rfl)
        exact ⟨(g.1, Req.write p g.2), (hmem _).2 (List.mem_map.2 ⟨g, hgs, rfl⟩), e⟩

theorem inRanges_hull {ranges : List (Int × Int)} {t : Int} (h : inRanges ranges t = true) :
    (hull ranges).1 ≤ t ∧ t ≤ (hull ranges).2 := by
  induction ranges with
  | nil => simp [inRanges] at h
  | cons r rs ih =>
    unfold inRanges at h ih
    rw [List.any_cons, Bool.or_eq_true] at h
    cases rs with
    | nil =>
      simp only [List.any_nil, Bool.false_eq_true, or_false, Bool.and_eq_true, decide_eq_true_eq] at h
      exact h
    | cons r' rs' =>
      rw [hull]
      · simp only [Bool.and_eq_true, decide_eq_true_eq] at h
        rcases h with h | h
        · constructor <;> simp only <;> omega
        · have := ih h
          constructor <;> simp only <;> omega
      · intro h; cases h

/-- C120: the same for DELETE: when its commands are committed, exactly the cells it names are gone, in whatever bucket they are. -/
theorem C120_delete_is_one_request (H : Series → Nat) (word : Nat) (dbp : Precision) (db : Db) (h0 : db.buckets = [])
    (hd : db.duration ≤ i64Max) (ops : List Op) (tab : Bytes) (ranges : List (Int × Int)) (sel : Series → Bool)
    (ks : List (Nat × Option Nat)) (hl : Legal H word dbp { db := db } ops)
    (hks : ∀ i, i ∈ ks.map (·.1) ↔ i ∈ sent word dbp (State.run word dbp { db := db } ops) (.delete tab ranges sel)) (c : Cell) :
    table dbp (events H word dbp { db := db } (ops ++ [.delete tab ranges sel] ++ ks.map fun k => Op.commit k.1 k.2)) c =
      if selects tab ranges sel c then none else table dbp (events H word dbp { db := db } ops) c := by
  have hinv := (Inv.init H dbp db h0 hd).run ops hl
  rw [events_append, events_append, run_snoc]
  generalize State.run word dbp { db := db } ops = s at *
  have ht := hinv.table c
  unfold table
  rw [List.foldl_append, List.foldl_append, commits_events]
  have he : events H word dbp s [.delete tab ranges sel] = [] := rfl
  rw [he, List.foldl_nil]
  have hmem := commits_mem (issued := s.issued)
    (new := (prune s.db (hull ranges).1 (hull ranges).2).map fun r => (r.id, Req.delete tab ranges sel)) (ks := ks) (by
      intro i
      rw [hks i, sent]
      simp only [State.step, List.length_append, Nat.add_sub_cancel_left, List.mem_range'_1])
  show _ = Req.at dbp (.delete tab ranges sel) c _
  refine foldl_one c _ (.delete tab ranges sel) _ _ ?_ (at_idem dbp _ c _) ?_
  · intro k hk hhome y
    obtain ⟨r, hr, rfl⟩ := List.mem_map.1 ((hmem k).1 hk)
    rfl
  · cases hsel : selects tab ranges sel c with
    | false => right; simp [Req.at, hsel]
    | true =>
      cases hh : homeIn H s.db.buckets c with
      | none =>
        right
        rw [hh] at ht
        simp only at ht
        rw [ht]
        simp [Req.at, hsel]
      | some i =>
        left
        have hin : inRanges ranges c.time = true := by
          unfold selects at hsel
          simp only [Bool.and_eq_true] at hsel
          exact hsel.1.2
        obtain ⟨h1, h2⟩ := inRanges_hull hin
        obtain ⟨r, hr, e⟩ := home_pruned hh h1 h2
        exact ⟨(r.id, Req.delete tab ranges sel), (hmem _).2 (List.mem_map.2 ⟨r, hr, rfl⟩), by
          show homeIn H s.db.buckets c = some r.id
          rw [hh, e]⟩

/-! ## Reading from the recorded leader -/

def sets (db : Db) : List ReplSet := db.buckets.flatMap (·.shards)

theorem mem_sets {db : Db} {r : ReplSet} : r ∈ sets db ↔ ∃ b ∈ db.buckets, r ∈ b.shards := by simp [sets, List.mem_flatMap]

/-- The recorded leader of every set has executed everything that was acknowledged. -/
structure Led (s : State) : Prop where
  leader : ∀ r ∈ sets s.db, (s.group r.id).acked ≤ (s.group r.id).applied r.leaderVnode
  fresh : ∀ i, s.db.incr ≤ i → (s.group i).acked = 0
  issuedBelow : ∀ x ∈ s.issued, x.1 < s.db.incr

/-- Steps that keep the leader known: an acknowledged command was executed by a replica in the catalogue, and a replica that becomes leader
because the old one is taken out of the set has executed what was acknowledged. -/
def Op.Led (s : State) : Op → Prop
  | .commit i (some v) => ∀ x, s.issued[i]? = some x → ∀ r ∈ sets s.db, r.id = x.1 → ∃ w ∈ r.vnodes, w.id = v
  | .catalog (.updateReplSet _ repl del add) => ∀ r ∈ sets s.db, r.id = repl →
      (s.group r.id).acked ≤ (s.group r.id).applied (r.update del add).leaderVnode
  | _ => True

/-- New sets have new ids. -/
structure Ext (a b : Db) : Prop where
  incr : a.incr ≤ b.incr
  sets : ∀ r ∈ sets b, r ∈ sets a ∨ a.incr ≤ r.id

theorem Ext.refl (a : Db) : Ext a a := ⟨Nat.le_refl _, fun _ h => Or.inl h⟩

theorem Ext.trans {a b c : Db} (h1 : Ext a b) (h2 : Ext b c) : Ext a c := by
  refine ⟨Nat.le_trans h1.incr h2.incr, ?_⟩
  intro r hr
  rcases h2.sets r hr with h | h
  · exact h1.sets r h
  · exact Or.inr (Nat.le_trans h1.incr h)

theorem Ext.create {word : Nat} {db : Db} (ts : Int) (nodes : List Nat) (expired : Int) (hnd : nodes.Nodup) (hn : 0 < nodes.length)
    (hfit : db.incr + (Meta.Cmd.create ts nodes expired).cost db < word) : Ext db (db.create word ts nodes expired) := by
  rcases Db.create_cases word db ts nodes expired with e | ⟨group, used, hno, _, hsh, _, hg, e⟩
  · rw [e]; exact Ext.refl db
  · simp only [Meta.Cmd.cost] at hfit
    obtain ⟨group', used', ha, hl, hu, hok, hids, hndi, _⟩ :=
      Meta.C49_placement word nodes hnd hn db.shardNum db.replica (db.incr + 1) (by omega)
    rw [ha] at hg
    obtain ⟨rfl, rfl⟩ := Prod.mk.inj (Option.some.inj hg)
    have hmod : ((db.incr + 1) % word + used') % word = db.incr + 1 + used' := by
      rw [Nat.mod_eq_of_lt (by omega : db.incr + 1 < word), Nat.mod_eq_of_lt (by omega)]
    rw [e]
    refine ⟨by simp only [hmod]; omega, ?_⟩
    intro r hr
    obtain ⟨b, hb, hrb⟩ := mem_sets.1 hr
    rcases List.mem_append.1 hb with hb | hb
    · exact Or.inl (mem_sets.2 ⟨b, hb, hrb⟩)
    · rw [List.mem_singleton] at hb
      subst hb
      right
      have := (sublist_ids group').subset (List.mem_map.2 ⟨r, hrb, rfl⟩)
      rw [hids, List.mem_range'_1] at this
      omega

theorem Ext.route {H : Series → Nat} {word : Nat} {p dbp : Precision} (lines : List (Line × Env)) :
    ∀ (db : Db) (acc : List (Nat × List Line)), Room word p dbp db lines → (∀ x ∈ lines, LineOk H p dbp x.1 x.2) →
    Ext db (route word p dbp db acc lines).1 := by
  induction lines with
  | nil => intro db acc _ _; exact Ext.refl db
  | cons x rest ih =>
    obtain ⟨l, e⟩ := x
    intro db acc hroom hok
    have hlo := hok (l, e) (List.mem_cons_self ..)
    unfold Cluster.route
    cases ht : Utils.timestampConvert p dbp l.time with
    | none => exact Ext.refl db
    | some ts =>
      obtain ⟨hfit, hroom'⟩ := hroom ts ht
      have h1 : Ext db (locate word db l.hash ts e).1 := by
        unfold locate
        cases bucketByTimestamp db.buckets ts with
        | some b => exact Ext.refl db
        | none => exact Ext.create ts e.nodes e.expired hlo.nodes.1 hlo.nodes.2 hfit
      simp only
      cases hloc : locate word db l.hash ts e with
      | mk db' o =>
        rw [hloc] at h1 hroom'
        cases o with
        | none => exact h1
        | some r => exact h1.trans (ih db' _ hroom' fun x hx => hok x (List.mem_cons_of_mem _ hx))

theorem Led.ext {s : State} (h : Led s) {db' : Db} (he : Ext s.db db') : Led { s with db := db' } := by
  refine ⟨?_, fun i hi => h.fresh i (Nat.le_trans he.incr hi), fun x hx => Nat.lt_of_lt_of_le (h.issuedBelow x hx) he.incr⟩
  intro r hr
  rcases he.sets r hr with h' | h'
  · exact h.leader r h'
  · show (s.group r.id).acked ≤ _
    rw [h.fresh r.id h']
    exact Nat.zero_le _

theorem Led.step {H : Series → Nat} {word : Nat} {dbp : Precision} {s : State} {m : Content} (hi : Inv H dbp s m) (h : Led s) (op : Op)
    (hok : op.Ok H word dbp s) (hled : op.Led s) : Led (s.step word dbp op) := by
  have hi' := hi.step op hok
  cases op with
  | catalog c =>
    cases c with
    | create ts nodes expired => exact h.ext (Ext.create ts nodes expired hok.2.2.1 hok.2.2.2.1 hok.2.2.2.2)
    | delete id =>
      refine h.ext (db' := s.db.step word (.delete id)) ⟨Nat.le_refl _, ?_⟩
      intro r hr
      obtain ⟨b, hb, hrb⟩ := mem_sets.1 hr
      exact Or.inl (mem_sets.2 ⟨b, List.mem_of_mem_filter hb, hrb⟩)
    | retainId n =>
      have hm : (s.db.incr + n) % word = s.db.incr + n := Nat.mod_eq_of_lt hok
      exact h.ext (db' := s.db.step word (.retainId n)) ⟨by simp only [Meta.Db.step, hm]; omega, fun r hr => Or.inl hr⟩
    | alter d sh r => exact h.ext (db' := s.db.step word (.alter d sh r)) ⟨Nat.le_refl _, fun r hr => Or.inl hr⟩
    | updateReplSet bid repl del add =>
      refine ⟨?_, h.fresh, h.issuedBelow⟩
      intro r hr
      obtain ⟨b, hb, hrb⟩ := mem_sets.1 hr
      simp only [State.step, Meta.Db.step] at hb
      obtain ⟨b0, hb0, e⟩ := List.mem_filterMap.1 hb
      by_cases eb : b0.id = bid
      · rw [if_pos eb] at e
        unfold Bucket.update at e
        simp only at e
        split at e
        · cases e
        · have e := Option.some.inj e
          subst e
          simp only at hrb
          obtain ⟨r0, hr0, er⟩ := List.mem_map.1 (List.mem_of_mem_filter hrb)
          have hr0s : r0 ∈ sets s.db := mem_sets.2 ⟨b0, hb0, hr0⟩
          by_cases ei : r0.id = repl
          · rw [if_neg (by simp [ei])] at er
            subst er
            rw [update_id]
            exact hled r0 hr0s ei
          · rw [if_pos ei] at er
            subst er
            exact h.leader r0 hr0s
      · rw [if_neg eb] at e
        cases e
        exact h.leader r (mem_sets.2 ⟨b, hb0, hrb⟩)
  | write p lines =>
    have he := Ext.route lines s.db [] hok.1 hok.2
    simp only [State.step] at hi' ⊢
    cases hr : (Cluster.route word p dbp s.db [] lines).2 with
    | none => exact h.ext he
    | some gs =>
      rw [hr] at hi'
      have := h.ext he
      exact ⟨this.leader, this.fresh, hi'.issuedBelow⟩
  | delete t ranges sel => exact ⟨h.leader, h.fresh, hi'.issuedBelow⟩
  | apply set v n =>
    refine ⟨?_, ?_, h.issuedBelow⟩
    · intro r hr
      have := h.leader r hr
      simp only [State.step, State.setGroup]
      by_cases e : r.id = set
      · subst e
        rw [if_pos rfl]
        simp only
        split
        · rename_i e'; rw [e'] at this; exact Nat.le_trans this (Nat.le_max_left _ _)
        · exact this
      · rw [if_neg e]; exact this
    · intro i hi2
      have := h.fresh i hi2
      simp only [State.step, State.setGroup]
      split
      · rename_i e; subst e; exact this
      · exact this
  | commit i ack =>
    simp only [State.step]
    cases hx : s.issued[i]? with
    | none => exact h
    | some x =>
      obtain ⟨set, cmd⟩ := x
      have hlt : set < s.db.incr := h.issuedBelow _ (List.mem_of_getElem? hx)
      cases ack with
      | none =>
        refine ⟨?_, ?_, h.issuedBelow⟩
        · intro r hr
          have := h.leader r hr
          simp only [State.setGroup]
          by_cases e : r.id = set
          · subst e; rw [if_pos rfl]; exact this
          · rw [if_neg e]; exact this
        · intro j hj
          have := h.fresh j hj
          simp only [State.setGroup]
          split
          · rename_i e; subst e; exact this
          · exact this
      | some v =>
        refine ⟨?_, ?_, h.issuedBelow⟩
        · intro r hr
          obtain ⟨b, hb, hrb⟩ := mem_sets.1 hr
          simp only [setLeader] at hb
          obtain ⟨b0, hb0, eb⟩ := List.mem_map.1 hb
          subst eb
          obtain ⟨r0, hr0, er⟩ := List.mem_map.1 hrb
          subst er
          have hr0s : r0 ∈ sets s.db := mem_sets.2 ⟨b0, hb0, hr0⟩
          rw [lead_id]
          simp only [State.setGroup]
          by_cases e : r0.id = set
          · rw [if_pos e]
            simp only
            have hlv : (ReplSet.lead r0 set v).leaderVnode = v := by
              unfold ReplSet.lead
              rw [if_pos e]
              cases hf : r0.vnodes.find? (fun w => decide (w.id = v)) with
              | some w =>
                have := List.find?_some hf
                simpa using this
              | none =>
                obtain ⟨w, hw, ew⟩ := hled (set, cmd) hx r0 hr0s e
                rw [List.find?_eq_none] at hf
                exact absurd (by simpa using ew) (hf w hw)
            rw [hlv, if_pos rfl]
          · rw [if_neg e]
            have hlv : ReplSet.lead r0 set v = r0 := by unfold ReplSet.lead; rw [if_neg e]
            rw [hlv]
            exact h.leader r0 hr0s
        · intro j hj
          have hj' : s.db.incr ≤ j := hj
          simp only [State.setGroup]
          rw [if_neg (by omega)]
          exact h.fresh j hj'

def LegalLed (H : Series → Nat) (word : Nat) (dbp : Precision) : State → List Op → Prop
  | _, [] => True
  | s, op :: ops => (op.Ok H word dbp s ∧ op.Led s) ∧ LegalLed H word dbp (s.step word dbp op) ops

theorem LegalLed.legal {H : Series → Nat} {word : Nat} {dbp : Precision} : ∀ (ops : List Op) (s : State),
    LegalLed H word dbp s ops → Legal H word dbp s ops
  | [], _, _ => trivial
  | _ :: ops, _, h => ⟨h.1.1, LegalLed.legal ops _ h.2⟩

theorem Led.run {H : Series → Nat} {word : Nat} {dbp : Precision} : ∀ (ops : List Op) {s : State} {m : Content}, Inv H dbp s m →
    Led s → LegalLed H word dbp s ops → Led (s.run word dbp ops)
  | [], _, _, _, h, _ => h
  | op :: ops, _, _, hi, h, hl => Led.run ops (hi.step op hl.1.1) (h.step hi op hl.1.1 hl.1.2) hl.2

/-- C120: a query that reads the recorded leader of every set sees the table, except for what only commands say that nobody acknowledged
yet: every acknowledged write and delete is visible, whatever node asks and whoever was leader when it was made. -/
theorem C120_acknowledged_is_visible_partial (H : Series → Nat) (word : Nat) (dbp : Precision) (db : Db) (h0 : db.buckets = [])
    (hd : db.duration ≤ i64Max) (ops : List Op) (hl : LegalLed H word dbp { db := db } ops) (lo hi : Int) (c : Cell)
    (h1 : lo ≤ c.time) (h2 : c.time ≤ hi)
    (hquiet : ∀ r ∈ prune (State.run word dbp { db := db } ops).db lo hi,
      ∀ q ∈ ((State.run word dbp { db := db } ops).group r.id).log.drop ((State.run word dbp { db := db } ops).group r.id).acked,
        q.touches dbp c = false) :
    ((State.run word dbp { db := db } ops).query dbp lo hi (·.leaderVnode)).filterMap (fun answer => answer c) =
      (table dbp (events H word dbp { db := db } ops) c).toList := by
  have h0i := Inv.init H dbp db h0 hd
  have hled := Led.run ops h0i ⟨by simp [sets, h0], fun _ _ => rfl, by simp⟩ hl
  refine (h0i.run ops (LegalLed.legal ops _ hl)).query lo hi _ c h1 h2 ?_
  generalize State.run word dbp { db := db } ops = s at *
  intro r hr
  have hle := hled.leader r (by
    obtain ⟨b, hb, hrb⟩ := mem_prune.1 hr
    exact mem_sets.2 ⟨b, List.mem_of_mem_filter hb, hrb⟩)
  unfold Group.shows
  generalize (s.group r.id).applied r.leaderVnode = n at hle
  have hq := hquiet r hr
  generalize (s.group r.id).acked = a at hle hq
  conv => rhs; rw [← List.take_append_drop n (s.group r.id).log]
  rw [content_append_untouched]
  intro q hqm
  apply hq
  have : (s.group r.id).log.drop n = ((s.group r.id).log.drop a).drop (n - a) := by
    rw [List.drop_drop]; congr 1; omega
  rw [this] at hqm
  exact List.mem_of_mem_drop hqm

end Verif.Cluster
