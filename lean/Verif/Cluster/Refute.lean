import Verif.Cluster.Props
/-!
# C120, C121: examples, and where the one table ends
-/
namespace Verif.Cluster
open Meta (Db Bucket ReplSet)

namespace Ex

/-- A database with two sets per bucket of 100 ns and two replicas. -/
def db0 : Db := ⟨1, 100, 2, 2, []⟩
/-- With three sets. -/
def db3 : Db := ⟨1, 100, 3, 2, []⟩
def ser (b : BitVec 8) : Series := ⟨[116#8], [([97#8], [b])]⟩
def ln (src : Src) (s : Series) (t : Int) (v : Nat) : Line × Env := (⟨s, t, [([102#8], v)], src⟩, ⟨[1, 2], 0⟩)
def cell (b : BitVec 8) (t : Int) : Cell := ⟨ser b, t, [102#8]⟩
/-- The hash of line protocol. -/
def H (s : Series) : Nat := (Utils.lineHash s.table s.tags).toNat
def W : Nat := 4294967296

/-- Two requests over two sets and two buckets, a delete, a move of a replica, all acknowledged. -/
def ops : List Op :=
  [.write .ns [ln .text (ser 1#8) 5 10, ln .text (ser 2#8) 5 20, ln .text (ser 2#8) 150 30],
   .commit 0 (some 3), .commit 1 (some 7), .commit 2 (some 14),
   .write .ns [ln .text (ser 2#8) 5 21],
   .catalog (.updateReplSet 1 2 [⟨4, 2⟩] [⟨50, 3⟩]),
   .commit 3 (some 7),
   .delete [116#8] [(0, 50)] (fun s => decide (s = ser 1#8)),
   .commit 4 (some 3), .commit 5 (some 6)]

def st : State := State.run W .ns { db := db0 } ops

end Ex

open Ex

/-! ## The conditions on steps, computed -/

def lineB (H : Series → Nat) (p dbp : Precision) (l : Line) (e : Env) : Bool :=
  decide (l.hash = H l.series) &&
  (match Utils.timestampConvert p dbp l.time with
    | none => true
    | some ts => decide (i64Min ≤ ts ∧ ts ≤ i64Max) && decide (ts ≠ i64Max)) &&
  decide e.nodes.Nodup && decide (0 < e.nodes.length)

theorem lineB_ok {H : Series → Nat} {p dbp : Precision} {l : Line} {e : Env} (h : lineB H p dbp l e = true) : LineOk H p dbp l e := by
  unfold lineB at h
  simp only [Bool.and_eq_true, decide_eq_true_eq] at h
  refine ⟨h.1.1.1, ?_, h.1.2, h.2⟩
  intro ts ht
  have := h.1.1.2
  rw [ht] at this
  simpa [IsI64] using this

/-- A decidable form of the room for a request. -/
def roomB (word : Nat) (p dbp : Precision) : Db → List (Line × Env) → Bool
  | _, [] => true
  | db, (l, e) :: rest =>
    match Utils.timestampConvert p dbp l.time with
    | none => true
    | some ts => decide (db.incr + (Meta.Cmd.create ts e.nodes e.expired).cost db < word) && roomB word p dbp (locate word db l.hash ts e).1 rest

theorem room_of {word : Nat} {p dbp : Precision} : ∀ (lines : List (Line × Env)) (db : Db), roomB word p dbp db lines = true →
    Room word p dbp db lines
  | [], _, _ => trivial
  | (l, e) :: rest, db, h => by
    intro ts ht
    unfold roomB at h
    rw [ht] at h
    simp only [Bool.and_eq_true, decide_eq_true_eq] at h
    exact ⟨h.1, room_of rest _ h.2⟩

def okB (H : Series → Nat) (word : Nat) (dbp : Precision) (s : State) : Op → Bool
  | .catalog (.create ts nodes expired) => decide (i64Min ≤ ts ∧ ts ≤ i64Max) && decide (ts ≠ i64Max) && decide nodes.Nodup &&
      decide (0 < nodes.length) && decide (s.db.incr + (Meta.Cmd.create ts nodes expired).cost s.db < word)
  | .catalog (.retainId n) => decide (s.db.incr + n < word)
  | .catalog (.alter d _ _) => decide (d = s.db.duration)
  | .catalog (.updateReplSet bid repl del add) => s.db.buckets.all fun b => !decide (b.id = bid) || b.shards.all fun r =>
      !decide (r.id = repl) || (!(r.update del add).vnodes.isEmpty &&
        decide ((s.group r.id).acked ≤ (s.group r.id).applied (r.update del add).leaderVnode))
  | .write p lines => roomB word p dbp s.db lines && lines.all fun x => lineB H p dbp x.1 x.2
  | .commit i (some v) =>
    match s.issued[i]? with
    | none => true
    | some x => (sets s.db).all fun r => !decide (r.id = x.1) || r.vnodes.any fun w => decide (w.id = v)
  | _ => true

/-- Updates of a set whose id is in one bucket only (`Cat.nodup`). -/
def legalB (H : Series → Nat) (word : Nat) (dbp : Precision) : State → List Op → Bool
  | _, [] => true
  | s, op :: ops => okB H word dbp s op && legalB H word dbp (s.step word dbp op) ops

theorem okB_ok {H : Series → Nat} {word : Nat} {dbp : Precision} {s : State} (op : Op) (h : okB H word dbp s op = true) :
    op.Ok H word dbp s := by
  cases op with
  | catalog c =>
    cases c with
    | create ts nodes expired =>
      simp only [okB, Bool.and_eq_true, decide_eq_true_eq] at h
      exact ⟨h.1.1.1.1, h.1.1.1.2, h.1.1.2, h.1.2, h.2⟩
    | delete id => trivial
    | retainId n => simp only [okB, decide_eq_true_eq] at h; exact h
    | alter d sh r => simp only [okB, decide_eq_true_eq] at h; exact h
    | updateReplSet bid repl del add =>
      intro b hb e r hr e'
      simp only [okB, List.all_eq_true, Bool.or_eq_true, Bool.not_eq_true', decide_eq_false_iff_not, Bool.and_eq_true] at h
      rcases h b hb with h' | h'
      · exact absurd e h'
      · rcases h' r hr with h'' | h''
        · exact absurd e' h''
        · intro hc
          rw [hc] at h''
          simp at h''
  | write p lines =>
    simp only [okB, Bool.and_eq_true, List.all_eq_true] at h
    exact ⟨room_of _ _ h.1, fun x hx => lineB_ok (h.2 x hx)⟩
  | delete _ _ _ => trivial
  | commit _ _ => trivial
  | apply _ _ _ => trivial

theorem okB_led {H : Series → Nat} {word : Nat} {dbp : Precision} {s : State} (op : Op) (h : okB H word dbp s op = true)
    (hu : ∀ bid repl del add, op = .catalog (.updateReplSet bid repl del add) → ∀ b ∈ s.db.buckets, b.id ≠ bid → ∀ r ∈ b.shards, r.id ≠ repl) :
    op.Led s := by
  cases op with
  | catalog c =>
    cases c with
    | updateReplSet bid repl del add =>
      intro r hr e
      obtain ⟨b, hb, hrb⟩ := mem_sets.1 hr
      simp only [okB, List.all_eq_true, Bool.or_eq_true, Bool.not_eq_true', decide_eq_false_iff_not, Bool.and_eq_true] at h
      rcases h b hb with h' | h'
      · exact absurd e (hu bid repl del add rfl b hb h' r hrb)
      · rcases h' r hrb with h'' | h''
        · exact absurd e h''
        · simpa using h''.2
    | _ => trivial
  | commit i ack =>
    cases ack with
    | none => trivial
    | some v =>
      intro x hx r hr e
      simp only [okB, hx, List.all_eq_true] at h
      have := h r hr
      simpa [e] using this
  | _ => trivial

theorem legalB_ok {H : Series → Nat} {word : Nat} {dbp : Precision} : ∀ (ops : List Op) (s : State),
    legalB H word dbp s ops = true → Legal H word dbp s ops
  | [], _, _ => trivial
  | op :: ops, s, h => by
    simp only [legalB, Bool.and_eq_true] at h
    exact ⟨okB_ok op h.1, legalB_ok ops _ h.2⟩

/-- Is the bucket named by an update the one of the set? -/
def namedB (s : State) : Op → Bool
  | .catalog (.updateReplSet bid repl _ _) => s.db.buckets.all fun b => decide (b.id = bid) || b.shards.all fun r => decide (r.id ≠ repl)
  | _ => true

def legalLedB (H : Series → Nat) (word : Nat) (dbp : Precision) : State → List Op → Bool
  | _, [] => true
  | s, op :: ops => okB H word dbp s op && namedB s op && legalLedB H word dbp (s.step word dbp op) ops

theorem legalLedB_ok {H : Series → Nat} {word : Nat} {dbp : Precision} : ∀ (ops : List Op) (s : State),
    legalLedB H word dbp s ops = true → LegalLed H word dbp s ops
  | [], _, _ => trivial
  | op :: ops, s, h => by
    simp only [legalLedB, Bool.and_eq_true] at h
    refine ⟨⟨okB_ok op h.1.1, okB_led op h.1.1 ?_⟩, legalLedB_ok ops _ h.2⟩
    intro bid repl del add e b hb hne r hr e'
    subst e
    have := h.1.2
    simp only [namedB, List.all_eq_true, Bool.or_eq_true, decide_eq_true_eq] at this
    rcases this b hb with h' | h'
    · exact hne h'
    · exact h' r hr e'

/-- The example meets the conditions of the theorems. -/
example : LegalLed H W .ns { db := db0 } ops := legalLedB_ok ops _ (by decide +kernel)

/-- Everything in it was acknowledged, and the queries show the newer value, the other bucket and not the deleted row. -/
example : (∀ r ∈ prune st.db 0 200, (st.group r.id).log.drop (st.group r.id).acked = []) ∧
    (st.query .ns 0 200 (·.leaderVnode)).filterMap (fun a => a (cell 2#8 5)) = [21] ∧
    (st.query .ns 0 200 (·.leaderVnode)).filterMap (fun a => a (cell 2#8 150)) = [30] ∧
    (st.query .ns 0 200 (·.leaderVnode)).filterMap (fun a => a (cell 1#8 5)) = [] ∧
    (st.query .ns 0 200 (·.leaderVnode)).length = 4 := by
  refine ⟨?_, by decide +kernel, by decide +kernel, by decide +kernel, by decide +kernel⟩
  have : (prune st.db 0 200).all (fun r => decide ((st.group r.id).log.length ≤ (st.group r.id).acked)) = true := by decide +kernel
  intro r hr
  rw [List.all_eq_true] at this
  exact List.drop_eq_nil_of_le (by simpa using this r hr)

/-- The write request of the example is accepted and its three commands are 0, 1 and 2. -/
example : (route W .ns .ns db0 [] [ln .text (ser 1#8) 5 10, ln .text (ser 2#8) 5 20, ln .text (ser 2#8) 150 30]).2.isSome = true ∧
    sent W .ns { db := db0 } (.write .ns [ln .text (ser 1#8) 5 10, ln .text (ser 2#8) 5 20, ln .text (ser 2#8) 150 30]) = [0, 1, 2] ∧
    written .ns .ns ([ln .text (ser 1#8) 5 10, ln .text (ser 2#8) 5 20].map (·.1)) (cell 2#8 5) = some 20 := by
  refine ⟨by decide +kernel, by decide +kernel, by decide +kernel⟩

/-! ## Refutations -/

/-- C120 is false when rows come by different interfaces, whose hashes differ (C57): the same point, written by line protocol and as JSON,
is in two sets, and a query shows both values, for good.  All replicas are up to date. -/
theorem C120_two_interfaces_refuted :
    ∃ (ops : List Op) (c : Cell), ((State.run W .ns { db := db0 } ops).query .ns 0 10 (·.leaderVnode)).filterMap (fun a => a c) = [2, 1] :=
  ⟨[.write .ns [ln .text (ser 2#8) 5 1], .write .ns [ln .json (ser 2#8) 5 2], .commit 0 (some 6), .commit 1 (some 3)], cell 2#8 5,
    by decide +kernel⟩

/-- C120 is false when a set is removed (`REPLICA DESTORY`): the rows of the other sets of the bucket are then expected in other places, so
that a point written again is there twice. -/
theorem C120_set_removed_refuted :
    ∃ (ops : List Op) (c : Cell), ((State.run W .ns { db := db3 } ops).query .ns 0 10 (·.leaderVnode)).filterMap (fun a => a c) = [2, 1] :=
  ⟨[.write .ns [ln .text (ser 1#8) 5 1], .commit 0 (some 9), .catalog (.updateReplSet 1 2 [⟨3, 1⟩, ⟨4, 2⟩] []),
    .write .ns [ln .text (ser 1#8) 5 2], .commit 1 (some 6)], cell 1#8 5, by decide +kernel⟩

/-- C120 is false for the second replica that a query tries when the leader cannot be reached: it need not have executed what was
acknowledged, and the query does not notice. -/
theorem C120_follower_read_refuted :
    ∃ (ops : List Op) (c : Cell) (pick : ReplSet → Nat), LegalLed H W .ns { db := db0 } ops ∧
      (∀ r ∈ prune (State.run W .ns { db := db0 } ops).db 0 10, pick r ∈ (candidates r fun _ => .running).map (·.id)) ∧
      table .ns (events H W .ns { db := db0 } ops) c = some 1 ∧
      (∀ r ∈ prune (State.run W .ns { db := db0 } ops).db 0 10,
        ((State.run W .ns { db := db0 } ops).group r.id).acked = ((State.run W .ns { db := db0 } ops).group r.id).log.length) ∧
      ((State.run W .ns { db := db0 } ops).query .ns 0 10 pick).filterMap (fun a => a c) = [] := by
  refine ⟨[.write .ns [ln .text (ser 2#8) 5 1], .commit 0 (some 6)], cell 2#8 5, fun r => r.id + 2, legalLedB_ok _ _ (by decide +kernel),
    ?_, by decide +kernel, ?_, by decide +kernel⟩
  · decide +kernel
  · decide +kernel

/-! ## C121 -/

/-- C121: a request refused while its lines are routed has no effect on the table, sends nothing and takes nothing from earlier requests:
only buckets can be new. -/
theorem C121_refused_request_no_effect_partial (H : Series → Nat) (word : Nat) (dbp : Precision) (db : Db) (h0 : db.buckets = [])
    (hd : db.duration ≤ i64Max) (ops : List Op) (p : Precision) (lines : List (Line × Env))
    (hl : Legal H word dbp { db := db } (ops ++ [.write p lines]))
    (href : (route word p dbp (State.run word dbp { db := db } ops).db [] lines).2 = none) :
    (State.run word dbp { db := db } (ops ++ [.write p lines])).issued = (State.run word dbp { db := db } ops).issued ∧
    (State.run word dbp { db := db } (ops ++ [.write p lines])).group = (State.run word dbp { db := db } ops).group ∧
    (∀ c, table dbp (events H word dbp { db := db } (ops ++ [.write p lines])) c = table dbp (events H word dbp { db := db } ops) c) ∧
    ∀ c i, homeIn H (State.run word dbp { db := db } ops).db.buckets c = some i →
      homeIn H (State.run word dbp { db := db } (ops ++ [.write p lines])).db.buckets c = some i := by
  obtain ⟨hl1, hl2⟩ := legal_append ops _ _ hl
  have hinv := (Inv.init H dbp db h0 hd).run ops hl1
  rw [run_snoc, events_append]
  generalize State.run word dbp { db := db } ops = s at *
  have hok : (Op.write p lines).Ok H word dbp s := hl2.1
  have hstep : s.step word dbp (.write p lines) = { s with db := (route word p dbp s.db [] lines).1 } := by
    simp only [State.step, href]
  obtain ⟨_, c2, _⟩ := route_spec (H := H) lines s.db [] [] hinv.cat hok.1 hok.2 (by simp) ⟨by simp, by simp, by simp, by simp [written]⟩
  rw [hstep]
  refine ⟨rfl, rfl, ?_, c2.keep⟩
  intro c
  have he : events H word dbp s [.write p lines] = [] := rfl
  rw [he, List.append_nil]

/-- A request whose second line is older than the database keeps is refused as a whole. -/
example : (route W .ns .ns db0 [] [ln .text (ser 1#8) 5 10, (⟨ser 1#8, -7, [([102#8], 1)], .text⟩, ⟨[1, 2], 0⟩)]).2 = none ∧
    legalB H W .ns { db := db0 } [.write .ns [ln .text (ser 1#8) 5 10, (⟨ser 1#8, -7, [([102#8], 1)], .text⟩, ⟨[1, 2], 0⟩)]] = true := by
  refine ⟨by decide +kernel, by decide +kernel⟩

/-- C121 is false after routing: the commands of a request go to their sets one by one, and when one of them fails the others stay.  Here
the request is not acknowledged, its first line is in the table for good, and its second one is not. -/
theorem C121_all_or_nothing_refuted :
    ∃ (ops : List Op) (p : Precision) (lines : List (Line × Env)) (c c' : Cell), LegalLed H W .ns { db := db0 } ops ∧
      ops.head? = some (.write p lines) ∧
      (written p .ns (lines.map (·.1)) c).isSome ∧ (written p .ns (lines.map (·.1)) c').isSome ∧
      (table .ns (events H W .ns { db := db0 } ops) c).isSome ∧ table .ns (events H W .ns { db := db0 } ops) c' = none :=
  ⟨[.write .ns [ln .text (ser 1#8) 5 10, ln .text (ser 2#8) 5 20], .commit 0 (some 3)], .ns,
    [ln .text (ser 1#8) 5 10, ln .text (ser 2#8) 5 20], cell 1#8 5, cell 2#8 5, legalLedB_ok _ _ (by decide +kernel), rfl,
    by decide +kernel, by decide +kernel, by decide +kernel, by decide +kernel⟩

end Verif.Cluster
