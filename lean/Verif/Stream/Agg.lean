import Verif.Stream.Props
/-!
# Properties: what a stream query gives
-/
namespace Verif.Stream
variable {K V : Type} [DecidableEq K]

/-! ## Every row once -/

/-- Rows come in the order of their times: behind all that has been seen. -/
def InOrder (s : Sys K V) : Op K V → Prop
  | .write rows => ∀ r ∈ rows, r.src = 0 ∧ r.time < maxOffset ∧ s.st.mark < r.time
  | _ => True

/-- A run ends well, and the partition that ends last has the latest row in its last batch. -/
def Sorted (s : Sys K V) : Op K V → Prop
  | .run parts e => e = .ok ∧ ∀ r ∈ parts.flatten.flatten, r.time ≤ markAfter s.st.mark parts
  | .write _ => True
  | .restart => False

/-- What holds between the steps. -/
structure Sys.Once (s : Sys K V) : Prop where
  st : s.st.Ok
  fresh : s.st.done.get 0 = none → s.st.mark = minOffset
  mark : ∀ d, s.st.done.get 0 = some d → s.st.mark = d
  low : minOffset ≤ s.st.mark
  table : ∀ r ∈ s.table, r.src = 0 ∧ r.time < maxOffset ∧ minOffset < r.time
  read : s.read.Perm (s.table.filter fun r => decide (r.time ≤ s.st.mark))

theorem Sys.Once.new : (Sys.new : Sys K V).Once :=
  ⟨.new, fun _ => rfl, (fun d h => by cases h), Int.le_refl _, (fun r h => by cases h), .nil⟩

theorem filter_le_gt (l : List (Row K V)) (m : Int) :
    l.Perm ((l.filter fun r => decide (r.time ≤ m)) ++ l.filter fun r => decide (m < r.time)) := by
  have := (List.filter_append_perm (fun r : Row K V => decide (r.time ≤ m)) l).symm
  refine this.trans (List.Perm.append_left _ ?_)
  have he : (l.filter fun r => !decide (r.time ≤ m)) = l.filter fun r => decide (m < r.time) := by
    refine List.filter_congr fun r _ => ?_
    by_cases h : r.time ≤ m
    · simp [h]
    · simp [h]; omega
  rw [he]

theorem Sys.Once.reads {q : Query K V} (hq : Plain q) {s : Sys K V} (h : s.Once) :
    s.st.reads q s.table = s.table.filter fun r => decide (s.st.mark < r.time) := by
  rw [St.reads, offerAll_eq hq h.st]
  refine List.filter_congr fun r hr => ?_
  obtain ⟨h0, h1, h2⟩ := h.table r hr
  simp only [St.wants, h0, avail_set h.st, if_pos, hq.2, St.start]
  cases hd : s.st.done.get 0 with
  | none =>
    have := h.fresh hd
    rw [this]; simp [h1, h2]
  | some d =>
    have := h.mark d hd
    rw [this]; simp [h1]; omega

theorem Sys.Once.step {q : Query K V} (hq : Plain q) {s : Sys K V} (h : s.Once) {op : Op K V} (hf : op.Fits q s) (hi : InOrder s op)
    (hs : Sorted s op) : (s.step q op).Once ∧ (∀ parts e, op = .run parts e → (s.step q op).read.Perm s.table) := by
  cases op with
  | restart => exact hs.elim
  | write rows =>
    refine ⟨⟨h.st, h.fresh, h.mark, h.low, fun r hr => ?_, ?_⟩, fun p e he => by cases he⟩
    · rcases List.mem_append.1 hr with hr | hr
      · exact h.table r hr
      · have h1 := hi r hr
        exact ⟨h1.1, h1.2.1, Int.lt_of_le_of_lt h.low h1.2.2⟩
    · have he : (rows.filter fun r => decide (r.time ≤ s.st.mark)) = [] := by
        rw [List.filter_eq_nil_iff]
        intro r hr
        have := (hi r hr).2.2
        simp; omega
      show s.read.Perm ((s.table ++ rows).filter fun r => decide (r.time ≤ s.st.mark))
      rw [List.filter_append, he, List.append_nil]
      exact h.read
  | run parts e =>
    obtain ⟨rfl, hmax⟩ := hs
    have hf : parts.flatten.flatten.Perm (s.st.reads q s.table) := hf
    rw [h.reads hq] at hf
    have hmem : ∀ r ∈ parts.flatten.flatten, r ∈ s.table ∧ s.st.mark < r.time := fun r hr => by
      have := hf.mem_iff.1 hr
      rw [List.mem_filter] at this
      exact ⟨this.1, of_decide_eq_true this.2⟩
    have hlt : ∀ r ∈ parts.flatten.flatten, r.time < maxOffset := fun r hr => (h.table r (hmem r hr).1).2.1
    obtain ⟨e1, e2, e3, _⟩ := run_read q s parts .ok
    have hsome : (s.st.run q parts .ok).2.isSome := by
      rw [run_eq hq h.st]
      simp only
      split <;> rfl
    rw [if_pos hsome] at e3
    have hread : (s.step q (.run parts .ok)).read.Perm s.table := by
      rw [e3]
      exact (List.Perm.append h.read hf).trans (filter_le_gt s.table s.st.mark).symm
    have hok : (s.step q (.run parts .ok)).st.Ok := by rw [e1]; exact run_ok hq h.st (table := s.table) hlt .ok
    -- the watermark and what is done behind the run
    have hmark : (s.step q (.run parts .ok)).st.mark = markAfter s.st.mark parts ∧ s.st.mark ≤ markAfter s.st.mark parts ∧
        ((s.step q (.run parts .ok)).st.done.get 0 = s.st.done.get 0 ∧ markAfter s.st.mark parts = s.st.mark ∨
          (s.step q (.run parts .ok)).st.done.get 0 = some (markAfter s.st.mark parts)) := by
      rw [e1]
      have hge : s.st.mark ≤ markAfter s.st.mark parts := by
        rcases markAfter_mem s.st.mark parts with h1 | ⟨r, hr, h1⟩
        · omega
        · have := (hmem r hr).2; omega
      by_cases hgt : markAfter s.st.mark parts > s.st.mark
      · have hd := run_done hq h.st hlt .ok
        have hm : (s.st.run q parts .ok).1.mark = markAfter s.st.mark parts := by
          rw [run_eq hq h.st]; simp only [if_pos hgt]; rfl
        refine ⟨hm, hge, .inr ?_⟩
        rcases hd with hd | ⟨_, _, hd⟩
        · have h2 : (s.st.run q parts .ok).1.done.get 0 = some (markAfter s.st.mark parts) := by
            have hmx : markAfter s.st.mark parts < maxOffset := by
              rcases markAfter_mem s.st.mark parts with h1 | ⟨r, hr, h1⟩
              · omega
              · rw [← h1]; exact hlt r hr
            rw [run_eq hq h.st]
            simp only [if_pos hgt]
            exact commit_done h.st hmx
          exact h2
        · exact hd
      · have he : markAfter s.st.mark parts = s.st.mark := by omega
        rw [run_eq hq h.st]
        simp only [if_neg hgt]
        exact ⟨he.symm, hge, .inl ⟨rfl, he⟩⟩
    obtain ⟨hm, hge, hd⟩ := hmark
    refine ⟨⟨hok, fun hn => ?_, fun d hsd => ?_, ?_, ?_, ?_⟩, fun _ _ _ => hread⟩
    · rcases hd with ⟨hd, he⟩ | hd
      · rw [hm, he]; exact h.fresh (by rw [← hd]; exact hn)
      · rw [hd] at hn; cases hn
    · rcases hd with ⟨hd, he⟩ | hd
      · rw [hm, he]; exact h.mark d (by rw [← hd]; exact hsd)
      · rw [hd] at hsd; cases hsd; exact hm
    · rw [hm]; exact Int.le_trans h.low hge
    · rw [e2]; exact h.table
    · rw [e2, hm]
      refine hread.trans ?_
      have : (s.table.filter fun r => decide (r.time ≤ markAfter s.st.mark parts)) = s.table := by
        rw [List.filter_eq_self]
        intro r hr
        by_cases h1 : r.time ≤ s.st.mark
        · simp; omega
        · have := hmax r (hf.mem_iff.2 (List.mem_filter.2 ⟨hr, by simp; omega⟩))
          simpa using this
      rw [this]

theorem Sys.Once.steps {q : Query K V} (hq : Plain q) {s : Sys K V} (h : s.Once) {ops : List (Op K V)}
    (hl : Along q (fun s op => op.Fits q s ∧ InOrder s op ∧ Sorted s op) s ops) : (s.steps q ops).Once := by
  induction ops generalizing s with
  | nil => exact h
  | cons op ops ih => exact ih (h.step hq hl.1.1 hl.1.2.1 hl.1.2.2).1 hl.2

theorem along_append {q : Query K V} {P : Sys K V → Op K V → Prop} {s : Sys K V} {a b : List (Op K V)} :
    Along q P s (a ++ b) ↔ Along q P s a ∧ Along q P (s.steps q a) b := by
  induction a generalizing s with
  | nil => simp [Along, Sys.steps]
  | cons op a ih =>
    simp only [List.cons_append, Along, ih, and_assoc]
    rfl

/-- Property C142, partial: if the query has one source in nanoseconds, all runs end well, rows come in the order of their times,
and in every run the latest row comes last, then every row is read once: behind every run the rows that were read are
those of the table. -/
theorem C142_once_partial {q : Query K V} (hq : Plain q) {ops : List (Op K V)} {parts : List (List (List (Row K V)))} {e : Ending}
    (hl : Along q (fun s op => op.Fits q s ∧ InOrder s op ∧ Sorted s op) .new (ops ++ [.run parts e])) :
    ((Sys.new : Sys K V).steps q (ops ++ [.run parts e])).read.Perm ((Sys.new : Sys K V).steps q (ops ++ [.run parts e])).table := by
  obtain ⟨h1, h2, _⟩ := along_append.1 hl
  have ho := Sys.Once.new.steps hq h1
  have h3 := (ho.step hq h2.1 h2.2.1 h2.2.2).2 parts e rfl
  have he : (Sys.new : Sys K V).steps q (ops ++ [.run parts e]) = ((Sys.new : Sys K V).steps q ops).step q (.run parts e) := by
    simp [Sys.steps]
  rw [he, (run_read q _ parts e).2.1]
  exact h3

/-! ## States -/

/-- The values of a group. -/
def vals (k : K) (gs : List (Group K V)) : List V := gs.flatMap fun g => if g.1 = k then g.2 else []

/-- The values of a group in the rows of a source: what the aggregates of the group are computed from. -/
def rowsOf (k : K) (rows : List (Row K V)) : List V := (rows.filter fun r => decide (r.key = k)).map (·.val)

theorem vals_append (k : K) (a b : List (Group K V)) : vals k (a ++ b) = vals k a ++ vals k b := List.flatMap_append

theorem vals_perm {k : K} {a b : List (Group K V)} (h : a.Perm b) : (vals k a).Perm (vals k b) := h.flatMap_right _

theorem rowsOf_append (k : K) (a b : List (Row K V)) : rowsOf k (a ++ b) = rowsOf k a ++ rowsOf k b := by
  simp [rowsOf]

theorem rowsOf_perm {k : K} {a b : List (Row K V)} (h : a.Perm b) : (rowsOf k a).Perm (rowsOf k b) := (h.filter _).map _

theorem vals_rows (k : K) (rows : List (Row K V)) : vals k (rows.map fun r => (r.key, [r.val])) = rowsOf k rows := by
  induction rows with
  | nil => rfl
  | cons r rows ih =>
    simp only [vals, rowsOf, List.map_cons, List.flatMap_cons, List.filter_cons] at ih ⊢
    rw [ih]
    by_cases h : r.key = k <;> simp [h]

theorem vals_addGroup (k : K) (m : List (Group K V)) (g : Group K V) : (vals k (addGroup m g)).Perm (vals k m ++ vals k [g]) := by
  induction m with
  | nil => simp [addGroup, vals]
  | cons h m ih =>
    rw [addGroup]
    split
    · rename_i hk
      simp only [vals, List.flatMap_cons, List.flatMap_nil, List.append_nil]
      rw [hk]
      by_cases hg : g.1 = k
      · simp only [hg, if_true, List.append_assoc]
        exact List.Perm.append_left _ List.perm_append_comm
      · simp [hg]
    · simp only [vals, List.flatMap_cons, List.flatMap_nil, List.append_nil, List.append_assoc] at ih ⊢
      exact List.Perm.append_left _ ih

theorem addGroup_keys (m : List (Group K V)) (g : Group K V) :
    (addGroup m g).map Prod.fst = if g.1 ∈ m.map Prod.fst then m.map Prod.fst else m.map Prod.fst ++ [g.1] := by
  induction m with
  | nil => simp [addGroup]
  | cons h m ih =>
    rw [addGroup]
    by_cases hk : h.1 = g.1
    · simp [hk]
    · rw [if_neg hk]
      simp only [List.map_cons, ih, List.mem_cons]
      have : ¬ g.1 = h.1 := fun e => hk e.symm
      by_cases hg : g.1 ∈ m.map Prod.fst
      · simp only [hg, if_true, or_true]
      · simp only [hg, this, or_self, if_false, List.cons_append]

theorem vals_foldl (k : K) (l m : List (Group K V)) : (vals k (l.foldl addGroup m)).Perm (vals k m ++ vals k l) := by
  induction l generalizing m with
  | nil => simp [vals]
  | cons g l ih =>
    rw [List.foldl_cons]
    refine (ih _).trans ?_
    have : vals k (g :: l) = vals k [g] ++ vals k l := vals_append k [g] l
    rw [this, ← List.append_assoc]
    exact List.Perm.append_right _ (vals_addGroup k m g)

theorem keys_foldl (l m : List (Group K V)) (h : (m.map Prod.fst).Nodup) : ((l.foldl addGroup m).map Prod.fst).Nodup := by
  induction l generalizing m with
  | nil => exact h
  | cons g l ih =>
    refine ih _ ?_
    rw [addGroup_keys]
    split
    · exact h
    · rename_i hn
      rw [List.nodup_append]
      exact ⟨h, by simp, by rintro a ha b hb rfl; simp at hb; exact hn (hb ▸ ha)⟩

theorem vals_merged (k : K) (states : List (Group K V)) (rows : List (Row K V)) :
    (vals k (merged states rows)).Perm (vals k states ++ rowsOf k rows) := by
  refine (vals_foldl k _ []).trans ?_
  rw [vals_append, vals_rows]
  exact List.Perm.append_right _ (vals_perm (List.reverse_perm states))

theorem keys_merged (states : List (Group K V)) (rows : List (Row K V)) : ((merged states rows).map Prod.fst).Nodup :=
  keys_foldl _ [] (by simp)

theorem vals_filter {k : K} {p : Group K V → Bool} {l : List (Group K V)} (h : ∀ vs, p (k, vs) = true) :
    vals k (l.filter p) = vals k l := by
  induction l with
  | nil => rfl
  | cons g l ih =>
    rw [List.filter_cons]
    by_cases hp : p g = true
    · rw [if_pos hp]
      simp only [vals, List.flatMap_cons] at ih ⊢
      rw [ih]
    · have hk : ¬ g.1 = k := by
        rintro rfl
        exact hp (h g.2)
      rw [if_neg hp]
      simp only [vals, List.flatMap_cons, hk, if_false, List.nil_append] at ih ⊢
      exact ih

/-- Expired is what is not kept. -/
theorem expired_eq (q : Query K V) (w : Int) (g : Group K V) : q.expired w g = !q.keeps w g := by
  simp only [Query.expired, Query.keeps, Bool.not_or, List.not_any_eq_all_not]
  congr 1
  congr 1
  funext c
  by_cases h : c g ≤ w
  · simp [h]
  · simp [h]; omega

/-! ## Results -/

/-- Runs do not fail behind the first state that they write; there is no restart; the group is not late in any run. -/
def Calm (q : Query K V) (k : K) (s : Sys K V) : Op K V → Prop
  | .run _ e => (e = .ok ∨ e = .persisting ∨ ∃ n, e = .reading n) ∧ ∀ vs, q.keeps s.st.mark (k, vs) = true
  | .write _ => True
  | .restart => False

/-- What holds between the steps. -/
structure Sys.Sums (k : K) (s : Sys K V) : Prop where
  left : s.st.uncommitted = []
  states : (vals k s.st.committed).Perm (rowsOf k s.read)
  out : (vals k s.out).Perm (rowsOf k s.read)
  keys : (s.out.map Prod.fst).Nodup

theorem offer_keeps (s : St K V) (src : Nat) (o : Int) : (s.offer src o).mark = s.mark ∧ (s.offer src o).committed = s.committed ∧
    (s.offer src o).uncommitted = s.uncommitted ∧ (s.offer src o).saved = s.saved := by
  rw [St.offer]; split <;> simp

theorem offerAll_keeps (q : Query K V) (s : St K V) : (s.offerAll q).mark = s.mark ∧ (s.offerAll q).committed = s.committed ∧
    (s.offerAll q).uncommitted = s.uncommitted ∧ (s.offerAll q).saved = s.saved := by
  rw [St.offerAll]
  generalize q.srcs = l
  induction l generalizing s with
  | nil => exact ⟨rfl, rfl, rfl, rfl⟩
  | cons a l ih =>
    obtain ⟨h1, h2, h3, h4⟩ := ih (s.offer a maxOffset)
    obtain ⟨g1, g2, g3, g4⟩ := offer_keeps s a maxOffset
    rw [List.foldl_cons]
    exact ⟨h1.trans g1, h2.trans g2, h3.trans g3, h4.trans g4⟩

/-- A run with a result: the states and the result. -/
theorem run_some {q : Query K V} {s : St K V} {parts : List (List (List (Row K V)))} {e : Ending} {out : List (Group K V)}
    (h : (s.run q parts e).2 = some out) :
    out = (merged s.committed parts.flatten.flatten).filter (q.keeps s.mark) ∧ (s.run q parts e).1.uncommitted = [] ∧
    (s.run q parts e).1.committed = (s.uncommitted ++ out).filter fun g => !q.expired s.mark g := by
  obtain ⟨h1, h2, h3, h4⟩ := offerAll_keeps q s
  rw [St.run] at h ⊢
  simp only at h ⊢
  by_cases ha : (s.offerAll q).avail.entries.isEmpty = true
  · rw [if_pos ha] at h; cases h
  · rw [if_neg ha] at h ⊢
    cases e with
    | reading n => cases h
    | saving n => cases h
    | writing => cases h
    | ok =>
      simp only [reduceCtorEq, if_false] at h ⊢
      split at h
      · rename_i hm
        simp only [if_pos hm, Option.some.injEq, St.save] at h ⊢
        subst h
        rw [h1, h2, h3]
        exact ⟨by trivial, by trivial, by trivial⟩
      · rename_i hm
        simp only [if_neg hm, Option.some.injEq, St.save] at h ⊢
        subst h
        rw [h1, h2, h3]
        exact ⟨by trivial, by trivial, by trivial⟩
    | persisting =>
      simp only [if_true] at h ⊢
      split at h
      · rename_i hm
        simp only [if_pos hm, Option.some.injEq, St.save] at h ⊢
        subst h
        rw [h1, h2, h3]
        exact ⟨by trivial, by trivial, by trivial⟩
      · rename_i hm
        simp only [if_neg hm, Option.some.injEq, St.save] at h ⊢
        subst h
        rw [h1, h2, h3]
        exact ⟨by trivial, by trivial, by trivial⟩

/-- A run without a result that does not fail behind the first state: the states are as before. -/
theorem run_none {q : Query K V} {s : St K V} {parts : List (List (List (Row K V)))} {e : Ending} (h : (s.run q parts e).2 = none)
    (he : e = .ok ∨ e = .persisting ∨ ∃ n, e = .reading n) :
    (s.run q parts e).1.uncommitted = s.uncommitted ∧ (s.run q parts e).1.committed = s.committed := by
  obtain ⟨h1, h2, h3, h4⟩ := offerAll_keeps q s
  rw [St.run] at h ⊢
  simp only at h ⊢
  by_cases ha : (s.offerAll q).avail.entries.isEmpty = true
  · rw [if_pos ha]; exact ⟨h3, h2⟩
  · rw [if_neg ha] at h ⊢
    rcases he with rfl | rfl | ⟨n, rfl⟩
    · simp only [reduceCtorEq, if_false] at h
      split at h <;> cases h
    · simp only [if_true] at h
      split at h <;> cases h
    · exact ⟨h3, h2⟩

theorem Sys.Sums.step {q : Query K V} {k : K} {s : Sys K V} (h : s.Sums k) {op : Op K V} (hc : Calm q k s op) : (s.step q op).Sums k := by
  cases op with
  | write rows => exact ⟨h.left, h.states, h.out, h.keys⟩
  | restart => exact hc.elim
  | run parts e =>
    obtain ⟨e1, _, e3, e4⟩ := run_read q s parts e
    cases ho : (s.st.run q parts e).2 with
    | none =>
      obtain ⟨h1, h2⟩ := run_none ho hc.1
      rw [ho] at e3 e4
      simp only [Option.isSome_none, Bool.false_eq_true, if_false, List.append_nil, Option.getD_none] at e3 e4
      exact ⟨by rw [e1, h1, h.left], by rw [e1, h2, e3]; exact h.states, by rw [e4, e3]; exact h.out, by rw [e4]; exact h.keys⟩
    | some out =>
      obtain ⟨h0, h1, h2⟩ := run_some ho
      rw [ho] at e3 e4
      simp only [Option.isSome_some, if_true, Option.getD_some] at e3 e4
      have hout : (vals k out).Perm (rowsOf k (s.read ++ parts.flatten.flatten)) := by
        rw [h0, vals_filter hc.2, rowsOf_append]
        exact (vals_merged k _ _).trans (List.Perm.append_right _ h.states)
      refine ⟨by rw [e1, h1], ?_, by rw [e4, e3]; exact hout, ?_⟩
      · rw [e1, h2, e3, h.left, List.nil_append, vals_filter]
        · exact hout
        · intro vs
          rw [expired_eq, hc.2 vs]; rfl
      · rw [e4, h0]
        exact (keys_merged _ _).sublist (List.Sublist.map _ List.filter_sublist)

theorem Sys.Sums.steps {q : Query K V} {k : K} {s : Sys K V} (h : s.Sums k) {ops : List (Op K V)} (hl : Along q (Calm q k) s ops) :
    (s.steps q ops).Sums k := by
  induction ops generalizing s with
  | nil => exact h
  | cons op ops ih => exact ih (h.step hl.1) hl.2

theorem Sys.Sums.new (k : K) : (Sys.new : Sys K V).Sums k := ⟨rfl, .nil, .nil, .nil⟩

/-- Property C144, partial: if no run fails behind the first state that it writes, there is no restart, and a group is never late,
then the last result has the group once, with the values of all rows that were read. -/
theorem C144_sums_partial {q : Query K V} {k : K} {ops : List (Op K V)} (hl : Along q (Calm q k) .new ops) :
    (vals k ((Sys.new : Sys K V).steps q ops).out).Perm (rowsOf k ((Sys.new : Sys K V).steps q ops).read) ∧
    (((Sys.new : Sys K V).steps q ops).out.map Prod.fst).Nodup :=
  ⟨((Sys.Sums.new k).steps hl).out, ((Sys.Sums.new k).steps hl).keys⟩

theorem Along.imp {q : Query K V} {P Q : Sys K V → Op K V → Prop} (h : ∀ s op, P s op → Q s op) {s : Sys K V} {ops : List (Op K V)}
    (hl : Along q P s ops) : Along q Q s ops := by
  induction ops generalizing s with
  | nil => trivial
  | cons op ops ih => exact ⟨h _ _ hl.1, ih hl.2⟩

/-- Property C144, partial: with the conditions of `C142_once_partial`, and no column of type timestamp in the states, the result
behind a run is that of the query over the table. -/
theorem C144_table_partial {q : Query K V} (hq : Plain q) (hc : q.cols = []) {ops : List (Op K V)}
    {parts : List (List (List (Row K V)))} {e : Ending}
    (hl : Along q (fun s op => op.Fits q s ∧ InOrder s op ∧ Sorted s op) .new (ops ++ [.run parts e])) (k : K) :
    (vals k ((Sys.new : Sys K V).steps q (ops ++ [.run parts e])).out).Perm
      (rowsOf k ((Sys.new : Sys K V).steps q (ops ++ [.run parts e])).table) := by
  refine (C144_sums_partial (k := k) (hl.imp ?_)).1.trans (rowsOf_perm (C142_once_partial hq hl))
  rintro s op ⟨_, _, h⟩
  cases op with
  | write rows => trivial
  | restart => exact h.elim
  | run parts e => exact ⟨.inl h.1, fun vs => by simp [Query.keeps, hc]⟩

/-! ## Restarts -/

/-- Property C146, partial: if there is no column of type timestamp in the states, the first result behind a restart is that of
the query over the table, whatever was before (rows at the last instant of all are never read). -/
theorem C146_result_partial {q : Query K V} (hq : Plain q) (hc : q.cols = []) (s : Sys K V) {parts : List (List (List (Row K V)))}
    (ht : ∀ r ∈ s.table, r.src = 0 ∧ r.time < maxOffset) (hf : (Op.run parts .ok).Fits q (s.step q .restart)) (k : K) :
    (vals k ((s.step q .restart).step q (.run parts .ok)).out).Perm (rowsOf k s.table) := by
  have hok : (s.step q .restart).st.Ok := ⟨(by intro d h; cases h), (by intro k v h; cases h)⟩
  have hf : parts.flatten.flatten.Perm ((s.step q .restart).st.reads q s.table) := hf
  have hreads : (s.step q .restart).st.reads q s.table = s.table := by
    rw [St.reads, List.filter_eq_self]
    intro r hr
    obtain ⟨h0, h1⟩ := ht r hr
    rw [offerAll_eq hq hok]
    simp only [St.wants, h0, avail_set hok, if_pos, hq.2, St.start]
    simpa [Sys.step, St.restart, St.new] using h1
  rw [hreads] at hf
  have hsome : ((s.step q .restart).st.run q parts .ok).2.isSome := by
    rw [run_eq hq hok]
    simp only
    split <;> rfl
  obtain ⟨out, ho⟩ := Option.isSome_iff_exists.1 hsome
  obtain ⟨_, _, _, e4⟩ := run_read q (s.step q .restart) parts .ok
  obtain ⟨h0, _, _⟩ := run_some ho
  rw [e4, ho, Option.getD_some, h0, vals_filter (by intro vs; simp [Query.keeps, hc])]
  refine (vals_merged k _ _).trans ?_
  exact rowsOf_perm hf

/-- A run ends well. -/
def Fine : Op K V → Prop
  | .run _ e => e = .ok
  | _ => True

/-- Property C146, partial: if all runs end well, a restart does not change the watermark. -/
theorem C146_mark_partial {q : Query K V} {ops : List (Op K V)} (hl : ∀ op ∈ ops, Fine op) :
    ((Sys.new : Sys K V).steps q ops).st.restart.mark = ((Sys.new : Sys K V).steps q ops).st.mark := by
  suffices H : ∀ s : Sys K V, s.st.saved.getD minOffset = s.st.mark → (s.steps q ops).st.saved.getD minOffset = (s.steps q ops).st.mark from
    H _ rfl
  induction ops with
  | nil => exact fun s h => h
  | cons op ops ih =>
    intro s h
    refine ih (fun op h => hl op (by simp [h])) _ ?_
    have hop := hl op (by simp)
    cases op with
    | write rows => exact h
    | restart => rfl
    | run parts e =>
      have hop : e = .ok := hop
      subst hop
      obtain ⟨e1, _⟩ := run_read q s parts .ok
      obtain ⟨h1, _, _, h4⟩ := offerAll_keeps q s.st
      rw [e1, St.run]
      simp only
      split
      · rw [h1, h4]; exact h
      · simp only [reduceCtorEq, if_false]
        split
        · rfl
        · simp only [St.save]; rw [h1, h4]; exact h

/-! ## The store and the table of watermarks -/

/-- Property C147, partial: what is left in the store is what does not match, in the same order. -/
theorem C147_left_partial (p : Group K V → Bool) (l : List (Group K V)) :
    (expire p l).1.Sublist l ∧ ∀ g, g ∈ (expire p l).1 ↔ g ∈ l ∧ p g = false :=
  ⟨List.filter_sublist, fun g => by simp [expire]⟩

/-- Property C147 does not hold: nothing is ever returned. -/
theorem C147_nothing_refuted (p : Group K V → Bool) (l : List (Group K V)) : (expire p l).2 = [] := by
  simp only [expire, List.filter_filter, List.filter_eq_nil_iff]
  intro g _
  cases p g <;> simp

/-- The commits of queries, one behind the other. -/
def commits (m : Marks) (l : List Tracker) : Marks := l.foldl (fun m t => t.commit m) m

/-- Property C148, partial: if no two queries have the same time of creation, a query that is created again has the watermark
of its last commit, and goes on to write the same row. -/
theorem C148_partial {l : List Tracker} {t : Tracker} {r : List Tracker} (hsame : ∀ x ∈ l ++ t :: r, x.id = t.id → x.stamp = t.stamp)
    (hother : ∀ x ∈ l ++ t :: r, x.stamp = t.stamp → x.id = t.id) (hlast : ∀ x ∈ r, x.id ≠ t.id) (now : Int) :
    Tracker.restore (commits .empty (l ++ t :: r)) t.id now = t := by
  have hget : ∀ l' : List Tracker, (∀ x ∈ l', x.stamp ≠ t.stamp) → ∀ m : Marks, (commits m l').get t.stamp = m.get t.stamp := by
    intro l' hl'
    induction l' with
    | nil => exact fun m => rfl
    | cons x l' ih =>
      intro m
      refine (ih (fun y hy => hl' y (by simp [hy])) _).trans ?_
      simp only [Tracker.commit]
      rw [ AMap.get_set, if_neg (fun h => hl' x (by simp) h.symm)]
  have hvals : ∀ (l' : List Tracker) (m : Marks) s v, (commits m l').get s = some v → m.get s = some v ∨ ∃ x ∈ l', x.stamp = s ∧ v = (x.id, x.mark) := by
    intro l'
    induction l' with
    | nil => exact fun m s v h => .inl h
    | cons x l' ih =>
      intro m s v h
      rcases ih _ s v h with h | ⟨y, hy, h⟩
      · simp only [Tracker.commit] at h
        rw [AMap.get_set] at h
        split at h
        · rename_i hs
          exact .inr ⟨x, by simp, hs.symm, (Option.some.inj h).symm⟩
        · exact .inl h
      · exact .inr ⟨y, by simp [hy], h⟩
  have hmine : (commits .empty (l ++ t :: r)).get t.stamp = some (t.id, t.mark) := by
    have : commits .empty (l ++ t :: r) = commits (t.commit (commits .empty l)) r := by simp [commits]
    rw [this, hget r fun x hx h => hlast x hx (hother x (by simp [hx]) h), Tracker.commit, AMap.get_set, if_pos rfl]
  have hme := AMap.mem_entries.2 hmine
  rw [Tracker.restore]
  cases hf : (commits .empty (l ++ t :: r)).entries.find? fun e => decide (e.2.1 = t.id) with
  | none => exact absurd (List.find?_eq_none.1 hf _ hme) (by simp)
  | some e =>
    have h1 := List.mem_of_find?_eq_some hf
    have h2 : e.2.1 = t.id := by simpa using List.find?_some hf
    obtain ⟨s, i, m⟩ := e
    have h3 := AMap.mem_entries.1 h1
    rcases hvals _ _ _ _ h3 with h | ⟨x, hx, hs, hv⟩
    · cases h
    · simp only at h2
      have hxi : x.id = t.id := by rw [← h2]; exact (Prod.mk.inj hv).1.symm
      have := hsame x hx hxi
      rw [← hs, this, hmine] at h3
      obtain ⟨h4, h5⟩ := Prod.mk.inj (Option.some.inj h3)
      simp only [← hs, this, ← h5]

end Verif.Stream
