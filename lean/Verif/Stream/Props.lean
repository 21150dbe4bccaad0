import Verif.Stream.Model
/-!
# Properties of stream queries
-/
namespace Verif.Stream
variable {K V : Type} [DecidableEq K]

/-! ## The watermark -/

theorem maxTime_mem {l : List (Row K V)} {t : Int} (h : maxTime l = some t) : ∃ r ∈ l, r.time = t := by
  induction l generalizing t with
  | nil => cases h
  | cons r l ih =>
    rw [maxTime] at h
    cases hm : maxTime l with
    | none => rw [hm] at h; exact ⟨r, by simp, Option.some.inj h⟩
    | some u =>
      rw [hm] at h
      obtain rfl := Option.some.inj h
      obtain ⟨x, hx, hu⟩ := ih hm
      by_cases hr : r.time ≤ u
      · exact ⟨x, by simp [hx], by omega⟩
      · exact ⟨r, by simp, by omega⟩

theorem partMark_mem {bs : List (List (Row K V))} {t : Int} (h : partMark bs = some t) : ∃ r ∈ bs.flatten, r.time = t := by
  suffices H : ∀ (m : Option Int), bs.foldl (fun m b => (maxTime b).or m) m = some t → m = some t ∨ ∃ r ∈ bs.flatten, r.time = t by
    rcases H none h with h | h
    · cases h
    · exact h
  clear h
  induction bs with
  | nil => intro m h; exact .inl h
  | cons b bs ih =>
    intro m h
    rcases ih _ h with h | ⟨r, hr, ht⟩
    · simp only at h
      cases hb : maxTime b with
      | none => rw [hb] at h; exact .inl h
      | some u =>
        rw [hb] at h
        obtain rfl := Option.some.inj h
        obtain ⟨r, hr, ht⟩ := maxTime_mem hb
        exact .inr ⟨r, by simp [hr], ht⟩
    · exact .inr ⟨r, by simp only [List.flatten_cons, List.mem_append]; exact .inr hr, ht⟩

/-- The watermark is what it was, or the time of a row that was read. -/
theorem markAfter_mem (m : Int) (parts : List (List (List (Row K V)))) :
    markAfter m parts = m ∨ ∃ r ∈ parts.flatten.flatten, r.time = markAfter m parts := by
  induction parts generalizing m with
  | nil => exact .inl rfl
  | cons p ps ih =>
    have hstep : markAfter m (p :: ps) = markAfter ((partMark p).getD m) ps := rfl
    rw [hstep]
    rcases ih ((partMark p).getD m) with h | ⟨r, hr, ht⟩
    · rw [h]
      cases hp : partMark p with
      | none => exact .inl rfl
      | some t =>
        obtain ⟨r, hr, ht⟩ := partMark_mem hp
        exact .inr ⟨r, by simp only [List.flatten_cons, List.flatten_append, List.mem_append]; exact .inl hr, ht⟩
    · exact .inr ⟨r, by simp only [List.flatten_cons, List.flatten_append, List.mem_append]; exact .inr hr, ht⟩

/-! ## One source in nanoseconds -/

/-- A query with one source, whose event time is in nanoseconds. -/
def Plain (q : Query K V) : Prop := q.srcs = [0] ∧ q.unit 0 = 1

/-- The offsets of a query with one source. -/
structure St.Ok (s : St K V) : Prop where
  done : ∀ d, s.done.get 0 = some d → d < maxOffset
  avail : ∀ k v, s.avail.get k = some v → k = 0 ∧ v = maxOffset

theorem St.Ok.new : (St.new : St K V).Ok := ⟨(by intro d h; cases h), (by intro k v h; cases h)⟩

theorem offerAll_eq {q : Query K V} (hq : Plain q) {s : St K V} (h : s.Ok) :
    s.offerAll q = { s with avail := s.avail.set 0 maxOffset } := by
  have hlt : maxOffset > (s.done.get 0).getD minOffset := by
    cases hd : s.done.get 0 with
    | none => simp only [Option.getD_none]; decide
    | some d => have := h.done d hd; simp only [Option.getD_some]; omega
  rw [St.offerAll, hq.1, List.foldl_cons, List.foldl_nil, St.offer, if_pos hlt]

/-- Behind the offer: all of the source is available. -/
theorem avail_set {s : St K V} (h : s.Ok) (k : Nat) : (s.avail.set 0 maxOffset).get k = if k = 0 then some maxOffset else none := by
  rw [AMap.get_set]
  split
  · rfl
  · rename_i hk
    cases hg : s.avail.get k with
    | none => rfl
    | some v => exact absurd (h.avail k v hg).1 hk

theorem reads_iff {q : Query K V} (hq : Plain q) {s : St K V} (h : s.Ok) {table : List (Row K V)} (ht : ∀ r ∈ table, r.src = 0)
    (r : Row K V) : r ∈ s.reads q table ↔ r ∈ table ∧ r.time < maxOffset ∧ ∀ d, s.done.get 0 = some d → d < r.time := by
  rw [St.reads, List.mem_filter, offerAll_eq hq h]
  refine and_congr_right fun hr => ?_
  have h0 := ht r hr
  simp only [St.wants, h0, avail_set h, if_pos, hq.2, St.start]
  cases hd : s.done.get 0 with
  | none => simp
  | some d => simp; omega

theorem entries_ne {s : St K V} (h : s.Ok) : (s.avail.set 0 maxOffset).entries.isEmpty = false := by
  have hg := avail_set h 0
  rw [if_pos rfl, ← AMap.mem_entries] at hg
  cases he : (s.avail.set 0 maxOffset).entries with
  | nil => rw [he] at hg; cases hg
  | cons a l => rfl

/-- What a commit does. -/
theorem commit_done {s : St K V} (h : s.Ok) {m : Int} (hm : m < maxOffset) :
    ({ s with avail := s.avail.set 0 maxOffset }.commit m).done.get 0 = some m := by
  simp only [St.commit]
  refine (AMap.get_foldl_set_iff _ _ _ _ _ _ ?_).2 (.inl ⟨(0, maxOffset), ?_, rfl, ?_⟩)
  · exact (s.avail.set 0 maxOffset).nodup
  · exact AMap.mem_entries.2 (by rw [avail_set h, if_pos rfl])
  · simp only; omega

/-- The steps of a run, written out for one source. -/
theorem run_eq {q : Query K V} (hq : Plain q) {s : St K V} (h : s.Ok) (parts : List (List (List (Row K V)))) (e : Ending) :
    s.run q parts e =
      let t := { s with avail := s.avail.set 0 maxOffset }
      let rows := parts.flatten.flatten
      match e with
      | .reading n => ({ t with mark := markAfter s.mark (parts.take n) }, none)
      | .saving n =>
        ({ t with uncommitted := s.uncommitted ++ ((merged s.committed rows).filter (q.keeps s.mark)).take n, mark := markAfter s.mark parts }, none)
      | .writing => ({ (t.save q rows).1 with mark := markAfter s.mark parts }, none)
      | e =>
        if markAfter s.mark parts > s.mark then
          let u := { (t.save q rows).1 with mark := markAfter s.mark parts }.commit (markAfter s.mark parts)
          if e = .persisting then (u, some (t.save q rows).2) else ({ u with saved := some (markAfter s.mark parts) }, some (t.save q rows).2)
        else ((t.save q rows).1, some (t.save q rows).2) := by
  rw [St.run, offerAll_eq hq h]
  simp only [entries_ne h]
  rfl

theorem run_ok {q : Query K V} (hq : Plain q) {s : St K V} (h : s.Ok) {table : List (Row K V)} {parts : List (List (List (Row K V)))}
    (hlt : ∀ r ∈ parts.flatten.flatten, r.time < maxOffset) (e : Ending) : (s.run q parts e).1.Ok := by
  have havail : ∀ k v, (s.avail.set 0 maxOffset).get k = some v → k = 0 ∧ v = maxOffset := by
    intro k v hg
    rw [avail_set h] at hg
    split at hg
    · rename_i hk; exact ⟨hk, (Option.some.inj hg).symm⟩
    · cases hg
  have hcommit : ∀ (u : St K V), u.avail = .empty →
      u.done = (s.avail.set 0 maxOffset).entries.foldl (fun d e => d.set e.1 (min (markAfter s.mark parts) e.2)) s.done →
      markAfter s.mark parts > s.mark → u.Ok := by
    intro u hu hd hm
    have hmax : markAfter s.mark parts < maxOffset := by
      rcases markAfter_mem s.mark parts with h1 | ⟨r, hr, h1⟩
      · omega
      · rw [← h1]; exact hlt r hr
    refine ⟨fun d h1 => ?_, fun k v h1 => by rw [hu] at h1; cases h1⟩
    have h2 := commit_done h hmax
    simp only [St.commit] at h2
    rw [hd, h2] at h1
    cases h1; exact hmax
  rw [run_eq hq h]
  cases e with
  | reading n => exact ⟨h.done, havail⟩
  | saving n => exact ⟨h.done, havail⟩
  | writing => exact ⟨h.done, havail⟩
  | ok =>
    simp only
    split
    · rename_i hm; exact hcommit _ rfl rfl hm
    · exact ⟨h.done, havail⟩
  | persisting =>
    simp only
    split
    · rename_i hm; exact hcommit _ rfl rfl hm
    · exact ⟨h.done, havail⟩

/-- How a run moves the mark of what is done: not at all, or, with a result, to the new watermark. -/
theorem run_done {q : Query K V} (hq : Plain q) {s : St K V} (h : s.Ok) {parts : List (List (List (Row K V)))}
    (hlt : ∀ r ∈ parts.flatten.flatten, r.time < maxOffset) (e : Ending) :
    (s.run q parts e).1.done.get 0 = s.done.get 0 ∨
      ((s.run q parts e).2.isSome ∧ markAfter s.mark parts > s.mark ∧ (s.run q parts e).1.done.get 0 = some (markAfter s.mark parts)) := by
  have hcommit : ∀ (u : St K V),
      u.done = (s.avail.set 0 maxOffset).entries.foldl (fun d e => d.set e.1 (min (markAfter s.mark parts) e.2)) s.done →
      markAfter s.mark parts > s.mark → u.done.get 0 = some (markAfter s.mark parts) := by
    intro u hd hm
    have hmax : markAfter s.mark parts < maxOffset := by
      rcases markAfter_mem s.mark parts with h1 | ⟨r, hr, h1⟩
      · omega
      · rw [← h1]; exact hlt r hr
    have h2 := commit_done h hmax
    simp only [St.commit] at h2
    rw [hd, h2]
  rw [run_eq hq h]
  cases e with
  | reading n => exact .inl rfl
  | saving n => exact .inl rfl
  | writing => exact .inl rfl
  | ok =>
    simp only
    split
    · rename_i hm; exact .inr ⟨rfl, hm, hcommit _ rfl hm⟩
    · exact .inl rfl
  | persisting =>
    simp only
    split
    · rename_i hm; exact .inr ⟨rfl, hm, hcommit _ rfl hm⟩
    · exact .inl rfl

/-! ## No row is passed over -/

/-- The rows of a write come before the query is done with their time. -/
def InTime (s : Sys K V) : Op K V → Prop
  | .write rows => ∀ r ∈ rows, r.src = 0 ∧ r.time < maxOffset ∧ ∀ d, s.st.done.get 0 = some d → d < r.time
  | _ => True

/-- What holds between the steps. -/
structure Sys.Inv (s : Sys K V) : Prop where
  st : s.st.Ok
  table : ∀ r ∈ s.table, r.src = 0 ∧ r.time < maxOffset
  open_ : ∀ r ∈ s.table, r ∈ s.read ∨ ∀ d, s.st.done.get 0 = some d → d < r.time

theorem Sys.Inv.new : (Sys.new : Sys K V).Inv :=
  ⟨.new, (fun r h => by cases h), (fun r h => by cases h)⟩

theorem run_read (q : Query K V) (s : Sys K V) (parts : List (List (List (Row K V)))) (e : Ending) :
    (s.step q (.run parts e)).st = (s.st.run q parts e).1 ∧ (s.step q (.run parts e)).table = s.table ∧
    (s.step q (.run parts e)).read = s.read ++ (if (s.st.run q parts e).2.isSome then parts.flatten.flatten else []) ∧
    (s.step q (.run parts e)).out = ((s.st.run q parts e).2).getD s.out := by
  rw [Sys.step]
  rcases hr : s.st.run q parts e with ⟨t, o⟩
  cases o with
  | none => simp
  | some o => simp

theorem Sys.Inv.step {q : Query K V} (hq : Plain q) {s : Sys K V} (h : s.Inv) {op : Op K V} (hf : op.Fits q s) (hi : InTime s op) :
    (s.step q op).Inv := by
  cases op with
  | write rows =>
    refine ⟨h.st, fun r hr => ?_, fun r hr => ?_⟩
    · rcases List.mem_append.1 hr with hr | hr
      · exact h.table r hr
      · exact ⟨(hi r hr).1, (hi r hr).2.1⟩
    · rcases List.mem_append.1 hr with hr | hr
      · exact h.open_ r hr
      · exact .inr (hi r hr).2.2
  | restart => exact ⟨⟨(by intro d h; cases h), (by intro k v h; cases h)⟩, h.table, fun r hr => .inr (by intro d h; cases h)⟩
  | run parts e =>
    have hf : parts.flatten.flatten.Perm (s.st.reads q s.table) := hf
    have hmem := fun r => (hf.mem_iff (a := r)).trans (reads_iff hq h.st (fun r hr => (h.table r hr).1) r)
    have hlt : ∀ r ∈ parts.flatten.flatten, r.time < maxOffset := fun r hr => ((hmem r).1 hr).2.1
    obtain ⟨e1, e2, e3, _⟩ := run_read q s parts e
    refine ⟨by rw [e1]; exact run_ok hq h.st (table := s.table) hlt e, by rw [e2]; exact h.table, fun r hr => ?_⟩
    rw [e2] at hr
    rw [e1, e3, List.mem_append]
    rcases h.open_ r hr with h1 | h1
    · exact .inl (.inl h1)
    · rcases run_done hq h.st hlt e with h2 | ⟨h2, _, _⟩
      · rw [h2]; exact .inr h1
      · rw [if_pos h2]
        exact .inl (.inr ((hmem r).2 ⟨hr, (h.table r hr).2, h1⟩))

theorem Sys.Inv.steps {q : Query K V} (hq : Plain q) {s : Sys K V} (h : s.Inv) {ops : List (Op K V)}
    (hl : Along q (fun s op => op.Fits q s ∧ InTime s op) s ops) : (s.steps q ops).Inv := by
  induction ops generalizing s with
  | nil => exact h
  | cons op ops ih => exact ih (h.step hq hl.1.1 hl.1.2) hl.2

/-- Property C143, partial: if the query has one source in nanoseconds, and rows come before the query is done with their time,
then behind a run that ends well every row has been read, however many runs failed before and however the rows were spread. -/
theorem C143_in_time_partial {q : Query K V} (hq : Plain q) {ops : List (Op K V)} {parts : List (List (List (Row K V)))}
    (hl : Along q (fun s op => op.Fits q s ∧ InTime s op) .new ops)
    (hp : parts.flatten.flatten.Perm (((Sys.new : Sys K V).steps q ops).st.reads q ((Sys.new : Sys K V).steps q ops).table)) :
    ∀ r ∈ ((Sys.new : Sys K V).steps q ops).table, r ∈ (((Sys.new : Sys K V).steps q ops).step q (.run parts .ok)).read := by
  have h := Sys.Inv.new.steps hq hl
  intro r hr
  obtain ⟨_, _, e3, _⟩ := run_read q ((Sys.new : Sys K V).steps q ops) parts .ok
  have hs : (((Sys.new : Sys K V).steps q ops).st.run q parts .ok).2.isSome := by
    rw [run_eq hq h.st]
    simp only
    split <;> rfl
  rw [e3, if_pos hs, List.mem_append]
  rcases h.open_ r hr with h1 | h1
  · exact .inl h1
  · exact .inr (hp.mem_iff.2 ((reads_iff hq h.st (fun r hr => (h.table r hr).1) r).2 ⟨hr, (h.table r hr).2, h1⟩))

end Verif.Stream
