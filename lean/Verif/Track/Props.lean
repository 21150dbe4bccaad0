import Verif.Track.Model
/-!
# Queries of a node: slots, KILL, resumption (C178 to C181)
-/
namespace Verif.Track

/-! ## C178: the slots -/

theorem length_del {ν : Type} (m : AMap Nat ν) (k : Nat) : (m.del k).entries.length ≤ m.entries.length := by
  simp only [AMap.del]; exact List.length_filter_le _ _

theorem length_set {ν : Type} (m : AMap Nat ν) (k : Nat) (v : ν) : (m.set k v).entries.length ≤ m.entries.length + 1 := by
  simp only [AMap.set, List.length_cons]
  have := length_del m k
  omega

/-- The number of tracked queries is within the limit. -/
def Fits (s : State) : Prop := s.queries.entries.length ≤ s.limit

theorem expire_fits {s : State} (h : Fits s) (id : Nat) (gone : Bool) : Fits (s.expire id gone).1 ∧ (s.expire id gone).1.limit = s.limit := by
  rw [State.expire]
  split
  · exact ⟨h, rfl⟩
  · exact ⟨Nat.le_trans (length_del _ _) h, rfl⟩

theorem track_fits {s : State} (h : Fits s) (q : Info) (saved : Bool) : Fits (s.track q saved).1 ∧ (s.track q saved).1.limit = s.limit := by
  rw [State.track]
  split
  · exact ⟨h, rfl⟩
  · rename_i hl
    have := length_set s.queries q.id q
    split
    · exact ⟨Nat.le_trans this (Nat.lt_of_not_le hl), rfl⟩
    · exact ⟨Nat.le_trans this (Nat.lt_of_not_le hl), rfl⟩

theorem started_fits {s : State} (h : Fits s) (id : Nat) (out : Out) : Fits (s.started id out) ∧ (s.started id out).limit = s.limit := by
  have hd := expire_fits (s := { s with alive := s.alive.del id }) h id true
  cases ha : s.alive.get id with
  | none => simp only [State.started, ha]; exact ⟨h, trivial⟩
  | some p =>
    cases p with
    | reading => simp only [State.started, ha]; exact ⟨h, trivial⟩
    | job => simp only [State.started, ha]; exact ⟨h, trivial⟩
    | starting b =>
      cases b with
      | true => cases out <;> simp only [State.started, ha] <;> exact ⟨h, trivial⟩
      | false =>
        cases out with
        | data => simp only [State.started, ha]; exact ⟨h, trivial⟩
        | nil => simp only [State.started, ha]; exact hd
        | err => simp only [State.started, ha]; exact hd

theorem finish_fits {s : State} (h : Fits s) (id : Nat) : Fits (s.finish id) ∧ (s.finish id).limit = s.limit := by
  rw [State.finish]
  split
  · exact expire_fits (s := { s with alive := s.alive.del id }) h id true
  · exact ⟨h, rfl⟩

theorem kill_fits {s : State} (h : Fits s) (id : Nat) (gone : Bool) : Fits (s.kill id gone).1 ∧ (s.kill id gone).1.limit = s.limit := by
  have he := expire_fits h id gone
  rw [State.kill]
  split
  · rename_i s' heq; rw [heq] at he; exact he
  · rename_i s' q heq
    rw [heq] at he
    repeat' split
    all_goals exact he

theorem resume_fits {s : State} (h : Fits s) (ok : Nat → Bool) (q : Info) : Fits (s.resume ok q) ∧ (s.resume ok q).limit = s.limit := by
  rw [State.resume]
  have ht := track_fits h q true
  split
  · split
    · rename_i s' heq
      rw [heq] at ht
      have := started_fits ht.1 q.id .data
      exact ⟨this.1, this.2.trans ht.2⟩
    · rename_i s' heq; rw [heq] at ht; exact ht
  · exact ⟨h, rfl⟩

theorem resumeList_fits (ok : Nat → Bool) (l : List Info) {s : State} (h : Fits s) :
    Fits (l.foldl (State.resume ok) s) ∧ (l.foldl (State.resume ok) s).limit = s.limit := by
  induction l generalizing s with
  | nil => exact ⟨h, rfl⟩
  | cons q l ih =>
    have h1 := resume_fits h ok q
    have h2 := ih h1.1
    exact ⟨h2.1, h2.2.trans h1.2⟩

theorem step_fits {s : State} (h : Fits s) (e : Ev) : Fits (s.step e) ∧ (s.step e).limit = s.limit := by
  cases e with
  | track q saved => exact track_fits h q saved
  | started id out => exact started_fits h id out
  | finish id => exact finish_fits h id
  | abandon id =>
    simp only [State.step, State.abandon]
    split
    · exact ⟨h, rfl⟩
    · exact finish_fits h id
  | kill q id gone =>
    simp only [State.step, State.killStmt]
    have ht := track_fits h { q with stream := false } true
    split
    · rename_i s' heq; rw [heq] at ht; exact ht
    · rename_i s' heq
      rw [heq] at ht
      have h1 := kill_fits ht.1 id gone
      have h2 := started_fits h1.1 q.id .nil
      exact ⟨h2.1, h2.2.trans (h1.2.trans ht.2)⟩
  | restart ok => exact resumeList_fits ok _ (s := { s with queries := .empty, alive := .empty }) (Nat.zero_le _)
  | takeover d ok => exact resumeList_fits ok _ h

/-- **C178, slots.**  Never are more queries tracked than the limit allows, whatever happens. -/
theorem C178_slots (node limit : Nat) (es : List Ev) : ((State.init node limit).run es).queries.entries.length ≤ limit := by
  have main : ∀ (es : List Ev) (s : State), Fits s → Fits (s.run es) ∧ (s.run es).limit = s.limit := by
    intro es
    induction es with
    | nil => intro s h; exact ⟨h, rfl⟩
    | cons e es ih =>
      intro s h
      have h1 := step_fits h e
      have h2 := ih (s.step e) h1.1
      exact ⟨h2.1, h2.2.trans h1.2⟩
  have := main es (State.init node limit) (Nat.zero_le _)
  have h1 : Fits _ := this.1
  rw [Fits, this.2] at h1
  exact h1

/-- The tracked queries are those that are worked on. -/
def Exact (s : State) : Prop := ∀ id, (s.queries.get id).isSome = (s.alive.get id).isSome

theorem expire_get (s : State) (id x : Nat) (gone : Bool) :
    (s.expire id gone).1.queries.get x = if x = id then none else s.queries.get x := by
  rw [State.expire]
  split
  · rename_i h
    split
    · rename_i hx; rw [hx, h]
    · rfl
  · rw [AMap.get_del]

theorem expire_alive (s : State) (id : Nat) (gone : Bool) : (s.expire id gone).1.alive = s.alive := by
  rw [State.expire]; split <;> rfl

theorem exact_drop {s : State} (h : Exact s) (id : Nat) (gone : Bool) : Exact ({ s with alive := s.alive.del id }.expire id gone).1 := by
  intro x
  rw [expire_get, expire_alive]
  simp only [AMap.get_del]
  split
  · rfl
  · exact h x

/-- What is excluded: a query that cannot be stored, a stream that cannot be started, a request that goes away inside of `start`, and KILL
of a query whose result is being read or of a stream that is starting. -/
def Tame (s : State) : Ev → Prop
  | .track q saved => q.stream = true → saved = true
  | .started id out => s.alive.get id = some (.starting true) → out ≠ .err
  | .abandon id => ∀ b, s.alive.get id ≠ some (.starting b)
  | .kill q id _ => id ≠ q.id ∧ s.alive.get id ≠ some .reading ∧ s.alive.get id ≠ some (.starting true)
  | _ => True

theorem track_exact {s : State} (h : Exact s) (q : Info) (saved : Bool) (hq : q.stream = true → saved = true) : Exact (s.track q saved).1 := by
  rw [State.track]
  split
  · exact h
  · split
    · rename_i hh
      simp only [Bool.and_eq_true, Bool.not_eq_true'] at hh
      rw [hq hh.1] at hh
      cases hh.2
    · intro x
      simp only [AMap.get_set]
      split
      · rfl
      · exact h x

theorem started_exact {s : State} (h : Exact s) (id : Nat) (out : Out) (ho : s.alive.get id = some (.starting true) → out ≠ .err) :
    Exact (s.started id out) := by
  have set : ∀ p, (s.alive.get id).isSome = true → Exact { s with alive := s.alive.set id p } := by
    intro p hp x
    simp only [AMap.get_set]
    split
    · rename_i hx; rw [hx, h id, hp]; rfl
    · exact h x
  cases ha : s.alive.get id with
  | none => simp only [State.started, ha]; exact h
  | some p =>
    cases p with
    | reading => simp only [State.started, ha]; exact h
    | job => simp only [State.started, ha]; exact h
    | starting b =>
      cases b with
      | true =>
        cases out with
        | err => exact absurd rfl (ho ha)
        | data => simp only [State.started, ha]; exact set _ (by rw [ha]; rfl)
        | nil => simp only [State.started, ha]; exact set _ (by rw [ha]; rfl)
      | false =>
        cases out with
        | data => simp only [State.started, ha]; exact set _ (by rw [ha]; rfl)
        | nil => simp only [State.started, ha]; exact exact_drop h id true
        | err => simp only [State.started, ha]; exact exact_drop h id true

theorem finish_exact {s : State} (h : Exact s) (id : Nat) : Exact (s.finish id) := by
  rw [State.finish]
  split
  · exact exact_drop h id true
  · exact h

theorem kill_exact {s : State} (h : Exact s) (id : Nat) (gone : Bool) (h1 : s.alive.get id ≠ some .reading)
    (h2 : s.alive.get id ≠ some (.starting true)) : Exact (s.kill id gone).1 := by
  have hq := expire_get s id
  have ha := expire_alive s id gone
  rw [State.kill]
  split
  · rename_i s' heq
    intro x
    have hqx := hq x gone
    rw [heq] at hqx ha
    have hn : s.queries.get id = none := by
      rw [State.expire] at heq
      split at heq
      · rename_i hh; exact hh
      · simp at heq
    simp only at hqx ha
    rw [hqx, ha]
    split
    · rename_i hx; rw [hx, ← h id, hn]
    · exact h x
  · rename_i s' q heq
    rw [heq] at ha
    simp only at ha
    have hqx : ∀ x, s'.queries.get x = if x = id then none else s.queries.get x := by
      intro x
      have := hq x gone
      rw [heq] at this
      exact this
    have fin : Exact { s' with alive := s'.alive.del id } := by
      intro x
      simp only [AMap.get_del, hqx x, ha]
      split
      · rfl
      · exact h x
    rw [ha]
    split
    · rw [← ha]; exact fin
    · rw [← ha]; exact fin
    · rename_i hne1 hne2
      have hnone : s.alive.get id = none := by
        cases hx : s.alive.get id with
        | none => rfl
        | some p =>
          cases p with
          | reading => exact absurd hx h1
          | job => exact absurd hx hne2
          | starting b =>
            cases b with
            | true => exact absurd hx h2
            | false => exact absurd hx hne1
      intro x
      rw [hqx x, ha]
      split
      · rename_i hx; rw [hx, hnone]; rfl
      · exact h x

theorem track_alive_ne {s : State} (q : Info) (saved : Bool) {id : Nat} (h : id ≠ q.id) : (s.track q saved).1.alive.get id = s.alive.get id := by
  rw [State.track]
  repeat' split
  all_goals simp only [AMap.get_set, if_neg h]

theorem kill_alive_ne {s : State} (id : Nat) (gone : Bool) {x : Nat} (h : x ≠ id) : (s.kill id gone).1.alive.get x = s.alive.get x := by
  have ha := expire_alive s id gone
  rw [State.kill]
  split
  · rename_i s' heq; rw [heq] at ha; simp only at ha; rw [ha]
  · rename_i s' q heq
    rw [heq] at ha
    simp only at ha
    rw [ha]
    repeat' split
    all_goals simp only [AMap.get_del, if_neg h, ha]

theorem resume_exact {s : State} (h : Exact s) (ok : Nat → Bool) (q : Info) : Exact (s.resume ok q) := by
  rw [State.resume]
  have ht := track_exact h q true (fun _ => rfl)
  split
  · split
    · rename_i s' heq
      rw [heq] at ht
      exact started_exact ht q.id .data (fun _ => by simp)
    · rename_i s' heq; rw [heq] at ht; exact ht
  · exact h

theorem resumeList_exact (ok : Nat → Bool) (l : List Info) {s : State} (h : Exact s) : Exact (l.foldl (State.resume ok) s) := by
  induction l generalizing s with
  | nil => exact h
  | cons q l ih => exact ih (resume_exact h ok q)

theorem step_exact {s : State} (h : Exact s) (e : Ev) (he : Tame s e) : Exact (s.step e) := by
  cases e with
  | track q saved => exact track_exact h q saved he
  | started id out => exact started_exact h id out he
  | finish id => exact finish_exact h id
  | abandon id =>
    simp only [State.step, State.abandon]
    split
    · rename_i b hb; exact absurd hb (he b)
    · exact finish_exact h id
  | kill q id gone =>
    simp only [State.step, State.killStmt]
    have ht := track_exact h { q with stream := false } true (fun _ => rfl)
    have hne := track_alive_ne (s := s) { q with stream := false } true (id := id) he.1
    split
    · rename_i s' heq; rw [heq] at ht; exact ht
    · rename_i s' heq
      rw [heq] at ht hne
      simp only at ht hne
      have h1 := kill_exact ht id gone (by rw [hne]; exact he.2.1) (by rw [hne]; exact he.2.2)
      refine started_exact h1 q.id .nil ?_
      intro hx
      simp
  | restart ok => exact resumeList_exact ok _ (s := { s with queries := .empty, alive := .empty }) (fun _ => rfl)
  | takeover d ok => exact resumeList_exact ok _ h

/-- A history in which nothing that is excluded happens. -/
def AllTame : State → List Ev → Prop
  | _, [] => True
  | s, e :: es => Tame s e ∧ AllTame (s.step e) es

theorem run_exact (es : List Ev) (s : State) (h : Exact s) (he : AllTame s es) : Exact (s.run es) := by
  induction es generalizing s with
  | nil => exact h
  | cons e es ih => exact ih _ (step_exact h e he.1) he.2

theorem length_eq {ν μ : Type} (a : AMap Nat ν) (b : AMap Nat μ) (h : ∀ k, (a.get k).isSome = (b.get k).isSome) :
    a.entries.length = b.entries.length := by
  have sub : ∀ {ν μ : Type} (a : AMap Nat ν) (b : AMap Nat μ), (∀ k, (a.get k).isSome = (b.get k).isSome) →
      a.entries.length ≤ b.entries.length := by
    intro ν μ a b h
    rw [← List.length_map (f := Prod.fst) (as := a.entries), ← List.length_map (f := Prod.fst) (as := b.entries)]
    refine List.Nodup.length_le_of_subset a.nodup ?_
    intro k hk
    obtain ⟨⟨k', v⟩, hm, rfl⟩ := List.mem_map.1 hk
    have h1 := h k'
    rw [AMap.mem_entries.1 hm] at h1
    obtain ⟨w, hw⟩ := Option.isSome_iff_exists.1 h1.symm
    exact List.mem_map.2 ⟨(k', w), AMap.mem_entries.2 hw, rfl⟩
  exact Nat.le_antisymm (sub a b h) (sub b a fun k => (h k).symm)

/-- **C178, exact.**  In every history without the excluded events, the tracked queries are exactly those that are worked on: never more
than the limit are, and a query is refused only if as many are. -/
theorem C178_exact_partial (node limit : Nat) (es : List Ev) (he : AllTame (State.init node limit) es) :
    ((State.init node limit).run es).alive.entries.length ≤ limit ∧
    ∀ q saved, ((State.init node limit).run es).alive.entries.length < limit → (q.stream = true → saved = true) →
      (((State.init node limit).run es).track q saved).2 = true := by
  have hx : Exact ((State.init node limit).run es) := run_exact es _ (fun _ => rfl) he
  have hl := length_eq _ _ hx
  have hlim : ((State.init node limit).run es).limit = limit := by
    have main : ∀ (es : List Ev) (s : State), Fits s → (s.run es).limit = s.limit := by
      intro es
      induction es with
      | nil => intro s h; rfl
      | cons e es ih =>
        intro s h
        have h1 := step_fits h e
        exact (ih (s.step e) h1.1).trans h1.2
    exact main es (State.init node limit) (Nat.zero_le _)
  refine ⟨by rw [← hl]; exact C178_slots node limit es, fun q saved hlt hq => ?_⟩
  rw [State.track, if_neg (by rw [hlim]; omega), if_neg]
  simp only [Bool.and_eq_true, Bool.not_eq_true', not_and]
  intro hs
  rw [hq hs]; simp

end Verif.Track
