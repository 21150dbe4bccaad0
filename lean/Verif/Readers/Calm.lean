import Verif.Readers.Bound

/-!
C219 with readers opened at the same time: it holds as long as no file is changed while it is being opened.
-/

namespace Verif.Readers

variable {K C : Type} [DecidableEq K]

/-- A vnode with readers that are opened but not yet in the cache. -/
structure Conc (K C : Type) where
  sys : Sys K C
  pending : List (K × Nat)

/-- The file that an operation changes. -/
def Op.target : Op K C → Option K
  | .get _ => none
  | .resize _ => none
  | .delete p _ => some p
  | .retag p _ => some p
  | .drop p => some p
  | .create p _ => some p

/-- Parts of `get_tsm_reader` by themselves, and operations as a whole. -/
inductive Part (K C : Type) where
  | begin (p : K)
  | finish (p : K) (h : Nat)
  | whole (o : Op K C)

/-- One part; none if it is not possible or changes a file that is being opened. -/
def Conc.step (hash : K → Nat) (s : Conc K C) : Part K C → Option (Conc K C)
  | .begin p =>
    match s.sys.look hash p with
    | (some _, t) => some { s with sys := t }
    | (none, t) =>
      match t.openFile p with
      | (none, u) => some { s with sys := u }
      | (some h, u) => some ⟨u, (p, h) :: s.pending⟩
  | .finish p h => if (p, h) ∈ s.pending then some ⟨s.sys.keep hash p h, s.pending.erase (p, h)⟩ else none
  | .whole o =>
    match o.target with
    | some p => if p ∈ s.pending.map Prod.fst then none else some { s with sys := s.sys.step hash o }
    | none => some { s with sys := s.sys.step hash o }

/-- States that are reached without changing a file while it is being opened. -/
inductive Reach (hash : K → Nat) (n : Nat) : Conc K C → Prop where
  | init : Reach hash n ⟨Sys.init n, []⟩
  | step {s t : Conc K C} (p : Part K C) : Reach hash n s → s.step hash p = some t → Reach hash n t

/-- An opened reader says what its file says and serves no other. -/
def Held (s : Sys K C) (x : K × Nat) : Prop :=
  x.2 < s.next ∧ (∃ c, s.disk x.1 = some c ∧ s.mem x.2 = some c) ∧ ∀ i q, (q, x.2) ∈ (s.cache i).items → q = x.1

structure GoodC (hash : K → Nat) (s : Conc K C) : Prop where
  good : Good hash s.sys
  held : ∀ x ∈ s.pending, Held s.sys x
  own : ∀ x ∈ s.pending, ∀ y ∈ s.pending, x.2 = y.2 → x.1 = y.1

theorem mem_touchC {hash : K → Nat} {c : Cache K Nat} {p : K} {i : Nat} {x : K × Nat}
    (h : x ∈ (c.touch hash p i).items) : x ∈ (c i).items := by
  unfold Cache.touch Cache.at at h
  split at h
  · exact mem_touch h
  · exact h

theorem mem_insertC {hash : K → Nat} {c : Cache K Nat} {p : K} {h : Nat} {i : Nat} {x : K × Nat}
    (hx : x ∈ (c.insert hash p h i).items) : (x = (p, h) ∧ i = place hash p) ∨ (x ∈ (c i).items ∧ (i = place hash p → x.1 ≠ p)) := by
  unfold Cache.insert Cache.at at hx
  split at hx
  · rename_i hi
    rcases mem_put hx with h | h
    · exact .inl ⟨h, hi⟩
    · exact .inr ⟨h.1, fun _ => h.2⟩
  · rename_i hi
    exact .inr ⟨hx, fun he => absurd he hi⟩

/-- What getting a reader leaves alone. -/
theorem get_frame (hash : K → Nat) (s : Sys K C) (p : K) :
    s.next ≤ (s.get hash p).2.next ∧ (∀ h, h < s.next → (s.get hash p).2.mem h = s.mem h) ∧
    (s.get hash p).2.disk = s.disk ∧
    (∀ i q h, (q, h) ∈ ((s.get hash p).2.cache i).items → (q, h) ∈ (s.cache i).items ∨ (q = p ∧ h = s.next)) ∧
    (∀ h, (s.get hash p).1 = some h → (p, h) ∈ (s.cache (place hash p)).items ∨ h = s.next) := by
  unfold Sys.get Sys.look
  cases hf : s.cache.find hash p with
  | some h =>
    refine ⟨Nat.le_refl _, fun _ _ => rfl, rfl, fun i q h hx => .inl (mem_touchC hx), ?_⟩
    intro h' he
    cases he
    exact .inl (find_some hf)
  | none =>
    unfold Sys.openFile
    cases hd : s.disk p with
    | none =>
      simp only [hd]
      exact ⟨Nat.le_refl _, fun _ _ => trivial, trivial, fun i q h hx => .inl (mem_touchC hx), fun h he => by cases he⟩
    | some c =>
      simp only [hd]
      refine ⟨Nat.le_succ _, ?_, rfl, ?_, ?_⟩
      · intro h hh
        show (if h = s.next then some c else s.mem h) = _
        rw [if_neg (by omega)]
      · intro i q h hx
        rcases mem_insertC hx with h1 | h1
        · exact .inr (Prod.mk.inj h1.1)
        · exact .inl (mem_touchC h1.1)
      · intro h he
        cases he
        exact .inr rfl

omit [DecidableEq K] in
theorem held_frame {s t : Sys K C} {x : K × Nat} (h : Held s x) (hn : s.next ≤ t.next) (hm : t.mem x.2 = s.mem x.2)
    (hd : t.disk x.1 = s.disk x.1)
    (hc : ∀ i q, (q, x.2) ∈ (t.cache i).items → (q, x.2) ∈ (s.cache i).items ∨ q = x.1) : Held t x := by
  obtain ⟨h1, ⟨c, h2, h3⟩, h4⟩ := h
  refine ⟨by omega, ⟨c, by rw [hd]; exact h2, by rw [hm]; exact h3⟩, ?_⟩
  intro i q hx
  rcases hc i q hx with h | h
  · exact h4 i q h
  · exact h

theorem held_step {hash : K → Nat} {s : Sys K C} {x : K × Nat} (h : Held s x) (o : Op K C)
    (ho : o.target ≠ some x.1) : Held (s.step hash o) x := by
  have hlt := h.1
  cases o with
  | get p =>
    obtain ⟨f1, f2, f3, f4, -⟩ := get_frame hash s p
    refine held_frame h f1 (f2 _ hlt) (by show (s.get hash p).2.disk _ = _; rw [f3]) ?_
    intro i q hx
    rcases f4 i q _ hx with h | h
    · exact .inl h
    · omega
  | resize n =>
    exact held_frame h (Nat.le_refl _) rfl rfl (fun i q hx => .inl (List.mem_of_mem_take hx))
  | create p c =>
    have hne : x.1 ≠ p := fun he => ho (by rw [he]; rfl)
    show Held (s.create p c) x
    unfold Sys.create
    split
    · exact held_frame h (Nat.le_refl _) rfl (if_neg hne) (fun i q hx => .inl hx)
    · exact h
  | drop p =>
    have hne : x.1 ≠ p := fun he => ho (by rw [he]; rfl)
    exact held_frame h (Nat.le_refl _) rfl (if_neg hne) (fun i q hx => .inl (mem_remove hx).1)
  | retag p f =>
    have hne : x.1 ≠ p := fun he => ho (by rw [he]; rfl)
    exact held_frame h (Nat.le_refl _) rfl (if_neg hne) (fun i q hx => .inl (mem_remove hx).1)
  | delete p f =>
    have hne : x.1 ≠ p := fun he => ho (by rw [he]; rfl)
    obtain ⟨f1, f2, f3, f4, f5⟩ := get_frame hash s p
    show Held (s.delete hash p f) x
    unfold Sys.delete
    generalize s.get hash p = r at f1 f2 f3 f4 f5
    obtain ⟨r1, t⟩ := r
    dsimp only at f1 f2 f3 f4 f5
    have hc : ∀ i q, (q, x.2) ∈ (t.cache i).items → (q, x.2) ∈ (s.cache i).items ∨ q = x.1 := by
      intro i q hx
      rcases f4 i q _ hx with h | h
      · exact .inl h
      · omega
    cases r1 with
    | none => exact held_frame h f1 (f2 _ hlt) (by rw [f3]) hc
    | some k =>
      have hk : x.2 ≠ k := by
        intro he
        rcases f5 k rfl with h' | h'
        · exact hne (h.2.2 _ p (he ▸ h')).symm
        · omega
      refine held_frame h f1 ?_ ?_ hc
      · show (if x.2 = k then (t.mem x.2).map f else t.mem x.2) = _
        rw [if_neg hk]
        exact f2 _ hlt
      · show (if x.1 = p then (t.disk x.1).map f else t.disk x.1) = _
        rw [if_neg hne, f3]

omit [DecidableEq K] in
theorem good_open {hash : K → Nat} {s : Sys K C} (g : Good hash s) (c : C) :
    Good hash { s with mem := fun i => if i = s.next then some c else s.mem i, next := s.next + 1 } := by
  refine ⟨g.home, g.once, fun i p h hx => Nat.lt_succ_of_lt (g.old i p h hx), ?_, g.own⟩
  intro i p h hx
  obtain ⟨d, e1, e2⟩ := g.fresh i p h hx
  have := g.old i p h hx
  refine ⟨d, e1, ?_⟩
  show (if h = s.next then some c else s.mem h) = _
  rw [if_neg (by omega)]
  exact e2

theorem good_keep {hash : K → Nat} {s : Sys K C} (g : Good hash s) {p : K} {h : Nat} (hh : Held s (p, h)) :
    Good hash (s.keep hash p h) := by
  obtain ⟨h1, h2, h3⟩ := hh
  refine ⟨?_, ?_, ?_, ?_, ?_⟩
  · intro i x hx
    rcases mem_insertC hx with e | e
    · rw [e.1]; exact e.2
    · exact g.home i x e.1
  · intro i
    show Lru.keys (s.cache.insert hash p h i) |>.Nodup
    unfold Cache.insert Cache.at
    split
    · exact nodup_put _ _ (g.once i)
    · exact g.once i
  · intro i q k hx
    rcases mem_insertC hx with e | e
    · rw [(Prod.mk.inj e.1).2]; exact h1
    · exact g.old i q k e.1
  · intro i q k hx
    rcases mem_insertC hx with e | e
    · obtain ⟨rfl, rfl⟩ := Prod.mk.inj e.1
      exact h2
    · exact g.fresh i q k e.1
  · intro i j q r k hx hy
    rcases mem_insertC hx with e1 | e1 <;> rcases mem_insertC hy with e2 | e2
    · rw [(Prod.mk.inj e1.1).1, (Prod.mk.inj e2.1).1]
    · obtain ⟨rfl, rfl⟩ := Prod.mk.inj e1.1
      exact (h3 j r e2.1).symm
    · obtain ⟨rfl, rfl⟩ := Prod.mk.inj e2.1
      exact h3 i q e1.1
    · exact g.own i j q r k e1.1 e2.1

theorem goodC_step {hash : K → Nat} {s t : Conc K C} (g : GoodC hash s) (a : Part K C) (h : s.step hash a = some t) :
    GoodC hash t := by
  cases a with
  | begin p =>
    have gt := good_touch g.good p
    have ht : ∀ x ∈ s.pending, Held { s.sys with cache := s.sys.cache.touch hash p } x := fun x hx =>
      held_frame (g.held x hx) (Nat.le_refl _) rfl rfl (fun i q hq => .inl (mem_touchC hq))
    simp only [Conc.step, Sys.look] at h
    cases hf : s.sys.cache.find hash p with
    | some k =>
      simp only [hf] at h
      cases h
      exact ⟨gt, ht, g.own⟩
    | none =>
      simp only [hf, Sys.openFile] at h
      cases hd : s.sys.disk p with
      | none =>
        simp only [hd] at h
        cases h
        exact ⟨gt, ht, g.own⟩
      | some c =>
        simp only [hd] at h
        cases h
        refine ⟨good_open gt c, ?_, ?_⟩
        · intro x hx
          rcases List.mem_cons.1 hx with rfl | hx
          · refine ⟨Nat.lt_succ_self _, ⟨c, hd, if_pos rfl⟩, ?_⟩
            intro i q hq
            have hq' := mem_touchC hq
            have := g.good.old i q _ hq'
            dsimp only at this
            omega
          · have hl := (g.held x hx).1
            refine held_frame (ht x hx) (Nat.le_succ _) ?_ rfl (fun i q hq => .inl hq)
            show (if x.2 = s.sys.next then some c else s.sys.mem x.2) = _
            rw [if_neg (by omega)]
        · intro x hx y hy he
          rcases List.mem_cons.1 hx with rfl | hx <;> rcases List.mem_cons.1 hy with rfl | hy
          · rfl
          · have := (g.held y hy).1
            dsimp only at he
            omega
          · have := (g.held x hx).1
            dsimp only at he
            omega
          · exact g.own x hx y hy he
  | finish p k =>
    simp only [Conc.step] at h
    split at h
    · rename_i hin
      cases h
      have hh := g.held _ hin
      refine ⟨good_keep g.good hh, ?_, ?_⟩
      · intro x hx
        replace hx : x ∈ s.pending := List.mem_of_mem_erase hx
        refine held_frame (g.held x hx) (Nat.le_refl _) rfl rfl ?_
        intro i q hq
        rcases mem_insertC hq with e | e
        · obtain ⟨rfl, e2⟩ := Prod.mk.inj e.1
          exact .inr (g.own _ hin x hx e2.symm)
        · exact .inl e.1
      · intro x hx y hy
        exact g.own x (List.mem_of_mem_erase hx) y (List.mem_of_mem_erase hy)
    · cases h
  | whole o =>
    have key : (∀ x ∈ s.pending, o.target ≠ some x.1) → GoodC hash { s with sys := s.sys.step hash o } := fun hk =>
      ⟨good_step g.good o, fun x hx => held_step (g.held x hx) o (hk x hx), g.own⟩
    simp only [Conc.step] at h
    cases ho : o.target with
    | none =>
      simp only [ho] at h
      cases h
      exact key (fun x _ => by rw [ho]; exact (Option.some_ne_none _).symm)
    | some p =>
      simp only [ho] at h
      split at h
      · cases h
      · rename_i hp
        cases h
        refine key (fun x hx he => hp ?_)
        rw [ho] at he
        cases he
        exact List.mem_map_of_mem hx

/-- C219 for readers that are opened at the same time: as long as no file is changed while it is being opened, every reader in
the cache, and every one that is about to go there, says what its file says. -/
theorem C219_calm_partial (hash : K → Nat) (n : Nat) (s : Conc K C) (hr : Reach hash n s) :
    (∀ p h, (s.sys.look hash p).1 = some h → ∃ c, s.sys.disk p = some c ∧ s.sys.mem h = some c) ∧
    (∀ p h, (p, h) ∈ s.pending → ∃ c, s.sys.disk p = some c ∧ s.sys.mem h = some c) := by
  have g : GoodC hash s := by
    induction hr with
    | init => exact ⟨good_init hash n, fun x hx => (List.not_mem_nil hx).elim, fun x hx => (List.not_mem_nil hx).elim⟩
    | step p _ hs ih => exact goodC_step ih p hs
  exact ⟨fun p h hl => g.good.fresh _ p h (find_some hl), fun p h hp => (g.held _ hp).2.1⟩

/-- Two queries open file 1 at the same time while a DELETE changes file 2: both readers are kept in turn, the second stays. -/
example : ∃ s : Conc Nat (List Nat),
    ((((((some ⟨Sys.init 16, []⟩ : Option (Conc Nat (List Nat))).bind (·.step id (.whole (.create 1 [5])))).bind
      (·.step id (.whole (.create 2 [])))).bind (·.step id (.begin 1))).bind (·.step id (.begin 1))).bind
      (·.step id (.whole (.delete 2 (7 :: ·))))).bind (fun s => (s.step id (.finish 1 0)).bind (·.step id (.finish 1 1))) = some s ∧
    (s.sys.look id 1).1 = some 1 ∧ s.sys.mem 1 = some [5] ∧ s.sys.disk 2 = some [7] ∧ s.pending = [] :=
  ⟨_, rfl, by decide +kernel⟩

/-- C219: a reader that is stale stays so at most until the next UPDATE of tags in its file: whatever the cache holds, the next
reader says what the file says. -/
theorem C219_heals (hash : K → Nat) (s : Sys K C) (p : K) (f : C → C) :
    let t := s.retag hash p f
    match (t.get hash p).1 with
    | some h => (t.get hash p).2.mem h = t.disk p
    | none => t.disk p = none := by
  intro t
  have hf : t.cache.find hash p = none := C220_removed hash s.cache p
  unfold Sys.get Sys.look
  rw [hf]
  simp only [Sys.openFile]
  cases hd : t.disk p with
  | none => rfl
  | some c => simp [Sys.keep]

end Verif.Readers
