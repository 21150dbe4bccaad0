import Verif.Readers.Model

/-!
C219: a reader says what its file says, as long as nothing comes between the parts of opening one.
-/

namespace Verif.Readers

variable {K V C : Type}

theorem nodup_sub {l m : List (K × V)} (h : l.Sublist m) (hm : (m.map Prod.fst).Nodup) : (l.map Prod.fst).Nodup :=
  (h.map Prod.fst).nodup hm

variable [DecidableEq K]

theorem find_some {c : Lru K V} {k : K} {v : V} (h : c.find k = some v) : (k, v) ∈ c.items := by
  unfold Lru.find at h
  rw [Option.map_eq_some_iff] at h
  obtain ⟨x, hx, rfl⟩ := h
  have h1 := List.mem_of_find?_eq_some hx
  have h2 := List.find?_some hx
  simp only [decide_eq_true_eq] at h2
  rw [← h2]
  exact h1

theorem find_none {c : Lru K V} {k : K} (h : c.find k = none) : ∀ x ∈ c.items, x.1 ≠ k := by
  unfold Lru.find at h
  rw [Option.map_eq_none_iff, List.find?_eq_none] at h
  intro x hx he
  have := h x hx
  simp only [decide_eq_true_eq] at this
  exact this he

theorem mem_others {c : Lru K V} {k : K} {x : K × V} : x ∈ c.others k ↔ x ∈ c.items ∧ x.1 ≠ k := by
  simp [Lru.others, List.mem_filter]

theorem mem_put {c : Lru K V} {k : K} {v : V} {x : K × V} (h : x ∈ (c.put k v).items) :
    x = (k, v) ∨ (x ∈ c.items ∧ x.1 ≠ k) := by
  unfold Lru.put at h
  cases hf : c.find k with
  | some w =>
    rw [hf] at h
    rcases List.mem_cons.1 h with h | h
    · exact .inl h
    · exact .inr (mem_others.1 h)
  | none =>
    rw [hf] at h
    have hn := find_none hf
    rcases List.mem_cons.1 h with h | h
    · exact .inl h
    · have : x ∈ c.items := by
        split at h
        · exact (List.dropLast_sublist _).subset h
        · exact h
      exact .inr ⟨this, hn x this⟩

theorem mem_touch {c : Lru K V} {k : K} {x : K × V} (h : x ∈ (c.touch k).items) : x ∈ c.items := by
  unfold Lru.touch at h
  cases hf : c.find k with
  | some w =>
    rw [hf] at h
    rcases List.mem_cons.1 h with h | h
    · rw [h]; exact find_some hf
    · exact (mem_others.1 h).1
  | none => rw [hf] at h; exact h

/-- Keys of a shard. -/
def Lru.keys (c : Lru K V) : List K := c.items.map Prod.fst

theorem nodup_put {c : Lru K V} (k : K) (v : V) (h : c.keys.Nodup) : (c.put k v).keys.Nodup := by
  unfold Lru.put
  cases hf : c.find k with
  | some w =>
    simp only [Lru.keys, List.map_cons, List.nodup_cons]
    refine ⟨?_, nodup_sub List.filter_sublist h⟩
    intro hm
    obtain ⟨x, hx, he⟩ := List.mem_map.1 hm
    exact (mem_others.1 hx).2 he
  | none =>
    simp only [Lru.keys, List.map_cons, List.nodup_cons]
    have hs : (if c.items.length = c.cap then c.items.dropLast else c.items).Sublist c.items := by
      split
      · exact List.dropLast_sublist _
      · exact List.Sublist.refl _
    refine ⟨?_, nodup_sub hs h⟩
    intro hm
    obtain ⟨x, hx, he⟩ := List.mem_map.1 hm
    exact find_none hf x (hs.subset hx) he

theorem nodup_touch {c : Lru K V} (k : K) (h : c.keys.Nodup) : (c.touch k).keys.Nodup := by
  unfold Lru.touch
  cases hf : c.find k with
  | some w =>
    simp only [Lru.keys, List.map_cons, List.nodup_cons]
    refine ⟨?_, nodup_sub List.filter_sublist h⟩
    intro hm
    obtain ⟨x, hx, he⟩ := List.mem_map.1 hm
    exact (mem_others.1 hx).2 he
  | none => exact h

/-- Entries lie in the shards of their keys, each key once; every cached reader says what its file says; no reader serves
two files. -/
structure Good (hash : K → Nat) (s : Sys K C) : Prop where
  home : ∀ i x, x ∈ (s.cache i).items → i = place hash x.1
  once : ∀ i, (s.cache i).keys.Nodup
  old : ∀ i p h, (p, h) ∈ (s.cache i).items → h < s.next
  fresh : ∀ i p h, (p, h) ∈ (s.cache i).items → ∃ c, s.disk p = some c ∧ s.mem h = some c
  own : ∀ i j p q h, (p, h) ∈ (s.cache i).items → (q, h) ∈ (s.cache j).items → p = q

omit [DecidableEq K] in
theorem good_init (hash : K → Nat) (n : Nat) : Good hash (Sys.init n : Sys K C) := by
  constructor <;> simp [Sys.init, empty, Lru.keys]

omit [DecidableEq K] in
/-- A cache with fewer entries is good, too. -/
theorem Good.less {hash : K → Nat} {s : Sys K C} (g : Good hash s) (c' : Cache K Nat)
    (hm : ∀ i x, x ∈ (c' i).items → x ∈ (s.cache i).items) (hn : ∀ i, (c' i).keys.Nodup) : Good hash { s with cache := c' } :=
  ⟨fun i x h => g.home i x (hm i x h), hn, fun i p h hx => g.old i p h (hm i _ hx), fun i p h hx => g.fresh i p h (hm i _ hx),
   fun i j p q h hx hy => g.own i j p q h (hm i _ hx) (hm j _ hy)⟩

theorem good_touch {hash : K → Nat} {s : Sys K C} (g : Good hash s) (p : K) :
    Good hash { s with cache := s.cache.touch hash p } := by
  refine g.less _ ?_ ?_
  · intro i x h
    unfold Cache.touch Cache.at at h
    split at h
    · exact mem_touch h
    · exact h
  · intro i
    unfold Cache.touch Cache.at
    split
    · exact nodup_touch _ (g.once i)
    · exact g.once i

theorem mem_remove {hash : K → Nat} {c : Cache K V} {p : K} {i : Nat} {x : K × V}
    (h : x ∈ ((c.remove hash p) i).items) : x ∈ (c i).items ∧ (i = place hash p → x.1 ≠ p) := by
  unfold Cache.remove Cache.at at h
  split at h
  · have := mem_others.1 h
    exact ⟨this.1, fun _ => this.2⟩
  · rename_i hne
    exact ⟨h, fun he => absurd he hne⟩

theorem nodup_remove {hash : K → Nat} {c : Cache K V} (p : K) (h : ∀ i, (c i).keys.Nodup) (i : Nat) :
    ((c.remove hash p) i).keys.Nodup := by
  unfold Cache.remove Cache.at
  split
  · exact nodup_sub List.filter_sublist (h i)
  · exact h i

theorem good_remove {hash : K → Nat} {s : Sys K C} (g : Good hash s) (p : K) (d : K → Option C)
    (hd : ∀ q, q ≠ p → d q = s.disk q) : Good hash { s with disk := d, cache := s.cache.remove hash p } := by
  have ne : ∀ i q h, (q, h) ∈ ((s.cache.remove hash p) i).items → q ≠ p := by
    intro i q h hx he
    have := mem_remove hx
    have hh := g.home i _ this.1
    exact this.2 (by rw [hh, he]) he
  refine ⟨fun i x h => g.home i x (mem_remove h).1, nodup_remove p g.once, fun i q h hx => g.old i q h (mem_remove hx).1, ?_,
    fun i j q r h hx hy => g.own i j q r h (mem_remove hx).1 (mem_remove hy).1⟩
  intro i q h hx
  obtain ⟨c, h1, h2⟩ := g.fresh i q h (mem_remove hx).1
  exact ⟨c, by show d q = _; rw [hd q (ne i q h hx)]; exact h1, h2⟩

/-- Looking, opening and keeping with nothing in between. -/
theorem get_spec {hash : K → Nat} {s : Sys K C} (g : Good hash s) (p : K) :
    Good hash (s.get hash p).2 ∧ (s.get hash p).2.disk = s.disk ∧
    ((s.get hash p).1 = none → s.disk p = none) ∧
    (∀ h, (s.get hash p).1 = some h → h < (s.get hash p).2.next ∧
      (∃ c, s.disk p = some c ∧ (s.get hash p).2.mem h = some c) ∧
      (∀ i q, (q, h) ∈ ((s.get hash p).2.cache i).items → q = p) ∧
      (∀ i h', (p, h') ∈ ((s.get hash p).2.cache i).items → h' = h)) := by
  have gt := good_touch g p
  unfold Sys.get Sys.look
  cases hf : s.cache.find hash p with
  | some h =>
    have hin : (p, h) ∈ (s.cache (place hash p)).items := find_some hf
    refine ⟨gt, rfl, fun h => (Option.some_ne_none _ h).elim, ?_⟩
    intro h' he
    cases he
    refine ⟨g.old _ _ _ hin, g.fresh _ _ _ hin, ?_, ?_⟩
    · intro i q hx
      have hx' : (q, h) ∈ (s.cache i).items := by
        replace hx : (q, h) ∈ (s.cache.touch hash p i).items := hx
        unfold Cache.touch Cache.at at hx
        split at hx
        · exact mem_touch hx
        · exact hx
      exact g.own i _ q p h hx' hin
    · intro i h' hx
      have hx' : (p, h') ∈ (s.cache i).items := by
        replace hx : (p, h') ∈ (s.cache.touch hash p i).items := hx
        unfold Cache.touch Cache.at at hx
        split at hx
        · exact mem_touch hx
        · exact hx
      have hi := g.home i _ hx'
      rw [hi] at hx'
      have := List.inj_on_of_nodup_map (g.once (place hash p)) hx' hin rfl
      exact (Prod.mk.injEq _ _ _ _ ▸ this).2
  | none =>
    have hno : ∀ x ∈ (s.cache (place hash p)).items, x.1 ≠ p := find_none hf
    unfold Sys.openFile
    cases hd : s.disk p with
    | none =>
      simp only [hd]
      exact ⟨gt, trivial, fun _ => trivial, fun h he => by cases he⟩
    | some c =>
      simp only [hd]
      have hcase : ∀ i x, x ∈ ((((s.cache.touch hash p).insert hash p s.next) i)).items →
          (x = (p, s.next) ∧ i = place hash p) ∨ (x ∈ (s.cache i).items ∧ x.1 ≠ p) := by
        intro i x hx
        unfold Cache.insert Cache.at at hx
        split at hx
        · rename_i hi
          rcases mem_put hx with h | h
          · exact .inl ⟨h, hi⟩
          · refine .inr ⟨?_, h.2⟩
            have h1 := h.1
            unfold Cache.touch Cache.at at h1
            rw [if_pos hi] at h1
            exact mem_touch h1
        · rename_i hi
          have h1 := hx
          unfold Cache.touch Cache.at at h1
          rw [if_neg hi] at h1
          refine .inr ⟨h1, ?_⟩
          intro he
          exact hi (by rw [g.home i x h1, he])
      refine ⟨⟨?_, ?_, ?_, ?_, ?_⟩, rfl, fun h => (Option.some_ne_none _ h).elim, ?_⟩
      · intro i x hx
        rcases hcase i x hx with h | h
        · rw [h.1]; exact h.2
        · exact g.home i x h.1
      · intro i
        show Lru.keys (((s.cache.touch hash p).insert hash p s.next) i) |>.Nodup
        unfold Cache.insert Cache.at
        split
        · exact nodup_put _ _ (gt.once i)
        · exact gt.once i
      · intro i q h hx
        show h < s.next + 1
        rcases hcase i _ hx with h1 | h1
        · have := (Prod.mk.inj h1.1).2; omega
        · have := g.old i q h h1.1; omega
      · intro i q h hx
        rcases hcase i _ hx with h1 | h1
        · obtain ⟨rfl, rfl⟩ := Prod.mk.inj h1.1
          exact ⟨c, hd, by simp [Sys.keep]⟩
        · obtain ⟨d, e1, e2⟩ := g.fresh i q h h1.1
          have := g.old i q h h1.1
          refine ⟨d, e1, ?_⟩
          show (if h = s.next then some c else s.mem h) = _
          rw [if_neg (by omega)]; exact e2
      · intro i j q r h hx hy
        rcases hcase i _ hx with h1 | h1 <;> rcases hcase j _ hy with h2 | h2
        · rw [(Prod.mk.inj h1.1).1, (Prod.mk.inj h2.1).1]
        · have := (Prod.mk.inj h1.1).2
          have := g.old j r h h2.1
          omega
        · have := (Prod.mk.inj h2.1).2
          have := g.old i q h h1.1
          omega
        · exact g.own i j q r h h1.1 h2.1
      · intro h he
        cases he
        refine ⟨by simp [Sys.keep], ⟨c, rfl, by simp [Sys.keep]⟩, ?_, ?_⟩
        · intro i q hx
          rcases hcase i _ hx with h1 | h1
          · exact (Prod.mk.inj h1.1).1
          · have := g.old i q _ h1.1
            omega
        · intro i h' hx
          rcases hcase i _ hx with h1 | h1
          · exact (Prod.mk.inj h1.1).2
          · exact absurd rfl h1.2

theorem good_step {hash : K → Nat} {s : Sys K C} (g : Good hash s) (o : Op K C) : Good hash (s.step hash o) := by
  cases o with
  | get p => exact (get_spec g p).1
  | retag p f =>
    exact good_remove g p _ (fun q hq => if_neg hq)
  | drop p =>
    exact good_remove g p _ (fun q hq => if_neg hq)
  | create p c =>
    show Good hash (s.create p c)
    unfold Sys.create
    cases hd : s.disk p with
    | some d => exact g
    | none =>
      refine ⟨g.home, g.once, g.old, ?_, g.own⟩
      intro i q h hx
      obtain ⟨d, e1, e2⟩ := g.fresh i q h hx
      refine ⟨d, ?_, e2⟩
      show (if q = p then some c else s.disk q) = _
      rw [if_neg (by rintro rfl; rw [hd] at e1; cases e1)]
      exact e1
  | resize n =>
    refine g.less _ ?_ ?_
    · intro i x h
      exact List.mem_of_mem_take h
    · intro i
      exact nodup_sub (List.take_sublist _ _) (g.once i)
  | delete p f =>
    have hs := get_spec g p
    show Good hash (s.delete hash p f)
    unfold Sys.delete
    generalize hr : s.get hash p = r at hs
    obtain ⟨r1, s'⟩ := r
    obtain ⟨g', hdisk, -, hsome⟩ := hs
    cases r1 with
    | none => exact g'
    | some h =>
      obtain ⟨-, -, h1, h2⟩ := hsome h rfl
      refine ⟨g'.home, g'.once, g'.old, ?_, g'.own⟩
      intro i q k hx
      obtain ⟨c, e1, e2⟩ := g'.fresh i q k hx
      dsimp only at e1 e2
      by_cases hk : k = h
      · subst hk
        have hq := h1 i q hx
        subst hq
        exact ⟨f c, by simp [Sys.through, e1], by simp [Sys.through, e2]⟩
      · have hq : q ≠ p := by
          rintro rfl
          exact hk (h2 i k hx)
        exact ⟨c, by simp [Sys.through, hq, e1], by simp [Sys.through, hk, e2]⟩

theorem good_run {hash : K → Nat} {s : Sys K C} (g : Good hash s) (ops : List (Op K C)) : Good hash (s.run hash ops) := by
  induction ops generalizing s with
  | nil => exact g
  | cons o ops ih => exact ih (good_step g o)

/-- C219, without interleaving: whatever was read, deleted, updated, removed and written before, the reader of a file says
what the file says, there is one for every file, and getting it changes no file. -/
theorem C219_fresh_partial (hash : K → Nat) (n : Nat) (ops : List (Op K C)) (p : K) :
    let s := (Sys.init n : Sys K C).run hash ops
    (s.get hash p).2.disk = s.disk ∧
    match (s.get hash p).1 with
    | some h => s.disk p ≠ none ∧ (s.get hash p).2.mem h = s.disk p
    | none => s.disk p = none := by
  intro s
  have g : Good hash s := good_run (good_init hash n) ops
  obtain ⟨-, h1, h2, h3⟩ := get_spec g p
  refine ⟨h1, ?_⟩
  cases hr : (s.get hash p).1 with
  | none => exact h2 hr
  | some h =>
    obtain ⟨-, ⟨c, e1, e2⟩, -⟩ := h3 h hr
    exact ⟨by rw [e1]; exact Option.some_ne_none _, by rw [e1, e2]⟩

/-- What is deleted and what is updated: the value of a file after a change is the changed value. -/
theorem C219_changes (hash : K → Nat) (n : Nat) (ops : List (Op K C)) (p q : K) (f : C → C) :
    let s := (Sys.init n : Sys K C).run hash ops
    (s.delete hash p f).disk q = (if q = p then (s.disk q).map f else s.disk q) ∧
    (s.retag hash p f).disk q = (if q = p then (s.disk q).map f else s.disk q) := by
  intro s
  have g : Good hash s := good_run (good_init hash n) ops
  refine ⟨?_, rfl⟩
  have hs := get_spec g p
  unfold Sys.delete
  generalize s.get hash p = r at hs
  obtain ⟨r1, s'⟩ := r
  obtain ⟨-, h1, h2, -⟩ := hs
  cases r1 with
  | none =>
    have hp := h2 rfl
    show s'.disk q = _
    rw [show s'.disk = s.disk from h1]
    split
    · rename_i he; rw [he, hp]; rfl
    · rfl
  | some h =>
    show (if q = p then (s'.disk q).map f else s'.disk q) = _
    rw [show s'.disk = s.disk from h1]

/-- Files 1 and 2 with tombstones 7 and 8: written, read, deleted from and updated. -/
def exOps : List (Op Nat (List Nat)) :=
  [.create 1 [], .create 2 [], .get 1, .delete 1 (7 :: ·), .get 2, .retag 2 (8 :: ·), .drop 3, .resize 1]

example : (((Sys.init 4 : Sys Nat (List Nat)).run id exOps).get id 1).1 = some 0 ∧
    (((Sys.init 4 : Sys Nat (List Nat)).run id exOps).get id 1).2.mem 0 = some [7] ∧
    (((Sys.init 4 : Sys Nat (List Nat)).run id exOps).get id 2).1 = some 2 ∧
    (((Sys.init 4 : Sys Nat (List Nat)).run id exOps).get id 2).2.mem 2 = some [8] := by decide +kernel

/-- C219 is false when a DELETE comes between opening a file and keeping its reader (`get_tsm_reader` holds no lock over both):
a query finds no reader and opens the file, the DELETE opens one of its own and adds its tombstone, the query puts its reader
into the cache instead; every later query is given the reader without the tombstone. -/
theorem C219_delete_refuted :
    ∃ (s : Sys Nat (List Nat)), s = (Sys.init 16).run id [.create 1 []] ∧
      ∃ h s1, (s.look id 1).1 = none ∧ (s.look id 1).2.openFile 1 = (some h, s1) ∧
        let s2 := (s1.delete id 1 (7 :: ·)).keep id 1 h
        s2.disk 1 = some [7] ∧ (s2.get id 1).1 = some h ∧ (s2.get id 1).2.mem h = some [] :=
  ⟨_, rfl, _, _, by decide +kernel, rfl, by decide +kernel⟩

/-- The same for UPDATE of tags: the removal from the cache comes before the old reader is put there. -/
theorem C219_update_refuted :
    ∃ (s : Sys Nat (List Nat)), s = (Sys.init 16).run id [.create 1 [5]] ∧
      ∃ h s1, (s.look id 1).1 = none ∧ (s.look id 1).2.openFile 1 = (some h, s1) ∧
        let s2 := (s1.retag id 1 (fun _ => [6])).keep id 1 h
        s2.disk 1 = some [6] ∧ (s2.get id 1).1 = some h ∧ (s2.get id 1).2.mem h = some [5] :=
  ⟨_, rfl, _, _, by decide +kernel, rfl, by decide +kernel⟩

end Verif.Readers
