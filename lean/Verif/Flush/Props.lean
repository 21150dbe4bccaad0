import Verif.Flush.Model
import Mathlib.Data.List.Basic
/-! # Properties: the flushed-up-to mark covers only writes that are in files -/
namespace Verif.Flush

/-- Buffers follow each other: each starts where the one before ends. -/
def Chain : Nat → List Cache → Prop
  | _, [] => True
  | m, c :: cs => c.minSeq = m ∧ m < c.seqNo ∧ (∀ x ∈ c.seqs, m < x ∧ x ≤ c.seqNo) ∧ Chain c.seqNo cs

def endOf : Nat → List Cache → Nat
  | m, [] => m
  | _, c :: cs => endOf c.seqNo cs

theorem Chain.append {m : Nat} {cs : List Cache} {c : Cache} (h : Chain m cs) (h1 : c.minSeq = endOf m cs)
    (h2 : c.minSeq < c.seqNo) (h3 : ∀ x ∈ c.seqs, c.minSeq < x ∧ x ≤ c.seqNo) : Chain m (cs ++ [c]) := by
  induction cs generalizing m with
  | nil => simp only [endOf] at h1; subst h1; exact ⟨rfl, h2, h3, trivial⟩
  | cons a cs ih => exact ⟨h.1, h.2.1, h.2.2.1, ih h.2.2.2 h1⟩

theorem endOf_append (m : Nat) (cs : List Cache) (c : Cache) : endOf m (cs ++ [c]) = c.seqNo := by
  induction cs generalizing m with
  | nil => rfl
  | cons a cs ih => exact ih a.seqNo

theorem Chain.le {m : Nat} {cs : List Cache} (h : Chain m cs) : m ≤ endOf m cs := by
  induction cs generalizing m with
  | nil => exact Nat.le_refl _
  | cons a cs ih => have := ih h.2.2.2; have := h.2.1; simp only [endOf]; omega

theorem Chain.min {m : Nat} {cs : List Cache} (h : Chain m cs) : ∀ c ∈ cs, m ≤ c.minSeq := by
  induction cs generalizing m with
  | nil => simp
  | cons a cs ih =>
    intro c hc
    rcases List.mem_cons.1 hc with rfl | hc
    · exact Nat.le_of_eq h.1.symm
    · have := ih h.2.2.2 c hc; have := h.2.1; omega

theorem Chain.seq {m : Nat} {cs : List Cache} (h : Chain m cs) : ∀ c ∈ cs, ∀ x ∈ c.seqs, m < x := by
  induction cs generalizing m with
  | nil => simp
  | cons a cs ih =>
    intro c hc x hx
    rcases List.mem_cons.1 hc with rfl | hc
    · exact (h.2.2.1 x hx).1
    · have := ih h.2.2.2 c hc x hx; have := h.2.1; omega

theorem Chain.minEnd {m : Nat} {cs : List Cache} (h : Chain m cs) : ∀ c ∈ cs, c.minSeq < endOf m cs := by
  induction cs generalizing m with
  | nil => simp
  | cons a cs ih =>
    intro c hc
    simp only [endOf]
    rcases List.mem_cons.1 hc with rfl | hc
    · have := h.2.2.2.le; have := h.1; have := h.2.1; omega
    · exact ih h.2.2.2 c hc

/-- Changing only the flag. -/
theorem Chain.flag {m : Nat} {cs : List Cache} (f : Cache → Cache)
    (hf : ∀ c, (f c).minSeq = c.minSeq ∧ (f c).seqNo = c.seqNo ∧ (f c).seqs = c.seqs) (h : Chain m cs) :
    Chain m (cs.map f) ∧ endOf m (cs.map f) = endOf m cs := by
  induction cs generalizing m with
  | nil => exact ⟨trivial, rfl⟩
  | cons a cs ih =>
    obtain ⟨h1, h2, h3⟩ := hf a
    obtain ⟨i1, i2⟩ := ih h.2.2.2
    simp only [List.map_cons, Chain, endOf, h1, h2, h3]
    exact ⟨⟨h.1, h.2.1, h.2.2.1, i1⟩, i2⟩


/-- The queue is sorted. -/
def Sorted (q : List (Nat × Task)) : Prop := q.Pairwise fun a b => a.1 < b.1

theorem mem_ins {k : Nat} {t : Task} {q : List (Nat × Task)} (h : Sorted q) (p : Nat × Task) :
    p ∈ ins k t q ↔ p = (k, t) ∨ (p ∈ q ∧ p.1 ≠ k) := by
  induction q with
  | nil => simp [ins]
  | cons a q ih =>
    obtain ⟨k', t'⟩ := a
    have hs := List.pairwise_cons.1 h
    unfold ins
    split
    · rename_i hlt
      simp only [List.mem_cons]
      constructor
      · rintro (h1 | rfl | h1)
        · exact .inl h1
        · exact .inr ⟨.inl rfl, by simp only; omega⟩
        · have := hs.1 p h1
          simp only at this
          exact .inr ⟨.inr h1, by omega⟩
      · rintro (h1 | ⟨h1, _⟩)
        · exact .inl h1
        · exact .inr h1
    · split
      · rename_i _ heq
        subst heq
        simp only [List.mem_cons]
        constructor
        · rintro (h1 | h1)
          · exact .inl h1
          · have := hs.1 p h1
            simp only at this
            exact .inr ⟨.inr h1, by omega⟩
        · rintro (h1 | ⟨rfl | h1, h2⟩)
          · exact .inl h1
          · exact absurd rfl h2
          · exact .inr h1
      · rename_i _ hne
        simp only [List.mem_cons, ih hs.2]
        constructor
        · rintro (rfl | h1 | h1)
          · exact .inr ⟨.inl rfl, fun h => hne h.symm⟩
          · exact .inl h1
          · exact .inr ⟨.inr h1.1, h1.2⟩
        · rintro (h1 | ⟨h1 | h1, h2⟩)
          · exact .inr (.inl h1)
          · exact .inl h1
          · exact .inr (.inr ⟨h1, h2⟩)

theorem ins_sorted {k : Nat} {t : Task} {q : List (Nat × Task)} (h : Sorted q) : Sorted (ins k t q) := by
  induction q with
  | nil => simp [ins, Sorted]
  | cons a q ih =>
    obtain ⟨k', t'⟩ := a
    have hs := List.pairwise_cons.1 h
    unfold ins
    split
    · rename_i hlt
      refine List.pairwise_cons.2 ⟨?_, h⟩
      intro p hp
      rcases List.mem_cons.1 hp with rfl | hp
      · exact hlt
      · have := hs.1 p hp; simp only at this ⊢; omega
    · split
      · rename_i _ heq
        subst heq
        exact List.pairwise_cons.2 ⟨hs.1, hs.2⟩
      · rename_i h1 h2
        refine List.pairwise_cons.2 ⟨?_, ih hs.2⟩
        intro p hp
        rcases (mem_ins hs.2 p).1 hp with rfl | ⟨hp, _⟩
        · simp only; omega
        · exact hs.1 p hp

theorem foldl_ins {cs : List Cache} {q : List (Nat × Task)} (hq : Sorted q) (hc : cs.Pairwise fun a b => a.minSeq ≠ b.minSeq) :
    let r := cs.foldl (fun q c => ins c.minSeq ⟨c.cid, false, 0, []⟩ q) q
    Sorted r ∧ ∀ p, p ∈ r ↔ (∃ c ∈ cs, p = (c.minSeq, ⟨c.cid, false, 0, []⟩)) ∨ (p ∈ q ∧ ∀ c ∈ cs, p.1 ≠ c.minSeq) := by
  induction cs generalizing q with
  | nil => simp [hq]
  | cons c cs ih =>
    have hp := List.pairwise_cons.1 hc
    obtain ⟨i1, i2⟩ := ih (ins_sorted (k := c.minSeq) (t := ⟨c.cid, false, 0, []⟩) hq) hp.2
    refine ⟨i1, fun p => ?_⟩
    simp only [List.foldl_cons]
    rw [i2 p, mem_ins hq]
    constructor
    · rintro (⟨d, h1, h2⟩ | ⟨h1 | h1, h2⟩)
      · exact .inl ⟨d, List.mem_cons_of_mem _ h1, h2⟩
      · exact .inl ⟨c, List.mem_cons_self, h1⟩
      · refine .inr ⟨h1.1, ?_⟩
        intro d hd
        rcases List.mem_cons.1 hd with rfl | hd
        · exact h1.2
        · exact h2 d hd
    · rintro (⟨d, h1, h2⟩ | ⟨h1, h2⟩)
      · rcases List.mem_cons.1 h1 with rfl | h1
        · refine .inr ⟨.inl h2, ?_⟩
          intro e he
          rw [h2]
          exact hp.1 e he
        · exact .inl ⟨d, h1, h2⟩
      · exact .inr ⟨.inr ⟨h1, h2 c List.mem_cons_self⟩, fun d hd => h2 d (List.mem_cons_of_mem _ hd)⟩

theorem Chain.distinct {m : Nat} {cs : List Cache} (h : Chain m cs) : cs.Pairwise fun a b => a.minSeq < b.minSeq := by
  induction cs generalizing m with
  | nil => exact List.Pairwise.nil
  | cons a cs ih =>
    refine List.pairwise_cons.2 ⟨?_, ih h.2.2.2⟩
    intro c hc
    have := h.2.2.2.min c hc
    have := h.1; have := h.2.1
    omega

theorem Chain.inj {m : Nat} {cs : List Cache} (h : Chain m cs) : ∀ a ∈ cs, ∀ b ∈ cs, a.minSeq = b.minSeq → a = b := by
  have := h.distinct
  induction cs generalizing m with
  | nil => simp
  | cons c cs ih =>
    have hp := List.pairwise_cons.1 this
    intro a ha b hb hab
    rcases List.mem_cons.1 ha with e1 | h1 <;> rcases List.mem_cons.1 hb with e2 | h2
    · rw [e1, e2]
    · have := hp.1 b h2; rw [e1] at hab; omega
    · have := hp.1 a h1; rw [e2] at hab; omega
    · exact ih h.2.2.2 hp.2 a h1 b h2 hab

/-- The invariant: `W` are the accepted writes, `m0` the number of the last write. -/
structure Inv (s : St) (W : List Nat) (m0 : Nat) : Prop where
  chain : Chain s.mark s.immut
  act : s.active.minSeq = endOf s.mark s.immut
  actSeq : s.active.minSeq ≤ s.active.seqNo
  actIn : ∀ x ∈ s.active.seqs, s.active.minSeq < x ∧ x ≤ s.active.seqNo
  last : s.active.seqNo = m0
  all : ∀ x ∈ W, x ∈ s.stored ∨ (∃ c ∈ s.immut, x ∈ c.seqs) ∨ x ∈ s.active.seqs
  cids : s.immut.Pairwise fun a b => a.cid ≠ b.cid
  cidLt : ∀ c ∈ s.immut, c.cid < s.nextCid
  cidAct : ∀ c ∈ s.immut, c.cid ≠ s.active.cid
  actLt : s.active.cid < s.nextCid
  sorted : Sorted s.queue
  key : ∀ p ∈ s.queue, ∃ c ∈ s.immut, c.minSeq = p.1 ∧ c.cid = p.2.cid ∧ (p.2.complete = true → p.2.high = c.seqNo ∧ p.2.seqs = c.seqs)
  down : ∀ c ∈ s.immut, ∀ c' ∈ s.immut, c.minSeq < c'.minSeq → (∃ t, (c'.minSeq, t) ∈ s.queue) → ∃ t, (c.minSeq, t) ∈ s.queue
  actFlag : s.active.flushing = false
  flag : ∀ c ∈ s.immut, c.flushing = true → ∃ t, (c.minSeq, t) ∈ s.queue

theorem inv_opened (m : Nat) (stored : List Nat) : Inv (St.opened m stored) [] m := by
  constructor <;> simp [St.opened, Chain, endOf, Sorted]

theorem inv_write {s : St} {W : List Nat} {m0 : Nat} (h : Inv s W m0) (seq : Nat) (ok : Bool) (hs : m0 < seq) :
    Inv (s.write seq ok) (W ++ if ok then [seq] else []) seq := by
  have h1 := h.actSeq; have h2 := h.last
  refine ⟨h.chain, h.act, ?_, ?_, rfl, ?_, h.cids, h.cidLt, h.cidAct, h.actLt, h.sorted, h.key, h.down, h.actFlag, h.flag⟩
  · simp only [St.write]; omega
  · intro x hx
    simp only [St.write] at hx ⊢
    have key : ∀ x ∈ s.active.seqs, s.active.minSeq < x ∧ x ≤ seq := by
      intro x hx; have := h.actIn x hx; omega
    cases ok with
    | false => exact key x hx
    | true =>
      simp only [if_true, List.mem_append, List.mem_singleton] at hx
      rcases hx with hx | rfl
      · exact key x hx
      · omega
  · intro x hx
    rcases List.mem_append.1 hx with hx | hx
    · rcases h.all x hx with h3 | h3 | h3
      · exact .inl h3
      · exact .inr (.inl h3)
      · refine .inr (.inr ?_)
        simp only [St.write]
        split
        · exact List.mem_append_left _ h3
        · exact h3
    · cases ok with
      | false => simp at hx
      | true =>
        simp only [if_true] at hx
        refine .inr (.inr ?_)
        simp only [St.write, if_true]
        exact List.mem_append_right _ hx

theorem inv_switch {s : St} {W : List Nat} {m0 : Nat} (h : Inv s W m0) : Inv s.switch W m0 := by
  unfold St.switch
  split
  · exact h
  · rename_i hne
    obtain ⟨x, hx⟩ := List.exists_mem_of_ne_nil _ hne
    have hlt : s.active.minSeq < s.active.seqNo := by have := h.actIn x hx; omega
    have hall : ∀ c ∈ s.immut ++ [s.active], c ∈ s.immut ∨ c = s.active := by
      intro c hc; simpa using hc
    have hnq : ¬ ∃ t, (s.active.minSeq, t) ∈ s.queue := by
      rintro ⟨t, ht⟩
      obtain ⟨c, hc, h1, _⟩ := h.key _ ht
      have := h.chain.minEnd c hc
      have := h.act
      simp only at h1
      omega
    refine ⟨h.chain.append h.act hlt h.actIn, ?_, Nat.le_refl _, by simp, h.last, ?_, ?_, ?_, ?_, ?_, h.sorted, ?_, ?_, rfl, ?_⟩
    · simp only [endOf_append]
    · intro y hy
      rcases h.all y hy with h3 | ⟨c, h3, h4⟩ | h3
      · exact .inl h3
      · exact .inr (.inl ⟨c, List.mem_append_left _ h3, h4⟩)
      · exact .inr (.inl ⟨s.active, by simp, h3⟩)
    · simp only
      rw [List.pairwise_append]
      refine ⟨h.cids, by simp, ?_⟩
      intro a ha b hb
      rw [List.mem_singleton.1 hb]
      exact h.cidAct a ha
    · intro c hc
      rcases hall c hc with hc | rfl
      · have := h.cidLt c hc; simp only; omega
      · have := h.actLt; simp only; omega
    · intro c hc
      simp only
      rcases hall c hc with hc | rfl
      · have := h.cidLt c hc; omega
      · have := h.actLt; omega
    · simp only; omega
    · intro p hp
      obtain ⟨c, hc, h1⟩ := h.key p hp
      exact ⟨c, List.mem_append_left _ hc, h1⟩
    · intro c hc c' hc' hl hq
      rcases hall c' hc' with hc' | rfl
      · rcases hall c hc with hc | rfl
        · exact h.down c hc c' hc' hl hq
        · have := h.chain.minEnd c' hc'; have := h.act; omega
      · exact absurd hq hnq
    · intro c hc hf
      rcases hall c hc with hc | rfl
      · exact h.flag c hc hf
      · rw [h.actFlag] at hf; cases hf

theorem map_flag_mem {cs : List Cache} {f : Cache → Cache} {c : Cache} (h : c ∈ cs.map f) : ∃ d ∈ cs, c = f d := by
  obtain ⟨d, hd, rfl⟩ := List.mem_map.1 h; exact ⟨d, hd, rfl⟩

theorem inv_begin {s : St} {W : List Nat} {m0 : Nat} (h : Inv s W m0) : Inv s.begin W m0 := by
  obtain ⟨c1, c2⟩ := h.chain.flag (fun c => { c with flushing := true }) fun _ => ⟨rfl, rfl, rfl⟩
  obtain ⟨q1, q2⟩ := foldl_ins (cs := s.immut.filter fun c => !c.flushing) h.sorted
    (h.chain.distinct.imp (fun hab => Nat.ne_of_lt hab) |>.filter _)
  have hin : ∀ c ∈ s.immut, ∃ t, (c.minSeq, t) ∈ s.begin.queue := by
    intro c hc
    cases hf : c.flushing with
    | false => exact ⟨⟨c.cid, false, 0, []⟩, (q2 _).2 (.inl ⟨c, by simp [hc, hf], rfl⟩)⟩
    | true =>
      obtain ⟨t, ht⟩ := h.flag c hc hf
      refine ⟨t, (q2 _).2 (.inr ⟨ht, ?_⟩)⟩
      intro d hd heq
      simp only [List.mem_filter, Bool.not_eq_true'] at hd
      have := h.chain.inj c hc d hd.1 heq
      rw [← this, hf] at hd
      cases hd.2
  refine ⟨c1, ?_, h.actSeq, h.actIn, h.last, ?_, ?_, ?_, ?_, h.actLt, q1, ?_, ?_, h.actFlag, ?_⟩
  · exact h.act.trans c2.symm
  · intro x hx
    rcases h.all x hx with h3 | ⟨c, h3, h4⟩ | h3
    · exact .inl h3
    · exact .inr (.inl ⟨{ c with flushing := true }, List.mem_map.2 ⟨c, h3, rfl⟩, h4⟩)
    · exact .inr (.inr h3)
  · exact List.pairwise_map.2 h.cids
  · intro c hc
    obtain ⟨d, hd, rfl⟩ := map_flag_mem hc
    exact h.cidLt d hd
  · intro c hc
    obtain ⟨d, hd, rfl⟩ := map_flag_mem hc
    exact h.cidAct d hd
  · intro p hp
    rcases (q2 p).1 hp with ⟨c, hc, rfl⟩ | ⟨hp, _⟩
    · exact ⟨{ c with flushing := true }, List.mem_map.2 ⟨c, (List.mem_filter.1 hc).1, rfl⟩, rfl, rfl, by simp⟩
    · obtain ⟨c, hc, h1⟩ := h.key p hp
      exact ⟨{ c with flushing := true }, List.mem_map.2 ⟨c, hc, rfl⟩, h1⟩
  · intro c hc c' hc' _ _
    obtain ⟨d, hd, rfl⟩ := map_flag_mem hc
    exact hin d hd
  · intro c hc _
    obtain ⟨d, hd, rfl⟩ := map_flag_mem hc
    exact hin d hd

theorem inv_abort {s : St} {W : List Nat} {m0 : Nat} (h : Inv s W m0) (cids : List Nat) : Inv (s.abort cids) W m0 := by
  have hf : ∀ c : Cache, (if c.cid ∈ cids then { c with flushing := false } else c).minSeq = c.minSeq
      ∧ (if c.cid ∈ cids then { c with flushing := false } else c).seqNo = c.seqNo
      ∧ (if c.cid ∈ cids then { c with flushing := false } else c).seqs = c.seqs := by
    intro c; split <;> exact ⟨rfl, rfl, rfl⟩
  have hcid : ∀ c : Cache, (if c.cid ∈ cids then { c with flushing := false } else c).cid = c.cid := by
    intro c; split <;> rfl
  obtain ⟨c1, c2⟩ := h.chain.flag _ hf
  refine ⟨c1, h.act.trans c2.symm, h.actSeq, h.actIn, h.last, ?_, ?_, ?_, ?_, h.actLt, h.sorted, ?_, ?_, h.actFlag, ?_⟩
  · intro x hx
    rcases h.all x hx with h3 | ⟨c, h3, h4⟩ | h3
    · exact .inl h3
    · exact .inr (.inl ⟨_, List.mem_map.2 ⟨c, h3, rfl⟩, by rw [(hf c).2.2]; exact h4⟩)
    · exact .inr (.inr h3)
  · refine List.pairwise_map.2 (h.cids.imp ?_)
    intro a b hab
    rw [hcid, hcid]; exact hab
  · intro c hc
    obtain ⟨d, hd, rfl⟩ := map_flag_mem hc
    rw [hcid]; exact h.cidLt d hd
  · intro c hc
    obtain ⟨d, hd, rfl⟩ := map_flag_mem hc
    rw [hcid]; exact h.cidAct d hd
  · intro p hp
    obtain ⟨c, hc, h1⟩ := h.key p hp
    refine ⟨_, List.mem_map.2 ⟨c, hc, rfl⟩, ?_⟩
    rw [hcid, (hf c).1, (hf c).2.1, (hf c).2.2]
    exact h1
  · intro c hc c' hc'
    obtain ⟨d, hd, rfl⟩ := map_flag_mem hc
    obtain ⟨d', hd', rfl⟩ := map_flag_mem hc'
    rw [(hf d).1, (hf d').1]
    exact h.down d hd d' hd'
  · intro c hc hfl
    obtain ⟨d, hd, rfl⟩ := map_flag_mem hc
    rw [(hf d).1]
    apply h.flag d hd
    split at hfl
    · cases hfl
    · exact hfl

/-- The smallest key of the queue belongs to the oldest buffer. -/
theorem first_is_oldest {s : St} {W : List Nat} {m0 : Nat} (h : Inv s W m0) {k : Nat} {t : Task} {q : List (Nat × Task)}
    (hq : s.queue = (k, t) :: q) : ∃ c cs, s.immut = c :: cs ∧ c.minSeq = k ∧ c.cid = t.cid
      ∧ (t.complete = true → t.high = c.seqNo ∧ t.seqs = c.seqs) := by
  obtain ⟨c, hc, h1, h2, h3⟩ := h.key (k, t) (by rw [hq]; simp)
  cases hi : s.immut with
  | nil => rw [hi] at hc; cases hc
  | cons a cs =>
    have hch := h.chain
    rw [hi] at hc hch
    by_cases hac : c = a
    · subst hac; exact ⟨c, cs, rfl, h1, h2, h3⟩
    · exfalso
      rcases List.mem_cons.1 hc with rfl | hc'
      · exact hac rfl
      · have hlt := (List.pairwise_cons.1 hch.distinct).1 c hc'
        obtain ⟨t', ht'⟩ := h.down a (by rw [hi]; simp) c (by rw [hi]; simp [hc']) hlt ⟨t, by rw [hq]; simp only at h1; simp [h1]⟩
        have hs := h.sorted
        rw [hq] at ht' hs
        rcases List.mem_cons.1 ht' with he | ht'
        · simp only [Prod.mk.injEq] at he
          simp only at h1; omega
        · have := (List.pairwise_cons.1 hs).1 _ ht'
          simp only at this h1
          omega

theorem inv_pop {s : St} {W : List Nat} {m0 : Nat} (h : Inv s W m0) {k : Nat} {t : Task} {q : List (Nat × Task)}
    (hq : s.queue = (k, t) :: q) (hc : t.complete = true) :
    Inv { s with mark := max s.mark t.high, stored := s.stored ++ t.seqs, queue := q,
                 immut := s.immut.filter fun c => decide (c.cid ≠ t.cid) } W m0 := by
  obtain ⟨c, cs, hi, h1, h2, h3⟩ := first_is_oldest h hq
  obtain ⟨h4, h5⟩ := h3 hc
  have hch := h.chain
  have hcd := h.cids
  rw [hi] at hch hcd
  have hp := List.pairwise_cons.1 hcd
  have hcs : (s.immut.filter fun c => decide (c.cid ≠ t.cid)) = cs := by
    rw [hi, List.filter_cons, if_neg (by simp [h2]), List.filter_eq_self]
    intro d hd
    exact decide_eq_true (fun he => hp.1 d hd (h2.trans he.symm))
  have hm : max s.mark t.high = c.seqNo := by have := hch.2.1; omega
  have hsub : ∀ d ∈ cs, d ∈ s.immut := by intro d hd; rw [hi]; simp [hd]
  have hqs := h.sorted
  rw [hq] at hqs
  have hlt := (List.pairwise_cons.1 hch.distinct).1
  have hqin : ∀ d ∈ cs, (∃ t, (d.minSeq, t) ∈ s.queue) → ∃ t, (d.minSeq, t) ∈ q := by
    rintro d hd ⟨t', ht'⟩
    rw [hq] at ht'
    rcases List.mem_cons.1 ht' with he | ht'
    · have := hlt d hd
      simp only [Prod.mk.injEq] at he
      omega
    · exact ⟨t', ht'⟩
  rw [hcs, hm]
  refine ⟨hch.2.2.2, ?_, h.actSeq, h.actIn, h.last, ?_, hp.2, fun d hd => h.cidLt d (hsub d hd), fun d hd => h.cidAct d (hsub d hd),
    h.actLt, (List.pairwise_cons.1 hqs).2, ?_, ?_, h.actFlag, ?_⟩
  · have := h.act; rw [hi] at this; exact this
  · intro x hx
    rcases h.all x hx with h6 | ⟨d, h6, h7⟩ | h6
    · exact .inl (List.mem_append_left _ h6)
    · rw [hi] at h6
      rcases List.mem_cons.1 h6 with rfl | h6
      · exact .inl (List.mem_append_right _ (by rw [h5]; exact h7))
      · exact .inr (.inl ⟨d, h6, h7⟩)
    · exact .inr (.inr h6)
  · intro p hpq
    obtain ⟨d, hd, h6⟩ := h.key p (by rw [hq]; simp [hpq])
    rw [hi] at hd
    rcases List.mem_cons.1 hd with rfl | hd
    · have := (List.pairwise_cons.1 hqs).1 p hpq
      simp only at this
      omega
    · exact ⟨d, hd, h6⟩
  · intro d hd d' hd' hl ⟨t', ht'⟩
    exact hqin d hd (h.down d (hsub d hd) d' (hsub d' hd') hl ⟨t', by rw [hq]; simp [ht']⟩)
  · intro d hd hf
    exact hqin d hd (h.flag d (hsub d hd) hf)

theorem inv_process (oks : List Bool) (hok : ∀ b ∈ oks, b = true) (q : List (Nat × Task)) {s : St} {W : List Nat} {m0 : Nat}
    (h : Inv { s with queue := q } W m0) : Inv (process oks q s) W m0 := by
  induction q generalizing oks s with
  | nil => exact h
  | cons p q ih =>
    obtain ⟨k, t⟩ := p
    simp only [process]
    split
    · exact h
    · rename_i hc
      have hc' : t.complete = true := by simpa using hc
      have hh : oks.headD true = true := by
        cases oks with
        | nil => rfl
        | cons b oks => exact hok b (by simp)
      rw [if_pos hh]
      exact ih oks.tail (fun b hb => hok b (List.mem_of_mem_tail hb)) (inv_pop h rfl hc')

theorem inv_finish {s : St} {W : List Nat} {m0 : Nat} (h : Inv s W m0) (cid : Nat) (oks : List Bool) (hok : ∀ b ∈ oks, b = true) :
    Inv (s.finish cid oks) W m0 := by
  unfold St.finish
  split
  · exact h
  · rename_i c hc
    have hcm := List.mem_of_find?_eq_some hc
    apply inv_process oks hok
    have hk : ∀ p : Nat × Task, (if p.1 = c.minSeq then (p.1, { p.2 with complete := true, high := c.seqNo, seqs := c.seqs }) else p).1 = p.1 := by
      intro p; split <;> rfl
    have hex : ∀ k, (∃ t, (k, t) ∈ (s.queue.map fun p => if p.1 = c.minSeq then
        (p.1, { p.2 with complete := true, high := c.seqNo, seqs := c.seqs }) else p)) ↔ ∃ t, (k, t) ∈ s.queue := by
      intro k
      constructor
      · rintro ⟨t, ht⟩
        obtain ⟨p, hp, he⟩ := List.mem_map.1 ht
        have := hk p
        rw [he] at this
        exact ⟨p.2, by rw [show (k, p.2) = p from Prod.ext this rfl]; exact hp⟩
      · rintro ⟨t, ht⟩
        by_cases he : k = c.minSeq
        · exact ⟨{ t with complete := true, high := c.seqNo, seqs := c.seqs },
            List.mem_map.2 ⟨(k, t), ht, by simp only; rw [if_pos he]⟩⟩
        · exact ⟨t, List.mem_map.2 ⟨(k, t), ht, by simp only; rw [if_neg he]⟩⟩
    refine ⟨h.chain, h.act, h.actSeq, h.actIn, h.last, h.all, h.cids, h.cidLt, h.cidAct, h.actLt, ?_, ?_, ?_, h.actFlag, ?_⟩
    · refine List.pairwise_map.2 (h.sorted.imp ?_)
      intro a b hab
      rw [hk, hk]; exact hab
    · intro p hp
      obtain ⟨r, hr, rfl⟩ := List.mem_map.1 hp
      obtain ⟨d, hd, h1, h2, h3⟩ := h.key r hr
      refine ⟨d, hd, ?_⟩
      split
      · rename_i he
        have hdc : d = c := h.chain.inj d hd c hcm (h1.trans he)
        subst hdc
        exact ⟨h1, h2, fun _ => ⟨rfl, rfl⟩⟩
      · exact ⟨h1, h2, h3⟩
    · intro d hd d' hd' hl hq
      exact (hex _).2 (h.down d hd d' hd' hl ((hex _).1 hq))
    · intro d hd hf
      exact (hex _).2 (h.flag d hd hf)

theorem inv_run (ops : List Op) {s : St} {W : List Nat} {m0 : Nat} (h : Inv s W m0) (hi : Increasing m0 ops) (he : NoError ops) :
    ∃ m, Inv (run ops s) (W ++ accepted ops) m := by
  induction ops generalizing s W m0 with
  | nil => exact ⟨m0, by simpa [run, accepted] using h⟩
  | cons op ops ih =>
    have he' : NoError ops := fun o ho => he o (List.mem_cons_of_mem _ ho)
    cases op with
    | write seq ok =>
      have := ih (inv_write h seq ok hi.1) hi.2 he'
      rw [List.append_assoc] at this
      cases ok <;> exact this
    | switch => exact ih (inv_switch h) hi he'
    | begin => exact ih (inv_begin h) hi he'
    | finish cid oks => exact ih (inv_finish h cid oks (he _ List.mem_cons_self cid oks rfl)) hi he'
    | abort cids => exact ih (inv_abort h cids) hi he'

/-- **C74, part proved**: a vnode is opened with the mark `m`, and writes, switches of the buffer, starts, ends and failures of
flushes happen in any order.  Whenever all edits so far were written without an error, each accepted write with a number up to the mark
is in a file of the version, so a restart, which replays the writes above the mark, loses nothing.
Missing, refuted below: the case that writing an edit fails. -/
theorem C74_mark_covers_files_partial (m : Nat) (stored : List Nat) (ops : List Op) (hi : Increasing m ops) (he : NoError ops) :
    ∀ x ∈ accepted ops, x ≤ (run ops (St.opened m stored)).mark → x ∈ (run ops (St.opened m stored)).stored := by
  obtain ⟨m', h⟩ := inv_run ops (inv_opened m stored) hi he
  intro x hx hm
  rcases h.all x (by simpa using hx) with h1 | ⟨c, h1, h2⟩ | h1
  · exact h1
  · have := h.chain.seq c h1 x h2; omega
  · have := h.actIn x h1; have := h.act; have := h.chain.le; omega

/-- The same from the view of reading: every accepted write is in a file or in a buffer that is still read, and those above the mark
that are not in a file are in a buffer. -/
theorem C74_no_write_lost_partial (m : Nat) (stored : List Nat) (ops : List Op) (hi : Increasing m ops) (he : NoError ops) :
    ∀ x ∈ accepted ops, let s := run ops (St.opened m stored)
      x ∈ s.stored ∨ (∃ c ∈ s.immut, x ∈ c.seqs) ∨ x ∈ s.active.seqs := by
  obtain ⟨m', h⟩ := inv_run ops (inv_opened m stored) hi he
  intro x hx
  exact h.all x (by simpa using hx)

/-- Three buffers; the second is ready first and waits; the flush of the first fails and is repeated. -/
def exOps : List Op :=
  [.write 1 true, .write 2 true, .switch, .write 3 true, .switch, .begin, .write 4 true, .write 5 false, .switch, .begin,
   .finish 1 [], .abort [0], .finish 2 [], .begin, .finish 0 [true]]

example : Increasing 0 exOps ∧ NoError exOps ∧ accepted exOps = [1, 2, 3, 4] ∧
    (run (exOps.take 13) (St.opened 0 [])).mark = 0 ∧
    (run exOps (St.opened 0 [])).mark = 5 ∧ (run exOps (St.opened 0 [])).stored = [1, 2, 3, 4] := by
  refine ⟨by simp [exOps, Increasing], ?_, by decide, by decide, by decide, by decide⟩
  intro op ho cid oks hop b hb
  simp only [exOps, List.mem_cons, List.not_mem_nil, or_false] at ho
  rcases ho with rfl | rfl | rfl | rfl | rfl | rfl | rfl | rfl | rfl | rfl | rfl | rfl | rfl | rfl | rfl <;> cases hop <;> simp_all

/-- **C74 refuted**: two buffers are flushed, writing the edit of the first fails (say, the disk is full for a moment) and that of the
second succeeds.  The mark now covers the write of the first buffer, which is in no file: `process_summary_tasks` has dropped
its task and gone on with the next. -/
theorem C74_failed_edit_refuted :
    let ops : List Op := [.write 1 true, .switch, .write 2 true, .switch, .begin, .finish 1 [], .finish 0 [false, true]]
    let s := run ops (St.opened 0 [])
    Increasing 0 ops ∧ 1 ∈ accepted ops ∧ 1 ≤ s.mark ∧ 1 ∉ s.stored := by
  refine ⟨by simp [Increasing], by decide, by decide, by decide⟩

end Verif.Flush
