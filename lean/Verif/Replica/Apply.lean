import Verif.Replica.Core
/-!
# Commands keep the invariant
-/
namespace Verif.Replica

/-! ## Caches -/

theorem onLast_snoc (f : Cache → Cache) : ∀ (cs : List Cache) (c : Cache), onLast f (cs ++ [c]) = cs ++ [f c]
  | [], c => rfl
  | [a], c => rfl
  | a :: b :: cs, c => by
    have := onLast_snoc f (b :: cs) c
    simp only [List.cons_append] at this ⊢
    simp only [onLast, this]

theorem putAll_id (q : Nat) : ∀ (cells : List (Nat × Cell)) (c : Cache), (c.putAll q cells).id = c.id
  | [], _ => rfl
  | e :: cells, c => by
    show ((c.put q e.1 e.2).putAll q cells).id = _
    rw [putAll_id q cells]; rfl

theorem putAll_seq (q : Nat) : ∀ (cells : List (Nat × Cell)) (c : Cache), (c.putAll q cells).seq = if cells = [] then c.seq else q
  | [], _ => rfl
  | e :: cells, c => by
    show ((c.put q e.1 e.2).putAll q cells).seq = _
    rw [putAll_seq q cells]
    simp only [reduceCtorEq, if_false]
    split <;> rfl

theorem look_cons (c : Cell) (rows : List Cell) (sid : Nat) (ts : Int) :
    look (c :: rows) sid ts = if c.sid = sid ∧ c.ts = ts then some c.val else look rows sid ts := by
  simp only [look, List.find?_cons]
  by_cases h : c.sid = sid ∧ c.ts = ts
  · simp [h]
  · rw [if_neg h]
    have : (decide (c.sid = sid) && decide (c.ts = ts)) = false := by
      rw [← Bool.not_eq_true]; simpa using h
    rw [this]

theorem Good.puts {sid : Nat} {ts : Int} (q : Nat) {vs : List (Option Nat)} {es : List (List Ev)} : ∀ (cells : List (Nat × Cell)) (c : Cache)
    {e : List Ev}, Good sid ts (vs ++ [look c.rows sid ts]) (es ++ [e]) →
    Good sid ts (vs ++ [look (c.putAll q cells).rows sid ts]) (es ++ [e ++ cells.map fun x => Ev.put x.2])
  | [], c, e, h => by simpa [Cache.putAll] using h
  | x :: cells, c, e, h => by
    have h1 := Good.put x.2 h
    rw [← look_cons] at h1
    have h2 := Good.puts q cells (c.put q x.1 x.2) h1
    rw [List.append_assoc] at h2
    exact h2

theorem look_filter (d : List Nat × Int × Int) (sid : Nat) (ts : Int) : ∀ (rows : List Cell),
    look (rows.filter fun x => !covers d x.sid x.ts) sid ts = if covers d sid ts then none else look rows sid ts
  | [] => by simp [look]
  | c :: rows => by
    have ih := look_filter d sid ts rows
    rw [List.filter_cons]
    by_cases hc : covers d c.sid c.ts = true
    · simp only [hc, Bool.not_true, Bool.false_eq_true, if_false, ih, look_cons]
      by_cases h : c.sid = sid ∧ c.ts = ts
      · rw [h.1, h.2] at hc; simp [hc]
      · simp [h]
    · simp only [hc, Bool.not_false, if_true, look_cons, ih]
      by_cases h : c.sid = sid ∧ c.ts = ts
      · rw [h.1, h.2] at hc; simp [hc, h]
      · simp [h]

/-! ## Writes -/

theorem resolve_eq {v : Vnode} {wal : Bool} (hw : wal = false ∨ ∀ k, v.old.get k = none) (k : Nat) :
    v.resolve wal k = ({ v with live := (v.live.add k).1 }, (v.live.add k).2) := by
  unfold Vnode.resolve
  cases hf : v.live.fwd.get k with
  | some sid => simp [Index.add, hf]
  | none =>
    have : (if wal = true then v.old.get k else none) = none := by
      rcases hw with h | h
      · simp [h]
      · simp [h]
    rw [this]

theorem resolveAll_eq {wal : Bool} : ∀ (rows : List (Nat × Int × Nat)) (v : Vnode), (wal = false ∨ ∀ k, v.old.get k = none) →
    Vnode.resolveAll wal v rows = ({ v with live := (v.live.addAll rows).1 }, (v.live.addAll rows).2)
  | [], v, _ => rfl
  | (k, ts, x) :: rows, v, hw => by
    simp only [Vnode.resolveAll, resolve_eq hw]
    rw [resolveAll_eq rows { v with live := (v.live.add k).1 } hw]
    rfl

theorem apply_write {v : Vnode} {wal : Bool} (hw : wal = false ∨ ∀ k, v.old.get k = none) (q : Nat) (rows : List (Nat × Int × Nat)) :
    v.apply wal q (.write rows) =
      { v with live := (v.live.addAll rows).1, caches := onLast (fun c => c.putAll q (v.live.addAll rows).2) v.caches } := by
  simp only [Vnode.apply, resolveAll_eq rows v hw]

theorem isEmpty_cells {x : Index} {rows : List (Nat × Int × Nat)} (h : rows ≠ []) : (x.addAll rows).2 ≠ [] := by
  intro e
  have := Index.addAll_rows rows x
  rw [e] at this
  exact h this.symm

theorem exists_snoc {α : Type} {l : List α} (h : l ≠ []) : ∃ a x, l = a ++ [x] := ⟨l.dropLast, l.getLast h, (List.dropLast_concat_getLast h).symm⟩

/-- The history after a write. -/
def H.write (h : H) (n : Nat) (puts : List Ev) : H :=
  ⟨h.q0, h.s0, h.segs.dropLast ++ [(n, (h.segs.getLast?.map Prod.snd).getD [] ++ h.tail ++ puts)], []⟩

theorem no_del_puts (cells : List (Nat × Cell)) (q : Nat) (p : Nat → Bool) (d : List Nat × Int × Int) :
    Ev.del q p d ∉ cells.map fun e => Ev.put e.2 := by
  intro h
  obtain ⟨_, _, e⟩ := List.mem_map.1 h
  cases e

theorem hasDel_puts (cells : List (Nat × Cell)) (sid : Nat) (ts : Int) : hasDel sid ts (cells.map fun e => Ev.put e.2) = false := by
  simp only [hasDel, List.any_map, List.any_eq_false]
  intro e _
  simp only [Function.comp, Ev.at]
  split <;> simp

theorem Core.write {F : Nat → Int → Prop} {v : Vnode} {log : List Cmd} {h : H} (c : Core F v log h) {wal : Bool}
    (hw : wal = false ∨ ∀ k, v.old.get k = none) {rows : List (Nat × Int × Nat)} (hr : rows ≠ []) :
    Core F (v.apply wal (log.length + 1) (.write rows)) (log ++ [.write rows])
      (h.write (log.length + 1) ((v.live.addAll rows).2.map fun e => Ev.put e.2)) := by
  rw [apply_write hw]
  obtain ⟨cs, cl, hcs⟩ := exists_snoc c.ne
  have hlen : h.segs.length = v.caches.length := by
    have := congrArg List.length c.seqs; simpa using this
  have hsn : h.segs ≠ [] := by
    intro e; rw [e, hcs] at hlen; simp at hlen
  obtain ⟨ss, sl, hss⟩ := exists_snoc hsn
  obtain ⟨ql, el⟩ := sl
  have hok := Index.addAll_ok rows c.ix
  have hcell := isEmpty_cells (x := v.live) hr
  generalize hputs : ((v.live.addAll rows).2.map fun e => Ev.put e.2) = puts
  have hnd : ∀ q p d, Ev.del q p d ∉ puts := by rw [← hputs]; exact no_del_puts _
  have hnd' : ∀ sid ts, hasDel sid ts puts = false := by rw [← hputs]; exact hasDel_puts _
  have hwr : h.write (log.length + 1) puts = ⟨h.q0, h.s0, ss ++ [(log.length + 1, el ++ h.tail ++ puts)], []⟩ := by
    simp [H.write, hss]
  rw [hwr]
  have hlater : H.later ⟨h.q0, h.s0, ss ++ [(log.length + 1, el ++ h.tail ++ puts)], []⟩ = h.later ++ puts := by
    simp [H.later, hss]
  have hseqs := c.seqs
  rw [hss, hcs] at hseqs
  simp only [List.map_append, List.map_cons, List.map_nil] at hseqs
  have hseqs1 := List.append_inj_left hseqs (by
    have := congrArg List.length hseqs
    simp at this
    simp [this])
  have hm := c.mono
  have hp := c.pos
  have hcu := c.cuts
  simp only [H.parts, hss] at hm hp hcu
  rw [hcs, onLast_snoc]
  refine ⟨c.q0, ?_, by simp, ?_, ?_, ?_, c.fileMax, ?_, ?_, hok.1, ?_, ?_, ?_⟩
  · simp only [List.map_append, List.map_cons, List.map_nil, hseqs1, putAll_seq, if_neg hcell]
  · simp only [H.parts, List.length_append, List.length_singleton, List.map_append, List.map_cons, List.map_nil, List.cons_append,
      List.pairwise_cons, List.pairwise_append, List.mem_append, List.mem_cons, List.mem_singleton, List.not_mem_nil] at hm ⊢
    have hb := c.bound
    refine ⟨fun a ha => ?_, ⟨⟨hm.2.1.1, by simp, fun a ha b hb' => ?_⟩, by simp, fun a ha b hb' => ?_⟩⟩
    · have h0 := hb (h.q0, h.s0) List.mem_cons_self
      rcases ha with (ha | ha) | ha
      · exact hm.1 a (.inl (.inl ha))
      · simp at ha h0; omega
      · simp at ha h0; omega
    · have := hm.2.1.2.2 a ha ql (.inl rfl)
      have h1 := hb (ql, el) (by rw [hss]; simp)
      simp at hb' h1; omega
    · rcases ha with ha | ha
      · have := hm.2.2.2 a (.inl ha) log.length (.inl rfl)
        simp at hb'; omega
      · simp at ha hb'; omega
  · have := c.ids
    simp only [Vnode.ids, hcs, List.map_append, List.map_cons, List.map_nil] at this ⊢
    rw [putAll_id]; exact this
  · have := c.idMax
    simp only [Vnode.ids, hcs, List.map_append, List.map_cons, List.map_nil] at this ⊢
    rw [putAll_id]; exact this
  · intro sid ts
    rw [hlater, hasDel_append, hnd', Bool.or_false]
    exact c.head sid ts
  · intro sid ts
    have h1 := c.rest sid ts
    simp only [Vnode.cacheVals, hcs, hss, List.map_append, List.map_cons, List.map_nil, List.append_assoc, List.cons_append, List.nil_append] at h1 ⊢
    have h2 := Good.mergeLast h1
    simp only [Option.none_or] at h2
    have h3 := Good.puts (log.length + 1) (v.live.addAll rows).2 cl h2
    rw [hputs] at h3
    have h4 := Good.snoc h3
    simpa [List.append_assoc] using h4
  · have hb := c.bound
    simp only [H.parts, List.length_append, List.length_singleton, List.cons_append, List.append_assoc] at hcu ⊢
    replace hcu : AllCuts (Cut v.live log) [] (((h.q0, h.s0) :: ss) ++ [(ql, el), (log.length, h.tail)]) := by simpa using hcu
    rw [AllCuts.append] at hcu
    suffices hs : AllCuts (Cut (v.live.addAll rows).1 (log ++ [.write rows])) [] (((h.q0, h.s0) :: ss) ++
        [(log.length + 1, el ++ (h.tail ++ puts)), (log.length + 1, [])]) by simpa using hs
    rw [AllCuts.append]
    have hnew : Cut (v.live.addAll rows).1 (log ++ [.write rows]) (log.length + 1)
        (([] ++ List.flatMap Prod.snd ((h.q0, h.s0) :: ss)) ++ (el ++ (h.tail ++ puts))) := by
      have hf := c.full
      have hall : ([] ++ List.flatMap Prod.snd ((h.q0, h.s0) :: ss)) ++ (el ++ (h.tail ++ puts)) = h.all ++ puts := by
        simp [H.all, H.later, hss]
      rw [hall]
      have hy := Index.addAll_cells rows c.ix _ hok.1 (Index.Ext.refl _)
      refine ⟨?_, fun _ => ?_⟩
      · intro e he
        rcases List.mem_append.1 he with he | he
        · exact (hf.1.ext hok.2) e he
        · rw [← hputs] at he
          obtain ⟨x, hx, e'⟩ := List.mem_map.1 he
          cases e'
          have := hy x hx
          rw [hok.1.bij] at this
          rw [this]; rfl
      · rw [show (log ++ [Cmd.write rows]).take (log.length + 1) = log ++ [.write rows] by
          rw [List.take_of_length_le (by simp)], specOf_snoc]
        have h1 := Index.addAll_agree rows c.ix hf.1 hf.2
        have h2 := Agree.puts hok.1 (v.live.addAll rows).2 h1 hy
        rw [hputs, Index.addAll_rows] at h2
        exact h2
    refine ⟨AllCuts.imp (fun z hz evs hz' => hz'.snoc (hb z ?_) (Known.ext hok.2) fun _ hk σ hσ => Index.addAll_agree rows c.ix hk hσ) hcu.1, hnew, ?_, trivial⟩
    · simpa using hnew
    · rw [hss]
      rcases List.mem_cons.1 hz with hz | hz
      · exact List.mem_cons.2 (.inl hz)
      · exact List.mem_cons_of_mem _ (List.mem_append_left _ hz)
  · rw [hlater]
    intro q p d hd
    rcases List.mem_append.1 hd with hd | hd
    · exact (c.dels.snoc fun _ => hok.2) q p d hd
    · exact absurd hd (hnd _ _ _)
  · simp only [H.parts, List.length_append, List.length_singleton, List.cons_append, List.append_assoc] at hp ⊢
    simp only [List.pairwise_cons, List.pairwise_append, List.mem_append, List.mem_cons, List.mem_singleton, List.not_mem_nil, List.cons_append,
      List.nil_append] at hp ⊢
    refine ⟨fun b hb => ?_, hp.2.1, ⟨fun b hb => ?_, by simp⟩, fun a ha b hb => ?_⟩
    · rcases hb with hb | hb | hb
      · exact hp.1 b (.inl hb)
      · subst hb
        intro q p d hd
        simp only [List.mem_append] at hd
        rcases hd with hd | hd | hd
        · exact hp.1 (ql, el) (.inr (.inl rfl)) q p d hd
        · exact hp.1 (log.length, h.tail) (.inr (.inr (.inl rfl))) q p d hd
        · exact absurd hd (hnd _ _ _)
      · rcases hb with hb | hb
        · subst hb; intro q p d hd; cases hd
        · exact hb.elim
    · rcases hb with hb | hb
      · subst hb; intro q p d hd; cases hd
      · exact hb.elim
    · rcases hb with hb | hb | hb
      · subst hb
        intro q p d hd
        simp only [List.mem_append] at hd
        rcases hd with hd | hd | hd
        · exact hp.2.2.2 a ha (ql, el) (.inl rfl) q p d hd
        · exact hp.2.2.2 a ha (log.length, h.tail) (.inr (.inl rfl)) q p d hd
        · exact absurd hd (hnd _ _ _)
      · subst hb; intro q p d hd; cases hd
      · exact hb.elim

/-! ## Deletes -/

theorem newest_map_none {α : Type} (g : α → Option Nat) (b : Bool) (l : List α) :
    newest (l.map fun a => if b then none else g a) = if b then none else newest (l.map g) := by
  cases b with
  | false => simp
  | true =>
    simp only [if_true]
    induction l with
    | nil => rfl
    | cons a l ih => simp only [List.map_cons, newest, ih, Option.or_none]

theorem delete_fileVal (v : Vnode) (d : List Nat × Int × Int) (sid : Nat) (ts : Int) :
    (v.delete d).fileVal sid ts = if covers d sid ts then none else v.fileVal sid ts := by
  simp only [Vnode.fileVal, Vnode.delete, List.map_map]
  rw [← newest_map_none]
  congr 1
  apply List.map_congr_left
  intro f _
  simp only [Function.comp, File.look, List.any_append, List.any_cons, List.any_nil, Bool.or_false]
  cases h : covers d sid ts <;> cases f.tombs.any fun d => covers d sid ts <;> rfl

theorem delete_cacheVals (v : Vnode) (d : List Nat × Int × Int) (sid : Nat) (ts : Int) :
    (v.delete d).cacheVals sid ts = (v.cacheVals sid ts).map fun x => if covers d sid ts then none else x := by
  simp only [Vnode.cacheVals, Vnode.delete, List.map_map]
  apply List.map_congr_left
  intro c _
  simp only [Function.comp, Cache.delete, look_filter]

theorem delete_ids (v : Vnode) (d : List Nat × Int × Int) : (v.delete d).ids = v.ids := by
  simp [Vnode.ids, Vnode.delete, Function.comp_def, Cache.delete]

theorem Core.delete {F F' : Nat → Int → Prop} {v : Vnode} {log : List Cmd} {h : H} (c : Core F v log h) (wal : Bool)
    (p : Nat → Bool) (lo hi : Int) (hF : ∀ sid ts, F sid ts → F' sid ts ∨ covers (v.live.select p, lo, hi) sid ts = true) :
    Core F' (v.apply wal (log.length + 1) (.delete p lo hi)) (log ++ [.delete p lo hi])
      { h with tail := h.tail ++ [.del (log.length + 1) p (v.live.select p, lo, hi)] } := by
  show Core F' (v.delete (v.live.select p, lo, hi)) _ _
  generalize hd : (v.live.select p, lo, hi) = d at hF ⊢
  have hlater : H.later { h with tail := h.tail ++ [.del (log.length + 1) p d] } = h.later ++ [.del (log.length + 1) p d] := by
    simp [H.later]
  have hlive : (v.delete d).live = v.live := rfl
  have hm := c.mono
  have hp := c.pos
  have hcu := c.cuts
  simp only [H.parts, List.map_append] at hm
  simp only [H.parts] at hp hcu
  rw [List.pairwise_append] at hm hp
  rw [AllCuts.append] at hcu
  refine ⟨c.q0, ?_, ?_, ?_, by rw [delete_ids]; exact c.ids, by rw [delete_ids]; exact c.idMax, ?_, ?_, ?_, c.ix, ?_, ?_, ?_⟩
  · rw [c.seqs]; simp [Vnode.delete, Function.comp_def, Cache.delete]
  · simp [Vnode.delete, c.ne]
  · simp only [H.parts, List.map_append, List.length_append]
    rw [List.pairwise_append]
    refine ⟨hm.1, by simp, fun a ha' b hb => ?_⟩
    simp only [List.map_cons, List.map_nil, List.mem_singleton] at hb
    have := hm.2.2 a ha' log.length (by simp)
    simp at hb ⊢; omega
  · intro f hf
    simp only [Vnode.delete, List.mem_map] at hf
    obtain ⟨g, hg, rfl⟩ := hf
    exact c.fileMax g hg
  · intro sid ts
    rw [hlater, hasDel_append, delete_fileVal]
    by_cases hcv : covers d sid ts = true
    · left
      have : hasDel sid ts [.del (log.length + 1) p d] = true := by simp [hasDel, Ev.at, hcv]
      simp [hcv, this]
    · have : hasDel sid ts [.del (log.length + 1) p d] = false := by simp [hasDel, Ev.at, hcv]
      rw [this]
      simp only [hcv, Bool.false_eq_true, if_false, Bool.or_false]
      rcases c.head sid ts with h1 | h1
      · exact .inl h1
      · exact .inr ⟨h1.1, (hF sid ts h1.2).resolve_right hcv⟩
  · intro sid ts
    have h1 := Good.del (log.length + 1) p d (c.rest sid ts)
    rw [delete_cacheVals]
    simpa using h1
  · simp only [H.parts]
    rw [AllCuts.append]
    refine ⟨AllCuts.imp (fun z hz evs hz' => hz'.snoc (c.bound z hz) id fun _ _ σ hσ => hσ) hcu.1, ?_, trivial⟩
    have hall : ([] ++ List.flatMap Prod.snd ((h.q0, h.s0) :: h.segs) ++ (h.tail ++ [.del (log.length + 1) p d])) =
        h.all ++ [.del (log.length + 1) p d] := by
      simp [H.all, H.later]
    rw [hall]
    refine ⟨fun e he => ?_, fun _ => ?_⟩
    · rcases List.mem_append.1 he with he | he
      · exact c.full.1 e he
      · simp at he
    · rw [List.take_length, specOf_snoc, ← hd]
      exact Agree.del c.ix c.full.2 _ p lo hi
  · rw [hlater]
    intro q p' d' hdel
    rcases List.mem_append.1 hdel with h1 | h1
    · exact (c.dels.snoc fun _ => Index.Ext.refl _) q p' d' h1
    · simp only [List.mem_singleton, Ev.del.injEq] at h1
      obtain ⟨rfl, rfl, rfl⟩ := h1
      refine ⟨by omega, ?_, fun _ sid hs => ?_⟩
      · subst hd; simp
      · rw [← hd] at hs
        exact Index.mem_select.1 hs
  · simp only [H.parts]
    rw [List.pairwise_append]
    refine ⟨hp.1, by simp, fun a ha' b hb => ?_⟩
    simp only [List.mem_singleton] at hb
    subst hb
    intro q p' d' hdel
    rcases List.mem_append.1 hdel with h1 | h1
    · exact hp.2.2 a ha' (log.length, h.tail) List.mem_cons_self q p' d' h1
    · simp only [List.mem_singleton, Ev.del.injEq] at h1
      have := c.bound a ha'
      omega

/-! ## Changes of tags -/

theorem renameFold (f : Nat → Nat) : ∀ (found : List (Nat × Nat)) (v : Vnode),
    let w := found.foldl (fun v m => v.renameOne m.2 (f m.1) m.1) v
    w.live = v.live.renameAll f found ∧
    w = { v with live := w.live, disk := w.disk, old := w.old, files := w.files, caches := w.caches } ∧
    w.files.map (fun f => (f.id, f.rows, f.tombs)) = v.files.map (fun f => (f.id, f.rows, f.tombs)) ∧
    w.caches.map (fun c => (c.id, c.seq, c.rows)) = v.caches.map fun c => (c.id, c.seq, c.rows)
  | [], v => ⟨rfl, rfl, rfl, rfl⟩
  | m :: found, v => by
    obtain ⟨h1, h2, h3, h4⟩ := renameFold f found (v.renameOne m.2 (f m.1) m.1)
    refine ⟨h1, ?_, ?_, ?_⟩
    · exact h2
    · refine h3.trans ?_
      simp only [Vnode.renameOne, List.map_map]; rfl
    · refine h4.trans ?_
      simp only [Vnode.renameOne, List.map_map]; rfl

theorem Core.rename {F : Nat → Int → Prop} {v : Vnode} {log : List Cmd} {h : H} (c : Core F v log h)
    (h1 : HasAll v.live (specOf log)) (h2 : HasOnly v.live (specOf log)) (f : Nat → Nat) (ms : List Nat) (q : Nat) :
    Core F (v.apply false q (.rename f ms)) (log ++ [.rename f ms]) h ∧
      HasAll (v.apply false q (.rename f ms)).live (specOf (log ++ [.rename f ms])) ∧
      HasOnly (v.apply false q (.rename f ms)).live (specOf (log ++ [.rename f ms])) := by
  rw [specOf_snoc]
  simp only [Vnode.apply]
  by_cases hok : v.live.renameOk false f (v.live.matched ms) = true
  · rw [if_pos hok]
    obtain ⟨r1, r2, r3, r4⟩ := renameFold f (v.live.matched ms) v
    obtain ⟨a1, a2, a3, a4, a5⟩ := Agree.rename c.ix c.full.2 h1 h2 f ms hok
    generalize (v.live.matched ms).foldl (fun v m => v.renameOne m.2 (f m.1) m.1) v = w at r1 r2 r3 r4 ⊢
    refine ⟨c.idle _ r2 r3 r4 (by rw [r1]; exact a1) (by rw [r1]; exact a5) nofun ?_, by rw [r1]; exact a3, by rw [r1]; exact a4⟩
    rw [r1, specOf_snoc]; exact a2
  · rw [if_neg hok]
    have hs : (specOf log).step (.rename f ms) = specOf log := by
      rw [Index.renameOk_eq h1 h2] at hok
      simp only [Spec.step]
      rw [if_neg hok]
    rw [hs]
    refine ⟨c.idle _ rfl rfl rfl c.ix (fun _ h => h) (fun _ => rfl) ?_, h1, h2⟩
    rw [specOf_snoc, hs]; exact c.full.2

/-! ## All commands -/

/-- A command that is not a change of tags, with `F` cells missing from the files before and `F'` after. -/
theorem Core.apply {F F' : Nat → Int → Prop} {v : Vnode} {log : List Cmd} {h : H} (c : Core F v log h) {wal : Bool}
    (hw : wal = false ∨ ∀ k, v.old.get k = none) (cmd : Cmd) (hc : cmd.isRename = false)
    (hF : ∀ sid ts, F sid ts → F' sid ts ∨ ∃ p lo hi, cmd = .delete p lo hi ∧ covers (v.live.select p, lo, hi) sid ts = true) :
    ∃ h', Core F' (v.apply wal (log.length + 1) cmd) (log ++ [cmd]) h' ∧ h'.q0 = h.q0 ∧ h'.s0 = h.s0 ∧
      (∀ n, n < h.segs.length → h'.segs.take n = h.segs.take n) ∧ v.live.Ext (v.apply wal (log.length + 1) cmd).live := by
  have weak : (∀ p lo hi, cmd ≠ .delete p lo hi) → Core F' v log h := by
    intro hn
    refine { c with head := fun sid ts => ?_ }
    rcases c.head sid ts with h1 | h1
    · exact .inl h1
    · refine .inr ⟨h1.1, ?_⟩
      rcases hF sid ts h1.2 with h2 | ⟨p, lo, hi, e, _⟩
      · exact h2
      · exact absurd e (hn p lo hi)
  cases cmd with
  | rename f ms => cases hc
  | blank =>
    refine ⟨h, (weak nofun).idle _ rfl rfl rfl c.ix (fun _ h => h) (fun _ => rfl) ?_, rfl, rfl, fun _ _ => rfl, Index.Ext.refl _⟩
    rw [specOf_snoc]; exact c.full.2
  | write rows =>
    by_cases hr : rows = []
    · subst hr
      rw [apply_write hw]
      refine ⟨h, (weak nofun).idle _ rfl rfl ?_ c.ix (fun _ h => h) (fun _ => rfl) ?_, rfl, rfl, fun _ _ => rfl, Index.Ext.refl _⟩
      · obtain ⟨cs, cl, hcs⟩ := exists_snoc c.ne
        simp [hcs, onLast_snoc, Index.addAll, Cache.putAll]
      · rw [specOf_snoc]; exact c.full.2
    · refine ⟨_, (weak nofun).write hw hr, rfl, rfl, fun n hn => ?_, ?_⟩
      · simp only [H.write]
        rw [List.take_append_of_le_length (by simp; omega), List.dropLast_eq_take, List.take_take, Nat.min_eq_left (by omega)]
      rw [apply_write hw]
      exact (Index.addAll_ok rows c.ix).2
  | delete p lo hi =>
    refine ⟨_, c.delete wal p lo hi (fun sid ts hf => ?_), rfl, rfl, fun _ _ => rfl, Index.Ext.refl _⟩
    rcases hF sid ts hf with h1 | ⟨p', lo', hi', e, h1⟩
    · exact .inl h1
    · cases e; exact .inr h1

end Verif.Replica
