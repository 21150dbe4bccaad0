import Verif.Replica.Idx
/-!
# The invariant of a vnode and its log

The events are cut into parts: those in the files, those in each cache, and deletes after the last write.
-/
namespace Verif.Replica

/-- The history: the part in the files, with the number of its last write; a part for each cache; the rest. -/
structure H where
  q0 : Nat
  s0 : List Ev
  segs : List (Nat × List Ev)
  tail : List Ev

def H.later (h : H) : List Ev := h.segs.flatMap Prod.snd ++ h.tail

def H.all (h : H) : List Ev := h.s0 ++ h.later

/-- All parts. -/
def H.parts (h : H) (n : Nat) : List (Nat × List Ev) := (h.q0, h.s0) :: h.segs ++ [(n, h.tail)]

/-- A condition at the end of each part. -/
def AllCuts (P : Nat → List Ev → Prop) : List Ev → List (Nat × List Ev) → Prop
  | _, [] => True
  | acc, z :: zs => P z.1 (acc ++ z.2) ∧ AllCuts P (acc ++ z.2) zs

theorem AllCuts.append {P : Nat → List Ev → Prop} : ∀ {acc : List Ev} {a b : List (Nat × List Ev)},
    AllCuts P acc (a ++ b) ↔ AllCuts P acc a ∧ AllCuts P (acc ++ a.flatMap Prod.snd) b
  | acc, [], b => by simp [AllCuts]
  | acc, z :: a, b => by
    simp only [List.cons_append, AllCuts, List.flatMap_cons, AllCuts.append (a := a), and_assoc, List.append_assoc]

theorem AllCuts.imp {P P' : Nat → List Ev → Prop} : ∀ {acc : List Ev} {zs : List (Nat × List Ev)},
    (∀ z ∈ zs, ∀ evs, P z.1 evs → P' z.1 evs) → AllCuts P acc zs → AllCuts P' acc zs
  | _, [], _, _ => trivial
  | acc, z :: zs, h, hc => ⟨h z List.mem_cons_self _ hc.1, AllCuts.imp (fun z' hz' => h z' (List.mem_cons_of_mem _ hz')) hc.2⟩

/-- At a cut: as long as no tags were changed since, the index tells what the log said there. -/
def Cut (x : Index) (log : List Cmd) (n : Nat) (evs : List Ev) : Prop :=
  Known x evs ∧ (NoRename (log.drop n) → Agree x (specOf (log.take n)) evs)

/-- The value of a cell in the files. -/
def Vnode.fileVal (v : Vnode) (sid : Nat) (ts : Int) : Option Nat := newest (v.files.map fun f => f.look sid ts)

def Vnode.cacheVals (v : Vnode) (sid : Nat) (ts : Int) : List (Option Nat) := v.caches.map fun c => look c.rows sid ts

def Vnode.ids (v : Vnode) : List Nat := v.files.map File.id ++ v.caches.map Cache.id

/-- A delete event is in the log, and chose the series by their present keys. -/
def DelOk (x : Index) (log : List Cmd) (later : List Ev) : Prop :=
  ∀ q p d, Ev.del q p d ∈ later → 1 ≤ q ∧ log[q - 1]? = some (.delete p d.2.1 d.2.2) ∧
    (NoRename (log.drop q) → ∀ sid ∈ d.1, ∃ k, x.key.get sid = some k ∧ p k = true)

/-- Deletes belong to the part after the cut. -/
def After (a b : Nat × List Ev) : Prop := ∀ q p d, Ev.del q p d ∈ b.2 → a.1 < q

structure Core (F : Nat → Int → Prop) (v : Vnode) (log : List Cmd) (h : H) : Prop where
  q0 : h.q0 = v.flushed
  seqs : h.segs.map Prod.fst = v.caches.map Cache.seq
  ne : v.caches ≠ []
  mono : ((h.parts log.length).map Prod.fst).Pairwise (· ≤ ·)
  ids : v.ids.Pairwise (· < ·)
  idMax : ∀ i ∈ v.ids, i < v.nextFile
  fileMax : ∀ f ∈ v.files, f.id ≤ v.maxFile
  head : ∀ sid ts, v.fileVal sid ts = (if hasDel sid ts h.later then none else (lastEv sid ts h.s0).join) ∨ (v.fileVal sid ts = none ∧ F sid ts)
  rest : ∀ sid ts, Good sid ts (v.cacheVals sid ts ++ [none]) (h.segs.map Prod.snd ++ [h.tail])
  ix : v.live.Ok
  cuts : AllCuts (Cut v.live log) [] (h.parts log.length)
  dels : DelOk v.live log h.later
  pos : (h.parts log.length).Pairwise After

theorem H.later_eq (h : H) : h.later = (h.segs.map Prod.snd ++ [h.tail]).flatten := by
  simp [H.later, List.flatMap]

theorem H.parts_flat (h : H) (n : Nat) : (h.parts n).flatMap Prod.snd = h.all := by
  simp [H.parts, H.all, H.later]

theorem Core.full {F : Nat → Int → Prop} {v : Vnode} {log : List Cmd} {h : H} (c : Core F v log h) :
    Known v.live h.all ∧ Agree v.live (specOf log) h.all := by
  have := c.cuts
  simp only [H.parts] at this
  rw [AllCuts.append] at this
  have h1 := this.2.1
  simp only [Cut, List.take_length, List.drop_length] at h1
  have he : ([] ++ List.flatMap Prod.snd ((h.q0, h.s0) :: h.segs) ++ h.tail) = h.all := by
    simp [H.all, H.later]
  rw [he] at h1
  exact ⟨h1.1, h1.2 nofun⟩

theorem sources_fst (v : Vnode) (sid : Nat) (ts : Int) : (v.sources sid ts).map Prod.fst = v.ids := by
  simp [Vnode.sources, Vnode.ids, Function.comp_def]

theorem sources_snd (v : Vnode) (sid : Nat) (ts : Int) :
    (v.sources sid ts).map Prod.snd = v.files.map (fun f => f.look sid ts) ++ v.cacheVals sid ts := by
  simp [Vnode.sources, Vnode.cacheVals, Function.comp_def]

/-- What is read is the last event. -/
theorem Core.read {F : Nat → Int → Prop} (hF : ∀ s t, ¬ F s t) {v : Vnode} {log : List Cmd} {h : H} (c : Core F v log h) (sid : Nat) (ts : Int) :
    v.read sid ts = (lastEv sid ts h.all).join := by
  have hg : Good sid ts (v.fileVal sid ts :: (v.cacheVals sid ts ++ [none])) (h.s0 :: (h.segs.map Prod.snd ++ [h.tail])) := by
    refine ⟨?_, c.rest sid ts⟩
    rw [any_hasDel, ← H.later_eq]
    exact (c.head sid ts).resolve_right fun e => hF _ _ e.2
  have hn := hg.newest
  simp only [newest, newest_append, List.flatten_cons, ← H.later_eq] at hn
  show (pick (v.sources sid ts)).map Prod.snd = _
  rw [pick_eq _ (by rw [sources_fst]; exact c.ids), sources_snd, newest_append]
  rw [show h.all = h.s0 ++ h.later from rfl, ← hn]
  simp [Vnode.fileVal]

theorem Core.shows {F : Nat → Int → Prop} (hF : ∀ s t, ¬ F s t) {v : Vnode} {log : List Cmd} {h : H} (c : Core F v log h) (k : Nat) (ts : Int) (x : Nat) :
    v.Shows k ts x ↔ (specOf log).val k ts = some x := by
  rw [c.full.2 k ts]
  constructor
  · rintro ⟨sid, h1, h2⟩
    rw [(c.ix.bij _ _).2 h1]
    simp only [Option.bind_some]
    rw [← c.read hF]; exact h2
  · intro h1
    cases hf : v.live.fwd.get k with
    | none => rw [hf] at h1; cases h1
    | some sid =>
      rw [hf] at h1
      simp only [Option.bind_some] at h1
      exact ⟨sid, (c.ix.bij _ _).1 hf, by rw [c.read hF]; exact h1⟩

/-! ## The log grows -/

theorem take_snoc {log : List Cmd} {c : Cmd} {n : Nat} (h : n ≤ log.length) : (log ++ [c]).take n = log.take n := by
  rw [List.take_append, Nat.sub_eq_zero_of_le h]; simp

theorem drop_snoc {log : List Cmd} {c : Cmd} {n : Nat} (h : n ≤ log.length) : (log ++ [c]).drop n = log.drop n ++ [c] := by
  rw [List.drop_append, Nat.sub_eq_zero_of_le h]; simp

/-- Old cuts after a command, when the index has only grown or tags were changed. -/
theorem Cut.snoc {x x' : Index} {log : List Cmd} {c : Cmd} {n : Nat} {evs : List Ev} (hn : n ≤ log.length)
    (hk : Known x evs → Known x' evs) (ha : c.isRename = false → Known x evs → ∀ σ, Agree x σ evs → Agree x' σ evs)
    (h : Cut x log n evs) : Cut x' (log ++ [c]) n evs := by
  refine ⟨hk h.1, fun hr => ?_⟩
  rw [drop_snoc hn, NoRename.append] at hr
  rw [take_snoc hn]
  exact ha (hr.2 c List.mem_cons_self) h.1 _ (h.2 hr.1)

theorem Core.bound {F : Nat → Int → Prop} {v : Vnode} {log : List Cmd} {h : H} (c : Core F v log h) :
    ∀ z ∈ (h.q0, h.s0) :: h.segs, z.1 ≤ log.length := by
  intro z hz
  have := c.mono
  simp only [H.parts, List.map_append] at this
  rw [List.pairwise_append] at this
  exact this.2.2 z.1 (List.mem_map.2 ⟨z, hz, rfl⟩) log.length (by simp)

theorem DelOk.snoc {x x' : Index} {log : List Cmd} {c : Cmd} {later : List Ev} (h : DelOk x log later)
    (he : c.isRename = false → x.Ext x') : DelOk x' (log ++ [c]) later := by
  intro q p d hd
  obtain ⟨h1, h2, h3⟩ := h q p d hd
  have hq : q ≤ log.length := by
    have := (List.getElem?_eq_some_iff.1 h2).1
    omega
  refine ⟨h1, ?_, fun hr sid hs => ?_⟩
  · rw [List.getElem?_append_left (by omega)]; exact h2
  · rw [drop_snoc hq, NoRename.append] at hr
    obtain ⟨k, hk, hp⟩ := h3 hr.1 sid hs
    exact ⟨k, he (hr.2 c List.mem_cons_self) _ _ hk, hp⟩

/-- A command that changes nothing in files and caches. -/
theorem Core.idle {F : Nat → Int → Prop} {v v' : Vnode} {log : List Cmd} {h : H} (c : Core F v log h) (cmd : Cmd)
    (hd : v' = { v with live := v'.live, disk := v'.disk, old := v'.old, files := v'.files, caches := v'.caches })
    (hf : v'.files.map (fun f => (f.id, f.rows, f.tombs)) = v.files.map fun f => (f.id, f.rows, f.tombs))
    (hc : v'.caches.map (fun c => (c.id, c.seq, c.rows)) = v.caches.map fun c => (c.id, c.seq, c.rows))
    (hx : v'.live.Ok) (hk : ∀ s, (v.live.key.get s).isSome → (v'.live.key.get s).isSome)
    (he : cmd.isRename = false → v'.live = v.live)
    (ha : Agree v'.live (specOf (log ++ [cmd])) h.all) :
    Core F v' (log ++ [cmd]) h := by
  have hids : v'.ids = v.ids := by
    have h1 := congrArg (List.map fun (e : Nat × List Cell × List (List Nat × Int × Int)) => e.1) hf
    have h2 := congrArg (List.map fun (e : Nat × Nat × List Cell) => e.1) hc
    simp only [List.map_map, Function.comp_def] at h1 h2
    simp only [Vnode.ids]
    exact congr (congrArg _ h1) h2
  have hfv : ∀ sid ts, v'.fileVal sid ts = v.fileVal sid ts := by
    intro sid ts
    have h1 := congrArg (List.map fun (e : Nat × List Cell × List (List Nat × Int × Int)) =>
      if e.2.2.any fun d => covers d sid ts then none else look e.2.1 sid ts) hf
    simp only [List.map_map, Function.comp_def] at h1
    exact congrArg newest h1
  have hcv : ∀ sid ts, v'.cacheVals sid ts = v.cacheVals sid ts := by
    intro sid ts
    have h1 := congrArg (List.map fun (e : Nat × Nat × List Cell) => look e.2.2 sid ts) hc
    simp only [List.map_map, Function.comp_def] at h1
    exact h1
  have hseq : v'.caches.map Cache.seq = v.caches.map Cache.seq := by
    have h2 := congrArg (List.map fun (e : Nat × Nat × List Cell) => e.2.1) hc
    simpa only [List.map_map, Function.comp_def] using h2
  have hfl : v'.flushed = v.flushed := by rw [hd]
  have hnf : v'.nextFile = v.nextFile := by rw [hd]
  have hmf : v'.maxFile = v.maxFile := by rw [hd]
  have hm := c.mono
  have hp := c.pos
  have hcu := c.cuts
  have hkn : ∀ evs, Known v.live evs → Known v'.live evs := fun evs hk' e he' => hk _ (hk' e he')
  simp only [H.parts, List.map_append] at hm
  simp only [H.parts] at hp hcu
  rw [List.pairwise_append] at hm hp
  rw [AllCuts.append] at hcu
  refine ⟨by rw [hfl]; exact c.q0, by rw [hseq]; exact c.seqs, ?_, ?_, by rw [hids]; exact c.ids, by rw [hids, hnf]; exact c.idMax, ?_,
    fun s t => by rw [hfv]; exact c.head s t, fun s t => by rw [hcv]; exact c.rest s t, hx, ?_, c.dels.snoc fun hr => ?_, ?_⟩
  · intro e
    have := congrArg List.length hc
    rw [e] at this
    simp only [List.map_nil, List.length_nil, List.length_map] at this
    exact c.ne (List.length_eq_zero_iff.1 this.symm)
  · simp only [H.parts, List.map_append, List.length_append]
    rw [List.pairwise_append]
    refine ⟨hm.1, by simp, fun a ha' b hb => ?_⟩
    simp only [List.map_cons, List.map_nil, List.mem_singleton] at hb
    have := hm.2.2 a ha' log.length (by simp)
    simp at hb ⊢; omega
  · intro f hf'
    have h1 := congrArg (List.map fun (e : Nat × List Cell × List (List Nat × Int × Int)) => e.1) hf
    simp only [List.map_map, Function.comp_def] at h1
    have h2 : f.id ∈ v'.files.map fun f => f.id := List.mem_map.2 ⟨f, hf', rfl⟩
    rw [h1] at h2
    obtain ⟨g, hg, e⟩ := List.mem_map.1 h2
    rw [hmf, ← e]
    exact c.fileMax g hg
  · simp only [H.parts]
    rw [AllCuts.append]
    refine ⟨AllCuts.imp (fun z hz evs hz' => hz'.snoc (c.bound z hz) (hkn evs) fun hr _ σ hσ => by rw [he hr]; exact hσ) hcu.1, ?_, trivial⟩
    have hall : ([] ++ List.flatMap Prod.snd ((h.q0, h.s0) :: h.segs) ++ h.tail) = h.all := by
      simp [H.all, H.later]
    rw [hall]
    refine ⟨hkn _ c.full.1, fun _ => ?_⟩
    rw [List.take_length]
    exact ha
  · rw [he hr]; exact Index.Ext.refl _
  · simp only [H.parts]
    rw [List.pairwise_append]
    exact ⟨hp.1, by simp, fun a ha' b hb => by
      simp only [List.mem_singleton] at hb
      subst hb
      exact hp.2.2 a ha' (log.length, h.tail) List.mem_cons_self⟩

end Verif.Replica
