import Verif.Replica.Props
/-!
# C114, C116: what a restart can change
-/
namespace Verif.Replica

def wr (k : Nat) (t : Int) (x : Nat) : Step := .apply (.write [(k, t, x)])
def ren (a b : Nat) : Step := .apply (.rename (fun _ => b) [a])
def del (k : Nat) : Step := .apply (.delete (fun x => x == k) 0 100)

/-- Tags were changed and the process ends before the index is written to disk: the old key is gone from the disk, the new one is not there yet, and
the replayed command finds no series.  The rows are not seen any more under either key. -/
theorem C114_refuted_rename : ∃ l, (Sys.init.run l).v.Shows 2 1 5 ∧
    ¬ ((Sys.init.run l).step .crash).v.Shows 2 1 5 ∧ ¬ ((Sys.init.run l).step .crash).v.Shows 1 1 5 :=
  ⟨[wr 1 1 5, .switch, .begin, .install, ren 1 2], by decide +kernel⟩

/-- Tags were changed and rows written again for the old key: after a restart these rows are found under the new key. -/
theorem C114_refuted_rewrite : ∃ l, (Sys.init.run l).v.Shows 1 2 6 ∧
    ¬ ((Sys.init.run l).step .crash).v.Shows 1 2 6 ∧ ((Sys.init.run l).step .crash).v.Shows 2 2 6 :=
  ⟨[wr 1 1 5, ren 1 2, wr 1 2 6, .sync], by decide +kernel⟩

/-- A delete by key, and then another series gets this key: the replayed delete takes its rows away. -/
theorem C114_refuted_delete_replayed : ∃ l, (Sys.init.run l).v.Shows 1 1 5 ∧ ¬ ((Sys.init.run l).step .crash).v.Shows 1 1 5 :=
  ⟨[wr 2 1 5, .switch, .begin, .install, del 1, ren 2 1, .sync], by decide +kernel⟩

/-- A delete while a flush writes its files: the rows come back without any restart. -/
theorem C114_refuted_flush : ∃ l, (∀ x, x ∈ l → x ≠ .crash) ∧ (specOf (cmdsOf l)).val 1 1 = none ∧ (Sys.init.run l).v.Shows 1 1 5 :=
  ⟨[wr 1 1 5, .switch, .begin, del 1, .install], by simp [wr, del], by decide +kernel, by decide +kernel⟩

/-- The end of a flush forgets the old keys of tags that were changed while it ran, which the replay of later writes would need. -/
theorem C114_refuted_tombstones : ∃ l, (Sys.init.run l).v.Shows 2 2 6 ∧ ¬ (Sys.init.run l).v.Shows 1 2 6 ∧
    (∀ sid, ((Sys.init.run l).step .crash).v.live.key.get sid = some 2 → ((Sys.init.run l).step .crash).v.read sid 1 ≠ none →
      ((Sys.init.run l).step .crash).v.read sid 2 = none) := by
  refine ⟨[wr 1 1 5, .switch, .begin, wr 1 2 6, ren 1 2, .install, .sync], by decide +kernel, by decide +kernel, fun sid hs hr => ?_⟩
  have h1 := AMap.mem_entries.2 hs
  have h2 : ∀ e ∈ ((Sys.init.run [wr 1 1 5, .switch, .begin, wr 1 2 6, ren 1 2, .install, .sync]).step .crash).v.live.key.entries,
      e.2 = 2 → ((Sys.init.run [wr 1 1 5, .switch, .begin, wr 1 2 6, ren 1 2, .install, .sync]).step .crash).v.read e.1 1 ≠ none →
      ((Sys.init.run [wr 1 1 5, .switch, .begin, wr 1 2 6, ren 1 2, .install, .sync]).step .crash).v.read e.1 2 = none := by decide +kernel
  exact h2 _ h1 rfl hr

/-- The step of a flush that takes the caches is not the one that writes the index; a series that is new in between is in a file but not in the
index on disk.  After a restart its id is given to another series, which then shows its rows. -/
theorem C114_refuted_new_series : ∃ (l : List Step) (v : Vnode), v = (((Sys.init.run l).v.sync.apply false 1 (.write [(1, 1, 5)])).switch.take.install) ∧
    v.Shows 1 1 5 ∧
    (let w := (v.reopen.replay 0 [.write [(1, 1, 5)]]).apply false 2 (.write [(2, 2, 6)])
     w.Shows 2 1 5 ∧ ¬ w.Shows 1 1 5) :=
  ⟨[], _, rfl, by decide +kernel, by decide +kernel⟩

/-! ## C116: refused commands -/

/-- An update of tags that was refused, because another series has the new tags, is carried out by a restart: the two series become one. -/
theorem C116_refuted_conflict : ∃ l f ms, (Sys.init.run l).v.fails false (.rename f ms) = true ∧
    (let s := (Sys.init.run l).step (.apply (.rename f ms))
     s.v.Shows 1 1 5 ∧ s.v.Shows 2 2 6 ∧ ¬ s.v.Shows 2 1 5 ∧ (s.step .crash).v.Shows 2 1 5 ∧ ¬ (s.step .crash).v.Shows 1 1 5) :=
  ⟨[wr 1 1 5, wr 2 2 6], fun _ => 2, [1], by decide +kernel, by decide +kernel⟩

/-- An update of tags that was refused, because two series would get the same tags, ends the replay: the writes after it are lost. -/
theorem C116_refuted_stop : ∃ l f ms l', (Sys.init.run l).v.fails false (.rename f ms) = true ∧
    (let s := ((Sys.init.run l).step (.apply (.rename f ms))).run l'
     s.v.Shows 3 3 7 ∧ ¬ (s.step .crash).v.Shows 3 3 7) :=
  ⟨[wr 1 1 5, wr 2 2 6], fun _ => 9, [1, 2], [wr 3 3 7], by decide +kernel, by decide +kernel⟩

/-- A refused update of tags changes nothing while the process runs.  What is missing: `C116_refuted_*`. -/
theorem C116_partial (v : Vnode) (q : Nat) (f : Nat → Nat) (ms : List Nat) (h : v.fails false (.rename f ms) = true) :
    v.apply false q (.rename f ms) = v := by
  simp only [Vnode.fails, Bool.not_eq_true'] at h
  simp only [Vnode.apply, h, Bool.false_eq_true, if_false]

/-- A refused update of tags also changes nothing through a restart if it is not after the last flushed write. -/
theorem C116_flushed_partial (l : List Step) (f : Nat → Nat) (ms : List Nat) (l' : List Step)
    (hf : (Sys.init.run l).v.fails false (.rename f ms) = true) (hc : CalmRun .init (l ++ .apply (.rename f ms) :: l'))
    (k : Nat) (ts : Int) (x : Nat) :
    (Sys.init.run (l ++ .apply (.rename f ms) :: l')).v.Shows k ts x ↔ (specOf (cmdsOf l ++ cmdsOf l')).val k ts = some x := by
  rw [C114_partial _ hc]
  rw [CalmRun.append] at hc
  obtain ⟨h, i⟩ := run_inv hc.1 Inv.init
  have hs : (specOf (cmdsOf l)).step (.rename f ms) = specOf (cmdsOf l) := by
    have h1 := i.hasAll
    have h2 := i.hasOnly
    rw [run_log, show Sys.init.log ++ cmdsOf l = cmdsOf l from rfl] at h1 h2
    have hok : ¬ (Sys.init.run l).v.live.renameOk false f ((Sys.init.run l).v.live.matched ms) = true := by
      simpa [Vnode.fails] using hf
    rw [Index.renameOk_eq h1 h2] at hok
    simp only [Spec.step]
    rw [if_neg hok]
  have h1 : cmdsOf (l ++ .apply (.rename f ms) :: l') = cmdsOf l ++ .rename f ms :: cmdsOf l' := by simp [cmdsOf]
  rw [h1]
  have h2 : specOf (cmdsOf l ++ .rename f ms :: cmdsOf l') = specOf (cmdsOf l ++ cmdsOf l') := by
    simp only [specOf, List.foldl_append, List.foldl_cons] at hs ⊢
    rw [hs]
  rw [h2]

example : CalmRun .init ([wr 1 1 5, wr 2 2 6] ++ .apply (.rename (fun _ => 2) [1]) :: [wr 1 3 7, .switch, .begin, .install, .crash]) ∧
    (Sys.init.run [wr 1 1 5, wr 2 2 6]).v.fails false (.rename (fun _ => 2) [1]) = true := by
  refine ⟨⟨trivial, trivial, trivial, trivial, trivial, trivial, trivial, ⟨?_, fun k => rfl⟩, trivial⟩, by decide +kernel⟩
  intro c hc
  have : c ∈ ([] : List Cmd) := hc
  cases this

end Verif.Replica
