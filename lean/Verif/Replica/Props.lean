import Verif.Replica.Crash
/-!
# C114: what queries see is what the log says, through flushes and restarts
-/
namespace Verif.Replica

/-- The commands of a run. -/
def cmdsOf (l : List Step) : List Cmd :=
  l.filterMap fun | .apply c => some c | _ => none

/-- Steps that are known to be safe: no delete while a flush is writing its files, no compaction, no restart when tags were changed
after the last flushed write or the tombstones of such a change are still there. -/
def Calm (s : Sys) : Step → Prop
  | .apply (.delete ..) => s.v.pend = []
  | .compact => False
  | .crash => NoRename (s.log.drop s.v.flushed) ∧ ∀ k, s.v.old.get k = none
  | _ => True

def CalmRun : Sys → List Step → Prop
  | _, [] => True
  | s, x :: l => Calm s x ∧ CalmRun (s.step x) l

theorem CalmRun.append : ∀ {a b : List Step} {s : Sys}, CalmRun s (a ++ b) ↔ CalmRun s a ∧ CalmRun (s.run a) b
  | [], b, s => by simp [CalmRun, Sys.run]
  | x :: a, b, s => by
    simp only [List.cons_append, CalmRun, CalmRun.append (a := a), and_assoc]
    rfl

theorem run_log : ∀ (l : List Step) (s : Sys), (s.run l).log = s.log ++ cmdsOf l
  | [], s => by simp [Sys.run, cmdsOf]
  | x :: l, s => by
    show ((s.step x).run l).log = _
    rw [run_log l]
    cases x <;> simp [Sys.step, cmdsOf]

theorem Inv.init : ∃ h, Inv Vnode.init [] h := by
  refine ⟨⟨0, [], [(0, [])], []⟩, ⟨rfl, rfl, by simp [Vnode.init], by simp [H.parts], (by simp [Vnode.ids, Vnode.init, Cache.new]),
    (by intro i hi; simp [Vnode.ids, Vnode.init, Cache.new] at hi; subst hi; decide), (by intro f hf; cases hf), fun sid ts => .inl ?_, fun sid ts => ?_, Index.Ok.empty, ?_, ?_, ?_⟩,
    (fun k hk => by cases hk), (fun k hk => by simp [Vnode.init, Index.empty] at hk), (by simp [PendOk, Vnode.init]), ?_⟩
  · simp [Vnode.fileVal, Vnode.init, newest, lastEv]
  · simp [Vnode.cacheVals, Vnode.init, Cache.new, Good, look, lastEv]
  · have hcut : Cut Vnode.init.live [] 0 [] := ⟨(fun c hc => by cases hc), fun _ k ts => rfl⟩
    exact ⟨hcut, hcut, hcut, trivial⟩
  · intro q p d hd; cases hd
  · simp only [H.parts, List.cons_append, List.nil_append, List.pairwise_cons, List.mem_cons, List.not_mem_nil, or_false]
    refine ⟨fun b hb => ?_, fun b hb => ?_, by simp⟩
    · rcases hb with hb | hb <;> subst hb <;> (intro q p d hd; cases hd)
    · subst hb; intro q p d hd; cases hd
  · exact ⟨fun _ => ⟨Index.Ok.empty, fun k ts => rfl, (fun c hc => by cases hc), (fun k hk => by cases hk),
      (fun k hk => by simp [Vnode.init, Index.empty] at hk)⟩, trivial⟩

theorem step_inv {s : Sys} {x : Step} (hc : Calm s x) (hi : ∃ h, Inv s.v s.log h) : ∃ h, Inv (s.step x).v (s.step x).log h := by
  obtain ⟨h, i⟩ := hi
  cases x with
  | apply c => exact i.apply c fun p lo hi e => by subst e; exact hc
  | sync => exact ⟨h, i.sync⟩
  | switch => exact i.switch
  | begin => exact ⟨h, i.begin⟩
  | install => exact i.install
  | compact => exact hc.elim
  | crash => exact i.crash hc.1 hc.2

theorem run_inv : ∀ {l : List Step} {s : Sys}, CalmRun s l → (∃ h, Inv s.v s.log h) → ∃ h, Inv (s.run l).v (s.run l).log h
  | [], _, _, hi => hi
  | x :: l, s, hc, hi => run_inv (l := l) (s := s.step x) hc.2 (step_inv hc.1 hi)

/-- A query sees exactly what the commands of the log say, in every run of safe steps: writes, changes of tags, deletes, flushes in
any state, and restarts.  What is missing: `C114_refuted_*`. -/
theorem C114_partial (l : List Step) (hc : CalmRun .init l) (k : Nat) (ts : Int) (x : Nat) :
    (Sys.init.run l).v.Shows k ts x ↔ (specOf (cmdsOf l)).val k ts = some x := by
  obtain ⟨h, i⟩ := run_inv hc Inv.init
  have := i.core.shows (fun _ _ h => h) k ts x
  rw [run_log] at this
  exact this

/-- A restart changes nothing of what queries see. -/
theorem C114_restart_partial (l : List Step) (hc : CalmRun .init l) (hr : NoRename ((cmdsOf l).drop (Sys.init.run l).v.flushed))
    (ho : ∀ k, (Sys.init.run l).v.old.get k = none) (k : Nat) (ts : Int) (x : Nat) :
    ((Sys.init.run l).step .crash).v.Shows k ts x ↔ (Sys.init.run l).v.Shows k ts x := by
  have h1 : CalmRun .init (l ++ [.crash]) := CalmRun.append.2 ⟨hc, ⟨by rw [run_log]; exact hr, ho⟩, trivial⟩
  have h2 := C114_partial (l ++ [.crash]) h1 k ts x
  have h3 : Sys.init.run (l ++ [.crash]) = (Sys.init.run l).step .crash := by simp [Sys.run]
  have h4 : cmdsOf (l ++ [.crash]) = cmdsOf l := by simp [cmdsOf]
  rw [h3, h4] at h2
  rw [h2, C114_partial l hc]

/-! ## Deciding what is shown -/

/-- `Shows` as a computation. -/
def Vnode.shows (v : Vnode) (k : Nat) (ts : Int) (x : Nat) : Bool :=
  v.live.key.entries.any fun e => decide (e.2 = k) && decide (v.read e.1 ts = some x)

theorem shows_iff (v : Vnode) (k : Nat) (ts : Int) (x : Nat) : v.Shows k ts x ↔ v.shows k ts x = true := by
  simp only [Vnode.Shows, Vnode.shows, List.any_eq_true, Bool.and_eq_true, decide_eq_true_eq]
  constructor
  · rintro ⟨sid, h1, h2⟩; exact ⟨(sid, k), AMap.mem_entries.2 h1, rfl, h2⟩
  · rintro ⟨⟨sid, k'⟩, h1, rfl, h2⟩; exact ⟨sid, AMap.mem_entries.1 h1, h2⟩

instance (v : Vnode) (k : Nat) (ts : Int) (x : Nat) : Decidable (v.Shows k ts x) := decidable_of_iff _ (shows_iff v k ts x).symm

/-! ## An example -/

/-- Writes before and after a change of tags, a delete, two flushes and two restarts. -/
def exRun : List Step :=
  [.apply (.write [(1, 10, 5), (2, 10, 6)]), .apply (.rename (fun _ => 3) [1]), .apply (.write [(1, 20, 7)]), .switch,
   .apply (.write [(3, 10, 8)]), .begin, .apply (.write [(4, 1, 1)]), .install, .apply (.delete (fun k => k == 2) 0 15), .crash,
   .apply (.write [(2, 30, 9)]), .switch, .begin, .install, .sync, .crash]

example : CalmRun .init exRun := by
  have hn : ∀ k : Nat, (AMap.empty : AMap Nat Nat).get k = none := fun _ => rfl
  refine ⟨trivial, trivial, trivial, trivial, trivial, trivial, trivial, trivial, rfl, ⟨?_, fun k => rfl⟩, trivial, trivial, trivial, trivial, trivial,
    ⟨?_, fun k => rfl⟩, trivial⟩
  · intro c hc
    have : c ∈ [Cmd.write [(3, 10, 8)], Cmd.write [(4, 1, 1)], Cmd.delete (fun k => k == 2) 0 15] := hc
    simp only [List.mem_cons, List.not_mem_nil, or_false] at this
    rcases this with h | h | h <;> subst h <;> rfl
  · intro c hc
    have : c ∈ ([] : List Cmd) := hc
    cases this

example : (Sys.init.run exRun).v.Shows 3 10 8 ∧ (Sys.init.run exRun).v.Shows 1 20 7 ∧ (Sys.init.run exRun).v.Shows 2 30 9 ∧
    (Sys.init.run exRun).v.Shows 4 1 1 ∧ ¬ (Sys.init.run exRun).v.Shows 2 10 6 ∧ ¬ (Sys.init.run exRun).v.Shows 1 10 5 := by decide +kernel

end Verif.Replica
