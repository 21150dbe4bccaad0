import Verif.Leader.Repeat
/-!
# A command that is sent again has the effect of one (C175)
-/
namespace Verif.Leader
open Verif.Watch

/-- A command that succeeded, carried out again on the same values, changes no value. -/
theorem again {cmd : Cmd} (hr : Repeats cmd = true) {s s' : Store} {env env' : Env} (h : (s.exec env cmd).2 = true)
    (hs : Same (s.command env cmd) s') : Same (s'.command env' cmd) s' := by
  cases cmd with
  | createBucket | retainId | limiterRequest | dropTenant => cases hr
  | set k v => exact same_insert fun hk => inserted hs hk
  | addNode c id addr => exact addNode_again h hs
  | metrics c id hl f => exact same_insert fun hk => inserted hs hk
  | createDb c t d o =>
    simp only [Store.command, Store.exec] at h hs ⊢
    split at h
    · cases h
    · split at h
      · rename_i h1 h2
        simp only [h1, h2, if_true, Bool.false_eq_true, if_false, List.foldl_cons, List.foldl_nil] at hs
        rw [contains_some (inserted hs (path_ne_version _ _ _))]
        exact Same.refl _
      · cases h
  | alterDb c t d o =>
    simp only [Store.command, Store.exec] at h hs ⊢
    split at h
    · split at h
      · rename_i h1 h2
        simp only [h1, h2, if_true, List.foldl_cons, List.foldl_nil] at hs
        rw [contains_some (inserted hs (path_ne_version _ _ _)), if_pos rfl]
        split
        · exact same_insert fun hk => inserted hs hk
        · exact Same.refl _
      · cases h
    · cases h
  | dbHidden c t d hd =>
    simp only [Store.command, Store.exec] at h hs ⊢
    split at h
    · rename_i n o h1
      simp only [h1, List.foldl_cons, List.foldl_nil] at hs
      have := inserted hs (path_ne_version _ _ _)
      simp only [this]
      exact same_insert fun _ => this
    · cases h
  | dropDb c t d => exact dropDb_again hs
  | createTable c t d n e v cols =>
    simp only [Store.command, Store.exec] at h hs ⊢
    split at h
    · cases h
    · split at h
      · cases h
      · rename_i h1 h2
        simp only [h1, h2, Bool.false_eq_true, if_false, List.foldl_cons, List.foldl_nil] at hs
        rw [contains_some (inserted hs (path_ne_version _ _ _))]
        split <;> exact Same.refl _
  | updateTable c t d n e v cols =>
    have key : s'.db.get (KeyPath.table c t d n) = some (.table d n e v cols) := by
      simp only [Store.command, Store.exec] at h hs
      split at h
      · split at h
        · cases h
        · split at h
          · cases h
          · rename_i h0 h1 h2
            simp only [h0, h1, h2, Bool.false_eq_true, if_false, List.foldl_cons, List.foldl_nil] at hs
            exact inserted hs (path_ne_version _ _ _)
      · cases h
      · rename_i h0
        simp only [h0, List.foldl_cons, List.foldl_nil] at hs
        exact inserted hs (path_ne_version _ _ _)
    simp only [Store.command, Store.exec, key]
    split
    · exact Same.refl _
    · rw [if_pos (by omega)]; exact Same.refl _
  | dropTable c t d n =>
    simp only [Store.command, Store.exec] at h hs ⊢
    split at h
    · rename_i h1
      simp only [h1, if_true, List.foldl_cons, List.foldl_nil] at hs
      rw [contains_none (removed hs (path_ne_version _ _ _))]
      exact Same.refl _
    · cases h
  | deleteBucket c t d id => exact same_remove fun hk => removed hs hk
  | updateReplSet c t d id repl del add =>
    have ha : add = [] := List.isEmpty_iff.1 hr
    subst ha
    simp only [Store.command, Store.exec] at h hs ⊢
    cases hg : s.db.get (KeyPath.bucket c t d (decName id)) with
    | none => rw [hg] at h; cases h
    | some w =>
      cases w with
      | bucket b =>
        simp only [hg] at hs
        cases hu : b.update repl del [] with
        | none =>
          simp only [hu, List.foldl_cons, List.foldl_nil] at hs
          rw [removed hs (path_ne_version _ _ _)]
          exact Same.refl _
        | some b' =>
          simp only [hu, List.foldl_cons, List.foldl_nil] at hs
          have := inserted hs (path_ne_version _ _ _)
          simp only [this, bucket_update_twice b b' repl del hu]
          exact same_insert fun _ => this
      | _ => rw [hg] at h; cases h
  | createUser c u id o =>
    simp only [Store.command, Store.exec] at h hs ⊢
    split at h
    · cases h
    · rename_i h1
      simp only [h1, Bool.false_eq_true, if_false, List.foldl_cons, List.foldl_nil] at hs
      rw [contains_some (inserted hs (path_ne_version _ _ _))]
      exact Same.refl _
  | alterUser c u o =>
    simp only [Store.command, Store.exec] at h hs ⊢
    split at h
    · rename_i id n o' h1
      simp only [h1, List.foldl_cons, List.foldl_nil] at hs
      have := inserted hs (path_ne_version _ _ _)
      simp only [this]
      exact same_insert fun _ => this
    · cases h
  | dropUser c u =>
    have key : s'.db.get (KeyPath.user c u) = none := by
      simp only [Store.command, Store.exec] at h hs
      split at h
      · rename_i id n o h0
        split at h
        · cases h
        · rename_i ts h1
          simp only [h0, h1, List.foldl_append, List.foldl_cons, List.foldl_nil] at hs
          exact removed hs (path_ne_version _ _ _)
      · cases h
      · rename_i h0
        simp only [h0, List.foldl_nil] at hs
        rw [← hs, h0]
    simp only [Store.command, Store.exec, key]
    exact Same.refl _
  | createTenant c t hd o l =>
    simp only [Store.command, Store.exec] at h hs ⊢
    split at h
    · cases h
    · rename_i h1
      simp only [h1, Bool.false_eq_true, if_false, List.foldl_cons, List.foldl_nil] at hs
      rw [contains_some (inserted hs (path_ne_version _ _ _))]
      exact Same.refl _
  | alterTenant c t hd o l =>
    simp only [Store.command, Store.exec] at h hs ⊢
    split at h
    · rename_i n o' l' h1
      simp only [h1, List.foldl_cons, List.foldl_nil] at hs
      have hl : KeyPath.limiter c t ≠ KeyPath.version := path_ne_version _ _ _
      have ht : KeyPath.tenant c t ≠ KeyPath.version := path_ne_version _ _ _
      have hg : s'.db.get (KeyPath.tenant c t) = some (.tenant t hd o l) := by
        rw [← hs]
        cases l <;> simp only [limiterOp, Store.event, Store.apply, remove_get, insert_get] <;>
          rw [if_neg (fun hh => limiter_ne_tenant c t hh.1.symm), if_pos (by simp [ht])]
      cases hd with
      | true => simp only [hg]; exact Same.refl _
      | false =>
        simp only [hg, List.foldl_cons, List.foldl_nil]
        have h1 : Same (s'.insert (KeyPath.tenant c t) (.tenant t false o l)) s' := same_insert fun _ => hg
        cases l with
        | none =>
          refine Same.trans ?_ h1
          refine same_remove fun _ => ?_
          show (s'.insert _ _).db.get _ = none
          rw [h1]
          exact removed hs hl
        | some m =>
          refine Same.trans ?_ h1
          refine same_insert fun _ => ?_
          show (s'.insert _ _).db.get _ = _
          rw [h1]
          exact inserted hs hl
    · cases h
  | tenantHidden c t hd =>
    simp only [Store.command, Store.exec] at h hs ⊢
    split at h
    · rename_i n hd' o l h1
      simp only [h1, List.foldl_cons, List.foldl_nil] at hs
      have hl : KeyPath.limiter c t ≠ KeyPath.version := path_ne_version _ _ _
      have ht : KeyPath.tenant c t ≠ KeyPath.version := path_ne_version _ _ _
      have hg : s'.db.get (KeyPath.tenant c t) = some (.tenant t hd o l) := by
        rw [← hs]
        cases l <;> simp only [limiterOp, Store.event, Store.apply, remove_get, insert_get] <;>
          rw [if_neg (fun hh => limiter_ne_tenant c t hh.1.symm), if_pos (by simp [ht])]
      simp only [hg, List.foldl_cons, List.foldl_nil]
      have h1 : Same (s'.insert (KeyPath.tenant c t) (.tenant t hd o l)) s' := same_insert fun _ => hg
      cases l with
      | none =>
        refine Same.trans ?_ h1
        refine same_remove fun _ => ?_
        show (s'.insert _ _).db.get _ = none
        rw [h1]
        exact removed hs hl
      | some m =>
        refine Same.trans ?_ h1
        refine same_insert fun _ => ?_
        show (s'.insert _ _).db.get _ = _
        rw [h1]
        exact inserted hs hl
    · cases h
  | addMember c t u r =>
    simp only [Store.command, Store.exec] at h hs ⊢
    split at h
    · cases h
    · split at h
      · rename_i h1 h2
        rw [if_neg h1, if_pos h2] at hs
        rw [contains_some (inserted hs (path_ne_version _ _ _))]
        exact Same.refl _
      · cases h
  | removeMember c t u =>
    simp only [Store.command, Store.exec] at h hs ⊢
    split at h
    · rename_i h1
      simp only [h1, if_true, List.foldl_cons, List.foldl_nil] at hs
      rw [contains_none (removed hs (path_ne_version _ _ _))]
      exact Same.refl _
    · cases h
  | reassign c t u r =>
    simp only [Store.command, Store.exec] at h hs ⊢
    split at h
    · cases h
    · split at h
      · rename_i h1 h2
        rw [if_neg h1, if_pos h2] at hs
        have := inserted hs (path_ne_version _ _ _)
        rw [contains_some this]
        simp only [Bool.not_true, Bool.false_eq_true, if_false]
        split
        · exact same_insert fun _ => this
        · exact Same.refl _
      · cases h
  | createRole c t r p =>
    simp only [Store.command, Store.exec] at h hs ⊢
    split at h
    · cases h
    · rename_i h1
      simp only [h1, Bool.false_eq_true, if_false, List.foldl_cons, List.foldl_nil] at hs
      rw [contains_some (inserted hs (path_ne_version _ _ _))]
      exact Same.refl _
  | dropRole c t r =>
    simp only [Store.command, Store.exec] at h hs ⊢
    split at h
    · rename_i h1
      simp only [h1, if_true, List.foldl_cons, List.foldl_nil] at hs
      rw [contains_none (removed hs (path_ne_version _ _ _))]
      exact Same.refl _
    · cases h
  | grant c t r dbs p =>
    simp only [Store.command, Store.exec] at h hs ⊢
    split at h
    · rename_i oid n p' h0
      split at h
      · rename_i h1
        simp only [h0] at hs
        rw [if_pos h1] at hs
        have := inserted hs (path_ne_version _ _ _)
        simp only [this]
        split
        · exact same_insert fun _ => this
        · exact Same.refl _
      · cases h
    · cases h

/-- Attempts after the command was carried out change no value. -/
theorem tries_again {cmd : Cmd} (hr : Repeats cmd = true) {s : Store} {env : Env} (h : (s.exec env cmd).2 = true) :
    ∀ n (c : Client) (s' : Store) (fs : List (Env × Fate)), Same (s.command env cmd) s' → Same (s.command env cmd) (Client.tries n c s' cmd fs).2.1 := by
  intro n
  induction n with
  | zero => intro c s' fs hs; rw [Client.tries]; exact hs
  | succ n ih =>
    intro c s' fs hs
    cases fs with
    | nil => rw [Client.tries]; exact hs; simp
    | cons f fs =>
      obtain ⟨e, f⟩ := f
      have h2 : Same (s.command env cmd) (s'.command e cmd) := hs.trans (again hr h hs (env' := e)).symm
      cases f with
      | done => exact h2
      | lost => exact ih _ _ _ h2
      | dropped => exact ih _ _ _ hs
      | moved a => exact ih _ _ _ hs

/-- **C175, the values.**  Whatever becomes of the attempts — done, not done, done without an answer — the values afterwards are
those before, or those after the command was carried out once, for every command that can be repeated. -/
theorem C175_once_partial {cmd : Cmd} (hr : Repeats cmd = true) (c : Client) (s : Store) (fs : List (Env × Fate)) :
    Same (c.write s cmd fs).2.1 s ∨ ∃ f ∈ fs, (s.exec f.1 cmd).2 = true ∧ Same (c.write s cmd fs).2.1 (s.command f.1 cmd) := by
  have main : ∀ n (c : Client) (fs : List (Env × Fate)), Same (Client.tries n c s cmd fs).2.1 s ∨
      ∃ f ∈ fs, (s.exec f.1 cmd).2 = true ∧ Same (Client.tries n c s cmd fs).2.1 (s.command f.1 cmd) := by
    intro n
    induction n with
    | zero => intro c fs; rw [Client.tries]; exact .inl (Same.refl _)
    | succ n ih =>
      intro c fs
      cases fs with
      | nil => left; rw [Client.tries]; exact Same.refl _; simp
      | cons f fs =>
        have more : ∀ c' : Client, Same (Client.tries n c' s cmd fs).2.1 s ∨
            ∃ f' ∈ f :: fs, (s.exec f'.1 cmd).2 = true ∧ Same (Client.tries n c' s cmd fs).2.1 (s.command f'.1 cmd) := by
          intro c'
          rcases ih c' fs with h | ⟨f', h1, h2⟩
          · exact .inl h
          · exact .inr ⟨f', List.mem_cons_of_mem _ h1, h2⟩
        obtain ⟨e, f⟩ := f
        cases f with
        | done =>
          cases hx : (s.exec e cmd).2 with
          | true => exact .inr ⟨_, List.mem_cons_self, hx, Same.refl _⟩
          | false =>
            left
            show Same (s.command e cmd) s
            rw [command_nil (failed_nothing hr s e hx)]
            exact Same.refl _
        | lost =>
          cases hx : (s.exec e cmd).2 with
          | true => exact .inr ⟨_, List.mem_cons_self, hx, (tries_again hr hx n _ _ _ (Same.refl _)).symm⟩
          | false =>
            have : s.command e cmd = s := command_nil (failed_nothing hr s e hx)
            have hst : (Client.tries (n + 1) c s cmd ((e, Fate.lost) :: fs)) = Client.tries n c.switch (s.command e cmd) cmd fs := rfl
            rw [hst, this]
            exact more _
        | dropped => exact more _
        | moved a => exact more _
  exact main 3 c fs

/-- **C175, the answer.**  When no attempt was carried out without an answer, the answer is that of the command carried out once on the
values before, and without an answer nothing was done.  No restriction on the command. -/
theorem C175_answer_partial (cmd : Cmd) (c : Client) (s : Store) (fs : List (Env × Fate)) (hf : ∀ f ∈ fs, f.2 ≠ .lost) :
    match (c.write s cmd fs).2.2 with
    | some ok => ∃ f ∈ fs, (s.exec f.1 cmd).2 = ok ∧ (c.write s cmd fs).2.1 = s.command f.1 cmd
    | none => (c.write s cmd fs).2.1 = s := by
  have main : ∀ n (c : Client) (fs : List (Env × Fate)), (∀ f ∈ fs, f.2 ≠ .lost) →
      match (Client.tries n c s cmd fs).2.2 with
      | some ok => ∃ f ∈ fs, (s.exec f.1 cmd).2 = ok ∧ (Client.tries n c s cmd fs).2.1 = s.command f.1 cmd
      | none => (Client.tries n c s cmd fs).2.1 = s := by
    intro n
    induction n with
    | zero => intro c fs _; rw [Client.tries]
    | succ n ih =>
      intro c fs hf
      cases fs with
      | nil => rw [Client.tries]; simp
      | cons f fs =>
        have more : ∀ c' : Client, match (Client.tries n c' s cmd fs).2.2 with
            | some ok => ∃ f' ∈ f :: fs, (s.exec f'.1 cmd).2 = ok ∧ (Client.tries n c' s cmd fs).2.1 = s.command f'.1 cmd
            | none => (Client.tries n c' s cmd fs).2.1 = s := by
          intro c'
          have := ih c' fs (fun f hf' => hf f (List.mem_cons_of_mem _ hf'))
          split
          · rename_i ok heq
            rw [heq] at this
            obtain ⟨f', h1, h2⟩ := this
            exact ⟨f', List.mem_cons_of_mem _ h1, h2⟩
          · rename_i heq
            rw [heq] at this
            exact this
        obtain ⟨e, f⟩ := f
        cases f with
        | done => exact ⟨_, List.mem_cons_self, rfl, rfl⟩
        | lost => exact absurd rfl (hf _ List.mem_cons_self)
        | dropped => exact more _
        | moved a => exact more _
  exact main 3 c fs hf

/-- **C175, success.**  When the answer is that the command succeeded, the values are those after the command was carried out once, even
if answers were lost before. -/
theorem C175_success_partial {cmd : Cmd} (hr : Repeats cmd = true) (c : Client) (s : Store) (fs : List (Env × Fate))
    (h : (c.write s cmd fs).2.2 = some true) : ∃ f ∈ fs, (s.exec f.1 cmd).2 = true ∧ Same (c.write s cmd fs).2.1 (s.command f.1 cmd) := by
  have main : ∀ n (c : Client) (fs : List (Env × Fate)), (Client.tries n c s cmd fs).2.2 = some true →
      ∃ f ∈ fs, (s.exec f.1 cmd).2 = true ∧ Same (Client.tries n c s cmd fs).2.1 (s.command f.1 cmd) := by
    intro n
    induction n with
    | zero => intro c fs h; rw [Client.tries] at h; cases h
    | succ n ih =>
      intro c fs h
      cases fs with
      | nil => rw [Client.tries] at h; cases h; simp
      | cons f fs =>
        have more : ∀ c' : Client, (Client.tries n c' s cmd fs).2.2 = some true →
            ∃ f' ∈ f :: fs, (s.exec f'.1 cmd).2 = true ∧ Same (Client.tries n c' s cmd fs).2.1 (s.command f'.1 cmd) := by
          intro c' h
          obtain ⟨f', h1, h2⟩ := ih c' fs h
          exact ⟨f', List.mem_cons_of_mem _ h1, h2⟩
        obtain ⟨e, f⟩ := f
        cases f with
        | done => exact ⟨_, List.mem_cons_self, Option.some.inj h, Same.refl _⟩
        | lost =>
          cases hx : (s.exec e cmd).2 with
          | true => exact ⟨_, List.mem_cons_self, hx, (tries_again hr hx n _ _ _ (Same.refl _)).symm⟩
          | false =>
            have : s.command e cmd = s := command_nil (failed_nothing hr s e hx)
            have hst : (Client.tries (n + 1) c s cmd ((e, Fate.lost) :: fs)) = Client.tries n c.switch (s.command e cmd) cmd fs := rfl
            rw [hst, this] at h ⊢
            exact more _ h
        | dropped => exact more _ h
        | moved a => exact more _ h
  exact main 3 c fs h

end Verif.Leader
