import Verif.Watch.Log
/-!
# C107: a node that asks for the changes since a version gets all of them, or is told to read everything
-/
namespace Verif.Watch

theorem filter_none {ver : Nat} {es : List Event} {base : Nat} (h : (changes ver es).length + ver ≤ base) (f : Entry → Bool) :
    (changes ver es).filter (fun e => decide (base < e.ver) && f e) = [] := by
  rw [List.filter_eq_nil_iff]
  intro e he
  obtain ⟨i, hi, rfl⟩ := List.mem_iff_getElem.1 he
  have : ¬ base < (changes ver es)[i].ver := by rw [changes_ver]; omega
  simp [this]

/-- C107.  Whatever was written and however often the server was restarted: a node that asks for the changes
after version `base` either is told to read everything again, or gets exactly the changes with a higher version
among those it is interested in, in order. -/
theorem C107_changes_partial {cap : Nat} (hcap : 0 < cap) (es : List Event) (c : Name) (ts : List Name) (base : Nat)
    (hbase : base ≤ (Store.run cap es).ver)
    (hw : ((Store.run cap es).readChangeLogs c ts base).fullSync = false) :
    ((Store.run cap es).readChangeLogs c ts base).logs =
      (changes 0 es).filter fun e => decide (base < e.ver) && interested c ts e := by
  obtain ⟨hv, k, hk, hb⟩ := run_inv hcap es
  rw [Store.readChangeLogs] at hw ⊢
  by_cases hbv : base = (Store.run cap es).ver
  · rw [if_pos hbv]
    exact (filter_none (by omega) _).symm
  · rw [if_neg hbv] at hw ⊢
    rcases hb.readEntryLogs c ts base ((changes_sorted 0 es).sublist (List.drop_sublist _ _)) with ⟨h1, j, hj, h2, h3⟩ | ⟨h1, h2⟩
    · rw [h1]
      simp only
      conv => rhs; rw [← List.take_append_drop k (changes 0 es)]
      rw [List.filter_append]
      have : ((changes 0 es).take k).filter (fun e => decide (base < e.ver) && interested c ts e) = [] := by
        rw [List.filter_eq_nil_iff]
        intro e he
        obtain ⟨i, hi, rfl⟩ := List.mem_iff_getElem.1 he
        rw [List.length_take] at hi
        rw [List.getElem_take]
        rw [List.getElem_drop, changes_ver] at h3
        have hn : ¬ base < ((changes 0 es)[i]'(by omega)).ver := by rw [changes_ver]; omega
        simp [hn]
      rw [this, List.nil_append]
    · rw [h1] at hw
      simp at hw

/-- C107, the other half: a node is not told to read everything again as long as the change it knows last is one of
the last `cap` changes and was made since the server started. -/
theorem C107_recent {cap : Nat} (hcap : 0 < cap) (es ds : List Event) (hds : Event.restart ∉ ds) (c : Name) (ts : List Name)
    (base : Nat) (h1 : (Store.run cap es).ver < base) (h2 : base ≤ (Store.run cap (es ++ ds)).ver)
    (h3 : (Store.run cap (es ++ ds)).ver < base + cap) :
    ((Store.run cap (es ++ ds)).readChangeLogs c ts base).fullSync = false := by
  have key : ∃ k, k ≤ (changes 0 es).length ∧ Holds cap ((changes 0 (es ++ ds)).drop k) (Store.run cap (es ++ ds)).log := by
    clear h1 h2 h3
    suffices H : ∀ (n : Nat) (ds : List Event), ds.length = n → Event.restart ∉ ds →
        ∃ k, k ≤ (changes 0 es).length ∧ Holds cap ((changes 0 (es ++ ds)).drop k) (Store.run cap (es ++ ds)).log from
      H _ ds rfl hds
    intro n
    induction n with
    | zero =>
      intro ds hl _
      obtain rfl := List.eq_nil_of_length_eq_zero hl
      rw [List.append_nil]
      exact (run_inv hcap es).2
    | succ n ih =>
      intro ds hl hr
      rcases List.eq_nil_or_concat ds with rfl | ⟨ds', e, rfl⟩
      · simp at hl
      rw [List.concat_eq_append] at hl hr ⊢
      simp only [List.mem_append, List.mem_singleton, not_or] at hr
      obtain ⟨k, hk, hb⟩ := ih ds' (by simpa using hl) hr.1
      refine ⟨k, hk, ?_⟩
      have hv := (run_inv hcap (es ++ ds')).1
      have hrun : Store.run cap (es ++ (ds' ++ [e])) = (Store.run cap (es ++ ds')).event e := by
        rw [← List.append_assoc]; simp [Store.run, List.foldl_append]
      rw [hrun, ← List.append_assoc, changes_append 0 (es ++ ds'), Nat.zero_add]
      cases e with
      | op o =>
        have hle : k ≤ (changes 0 (es ++ ds')).length := by
          rw [changes_append]; simp only [List.length_append]; omega
        rw [List.drop_append_of_le_length hle, ← hv]
        cases o <;> exact hb.append _
      | retain c m => simpa only [changes, List.append_nil, Store.event] using hb
      | restart => exact absurd rfl hr.2
  obtain ⟨k, hk, hb⟩ := key
  have hv := (run_inv hcap (es ++ ds)).1
  have hv0 := (run_inv hcap es).1
  rw [Store.readChangeLogs]
  by_cases hbv : base = (Store.run cap (es ++ ds)).ver
  · rw [if_pos hbv]
  · rw [if_neg hbv]
    rcases hb.readEntryLogs c ts base ((changes_sorted 0 _).sublist (List.drop_sublist _ _)) with ⟨h, _⟩ | ⟨_, h⟩
    · rw [h]
    · have hi : base - 1 - k < ((changes 0 (es ++ ds)).drop k).length := by rw [List.length_drop]; omega
      have := h (base - 1 - k) hi (by rw [List.length_drop]; omega)
      rw [List.getElem_drop, changes_ver] at this
      omega

/-- The highest version that a response names is the version of the store, unless nothing was written since the start. -/
theorem maxVer_run {cap : Nat} (hcap : 0 < cap) (es : List Event) (c : Name) (ts : List Name) (base : Nat) :
    ((Store.run cap es).readChangeLogs c ts base).maxVer = (Store.run cap es).ver ∨
      ((Store.run cap es).readChangeLogs c ts base).maxVer = 0 := by
  obtain ⟨hv, k, hk, hb⟩ := run_inv hcap es
  have hm : ((Store.run cap es).readChangeLogs c ts base).maxVer = (Store.run cap es).log.maxVersion.getD 0 := by
    rw [Store.readChangeLogs]
    split
    · rfl
    · split <;> rfl
  rw [hm, hb.maxVersion]
  by_cases he : k = (changes 0 es).length
  · right; rw [he, List.drop_length]; rfl
  · left
    rw [List.getLast?_eq_getElem?, List.length_drop, List.getElem?_drop, List.getElem?_eq_getElem (by omega)]
    simp only [Option.map_some, Option.getD_some, changes_ver]
    omega

/-- The events at the polls of a request: each one sees more events than the one before. -/
def pollEvents : List Event → List (List Event) → List (List Event)
  | _, [] => []
  | es, d :: ds => (es ++ d) :: pollEvents (es ++ d) ds

theorem watchLoop_spec {cap : Nat} (hcap : 0 < cap) (c : Name) (ts : List Name) (base : Nat) :
    ∀ (ds : List (List Event)) (follow : Nat) (es : List Event), base ≤ follow → follow ≤ (Store.run cap es).ver →
      (∀ e ∈ changes 0 es, base < e.ver → e.ver ≤ follow → interested c ts e = false) →
      ∃ es' ∈ es :: pollEvents es ds, ∃ f, base ≤ f ∧ f ≤ (Store.run cap es').ver ∧
        (∀ e ∈ changes 0 es', base < e.ver → e.ver ≤ f → interested c ts e = false) ∧
        processWatchLoop c ts base follow (Store.run cap es) ((pollEvents es ds).map (Store.run cap)) =
          (Store.run cap es').readChangeLogs c ts f := by
  intro ds
  induction ds with
  | nil =>
    intro follow es h1 h2 h3
    exact ⟨es, List.mem_cons_self, follow, h1, h2, h3, rfl⟩
  | cons d ds ih =>
    intro follow es h1 h2 h3
    simp only [pollEvents, List.map_cons, processWatchLoop]
    split
    · exact ⟨es, List.mem_cons_self, follow, h1, h2, h3, rfl⟩
    · rename_i hnr
      have hnr' : ((Store.run cap es).readChangeLogs c ts follow).needReturn base = false := by
        simpa using hnr
      simp only [WatchData.needReturn, Bool.or_eq_false_iff, Bool.not_eq_false', List.isEmpty_iff] at hnr'
      obtain ⟨⟨hfs, hlogs⟩, _⟩ := hnr'
      have hch := C107_changes_partial hcap es c ts follow h2 hfs
      rw [hlogs] at hch
      have hmax := maxVer_run hcap es c ts follow
      have hv := (run_inv hcap es).1
      have hv' := (run_inv hcap (es ++ d)).1
      have hpre : changes 0 (es ++ d) = changes 0 es ++ changes (changes 0 es).length d := by
        rw [changes_append, Nat.zero_add]
      obtain ⟨es', hes', f, hf⟩ := ih (if follow < ((Store.run cap es).readChangeLogs c ts follow).maxVer then
          ((Store.run cap es).readChangeLogs c ts follow).maxVer else follow) (es ++ d) (by split <;> omega)
        (by rw [hv', hpre, List.length_append]; split <;> omega)
        (by
          intro e he hb hle
          rw [hpre, List.mem_append] at he
          have hlev : e.ver ≤ (Store.run cap es).ver := by
            split at hle <;> omega
          rcases he with he | he
          · by_cases hle2 : e.ver ≤ follow
            · exact h3 e he hb hle2
            · cases hi : interested c ts e with
              | false => rfl
              | true =>
                have : e ∈ (changes 0 es).filter fun e => decide (follow < e.ver) && interested c ts e := by
                  rw [List.mem_filter]; exact ⟨he, by simp [hi]; omega⟩
                rw [← hch] at this
                cases this
          · obtain ⟨i, hi, rfl⟩ := List.mem_iff_getElem.1 he
            rw [changes_ver] at hlev
            omega)
      exact ⟨es', List.mem_cons_of_mem _ hes', f, hf⟩

/-- C107 for a request that waits.  The answer to a request with version `base`, whatever is written and how often the
server looks while it waits, either tells the node to read everything again, or has exactly the changes after `base`
that the node is interested in, as of one of the times at which the server looked; and no change up to the version that
the node takes from the answer is missing. -/
theorem C107_watch_partial {cap : Nat} (hcap : 0 < cap) (es d : List Event) (ds : List (List Event)) (c : Name) (ts : List Name)
    (base : Nat) (hbase : base ≤ (Store.run cap es).ver) :
    let w := processWatch c ts base (Store.run cap es) (Store.run cap (es ++ d))
      ((pollEvents (es ++ d) ds).map (Store.run cap))
    ∃ es' ∈ es :: pollEvents es (d :: ds), w.fullSync = false →
      w.logs = (changes 0 es').filter (fun e => decide (base < e.ver) && interested c ts e) ∧
      ∀ e ∈ changes 0 es', base < e.ver → e.ver ≤ w.maxVer → interested c ts e = true → e ∈ w.logs := by
  intro w
  have fin : ∀ es' f, base ≤ f → f ≤ (Store.run cap es').ver →
      (∀ e ∈ changes 0 es', base < e.ver → e.ver ≤ f → interested c ts e = false) →
      ((Store.run cap es').readChangeLogs c ts f).fullSync = false →
      ((Store.run cap es').readChangeLogs c ts f).logs =
        (changes 0 es').filter (fun e => decide (base < e.ver) && interested c ts e) := by
    intro es' f h1 h2 h3 h4
    rw [C107_changes_partial hcap es' c ts f h2 h4]
    apply List.filter_congr
    intro e he
    by_cases hf : f < e.ver
    · have : base < e.ver := by omega
      simp [hf, this]
    · by_cases hb : base < e.ver
      · rw [h3 e he hb (by omega)]; simp
      · simp [hf, hb]
  have main : ∃ es' ∈ es :: pollEvents es (d :: ds), w.fullSync = false →
      w.logs = (changes 0 es').filter (fun e => decide (base < e.ver) && interested c ts e) := by
    simp only [w, processWatch]
    split
    · exact ⟨es, List.mem_cons_self, fun hfs => C107_changes_partial hcap es c ts base hbase hfs⟩
    · have hle : base ≤ (Store.run cap (es ++ d)).ver := by
        have h1 := (run_inv hcap es).1
        have h2 := (run_inv hcap (es ++ d)).1
        rw [changes_append, List.length_append] at h2
        omega
      obtain ⟨es', hes', f, h1, h2, h3, h4⟩ := watchLoop_spec hcap c ts base ds base (es ++ d) (Nat.le_refl _) hle
        (fun e _ h1 h2 => by omega)
      refine ⟨es', List.mem_cons_of_mem _ hes', ?_⟩
      rw [h4]
      exact fin es' f h1 h2 h3
  obtain ⟨es', hes', h⟩ := main
  refine ⟨es', hes', fun hfs => ⟨h hfs, fun e he hb _ hi => ?_⟩⟩
  rw [h hfs, List.mem_filter]
  exact ⟨he, by simp [hb, hi]⟩

/-- A run with a full log, a restart and a request that is answered with changes. -/
def exEvents : List Event :=
  [.op (.insert (KeyPath.user "c".toList "u".toList) (.user "1".toList "u".toList 0)), .restart,
   .op (.insert (KeyPath.user "c".toList "v".toList) (.user "2".toList "v".toList 0)),
   .op (.insert (KeyPath.role "c".toList "t".toList "r".toList) (.role 1 "r".toList 0)),
   .retain "c".toList 5,
   .op (.remove (KeyPath.user "c".toList "u".toList)),
   .op (.insert (KeyPath.role "c".toList "s".toList "r".toList) (.role 2 "r".toList 0))]

/-- The hypotheses of the theorems are met: with room for 3 changes, a node that knows version 3 gets the removal of a user
and, if it uses tenant `t`, not the role of tenant `s`. -/
example : 3 ≤ (Store.run 3 exEvents).ver ∧
    ((Store.run 3 exEvents).readChangeLogs "c".toList ["t".toList] 3).fullSync = false ∧
    ((Store.run 3 exEvents).readChangeLogs "c".toList ["t".toList] 3).logs.map Entry.ver = [4] ∧
    ((Store.run 3 exEvents).readChangeLogs "c".toList ["s".toList] 3).logs.map Entry.ver = [4, 5] ∧
    ((Store.run 3 exEvents).readChangeLogs "c".toList ["t".toList] 2).fullSync = true := by decide +kernel

/-- C107 fails on a server that got a snapshot from another server: the log is kept as it was, with a gap.  A server saw the
first of three users, then gets the snapshot of a server with all three, then a fourth user is made.  A node that knows the
first two is told about the fourth only. -/
theorem C107_refuted :
    ∃ (leader follower : List Event) (o : Op) (base : Nat),
      let s := ((Store.run 8192 follower).restore (Store.run 8192 leader).db (Store.run 8192 leader).ver).apply o
      s.ver = (Store.run 8192 (leader ++ [.op o])).ver ∧ base ≤ s.ver ∧
      (∃ k, follower = leader.take k) ∧
      (s.readChangeLogs "c".toList [] base).fullSync = false ∧
      ∃ e ∈ changes 0 (leader ++ [.op o]), base < e.ver ∧ interested "c".toList [] e = true ∧
        e ∉ (s.readChangeLogs "c".toList [] base).logs ∧ e.ver ≤ (s.readChangeLogs "c".toList [] base).maxVer := by
  let u : Name → Op := fun n => .insert (KeyPath.user "c".toList n) (.user n n 0)
  refine ⟨[.op (u "a".toList), .op (u "b".toList), .op (u "d".toList)], [.op (u "a".toList)], u "e".toList, 2, ?_⟩
  refine ⟨by decide +kernel, by decide +kernel, ⟨1, rfl⟩, by decide +kernel, (u "d".toList).entry 3, by decide +kernel,
    by decide +kernel, by decide +kernel, by decide +kernel, by decide +kernel⟩

end Verif.Watch
