import Verif.Files.Props
/-!
# Where the log remembers its records, and what failures do
-/
namespace Verif.Files

/-- `WalWriter::open` of a file that has its magic number (wal/writer.rs:22-38). -/
def Wal.opened (d : List Nat) (cap : Nat) (os : List Out) (sync : Bool) : Wal := ⟨W.opened d cap os, d.length, sync⟩

theorem append_ok (s : Wal) (f : F) (r : List (List Nat)) (h : Rel s.file f) (hc : f.cursor = f.content.length)
    (hs : s.size = f.content.length) (hok : (s.append r).1 ≠ none) :
    (s.append r).1 = some f.content.length ∧ (s.append r).2.size = (f.content ++ r.flatten).length ∧
      Rel (s.append r).2.file ⟨f.content ++ r.flatten, (f.content ++ r.flatten).length⟩ ∧ (s.append r).2.sync = s.sync := by
  have hf : (⟨overlay f.content f.cursor r.flatten, f.cursor + r.flatten.length⟩ : F) =
      ⟨f.content ++ r.flatten, (f.content ++ r.flatten).length⟩ := by
    rw [hc, overlay_at_end, List.length_append]
  unfold Wal.append at hok ⊢
  dsimp only at hok ⊢
  rw [writeVec_eq] at hok ⊢
  cases hw : (s.file.write r.flatten).1 with
  | false => rw [hw] at hok; simp at hok
  | true =>
    have hr := rel_write s.file f r.flatten h hw
    rw [hf] at hr
    rw [hw] at hok
    rw [if_pos rfl] at hok ⊢
    cases hsy : s.sync with
    | false =>
      rw [if_neg (by simp)]
      exact ⟨by rw [hs], by show s.size + _ = _; rw [hs, List.length_append], hr, rfl⟩
    | true =>
      rw [hsy, if_pos rfl] at hok
      rw [if_pos rfl]
      cases hfl : (s.file.write r.flatten).2.flush.1 with
      | false => rw [hfl] at hok; simp at hok
      | true =>
        rw [if_pos rfl]
        exact ⟨by rw [hs], by show s.size + _ = _; rw [hs, List.length_append], (rel_flush _ _ hr hfl).1, rfl⟩

theorem run_ok (rs : List (List (List Nat))) : ∀ (s : Wal) (f : F), Rel s.file f → f.cursor = f.content.length →
    s.size = f.content.length → (∀ a ∈ (s.run rs).1, a ≠ none) →
    (∃ f' : F, Rel (s.run rs).2.file f' ∧ f'.content = f.content ++ (rs.map List.flatten).flatten) ∧
    ∀ (i : Nat) (r : List (List Nat)), rs[i]? = some r → ∃ x y, f.content ++ (rs.map List.flatten).flatten = x ++ r.flatten ++ y ∧
      (s.run rs).1[i]? = some (some x.length) := by
  induction rs with
  | nil => intro s f h _ _ _; exact ⟨⟨f, h, by simp⟩, fun i r hr => by simp at hr⟩
  | cons r rs ih =>
    intro s f h hc hs hok
    have hok1 : (s.append r).1 ≠ none := hok _ List.mem_cons_self
    obtain ⟨a1, a2, a3, _⟩ := append_ok s f r h hc hs hok1
    obtain ⟨⟨f', i1, i2⟩, i3⟩ := ih (s.append r).2 _ a3 rfl a2 (fun a ha => hok a (List.mem_cons_of_mem _ ha))
    refine ⟨⟨f', i1, by rw [i2]; simp⟩, ?_⟩
    intro i q hq
    cases i with
    | zero =>
      rw [List.getElem?_cons_zero] at hq
      cases hq
      refine ⟨f.content, (rs.map List.flatten).flatten, by simp, ?_⟩
      show ((s.append r).1 :: _)[0]? = _
      rw [List.getElem?_cons_zero, a1]
    | succ i =>
      rw [List.getElem?_cons_succ] at hq
      obtain ⟨x, y, e1, e2⟩ := i3 i q hq
      refine ⟨x, y, ?_, ?_⟩
      · rw [← e1]; simp
      · show ((s.append r).1 :: ((s.append r).2.run rs).1)[i + 1]? = _
        rw [List.getElem?_cons_succ, e2]

/-- C213: if no record was refused, every record lies where the log says that it wrote it.  (After a failure: see the
refutations.) -/
theorem C213_found_partial (d : List Nat) (cap : Nat) (os : List Out) (sync : Bool) (rs : List (List (List Nat))) (hm : Moves os)
    (hok : ∀ a ∈ ((Wal.opened d cap os sync).run rs).1, a ≠ none)
    (hf : ((Wal.opened d cap os sync).run rs).2.file.flush.1 = true) (i : Nat) (r : List (List Nat)) (hr : rs[i]? = some r) :
    ∃ p, ((Wal.opened d cap os sync).run rs).1[i]? = some (some p) ∧
      at' ((Wal.opened d cap os sync).run rs).2.file.flush.2.disk p r.flatten.length = r.flatten := by
  obtain ⟨⟨f', h1, h2⟩, h3⟩ := run_ok rs (Wal.opened d cap os sync) ⟨d, d.length⟩ (rel_opened d cap os hm) rfl rfl hok
  obtain ⟨x, y, e1, e2⟩ := h3 i r hr
  refine ⟨x.length, e2, ?_⟩
  have hd := (rel_flush _ _ h1 hf).2.2.1
  rw [hd, h2, e1]
  unfold at'
  rw [List.append_assoc, List.drop_left, List.take_left]

/-- Three records, a short write. -/
example : ((Wal.opened [9, 9, 9, 9] 3 [.wrote 1] false).run [[[1]], [[2], [3, 4]], [[5]]]).1 = [some 4, some 5, some 8] ∧
    ((Wal.opened [9, 9, 9, 9] 3 [.wrote 1] false).run [[[1]], [[2], [3, 4]], [[5]]]).2.file.flush.1 = true := by decide +kernel

/-- C213: with `wal_sync`, a record that the log accepted is in the file without any further flush. -/
theorem C213_synced (d : List Nat) (cap : Nat) (os : List Out) (rs : List (List (List Nat))) (hm : Moves os)
    (hok : ∀ a ∈ ((Wal.opened d cap os true).run rs).1, a ≠ none) :
    ((Wal.opened d cap os true).run rs).2.file.disk = d ++ (rs.map List.flatten).flatten := by
  have key : ∀ (rs : List (List (List Nat))) (s : Wal) (f : F), s.sync = true → Rel s.file f → f.cursor = f.content.length →
      s.size = f.content.length → s.file.disk = f.content → (∀ a ∈ (s.run rs).1, a ≠ none) →
      (s.run rs).2.file.disk = f.content ++ (rs.map List.flatten).flatten := by
    intro rs
    induction rs with
    | nil => intro s f _ _ _ _ hd _; simpa [Wal.run] using hd
    | cons r rs ih =>
      intro s f hsy h hc hs hd hok
      have hok1 : (s.append r).1 ≠ none := hok _ List.mem_cons_self
      obtain ⟨_, a2, a3, a4⟩ := append_ok s f r h hc hs hok1
      have hdisk : (s.append r).2.file.disk = f.content ++ r.flatten := by
        have hf : (⟨overlay f.content f.cursor r.flatten, f.cursor + r.flatten.length⟩ : F) =
            ⟨f.content ++ r.flatten, (f.content ++ r.flatten).length⟩ := by
          rw [hc, overlay_at_end, List.length_append]
        unfold Wal.append at hok1 ⊢
        dsimp only at hok1 ⊢
        rw [writeVec_eq] at hok1 ⊢
        cases hw : (s.file.write r.flatten).1 with
        | false => rw [hw] at hok1; simp at hok1
        | true =>
          have hr := rel_write s.file f r.flatten h hw
          rw [hf] at hr
          rw [hw, if_pos rfl, hsy, if_pos rfl] at hok1
          rw [if_pos rfl, hsy, if_pos rfl]
          cases hfl : (s.file.write r.flatten).2.flush.1 with
          | false => rw [hfl] at hok1; simp at hok1
          | true => rw [if_pos rfl]; exact (rel_flush _ _ hr hfl).2.2.1
      show ((s.append r).2.run rs).2.file.disk = _
      rw [ih (s.append r).2 _ (a4.trans hsy) a3 rfl a2 hdisk (fun a ha => hok a (List.mem_cons_of_mem _ ha))]
      simp
  exact key rs _ ⟨d, d.length⟩ rfl (rel_opened d cap os hm) rfl rfl rfl hok

/-! ## Refutations -/

/-- C212 is false after a failure: bytes that were accepted are dropped by a flush that fails; the flush that follows answers
success without them. -/
theorem C212_retry_refuted :
    let r := (W.opened [7] 100 [.fail]).run [.write [1, 2], .flush, .flush]
    r.1 = [true, false, true] ∧ r.2.disk = [7] := by decide +kernel

/-- C212: a later write that fails drops the bytes of earlier ones that were answered with success. -/
theorem C212_earlier_refuted :
    let r := (W.opened [7] 3 [.fail]).run [.write [1, 2], .write [3], .write [4], .flush]
    r.1 = [true, false, true, true] ∧ r.2.disk = [7, 4] := by decide +kernel

/-- C212: if the operating system writes nothing without an error, success is answered all the same, and the next bytes are
behind a gap. -/
theorem C212_nothing_written_refuted :
    let r := (W.opened [7] 2 [.wrote 1, .wrote 0]).run [.write [1, 2, 3], .write [4, 5], .flush]
    r.1 = [true, true, true] ∧ r.2.disk = [7, 1, 0, 0, 4, 5] := by decide +kernel

/-- C211 is false for seeking behind the end: a flush of nothing makes the writer believe in a longer file. -/
theorem C211_beyond_refuted :
    let r := (W.opened [] 8 []).run [.seek (.start 10), .flush]
    r.1 = [true, true] ∧ r.2.disk = [] ∧ r.2.len = 10 := by decide +kernel

/-- C211 is false for the length told after seeking back: what is overwritten is counted twice. -/
theorem C211_length_refuted :
    let r := (W.opened [1, 2, 3] 8 []).run [.seek (.start 0), .write [4, 5]]
    r.1 = [true, true] ∧ r.2.len = 5 ∧ r.2.flush.2.disk = [4, 5, 3] := by decide +kernel

/-- C213 is false if synchronising fails once: the refused record stays in the file, and the next one is looked for where
the refused one lies. -/
theorem C213_sync_refuted :
    let r := (Wal.opened [9] 100 [.wrote 2, .fail] true).run [[[1, 1]], [[2, 2]]]
    r.1 = [none, some 1] ∧ r.2.file.disk = [9, 1, 1, 2, 2] ∧ at' r.2.file.disk 1 2 = [1, 1] := by decide +kernel

/-- C213 is false without `wal_sync` if writing the buffer fails once: the record before it, which was accepted, is gone, and
the next one is looked for behind the end. -/
theorem C213_buffer_refuted :
    let r := (Wal.opened [9] 3 [.fail] false).run [[[1, 1]], [[2, 2]], [[3, 3]]]
    r.1 = [some 1, none, some 3] ∧ r.2.file.flush.2.disk = [9, 3, 3] ∧ at' r.2.file.flush.2.disk 3 2 = [] := by decide +kernel

/-- C213 is false if cutting the file fails: the error is dropped, the records stay, and the next one is looked for in front
of where it lies. -/
theorem C213_truncate_refuted :
    let s := ((Wal.opened [9, 1, 1, 2, 2] 100 [.again, .fail] true).truncate 3)
    let r := s.append [[3, 3]]
    r.1 = some 3 ∧ r.2.file.disk = [9, 1, 1, 2, 2, 3, 3] ∧ at' r.2.file.disk 3 2 = [2, 2] := by decide +kernel

end Verif.Files
