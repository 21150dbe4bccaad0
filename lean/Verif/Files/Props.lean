import Verif.Files.Stream
/-!
# What is in a file after writing through a buffer
-/
namespace Verif.Files

/-! ## A file without a buffer and without failures -/

/-- A file and a cursor. -/
structure F where
  content : List Nat
  cursor : Nat

/-- What an operation means. -/
def F.op (f : F) : Op → F
  | .write b => ⟨overlay f.content f.cursor b, f.cursor + b.length⟩
  | .writeVec bs => ⟨overlay f.content f.cursor bs.flatten, f.cursor + bs.flatten.length⟩
  | .flush => f
  | .seek s => match s.target f.content.length f.cursor with
    | some p => ⟨f.content, p⟩
    | none => f
  | .truncate n => ⟨resize f.content n, n⟩

def F.run (f : F) : List Op → F
  | [] => f
  | o :: l => (f.op o).run l

/-- No seeking behind the end. -/
def Within (f : F) : List Op → Prop
  | [] => True
  | o :: l => (f.op o).cursor ≤ (f.op o).content.length ∧ Within (f.op o) l

/-- The operating system never answers that it wrote nothing of something. -/
def Moves (os : List Out) : Prop := Out.wrote 0 ∉ os

/-! ## Lemmas -/

theorem overlay_nil (d : List Nat) (p : Nat) : overlay d p [] = d := by simp [overlay]

theorem head_length (d : List Nat) (p : Nat) : (d.take p ++ List.replicate (p - d.length) 0).length = p := by
  rw [List.length_append, List.length_take, List.length_replicate]; omega

theorem overlay_append (d : List Nat) (p : Nat) (a b : List Nat) :
    overlay (overlay d p a) (p + a.length) b = overlay d p (a ++ b) := by
  by_cases ha : a = []
  · subst ha; rw [overlay_nil]; simp
  by_cases hb : b = []
  · subst hb; rw [overlay_nil, List.append_nil]
  have hx := head_length d p
  have hl : (d.take p ++ List.replicate (p - d.length) 0 ++ a).length = p + a.length := by
    rw [List.length_append, hx]
  unfold overlay
  rw [if_neg ha, if_neg hb, if_neg (by simp [ha])]
  generalize hh : d.take p ++ List.replicate (p - d.length) 0 ++ a = h at hl ⊢
  have h1 : (h ++ d.drop (p + a.length)).take (p + a.length) = h := by rw [← hl, List.take_left]
  have h2 : p + a.length - (h ++ d.drop (p + a.length)).length = 0 := by
    rw [List.length_append, hl]; omega
  have h3 : (h ++ d.drop (p + a.length)).drop (p + a.length + b.length) = d.drop (p + (a ++ b).length) := by
    rw [← hl, ← List.drop_drop, List.drop_left, List.drop_drop, hl, List.length_append, Nat.add_assoc]
  rw [h1, h2, h3, List.replicate_zero, List.append_nil, ← hh]
  simp only [List.append_assoc]

theorem overlay_length (d : List Nat) (p : Nat) (b : List Nat) (h : p ≤ d.length) :
    (overlay d p b).length = max d.length (p + b.length) := by
  unfold overlay
  split
  · rename_i hb; subst hb; simp; omega
  · rw [List.length_append, List.length_append, head_length, List.length_drop]; omega

theorem overlay_take (d : List Nat) (p q : Nat) (b : List Nat) (h : q ≤ p) (h' : q ≤ d.length) :
    (overlay d p b).take q = d.take q := by
  unfold overlay
  split
  · rfl
  · rw [List.append_assoc, List.append_assoc, List.take_append_of_le_length (by rw [List.length_take]; omega), List.take_take,
      Nat.min_eq_left h]

theorem overlay_at_end (d b : List Nat) : overlay d d.length b = d ++ b := by
  unfold overlay
  split
  · rename_i h; subst h; simp
  · simp

theorem writeAll_ok (os : List Out) : ∀ (d : List Nat) (p : Nat) (b : List Nat), Moves os → (writeAll os d p b).1 = true →
    (writeAll os d p b).2.1 = overlay d p b ∧ Moves (writeAll os d p b).2.2 := by
  induction os with
  | nil => intro d p b _ _; exact ⟨rfl, by simp [writeAll, Moves]⟩
  | cons o os ih =>
    intro d p b hm h
    have hm' : Moves os := fun hx => hm (List.mem_cons_of_mem _ hx)
    unfold writeAll at h ⊢
    by_cases hb : b = []
    · rw [if_pos hb]; subst hb; exact ⟨(overlay_nil d p).symm, hm⟩
    · rw [if_neg hb] at h ⊢
      cases o with
      | again => exact ih d p b hm' h
      | fail => cases h
      | wrote n =>
        have hn : n ≠ 0 := by rintro rfl; exact hm List.mem_cons_self
        have hl : b.length ≠ 0 := by simpa using hb
        dsimp only at h ⊢
        have h0 : min n b.length ≠ 0 := by omega
        rw [if_neg h0] at h ⊢
        obtain ⟨h1, h2⟩ := ih _ _ _ hm' h
        refine ⟨?_, h2⟩
        rw [h1]
        have : (b.take (min n b.length)).length = min n b.length := by rw [List.length_take]; omega
        conv => lhs; rw [← this]
        rw [this, show p + min n b.length = p + (b.take (min n b.length)).length by rw [this], overlay_append,
          List.take_append_drop]

theorem writeAll_take (os : List Out) (q : Nat) : ∀ (d : List Nat) (p : Nat) (b : List Nat), q ≤ p → q ≤ d.length →
    (writeAll os d p b).2.1.take q = d.take q ∧ q ≤ (writeAll os d p b).2.1.length := by
  have ov : ∀ (d : List Nat) (p : Nat) (b : List Nat), q ≤ p → q ≤ d.length → q ≤ (overlay d p b).length := by
    intro d p b h1 h2
    have := congrArg List.length (overlay_take d p q b h1 h2)
    rw [List.length_take, List.length_take] at this
    omega
  induction os with
  | nil => intro d p b h1 h2; exact ⟨overlay_take d p q b h1 h2, ov d p b h1 h2⟩
  | cons o os ih =>
    intro d p b h1 h2
    unfold writeAll
    by_cases hb : b = []
    · rw [if_pos hb]; exact ⟨rfl, h2⟩
    · rw [if_neg hb]
      cases o with
      | again => exact ih d p b h1 h2
      | fail => exact ⟨rfl, h2⟩
      | wrote n =>
        dsimp only
        by_cases h0 : min n b.length = 0
        · rw [if_pos h0]; exact ⟨rfl, h2⟩
        · rw [if_neg h0]
          obtain ⟨a1, a2⟩ := ih (overlay d p (b.take (min n b.length))) (p + min n b.length) (b.drop (min n b.length))
            (Nat.le_trans h1 (Nat.le_add_right _ _)) (ov _ _ _ h1 h2)
          exact ⟨a1.trans (overlay_take d p q _ h1 h2), a2⟩

/-! ## The buffer refines the plain file -/

/-- The writer `w` stands for the file `f`. -/
structure Rel (w : W) (f : F) : Prop where
  content : f.content = overlay w.disk w.pos w.buf
  cursor : f.cursor = w.pos + w.buf.length
  size : w.size = w.disk.length
  pos : w.pos ≤ w.disk.length
  moves : Moves w.os

theorem rel_opened (d : List Nat) (cap : Nat) (os : List Out) (h : Moves os) : Rel (W.opened d cap os) ⟨d, d.length⟩ :=
  ⟨by simp [W.opened, overlay_nil], by simp [W.opened], rfl, Nat.le_refl _, h⟩

theorem rel_drain (w : W) (f : F) (h : Rel w f) (hok : w.drain.1 = true) :
    Rel w.drain.2 f ∧ w.drain.2.buf = [] ∧ w.drain.2.disk = f.content ∧ w.drain.2.pos = f.cursor := by
  have hr : (writeAll w.os w.disk w.pos w.buf).1 = true := by
    cases hr : (writeAll w.os w.disk w.pos w.buf).1 with
    | true => rfl
    | false => unfold W.drain at hok; simp [hr] at hok
  obtain ⟨h1, h2⟩ := writeAll_ok w.os w.disk w.pos w.buf h.moves hr
  have he : w.drain.2 = ⟨(writeAll w.os w.disk w.pos w.buf).2.1, max w.size (w.pos + w.buf.length), w.pos + w.buf.length, [],
      w.cap, (writeAll w.os w.disk w.pos w.buf).2.2⟩ := by
    unfold W.drain; simp [hr]
  have hl := overlay_length w.disk w.pos w.buf h.pos
  rw [he]
  refine ⟨⟨?_, ?_, ?_, ?_, h2⟩, rfl, ?_, ?_⟩
  · rw [overlay_nil, h1]; exact h.content
  · rw [h.cursor]; rfl
  · show max w.size (w.pos + w.buf.length) = _
    rw [h1, hl, h.size]
  · show w.pos + w.buf.length ≤ _
    rw [h1, hl]; omega
  · rw [h.content]; exact h1
  · exact h.cursor.symm

theorem call_same (w : W) : w.call.2.disk = w.disk ∧ w.call.2.size = w.size ∧ w.call.2.pos = w.pos ∧ w.call.2.buf = w.buf ∧
    w.call.2.cap = w.cap ∧ (Moves w.os → Moves w.call.2.os) := by
  unfold W.call
  split <;> refine ⟨rfl, rfl, rfl, rfl, rfl, ?_⟩ <;> intro h
  · rename_i he; rw [he] at h; exact fun hx => h (List.mem_cons_of_mem _ hx)
  · rename_i he; rw [he] at h; exact fun hx => h (List.mem_cons_of_mem _ hx)
  · exact h

theorem rel_flush (w : W) (f : F) (h : Rel w f) (hok : w.flush.1 = true) :
    Rel w.flush.2 f ∧ w.flush.2.buf = [] ∧ w.flush.2.disk = f.content ∧ w.flush.2.pos = f.cursor := by
  have hd : w.drain.1 = true := by
    cases hd : w.drain.1 with
    | true => rfl
    | false => unfold W.flush at hok; simp [hd] at hok
  obtain ⟨h1, h2, h3, h4⟩ := rel_drain w f h hd
  have he : w.flush.2 = w.drain.2.call.2 := by unfold W.flush; simp [hd]
  obtain ⟨c1, c2, c3, c4, _, c6⟩ := call_same w.drain.2
  rw [he]
  refine ⟨⟨?_, ?_, ?_, ?_, c6 h1.moves⟩, c4.trans h2, c1.trans h3, c3.trans h4⟩
  · rw [c1, c3, c4]; exact h1.content
  · rw [c3, c4]; exact h1.cursor
  · rw [c1, c2]; exact h1.size
  · rw [c1, c3]; exact h1.pos

theorem rel_extend (w : W) (f : F) (b : List Nat) (h : Rel w f) :
    Rel { w with buf := w.buf ++ b } ⟨overlay f.content f.cursor b, f.cursor + b.length⟩ := by
  refine ⟨?_, ?_, h.size, h.pos, h.moves⟩
  · show overlay f.content f.cursor b = overlay w.disk w.pos (w.buf ++ b)
    rw [h.content, h.cursor, overlay_append]
  · show f.cursor + b.length = w.pos + (w.buf ++ b).length
    rw [h.cursor, List.length_append, Nat.add_assoc]

theorem fold_extend (bs : List (List Nat)) : ∀ w : W,
    bs.foldl (fun w b => { w with buf := w.buf ++ b }) w = { w with buf := w.buf ++ bs.flatten } := by
  induction bs with
  | nil => intro w; simp
  | cons b bs ih => intro w; rw [List.foldl_cons, ih]; simp

theorem writeVec_eq (w : W) (bs : List (List Nat)) : w.writeVec bs = w.write bs.flatten := by
  unfold W.writeVec W.write
  rw [fold_extend]

theorem rel_write (w : W) (f : F) (b : List Nat) (h : Rel w f) (hok : (w.write b).1 = true) :
    Rel (w.write b).2 ⟨overlay f.content f.cursor b, f.cursor + b.length⟩ := by
  have hx := rel_extend w f b h
  unfold W.write at hok ⊢
  dsimp only at hok ⊢
  by_cases hc : w.cap ≤ (w.buf ++ b).length
  · rw [if_pos hc] at hok ⊢; exact (rel_drain _ _ hx hok).1
  · rw [if_neg hc]; exact hx

theorem resize_length (d : List Nat) (n : Nat) : (resize d n).length = n := head_length d n

theorem rel_op (w : W) (f : F) (o : Op) (h : Rel w f) (hok : (w.op o).1 = true)
    (hin : (f.op o).cursor ≤ (f.op o).content.length) : Rel (w.op o).2 (f.op o) := by
  cases o with
  | write b => exact rel_write w f b h hok
  | writeVec bs =>
    have he : w.op (.writeVec bs) = w.write bs.flatten := writeVec_eq w bs
    rw [he] at hok ⊢; exact rel_write w f _ h hok
  | flush => exact (rel_flush w f h hok).1
  | seek s =>
    change (w.seek s).1 = true at hok
    change Rel (w.seek s).2 _
    have hfl : w.flush.1 = true := by
      cases hf : w.flush.1 with
      | true => rfl
      | false => unfold W.seek at hok; simp [hf] at hok
    obtain ⟨r, hb, hd, hp⟩ := rel_flush w f h hfl
    have hlen : w.flush.2.len = f.content.length := by
      unfold W.len; rw [hb, r.size, hd]; rfl
    unfold W.seek at hok ⊢
    rw [if_pos hfl] at hok ⊢
    rw [hlen, hp] at hok ⊢
    unfold F.op at hin ⊢
    cases ht : s.target f.content.length f.cursor with
    | none => rw [ht] at hok; cases hok
    | some p =>
      simp only [ht] at hin ⊢
      refine ⟨?_, ?_, r.size, ?_, r.moves⟩
      · show f.content = overlay _ p w.flush.2.buf
        rw [hb, overlay_nil, hd]
      · show p = p + w.flush.2.buf.length
        rw [hb]; rfl
      · show p ≤ w.flush.2.disk.length
        rw [hd]; exact hin
  | truncate n =>
    change (w.truncate n).1 = true at hok
    change Rel (w.truncate n).2 _
    have hfl : w.flush.1 = true := by
      cases hf : w.flush.1 with
      | true => rfl
      | false => unfold W.truncate at hok; simp [hf] at hok
    obtain ⟨r, hb, hd, hp⟩ := rel_flush w f h hfl
    obtain ⟨c1, c2, c3, c4, _, c6⟩ := call_same { w.flush.2 with size := n }
    unfold W.truncate at hok ⊢
    rw [if_pos hfl] at hok ⊢
    dsimp only at hok ⊢
    have hc : (W.call { w.flush.2 with size := n }).1 = true := by
      cases hc : (W.call { w.flush.2 with size := n }).1 with
      | true => rfl
      | false => rw [hc] at hok; simp [hc] at hok
    rw [if_pos hc]
    have k1 : (W.call { w.flush.2 with size := n }).2.disk = f.content := c1.trans hd
    have k4 : (W.call { w.flush.2 with size := n }).2.buf = [] := c4.trans hb
    refine ⟨?_, ?_, ?_, ?_, c6 r.moves⟩
    · show resize f.content n = overlay (resize (W.call { w.flush.2 with size := n }).2.disk n) n
        (W.call { w.flush.2 with size := n }).2.buf
      rw [k4, overlay_nil, k1]
    · show n = n + (W.call { w.flush.2 with size := n }).2.buf.length
      rw [k4]; rfl
    · show (W.call { w.flush.2 with size := n }).2.size = (resize _ n).length
      rw [c2, resize_length]
    · show n ≤ (resize _ n).length
      rw [resize_length]; exact Nat.le_refl _

theorem rel_run (ops : List Op) : ∀ (w : W) (f : F), Rel w f → (∀ a ∈ (w.run ops).1, a = true) → Within f ops →
    Rel (w.run ops).2 (f.run ops) := by
  induction ops with
  | nil => intro w f h _ _; exact h
  | cons o ops ih =>
    intro w f h hok hin
    have h1 : (w.op o).1 = true := hok _ List.mem_cons_self
    exact ih _ _ (rel_op w f o h h1 hin.1) (fun a ha => hok a (List.mem_cons_of_mem _ ha)) hin.2

/-- C211: whatever is written to a file through the buffer, over short and interrupted writes of the operating system: if no
operation answers an error, then after a flush the file has what the same operations leave in a plain file. -/
theorem C211_stored (d : List Nat) (cap : Nat) (os : List Out) (ops : List Op) (hm : Moves os)
    (hin : Within ⟨d, d.length⟩ ops) (hok : ∀ a ∈ ((W.opened d cap os).run ops).1, a = true)
    (hf : ((W.opened d cap os).run ops).2.flush.1 = true) :
    ((W.opened d cap os).run ops).2.flush.2.disk = (F.run ⟨d, d.length⟩ ops).content :=
  (rel_flush _ _ (rel_run ops _ _ (rel_opened d cap os hm) hok hin) hf).2.2.1

/-- A file of three bytes, a buffer of four, a short and an interrupted write. -/
example : Moves [.wrote 2, .again, .wrote 9] ∧ Within ⟨[7, 8, 9], 3⟩ [.write [1, 2], .write [3, 4, 5], .truncate 4, .seek (.ending (-2)), .write [0]] ∧
    (((W.opened [7, 8, 9] 4 [.wrote 2, .again, .wrote 9]).run [.write [1, 2], .write [3, 4, 5], .truncate 4, .seek (.ending (-2)), .write [0]]).1.all id) = true ∧
    ((W.opened [7, 8, 9] 4 [.wrote 2, .again, .wrote 9]).run [.write [1, 2], .write [3, 4, 5], .truncate 4, .seek (.ending (-2)), .write [0]]).2.flush.2.disk = [7, 8, 0, 1] := by
  refine ⟨by unfold Moves; decide, ?_, by decide +kernel, by decide +kernel⟩
  simp [Within, F.op, From.target, overlay, resize]

/-- Operations that only append. -/
def Appends : Op → Prop
  | .write _ => True
  | .writeVec _ => True
  | .flush => True
  | _ => False

/-- C211: appending to a file leaves what was there in front of what was appended, in order. -/
theorem C211_appended (d : List Nat) (cap : Nat) (os : List Out) (bs : List (List Nat)) (hm : Moves os)
    (hok : ∀ a ∈ ((W.opened d cap os).run (bs.map .write)).1, a = true)
    (hf : ((W.opened d cap os).run (bs.map .write)).2.flush.1 = true) :
    ((W.opened d cap os).run (bs.map .write)).2.flush.2.disk = d ++ bs.flatten := by
  have key : ∀ (bs : List (List Nat)) (d : List Nat), Within ⟨d, d.length⟩ (bs.map .write) ∧
      (F.run ⟨d, d.length⟩ (bs.map .write)).content = d ++ bs.flatten := by
    intro bs
    induction bs with
    | nil => intro d; exact ⟨trivial, by simp [F.run]⟩
    | cons b bs ih =>
      intro d
      have he : F.op ⟨d, d.length⟩ (.write b) = ⟨d ++ b, (d ++ b).length⟩ := by
        unfold F.op; dsimp only; rw [overlay_at_end, List.length_append]
      obtain ⟨i1, i2⟩ := ih (d ++ b)
      refine ⟨?_, ?_⟩
      · show _ ∧ _
        rw [he]; exact ⟨Nat.le_refl _, i1⟩
      · show (F.run (F.op ⟨d, d.length⟩ (.write b)) (bs.map .write)).content = _
        rw [he, i2]; simp
  rw [C211_stored d cap os _ hm (key bs d).1 hok hf, (key bs d).2]

/-- C211: the length that the writer tells while it appends is that of the file to be. -/
theorem C211_length (d : List Nat) (cap : Nat) (os : List Out) (ops : List Op) (hm : Moves os) (ha : ∀ o ∈ ops, Appends o)
    (hok : ∀ a ∈ ((W.opened d cap os).run ops).1, a = true) :
    ((W.opened d cap os).run ops).2.len = (F.run ⟨d, d.length⟩ ops).content.length := by
  have key : ∀ (ops : List Op) (w : W) (f : F), (∀ o ∈ ops, Appends o) → Rel w f → w.pos = w.disk.length →
      (∀ a ∈ (w.run ops).1, a = true) → (w.run ops).2.len = (f.run ops).content.length := by
    intro ops
    induction ops with
    | nil =>
      intro w f _ h hp _
      show w.size + w.buf.length = f.content.length
      rw [h.content, hp, overlay_at_end, List.length_append, h.size]
    | cons o ops ih =>
      intro w f ha h hp hok
      have hfc : f.cursor = f.content.length := by
        rw [h.cursor, h.content, hp, overlay_at_end, List.length_append]
      have h1 : (w.op o).1 = true := hok _ List.mem_cons_self
      have hin : (f.op o).cursor ≤ (f.op o).content.length := by
        have h0 := ha o List.mem_cons_self
        cases o with
        | write b => unfold F.op; dsimp only; rw [hfc, overlay_at_end, List.length_append]; exact Nat.le_refl _
        | writeVec bs => unfold F.op; dsimp only; rw [hfc, overlay_at_end, List.length_append]; exact Nat.le_refl _
        | flush => unfold F.op; exact Nat.le_of_eq hfc
        | seek s => exact absurd h0 (by simp [Appends])
        | truncate n => exact absurd h0 (by simp [Appends])
      have hpw : ∀ b, (w.write b).1 = true → (w.write b).2.pos = (w.write b).2.disk.length := by
        intro b hb
        have hx := rel_extend w f b h
        unfold W.write at hb ⊢
        dsimp only at hb ⊢
        by_cases hc : w.cap ≤ (w.buf ++ b).length
        · rw [if_pos hc] at hb ⊢
          obtain ⟨r, r2, r3, r4⟩ := rel_drain _ _ hx hb
          rw [r3, r4]; dsimp only
          rw [hfc, overlay_at_end, List.length_append]
        · rw [if_neg hc]; exact hp
      refine ih _ _ (fun o ho => ha o (List.mem_cons_of_mem _ ho)) (rel_op w f o h h1 hin) ?_
        (fun a ha => hok a (List.mem_cons_of_mem _ ha))
      have h0 := ha o List.mem_cons_self
      cases o with
      | write b => exact hpw b h1
      | writeVec bs =>
        have he : w.op (.writeVec bs) = w.write bs.flatten := writeVec_eq w bs
        rw [he] at h1 ⊢; exact hpw _ h1
      | flush =>
        obtain ⟨_, _, r3, r4⟩ := rel_flush w f h h1
        show w.flush.2.pos = w.flush.2.disk.length
        rw [r3, r4, hfc]
      | seek s => exact absurd h0 (by simp [Appends])
      | truncate n => exact absurd h0 (by simp [Appends])
  exact key ops _ _ ha (rel_opened d cap os hm) rfl hok

/-! ## Failures -/

theorem drain_take (w : W) (q : Nat) (h1 : q ≤ w.pos) (h2 : q ≤ w.disk.length) :
    w.drain.2.disk.take q = w.disk.take q ∧ q ≤ w.drain.2.disk.length ∧ q ≤ w.drain.2.pos := by
  obtain ⟨a, b⟩ := writeAll_take w.os q w.disk w.pos w.buf h1 h2
  unfold W.drain
  dsimp only
  cases hr : (writeAll w.os w.disk w.pos w.buf).1 with
  | true => rw [if_pos rfl]; exact ⟨a, b, Nat.le_trans h1 (Nat.le_add_right _ _)⟩
  | false => rw [if_neg (by simp)]; exact ⟨a, b, h1⟩

/-- C212: whatever fails while a file is appended to, what was in it before is not changed. -/
theorem C212_old_bytes (d : List Nat) (cap : Nat) (os : List Out) (ops : List Op) (ha : ∀ o ∈ ops, Appends o) :
    ((W.opened d cap os).run ops).2.disk.take d.length = d := by
  have key : ∀ (ops : List Op) (w : W) (q : Nat), (∀ o ∈ ops, Appends o) → q ≤ w.pos → q ≤ w.disk.length →
      (w.run ops).2.disk.take q = w.disk.take q := by
    intro ops
    induction ops with
    | nil => intro w q _ _ _; rfl
    | cons o ops ih =>
      intro w q ha h1 h2
      have hw : ∀ b, (w.write b).2.disk.take q = w.disk.take q ∧ q ≤ (w.write b).2.disk.length ∧ q ≤ (w.write b).2.pos := by
        intro b
        unfold W.write
        dsimp only
        by_cases hc : w.cap ≤ (w.buf ++ b).length
        · rw [if_pos hc]; exact drain_take { w with buf := w.buf ++ b } q h1 h2
        · rw [if_neg hc]; exact ⟨rfl, h2, h1⟩
      have hop : (w.op o).2.disk.take q = w.disk.take q ∧ q ≤ (w.op o).2.disk.length ∧ q ≤ (w.op o).2.pos := by
        have h0 := ha o List.mem_cons_self
        cases o with
        | write b => exact hw b
        | writeVec bs =>
          have he : w.op (.writeVec bs) = w.write bs.flatten := writeVec_eq w bs
          rw [he]; exact hw _
        | flush =>
          obtain ⟨a, b, c⟩ := drain_take w q h1 h2
          show w.flush.2.disk.take q = _ ∧ q ≤ w.flush.2.disk.length ∧ q ≤ w.flush.2.pos
          unfold W.flush
          dsimp only
          cases hd : w.drain.1 with
          | false => rw [if_neg (by simp)]; exact ⟨a, b, c⟩
          | true =>
            rw [if_pos rfl]
            obtain ⟨c1, _, c3, _⟩ := call_same w.drain.2
            rw [c1, c3]; exact ⟨a, b, c⟩
        | seek s => exact absurd h0 (by simp [Appends])
        | truncate n => exact absurd h0 (by simp [Appends])
      show ((w.op o).2.run ops).2.disk.take q = _
      rw [ih _ q (fun o ho => ha o (List.mem_cons_of_mem _ ho)) hop.2.2 hop.2.1, hop.1]
  have := key ops (W.opened d cap os) d.length ha (Nat.le_refl _) (Nat.le_refl _)
  rw [this]
  exact List.take_length

example : ∀ o ∈ [Op.write [1], .flush, .write [2]], Appends o := by simp [Appends]

/-- C212: a flush that answers success has stored everything that was accepted, if no operation failed before.  (After a
failure: see the refutation.) -/
theorem C212_flushed_partial (d : List Nat) (cap : Nat) (os : List Out) (bs : List (List Nat)) (hm : Moves os)
    (hlost : ((W.opened d cap os).run (bs.map .write)).2.flush.1 = true →
      ((W.opened d cap os).run (bs.map .write)).2.flush.2.disk ≠ d ++ bs.flatten) :
    false ∈ ((W.opened d cap os).run (bs.map .write)).1 ∨ ((W.opened d cap os).run (bs.map .write)).2.flush.1 = false := by
  by_cases hok : ∀ a ∈ ((W.opened d cap os).run (bs.map .write)).1, a = true
  · cases hf : ((W.opened d cap os).run (bs.map .write)).2.flush.1 with
    | false => exact Or.inr rfl
    | true => exact absurd (C211_appended d cap os bs hm hok hf) (hlost hf)
  · left
    obtain ⟨a, ha⟩ := Classical.not_forall.1 hok
    obtain ⟨h1, h2⟩ := Classical.not_imp.1 ha
    cases a with
    | true => exact absurd rfl h2
    | false => exact h1

end Verif.Files
