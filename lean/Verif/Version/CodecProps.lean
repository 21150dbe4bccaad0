import Verif.Version.Codec
import Verif.Version.Props
import Verif.Wal.RecordProps
/-! # Properties: edits as bytes -/
namespace Verif.Version
open Verif.Time Verif.Wal

/-! ## Round trips of the parts -/

@[simp] theorem leEnc_length (n x : Nat) : (leEnc n x).length = n := by simp [leEnc]

theorem decNat_leEnc {n x : Nat} (h : x < 256 ^ n) (r : Bytes) : decNat n (leEnc n x ++ r) = some (x, r) := by
  unfold decNat
  rw [if_neg (by simp), List.take_left' (leEnc_length n x), List.drop_left' (leEnc_length n x)]
  simp [leDec, leEnc, beDec_beEnc_of_lt h]

theorem decI64_i64Enc {x : Int} (h : IsI64 x) (r : Bytes) : decI64 (i64Enc x ++ r) = some (x, r) := by
  unfold decI64 i64Enc
  rw [decNat_leEnc (by have := (BitVec.ofInt 64 x).isLt; omega)]
  simp only [Option.map_some, BitVec.ofNat_toNat, BitVec.setWidth_eq, BitVec.toInt_ofInt]
  unfold IsI64 at h
  congr 2
  rw [Int.bmod_eq_of_le (by omega) (by omega)]

theorem decBool_enc (d : Bool) (r : Bytes) : decBool (leEnc 1 (if d then 1 else 0) ++ r) = some (d, r) := by
  unfold decBool
  cases d <;> rw [decNat_leEnc (by decide)] <;> rfl

theorem decMany_flatten {α : Type} {d : Dec α} {e : α → Bytes} (l : List α) (h : ∀ a ∈ l, ∀ r, d (e a ++ r) = some (a, r))
    (r : Bytes) : decMany d l.length ((l.map e).flatten ++ r) = some (l, r) := by
  induction l with
  | nil => rfl
  | cons a l ih =>
    simp only [List.length_cons, decMany, List.map_cons, List.flatten_cons, List.append_assoc]
    rw [h a (by simp)]
    simp only [Option.bind_some]
    rw [ih fun b hb => h b (by simp [hb])]
    rfl

theorem decVec_encVec {α : Type} {d : Dec α} {e : α → Bytes} (l : List α) (hl : l.length < 2 ^ 64)
    (h : ∀ a ∈ l, ∀ r, d (e a ++ r) = some (a, r)) (r : Bytes) : decVec d (encVec e l ++ r) = some (l, r) := by
  unfold decVec encVec
  rw [List.append_assoc, decNat_leEnc (by omega)]
  exact decMany_flatten l h r

theorem decStr_enc (s : Bytes) (h : s.length < 2 ^ 64) (r : Bytes) : decStr (leEnc 8 s.length ++ (s ++ r)) = some (s, r) := by
  unfold decStr
  rw [decNat_leEnc (by omega)]
  simp

theorem decAction_enc (a : Action) (r : Bytes) : decAction (leEnc 4 a.tag ++ r) = some (a, r) := by
  unfold decAction
  cases a <;> rw [decNat_leEnc (by decide)] <;> rfl

/-! ## Edits -/

/-- The fields are numbers of the widths that the code declares (`u64`, `u32`, `i64`). -/
structure Meta.Fits (m : Meta) : Prop where
  id : m.id < 2 ^ 64
  size : m.size < 2 ^ 64
  vnode : m.vnode < 2 ^ 32
  level : m.level < 2 ^ 32
  lo : IsI64 m.minTs
  hi : IsI64 m.maxTs

structure Edit.Fits (e : Edit) : Prop where
  seq : e.seq < 2 ^ 64
  fileId : e.fileId < 2 ^ 64
  ts : IsI64 e.maxLevelTs
  add : ∀ m ∈ e.add, m.Fits
  del : ∀ m ∈ e.del, m.Fits
  vnode : e.vnode < 2 ^ 32
  addLen : e.add.length < 2 ^ 64
  delLen : e.del.length < 2 ^ 64
  nameLen : e.name.length < 2 ^ 64

theorem decMeta_enc {m : Meta} (h : m.Fits) (r : Bytes) : decMeta (encMeta m ++ r) = some (m, r) := by
  have := h.id; have := h.size; have := h.vnode; have := h.level
  unfold decMeta encMeta
  simp only [List.append_assoc]
  rw [decNat_leEnc (by omega)]; simp only [Option.bind_some]
  rw [decNat_leEnc (by omega)]; simp only [Option.bind_some]
  rw [decNat_leEnc (by omega)]; simp only [Option.bind_some]
  rw [decNat_leEnc (by omega)]; simp only [Option.bind_some]
  rw [decI64_i64Enc h.lo]; simp only [Option.bind_some]
  rw [decI64_i64Enc h.hi]; simp only [Option.bind_some]
  rw [decBool_enc]
  rfl

theorem decEditAt_enc {e : Edit} (h : e.Fits) (r : Bytes) : decEditAt (encEdit e ++ r) = some (e.stored, r) := by
  have := h.seq; have := h.fileId; have := h.vnode
  unfold decEditAt encEdit
  simp only [List.append_assoc]
  rw [decNat_leEnc (by omega)]; simp only [Option.bind_some]
  rw [decNat_leEnc (by omega)]; simp only [Option.bind_some]
  rw [decI64_i64Enc h.ts]; simp only [Option.bind_some]
  rw [decVec_encVec _ h.addLen fun m hm r => decMeta_enc (h.add m hm) r]; simp only [Option.bind_some]
  rw [decVec_encVec _ h.delLen fun m hm r => decMeta_enc (h.del m hm) r]; simp only [Option.bind_some]
  rw [decAction_enc]; simp only [Option.bind_some]
  rw [decNat_leEnc (by omega)]; simp only [Option.bind_some]
  rw [decStr_enc _ h.nameLen]
  rfl

/-- **C71**: an edit that is written to the manifest is read back with every field that it had; only the list of files deleted in
part, which is meant for the running process, is left out. -/
theorem C71_edit_round_trip (e : Edit) (h : e.Fits) : decEdit (encEdit e) = some { e with part := [] } := by
  have := decEditAt_enc h []
  rw [List.append_nil] at this
  unfold decEdit
  rw [this]
  rfl

/-! ## Batches -/

theorem decodeVec_cons (e : Edit) (h : e.Fits) (hl : (encEdit e).length < 2 ^ 32) (r : Bytes) :
    decodeVec (beEnc 4 (encEdit e).length ++ encEdit e ++ r) = (decodeVec r).map fun es => { e with part := [] } :: es := by
  rw [decodeVec, if_neg (by simp)]
  simp only [List.append_assoc]
  rw [List.take_left' (beEnc_length _ _), List.drop_left' (beEnc_length _ _), beDec_beEnc_of_lt (by omega)]
  rw [if_neg (by simp), List.take_left, List.drop_left, C71_edit_round_trip e h]
  rfl

/-- How many whole edits the first `n` bytes of a batch hold. -/
def wholeEdits : Nat → List Edit → Nat
  | _, [] => 0
  | n, e :: es => if 4 + (encEdit e).length ≤ n then wholeEdits (n - (4 + (encEdit e).length)) es + 1 else 0

/-- **C32**: a batch decodes to the edits that were encoded, and the first `n` bytes of it, for any `n`, decode to the edits that
are whole in them. -/
theorem C32_batch (es : List Edit) (h : ∀ e ∈ es, e.Fits ∧ (encEdit e).length < 2 ^ 32) (n : Nat) :
    decodeVec (encodeVec es) = some (es.map fun e => { e with part := [] }) ∧
    decodeVec ((encodeVec es).take n) = some ((es.map fun e => { e with part := [] }).take (wholeEdits n es)) := by
  have full : decodeVec (encodeVec es) = some (es.map fun e => { e with part := [] }) := by
    induction es with
    | nil => unfold encodeVec; rw [decodeVec]; simp
    | cons e es ih =>
      have he := h e (by simp)
      simp only [encodeVec, List.map_cons, List.flatten_cons]
      rw [decodeVec_cons e he.1 he.2]
      have := ih fun a ha => h a (by simp [ha])
      unfold encodeVec at this
      rw [this]
      rfl
  refine ⟨full, ?_⟩
  clear full
  induction es generalizing n with
  | nil => unfold encodeVec; rw [decodeVec]; simp [wholeEdits]
  | cons e es ih =>
    have he := h e (by simp)
    simp only [encodeVec, List.map_cons, List.flatten_cons, wholeEdits]
    have hlen : (beEnc 4 (encEdit e).length ++ encEdit e).length = 4 + (encEdit e).length := by simp
    by_cases hn : 4 + (encEdit e).length ≤ n
    · rw [if_pos hn, List.take_append, hlen, List.take_of_length_le (by rw [hlen]; exact hn), decodeVec_cons e he.1 he.2]
      have := ih (fun a ha => h a (by simp [ha])) (n - (4 + (encEdit e).length))
      unfold encodeVec at this
      rw [this]
      rfl
    · rw [if_neg hn, List.take_append_of_le_length (by rw [hlen]; omega)]
      rw [decodeVec]
      simp only [List.take_zero]
      by_cases h4 : n < 4
      · rw [if_pos (by rw [List.length_take, hlen]; omega)]
      · rw [if_neg (by rw [List.length_take, hlen]; omega)]
        have h1 : ((beEnc 4 (encEdit e).length ++ encEdit e).take n).take 4 = beEnc 4 (encEdit e).length := by
          rw [List.take_take, Nat.min_eq_left (by omega), List.take_left' (beEnc_length _ _)]
        rw [h1, beDec_beEnc_of_lt (by have := he.2; omega), if_pos (by rw [List.length_drop, List.length_take, hlen]; omega)]

/-! ## The file -/

theorem reach_stored {owner : Bytes} {s : Sys} {M : List Meta} (h : Reach owner s M) : ∀ e ∈ s.manifest, e.stored = e := by
  have key : ∀ {s s' : Sys} {full : Bool} {e : Edit}, s.apply owner full e = some s' → (∀ e ∈ s.manifest, e.stored = e) →
      ∀ e ∈ s'.manifest, e.stored = e := by
    intro s s' full e h hs
    unfold Sys.apply at h
    obtain ⟨v, _, rfl⟩ := Option.map_eq_some_iff.1 h
    intro a ha
    cases full with
    | true =>
      simp only [if_true, List.mem_singleton] at ha
      subst ha; rfl
    | false =>
      simp only [Bool.false_eq_true, if_false, List.mem_append, List.mem_singleton] at ha
      rcases ha with ha | rfl
      · exact hs a ha
      · rfl
  induction h with
  | create h => exact key h (by simp)
  | install _ h _ => exact key h (by simp)
  | step op _ _ h ih =>
    cases op with
    | take => cases h; exact ih
    | restart order =>
      simp only [step] at h
      split at h
      · cases h; exact ih
      · cases h
    | commit seq name adds dels part full =>
      unfold step at h
      obtain ⟨s1, h1, rfl⟩ := Option.map_eq_some_iff.1 h
      exact fun a ha => key h1 ih a ha

theorem mapM_located (es : List Edit) (h : ∀ e ∈ es, e.Fits ∧ e.stored = e) (off : Nat) :
    (located off (es.map editPut)).mapM (fun r => decEdit r.data) = some es := by
  induction es generalizing off with
  | nil => rfl
  | cons e es ih =>
    have he := h e (by simp)
    simp only [List.map_cons, located, List.mapM_cons]
    have : decEdit (editPut e).data = some e := by
      have := C71_edit_round_trip e he.1
      have h2 : ({ e with part := [] } : Edit) = e := he.2
      rw [h2] at this
      exact this
    rw [this, ih fun a ha => h a (by simp [ha])]
    rfl

/-- **C29**, from the bytes of the file: whatever happened to the vnode, what recovery makes of the manifest file has the levels,
files and flushed-up-to mark of the running system. -/
theorem C29_restart_from_bytes {crc : Bytes → BitVec 32} {owner : Bytes} {s : Sys} {M : List Meta} (h : Reach owner s M)
    (hfit : ∀ e ∈ s.manifest, e.Fits ∧ (encEdit e).length < 2 ^ 32)
    (hft : footerAt crc (fileOf crc (s.manifest.map editPut)) = none)
    (order : List (Nat × Meta) → List (Nat × Meta)) (ho : ∀ l, (order l).Perm l) :
    ∃ v n, recoverFile crc s.ver.vnode order (fileOf crc (s.manifest.map editPut)) = some (some (v, n))
      ∧ v.vnode = s.ver.vnode ∧ v.levels = s.ver.levels ∧ v.lastSeq = s.ver.lastSeq
      ∧ ∀ f ∈ s.ver.files, f.id < n := by
  have hi := reach_inv h
  obtain ⟨v, h1, h2, h3, h4⟩ := recover_inv hi order ho
  have hne : ∀ e : Edit, encEdit e ≠ [] := by
    intro e h0
    have := congrArg List.length h0
    simp only [encEdit, List.length_append, leEnc_length, List.length_nil] at this
    omega
  obtain ⟨_, r2, r3⟩ := C18_read_back_partial (crc := crc) Policy.summary (s.manifest.map editPut)
    (by intro p hp; obtain ⟨e, he, rfl⟩ := List.mem_map.1 hp; exact (hfit e he).2)
    (by
      intro p hp
      obtain ⟨e, _, rfl⟩ := List.mem_map.1 (List.mem_of_getLast? hp)
      exact hne e) hft
  refine ⟨v, maxFile (current s.manifest) + 1, ?_, h2, h3, h4, ?_⟩
  · unfold recoverFile
    have hr : readFile crc Policy.summary (fileOf crc (s.manifest.map editPut)) = (located 4 (s.manifest.map editPut), some .eof) :=
      Prod.ext r3 r2
    rw [hr]
    simp only []
    rw [mapM_located _ fun e he => ⟨(hfit e he).1, reach_stored h e he⟩]
    exact h1
  · intro f hf
    obtain ⟨m, hm, rfl⟩ := List.mem_map.1 ((files_perm hi.ids hi.good hi.levels).mem_iff.1 hf)
    exact Nat.lt_succ_of_le (hi.fid m hm)

/-! ## C72 — a crash while the manifest is written -/

/-- **C72, part proved**: the process stops while an edit is written, so that only the first bytes of the file are there.
Recovery then gives the state of the manifest without this edit or with it, or it fails.
Missing, refuted below: that it never fails. -/
theorem C72_torn_manifest_partial {crc : Bytes → BitVec 32} (es : List Edit) (e : Edit) (vnode : Nat)
    (order : List (Nat × Meta) → List (Nat × Meta))
    (hfit : ∀ a ∈ es ++ [e], a.Fits ∧ (encEdit a).length < 2 ^ 32 ∧ a.part = []) (n : Nat)
    (hn : (fileOf crc (es.map editPut)).length ≤ n)
    (hft : footerAt crc ((fileOf crc ((es ++ [e]).map editPut)).take n) = none) :
    let r := recoverFile crc vnode order ((fileOf crc ((es ++ [e]).map editPut)).take n)
    r = none ∨ r = recover vnode order es ∨ r = recover vnode order (es ++ [e]) := by
  intro r
  have hne : ∀ e : Edit, encEdit e ≠ [] := by
    intro e h0
    have := congrArg List.length h0
    simp only [encEdit, List.length_append, leEnc_length, List.length_nil] at this
    omega
  have hst : ∀ a ∈ es ++ [e], a.Fits ∧ a.stored = a := by
    intro a ha
    obtain ⟨h1, _, h3⟩ := hfit a ha
    refine ⟨h1, ?_⟩
    obtain ⟨_, _, _, _, _, _, _, _, _⟩ := a
    simp only at h3
    subst h3
    rfl
  obtain ⟨o, ho, hr, _⟩ := C19_torn_file_partial (crc := crc) Policy.summary rfl ((es ++ [e]).map editPut)
    (by intro p hp; obtain ⟨a, ha, rfl⟩ := List.mem_map.1 hp; exact ⟨(hfit a ha).2.1, hne a⟩) n hft
  have hw : ∀ (l : List Put) (q : Put) (k : Nat), ((l.map (encRec crc)).flatten).length ≤ k →
      whole k (l ++ [q]) = l ∨ whole k (l ++ [q]) = l ++ [q] := by
    intro l q
    induction l with
    | nil =>
      intro k _
      simp only [List.nil_append, whole]
      split
      · exact .inr rfl
      · exact .inl rfl
    | cons a l ih =>
      intro k hk
      simp only [List.map_cons, List.flatten_cons, List.length_append, encRec_length] at hk
      simp only [List.cons_append, whole]
      rw [if_pos (by omega)]
      rcases ih (k - (14 + a.data.length)) (by omega) with h | h <;> rw [h]
      · exact .inl rfl
      · exact .inr rfl
  have hk : (((es.map editPut).map (encRec crc)).flatten).length ≤ n - 4 := by
    simp only [fileOf, List.length_append] at hn
    have : fileMagic.length = 4 := rfl
    omega
  have hr2 : r = recoverFile crc vnode order ((fileOf crc ((es ++ [e]).map editPut)).take n) := rfl
  unfold recoverFile at hr2
  rw [hr] at hr2
  rcases ho with rfl | rfl
  · simp only [] at hr2
    rw [List.map_append, List.map_cons, List.map_nil] at hr2
    rcases hw (es.map editPut) (editPut e) (n - 4) hk with h | h
    · rw [h, mapM_located es fun a ha => hst a (List.mem_append_left _ ha)] at hr2
      exact .inr (.inl hr2)
    · rw [h, show es.map editPut ++ [editPut e] = (es ++ [e]).map editPut by simp, mapM_located _ hst] at hr2
      exact .inr (.inr hr2)
  · exact .inl hr2

/-- A new vnode, a flush and a second flush. -/
def exEdits : List Edit :=
  [Edit.newAdd 7 [97#8] 0, commitEdit 7 5 [97#8] [(⟨1, 100, 7, 0, 10, 20, true⟩, 20)] [] [],
   commitEdit 7 9 [97#8] [(⟨2, 80, 7, 0, 15, 30, true⟩, 30)] [] []]

def exIds (r : Option (Option (Ver × Nat))) : Option (List Nat) := r.bind fun o => o.map fun p => p.1.files.map File.id

/-- **C72 refuted**: the process stops when the last edit is partly written; recovery fails, so the vnode cannot be opened, although
the edits before it are whole. -/
theorem C72_torn_manifest_refuted :
    let f := fileOf sumCrc (exEdits.map editPut)
    (exIds (recoverFile sumCrc 7 id f), recoverFile sumCrc 7 id (f.take (f.length - 10))) = (some [1, 2], none) := by
  decide +kernel

/-- **C72 refuted**, second form: the record is torn within its header and recovery succeeds without it; the next flush is recorded
behind the torn bytes, and from then on recovery fails. -/
theorem C72_flush_after_torn_header_refuted :
    let f := fileOf sumCrc ((exEdits.take 2).map editPut)
    let e := commitEdit 7 9 [97#8] [(⟨2, 80, 7, 0, 15, 30, true⟩, 30)] [] []
    let torn := f ++ (encRec sumCrc (editPut e)).take 8
    exIds (recoverFile sumCrc 7 id torn) = some [1] ∧
      ∃ g, writeRec sumCrc (openWriter sumCrc torn) (editPut e) = some g ∧ recoverFile sumCrc 7 id g = none := by
  intro f e torn
  refine ⟨by decide +kernel, _, rfl, by decide +kernel⟩

/-- The hypotheses of the theorems about bytes hold for a manifest with three edits. -/
example : (∀ a ∈ exEdits, a.Fits ∧ (encEdit a).length < 2 ^ 32 ∧ a.part = []) ∧
    footerAt sumCrc ((fileOf sumCrc (exEdits.map editPut)).take 300) = none ∧ wholeEdits 150 exEdits = 1 := by
  refine ⟨?_, by decide +kernel, by decide +kernel⟩
  intro a ha
  simp only [exEdits, List.mem_cons, List.not_mem_nil, or_false] at ha
  rcases ha with rfl | rfl | rfl
  all_goals
    refine ⟨⟨by decide, by decide, by unfold IsI64; decide, ?_, ?_, by decide, by decide, by decide, by decide⟩, by decide +kernel,
      by decide⟩
  all_goals
    intro m hm
    first
      | (cases hm; done)
      | (rw [List.mem_singleton.1 (show m ∈ [_] from hm)]
         exact ⟨by decide, by decide, by decide, by decide, by unfold IsI64; decide, by unfold IsI64; decide⟩)

end Verif.Version
