import Verif.Version.Props
/-!
# The shared manifest of older versions is split into one per vnode

* `tskv/src/version_set.rs:75-138` — `split_to_tsfamily`
* `tskv/src/kvcore.rs:60-64` — it is done at start, and then the shared manifest is removed

A crash may come between any two writes of `split_to_tsfamily` and before the shared manifest is gone; the split is then done
again and adds another record to the manifests that were made.  Decoding of records is in `Version/Codec.lean`.
-/
namespace Verif.Version

/-- `tsf_edits_map` (version_set.rs:80-102): the edits of each vnode since it was added. -/
def sharedStep (m : AMap Nat (List Edit)) (e : Edit) : AMap Nat (List Edit) :=
  match e.act with
  | .add => m.set e.vnode [e]
  | .delete => m.del e.vnode
  | .update => match m.get e.vnode with
    | some l => m.set e.vnode (l ++ [e])
    | none => m

def shared (es : List Edit) : AMap Nat (List Edit) := es.foldl sharedStep AMap.empty

/-- The record that is written for a vnode (version_set.rs:104-129); `order` is the order in which the files are walked. -/
def splitEdit (order : List (Nat × Meta) → List (Nat × Meta)) (vnode : Nat) (l : List Edit) : Edit :=
  { Edit.newAdd vnode ((l.head?.map Edit.name).getD []) (l.foldl (fun s e => max s e.seq) 0) with
    fileId := l.foldl (fun s e => max s e.fileId) 1
    maxLevelTs := l.foldl (fun s e => max s e.maxLevelTs) i64Min
    add := (order (l.foldl applyFiles AMap.empty).entries).map Prod.snd }

/-- `split_to_tsfamily` for one vnode: a record is added to its manifest, if the shared manifest has edits of it. -/
def splitVnode (order : List (Nat × Meta) → List (Nat × Meta)) (es : List Edit) (vnode : Nat) (manifest : List Edit) : List Edit :=
  match (shared es).get vnode with
  | none => manifest
  | some [] => manifest
  | some l => manifest ++ [(splitEdit order vnode l).stored]

/-- The edits of one vnode in the shared manifest. -/
def ofVnode (v : Nat) (es : List Edit) : List Edit := es.filter fun e => decide (e.vnode = v)

/-- Edits that change a vnode come after the one that adds it. -/
def Begun : List Edit → Prop := fun es => ∀ a e b, es = a ++ e :: b → e.act = .update → current a ≠ []

theorem shared_get (es : List Edit) (v : Nat) (h : Begun (ofVnode v es)) :
    (shared es).get v = (match current (ofVnode v es) with | [] => none | l => some l) := by
  induction es using List.reverseRecOn with
  | nil => rfl
  | append_singleton es e ih =>
    have hb : Begun (ofVnode v es) := by
      intro a x b hx hu
      by_cases hv : e.vnode = v
      · refine h a x (b ++ [e]) ?_ hu
        simp [ofVnode, List.filter_append, hv] at hx ⊢
        rw [hx]
        simp
      · refine h a x b ?_ hu
        simp [ofVnode, List.filter_append, hv] at hx ⊢
        exact hx
    have ih := ih hb
    have hs : shared (es ++ [e]) = sharedStep (shared es) e := by simp [shared]
    rw [hs]
    by_cases hv : e.vnode = v
    · have ho : ofVnode v (es ++ [e]) = ofVnode v es ++ [e] := by simp [ofVnode, List.filter_append, hv]
      rw [ho]
      have hc : current (ofVnode v es ++ [e]) = match e.act with
          | .add => [e]
          | .delete => []
          | .update => current (ofVnode v es) ++ [e] := by
        simp only [current, List.foldl_append, List.foldl_cons, List.foldl_nil]
        cases e.act <;> rfl
      rw [hc]
      unfold sharedStep
      cases ha : e.act with
      | add => simp only [hv, AMap.get_set, if_true]
      | delete => simp only [hv, AMap.get_del, if_true]
      | update =>
        have hne : current (ofVnode v es) ≠ [] := h (ofVnode v es) e [] (by rw [ho]) ha
        rw [hv]
        cases hcur : current (ofVnode v es) with
        | nil => exact absurd hcur hne
        | cons x l =>
          rw [hcur] at ih
          simp only at ih
          rw [ih]
          simp only [AMap.get_set, if_true, List.cons_append]
    · have ho : ofVnode v (es ++ [e]) = ofVnode v es := by simp [ofVnode, List.filter_append, hv]
      rw [ho, ← ih]
      unfold sharedStep
      have hne : v ≠ e.vnode := fun h => hv h.symm
      cases ha : e.act with
      | add => simp only [AMap.get_set, if_neg hne]
      | delete => simp only [AMap.get_del, if_neg hne]
      | update =>
        cases hg : (shared es).get e.vnode with
        | none => rfl
        | some l => simp only [AMap.get_set, if_neg hne]

theorem entries_perm {κ ν : Type} [DecidableEq κ] {a b : AMap κ ν} (h : ∀ k, a.get k = b.get k) : a.entries.Perm b.entries := by
  rw [List.perm_ext_iff_of_nodup (List.Nodup.of_map _ a.nodup) (List.Nodup.of_map _ b.nodup)]
  rintro ⟨k, v⟩
  rw [AMap.mem_entries, AMap.mem_entries, h]

/-- Files are kept under their numbers. -/
theorem filesOf_id (es : List Edit) (k : Nat) (m : Meta) (h : (filesOf es).get k = some m) : m.id = k := by
  induction es using List.reverseRecOn generalizing k m with
  | nil => simp [filesOf] at h
  | append_singleton es e ih =>
    rw [filesOf_append] at h
    unfold applyFiles at h
    have hset : ∀ (l : List Meta) (x : AMap Nat Meta), (∀ k m, x.get k = some m → m.id = k) →
        ∀ k m, (l.foldl (fun x f => x.set f.id f) x).get k = some m → m.id = k := by
      intro l
      induction l with
      | nil => intro x hx; exact hx
      | cons a l ih =>
        intro x hx
        refine ih _ ?_
        intro k m hk
        rw [AMap.get_set] at hk
        split at hk
        · cases hk; symm; assumption
        · exact hx k m hk
    refine hset _ _ ?_ k m h
    intro k m hk
    exact ih k m ((get_foldl_del _ _ _ _).1 hk).2

theorem filesOf_ids (es : List Edit) : Ids ((filesOf es).entries.map Prod.snd) := by
  unfold Ids
  have : ((filesOf es).entries.map Prod.snd).map Meta.id = (filesOf es).entries.map Prod.fst := by
    rw [List.map_map]
    refine List.map_congr_left ?_
    rintro ⟨k, m⟩ hm
    exact filesOf_id es k m (AMap.mem_entries.1 hm)
  rw [this]
  exact (filesOf es).nodup

theorem Ids.perm {M N : List Meta} (h : M.Perm N) (d : Ids M) : Ids N := (h.map _).nodup_iff.1 d

theorem foldl_max_ge (l : List Edit) (s : Int) : s ≤ l.foldl (fun s e => max s e.maxLevelTs) s := by
  induction l generalizing s with
  | nil => exact Int.le_refl _
  | cons e l ih => exact Int.le_trans (Int.le_max_left s e.maxLevelTs) (ih _)

theorem foldl_max_one (l : List Edit) (a : Nat) :
    l.foldl (fun s e => max s e.fileId) (max 1 a) = max 1 (l.foldl (fun s e => max s e.fileId) a) := by
  induction l generalizing a with
  | nil => rfl
  | cons e l ih => simp only [List.foldl_cons]; rw [← ih, Nat.max_assoc]

/-- C73: after the split a vnode opens with the version that its edits in the shared manifest make: the same files at the same
levels, the same flushed-up-to mark; and the next file number is that of the shared manifest, but not 1.  What its own manifest
had before (for example from a split that a crash has ended) does not matter. -/
theorem C73_split {order order' : List (Nat × Meta) → List (Nat × Meta)} (ho : ∀ l, (order l).Perm l) (ho' : ∀ l, (order' l).Perm l)
    (es : List Edit) (v : Nat) (before : List Edit) (hb : Begun (ofVnode v es)) (hc : current (ofVnode v es) ≠ [])
    (hg : ∀ k m, (filesOf (current (ofVnode v es))).get k = some m → m.vnode = v ∧ m.level < 5) :
    ∃ V n, recover v order (ofVnode v es) = some (some (V, n)) ∧
      recover v order (splitVnode order' es v before) = some (some (V, max 2 n)) := by
  have hsh := shared_get es v hb
  cases hcur : current (ofVnode v es) with
  | nil => exact absurd hcur hc
  | cons x l =>
    rw [hcur] at hsh hg
    simp only at hsh
    have hsp : splitVnode order' es v before = before ++ [(splitEdit order' v (x :: l)).stored] := by
      unfold splitVnode; rw [hsh]
    have hcur2 : current (splitVnode order' es v before) = [(splitEdit order' v (x :: l)).stored] := by
      rw [hsp]
      simp [current, Edit.stored, splitEdit, Edit.newAdd]
    -- the files
    have hids := filesOf_ids (x :: l)
    have hperm1 : ((order (filesOf (x :: l)).entries).map Prod.snd).Perm ((filesOf (x :: l)).entries.map Prod.snd) := (ho _).map _
    have hperm2 : ((order' (filesOf (x :: l)).entries).map Prod.snd).Perm ((filesOf (x :: l)).entries.map Prod.snd) := (ho' _).map _
    have hadd : (splitEdit order' v (x :: l)).stored.add = (order' (filesOf (x :: l)).entries).map Prod.snd := rfl
    have hget : ∀ k, (filesOf [(splitEdit order' v (x :: l)).stored]).get k = (filesOf (x :: l)).get k := by
      intro k
      have hf : filesOf [(splitEdit order' v (x :: l)).stored] = applyFiles AMap.empty (splitEdit order' v (x :: l)).stored := rfl
      have hiff : ∀ m, (filesOf [(splitEdit order' v (x :: l)).stored]).get k = some m ↔ (filesOf (x :: l)).get k = some m := by
        intro m
        rw [hf, get_applyFiles _ _ _ _ (by rw [hadd]; exact hids.perm hperm2.symm), hadd]
        simp only [hperm2.mem_iff, AMap.get_empty, reduceCtorEq, and_false, or_false]
        constructor
        · rintro ⟨hm, hk⟩
          obtain ⟨⟨k', m'⟩, h1, h2⟩ := List.mem_map.1 hm
          dsimp only at h2
          subst h2
          have h3 := AMap.mem_entries.1 h1
          have := filesOf_id _ _ _ h3
          rw [← hk, this]
          exact h3
        · intro hm
          exact ⟨List.mem_map.2 ⟨(k, m), AMap.mem_entries.2 hm, rfl⟩, filesOf_id _ _ _ hm⟩
      cases h1 : (filesOf (x :: l)).get k with
      | none =>
        cases h2 : (filesOf [(splitEdit order' v (x :: l)).stored]).get k with
        | none => rfl
        | some m => rw [(hiff m).1 h2] at h1; cases h1
      | some m => exact (hiff m).2 h1
    have hperm3 : ((order (filesOf [(splitEdit order' v (x :: l)).stored]).entries).map Prod.snd).Perm
        ((filesOf (x :: l)).entries.map Prod.snd) := ((ho _).map _).trans ((entries_perm hget).map _)
    have hlev : ∀ N : List Meta, N.Perm ((filesOf (x :: l)).entries.map Prod.snd) →
        N.foldl pushTo (initLevels v) = levelsOf v ((filesOf (x :: l)).entries.map Prod.snd) ∧
        (N.all fun m => decide (m.level < 5)) = true := by
      intro N hN
      have hgood : ∀ m ∈ N, m.vnode = v ∧ m.level < 5 := by
        intro m hm
        obtain ⟨⟨k, m'⟩, h1, h2⟩ := List.mem_map.1 (hN.mem_iff.1 hm)
        dsimp only at h2
        subst h2
        exact hg k m' (AMap.mem_entries.1 h1)
      constructor
      · rw [initLevels_eq, foldl_pushTo v N [] hgood (by simpa using hids.perm hN.symm), List.nil_append]
        exact levelsOf_congr v hN (hids.perm hN.symm)
      · simp only [List.all_eq_true, decide_eq_true_eq]
        exact fun m hm => (hgood m hm).2
    obtain ⟨l1, a1⟩ := hlev _ hperm1
    obtain ⟨l3, a3⟩ := hlev _ hperm3
    refine ⟨{ vnode := v, lastSeq := (x :: l).foldl (fun s e => max s e.seq) 0,
              maxLevelTs := (x :: l).foldl (fun s e => max s e.maxLevelTs) i64Min,
              levels := levelsOf v ((filesOf (x :: l)).entries.map Prod.snd) },
            (x :: l).foldl (fun s e => max s e.fileId) 0 + 1, ?_, ?_⟩
    · rw [recover, hcur]
      simp only
      rw [show (x :: l).foldl applyFiles AMap.empty = filesOf (x :: l) from rfl, if_pos a1, l1]
    · rw [recover, hcur2]
      simp only
      rw [show [(splitEdit order' v (x :: l)).stored].foldl applyFiles AMap.empty = filesOf [(splitEdit order' v (x :: l)).stored] from rfl,
        if_pos a3, l3]
      have h1 : [(splitEdit order' v (x :: l)).stored].foldl (fun s e => max s e.seq) 0 = (x :: l).foldl (fun s e => max s e.seq) 0 := by
        simp only [List.foldl_cons, List.foldl_nil, Nat.zero_max]
        rfl
      have h2 : [(splitEdit order' v (x :: l)).stored].foldl (fun s e => max s e.maxLevelTs) i64Min
          = (x :: l).foldl (fun s e => max s e.maxLevelTs) i64Min := by
        have := foldl_max_ge (x :: l) i64Min
        have hd : [(splitEdit order' v (x :: l)).stored].foldl (fun s e => max s e.maxLevelTs) i64Min
          = max i64Min ((x :: l).foldl (fun s e => max s e.maxLevelTs) i64Min) := rfl
        rw [hd]
        omega
      have h3 : [(splitEdit order' v (x :: l)).stored].foldl (fun s e => max s e.fileId) 0 + 1
          = max 2 ((x :: l).foldl (fun s e => max s e.fileId) 0 + 1) := by
        have hd : [(splitEdit order' v (x :: l)).stored].foldl (fun s e => max s e.fileId) 0
          = max 0 ((x :: l).foldl (fun s e => max s e.fileId) (max 1 0)) := rfl
        rw [hd, foldl_max_one]
        omega
      rw [h1, h2, h3]

/-- C73: a vnode that was removed in the shared manifest, or that is not in it, is not made again. -/
theorem C73_removed {order : List (Nat × Meta) → List (Nat × Meta)} (es : List Edit) (v : Nat) (before : List Edit)
    (hb : Begun (ofVnode v es)) (hc : current (ofVnode v es) = []) : splitVnode order es v before = before := by
  unfold splitVnode
  rw [shared_get es v hb, hc]

/-- C73: a split that is done again after a crash gives the same. -/
theorem C73_again {order order' : List (Nat × Meta) → List (Nat × Meta)} (ho : ∀ l, (order l).Perm l) (ho' : ∀ l, (order' l).Perm l)
    (es : List Edit) (v : Nat) (before : List Edit) (hb : Begun (ofVnode v es)) (hc : current (ofVnode v es) ≠ [])
    (hg : ∀ k m, (filesOf (current (ofVnode v es))).get k = some m → m.vnode = v ∧ m.level < 5) :
    recover v order (splitVnode order' es v (splitVnode order' es v before)) = recover v order (splitVnode order' es v before) := by
  obtain ⟨V, n, h1, h2⟩ := C73_split ho ho' es v before hb hc hg
  obtain ⟨V', n', h3, h4⟩ := C73_split ho ho' es v (splitVnode order' es v before) hb hc hg
  rw [h1] at h3
  cases h3
  rw [h2, h4]

/-! ## Examples -/

/-- Two vnodes in one manifest: vnode 7 has a file that is replaced, vnode 8 is removed. -/
def exShared : List Edit :=
  [Edit.newAdd 7 [97] 0, Edit.newAdd 8 [98] 0,
   { Edit.newUpdate 7 [97] 5 with add := [⟨3, 10, 7, 0, 1, 9, true⟩], fileId := 3, maxLevelTs := 9 },
   { Edit.newUpdate 8 [98] 6 with add := [⟨4, 10, 8, 0, 1, 9, true⟩], fileId := 4 },
   { Edit.newUpdate 7 [97] 5 with add := [⟨5, 10, 7, 1, 1, 9, false⟩], del := [⟨3, 10, 7, 0, 1, 9, true⟩], fileId := 5, maxLevelTs := 9 },
   { Edit.newAdd 8 [98] 0 with act := .delete }]

example : (splitVnode id exShared 7 []).map (fun e => (e.seq, e.fileId, e.add.map Meta.id)) = [(5, 5, [5])] := by decide +kernel
example : splitVnode id exShared 8 [] = [] := by decide +kernel
example : current (ofVnode 7 exShared) ≠ [] := by decide +kernel
example : recover 7 id (splitVnode id exShared 7 []) = recover 7 id (ofVnode 7 exShared) := by decide +kernel

/-- C73: the record of a vnode has its number and the name of its owner. -/
theorem C73_owner (order : List (Nat × Meta) → List (Nat × Meta)) (v : Nat) (e : Edit) (l : List Edit) :
    (splitEdit order v (e :: l)).name = e.name ∧ (splitEdit order v (e :: l)).vnode = v := ⟨rfl, rfl⟩

end Verif.Version
