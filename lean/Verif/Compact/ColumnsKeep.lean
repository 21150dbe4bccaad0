import Verif.Compact.ColumnsProps
/-!
# Compaction and the columns of a table: properties

C98: a compaction keeps, for every series, every row with its value in every column of the table.
-/
namespace Verif.Compact.Cols

open Verif.Sort Verif.Reader

variable {α : Type}

/-- What holds for the input files (as `Compact.InputOk`, without the columns): a file has each series once, its rows of a series are in
strictly ascending order, a column group has its rows in its range, and without tombstones all rows of the pages are there. -/
structure Ok (files : List (File α)) : Prop where
  once : ∀ f ∈ files, (f.chunks.map Prod.fst).Pairwise fun a b => a ≠ b
  inc : ∀ f ∈ files, ∀ c ∈ f.chunks, (c.2.flatMap Piece.rows).Pairwise fun x y => x.ts < y.ts
  valid : ∀ f ∈ files, ∀ c ∈ f.chunks, ∀ p ∈ c.2, p.lo ≤ p.hi
  range : ∀ f ∈ files, ∀ c ∈ f.chunks, ∀ p ∈ c.2, ∀ r ∈ p.rows, p.lo ≤ r.ts ∧ r.ts ≤ p.hi
  raw : ∀ f ∈ files, f.tomb = false → ∀ c ∈ f.chunks, ∀ p ∈ c.2, p.raw = p.rows

theorem Ok.see {files : List (File α)} (h : Ok files) (F : List Nat) : InputOk F.length (files.map (File.see F)) := by
  refine ⟨?_, ?_, ?_, ?_, ?_, ?_⟩
  · intro f hf
    obtain ⟨g, hg, rfl⟩ := List.mem_map.1 hf
    have := h.once g hg
    simpa [File.see, List.map_map, Function.comp_def] using this
  · intro f hf c hc
    obtain ⟨g, hg, rfl⟩ := List.mem_map.1 hf
    obtain ⟨d, hd, rfl⟩ := List.mem_map.1 hc
    have := h.inc g hg d hd
    have e : (d.2.map fun p => (⟨p.lo, p.hi, p.raw.map (Cols.see F p.ids), p.rows.map (Cols.see F p.ids)⟩ : Compact.Piece α)).flatMap Compact.Piece.rows =
        d.2.flatMap fun p => p.rows.map (Cols.see F p.ids) := by rw [List.flatMap_map]
    rw [e]
    have key : ∀ (ps : List (Piece α)), (ps.flatMap Piece.rows).Pairwise (fun x y => x.ts < y.ts) →
        (ps.flatMap fun p => p.rows.map (Cols.see F p.ids)).Pairwise fun x y => x.ts < y.ts := by
      intro ps hps
      have e1 : (ps.flatMap fun p => p.rows.map (Cols.see F p.ids)).map Row.ts = (ps.flatMap Piece.rows).map Row.ts := by
        rw [List.map_flatMap, List.map_flatMap]
        congr 1
        funext p
        rw [List.map_map]
        rfl
      have e2 : ((ps.flatMap Piece.rows).map Row.ts).Pairwise (· < ·) := by rw [List.pairwise_map]; exact hps
      rw [← e1, List.pairwise_map] at e2
      exact e2
    exact key d.2 this
  · intro f hf c hc p hp
    obtain ⟨g, hg, rfl⟩ := List.mem_map.1 hf
    obtain ⟨d, hd, rfl⟩ := List.mem_map.1 hc
    obtain ⟨q, hq, rfl⟩ := List.mem_map.1 hp
    exact h.valid g hg d hd q hq
  · intro f hf c hc p hp r hr
    obtain ⟨g, hg, rfl⟩ := List.mem_map.1 hf
    obtain ⟨d, hd, rfl⟩ := List.mem_map.1 hc
    obtain ⟨q, hq, rfl⟩ := List.mem_map.1 hp
    obtain ⟨x, hx, rfl⟩ := List.mem_map.1 hr
    exact h.range g hg d hd q hq x hx
  · intro f hf c hc p hp r hr
    obtain ⟨g, hg, rfl⟩ := List.mem_map.1 hf
    obtain ⟨d, hd, rfl⟩ := List.mem_map.1 hc
    obtain ⟨q, hq, rfl⟩ := List.mem_map.1 hp
    obtain ⟨x, hx, rfl⟩ := List.mem_map.1 hr
    simp [Cols.see, Row.choose]
  · intro f hf ht c hc p hp
    obtain ⟨g, hg, rfl⟩ := List.mem_map.1 hf
    obtain ⟨d, hd, rfl⟩ := List.mem_map.1 hc
    obtain ⟨q, hq, rfl⟩ := List.mem_map.1 hp
    show q.raw.map _ = q.rows.map _
    rw [h.raw g hg ht d hd q hq]

/-- What a reader of the columns `F` needs of a compaction: it ends, and for every series the rows of the output have exactly the times of
the input in the range to compact, in ascending order, and in each column of `F` the value of the last file of the request that has a
value there. -/
def Keeps (F : List Nat) (size : Nat) (out : Option (Int × Int)) (files : List (File α)) : Prop :=
  ∃ N ds, (∀ fuel, N < fuel → compact size fuel out files = some ds) ∧ Compacted F.length out (files.map (File.see F)) (ds.map (Done.see F))

theorem compact_mono_aux {m : Merge α} {fuel : Nat} {ls : List (List (Row α))} (h : m.collect fuel = some ls) : m.collect (fuel + 1) = some ls := by
  induction fuel generalizing m ls with
  | zero => cases h
  | succ fuel ih =>
    unfold Merge.collect at h ⊢
    rcases hs : m.step with ⟨x, m'⟩
    rw [hs] at h
    cases x with
    | more => exact ih h
    | pending => exact ih h
    | batch rows =>
      simp only [Option.map_eq_some_iff] at h ⊢
      obtain ⟨l, hl, rfl⟩ := h
      exact ⟨l, ih hl, rfl⟩
    | finished => exact h
    | failed => cases h

theorem mergeTabs_mono {size fuel sid label : Nat} {tabs : List (Tab α)} {ds : List (Done α)} (h : mergeTabs size fuel sid label tabs = some ds) :
    mergeTabs size (fuel + 1) sid label tabs = some ds := by
  unfold mergeTabs mergeRows at *
  cases ht : target tabs with
  | none => rw [ht] at h; cases h
  | some t =>
    rw [ht] at h
    simp only [Option.map_eq_some_iff] at h ⊢
    obtain ⟨a, ha, rfl⟩ := h
    refine ⟨a, ?_, rfl⟩
    split at ha
    · cases ha
    · rename_i e
      rw [if_neg e]
      rw [Option.map_eq_some_iff] at ha ⊢
      obtain ⟨l, hl, rfl⟩ := ha
      exact ⟨l, compact_mono_aux hl, rfl⟩

theorem mergeGroup_mono {size fuel : Nat} {out : Option (Int × Int)} {sid : Nat} {blocks : List (Block α)} {prev : Option (Done α)} {ds : List (Done α)}
    (h : mergeGroup size fuel out sid blocks prev = some ds) : mergeGroup size (fuel + 1) out sid blocks prev = some ds := by
  unfold mergeGroup at *
  generalize sortBy leI blocks = l at h ⊢
  cases l with
  | nil => exact h
  | cons b bs =>
    simp only at h ⊢
    split at h
    · rename_i e
      rw [if_pos e]
      split at h
      · rename_i e2; rw [if_pos e2]; exact h
      · rename_i e2
        rw [if_neg e2]
        cases prev with
        | none => exact h
        | some p => exact mergeTabs_mono h
    · rename_i e
      rw [if_neg e]
      exact mergeTabs_mono h

theorem group_mono {size fuel : Nat} {out : Option (Int × Int)} {sid : Nat} {s s' : St α} {g : Grp α}
    (h : s.group size fuel out sid g = some s') : s.group size (fuel + 1) out sid g = some s' := by
  unfold St.group at *
  cases ht : s.turn sid with
  | none => rw [ht] at h; cases h
  | some s1 =>
    rw [ht] at h
    simp only at h ⊢
    cases hm : mergeGroup size fuel out sid g.blocks s1.prev with
    | none => rw [hm] at h; cases h
    | some ds => rw [hm] at h; rw [mergeGroup_mono hm]; exact h

theorem groups_mono {size fuel : Nat} {out : Option (Int × Int)} {sid : Nat} {gs : List (Grp α)} {s s' : St α}
    (h : s.groups size fuel out sid gs = some s') : s.groups size (fuel + 1) out sid gs = some s' := by
  induction gs generalizing s with
  | nil => exact h
  | cons g gs ih =>
    unfold St.groups at h ⊢
    cases hg : s.group size fuel out sid g with
    | none => rw [hg] at h; cases h
    | some s1 => rw [hg] at h; rw [group_mono hg]; exact ih h

theorem run_mono {size fuel : Nat} {out : Option (Int × Int)} {vs : List (Nat × List (Block α))} {s s' : St α}
    (h : s.run size fuel out vs = some s') : s.run size (fuel + 1) out vs = some s' := by
  induction vs generalizing s with
  | nil => exact h
  | cons v vs ih =>
    unfold St.run at h ⊢
    cases hg : s.groups size fuel out v.1 (groupsOf v.2) with
    | none => rw [hg] at h; cases h
    | some s1 => rw [hg] at h; rw [groups_mono hg]; exact ih h

theorem compact_mono {size fuel fuel' : Nat} {out : Option (Int × Int)} {files : List (File α)} {ds : List (Done α)}
    (h : compact size fuel out files = some ds) (hf : fuel ≤ fuel') : compact size fuel' out files = some ds := by
  obtain ⟨k, rfl⟩ := Nat.le.dest hf
  clear hf
  induction k with
  | zero => exact h
  | succ k ih =>
    have ih' := ih
    unfold compact at ih' ⊢
    cases hr : St.run size (fuel + k) out ⟨[], none, none⟩ (allVisits files out) with
    | none => rw [hr] at ih'; cases ih'
    | some s =>
      rw [hr] at ih'
      rw [← Nat.add_assoc, run_mono hr]
      exact ih'

/-! ## When the columns are kept -/

/-- Part of **C98**: when for every series of two column groups the one of the file with the newer version has all the columns of `F` that
the other one has, the compaction keeps the rows and the values of the columns `F`.  What is missing is that the files written meet this
(`C98_refuted`, `C98_again_refuted`). -/
theorem C98_keeps_partial (F : List Nat) (size : Nat) (hs : 1 ≤ size) (out : Option (Int × Int)) (files : List (File α)) (h : Ok files)
    (hsort : (start files).Pairwise fun a b => leC a b = true) (hm : ∀ sid, Mono F (hdrs files sid)) : Keeps F size out files := by
  obtain ⟨N, ds, h1, h2⟩ := C38_compact_partial F.length size hs out (files.map (File.see F)) (h.see F) (by rw [start_see]; exact hsort)
  have h3 := h1 (N + 1) (by omega)
  rw [see_compact hm] at h3
  rw [Option.map_eq_some_iff] at h3
  obtain ⟨es, h4, rfl⟩ := h3
  refine ⟨N, es, ?_, h2⟩
  intro fuel hf
  exact compact_mono h4 hf

/-- Part of **C98**: the compaction ends and keeps the series and the times of the rows, whatever the columns and the versions are. -/
theorem C98_times (size : Nat) (hs : 1 ≤ size) (out : Option (Int × Int)) (files : List (File α)) (h : Ok files)
    (hsort : (start files).Pairwise fun a b => leC a b = true) : Keeps [] size out files :=
  C98_keeps_partial [] size hs out files h hsort (by intro sid a _ b _ _ id hid; cases hid)

/-- Part of **C98**: a column that a series has in all its column groups, or in none, keeps its values, whatever the versions are. -/
theorem C98_common (c size : Nat) (hs : 1 ≤ size) (out : Option (Int × Int)) (files : List (File α)) (h : Ok files)
    (hsort : (start files).Pairwise fun a b => leC a b = true)
    (hc : ∀ sid, (∀ k ∈ hdrs files sid, c ∈ k.2) ∨ ∀ k ∈ hdrs files sid, c ∉ k.2) : Keeps [c] size out files := by
  refine C98_keeps_partial [c] size hs out files h hsort ?_
  intro sid a ha b hb _ id hid hm
  simp only [List.mem_cons, List.not_mem_nil, or_false] at hid
  subst hid
  rcases hc sid with h1 | h1
  · exact h1 b hb
  · exact absurd hm (h1 a ha)

/-! ## Flushed files -/

/-- The columns of the versions of a table that only gets new columns. -/
def Grows (cat : Nat → List Nat) : Prop := ∀ v w, v ≤ w → ∀ id ∈ cat v, id ∈ cat w

/-- What is flushed has the columns of the version of the series. -/
def PartsOk (cat : Nat → List Nat) (parts : List (List (Part α))) : Prop := ∀ ps ∈ parts, ∀ p ∈ ps, p.ids = cat p.ver

/-- **C98** for files that were flushed: a compaction keeps the values of all columns of any version. -/
def C98Full : Prop :=
  ∀ (cat : Nat → List Nat) (v size : Nat) (out : Option (Int × Int)) (parts : List (List (Part Nat))), Grows cat → 1 ≤ size → PartsOk cat parts →
    Ok (parts.map flushFile) → ((start (parts.map flushFile)).Pairwise fun a b => leC a b = true) → Keeps (cat v) size out (parts.map flushFile)

theorem foldl_max (l : List Nat) (a : Nat) : a ≤ l.foldl max a ∧ (∀ x ∈ l, x ≤ l.foldl max a) ∧ (l.foldl max a = a ∨ l.foldl max a ∈ l) := by
  induction l generalizing a with
  | nil => simp
  | cons b l ih =>
    obtain ⟨h1, h2, h3⟩ := ih (max a b)
    simp only [List.foldl_cons, List.mem_cons]
    refine ⟨by omega, ?_, ?_⟩
    · rintro x (rfl | hx)
      · omega
      · exact h2 x hx
    · rcases h3 with h3 | h3
      · rw [h3]
        by_cases hab : a ≤ b
        · rw [Nat.max_eq_right hab]; simp
        · rw [Nat.max_eq_left (by omega)]; simp
      · simp [h3]

theorem pieces_mem {f : File α} {sid : Nat} {p : Piece α} (h : p ∈ f.pieces sid) : ∃ c ∈ f.chunks, c.1 = sid ∧ p ∈ c.2 := by
  unfold File.pieces at h
  cases hf : f.chunks.find? fun c => decide (c.1 = sid) with
  | none => rw [hf] at h; cases h
  | some c =>
    rw [hf] at h
    exact ⟨c, List.mem_of_find?_eq_some hf, by simpa using List.find?_some hf, h⟩

/-- Part of **C98**: when in each flushed file all series have the same version of the schema, the compaction keeps the values of all
columns.  What is missing are files with series of different versions (`C98_refuted`). -/
theorem C98_flush_partial (cat : Nat → List Nat) (v size : Nat) (out : Option (Int × Int)) (parts : List (List (Part α))) (hg : Grows cat) (hs : 1 ≤ size)
    (hp : PartsOk cat parts) (h : Ok (parts.map flushFile)) (hsort : (start (parts.map flushFile)).Pairwise fun a b => leC a b = true)
    (hu : ∀ ps ∈ parts, ∀ p ∈ ps, ∀ q ∈ ps, p.ver = q.ver) : Keeps (cat v) size out (parts.map flushFile) := by
  refine C98_keeps_partial (cat v) size hs out _ h hsort ?_
  have key : ∀ sid, ∀ k ∈ hdrs (parts.map flushFile) sid, k.2 = cat k.1 := by
    intro sid k hk
    obtain ⟨f, hf, hk⟩ := List.mem_flatMap.1 hk
    obtain ⟨ps, hps, rfl⟩ := List.mem_map.1 hf
    obtain ⟨pc, hpc, rfl⟩ := List.mem_map.1 hk
    obtain ⟨c, hc, _, hpc⟩ := pieces_mem hpc
    obtain ⟨p, hp', rfl⟩ := List.mem_map.1 hc
    simp only [List.mem_cons, List.not_mem_nil, or_false] at hpc
    subst hpc
    have hver : (flushFile ps).ver = p.ver := by
      show fileVer (ps.map Part.ver) = p.ver
      unfold fileVer
      obtain ⟨_, h2, h3⟩ := foldl_max (ps.map Part.ver) 0
      have h4 := h2 p.ver (List.mem_map.2 ⟨p, hp', rfl⟩)
      rcases h3 with h3 | h3
      · omega
      · obtain ⟨q, hq, e⟩ := List.mem_map.1 h3
        rw [← e]
        exact hu ps hps q hq p hp'
    show p.ids = cat (flushFile ps).ver
    rw [hver]
    exact hp ps hps p hp'
  intro sid a ha b hb hab id _ hm
  rw [key sid a ha] at hm
  rw [key sid b hb]
  exact hg a.1 b.1 hab id hm

/-! ## Where values are lost -/

/-- Version 1 of the table has the column 1, from version 2 on it has the columns 1 and 2. -/
def exCat (v : Nat) : List Nat := if v < 2 then [1] else [1, 2]

/-- Before a flush series 1 was written with version 1 and series 2 with version 2; later series 1 was written with version 2. -/
def lostParts : List (List (Part Nat)) :=
  [[⟨1, 1, [1], [⟨10, [some 5]⟩]⟩, ⟨2, 2, [1, 2], [⟨10, [some 6, some 7]⟩]⟩], [⟨1, 2, [1, 2], [⟨20, [some 8, some 9]⟩]⟩]]

/-- What the compaction of `lostParts` writes: the value 9 is gone. -/
def lostDone : List (Done Nat) :=
  [⟨1, 10, 20, 2, 2, [1], [⟨10, [some 5]⟩, ⟨20, [some 8]⟩]⟩, ⟨2, 10, 10, 2, 2, [1, 2], [⟨10, [some 6, some 7]⟩]⟩]

deriving instance DecidableEq for Done

theorem exCat_grows : Grows exCat := by
  intro v w h id hid
  unfold exCat at *
  split at hid
  · split
    · exact hid
    · simp only [List.mem_cons, List.not_mem_nil, or_false] at hid ⊢
      exact .inl hid
  · split
    · omega
    · exact hid

theorem not_keeps {size : Nat} {out : Option (Int × Int)} {F : List Nat} {files : List (File α)} {ds : List (Done α)}
    (h : ∃ fuel, compact size fuel out files = some ds) (hbad : ¬Compacted F.length out (files.map (File.see F)) (ds.map (Done.see F))) :
    ¬Keeps F size out files := by
  rintro ⟨N, es, h1, h2⟩
  obtain ⟨fuel, h⟩ := h
  have h3 := compact_mono h (Nat.le_add_right fuel (N + 1))
  rw [h1 (fuel + (N + 1)) (by omega)] at h3
  cases h3
  exact hbad h2

theorem lost_input : Grows exCat ∧ PartsOk exCat lostParts ∧ Ok (lostParts.map flushFile) ∧
    ((start (lostParts.map flushFile)).Pairwise fun a b => leC a b = true) ∧ compact 100 100 none (lostParts.map flushFile) = some lostDone := by
  refine ⟨exCat_grows, ?_, ⟨?_, ?_, ?_, ?_, ?_⟩, ?_, ?_⟩
  · unfold PartsOk; decide +kernel
  all_goals decide +kernel

/-- **C98 is false**: the value of column 2 that was written to series 1 is lost.  The file that was flushed first says that all its column
groups have version 2, and of two batches with the same version the compaction takes the columns of the last one, which is the older one. -/
theorem C98_refuted : ¬C98Full := by
  intro h
  obtain ⟨h1, h2, h3, h4, h5⟩ := lost_input
  refine not_keeps ⟨100, h5⟩ ?_ (h exCat 2 100 none lostParts h1 (by omega) h2 h3 h4)
  intro hc
  have hv := (hc.rows 1).null ⟨20, [some 8, none]⟩ (by decide +kernel) 1 (by decide) rfl (1, ⟨20, [some 8, some 9]⟩) (by decide +kernel) rfl
  cases hv

/-- Two flushed files in which all series have the same version. -/
def againParts : List (List (Part Nat)) :=
  [[⟨1, 1, [1], [⟨10, [some 5]⟩]⟩, ⟨2, 1, [1], [⟨10, [some 6]⟩]⟩], [⟨2, 2, [1, 2], [⟨20, [some 6, some 7]⟩]⟩]]

/-- The blocks of the output of their compaction. -/
def againDone : List (Done Nat) :=
  [⟨1, 10, 10, 1, 1, [1], [⟨10, [some 5]⟩]⟩, ⟨2, 10, 20, 2, 2, [1, 2], [⟨10, [some 6, none]⟩, ⟨20, [some 6, some 7]⟩]⟩]

/-- A third flushed file. -/
def againLast : List (Part Nat) := [⟨1, 2, [1, 2], [⟨20, [some 8, some 9]⟩]⟩]

/-- **C98 is false for the second compaction**: all flushed files have one version for all their series and the first compaction keeps all
values, but its output has a column group of version 1 in a file of version 2, and the next compaction loses a value. -/
theorem C98_again_refuted :
    Keeps (exCat 2) 100 none (againParts.map flushFile) ∧ compact 100 100 none (againParts.map flushFile) = some againDone ∧
      Ok [outFile againDone, flushFile againLast] ∧ ((start [outFile againDone, flushFile againLast]).Pairwise fun a b => leC a b = true) ∧
      ¬Keeps (exCat 2) 100 none [outFile againDone, flushFile againLast] := by
  refine ⟨?_, by decide +kernel, ⟨?_, ?_, ?_, ?_, ?_⟩, by decide +kernel, ?_⟩
  · refine C98_flush_partial exCat 2 100 none againParts exCat_grows (by omega) ?_ ⟨?_, ?_, ?_, ?_, ?_⟩ ?_ ?_
    · unfold PartsOk; decide +kernel
    all_goals decide +kernel
  · decide +kernel
  · decide +kernel
  · decide +kernel
  · decide +kernel
  · decide +kernel
  · have h5 : compact 100 100 none [outFile againDone, flushFile againLast] = some
        [⟨1, 10, 20, 2, 2, [1], [⟨10, [some 5]⟩, ⟨20, [some 8]⟩]⟩, ⟨2, 10, 20, 2, 2, [1, 2], [⟨10, [some 6, none]⟩, ⟨20, [some 6, some 7]⟩]⟩] := by
      decide +kernel
    refine not_keeps ⟨100, h5⟩ ?_
    intro hc
    have hv := (hc.rows 1).null ⟨20, [some 8, none]⟩ (by decide +kernel) 1 (by decide) rfl (1, ⟨20, [some 8, some 9]⟩) (by decide +kernel) rfl
    cases hv

/-! ## Examples -/

/-- Files whose versions tell the columns: series 1 has version 1, then version 2, with rows that overlap. -/
def exParts : List (List (Part Nat)) :=
  [[⟨1, 1, [1], [⟨10, [some 5]⟩, ⟨30, [some 6]⟩]⟩], [⟨1, 2, [1, 2], [⟨20, [some 8, some 9]⟩, ⟨30, [none, some 4]⟩]⟩]]

example : Keeps (exCat 2) 100 none (exParts.map flushFile) ∧
    compact 100 100 none (exParts.map flushFile) =
      some [⟨1, 10, 30, 1, 2, [1, 2], [⟨10, [some 5, none]⟩, ⟨20, [some 8, some 9]⟩, ⟨30, [some 6, some 4]⟩]⟩] := by
  refine ⟨?_, by decide +kernel⟩
  refine C98_flush_partial exCat 2 100 none exParts exCat_grows (by omega) ?_ ⟨?_, ?_, ?_, ?_, ?_⟩ ?_ ?_
  · unfold PartsOk; decide +kernel
  all_goals decide +kernel

/-- **C98 is false for the versions**: each input file has one version, whose columns all its column groups have, but the output file has
version 1 and a column group with the columns of version 2 (`blk_metas[0]`, comapcting_block_meta_group.rs:65-69, 166-176). -/
theorem C98_version_refuted : ∃ ds, compact 100 100 none (exParts.map flushFile) = some ds ∧
    (∀ f ∈ exParts.map flushFile, ∀ c ∈ f.chunks, ∀ p ∈ c.2, p.ids = exCat f.ver) ∧
    ∃ c ∈ (outFile ds).chunks, ∃ p ∈ c.2, p.ids ≠ exCat (outFile ds).ver :=
  ⟨[⟨1, 10, 30, 1, 2, [1, 2], [⟨10, [some 5, none]⟩, ⟨20, [some 8, some 9]⟩, ⟨30, [some 6, some 4]⟩]⟩], by decide +kernel, by decide +kernel,
    by decide +kernel⟩

example : Keeps [1] 100 none (lostParts.map flushFile) := by
  obtain ⟨_, _, h3, h4, _⟩ := lost_input
  refine C98_keeps_partial [1] 100 (by omega) none _ h3 h4 ?_
  intro sid a ha b hb _ id hid _
  simp only [List.mem_cons, List.not_mem_nil, or_false] at hid
  subst hid
  obtain ⟨f, hf, hk⟩ := List.mem_flatMap.1 hb
  obtain ⟨ps, hps, rfl⟩ := List.mem_map.1 hf
  obtain ⟨pc, hpc, rfl⟩ := List.mem_map.1 hk
  obtain ⟨c, hc, _, hpc⟩ := pieces_mem hpc
  exact (show ∀ ps ∈ lostParts, ∀ c ∈ (flushFile ps).chunks, ∀ p ∈ c.2, 1 ∈ p.ids by decide +kernel) ps hps c hc pc hpc

end Verif.Compact.Cols
