import Verif.Cluster.Model
/-!
# The replication set that holds a cell
-/
namespace Verif.Cluster
open Meta (Db Bucket ReplSet bucketByTimestamp)

/-- The set to which a row with hash `H series` and this time goes. -/
def homeIn (H : Series → Nat) (bs : List Bucket) (c : Cell) : Option Nat :=
  (bucketByTimestamp bs c.time).bind fun b => (b.vnodeFor (H c.series)).map (·.id)

/-- Ids of all sets. -/
def setIds (bs : List Bucket) : List Nat := (bs.map fun b => b.shards.map (·.id)).flatten

/-- The parts of a bucket that matter for routing. -/
def shape (b : Bucket) : Int × Int × List Nat := (b.start, b.stop, b.shards.map (·.id))

def homeShape (H : Series → Nat) (l : List (Int × Int × List Nat)) (c : Cell) : Option Nat :=
  (l.find? fun x => decide (c.time ≥ x.1) && decide (c.time < x.2.1)).bind fun x =>
    if x.2.2.length = 0 then none else x.2.2[H c.series % x.2.2.length]?

theorem homeIn_shape (H : Series → Nat) (bs : List Bucket) (c : Cell) :
    homeIn H bs c = homeShape H (bs.map shape) c := by
  unfold homeIn homeShape bucketByTimestamp
  rw [List.find?_map]
  have : (fun x : Bucket => x.contains c.time) =
      ((fun x : Int × Int × List Nat => decide (c.time ≥ x.1) && decide (c.time < x.2.1)) ∘ shape) := rfl
  rw [← this]
  cases bs.find? (fun x : Bucket => x.contains c.time) with
  | none => rfl
  | some b =>
    simp only [Option.map_some, Option.bind_some, shape, List.length_map, List.getElem?_map, Bucket.vnodeFor]
    split <;> simp

theorem homeIn_congr (H : Series → Nat) {bs bs' : List Bucket} (h : bs'.map shape = bs.map shape) (c : Cell) :
    homeIn H bs' c = homeIn H bs c := by rw [homeIn_shape, homeIn_shape, h]

theorem setIds_shape (bs : List Bucket) : setIds bs = ((bs.map shape).map fun x => x.2.2).flatten := by
  rw [List.map_map]; rfl

theorem setIds_congr {bs bs' : List Bucket} (h : bs'.map shape = bs.map shape) : setIds bs' = setIds bs := by
  rw [setIds_shape, setIds_shape, h]

theorem mem_setIds {bs : List Bucket} {i : Nat} : i ∈ setIds bs ↔ ∃ b ∈ bs, ∃ r ∈ b.shards, r.id = i := by
  simp [setIds, List.mem_flatten]

theorem vnodeFor_mem {b : Bucket} {h : Nat} {r : ReplSet} (e : b.vnodeFor h = some r) : r ∈ b.shards := by
  unfold Bucket.vnodeFor at e
  split at e
  · cases e
  · exact List.mem_of_getElem? e

theorem homeIn_some {H : Series → Nat} {bs : List Bucket} {c : Cell} {i : Nat} (h : homeIn H bs c = some i) :
    ∃ b ∈ bs, b.contains c.time = true ∧ bucketByTimestamp bs c.time = some b ∧
      ∃ r ∈ b.shards, b.vnodeFor (H c.series) = some r ∧ r.id = i := by
  unfold homeIn at h
  cases hb : bucketByTimestamp bs c.time with
  | none => rw [hb] at h; cases h
  | some b =>
    rw [hb, Option.bind_some] at h
    cases hr : b.vnodeFor (H c.series) with
    | none => rw [hr] at h; cases h
    | some r =>
      rw [hr] at h
      exact ⟨b, List.mem_of_find?_eq_some hb, by simpa using List.find?_some hb, rfl, r, vnodeFor_mem hr, hr, Option.some.inj h⟩

theorem homeIn_mem {H : Series → Nat} {bs : List Bucket} {c : Cell} {i : Nat} (h : homeIn H bs c = some i) : i ∈ setIds bs := by
  obtain ⟨b, hb, _, _, r, hr, _, e⟩ := homeIn_some h
  exact mem_setIds.2 ⟨b, hb, r, hr, e⟩

/-- Buckets do not overlap. -/
def Apart (bs : List Bucket) : Prop := bs.Pairwise fun a b => a.stop ≤ b.start ∨ b.stop ≤ a.start

theorem Apart.eq {bs : List Bucket} (h : Apart bs) {a b : Bucket} (ha : a ∈ bs) (hb : b ∈ bs) {t : Int}
    (hat : a.contains t = true) (hbt : b.contains t = true) : a = b := by
  rw [Meta.contains_iff] at hat hbt
  induction bs with
  | nil => cases ha
  | cons x xs ih =>
    unfold Apart at h
    rw [List.pairwise_cons] at h
    rcases List.mem_cons.1 ha with e | ha' <;> rcases List.mem_cons.1 hb with e' | hb'
    · rw [e, e']
    · subst e; have := h.1 b hb'; omega
    · subst e'; have := h.1 a ha'; omega
    · exact ih h.2 ha' hb'

theorem setIds_bucket {bs : List Bucket} (h : (setIds bs).Nodup) {a b : Bucket} (ha : a ∈ bs) (hb : b ∈ bs)
    {r r' : ReplSet} (hr : r ∈ a.shards) (hr' : r' ∈ b.shards) (e : r.id = r'.id) : a = b := by
  induction bs with
  | nil => cases ha
  | cons x xs ih =>
    have hx : (x.shards.map (·.id) ++ setIds xs).Nodup := h
    rw [List.nodup_append] at hx
    rcases List.mem_cons.1 ha with ea | ha' <;> rcases List.mem_cons.1 hb with eb | hb'
    · rw [ea, eb]
    · subst ea
      exact absurd e (hx.2.2 _ (List.mem_map.2 ⟨r, hr, rfl⟩) _ (mem_setIds.2 ⟨b, hb', r', hr', rfl⟩))
    · subst eb
      exact absurd e.symm (hx.2.2 _ (List.mem_map.2 ⟨r', hr', rfl⟩) _ (mem_setIds.2 ⟨a, ha', r, hr, rfl⟩))
    · exact ih hx.2.1 ha' hb'

/-- A new bucket at the end. -/
theorem homeIn_append (H : Series → Nat) (bs : List Bucket) (nb : Bucket) (c : Cell) :
    homeIn H (bs ++ [nb]) c = match bucketByTimestamp bs c.time with
      | some _ => homeIn H bs c
      | none => homeIn H [nb] c := by
  unfold homeIn bucketByTimestamp
  rw [List.find?_append]
  cases h : bs.find? (fun x => x.contains c.time) with
  | none => simp
  | some b => simp

/-- Removing buckets. -/
theorem homeIn_filter (H : Series → Nat) {bs : List Bucket} (hA : Apart bs) (p : Bucket → Bool) (c : Cell) :
    homeIn H (bs.filter p) c = match bucketByTimestamp bs c.time with
      | some b => if p b then homeIn H bs c else none
      | none => none := by
  have key : bucketByTimestamp (bs.filter p) c.time = match bucketByTimestamp bs c.time with
      | some b => if p b then some b else none
      | none => none := by
    cases h : bucketByTimestamp bs c.time with
    | none =>
      unfold bucketByTimestamp at h ⊢
      rw [List.find?_eq_none] at h
      simp only
      rw [List.find?_eq_none]
      exact fun x hx => h x (List.mem_of_mem_filter hx)
    | some b =>
      have hb : b ∈ bs := List.mem_of_find?_eq_some h
      have hbt : b.contains c.time = true := by simpa using List.find?_some h
      simp only
      cases h' : bucketByTimestamp (bs.filter p) c.time with
      | none =>
        unfold bucketByTimestamp at h'
        rw [List.find?_eq_none] at h'
        split
        · rename_i hp
          exact absurd hbt (h' b (List.mem_filter.2 ⟨hb, hp⟩))
        · rfl
      | some b' =>
        have hb' : b' ∈ bs.filter p := List.mem_of_find?_eq_some h'
        have hbt' : b'.contains c.time = true := by simpa using List.find?_some h'
        have e := hA.eq hb (List.mem_of_mem_filter hb') hbt hbt'
        subst e
        rw [if_pos (List.mem_filter.1 hb').2]
  unfold homeIn
  rw [key]
  cases h : bucketByTimestamp bs c.time with
  | none => rfl
  | some b => by_cases hp : p b = true <;> simp [hp]

/-! ## Changes of the catalogue that keep the routing -/

theorem lead_id (r : ReplSet) (i v : Nat) : (ReplSet.lead r i v).id = r.id := by
  unfold ReplSet.lead
  split
  · split <;> rfl
  · rfl

theorem lead_vnodes (r : ReplSet) (i v : Nat) : (ReplSet.lead r i v).vnodes = r.vnodes := by
  unfold ReplSet.lead
  split
  · split <;> rfl
  · rfl

theorem setLeader_shape (db : Db) (i v : Nat) : (setLeader db i v).buckets.map shape = db.buckets.map shape := by
  simp only [setLeader, List.map_map]
  apply List.map_congr_left
  intro b _
  simp only [Function.comp, shape, List.map_map]
  refine congrArg (fun x => (b.start, b.stop, x)) ?_
  apply List.map_congr_left
  intro r _
  exact lead_id r i v

theorem update_id (r : ReplSet) (del add : List Meta.Vnode) : (r.update del add).id = r.id := by
  unfold Meta.ReplSet.update
  simp only
  split
  · rfl
  · split <;> rfl

/-- A change of the replicas of a set that leaves it some, in a catalogue where every set has some. -/
theorem update_shape (bs : List Bucket) (bid repl : Nat) (del add : List Meta.Vnode)
    (hfull : ∀ b ∈ bs, b.shards ≠ [] ∧ ∀ r ∈ b.shards, r.vnodes ≠ [])
    (hkeep : ∀ b ∈ bs, b.id = bid → ∀ r ∈ b.shards, r.id = repl → (r.update del add).vnodes ≠ []) :
    (bs.filterMap fun b => if b.id = bid then b.update repl del add else some b).map shape = bs.map shape ∧
    ∀ b' ∈ bs.filterMap (fun b => if b.id = bid then b.update repl del add else some b),
      b'.shards ≠ [] ∧ ∀ r ∈ b'.shards, r.vnodes ≠ [] := by
  induction bs with
  | nil => exact ⟨rfl, by simp⟩
  | cons b bs ih =>
    obtain ⟨ih1, ih2⟩ := ih (fun x hx => hfull x (List.mem_cons_of_mem _ hx)) (fun x hx => hkeep x (List.mem_cons_of_mem _ hx))
    obtain ⟨hne, hv⟩ := hfull b (List.mem_cons_self ..)
    by_cases e : b.id = bid
    · have hsh : ((b.shards.map fun r => if r.id ≠ repl then r else r.update del add).filter fun r => !r.vnodes.isEmpty)
          = b.shards.map fun r => if r.id ≠ repl then r else r.update del add := by
        rw [List.filter_eq_self]
        intro r hr
        obtain ⟨r0, hr0, rfl⟩ := List.mem_map.1 hr
        by_cases hid : r0.id = repl
        · have := hkeep b (List.mem_cons_self ..) e r0 hr0 hid
          simp only [hid, ne_eq, not_true_eq_false, if_false]
          simpa using this
        · have := hv r0 hr0
          simp only [ne_eq, hid, not_false_eq_true, if_true]
          simpa using this
      have hup : b.update repl del add =
          some { b with shards := b.shards.map fun r => if r.id ≠ repl then r else r.update del add } := by
        unfold Meta.Bucket.update
        simp only [hsh]
        rw [if_neg]
        simpa using hne
      have hids : (b.shards.map fun r => if r.id ≠ repl then r else r.update del add).map (·.id) = b.shards.map (·.id) := by
        rw [List.map_map]
        apply List.map_congr_left
        intro r _
        simp only [Function.comp]
        split
        · rfl
        · exact update_id r del add
      rw [List.filterMap_cons_some (by rw [if_pos e, hup])]
      refine ⟨?_, ?_⟩
      · rw [List.map_cons, List.map_cons, ih1]
        refine congrArg (· :: _) ?_
        simp only [shape, hids]
      · intro b' hb'
        rcases List.mem_cons.1 hb' with rfl | hb'
        · refine ⟨by simpa using hne, ?_⟩
          intro r hr
          have := hsh ▸ hr
          have h2 := (List.mem_filter.1 (hsh.symm ▸ hr)).2
          simpa using h2
        · exact ih2 b' hb'
    · rw [List.filterMap_cons_some (by rw [if_neg e])]
      refine ⟨by rw [List.map_cons, List.map_cons, ih1], ?_⟩
      intro b' hb'
      rcases List.mem_cons.1 hb' with rfl | hb'
      · exact ⟨hne, hv⟩
      · exact ih2 b' hb'

end Verif.Cluster
