import Verif.Retag.Props
/-!
# More properties of UPDATE of tags: how much it may change, and where rows are written
-/
namespace Verif.Retag

/-- C172: a tag scan names every series once. -/
theorem C172_scan_once (c : Cluster) (cols : List Nat) (p : Key → Bool) : (c.scan cols false p).Nodup := scan_nodup c cols p

/-- C174: an UPDATE that finds more than 10000 rows is refused and changes nothing. -/
theorem C174_too_many (c : Cluster) (cols : List Nat) (perRow : Bool) (p : Key → Bool) (sets : List (Nat × Option Val)) (w : World)
    (h : 10000 < (c.scan cols perRow p).length) : c.updateTags cols perRow p sets w = (c, none) := by
  unfold Cluster.updateTags
  exact if_pos h

/-- C174: one that finds no more is never refused for that. -/
theorem C174_not_too_many (c : Cluster) (cols : List Nat) (perRow : Bool) (p : Key → Bool) (sets : List (Nat × Option Val)) (w : World)
    (h : (c.scan cols perRow p).length ≤ 10000) (hd : c.dry cols sets (c.scan cols perRow p) = true) (hb : w.busy = true) :
    (c.updateTags cols perRow p sets w).2 = some (c.scan cols perRow p).length := by
  unfold Cluster.updateTags limit
  simp only
  rw [if_neg (by omega), if_neg (by simp [hd]), if_pos hb]

/-- C172: a row is written to the set of its tags and its time, and to no other. -/
theorem C172_route (c : Cluster) (route : Key → Int → Nat) (cols : List Nat) (f : Nat → Option Val) (t : Int) (x : Val) (i : Nat) :
    (c.write route cols f t x)[i]? = if i = route (mk cols f) t then (c[i]?).map fun v => v.put (mk cols f) t x else c[i]? := by
  unfold Cluster.write
  rw [List.getElem?_modify]
  by_cases h : route (mk cols f) t = i
  · rw [if_pos h.symm]; simp [h]
  · rw [if_neg (fun e => h e.symm)]; simp [h]

end Verif.Retag
