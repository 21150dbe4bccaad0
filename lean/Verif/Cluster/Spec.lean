import Verif.Cluster.Home
/-!
# What users see: one table

The specification knows no buckets and no sets: a table of cells, changed by the effects of requests.
-/
namespace Verif.Cluster
open Meta (Db Bucket ReplSet)

/-- The value that a line writes to a cell, if any: the last one for that column. -/
def lineVal (p dbp : Precision) (l : Line) (c : Cell) : Option Val :=
  match Utils.timestampConvert p dbp l.time with
  | none => none
  | some t =>
    if l.series = c.series ∧ t = c.time then l.fields.foldl (fun o f => if f.1 = c.field then some f.2 else o) none else none

/-- The value that the lines of a request write to a cell: of the last line that has one. -/
def written (p dbp : Precision) (lines : List Line) (c : Cell) : Option Val :=
  lines.foldl (fun o l => (lineVal p dbp l c).or o) none

/-- What a request does to a cell. -/
def Req.at (dbp : Precision) (q : Req) (c : Cell) (x : Option Val) : Option Val :=
  match q with
  | .write p lines => (written p dbp lines c).or x
  | .delete table ranges sel => if selects table ranges sel c then none else x

/-- Does a request write or delete a cell? -/
def Req.touches (dbp : Precision) (q : Req) (c : Cell) : Bool :=
  match q with
  | .write p lines => (written p dbp lines c).isSome
  | .delete table ranges sel => selects table ranges sel c

/-- A change of the table: (part of) a request takes effect, or a span of time is too old and removed. -/
inductive Ev where
  | effect (q : Req) (part : Cell → Bool)
  | expire (start stop : Int)

def Ev.at (dbp : Precision) (c : Cell) (x : Option Val) : Ev → Option Val
  | .effect q part => if part c then q.at dbp c x else x
  | .expire start stop => if start ≤ c.time ∧ c.time < stop then none else x

/-- The table after these changes. -/
def table (dbp : Precision) (evs : List Ev) (c : Cell) : Option Val := evs.foldl (Ev.at dbp c) none

/-- The change made by a step: the commit of a command takes effect on the cells of its set; removing a bucket removes its time. -/
def evOf (H : Series → Nat) (s : State) : Op → List Ev
  | .catalog (.delete id) => (s.db.buckets.filter fun b => decide (b.id = id)).map fun b => .expire b.start b.stop
  | .commit i _ =>
    match s.issued[i]? with
    | none => []
    | some (set, cmd) => [.effect cmd fun c => decide (homeIn H s.db.buckets c = some set)]
  | _ => []

/-- All changes of a run. -/
def events (H : Series → Nat) (word : Nat) (dbp : Precision) : State → List Op → List Ev
  | _, [] => []
  | s, op :: ops => evOf H s op ++ events H word dbp (s.step word dbp op) ops

/-! ## Contents, cell by cell -/

theorem foldl_set_at (s : Series) (t : Int) (fields : List (Bytes × Val)) (m : Content) (c : Cell) :
    (fields.foldl (fun m f => m.set ⟨s, t, f.1⟩ f.2) m) c =
      if s = c.series ∧ t = c.time then (fields.foldl (fun o f => if f.1 = c.field then some f.2 else o) none).or (m c) else m c := by
  have gen : ∀ (fs : List (Bytes × Val)) (o : Option Val),
      fs.foldl (fun o f => if f.1 = c.field then some f.2 else o) o =
        (fs.foldl (fun o f => if f.1 = c.field then some f.2 else o) none).or o := by
    intro fs
    induction fs with
    | nil => intro o; simp
    | cons f fs ih =>
      intro o
      rw [List.foldl_cons, List.foldl_cons, ih, ih (if f.1 = c.field then some f.2 else none)]
      by_cases h : f.1 = c.field
      · simp [h]
      · simp [h]
  induction fields generalizing m with
  | nil => simp
  | cons f fs ih =>
    rw [List.foldl_cons, ih]
    by_cases h : s = c.series ∧ t = c.time
    · rw [if_pos h, if_pos h, List.foldl_cons, gen fs (if f.1 = c.field then some f.2 else none), Option.or_assoc]
      refine congrArg (Option.or _) ?_
      unfold Content.set
      by_cases hf : f.1 = c.field
      · rw [if_pos (show c = ⟨s, t, f.1⟩ by rw [h.1, h.2, hf]), if_pos hf]; rfl
      · rw [if_neg (fun e => hf (by rw [e])), if_neg hf]; rfl
    · rw [if_neg h, if_neg h]
      unfold Content.set
      rw [if_neg]
      intro e
      exact h (by rw [e]; exact ⟨rfl, rfl⟩)

theorem applyLine_at (p dbp : Precision) (m : Content) (l : Line) (c : Cell) :
    applyLine p dbp m l c = (lineVal p dbp l c).or (m c) := by
  unfold applyLine lineVal
  cases h : Utils.timestampConvert p dbp l.time with
  | none => simp
  | some t =>
    simp only
    rw [foldl_set_at]
    split <;> simp

theorem written_from (p dbp : Precision) (lines : List Line) (c : Cell) (o : Option Val) :
    lines.foldl (fun o l => (lineVal p dbp l c).or o) o = (written p dbp lines c).or o := by
  unfold written
  induction lines generalizing o with
  | nil => simp
  | cons l ls ih =>
    rw [List.foldl_cons, List.foldl_cons, ih, ih ((lineVal p dbp l c).or none), Option.or_assoc]
    simp

theorem written_append (p dbp : Precision) (a b : List Line) (c : Cell) :
    written p dbp (a ++ b) c = (written p dbp b c).or (written p dbp a c) := by
  show (a ++ b).foldl _ none = _
  rw [List.foldl_append, written_from]
  rfl

theorem written_snoc (p dbp : Precision) (a : List Line) (l : Line) (c : Cell) :
    written p dbp (a ++ [l]) c = (lineVal p dbp l c).or (written p dbp a c) := by
  rw [written_append]
  simp [written]

theorem run_at (dbp : Precision) (m : Content) (q : Req) (c : Cell) : q.run dbp m c = q.at dbp c (m c) := by
  cases q with
  | delete t r s => rfl
  | write p lines =>
    show (lines.foldl (applyLine p dbp) m) c = (written p dbp lines c).or (m c)
    rw [← written_from]
    induction lines generalizing m with
    | nil => rfl
    | cons l ls ih => rw [List.foldl_cons, List.foldl_cons, ih, applyLine_at]

theorem content_snoc (dbp : Precision) (log : List Req) (q : Req) (c : Cell) :
    content dbp (log ++ [q]) c = q.at dbp c (content dbp log c) := by
  unfold content
  rw [List.foldl_append]
  exact run_at dbp _ q c

theorem at_untouched {dbp : Precision} {q : Req} {c : Cell} (h : q.touches dbp c = false) (x : Option Val) : q.at dbp c x = x := by
  cases q with
  | delete t r s => simp only [Req.touches] at h; simp [Req.at, h]
  | write p lines =>
    simp only [Req.touches] at h
    have : written p dbp lines c = none := by simpa using h
    simp [Req.at, this]

/-- Commands that do not touch a cell do not change it. -/
theorem content_append_untouched (dbp : Precision) (a b : List Req) (c : Cell) (h : ∀ q ∈ b, q.touches dbp c = false) :
    content dbp (a ++ b) c = content dbp a c := by
  induction b generalizing a with
  | nil => simp
  | cons q b ih =>
    have : a ++ q :: b = (a ++ [q]) ++ b := by simp
    rw [this, ih _ (fun x hx => h x (List.mem_cons_of_mem _ hx)), content_snoc, at_untouched (h q (List.mem_cons_self ..))]

end Verif.Cluster
