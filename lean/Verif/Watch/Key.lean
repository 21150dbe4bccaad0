import Verif.Common.AMap
/-!
# Model: keys of the meta store

* `meta/src/store/key_path.rs`

Keys and names are lists of characters.
-/
namespace Verif.Watch

abbrev Name := List Char
abbrev Key := List Char

/-- `format!("/{}/{}/…", …)`: every part after a slash. -/
def path (segs : List Name) : Key := segs.flatMap fun s => '/' :: s

/-- `str::split('/')`. -/
def splitSlash : Key → List Name
  | [] => [[]]
  | c :: cs =>
    if c = '/' then [] :: splitSlash cs
    else match splitSlash cs with
      | [] => [[c]]
      | s :: ss => (c :: s) :: ss

/-- `str::strip_prefix`. -/
def stripPrefix : (p k : List Char) → Option (List Char)
  | [], k => some k
  | _ :: _, [] => none
  | a :: p, b :: k => if a = b then stripPrefix p k else none

/-- `str::starts_with`. -/
def startsWith (p k : List Char) : Bool := (stripPrefix p k).isSome

/-- The part before the first slash, if there is a slash (`str::split_once('/')`). -/
def splitOnce : List Char → Option Name
  | [] => none
  | c :: cs => if c = '/' then some [] else (splitOnce cs).map (c :: ·)

/-- key_path.rs:16-28 -/
def sDbs : Name := "dbs".toList
def sUsers : Name := "users".toList
def sRoles : Name := "roles".toList
def sBuckets : Name := "buckets".toList
def sSchemas : Name := "schemas".toList
def sTenants : Name := "tenants".toList
def sMembers : Name := "members".toList
def sLimiter : Name := "limiter".toList
def sNodes : Name := "data_nodes".toList
def sIncr : Name := "auto_incr_id".toList
def sMetrics : Name := "data_nodes_metrics".toList
def sResource : Name := "resourceinfos".toList
def sQueries : Name := "queries".toList

namespace KeyPath
/-- key_path.rs:33-35 -/
def clusterPrefix (c : Name) : Key := path [c, []]
/-- key_path.rs:37-43 -/
def users (c : Name) : Key := path [c, sUsers]
def user (c u : Name) : Key := path [c, sUsers, u]
/-- key_path.rs:44-46 -/
def incrId (c : Name) : Key := path [c, sIncr]
/-- key_path.rs:48-58 -/
def version : Key := path ["data_version".toList]
def alreadyInit : Key := path ["already_init_key".toList]
/-- key_path.rs:60-74 -/
def nodes (c : Name) : Key := path [c, sNodes]
def node (c id : Name) : Key := path [c, sNodes, id]
def nodesMetrics (c : Name) : Key := path [c, sMetrics]
def nodeMetrics (c id : Name) : Key := path [c, sMetrics, id]
/-- key_path.rs:76-107 -/
def dbs (c t : Name) : Key := path [c, sTenants, t, sDbs]
def db (c t d : Name) : Key := path [c, sTenants, t, sDbs, d]
def buckets (c t d : Name) : Key := path [c, sTenants, t, sDbs, d, sBuckets]
def bucket (c t d id : Name) : Key := path [c, sTenants, t, sDbs, d, sBuckets, id]
def schemas (c t d : Name) : Key := path [c, sTenants, t, sDbs, d, sSchemas]
def table (c t d n : Name) : Key := path [c, sTenants, t, sDbs, d, sSchemas, n]
/-- key_path.rs:109-115; with a slash at the end -/
def tenants (c : Name) : Key := path [c, sTenants, []]
def tenant (c t : Name) : Key := path [c, sTenants, t]
/-- key_path.rs:117-135 -/
def role (c t r : Name) : Key := path [c, sTenants, t, sRoles, r]
def roles (c t : Name) : Key := path [c, sTenants, t, sRoles]
def member (c t u : Name) : Key := path [c, sTenants, t, sMembers, u]
def members (c t : Name) : Key := path [c, sTenants, t, sMembers]
def limiter (c t : Name) : Key := path [c, sTenants, t, sLimiter]
/-- key_path.rs:137-151 -/
def resource (c n : Name) : Key := path [c, sResource, n]
def mark (c : Name) : Key := path [c, "resourceinfosmark".toList]
def query (c q : Name) : Key := path [c, sQueries, q]
end KeyPath

/-! ## Facts about paths -/

/-- A name without a slash. -/
def Plain (n : Name) : Prop := '/' ∉ n

instance (n : Name) : Decidable (Plain n) := inferInstanceAs (Decidable ('/' ∉ n))

theorem splitSlash_plain {n : Name} (h : Plain n) : splitSlash n = [n] := by
  induction n with
  | nil => rfl
  | cons c cs ih =>
    simp only [Plain, List.mem_cons, not_or] at h
    rw [splitSlash, if_neg (Ne.symm h.1), ih h.2]

theorem splitSlash_append {n : Name} (h : Plain n) (k : Key) :
    splitSlash (n ++ '/' :: k) = n :: splitSlash k := by
  induction n with
  | nil => simp [splitSlash]
  | cons c cs ih =>
    simp only [Plain, List.mem_cons, not_or] at h
    rw [List.cons_append, splitSlash, if_neg (Ne.symm h.1), ih h.2]

/-- Splitting a path gives its parts, after an empty part. -/
theorem splitSlash_path {segs : List Name} (h : ∀ s ∈ segs, Plain s) : splitSlash (path segs) = [] :: segs := by
  induction segs with
  | nil => rfl
  | cons s ss ih =>
    have hs := h s List.mem_cons_self
    have ih := ih fun x hx => h x (List.mem_cons_of_mem _ hx)
    rw [path, List.flatMap_cons, List.cons_append, splitSlash, if_pos rfl]
    congr 1
    cases ss with
    | nil => simpa using splitSlash_plain hs
    | cons s' ss =>
      rw [List.flatMap_cons, List.cons_append, splitSlash_append hs]
      rw [path, List.flatMap_cons, List.cons_append, splitSlash, if_pos rfl] at ih
      rw [List.cons.inj ih |>.2]

/-- Joining is the inverse of splitting. -/
theorem path_splitSlash (k : Key) : path (splitSlash k) = '/' :: k := by
  induction k with
  | nil => rfl
  | cons c cs ih =>
    rw [splitSlash]
    split
    · rename_i hc
      rw [path, List.flatMap_cons] ; simp only [path] at ih; rw [ih, hc]; rfl
    · cases hs : splitSlash cs with
      | nil => rw [hs] at ih; simp [path] at ih
      | cons s ss =>
        rw [hs] at ih
        simp only [path, List.flatMap_cons, List.cons_append, List.cons.injEq, true_and] at ih ⊢
        rw [ih]

theorem splitSlash_injective {k k' : Key} (h : splitSlash k = splitSlash k') : k = k' := by
  have := path_splitSlash k
  rw [h, path_splitSlash k'] at this
  exact (List.cons.inj this).2.symm

theorem path_inj {a b : List Name} (ha : ∀ s ∈ a, Plain s) (hb : ∀ s ∈ b, Plain s) (h : path a = path b) : a = b := by
  have := splitSlash_path ha
  rw [h, splitSlash_path hb] at this
  exact (List.cons.inj this).2.symm

theorem stripPrefix_eq {p k r : List Char} : stripPrefix p k = some r ↔ k = p ++ r := by
  induction p generalizing k with
  | nil => simp [stripPrefix, eq_comm]
  | cons a p ih =>
    cases k with
    | nil => simp [stripPrefix]
    | cons b k =>
      rw [stripPrefix]
      by_cases hab : a = b
      · subst hab; simp [ih]
      · simp [hab, Ne.symm hab]

theorem startsWith_iff {p k : List Char} : startsWith p k = true ↔ ∃ r, k = p ++ r := by
  rw [startsWith, Option.isSome_iff_exists]
  exact ⟨fun ⟨r, h⟩ => ⟨r, stripPrefix_eq.1 h⟩, fun ⟨r, h⟩ => ⟨r, stripPrefix_eq.2 h⟩⟩

theorem splitOnce_append {n : Name} (h : Plain n) (k : Key) : splitOnce (n ++ '/' :: k) = some n := by
  induction n with
  | nil => rfl
  | cons c cs ih =>
    simp only [Plain, List.mem_cons, not_or] at h
    rw [List.cons_append, splitOnce, if_neg (Ne.symm h.1), ih h.2]; rfl

theorem path_append (a b : List Name) : path (a ++ b) = path a ++ path b := List.flatMap_append

theorem plain_consts : Plain sDbs ∧ Plain sUsers ∧ Plain sRoles ∧ Plain sBuckets ∧ Plain sSchemas ∧ Plain sTenants ∧
    Plain sMembers ∧ Plain sLimiter ∧ Plain sNodes ∧ Plain sIncr ∧ Plain sMetrics ∧ Plain sResource ∧ Plain sQueries := by
  decide

end Verif.Watch
