import Verif.Dump.Restore
/-!
# More properties of statements that are dumped: names with quotes, objects that exist, encodings of columns
-/
namespace Verif.Dump

/-- A name as it has to be written between double quotes. -/
def doubled (n : Text) : Text := n.flatMap fun c => if c = '"' then ['"', '"'] else [c]

theorem run_escape (n a : Text) (t : Text) : run (doubled n ++ t) (.ident a) = run t (.ident (a ++ n)) := by
  induction n generalizing a with
  | nil => simp [doubled]
  | cons c n ih =>
    by_cases hc : c = '"'
    · subst hc
      have : doubled ('"' :: n) = '"' :: '"' :: doubled n := by simp [doubled]
      rw [this]
      simp only [List.cons_append, run, step, if_true]
      have h := ih (a ++ ['"'])
      rw [List.append_assoc] at h
      simp only [List.cons_append, List.nil_append] at h
      rw [h]
      cases run t (.ident (a ++ '"' :: n)) with
      | none => rfl
      | some r => simp
    · have : doubled (c :: n) = c :: doubled n := by simp [doubled, hc]
      rw [this]
      simp only [List.cons_append, run, step, if_neg hc]
      have h := ih (a ++ [c])
      rw [List.append_assoc] at h
      simp only [List.cons_append, List.nil_append] at h
      rw [h]
      cases run t (.ident (a ++ c :: n)) with
      | none => rfl
      | some r => simp

/-- C161: every name can be written in a statement: with its quotes doubled it is read as it is.  (The dump does not double them.) -/
theorem C161_doubled_name (n : Text) : lex ('"' :: doubled n ++ ['"']) = some [.quoted n] := by
  unfold lex
  have h1 : run ('"' :: doubled n ++ ['"']) .gap = (run (doubled n ++ ['"']) (.ident [])).map fun r => ([] ++ r.1, r.2) := by
    have hs : start '"' = some ([], .ident []) := by decide
    simp only [List.cons_append, run, step, hs]
  rw [h1, run_escape]
  simp [run, step, St.done]

example : lex ('"' :: doubled "a\"b".toList ++ ['"']) = some [.quoted "a\"b".toList] := by decide +kernel

/-- C163: an object that exists stays as it is, if the statement says IF NOT EXISTS, and else the statement is refused. -/
theorem C163_exists (e : Bool) (k : Key) (v w : Entry) (m : Meta) (h : m k = some w) : create e k v m = if e then some m else none := by
  unfold create; rw [h]

/-- C163: an object that is not there is made, and nothing else is changed. -/
theorem C163_created (e : Bool) (k : Key) (v : Entry) (m : Meta) (h : m k = none) : create e k v m = some (put k v m) := by
  unfold create; rw [h]

/-- C161: the encodings that a column may have, by its type. -/
theorem C161_encodings (e : Enc) :
    (encOk .int e = true ↔ e = .default ∨ e = .null ∨ e = .delta ∨ e = .deltaTs ∨ e = .quantile) ∧
    (encOk .uint e = true ↔ e = .default ∨ e = .null ∨ e = .delta ∨ e = .deltaTs ∨ e = .quantile) ∧
    (encOk .float e = true ↔ e = .default ∨ e = .null ∨ e = .gorilla ∨ e = .quantile) ∧
    (encOk .str e = true ↔ e = .default ∨ e = .null ∨ e = .gzip ∨ e = .bzip ∨ e = .zstd ∨ e = .snappy ∨ e = .zlib) ∧
    (encOk .bool e = true ↔ e = .default ∨ e = .null ∨ e = .bitPack) := by
  cases e <;> decide

/-- C163: the dump of a tenant that is not there has nothing in it: no statement about other tenants, or about users. -/
theorem C163_filter_absent (env : Env) (n : Text) (s : Source) (h : ∀ t ∈ s.tenants, t.name ≠ n) :
    dump env (some n) s = [.note "Dump Global Object".toList] := by
  have hf : (s.tenants.filter fun t => decide (t.name = n)) = [] := by
    rw [List.filter_eq_nil_iff]
    intro t ht
    simpa using h t ht
  simp only [dump, hf, List.filter_nil, List.map_nil, List.flatMap_nil, List.any_nil, List.append_nil]
  simp

/-- C163: the dump of a tenant depends on this tenant and the users only. -/
theorem C163_filter_alone (env : Env) (n : Text) (us : List (Text × UserOpts)) (t : Tenant) (before behind : List Tenant) (ht : t.name = n)
    (hb : ∀ x ∈ before, x.name ≠ n) (ha : ∀ x ∈ behind, x.name ≠ n) :
    dump env (some n) ⟨before ++ t :: behind, us⟩ = dump env (some n) ⟨[t], us⟩ := by
  have h1 : (before.filter fun t => decide (t.name = n)) = [] := by
    rw [List.filter_eq_nil_iff]; intro x hx; simpa using hb x hx
  have h2 : (behind.filter fun t => decide (t.name = n)) = [] := by
    rw [List.filter_eq_nil_iff]; intro x hx; simpa using ha x hx
  have h3 : ((before ++ t :: behind).filter fun t => decide (t.name = n)) = [t].filter fun t => decide (t.name = n) := by
    rw [List.filter_append, h1, List.nil_append, List.filter_cons, if_pos (by simpa using ht), h2]
    simp [ht]
  simp only [dump, h3]

/-- C163: a user without a place in the tenant is not in the dump of the tenant. -/
theorem C163_filter_users (env : Env) (n : Text) (us : List (Text × UserOpts)) (ts : List Tenant) (u : Text × UserOpts)
    (hu : ∀ t ∈ ts, t.name = n → memberOf t u.1 = false) : dump env (some n) ⟨ts, u :: us⟩ = dump env (some n) ⟨ts, us⟩ := by
  have hu' : ∀ t ∈ ts.filter fun t => decide (t.name = n), memberOf t u.1 = false := by
    intro t ht
    rw [List.mem_filter] at ht
    exact hu t ht.1 (by simpa using ht.2)
  have h1 : ((ts.filter fun t => decide (t.name = n)).any (memberOf · u.1)) = false := by
    rw [List.any_eq_false]
    intro t ht
    rw [hu' t ht]
    decide
  have hm : ∀ t, memberOf t u.1 = false → dumpTenant env (u :: us) t = dumpTenant env us t := by
    intro t ht
    have : (t.members.filter fun m => (u :: us).any fun u => u.1 = m.1) = t.members.filter fun m => us.any fun u => u.1 = m.1 := by
      apply List.filter_congr
      intro m hmem
      have : ¬ u.1 = m.1 := by
        intro he
        have := List.any_eq_false.mp ht m hmem
        simp [he] at this
      simp [List.any_cons, this]
    simp only [dumpTenant, dumpMembers, this]
  have h2 : ∀ xs : List Tenant, (∀ t ∈ xs, memberOf t u.1 = false) →
      xs.flatMap (dumpTenant env (u :: us)) = xs.flatMap (dumpTenant env us) := by
    intro xs
    induction xs with
    | nil => intro _; rfl
    | cons x xs ih =>
      intro h
      rw [List.flatMap_cons, List.flatMap_cons, hm x (h x (by simp)), ih fun t ht => h t (by simp [ht])]
  simp only [dump, h2 _ hu']
  generalize (ts.filter fun t => decide (t.name = n)) = fs at h1
  cases hr : same u.1 rootName
  · rw [List.filter_cons, if_pos (by simp [hr]), List.filter_cons, if_neg (by simp only [h1]; decide)]
  · rw [List.filter_cons, if_neg (by simp [hr])]

end Verif.Dump
