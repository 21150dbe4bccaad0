import Verif.Leader.Once
/-!
# Buckets that are created again, and answers that are lost (C175)
-/
namespace Verif.Leader
open Verif.Watch

/-- The children that are read are the values one level below a path. -/
theorem childrenData_get {s : Store} {kind : Val → Bool} {p : Key} (hp : p.getLast? ≠ some '/') {m : AMap Name Val}
    (h : s.childrenData kind p = some m) {n : Name} (hn : GoodName n) {v : Val} (hv : s.db.get (p ++ '/' :: n) = some v) :
    m.get n = some v := by
  simp only [Store.childrenData] at h
  split at h
  · rw [← Option.some.inj h]
    have hm : (n, v) ∈ s.childrenList p := by
      rw [Store.childrenList, List.mem_filterMap]
      exact ⟨(p ++ '/' :: n, v), AMap.mem_entries.2 hv, by rw [(childName_iff hp).2 ⟨rfl, hn⟩]; rfl⟩
    have hd : ((s.childrenList p).map Prod.fst).Nodup := by
      rw [Store.childrenList]
      have hk := s.db.nodup
      generalize s.db.entries = l at hk
      induction l with
      | nil => simp
      | cons e l ih =>
        simp only [List.map_cons, List.nodup_cons] at hk
        rw [List.filterMap_cons]
        cases hc : childName p e.1 with
        | none => exact ih hk.2
        | some x =>
          simp only [Option.map_some, List.map_cons, List.nodup_cons]
          refine ⟨?_, ih hk.2⟩
          intro hx
          obtain ⟨⟨y, w⟩, hy, he⟩ := List.mem_map.1 hx
          obtain ⟨e', he', hh⟩ := List.mem_filterMap.1 hy
          cases hc' : childName p e'.1 with
          | none => rw [hc'] at hh; cases hh
          | some z =>
            rw [hc'] at hh
            simp only [Option.map_some, Option.some.injEq, Prod.mk.injEq] at hh
            have h1 := ((childName_iff hp).1 hc).1
            have h2 := ((childName_iff hp).1 hc').1
            have hxe : x = y := he.symm
            rw [hxe, ← hh.1, ← h2] at h1
            exact hk.1 (List.mem_map.2 ⟨e', he', h1.symm⟩)
    have := AMap.get_foldl_set_of_mem Prod.fst Prod.snd (s.childrenList p) (.empty : AMap Name Val) (n, v) hm hd
    exact this
  · cases h

/-- **C175, buckets.**  The creation of a bucket that succeeded, carried out again, writes nothing: the bucket is there. -/
theorem C175_bucket {s s' : Store} {env env' : Env} {c t d : Name} {ts : Int} (hts : IsI64 ts) (hmax : ts ≠ i64Max)
    (hdur : ∀ n o, s.db.get (KeyPath.db c t d) = some (.db n o) → o.duration ≤ i64Max)
    (h : (s.exec env (.createBucket c t d ts)).2 = true) (hw : (s.exec env (.createBucket c t d ts)).1 ≠ [])
    (hs : Same (s.command env (.createBucket c t d ts)) s') : (s'.exec env' (.createBucket c t d ts)).1 = [] := by
  have hb : (KeyPath.buckets c t d).getLast? ≠ some '/' := by
    have : KeyPath.buckets c t d = path [c, sTenants, t, sDbs, d] ++ ['/', 'b', 'u', 'c', 'k', 'e', 't', 's'] := by
      rw [KeyPath.buckets, show [c, sTenants, t, sDbs, d, sBuckets] = [c, sTenants, t, sDbs, d] ++ [sBuckets] from rfl, path_append]
      rfl
    rw [this, List.getLast?_append]; simp
  have key : ∃ id b, s'.db.get (KeyPath.bucket c t d (decName id)) = some (.bucket b) ∧ b.contains ts = true := by
    simp only [Store.command] at hs
    simp only [Store.exec, Store.createBucket] at h hw hs
    split at h
    · cases h
    · rename_i bs hbs
      simp only [hbs] at hw hs
      split at h
      · rename_i hc
        rw [if_pos hc] at hw
        exact absurd rfl hw
      · rename_i hc
        rw [if_neg hc] at hs
        split at h
        · rename_i n o nodes hd hn
          simp only [hd, hn] at hs
          split at h
          · cases h
          · rename_i h1
            rw [if_neg h1] at hs
            split at h
            · cases h
            · rename_i h2
              rw [if_neg h2] at hs
              split at h
              · cases h
              · rename_i h3
                rw [if_neg h3] at hs
                split at h
                · cases h
                · rename_i group used ha
                  simp only [ha, List.foldl_cons, List.foldl_nil] at hs
                  refine ⟨s.nextId c, _, inserted hs (path_ne_version _ _ _), ?_⟩
                  have := (Meta.C47_bucket_contains_partial ts o.duration (hdur n o hd) hts).2 hmax
                  simp only [Meta.Bucket.contains]
                  simpa using this
        · cases h
  obtain ⟨id, b, hg, hc⟩ := key
  simp only [Store.exec, Store.createBucket]
  cases hv : s'.values Val.isBucket (KeyPath.buckets c t d) with
  | none => rfl
  | some bs =>
    have hin : Val.bucket b ∈ bs := by
      rw [Store.values, Option.map_eq_some_iff] at hv
      obtain ⟨m, hm, rfl⟩ := hv
      have hk : KeyPath.bucket c t d (decName id) = KeyPath.buckets c t d ++ '/' :: decName id := by
        rw [KeyPath.bucket, KeyPath.buckets, show [c, sTenants, t, sDbs, d, sBuckets, decName id] =
          [c, sTenants, t, sDbs, d, sBuckets] ++ [decName id] from rfl, path_append]
        simp [path]
      rw [hk] at hg
      exact List.mem_map.2 ⟨(decName id, .bucket b), AMap.mem_entries.2 (childrenData_get hb hm (decName_good id) hg), rfl⟩
    dsimp only
    rw [if_pos (List.any_eq_true.2 ⟨_, hin, hc⟩)]

/-! ## Witnesses -/

/-- The surroundings of the commands below. -/
def env0 : Env := ⟨1, 0, fun _ => true, id, fun n => n - 10⟩

/-- The client of the commands below. -/
def client0 : Client := Client.new [1, 2, 3]

def str (s : String) : Name := s.toList

/-- A store with one node and nothing else. -/
def store0 : Store := (Store.init 8).commands
  [(env0, .addNode (str "c") 1 1), (env0, .metrics (str "c") 1 true 100), (env0, .createTenant (str "c") (str "t") false 0 (some 100))]

/-- **C175 is refuted: the answer.**  A database is created and the answer is lost; the second attempt is answered that the database
exists already, so the user is told that the creation failed.  The same happens to a table that is dropped or altered. -/
theorem C175_answer_refuted : ¬ ∀ (cmd : Cmd) (c : Client) (s : Store) (fs : List (Env × Fate)), Repeats cmd = true →
    (c.write s cmd fs).2.2 = some false → Same (c.write s cmd fs).2.1 s := by
  intro h
  have := h (.createDb (str "c") (str "t") (str "d") ⟨1, 1, 0, 0, false, 0⟩) client0 store0 [(env0, .lost), (env0, .done)] rfl
    (by decide +kernel) (KeyPath.db (str "c") (str "t") (str "d"))
  revert this
  decide +kernel

/-- A store with a bucket of one replication set with one vnode. -/
def store1 : Store := store0.commands [(env0, .createDb (str "c") (str "t") (str "d") ⟨1, 1, 0, 0, false, 0⟩), (env0, .createBucket (str "c") (str "t") (str "d") 5)]

/-- The vnodes of the replication sets of the bucket with an id. -/
def vnodesOf (s : Store) (id : Nat) : List (List (Nat × Nat)) :=
  match s.db.get (KeyPath.bucket (str "c") (str "t") (str "d") (decName id)) with
  | some (.bucket b) => b.shards.map fun r => r.vnodes.map fun v => (v.id, v.node)
  | _ => []

/-- **C175 is refuted: a vnode is added twice.**  A vnode is added to a replication set and the answer is lost; the second attempt adds
it again and succeeds, and the replication set lists it twice. -/
theorem C175_vnode_refuted : ¬ ∀ (cmd : Cmd) (c : Client) (s : Store) (fs : List (Env × Fate)), (c.write s cmd fs).2.2 = some true →
    ∃ f ∈ fs, Same (c.write s cmd fs).2.1 (s.command f.1 cmd) := by
  intro h
  obtain ⟨f, hf, hs⟩ := h (.updateReplSet (str "c") (str "t") (str "d") 1 2 [] [⟨9, 1⟩]) client0 store1 [(env0, .lost), (env0, .done)]
    (by decide +kernel)
  have hf : f.1 = env0 := by
    simp only [List.mem_cons, List.not_mem_nil, or_false] at hf
    rcases hf with rfl | rfl <;> rfl
  rw [hf] at hs
  have := hs (KeyPath.bucket (str "c") (str "t") (str "d") (decName 1))
  revert this
  decide +kernel

example : vnodesOf store1 1 = [[(3, 1)]] ∧
    vnodesOf (client0.write store1 (.updateReplSet (str "c") (str "t") (str "d") 1 2 [] [⟨9, 1⟩]) [(env0, .lost), (env0, .done)]).2.1 1 =
      [[(3, 1), (9, 1), (9, 1)]] := by decide +kernel

/-- **C175 is refuted: tokens are taken twice.**  A node asks the limiter of a tenant and the answer is lost; the second attempt takes
the tokens again. -/
theorem C175_tokens_refuted : ¬ ∀ (c : Client) (s : Store) (cl t : Name) (fs : List (Env × Fate)),
    (c.write s (.limiterRequest cl t) fs).2.2 = some true → ∃ f ∈ fs, Same (c.write s (.limiterRequest cl t) fs).2.1 (s.command f.1 (.limiterRequest cl t)) := by
  intro h
  obtain ⟨f, hf, hs⟩ := h client0 store0 (str "c") (str "t") [(env0, .lost), (env0, .done)] (by decide +kernel)
  have hf : f.1 = env0 := by
    simp only [List.mem_cons, List.not_mem_nil, or_false] at hf
    rcases hf with rfl | rfl <;> rfl
  rw [hf] at hs
  have := hs (KeyPath.limiter (str "c") (str "t"))
  revert this
  decide +kernel

/-- The hypotheses of the positive theorems can be met: an answer is lost and the next one is success. -/
example : (client0.write store1 (.dropDb (str "c") (str "t") (str "d")) [(env0, .moved 2), (env0, .lost), (env0, .done)]).2.2 = some true := by
  decide +kernel

example : (store0.exec env0 (.createDb (str "c") (str "t") (str "d") ⟨1, 1, 0, 0, false, 0⟩)).2 = true ∧
    (store1.exec env0 (.createBucket (str "c") (str "t") (str "d") 5)).1 = [] := by decide +kernel

end Verif.Leader
