import Verif.Raft.Store
/-!
# The store of the state of raft groups: every group has its own state
-/
namespace Verif.Raft

/-! ## Decimal numbers -/

def undec (l : Key) : Nat := l.foldl (fun n d => 10 * n + (d.toNat - 48)) 0

theorem digit_toNat (n : Nat) (h : n < 10) : (Char.ofNat (48 + n)).toNat = 48 + n := by
  have : n = 0 ∨ n = 1 ∨ n = 2 ∨ n = 3 ∨ n = 4 ∨ n = 5 ∨ n = 6 ∨ n = 7 ∨ n = 8 ∨ n = 9 := by omega
  rcases this with rfl | rfl | rfl | rfl | rfl | rfl | rfl | rfl | rfl | rfl <;> decide

theorem undec_dec (n : Nat) : undec (dec n) = n := by
  induction n using Nat.strongRecOn with
  | ind n ih =>
    rw [dec]
    split
    · rename_i h
      simp only [undec, List.foldl_cons, List.foldl_nil, digit_toNat n h]
      omega
    · have := ih (n / 10) (by omega)
      unfold undec at this ⊢
      rw [List.foldl_append, this]
      simp only [List.foldl_cons, List.foldl_nil, digit_toNat (n % 10) (by omega)]
      omega

theorem dec_inj {a b : Nat} (h : dec a = dec b) : a = b := by rw [← undec_dec a, h, undec_dec]

theorem dec_digits (n : Nat) : ∀ c ∈ dec n, 48 ≤ c.toNat ∧ c.toNat < 58 := by
  induction n using Nat.strongRecOn with
  | ind n ih =>
    rw [dec]
    split
    · rename_i h
      simp only [List.mem_singleton]
      rintro c rfl
      rw [digit_toNat n h]; omega
    · intro c hc
      rcases List.mem_append.1 hc with hc | hc
      · exact ih (n / 10) (by omega) c hc
      · rw [List.mem_singleton] at hc
        rw [hc, digit_toNat _ (by omega)]; omega

theorem dec_ne_nil (n : Nat) : dec n ≠ [] := by
  rw [dec]; split <;> simp

/-- A number followed by an underscore is found again. -/
theorem dec_append_inj {a b : Nat} {x y : Key} (h : dec a ++ '_' :: x = dec b ++ '_' :: y) : a = b ∧ x = y := by
  have key : ∀ (l l' : Key), (∀ c ∈ l, c ≠ '_') → (∀ c ∈ l', c ≠ '_') → ∀ {x y : Key}, l ++ '_' :: x = l' ++ '_' :: y → l = l' ∧ x = y := by
    intro l
    induction l with
    | nil =>
      intro l' _ h2 x y h
      cases l' with
      | nil => simpa using h
      | cons c l' =>
        simp only [List.nil_append, List.cons_append, List.cons.injEq] at h
        exact absurd h.1.symm (h2 c List.mem_cons_self)
    | cons c l ih =>
      intro l' h1 h2 x y h
      cases l' with
      | nil =>
        simp only [List.nil_append, List.cons_append, List.cons.injEq] at h
        exact absurd h.1 (h1 c List.mem_cons_self)
      | cons d l' =>
        simp only [List.cons_append, List.cons.injEq] at h
        obtain ⟨e1, e2⟩ := ih l' (fun c hc => h1 c (List.mem_cons_of_mem _ hc)) (fun c hc => h2 c (List.mem_cons_of_mem _ hc)) h.2
        exact ⟨by rw [h.1, e1], e2⟩
  have hne : ∀ n, ∀ c ∈ dec n, c ≠ '_' := by
    intro n c hc e
    have := dec_digits n c hc
    rw [e] at this
    exact absurd this.2 (by decide)
  obtain ⟨e1, e2⟩ := key _ _ (hne a) (hne b) h
  exact ⟨dec_inj e1, e2⟩

/-! ## Keys -/

/-- The kinds of keys. -/
inductive Kind where
  | summary | applied | snapApplied | member | memberAt (i : Nat) | purged | snapIndex | vote | snapshot | init
deriving DecidableEq

def Kind.key (g : Nat) : Kind → Key
  | .summary => kSummary g
  | .applied => kApplied g
  | .snapApplied => kSnapApplied g
  | .member => kMember g
  | .memberAt i => kMemberAt g i
  | .purged => kPurged g
  | .snapIndex => kSnapIndex g
  | .vote => kVote g
  | .snapshot => kSnapshot g
  | .init => kInit g

/-- What comes before the first digit, and the rest. -/
def notDigit (c : Char) : Bool := decide (c.toNat < 48 ∨ 58 ≤ c.toNat)

def splitKey (k : Key) : Key × Key := (k.takeWhile notDigit, k.dropWhile notDigit)

theorem span_app (p : Char → Bool) (l r : Key) (h1 : ∀ c ∈ l, p c = true) (h2 : ∀ c, r.head? = some c → p c = false) :
    ((l ++ r).takeWhile p, (l ++ r).dropWhile p) = (l, r) := by
  have e1 : (l ++ r).takeWhile p = l := by
    rw [List.takeWhile_append_of_pos h1]
    cases r with
    | nil => simp
    | cons c r => simp [List.takeWhile_cons, h2 c rfl]
  have e2 : (l ++ r).dropWhile p = r := by
    rw [List.dropWhile_append_of_pos h1]
    cases r with
    | nil => simp
    | cons c r => simp [List.dropWhile_cons, h2 c rfl]
  rw [e1, e2]

/-- What stands before the number of the group. -/
def Kind.head : Kind → Key
  | .summary => sSummary
  | .applied => sApplied
  | .snapApplied => sSnapApplied
  | .member => sMember
  | .memberAt _ => sMember
  | .purged => sPurged
  | .snapIndex => sSnapIndex
  | .vote => sVote
  | .snapshot => sSnapshot
  | .init => sInit

def Kind.tail (g : Nat) : Kind → Key
  | .memberAt i => dec g ++ '_' :: dec i
  | _ => dec g

theorem Kind.key_eq (g : Nat) (k : Kind) : k.key g = k.head ++ k.tail g := by cases k <;> rfl

theorem dec_head (g : Nat) (x : Key) : ∀ c, (dec g ++ x).head? = some c → 48 ≤ c.toNat ∧ c.toNat < 58 := by
  intro c hc
  cases hd : dec g with
  | nil => exact absurd hd (dec_ne_nil g)
  | cons d l =>
    rw [hd] at hc
    simp only [List.cons_append, List.head?_cons, Option.some.injEq] at hc
    subst hc
    exact dec_digits g d (by rw [hd]; exact List.mem_cons_self)

theorem splitKey_key (g : Nat) (k : Kind) : splitKey (k.key g) = (k.head, k.tail g) := by
  rw [Kind.key_eq, splitKey]
  apply span_app
  · cases k <;> (simp only [Kind.head]; decide)
  · intro c hc
    have : 48 ≤ c.toNat ∧ c.toNat < 58 := by
      cases k with
      | memberAt i => exact dec_head g _ c hc
      | _ =>
        refine dec_head g [] c ?_
        rw [List.append_nil]; exact hc
    simp only [notDigit, decide_eq_false_iff_not]
    omega

theorem Kind.key_inj {g h : Nat} {k k' : Kind} (e : k.key g = k'.key h) : g = h ∧ k = k' := by
  have e' := congrArg splitKey e
  rw [splitKey_key, splitKey_key, Prod.mk.injEq] at e'
  obtain ⟨e1, e2⟩ := e'
  have hno : ∀ (a b i : Nat), dec a ≠ dec b ++ '_' :: dec i := by
    intro a b i hh
    have := dec_digits a '_' (by rw [hh]; simp)
    exact absurd this.2 (by decide)
  cases k <;> cases k' <;> first
    | (simp only [Kind.head] at e1; exact absurd e1 (by decide))
    | (simp only [Kind.tail] at e2; exact ⟨dec_inj e2, rfl⟩)
    | (simp only [Kind.tail] at e2; exact absurd e2 (hno _ _ _))
    | (simp only [Kind.tail] at e2; exact absurd e2.symm (hno _ _ _))
    | (simp only [Kind.tail] at e2
       obtain ⟨h1, h2⟩ := dec_append_inj e2
       exact ⟨h1, by rw [dec_inj h2]⟩)

/-- The prefix finds exactly the memberships of the group. -/
theorem prefix_iff (g h : Nat) (k : Kind) : (kMemberPrefix g).isPrefixOf (k.key h) = true ↔ g = h ∧ ∃ i, k = .memberAt i := by
  rw [List.isPrefixOf_iff_prefix]
  constructor
  · rintro ⟨w, hw⟩
    have e' := congrArg splitKey hw
    rw [splitKey_key] at e'
    have : splitKey (kMemberPrefix g ++ w) = (sMember, dec g ++ '_' :: w) := by
      rw [splitKey, kMemberPrefix, List.append_assoc, List.append_assoc]
      apply span_app
      · decide
      · intro c hc
        have := dec_head g _ c hc
        simp only [notDigit, decide_eq_false_iff_not]
        omega
    rw [this, Prod.mk.injEq] at e'
    obtain ⟨e1, e2⟩ := e'
    cases k with
    | memberAt i =>
      obtain ⟨h1, _⟩ := dec_append_inj e2
      exact ⟨h1, i, rfl⟩
    | member =>
      simp only [Kind.tail] at e2
      have := dec_digits h '_' (by rw [← e2]; simp)
      exact absurd this.2 (by decide)
    | _ => (simp only [Kind.head] at e1; exact absurd e1 (by decide))
  · rintro ⟨rfl, i, rfl⟩
    refine ⟨dec i, ?_⟩
    simp [Kind.key, kMemberAt, kMemberPrefix]

theorem head_app (a b : Key) (h : a ≠ []) : (a ++ b).head? = a.head? := by
  cases a with
  | nil => exact absurd rfl h
  | cons c a => rfl

theorem summary_iff (h : Nat) (k : Kind) : sSummary.isPrefixOf (k.key h) = true ↔ k = .summary := by
  rw [List.isPrefixOf_iff_prefix]
  constructor
  · rintro ⟨w, hw⟩
    have e := congrArg List.head? hw
    rw [Kind.key_eq, head_app _ _ (by decide)] at e
    cases k with
    | summary => rfl
    | _ =>
      exfalso
      rw [head_app _ _ (by simp only [Kind.head]; decide)] at e
      simp only [Kind.head] at e
      exact absurd e (by decide)
  · rintro rfl
    exact List.prefix_append _ _

/-! ## The invariant -/

/-- Every key belongs to a group; in the list of memberships there are memberships under their indexes, and summaries are summaries. -/
structure Wf (db : Db) : Prop where
  keys : ∀ k v, db.get k = some v → ∃ g kind, k = Kind.key g kind
  list : ∀ g i v, db.get (kMemberAt g i) = some v → ∃ m l, v = .mem m ∧ m.logId = some l ∧ l.index = i
  summary : ∀ g v, db.get (kSummary g) = some v → ∃ n, v = .num n

theorem get_delKeys (db : Db) (ks : List Key) (k : Key) : (db.delKeys ks).get k = if k ∈ ks then none else db.get k := by
  unfold Db.delKeys
  induction ks generalizing db with
  | nil => simp
  | cons a ks ih =>
    rw [List.foldl_cons, ih]
    by_cases h : k ∈ ks
    · simp [h]
    · simp only [h, if_false, List.mem_cons, or_false]
      rw [AMap.get_del]

theorem mem_membershipList {db : Db} (hw : Wf db) {g : Nat} {x : Key × Member} :
    x ∈ db.membershipList g ↔ ∃ i l, x.1 = kMemberAt g i ∧ x.2.logId = some l ∧ l.index = i ∧ db.get (kMemberAt g i) = some (.mem x.2) := by
  obtain ⟨k, m⟩ := x
  simp only [Db.membershipList, List.mem_filterMap]
  constructor
  · rintro ⟨⟨k', v⟩, hm, hx⟩
    simp only at hx
    split at hx
    case isFalse => cases hx
    rename_i hp
    have hg := AMap.mem_entries.1 hm
    obtain ⟨h, kind, rfl⟩ := hw.keys _ _ hg
    obtain ⟨rfl, i, rfl⟩ := (prefix_iff g h kind).1 hp
    obtain ⟨m', l, rfl, h1, h2⟩ := hw.list g i v hg
    simp only [Option.some.injEq, Prod.mk.injEq] at hx
    obtain ⟨rfl, rfl⟩ := hx
    exact ⟨i, l, rfl, h1, h2, hg⟩
  · rintro ⟨i, l, rfl, h1, h2, hg⟩
    refine ⟨(kMemberAt g i, .mem m), AMap.mem_entries.2 hg, ?_⟩
    have := (prefix_iff g g (.memberAt i)).2 ⟨rfl, i, rfl⟩
    simp only [Kind.key] at this
    simp [this]

theorem kAt (g i : Nat) : kMemberAt g i = Kind.key g (.memberAt i) := rfl

/-- The indexes of the memberships stored up to an index. -/
theorem mem_upTo {db : Db} (hw : Wf db) {g n : Nat} {x : Key × Member} :
    x ∈ db.membershipsUpTo g n ↔
      ∃ i l, x.1 = kMemberAt g i ∧ x.2.logId = some l ∧ l.index = i ∧ i ≤ n ∧ db.get (kMemberAt g i) = some (.mem x.2) := by
  rw [Db.membershipsUpTo, List.mem_filter, Sort.mem_sortBy, mem_membershipList hw]
  constructor
  · rintro ⟨⟨i, l, h1, h2, h3, h4⟩, h5⟩
    simp only [Member.index, h2, Option.getD_some, h3, decide_eq_true_eq] at h5
    exact ⟨i, l, h1, h2, h3, h5, h4⟩
  · rintro ⟨i, l, h1, h2, h3, h5, h4⟩
    exact ⟨⟨i, l, h1, h2, h3, h4⟩, by simpa only [Member.index, h2, Option.getD_some, h3, decide_eq_true_eq] using h5⟩

theorem upTo_sorted (db : Db) (g n : Nat) : (db.membershipsUpTo g n).Pairwise fun a b => a.2.index ≤ b.2.index := by
  have h := Sort.sortBy_sorted (le := fun a b : Key × Member => decide (a.2.index ≤ b.2.index))
    (fun a b c h1 h2 => by simp only [decide_eq_true_eq] at *; omega) (fun a b => by simp only [decide_eq_true_eq]; omega) (db.membershipList g)
  exact ((h.imp fun h => by simpa using h).sublist List.filter_sublist)

theorem upTo_nodup {db : Db} (g n : Nat) : ((db.membershipsUpTo g n).map Prod.fst).Nodup := by
  have h : ((db.membershipList g).map Prod.fst).Nodup := by
    have : ∀ l : List (Key × Val), (l.map Prod.fst).Nodup → ((l.filterMap fun e => if (kMemberPrefix g).isPrefixOf e.1 then
        (match e.2 with | .mem m => some (e.1, m) | _ => none) else none : List (Key × Member)).map Prod.fst).Sublist (l.map Prod.fst) := by
      intro l _
      induction l with
      | nil => simp
      | cons e l ih =>
        rw [List.filterMap_cons]
        simp only [List.map_cons]
        rename_i hn
        simp only [List.map_cons, List.nodup_cons] at hn
        split
        · exact (ih hn.2).cons _
        · rename_i b hb
          split at hb
          · split at hb
            · simp only [Option.some.injEq] at hb
              rw [← hb]
              exact (ih hn.2).cons_cons _
            · cases hb
          · cases hb
    exact db.nodup.sublist (this _ db.nodup)
  have h2 : ((Sort.sortBy (fun a b : Key × Member => decide (a.2.index ≤ b.2.index)) (db.membershipList g)).map Prod.fst).Nodup :=
    ((Sort.sortBy_perm _ _).map _).nodup_iff.2 h
  exact h2.sublist (List.filter_sublist.map _)

/-- Some membership with an index after `i`, up to `n`, is stored. -/
def laterIn (list : Nat → Option Val) (i n : Nat) : Bool := (List.range (n + 1)).any fun j => decide (i < j) && (list j).isSome

theorem laterIn_iff {list : Nat → Option Val} {i n : Nat} : laterIn list i n = true ↔ ∃ j, i < j ∧ j ≤ n ∧ (list j).isSome := by
  simp only [laterIn, List.any_eq_true, List.mem_range, Bool.and_eq_true, decide_eq_true_eq]
  constructor
  · rintro ⟨j, h1, h2, h3⟩; exact ⟨j, h2, by omega, h3⟩
  · rintro ⟨j, h1, h2, h3⟩; exact ⟨j, by omega, h1, h3⟩

/-- The last of the memberships up to an index. -/
theorem getLast_upTo {db : Db} (hw : Wf db) {g n : Nat} {x : Key × Member} (hx : (db.membershipsUpTo g n).getLast? = some x) :
    ∃ i, i ≤ n ∧ x.1 = kMemberAt g i ∧ db.get (kMemberAt g i) = some (.mem x.2) ∧ laterIn (fun j => db.get (kMemberAt g j)) i n = false := by
  have hm := List.mem_of_getLast? hx
  obtain ⟨i, l, h1, h2, h3, h4, h5⟩ := (mem_upTo hw).1 hm
  refine ⟨i, h4, h1, h5, ?_⟩
  cases hl : laterIn (fun j => db.get (kMemberAt g j)) i n with
  | false => rfl
  | true =>
    exfalso
    obtain ⟨j, hj1, hj2, hj3⟩ := laterIn_iff.1 hl
    obtain ⟨v, hv⟩ := Option.isSome_iff_exists.1 hj3
    obtain ⟨m, l', rfl, e1, e2⟩ := hw.list g j v hv
    have hmem : (kMemberAt g j, m) ∈ db.membershipsUpTo g n := (mem_upTo hw).2 ⟨j, l', rfl, e1, e2, hj2, hv⟩
    obtain ⟨ys, hys⟩ := List.getLast?_eq_some_iff.1 hx
    have hs := upTo_sorted db g n
    rw [hys] at hs hmem
    rw [List.pairwise_append] at hs
    have hxi : x.2.index = i := by simp [Member.index, h2, h3]
    have hmi : m.index = j := by simp [Member.index, e1, e2]
    rcases List.mem_append.1 hmem with hh | hh
    · have := hs.2.2 _ hh x (by simp)
      simp only at this
      omega
    · rw [List.mem_singleton] at hh
      rw [← hh] at hxi
      simp only at hxi
      omega

theorem mem_dropLast_upTo {db : Db} (hw : Wf db) {g n : Nat} {k : Key} :
    k ∈ (db.membershipsUpTo g n).dropLast.map Prod.fst ↔
      ∃ i, k = kMemberAt g i ∧ i ≤ n ∧ (db.get (kMemberAt g i)).isSome ∧ laterIn (fun j => db.get (kMemberAt g j)) i n = true := by
  cases hl : (db.membershipsUpTo g n).getLast? with
  | none =>
    rw [List.getLast?_eq_none_iff] at hl
    rw [hl]
    simp only [List.dropLast_nil, List.map_nil, List.not_mem_nil, false_iff]
    rintro ⟨i, _, h1, h2, _⟩
    obtain ⟨v, hv⟩ := Option.isSome_iff_exists.1 h2
    obtain ⟨m, l', rfl, e1, e2⟩ := hw.list g i v hv
    have : (kMemberAt g i, m) ∈ db.membershipsUpTo g n := (mem_upTo hw).2 ⟨i, l', rfl, e1, e2, h1, hv⟩
    rw [hl] at this
    cases this
  | some x =>
    obtain ⟨i0, h0, hx1, hx2, hx3⟩ := getLast_upTo hw hl
    obtain ⟨ys, hys⟩ := List.getLast?_eq_some_iff.1 hl
    have hnd := upTo_nodup (db := db) g n
    rw [hys] at hnd
    rw [hys, List.dropLast_concat]
    rw [List.map_append, List.nodup_append] at hnd
    constructor
    · intro hk
      obtain ⟨y, hy, rfl⟩ := List.mem_map.1 hk
      have hyin : y ∈ db.membershipsUpTo g n := by rw [hys]; exact List.mem_append_left _ hy
      obtain ⟨i, l, h1, h2, h3, h4, h5⟩ := (mem_upTo hw).1 hyin
      refine ⟨i, h1, h4, by rw [h5]; rfl, ?_⟩
      rw [laterIn_iff]
      refine ⟨i0, ?_, h0, by rw [hx2]; rfl⟩
      have hne : i ≠ i0 := by
        intro e
        subst e
        exact hnd.2.2 _ hk _ (List.mem_map.2 ⟨x, by simp, rfl⟩) (by rw [h1, hx1])
      have hle : ¬ i0 < i := by
        intro hlt
        have : laterIn (fun j => db.get (kMemberAt g j)) i0 n = true := laterIn_iff.2 ⟨i, hlt, h4, by rw [h5]; rfl⟩
        rw [this] at hx3; cases hx3
      omega
    · rintro ⟨i, rfl, h1, h2, h3⟩
      obtain ⟨v, hv⟩ := Option.isSome_iff_exists.1 h2
      obtain ⟨m, l', rfl, e1, e2⟩ := hw.list g i v hv
      have hin : (kMemberAt g i, m) ∈ db.membershipsUpTo g n := (mem_upTo hw).2 ⟨i, l', rfl, e1, e2, h1, hv⟩
      rw [hys] at hin
      rcases List.mem_append.1 hin with hh | hh
      · exact List.mem_map.2 ⟨_, hh, rfl⟩
      · exfalso
        rw [List.mem_singleton] at hh
        rw [← hh] at hx1
        simp only [kAt] at hx1
        have := (Kind.key_inj hx1).2
        simp only [Kind.memberAt.injEq] at this
        subst this
        rw [h3] at hx3; cases hx3

/-! ## One group on its own -/

/-- What a write does to the state of its group. -/
def View.write (v : View) : Write → View
  | .setInit => { v with init := some (.num 1) }
  | .membership m =>
    { v with member := some (.mem m), list := fun i => if m.logId.map LogId.index = some i then some (.mem m) else v.list i }
  | .clear n => { v with list := fun i => if i ≤ n ∧ laterIn v.list i n = true then Option.none else v.list i }
  | .applied l => { v with applied := some (.log l) }
  | .snapApplied l => { v with snapApplied := some (.log l) }
  | .purged l => { v with purged := some (.log l) }
  | .snapIndex n => { v with snapIndex := some (.num n) }
  | .incrSnapIndex n => { v with snapIndex := some (.num ((match v.snapIndex with | some (.num k) => k | _ => 0) + n)) }
  | .vote n => { v with vote := some (.num n) }
  | .snapshot n => { v with snapshot := some (.num n) }
  | .summary n => { v with summary := some (.num n) }
  | .delGroup => .none

theorem key_eq_iff {g h : Nat} {k k' : Kind} : Kind.key g k = Kind.key h k' ↔ g = h ∧ k = k' :=
  ⟨Kind.key_inj, fun e => by rw [e.1, e.2]⟩

/-- All keys of a group. -/
theorem view_eq {db db' : Db} {g : Nat} (h : ∀ k, db.get (Kind.key g k) = db'.get (Kind.key g k)) : db.view g = db'.view g := by
  simp only [Db.view]
  congr 1
  · exact h .init
  · exact h .member
  · funext i; exact h (.memberAt i)
  · exact h .applied
  · exact h .snapApplied
  · exact h .purged
  · exact h .snapIndex
  · exact h .vote
  · exact h .snapshot
  · exact h .summary

/-- The value under a key of a kind. -/
def View.get (v : View) : Kind → Option Val
  | .summary => v.summary
  | .applied => v.applied
  | .snapApplied => v.snapApplied
  | .member => v.member
  | .memberAt i => v.list i
  | .purged => v.purged
  | .snapIndex => v.snapIndex
  | .vote => v.vote
  | .snapshot => v.snapshot
  | .init => v.init

theorem View.ext_get {v v' : View} (h : ∀ k, v.get k = v'.get k) : v = v' := by
  obtain ⟨a1, a2, a3, a4, a5, a6, a7, a8, a9, a10⟩ := v
  obtain ⟨b1, b2, b3, b4, b5, b6, b7, b8, b9, b10⟩ := v'
  have h1 := h .init
  have h2 := h .member
  have h3 : a3 = b3 := funext fun i => h (.memberAt i)
  have h4 := h .applied
  have h5 := h .snapApplied
  have h6 := h .purged
  have h7 := h .snapIndex
  have h8 := h .vote
  have h9 := h .snapshot
  have h10 := h .summary
  simp only [View.get] at h1 h2 h4 h5 h6 h7 h8 h9 h10
  rw [h1, h2, h3, h4, h5, h6, h7, h8, h9, h10]

theorem view_get (db : Db) (g : Nat) (k : Kind) : (db.view g).get k = db.get (k.key g) := by cases k <;> rfl

theorem delGroup_keys {db : Db} (hw : Wf db) (g h : Nat) (k : Kind) :
    k.key h ∈ ([kApplied g, kMember g, kPurged g, kSnapIndex g, kVote g, kSnapshot g, kInit g, kSummary g, kSnapApplied g] ++
      (db.membershipList g).map Prod.fst) ↔ g = h ∧ ((∃ i, k = .memberAt i ∧ (db.get (kMemberAt g i)).isSome) ∨ ∀ i, k ≠ .memberAt i) := by
  have e1 : ([kApplied g, kMember g, kPurged g, kSnapIndex g, kVote g, kSnapshot g, kInit g, kSummary g, kSnapApplied g] : List Key) =
      ([.applied, .member, .purged, .snapIndex, .vote, .snapshot, .init, .summary, .snapApplied] : List Kind).map (Kind.key g) := rfl
  rw [e1, List.mem_append, List.mem_map]
  constructor
  · rintro (⟨k', hk', e⟩ | hm)
    · obtain ⟨rfl, rfl⟩ := Kind.key_inj e
      refine ⟨rfl, .inr ?_⟩
      rintro i rfl
      simp at hk'
    · obtain ⟨x, hx, e⟩ := List.mem_map.1 hm
      obtain ⟨i, l, h1, h2, h3, h4⟩ := (mem_membershipList hw).1 hx
      rw [h1, kAt] at e
      obtain ⟨rfl, rfl⟩ := Kind.key_inj e
      exact ⟨rfl, .inl ⟨i, rfl, by rw [h4]; rfl⟩⟩
  · rintro ⟨rfl, ⟨i, rfl, hs⟩ | hn⟩
    · right
      obtain ⟨v, hv⟩ := Option.isSome_iff_exists.1 hs
      obtain ⟨m, l', rfl, e1, e2⟩ := hw.list g i v hv
      exact List.mem_map.2 ⟨(kMemberAt g i, m), (mem_membershipList hw).2 ⟨i, l', rfl, e1, e2, hv⟩, rfl⟩
    · left
      refine ⟨k, ?_, rfl⟩
      cases k with
      | memberAt i => exact absurd rfl (hn i)
      | _ => simp

/-- The value under any key after a write. -/
theorem write_get {db : Db} (hw : Wf db) (g h : Nat) (w : Write) (k : Kind) :
    (db.write g w).get (k.key h) = if g = h then ((db.view g).write w).get k else db.get (k.key h) := by
  have set1 : ∀ (k' : Kind) (v : Val), (db.set (k'.key g) v).get (k.key h) =
      if g = h ∧ k' = k then some v else db.get (k.key h) := by
    intro k' v
    rw [AMap.get_set]
    by_cases e : g = h ∧ k' = k
    · rw [if_pos e, if_pos (by rw [e.1, e.2])]
    · rw [if_neg e, if_neg (fun e' => e ((key_eq_iff.1 e'.symm)))]
  have simple : ∀ (k' : Kind) (v : Val) (v' : View), v'.get k' = some v → (∀ k'', k'' ≠ k' → v'.get k'' = (db.view g).get k'') →
      (db.set (k'.key g) v).get (k.key h) = if g = h then v'.get k else db.get (k.key h) := by
    intro k' v v' h1 h2
    rw [set1]
    by_cases e : g = h
    · subst e
      by_cases ek : k' = k
      · subst ek; simp [h1]
      · simp only [ek, and_false, if_false, if_true]
        rw [h2 k (fun e => ek e.symm), view_get]
    · simp [e]
  cases w with
  | setInit => exact simple .init _ ((db.view g).write .setInit) rfl (by intro k hk; cases k <;> first | rfl | exact absurd rfl hk)
  | applied l => exact simple .applied _ ((db.view g).write (.applied l)) rfl (by intro k hk; cases k <;> first | rfl | exact absurd rfl hk)
  | snapApplied l =>
    exact simple .snapApplied _ ((db.view g).write (.snapApplied l)) rfl (by intro k hk; cases k <;> first | rfl | exact absurd rfl hk)
  | purged l => exact simple .purged _ ((db.view g).write (.purged l)) rfl (by intro k hk; cases k <;> first | rfl | exact absurd rfl hk)
  | snapIndex l => exact simple .snapIndex _ ((db.view g).write (.snapIndex l)) rfl (by intro k hk; cases k <;> first | rfl | exact absurd rfl hk)
  | incrSnapIndex n =>
    refine simple .snapIndex _ ((db.view g).write (.incrSnapIndex n)) ?_ (by intro k hk; cases k <;> first | rfl | exact absurd rfl hk)
    simp only [View.write, View.get, Db.view, Db.num]
    cases hg : db.get (kSnapIndex g) with
    | none => rfl
    | some v => cases v <;> rfl
  | vote l => exact simple .vote _ ((db.view g).write (.vote l)) rfl (by intro k hk; cases k <;> first | rfl | exact absurd rfl hk)
  | snapshot l => exact simple .snapshot _ ((db.view g).write (.snapshot l)) rfl (by intro k hk; cases k <;> first | rfl | exact absurd rfl hk)
  | summary l => exact simple .summary _ ((db.view g).write (.summary l)) rfl (by intro k hk; cases k <;> first | rfl | exact absurd rfl hk)
  | membership m =>
    simp only [Db.write, Db.setMembership]
    cases hm : m.logId with
    | none =>
      refine simple .member _ ((db.view g).write (.membership m)) rfl ?_
      intro k hk
      cases k <;> first | rfl | exact absurd rfl hk | skip
      simp [View.write, View.get, hm]
    | some l =>
      simp only
      rw [AMap.get_set]
      have := set1 .member (.mem m)
      simp only [Kind.key] at this
      by_cases e : g = h
      · subst e
        simp only [if_true]
        cases k with
        | memberAt i =>
          simp only [kAt, key_eq_iff, View.write, View.get, hm, Option.map_some, Option.some.injEq, true_and, Kind.memberAt.injEq]
          by_cases hi : i = l.index
          · rw [if_pos hi, if_pos hi.symm]
          · rw [if_neg hi, if_neg (fun e => hi e.symm)]
            have h2 := this
            simp only [Kind.key] at h2 ⊢
            rw [h2]
            simp [Db.view]
        | member =>
          rw [kAt, if_neg (by rw [key_eq_iff]; simp)]
          have h2 := this
          simp only [Kind.key] at h2 ⊢
          rw [h2]
          simp [View.write, View.get]
        | _ =>
          rw [kAt, if_neg (by rw [key_eq_iff]; simp)]
          have h2 := this
          simp only [Kind.key] at h2 ⊢
          rw [h2]
          simp [View.write, View.get, Db.view]
      · rw [if_neg e, kAt, if_neg (by rw [key_eq_iff]; exact fun e' => e e'.1.symm)]
        have h2 := set1 .member (.mem m)
        rw [if_neg (fun e' => e e'.1)] at h2
        exact h2
  | clear n =>
    simp only [Db.write, Db.clearMemberships]
    rw [get_delKeys]
    by_cases e : g = h
    · subst e
      rw [if_pos rfl]
      cases k with
      | memberAt i =>
        simp only [View.write, View.get]
        have hv : ∀ j, (db.view g).list j = db.get (kMemberAt g j) := fun _ => rfl
        by_cases hin : Kind.key g (.memberAt i) ∈ (db.membershipsUpTo g n).dropLast.map Prod.fst
        · rw [if_pos hin]
          obtain ⟨j, e1, h1, h2, h3⟩ := (mem_dropLast_upTo hw).1 hin
          have := (Kind.key_inj (k := .memberAt i) (k' := .memberAt j) e1).2
          simp only [Kind.memberAt.injEq] at this
          subst this
          have h3' : laterIn (db.view g).list i n = true := h3
          rw [if_pos ⟨h1, h3'⟩]
        · rw [if_neg hin]
          by_cases hc : i ≤ n ∧ laterIn (db.view g).list i n = true
          · rw [if_pos hc]
            cases hg : db.get (Kind.key g (.memberAt i)) with
            | none => rfl
            | some v => exact absurd ((mem_dropLast_upTo hw).2 ⟨i, rfl, hc.1, by rw [kAt, hg]; rfl, hc.2⟩) hin
          · rw [if_neg hc]; rfl
      | _ =>
        rw [if_neg]
        · simp only [View.write, View.get, Db.view, Kind.key]
        · intro hin
          obtain ⟨j, e1, _⟩ := (mem_dropLast_upTo hw).1 hin
          rw [kAt] at e1
          have := (Kind.key_inj e1).2
          simp at this
    · rw [if_neg e, if_neg]
      intro hin
      obtain ⟨j, e1, _⟩ := (mem_dropLast_upTo hw).1 hin
      rw [kAt] at e1
      exact e (Kind.key_inj e1).1.symm
  | delGroup =>
    simp only [Db.write, Db.delGroup]
    rw [get_delKeys]
    by_cases e : g = h
    · subst e
      rw [if_pos rfl]
      have hv : (View.write (db.view g) .delGroup).get k = none := by cases k <;> rfl
      rw [hv]
      by_cases hin : (∃ i, k = .memberAt i ∧ (db.get (kMemberAt g i)).isSome) ∨ ∀ i, k ≠ .memberAt i
      · rw [if_pos ((delGroup_keys hw g g k).2 ⟨rfl, hin⟩)]
      · rw [if_neg (fun hh => hin ((delGroup_keys hw g g k).1 hh).2)]
        cases k with
        | memberAt i =>
          cases hg : db.get (Kind.key g (.memberAt i)) with
          | none => rfl
          | some v =>
            exfalso
            apply hin
            left
            refine ⟨i, rfl, ?_⟩
            simp only [Kind.key] at hg
            rw [hg]; rfl
        | _ => exact absurd (.inr (by simp)) hin
    · rw [if_neg e, if_neg (fun hh => e ((delGroup_keys hw g h k).1 hh).1)]

theorem Wf.empty : Wf (AMap.empty : Db) := ⟨by simp, by simp, by simp⟩

/-- Keys that are not of the known kinds are never written. -/
theorem write_other {db : Db} {g : Nat} {w : Write} {k : Key} {v : Val} (h : (db.write g w).get k = some v)
    (hk : ∀ g kind, k ≠ Kind.key g kind) : db.get k = some v := by
  have set1 : ∀ (k' : Kind) (x : Val) (d : Db), (d.set (k'.key g) x).get k = some v → d.get k = some v := by
    intro k' x d hd
    rw [AMap.get_set, if_neg (hk g k')] at hd
    exact hd
  have del1 : ∀ ks, (db.delKeys ks).get k = some v → db.get k = some v := by
    intro ks hd
    rw [get_delKeys] at hd
    split at hd
    · cases hd
    · exact hd
  cases w with
  | setInit => exact set1 .init _ _ h
  | membership m =>
    simp only [Db.write, Db.setMembership] at h
    split at h
    · exact set1 .member _ _ (set1 (.memberAt _) _ _ h)
    · exact set1 .member _ _ h
  | clear n => exact del1 _ h
  | applied l => exact set1 .applied _ _ h
  | snapApplied l => exact set1 .snapApplied _ _ h
  | purged l => exact set1 .purged _ _ h
  | snapIndex l => exact set1 .snapIndex _ _ h
  | incrSnapIndex l => exact set1 .snapIndex _ _ h
  | vote l => exact set1 .vote _ _ h
  | snapshot l => exact set1 .snapshot _ _ h
  | summary l => exact set1 .summary _ _ h
  | delGroup => exact del1 _ h

theorem Wf.write {db : Db} (hw : Wf db) (g : Nat) (w : Write) : Wf (db.write g w) := by
  refine ⟨fun k v h => ?_, fun h i v hv => ?_, fun h v hv => ?_⟩
  · by_cases hk : ∃ g kind, k = Kind.key g kind
    · exact hk
    · exact hw.keys k v (write_other h (fun g kind e => hk ⟨g, kind, e⟩))
  · have e := write_get hw g h w (.memberAt i)
    simp only [Kind.key] at e
    rw [e] at hv
    split at hv
    · rename_i eg
      subst eg
      cases w with
      | membership m =>
        simp only [View.write, View.get] at hv
        split at hv
        · rename_i hm
          simp only [Option.some.injEq] at hv
          cases hl : m.logId with
          | none => rw [hl] at hm; cases hm
          | some l =>
            rw [hl] at hm
            simp only [Option.map_some, Option.some.injEq] at hm
            exact ⟨m, l, hv.symm, hl, hm⟩
        · exact hw.list g i v hv
      | clear n =>
        simp only [View.write, View.get] at hv
        split at hv
        · cases hv
        · exact hw.list g i v hv
      | delGroup => simp [View.write, View.get, View.none] at hv
      | _ => exact hw.list g i v hv
    · exact hw.list h i v hv
  · have e := write_get hw g h w .summary
    simp only [Kind.key] at e
    rw [e] at hv
    split at hv
    · rename_i eg
      subst eg
      cases w with
      | summary n =>
        simp only [View.write, View.get, Option.some.injEq] at hv
        exact ⟨n, hv.symm⟩
      | delGroup => simp [View.write, View.get, View.none] at hv
      | _ => exact hw.summary g v hv
    · exact hw.summary h v hv

theorem Wf.run {db : Db} (hw : Wf db) (l : List (Nat × Write)) : Wf (db.run l) := by
  induction l generalizing db with
  | nil => exact hw
  | cons w l ih => exact ih (hw.write _ _)

theorem view_write {db : Db} (hw : Wf db) (g h : Nat) (w : Write) :
    (db.write g w).view h = if g = h then (db.view h).write w else db.view h := by
  apply View.ext_get
  intro k
  rw [view_get, write_get hw]
  by_cases e : g = h
  · subst e; simp
  · simp only [e, if_false]; rw [view_get]

/-- **C118**: the store of a process with any number of raft groups, whatever they write in whatever order: what is stored of a group is what
its own writes give (on their own, in a store where each value has its own place); after the group was removed nothing is left of it; and the
groups to be opened at the start are those with a summary. -/
theorem C118_groups_are_independent (l : List (Nat × Write)) :
    (∀ g, (Db.run AMap.empty l).view g = ((l.filter fun w => decide (w.1 = g)).map Prod.snd).foldl View.write .none) ∧
    (∀ g, ((Db.run AMap.empty l).write g .delGroup).view g = .none) ∧
    (∀ n, n ∈ (Db.run AMap.empty l).allSummaries ↔ ∃ g, ((Db.run AMap.empty l).view g).summary = some (.num n)) := by
  refine ⟨fun g => ?_, fun g => ?_, fun n => ?_⟩
  · have gen : ∀ db : Db, Wf db → (db.run l).view g = ((l.filter fun w => decide (w.1 = g)).map Prod.snd).foldl View.write (db.view g) := by
      induction l with
      | nil => intro db _; rfl
      | cons w l ih =>
        intro db hw
        simp only [Db.run, List.foldl_cons]
        have := ih (db.write w.1 w.2) (hw.write _ _)
        simp only [Db.run] at this
        rw [this, view_write hw]
        by_cases e : w.1 = g
        · simp [e]
        · simp [e]
    exact gen _ Wf.empty
  · rw [view_write (Wf.empty.run l), if_pos rfl]; rfl
  · have hw := Wf.empty.run l
    generalize Db.run AMap.empty l = db at hw
    simp only [Db.allSummaries, List.mem_filterMap, Db.view]
    constructor
    · rintro ⟨⟨k, v⟩, hm, hx⟩
      have hg := AMap.mem_entries.1 hm
      simp only at hx
      split at hx
      case isFalse => cases hx
      rename_i hp
      obtain ⟨g, kind, rfl⟩ := hw.keys k v hg
      have := (summary_iff g kind).1 hp
      subst this
      simp only [Kind.key] at hg
      obtain ⟨n', rfl⟩ := hw.summary g v hg
      simp only [Option.some.injEq] at hx
      subst hx
      exact ⟨g, hg⟩
    · rintro ⟨g, hg⟩
      refine ⟨(kSummary g, .num n), AMap.mem_entries.2 hg, ?_⟩
      have := (summary_iff g .summary).2 rfl
      simp only [Kind.key] at this
      simp [this]

/-- Groups 1 and 11 with memberships at indexes 1 and 11: their keys are prefixes of each other. -/
example : ((Db.run AMap.empty [(1, .summary 5), (11, .summary 6), (1, .membership ⟨some ⟨1, 1⟩, 3⟩), (1, .membership ⟨some ⟨11, 1⟩, 4⟩),
    (11, .membership ⟨some ⟨1, 1⟩, 7⟩), (1, .clear 20), (1, .delGroup)]).view 11).list 1 = some (.mem ⟨some ⟨1, 1⟩, 7⟩) := by
  decide +kernel

end Verif.Raft
