import Verif.Index.Props
import Verif.Predicate.Props
/-!
# Tag filters of queries against the series index (C64, C65)

* `tskv/src/index/ts_index.rs:397-508` — `get_series_ids_by_domains`, `get_series_ids_by_domain`
* `common/models/src/predicate/mod.rs:27-46`, `domain.rs:1760-1785` — which part of the filter goes to the
  index

Together with `Verif.Predicate` this covers the way from a WHERE clause to the series that are read.  Tag
values are compared as byte strings (`ScalarValue::Utf8` compares UTF-8 strings).
-/
namespace Verif.Index
open Verif.Utils (Bytes bytesLe bytesLe_antisymm bytesLe_trans bytesLe_total)
open Verif.Predicate (Marker Range Domain ColumnDomains CTy DomOk CdOk Sep Proper Row Expr Sc Accepts Sat
  exprToDomains WhereOk RowOk)

/-- Tag values with the order of `ScalarValue::Utf8`. -/
structure TagVal where
  bytes : Bytes
deriving DecidableEq

instance : LinearOrder TagVal where
  le a b := bytesLe a.bytes b.bytes = true
  le_refl a := bytesLe_refl _
  le_trans a b c := bytesLe_trans _ _ _
  le_antisymm a b h1 h2 := by
    cases a; cases b
    exact congrArg TagVal.mk (bytesLe_antisymm _ _ h1 h2)
  le_total a b := bytesLe_total _ _
  toDecidableLE a b := inferInstanceAs (Decidable (bytesLe a.bytes b.bytes = true))

theorem TagVal.le_iff (a b : TagVal) : a ≤ b ↔ bytesLe a.bytes b.bytes = true := Iff.rfl

theorem TagVal.lt_iff (a b : TagVal) : a < b ↔ bytesLe a.bytes b.bytes = true ∧ a.bytes ≠ b.bytes := by
  rw [lt_iff_le_and_ne, TagVal.le_iff]
  constructor
  · rintro ⟨h1, h2⟩
    refine ⟨h1, fun h => h2 ?_⟩
    cases a; cases b; exact congrArg TagVal.mk h
  · rintro ⟨h1, h2⟩
    exact ⟨h1, fun h => h2 (congrArg TagVal.bytes h)⟩

/-- `From<&Marker> for Bound` (domain.rs:511-529). -/
def bnd : Marker TagVal → Bnd
  | .neg => .unb
  | .pos => .unb
  | .at v .exactly => .incl v.bytes
  | .at v _ => .excl v.bytes

/-- `get_series_ids_by_domain` (ts_index.rs:451-508).  `none`: a panic, either of `BTreeMap::range` or of the
assertion that a listed value is a string (a list domain never arises for a tag). -/
def Idx.byDomain (s : Idx) (t a : Bytes) : Domain TagVal → Option (List Nat)
  | .range _ rs => (rs.mapM fun r => s.byRange t a (bnd r.low) (bnd r.high)).map List.flatten
  | .equ true [] => some []
  | .equ true _ => none
  | .equ false _ => some (s.byTags t [])
  | .none => some []
  | .all => some (s.byTags t [])

/-- `reduce(|p, c| p.bitand(c)).unwrap_or_default()` (ts_index.rs:434-439). -/
def reduceAnd : List (List Nat) → List Nat
  | [] => []
  | l :: ls => ls.foldl (fun p c => p.filter (· ∈ c)) l

/-- `get_series_ids_by_domains` (ts_index.rs:397-449).  `key` gives the tag key of a column: its id in
decimal. -/
def Idx.byDomains (s : Idx) (t : Bytes) (key : Nat → Bytes) : ColumnDomains TagVal → Option (List Nat)
  | none => some []
  | some [] => some (s.byTags t [])
  | some (e :: es) => ((e :: es).mapM fun e => s.byDomain t (key e.1) e.2).map reduceAnd

/-- `tags_filter` of `Split::new` / `Predicate::resolve` (predicate/mod.rs:33-41): `translate_column` keeps
the tag columns. -/
def tagsFilter (isTag : Nat → Bool) (D : ColumnDomains TagVal) : ColumnDomains TagVal :=
  D.map fun m => m.filter fun e => isTag e.1

/-! ## Every series stays plain -/

/-- The operation brings in only plain names. -/
def Op.Plain : Op → Prop
  | .add k => Index.Plain k
  | .update sets _ => ∀ e ∈ sets, Digits e.1 ∧ e.1 ≠ []
  | _ => True

theorem plain_newKey {sets : List (Bytes × Option Bytes)} {k : SKey} (hs : ∀ e ∈ sets, Digits e.1 ∧ e.1 ≠ [])
    (hk : Plain k) : Plain (newKey sets k) := by
  refine ⟨hk.1, ?_⟩
  rintro ⟨a, v⟩ hm
  rw [mem_newKey] at hm
  cases h : lastOf sets a with
  | some o => exact hs _ (lastOf_mem h)
  | none => rw [h] at hm; exact hk.2 _ (lastOf_mem hm)

/-- Tag keys of a series are different (`sort_tags` and the column map guarantee it). -/
def UniqueTags (k : SKey) : Prop := (k.tags.map Prod.fst).Nodup

theorem unique_newKey (sets : List (Bytes × Option Bytes)) (k : SKey) : UniqueTags (newKey sets k) := by
  unfold UniqueTags newKey
  simp only
  refine ((Sort.sortBy_perm _ _).map Prod.fst).nodup_iff.2 ?_
  refine List.Nodup.sublist ?_ (tagMap sets k.tags).nodup
  generalize (tagMap sets k.tags).entries = l
  induction l with
  | nil => exact List.Sublist.slnil
  | cons e l ih =>
    obtain ⟨a, o⟩ := e
    cases o with
    | none => simpa using ih.cons a
    | some v => simpa using ih.cons_cons a

variable {c : Cfg} {s : Idx}

/-- The operation only brings in keys with property `P`. -/
def Op.Brings (P : SKey → Prop) : Op → Prop
  | .add k => P k
  | .update sets _ => ∀ k, P k → P (newKey sets k)
  | _ => True

theorem step_keeps {P : SKey → Prop} {o : Op} (h : Inv c s) (ho : o.Ok) (hop : o.Brings P)
    (hn : s.incr + o.adds < c.idLimit) (hp : ∀ i k, live s i = some k → P k) :
    ∀ i k, live (step c s o) i = some k → P k := by
  intro i k hk
  cases o with
  | add k' =>
    obtain ⟨_, h2, h3, _⟩ := h.add (k := k') ho hn
    simp only [step] at hk
    by_cases hi : i = (s.add c k').2
    · subst hi; rw [h2] at hk; cases hk; exact hop
    · rw [h3 i hi] at hk; exact hp i k hk
  | lookup k' =>
    obtain ⟨_, _, h3⟩ := h.getId' (k := k') ho
    simp only [step] at hk
    rw [h3.live] at hk; exact hp i k hk
  | lookupId j =>
    obtain ⟨_, _, h3, h4, _, _⟩ := h.getKey j
    simp only [step] at hk
    rw [live_congr h3 h4] at hk; exact hp i k hk
  | del j =>
    obtain ⟨_, h2, _⟩ := h.del j
    simp only [step] at hk
    rw [h2] at hk
    split at hk
    · cases hk
    · exact hp i k hk
  | update sets m =>
    obtain ⟨_, _, h3, h4⟩ := update_spec (c := c) h ho.1 ho.2
    simp only [step] at hk
    cases hb : (s.update c sets m true).2 with
    | false => rw [h3 hb] at hk; exact hp i k hk
    | true =>
      by_cases hx : ∃ k0 ∈ m, live s i = some k0
      · obtain ⟨k0, hm, hl⟩ := hx
        rw [((h4 hb).1 i k0 hl hm).1] at hk
        cases hk
        exact hop _ (hp i k0 hl)
      · rw [(h4 hb).2 i fun k' hk' hl => hx ⟨k', hk', hl⟩] at hk
        exact hp i k hk
  | flush => simp only [step] at hk; rw [live_flush] at hk; exact hp i k hk
  | restart =>
    simp only [step] at hk
    have e : live (openOn s.flush.st) i = live s i := by
      rw [restart_eq, ← live_flush s]; rfl
    rw [e] at hk; exact hp i k hk
  | clearTomb => exact hp i k hk
  | evict ids hs => exact hp i k hk

theorem run_keeps {P : SKey → Prop} : ∀ {ops : List Op} {s : Idx}, Inv c s → (∀ o ∈ ops, o.Ok) →
    (∀ o ∈ ops, o.Brings P) → s.incr + adds ops < c.idLimit → (∀ i k, live s i = some k → P k) →
    ∀ i k, ((run c s ops).getKey c i).2 = some k → P k
  | [], s, h, _, _, _, hp => fun i k hk => hp i k (by rw [← (h.getKey i).2.1]; exact hk)
  | o :: ops, s, h, ho, hop, hn, hp => by
    have ha : adds (o :: ops) = o.adds + adds ops := by simp [adds]
    rw [ha] at hn
    have h1 := step_spec (c := c) h (ho o List.mem_cons_self) (by omega)
    show ∀ i k, ((run c (step c s o) ops).getKey c i).2 = some k → P k
    exact run_keeps h1.1 (fun o ho' => ho o (List.mem_cons_of_mem _ ho'))
      (fun o ho' => hop o (List.mem_cons_of_mem _ ho')) (by have := h1.2.2.1; omega)
      (step_keeps h (ho o List.mem_cons_self) (hop o List.mem_cons_self) (by omega) hp)

theorem live_fresh (i : Nat) : live .fresh i = none := by
  simp [live, Idx.fresh, openOn, WCache.empty, Store.empty]

/-- If only plain names ever come in, every series in the index is plain. -/
theorem allPlain_run {ops : List Op} (ho : ∀ o ∈ ops, o.Ok) (hop : ∀ o ∈ ops, o.Plain)
    (hn : Idx.fresh.incr + adds ops < c.idLimit) : AllPlain c (run c .fresh ops) := by
  refine run_keeps (P := Index.Plain) (Inv.fresh _) ho (fun o h => ?_) hn (fun i k hk => ?_)
  · have := hop o h
    cases o <;> first | exact this | trivial | exact fun k => plain_newKey this
  · rw [live_fresh] at hk; cases hk

/-- If every registered series has different tag keys, every series in the index has. -/
theorem allUnique_run {ops : List Op} (ho : ∀ o ∈ ops, o.Ok) (hop : ∀ k, Op.add k ∈ ops → UniqueTags k)
    (hn : Idx.fresh.incr + adds ops < c.idLimit) :
    ∀ i k, ((run c .fresh ops).getKey c i).2 = some k → UniqueTags k := by
  refine run_keeps (P := UniqueTags) (Inv.fresh _) ho (fun o h => ?_) hn (fun i k hk => ?_)
  · cases o <;> first | exact hop _ h | trivial | exact fun k _ => unique_newKey _ k
  · rw [live_fresh] at hk; cases hk

/-- The concrete history meets the hypotheses of the lookup theorems. -/
example : Reach cfg0 (run cfg0 .fresh hist0) ∧ AllPlain cfg0 (run cfg0 .fresh hist0) ∧
    (∀ i k, ((run cfg0 .fresh hist0).getKey cfg0 i).2 = some k → UniqueTags k) ∧ Dotless [0x61#8] ∧
    Digits [0x31#8] := by
  have hok : ∀ o ∈ hist0, o.Ok ∧ o.Plain ∧ ∀ k, o = .add k → UniqueTags k := by
    intro o ho
    simp only [hist0, List.mem_cons, List.not_mem_nil, or_false] at ho
    rcases ho with rfl | rfl | rfl | rfl | rfl | rfl | rfl | rfl | rfl <;>
      simp [Op.Ok, Op.Plain, Short, ShortSets, Plain, Dotless, Digits, UniqueTags, kA, kB, kC, sk]
  exact ⟨⟨hist0, fun o ho => (hok o ho).1, by decide, rfl⟩,
    allPlain_run (fun o ho => (hok o ho).1) (fun o ho => (hok o ho).2.1) (by decide),
    allUnique_run (fun o ho => (hok o ho).1) (fun k hk => (hok _ hk).2.2 k rfl) (by decide),
    by simp [Dotless], by simp [Digits]⟩

/-! ## C64 — the scan never panics -/

/-- Ranges that `BTreeMap::range` refuses: with ends in order, only one value excluded at both ends. -/
theorem rangePanics_iff {r : Range TagVal} (h : Proper r) : rangePanics (bnd r.low) (bnd r.high) = true ↔
    ∃ v b b', r = ⟨.at v b, .at v b'⟩ ∧ b ≠ .exactly ∧ b' ≠ .exactly := by
  obtain ⟨lo, hi⟩ := r
  obtain ⟨_, _, hle⟩ := h
  simp only at hle
  cases lo with
  | neg => simp [bnd, rangePanics]
  | pos => simp [bnd, rangePanics]
  | «at» v b =>
    cases hi with
    | neg => cases b <;> simp [bnd, rangePanics]
    | pos => cases b <;> simp [bnd, rangePanics]
    | «at» w b' =>
      have hvw : bytesLe v.bytes w.bytes = true := by
        rw [Marker.val_at, Marker.val_at] at hle
        exact (TagVal.le_iff v w).1 (by simpa [Verif.Predicate.pt] using hle)
      have hext : v.bytes = w.bytes ↔ v = w := by
        constructor
        · intro h; cases v; cases w; exact congrArg TagVal.mk h
        · rintro rfl; rfl
      cases b <;> cases b' <;> simp [bnd, rangePanics, hvw, hext, eq_comm]

theorem mapM_some {α β : Type} {f : α → Option β} : ∀ {l : List α} {r : List β}, l.mapM f = some r →
    ∀ y, y ∈ r ↔ ∃ x ∈ l, f x = some y
  | [], r, h, y => by
    simp at h; subst h; simp
  | x :: l, r, h, y => by
    rw [List.mapM_cons] at h
    cases hx : f x with
    | none => rw [hx] at h; cases h
    | some b =>
      cases hl : l.mapM f with
      | none => rw [hx, hl] at h; cases h
      | some bs =>
        rw [hx, hl] at h
        cases h
        simp only [List.mem_cons, mapM_some hl y, exists_eq_or_imp, hx, Option.some.injEq]
        constructor
        · rintro (rfl | h)
          · exact .inl rfl
          · exact .inr h
        · rintro (rfl | h)
          · exact .inl rfl
          · exact .inr h

theorem mapM_none {α β : Type} {f : α → Option β} : ∀ {l : List α}, l.mapM f = none → ∃ x ∈ l, f x = none
  | [], h => by simp at h
  | x :: l, h => by
    rw [List.mapM_cons] at h
    cases hx : f x with
    | none => exact ⟨x, List.mem_cons_self, hx⟩
    | some b =>
      cases hl : l.mapM f with
      | none =>
        obtain ⟨y, hy, h⟩ := mapM_none hl
        exact ⟨y, List.mem_cons_of_mem _ hy, h⟩
      | some bs => rw [hx, hl] at h; cases h

/-- **C64, part proved**: for a filter built from a WHERE clause that compares tags with strings, the index scan
panics only if the filter contains a range that excludes one value at both ends (`x < 'a' AND x > 'a'`).
Missing: that case, refuted below. -/
theorem C64_no_other_panic_partial (t : Bytes) (key : Nat → Bytes) (D : ColumnDomains TagVal)
    (hD : CdOk (fun _ => .ord 0) D) (h : s.byDomains t key D = none) :
    ∃ m c rs v b b', D = some m ∧ (c, Domain.range 0 rs) ∈ m ∧ (⟨.at v b, .at v b'⟩ : Range TagVal) ∈ rs ∧
      b ≠ .exactly ∧ b' ≠ .exactly := by
  unfold Idx.byDomains at h
  split at h
  · cases h
  · cases h
  · rename_i e es
    rw [Option.map_eq_none_iff] at h
    obtain ⟨⟨c', d⟩, he, hd⟩ := mapM_none h
    have hok := hD _ rfl _ he
    simp only at hok hd
    cases d with
    | none => cases hd
    | all => cases hd
    | equ w l => cases hok
    | range ty rs =>
      obtain ⟨hty, hsep⟩ := hok
      cases hty
      simp only [Idx.byDomain, Option.map_eq_none_iff] at hd
      obtain ⟨r, hr, hb⟩ := mapM_none hd
      have hpan : rangePanics (bnd r.low) (bnd r.high) = true := by
        unfold Idx.byRange at hb
        rw [Option.map_eq_none_iff] at hb
        unfold WCache.byRange at hb
        simp only at hb
        split at hb
        · cases hb
        · split at hb
          · assumption
          · cases hb
      obtain ⟨v, b, b', rfl, hb1, hb2⟩ := (rangePanics_iff (hsep.ok _ hr)).1 hpan
      exact ⟨_, c', rs, v, b, b', rfl, he, hr, hb1, hb2⟩

/-- **Refuted**: `WHERE t < 'a' AND t > 'a'` makes the scan panic as soon as the table has an unflushed series
with tag `t` (column 1). -/
theorem C64_contradictory_range_refuted :
    let a : Option (Sc TagVal) := some (.ord 0 ⟨[0x61#8]⟩)
    (run cfg0 .fresh [.add kA]).byDomains [0x61#8] (fun _ => [0x31#8])
      (tagsFilter (fun _ => true) (exprToDomains (.and (.cmp .lt (.col 1) (.lit a)) (.cmp .gt (.col 1) (.lit a))))) = none := by
  decide +kernel

/-! ## C65 — a tag filter selects the right series -/

/-- The value of a tag of a series (type 0, string). -/
def tagOf (k : SKey) (a : Bytes) : Option (Sc TagVal) := (lastOf k.tags a).map fun v => .ord 0 ⟨v⟩

theorem lastOf_iff {l : List (Bytes × Bytes)} (h : (l.map Prod.fst).Nodup) (a v : Bytes) :
    lastOf l a = some v ↔ (a, v) ∈ l := by
  constructor
  · exact lastOf_mem
  · intro hm
    induction l with
    | nil => cases hm
    | cons e l ih =>
      simp only [List.map_cons, List.nodup_cons] at h
      simp only [lastOf]
      rcases List.mem_cons.1 hm with rfl | hm
      · have : lastOf l a = none := by
          cases hl : lastOf l a with
          | none => rfl
          | some w => exact absurd (List.mem_map.2 ⟨_, lastOf_mem hl, rfl⟩) h.1
        rw [this]; simp
      · rw [ih h.2 hm]; rfl

theorem inRange_bnd {r : Range TagVal} (h : Proper r) (v : Bytes) :
    inRange (bnd r.low) (bnd r.high) v = true ↔ r.Mem ⟨v⟩ := by
  obtain ⟨lo, hi⟩ := r
  obtain ⟨h1, h2, _⟩ := h
  simp only [inRange, Bool.and_eq_true, Range.Mem]
  refine and_congr ?_ ?_
  · cases lo with
    | neg => simp [bnd, Marker.admitsAbove]
    | pos => simp [bnd, Marker.admitsAbove]
    | «at» x b => cases b <;> simp [bnd, Marker.admitsAbove, TagVal.le_iff, TagVal.lt_iff]
  · cases hi with
    | neg => simp [bnd, Marker.admitsBelow]
    | pos => simp [bnd, Marker.admitsBelow]
    | «at» x b =>
      cases b <;> simp [bnd, Marker.admitsBelow, TagVal.le_iff, TagVal.lt_iff]
      all_goals intro _; exact not_congr eq_comm

/-- One tag: the lookup returns exactly the live series of the table whose value is in the domain. -/
theorem byDomain_exact (hs : Reach c s) (hp : AllPlain c s)
    (hu : ∀ i k, (s.getKey c i).2 = some k → UniqueTags k) (t a : Bytes) (ht : Dotless t) (ha : Digits a)
    (hne : a ≠ []) (d : Domain TagVal) (hd : DomOk (.ord 0) d) (l : List Nat) (hl : s.byDomain t a d = some l)
    (i : Nat) : i ∈ l ↔ ∃ k, (s.getKey c i).2 = some k ∧ k.table = t ∧ d.Mem (tagOf k a) := by
  cases d with
  | none => cases hl; simp [Domain.Mem]
  | all =>
    cases hl
    rw [C44_table_exact_partial hs hp t ht]
    simp [Domain.Mem]
  | equ w es => cases hd
  | range ty rs =>
    obtain ⟨hty, hsep⟩ := hd
    cases hty
    simp only [Idx.byDomain, Option.map_eq_some_iff] at hl
    obtain ⟨ls, hls, rfl⟩ := hl
    rw [List.mem_flatten]
    constructor
    · rintro ⟨l, hlm, hi⟩
      obtain ⟨r, hr, hb⟩ := (mapM_some hls l).1 hlm
      obtain ⟨k, h1, h2, v, h3, h4⟩ := (C45_range_lookup_exact_partial hs hp t a ht ha hne _ _ l hb i).1 hi
      refine ⟨k, h1, h2, ?_⟩
      rw [tagOf, (lastOf_iff (hu i k h1) a v).2 h3]
      exact ⟨rfl, r, hr, (inRange_bnd (hsep.ok _ hr) v).1 h4⟩
    · rintro ⟨k, h1, h2, h3⟩
      unfold tagOf at h3
      cases hv : lastOf k.tags a with
      | none => rw [hv] at h3; exact h3.elim
      | some v =>
        rw [hv] at h3
        obtain ⟨_, r, hr, hm⟩ := h3
        cases hb : s.byRange t a (bnd r.low) (bnd r.high) with
        | none =>
          exfalso
          have hN : ∀ (rs' : List (Range TagVal)), r ∈ rs' →
              rs'.mapM (fun r => s.byRange t a (bnd r.low) (bnd r.high)) = none := by
            intro rs' hr'
            induction rs' with
            | nil => cases hr'
            | cons x rs' ih =>
              rw [List.mapM_cons]
              rcases List.mem_cons.1 hr' with rfl | hr'
              · rw [hb]; rfl
              · cases s.byRange t a (bnd x.low) (bnd x.high) with
                | none => rfl
                | some _ => rw [ih hr']; rfl
          rw [hN rs hr] at hls; cases hls
        | some l =>
          refine ⟨l, (mapM_some hls l).2 ⟨r, hr, hb⟩, ?_⟩
          exact (C45_range_lookup_exact_partial hs hp t a ht ha hne _ _ l hb i).2
            ⟨k, h1, h2, v, (lastOf_mem hv), (inRange_bnd (hsep.ok _ hr) v).2 hm⟩

theorem mem_foldl_filter (i : Nat) : ∀ (ls : List (List Nat)) (l : List Nat),
    i ∈ ls.foldl (fun p c => p.filter (· ∈ c)) l ↔ i ∈ l ∧ ∀ x ∈ ls, i ∈ x
  | [], l => by simp
  | x :: ls, l => by
    rw [List.foldl_cons, mem_foldl_filter i ls, List.mem_filter]
    simp only [decide_eq_true_eq, List.mem_cons, forall_eq_or_imp, and_assoc]

theorem mem_reduceAnd (i : Nat) {ls : List (List Nat)} (h : ls ≠ []) : i ∈ reduceAnd ls ↔ ∀ x ∈ ls, i ∈ x := by
  cases ls with
  | nil => exact absurd rfl h
  | cons l ls =>
    simp only [reduceAnd, mem_foldl_filter, List.mem_cons, forall_eq_or_imp]

/-- **C65, part proved (1)**: if the scan does not panic, a filter on the tags of a table returns exactly the live
series of that table whose tag values pass the filter of every column.  Missing: table names with dots. -/
theorem C65_filter_exact_partial (hs : Reach c s) (hp : AllPlain c s)
    (hu : ∀ i k, (s.getKey c i).2 = some k → UniqueTags k) (t : Bytes) (ht : Dotless t) (key : Nat → Bytes)
    (hk : ∀ c, Digits (key c) ∧ key c ≠ []) (m : List (Nat × Domain TagVal))
    (hD : CdOk (fun _ => .ord 0) (some m)) (l : List Nat) (hl : s.byDomains t key (some m) = some l) (i : Nat) :
    i ∈ l ↔ ∃ k, (s.getKey c i).2 = some k ∧ k.table = t ∧ ∀ e ∈ m, e.2.Mem (tagOf k (key e.1)) := by
  cases m with
  | nil =>
    cases hl
    rw [C44_table_exact_partial hs hp t ht]
    simp
  | cons e es =>
    simp only [Idx.byDomains, Option.map_eq_some_iff] at hl
    obtain ⟨ls, hls, rfl⟩ := hl
    have hmem := fun y => mapM_some hls y
    have hex : ∀ e' ∈ e :: es, ∃ y, s.byDomain t (key e'.1) e'.2 = some y ∧ y ∈ ls := by
      intro e' he'
      cases hy : s.byDomain t (key e'.1) e'.2 with
      | some y => exact ⟨y, rfl, (hmem y).2 ⟨e', he', hy⟩⟩
      | none =>
        exfalso
        have hN : ∀ (l' : List (Nat × Domain TagVal)), e' ∈ l' →
            l'.mapM (fun e => s.byDomain t (key e.1) e.2) = none := by
          intro l' hl'
          induction l' with
          | nil => cases hl'
          | cons x l' ih =>
            rw [List.mapM_cons]
            rcases List.mem_cons.1 hl' with rfl | hl'
            · rw [hy]; rfl
            · cases s.byDomain t (key x.1) x.2 with
              | none => rfl
              | some _ => rw [ih hl']; rfl
        rw [hN _ he'] at hls; cases hls
    have hne : ls ≠ [] := by
      obtain ⟨y, _, hy⟩ := hex e List.mem_cons_self
      intro h; rw [h] at hy; cases hy
    rw [mem_reduceAnd i hne]
    have one := fun (e' : Nat × Domain TagVal) (he' : e' ∈ e :: es) (y : List Nat)
        (hy : s.byDomain t (key e'.1) e'.2 = some y) =>
      byDomain_exact hs hp hu t (key e'.1) ht (hk e'.1).1 (hk e'.1).2 e'.2 (hD _ rfl e' he') y hy i
    constructor
    · intro h
      obtain ⟨y, hy, hyl⟩ := hex e List.mem_cons_self
      obtain ⟨k, h1, h2, _⟩ := (one e List.mem_cons_self y hy).1 (h y hyl)
      refine ⟨k, h1, h2, fun e' he' => ?_⟩
      obtain ⟨y', hy', hyl'⟩ := hex e' he'
      obtain ⟨k', h1', _, h3'⟩ := (one e' he' y' hy').1 (h y' hyl')
      rw [h1] at h1'; cases h1'; exact h3'
    · rintro ⟨k, h1, h2, h3⟩ y hy
      obtain ⟨e', he', hb⟩ := (hmem y).1 hy
      exact (one e' he' y hb).2 ⟨k, h1, h2, h3 e' he'⟩

/-- **C65, part proved (2)**: no series is lost.  For a WHERE clause in the scope of C14, every live series of the table
that has a row satisfying the clause is among the series read (unless the scan panics, see C64).  The row's tag columns
are the tags of the series; its other columns and all functions are arbitrary. -/
theorem C65_where_keeps_series_partial (hs : Reach c s) (hp : AllPlain c s)
    (hu : ∀ i k, (s.getKey c i).2 = some k → UniqueTags k) (t : Bytes) (ht : Dotless t) (key : Nat → Bytes)
    (hk : ∀ c, Digits (key c) ∧ key c ≠ []) (isTag : Nat → Bool) (T : Nat → CTy)
    (hT : ∀ c, isTag c = true → T c = .ord 0) (K : Nat → TagVal → Prop) (e : Expr TagVal) (hw : WhereOk T e)
    (hc : Predicate.OrFree e ∨ Predicate.Consistent K e) (l : List Nat)
    (hl : s.byDomains t key (tagsFilter isTag (exprToDomains e)) = some l)
    (i : Nat) (k : SKey) (hi : (s.getKey c i).2 = some k) (hkt : k.table = t) (ρ : Row TagVal) (hρ : RowOk T ρ)
    (htags : ∀ c, isTag c = true → ρ.col c = tagOf k (key c)) (hsat : Sat ρ e) : i ∈ l := by
  have hacc := Predicate.C14_pushdown_sound_partial hρ e hw hc hsat
  have hcd : CdOk T (exprToDomains e) := by
    unfold exprToDomains
    by_cases hf : Predicate.Full e = true
    · rw [Predicate.visit_full e hw hf]
      exact Predicate.domFull_ok e hw
    · have := Predicate.visit_len_le e hw hf []
      have : Predicate.visit e [] = [] := List.eq_nil_of_length_eq_zero (by simpa using this)
      rw [this]
      exact Predicate.cdAll_ok T
  cases hD : exprToDomains e with
  | none => rw [hD] at hacc; exact hacc.elim
  | some m =>
    rw [hD] at hacc hl hcd
    simp only [tagsFilter, Option.map_some] at hl
    refine (C65_filter_exact_partial hs hp hu t ht key hk _ ?_ l hl i).2 ⟨k, hi, hkt, ?_⟩
    · intro m' hm' e' he'
      cases hm'
      obtain ⟨he', hte⟩ := List.mem_filter.1 he'
      have := hcd m rfl e' he'
      rwa [hT _ hte] at this
    · intro e' he'
      obtain ⟨he', hte⟩ := List.mem_filter.1 he'
      rw [← htags _ hte]
      exact hacc e' he'

/-- `WHERE t1 >= 'y' AND field > …` on the concrete history. -/
example : (run cfg0 .fresh hist0).byDomains [0x61#8] (fun _ => [0x31#8])
    (tagsFilter (fun c => decide (c = 1)) (exprToDomains (.and (.cmp .ge (.col 1) (.lit (some (.ord 0 ⟨[0x79#8]⟩))))
      (.cmp .gt (.col 2) (.lit (some (.ord 0 ⟨[]⟩))))))) = some [4, 3] := by
  decide +kernel

end Verif.Index
