import Verif.Leader.Model
/-!
# Finding the leader, and reading what was written (C176, C177)
-/
namespace Verif.Leader
open Verif.Watch

/-! ## The binary search -/

theorem searchLoop_found {l : List Addr} {x : Addr} (hl : l.Pairwise (· < ·)) {p : Nat} (hp : l[p]? = some x) :
    ∀ size base, base ≤ p → p < base + size → base + size ≤ l.length → searchLoop l x base size = some p := by
  have hlt := (List.getElem?_eq_some_iff.1 hp).1
  have hx := (List.getElem?_eq_some_iff.1 hp).2
  have hmono : ∀ i j (hi : i < l.length) (hj : j < l.length), i < j → l[i] < l[j] := by
    intro i j hi hj h
    exact List.pairwise_iff_getElem.1 hl i j hi hj h
  intro size
  induction size using Nat.strongRecOn with
  | _ size ih =>
    intro base h1 h2 h3
    rw [searchLoop]
    split
    · have : base = p := by omega
      subst this
      rw [if_pos hp]
    · rename_i hs
      have hb : base + size / 2 < l.length := by omega
      simp only [List.getD_eq_getElem?_getD, List.getElem?_eq_getElem hb, Option.getD_some]
      split
      · rename_i hc
        have : p < base + size / 2 := by
          rcases Nat.lt_trichotomy p (base + size / 2) with h | h | h
          · exact h
          · subst h; rw [hx] at hc; exact absurd hc (Nat.lt_irrefl _)
          · have := hmono _ _ hb hlt h
            rw [hx] at this
            exact absurd hc (Nat.lt_asymm this)
        exact ih _ (by omega) _ h1 (by omega) (by omega)
      · rename_i hc
        have : base + size / 2 ≤ p := by
          rcases Nat.lt_trichotomy p (base + size / 2) with h | h | h
          · have := hmono _ _ hlt hb h
            rw [hx] at this
            exact absurd this hc
          · exact Nat.le_of_eq h.symm
          · exact Nat.le_of_lt h
        exact ih _ (by omega) _ this (by omega) (by omega)

/-- The search finds an address that is there. -/
theorem search_found {l : List Addr} {x : Addr} (hl : l.Pairwise (· < ·)) {p : Nat} (hp : l[p]? = some x) : search l x = some p := by
  have hlt := (List.getElem?_eq_some_iff.1 hp).1
  rw [search, if_neg (by cases l with | nil => simp at hlt | cons => simp)]
  exact searchLoop_found hl hp _ _ (by omega) (by omega) (by omega)

theorem searchLoop_sound {l : List Addr} {x : Addr} : ∀ size base p, searchLoop l x base size = some p → l[p]? = some x := by
  intro size
  induction size using Nat.strongRecOn with
  | _ size ih =>
    intro base p h
    rw [searchLoop] at h
    split at h
    · split at h
      · rename_i hh; rw [← Option.some.inj h]; exact hh
      · cases h
    · exact ih _ (by omega) _ _ h

theorem search_sound {l : List Addr} {x : Addr} {p : Nat} (h : search l x = some p) : l[p]? = some x := by
  rw [search] at h
  split at h
  · cases h
  · exact searchLoop_sound _ _ _ h

/-- The addresses a client works with: in order, and none twice. -/
def Client.Sorted (c : Client) : Prop := c.addrs.Pairwise (· < ·)

instance (c : Client) : Decidable c.Sorted := inferInstanceAs (Decidable (List.Pairwise _ _))

theorem switch_addrs (c : Client) : c.switch.addrs = c.addrs := by
  rw [Client.switch]; split <;> rfl

/-- Switching goes to the address after the current one, round the list. -/
theorem switch_at {c : Client} (hs : c.Sorted) {i : Nat} (hi : c.addrs[i]? = some c.leader) :
    c.addrs[(i + 1) % c.addrs.length]? = some c.switch.leader := by
  have hlt := (List.getElem?_eq_some_iff.1 hi).1
  rw [Client.switch, search_found hs hi]
  have : (i + 1) % c.addrs.length < c.addrs.length := Nat.mod_lt _ (by omega)
  simp [List.getD_eq_getElem?_getD, List.getElem?_eq_getElem this]

theorem switch_mem {c : Client} (h : c.addrs ≠ []) : c.switch.leader ∈ c.addrs := by
  have hpos : 0 < c.addrs.length := List.length_pos_iff.2 h
  rw [Client.switch]
  split
  · rename_i i _
    have : (i + 1) % c.addrs.length < c.addrs.length := Nat.mod_lt _ hpos
    simp only [List.getD_eq_getElem?_getD, List.getElem?_eq_getElem this, Option.getD_some]
    exact List.getElem_mem _
  · cases hc : c.addrs with
    | nil => exact absurd hc h
    | cons a l => simp

theorem getElem?_inj_of_pairwise {l : List Addr} (hl : l.Pairwise (· < ·)) {i j : Nat} {x : Addr} (hi : l[i]? = some x)
    (hj : l[j]? = some x) : i = j := by
  have := search_found hl hi
  rw [search_found hl hj] at this
  exact (Option.some.inj this).symm

/-- With two addresses or more, switching leaves the current one. -/
theorem switch_ne {c : Client} (hs : c.Sorted) (h2 : 2 ≤ c.addrs.length) : c.switch.leader ≠ c.leader := by
  intro he
  have hm := switch_mem (c := c) (by intro h; rw [h] at h2; simp at h2)
  rw [he] at hm
  obtain ⟨i, hi⟩ := List.getElem?_of_mem hm
  have h1 := switch_at hs hi
  rw [he] at h1
  have := getElem?_inj_of_pairwise hs hi h1
  have hlt := (List.getElem?_eq_some_iff.1 hi).1
  by_cases hl : i + 1 < c.addrs.length
  · rw [Nat.mod_eq_of_lt hl] at this; omega
  · have hi1 : i + 1 = c.addrs.length := by omega
    rw [hi1, Nat.mod_self] at this
    omega

/-! ## C176 -/

/-- A server that is up is at most one step from the leader. -/
theorem reach_up (h : Servers) (hl : h.up h.lead = true) {c : Client} (hu : h.up c.leader = true) (n : Nat) :
    (c.reach h (n + 2)).2 = true ∧ (c.reach h (n + 2)).1.leader = h.lead := by
  have key : ∀ (c : Client) n, c.leader = h.lead → c.reach h (n + 1) = (c, true) := by
    intro c n hc
    rw [Client.reach, Servers.fate, hc, hl]
    simp
  by_cases hc : c.leader = h.lead
  · rw [key c (n + 1) hc]; exact ⟨rfl, hc⟩
  · have : c.reach h (n + 2) = ({ c with leader := h.lead } : Client).reach h (n + 1) := by
      rw [Client.reach, Servers.fate, hu]
      simp [hc]
    rw [this, key _ n rfl]
    exact ⟨rfl, rfl⟩

/-- **C176, one server down.**  When at most one of the servers that the client may ask is down, and the leader is up, then
every command is answered, and by the leader. -/
theorem C176_one_down (h : Servers) (c : Client) (hs : c.Sorted) (h2 : 2 ≤ c.addrs.length) (hl : h.up h.lead = true)
    (h1 : ∀ a ∈ c.leader :: c.addrs, ∀ b ∈ c.leader :: c.addrs, h.up a = false → h.up b = false → a = b) :
    (c.reach h 3).2 = true ∧ (c.reach h 3).1.leader = h.lead := by
  by_cases hu : h.up c.leader = true
  · exact reach_up h hl hu 1
  · have hd : h.up c.leader = false := by simpa using hu
    have hm := switch_mem (c := c) (by intro h; rw [h] at h2; simp at h2)
    have hup : h.up c.switch.leader = true := by
      cases hx : h.up c.switch.leader with
      | true => rfl
      | false => exact absurd (h1 _ (List.mem_cons_of_mem _ hm) _ List.mem_cons_self hx hd) (switch_ne hs h2)
    have : c.reach h 3 = c.switch.reach h 2 := by
      rw [Client.reach, Servers.fate, hd]
      simp
    rw [this]
    exact reach_up h hl hup 0

/-- Attempts that follow attempts without an answer. -/
theorem reach_add (h : Servers) (a b : Nat) (c : Client) :
    c.reach h (a + b) = if (c.reach h a).2 then c.reach h a else (c.reach h a).1.reach h b := by
  induction a generalizing c with
  | zero => simp [Client.reach]
  | succ a ih =>
    rw [show a + 1 + b = (a + b) + 1 by omega, Client.reach, Client.reach]
    cases hf : h.fate c.leader with
    | done => simp
    | lost => simp only [ih]
    | dropped => simp only [ih]
    | moved x => simp only [ih]

theorem switch_sorted {c : Client} (hs : c.Sorted) : c.switch.Sorted := by
  rw [Client.Sorted, switch_addrs]; exact hs

theorem reach_down (h : Servers) {c : Client} (hd : h.up c.leader = false) (n : Nat) : c.reach h (n + 1) = c.switch.reach h n := by
  rw [Client.reach, Servers.fate, hd]; simp

/-- From a place in the list: a server that is up `k` places further is reached after at most `k` more attempts. -/
theorem reach_walk (h : Servers) (hl : h.up h.lead = true) : ∀ (k : Nat) (c : Client), c.Sorted → ∀ i x, c.addrs[i]? = some c.leader →
    c.addrs[(i + k) % c.addrs.length]? = some x → h.up x = true → ∀ n, k + 2 ≤ n → (c.reach h n).2 = true ∧ (c.reach h n).1.leader = h.lead := by
  intro k
  induction k with
  | zero =>
    intro c hs i x hi hx hu n hn
    have hlt := (List.getElem?_eq_some_iff.1 hi).1
    rw [Nat.add_zero, Nat.mod_eq_of_lt hlt, hi] at hx
    obtain ⟨m, rfl⟩ : ∃ m, n = m + 2 := ⟨n - 2, by omega⟩
    exact reach_up h hl (by rw [Option.some.inj hx]; exact hu) m
  | succ k ih =>
    intro c hs i x hi hx hu n hn
    obtain ⟨m, rfl⟩ : ∃ m, n = m + 2 := ⟨n - 2, by omega⟩
    by_cases hup : h.up c.leader = true
    · exact reach_up h hl hup m
    · rw [show m + 2 = (m + 1) + 1 from rfl, reach_down h (by simpa using hup)]
      refine ih c.switch (switch_sorted hs) ((i + 1) % c.addrs.length) x ?_ ?_ hu _ (by omega)
      · rw [switch_addrs]; exact switch_at hs hi
      · rw [switch_addrs, ← hx]
        congr 1
        rw [Nat.mod_add_mod]
        congr 1
        omega

/-- However many servers are down, the client gets to the leader after as many attempts as there are addresses and two more. -/
theorem reach_all (h : Servers) (c : Client) (hs : c.Sorted) (hl : h.up h.lead = true) (hm : h.lead ∈ c.addrs) (n : Nat)
    (hn : c.addrs.length + 2 ≤ n) : (c.reach h n).2 = true ∧ (c.reach h n).1.leader = h.lead := by
  have main : ∀ (c : Client), c.Sorted → h.lead ∈ c.addrs → c.leader ∈ c.addrs → ∀ n, c.addrs.length + 1 ≤ n →
      (c.reach h n).2 = true ∧ (c.reach h n).1.leader = h.lead := by
    intro c hs hm hc n hn
    obtain ⟨i, hi⟩ := List.getElem?_of_mem hc
    obtain ⟨j, hj⟩ := List.getElem?_of_mem hm
    have hil := (List.getElem?_eq_some_iff.1 hi).1
    have hjl := (List.getElem?_eq_some_iff.1 hj).1
    rcases Nat.lt_or_ge j i with hlt | hge
    · refine reach_walk h hl (j + c.addrs.length - i) c hs i h.lead hi ?_ hl n (by omega)
      rw [show i + (j + c.addrs.length - i) = j + c.addrs.length by omega, Nat.add_mod_right, Nat.mod_eq_of_lt hjl]
      exact hj
    · refine reach_walk h hl (j - i) c hs i h.lead hi ?_ hl n (by omega)
      rw [show i + (j - i) = j by omega, Nat.mod_eq_of_lt hjl]
      exact hj
  by_cases hup : h.up c.leader = true
  · obtain ⟨m, rfl⟩ : ∃ m, n = m + 2 := ⟨n - 2, by omega⟩
    exact reach_up h hl hup m
  · obtain ⟨m, rfl⟩ : ∃ m, n = m + 1 := ⟨n - 1, by omega⟩
    rw [reach_down h (by simpa using hup)]
    refine main c.switch (switch_sorted hs) (by rw [switch_addrs]; exact hm) ?_ m (by rw [switch_addrs]; omega)
    rw [switch_addrs]
    exact switch_mem (List.ne_nil_of_mem hm)

/-- **C176, eventually.**  Whatever servers are down, as long as the leader is up and known: of the commands that a client
sends one after the other, one is answered among the first that take together as many attempts as there are addresses and two
more. -/
theorem C176_eventually_partial (h : Servers) (c : Client) (hs : c.Sorted) (hl : h.up h.lead = true) (hm : h.lead ∈ c.addrs) (m : Nat)
    (hn : c.addrs.length + 2 ≤ 3 * m) : true ∈ c.commands h m := by
  have key : ∀ m (c : Client), true ∉ c.commands h m → (c.reach h (3 * m)).2 = false := by
    intro m
    induction m with
    | zero => intro c _; rfl
    | succ m ih =>
      intro c hc
      rw [Client.commands] at hc
      simp only [List.mem_cons, not_or] at hc
      rw [show 3 * (m + 1) = 3 + 3 * m by omega, reach_add]
      have h0 : (c.reach h 3).2 = false := by
        cases hx : (c.reach h 3).2 with
        | true => rw [hx] at hc; exact absurd rfl hc.1
        | false => rfl
      rw [h0, if_neg (by simp)]
      exact ih _ hc.2
  refine Classical.byContradiction fun hh => ?_
  have := key m c hh
  rw [(reach_all h c hs hl hm _ hn).1] at this
  cases this

/-- After an answered command, the next goes to the leader at once. -/
theorem C176_stays (h : Servers) (c : Client) (n : Nat) (ha : (c.reach h n).2 = true) : (c.reach h n).1.leader = h.lead := by
  induction n generalizing c with
  | zero => cases ha
  | succ n ih =>
    rw [Client.reach] at ha ⊢
    cases hf : h.fate c.leader with
    | done =>
      simp only [Servers.fate] at hf
      split at hf
      · cases hf
      · split at hf
        · rename_i he; exact he
        · cases hf
    | lost => rw [hf] at ha; exact ih _ ha
    | dropped => rw [hf] at ha; exact ih _ ha
    | moved x => rw [hf] at ha; exact ih _ ha

/-- Five servers, of which the first two are down and the fourth leads. -/
def fiveServers : Servers := ⟨fun a => decide (a ≠ 1 ∧ a ≠ 2), 4⟩

/-- **C176 is refuted for two servers down.**  Three of five servers are up and one of them leads, but the command of a client
that has just been started is not answered: its three attempts go to the first two servers and then to one that only names
the leader. -/
theorem C176_two_down_refuted : ¬ ∀ (h : Servers) (c : Client), c.Sorted → h.up h.lead = true → h.lead ∈ c.addrs →
    2 * (c.addrs.filter fun a => !h.up a).length < c.addrs.length → (c.reach h 3).2 = true := by
  intro h
  exact absurd (h fiveServers (Client.new [3, 1, 5, 2, 4]) (by decide +kernel) (by decide +kernel) (by decide +kernel) (by decide +kernel))
    (by decide +kernel)

example : ((Client.new [3, 1, 5, 2, 4]).commands fiveServers 3) = [false, true, true] := by decide +kernel

/-- The hypotheses of `C176_one_down` can be met. -/
example : ((Client.new [3, 1, 2]).reach ⟨fun a => decide (a ≠ 1), 3⟩ 3) = (⟨[1, 2, 3], 3⟩, true) := by decide +kernel

/-! ## C177 -/

/-- What happens in the cluster between a write and a read. -/
inductive Ev where
  | write (lead : Addr) (x : Nat)
  | apply (a : Addr) (n : Nat)

def Cluster.step (k : Cluster) : Ev → Cluster
  | .write l x => k.write l x
  | .apply a n => k.apply a n

def Cluster.run (k : Cluster) (es : List Ev) : Cluster := es.foldl Cluster.step k

/-- What a server has applied, it keeps, and it knows nothing that is not in the log. -/
theorem run_mono (es : List Ev) : ∀ (k : Cluster), (∀ a, k.applied a ≤ k.log.length) → ∀ a,
    k.applied a ≤ (k.run es).applied a ∧ (k.run es).applied a ≤ (k.run es).log.length ∧ ∃ l, (k.run es).log = k.log ++ l := by
  induction es with
  | nil => intro k hk a; exact ⟨Nat.le_refl _, hk a, [], by simp [Cluster.run]⟩
  | cons e es ih =>
    intro k hk a
    have hk' : ∀ a, k.applied a ≤ (k.step e).applied a ∧ (k.step e).applied a ≤ (k.step e).log.length := by
      intro a
      have := hk a
      cases e with
      | write l x =>
        simp only [Cluster.step, Cluster.write, List.length_append, List.length_singleton]
        split <;> omega
      | apply b n =>
        simp only [Cluster.step, Cluster.apply]
        split <;> omega
    obtain ⟨h1, h2, l, h3⟩ := ih (k.step e) (fun a => (hk' a).2) a
    refine ⟨Nat.le_trans (hk' a).1 h1, h2, ?_⟩
    have : ∃ l', (k.step e).log = k.log ++ l' := by
      cases e with
      | write l x => exact ⟨[x], rfl⟩
      | apply b n => exact ⟨[], by simp [Cluster.step, Cluster.apply]⟩
    obtain ⟨l', hl'⟩ := this
    refine ⟨l' ++ l, ?_⟩
    rw [show k.run (e :: es) = (k.step e).run es from rfl, h3, hl', List.append_assoc]

/-- **C177, the same client.**  A client that got an answer to a command, and whose first attempt to read is answered, finds
the command, whatever happened in between. -/
theorem C177_same_client_partial (h : Servers) (c : Client) (n : Nat) (ha : (c.reach h n).2 = true) (k : Cluster)
    (hk : ∀ a, k.applied a ≤ k.log.length) (x : Nat) (es : List Ev) (up : Addr → Bool) (hu : up h.lead = true) (m : Nat) :
    ∃ l, ((c.reach h n).1.readFrom up ((k.write h.lead x).run es) (m + 1)).2 = some l ∧ (k.log ++ [x]) <+: l := by
  have hlead := C176_stays h c n ha
  rw [Client.readFrom, hlead, if_pos hu]
  refine ⟨_, rfl, ?_⟩
  have hk' : ∀ a, (k.write h.lead x).applied a ≤ (k.write h.lead x).log.length := by
    intro a
    have := hk a
    simp only [Cluster.write, List.length_append, List.length_singleton]
    split <;> omega
  obtain ⟨h1, h2, l, h3⟩ := run_mono es _ hk' h.lead
  have h0 : (k.write h.lead x).applied h.lead = k.log.length + 1 := by simp [Cluster.write]
  rw [Cluster.read, h3]
  rw [h0] at h1
  refine (List.prefix_take_iff (xs := k.log ++ [x])).2 ⟨?_, ?_⟩
  · exact List.prefix_append _ _
  · simpa using h1

/-- What a reader gets is always what the meta service was at some time: a beginning of the log. -/
theorem C177_prefix (up : Addr → Bool) (k : Cluster) (n : Nat) (c : Client) (l : List Nat) (h : (c.readFrom up k n).2 = some l) : l <+: k.log := by
  induction n generalizing c with
  | zero => cases h
  | succ n ih =>
    rw [Client.readFrom] at h
    split at h
    · rw [← Option.some.inj h]; exact List.take_prefix _ _
    · exact ih _ h

/-- Three servers; only the leader, the third, has applied the command. -/
def threeServers : Cluster := (Cluster.mk [] fun _ => 0).write 3 7

/-- **C177 is refuted for another client.**  A command was answered; another client that has just been started, with all servers
up, does not find it: the server it asks first is not the leader and answers from what it has applied. -/
theorem C177_other_client_refuted : ¬ ∀ (h : Servers) (c c' : Client) (k : Cluster) (x : Nat), (∀ a, h.up a = true) →
    (∀ a, k.applied a ≤ k.log.length) → (c.reach h 3).2 = true → ∀ l, (c'.readFrom h.up (k.write h.lead x) 3).2 = some l → x ∈ l := by
  intro h
  have := h ⟨fun _ => true, 3⟩ (Client.new [1, 2, 3]) (Client.new [1, 2, 3]) ⟨[], fun _ => 0⟩ 7 (fun _ => rfl) (fun _ => Nat.le_refl _)
    (by decide +kernel) [] (by decide +kernel)
  simp at this

/-- **C177 is refuted for the same client.**  Its command was answered; the first attempt to read fails, and the next server
answers without the command. -/
theorem C177_failover_refuted : ¬ ∀ (h : Servers) (c : Client) (k : Cluster) (x : Nat) (up : Addr → Bool),
    (∀ a, k.applied a ≤ k.log.length) → (c.reach h 3).2 = true →
    ∀ l, ((c.reach h 3).1.readFrom up (k.write h.lead x) 3).2 = some l → x ∈ l := by
  intro h
  have := h ⟨fun _ => true, 3⟩ (Client.new [1, 2, 3]) ⟨[], fun _ => 0⟩ 7 (fun a => decide (a ≠ 3)) (fun _ => Nat.le_refl _)
    (by decide +kernel) [] (by decide +kernel)
  simp at this

/-- The hypotheses of `C177_same_client_partial` can be met. -/
example : (((Client.new [1, 2, 3]).reach ⟨fun _ => true, 3⟩ 3).1.readFrom (fun _ => true) threeServers 3).2 = some [7] := by
  decide +kernel

end Verif.Leader
