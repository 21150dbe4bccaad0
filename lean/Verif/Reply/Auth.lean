/-!
# Model: credentials in the header of a request

* `main/src/http/header.rs` (`try_get_basic_auth`)
* `common/models/src/auth/user.rs` (`to_authorization`)
* `client/src/ctx.rs` (lines 300-325, 427, 482: the client sends the same form)
* crate `base64`: the engine `BASE64_STANDARD`

Texts of credentials are lists of bytes; `utf8` tells whether bytes are the UTF-8 encoding of a text.
-/
namespace Verif.Reply

abbrev Text := List Char
abbrev Bytes := List Nat

/-- The standard alphabet of base64. -/
def alphabet : Text := "ABCDEFGHIJKLMNOPQRSTUVWXYZabcdefghijklmnopqrstuvwxyz0123456789+/".toList

/-- The character of six bits. -/
def digit (i : Nat) : Char := alphabet.getD i 'A'

/-- The six bits of a character. -/
def undigit (c : Char) : Option Nat :=
  let i := alphabet.idxOf c
  if i < 64 then some i else none

/-- `BASE64_STANDARD.encode`. -/
def encode64 : Bytes → Text
  | [] => []
  | [a] => [digit (a / 4), digit (a % 4 * 16), '=', '=']
  | [a, b] => [digit (a / 4), digit (a % 4 * 16 + b / 16), digit (b % 16 * 4), '=']
  | a :: b :: c :: l => digit (a / 4) :: digit (a % 4 * 16 + b / 16) :: digit (b % 16 * 4 + c / 64) :: digit (c % 64) :: encode64 l

/-- The last group of four characters; bits that are left over must be zero. -/
def decodeLast (p q r s : Char) : Option Bytes :=
  match undigit p, undigit q with
  | some x, some y =>
    if r = '=' ∧ s = '=' then (if y % 16 = 0 then some [x * 4 + y / 16] else none)
    else match undigit r with
      | some z =>
        if s = '=' then (if z % 4 = 0 then some [x * 4 + y / 16, y % 16 * 16 + z / 4] else none)
        else match undigit s with
          | some w => some [x * 4 + y / 16, y % 16 * 16 + z / 4, z % 4 * 64 + w]
          | none => none
      | none => none
  | _, _ => none

/-- `BASE64_STANDARD.decode`: groups of four, padding required. -/
def decode64 : Text → Option Bytes
  | [] => some []
  | [p, q, r, s] => decodeLast p q r s
  | p :: q :: r :: s :: l =>
    match undigit p, undigit q, undigit r, undigit s, decode64 l with
    | some x, some y, some z, some w, some m => some ((x * 4 + y / 16) :: (y % 16 * 16 + z / 4) :: (z % 4 * 64 + w) :: m)
    | _, _, _, _, _ => none
  | _ => none

/-- `UserInfo` (user.rs:285-290). -/
structure UserInfo where
  user : Bytes
  password : Bytes
  key : Option Bytes
deriving DecidableEq

/-- `BASIC_PREFIX` (http_protocol/header.rs). -/
def basicPrefix : Text := "Basic ".toList

/-- The byte of `:`. -/
def colon : Nat := 58

/-- `to_authorization` (user.rs:293-299), and `basic_auth` of the HTTP client. -/
def authorization (u p : Bytes) : Text := basicPrefix ++ encode64 (u ++ colon :: p)

/-- Errors of `try_get_basic_auth`. -/
inductive AuthErr where
  | invalidHeader | parseAuth
deriving DecidableEq

/-- The private key of the header (header.rs:86-100). -/
def privateKey (utf8 : Bytes → Bool) : Option Text → Except AuthErr (Option Bytes)
  | none => .ok none
  | some k => match decode64 k with
    | none => .error .invalidHeader
    | some b => if utf8 b then .ok (some b) else .error .invalidHeader

/-- `str.find(':')` and the slices around it. -/
def splitColon : Bytes → Option (Bytes × Bytes)
  | [] => none
  | b :: l => if b = colon then some ([], l) else (splitColon l).map fun x => (b :: x.1, x.2)

/-- `try_get_basic_auth` (header.rs:85-132).  The header is ASCII, so that slicing it never panics. -/
def basicAuth (utf8 : Bytes → Bool) (auth : Text) (key : Option Text) : Except AuthErr UserInfo :=
  match privateKey utf8 key with
  | .error e => .error e
  | .ok k =>
    if auth.length < basicPrefix.length then .error .parseAuth
    else if auth.take basicPrefix.length ≠ basicPrefix then .error .parseAuth
    else match decode64 (auth.drop basicPrefix.length) with
      | none => .error .parseAuth
      | some b => if utf8 b then match splitColon b with
          | some (u, p) => .ok ⟨u, p, k⟩
          | none => .error .parseAuth
        else .error .parseAuth

/-! ## Base64 can be read back, in one way only -/

theorem undigit_digit {i : Nat} (h : i < 64) : undigit (digit i) = some i := by
  have : ∀ i : Fin 64, undigit (digit i.val) = some i.val := by decide +kernel
  exact this ⟨i, h⟩

theorem digit_ne_pad {i : Nat} (h : i < 64) : digit i ≠ '=' := by
  have : ∀ i : Fin 64, digit i.val ≠ '=' := by decide +kernel
  exact this ⟨i, h⟩

theorem digit_undigit {c : Char} {i : Nat} (h : undigit c = some i) : i < 64 ∧ digit i = c := by
  unfold undigit at h
  simp only at h
  by_cases hi : alphabet.idxOf c < 64
  · rw [if_pos hi] at h
    simp only [Option.some.injEq] at h
    subst h
    refine ⟨hi, ?_⟩
    have hl : alphabet.length = 64 := by decide +kernel
    unfold digit
    rw [List.getD_eq_getElem?_getD, List.getElem?_eq_getElem (by rw [hl]; exact hi)]
    simp
  · rw [if_neg hi] at h; cases h

theorem decode64_cons {p q r s t : Char} {l : Text} :
    decode64 (p :: q :: r :: s :: t :: l) =
      match undigit p, undigit q, undigit r, undigit s, decode64 (t :: l) with
      | some x, some y, some z, some w, some m => some ((x * 4 + y / 16) :: (y % 16 * 16 + z / 4) :: (z % 4 * 64 + w) :: m)
      | _, _, _, _, _ => none := by
  simp only [decode64]

/-- C199: base64 of bytes is read back. -/
theorem C199_base64 (b : Bytes) (hb : ∀ x ∈ b, x < 256) : decode64 (encode64 b) = some b := by
  fun_induction encode64 b with
  | case1 => rfl
  | case2 a =>
    have ha := hb a (by simp)
    simp only [decode64, decodeLast, undigit_digit (show a / 4 < 64 by omega), undigit_digit (show a % 4 * 16 < 64 by omega),
      and_self, if_true]
    rw [if_pos (by omega)]
    congr 2
    omega
  | case3 a b =>
    have ha := hb a (by simp)
    have hb' := hb b (by simp)
    simp only [decode64, decodeLast, undigit_digit (show a / 4 < 64 by omega),
      undigit_digit (show a % 4 * 16 + b / 16 < 64 by omega), digit_ne_pad (show b % 16 * 4 < 64 by omega), false_and,
      if_false, undigit_digit (show b % 16 * 4 < 64 by omega), if_true]
    rw [if_pos (by omega)]
    congr 2
    · omega
    · congr 1; omega
  | case4 a b c l ih =>
    have ha := hb a (by simp)
    have hb' := hb b (by simp)
    have hc := hb c (by simp)
    have ih' := ih fun x hx => hb x (by simp [hx])
    have e1 := undigit_digit (show a / 4 < 64 by omega)
    have e2 := undigit_digit (show a % 4 * 16 + b / 16 < 64 by omega)
    have e3 := undigit_digit (show b % 16 * 4 + c / 64 < 64 by omega)
    have e4 := undigit_digit (show c % 64 < 64 by omega)
    have a1 : a / 4 * 4 + (a % 4 * 16 + b / 16) / 16 = a := by omega
    have a2 : (a % 4 * 16 + b / 16) % 16 * 16 + (b % 16 * 4 + c / 64) / 4 = b := by omega
    have a3 : (b % 16 * 4 + c / 64) % 4 * 64 + c % 64 = c := by omega
    cases hl : encode64 l with
    | nil =>
      rw [hl] at ih'
      simp only [decode64, Option.some.injEq] at ih'
      subst ih'
      simp only [decode64, decodeLast, e1, e2, e3, e4, digit_ne_pad (show b % 16 * 4 + c / 64 < 64 by omega), false_and, if_false,
        digit_ne_pad (show c % 64 < 64 by omega), a1, a2, a3]
    | cons t m =>
      rw [hl] at ih'
      rw [decode64_cons, e1, e2, e3, e4, ih']
      dsimp only
      rw [a1, a2, a3]

theorem decodeLast_encode {p q r s : Char} {b : Bytes} (h : decodeLast p q r s = some b) :
    (∀ x ∈ b, x < 256) ∧ encode64 b = [p, q, r, s] := by
  unfold decodeLast at h
  cases hp : undigit p with
  | none => rw [hp] at h; cases h
  | some x =>
    cases hq : undigit q with
    | none => rw [hp, hq] at h; cases h
    | some y =>
      rw [hp, hq] at h
      obtain ⟨hx, rfl⟩ := digit_undigit hp
      obtain ⟨hy, rfl⟩ := digit_undigit hq
      dsimp only at h
      by_cases hpad : r = '=' ∧ s = '='
      · rw [if_pos hpad] at h
        obtain ⟨rfl, rfl⟩ := hpad
        by_cases hz : y % 16 = 0
        · rw [if_pos hz] at h
          simp only [Option.some.injEq] at h
          subst h
          refine ⟨?_, ?_⟩
          · intro w hw
            simp only [List.mem_singleton] at hw
            omega
          · have e1 : (x * 4 + y / 16) / 4 = x := by omega
            have e2 : (x * 4 + y / 16) % 4 * 16 = y := by omega
            simp only [encode64, e1, e2]
        · rw [if_neg hz] at h; cases h
      · rw [if_neg hpad] at h
        cases hr : undigit r with
        | none => rw [hr] at h; cases h
        | some z =>
          rw [hr] at h
          obtain ⟨hz, rfl⟩ := digit_undigit hr
          dsimp only at h
          by_cases hs : s = '='
          · rw [if_pos hs] at h
            subst hs
            by_cases hz4 : z % 4 = 0
            · rw [if_pos hz4] at h
              simp only [Option.some.injEq] at h
              subst h
              refine ⟨?_, ?_⟩
              · intro w hw
                simp only [List.mem_cons, List.not_mem_nil, or_false] at hw
                omega
              · have e1 : (x * 4 + y / 16) / 4 = x := by omega
                have e2 : (x * 4 + y / 16) % 4 * 16 + (y % 16 * 16 + z / 4) / 16 = y := by omega
                have e3 : (y % 16 * 16 + z / 4) % 16 * 4 = z := by omega
                simp only [encode64, e1, e2, e3]
            · rw [if_neg hz4] at h; cases h
          · rw [if_neg hs] at h
            cases hss : undigit s with
            | none => rw [hss] at h; cases h
            | some w =>
              rw [hss] at h
              obtain ⟨hw, rfl⟩ := digit_undigit hss
              simp only [Option.some.injEq] at h
              subst h
              refine ⟨?_, ?_⟩
              · intro w hw
                simp only [List.mem_cons, List.not_mem_nil, or_false] at hw
                omega
              · have e1 : (x * 4 + y / 16) / 4 = x := by omega
                have e2 : (x * 4 + y / 16) % 4 * 16 + (y % 16 * 16 + z / 4) / 16 = y := by omega
                have e3 : (y % 16 * 16 + z / 4) % 16 * 4 + (z % 4 * 64 + w) / 64 = z := by omega
                have e4 : (z % 4 * 64 + w) % 64 = w := by omega
                simp only [encode64, e1, e2, e3, e4]

/-- C199: what is read from base64 has been written just so: no two texts stand for the same bytes. -/
theorem C199_base64_canonical (t : Text) (b : Bytes) (h : decode64 t = some b) :
    (∀ x ∈ b, x < 256) ∧ encode64 b = t := by
  fun_induction decode64 t generalizing b with
  | case1 => simp only [Option.some.injEq] at h; subst h; exact ⟨by simp, rfl⟩
  | case2 p q r s => exact decodeLast_encode h
  | case3 p q r s l hl x y z w m hm hs hr hq hp ih =>
    simp only [Option.some.injEq] at h
    subst h
    obtain ⟨hx, rfl⟩ := digit_undigit hp
    obtain ⟨hy, rfl⟩ := digit_undigit hq
    obtain ⟨hz, rfl⟩ := digit_undigit hr
    obtain ⟨hw, rfl⟩ := digit_undigit hs
    obtain ⟨h1, h2⟩ := ih m hm
    refine ⟨?_, ?_⟩
    · intro v hv
      simp only [List.mem_cons] at hv
      rcases hv with rfl | rfl | rfl | hv
      · omega
      · omega
      · omega
      · exact h1 v hv
    · have e1 : (x * 4 + y / 16) / 4 = x := by omega
      have e2 : (x * 4 + y / 16) % 4 * 16 + (y % 16 * 16 + z / 4) / 16 = y := by omega
      have e3 : (y % 16 * 16 + z / 4) % 16 * 4 + (z % 4 * 64 + w) / 64 = z := by omega
      have e4 : (z % 4 * 64 + w) % 64 = w := by omega
      simp only [encode64, e1, e2, e3, e4, h2]
  | case4 => cases h
  | case5 => cases h

/-! ## Credentials -/

theorem splitColon_append {u p : Bytes} (h : colon ∉ u) : splitColon (u ++ colon :: p) = some (u, p) := by
  induction u with
  | nil => simp [splitColon]
  | cons a u ih =>
    simp only [List.mem_cons, not_or] at h
    simp only [List.cons_append, splitColon, if_neg (Ne.symm h.1), ih h.2, Option.map_some]

theorem splitColon_some {b u p : Bytes} (h : splitColon b = some (u, p)) : b = u ++ colon :: p ∧ colon ∉ u := by
  induction b generalizing u with
  | nil => cases h
  | cons a b ih =>
    simp only [splitColon] at h
    by_cases ha : a = colon
    · rw [if_pos ha] at h
      simp only [Option.some.injEq, Prod.mk.injEq] at h
      obtain ⟨rfl, rfl⟩ := h
      subst ha
      exact ⟨rfl, by simp⟩
    · rw [if_neg ha] at h
      cases hs : splitColon b with
      | none => rw [hs] at h; cases h
      | some x =>
        rw [hs] at h
        simp only [Option.map_some, Option.some.injEq, Prod.mk.injEq] at h
        obtain ⟨rfl, rfl⟩ := h
        obtain ⟨h1, h2⟩ := ih hs
        refine ⟨by rw [h1]; rfl, ?_⟩
        simp only [List.mem_cons, not_or]
        exact ⟨Ne.symm ha, h2⟩

/-- C199: a user whose name has no colon logs in with exactly the name, the password and the key that the client was
given.  (For other names see the refutation.) -/
theorem C199_credentials_partial (utf8 : Bytes → Bool) (u p : Bytes) (k : Option Bytes) (hu : colon ∉ u)
    (hb : ∀ x ∈ u ++ colon :: p, x < 256) (hv : utf8 (u ++ colon :: p) = true)
    (hk : ∀ b, k = some b → utf8 b = true ∧ ∀ x ∈ b, x < 256) :
    basicAuth utf8 (authorization u p) (k.map encode64) = .ok ⟨u, p, k⟩ := by
  have hkey : privateKey utf8 (k.map encode64) = .ok k := by
    cases k with
    | none => rfl
    | some b =>
      obtain ⟨h1, h2⟩ := hk b rfl
      simp only [Option.map_some, privateKey, C199_base64 b h2, h1, if_true]
  unfold basicAuth authorization
  rw [hkey]
  dsimp only
  rw [if_neg (by rw [List.length_append]; omega), if_neg (by rw [List.take_left]; simp), List.drop_left, C199_base64 _ hb]
  simp only [hv, if_true, splitColon_append hu]

/-- C199: what the server takes for credentials was sent as such: the header is the one that a client makes of the same
name, password and key. -/
theorem C199_only_sent (utf8 : Bytes → Bool) (auth : Text) (key : Option Text) (i : UserInfo)
    (h : basicAuth utf8 auth key = .ok i) :
    auth = authorization i.user i.password ∧ key = i.key.map encode64 ∧ colon ∉ i.user := by
  unfold basicAuth at h
  cases hk : privateKey utf8 key with
  | error e => rw [hk] at h; cases h
  | ok k =>
    rw [hk] at h
    dsimp only at h
    by_cases h1 : auth.length < basicPrefix.length
    · rw [if_pos h1] at h; cases h
    · rw [if_neg h1] at h
      by_cases h2 : auth.take basicPrefix.length ≠ basicPrefix
      · rw [if_pos h2] at h; cases h
      · rw [if_neg h2] at h
        simp only [ne_eq, Decidable.not_not] at h2
        cases hd : decode64 (auth.drop basicPrefix.length) with
        | none => rw [hd] at h; cases h
        | some b =>
          rw [hd] at h
          dsimp only at h
          cases hv : utf8 b with
          | false => rw [hv] at h; cases h
          | true =>
            rw [hv] at h
            simp only [if_true] at h
            cases hs : splitColon b with
            | none => rw [hs] at h; cases h
            | some x =>
              rw [hs] at h
              simp only [Except.ok.injEq] at h
              subst h
              obtain ⟨h3, h4⟩ := splitColon_some (u := x.1) (p := x.2) hs
              refine ⟨?_, ?_, h4⟩
              · unfold authorization
                dsimp only
                rw [← h3, (C199_base64_canonical _ _ hd).2]
                conv => lhs; rw [← List.take_append_drop basicPrefix.length auth, h2]
              · unfold privateKey at hk
                cases key with
                | none => simp only [Except.ok.injEq] at hk; subst hk; rfl
                | some t =>
                  dsimp only at hk
                  cases ht : decode64 t with
                  | none => rw [ht] at hk; cases hk
                  | some c =>
                    rw [ht] at hk
                    dsimp only at hk
                    split at hk
                    · simp only [Except.ok.injEq] at hk
                      subst hk
                      simp only [Option.map_some, (C199_base64_canonical _ _ ht).2]
                    · cases hk

/-- C199: different names, passwords or keys make different headers, as long as names have no colon. -/
theorem C199_no_confusion (u p u' p' : Bytes) (hu : colon ∉ u) (hu' : colon ∉ u')
    (hb : ∀ x ∈ u ++ colon :: p, x < 256) (hb' : ∀ x ∈ u' ++ colon :: p', x < 256)
    (h : authorization u p = authorization u' p') : u = u' ∧ p = p' := by
  unfold authorization at h
  have h1 := List.append_cancel_left h
  have h2 : some (u ++ colon :: p) = some (u' ++ colon :: p') := by rw [← C199_base64 _ hb, h1, C199_base64 _ hb']
  simp only [Option.some.injEq] at h2
  have h3 : some (u, p) = some (u', p') := by rw [← splitColon_append hu, h2, splitColon_append hu']
  simpa using h3

def bytes (s : String) : Bytes := s.toList.map Char.toNat

example : authorization (bytes "xx") (bytes "xx") = "Basic eHg6eHg=".toList := by decide +kernel
example : basicAuth (fun _ => true) "Basic eHg6eHgK".toList none = .ok ⟨bytes "xx", bytes "xx\n", none⟩ := by rfl
example : basicAuth (fun _ => true) "Basic eHg=".toList none = .error .parseAuth := by rfl
example : basicAuth (fun _ => true) "Basic eHg6eHh=".toList none = .error .parseAuth := by rfl
example : colon ∉ bytes "ann" ∧ ∀ x ∈ bytes "ann" ++ colon :: bytes "p:w", x < 256 := by decide +kernel

/-- C199, refuted: a user whose name has a colon is taken for another user. -/
theorem C199_colon_refuted :
    basicAuth (fun _ => true) (authorization (bytes "ann:x") (bytes "pw")) none = .ok ⟨bytes "ann", bytes "x:pw", none⟩ := by rfl

end Verif.Reply
