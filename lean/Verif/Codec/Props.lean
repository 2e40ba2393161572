import Verif.Codec.Base64
import Verif.Codec.Uuid
import Verif.Codec.Like
import Verif.Codec.Arith
/-!
# Property theorems: text codecs, LIKE and integer arithmetic (C06, C07, C33, C34, C40)
-/
namespace Verif.Codec
open Verif

/-! ## C06 -/

/-- **C06**: base64: decoding the encoding of any byte string is that string. -/
theorem C06_base64_roundtrip (s : Bytes) (h : IsBytes s) : decode std (encode std s) = .ok s := by
  simpa [decode, encode] using dec_enc std good_std s h 0 [] 0 rfl

/-- **C06**: the same for base64url. -/
theorem C06_base64url_roundtrip (s : Bytes) (h : IsBytes s) : decode url (encode url s) = .ok s := by
  simpa [decode, encode] using dec_enc url good_url s h 0 [] 0 rfl

example : IsBytes [0, 255, 16, 7] := by simp [IsBytes]

/-- RFC 4648, section 4: three bytes are one 24 bit number, written as four digits to the base 64; the last one or two bytes are filled up with zero
bits and, in the padded form, with '='. `ch` is the alphabet -/
def rfc4648 (ch : Nat → Nat) (padding : Bool) : Bytes → Bytes
  | a :: b :: c :: t =>
    let n := a * 65536 + b * 256 + c
    ch (n / 262144) :: ch (n / 4096 % 64) :: ch (n / 64 % 64) :: ch (n % 64) :: rfc4648 ch padding t
  | [a, b] => let n := (a * 256 + b) * 4; [ch (n / 4096), ch (n / 64 % 64), ch (n % 64)] ++ if padding then [61] else []
  | [a] => let n := a * 16; [ch (n / 64), ch (n % 64)] ++ if padding then [61, 61] else []
  | [] => []

/-- RFC 4648, table 1: 0-25 A-Z, 26-51 a-z, 52-61 0-9, and the two characters of the alphabet (table 2 for the URL safe one) -/
def rfcChar (c62 c63 i : Nat) : Nat :=
  if i < 26 then 65 + i else if i < 52 then 97 + (i - 26) else if i < 62 then 48 + (i - 52) else if i = 62 then c62 else c63

theorem enc_rfc (A : Alphabet) (ch : Nat → Nat) (hA : ∀ i, i < 64 → A.e i = ch i) : (s : Bytes) → IsBytes s → encLoop A 0 0 s = rfc4648 ch A.pad s
  | [], _ => by simp [encLoop, rfc4648]
  | [a], hb => by
    have ha : a < 256 := hb a (by simp)
    simp only [encLoop, rfc4648, if_true, if_false, Nat.one_ne_zero, Nat.zero_ne_one]
    simp only [and3, and15, and63, Nat.shiftRight_eq_div_pow, Nat.shiftLeft_eq]
    rw [hA _ (by omega), hA _ (by omega)]
    have e1 : a / 2 ^ 2 % 64 = a * 16 / 64 := by omega
    have e2 : a % 4 * 2 ^ 4 = a * 16 % 64 := by omega
    rw [e1, e2]; rfl
  | [a, b], hb => by
    have ha : a < 256 := hb a (by simp)
    have hb' : b < 256 := hb b (by simp)
    simp only [encLoop, rfc4648, if_true, if_false, Nat.one_ne_zero, Nat.zero_ne_one, Nat.reduceEqDiff]
    simp only [and3, and15, and63, Nat.shiftRight_eq_div_pow, Nat.shiftLeft_eq]
    rw [or_shl _ _ _ (by omega)]
    rw [hA _ (by omega), hA _ (by omega), hA _ (by omega)]
    have e1 : a / 2 ^ 2 % 64 = (a * 256 + b) * 4 / 4096 := by omega
    have e2 : a % 4 * 2 ^ 4 + b / 2 ^ 4 % 16 = (a * 256 + b) * 4 / 64 % 64 := by omega
    have e3 : b % 16 * 2 ^ 2 = (a * 256 + b) * 4 % 64 := by omega
    rw [e1, e2, e3]; rfl
  | a :: b :: c :: t, hb => by
    have ha : a < 256 := hb a (by simp)
    have hb' : b < 256 := hb b (by simp)
    have hc : c < 256 := hb c (by simp)
    have ih := enc_rfc A ch hA t (fun x hx => hb x (by simp [hx]))
    simp only [encLoop, rfc4648, if_true, if_false, Nat.one_ne_zero, Nat.zero_ne_one, Nat.reduceEqDiff]
    simp only [and3, and15, and63, Nat.shiftRight_eq_div_pow, Nat.shiftLeft_eq]
    rw [or_shl _ _ _ (by omega), or_shl _ _ _ (by omega)]
    rw [hA _ (by omega), hA _ (by omega), hA _ (by omega), hA _ (by omega), encLoop0, ih]
    have e1 : a / 2 ^ 2 % 64 = (a * 65536 + b * 256 + c) / 262144 := by omega
    have e2 : a % 4 * 2 ^ 4 + b / 2 ^ 4 % 16 = (a * 65536 + b * 256 + c) / 4096 % 64 := by omega
    have e3 : b % 16 * 2 ^ 2 + c / 2 ^ 6 % 4 = (a * 65536 + b * 256 + c) / 64 % 64 := by omega
    have e4 : c % 64 = (a * 65536 + b * 256 + c) % 64 := by omega
    rw [e1, e2, e3, e4]

/-- **C06**: the text produced is the one defined by RFC 4648: base64 with padding, and base64url without, so that other programs can read it. -/
theorem C06_text_rfc4648 (s : Bytes) (h : IsBytes s) :
    encode std s = rfc4648 (rfcChar 43 47) true s ∧ encode url s = rfc4648 (rfcChar 45 95) false s :=
  ⟨enc_rfc std _ (by decide) s h, enc_rfc url _ (by decide) s h⟩

example : encode std [77, 97] = [84, 87, 69, 61] := by decide

/-- the characters of the standard alphabet, as text: A-Z a-z 0-9 + / (independent of the tables) -/
def isStdChar (c : Nat) : Bool :=
  (65 ≤ c && c ≤ 90) || (97 ≤ c && c ≤ 122) || (48 ≤ c && c ≤ 57) || c = 43 || c = 47
/-- A-Z a-z 0-9 - _ -/
def isUrlChar (c : Nat) : Bool :=
  (65 ≤ c && c ≤ 90) || (97 ≤ c && c ≤ 122) || (48 ≤ c && c ≤ 57) || c = 45 || c = 95

theorem std_char : ∀ c, isStdChar c = true → ∃ i, i < 64 ∧ std.e i = c := by
  intro c h
  have hc : c < 128 := by simp [isStdChar] at h; omega
  have : ∀ c, c < 128 → isStdChar c = true → std.dec.getD c 0 < 64 ∧ std.e (std.dec.getD c 0) = c := by decide
  exact ⟨_, this c hc h⟩
theorem url_char : ∀ c, isUrlChar c = true → ∃ i, i < 64 ∧ url.e i = c := by
  intro c h
  have hc : c < 128 := by simp [isUrlChar] at h; omega
  have : ∀ c, c < 128 → isUrlChar c = true → url.dec.getD c 0 < 64 ∧ url.e (url.dec.getD c 0) = c := by decide
  exact ⟨_, this c hc h⟩

theorem chars_map {A : Alphabet} {P : Nat → Bool} (h : ∀ c, P c = true → ∃ i, i < 64 ∧ A.e i = c) :
    ∀ (l : Bytes), (∀ c ∈ l, P c = true) → ∃ is : List Nat, (∀ i ∈ is, i < 64) ∧ is.map A.e = l
  | [], _ => ⟨[], by simp, rfl⟩
  | c :: l, hl => by
    obtain ⟨i, hi, he⟩ := h c (hl c (by simp))
    obtain ⟨is, h1, h2⟩ := chars_map h l (fun x hx => hl x (by simp [hx]))
    exact ⟨i :: is, by simp [hi]; exact h1, by simp [he, h2]⟩

/-- **C06**: a 7-bit character outside of the alphabet (other than '=', which ends base64 text) makes decoding
fail with an error, wherever it is. -/
theorem C06_base64_rejects_ascii (good : Bytes) (hg : ∀ c ∈ good, isStdChar c = true) (c : Nat) (hc : c < 128)
    (hn : isStdChar c = false) (he : c ≠ 61) (rest : Bytes) :
    decode std (good ++ c :: rest) = .error .err := by
  obtain ⟨is, h1, rfl⟩ := chars_map std_char good hg
  have : ∀ c, c < 128 → isStdChar c = false → c ≠ 61 → std.dec[c]? = some 255 := by decide
  exact dec_foreign std good_std c (this c hc hn he) (fun _ => he) rest is h1 0 [] 0

/-- **C06**: the same for base64url ('=' included). -/
theorem C06_base64url_rejects_ascii (good : Bytes) (hg : ∀ c ∈ good, isUrlChar c = true) (c : Nat) (hc : c < 128)
    (hn : isUrlChar c = false) (rest : Bytes) :
    decode url (good ++ c :: rest) = .error .err := by
  obtain ⟨is, h1, rfl⟩ := chars_map url_char good hg
  have : ∀ c, c < 128 → isUrlChar c = false → url.dec[c]? = some 255 := by decide
  exact dec_foreign url good_url c (this c hc hn) (by simp [url]) rest is h1 0 [] 0

example : (∀ c ∈ ([97, 66, 47] : Bytes), isStdChar c = true) ∧ isStdChar 33 = false := by decide

/-- **C06** (violated): a character of 128 or above reads past the end of the 128-entry table instead of
being rejected; for both decoders and at any position after valid characters. -/
theorem C06_high_byte_false (good : Bytes) (hg : ∀ c ∈ good, isUrlChar c = true ∧ isStdChar c = true) (c : Nat) (hc : 128 ≤ c)
    (rest : Bytes) : decode std (good ++ c :: rest) = .error .ub ∧ decode url (good ++ c :: rest) = .error .ub := by
  have key : ∀ (A : Alphabet), Good A → A.dec.length = 128 → (is : List Nat) → (∀ i ∈ is, i < 64) →
      ∀ order out cur, decLoop A order out cur (is.map A.e ++ c :: rest) = .error .ub := by
    intro A hA hl is
    induction is with
    | nil =>
      intro _ order out cur
      simp only [List.map_nil, List.nil_append, decLoop]
      rw [if_neg (by rintro ⟨_, h⟩; omega), List.getElem?_eq_none (by omega)]
    | cons i is ih =>
      intro h order out cur
      simp only [List.map_cons, List.cons_append]
      rw [decLoop_step A hA _ _ (h i (by simp))]
      have ih := ih (fun x hx => h x (by simp [hx]))
      split <;> exact ih _ _ _
  constructor
  · obtain ⟨is, h1, rfl⟩ := chars_map std_char good (fun c hc => (hg c hc).2)
    exact key std good_std rfl is h1 0 [] 0
  · obtain ⟨is, h1, rfl⟩ := chars_map url_char good (fun c hc => (hg c hc).1)
    exact key url good_url rfl is h1 0 [] 0

/-! ## C07 -/

/-- **C07**: printing a UUID and parsing the text (whatever follows it) gives the same UUID, whatever the
destination held before. -/
theorem C07_uuid_roundtrip (u u0 : Uuid) (h : u.Valid) (rest : Bytes) : uuidSet u0 (uuidGet u ++ rest) = some u := by
  rw [uuidSet_canon u0 _ _ _ _ _ _ _ rest (uuidGet_canon u)]
  obtain ⟨h1, h2, h3, h4, h5, h6⟩ := h
  simp only [(hexN_spec _ _).2.2]
  rw [show (16 : Nat) ^ 8 = 2 ^ 32 by rfl, show (16 : Nat) ^ 4 = 2 ^ 16 by rfl]
  simp only [Nat.mod_eq_of_lt h1, Nat.mod_eq_of_lt h2, Nat.mod_eq_of_lt h3, Nat.mod_eq_of_lt h4,
    Nat.mod_eq_of_lt h5, Nat.mod_eq_of_lt h6]

example : (⟨0x01020304, 0xFFFF, 0, 1, 2, 0xFFFFFFFF⟩ : Uuid).Valid := by simp [Uuid.Valid]

/-- **C07**: a text is accepted exactly when its first 36 characters have dashes at 8, 13, 18, 23 and
hexadecimal digits (of either case) elsewhere. -/
theorem C07_uuid_accepts_iff (u0 : Uuid) (s : Bytes) :
    (∃ u, uuidSet u0 s = some u) ↔
      36 ≤ s.length ∧ ∀ k c, s[k]? = some c → k < 36 →
        (if k = 8 ∨ k = 13 ∨ k = 18 ∨ k = 23 then c = 45 else IsHex c) := by
  constructor
  · rintro ⟨u, h⟩
    unfold uuidSet at h
    split at h
    · simp at h
    · refine ⟨by omega, ?_⟩
      intro k c hk hk'
      have := uuidLoop_some s 0 0 u0 u h (by omega) k c hk (by omega)
      simpa using this
  · rintro ⟨hl, h⟩
    have hcan : Canon (s.take 36) (s.take 8) ((s.drop 9).take 4) ((s.drop 14).take 4) ((s.drop 19).take 4)
        ((s.drop 24).take 4) ((s.drop 28).take 8) := by
      have dash : ∀ k, (k = 8 ∨ k = 13 ∨ k = 18 ∨ k = 23) → s[k]? = some 45 := by
        intro k hk
        have hlt : k < s.length := by omega
        have := h k s[k] (List.getElem?_eq_getElem hlt) (by omega)
        rw [if_pos hk] at this
        rw [List.getElem?_eq_getElem hlt, this]
      have hex : ∀ a n, a + n ≤ 36 → (∀ k, a ≤ k → k < a + n → ¬ (k = 8 ∨ k = 13 ∨ k = 18 ∨ k = 23)) →
          ∀ c ∈ (s.drop a).take n, IsHex c := by
        intro a n h1 h2 c hc
        obtain ⟨i, hi⟩ := List.mem_iff_getElem?.mp hc
        rw [List.getElem?_take] at hi
        split at hi
        · rw [List.getElem?_drop] at hi
          have := h (a + i) c hi (by omega)
          rwa [if_neg (h2 (a + i) (by omega) (by omega))] at this
        · simp at hi
      refine ⟨?_, ?_, by simp; omega, by simp; omega, by simp; omega, by simp; omega, by simp; omega, by simp; omega⟩
      · apply List.ext_getElem?
        intro k
        simp only [List.getElem?_append, List.getElem?_take, List.getElem?_drop, List.length_append, List.length_take,
          List.length_drop, List.length_cons, List.length_nil]
        have m8 : min 8 s.length = 8 := by omega
        have m1 : min 4 (s.length - 9) = 4 := by omega
        have m2 : min 4 (s.length - 14) = 4 := by omega
        have m3 : min 4 (s.length - 19) = 4 := by omega
        have m4 : min 4 (s.length - 24) = 4 := by omega
        simp only [m8, m1, m2, m3, m4]
        by_cases hk : k < 36
        · have : k = 8 ∨ k = 13 ∨ k = 18 ∨ k = 23 ∨ k < 8 ∨ (9 ≤ k ∧ k < 13) ∨ (14 ≤ k ∧ k < 18) ∨
            (19 ≤ k ∧ k < 23) ∨ (24 ≤ k ∧ k < 28) ∨ (28 ≤ k) := by omega
          rw [if_pos hk]
          rcases this with rfl | rfl | rfl | rfl | g | g | g | g | g | g
          · simp [dash 8]
          · simp [dash 13]
          · simp [dash 18]
          · simp [dash 23]
          · repeat (first | rw [if_pos (by omega)] | rw [if_neg (by omega)])
          · repeat (first | rw [if_pos (by omega)] | rw [if_neg (by omega)])
            congr 1; omega
          · repeat (first | rw [if_pos (by omega)] | rw [if_neg (by omega)])
            congr 1; omega
          · repeat (first | rw [if_pos (by omega)] | rw [if_neg (by omega)])
            congr 1; omega
          · repeat (first | rw [if_pos (by omega)] | rw [if_neg (by omega)])
            congr 1; omega
          · repeat (first | rw [if_pos (by omega)] | rw [if_neg (by omega)])
            congr 1; omega
        · rw [if_neg hk]
          repeat (first | rw [if_pos (by omega)] | rw [if_neg (by omega)])
      · intro c hc
        simp only [List.mem_append] at hc
        rcases hc with ((((hc | hc) | hc) | hc) | hc) | hc
        · exact hex 0 8 (by omega) (by intro k; omega) c (by simpa using hc)
        · exact hex 9 4 (by omega) (by intro k; omega) c hc
        · exact hex 14 4 (by omega) (by intro k; omega) c hc
        · exact hex 19 4 (by omega) (by intro k; omega) c hc
        · exact hex 24 4 (by omega) (by intro k; omega) c hc
        · exact hex 28 8 (by omega) (by intro k; omega) c hc
    have := uuidSet_canon u0 _ _ _ _ _ _ _ (s.drop 36) hcan
    rw [List.take_append_drop] at this
    exact ⟨_, this⟩

/-- **C07** (violated part): a longer text with anything after the 36 characters is accepted too. -/
theorem C07_length_false : ∃ s : Bytes, s.length ≠ 36 ∧ ∃ u, uuidSet ⟨0, 0, 0, 0, 0, 0⟩ s = some u := by
  refine ⟨uuidGet ⟨1, 2, 3, 4, 5, 6⟩ ++ [33], ?_, ⟨1, 2, 3, 4, 5, 6⟩, C07_uuid_roundtrip _ _ (by simp [Uuid.Valid]) _⟩
  simp [uuidGet, (hexN_spec _ _).1]

/-! ## C33 -/

open Like in
/-- **C33**: soundness: for every pattern in which % is not directly followed by _, `LIKE` is true only for
strings that match.  Strings and patterns are arbitrary sequences of UTF-8 characters. -/
theorem C33_like_sound (ts : List Tok) (ht : ∀ t ∈ ts, t.OK) (hn : noAnyOne ts = true)
    (cs : List Bytes) (hc : ∀ c ∈ cs, UChar c) (h : like cs.flatten ((ts.map Tok.text).flatten) = .ok true) :
    Match ts cs := by
  have := like_eq ts ht cs hc _ (Nat.le_refl _)
  unfold like at h
  rw [show (ts.map Tok.text).flatten = ptext ts by rfl, this] at h
  exact likeT_sound ts hn cs (by simpa using h)

open Like in
/-- **C33**, the part that holds exactly: for patterns without %, prefix patterns `abc%` and, in general,
patterns whose part after the first % is single characters separated by % and ends with %, the result is
true exactly for the strings that match (and it is always a result, never an error).  Missing: patterns with
two or more characters after a %, or not ending with %, where the search does not backtrack. -/
theorem C33_like_exact_partial (ts : List Tok) (ht : ∀ t ∈ ts, t.OK) (hs : simple ts = true)
    (cs : List Bytes) (hc : ∀ c ∈ cs, UChar c) :
    ∃ b, like cs.flatten ((ts.map Tok.text).flatten) = .ok b ∧ (b = true ↔ Match ts cs) := by
  refine ⟨likeT ts cs, like_eq ts ht cs hc _ (Nat.le_refl _), ?_⟩
  exact ⟨likeT_sound ts (simple_noAnyOne ts hs) cs, likeT_complete ts hs cs⟩

open Like in
/-- **C33** (violated, completeness): 'abab' LIKE '%ab' is false although it matches. -/
theorem C33_like_no_backtrack_false :
    like [97, 98, 97, 98] [37, 97, 98] = .ok false ∧
    Match [.any, .lit false [97], .lit false [98]] [[97], [98], [97], [98]] :=
  ⟨by decide, .anyS (.anyS (.any0 (.lit (.lit .nil))))⟩

open Like in
/-- **C33** (violated, soundness): '' LIKE '%_' is true although it does not match. -/
theorem C33_like_any_one_false : like [] [37, 95] = .ok true ∧ ¬ Match [.any, .one] [] := by
  refine ⟨by decide, ?_⟩
  intro h
  cases h with
  | any0 h => cases h

open Like in
example : simple [.lit false [97], .one, .lit true [37], .any] = true ∧
    (∀ t ∈ [Tok.lit false [97], .one, .lit true [37], .any], t.OK) := by
  refine ⟨by decide, ?_⟩
  intro t ht
  simp only [List.mem_cons, List.not_mem_nil, or_false] at ht
  rcases ht with rfl | rfl | rfl | rfl
  · exact ⟨Or.inl ⟨97, by omega, rfl⟩, by simp⟩
  · trivial
  · exact ⟨Or.inl ⟨37, by omega, rfl⟩, by simp⟩
  · trivial

/-! ## C34 -/

open Arith in
/-- **C34**: addition, subtraction and multiplication return the exact mathematical result when it fits in 64
bits and an error otherwise. -/
theorem C34_add_sub_mul (a b : Int) :
    (cadd a b = if I64 (a + b) then .ok (a + b) else .error .err) ∧
    (csub a b = if I64 (a - b) then .ok (a - b) else .error .err) ∧
    (cmul a b = if I64 (a * b) then .ok (a * b) else .error .err) := by
  unfold cadd csub cmul
  rw [add_spec, sub_spec, mul_spec]
  refine ⟨?_, ?_, ?_⟩
  · by_cases h : I64 (a + b) <;> simp [h]
  · by_cases h : I64 (a - b) <;> simp [h]
  · by_cases h : I64 (a * b) <;> simp [h]

open Arith in
/-- **C34**, division and modulo: exact truncated quotient and remainder for 64-bit operands, an error for a
zero divisor.  Missing (violated, see below): -2^63 with divisor -1. -/
theorem C34_div_mod_partial (a b : Int) (ha : I64 a) (h : ¬ (a = -(2 ^ 63) ∧ b = -1)) :
    (cdiv a b = if b = 0 then .error .err else .ok (a.tdiv b)) ∧
    (cmod a b = if b = 0 then .error .err else .ok (a.tmod b)) ∧
    (b ≠ 0 → I64 (a.tdiv b) ∧ a = b * (a.tdiv b) + a.tmod b) := by
  refine ⟨?_, ?_, ?_⟩
  · unfold cdiv cdivOp
    by_cases hb : b = 0
    · simp [hb]
    · rw [if_neg hb, if_neg hb, if_neg (fun x => x.elim hb h)]
  · unfold cmod cmodOp
    by_cases hb : b = 0
    · simp [hb]
    · rw [if_neg hb, if_neg hb, if_neg (fun x => x.elim hb h)]
  · intro hb
    refine ⟨?_, (Int.mul_tdiv_add_tmod a b).symm⟩
    have h1 : (a.tdiv b).natAbs = a.natAbs / b.natAbs := Int.natAbs_tdiv a b
    unfold I64 at ha ⊢
    have h2 : a.natAbs / b.natAbs ≤ a.natAbs := Nat.div_le_self _ _
    by_cases hb1 : b.natAbs = 1
    · rcases Int.natAbs_eq b with e | e <;> rw [hb1] at e
      · simp at e; subst e; simp; omega
      · simp at e; subst e
        have : a ≠ -(2 ^ 63) := fun e => h ⟨e, rfl⟩
        simp [Int.tdiv_neg]; omega
    · have hb2 : 2 ≤ b.natAbs := by omega
      have : a.natAbs / b.natAbs ≤ a.natAbs / 2 := Nat.div_le_div_left hb2 (by omega)
      omega

open Arith in
/-- **C34** (violated): -2^63 / -1, -2^63 % -1, -(-2^63) and abs(-2^63) are not errors but undefined behaviour. -/
theorem C34_min_false : cdiv (-(2 ^ 63)) (-1) = .error .ub ∧ cmod (-(2 ^ 63)) (-1) = .error .ub ∧
    cneg (-(2 ^ 63)) = .error .ub ∧ fnAbs (-(2 ^ 63)) = .error .ub := by
  decide

open Arith in
/-- **C34**, negation and absolute value for every other integer. -/
theorem C34_neg_abs_partial (a : Int) (ha : I64 a) (h : a ≠ -(2 ^ 63)) :
    cneg a = .ok (-a) ∧ I64 (-a) ∧ fnAbs a = .ok (a.natAbs : Int) := by
  unfold cneg fnAbs I64 at *
  refine ⟨if_neg h, by omega, ?_⟩
  rw [if_neg h]
  congr 1
  split <;> omega

open Arith in
example : I64 (2 ^ 63 - 1) ∧ ¬ I64 (2 ^ 63 - 1 + 1) := by decide

/-! ## C40 -/

open Arith in
/-- **C40**: casting text to an integer: a text of digits gives its decimal value when it is below 2^63 and is
rejected otherwise; a text with any other character is rejected. -/
theorem C40_text_to_int (s : Bytes) :
    strToInt s = if (∀ c ∈ s, 48 ≤ c ∧ c ≤ 57) ∧ digitsValue s < 2 ^ 63 then some (digitsValue s : Int) else none := by
  unfold strToInt
  by_cases h : ∀ c ∈ s, 48 ≤ c ∧ c ≤ 57
  · by_cases h2 : digitsValue s < 2 ^ 63
    · rw [if_pos ⟨h, h2⟩]
      exact strToIntLoop_ok s 0 h h2
    · rw [if_neg (fun x => h2 x.2)]
      exact strToIntLoop_over s 0 h (by omega) (Nat.le_of_not_lt h2)
  · rw [if_neg (fun x => h x.1)]
    apply strToIntLoop_nondigit
    exact Classical.not_forall.mp h |>.elim fun c hc => ⟨c, Classical.not_imp.mp hc |>.1, Classical.not_imp.mp hc |>.2⟩

open Arith in
example : strToInt [57, 50, 50, 51, 51, 55, 50, 48, 51, 54, 56, 53, 52, 55, 55, 53, 56, 48, 55] = some (2 ^ 63 - 1) := by decide

/-- **C40** (violated): a negative number printed as text cannot be cast back, and the empty text is 0. -/
theorem C40_negative_and_empty_false : Arith.strToInt [45, 49] = none ∧ Arith.strToInt [] = some 0 := by decide

end Verif.Codec
