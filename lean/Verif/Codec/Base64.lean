import Verif.Common
set_option linter.unusedSimpArgs false
/-!
# base64.c and base64url.c (runtime/lib)

The two files differ in the alphabet, in the padding and in the treatment of '='; both are instances of one
parametrised model.
-/
namespace Verif.Codec
open Verif

structure Alphabet where
  /-- base64_encode_table, 64 characters -/
  enc : List Nat
  /-- base64_decode_table, 128 entries, 255 = not in the alphabet -/
  dec : List Nat
  /-- padding with '=' and stop at '=' -/
  pad : Bool

/-- base64_encode_table / base64_decode_table, runtime/lib/base64.c:18-50 -/
def std : Alphabet where
  enc := [65, 66, 67, 68, 69, 70, 71, 72, 73, 74, 75, 76, 77, 78, 79, 80, 81, 82, 83, 84, 85, 86, 87, 88, 89, 90,
    97, 98, 99, 100, 101, 102, 103, 104, 105, 106, 107, 108, 109, 110, 111, 112, 113, 114, 115, 116, 117, 118, 119, 120, 121, 122,
    48, 49, 50, 51, 52, 53, 54, 55, 56, 57, 43, 47]
  dec := [255, 255, 255, 255, 255, 255, 255, 255,  255, 255, 255, 255, 255, 255, 255, 255,
    255, 255, 255, 255, 255, 255, 255, 255,  255, 255, 255, 255, 255, 255, 255, 255,
    255, 255, 255, 255, 255, 255, 255, 255,  255, 255, 255,  62, 255, 255, 255,  63,
     52,  53,  54,  55,  56,  57,  58,  59,   60,  61, 255, 255, 255, 255, 255, 255,
    255,   0,   1,   2,   3,   4,   5,   6,    7,   8,   9,  10,  11,  12,  13,  14,
     15,  16,  17,  18,  19,  20,  21,  22,   23,  24,  25, 255, 255, 255, 255, 255,
    255,  26,  27,  28,  29,  30,  31,  32,   33,  34,  35,  36,  37,  38,  39,  40,
     41,  42,  43,  44,  45,  46,  47,  48,   49,  50,  51, 255, 255, 255, 255, 255]
  pad := true

/-- base64url_encode_table / base64url_decode_table, runtime/lib/base64url.c:18-82 -/
def url : Alphabet where
  enc := [65, 66, 67, 68, 69, 70, 71, 72, 73, 74, 75, 76, 77, 78, 79, 80, 81, 82, 83, 84, 85, 86, 87, 88, 89, 90,
    97, 98, 99, 100, 101, 102, 103, 104, 105, 106, 107, 108, 109, 110, 111, 112, 113, 114, 115, 116, 117, 118, 119, 120, 121, 122,
    48, 49, 50, 51, 52, 53, 54, 55, 56, 57, 45, 95]
  dec := [255, 255, 255, 255, 255, 255, 255, 255,  255, 255, 255, 255, 255, 255, 255, 255,
    255, 255, 255, 255, 255, 255, 255, 255,  255, 255, 255, 255, 255, 255, 255, 255,
    255, 255, 255, 255, 255, 255, 255, 255,  255, 255, 255, 255, 255,  62, 255, 255,
     52,  53,  54,  55,  56,  57,  58,  59,   60,  61, 255, 255, 255, 255, 255, 255,
    255,   0,   1,   2,   3,   4,   5,   6,    7,   8,   9,  10,  11,  12,  13,  14,
     15,  16,  17,  18,  19,  20,  21,  22,   23,  24,  25, 255, 255, 255, 255,  63,
    255,  26,  27,  28,  29,  30,  31,  32,   33,  34,  35,  36,  37,  38,  39,  40,
     41,  42,  43,  44,  45,  46,  47,  48,   49,  50,  51, 255, 255, 255, 255, 255]
  pad := false

/-- table lookup; the index is always below 64 here -/
def Alphabet.e (A : Alphabet) (i : Nat) : Nat := A.enc.getD i 0

/-- the loop and the final switch of base64_encode, base64.c:52-92 / base64url.c:84-122 -/
def encLoop (A : Alphabet) : Nat → Nat → Bytes → Bytes
  | state, last, [] =>
    if state = 1 then A.e ((last &&& 0x03) <<< 4) :: (if A.pad then [61, 61] else [])
    else if state = 2 then A.e ((last &&& 0x0F) <<< 2) :: (if A.pad then [61] else [])
    else []
  | state, last, c :: t =>
    if state = 0 then A.e ((c >>> 2) &&& 0x3F) :: encLoop A 1 c t
    else if state = 1 then A.e (((last &&& 0x03) <<< 4) ||| ((c >>> 4) &&& 0x0F)) :: encLoop A 2 c t
    else A.e (((last &&& 0x0F) <<< 2) ||| ((c >>> 6) &&& 0x03)) :: A.e (c &&& 0x3F) :: encLoop A 0 c t

/-- base64_encode / base64url_encode -/
def encode (A : Alphabet) (s : Bytes) : Bytes := encLoop A 0 0 s

/-- the loop of base64_decode, base64.c:94-140 / base64url.c:124-166.  `out` = bytes below out_order, `cur` =
out[out_order].  A table index of 128 or more is a read past the end of the 128-entry table: `ub`. -/
def decLoop (A : Alphabet) : Nat → Bytes → Nat → Bytes → Res Bytes
  | _, out, _, [] => .ok out
  | order, out, cur, ch :: t =>
    if A.pad = true ∧ ch = 61 then .ok out
    else match A.dec[ch]? with
      | none => .error .ub
      | some c =>
        if c = 255 then .error .err
        else match order &&& 0x03 with
          | 0 => decLoop A (order + 1) out ((c <<< 2) &&& 0xFF) t
          | 1 => decLoop A (order + 1) (out ++ [cur ||| ((c >>> 4) &&& 0x03)]) ((c &&& 0x0F) <<< 4) t
          | 2 => decLoop A (order + 1) (out ++ [cur ||| ((c >>> 2) &&& 0x0F)]) ((c &&& 0x03) <<< 6) t
          | _ => decLoop A (order + 1) (out ++ [cur ||| c]) cur t

/-- base64_decode / base64url_decode -/
def decode (A : Alphabet) (s : Bytes) : Res Bytes := decLoop A 0 [] 0 s

/-! ## proofs -/

/-- what is needed of an alphabet: the decode table inverts the encode table -/
def Good (A : Alphabet) : Prop := ∀ i, i < 64 → A.dec[A.e i]? = some i ∧ A.e i ≠ 61

theorem good_std : Good std := by unfold Good; decide
theorem good_url : Good url := by unfold Good; decide

theorem and3 (x : Nat) : x &&& 3 = x % 4 := Nat.and_two_pow_sub_one_eq_mod x 2
theorem and15 (x : Nat) : x &&& 15 = x % 16 := Nat.and_two_pow_sub_one_eq_mod x 4
theorem and63 (x : Nat) : x &&& 63 = x % 64 := Nat.and_two_pow_sub_one_eq_mod x 6
theorem and255 (x : Nat) : x &&& 255 = x % 256 := Nat.and_two_pow_sub_one_eq_mod x 8

theorem or_shl (k a b : Nat) (h : b < 2 ^ k) : a * 2 ^ k ||| b = a * 2 ^ k + b := by
  rw [← Nat.shiftLeft_eq, Nat.shiftLeft_add_eq_or_of_lt h]

theorem decLoop_step (A : Alphabet) (hA : Good A) (order i : Nat) (hi : i < 64) (out : Bytes) (cur : Nat) (t : Bytes) :
    decLoop A order out cur (A.e i :: t) = (match order % 4 with
          | 0 => decLoop A (order + 1) out ((i <<< 2) &&& 0xFF) t
          | 1 => decLoop A (order + 1) (out ++ [cur ||| ((i >>> 4) &&& 0x03)]) ((i &&& 0x0F) <<< 4) t
          | 2 => decLoop A (order + 1) (out ++ [cur ||| ((i >>> 2) &&& 0x0F)]) ((i &&& 0x03) <<< 6) t
          | _ => decLoop A (order + 1) (out ++ [cur ||| i]) cur t) := by
  obtain ⟨h1, h2⟩ := hA i hi
  rw [decLoop]
  rw [if_neg (by simp [h2]), h1]
  simp only
  rw [if_neg (by omega), and3]

theorem encLoop0 (A : Alphabet) (l : Nat) (s : Bytes) : encLoop A 0 l s = encLoop A 0 0 s := by
  cases s <;> simp [encLoop]

theorem dec_enc (A : Alphabet) (hA : Good A) : ∀ (s : Bytes), IsBytes s → ∀ (order : Nat) (out : Bytes) (cur : Nat),
    order % 4 = 0 → decLoop A order out cur (encLoop A 0 0 s) = .ok (out ++ s)
  | [], _, order, out, cur, ho => by simp [encLoop, decLoop]
  | [a], hb, order, out, cur, ho => by
    have ha : a < 256 := hb a (by simp)
    simp only [encLoop, if_true, if_false, Nat.one_ne_zero, Nat.zero_ne_one]
    simp only [and3, and15, and63, Nat.shiftRight_eq_div_pow, Nat.shiftLeft_eq]
    rw [decLoop_step A hA _ _ (by omega), ho]
    simp only
    rw [decLoop_step A hA _ _ (by omega), show (order + 1) % 4 = 1 by omega]
    simp only [and3, and15, and63, and255, Nat.shiftRight_eq_div_pow, Nat.shiftLeft_eq]
    have e1 : (a / 2 ^ 2 % 64 * 2 ^ 2) % 256 = (a / 4 % 64) * 2 ^ 2 := by omega
    rw [e1, or_shl _ _ _ (by omega)]
    have e2 : a / 4 % 64 * 2 ^ 2 + a % 4 * 2 ^ 4 / 2 ^ 4 % 4 = a := by omega
    rw [e2]
    cases h : A.pad <;> simp_all [decLoop]
  | [a, b], hb, order, out, cur, ho => by
    have ha : a < 256 := hb a (by simp)
    have hb' : b < 256 := hb b (by simp)
    simp only [encLoop, if_true, if_false, Nat.one_ne_zero, Nat.zero_ne_one, Nat.reduceEqDiff]
    simp only [and3, and15, and63, Nat.shiftRight_eq_div_pow, Nat.shiftLeft_eq]
    rw [or_shl _ _ _ (by omega)]
    rw [decLoop_step A hA _ _ (by omega), ho]
    simp only
    rw [decLoop_step A hA _ _ (by omega), show (order + 1) % 4 = 1 by omega]
    simp only
    rw [decLoop_step A hA _ _ (by omega), show (order + 1 + 1) % 4 = 2 by omega]
    simp only [and3, and15, and63, and255, Nat.shiftRight_eq_div_pow, Nat.shiftLeft_eq]
    have e1 : (a / 2 ^ 2 % 64 * 2 ^ 2) % 256 = (a / 4 % 64) * 2 ^ 2 := by omega
    rw [e1, or_shl _ _ _ (by omega), or_shl _ _ _ (by omega)]
    have e2 : a / 4 % 64 * 2 ^ 2 + (a % 4 * 2 ^ 4 + b / 2 ^ 4 % 16) / 2 ^ 4 % 4 = a := by omega
    have e3 : (a % 4 * 2 ^ 4 + b / 2 ^ 4 % 16) % 16 * 2 ^ 4 + b % 16 * 2 ^ 2 / 2 ^ 2 % 16 = b := by omega
    rw [e2, e3]
    cases h : A.pad <;> simp_all [decLoop]
  | a :: b :: c :: t, hb, order, out, cur, ho => by
    have ha : a < 256 := hb a (by simp)
    have hb' : b < 256 := hb b (by simp)
    have hc : c < 256 := hb c (by simp)
    have ht : IsBytes t := fun x hx => hb x (by simp [hx])
    simp only [encLoop, if_true, if_false, Nat.one_ne_zero, Nat.zero_ne_one, Nat.reduceEqDiff]
    simp only [and3, and15, and63, Nat.shiftRight_eq_div_pow, Nat.shiftLeft_eq]
    rw [or_shl _ _ _ (by omega), or_shl _ _ _ (by omega)]
    rw [decLoop_step A hA _ _ (by omega), ho]
    simp only
    rw [decLoop_step A hA _ _ (by omega), show (order + 1) % 4 = 1 by omega]
    simp only
    rw [decLoop_step A hA _ _ (by omega), show (order + 1 + 1) % 4 = 2 by omega]
    simp only
    rw [decLoop_step A hA _ _ (by omega), show (order + 1 + 1 + 1) % 4 = 3 by omega]
    simp only [and3, and15, and63, and255, Nat.shiftRight_eq_div_pow, Nat.shiftLeft_eq]
    have e1 : (a / 2 ^ 2 % 64 * 2 ^ 2) % 256 = (a / 4 % 64) * 2 ^ 2 := by omega
    rw [e1, or_shl _ _ _ (by omega), or_shl _ _ _ (by omega), or_shl _ _ _ (by omega)]
    have e2 : a / 4 % 64 * 2 ^ 2 + (a % 4 * 2 ^ 4 + b / 2 ^ 4 % 16) / 2 ^ 4 % 4 = a := by omega
    have e3 : (a % 4 * 2 ^ 4 + b / 2 ^ 4 % 16) % 16 * 2 ^ 4 + (b % 16 * 2 ^ 2 + c / 2 ^ 6 % 4) / 2 ^ 2 % 16 = b := by omega
    have e4 : (b % 16 * 2 ^ 2 + c / 2 ^ 6 % 4) % 4 * 2 ^ 6 + c % 64 = c := by omega
    rw [e2, e3, e4, encLoop0, dec_enc A hA t ht _ _ _ (by omega)]
    simp

/-- decoding fails at the first foreign (7-bit) character -/
theorem dec_foreign (A : Alphabet) (hA : Good A) (c : Nat) (hc : A.dec[c]? = some 255) (hp : A.pad = true → c ≠ 61)
    (rest : Bytes) : ∀ (good : List Nat), (∀ i ∈ good, i < 64) → ∀ order out cur,
    decLoop A order out cur (good.map A.e ++ c :: rest) = .error .err
  | [], _, order, out, cur => by
    simp only [List.map_nil, List.nil_append, decLoop]
    rw [if_neg (by rintro ⟨h1, h2⟩; exact hp h1 h2), hc]
    simp
  | i :: g, h, order, out, cur => by
    have ih := dec_foreign A hA c hc hp rest g (fun x hx => h x (by simp [hx]))
    simp only [List.map_cons, List.cons_append]
    rw [decLoop_step A hA _ _ (h i (by simp))]
    split <;> exact ih _ _ _

end Verif.Codec
