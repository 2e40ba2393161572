import Verif.Common
set_option linter.unusedSimpArgs false
/-!
# uuid.c (runtime/lib)

A Uuid is 16 bytes viewed as the packed struct uuid_bits {u32 a; u16 b; u16 c; u16 d; u16 e; u32 f}
(uuid.c:19-27); the model keeps the six fields (the overlay is a bijection with the 128 bits).
-/
namespace Verif.Codec
open Verif

/-- struct uuid_bits, uuid.c:19-27 -/
structure Uuid where
  a : Nat
  b : Nat
  c : Nat
  d : Nat
  e : Nat
  f : Nat
deriving DecidableEq, Repr

/-- a value of the C struct: fields within their width -/
def Uuid.Valid (u : Uuid) : Prop :=
  u.a < 2 ^ 32 ∧ u.b < 2 ^ 16 ∧ u.c < 2 ^ 16 ∧ u.d < 2 ^ 16 ∧ u.e < 2 ^ 16 ∧ u.f < 2 ^ 32

/-- lower case hexadecimal digit -/
def hexDigit (d : Nat) : Nat := if d < 10 then 48 + d else 87 + d

/-- printf("%0nx"): n lower case digits, most significant first (the value has at most n digits here) -/
def hexN : Nat → Nat → Bytes
  | 0, _ => []
  | n + 1, v => hexN n (v / 16) ++ [hexDigit (v % 16)]

/-- uuid_get, uuid.c:102-110 -/
def uuidGet (u : Uuid) : Bytes :=
  hexN 8 u.a ++ [45] ++ hexN 4 u.b ++ [45] ++ hexN 4 u.c ++ [45] ++ hexN 4 u.d ++ [45] ++ hexN 4 u.e ++ hexN 8 u.f

/-- uuid.c:74-84 -/
def hexVal (byte : Nat) : Option Nat :=
  if 48 ≤ byte ∧ byte ≤ 57 then some (byte - 48)
  else if 97 ≤ byte ∧ byte ≤ 102 then some (byte - 97 + 10)
  else if 65 ≤ byte ∧ byte ≤ 70 then some (byte - 65 + 10)
  else none

/-- the default case of the switch, uuid.c:72-87 (`value` is a uint64) -/
def hexStep (value : Nat) (byte : Nat) : Option Nat :=
  (hexVal byte).map fun x => ((value <<< 4) % 2 ^ 64) ||| (x &&& 0xF)

/-- the loop of uuid_set_nothrow, uuid.c:41-91: `i`, `value` and the struct written so far; `none` = -1.
Stores into the fields truncate to the field width. -/
def uuidLoop : Nat → Nat → Uuid → Bytes → Option Uuid
  | i, value, u, string =>
    if i = 36 then some { u with f := value % 2 ^ 32 }
    else match string with
      | [] => none      -- cannot happen: the text has at least 36 characters
      | ch :: t =>
        if i = 8 then (if ch ≠ 45 then none else uuidLoop (i + 1) 0 { u with a := value % 2 ^ 32 } t)
        else if i = 13 then (if ch ≠ 45 then none else uuidLoop (i + 1) 0 { u with b := value % 2 ^ 16 } t)
        else if i = 18 then (if ch ≠ 45 then none else uuidLoop (i + 1) 0 { u with c := value % 2 ^ 16 } t)
        else if i = 23 then (if ch ≠ 45 then none else uuidLoop (i + 1) 0 { u with d := value % 2 ^ 16 } t)
        else if i = 28 then
          match hexStep 0 ch with
          | none => none
          | some v => uuidLoop (i + 1) v { u with e := value % 2 ^ 16 } t
        else
          match hexStep value ch with
          | none => none
          | some v => uuidLoop (i + 1) v u t
termination_by structural _ _ _ s => s

/-- uuid_set_nothrow, uuid.c:29-92 -/
def uuidSet (u : Uuid) (src : Bytes) : Option Uuid :=
  if src.length < 36 then none else uuidLoop 0 0 u src

/-! ## spec -/

/-- a hexadecimal digit character -/
def IsHex (c : Nat) : Prop := (48 ≤ c ∧ c ≤ 57) ∨ (97 ≤ c ∧ c ≤ 102) ∨ (65 ≤ c ∧ c ≤ 70)

/-- the value of a hexadecimal digit character -/
def hexOf (c : Nat) : Nat := if c ≤ 57 then c - 48 else if 97 ≤ c then c - 87 else c - 55

/-- the number written by hexadecimal digits -/
def hexNum (l : Bytes) : Nat := l.foldl (fun v c => v * 16 + hexOf c) 0

/-- a canonical text with the given groups -/
structure Canon (s A B C D E F : Bytes) : Prop where
  text : s = A ++ [45] ++ B ++ [45] ++ C ++ [45] ++ D ++ [45] ++ E ++ F
  hex : ∀ c ∈ A ++ B ++ C ++ D ++ E ++ F, IsHex c
  lenA : A.length = 8
  lenB : B.length = 4
  lenC : C.length = 4
  lenD : D.length = 4
  lenE : E.length = 4
  lenF : F.length = 8

/-! ## proofs -/

theorem hexVal_some {c : Nat} (h : IsHex c) : hexVal c = some (hexOf c) ∧ hexOf c < 16 := by
  unfold IsHex at h; unfold hexVal hexOf
  rcases h with h | h | h
  · rw [if_pos h, if_pos (by omega)]; exact ⟨rfl, by omega⟩
  · rw [if_neg (by omega), if_pos h, if_neg (by omega), if_pos (by omega)]
    exact ⟨by congr 1; omega, by omega⟩
  · rw [if_neg (by omega), if_neg (by omega), if_pos h, if_neg (by omega), if_neg (by omega)]
    exact ⟨by congr 1; omega, by omega⟩

theorem hexVal_none {c : Nat} (h : ¬ IsHex c) : hexVal c = none := by
  unfold IsHex at h; unfold hexVal
  rw [if_neg (by omega), if_neg (by omega), if_neg (by omega)]

theorem hexStep_some {v c : Nat} (hv : v < 2 ^ 60) (h : IsHex c) : hexStep v c = some (v * 16 + hexOf c) := by
  obtain ⟨h1, h2⟩ := hexVal_some h
  simp only [hexStep, h1, Option.map_some]
  have e1 : (v <<< 4) % 2 ^ 64 = v <<< 4 := Nat.mod_eq_of_lt (by rw [Nat.shiftLeft_eq]; omega)
  have e2 : hexOf c &&& 0xF = hexOf c := by
    rw [show (0xF : Nat) = 2 ^ 4 - 1 by rfl, Nat.and_two_pow_sub_one_eq_mod]; omega
  rw [e1, e2, ← Nat.shiftLeft_add_eq_or_of_lt (by omega : hexOf c < 2 ^ 4), Nat.shiftLeft_eq]

/-- index that starts a new group -/
def Special (i : Nat) : Prop := i = 8 ∨ i = 13 ∨ i = 18 ∨ i = 23 ∨ i = 28 ∨ i = 36

theorem uuidLoop_hex {i v : Nat} {u : Uuid} {c : Nat} {t : Bytes} (hi : ¬ Special i) (hv : v < 2 ^ 60) (h : IsHex c) :
    uuidLoop i v u (c :: t) = uuidLoop (i + 1) (v * 16 + hexOf c) u t := by
  unfold Special at hi
  rw [uuidLoop, if_neg (by omega)]
  rw [if_neg (by omega), if_neg (by omega), if_neg (by omega), if_neg (by omega), if_neg (by omega), hexStep_some hv h]

theorem uuidLoop_group (l : Bytes) : ∀ (i v : Nat) (u : Uuid) (t : Bytes), (∀ j, i ≤ j → j < i + l.length → ¬ Special j) →
    v < 16 ^ (12 - l.length) → l.length ≤ 8 → (∀ c ∈ l, IsHex c) →
    uuidLoop i v u (l ++ t) = uuidLoop (i + l.length) (l.foldl (fun v c => v * 16 + hexOf c) v) u t ∧
      l.foldl (fun v c => v * 16 + hexOf c) v < 16 ^ 12 := by
  induction l with
  | nil =>
    intro i v u t _ hv _ _
    exact ⟨by simp, by simpa using hv⟩
  | cons c l ih =>
    intro i v u t hs hv hl hh
    simp only [List.length_cons] at hs hv hl
    have hc := hh c (by simp)
    have hx := (hexVal_some hc).2
    have hlt : v < 16 ^ 11 := Nat.lt_of_lt_of_le hv (Nat.pow_le_pow_right (by omega) (by omega))
    have hv' : v * 16 + hexOf c < 16 ^ (12 - l.length) := by
      have e : 12 - l.length = (12 - (l.length + 1)) + 1 := by omega
      rw [e, Nat.pow_succ]
      omega
    have := ih (i + 1) (v * 16 + hexOf c) u t (fun j h1 h2 => hs j (by omega) (by omega)) hv' (by omega)
      (fun x hx => hh x (by simp [hx]))
    rw [List.cons_append, uuidLoop_hex (hs i (by omega) (by omega)) (by omega) hc, this.1]
    refine ⟨?_, by simpa using this.2⟩
    simp only [List.length_cons, List.foldl_cons]
    congr 1; omega

theorem uuidSet_canon (u0 : Uuid) (s A B C D E F rest : Bytes) (h : Canon s A B C D E F) :
    uuidSet u0 (s ++ rest) = some ⟨hexNum A % 2 ^ 32, hexNum B % 2 ^ 16, hexNum C % 2 ^ 16, hexNum D % 2 ^ 16,
      hexNum E % 2 ^ 16, hexNum F % 2 ^ 32⟩ := by
  obtain ⟨rfl, hx, lA, lB, lC, lD, lE, lF⟩ := h
  have hA : ∀ c ∈ A, IsHex c := fun c hc => hx c (by simp [hc])
  have hB : ∀ c ∈ B, IsHex c := fun c hc => hx c (by simp [hc])
  have hC : ∀ c ∈ C, IsHex c := fun c hc => hx c (by simp [hc])
  have hD : ∀ c ∈ D, IsHex c := fun c hc => hx c (by simp [hc])
  have hE : ∀ c ∈ E, IsHex c := fun c hc => hx c (by simp [hc])
  have hF : ∀ c ∈ F, IsHex c := fun c hc => hx c (by simp [hc])
  unfold uuidSet
  rw [if_neg (by simp; omega)]
  simp only [List.append_assoc, List.cons_append, List.nil_append]
  rw [(uuidLoop_group A 0 0 u0 _ (by intro j _ h; unfold Special; omega) (Nat.pow_pos (by omega)) (by omega) hA).1, lA]
  rw [uuidLoop]
  simp only [if_true, Nat.reduceAdd, Nat.reduceEqDiff, if_false, ne_eq, not_true_eq_false]
  rw [(uuidLoop_group B 9 0 _ _ (by intro j _ h; unfold Special; omega) (Nat.pow_pos (by omega)) (by omega) hB).1, lB]
  rw [uuidLoop]
  simp only [if_true, Nat.reduceAdd, Nat.reduceEqDiff, if_false, ne_eq, not_true_eq_false]
  rw [(uuidLoop_group C 14 0 _ _ (by intro j _ h; unfold Special; omega) (Nat.pow_pos (by omega)) (by omega) hC).1, lC]
  rw [uuidLoop]
  simp only [if_true, Nat.reduceAdd, Nat.reduceEqDiff, if_false, ne_eq, not_true_eq_false]
  rw [(uuidLoop_group D 19 0 _ _ (by intro j _ h; unfold Special; omega) (Nat.pow_pos (by omega)) (by omega) hD).1, lD]
  rw [uuidLoop]
  simp only [if_true, Nat.reduceAdd, Nat.reduceEqDiff, if_false, ne_eq, not_true_eq_false]
  rw [(uuidLoop_group E 24 0 _ _ (by intro j _ h; unfold Special; omega) (Nat.pow_pos (by omega)) (by omega) hE).1, lE]
  cases F with
  | nil => simp at lF
  | cons c F' =>
    rw [List.cons_append, uuidLoop]
    simp only [if_true, Nat.reduceAdd, Nat.reduceEqDiff, if_false, ne_eq, not_true_eq_false]
    have hc := hF c (by simp)
    rw [hexStep_some (by omega) hc]
    simp only
    simp only [List.length_cons] at lF
    have := (hexVal_some hc).2
    rw [(uuidLoop_group F' 29 _ _ _ (by intro j _ h; unfold Special; omega)
      (by rw [show 12 - F'.length = 5 by omega]; omega) (by omega)
      (fun x hx => hF x (by simp [hx]))).1]
    rw [show 29 + F'.length = 36 by omega, uuidLoop.eq_def]
    simp [hexNum]

theorem hexNum_snoc (l : Bytes) (c : Nat) : hexNum (l ++ [c]) = hexNum l * 16 + hexOf c := by
  simp [hexNum, List.foldl_append]

theorem hexDigit_isHex (d : Nat) (h : d < 16) : IsHex (hexDigit d) ∧ hexOf (hexDigit d) = d := by
  unfold hexDigit IsHex hexOf
  split <;> constructor
  · omega
  · rw [if_pos (by omega)]; omega
  · omega
  · rw [if_neg (by omega), if_pos (by omega)]; omega

theorem hexN_spec (n : Nat) : ∀ v, (hexN n v).length = n ∧ (∀ c ∈ hexN n v, IsHex c) ∧ hexNum (hexN n v) = v % 16 ^ n := by
  induction n with
  | zero => intro v; simp [hexN, hexNum, Nat.mod_one]
  | succ n ih =>
    intro v
    obtain ⟨h1, h2, h3⟩ := ih (v / 16)
    have hd := hexDigit_isHex (v % 16) (by omega)
    refine ⟨by simp [hexN, h1], ?_, ?_⟩
    · intro c hc
      simp only [hexN, List.mem_append, List.mem_singleton] at hc
      rcases hc with hc | rfl
      · exact h2 c hc
      · exact hd.1
    · rw [hexN, hexNum_snoc, h3, hd.2, Nat.pow_succ, Nat.mul_comm (16 ^ n) 16, Nat.mod_mul]
      omega

theorem uuidGet_canon (u : Uuid) : Canon (uuidGet u) (hexN 8 u.a) (hexN 4 u.b) (hexN 4 u.c) (hexN 4 u.d) (hexN 4 u.e) (hexN 8 u.f) where
  text := rfl
  hex := by
    intro c hc
    simp only [List.mem_append] at hc
    rcases hc with ((((hc | hc) | hc) | hc) | hc) | hc
    all_goals exact (hexN_spec _ _).2.1 c hc
  lenA := (hexN_spec _ _).1
  lenB := (hexN_spec _ _).1
  lenC := (hexN_spec _ _).1
  lenD := (hexN_spec _ _).1
  lenE := (hexN_spec _ _).1
  lenF := (hexN_spec _ _).1

theorem uuidLoop_nonhex {i v : Nat} {u : Uuid} {c : Nat} {t : Bytes} (hi : ¬ (i = 8 ∨ i = 13 ∨ i = 18 ∨ i = 23 ∨ i = 36))
    (h : ¬ IsHex c) : uuidLoop i v u (c :: t) = none := by
  rw [uuidLoop, if_neg (by omega)]
  rw [if_neg (by omega), if_neg (by omega), if_neg (by omega), if_neg (by omega)]
  simp only [hexStep, hexVal_none h, Option.map_none]
  simp

/-- an accepted text satisfies the position conditions -/
theorem uuidLoop_some : ∀ (s : Bytes) (i v : Nat) (u w : Uuid), uuidLoop i v u s = some w → i ≤ 36 →
    ∀ k c, s[k]? = some c → i + k < 36 →
      (if i + k = 8 ∨ i + k = 13 ∨ i + k = 18 ∨ i + k = 23 then c = 45 else IsHex c)
  | [], i, v, u, w, h, hi, k, c, hk, hik => by simp at hk
  | x :: t, i, v, u, w, h, hi, k, c, hk, hik => by
    have hx : ∃ v' u', uuidLoop (i + 1) v' u' t = some w ∧
        (if i = 8 ∨ i = 13 ∨ i = 18 ∨ i = 23 then x = 45 else IsHex x) := by
      by_cases hsp : i = 8 ∨ i = 13 ∨ i = 18 ∨ i = 23
      · rw [if_pos hsp]
        rw [uuidLoop, if_neg (by omega)] at h
        rcases hsp with rfl | rfl | rfl | rfl
        all_goals
          simp only [if_true, Nat.reduceEqDiff, if_false] at h
          split at h
          · simp at h
          · rename_i hh
            simp only [ne_eq, Decidable.not_not] at hh
            exact ⟨_, _, h, hh⟩
      · rw [if_neg hsp]
        by_cases hex : IsHex x
        · rw [uuidLoop, if_neg (by omega)] at h
          rw [if_neg (by omega), if_neg (by omega), if_neg (by omega), if_neg (by omega)] at h
          split at h
          all_goals
            split at h
            · simp at h
            · exact ⟨_, _, h, hex⟩
        · rw [uuidLoop_nonhex (by omega) hex] at h
          simp at h
    obtain ⟨v', u', h1, h2⟩ := hx
    cases k with
    | zero =>
      simp at hk; subst hk; simpa using h2
    | succ k =>
      have := uuidLoop_some t (i + 1) v' u' w h1 (by omega) k c (by simpa using hk) (by omega)
      rwa [show i + 1 + k = i + (k + 1) by omega] at this

end Verif.Codec
