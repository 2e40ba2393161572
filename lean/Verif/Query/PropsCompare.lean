import Verif.Query.Compare
import Verif.Query.PropsLogic
/-!
# Comparisons and the sort order have their meaning (C66)
-/
set_option linter.unusedSimpArgs false
set_option linter.unusedVariables false
namespace Verif.Query

/-! ## Specification -/

/-- lexicographic order of byte strings: a proper prefix is smaller -/
def bytesLess : List Nat → List Nat → Prop
  | _, [] => False
  | [], _ :: _ => True
  | a :: as, b :: bs => a < b ∨ (a = b ∧ bytesLess as bs)

/-- `a` is smaller than `b`: values of one type in their natural order -/
def Val.Less : Val → Val → Prop
  | .bool a, .bool b => a < b
  | .int a, .int b => a < b
  | .date a, .date b => a < b
  | .timestamp a, .timestamp b => a < b
  | .dbl a, .dbl b => dblNum a < dblNum b
  | .str a, .str b => bytesLess a b
  | .interval m d u, .interval m' d' u' => m < m' ∨ (m = m' ∧ (d < d' ∨ (d = d' ∧ u < u')))
  | .uuid a b, .uuid a' b' => a < a' ∨ (a = a' ∧ b < b')
  | _, _ => False

/-- the same value (for doubles: the same number) -/
def Val.Equal : Val → Val → Prop
  | .dbl a, .dbl b => dblNum a = dblNum b
  | a, b => a = b

/-- what the six operators say, given smaller and equal -/
def CmpOp.Holds (less equal greater : Prop) : CmpOp → Prop
  | .equ => equal
  | .nequ => ¬ equal
  | .lt => less
  | .lte => less ∨ equal
  | .gt => greater
  | .gte => greater ∨ equal

/-- rows in the order of ORDER BY: the first keys that differ decide; NULL comes before every value -/
def KeyLess (a b : Val) : Prop := (a = .null ∧ b ≠ .null) ∨ a.Less b
def Before : List Bool → List Val → List Val → Prop
  | asc :: order, a :: as, b :: bs =>
    (if asc then KeyLess a b else KeyLess b a) ∨ (a.Equal b ∧ Before order as bs)
  | _, _, _ => False

/-! ## Doubles -/

theorem mag_lt {x y : Nat} (h : x % 2 ^ 63 < y % 2 ^ 63) : dblMag x < dblMag y := by
  have e1 : x % 2 ^ 63 % 2 ^ 52 = x % 2 ^ 52 := Nat.mod_mod_of_dvd _ (by decide)
  have e2 : y % 2 ^ 63 % 2 ^ 52 = y % 2 ^ 52 := Nat.mod_mod_of_dvd _ (by decide)
  unfold dblMag
  rw [← e1, ← e2]
  generalize x % 2 ^ 63 = a at *
  generalize y % 2 ^ 63 = b at *
  have ha : a % 2 ^ 52 < 2 ^ 52 := Nat.mod_lt _ (by decide)
  have hb : b % 2 ^ 52 < 2 ^ 52 := Nat.mod_lt _ (by decide)
  have da := Nat.div_add_mod a (2 ^ 52)
  have db := Nat.div_add_mod b (2 ^ 52)
  have hle : a / 2 ^ 52 ≤ b / 2 ^ 52 := Nat.div_le_div_right (by omega)
  generalize a / 2 ^ 52 = e at *
  generalize b / 2 ^ 52 = e' at *
  generalize a % 2 ^ 52 = f at *
  generalize b % 2 ^ 52 = f' at *
  by_cases he : e = e'
  · subst he
    have hf : f < f' := by omega
    split
    · exact hf
    · exact Nat.mul_lt_mul_of_pos_right (by omega) (Nat.two_pow_pos _)
  · have hlt : e < e' := by omega
    have h1 : (if e = 0 then f else (2 ^ 52 + f) * 2 ^ (e - 1)) < 2 ^ 52 * 2 ^ e := by
      split
      · rename_i h0; subst h0; omega
      · rename_i h0
        have : 2 ^ e = 2 * 2 ^ (e - 1) := by
          rw [← Nat.pow_succ']; congr 1; omega
        rw [this, ← Nat.mul_assoc]
        exact Nat.mul_lt_mul_of_pos_right (by omega) (Nat.two_pow_pos _)
    have h2 : 2 ^ 52 * 2 ^ e ≤ (2 ^ 52 + f') * 2 ^ (e' - 1) := by
      have : 2 ^ e ≤ 2 ^ (e' - 1) := Nat.pow_le_pow_right (by decide) (by omega)
      exact Nat.mul_le_mul (by omega) this
    rw [if_neg (show ¬ e' = 0 by omega)]
    omega

theorem mag_zero {x : Nat} : dblMag x = 0 ↔ x % 2 ^ 63 = 0 := by
  constructor
  · intro h
    by_cases h0 : x % 2 ^ 63 = 0
    · exact h0
    · have : (0 : Nat) % 2 ^ 63 < x % 2 ^ 63 := by omega
      have := mag_lt this
      omega
  · intro h
    have e1 : x % 2 ^ 63 % 2 ^ 52 = x % 2 ^ 52 := Nat.mod_mod_of_dvd _ (by decide)
    unfold dblMag
    rw [← e1, h]; simp

theorem key_num (x y : Nat) : dblKey x < dblKey y ↔ dblNum x < dblNum y := by
  have zx := mag_zero (x := x)
  have zy := mag_zero (x := y)
  have m1 : x % 2 ^ 63 < y % 2 ^ 63 ↔ dblMag x < dblMag y := by
    constructor
    · exact mag_lt
    · intro h
      rcases Nat.lt_trichotomy (x % 2 ^ 63) (y % 2 ^ 63) with h' | h' | h'
      · exact h'
      · exfalso
        have e1 : x % 2 ^ 63 % 2 ^ 52 = x % 2 ^ 52 := Nat.mod_mod_of_dvd _ (by decide)
        have e2 : y % 2 ^ 63 % 2 ^ 52 = y % 2 ^ 52 := Nat.mod_mod_of_dvd _ (by decide)
        unfold dblMag at h
        rw [← e1, ← e2, h'] at h; omega
      · exfalso; have := mag_lt h'; omega
  have m2 : y % 2 ^ 63 < x % 2 ^ 63 ↔ dblMag y < dblMag x := by
    constructor
    · exact mag_lt
    · intro h
      rcases Nat.lt_trichotomy (x % 2 ^ 63) (y % 2 ^ 63) with h' | h' | h'
      · exfalso; have := mag_lt h'; omega
      · exfalso
        have e1 : x % 2 ^ 63 % 2 ^ 52 = x % 2 ^ 52 := Nat.mod_mod_of_dvd _ (by decide)
        have e2 : y % 2 ^ 63 % 2 ^ 52 = y % 2 ^ 52 := Nat.mod_mod_of_dvd _ (by decide)
        unfold dblMag at h
        rw [← e1, ← e2, h'] at h; omega
      · exact h'
  unfold dblKey dblNum
  generalize x % 2 ^ 63 = a at *
  generalize y % 2 ^ 63 = b at *
  generalize dblMag x = p at *
  generalize dblMag y = q at *
  split <;> split <;> omega

theorem key_num_eq (x y : Nat) : dblKey x = dblKey y ↔ dblNum x = dblNum y := by
  have h1 := key_num x y
  have h2 := key_num y x
  omega

/-! ## The order -/

theorem cmpS_less (a b : List Nat) : cmpS a b < 0 ↔ bytesLess a b := by
  induction a generalizing b with
  | nil => cases b <;> simp [cmpS, bytesLess]
  | cons x a ih =>
    cases b with
    | nil => simp [cmpS, bytesLess]
    | cons y b =>
      simp only [cmpS, bytesLess]
      by_cases h : x = y
      · subst h; simp [ih b]
      · rw [if_neg h]; simp only [h, false_and, or_false]; omega

theorem cmpS_greater (a b : List Nat) : 0 < cmpS a b ↔ bytesLess b a := by
  rw [← cmpS_less]
  induction a generalizing b with
  | nil => cases b <;> simp [cmpS]
  | cons x a ih =>
    cases b with
    | nil => simp [cmpS]
    | cons y b =>
      simp only [cmpS]
      by_cases h : x = y
      · subst h; simpa using ih b
      · rw [if_neg h, if_neg (Ne.symm h)]; omega

theorem cmpI_zero' {x y : Int} : cmpI x y = 0 ↔ x = y := by
  unfold cmpI
  split
  · constructor <;> intro <;> omega
  · split
    · constructor <;> intro <;> omega
    · constructor <;> intro <;> omega
theorem cmpI_neg' {x y : Int} : cmpI x y < 0 ↔ x < y := by
  unfold cmpI
  split
  · constructor <;> intro <;> omega
  · split
    · constructor <;> intro <;> omega
    · constructor <;> intro <;> omega
theorem cmpI_pos' {x y : Int} : 0 < cmpI x y ↔ y < x := by
  unfold cmpI
  split
  · constructor <;> intro <;> omega
  · split
    · constructor <;> intro <;> omega
    · constructor <;> intro <;> omega

theorem cmpS_zero' : ∀ {x y : List Nat}, cmpS x y = 0 ↔ x = y
  | [], [] => by simp [cmpS]
  | [], _ :: _ => by simp [cmpS]
  | _ :: _, [] => by simp [cmpS]
  | a :: as, b :: bs => by
    simp only [cmpS]
    by_cases h : a = b
    · subst h; simp [cmpS_zero']
    · rw [if_neg h]; simp [h]; omega

/-- **C66** the order used by ORDER BY, MIN, MAX, IN, ANY and ALL is the natural order of the values of each type -/
theorem C66_order (a b : Val) (ha : a.ordered) (hb : b.ordered) (ht : a.typeNo = b.typeNo) :
    (valueCompare a b < 0 ↔ a.Less b) ∧ (valueCompare a b = 0 ↔ a.Equal b) ∧ (0 < valueCompare a b ↔ b.Less a) := by
  cases a <;> cases b <;> simp only [Val.typeNo] at ht <;> try omega
  · simp [valueCompare, Val.Less, Val.Equal]
  · simp [valueCompare, Val.Less, Val.Equal, cmpI_neg', cmpI_pos', cmpI_zero']
  · simp [valueCompare, Val.Less, Val.Equal, cmpI_neg', cmpI_pos', cmpI_zero']
  · rename_i x y
    have hx : ¬ isNaN x := ha
    have hy : ¬ isNaN y := hb
    simp [valueCompare, Val.Less, Val.Equal, cmpD, hx, hy, cmpI_neg', cmpI_pos', cmpI_zero', key_num, key_num_eq]
  · simp [valueCompare, Val.Less, Val.Equal, cmpS_less, cmpS_greater, cmpS_zero']
  · simp [valueCompare, Val.Less, Val.Equal, cmpI_neg', cmpI_pos', cmpI_zero']
  · simp [valueCompare, Val.Less, Val.Equal, cmpI_neg', cmpI_pos', cmpI_zero']
  · rename_i m d u m' d' u'
    simp only [valueCompare, Val.Less, Val.Equal, Val.interval.injEq, ne_eq, cmpI_zero']
    by_cases h : m = m'
    · by_cases h' : d = d'
      · simp [h, h', cmpI_neg', cmpI_pos', cmpI_zero']
      · simp [h, h', Ne.symm h', cmpI_neg', cmpI_pos', cmpI_zero']
    · simp [h, Ne.symm h, cmpI_neg', cmpI_pos', cmpI_zero']
  · rename_i x y x' y'
    simp only [valueCompare, Val.Less, Val.Equal, Val.uuid.injEq, ne_eq, cmpI_zero']
    by_cases h : x = x'
    · simp [h, cmpI_neg', cmpI_pos', cmpI_zero']; omega
    · have : ¬ (x : Int) = x' := by omega
      simp [h, Ne.symm h, this, cmpI_neg', cmpI_pos', cmpI_zero']

/-- values of one column: of one type, or NULL -/
def SameColumn (a b : Val) : Prop := a = .null ∨ b = .null ∨ a.typeNo = b.typeNo

theorem keyLess_iff (a b : Val) (ha : a.ordered) (hb : b.ordered) (hs : SameColumn a b) :
    (valueCompare a b < 0 ↔ KeyLess a b) ∧ (valueCompare a b = 0 ↔ a.Equal b) ∧ (0 < valueCompare a b ↔ KeyLess b a) := by
  by_cases ht : a.typeNo = b.typeNo
  · have := C66_order a b ha hb ht
    have n1 : ¬ (a = .null ∧ b ≠ .null) := by
      rintro ⟨rfl, h⟩; cases b <;> simp_all [Val.typeNo]
    have n2 : ¬ (b = .null ∧ a ≠ .null) := by
      rintro ⟨rfl, h⟩; cases a <;> simp_all [Val.typeNo]
    simpa [KeyLess, n1, n2] using this
  · rcases hs with rfl | rfl | h
    · cases b <;> simp_all [Val.typeNo, valueCompare, KeyLess, Val.Less, Val.Equal]
    · cases a <;> simp_all [Val.typeNo, valueCompare, KeyLess, Val.Less, Val.Equal]
    · exact absurd h ht

/-- **C66** the order of rows in ORDER BY: the first key that differs decides, ascending or descending, NULLs first (in
ascending order) -/
theorem C66_sort_order : ∀ (order : List Bool) (a b : List Val), a.length = order.length → b.length = order.length →
    RowOrdered a → RowOrdered b → (∀ (i : Nat) (x y : Val), a[i]? = some x → b[i]? = some y → SameColumn x y) →
    (keysCompare order a b < 0 ↔ Before order a b) := by
  intro order
  induction order with
  | nil => intro a b _ _ _ _ _; simp [keysCompare, Before]
  | cons asc order ih =>
    intro a b la lb oa ob hs
    cases a with
    | nil => simp at la
    | cons x a =>
      cases b with
      | nil => simp at lb
      | cons y b =>
        have hk := keyLess_iff x y (oa x (by simp)) (ob y (by simp)) (hs 0 x y rfl rfl)
        have ih' := ih a b (by simpa using la) (by simpa using lb) (fun v hv => oa v (by simp [hv]))
          (fun v hv => ob v (by simp [hv])) (fun i x y h1 h2 => hs (i + 1) x y (by simpa using h1) (by simpa using h2))
        simp only [keysCompare, List.headD_cons, List.tail_cons, Before]
        rw [← ih', ← hk.2.1, ← hk.1, ← hk.2.2]
        clear hk
        by_cases hc : valueCompare x y = 0
        · simp [hc]
        · simp only [ne_eq, hc, not_false_eq_true, if_true, false_and, or_false]
          cases asc <;> simp

/-! ## The operators -/

theorem test_holds (op : CmpOp) (c : Int) (l e g : Prop) (hl : c < 0 ↔ l) (he : c = 0 ↔ e) (hg : 0 < c ↔ g) :
    op.test c = true ↔ op.Holds l e g := by
  cases op <;> simp only [CmpOp.test, CmpOp.Holds, decide_eq_true_eq, ← hl, ← he, ← hg] <;> omega

/-- a comparison with NULL is unknown -/
theorem C66_null (op : CmpOp) (a b : Val) (h : a = .null ∨ b = .null) : opCmp op a b = some .null := by
  rcases h with rfl | rfl
  · rfl
  · cases a <;> rfl

/-- **C66** the comparison operators on two values of one type (booleans have only `=` and `<>`) -/
theorem C66_operators (op : CmpOp) (a b : Val) (ha : a.ordered) (hb : b.ordered) (hn : a ≠ .null) (ht : a.typeNo = b.typeNo)
    (hbool : a.typeNo = 1 → op = .equ ∨ op = .nequ) :
    ∃ r : Bool, opCmp op a b = some (vbool r) ∧ (r = true ↔ op.Holds (a.Less b) (a.Equal b) (b.Less a)) := by
  have ho := C66_order a b ha hb ht
  have h := test_holds op (valueCompare a b) _ _ _ ho.1 ho.2.1 ho.2.2
  refine ⟨op.test (valueCompare a b), ?_, h⟩
  clear h ho
  cases a <;> cases b <;> simp only [Val.typeNo] at ht <;> try omega
  · exact absurd rfl hn
  · simp only [opCmp, hbool rfl, if_true, CmpOp.num, valueCompare, Bool.false_eq_true, if_false]
  · simp only [opCmp, CmpOp.num, valueCompare, Bool.false_eq_true, if_false]
  · rename_i x y
    have hx : ¬ isNaN x := ha
    have hy : ¬ isNaN y := hb
    simp only [opCmp, CmpOp.num, valueCompare, hx, hy, or_self, decide_false, Bool.false_eq_true, if_false, cmpD]
    have : cmpI (dblNum x) (dblNum y) = cmpI (dblKey x) (dblKey y) := by
      simp only [cmpI, key_num]
    rw [this]
  · simp only [opCmp, valueCompare]
  · simp only [opCmp, CmpOp.num, valueCompare, Bool.false_eq_true, if_false]
  · simp only [opCmp, CmpOp.num, valueCompare, Bool.false_eq_true, if_false]
  · simp only [opCmp, valueCompare]
  · simp only [opCmp, valueCompare]

/-- the number of a value that is kept as an integer -/
def Val.asInt : Val → Option Int
  | .int i => some i
  | .bool i => some i
  | .date i => some i
  | .timestamp i => some i
  | _ => none

/-- **C66** integers with timestamps (microseconds), dates (days) and booleans compare as numbers, where the operator exists -/
theorem C66_int_like (op : CmpOp) (a b : Val) (x y : Int) (ha : a.asInt = some x) (hb : b.asInt = some y) (v : Val)
    (hv : opCmp op a b = some v) : ∃ r : Bool, v = vbool r ∧ (r = true ↔ op.Holds (x < y) (x = y) (y < x)) := by
  refine ⟨op.test (cmpI x y), ?_, test_holds op _ _ _ _ cmpI_neg' cmpI_zero' cmpI_pos'⟩
  cases a <;> cases b <;> simp [Val.asInt] at ha hb <;> subst ha <;> subst hb <;>
    simp [opCmp, CmpOp.num] at hv <;> first | exact hv.symm | exact hv.2.symm

/-- **C66** an integer with a double: exact for integers of at most 53 bits -/
theorem C66_mixed_partial (op : CmpOp) (i : Int) (d : Nat) (hd : ¬ isNaN d) (h1 : -2 ^ 53 ≤ i) (h2 : i ≤ 2 ^ 53) :
    (∃ r : Bool, opCmp op (.int i) (.dbl d) = some (vbool r) ∧
      (r = true ↔ op.Holds (i * 2 ^ 1074 < dblNum d) (i * 2 ^ 1074 = dblNum d) (dblNum d < i * 2 ^ 1074))) ∧
    (∃ r : Bool, opCmp op (.dbl d) (.int i) = some (vbool r) ∧
      (r = true ↔ op.Holds (dblNum d < i * 2 ^ 1074) (dblNum d = i * 2 ^ 1074) (i * 2 ^ 1074 < dblNum d))) := by
  have hr : i2d i = i := by
    unfold i2d roundD
    have hr2 : roundD (2 ^ 53) = 2 ^ 53 := by decide
    by_cases h : i.natAbs < 2 ^ 53
    · simp only [h, if_true]; split <;> omega
    · have : i.natAbs = 2 ^ 53 := by omega
      have e : (if i.natAbs < 2 ^ 53 then i.natAbs
        else (if 2 ^ (i.natAbs.log2 - 52 - 1) < i.natAbs % 2 ^ (i.natAbs.log2 - 52) ∨
          (i.natAbs % 2 ^ (i.natAbs.log2 - 52) = 2 ^ (i.natAbs.log2 - 52 - 1) ∧
            i.natAbs / 2 ^ (i.natAbs.log2 - 52) % 2 = 1) then i.natAbs / 2 ^ (i.natAbs.log2 - 52) + 1
          else i.natAbs / 2 ^ (i.natAbs.log2 - 52)) * 2 ^ (i.natAbs.log2 - 52)) = roundD i.natAbs := rfl
      rw [e, this, hr2]
      split <;> omega
  simp only [opCmp, hr, hd, decide_false, CmpOp.num, Bool.false_eq_true, if_false]
  exact ⟨⟨_, rfl, test_holds op _ _ _ _ cmpI_neg' cmpI_zero' cmpI_pos'⟩,
    ⟨_, rfl, test_holds op _ _ _ _ cmpI_neg' cmpI_zero' cmpI_pos'⟩⟩

/-- 2^53 as a double -/
def two53 : Nat := 0x4340000000000000
theorem two53_num : dblNum two53 = 2 ^ 53 * 2 ^ 1074 := by decide +kernel

/-- **C66 fails** for larger integers compared with doubles: `9007199254740993 = 9007199254740992.0` is true,
`9007199254740993 > 9007199254740992.0` is false -/
theorem C66_mixed_false : opCmp .equ (.int (2 ^ 53 + 1)) (.dbl two53) = some (vbool true) ∧
    opCmp .gt (.int (2 ^ 53 + 1)) (.dbl two53) = some (vbool false) ∧ dblNum two53 < (2 ^ 53 + 1) * 2 ^ 1074 := by
  decide +kernel

/-- the operators behind IN, ANY and ALL disagree with `=` on an integer and a double: `1 IN (1.0)` is false -/
theorem C66_in_false : opCmp .equ (.int 1) (.dbl 0x3FF0000000000000) = some (vbool true) ∧
    vIn (.int 1) [.val (.dbl 0x3FF0000000000000)] = vbool false := by decide +kernel

example : opCmp .lt (.str [97]) (.str [97, 98]) = some (vbool true) := by decide
example : opCmp .gte (.dbl 0x8000000000000000) (.dbl 0) = some (vbool true) := by decide +kernel
example : Before [true, false] [.int 1, .str [98]] [.int 1, .str [97]] := .inr ⟨rfl, .inl (.inr (.inl (by decide)))⟩

end Verif.Query
