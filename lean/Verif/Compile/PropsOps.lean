import Verif.Compile.PropsScan
import Verif.Query.PropsCompare
/-!
# C86: what the operators and truth values mean

The meaning of an expression (Spec.lean) shares some functions with the machine (`isTrue`, `vcompare`, `fits`, `fcmp`, `valueIn`). Here these are
described in terms of numbers, byte strings and lists.
-/
set_option linter.unusedSimpArgs false
set_option linter.unusedVariables false
namespace Verif.Compile
open Verif.Query (CmpOp dblNum isNaN bytesLess)

variable {W : Type}

/-- counts as true in WHERE, AND, OR, NOT, CASE: numbers above zero, texts and vectors that are not empty, JSON and uuids -/
def Truthy : Val → Prop
  | .null => False
  | .int i => 0 < i
  | .bool i => 0 < i
  | .date i => 0 < i
  | .timestamp i => 0 < i
  | .dbl b => ¬ isNaN b ∧ 0 < dblNum b
  | .str s => s ≠ []
  | .vector l => l ≠ []
  | .json _ => True
  | .uuid _ _ => True
  | .interval _ => False

/-- C86: conditions hold for the values that count as true -/
theorem C86_truth_partial (v : Val) (h : ∀ i, v ≠ .interval i) : (isTrue v = .ok true ↔ Truthy v) ∧ (isTrue v = .ok false ↔ ¬ Truthy v) := by
  have hz : ¬ isNaN 0 := by decide
  have hz0 : dblNum 0 = 0 := by decide
  cases v with
  | interval i => exact absurd rfl (h i)
  | dbl b =>
    simp only [isTrue, Truthy, Except.ok.injEq, decide_eq_true_eq, decide_eq_false_iff_not]
    have : 0 < Verif.Query.cmpD b 0 ↔ ¬ isNaN b ∧ 0 < dblNum b := by
      by_cases hb : isNaN b
      · simp [Verif.Query.cmpD, hb]
      · rw [Verif.Query.cmpD, if_neg (by simp [hb, hz])]
        unfold Verif.Query.cmpI
        have h1 := Verif.Query.key_num 0 b
        have h2 := Verif.Query.key_num b 0
        rw [hz0] at h1 h2
        simp only [h1, h2, hb, not_false_eq_true, true_and]
        split
        · simp_all
        · split <;> simp_all
    rw [this]
    exact ⟨Iff.rfl, Iff.rfl⟩
  | str s => cases s <;> simp [isTrue, Truthy]
  | vector s => cases s <;> simp [isTrue, Truthy]
  | _ => simp [isTrue, Truthy]

/-- C86: the sum, difference and product of two integers are the numbers they are called, or an error if these need more than 64 bits -/
theorem C86_integers_partial (E : Sem W) (vars : List Val) (w : W) (x y : Int) :
    (∀ r : Int, (eval E vars (.bin .add (.const (.int x)) (.const (.int y))) w = .ok (.int r, w) ↔ r = x + y ∧ -2 ^ 63 ≤ r ∧ r < 2 ^ 63)) ∧
    (∀ r : Int, (eval E vars (.bin .sub (.const (.int x)) (.const (.int y))) w = .ok (.int r, w) ↔ r = x - y ∧ -2 ^ 63 ≤ r ∧ r < 2 ^ 63)) ∧
    (∀ r : Int, (eval E vars (.bin .mul (.const (.int x)) (.const (.int y))) w = .ok (.int r, w) ↔ r = x * y ∧ -2 ^ 63 ≤ r ∧ r < 2 ^ 63)) ∧
    ((x + y < -2 ^ 63 ∨ 2 ^ 63 ≤ x + y) → eval E vars (.bin .add (.const (.int x)) (.const (.int y))) w = .error .err) := by
  have key : ∀ r z : Int, (keep w ((orErr (fits z)).map Val.int) = .ok (.int r, w) ↔ r = z ∧ -2 ^ 63 ≤ r ∧ r < 2 ^ 63) := by
    intro r z
    unfold fits i64min i64max
    by_cases h : -9223372036854775808 ≤ z ∧ z ≤ 9223372036854775807
    · rw [if_pos h]
      simp only [orErr, keep, Except.map, Except.ok.injEq, Prod.mk.injEq, Val.int.injEq, and_true]
      constructor
      · rintro rfl; exact ⟨rfl, by omega, by omega⟩
      · rintro ⟨rfl, _⟩; rfl
    · rw [if_neg h]
      simp only [orErr, keep, Except.map]
      constructor
      · intro h; cases h
      · rintro ⟨rfl, h1, h2⟩; exact absurd ⟨by omega, by omega⟩ h
  refine ⟨fun r => ?_, fun r => ?_, fun r => ?_, fun h => ?_⟩
  · rw [← key]; rfl
  · rw [← key]; rfl
  · rw [← key]; rfl
  · show keep w ((orErr (fits (x + y))).map Val.int) = _
    unfold fits i64min i64max
    rw [if_neg (by omega)]; rfl

/-- C86: IN is true if one of the values is equal, NULL if none is and the left side or one of the values is NULL, false otherwise -/
theorem C86_in_partial (P : Prims) (a : Val) (l : List Val) :
    (valueIn P a l = .bool 1 ↔ a ≠ .null ∧ ∃ v ∈ l, v ≠ .null ∧ vcompare P v a = 0) ∧
    (valueIn P a l = .null ↔ a = .null ∨ ((∀ v ∈ l, v ≠ .null → vcompare P v a ≠ 0) ∧ .null ∈ l)) ∧
    (valueIn P a l = .bool 0 ↔ a ≠ .null ∧ ∀ v ∈ l, v ≠ .null ∧ vcompare P v a ≠ 0) := by
  have key : ∀ (l : List Val) (hn : Bool), (inLoop P a l hn = .bool 1 ↔ ∃ v ∈ l, v ≠ .null ∧ vcompare P v a = 0) ∧
      (inLoop P a l hn = .null ↔ (∀ v ∈ l, v ≠ .null → vcompare P v a ≠ 0) ∧ (hn = true ∨ .null ∈ l)) ∧
      (inLoop P a l hn = .bool 0 ↔ hn = false ∧ ∀ v ∈ l, v ≠ .null ∧ vcompare P v a ≠ 0) := by
    intro l
    induction l with
    | nil => intro hn; cases hn <;> simp [inLoop, vbool]
    | cons v l ih =>
      intro hn
      rw [inLoop]
      by_cases hv : v = .null
      · rw [if_pos hv]
        obtain ⟨i1, i2, i3⟩ := ih true
        subst hv
        refine ⟨?_, ?_, ?_⟩
        · rw [i1]; simp
        · rw [i2]; simp
        · rw [i3]; simp
      · rw [if_neg hv]
        by_cases hc : vcompare P v a = 0
        · rw [if_pos hc]
          simp [vbool, hv, hc]
        · rw [if_neg hc]
          obtain ⟨i1, i2, i3⟩ := ih hn
          refine ⟨?_, ?_, ?_⟩
          · rw [i1]; simp [hv, hc]
          · rw [i2]
            have : ¬ Val.null = v := fun h => hv h.symm
            simp [hv, hc, this]
          · rw [i3]; simp [hv, hc]
  unfold valueIn
  by_cases ha : a = .null
  · simp [ha]
  · rw [if_neg ha]
    obtain ⟨k1, k2, k3⟩ := key l false
    refine ⟨by rw [k1]; simp [ha], by rw [k2]; simp [ha], by rw [k3]; simp [ha]⟩

/-- what the six comparisons say, given smaller and equal -/
def Says (less equal : Prop) : CmpOp → Prop
  | .equ => equal
  | .nequ => ¬ equal
  | .lt => less
  | .lte => less ∨ equal
  | .gt => ¬ less ∧ ¬ equal
  | .gte => ¬ less

theorem says_cmpI {k : CmpOp} {x y : Int} : k.test (Verif.Query.cmpI x y) = true ↔ Says (x < y) (x = y) k := by
  unfold Verif.Query.cmpI
  rcases Int.lt_trichotomy x y with h | h | h
  · rw [if_neg (by omega), if_pos h]
    cases k <;> simp [CmpOp.test, Says] <;> omega
  · rw [if_neg (by omega), if_neg (by omega)]
    cases k <;> simp [CmpOp.test, Says] <;> omega
  · rw [if_pos h]
    cases k <;> simp [CmpOp.test, Says] <;> omega

/-- smaller, by type -/
def less : Val → Val → Prop
  | .int a, .int b => a < b
  | .bool a, .bool b => a < b
  | .date a, .date b => a < b
  | .timestamp a, .timestamp b => a < b
  | .dbl a, .dbl b => dblNum a < dblNum b
  | .str a, .str b => bytesLess a b
  | .interval a, .interval b => a.m < b.m ∨ (a.m = b.m ∧ (a.d < b.d ∨ (a.d = b.d ∧ a.us < b.us)))
  | .uuid a b, .uuid a' b' => a < a' ∨ (a = a' ∧ b < b')
  | _, _ => False
/-- equal: doubles as numbers -/
def equal : Val → Val → Prop
  | .dbl a, .dbl b => dblNum a = dblNum b
  | a, b => a = b

/-- the types with an order of their own (JSON and vectors are compared by functions that are parameters) -/
def Ordered : Val → Val → Prop
  | .int _, .int _ => True
  | .bool _, .bool _ => True
  | .date _, .date _ => True
  | .timestamp _, .timestamp _ => True
  | .dbl a, .dbl b => ¬ isNaN a ∧ ¬ isNaN b
  | .str _, .str _ => True
  | .interval _, .interval _ => True
  | .uuid _ _, .uuid _ _ => True
  | _, _ => False

theorem says_of {k : CmpOp} {c : Int} {l e : Prop} (h1 : c < 0 ↔ l) (h2 : c = 0 ↔ e) : k.test c = true ↔ Says l e k := by
  cases k <;> simp only [CmpOp.test, Says, decide_eq_true_eq, ← h1, ← h2] <;> omega

/-- C86: comparisons of two values of one type have their usual meaning: numbers by value, texts by their bytes, intervals and uuids by their parts -/
theorem C86_compare_partial (P : Prims) (k : CmpOp) (a b : Val) (h : Ordered a b) :
    ∃ r, compareVals P k a b = .ok r ∧ (r = true ↔ Says (less a b) (equal a b) k) := by
  cases a with
  | dbl x =>
    cases b with
    | dbl y =>
      obtain ⟨hx, hy⟩ := h
      refine ⟨_, rfl, ?_⟩
      unfold fcmp
      simp only [hx, hy, decide_false, Bool.or_self, Bool.not_false, Bool.true_and]
      exact says_of (by rw [Verif.Query.cmpI_neg']; exact Verif.Query.key_num x y) (by rw [Verif.Query.cmpI_zero']; exact Verif.Query.key_num_eq x y)
    | _ => exact absurd h id
  | int x =>
    cases b with
    | int y => exact ⟨_, rfl, by rw [says_cmpI]; simp [less, equal]⟩
    | _ => exact absurd h id
  | bool x =>
    cases b with
    | bool y => exact ⟨_, rfl, by rw [says_cmpI]; simp [less, equal]⟩
    | _ => exact absurd h id
  | date x =>
    cases b with
    | date y => exact ⟨_, rfl, by rw [says_cmpI]; simp [less, equal]⟩
    | _ => exact absurd h id
  | timestamp x =>
    cases b with
    | timestamp y => exact ⟨_, rfl, by rw [says_cmpI]; simp [less, equal]⟩
    | _ => exact absurd h id
  | str x =>
    cases b with
    | str y =>
      refine ⟨_, rfl, says_of (Verif.Query.cmpS_less x y) ?_⟩
      rw [Verif.Query.cmpS_zero']; simp [equal]
    | _ => exact absurd h id
  | interval x =>
    cases b with
    | interval y =>
      refine ⟨_, rfl, says_of ?_ ?_⟩
      · simp only [vcompare, less]
        have a1 := @Verif.Query.cmpI_neg' x.m y.m
        have a2 := @Verif.Query.cmpI_zero' x.m y.m
        have b1 := @Verif.Query.cmpI_neg' x.d y.d
        have b2 := @Verif.Query.cmpI_zero' x.d y.d
        have c1 := @Verif.Query.cmpI_neg' x.us y.us
        split
        · omega
        · split <;> omega
      · obtain ⟨xm, xd, xu⟩ := x
        obtain ⟨ym, yd, yu⟩ := y
        simp only [vcompare, equal, Val.interval.injEq, Iv.mk.injEq]
        have a2 := @Verif.Query.cmpI_zero' xm ym
        have b2 := @Verif.Query.cmpI_zero' xd yd
        have c2 := @Verif.Query.cmpI_zero' xu yu
        split
        · omega
        · split <;> omega
    | _ => exact absurd h id
  | uuid x y =>
    cases b with
    | uuid x' y' =>
      refine ⟨_, rfl, says_of ?_ ?_⟩
      · simp only [vcompare, less]
        have a1 := @Verif.Query.cmpI_neg' x x'
        have a2 := @Verif.Query.cmpI_zero' x x'
        have b1 := @Verif.Query.cmpI_neg' y y'
        split <;> omega
      · simp only [vcompare, equal, Val.uuid.injEq]
        have a2 := @Verif.Query.cmpI_zero' x x'
        have b2 := @Verif.Query.cmpI_zero' y y'
        split <;> omega
    | _ => exact absurd h id
  | _ => cases b <;> exact absurd h id

/-- C86: no comparison holds of a double that is not a number -/
theorem C86_nan (P : Prims) (k : CmpOp) (a b : Nat) (h : isNaN a ∨ isNaN b) : compareVals P k (.dbl a) (.dbl b) = .ok false := by
  show Except.ok (fcmp k a b) = _
  unfold fcmp
  rcases h with h | h <;> simp [h]

/-- the hypotheses hold: `'ab' < 'b'`, `-1.5 < 2.0` -/
example : Ordered (.str [97, 98]) (.str [98]) ∧ Ordered (.dbl 0xBFF8000000000000) (.dbl 0x4000000000000000) ∧ less (.dbl 0xBFF8000000000000) (.dbl 0x4000000000000000) := by
  refine ⟨trivial, ⟨by decide +kernel, by decide +kernel⟩, ?_⟩
  show dblNum _ < dblNum _
  decide +kernel

end Verif.Compile
