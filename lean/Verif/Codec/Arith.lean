import Verif.Common
set_option linter.unusedSimpArgs false
/-!
# Integer arithmetic of expressions: runtime/base/overflow.h, vm/vm/vm.c, runtime/base/str.h (str_toint)
-/
namespace Verif.Codec.Arith
open Verif

/-- int64_t range -/
def I64 (x : Int) : Prop := -(2 ^ 63) ≤ x ∧ x < 2 ^ 63
instance (x : Int) : Decidable (I64 x) := inferInstanceAs (Decidable (_ ∧ _))

/-- two's complement wrap of the mathematical result, what the gcc builtins store (GCC manual) -/
def wrap64 (x : Int) : Int := (x + 2 ^ 63) % 2 ^ 64 - 2 ^ 63

/-- int64_add_overflow, overflow.h:35-40: (stored result, overflow flag) of __builtin_saddll_overflow -/
def addOverflow (a b : Int) : Int × Bool := (wrap64 (a + b), decide (wrap64 (a + b) ≠ a + b))
/-- int64_sub_overflow, overflow.h:42-47 -/
def subOverflow (a b : Int) : Int × Bool := (wrap64 (a - b), decide (wrap64 (a - b) ≠ a - b))
/-- int64_mul_overflow, overflow.h:49-54 -/
def mulOverflow (a b : Int) : Int × Bool := (wrap64 (a * b), decide (wrap64 (a * b) ≠ a * b))
/-- int64_mul_add_overflow, overflow.h:64-70 -/
def mulAddOverflow (a mul add : Int) : Int × Bool :=
  let (r, o) := mulOverflow a mul
  if o then (r, true) else addOverflow r add

/-- caddii, vm.c:1017-1024 (operands not NULL) -/
def cadd (a b : Int) : Res Int := let (r, o) := addOverflow a b; if o then .error .err else .ok r
/-- csubii, vm.c:1128-1135 -/
def csub (a b : Int) : Res Int := let (r, o) := subOverflow a b; if o then .error .err else .ok r
/-- cmulii, vm.c:1223-1230 -/
def cmul (a b : Int) : Res Int := let (r, o) := mulOverflow a b; if o then .error .err else .ok r
/-- C `/` on int64: truncation; dividing INT64_MIN by -1 is undefined (a trap on x86) -/
def cdivOp (a b : Int) : Res Int :=
  if b = 0 ∨ (a = -(2 ^ 63) ∧ b = -1) then .error .ub else .ok (a.tdiv b)
/-- C `%` on int64: undefined whenever the quotient is -/
def cmodOp (a b : Int) : Res Int :=
  if b = 0 ∨ (a = -(2 ^ 63) ∧ b = -1) then .error .ub else .ok (a.tmod b)
/-- cdivii, vm.c:1275-1282 -/
def cdiv (a b : Int) : Res Int := if b = 0 then .error .err else cdivOp a b
/-- cmodii, vm.c:1318-1325 -/
def cmod (a b : Int) : Res Int := if b = 0 then .error .err else cmodOp a b
/-- cnegi, vm.c:1328-1331; negating INT64_MIN is undefined -/
def cneg (a : Int) : Res Int := if a = -(2 ^ 63) then .error .ub else .ok (-a)
/-- fn_abs, vm/func/fn_math.c:34: llabs -/
def fnAbs (a : Int) : Res Int := if a = -(2 ^ 63) then .error .ub else .ok (if a < 0 then -a else a)
/-- cshlii, vm.c:747-750: `<<` with a count outside [0,63] is undefined; bits shifted out are lost -/
def cshl (a b : Int) : Res Int := if b < 0 ∨ 64 ≤ b then .error .ub else .ok (wrap64 (a * 2 ^ b.toNat))
/-- cshrii, vm.c:752-755 (arithmetic shift) -/
def cshr (a b : Int) : Res Int := if b < 0 ∨ 64 ≤ b then .error .ub else .ok (a / 2 ^ b.toNat)

/-- the loop of str_toint, runtime/base/str.h:273-289; `none` = -1 -/
def strToIntLoop : Int → Bytes → Option Int
  | v, [] => some v
  | v, c :: t =>
    if 48 ≤ c ∧ c ≤ 57 then
      let (r, o) := mulAddOverflow v 10 ((c : Int) - 48)
      if o then none else strToIntLoop r t
    else none
/-- str_toint -/
def strToInt (s : Bytes) : Option Int := strToIntLoop 0 s

/-! ## proofs -/

theorem wrap_eq {x : Int} : wrap64 x = x ↔ I64 x := by
  unfold wrap64 I64; omega

theorem wrap_range (x : Int) : I64 (wrap64 x) := by unfold wrap64 I64; omega

theorem add_spec (a b : Int) : addOverflow a b = (if I64 (a + b) then (a + b, false) else (wrap64 (a + b), true)) := by
  unfold addOverflow
  by_cases h : I64 (a + b)
  · simp [h, wrap_eq.mpr h]
  · have : wrap64 (a + b) ≠ a + b := fun e => h (wrap_eq.mp e)
    simp [h, this]
theorem sub_spec (a b : Int) : subOverflow a b = (if I64 (a - b) then (a - b, false) else (wrap64 (a - b), true)) := by
  unfold subOverflow
  by_cases h : I64 (a - b)
  · simp [h, wrap_eq.mpr h]
  · have : wrap64 (a - b) ≠ a - b := fun e => h (wrap_eq.mp e)
    simp [h, this]
theorem mul_spec (a b : Int) : mulOverflow a b = (if I64 (a * b) then (a * b, false) else (wrap64 (a * b), true)) := by
  unfold mulOverflow
  by_cases h : I64 (a * b)
  · simp [h, wrap_eq.mpr h]
  · have : wrap64 (a * b) ≠ a * b := fun e => h (wrap_eq.mp e)
    simp [h, this]

theorem mulAdd_ok (v d : Int) (hv : 0 ≤ v) (hd : 0 ≤ d) (h : v * 10 + d < 2 ^ 63) :
    mulAddOverflow v 10 d = (v * 10 + d, false) := by
  have h1 : I64 (v * 10) := by unfold I64; omega
  have h2 : I64 (v * 10 + d) := by unfold I64; omega
  simp only [mulAddOverflow, mul_spec, h1, if_true, add_spec, h2]
  simp

theorem mulAdd_over (v d : Int) (hv : 0 ≤ v) (hd : 0 ≤ d) (h : 2 ^ 63 ≤ v * 10 + d) :
    ∃ r, mulAddOverflow v 10 d = (r, true) := by
  simp only [mulAddOverflow, mul_spec]
  by_cases h1 : I64 (v * 10)
  · have h2 : ¬ I64 (v * 10 + d) := by unfold I64; omega
    exact ⟨_, by simp only [h1, if_true, add_spec, h2, if_false, Bool.false_eq_true]; rfl⟩
  · exact ⟨_, by simp only [h1, if_true, if_false]; rfl⟩

/-- decimal value of a text of digits -/
def digitsValue (s : Bytes) : Nat := s.foldl (fun v c => v * 10 + (c - 48)) 0

theorem foldl_mono (s : Bytes) : ∀ v : Nat, v ≤ s.foldl (fun v c => v * 10 + (c - 48)) v := by
  induction s with
  | nil => intro v; simp
  | cons c t ih => intro v; simp only [List.foldl_cons]; exact Nat.le_trans (by omega) (ih _)

theorem strToIntLoop_ok (s : Bytes) : ∀ (v : Nat), (∀ c ∈ s, 48 ≤ c ∧ c ≤ 57) →
    s.foldl (fun v c => v * 10 + (c - 48)) v < 2 ^ 63 →
    strToIntLoop v s = some ((s.foldl (fun v c => v * 10 + (c - 48)) v : Nat) : Int) := by
  induction s with
  | nil => intro v _ hv; rfl
  | cons c t ih =>
    intro v hd hv
    have hc := hd c (by simp)
    have hm := foldl_mono t (v * 10 + (c - 48))
    rw [List.foldl_cons] at hv ⊢
    have e : (v : Int) * 10 + ((c : Int) - 48) = ((v * 10 + (c - 48) : Nat) : Int) := by omega
    have h1 := mulAdd_ok v ((c : Int) - 48) (by omega) (by omega) (by omega)
    have h2 := ih _ (fun x hx => hd x (by simp [hx])) hv
    rw [strToIntLoop, if_pos hc, h1]
    dsimp only
    rw [if_neg (by simp), e, h2]

theorem strToIntLoop_over (s : Bytes) : ∀ (v : Nat), (∀ c ∈ s, 48 ≤ c ∧ c ≤ 57) → v < 2 ^ 63 →
    2 ^ 63 ≤ s.foldl (fun v c => v * 10 + (c - 48)) v → strToIntLoop v s = none := by
  induction s with
  | nil => intro v _ hv h; rw [List.foldl_nil] at h; omega
  | cons c t ih =>
    intro v hd hv h
    have hc := hd c (by simp)
    rw [List.foldl_cons] at h
    rw [strToIntLoop, if_pos hc]
    have e : (v : Int) * 10 + ((c : Int) - 48) = ((v * 10 + (c - 48) : Nat) : Int) := by omega
    by_cases hlt : (v : Int) * 10 + ((c : Int) - 48) < 2 ^ 63
    · rw [mulAdd_ok v ((c : Int) - 48) (by omega) (by omega) hlt]
      dsimp only
      rw [if_neg (by simp), e]
      exact ih _ (fun x hx => hd x (by simp [hx])) (by omega) h
    · obtain ⟨r, hr⟩ := mulAdd_over v ((c : Int) - 48) (by omega) (by omega) (by omega)
      rw [hr]
      dsimp only
      rw [if_pos rfl]

theorem strToIntLoop_nondigit (s : Bytes) : ∀ v, (∃ c ∈ s, ¬ (48 ≤ c ∧ c ≤ 57)) → strToIntLoop v s = none := by
  induction s with
  | nil => intro v h; simp at h
  | cons c t ih =>
    intro v h
    simp only [strToIntLoop]
    by_cases hc : 48 ≤ c ∧ c ≤ 57
    · rw [if_pos hc]
      obtain ⟨x, hx, hn⟩ := h
      simp only [List.mem_cons] at hx
      rcases hx with rfl | hx
      · exact absurd hc hn
      · split
        · rfl
        · exact ih _ ⟨x, hx, hn⟩
    · rw [if_neg hc]

end Verif.Codec.Arith
