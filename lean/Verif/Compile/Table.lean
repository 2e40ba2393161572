import Verif.Compile.Spec
/-!
# The table of operators: an opcode chosen by the types does what the operator says
-/
set_option linter.unusedSimpArgs false
set_option linter.unusedVariables false
namespace Verif.Compile
open Verif.Query (CmpOp)

variable {W : Type}

/-- the types whose values may own a buffer -/
def Ty.heap : Ty → Bool
  | .string => true | .json => true | .vector => true
  | _ => false

theorem heap_ty (v : Val) : v.heap = v.ty.heap := by cases v <;> rfl

theorem HasTy.null_of {v : Val} (h : HasTy v .null) : v = .null := by
  rcases h with h | h
  · exact h
  · cases v <;> simp_all [Val.ty]

theorem HasTy.nonheap {v : Val} {t : Ty} (h : HasTy v t) (ht : t.heap = false) : v.heap = false := by
  rcases h with h | h
  · subst h; rfl
  · rw [heap_ty, h, ht]

/-- the opcode computes the operator -/
structure OpcOk (P : Prims) (o : Op) (l r t : Ty) (c : Opc) : Prop where
  sem : ∀ a b, a.ty = l → b.ty = r → execOp P c a b = applyOp P o a b
  ty : o ≠ .like → ∀ a b v, a.ty = l → b.ty = r → execOp P c a b = .ok v → HasTy v t
  free : c.frees = false → l.heap = false ∧ r.heap = false

theorem map_ok {A B : Type} {f : A → B} {x : Except Stop A} {v : B} (h : x.map f = .ok v) : ∃ a, x = .ok a ∧ f a = v := by
  cases x with
  | error e => simp [Except.map] at h
  | ok a => exact ⟨a, rfl, by simpa [Except.map] using h⟩

theorem vbool_ty (b : Bool) : HasTy (vbool b) .bool := Or.inr rfl
theorem jsonOr_ty (o : Option (List Nat)) : HasTy (jsonOr o) .json := by
  cases o
  · exact Or.inl rfl
  · exact Or.inr rfl

/-- take two values apart by their types -/
macro "values" a:ident b:ident ha:ident hb:ident : tactic => `(tactic| (
  cases $a:ident <;> first
    | (simp [Val.ty] at $ha:ident; done)
    | (cases $b:ident <;> first
        | (simp [Val.ty] at $hb:ident; done)
        | skip)))

/-- one entry of the table -/
macro "entry" : tactic => `(tactic| (
  refine ⟨fun a b ha hb => ?_, fun hl a b v ha hb hv => ?_, fun hf => ?_⟩
  · values a b ha hb
    rfl
  · values a b ha hb
    first
    | exact absurd rfl hl
    | (cases hv; exact Or.inr rfl)
    | (obtain ⟨x, _, hx⟩ := map_ok hv; subst hx; first | exact Or.inr rfl | exact jsonOr_ty _)
    | (simp only [execOp, fInt, fDbl, fIv, fVec, fStr, Except.bind] at hv
       first
       | (split at hv
          · cases hv
          · first
            | (obtain ⟨x, _, hx⟩ := map_ok hv; subst hx; exact Or.inr rfl)
            | (cases hv; exact Or.inr rfl)
            | (split at hv
               · cases hv
               · cases hv; exact Or.inr rfl)))
  · first | exact ⟨rfl, rfl⟩ | (cases hf)))

theorem castEqu_ok (P : Prims) {l r t : Ty} {c : Opc} (h : castEqu l r = some (t, c)) : OpcOk P (.cmp .equ) l r t c := by
  unfold castEqu at h
  split at h <;> first | (cases h; done) | (cases h; entry)

theorem castOrd_ok (P : Prims) (k : CmpOp) {l r t : Ty} {c : Opc} (h : castOrd k l r = some (t, c)) : OpcOk P (.cmp k) l r t c := by
  unfold castOrd at h
  split at h <;> first | (cases h; done) | (cases h; entry)

theorem castAdd_ok (P : Prims) {l r t : Ty} {c : Opc} (h : castAdd l r = some (t, c)) : OpcOk P .add l r t c := by
  unfold castAdd at h
  split at h <;> first | (cases h; done) | (cases h; entry)

theorem castSub_ok (P : Prims) {l r t : Ty} {c : Opc} (h : castSub l r = some (t, c)) : OpcOk P .sub l r t c := by
  unfold castSub at h
  split at h <;> first | (cases h; done) | (cases h; entry)

theorem castOp_ok (P : Prims) {o : Op} {l r t : Ty} {c : Opc} (h : castOp o l r = some (t, c)) : OpcOk P o l r t c := by
  unfold castOp at h
  split at h
  all_goals first
    | (cases h; done)
    | exact castEqu_ok P h
    | exact castOrd_ok P _ h
    | exact castAdd_ok P h
    | exact castSub_ok P h
    | (cases h; entry)

end Verif.Compile
