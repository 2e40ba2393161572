import Verif.Json.Compare
set_option linter.unusedSimpArgs false
namespace Verif.Json
open Verif

mutual
/-- Identify the two IEEE zeros: numeric identity of reals.  Used to say "the same value". -/
def norm : J → J
  | .null => .null
  | .bool b => .bool b
  | .int i => .int i
  | .real r => .real (if r = 2 ^ 63 then 0 else r)
  | .str s => .str s
  | .arr l => .arr (normList l)
  | .obj l => .obj (normFields l)
def normList : List J → List J
  | [] => []
  | v :: t => norm v :: normList t
def normFields : List (Bytes × J) → List (Bytes × J)
  | [] => []
  | (k, v) :: t => (k, norm v) :: normFields t
end

theorem f64key_inj (a b : Nat) (ha : a < 2 ^ 64) (hb : b < 2 ^ 64) :
    f64key a = f64key b ↔ (if a = 2 ^ 63 then 0 else a) = (if b = 2 ^ 63 then 0 else b) := by
  unfold f64key f64mag
  constructor
  · intro h
    split at h <;> split at h <;> split <;> split <;> omega
  · intro h
    split at h <;> split at h <;> split <;> split <;> omega

theorem map_ofNat_inj (a b : Bytes) : a.map Int.ofNat = b.map Int.ofNat ↔ a = b := by
  constructor
  · intro h
    exact (List.map_inj_right (f := Int.ofNat) (by intro x y hxy; exact Int.ofNat.inj hxy)).1 h
  · rintro rfl; rfl

theorem then_eq (a b : Ordering) : a.then b = .eq ↔ a = .eq ∧ b = .eq := by
  cases a <;> cases b <;> simp

theorem cmpL_str_eq (a b : Bytes) : Ord.compare (a.map Int.ofNat) (b.map Int.ofNat) = .eq ↔ a = b := by
  rw [Std.compare_eq_iff_eq, map_ofNat_inj]

mutual
theorem cmpJ_zero : (a b : J) → WF a → WF b → (cmpJ a b = .eq ↔ norm a = norm b)
  | .null, .null, _, _ => by simp [cmpJ, norm]
  | .bool a, .bool b, _, _ => by cases a <;> cases b <;> simp [cmpJ, norm, Std.compare_eq_iff_eq]
  | .int a, .int b, _, _ => by simp [cmpJ, norm, Std.compare_eq_iff_eq]
  | .real a, .real b, ha, hb => by
    simp only [WF] at ha hb
    simp only [cmpJ, norm, Std.compare_eq_iff_eq, f64key_inj a b ha hb, J.real.injEq]
  | .str a, .str b, _, _ => by simp only [cmpJ, norm, cmpL_str_eq, J.str.injEq]
  | .arr a, .arr b, ha, hb => by
    simp only [WF] at ha hb
    simp only [cmpJ, norm, cmpL_zero a b ha hb, J.arr.injEq]
  | .obj a, .obj b, ha, hb => by
    simp only [WF] at ha hb
    simp only [cmpJ, norm, cmpF_zero a b ha hb, J.obj.injEq]
  | .null, .bool _, p, q | .null, .real _, p, q | .null, .int _, p, q | .null, .str _, p, q
  | .null, .arr _, p, q | .null, .obj _, p, q
  | .bool _, .null, p, q | .bool _, .real _, p, q | .bool _, .int _, p, q | .bool _, .str _, p, q
  | .bool _, .arr _, p, q | .bool _, .obj _, p, q
  | .real _, .null, p, q | .real _, .bool _, p, q | .real _, .int _, p, q | .real _, .str _, p, q
  | .real _, .arr _, p, q | .real _, .obj _, p, q
  | .int _, .null, p, q | .int _, .real _, p, q | .int _, .bool _, p, q | .int _, .str _, p, q
  | .int _, .arr _, p, q | .int _, .obj _, p, q
  | .str _, .null, p, q | .str _, .real _, p, q | .str _, .int _, p, q | .str _, .bool _, p, q
  | .str _, .arr _, p, q | .str _, .obj _, p, q
  | .arr _, .null, p, q | .arr _, .real _, p, q | .arr _, .int _, p, q | .arr _, .str _, p, q
  | .arr _, .bool _, p, q | .arr _, .obj _, p, q
  | .obj _, .null, p, q | .obj _, .real _, p, q | .obj _, .int _, p, q | .obj _, .str _, p, q
  | .obj _, .arr _, p, q | .obj _, .bool _, p, q => by
      rw [cmpJ_mismatch (by simp [rank])]
      simp [norm, rank, Std.compare_eq_iff_eq]
theorem cmpL_zero : (a b : List J) → WFList a → WFList b → (cmpL a b = .eq ↔ normList a = normList b)
  | [], [], _, _ => by simp [cmpL, normList]
  | [], _ :: _, _, _ => by simp [cmpL, normList]
  | _ :: _, [], _, _ => by simp [cmpL, normList]
  | a :: as, b :: bs, ha, hb => by
    simp only [WFList] at ha hb
    simp only [cmpL, normList, then_eq, cmpJ_zero a b ha.1 hb.1, cmpL_zero as bs ha.2 hb.2, List.cons.injEq]
theorem cmpF_zero : (a b : List (Bytes × J)) → WFFields a → WFFields b → (cmpF a b = .eq ↔ normFields a = normFields b)
  | [], [], _, _ => by simp [cmpF, normFields]
  | [], _ :: _, _, _ => by simp [cmpF, normFields]
  | _ :: _, [], _, _ => by simp [cmpF, normFields]
  | (k, a) :: as, (k', b) :: bs, ha, hb => by
    simp only [WFFields] at ha hb
    simp only [cmpF, normFields, then_eq, cmpL_str_eq, cmpJ_zero a b ha.2.1 hb.2.1, cmpF_zero as bs ha.2.2 hb.2.2,
      List.cons.injEq, Prod.mk.injEq, and_assoc]
end

theorem storedReal_lt (r : Nat) (h : r < 2 ^ 64) : storedReal r < 2 ^ 64 := by
  unfold storedReal
  split
  · rename_i hr
    simp [inFloatRange] at hr
    unfold f64OfF32 f32OfF64
    simp only
    split
    · rw [if_neg (by omega), if_neg (by omega)]
      omega
    · rw [if_neg (by omega), if_neg (by omega)]
      omega
  · exact h

mutual
theorem stored_wf : (v : J) → WF v → WF (stored v)
  | .null, _ => by simp [stored, WF]
  | .bool _, _ => by simp [stored, WF]
  | .int _, h => by simpa [stored, WF] using h
  | .real r, h => by simp only [stored, WF] at h ⊢; exact storedReal_lt r h
  | .str _, h => by simpa [stored, WF] using h
  | .arr l, h => by simp only [stored, WF] at h ⊢; exact storedList_wf l h
  | .obj l, h => by simp only [stored, WF] at h ⊢; exact storedFields_wf l h
theorem storedList_wf : (l : List J) → WFList l → WFList (storedList l)
  | [], _ => by simp [storedList, WFList]
  | v :: t, h => by
    simp only [storedList, WFList] at h ⊢
    exact ⟨stored_wf v h.1, storedList_wf t h.2⟩
theorem storedFields_wf : (l : List (Bytes × J)) → WFFields l → WFFields (storedFields l)
  | [], _ => by simp [storedFields, WFFields]
  | (k, v) :: t, h => by
    simp only [storedFields, WFFields] at h ⊢
    exact ⟨h.1, stored_wf v h.2.1, storedFields_wf t h.2.2⟩
end

theorem compare_enc (a b : J) (wa : WF a) (wb : WF b) (na : NoNaN a) (nb : NoNaN b) (ra rb : Bytes) :
    compare (enc a ++ ra) (enc b ++ rb) = .ok (ordInt (cmpJ (stored a) (stored b))) := by
  have h := ntok_le a
  have e : (enc a ++ ra).length + (enc b ++ rb).length =
    ((enc a).length - ntok a + ra.length + (enc b ++ rb).length) + ntok a := by simp; omega
  unfold compare
  rw [e, sim a b wa wb na nb _ 0 ra rb (by omega)]
  cases cmpJ (stored a) (stored b) <;> simp [cmpCont, ordInt]

theorem cmpJ_swap (a b : J) : cmpJ b a = (cmpJ a b).swap := by
  rw [cmpJ_eq, cmpJ_eq]; exact Std.OrientedOrd.eq_swap

theorem ordInt_swap (o : Ordering) : ordInt o.swap = - ordInt o := by cases o <;> rfl

theorem cmpJ_trans {a b c : J} (h1 : ordInt (cmpJ a b) ≤ 0) (h2 : ordInt (cmpJ b c) ≤ 0) :
    ordInt (cmpJ a c) ≤ 0 := by
  have key : ∀ o : Ordering, ordInt o ≤ 0 ↔ o.isLE = true := by intro o; cases o <;> simp [ordInt]
  rw [key] at *
  rw [cmpJ_eq] at *
  exact Std.TransOrd.isLE_trans h1 h2

end Verif.Json
