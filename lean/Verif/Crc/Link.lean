import Verif.Crc.Proofs
import Verif.Crc.Spec
/-!
# Checksums: polynomials and bursts
-/
set_option autoImplicit false
set_option linter.unusedVariables false
set_option linter.unusedSimpArgs false
namespace Verif.Crc
open Verif Verif.Wal

theorem leNat_bit (bs : Bytes) : ∀ i, IsBytes bs → (leNat bs).testBit i = bitAt bs i := by
  induction bs with
  | nil => intro i _; simp [leNat, bitAt]
  | cons b t ih =>
    intro i hb
    have hb1 : b < 2 ^ 8 := hb b (by simp)
    show (b + 256 * leNat t).testBit i = _
    rw [Nat.add_comm, show (256 : Nat) = 2 ^ 8 from rfl, Nat.testBit_two_pow_mul_add _ hb1]
    by_cases hi : i < 8
    · rw [if_pos hi]
      have e1 : i / 8 = 0 := by omega
      have e2 : i % 8 = i := by omega
      simp [bitAt, e1, e2]
    · rw [if_neg hi, ih _ (fun x hx => hb x (by simp [hx]))]
      have e1 : i / 8 = (i - 8) / 8 + 1 := by omega
      have e2 : i % 8 = (i - 8) % 8 := by omega
      simp [bitAt, e1, e2]

theorem fold_bit (f : Nat → Bool) (n : Nat) : ∀ i, ((List.range n).foldl (fun a i => 2 * a + (f i).toNat) 0).testBit i = (decide (i < n) && f (n - 1 - i)) := by
  induction n with
  | zero => intro i; simp
  | succ n ih =>
    intro i
    rw [List.range_succ, List.foldl_append]
    show (2 * ((List.range n).foldl (fun a i => 2 * a + (f i).toNat) 0) + (f n).toNat).testBit i = _
    cases i with
    | zero =>
      rw [Nat.testBit_zero]
      cases h : f n <;> simp [h]
    | succ i =>
      rw [Nat.testBit_succ]
      have e : ∀ a : Nat, (2 * a + (f n).toNat) / 2 = a := by intro a; cases f n <;> simp <;> omega
      rw [e, ih]
      have e1 : n + 1 - 1 - (i + 1) = n - 1 - i := by omega
      rw [e1]
      simp

theorem polyOf_eq {bs : Bytes} (hb : IsBytes bs) : polyOf bs = reflect (8 * bs.length) (leNat bs) := by
  apply Nat.eq_of_testBit_eq
  intro i
  unfold polyOf
  rw [fold_bit, reflect_testBit, leNat_bit _ _ hb]

theorem polyOfCrc_eq (c : Nat) : polyOfCrc c = reflect 32 c := by
  apply Nat.eq_of_testBit_eq
  intro i
  unfold polyOfCrc
  rw [fold_bit, reflect_testBit]

theorem leNat_lt8 {bs : Bytes} (hb : IsBytes bs) : leNat bs < 2 ^ (8 * bs.length) := by
  have := leNat_lt hb
  rwa [show (256 : Nat) = 2 ^ 8 from rfl, ← Nat.pow_mul] at this

theorem crc_instr {c : Nat} {bs : Bytes} (hb : IsBytes bs) (hc : c < 2 ^ 32) : crc32 c bs = instr (8 * bs.length) c (leNat bs) := by
  rw [instr_it hc (leNat_lt8 hb), crc32_it _ _ hb]

theorem reflect_lt (w x : Nat) : reflect w x < 2 ^ w := by
  apply Nat.lt_pow_two_of_testBit
  intro j hj
  rw [reflect_testBit, decide_eq_false (by omega)]; rfl

theorem reflect_reflect {w x : Nat} (h : x < 2 ^ w) : reflect w (reflect w x) = x := by
  apply Nat.eq_of_testBit_eq
  intro i
  rw [reflect_testBit, reflect_testBit]
  by_cases hi : i < w
  · have e : w - 1 - (w - 1 - i) = i := by omega
    have h1 : w - 1 - i < w := by omega
    rw [e, decide_eq_true hi, decide_eq_true h1]; rfl
  · rw [high (j := i) h (by omega), decide_eq_false hi]; rfl

theorem multiple_xor {a b : Nat} (ha : Multiple a) (hb : Multiple b) : Multiple (a ^^^ b) := by
  induction hb with
  | zero => rw [Nat.xor_zero]; exact ha
  | step k _ ih => rw [← Nat.xor_assoc]; exact .step k ih

/-- the division leaves a remainder -/
theorem mod2_multiple (n : Nat) : ∀ x, Multiple (x ^^^ mod2 n x) := by
  induction n with
  | zero => intro x; show Multiple (x ^^^ x); rw [Nat.xor_self]; exact .zero
  | succ n ih =>
    intro x
    have h := ih (dstep n x)
    show Multiple (x ^^^ mod2 n (dstep n x))
    by_cases hb : x.testBit (n + 32) = true
    · have e : dstep n x = x ^^^ (P <<< n) := by unfold dstep; rw [if_pos hb]
      have := Multiple.step n h
      have e2 : dstep n x ^^^ mod2 n (dstep n x) ^^^ (0x11EDC6F41 <<< n) = x ^^^ mod2 n (dstep n x) := by
        generalize mod2 n (dstep n x) = m
        rw [e, Nat.xor_assoc, Nat.xor_assoc, Nat.xor_comm m, ← Nat.xor_assoc (P <<< n), Nat.xor_self, Nat.zero_xor]
      rw [e2] at this
      exact this
    · have e : dstep n x = x := by unfold dstep; rw [if_neg hb]
      rw [e] at h ⊢
      exact h

/-- a multiple below x^32 is zero -/
theorem multiple_small {x : Nat} (h : Multiple x) : ∃ n, ∀ m, n ≤ m → mod2 m x = 0 := by
  induction h with
  | zero => exact ⟨0, fun m _ => mod2_zero m⟩
  | step k _ ih =>
    obtain ⟨n, h⟩ := ih
    refine ⟨max n (k + 1), fun m hm => ?_⟩
    rw [mod2_xor, h m (by omega), mod2_poly m k (by omega), Nat.xor_self]

theorem multiple_zero {x : Nat} (h : Multiple x) (hx : x < 2 ^ 32) : x = 0 := by
  obtain ⟨n, h⟩ := multiple_small h
  rw [← h n (Nat.le_refl n), mod2_small n x hx]

theorem crc_multiple {c : Nat} {bs : Bytes} (hb : IsBytes bs) (hc : c < 2 ^ 32) :
    Multiple ((polyOf bs <<< 32) ^^^ (polyOfCrc c <<< (8 * bs.length)) ^^^ polyOfCrc (crc32 c bs)) ∧ polyOfCrc (crc32 c bs) < 2 ^ 32 := by
  have e : crc32 c bs = reflect 32 (mod2 (8 * bs.length) (dividend (8 * bs.length) c (leNat bs))) := crc_instr hb hc
  have hl := (mod2_it _ _ (dividend_lt (8 * bs.length) c (leNat bs))).2
  rw [polyOfCrc_eq (crc32 c bs), e, reflect_reflect hl, polyOf_eq hb, polyOfCrc_eq]
  exact ⟨mod2_multiple _ _, hl⟩

theorem xor_cancel (a b : Nat) : a ^^^ b ^^^ b = a := by rw [Nat.xor_assoc, Nat.xor_self, Nat.xor_zero]

theorem xor_eq_zero {a b : Nat} (h : a ^^^ b = 0) : a = b := by
  have := xor_cancel a b
  rw [h, Nat.zero_xor] at this
  exact this.symm

theorem rem_unique {x r s : Nat} (h1 : Multiple (x ^^^ r)) (h2 : Multiple (x ^^^ s)) (hr : r < 2 ^ 32) (hs : s < 2 ^ 32) : r = s := by
  have h := multiple_xor h1 h2
  have e : x ^^^ r ^^^ (x ^^^ s) = r ^^^ s := by
    rw [Nat.xor_comm x r, Nat.xor_assoc, ← Nat.xor_assoc x, Nat.xor_self, Nat.zero_xor]
  rw [e] at h
  exact xor_eq_zero (multiple_zero h (Nat.xor_lt_two_pow hr hs))

/-! ## bursts -/

theorem leNat_inj {x y : Bytes} (hx : IsBytes x) (hy : IsBytes y) (hl : x.length = y.length) (h : leNat x = leNat y) : x = y := by
  rw [← leBytes_leNat hx, ← leBytes_leNat hy, hl, h]

theorem crc_burst {c : Nat} {x y : Bytes} (hx : IsBytes x) (hy : IsBytes y) (h : Burst x y) : crc32 c x ≠ crc32 c y := by
  obtain ⟨hl, hne, j, hj⟩ := h
  intro e
  rw [crc32_it _ _ hx, crc32_it _ _ hy, hl] at e
  have e2 : it (8 * y.length) (leNat x ^^^ leNat y) = 0 := by
    rw [it_xor] at e ⊢
    rw [it_xor] at e
    generalize it (8 * y.length) c = a at e
    generalize it (8 * y.length) (leNat x) = p at e ⊢
    generalize it (8 * y.length) (leNat y) = q at e ⊢
    have h1 : a ^^^ (a ^^^ p) = a ^^^ (a ^^^ q) := by rw [e]
    rw [← Nat.xor_assoc, ← Nat.xor_assoc, Nat.xor_self, Nat.zero_xor, Nat.zero_xor] at h1
    rw [h1, Nat.xor_self]
  have hd : ∀ i, (leNat x ^^^ leNat y).testBit i = true → j ≤ i ∧ i < j + 32 := by
    intro i hi
    apply hj
    rw [Nat.testBit_xor, leNat_bit _ _ hx, leNat_bit _ _ hy] at hi
    intro h
    rw [h, Bool.xor_self] at hi
    cases hi
  have hne0 : leNat x ^^^ leNat y ≠ 0 := fun h => hne (leNat_inj hx hy hl (xor_eq_zero h))
  have hlt : leNat x ^^^ leNat y < 2 ^ (8 * y.length) := Nat.xor_lt_two_pow (by rw [← hl]; exact leNat_lt8 hx) (leNat_lt8 hy)
  generalize leNat x ^^^ leNat y = d at hd hne0 hlt e2
  -- d = 2^j * e
  have hde : d = 2 ^ j * (d >>> j) := by
    apply Nat.eq_of_testBit_eq
    intro i
    rw [Nat.testBit_two_pow_mul, Nat.testBit_shiftRight]
    by_cases h : i ≥ j
    · rw [decide_eq_true h, Nat.add_sub_cancel' h]; rfl
    · rw [decide_eq_false h]
      cases hb : d.testBit i with
      | false => rfl
      | true => exact absurd (hd i hb).1 h
  have he : d >>> j < 2 ^ 32 := by
    apply Nat.lt_pow_two_of_testBit
    intro i hi
    rw [Nat.testBit_shiftRight]
    cases hb : d.testBit (j + i) with
    | false => rfl
    | true => have := (hd _ hb).2; omega
  have hpos : 0 < d >>> j := by
    rcases Nat.eq_zero_or_pos (d >>> j) with h | h
    · rw [h, Nat.mul_zero] at hde; exact absurd hde hne0
    · exact h
  have hjn : j < 8 * y.length := by
    rcases Nat.lt_or_ge j (8 * y.length) with h | h
    · exact h
    · exfalso
      have h1 : 2 ^ (8 * y.length) ≤ 2 ^ j := Nat.pow_le_pow_right (by omega) h
      have h2 : 2 ^ j * 1 ≤ 2 ^ j * (d >>> j) := Nat.mul_le_mul_left _ hpos
      omega
  have e3 : 8 * y.length = j + (8 * y.length - j) := by omega
  rw [e3, it_add] at e2
  have e4 : it j d = d >>> j := by
    conv => lhs; rw [hde, it_shift]
  rw [e4] at e2
  have := it_pos (8 * y.length - j) _ hpos he
  omega

/-- bytes that are replaced by others, at most four in a row -/
theorem burst_bytes {a u v b : Bytes} (hl : u.length = v.length) (h4 : u.length ≤ 4) (hne : u ≠ v) : Burst (a ++ u ++ b) (a ++ v ++ b) := by
  refine ⟨by simp [hl], ?_, 8 * a.length, ?_⟩
  · intro h
    rw [List.append_assoc, List.append_assoc] at h
    exact hne (List.append_cancel_right (List.append_cancel_left h))
  · intro i hi
    unfold bitAt at hi
    by_cases h1 : i / 8 < a.length
    · exfalso
      apply hi
      rw [List.append_assoc, List.append_assoc, List.getD_eq_getElem?_getD, List.getD_eq_getElem?_getD, List.getElem?_append_left h1, List.getElem?_append_left h1]
    · by_cases h2 : i / 8 < a.length + u.length
      · omega
      · exfalso
        apply hi
        rw [List.getD_eq_getElem?_getD, List.getD_eq_getElem?_getD, List.getElem?_append_right (by simp; omega), List.getElem?_append_right (by simp; omega)]
        simp [hl]

end Verif.Crc
