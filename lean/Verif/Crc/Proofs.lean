import Verif.Crc.Model
import Verif.Wal.RecProofs
/-!
# Checksums: proofs
-/
set_option autoImplicit false
set_option linter.unusedVariables false
set_option linter.unusedSimpArgs false
namespace Verif.Crc
open Verif Verif.Wal

/-- `n` steps -/
def it : Nat → Nat → Nat
  | 0, x => x
  | n + 1, x => it n (crcBit x)

theorem it_add (m n x : Nat) : it (m + n) x = it n (it m x) := by
  induction m generalizing x with
  | zero => simp [it]
  | succ m ih => rw [Nat.succ_add]; exact ih _

theorem crcBit_testBit (x i : Nat) : (crcBit x).testBit i = (x.testBit (i + 1) ^^ (x.testBit 0 && (0x82F63B78 : Nat).testBit i)) := by
  unfold crcBit
  by_cases h : x % 2 = 1
  · rw [if_pos h, Nat.testBit_xor, Nat.testBit_succ]
    simp [Nat.testBit_zero, h]
  · rw [if_neg h, Nat.testBit_succ]
    simp [Nat.testBit_zero, h]

theorem crcBit_xor (a b : Nat) : crcBit (a ^^^ b) = crcBit a ^^^ crcBit b := by
  apply Nat.eq_of_testBit_eq
  intro i
  simp only [crcBit_testBit, Nat.testBit_xor]
  cases a.testBit (i + 1) <;> cases b.testBit (i + 1) <;> cases a.testBit 0 <;> cases b.testBit 0 <;> cases (0x82F63B78 : Nat).testBit i <;> rfl

theorem it_xor (n : Nat) : ∀ a b, it n (a ^^^ b) = it n a ^^^ it n b := by
  induction n with
  | zero => intro a b; rfl
  | succ n ih => intro a b; show it n (crcBit (a ^^^ b)) = _; rw [crcBit_xor, ih]; rfl

theorem it_shift (n : Nat) : ∀ y, it n (2 ^ n * y) = y := by
  induction n with
  | zero => intro y; simp [it]
  | succ n ih =>
    intro y
    show it n (crcBit (2 ^ (n + 1) * y)) = y
    have : crcBit (2 ^ (n + 1) * y) = 2 ^ n * y := by
      have e : 2 ^ (n + 1) * y = 2 * (2 ^ n * y) := by rw [Nat.pow_succ, Nat.mul_comm (2 ^ n) 2, Nat.mul_assoc]
      unfold crcBit
      rw [e, if_neg (by omega)]; omega
    rw [this, ih]

theorem add_xor {k b : Nat} (y : Nat) (h : b < 2 ^ k) : b + 2 ^ k * y = b ^^^ 2 ^ k * y := by
  apply Nat.eq_of_testBit_eq
  intro j
  rw [Nat.add_comm, Nat.testBit_two_pow_mul_add _ h, Nat.testBit_xor, Nat.testBit_two_pow_mul]
  by_cases hj : j < k
  · rw [if_pos hj]
    have : ¬ j ≥ k := by omega
    simp [this]
  · rw [if_neg hj]
    have : b.testBit j = false := Nat.testBit_lt_two_pow (Nat.lt_of_lt_of_le h (Nat.pow_le_pow_right (by omega) (by omega)))
    have h2 : j ≥ k := by omega
    simp [this, h2]

theorem crcByte_it (c b : Nat) : crcByte c b = it 8 (c ^^^ b) := rfl

/-- the checksum of bytes as steps on one number -/
theorem crc32_it (bs : Bytes) : ∀ c, IsBytes bs → crc32 c bs = it (8 * bs.length) (c ^^^ leNat bs) := by
  induction bs with
  | nil => intro c _; simp [crc32, it, leNat]
  | cons b t ih =>
    intro c hb
    have hb1 : b < 2 ^ 8 := hb b (by simp)
    show crc32 (crcByte c b) t = _
    rw [ih _ (fun x hx => hb x (by simp [hx])), crcByte_it]
    have e : 8 * (b :: t).length = 8 + 8 * t.length := by simp; omega
    have e2 : leNat (b :: t) = b ^^^ 2 ^ 8 * leNat t := add_xor _ hb1
    rw [e, it_add, e2, ← Nat.xor_assoc, it_xor 8 (c ^^^ b), it_shift]

/-! ## the tables -/

theorem t32_eq : t32 = (List.range 256).map (it 8) := by decide +kernel
theorem t40_eq : t40 = (List.range 256).map (it 16) := by decide +kernel
theorem t48_eq : t48 = (List.range 256).map (it 24) := by decide +kernel
theorem t56_eq : t56 = (List.range 256).map (it 32) := by decide +kernel
theorem t64_eq : t64 = (List.range 256).map (it 40) := by decide +kernel
theorem t72_eq : t72 = (List.range 256).map (it 48) := by decide +kernel
theorem t80_eq : t80 = (List.range 256).map (it 56) := by decide +kernel
theorem t88_eq : t88 = (List.range 256).map (it 64) := by decide +kernel

theorem tab {t : List Nat} {n : Nat} (h : t = (List.range 256).map (it n)) {i : Nat} (hi : i < 256) : t.getD i 0 = it n i := by
  rw [h, List.getD_eq_getElem?_getD, List.getElem?_map, List.getElem?_range hi]; rfl

theorem sext_mod (c b : Nat) (h : b < 256) : (c ^^^ sext b) % 256 = (c ^^^ b) % 256 := by
  apply Nat.eq_of_testBit_eq
  intro j
  rw [show (256 : Nat) = 2 ^ 8 from rfl, Nat.testBit_mod_two_pow, Nat.testBit_mod_two_pow, Nat.testBit_xor, Nat.testBit_xor]
  by_cases hj : j < 8
  · have : (sext b).testBit j = b.testBit j := by
      unfold sext
      by_cases hb : b < 128
      · rw [if_pos hb]
      · rw [if_neg hb, Nat.add_comm, show (0xffffff00 : Nat) = 2 ^ 8 * 0xffffff from rfl, Nat.testBit_two_pow_mul_add _ h, if_pos hj]
    rw [this]
  · simp [hj]

theorem xor_mod (c : Nat) : c = c % 256 ^^^ 2 ^ 8 * (c / 256) := by
  rw [← add_xor (k := 8) _ (Nat.mod_lt _ (by decide))]
  exact (Nat.mod_add_div c 256).symm

theorem softByte_eq {c b : Nat} (hb : b < 256) : softByte c b = crcByte c b := by
  unfold softByte
  rw [sext_mod c b hb, tab t32_eq (Nat.mod_lt _ (by decide)), crcByte_it]
  conv => rhs; rw [xor_mod (c ^^^ b), it_xor, it_shift]
  have : (c ^^^ b) / 256 = c / 256 := by
    rw [show (256 : Nat) = 2 ^ 8 from rfl, ← Nat.shiftRight_eq_div_pow, ← Nat.shiftRight_eq_div_pow, Nat.shiftRight_xor_distrib, Nat.shiftRight_eq_div_pow b,
      Nat.div_eq_of_lt (a := b) hb, Nat.xor_zero]
  rw [this]

theorem softBytes_eq (bs : Bytes) : ∀ c, IsBytes bs → bs.foldl softByte c = crc32 c bs := by
  induction bs with
  | nil => intro c _; rfl
  | cons b t ih =>
    intro c hb
    show t.foldl softByte (softByte c b) = crc32 (crcByte c b) t
    rw [softByte_eq (hb b (by simp)), ih _ (fun x hx => hb x (by simp [hx]))]

theorem word_split (x : Nat) : x = (x % 256) ^^^ 2 ^ 8 * ((x / 256 % 256) ^^^ 2 ^ 8 * ((x / 65536 % 256) ^^^ 2 ^ 8 * (x / 65536 / 256))) := by
  have e1 := xor_mod x
  have e2 := xor_mod (x / 256)
  have e3 := xor_mod (x / 65536)
  have h : x / 256 / 256 = x / 65536 := by omega
  rw [h] at e2
  rw [← e3, ← e2, ← e1]

theorem it_word {n x : Nat} (h : x < 2 ^ 32) : it (n + 24) x = it (n + 24) (x % 256) ^^^ it (n + 16) (x / 256 % 256) ^^^ it (n + 8) (x / 65536 % 256) ^^^ it n (x / 65536 / 256 % 256) := by
  have h4 : x / 65536 / 256 % 256 = x / 65536 / 256 := by omega
  rw [h4]
  conv => lhs; rw [word_split x, it_xor]
  have e1 : n + 24 = 8 + (n + 16) := by omega
  have e2 : n + 16 = 8 + (n + 8) := by omega
  have e3 : n + 8 = 8 + n := by omega
  conv => lhs; rhs; rw [e1, it_add, it_shift, it_xor]
  conv => lhs; rhs; rhs; rw [e2, it_add, it_shift, it_xor]
  conv => lhs; rhs; rhs; rhs; rw [e3, it_add, it_shift]
  rw [← Nat.xor_assoc, ← Nat.xor_assoc]

theorem soft8_eq {c w0 w1 : Nat} (hc : c < 2 ^ 32) (h0 : w0 < 2 ^ 32) (h1 : w1 < 2 ^ 32) : soft8 c w0 w1 = it 64 (c ^^^ (w0 + 2 ^ 32 * w1)) := by
  have hx : c ^^^ w0 < 2 ^ 32 := Nat.xor_lt_two_pow hc h0
  have m : ∀ a, a % 256 < 256 := fun a => Nat.mod_lt _ (by decide)
  rw [add_xor _ h0, ← Nat.xor_assoc, it_xor 64 (c ^^^ w0)]
  have e : it 64 (2 ^ 32 * w1) = it 32 w1 := by rw [show (64 : Nat) = 32 + 32 from rfl, it_add, it_shift]
  rw [e, it_word (n := 40) hx, it_word (n := 8) h1]
  unfold soft8
  dsimp only
  rw [tab t88_eq (m _), tab t80_eq (m _), tab t72_eq (m _), tab t64_eq (m _), tab t56_eq (m _), tab t48_eq (m _), tab t40_eq (m _), tab t32_eq (m _)]
  simp only [Nat.xor_assoc]

theorem leNat_append (a b : Bytes) : leNat (a ++ b) = leNat a + 256 ^ a.length * leNat b := by
  induction a with
  | nil => simp [leNat]
  | cons x a ih =>
    show x + 256 * leNat (a ++ b) = x + 256 * leNat a + 256 ^ (a.length + 1) * leNat b
    rw [ih, Nat.pow_succ, Nat.mul_add, Nat.mul_comm (256 ^ a.length) 256, Nat.mul_assoc, Nat.add_assoc]

theorem isBytes_take {bs : Bytes} (h : IsBytes bs) (n : Nat) : IsBytes (bs.take n) := fun x hx => h x (List.mem_of_mem_take hx)
theorem isBytes_drop {bs : Bytes} (h : IsBytes bs) (n : Nat) : IsBytes (bs.drop n) := fun x hx => h x (List.mem_of_mem_drop hx)

theorem eight (bs : Bytes) (h : 8 ≤ bs.length) : bs.take 8 = bs.take 4 ++ (bs.drop 4).take 4 := by
  rw [show (8 : Nat) = 4 + 4 from rfl, List.take_add]

theorem it8_crc {bs : Bytes} {c : Nat} (h : 8 ≤ bs.length) (hb : IsBytes bs) : it 64 (c ^^^ leNat (bs.take 8)) = crc32 c (bs.take 8) := by
  rw [crc32_it _ _ (isBytes_take hb 8), List.length_take, Nat.min_eq_left h]

theorem soft8_crc {bs : Bytes} {c : Nat} (h : 8 ≤ bs.length) (hb : IsBytes bs) (hc : c < 2 ^ 32) : soft8 c (leNat (bs.take 4)) (leNat ((bs.drop 4).take 4)) = crc32 c (bs.take 8) := by
  have l1 : (bs.take 4).length = 4 := by rw [List.length_take]; omega
  have l2 : ((bs.drop 4).take 4).length = 4 := by rw [List.length_take, List.length_drop]; omega
  have b1 := leNat_lt (isBytes_take hb 4)
  have b2 := leNat_lt (isBytes_take (isBytes_drop hb 4) 4)
  rw [l1] at b1
  rw [l2] at b2
  rw [soft8_eq hc b1 b2, ← it8_crc h hb, eight bs h, leNat_append, l1]

theorem soft8s_crc (k : Nat) : ∀ (c : Nat) (bs : Bytes), 8 * k ≤ bs.length → IsBytes bs → c < 2 ^ 32 → soft8s k c bs = crc32 c (bs.take (8 * k)) := by
  induction k with
  | zero => intro c bs _ _ _; simp [soft8s, crc32]
  | succ k ih =>
    intro c bs h hb hc
    unfold soft8s
    rw [soft8_crc (by omega) hb hc, ih _ _ (by rw [List.length_drop]; omega) (isBytes_drop hb 8) (crc32_lt _ _ hc (isBytes_take hb 8)), ← crc32_append, Nat.mul_succ,
      Nat.add_comm (8 * k) 8, List.take_add]

/-- the function with tables is the checksum -/
theorem soft_crc (addr c : Nat) (bs : Bytes) (hb : IsBytes bs) (hc : c < 2 ^ 32) : soft addr c bs = crc32 c bs := by
  unfold soft
  dsimp only
  generalize min ((4 - addr % 4) % 4) bs.length = i
  rw [softBytes_eq _ _ (isBytes_take hb i), soft8s_crc _ _ _ (Nat.mul_div_le _ _) (isBytes_drop hb i) (crc32_lt _ _ hc (isBytes_take hb i)),
    softBytes_eq _ _ (isBytes_drop (isBytes_drop hb i) _), ← crc32_append, ← crc32_append, List.take_append_drop, List.take_append_drop]

/-! ## the instruction -/

theorem reflect_testBit (w : Nat) : ∀ x i, (reflect w x).testBit i = (decide (i < w) && x.testBit (w - 1 - i)) := by
  induction w with
  | zero => intro x i; simp [reflect]
  | succ w ih =>
    intro x i
    unfold reflect
    cases i with
    | zero =>
      rw [Nat.testBit_zero]
      have : (2 * reflect w (x % 2 ^ w) + x / 2 ^ w % 2) % 2 = x / 2 ^ w % 2 := by omega
      rw [this]
      simp [Nat.testBit_eq_decide_div_mod_eq]
    | succ i =>
      rw [Nat.testBit_succ]
      have : (2 * reflect w (x % 2 ^ w) + x / 2 ^ w % 2) / 2 = reflect w (x % 2 ^ w) := by omega
      rw [this, ih, Nat.testBit_mod_two_pow]
      have e : w + 1 - 1 - (i + 1) = w - 1 - i := by omega
      rw [e]
      by_cases hi : i < w
      · have h1 : w - 1 - i < w := by omega
        simp [hi, h1]
      · simp [hi]

/-- the polynomial -/
abbrev P : Nat := 0x11EDC6F41

theorem poly_reflect : ∀ i, i < 32 → P.testBit (31 - i) = (0x82F63B78 : Nat).testBit i := by
  have : ∀ i : Fin 32, P.testBit (31 - i.1) = (0x82F63B78 : Nat).testBit i.1 := by decide +kernel
  intro i h
  exact this ⟨i, h⟩

/-- one step of the division -/
def dstep (n x : Nat) : Nat := if x.testBit (n + 32) then x ^^^ (P <<< n) else x

theorem dstep_testBit (n x j : Nat) : (dstep n x).testBit j = (x.testBit j ^^ (x.testBit (n + 32) && (decide (j ≥ n) && P.testBit (j - n)))) := by
  unfold dstep
  by_cases h : x.testBit (n + 32) = true
  · rw [if_pos h, Nat.testBit_xor, Nat.testBit_shiftLeft, h]; simp
  · rw [if_neg h]; simp [h]

theorem high {x n j : Nat} (h : x < 2 ^ n) (hj : n ≤ j) : x.testBit j = false :=
  Nat.testBit_lt_two_pow (Nat.lt_of_lt_of_le h (Nat.pow_le_pow_right (by omega) hj))

theorem dstep_lt {n x : Nat} (h : x < 2 ^ (n + 1 + 32)) : dstep n x < 2 ^ (n + 32) := by
  apply Nat.lt_pow_two_of_testBit
  intro j hj
  rw [dstep_testBit]
  by_cases e : j = n + 32
  · subst e
    have : P.testBit (n + 32 - n) = true := by rw [Nat.add_sub_cancel_left]; decide
    rw [this]
    simp
  · rw [high h (by omega : n + 1 + 32 ≤ j), high (show P < 2 ^ 33 by decide) (by omega : 33 ≤ j - n)]
    simp

theorem dstep_reflect {n x : Nat} (h : x < 2 ^ (n + 1 + 32)) : reflect (n + 32) (dstep n x) = crcBit (reflect (n + 1 + 32) x) := by
  apply Nat.eq_of_testBit_eq
  intro i
  rw [crcBit_testBit, reflect_testBit, reflect_testBit, reflect_testBit, dstep_testBit]
  have e1 : n + 1 + 32 - 1 - (i + 1) = n + 32 - 1 - i := by omega
  have e2 : n + 1 + 32 - 1 - 0 = n + 32 := by omega
  have e3 : (decide (i + 1 < n + 1 + 32)) = decide (i < n + 32) := by simp
  have e4 : decide (0 < n + 1 + 32) = true := by simp
  rw [e1, e2, e3, e4]
  by_cases hi : i < 32
  · have h1 : n + 32 - 1 - i ≥ n := by omega
    have h2 : n + 32 - 1 - i - n = 31 - i := by omega
    have h3 : i < n + 32 := by omega
    rw [h2, poly_reflect i hi, decide_eq_true h1, decide_eq_true h3, Bool.true_and, Bool.true_and, Bool.true_and, Bool.true_and]
  · have h1 : ¬ (n + 32 - 1 - i ≥ n ∧ i < n + 32) := by omega
    rw [high (show (0x82F63B78 : Nat) < 2 ^ 32 by decide) (by omega : 32 ≤ i)]
    by_cases h2 : i < n + 32
    · have : ¬ n + 32 - 1 - i ≥ n := by omega
      rw [decide_eq_false this]; simp
    · simp [h2]

theorem mod2_it (n : Nat) : ∀ x, x < 2 ^ (n + 32) → reflect 32 (mod2 n x) = it n (reflect (n + 32) x) ∧ mod2 n x < 2 ^ 32 := by
  induction n with
  | zero => intro x h; exact ⟨by simp [mod2, it], by simpa [mod2] using h⟩
  | succ n ih =>
    intro x h
    obtain ⟨h1, h2⟩ := ih (dstep n x) (dstep_lt h)
    refine ⟨?_, h2⟩
    show reflect 32 (mod2 n (dstep n x)) = it n (crcBit (reflect (n + 1 + 32) x))
    rw [h1, dstep_reflect h]

/-- what is divided -/
def dividend (w dest src : Nat) : Nat := (reflect w src <<< 32) ^^^ (reflect 32 dest <<< w)

theorem dividend_testBit (w dest src j : Nat) : (dividend w dest src).testBit j =
    ((decide (j ≥ 32) && (decide (j - 32 < w) && src.testBit (w - 1 - (j - 32)))) ^^ (decide (j ≥ w) && (decide (j - w < 32) && dest.testBit (32 - 1 - (j - w))))) := by
  unfold dividend
  rw [Nat.testBit_xor, Nat.testBit_shiftLeft, Nat.testBit_shiftLeft, reflect_testBit, reflect_testBit]

theorem dividend_lt (w dest src : Nat) : dividend w dest src < 2 ^ (w + 32) := by
  apply Nat.lt_pow_two_of_testBit
  intro j hj
  rw [dividend_testBit]
  have h1 : ¬ j - 32 < w := by omega
  have h2 : ¬ j - w < 32 := by omega
  simp [h1, h2]

theorem dividend_reflect {w dest src : Nat} (hd : dest < 2 ^ 32) (hs : src < 2 ^ w) : reflect (w + 32) (dividend w dest src) = dest ^^^ src := by
  apply Nat.eq_of_testBit_eq
  intro i
  rw [reflect_testBit, dividend_testBit, Nat.testBit_xor]
  by_cases hi : i < w + 32
  · have a1 : decide (i < w + 32) = true := by simp [hi]
    rw [a1, Bool.true_and]
    have p1 : (decide (w + 32 - 1 - i ≥ 32) && (decide (w + 32 - 1 - i - 32 < w) && src.testBit (w - 1 - (w + 32 - 1 - i - 32)))) = src.testBit i := by
      by_cases h : i < w
      · have e : w - 1 - (w + 32 - 1 - i - 32) = i := by omega
        have h1 : w + 32 - 1 - i ≥ 32 := by omega
        have h2 : w + 32 - 1 - i - 32 < w := by omega
        rw [e, decide_eq_true h1, decide_eq_true h2, Bool.true_and, Bool.true_and]
      · have h1 : ¬ w + 32 - 1 - i ≥ 32 := by omega
        rw [high (j := i) hs (by omega), decide_eq_false h1, Bool.false_and]
    have p2 : (decide (w + 32 - 1 - i ≥ w) && (decide (w + 32 - 1 - i - w < 32) && dest.testBit (32 - 1 - (w + 32 - 1 - i - w)))) = dest.testBit i := by
      by_cases h : i < 32
      · have e : 32 - 1 - (w + 32 - 1 - i - w) = i := by omega
        have h1 : w + 32 - 1 - i ≥ w := by omega
        have h2 : w + 32 - 1 - i - w < 32 := by omega
        rw [e, decide_eq_true h1, decide_eq_true h2, Bool.true_and, Bool.true_and]
      · have h1 : ¬ w + 32 - 1 - i ≥ w := by omega
        rw [high (j := i) hd (by omega), decide_eq_false h1, Bool.false_and]
    rw [p1, p2, Bool.xor_comm]
  · rw [high (j := i) hd (by omega), high (j := i) hs (by omega), decide_eq_false hi]; rfl

theorem instr_it {w dest src : Nat} (hd : dest < 2 ^ 32) (hs : src < 2 ^ w) : instr w dest src = it w (dest ^^^ src) := by
  show reflect 32 (mod2 w (dividend w dest src)) = _
  rw [(mod2_it w _ (dividend_lt w dest src)).1, dividend_reflect hd hs]

theorem sseBytes_eq (bs : Bytes) : ∀ c, c < 2 ^ 32 → IsBytes bs → bs.foldl (instr 8) c = crc32 c bs := by
  induction bs with
  | nil => intro c _ _; rfl
  | cons b t ih =>
    intro c hc hb
    have hb1 : b < 2 ^ 8 := hb b (by simp)
    show t.foldl (instr 8) (instr 8 c b) = crc32 (crcByte c b) t
    rw [instr_it hc hb1, ← crcByte_it, ih _ (crcByte_lt hc hb1) (fun x hx => hb x (by simp [hx]))]

theorem sse8s_crc (k : Nat) : ∀ (c : Nat) (bs : Bytes), 8 * k ≤ bs.length → IsBytes bs → c < 2 ^ 32 → sse8s k c bs = crc32 c (bs.take (8 * k)) := by
  induction k with
  | zero => intro c bs _ _ _; simp [sse8s, crc32]
  | succ k ih =>
    intro c bs h hb hc
    unfold sse8s
    have hl := leNat_lt (isBytes_take hb 8)
    have hlen : (bs.take 8).length = 8 := by rw [List.length_take]; omega
    rw [hlen] at hl
    rw [instr_it hc (show leNat (bs.take 8) < 2 ^ 64 from hl), it8_crc (by omega) hb,
      ih _ _ (by rw [List.length_drop]; omega) (isBytes_drop hb 8) (crc32_lt _ _ hc (isBytes_take hb 8)), ← crc32_append, Nat.mul_succ,
      Nat.add_comm (8 * k) 8, List.take_add]

/-- the function with the instruction is the checksum -/
theorem sse_crc (c : Nat) (bs : Bytes) (hb : IsBytes bs) (hc : c < 2 ^ 32) : sse c bs = crc32 c bs := by
  unfold sse
  dsimp only
  rw [sse8s_crc _ _ _ (Nat.mul_div_le _ _) hb hc, sseBytes_eq _ _ (crc32_lt _ _ hc (isBytes_take hb _)) (isBytes_drop hb _), ← crc32_append, List.take_append_drop]

/-! ## the remainder -/

theorem dstep_xor (n a b : Nat) : dstep n (a ^^^ b) = dstep n a ^^^ dstep n b := by
  apply Nat.eq_of_testBit_eq
  intro j
  simp only [dstep_testBit, Nat.testBit_xor]
  cases a.testBit j <;> cases b.testBit j <;> cases a.testBit (n + 32) <;> cases b.testBit (n + 32) <;> cases (decide (j ≥ n) && P.testBit (j - n)) <;> rfl

theorem mod2_xor (n : Nat) : ∀ a b, mod2 n (a ^^^ b) = mod2 n a ^^^ mod2 n b := by
  induction n with
  | zero => intro a b; rfl
  | succ n ih =>
    intro a b
    show mod2 n (dstep n (a ^^^ b)) = mod2 n (dstep n a) ^^^ mod2 n (dstep n b)
    rw [dstep_xor, ih]

theorem mod2_zero (n : Nat) : mod2 n 0 = 0 := by
  have := mod2_xor n 0 0
  rw [Nat.xor_self, Nat.xor_self] at this
  exact this

theorem mod2_small (n : Nat) : ∀ x, x < 2 ^ 32 → mod2 n x = x := by
  induction n with
  | zero => intro x _; rfl
  | succ n ih =>
    intro x h
    show mod2 n (dstep n x) = x
    have : dstep n x = x := by unfold dstep; rw [if_neg]; rw [high h (by omega)]; simp
    rw [this, ih x h]

theorem mod2_poly (n : Nat) : ∀ k, k < n → mod2 n (P <<< k) = 0 := by
  induction n with
  | zero => intro k h; omega
  | succ n ih =>
    intro k h
    show mod2 n (dstep n (P <<< k)) = 0
    by_cases e : k = n
    · subst e
      have : dstep k (P <<< k) = 0 := by
        unfold dstep
        rw [if_pos, Nat.xor_self]
        rw [Nat.testBit_shiftLeft, Nat.add_sub_cancel_left]
        have : P.testBit 32 = true := by decide
        rw [this, Bool.and_true]; simp
      rw [this, mod2_zero]
    · have : dstep n (P <<< k) = P <<< k := by
        unfold dstep
        rw [if_neg]
        rw [Nat.testBit_shiftLeft, high (show P < 2 ^ 33 by decide) (by omega : 33 ≤ n + 32 - k)]
        simp
      rw [this]
      exact ih k (by omega)

/-! ## detection -/

theorem crcBit_pos {x : Nat} (h : 0 < x) (hx : x < 2 ^ 32) : 0 < crcBit x ∧ crcBit x < 2 ^ 32 := by
  refine ⟨?_, crcBit_lt hx⟩
  unfold crcBit
  by_cases o : x % 2 = 1
  · rw [if_pos o]
    have : (x / 2 ^^^ 0x82F63B78).testBit 31 = true := by
      rw [Nat.testBit_xor, high (show x / 2 < 2 ^ 31 by omega) (Nat.le_refl 31)]
      decide
    rcases Nat.eq_zero_or_pos (x / 2 ^^^ 0x82F63B78) with e | e
    · rw [e] at this; simp at this
    · exact e
  · rw [if_neg o]; omega

theorem it_pos (n : Nat) : ∀ x, 0 < x → x < 2 ^ 32 → 0 < it n x := by
  induction n with
  | zero => intro x h _; exact h
  | succ n ih =>
    intro x h hx
    obtain ⟨h1, h2⟩ := crcBit_pos h hx
    exact ih _ h1 h2

end Verif.Crc
