import Verif.Func.Date
/-!
# Dates (C72)
-/
set_option linter.unusedSimpArgs false
set_option linter.unusedVariables false
namespace Verif.Func
open Verif

/-! ## Specification: the Gregorian calendar -/

def Leap (y : Int) : Prop := y % 4 = 0 ∧ (y % 100 ≠ 0 ∨ y % 400 = 0)
instance (y : Int) : Decidable (Leap y) := by unfold Leap; infer_instance

def daysIn (y m : Int) : Int :=
  if m = 2 then (if Leap y then 29 else 28)
  else if m = 4 ∨ m = 6 ∨ m = 9 ∨ m = 11 then 30 else 31

/-- a date from 0001-01-01 to 9999-12-31 -/
def ValidDate (y m d : Int) : Prop := 1 ≤ y ∧ y ≤ 9999 ∧ 1 ≤ m ∧ m ≤ 12 ∧ 1 ≤ d ∧ d ≤ daysIn y m

def nextDay (y m d : Int) : Int × Int × Int :=
  if d < daysIn y m then (y, m, d + 1) else if m < 12 then (y, m + 1, 1) else (y + 1, 1, 1)

/-- earlier in the calendar -/
def Before (y m d y' m' d' : Int) : Prop := y < y' ∨ y = y' ∧ (m < m' ∨ m = m' ∧ d < d')

/-! ## Proofs -/

/-- days before the month in a year that begins with March -/
def marchDays (m : Int) : Int := (153 * m + 2) / 5

/-- the number of a day without the checks -/
def jdn (y m d : Int) : Int :=
  let a := if m ≤ 2 then 1 else 0
  let y := y + 4800 - a
  d + marchDays (m + 12 * a - 3) + (y * 365 + y / 4 - y / 100 + y / 400 - 32045)

theorem set_eq {y m d : Int} (h : 0 ≤ y) (h1 : 1 ≤ m) (h2 : m ≤ 12) :
    dateSetGregorian y m d = (dateValidate (jdn y m d)).bind fun _ => .ok (jdn y m d) := by
  have ha : cdiv (14 - m) 12 = if m ≤ 2 then 1 else 0 := by
    simp only [cdiv]
    rw [Int.tdiv_eq_ediv_of_nonneg (by omega)]
    split <;> omega
  unfold dateSetGregorian
  simp only [ha, cdiv]
  have e : ∀ a : Int, a = 1 ∨ a = 0 → 0 ≤ y + 4800 - a := by intro a h; omega
  have e2 : 0 ≤ 153 * (m + 12 * (if m ≤ 2 then 1 else 0) - 3) + 2 := by split <;> omega
  have e3 : 0 ≤ y + 4800 - (if m ≤ 2 then 1 else 0) := by split <;> omega
  rw [Int.tdiv_eq_ediv_of_nonneg e2, Int.tdiv_eq_ediv_of_nonneg e3, Int.tdiv_eq_ediv_of_nonneg e3, Int.tdiv_eq_ediv_of_nonneg e3]
  rfl

theorem jdn_month {y m d : Int} (h1 : 1 ≤ m) (h2 : m ≤ 12) : m = 1 ∨ m = 2 ∨ m = 3 ∨ m = 4 ∨ m = 5 ∨ m = 6 ∨ m = 7 ∨ m = 8 ∨ m = 9 ∨
    m = 10 ∨ m = 11 ∨ m = 12 := by omega

theorem leap_true {y : Int} (h : Leap y) : y % 4 = 0 ∧ (y % 100 ≠ 0 ∨ y % 400 = 0) := h

/-- the day after -/
theorem jdn_next {y m d : Int} (h1 : 1 ≤ m) (h2 : m ≤ 12) (hd : 1 ≤ d) (hd2 : d ≤ daysIn y m) :
    jdn (nextDay y m d).1 (nextDay y m d).2.1 (nextDay y m d).2.2 = jdn y m d + 1 := by
  unfold nextDay
  split
  · simp only [jdn]; omega
  · rename_i hlast
    have hd' : d = daysIn y m := by omega
    subst hd'
    split
    · rename_i hm
      by_cases hl : Leap y
      all_goals
        simp only [daysIn, hl, if_true, if_false] at hlast hd hd2 ⊢
        simp only [jdn, marchDays]
        unfold Leap at hl
        rcases jdn_month (y := y) (d := 1) h1 h2 with rfl | rfl | rfl | rfl | rfl | rfl | rfl | rfl | rfl | rfl | rfl | rfl <;>
          simp at * <;> omega
    · have hm : m = 12 := by omega
      subst hm
      simp [daysIn, jdn, marchDays]
      omega

/-- the number of the first day of a year -/
def yearStart (y : Int) : Int := jdn y 1 1

theorem jdn_in_year {y m d : Int} (h1 : 1 ≤ m) (h2 : m ≤ 12) (hd : 1 ≤ d) (hd2 : d ≤ daysIn y m) :
    yearStart y ≤ jdn y m d ∧ jdn y m d < yearStart (y + 1) := by
  by_cases hl : Leap y
  all_goals
    simp only [daysIn, hl, if_true, if_false] at hd2
    simp only [yearStart, jdn, marchDays]
    unfold Leap at hl
    rcases jdn_month (y := y) (d := 1) h1 h2 with rfl | rfl | rfl | rfl | rfl | rfl | rfl | rfl | rfl | rfl | rfl | rfl <;>
      simp at * <;> omega

theorem yearStart_step (y : Int) : yearStart y < yearStart (y + 1) := by simp [yearStart, jdn, marchDays]; omega

theorem yearStart_mono {y y' : Int} (h : y ≤ y') : yearStart y ≤ yearStart y' := by
  obtain ⟨n, rfl⟩ : ∃ n : Nat, y' = y + n := ⟨(y' - y).toNat, by omega⟩
  clear h
  induction n with
  | zero => simp
  | succ n ih =>
    have := yearStart_step (y + n)
    have e : y + ((n + 1 : Nat) : Int) = y + (n : Int) + 1 := by omega
    rw [e]; omega

theorem jdn_month_step {y m d d' : Int} (h1 : 1 ≤ m) (h2 : m ≤ 11) (hd : 1 ≤ d) (hd2 : d ≤ daysIn y m) :
    jdn y m d < jdn y (m + 1) 1 := by
  have := jdn_next h1 (by omega) (d := daysIn y m) (by omega) (Int.le_refl _)
  unfold nextDay at this
  rw [if_neg (by omega), if_pos (by omega)] at this
  simp only at this
  have e : jdn y m (daysIn y m) = jdn y m d + (daysIn y m - d) := by simp only [jdn]; omega
  omega

theorem one_le_daysIn (y m : Int) : 1 ≤ daysIn y m := by unfold daysIn; split <;> split <;> omega

theorem jdn_month_mono {y : Int} (m : Int) (h1 : 1 ≤ m) : ∀ (n : Nat), m + n ≤ 12 → jdn y m 1 ≤ jdn y (m + n) 1
  | 0, _ => by simp
  | n + 1, h => by
    have ih := jdn_month_mono (y := y) m h1 n (by omega)
    have := jdn_month_step (y := y) (m := m + n) (d := 1) (d' := 1) (by omega) (by omega) (by omega) (one_le_daysIn _ _)
    have e : m + ((n + 1 : Nat) : Int) = m + (n : Int) + 1 := by omega
    rw [e]; omega

theorem jdn_lt {y m d y' m' d' : Int} (h1 : 1 ≤ m) (h2 : m ≤ 12) (hd : 1 ≤ d) (hd2 : d ≤ daysIn y m) (h1' : 1 ≤ m') (h2' : m' ≤ 12)
    (hd' : 1 ≤ d') (hd2' : d' ≤ daysIn y' m') (h : Before y m d y' m' d') : jdn y m d < jdn y' m' d' := by
  rcases h with h | ⟨rfl, h | ⟨rfl, h⟩⟩
  · have a := jdn_in_year h1 h2 hd hd2
    have b := jdn_in_year h1' h2' hd' hd2'
    have c := yearStart_mono (y := y + 1) (y' := y') (by omega)
    omega
  · have a := jdn_month_step (d' := 1) h1 (by omega) hd hd2
    have b := jdn_month_mono (y := y) (m + 1) (by omega) (m' - (m + 1)).toNat (by omega)
    have e : m + 1 + ((m' - (m + 1)).toNat : Int) = m' := by omega
    rw [e] at b
    have c : jdn y m' d' = jdn y m' 1 + (d' - 1) := by simp only [jdn]; omega
    omega
  · simp only [jdn]; omega

theorem before_total (y m d y' m' d' : Int) : Before y m d y' m' d' ∨ (y = y' ∧ m = m' ∧ d = d') ∨ Before y' m' d' y m d := by
  unfold Before; omega

theorem jdn_range {y m d : Int} (h : ValidDate y m d) : dateMin ≤ jdn y m d ∧ jdn y m d ≤ dateMax := by
  obtain ⟨a, b, c, e, f, g⟩ := h
  have h1 := jdn_in_year c e f g
  have h2 := yearStart_mono a
  have h3 := yearStart_mono (y := y + 1) (y' := 10000) (by omega)
  have h4 : yearStart 1 = dateMin := by decide
  have h5 : yearStart 10000 = dateMax + 1 := by decide
  omega

theorem validate_ok {j : Int} (h1 : dateMin ≤ j) (h2 : j ≤ dateMax) : dateValidate j = .ok () := by
  unfold dateValidate; rw [if_neg (by omega)]

theorem set_valid {y m d : Int} (h : ValidDate y m d) : dateSetGregorian y m d = .ok (jdn y m d) := by
  have hr := jdn_range h
  obtain ⟨a, b, c, e, f, g⟩ := h
  rw [set_eq (by omega) c e, validate_ok hr.1 hr.2]
  rfl

/-- the steps of date_get_gregorian -/
theorem get_core {j a b c d e f g : Int} (h1 : dateMin ≤ j) (h2 : j ≤ dateMax) (ha : a = j + 32044) (hb : b = (4 * a + 3) / 146097)
    (hc : c = a - (b * 146097) / 4) (hd : d = (4 * c + 3) / 1461) (he : e = c - (d * 1461) / 4) (hf : f = (5 * e + 2) / 153)
    (hg : g = f / 10) :
    0 ≤ b ∧ 0 ≤ c ∧ c ≤ 36524 ∧ (c = 36524 → b % 4 = 3) ∧ 0 ≤ d ∧ d ≤ 99 ∧ 0 ≤ e ∧ e ≤ 365 ∧ (e = 365 → d % 4 = 3 ∧ (d = 99 → b % 4 = 3)) ∧
    0 ≤ f ∧ f ≤ 11 ∧ (g = 0 ∧ f ≤ 9 ∨ g = 1 ∧ 10 ≤ f) := by
  unfold dateMin dateMax at *
  have b0 : 0 ≤ b := by omega
  have c0 : 0 ≤ c := by omega
  have c1 : c ≤ 36524 := by omega
  have q : b * 146097 / 4 = 36524 * b + b / 4 := by omega
  have c2 : c = 36524 → b % 4 = 3 := by omega
  clear hb
  have d0 : 0 ≤ d := by omega
  have d1 : d ≤ 99 := by omega
  have e0 : 0 ≤ e := by omega
  have e1 : e ≤ 365 := by omega
  have e2 : e = 365 → d % 4 = 3 := by omega
  have e3 : e = 365 → d = 99 → b % 4 = 3 := by
    intro h1 h2
    apply c2
    omega
  refine ⟨b0, c0, c1, c2, d0, d1, e0, e1, fun h => ⟨e2 h, e3 h⟩, by omega, by omega, by omega⟩

theorem get_valid {j : Int} (h1 : dateMin ≤ j) (h2 : j ≤ dateMax) :
    ∃ y m d, dateGetGregorian j = .ok (y, m, d) ∧ ValidDate y m d ∧ jdn y m d = j := by
  unfold dateGetGregorian
  rw [validate_ok h1 h2]
  simp only [bind, Except.bind, cdiv]
  generalize ha : j + 32044 = a
  have a0 : 0 ≤ a := by unfold dateMin at h1; omega
  rw [Int.tdiv_eq_ediv_of_nonneg (by omega)]
  generalize hb : (4 * a + 3) / 146097 = b
  have b0 : 0 ≤ b := by omega
  rw [Int.tdiv_eq_ediv_of_nonneg (by omega : 0 ≤ b * 146097)]
  generalize hc : a - b * 146097 / 4 = c
  have c0 : 0 ≤ c := by omega
  rw [Int.tdiv_eq_ediv_of_nonneg (by omega : 0 ≤ 4 * c + 3)]
  generalize hd : (4 * c + 3) / 1461 = d
  have d0 : 0 ≤ d := by omega
  rw [Int.tdiv_eq_ediv_of_nonneg (by omega : 0 ≤ d * 1461)]
  generalize he : c - d * 1461 / 4 = e
  have e0 : 0 ≤ e := by clear hb hc ha h1 h2; omega
  rw [Int.tdiv_eq_ediv_of_nonneg (by omega : 0 ≤ 5 * e + 2)]
  generalize hf : (5 * e + 2) / 153 = f
  have f0 : 0 ≤ f := by omega
  rw [Int.tdiv_eq_ediv_of_nonneg f0, Int.tdiv_eq_ediv_of_nonneg (by omega : 0 ≤ 153 * f + 2)]
  generalize hg : f / 10 = g
  obtain ⟨_, _, c1, c2, _, d1, _, e1, e2, _, f1, hfg⟩ := get_core h1 h2 ha.symm hb.symm hc.symm hd.symm he.symm hf.symm hg.symm
  refine ⟨_, _, _, rfl, ?_⟩
  have hj : jdn (b * 100 + d - 4800 + g) (f + 3 - 12 * g) (e + 1 - (153 * f + 2) / 5) = j := by
    have hgm : (if f + 3 - 12 * g ≤ 2 then (1 : Int) else 0) = g := by split <;> omega
    simp only [jdn, hgm, marchDays]
    have e1 : b * 100 + d - 4800 + g + 4800 - g = b * 100 + d := by omega
    have e2 : f + 3 - 12 * g + 12 * g - 3 = f := by omega
    rw [e1, e2]
    clear hb hd hf hg h1 h2 hgm e2 hfg
    have q1 : b * 146097 / 4 = 36524 * b + b / 4 := by omega
    have q2 : d * 1461 / 4 = 365 * d + d / 4 := by omega
    have q3 : (b * 100 + d) / 4 = 25 * b + d / 4 := by omega
    have q4 : (b * 100 + d) / 100 = b := by omega
    have q5 : (b * 100 + d) / 400 = b / 4 := by omega
    rw [q3, q4, q5]
    omega
  have hm : 1 ≤ f + 3 - 12 * g ∧ f + 3 - 12 * g ≤ 12 := by omega
  have hday : 1 ≤ e + 1 - (153 * f + 2) / 5 ∧ e + 1 - (153 * f + 2) / 5 ≤ daysIn (b * 100 + d - 4800 + g) (f + 3 - 12 * g) := by
    clear hj hm hc hd he hb ha h1 h2
    have hfc : f = 0 ∨ f = 1 ∨ f = 2 ∨ f = 3 ∨ f = 4 ∨ f = 5 ∨ f = 6 ∨ f = 7 ∨ f = 8 ∨ f = 9 ∨ f = 10 ∨ f = 11 := by omega
    rcases hfc with rfl | rfl | rfl | rfl | rfl | rfl | rfl | rfl | rfl | rfl | rfl | rfl
    all_goals
      have hg' : g = 0 ∨ g = 1 := by omega
      rcases hg' with rfl | rfl <;> first | (exfalso; omega) | skip
    all_goals simp only [daysIn, Leap]
    all_goals simp
    all_goals first | omega | skip
  have hy : 1 ≤ b * 100 + d - 4800 + g ∧ b * 100 + d - 4800 + g ≤ 9999 := by
    have hin := jdn_in_year hm.1 hm.2 hday.1 hday.2
    rw [hj] at hin
    have h4 : yearStart 1 = dateMin := by decide
    have h5 : yearStart 10000 = dateMax + 1 := by decide
    constructor
    · rcases Int.lt_or_le (b * 100 + d - 4800 + g) 1 with h | h
      · have := yearStart_mono (y := b * 100 + d - 4800 + g + 1) (y' := 1) (by omega)
        omega
      · exact h
    · rcases Int.lt_or_le 9999 (b * 100 + d - 4800 + g) with h | h
      · have := yearStart_mono (y := 10000) (y' := b * 100 + d - 4800 + g) (by omega)
        omega
      · exact h
  exact ⟨⟨hy.1, hy.2, hm.1, hm.2, hday.1, hday.2⟩, hj⟩

/-! ## The theorems -/

/-- **C72** every date value stands for a day of the calendar and is the number of it -/
theorem C72_get (j : Int) (h1 : dateMin ≤ j) (h2 : j ≤ dateMax) :
    ∃ y m d, dateGetGregorian j = .ok (y, m, d) ∧ ValidDate y m d ∧ dateSetGregorian y m d = .ok j := by
  obtain ⟨y, m, d, h, hv, hj⟩ := get_valid h1 h2
  exact ⟨y, m, d, h, hv, by rw [set_valid hv, hj]⟩

/-- **C72** every day of the calendar has a value, which shows as that day -/
theorem C72_set (y m d : Int) (h : ValidDate y m d) :
    ∃ j, dateSetGregorian y m d = .ok j ∧ dateMin ≤ j ∧ j ≤ dateMax ∧ dateGetGregorian j = .ok (y, m, d) := by
  have hr := jdn_range h
  refine ⟨_, set_valid h, hr.1, hr.2, ?_⟩
  obtain ⟨y', m', d', hg, hv, hj⟩ := get_valid hr.1 hr.2
  rw [hg]
  obtain ⟨a, b, c, e, f, g⟩ := h
  obtain ⟨a', b', c', e', f', g'⟩ := hv
  rcases before_total y m d y' m' d' with hb | ⟨rfl, rfl, rfl⟩ | hb
  · have := jdn_lt c e f g c' e' f' g' hb; omega
  · rfl
  · have := jdn_lt c' e' f' g' c e f g hb; omega

/-- **C72** the values count the days from 0001-01-01 -/
theorem C72_count : dateSetGregorian 1 1 1 = .ok dateMin ∧ dateSetGregorian 9999 12 31 = .ok dateMax ∧
    ∀ y m d j, ValidDate y m d → ValidDate (nextDay y m d).1 (nextDay y m d).2.1 (nextDay y m d).2.2 →
      dateSetGregorian y m d = .ok j →
      dateSetGregorian (nextDay y m d).1 (nextDay y m d).2.1 (nextDay y m d).2.2 = .ok (j + 1) := by
  refine ⟨by decide, by decide, fun y m d j h h' hj => ?_⟩
  rw [set_valid h] at hj
  rw [set_valid h']
  obtain ⟨a, b, c, e, f, g⟩ := h
  rw [jdn_next c e f g]
  simp only [Except.ok.injEq] at hj ⊢
  omega

/-- **C72** comparing values is comparing days -/
theorem C72_order (y m d y' m' d' j j' : Int) (h : ValidDate y m d) (h' : ValidDate y' m' d') (hj : dateSetGregorian y m d = .ok j)
    (hj' : dateSetGregorian y' m' d' = .ok j') : j < j' ↔ Before y m d y' m' d' := by
  rw [set_valid h] at hj
  rw [set_valid h'] at hj'
  simp only [Except.ok.injEq] at hj hj'
  subst hj; subst hj'
  obtain ⟨a, b, c, e, f, g⟩ := h
  obtain ⟨a', b', c', e', f', g'⟩ := h'
  constructor
  · intro hlt
    rcases before_total y m d y' m' d' with hb | ⟨rfl, rfl, rfl⟩ | hb
    · exact hb
    · omega
    · have := jdn_lt c' e' f' g' c e f g hb; omega
  · exact jdn_lt c e f g c' e' f' g'

/-! ## Text -/

theorem dec_small (n : Nat) (h : n < 10) : Json.Text.decDigits n = [48 + n] := by unfold Json.Text.decDigits; rw [dif_pos h]
theorem dec_step (n : Nat) (h : 10 ≤ n) : Json.Text.decDigits n = Json.Text.decDigits (n / 10) ++ [48 + n % 10] := by
  conv => lhs; unfold Json.Text.decDigits
  rw [dif_neg (by omega)]

theorem pad2 (n : Nat) (h : n < 100) : pad 2 n = [48 + n / 10, 48 + n % 10] := by
  unfold pad
  rcases Nat.lt_or_ge n 10 with h1 | h1
  · rw [dec_small n h1]; simp [show n / 10 = 0 by omega, show n % 10 = n by omega]
  · rw [dec_step n h1, dec_small (n / 10) (by omega)]; simp

theorem pad4 (n : Nat) (h : n < 10000) : pad 4 n = [48 + n / 1000, 48 + n / 100 % 10, 48 + n / 10 % 10, 48 + n % 10] := by
  unfold pad
  rcases Nat.lt_or_ge n 10 with h1 | h1
  · rw [dec_small n h1]
    simp [List.replicate, show n / 1000 = 0 by omega, show n / 100 % 10 = 0 by omega, show n / 10 % 10 = 0 by omega,
      show n % 10 = n by omega]
  · rcases Nat.lt_or_ge n 100 with h2 | h2
    · rw [dec_step n h1, dec_small (n / 10) (by omega)]
      simp [List.replicate, show n / 1000 = 0 by omega, show n / 100 % 10 = 0 by omega]; omega
    · rcases Nat.lt_or_ge n 1000 with h3 | h3
      · rw [dec_step n h1, dec_step (n / 10) (by omega), dec_small (n / 10 / 10) (by omega)]
        simp [List.replicate, show n / 1000 = 0 by omega]; omega
      · rw [dec_step n h1, dec_step (n / 10) (by omega), dec_step (n / 10 / 10) (by omega), dec_small (n / 10 / 10 / 10) (by omega)]
        simp [List.replicate]; omega

theorem isDigit_of (n : Nat) (h : n < 10) : Json.Text.isDigit (48 + n) = true := by
  simp [Json.Text.isDigit]; omega

theorem parsePart_digit (v : Int) (n : Nat) (t : Bytes) (h : n < 10) (hv : 0 ≤ v) (hv2 : v < 100000) :
    parsePart v ((48 + n) :: t) = parsePart (v * 10 + n) t := by
  simp only [parsePart, isDigit_of n h, if_true]
  rw [if_neg (by omega)]
  congr 1; omega

theorem parse_pad2 (n : Nat) (h : n < 100) : parsePart 0 (pad 2 n) = .ok (n : Int) := by
  rw [pad2 n h, parsePart_digit _ _ _ (by omega) (by omega) (by omega), parsePart_digit _ _ _ (by omega) (by omega) (by omega)]
  simp only [parsePart]; congr 1; omega

theorem parse_pad4 (n : Nat) (h : n < 10000) : parsePart 0 (pad 4 n) = .ok (n : Int) := by
  rw [pad4 n h, parsePart_digit _ _ _ (by omega) (by omega) (by omega), parsePart_digit _ _ _ (by omega) (by omega) (by omega),
    parsePart_digit _ _ _ (by omega) (by omega) (by omega), parsePart_digit _ _ _ (by omega) (by omega) (by omega)]
  simp only [parsePart]; congr 1; omega

/-- the text of a day: yyyy-mm-dd -/
def dateText (y m d : Nat) : Bytes := pad 4 y ++ [45] ++ pad 2 m ++ [45] ++ pad 2 d

theorem set_text (y m d : Nat) (hy : y < 10000) (hm : m < 100) (hd : d < 100) :
    dateSet (dateText y m d) = dateSetGregorian y m d := by
  have e : dateText y m d = pad 4 y ++ [45] ++ pad 2 m ++ [45] ++ pad 2 d := rfl
  have p1 := parse_pad4 y hy
  have p2 := parse_pad2 m hm
  have p3 := parse_pad2 d hd
  rw [pad4 y hy] at p1
  rw [pad2 m hm] at p2
  rw [pad2 d hd] at p3
  rw [e, pad4 y hy, pad2 m hm, pad2 d hd]
  simp only [List.cons_append, List.nil_append]
  simp only [dateSet, List.length_cons, List.length_nil, List.getD_cons_succ, List.getD_cons_zero, List.take_succ_cons, List.take_zero,
    List.drop_succ_cons, List.drop_zero, p1, p2, p3, bind, Except.bind, ne_eq, not_true, if_false]

/-- **C72** the text of a date value reads back as the same value -/
theorem C72_text (j : Int) (h1 : dateMin ≤ j) (h2 : j ≤ dateMax) :
    ∃ s, dateGet j = .ok s ∧ s.length = 10 ∧ dateSet s = .ok j := by
  obtain ⟨y, m, d, hg, hv, hs⟩ := C72_get j h1 h2
  obtain ⟨a, b, c, e, f, g⟩ := hv
  have hd : daysIn y m ≤ 31 := by unfold daysIn; split <;> split <;> omega
  refine ⟨dateText y.toNat m.toNat d.toNat, ?_, ?_, ?_⟩
  · simp only [dateGet, hg, bind, Except.bind]; rfl
  · have e : dateText y.toNat m.toNat d.toNat = pad 4 y.toNat ++ [45] ++ pad 2 m.toNat ++ [45] ++ pad 2 d.toNat := rfl
    rw [e, pad4 _ (by omega), pad2 _ (by omega), pad2 _ (by omega)]; rfl
  · rw [set_text _ _ _ (by omega) (by omega) (by omega)]
    rw [show (y.toNat : Int) = y by omega, show (m.toNat : Int) = m by omega, show (d.toNat : Int) = d by omega]
    exact hs

/-- **C72** a date literal with a day of the calendar stands for that day, and is shown as it was written -/
theorem C72_literal (y m d : Nat) (h : ValidDate y m d) : ∃ j, dateSet (dateText y m d) = .ok j ∧
    dateGetGregorian j = .ok ((y : Int), (m : Int), (d : Int)) ∧ dateGet j = .ok (dateText y m d) := by
  obtain ⟨j, hs, -, -, hg⟩ := C72_set y m d h
  obtain ⟨a, b, c, e, f, g⟩ := h
  have hd : daysIn y m ≤ 31 := by unfold daysIn; split <;> split <;> omega
  refine ⟨j, ?_, hg, ?_⟩
  · rw [set_text _ _ _ (by omega) (by omega) (by omega), hs]
  · simp only [dateGet, hg, bind, Except.bind]; rfl

/-- **C72** extract gives year, month and day -/
theorem C72_extract (y m d j : Int) (h : ValidDate y m d) (hj : dateSetGregorian y m d = .ok j) :
    dateExtract j .year = .ok y ∧ dateExtract j .month = .ok m ∧ dateExtract j .day = .ok d := by
  obtain ⟨j', hs, -, -, hg⟩ := C72_set y m d h
  rw [hs] at hj
  simp only [Except.ok.injEq] at hj
  subst hj
  simp only [dateExtract, hg, bind, Except.bind, and_self]

/-- **C72** date + n and date - n are the day n days later or earlier, an error outside of the calendar (n in the range of int) -/
theorem C72_add_partial (j n : Int) (h1 : dateMin ≤ j) (h2 : j ≤ dateMax) (hn1 : -2 ^ 31 ≤ n) (hn2 : n < 2 ^ 31) :
    dateAdd j n = (if dateMin ≤ j + n ∧ j + n ≤ dateMax then .ok (j + n) else .error .err) ∧
    dateSub j n = (if dateMin ≤ j - n ∧ j - n ≤ dateMax then .ok (j - n) else .error .err) := by
  have e1 : (2 : Int) ^ 32 = 4294967296 := by decide
  have e2 : (2 : Int) ^ 31 = 2147483648 := by decide
  have hc : toSigned 32 (toUnsigned 32 n) = n := by
    simp only [toSigned, toUnsigned, show (2 : Nat) ^ 32 = 4294967296 from by decide,
      show (2 : Nat) ^ (32 - 1) = 2147483648 from by decide]
    split <;> omega
  constructor
  · by_cases h : dateMin ≤ j + n ∧ j + n ≤ dateMax
    · simp only [dateAdd, hc, validate_ok h1 h2, bind, Except.bind, validate_ok h.1 h.2, h, and_self, if_true]
    · have hv : dateValidate (j + n) = .error .err := by unfold dateValidate; rw [if_pos (by omega)]
      simp only [dateAdd, hc, validate_ok h1 h2, bind, Except.bind, hv, h, if_false]
  · by_cases h : dateMin ≤ j - n ∧ j - n ≤ dateMax
    · simp only [dateSub, hc, validate_ok h1 h2, bind, Except.bind, validate_ok h.1 h.2, h, and_self, if_true]
    · have hv : dateValidate (j - n) = .error .err := by unfold dateValidate; rw [if_pos (by omega)]
      simp only [dateSub, hc, validate_ok h1 h2, bind, Except.bind, hv, h, if_false]

/-- **C72 fails**: days that do not exist are taken: 2023-02-30 is 2023-03-02, 2023-00-10 is 2022-12-10, 2023-13-01 is another day -/
theorem C72_invalid_false :
    (¬ ValidDate 2023 2 30 ∧ dateSet (dateText 2023 2 30) = dateSetGregorian 2023 3 2) ∧
    (¬ ValidDate 2023 0 10 ∧ dateSet (dateText 2023 0 10) = dateSetGregorian 2022 12 10) ∧
    (¬ ValidDate 2023 13 1 ∧ dateSet (dateText 2023 13 1) = dateSetGregorian 2024 1 1) := by
  refine ⟨⟨by simp [ValidDate, daysIn, Leap], ?_⟩, ⟨by simp [ValidDate], ?_⟩, ⟨by simp [ValidDate], ?_⟩⟩
  all_goals rw [set_text _ _ _ (by decide) (by decide) (by decide)]; decide

/-- **C72 fails**: the number of days is cut to 32 bits: a date + 4294967296 is the same date -/
theorem C72_add_false : dateAdd dateMin 4294967296 = .ok dateMin := by decide

example : ValidDate 2024 2 29 ∧ dateSetGregorian 2024 2 29 = .ok 2460370 := by
  refine ⟨by simp [ValidDate, daysIn, Leap], by decide⟩

end Verif.Func
