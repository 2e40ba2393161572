import Verif.Func.Timestamp
import Verif.Func.PropsDate
import Verif.Func.PropsInterval
/-!
# Timestamps (C74, C75, C76)
-/
set_option linter.unusedSimpArgs false
set_option linter.unusedVariables false
namespace Verif.Func
open Verif Verif.Json.Text

/-! ## The calendar for all day numbers -/

theorem civil_core {j a b c d e f g : Int} (ha : a = j + 32044) (hb : b = (4 * a + 3) / 146097)
    (hc : c = a - (b * 146097) / 4) (hd : d = (4 * c + 3) / 1461) (he : e = c - (d * 1461) / 4) (hf : f = (5 * e + 2) / 153)
    (hg : g = f / 10) :
    0 ≤ c ∧ c ≤ 36524 ∧ (c = 36524 → b % 4 = 3) ∧ 0 ≤ d ∧ d ≤ 99 ∧ 0 ≤ e ∧ e ≤ 365 ∧ (e = 365 → d % 4 = 3 ∧ (d = 99 → b % 4 = 3)) ∧
    0 ≤ f ∧ f ≤ 11 ∧ (g = 0 ∧ f ≤ 9 ∨ g = 1 ∧ 10 ≤ f) := by
  have c0 : 0 ≤ c := by omega
  have c1 : c ≤ 36524 := by omega
  have q : b * 146097 / 4 = 36524 * b + b / 4 := by omega
  have c2 : c = 36524 → b % 4 = 3 := by omega
  clear hb
  have d0 : 0 ≤ d := by omega
  have d1 : d ≤ 99 := by omega
  have e0 : 0 ≤ e := by omega
  have e1 : e ≤ 365 := by omega
  have e2 : e = 365 → d % 4 = 3 := by omega
  have e3 : e = 365 → d = 99 → b % 4 = 3 := by
    intro h1 h2
    apply c2
    omega
  refine ⟨c0, c1, c2, d0, d1, e0, e1, fun h => ⟨e2 h, e3 h⟩, by omega, by omega, by omega⟩

/-- `civil` is the calendar: the day with this number -/
theorem civil_spec (j : Int) : ∃ y m d, civil j = (y, m, d) ∧ 1 ≤ m ∧ m ≤ 12 ∧ 1 ≤ d ∧ d ≤ daysIn y m ∧ jdn y m d = j := by
  unfold civil
  generalize ha : j + 32044 = a
  simp only
  generalize hb : (4 * a + 3) / 146097 = b
  generalize hc : a - b * 146097 / 4 = c
  generalize hd : (4 * c + 3) / 1461 = d
  generalize he : c - d * 1461 / 4 = e
  generalize hf : (5 * e + 2) / 153 = f
  generalize hg : f / 10 = g
  obtain ⟨c0, c1, c2, d0, d1, e0, e1, e2, f0, f1, hfg⟩ := civil_core ha.symm hb.symm hc.symm hd.symm he.symm hf.symm hg.symm
  refine ⟨_, _, _, rfl, by omega, by omega, ?_⟩
  have hj : jdn (b * 100 + d - 4800 + g) (f + 3 - 12 * g) (e + 1 - (153 * f + 2) / 5) = j := by
    have hgm : (if f + 3 - 12 * g ≤ 2 then (1 : Int) else 0) = g := by split <;> omega
    simp only [jdn, hgm, marchDays]
    have e1 : b * 100 + d - 4800 + g + 4800 - g = b * 100 + d := by omega
    have e2 : f + 3 - 12 * g + 12 * g - 3 = f := by omega
    rw [e1, e2]
    clear hb hd hf hg hgm e2 hfg
    have q1 : b * 146097 / 4 = 36524 * b + b / 4 := by omega
    have q2 : d * 1461 / 4 = 365 * d + d / 4 := by omega
    have q3 : (b * 100 + d) / 4 = 25 * b + d / 4 := by omega
    have q4 : (b * 100 + d) / 100 = b := by omega
    have q5 : (b * 100 + d) / 400 = b / 4 := by omega
    rw [q3, q4, q5]
    omega
  have hday : 1 ≤ e + 1 - (153 * f + 2) / 5 ∧ e + 1 - (153 * f + 2) / 5 ≤ daysIn (b * 100 + d - 4800 + g) (f + 3 - 12 * g) := by
    clear hj hc hd he hb ha
    have hfc : f = 0 ∨ f = 1 ∨ f = 2 ∨ f = 3 ∨ f = 4 ∨ f = 5 ∨ f = 6 ∨ f = 7 ∨ f = 8 ∨ f = 9 ∨ f = 10 ∨ f = 11 := by omega
    rcases hfc with rfl | rfl | rfl | rfl | rfl | rfl | rfl | rfl | rfl | rfl | rfl | rfl
    all_goals
      have hg' : g = 0 ∨ g = 1 := by omega
      rcases hg' with rfl | rfl <;> first | (exfalso; omega) | skip
    all_goals simp only [daysIn, Leap]
    all_goals simp
    all_goals first | omega | skip
  exact ⟨hday.1, hday.2, hj⟩

/-- two days with the same number are the same -/
theorem jdn_inj {y m d y' m' d' : Int} (h1 : 1 ≤ m) (h2 : m ≤ 12) (h3 : 1 ≤ d) (h4 : d ≤ daysIn y m) (h1' : 1 ≤ m') (h2' : m' ≤ 12)
    (h3' : 1 ≤ d') (h4' : d' ≤ daysIn y' m') (h : jdn y m d = jdn y' m' d') : y = y' ∧ m = m' ∧ d = d' := by
  rcases before_total y m d y' m' d' with hb | hb | hb
  · have := jdn_lt h1 h2 h3 h4 h1' h2' h3' h4' hb; omega
  · exact hb
  · have := jdn_lt h1' h2' h3' h4' h1 h2 h3 h4 hb; omega

theorem civil_jdn {y m d : Int} (h1 : 1 ≤ m) (h2 : m ≤ 12) (h3 : 1 ≤ d) (h4 : d ≤ daysIn y m) : civil (jdn y m d) = (y, m, d) := by
  obtain ⟨y', m', d', he, a, b, c, e, hj⟩ := civil_spec (jdn y m d)
  obtain ⟨rfl, rfl, rfl⟩ := jdn_inj a b c e h1 h2 h3 h4 hj
  exact he

theorem monthStart_eq {y m : Int} (h1 : 1 ≤ m) (h2 : m ≤ 12) : monthStart y m = jdn y m 1 := by
  have ha : (14 - m) / 12 = if m ≤ 2 then 1 else 0 := by split <;> omega
  simp only [monthStart, jdn, marchDays, ha]

/-- a day of a month: days are counted from the first -/
theorem jdn_day (y m d : Int) : jdn y m d = jdn y m 1 + (d - 1) := by simp only [jdn]; omega

/-- the seconds of year (AD), month, day, hour, minute and second -/
def seconds (y m d hh mm ss : Int) : Int := (jdn y m d - 2440588) * 86400 + hh * 3600 + mm * 60 + ss

theorem mktime_eq {y m d hh mm ss : Int} (h1 : 1 ≤ m) (h2 : m ≤ 12) :
    mktime ⟨y - 1900, m - 1, d, hh, mm, ss⟩ = seconds y m d hh mm ss := by
  have e1 : (m - 1) / 12 = 0 := by omega
  have e2 : (m - 1) % 12 = m - 1 := by omega
  simp only [mktime, e1, e2, seconds]
  rw [show y - 1900 + 1900 + 0 = y by omega, show m - 1 + 1 = m by omega, monthStart_eq h1 h2, jdn_day y m d]

/-- the fields of a time -/
theorem gmtime_spec (t : Int) : ∃ y m d hh mm ss, gmtime t = ⟨y - 1900, m - 1, d, hh, mm, ss⟩ ∧ 1 ≤ m ∧ m ≤ 12 ∧ 1 ≤ d ∧ d ≤ daysIn y m ∧
    0 ≤ hh ∧ hh < 24 ∧ 0 ≤ mm ∧ mm < 60 ∧ 0 ≤ ss ∧ ss < 60 ∧ seconds y m d hh mm ss = t ∧ jdn y m d = t / 86400 + 2440588 := by
  obtain ⟨y, m, d, he, a, b, c, e, hj⟩ := civil_spec (t / 86400 + 2440588)
  refine ⟨y, m, d, t % 86400 / 3600, t % 3600 / 60, t % 60, ?_, a, b, c, e, ?_⟩
  · simp only [gmtime, he]
  · have e1 : t % 86400 = t % 86400 / 3600 * 3600 + t % 3600 / 60 * 60 + t % 60 := by omega
    have e2 : seconds y m d (t % 86400 / 3600) (t % 3600 / 60) (t % 60) = t := by simp only [seconds, hj]; omega
    refine ⟨by omega, by omega, by omega, by omega, by omega, by omega, e2, hj⟩

theorem mktime_gmtime (t : Int) : mktime (gmtime t) = t := by
  obtain ⟨y, m, d, hh, mm, ss, he, h1, h2, -, -, -, -, -, -, -, -, hs, -⟩ := gmtime_spec t
  rw [he, mktime_eq h1 h2, hs]

/-! ## Arithmetic (C75) -/

theorem tsValidate_ok {v : Int} (h1 : 0 ≤ v) (h2 : v ≤ tsMax) : tsValidate v = .ok () := by
  unfold tsValidate tsMin; rw [if_neg (by omega)]

theorem tsSetUnix_ok {v : Int} (h1 : 0 ≤ v) (h2 : v ≤ tsMax) : tsSetUnix v = .ok ⟨gmtime (v / 1000000), v % 1000000, none⟩ := by
  simp only [tsSetUnix, tsValidate_ok h1 h2, bind, Except.bind]

/-- what timestamp_get_unixtime makes of `time` seconds and `us` microseconds -/
def unixOf (time us : Int) : Res Int :=
  if time = -1 ∨ time < 0 ∨ time * 1000000 + us < 0 ∨ time * 1000000 + us > tsMax then .error .err else .ok (time * 1000000 + us)

theorem tsGetUnix_none (ts : Ts) : tsGetUnix ts none = unixOf (mktime ts.tm) ts.us := by
  unfold tsGetUnix unixOf
  by_cases h1 : mktime ts.tm = -1
  · simp [h1]
  · by_cases h2 : mktime ts.tm < 0
    · simp [h1, h2]
    · by_cases h3 : mktime ts.tm * 1000000 + ts.us < 0 ∨ mktime ts.tm * 1000000 + ts.us > tsMax
      · rw [if_neg h1]
        simp only [h2, if_false]
        have : tsValidate (mktime ts.tm * 1000000 + ts.us) = .error .err := by
          unfold tsValidate tsMin; rw [if_pos h3]
        rw [this, if_pos (by omega)]
        rfl
      · rw [if_neg h1]
        simp only [h2, if_false]
        have h4 : ¬ (mktime ts.tm = -1 ∨ mktime ts.tm < 0 ∨ mktime ts.tm * 1000000 + ts.us < 0 ∨ mktime ts.tm * 1000000 + ts.us > tsMax) := by omega
        rw [tsValidate_ok (by omega) (by omega)]
        simp only [h1, h3, false_or, if_false]
        rfl

/-- the seconds and microseconds of an interval without months -/
theorem add_core (ts : Ts) (iv : Iv) (hm : iv.m = 0) (hy : fits32 ts.tm.year) (hmo : fits32 ts.tm.mon)
    (hd : fits32 (ts.tm.mday + iv.d)) (hh : -2 ^ 31 * 3600000000 ≤ iv.us ∧ iv.us < (2 ^ 31 - 25) * 3600000000)
    (h1 : 0 ≤ ts.tm.hour ∧ ts.tm.hour < 24) (h2 : 0 ≤ ts.tm.min ∧ ts.tm.min < 60) (h3 : 0 ≤ ts.tm.sec ∧ ts.tm.sec < 60)
    (h4 : 0 ≤ ts.us ∧ ts.us < 1000000) :
    ∃ t, tsAdd ts iv = .ok t ∧ mktime t.tm * 1000000 + t.us = mktime ts.tm * 1000000 + ts.us + iv.d * 86400000000 + iv.us ∧
      -1000000 < t.us ∧ t.us < 2000000 ∧ (iv.us ≤ 0 → t.us < 1000000) ∧ (0 ≤ iv.us → mktime ts.tm + iv.d * 86400 ≤ mktime t.tm) ∧
      t.zone = ts.zone := by
  obtain ⟨hm1, hp, hn⟩ := tdiv_bounds iv.us 3600000000 (by decide)
  obtain ⟨nm, np, nn⟩ := tdiv_bounds (crem iv.us 3600000000) 60000000 (by decide)
  obtain ⟨sm, sp, sn⟩ := tdiv_bounds (crem (crem iv.us 3600000000) 60000000) 1000000 (by decide)
  have e2 : (2 : Int) ^ 31 = 2147483648 := by decide
  have hm0 : cdiv iv.m 12 = 0 := by rw [hm]; rfl
  have hdd : (if iv.d ≠ 0 then ts.tm.mday + iv.d else ts.tm.mday) = ts.tm.mday + iv.d := by
    split
    · rfl
    · rename_i h; simp only [ne_eq, Decidable.not_not] at h; rw [h]; omega
  unfold tsAdd
  simp only [show (60 * 60 * 1000 * 1000 : Int) = 3600000000 from by decide, show (60 * 1000 * 1000 : Int) = 60000000 from by decide,
    show (1000 * 1000 : Int) = 1000000 from by decide]
  simp only [ite_crem, hdd]
  simp only [hm, ne_eq, not_true, false_and, if_false]
  rw [if_neg (by simp only [Decidable.not_not]; exact ⟨hy, hmo, hd⟩)]
  generalize cdiv iv.us 3600000000 = h at *
  generalize crem iv.us 3600000000 = r1 at *
  generalize cdiv r1 60000000 = n at *
  generalize crem r1 60000000 = r2 at *
  generalize cdiv r2 1000000 = s at *
  generalize crem r2 1000000 = r3 at *
  rw [e2] at hh
  have hu : 0 ≤ iv.us ∨ iv.us ≤ 0 := by omega
  have B : fits32 (ts.tm.hour + h) ∧ fits32 (ts.tm.min + n) ∧ fits32 (ts.tm.sec + s) ∧ fits32 (ts.us + r3) ∧ -1000000 < r3 ∧ r3 < 1000000 ∧
      (iv.us ≤ 0 → r3 ≤ 0) ∧ (0 ≤ iv.us → 0 ≤ h ∧ 0 ≤ n ∧ 0 ≤ s) := by
    simp only [fits32, e2]
    rcases hu with h | h
    · have a := hp h; have b := np a.2.1; have c := sp b.2.1; omega
    · have a := hn h; have b := nn a.2.1; have c := sn b.2.1; omega
  obtain ⟨b1, b2, b3, b4, b5, b6, b7, b8⟩ := B
  have ite0 : ∀ a b : Int, fits32 (a + b) → (if ¬ b = 0 then wrap32 (a + b) else a) = a + b := by
    intro a b hf
    split
    · exact wrap32_id hf
    · rename_i h; simp only [Decidable.not_not] at h; omega
  rw [ite0 _ _ b1, ite0 _ _ b2, ite0 _ _ b3, wrap32_id b4]
  refine ⟨_, rfl, ?_, by show _ < ts.us + r3; omega, by show ts.us + r3 < _; omega, ?_, ?_, rfl⟩
  · simp only [mktime]; omega
  · intro h; show ts.us + r3 < _; have := b7 h; omega
  · intro h; have := b8 h; simp only [mktime]; omega

/-- the same for timestamp_sub -/
theorem sub_core (ts : Ts) (iv : Iv) (hm : iv.m = 0) (hy : fits32 ts.tm.year) (hmo : fits32 ts.tm.mon)
    (hd : fits32 (ts.tm.mday - iv.d)) (hh : -(2 ^ 31 - 25) * 3600000000 < iv.us ∧ iv.us ≤ 2 ^ 31 * 3600000000)
    (h1 : 0 ≤ ts.tm.hour ∧ ts.tm.hour < 24) (h2 : 0 ≤ ts.tm.min ∧ ts.tm.min < 60) (h3 : 0 ≤ ts.tm.sec ∧ ts.tm.sec < 60)
    (h4 : 0 ≤ ts.us ∧ ts.us < 1000000) :
    ∃ t, tsSub ts iv = .ok t ∧ mktime t.tm * 1000000 + t.us = mktime ts.tm * 1000000 + ts.us - iv.d * 86400000000 - iv.us ∧
      -1000000 < t.us ∧ t.us < 2000000 ∧ t.zone = ts.zone := by
  obtain ⟨hm1, hp, hn⟩ := tdiv_bounds iv.us 3600000000 (by decide)
  obtain ⟨nm, np, nn⟩ := tdiv_bounds (crem iv.us 3600000000) 60000000 (by decide)
  obtain ⟨sm, sp, sn⟩ := tdiv_bounds (crem (crem iv.us 3600000000) 60000000) 1000000 (by decide)
  have e2 : (2 : Int) ^ 31 = 2147483648 := by decide
  have hm0 : cdiv iv.m 12 = 0 := by rw [hm]; rfl
  have hdd : (if iv.d ≠ 0 then ts.tm.mday - iv.d else ts.tm.mday) = ts.tm.mday - iv.d := by
    split
    · rfl
    · rename_i h; simp only [ne_eq, Decidable.not_not] at h; rw [h]; omega
  unfold tsSub
  simp only [show (60 * 60 * 1000 * 1000 : Int) = 3600000000 from by decide, show (60 * 1000 * 1000 : Int) = 60000000 from by decide,
    show (1000 * 1000 : Int) = 1000000 from by decide]
  simp only [ite_crem, hdd]
  simp only [hm, ne_eq, not_true, false_and, if_false]
  rw [if_neg (by simp only [Decidable.not_not]; exact ⟨hy, hmo, hd⟩)]
  generalize cdiv iv.us 3600000000 = h at *
  generalize crem iv.us 3600000000 = r1 at *
  generalize cdiv r1 60000000 = n at *
  generalize crem r1 60000000 = r2 at *
  generalize cdiv r2 1000000 = s at *
  generalize crem r2 1000000 = r3 at *
  rw [e2] at hh
  have hu : 0 ≤ iv.us ∨ iv.us ≤ 0 := by omega
  have B : fits32 (ts.tm.hour - h) ∧ fits32 (ts.tm.min - n) ∧ fits32 (ts.tm.sec - s) ∧ fits32 (ts.us - r3) ∧ -1000000 < r3 ∧
      r3 < 1000000 := by
    simp only [fits32, e2]
    rcases hu with h | h
    · have a := hp h; have b := np a.2.1; have c := sp b.2.1; omega
    · have a := hn h; have b := nn a.2.1; have c := sn b.2.1; omega
  obtain ⟨b1, b2, b3, b4, b5, b6⟩ := B
  have ite0 : ∀ a b : Int, fits32 (a - b) → (if ¬ b = 0 then wrap32 (a - b) else a) = a - b := by
    intro a b hf
    split
    · exact wrap32_id hf
    · rename_i h; simp only [Decidable.not_not] at h; omega
  rw [ite0 _ _ b1, ite0 _ _ b2, ite0 _ _ b3, wrap32_id b4]
  refine ⟨_, rfl, ?_, by show _ < ts.us - r3; omega, by show ts.us - r3 < _; omega, rfl⟩
  simp only [mktime]; omega

/-- the interval in microseconds (no months) -/
def Iv.total (iv : Iv) : Int := iv.d * 86400000000 + iv.us

/-- intervals whose days and hours fit into an int with the fields of a timestamp (the hours: 245 thousand years) -/
def Moderate (iv : Iv) : Prop := -2147483000 ≤ iv.d ∧ iv.d ≤ 2147483000 ∧ -2147483000 * 3600000000 ≤ iv.us ∧ iv.us ≤ 2147483000 * 3600000000

theorem gmtime_bounds {t : Int} (h1 : 0 ≤ t) (h2 : t ≤ 253402300799) : fits32 (gmtime t).year ∧ fits32 (gmtime t).mon ∧
    1 ≤ (gmtime t).mday ∧ (gmtime t).mday ≤ 31 ∧ (0 ≤ (gmtime t).hour ∧ (gmtime t).hour < 24) ∧
    (0 ≤ (gmtime t).min ∧ (gmtime t).min < 60) ∧ (0 ≤ (gmtime t).sec ∧ (gmtime t).sec < 60) := by
  have e2 : (2 : Int) ^ 31 = 2147483648 := by decide
  obtain ⟨y, m, d, hh, mm, ss, he, a1, a2, a3, a4, b1, b2, b3, b4, b5, b6, -, hj⟩ := gmtime_spec t
  have hd : daysIn y m ≤ 31 := by unfold daysIn; split <;> split <;> omega
  have hy := jdn_in_year a1 a2 a3 a4
  rw [hj] at hy
  have y1 : 1 ≤ y := by
    rcases Int.lt_or_le y 1 with h | h
    · have := yearStart_mono (y := y + 1) (y' := 1) (by omega)
      have : yearStart 1 = 1721426 := by decide
      omega
    · exact h
  have y2 : y ≤ 9999 := by
    rcases Int.lt_or_le 9999 y with h | h
    · have := yearStart_mono (y := 10000) (y' := y) (by omega)
      have : yearStart 10000 = 5373485 := by decide
      omega
    · exact h
  rw [he]
  simp only [fits32, e2]
  omega

theorem unixOf_le {time us r : Int} (h : time * 1000000 + us = r) (hus : us < 2000000) (h1 : 1000000 ≤ r) (h2 : r ≤ tsMax) :
    unixOf time us = .ok r := by
  unfold unixOf; rw [if_neg (by omega), h]

theorem unixOf_le0 {time us r : Int} (h : time * 1000000 + us = r) (hus : us < 1000000) (h1 : 0 ≤ r) (h2 : r ≤ tsMax) :
    unixOf time us = .ok r := by
  unfold unixOf; rw [if_neg (by omega), h]

theorem unixOf_err {time us r : Int} (h : time * 1000000 + us = r) (h1 : r < 0 ∨ tsMax < r) : unixOf time us = .error .err := by
  unfold unixOf; rw [if_pos (by omega)]

theorem unixOf_eq {time us r w : Int} (h : time * 1000000 + us = r) (h1 : unixOf time us = .ok w) : w = r := by
  unfold unixOf at h1
  split at h1
  · simp at h1
  · simp only [Except.ok.injEq] at h1; omega

theorem plus_core (v : Int) (iv : Iv) (h1 : 0 ≤ v) (h2 : v ≤ tsMax) (hm : iv.m = 0) (hi : Moderate iv) :
    ∃ time us, plusInterval v iv = unixOf time us ∧ time * 1000000 + us = v + iv.total ∧ -1000000 < us ∧ us < 2000000 ∧
      (iv.us ≤ 0 → us < 1000000) ∧ (0 ≤ iv.us → v / 1000000 + iv.d * 86400 ≤ time) := by
  have e2 : (2 : Int) ^ 31 = 2147483648 := by decide
  obtain ⟨i1, i2, i3, i4⟩ := hi
  obtain ⟨g1, g2, g3, g4, g5, g6, g7⟩ := gmtime_bounds (t := v / 1000000) (by omega) (by unfold tsMax at h2; omega)
  obtain ⟨t, ht, he, hl, hu, hn, hq, -⟩ := add_core ⟨gmtime (v / 1000000), v % 1000000, none⟩ iv hm g1 g2
    (by show fits32 ((gmtime (v / 1000000)).mday + iv.d); simp only [fits32, e2]; omega) (by rw [e2]; omega) g5 g6 g7
    (by show 0 ≤ v % 1000000 ∧ v % 1000000 < 1000000; omega)
  refine ⟨mktime t.tm, t.us, ?_, ?_, hl, hu, hn, by rw [mktime_gmtime] at hq; exact hq⟩
  · simp only [plusInterval, tsSetUnix_ok h1 h2, bind, Except.bind, ht, tsGetUnix_none]
  · rw [he, mktime_gmtime]; simp only [Iv.total]; omega

/-- **C75** timestamp + interval (days and time, no months): the timestamp that many microseconds later, an error outside of
1970…9999. (In the first second of 1970 it may be an error too.) -/
theorem C75_plus_partial (v : Int) (iv : Iv) (h1 : 0 ≤ v) (h2 : v ≤ tsMax) (hm : iv.m = 0) (hi : Moderate iv) :
    (∀ w, plusInterval v iv = .ok w → w = v + iv.total) ∧
    (1000000 ≤ v + iv.total → v + iv.total ≤ tsMax → plusInterval v iv = .ok (v + iv.total)) ∧
    (v + iv.total < 0 ∨ tsMax < v + iv.total → plusInterval v iv = .error .err) := by
  obtain ⟨time, us, he, ht, -, hu, -⟩ := plus_core v iv h1 h2 hm hi
  rw [he]
  exact ⟨fun w => unixOf_eq ht, unixOf_le ht hu, unixOf_err ht⟩

theorem minus_core (v : Int) (iv : Iv) (h1 : 0 ≤ v) (h2 : v ≤ tsMax) (hm : iv.m = 0) (hi : Moderate iv) :
    ∃ time us, minusInterval v iv = unixOf time us ∧ time * 1000000 + us = v - iv.total ∧ -1000000 < us ∧ us < 2000000 := by
  have e2 : (2 : Int) ^ 31 = 2147483648 := by decide
  obtain ⟨i1, i2, i3, i4⟩ := hi
  obtain ⟨g1, g2, g3, g4, g5, g6, g7⟩ := gmtime_bounds (t := v / 1000000) (by omega) (by unfold tsMax at h2; omega)
  obtain ⟨t, ht, he, hl, hu, -⟩ := sub_core ⟨gmtime (v / 1000000), v % 1000000, none⟩ iv hm g1 g2
    (by show fits32 ((gmtime (v / 1000000)).mday - iv.d); simp only [fits32, e2]; omega) (by rw [e2]; omega) g5 g6 g7
    (by show 0 ≤ v % 1000000 ∧ v % 1000000 < 1000000; omega)
  refine ⟨mktime t.tm, t.us, ?_, ?_, hl, hu⟩
  · simp only [minusInterval, tsSetUnix_ok h1 h2, bind, Except.bind, ht, tsGetUnix_none]
  · rw [he, mktime_gmtime]; simp only [Iv.total]; omega

/-- **C75** timestamp - interval -/
theorem C75_minus_partial (v : Int) (iv : Iv) (h1 : 0 ≤ v) (h2 : v ≤ tsMax) (hm : iv.m = 0) (hi : Moderate iv) :
    (∀ w, minusInterval v iv = .ok w → w = v - iv.total) ∧
    (1000000 ≤ v - iv.total → v - iv.total ≤ tsMax → minusInterval v iv = .ok (v - iv.total)) ∧
    (v - iv.total < 0 ∨ tsMax < v - iv.total → minusInterval v iv = .error .err) := by
  obtain ⟨time, us, he, ht, -, hu⟩ := minus_core v iv h1 h2 hm hi
  rw [he]
  exact ⟨fun w => unixOf_eq ht, unixOf_le ht hu, unixOf_err ht⟩

/-- **C75** b + (a - b) = a -/
theorem C75_diff (a b : Int) (ha : 0 ≤ a) (ha2 : a ≤ tsMax) (hb : 0 ≤ b) (hb2 : b ≤ tsMax) : plusInterval b (minusTs a b) = .ok a := by
  have hi : Moderate (minusTs a b) := by
    unfold tsMax at *
    simp only [Moderate, minusTs]
    omega
  obtain ⟨time, us, he, ht, hl, hu, hn, hq⟩ := plus_core b (minusTs a b) hb hb2 rfl hi
  rw [he]
  have e : b + (minusTs a b).total = a := by simp only [minusTs, Iv.total]; omega
  rw [e] at ht
  have hb1 : (minusTs a b).us = a - b := rfl
  have hb3 : (minusTs a b).d = 0 := rfl
  rw [hb1] at hn hq
  rw [hb3] at hq
  by_cases h : a ≤ b
  · exact unixOf_le0 ht (hn (by omega)) ha ha2
  · have := hq (by omega)
    unfold unixOf; rw [if_neg (by omega), ht]

/-- the timestamp of a day (AD) and the microseconds of the day -/
def tsOf (y m d us : Int) : Int := (jdn y m d - 2440588) * 86400000000 + us

theorem unixOf_day {y m d us hh mm ss u : Int} (hv : ValidDate y m d) (hy : 1970 ≤ y) (h1 : 0 ≤ us) (h2 : us < 86400000000)
    (hs : (hh * 3600 + mm * 60 + ss) * 1000000 + u = us) (hu : u < 1000000) : unixOf (seconds y m d hh mm ss) u = .ok (tsOf y m d us) := by
  have hj := jdn_range hv
  have hy1 := jdn_in_year hv.2.2.1 hv.2.2.2.1 hv.2.2.2.2.1 hv.2.2.2.2.2
  have := yearStart_mono hy
  have e : yearStart 1970 = 2440588 := by decide
  unfold dateMax at hj
  apply unixOf_le0
  · simp only [seconds, tsOf]; omega
  · omega
  · simp only [tsOf]; omega
  · simp only [tsOf, tsMax]; omega

theorem tsOf_fields {y m d us : Int} (hv : ValidDate y m d) (hy : 1970 ≤ y) (h1 : 0 ≤ us) (h2 : us < 86400000000) :
    0 ≤ tsOf y m d us ∧ tsOf y m d us ≤ tsMax ∧ gmtime (tsOf y m d us / 1000000) = ⟨y - 1900, m - 1, d, us / 3600000000,
      us / 60000000 % 60, us / 1000000 % 60⟩ ∧ tsOf y m d us % 1000000 = us % 1000000 := by
  have hj := jdn_range hv
  have hy1 := jdn_in_year hv.2.2.1 hv.2.2.2.1 hv.2.2.2.2.1 hv.2.2.2.2.2
  have := yearStart_mono hy
  have e : yearStart 1970 = 2440588 := by decide
  unfold dateMax at hj
  have hc := civil_jdn hv.2.2.1 hv.2.2.2.1 hv.2.2.2.2.1 hv.2.2.2.2.2
  have e1 : tsOf y m d us / 1000000 = (jdn y m d - 2440588) * 86400 + us / 1000000 := by simp only [tsOf]; omega
  refine ⟨by simp only [tsOf]; omega, by simp only [tsOf, tsMax]; omega, ?_, by simp only [tsOf]; omega⟩
  rw [e1]
  have e2 : ((jdn y m d - 2440588) * 86400 + us / 1000000) / 86400 + 2440588 = jdn y m d := by omega
  simp only [gmtime, e2, hc, Tm.mk.injEq, true_and]
  omega

/-- the month that is `k` months after (or before) a month -/
def monthAfter (y m k : Int) : Int × Int := ((y * 12 + (m - 1) + k) / 12, (y * 12 + (m - 1) + k) % 12 + 1)

theorem mktime_month {y m d hh mm ss q r : Int} (h1 : 1 ≤ m) (h2 : m ≤ 12) : mktime ⟨y - 1900 + q, m - 1 + r, d, hh, mm, ss⟩ =
    seconds (monthAfter y m (12 * q + r)).1 (monthAfter y m (12 * q + r)).2 d hh mm ss := by
  have e1 : y - 1900 + q + 1900 + (m - 1 + r) / 12 = (y * 12 + (m - 1) + (12 * q + r)) / 12 := by omega
  have e2 : (m - 1 + r) % 12 + 1 = (y * 12 + (m - 1) + (12 * q + r)) % 12 + 1 := by omega
  simp only [mktime, monthAfter, e1, e2, seconds]
  have a1 : 1 ≤ (y * 12 + (m - 1) + (12 * q + r)) % 12 + 1 := by omega
  have a2 : (y * 12 + (m - 1) + (12 * q + r)) % 12 + 1 ≤ 12 := by omega
  rw [monthStart_eq a1 a2, jdn_day _ _ d]

theorem cdiv12 (m : Int) : 12 * cdiv m 12 + crem m 12 = m ∧ -12 < crem m 12 ∧ crem m 12 < 12 ∧
    (0 ≤ m → 0 ≤ cdiv m 12 ∧ cdiv m 12 ≤ m) ∧ (m ≤ 0 → cdiv m 12 ≤ 0 ∧ m ≤ cdiv m 12) := by
  obtain ⟨a, b, c⟩ := tdiv_bounds m 12 (by decide)
  rcases Int.le_total 0 m with h | h
  · have := b h; omega
  · have := c h; omega

theorem tsAdd_months (ts : Ts) (m : Int) (hm1 : -2147483000 ≤ m) (hm2 : m ≤ 2147483000) (hy : -10000 ≤ ts.tm.year ∧ ts.tm.year ≤ 10000)
    (hmo : 0 ≤ ts.tm.mon ∧ ts.tm.mon ≤ 11) (hd : 1 ≤ ts.tm.mday ∧ ts.tm.mday ≤ 31) (hu : 0 ≤ ts.us ∧ ts.us < 1000000) :
    tsAdd ts ⟨m, 0, 0⟩ = .ok ⟨⟨ts.tm.year + cdiv m 12, ts.tm.mon + crem m 12, ts.tm.mday, ts.tm.hour, ts.tm.min, ts.tm.sec⟩, ts.us, ts.zone⟩ := by
  obtain ⟨e, r1, r2, p, n⟩ := cdiv12 m
  have e2 : (2 : Int) ^ 31 = 2147483648 := by decide
  have hyear : (if m ≠ 0 ∧ cdiv m 12 ≠ 0 then ts.tm.year + cdiv m 12 else ts.tm.year) = ts.tm.year + cdiv m 12 := by
    by_cases h : cdiv m 12 = 0
    · rw [if_neg (by simp [h]), h]; omega
    · rw [if_pos ⟨by omega, h⟩]
  have hmon : (if m ≠ 0 ∧ (if cdiv m 12 ≠ 0 then crem m 12 else m) ≠ 0 then ts.tm.mon + (if cdiv m 12 ≠ 0 then crem m 12 else m) else ts.tm.mon)
      = ts.tm.mon + crem m 12 := by
    have hx : (if cdiv m 12 ≠ 0 then crem m 12 else m) = crem m 12 := by
      by_cases h : cdiv m 12 = 0
      · rw [if_neg (by simp [h])]; omega
      · rw [if_pos h]
    rw [hx]
    by_cases h : crem m 12 = 0
    · rw [if_neg (by simp [h]), h]; omega
    · rw [if_pos ⟨by intro hm; rw [hm] at h; exact h (by decide), h⟩]
  unfold tsAdd
  simp only [hyear, hmon]
  have hf : fits32 (ts.tm.year + cdiv m 12) ∧ fits32 (ts.tm.mon + crem m 12) ∧ fits32 ts.tm.mday := by
    simp only [fits32, e2]; rcases Int.le_total 0 m with h | h
    · have := p h; omega
    · have := n h; omega
  have z : ∀ b : Int, cdiv 0 b = 0 := fun b => Int.zero_tdiv b
  simp only [z, ne_eq, not_true, if_false, hf, and_self]
  rw [wrap32_id (by simp only [fits32, e2]; omega)]
  simp

theorem tsSub_months (ts : Ts) (m : Int) (hm1 : -2147483000 ≤ m) (hm2 : m ≤ 2147483000) (hy : -10000 ≤ ts.tm.year ∧ ts.tm.year ≤ 10000)
    (hmo : 0 ≤ ts.tm.mon ∧ ts.tm.mon ≤ 11) (hd : 1 ≤ ts.tm.mday ∧ ts.tm.mday ≤ 31) (hu : 0 ≤ ts.us ∧ ts.us < 1000000) :
    tsSub ts ⟨m, 0, 0⟩ = .ok ⟨⟨ts.tm.year - cdiv m 12, ts.tm.mon - crem m 12, ts.tm.mday, ts.tm.hour, ts.tm.min, ts.tm.sec⟩, ts.us, ts.zone⟩ := by
  obtain ⟨e, r1, r2, p, n⟩ := cdiv12 m
  have e2 : (2 : Int) ^ 31 = 2147483648 := by decide
  have hyear : (if m ≠ 0 ∧ cdiv m 12 ≠ 0 then ts.tm.year - cdiv m 12 else ts.tm.year) = ts.tm.year - cdiv m 12 := by
    by_cases h : cdiv m 12 = 0
    · rw [if_neg (by simp [h]), h]; omega
    · rw [if_pos ⟨by omega, h⟩]
  have hmon : (if m ≠ 0 ∧ (if cdiv m 12 ≠ 0 then crem m 12 else m) ≠ 0 then ts.tm.mon - (if cdiv m 12 ≠ 0 then crem m 12 else m) else ts.tm.mon)
      = ts.tm.mon - crem m 12 := by
    have hx : (if cdiv m 12 ≠ 0 then crem m 12 else m) = crem m 12 := by
      by_cases h : cdiv m 12 = 0
      · rw [if_neg (by simp [h])]; omega
      · rw [if_pos h]
    rw [hx]
    by_cases h : crem m 12 = 0
    · rw [if_neg (by simp [h]), h]; omega
    · rw [if_pos ⟨by intro hm; rw [hm] at h; exact h (by decide), h⟩]
  unfold tsSub
  simp only [hyear, hmon]
  have hf : fits32 (ts.tm.year - cdiv m 12) ∧ fits32 (ts.tm.mon - crem m 12) ∧ fits32 ts.tm.mday := by
    simp only [fits32, e2]; rcases Int.le_total 0 m with h | h
    · have := p h; omega
    · have := n h; omega
  have z : ∀ b : Int, cdiv 0 b = 0 := fun b => Int.zero_tdiv b
  simp only [z, ne_eq, not_true, if_false, hf, and_self]
  rw [wrap32_id (by simp only [fits32, e2]; omega)]
  simp

theorem daysIn_le (y m : Int) : daysIn y m ≤ 31 := by unfold daysIn; split <;> split <;> omega

/-- **C75** timestamp + months: the same day and time that many months later, if that month has the day -/
theorem C75_months_partial (y m d us k y' m' : Int) (hv : ValidDate y m d) (hy : 1970 ≤ y) (h1 : 0 ≤ us) (h2 : us < 86400000000)
    (hk1 : -2147483000 ≤ k) (hk2 : k ≤ 2147483000) (hk : monthAfter y m k = (y', m')) (hv' : ValidDate y' m' d) (hy' : 1970 ≤ y') :
    plusInterval (tsOf y m d us) ⟨k, 0, 0⟩ = .ok (tsOf y' m' d us) := by
  obtain ⟨a1, a2, a3, a4⟩ := tsOf_fields hv hy h1 h2
  obtain ⟨v1, v2, v3, v4, v5, v6⟩ := hv
  have hdm := daysIn_le y m
  have ha := tsAdd_months ⟨⟨y - 1900, m - 1, d, us / 3600000000, us / 60000000 % 60, us / 1000000 % 60⟩, us % 1000000, none⟩ k hk1 hk2
    (by constructor <;> (show (_ : Int) ≤ _) <;> simp only <;> omega) (by simp only; omega) (by simp only; omega) (by simp only; omega)
  simp only [plusInterval, tsSetUnix_ok a1 a2, bind, Except.bind, a3, a4, ha, tsGetUnix_none]
  rw [mktime_month v3 v4, (cdiv12 k).1, hk]
  exact unixOf_day hv' hy' h1 h2 (by omega) (by omega)

/-- **C75** timestamp - months -/
theorem C75_minus_months_partial (y m d us k y' m' : Int) (hv : ValidDate y m d) (hy : 1970 ≤ y) (h1 : 0 ≤ us) (h2 : us < 86400000000)
    (hk1 : -2147483000 ≤ k) (hk2 : k ≤ 2147483000) (hk : monthAfter y m (-k) = (y', m')) (hv' : ValidDate y' m' d) (hy' : 1970 ≤ y') :
    minusInterval (tsOf y m d us) ⟨k, 0, 0⟩ = .ok (tsOf y' m' d us) := by
  obtain ⟨a1, a2, a3, a4⟩ := tsOf_fields hv hy h1 h2
  obtain ⟨v1, v2, v3, v4, v5, v6⟩ := hv
  have hdm := daysIn_le y m
  have ha := tsSub_months ⟨⟨y - 1900, m - 1, d, us / 3600000000, us / 60000000 % 60, us / 1000000 % 60⟩, us % 1000000, none⟩ k hk1 hk2
    (by constructor <;> (show (_ : Int) ≤ _) <;> simp only <;> omega) (by simp only; omega) (by simp only; omega) (by simp only; omega)
  simp only [minusInterval, tsSetUnix_ok a1 a2, bind, Except.bind, a3, a4, ha, tsGetUnix_none]
  rw [show y - 1900 - cdiv k 12 = y - 1900 + -(cdiv k 12) by omega, show m - 1 - crem k 12 = m - 1 + -(crem k 12) by omega, mktime_month v3 v4,
    show 12 * -(cdiv k 12) + -(crem k 12) = -k by have := (cdiv12 k).1; omega, hk]
  exact unixOf_day hv' hy' h1 h2 (by omega) (by omega)

/-- a day that the month does not have: 2024-01-31 + 1 month is 2024-03-02 and not in February, so that + 1 month - 1 month is not the
identity either -/
theorem C75_month_false : plusInterval (tsOf 2024 1 31 0) ⟨1, 0, 0⟩ = .ok (tsOf 2024 3 2 0) ∧
    minusInterval (tsOf 2024 3 2 0) ⟨1, 0, 0⟩ = .ok (tsOf 2024 2 2 0) := by decide +kernel

/-- in the first second of 1970 an interval whose sum is a valid timestamp can be an error: 00:00:00.6 + (1 day - 86400.5 s) -/
theorem C75_epoch_false : ∃ v iv, Moderate iv ∧ iv.m = 0 ∧ 0 ≤ v ∧ 0 ≤ v + iv.total ∧ v + iv.total ≤ tsMax ∧
    plusInterval v iv = .error .err :=
  ⟨600000, ⟨0, -1, 86399500000⟩, by unfold Moderate; decide, rfl, by decide, by decide, by decide, by decide +kernel⟩

/-- **C75** adding and subtracting the same interval of days and time -/
theorem C75_inverse (v : Int) (iv : Iv) (h1 : 1000000 ≤ v) (h2 : v ≤ tsMax) (hm : iv.m = 0) (hi : Moderate iv) (w : Int)
    (h : plusInterval v iv = .ok w) : minusInterval w iv = .ok v := by
  have hw := (C75_plus_partial v iv (by omega) h2 hm hi).1 w h
  have h3 := (C75_plus_partial v iv (by omega) h2 hm hi).2.2
  have hr : 0 ≤ w ∧ w ≤ tsMax := by
    by_cases hx : v + iv.total < 0 ∨ tsMax < v + iv.total
    · rw [h3 hx] at h; simp at h
    · omega
  have := (C75_minus_partial w iv hr.1 hr.2 hm hi).2.1
  rw [show w - iv.total = v by omega] at this
  exact this h1 h2

/-- **C75** dates and timestamps: a date is its midnight, a timestamp is on its date -/
theorem C75_dates (y m d us : Int) (hv : ValidDate y m d) (hy : 1970 ≤ y) (h1 : 0 ≤ us) (h2 : us < 86400000000) :
    dateToTs (jdn y m d) = .ok (tsOf y m d 0) ∧ tsDate (tsOf y m d us) = .ok (jdn y m d) ∧ dateSetGregorian y m d = .ok (jdn y m d) := by
  obtain ⟨a1, a2, a3, a4⟩ := tsOf_fields hv hy h1 h2
  have hs := set_valid hv
  have hg : dateGetGregorian (jdn y m d) = .ok (y, m, d) := by
    obtain ⟨y', m', d', he, hv', hj⟩ := get_valid (jdn_range hv).1 (jdn_range hv).2
    obtain ⟨rfl, rfl, rfl⟩ := jdn_inj hv'.2.2.1 hv'.2.2.2.1 hv'.2.2.2.2.1 hv'.2.2.2.2.2 hv.2.2.1 hv.2.2.2.1 hv.2.2.2.2.1 hv.2.2.2.2.2 hj
    exact he
  refine ⟨?_, ?_, hs⟩
  · simp only [dateToTs, tsSetDate, hg, bind, Except.bind, tsGetUnix_none]
    rw [mktime_eq hv.2.2.1 hv.2.2.2.1]
    exact unixOf_day hv hy (by decide) (by decide) (by decide) (by decide)
  · simp only [tsDate, tsSetUnix_ok a1 a2, bind, Except.bind, a3]
    rw [show y - 1900 + 1900 = y by omega, show m - 1 + 1 = m by omega, hs]

example : ValidDate 2024 2 29 ∧ monthAfter 2024 2 12 = (2025, 2) ∧ monthAfter 2024 2 (-2) = (2023, 12) := by
  unfold ValidDate daysIn Leap; decide
example : Moderate ⟨0, 3, -5000000⟩ := by unfold Moderate; decide

/-! ## Text (C74) -/

theorem pad_len2 {n : Nat} (h : n < 100) : (pad 2 n).length = 2 := by rw [pad2 n h]; rfl
theorem pad_len4 {n : Nat} (h : n < 10000) : (pad 4 n).length = 4 := by rw [pad4 n h]; rfl

theorem pad3 (n : Nat) (h : n < 1000) : pad 3 n = [48 + n / 100, 48 + n / 10 % 10, 48 + n % 10] := by
  unfold pad
  by_cases h1 : n < 10
  · rw [dec_small n h1]; simp [List.replicate]; omega
  · rw [dec_step n (by omega)]
    by_cases h2 : n / 10 < 10
    · rw [dec_small _ h2]; simp [List.replicate]; omega
    · rw [dec_step _ (by omega), dec_small _ (by omega)]; simp [List.replicate]; omega

theorem pad6 (n : Nat) (h : n < 1000000) : pad 6 n = [48 + n / 100000, 48 + n / 10000 % 10, 48 + n / 1000 % 10, 48 + n / 100 % 10,
    48 + n / 10 % 10, 48 + n % 10] := by
  unfold pad
  by_cases h1 : n < 10
  · rw [dec_small n h1]; simp [List.replicate]; omega
  · rw [dec_step n (by omega)]
    by_cases h2 : n / 10 < 10
    · rw [dec_small _ h2]; simp [List.replicate]; omega
    · rw [dec_step _ (by omega)]
      by_cases h3 : n / 10 / 10 < 10
      · rw [dec_small _ h3]; simp [List.replicate]; omega
      · rw [dec_step _ (by omega)]
        by_cases h4 : n / 10 / 10 / 10 < 10
        · rw [dec_small _ h4]; simp [List.replicate]; omega
        · rw [dec_step _ (by omega)]
          by_cases h5 : n / 10 / 10 / 10 / 10 < 10
          · rw [dec_small _ h5]; simp [List.replicate]; omega
          · rw [dec_step _ (by omega), dec_small _ (by omega)]; simp [List.replicate]; omega

theorem tsField_pad {w n : Nat} {sep : Nat} {seps : List Nat} {r : Bytes} (hl : (pad w n).length = w) (hp : parsePart 0 (pad w n) = .ok (n : Int))
    (hs : sep ∈ seps) : tsField (pad w n ++ sep :: r) w seps = .ok ((n : Int), r) := by
  have h1 : charAt (pad w n ++ sep :: r) w = .ok sep := by
    unfold charAt
    rw [dif_pos (by simp [hl])]
    congr 1
    rw [List.getElem_append_right (by omega)]
    simp [hl]
  have h2 : tsPart (pad w n ++ sep :: r) w = .ok (n : Int) := by
    unfold tsPart
    rw [if_neg (by simp [hl]), List.take_append_of_le_length (by omega), List.take_of_length_le (by omega), hp]
  simp only [tsField, h1, bind, Except.bind, hs, not_true, if_false, h2]
  congr 2
  rw [List.drop_append]
  simp [hl]

theorem tsPart_pad {w n : Nat} {r : Bytes} (hl : (pad w n).length = w) (hp : parsePart 0 (pad w n) = .ok (n : Int)) :
    tsPart (pad w n ++ r) w = .ok (n : Int) ∧ (pad w n ++ r).drop w = r := by
  unfold tsPart
  rw [if_neg (by simp [hl]), List.take_append_of_le_length (by omega), List.take_of_length_le (by omega), hp]
  exact ⟨rfl, by rw [List.drop_append]; simp [hl]⟩

/-- the fraction of a second: none, three digits or six digits -/
def fracText (us : Nat) : Bytes := if us = 0 then [] else if us % 1000 = 0 then 46 :: pad 3 (us / 1000) else 46 :: pad 6 us

/-- the offset of a time zone in minutes: +hh, +hh:mm -/
def zoneText (neg : Bool) (minutes : Nat) : Bytes :=
  (if neg then 45 else 43) :: (pad 2 (minutes / 60) ++ (if minutes % 60 = 0 then [] else 58 :: pad 2 (minutes % 60)))

/-- yyyy-mm-dd hh:mm:ss -/
def clockText (y m d hh mm ss : Nat) : Bytes :=
  pad 4 y ++ 45 :: (pad 2 m ++ 45 :: (pad 2 d ++ 32 :: (pad 2 hh ++ 58 :: (pad 2 mm ++ 58 :: pad 2 ss))))

theorem usDigits_digit (v : Int) (n k : Nat) (t : Bytes) (h : n < 10) (hv : 0 ≤ v) (hv2 : v < 100000000) :
    usDigits v k ((48 + n) :: t) = usDigits (v * 10 + n) (k + 1) t := by
  rw [usDigits]
  rw [isDigit_of n h]
  simp only [if_true]
  rw [if_neg (by omega), show v * 10 + (((48 + n : Nat) : Int) - 48) = v * 10 + n by omega]

theorem usDigits_end (v : Int) (k : Nat) (r : Bytes) (hr : ∀ c ∈ r.head?, isDigit c = false) : usDigits v k r = .ok (v, k, r) := by
  cases r with
  | nil => rfl
  | cons c t => rw [usDigits, hr c (by simp)]; rfl

/-- the fraction is read back -/
theorem tsFraction_text {us : Nat} {r : Bytes} (h : us < 1000000) (hr : ∀ c ∈ r.head?, isDigit c = false ∧ c ≠ 46) :
    tsFraction (fracText us ++ r) = .ok ((us : Int), r) := by
  have hr' : ∀ c ∈ r.head?, isDigit c = false := fun c hc => (hr c hc).1
  unfold fracText
  by_cases h0 : us = 0
  · rw [if_pos h0, h0]
    cases r with
    | nil => rfl
    | cons c t =>
      have := (hr c (by simp)).2
      simp only [List.nil_append]
      unfold tsFraction
      split
      · rename_i t' he; simp at he; omega
      · rfl
  · rw [if_neg h0]
    by_cases h1 : us % 1000 = 0
    · rw [if_pos h1, pad3 _ (by omega)]
      simp only [tsFraction, List.cons_append, List.nil_append]
      rw [usDigits_digit _ _ _ _ (by omega) (by omega) (by omega), usDigits_digit _ _ _ _ (by omega) (by omega) (by omega),
        usDigits_digit _ _ _ _ (by omega) (by omega) (by omega), usDigits_end _ _ _ hr']
      simp only [bind, Except.bind]
      congr 2
      omega
    · rw [if_neg h1, pad6 _ h]
      simp only [tsFraction, List.cons_append, List.nil_append]
      rw [usDigits_digit _ _ _ _ (by omega) (by omega) (by omega), usDigits_digit _ _ _ _ (by omega) (by omega) (by omega),
        usDigits_digit _ _ _ _ (by omega) (by omega) (by omega), usDigits_digit _ _ _ _ (by omega) (by omega) (by omega),
        usDigits_digit _ _ _ _ (by omega) (by omega) (by omega), usDigits_digit _ _ _ _ (by omega) (by omega) (by omega),
        usDigits_end _ _ _ hr']
      simp only [bind, Except.bind]
      congr 2
      omega

/-- the offset is read back -/
theorem tsZone_text {neg : Bool} {minutes : Nat} (h : minutes < 6000) :
    tsZone (zoneText neg minutes) = .ok (some (if neg then -((minutes : Int) * 60) else (minutes : Int) * 60)) := by
  have l1 := pad_len2 (n := minutes / 60) (by omega)
  have p1 := parse_pad2 (minutes / 60) (by omega)
  have l2 := pad_len2 (n := minutes % 60) (by omega)
  have p2 := parse_pad2 (minutes % 60) (by omega)
  have ht : ∀ r : Bytes, (pad 2 (minutes / 60) ++ r).take 2 = pad 2 (minutes / 60) := by
    intro r; rw [List.take_append_of_le_length (by omega), List.take_of_length_le (by omega)]
  have hd : ∀ r : Bytes, (pad 2 (minutes / 60) ++ r).drop 2 = r := by intro r; rw [List.drop_append]; simp [l1]
  have hlen : ∀ r : Bytes, ¬ (pad 2 (minutes / 60) ++ r).length < 2 := by intro r; simp [l1]
  have hsg : (if neg = true then (45 : Nat) else 43) ≠ 90 := by cases neg <;> decide
  have hsg2 : ¬ ((if neg = true then (45 : Nat) else 43) ≠ 45 ∧ (if neg = true then (45 : Nat) else 43) ≠ 43) := by cases neg <;> decide
  unfold zoneText
  simp only [tsZone, hsg, if_false, hlen, hsg2, ht, hd, p1, bind, Except.bind]
  by_cases h0 : minutes % 60 = 0
  · simp only [h0, if_true]
    cases neg
    · simp; omega
    · simp; omega
  · simp only [h0, if_false, List.cons_ne_nil, List.headD_cons, if_true, List.drop_succ_cons, List.drop_zero, l2, p2, ne_eq, not_true]
    cases neg
    · simp; omega
    · simp; omega

theorem notSpace_digit (n : Nat) (h : n < 10) : isSpace (48 + n) = false := by
  have : n = 0 ∨ n = 1 ∨ n = 2 ∨ n = 3 ∨ n = 4 ∨ n = 5 ∨ n = 6 ∨ n = 7 ∨ n = 8 ∨ n = 9 := by omega
  rcases this with rfl | rfl | rfl | rfl | rfl | rfl | rfl | rfl | rfl | rfl <;> rfl

theorem clock_len {y m d hh mm ss : Nat} (h1 : y < 10000) (h2 : m < 100) (h3 : d < 100) (h4 : hh < 100) (h5 : mm < 100) (h6 : ss < 100) :
    (clockText y m d hh mm ss).length = 19 := by
  simp [clockText, pad_len4 h1, pad_len2 h2, pad_len2 h3, pad_len2 h4, pad_len2 h5, pad_len2 h6]

/-- what a timestamp literal reads as -/
theorem tsParse_text {y m d hh mm ss us : Nat} {zone : Bytes} {z : Option Int} (h1 : y < 10000) (h2 : m < 100) (h3 : d < 100) (h4 : hh < 100)
    (h5 : mm < 100) (h6 : ss < 100) (h7 : us < 1000000) (hz : ∀ c ∈ zone.head?, isDigit c = false ∧ c ≠ 46) (hzone : tsZone zone = .ok z) :
    tsParse (clockText y m d hh mm ss ++ (fracText us ++ zone)) = .ok ⟨⟨y, m, d, hh, mm, ss⟩, us, z⟩ := by
  have hl := clock_len h1 h2 h3 h4 h5 h6
  unfold tsParse
  rw [if_neg (by simp [hl])]
  have hdrop : (clockText y m d hh mm ss ++ (fracText us ++ zone)).dropWhile isSpace = clockText y m d hh mm ss ++ (fracText us ++ zone) := by
    simp only [clockText, pad4 y h1, List.cons_append, List.dropWhile_cons, notSpace_digit (y / 1000) (by omega)]
    rfl
  simp only [hdrop]
  rw [if_neg (by intro h; have := congrArg List.length h; simp [hl] at this)]
  simp only [clockText, List.append_assoc, List.cons_append]
  rw [tsField_pad (pad_len4 h1) (parse_pad4 y h1) (by simp)]
  simp only [bind, Except.bind]
  rw [tsField_pad (pad_len2 h2) (parse_pad2 m h2) (by simp)]
  simp only
  rw [tsField_pad (pad_len2 h3) (parse_pad2 d h3) (by simp)]
  simp only
  rw [tsField_pad (pad_len2 h4) (parse_pad2 hh h4) (by simp)]
  simp only
  rw [tsField_pad (pad_len2 h5) (parse_pad2 mm h5) (by simp)]
  simp only
  rw [(tsPart_pad (pad_len2 h6) (parse_pad2 ss h6)).1, (tsPart_pad (pad_len2 h6) (parse_pad2 ss h6)).2]
  simp only
  rw [tsFraction_text h7 hz]
  simp only [hzone]

/-- the whole literal with an offset -/
def tsText (y m d hh mm ss us : Nat) (neg : Bool) (minutes : Nat) : Bytes :=
  clockText y m d hh mm ss ++ (fracText us ++ zoneText neg minutes)

theorem zone_head (neg : Bool) (minutes : Nat) : ∀ c ∈ (zoneText neg minutes).head?, isDigit c = false ∧ c ≠ 46 := by
  intro c hc; cases neg <;> simp [zoneText] at hc <;> subst hc <;> decide

theorem tsSet_text {y m d hh mm ss us minutes : Nat} (neg : Bool) (hv : ValidDate y m d) (hy : 1970 ≤ y) (h4 : hh < 100) (h5 : mm < 100)
    (h6 : ss < 100) (h7 : us < 1000000) (h8 : minutes ≤ 1440) : tsSet (tsText y m d hh mm ss us neg minutes) =
    .ok ⟨⟨(y : Int) - 1900, (m : Int) - 1, d, hh, mm, ss⟩, us, some (if neg then -((minutes : Int) * 60) else (minutes : Int) * 60)⟩ := by
  obtain ⟨v1, v2, v3, v4, v5, v6⟩ := hv
  have := daysIn_le y m
  have hp := tsParse_text (y := y) (m := m) (d := d) (hh := hh) (mm := mm) (ss := ss) (us := us) (zone := zoneText neg minutes)
    (z := some (if neg then -((minutes : Int) * 60) else (minutes : Int) * 60)) (by omega) (by omega) (by omega) h4 h5 h6 h7
    (zone_head neg minutes) (tsZone_text (by omega))
  unfold tsText
  simp only [tsSet, hp, bind, Except.bind]
  rw [if_neg (by omega), if_neg (by omega), if_neg (by omega), if_neg]
  rintro ⟨z, hz, hlt⟩
  simp only [Option.some.injEq] at hz
  subst hz
  cases neg <;> simp at hlt <;> omega

theorem jdn_1970 {y m d : Int} (v3 : 1 ≤ m) (v4 : m ≤ 12) (v5 : 1 ≤ d) (v6 : d ≤ daysIn y m) (hy : 1970 ≤ y) : 0 ≤ jdn y m d - 2440588 := by
  have hy1 := jdn_in_year v3 v4 v5 v6
  have := yearStart_mono hy
  have e : yearStart 1970 = 2440588 := by decide
  omega

/-- **C74** a timestamp literal with an offset is that moment, in every session time zone; a moment before 1970 or after 9999 is an
error -/
theorem C74_literal (y m d hh mm ss us minutes : Nat) (neg : Bool) (tz : Int → Int) (hv : ValidDate y m d) (hy : 1970 ≤ y) (h4 : hh < 24)
    (h5 : mm < 60) (h6 : ss < 60) (h7 : us < 1000000) (h8 : minutes ≤ 1440) (v : Int)
    (he : v = tsOf y m d ((((hh : Int) * 60 + mm) * 60 + ss) * 1000000 + us) - (if neg then -1 else 1) * ((minutes : Int) * 60000000)) :
    (do tsGetUnix (← tsSet (tsText y m d hh mm ss us neg minutes)) (some tz)) = if 0 ≤ v ∧ v ≤ tsMax then .ok v else .error .err := by
  rw [tsSet_text neg hv hy (by omega) (by omega) (by omega) h7 h8]
  simp only [bind, Except.bind]
  obtain ⟨v1, v2, v3, v4, v5, v6⟩ := hv
  have hj : 0 ≤ jdn y m d - 2440588 := jdn_1970 v3 v4 v5 v6 (by omega)
  unfold tsGetUnix
  simp only
  rw [mktime_eq v3 v4]
  have hs : 0 ≤ seconds y m d hh mm ss := by
    clear he v1 v2 v3 v4 v5 v6
    simp only [seconds]
    generalize jdn y m d - 2440588 = j at *
    omega
  rw [if_neg (by omega)]
  have hz : ∀ x : Int, x = (if neg then -1 else 1) * ((minutes : Int) * 60000000) →
      x = (if neg = true then -((minutes : Int) * 60) else (minutes : Int) * 60) * 1000000 := by
    intro x hx; rw [hx]; cases neg <;> simp <;> omega
  have hx := hz _ rfl
  rw [hx] at he
  generalize (if neg = true then -((minutes : Int) * 60) else (minutes : Int) * 60) = z at *
  have hv' : (seconds y m d hh mm ss - z) * 1000000 + us = v := by rw [he]; simp only [seconds, tsOf]; omega
  by_cases hneg : seconds y m d hh mm ss - z < 0
  · rw [if_pos hneg, if_neg (by omega)]
  · rw [if_neg hneg, hv']
    by_cases hm : v ≤ tsMax
    · rw [tsValidate_ok (by omega) hm, if_pos ⟨by omega, hm⟩]; rfl
    · unfold tsValidate; rw [if_pos (Or.inr (by omega)), if_neg (by omega)]; rfl

/-- **C74** how a timestamp is printed: the date and time of the local clock and the offset -/
theorem C74_print (v : Int) (h1 : 0 ≤ v) (h2 : v ≤ tsMax) (minutes : Nat) (neg : Bool) (hneg : neg = true → minutes ≠ 0) (h8 : minutes ≤ 1440)
    (o : Int) (ho : o = (if neg then -1 else 1) * ((minutes : Int) * 60)) (hl1 : 0 ≤ v / 1000000 + o) (hl2 : v / 1000000 + o ≤ 253402300799) :
    ∃ y m d hh mm ss us : Nat, ValidDate y m d ∧ 1970 ≤ y ∧ hh < 24 ∧ mm < 60 ∧ ss < 60 ∧ us < 1000000 ∧
      v + o * 1000000 = tsOf y m d ((((hh : Int) * 60 + mm) * 60 + ss) * 1000000 + us) ∧
      tsGet v (some o) = .ok (tsText y m d hh mm ss us neg minutes) := by
  obtain ⟨y, m, d, hh, mm, ss, hg, a1, a2, a3, a4, b1, b2, b3, b4, b5, b6, hsec, hj⟩ := gmtime_spec (v / 1000000 + o)
  have hy := jdn_in_year a1 a2 a3 a4
  rw [hj] at hy
  have y1 : 1970 ≤ y := by
    rcases Int.lt_or_le y 1970 with h | h
    · have := yearStart_mono (y := y + 1) (y' := 1970) (by omega)
      have : yearStart 1970 = 2440588 := by decide
      omega
    · exact h
  have y2 : y ≤ 9999 := by
    rcases Int.lt_or_le 9999 y with h | h
    · have := yearStart_mono (y := 10000) (y' := y) (by omega)
      have : yearStart 10000 = 5373485 := by decide
      omega
    · exact h
  have hdm := daysIn_le y m
  refine ⟨y.toNat, m.toNat, d.toNat, hh.toNat, mm.toNat, ss.toNat, (v % 1000000).toNat, ?_, by omega, by omega, by omega, by omega, by omega, ?_, ?_⟩
  · rw [Int.toNat_of_nonneg (by omega), Int.toNat_of_nonneg (by omega), Int.toNat_of_nonneg (by omega)]
    exact ⟨by omega, by omega, a1, a2, a3, a4⟩
  · rw [Int.toNat_of_nonneg (a := y) (by omega), Int.toNat_of_nonneg (a := m) (by omega), Int.toNat_of_nonneg (a := d) (by omega)]
    simp only [seconds] at hsec
    simp only [tsOf]
    omega
  · simp only [tsGet, tsValidate_ok h1 h2, bind, Except.bind, hg]
    rw [show y - 1900 + 1900 = y by omega, show m - 1 + 1 = m by omega]
    have hsgn : (o ≥ 0 ↔ neg = false) := by
      cases neg
      · simp at ho; simp; omega
      · have := hneg rfl; simp at ho; simp; omega
    have habs : (if o ≥ 0 then o else -o) = (minutes : Int) * 60 := by
      cases neg
      · rw [if_pos (hsgn.2 rfl)]; simp at ho; omega
      · have := hneg rfl; rw [if_neg (by simp [hsgn])]; simp at ho; omega
    have hsign : (if o ≥ 0 then (43 : Nat) else 45) = if neg = true then 45 else 43 := by
      cases neg
      · rw [if_pos (hsgn.2 rfl)]; rfl
      · rw [if_neg (by simp [hsgn])]; rfl
    have hhr : cdiv ((minutes : Int) * 60) 3600 = ((minutes / 60 : Nat) : Int) := by
      show Int.tdiv _ _ = _
      rw [Int.tdiv_eq_ediv_of_nonneg (by omega)]; omega
    have hmin : cdiv ((minutes : Int) * 60 - 3600 * ((minutes / 60 : Nat) : Int)) 60 = ((minutes % 60 : Nat) : Int) := by
      show Int.tdiv _ _ = _
      rw [Int.tdiv_eq_ediv_of_nonneg (by omega)]; omega
    simp only [habs, hsign, hhr, hmin, Int.toNat_natCast]
    have hus : crem (v % 1000000) 1000 = ((v % 1000000).toNat % 1000 : Nat) := by
      show Int.tmod _ _ = _
      rw [Int.tmod_eq_emod_of_nonneg (by omega)]; omega
    have hus2 : (cdiv (v % 1000000) 1000).toNat = (v % 1000000).toNat / 1000 := by
      show (Int.tdiv _ _).toNat = _
      rw [Int.tdiv_eq_ediv_of_nonneg (by omega)]; omega
    have hus0 : (v % 1000000 = 0) ↔ ((v % 1000000).toNat = 0) := by omega
    have hfr : (if v % 1000000 = 0 then ([] : Bytes) else if crem (v % 1000000) 1000 = 0 then 46 :: pad 3 (cdiv (v % 1000000) 1000).toNat
        else 46 :: pad 6 (v % 1000000).toNat) = fracText (v % 1000000).toNat := by
      rw [hus, hus2]
      unfold fracText
      by_cases hz : v % 1000000 = 0
      · rw [if_pos hz, if_pos (hus0.1 hz)]
      · rw [if_neg hz, if_neg (fun h => hz (hus0.2 h))]
        by_cases hm : (v % 1000000).toNat % 1000 = 0
        · rw [if_pos hm, if_pos (by omega)]
        · rw [if_neg hm, if_neg (by omega)]
    rw [hfr]
    have hzn : (if ((minutes % 60 : Nat) : Int) ≠ 0 then (if neg = true then (45 : Nat) else 43) :: (pad 2 (minutes / 60) ++ [58] ++ pad 2 (minutes % 60))
        else (if neg = true then (45 : Nat) else 43) :: pad 2 (minutes / 60)) = zoneText neg minutes := by
      unfold zoneText
      by_cases hz : minutes % 60 = 0
      · rw [if_neg (by omega), if_pos hz, List.append_nil]
      · rw [if_pos (by omega), if_neg hz]; simp
    rw [hzn]
    simp [tsText, clockText]

/-- **C74** a printed timestamp reads back as the same timestamp, whatever the time zone of the session that reads it -/
theorem C74_roundtrip_partial (v : Int) (h1 : 0 ≤ v) (h2 : v ≤ tsMax) (o : Int) (ho : o % 60 = 0) (ho1 : -86400 ≤ o) (ho2 : o ≤ 86400)
    (hl1 : 0 ≤ v / 1000000 + o) (hl2 : v / 1000000 + o ≤ 253402300799) (tz : Int → Int) :
    (do tsGetUnix (← tsSet (← tsGet v (some o))) (some tz)) = .ok v := by
  have hcase : ∃ (minutes : Nat) (neg : Bool), (neg = true → minutes ≠ 0) ∧ minutes ≤ 1440 ∧
      o = (if neg then -1 else 1) * ((minutes : Int) * 60) := by
    rcases Int.lt_or_le o 0 with h | h
    · exact ⟨((-o) / 60).toNat, true, by intro _; omega, by omega, by simp; omega⟩
    · exact ⟨(o / 60).toNat, false, by simp, by omega, by simp; omega⟩
  obtain ⟨minutes, neg, hn, hm, hoe⟩ := hcase
  obtain ⟨y, m, d, hh, mm, ss, us, hv, hy, c1, c2, c3, c4, hval, hp⟩ := C74_print v h1 h2 minutes neg hn hm o hoe hl1 hl2
  have hlit := C74_literal y m d hh mm ss us minutes neg tz hv hy c1 c2 c3 c4 hm v (by
    rw [← hval, hoe]; cases neg <;> simp <;> omega)
  rw [if_pos ⟨h1, h2⟩] at hlit
  rw [hp]
  exact hlit

/-- fields out of range are accepted: 31 February is 3 March, 99:99:99 is four days later -/
theorem C74_invalid_false : (do tsGetUnix (← tsSet (clockText 2023 2 31 0 0 0)) none) = .ok (tsOf 2023 3 3 0) ∧
    (do tsGetUnix (← tsSet (clockText 2023 1 1 99 99 99)) none) = .ok (tsOf 2023 1 5 ((4 * 3600 + 40 * 60 + 39) * 1000000)) := by
  decide +kernel

/-- offsets with seconds (local mean time of the time zone database, e.g. +00:19:32) are printed without them: the text is another
moment -/
theorem C74_seconds_false : (do tsGetUnix (← tsSet (← tsGet 0 (some 1172))) (some fun _ => 0)) = .ok 32000000 := by decide +kernel

/-- the length is checked before the spaces are skipped: "          2024-01-01" reads behind its end -/
theorem C74_bounds_false : tsSet (List.replicate 9 32 ++ pad 4 2024 ++ [45] ++ pad 2 1 ++ [45] ++ pad 2 1) = .error .ub := by decide +kernel

example : tsGet (tsOf 2024 2 29 45296789000) (some (-19800)) = .ok (tsText 2024 2 29 7 4 56 789000 true 330) := by decide +kernel

/-! ## date_trunc, date_bin, extract (C76) -/

theorem tsGetUnix_utc (ts : Ts) (hz : ts.zone = none) : tsGetUnix ts (some fun _ => 0) = tsGetUnix ts none := by
  unfold tsGetUnix
  simp only [hz, Int.sub_zero]

/-- every timestamp is a day since 1970 and a time of the day -/
theorem tsOf_all {v : Int} (h1 : 0 ≤ v) (h2 : v ≤ tsMax) : ∃ y m d us, ValidDate y m d ∧ 1970 ≤ y ∧ 0 ≤ us ∧ us < 86400000000 ∧ v = tsOf y m d us := by
  unfold tsMax at h2
  obtain ⟨y, m, d, he, a1, a2, a3, a4, hj⟩ := civil_spec (v / 86400000000 + 2440588)
  have hy := jdn_in_year a1 a2 a3 a4
  rw [hj] at hy
  have y1 : 1970 ≤ y := by
    rcases Int.lt_or_le y 1970 with h | h
    · have := yearStart_mono (y := y + 1) (y' := 1970) (by omega)
      have : yearStart 1970 = 2440588 := by decide
      omega
    · exact h
  have y2 : y ≤ 9999 := by
    rcases Int.lt_or_le 9999 y with h | h
    · have := yearStart_mono (y := 10000) (y' := y) (by omega)
      have : yearStart 10000 = 5373485 := by decide
      omega
    · exact h
  refine ⟨y, m, d, v % 86400000000, ⟨by omega, y2, a1, a2, a3, a4⟩, y1, by omega, by omega, ?_⟩
  simp only [tsOf, hj]
  omega

/-- **C76** date_trunc in UTC: the start of the year, month, day, hour, minute, second, millisecond -/
theorem C76_trunc (y m d us : Int) (hv : ValidDate y m d) (hy : 1970 ≤ y) (h1 : 0 ≤ us) (h2 : us < 86400000000) :
    let v := tsOf y m d us
    let utc : Int → Int := fun _ => 0
    dateTrunc v .year utc = .ok (tsOf y 1 1 0) ∧ dateTrunc v .month utc = .ok (tsOf y m 1 0) ∧ dateTrunc v .day utc = .ok (tsOf y m d 0) ∧
    dateTrunc v .hour utc = .ok (tsOf y m d (us - us % 3600000000)) ∧ dateTrunc v .minute utc = .ok (tsOf y m d (us - us % 60000000)) ∧
    dateTrunc v .second utc = .ok (tsOf y m d (us - us % 1000000)) ∧ dateTrunc v .millisecond utc = .ok (tsOf y m d (us - us % 1000)) ∧
    dateTrunc v .microsecond utc = .ok v := by
  obtain ⟨a1, a2, a3, a4⟩ := tsOf_fields hv hy h1 h2
  have hv1 : ValidDate y m 1 := ⟨hv.1, hv.2.1, hv.2.2.1, hv.2.2.2.1, by omega, one_le_daysIn y m⟩
  have hv2 : ValidDate y 1 1 := ⟨hv.1, hv.2.1, by omega, by omega, by omega, one_le_daysIn y 1⟩
  have hms : cdiv (us % 1000000) 1000 * 1000 = us % 1000000 - us % 1000 := by
    show Int.tdiv _ _ * _ = _
    rw [Int.tdiv_eq_ediv_of_nonneg (by omega)]; omega
  intro v utc
  have hu : ∀ ts : Ts, ts.zone = none → tsGetUnix ts (some utc) = unixOf (mktime ts.tm) ts.us := by
    intro ts hz; rw [tsGetUnix_utc ts hz, tsGetUnix_none]
  have hd : ∀ f, dateTrunc v f utc = tsGetUnix (tsTrunc ⟨⟨y - 1900, m - 1, d, us / 3600000000, us / 60000000 % 60, us / 1000000 % 60⟩, us % 1000000, none⟩ f) (some utc) := by
    intro f
    show dateTrunc (tsOf y m d us) f utc = _
    simp only [dateTrunc, tsSetUnix_ok a1 a2, bind, Except.bind, a3, a4]
  simp only [hd, tsTrunc]
  rw [hu _ rfl, hu _ rfl, hu _ rfl, hu _ rfl, hu _ rfl, hu _ rfl, hu _ rfl, hu _ rfl]
  simp only [hms]
  rw [mktime_eq hv.2.2.1 hv.2.2.2.1, mktime_eq hv.2.2.1 hv.2.2.2.1, mktime_eq hv.2.2.1 hv.2.2.2.1, mktime_eq hv.2.2.1 hv.2.2.2.1, mktime_eq hv.2.2.1 hv.2.2.2.1]
  have hyr : mktime ⟨y - 1900, 0, 1, 0, 0, 0⟩ = seconds y 1 1 0 0 0 := mktime_eq (y := y) (m := 1) (by decide) (by decide)
  rw [hyr]
  refine ⟨unixOf_day hv2 hy (by omega) (by omega) (by omega) (by omega), unixOf_day hv1 hy (by omega) (by omega) (by omega) (by omega),
    unixOf_day hv hy (by omega) (by omega) (by omega) (by omega), unixOf_day hv hy (by omega) (by omega) (by omega) (by omega),
    unixOf_day hv hy (by omega) (by omega) (by omega) (by omega), unixOf_day hv hy (by omega) (by omega) (by omega) (by omega),
    unixOf_day hv hy (by omega) (by omega) (by omega) (by omega), unixOf_day hv hy h1 h2 (by omega) (by omega)⟩

/-- with a time zone the fields are those of UTC and the offset is subtracted from the result: truncating to the microsecond moves the time, and
truncating to the day is not the start of the local day -/
theorem C76_zone_false : let tz : Int → Int := fun _ => 7200
    dateTrunc (tsOf 2024 6 1 43200000000) .microsecond tz = .ok (tsOf 2024 6 1 36000000000) ∧
    dateTrunc (tsOf 2024 6 1 82800000000) .day tz = .ok (tsOf 2024 5 31 79200000000) := by decide +kernel

/-- **C76** date_bin: the last start of a bin (`origin` plus a multiple of the interval) that is not later -/
theorem C76_bin (iv : Iv) (v origin : Int) (hm : iv.m = 0) (hd : -2 ^ 31 ≤ iv.d ∧ iv.d < 2 ^ 31) (hus : fits64 iv.us) (ht : 0 < iv.total)
    (ht2 : iv.total < 2 ^ 63) (ho : origin ≤ v) :
    ∃ r k, dateBin iv v origin = .ok r ∧ 0 ≤ k ∧ r = origin + k * iv.total ∧ r ≤ v ∧ v < r + iv.total := by
  have e63 : (2 : Int) ^ 63 = 9223372036854775808 := by decide
  have hspan : toSigned 64 ((toUnsigned 64 iv.d * 86400000000 + toUnsigned 64 iv.us) % 2 ^ 64) = iv.total := by
    have hmod : ((toUnsigned 64 iv.d * 86400000000 + toUnsigned 64 iv.us) % 2 ^ 64 : Nat) = iv.total.toNat := by
      simp only [Iv.total, toUnsigned] at *
      simp only [fits64] at hus
      rw [e63] at *
      have e64 : (2 : Nat) ^ 64 = 18446744073709551616 := by decide
      simp only [e64]
      omega
    rw [hmod]
    unfold toSigned
    have e63n : (2 : Nat) ^ (64 - 1) = 9223372036854775808 := by decide
    have e64 : (2 : Nat) ^ 64 = 18446744073709551616 := by decide
    simp only [e63n, e64]
    rw [e63] at ht2
    split <;> omega
  unfold dateBin
  simp only [hspan]
  rw [if_neg (by simp [hm]), if_neg (by omega), if_neg (by omega)]
  have hmod := Int.emod_nonneg (v - origin) (b := iv.total) (by omega)
  have hlt := Int.emod_lt_of_pos (v - origin) (b := iv.total) ht
  refine ⟨_, (v - origin) / iv.total, rfl, Int.ediv_nonneg (by omega) (by omega), ?_, by omega, by omega⟩
  have hdm := Int.mul_ediv_add_emod (v - origin) iv.total
  rw [Int.mul_comm] at hdm
  omega

/-- **C76** extract: the fields of the local date and time -/
theorem C76_extract (v off y m d us : Int) (hv : ValidDate y m d) (hy : 1970 ≤ y) (h1 : 0 ≤ us) (h2 : us < 86400000000)
    (hl : v + off * 1000000 = tsOf y m d us) :
    tsExtract v off .year = y ∧ tsExtract v off .month = m ∧ tsExtract v off .day = d ∧ tsExtract v off .hour = us / 3600000000 ∧
    tsExtract v off .minute = us / 60000000 % 60 ∧ tsExtract v off .second = us / 1000000 % 60 ∧
    tsExtract v off .millisecond = us / 1000 % 1000 ∧ tsExtract v off .microsecond = us % 1000000 := by
  obtain ⟨a1, a2, a3, a4⟩ := tsOf_fields hv hy h1 h2
  have e1 : v / 1000000 + off = tsOf y m d us / 1000000 := by rw [← hl]; omega
  have e2 : v % 1000000 = us % 1000000 := by rw [← a4, ← hl]; omega
  have hms : cdiv (us % 1000000) 1000 = us / 1000 % 1000 := by
    show Int.tdiv _ _ = _
    rw [Int.tdiv_eq_ediv_of_nonneg (by omega)]; omega
  simp only [tsExtract, e1, e2, a3, hms, true_and, and_true]
  omega

example : dateBin ⟨0, 0, 900000000⟩ (tsOf 2024 6 1 43261000000) (tsOf 2024 1 1 0) = .ok (tsOf 2024 6 1 43200000000) := by decide +kernel

end Verif.Func
