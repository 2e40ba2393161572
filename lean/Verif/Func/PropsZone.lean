import Verif.Func.Zone
/-!
# Time zones (C77)

The offset of a time is that of the last transition that is not later.
-/
namespace Verif.Func
open Verif

/-- the transitions are in order -/
def Sorted (T : List Nat) : Prop := ∀ i j, i < j → j < T.length → T.getD i 0 < T.getD j 0

theorem zoneTime_ok {T : List Nat} {i : Nat} (h : i < T.length) : zoneTime T i = .ok ((T.getD i 0 : Nat) : Int) := by
  unfold zoneTime; rw [dif_pos h]; simp [h]

theorem loop_spec {T : List Nat} {time : Int} (hs : Sorted T) : ∀ (fuel min max : Nat), max - min < fuel → 1 ≤ min → min ≤ max →
    max ≤ T.length → ((T.getD (min - 1) 0 : Nat) : Int) ≤ time → (∀ j, max < j → j < T.length → time < (T.getD j 0 : Nat)) →
    ∃ mid, zoneLoop T time fuel min max = .ok mid ∧ 1 ≤ mid ∧ ((T.getD (mid - 1) 0 : Nat) : Int) ≤ time ∧ mid ≤ T.length ∧
      ((∀ j, mid + 1 < j → j < T.length → time < (T.getD j 0 : Nat)) ∨ ((T.getD (mid - 1) 0 : Nat) : Int) = time)
  | 0, _, _ => by omega
  | fuel + 1, min, max => by
    intro hf h1 h2 h3 h4 h5
    unfold zoneLoop
    simp only
    by_cases hm : (min + max) / 2 > min
    · rw [if_neg (by omega), if_neg (by omega), zoneTime_ok (by omega)]
      simp only [bind, Except.bind]
      by_cases he : ((T.getD ((min + max) / 2) 0 : Nat) : Int) = time
      · rw [if_pos he]
        exact ⟨_, rfl, by omega, by rw [Nat.add_sub_cancel]; omega, by omega, Or.inr (by rw [Nat.add_sub_cancel]; exact he)⟩
      · rw [if_neg he]
        by_cases hl : ((T.getD ((min + max) / 2) 0 : Nat) : Int) < time
        · rw [if_pos hl]
          exact loop_spec hs fuel ((min + max) / 2 + 1) max (by omega) (by omega) (by omega) h3 (by rw [Nat.add_sub_cancel]; omega) h5
        · rw [if_neg hl]
          refine loop_spec hs fuel min ((min + max) / 2 - 1) (by omega) h1 (by omega) (by omega) h4 ?_
          intro j hj hjl
          by_cases hjm : j = (min + max) / 2
          · rw [hjm]; omega
          · have := hs ((min + max) / 2) j (by omega) hjl
            omega
    · rw [if_pos hm]
      refine ⟨_, rfl, by omega, ?_, by omega, Or.inl ?_⟩
      · rw [show (min + max) / 2 = min by omega]; exact h4
      · intro j hj hjl; exact h5 j (by omega) hjl

/-- **C77** from the first transition on, the transition that is found is not later than the time, and at most one transition lies between
them; the read outside of the array happens only after the last transition. Missing for the full statement: that no transition lies
between them and no read is outside, which are false (below). -/
theorem C77_near_partial (T : List Nat) (time : Int) (hs : Sorted T) (hn : 1 ≤ T.length) (h0 : ((T.getD 0 0 : Nat) : Int) ≤ time) :
    (∃ i, zoneMatch T time = .ok i ∧ i < T.length ∧ ((T.getD i 0 : Nat) : Int) ≤ time ∧ ∀ j, i + 1 < j → j < T.length → time < (T.getD j 0 : Nat)) ∨
    (zoneMatch T time = .error .ub ∧ ((T.getD (T.length - 1) 0 : Nat) : Int) ≤ time) := by
  obtain ⟨mid, he, m1, m2, m3, m4⟩ := loop_spec hs (T.length + 1) 1 T.length (by omega) (by omega) hn (by omega) (by simpa using h0)
    (by intro j h1 h2; omega) (time := time)
  unfold zoneMatch
  rw [he]
  simp only [bind, Except.bind]
  rw [if_neg (by omega)]
  by_cases hl : mid < T.length
  · left
    rw [zoneTime_ok hl]
    simp only
    by_cases ht : time > ((T.getD mid 0 : Nat) : Int)
    · rw [if_pos ht]
      simp only [Nat.add_sub_cancel]
      rw [if_pos hl]
      refine ⟨_, rfl, hl, by omega, ?_⟩
      intro j hj hjl
      rcases m4 with m4 | m4
      · exact m4 j (by omega) hjl
      · have := hs (mid - 1) mid (by omega) hl; omega
    · rw [if_neg ht, if_pos (by omega)]
      refine ⟨_, rfl, by omega, m2, ?_⟩
      intro j hj hjl
      rcases Nat.lt_or_ge mid j with h | h
      · have := hs mid j h hjl; omega
      · omega
  · right
    have : mid = T.length := by omega
    subst this
    unfold zoneTime
    rw [dif_neg (by omega)]
    exact ⟨rfl, m2⟩

/-- a time between the third and the fourth of five transitions gets the second one -/
theorem C77_search_false : Sorted [0, 10, 20, 30, 40] ∧ zoneMatch [0, 10, 20, 30, 40] 10 = .ok 0 ∧ ∃ time, 20 < time ∧ time < 30 ∧
    zoneMatch [0, 10, 20, 30, 40] time = .ok 1 := by
  refine ⟨?_, by decide, 25, by decide, by decide, by decide⟩
  intro i j h1 h2
  simp only [List.length_cons, List.length_nil] at h2
  have : (i = 0 ∨ i = 1 ∨ i = 2 ∨ i = 3) ∧ (j = 1 ∨ j = 2 ∨ j = 3 ∨ j = 4) := by omega
  rcases this with ⟨rfl | rfl | rfl | rfl, rfl | rfl | rfl | rfl⟩ <;> first | decide | omega

/-- a time zone with one transition: every time reads behind the array -/
theorem C77_bounds_false (t : Nat) (time : Int) : zoneMatch [t] time = .error .ub := by
  simp [zoneMatch, zoneLoop, zoneTime, bind, Except.bind]

end Verif.Func
