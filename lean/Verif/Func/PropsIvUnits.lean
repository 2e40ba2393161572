import Verif.Func.PropsInterval
/-!
# Interval literals and the order of intervals (C73)
-/
set_option linter.unusedSimpArgs false
set_option linter.unusedVariables false
namespace Verif.Func
open Verif Verif.Json.Text

/-- what the names of the units mean: months, days, microseconds -/
def unitTable : List (String × Iv) :=
  [("years", ⟨12, 0, 0⟩), ("year", ⟨12, 0, 0⟩), ("months", ⟨1, 0, 0⟩), ("month", ⟨1, 0, 0⟩),
   ("weeks", ⟨0, 7, 0⟩), ("week", ⟨0, 7, 0⟩), ("days", ⟨0, 1, 0⟩), ("day", ⟨0, 1, 0⟩),
   ("hours", ⟨0, 0, 3600000000⟩), ("hour", ⟨0, 0, 3600000000⟩), ("hrs", ⟨0, 0, 3600000000⟩), ("hr", ⟨0, 0, 3600000000⟩),
   ("minutes", ⟨0, 0, 60000000⟩), ("minute", ⟨0, 0, 60000000⟩), ("mins", ⟨0, 0, 60000000⟩), ("min", ⟨0, 0, 60000000⟩),
   ("seconds", ⟨0, 0, 1000000⟩), ("second", ⟨0, 0, 1000000⟩), ("secs", ⟨0, 0, 1000000⟩), ("sec", ⟨0, 0, 1000000⟩),
   ("milliseconds", ⟨0, 0, 1000⟩), ("millisecond", ⟨0, 0, 1000⟩), ("ms", ⟨0, 0, 1000⟩),
   ("microseconds", ⟨0, 0, 1⟩), ("microsecond", ⟨0, 0, 1⟩), ("us", ⟨0, 0, 1⟩)]

/-- the bytes of an ASCII word -/
def asciiOf (s : String) : Bytes := s.toList.map Char.toNat

/-- the text `n unit n unit …` -/
def litText : List (Int × (String × Iv)) → Bytes
  | [] => []
  | [(n, u)] => intText n ++ [32] ++ asciiOf u.1
  | (n, u) :: b :: t => intText n ++ [32] ++ asciiOf u.1 ++ [32] ++ litText (b :: t)

/-- what it means -/
def litSum : List (Int × (String × Iv)) → Iv
  | [] => ⟨0, 0, 0⟩
  | (n, u) :: t => ⟨n * u.2.m + (litSum t).m, n * u.2.d + (litSum t).d, n * u.2.us + (litSum t).us⟩

/-- its size, signs aside -/
def litAbs : List (Int × (String × Iv)) → Nat × Nat × Nat
  | [] => (0, 0, 0)
  | (n, u) :: t => ((n * u.2.m).natAbs + (litAbs t).1, (n * u.2.d).natAbs + (litAbs t).2.1, (n * u.2.us).natAbs + (litAbs t).2.2)

/-- the part a unit changes -/
def unitPart (u : String × Iv) : IvPart × Int :=
  if u.2.m ≠ 0 then (.m, u.2.m) else if u.2.d ≠ 0 then (.d, u.2.d) else (.us, u.2.us)

def itemOf (x : Int × (String × Iv)) : Item := ⟨x.1, asciiOf x.2.1, asciiOf x.2.1, (unitPart x.2).1, (unitPart x.2).2⟩

theorem itemOf_word (x : Int × (String × Iv)) : (itemOf x).word = intText x.1 ++ [32] ++ asciiOf x.2.1 := by
  unfold Item.word Item.name; split <;> rfl

theorem litText_items : ∀ l, litText l = itemsText (l.map itemOf)
  | [] => rfl
  | [a] => by simp only [litText, List.map_cons, List.map_nil, itemsText, itemOf_word]
  | a :: b :: t => by
    have := litText_items (b :: t)
    simp only [litText, List.map_cons, itemsText, itemOf_word] at this ⊢
    rw [this]

theorem table_names : ∀ u ∈ unitTable, (asciiOf u.1 ≠ [] ∧ (∀ c ∈ asciiOf u.1, isAlpha c = true) ∧
    ivUnit (asciiOf u.1) = some (unitPart u)) := by decide +kernel

theorem table_shape : ∀ u ∈ unitTable,
    (unitPart u = (.m, u.2.m) ∧ 0 < u.2.m ∧ u.2.d = 0 ∧ u.2.us = 0) ∨ (unitPart u = (.d, u.2.d) ∧ 0 < u.2.d ∧ u.2.m = 0 ∧ u.2.us = 0) ∨
    (unitPart u = (.us, u.2.us) ∧ 0 < u.2.us ∧ u.2.m = 0 ∧ u.2.d = 0) := by decide +kernel

theorem natAbs_le_mul (n k : Int) (h : 0 < k) : n.natAbs ≤ (n * k).natAbs := by
  rw [Int.natAbs_mul]
  exact Nat.le_mul_of_pos_right _ (by omega)

theorem addItems_lit : ∀ (l : List (Int × (String × Iv))) (iv : Iv), (∀ x ∈ l, x.2 ∈ unitTable) →
    iv.m.natAbs + (litAbs l).1 < 2 ^ 31 → iv.d.natAbs + (litAbs l).2.1 < 2 ^ 31 → iv.us.natAbs + (litAbs l).2.2 < 2 ^ 63 →
    addItems iv (l.map itemOf) = .ok ⟨iv.m + (litSum l).m, iv.d + (litSum l).d, iv.us + (litSum l).us⟩
  | [], iv, _, _, _, _ => by simp [addItems, litSum]
  | (n, u) :: t, iv, hm, h1, h2, h3 => by
    have hu := hm (n, u) (by simp)
    have ht := fun x hx => hm x (List.mem_cons_of_mem _ hx)
    simp only [litAbs] at h1 h2 h3
    have e1 : (2 : Nat) ^ 31 = 2147483648 := by decide
    have e2 : (2 : Nat) ^ 63 = 9223372036854775808 := by decide
    have e3 : (2 : Int) ^ 31 = 2147483648 := by decide
    have e4 : (2 : Int) ^ 63 = 9223372036854775808 := by decide
    rw [e1] at h1 h2
    rw [e2] at h3
    have key : ivAdd iv (unitPart u).1 (unitPart u).2 n = .ok ⟨iv.m + n * u.2.m, iv.d + n * u.2.d, iv.us + n * u.2.us⟩ := by
      rcases table_shape u hu with ⟨hp, hk, z1, z2⟩ | ⟨hp, hk, z1, z2⟩ | ⟨hp, hk, z1, z2⟩
      · rw [hp]; simp only
        rw [z1, z2, Int.mul_zero, Int.add_zero, Int.add_zero]
        apply ivAdd_m
        · unfold fits64; rw [e4]; omega
        · unfold fits32; rw [e3]; omega
      · rw [hp]; simp only
        rw [z1, z2, Int.mul_zero, Int.add_zero, Int.add_zero]
        apply ivAdd_d
        · unfold fits64; rw [e4]; omega
        · unfold fits32; rw [e3]; omega
      · rw [hp]; simp only
        rw [z1, z2, Int.mul_zero, Int.add_zero, Int.add_zero]
        apply ivAdd_us
        · unfold fits64; rw [e4]; omega
        · unfold fits64; rw [e4]; omega
    simp only [List.map_cons, addItems, itemOf, litSum]
    rw [key]
    simp only [Except.bind]
    rw [addItems_lit t _ ht (by rw [e1]; show Int.natAbs (iv.m + n * u.2.m) + _ < _; omega)
      (by rw [e1]; show Int.natAbs (iv.d + n * u.2.d) + _ < _; omega)
      (by rw [e2]; show Int.natAbs (iv.us + n * u.2.us) + _ < _; omega)]
    simp only [Int.add_assoc]

/-- **C73** an interval literal, any number of `n unit` with the names of the table, is the sum of its parts -/
theorem C73_literal (l : List (Int × (String × Iv))) (hu : ∀ x ∈ l, x.2 ∈ unitTable)
    (h1 : (litAbs l).1 < 2 ^ 31) (h2 : (litAbs l).2.1 < 2 ^ 31) (h3 : (litAbs l).2.2 < 2 ^ 63) :
    ivSet (litText l) = .ok (litSum l) := by
  have good : ∀ (l : List (Int × (String × Iv))), (∀ x ∈ l, x.2 ∈ unitTable) → (litAbs l).1 < 2 ^ 31 → (litAbs l).2.1 < 2 ^ 31 →
      (litAbs l).2.2 < 2 ^ 63 → ∀ i ∈ l.map itemOf, i.Good := by
    intro l
    induction l with
    | nil => intro _ _ _ _ i hi; simp at hi
    | cons x t ih =>
      obtain ⟨n, u⟩ := x
      intro hu h1 h2 h3 i hi
      simp only [litAbs] at h1 h2 h3
      have e1 : (2 : Nat) ^ 31 = 2147483648 := by decide
      have e2 : (2 : Nat) ^ 63 = 9223372036854775808 := by decide
      have e4 : (2 : Int) ^ 63 = 9223372036854775808 := by decide
      simp only [List.map_cons, List.mem_cons] at hi
      rcases hi with rfl | hi
      · have hm := hu (n, u) (by simp)
        obtain ⟨a, b, c⟩ := table_names u hm
        refine ⟨⟨a, b, c⟩, ⟨a, b, c⟩, ?_⟩
        show -2 ^ 63 < n ∧ n < 2 ^ 63
        rw [e4]
        rw [e1] at h1 h2
        rw [e2] at h3
        rcases table_shape u hm with ⟨-, hk, -⟩ | ⟨-, hk, -⟩ | ⟨-, hk, -⟩ <;> have := natAbs_le_mul n _ hk <;> omega
      · exact ih (fun x hx => hu x (List.mem_cons_of_mem _ hx)) (by omega) (by omega) (by omega) i hi
  have hg := good l hu h1 h2 h3
  have hl := itemsText_length _ hg
  rw [ivSet, litText_items, ivSetLoop_items _ _ _ hg (by omega), addItems_lit l ⟨0, 0, 0⟩ hu (by simpa using h1) (by simpa using h2) (by simpa using h3)]
  simp

/-- **C73** intervals are ordered by months, then days, then time: -1, 0 and 1, and zero only for equal intervals -/
theorem C73_compare (a b : Iv) :
    (ivCompare a b = -1 ↔ a.m < b.m ∨ (a.m = b.m ∧ (a.d < b.d ∨ (a.d = b.d ∧ a.us < b.us)))) ∧
    (ivCompare a b = 0 ↔ a = b) ∧ (ivCompare a b = 1 ↔ ivCompare b a = -1) := by
  obtain ⟨m, d, us⟩ := a
  obtain ⟨m', d', us'⟩ := b
  have c1 : ∀ x y : Int, (if x < y then (-1 : Int) else if x = y then 0 else 1) = -1 ∧ x < y ∨
      (if x < y then (-1 : Int) else if x = y then 0 else 1) = 0 ∧ x = y ∨
      (if x < y then (-1 : Int) else if x = y then 0 else 1) = 1 ∧ y < x := by
    intro x y; split
    · exact .inl ⟨rfl, ‹_›⟩
    · split
      · exact .inr (.inl ⟨rfl, ‹_›⟩)
      · exact .inr (.inr ⟨rfl, by omega⟩)
  simp only [ivCompare, Iv.mk.injEq]
  rcases c1 m m' with ⟨e1, h1⟩ | ⟨e1, h1⟩ | ⟨e1, h1⟩ <;> rcases c1 m' m with ⟨e2, h2⟩ | ⟨e2, h2⟩ | ⟨e2, h2⟩ <;>
    (try (exfalso; omega)) <;> simp only [e1, e2] <;> (try (simp; omega)) <;>
    rcases c1 d d' with ⟨e3, h3⟩ | ⟨e3, h3⟩ | ⟨e3, h3⟩ <;> rcases c1 d' d with ⟨e4, h4⟩ | ⟨e4, h4⟩ | ⟨e4, h4⟩ <;>
    (try (exfalso; omega)) <;> simp only [e3, e4] <;> (try (simp; omega)) <;>
    rcases c1 us us' with ⟨e5, h5⟩ | ⟨e5, h5⟩ | ⟨e5, h5⟩ <;> rcases c1 us' us with ⟨e6, h6⟩ | ⟨e6, h6⟩ | ⟨e6, h6⟩ <;>
    (try (exfalso; omega)) <;> simp only [e5, e6] <;> simp <;> omega

/-- '1 week -2 hours 30 min' -/
example : ivSet (litText [(1, ("week", ⟨0, 7, 0⟩)), (-2, ("hours", ⟨0, 0, 3600000000⟩)), (30, ("min", ⟨0, 0, 60000000⟩))]) =
    .ok ⟨0, 7, -5400000000⟩ := C73_literal _ (by decide +kernel) (by decide) (by decide) (by decide)

end Verif.Func
