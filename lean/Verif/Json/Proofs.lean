import Verif.Json.Spec
set_option linter.unusedSimpArgs false
namespace Verif.Json
open Verif

theorem readInteger_write (i : Int) (h1 : -(2 ^ 63) ≤ i) (h2 : i < 2 ^ 63) (rest : Bytes) :
    readInteger (writeInteger i ++ rest) = .ok (i, rest) := by
  have hu : toUnsigned 64 i = (i % 18446744073709551616).toNat := rfl
  unfold writeInteger
  simp only
  split
  · rename_i h
    have hi : ((5 + toUnsigned 64 i - 5 : Nat) : Int) = i := by omega
    simp only [List.cons_append, List.nil_append, readInteger]
    rw [if_pos (by omega)]
    simp only [hi]
  · split
    · simp only [List.cons_append, readInteger, readN_le, leNat_leBytes]
      simp [bind, Except.bind, toSigned, leNat_leBytes]
      split <;> omega
    · split
      · simp only [List.cons_append, readInteger, readN_le, leNat_leBytes]
        simp [bind, Except.bind, toSigned, leNat_leBytes]
        split <;> omega
      · split
        · simp only [List.cons_append, readInteger, readN_le, leNat_leBytes]
          simp [bind, Except.bind, toSigned, leNat_leBytes]
          split <;> omega
        · simp only [List.cons_append, readInteger, readN_le, leNat_leBytes]
          simp [bind, Except.bind, toSigned, leNat_leBytes]
          split <;> omega

theorem takeRaw_append (s rest : Bytes) (n : Int) (h : n = s.length) :
    takeRaw n (s ++ rest) = .ok (s, rest) := by
  subst h
  unfold takeRaw
  rw [if_neg (by omega)]
  simpa using readN_append s rest

theorem readRaw_write (s : Bytes) (h : s.length < 2 ^ 31) (rest : Bytes) :
    readRaw (writeRaw s ++ rest) = .ok (s, rest) := by
  unfold writeRaw
  simp only
  split
  · simp only [List.cons_append, List.nil_append, readRaw]
    rw [if_pos (by omega)]
    exact takeRaw_append _ _ _ (by omega)
  · split
    · simp only [List.cons_append, List.append_assoc, readRaw, readN_le, leNat_leBytes]
      simp only [bind, Except.bind, leNat_leBytes]
      simp (config := {decide := true}) only [if_false, if_true]
      apply takeRaw_append
      simp only [toSigned]; split <;> omega
    · split
      · simp only [List.cons_append, List.append_assoc, readRaw, readN_le, leNat_leBytes]
        simp only [bind, Except.bind, leNat_leBytes]
        simp (config := {decide := true}) only [if_false, if_true]
        apply takeRaw_append
        simp only [toSigned]; split <;> omega
      · simp only [List.cons_append, List.append_assoc, readRaw, readN_le, leNat_leBytes]
        simp only [bind, Except.bind, leNat_leBytes]
        simp (config := {decide := true}) only [if_false, if_true]
        apply takeRaw_append
        simp only [toSigned]; split <;> omega

theorem f32OfF64_lt (r : Nat) (h : inFloatRange r = true) : f32OfF64 r < 2 ^ 31 := by
  simp [inFloatRange] at h
  unfold f32OfF64
  simp only
  split <;> omega

theorem readReal_write (r : Nat) (h : r < 2 ^ 64) (rest : Bytes) :
    readReal (writeReal r ++ rest) = .ok (storedReal r, rest) := by
  unfold writeReal storedReal
  cases hr : inFloatRange r
  · have h1 : leNat (leBytes 8 r) = r := leNat_leBytes_of_lt (by omega)
    simp only [Bool.false_eq_true, if_false, List.cons_append, readReal]
    rw [if_neg (by omega), if_pos trivial, readN_le]
    simp only [bind, Except.bind, h1]
  · have h2 := f32OfF64_lt r hr
    have h1 : leNat (leBytes 4 (f32OfF64 r)) = f32OfF64 r := leNat_leBytes_of_lt (by omega)
    simp only [if_true, List.cons_append, readReal]
    rw [readN_le]
    simp only [bind, Except.bind, h1]

theorem storedReal_exact (r : Nat) (h : ExactReal r) : storedReal r = r := by
  unfold storedReal
  split
  · rename_i hr
    have h := h hr
    simp [inFloatRange] at hr
    unfold f32OfF64 f64OfF32
    simp only
    have h1 : (r - 896 * 2 ^ 52) % 2 ^ 29 = 0 := by omega
    rw [h1]
    rw [if_neg (by omega)]
    rw [if_neg (by omega), if_neg (by omega)]
    omega
  · rfl

/-! first tag of a document -/

theorem clsOf_int (t : Nat) (h : 5 ≤ t ∧ t ≤ 41) : clsOf t = .int := by
  unfold clsOf
  rw [if_neg (by omega), if_neg (by omega), if_neg (by omega), if_pos (by omega)]

theorem clsOf_str (t : Nat) (h : 42 ≤ t ∧ t ≤ 77) : clsOf t = .str := by
  unfold clsOf
  rw [if_neg (by omega), if_neg (by omega), if_neg (by omega), if_neg (by omega), if_pos (by omega)]

theorem writeInteger_head (i : Int) : ∃ t r, writeInteger i = t :: r ∧ 5 ≤ t ∧ t ≤ 41 := by
  unfold writeInteger
  simp only
  split
  · exact ⟨_, _, rfl, by omega, by omega⟩
  · split
    · exact ⟨_, _, rfl, by omega, by omega⟩
    · split
      · exact ⟨_, _, rfl, by omega, by omega⟩
      · split
        · exact ⟨_, _, rfl, by omega, by omega⟩
        · exact ⟨_, _, rfl, by omega, by omega⟩

theorem writeRaw_head (s : Bytes) : ∃ t r, writeRaw s = t :: r ∧ 42 ≤ t ∧ t ≤ 77 := by
  unfold writeRaw
  simp only
  split
  · exact ⟨_, _, rfl, by omega, by omega⟩
  · split
    · exact ⟨_, _, rfl, by omega, by omega⟩
    · split
      · exact ⟨_, _, rfl, by omega, by omega⟩
      · exact ⟨_, _, rfl, by omega, by omega⟩

theorem writeReal_head (r : Nat) : ∃ t q, writeReal r = t :: q ∧ (t = 3 ∨ t = 4) := by
  unfold writeReal
  split
  · exact ⟨_, _, rfl, by omega⟩
  · exact ⟨_, _, rfl, by omega⟩

theorem writeBool_head (b : Bool) : ∃ t, writeBool b = [t] ∧ (t = 1 ∨ t = 2) := by
  cases b
  · exact ⟨2, rfl, by omega⟩
  · exact ⟨1, rfl, by omega⟩

theorem enc_head (v : J) : ∃ t r, enc v = t :: r ∧ t ≠ 79 ∧ t ≠ 81 := by
  cases v with
  | null => exact ⟨0, [], by simp [enc], by omega, by omega⟩
  | bool b =>
    obtain ⟨t, h, h1⟩ := writeBool_head b
    exact ⟨t, [], by simp [enc, h], by omega, by omega⟩
  | int i =>
    obtain ⟨t, r, h, h1⟩ := writeInteger_head i
    exact ⟨t, r, by simp [enc, h], by omega, by omega⟩
  | real q =>
    obtain ⟨t, r, h, h1⟩ := writeReal_head q
    exact ⟨t, r, by simp [enc, h], by omega, by omega⟩
  | str s =>
    obtain ⟨t, r, h, h1⟩ := writeRaw_head s
    exact ⟨t, r, by simp [enc, h], by omega, by omega⟩
  | arr l => exact ⟨80, encList l ++ [81], by simp [enc], by omega, by omega⟩
  | obj l => exact ⟨78, encFields l ++ [79], by simp [enc], by omega, by omega⟩

theorem enc_length_pos (v : J) : 1 ≤ (enc v).length := by
  obtain ⟨t, r, h, _⟩ := enc_head v
  simp [h]

theorem readArrayEnd_enc (v : J) (rest : Bytes) : readArrayEnd (enc v ++ rest) = .ok none := by
  obtain ⟨t, r, h, _, h2⟩ := enc_head v
  simp [h, readArrayEnd, h2]

theorem readObjEnd_raw (s : Bytes) (rest : Bytes) : readObjEnd (writeRaw s ++ rest) = .ok none := by
  obtain ⟨t, r, h, h1⟩ := writeRaw_head s
  have : t ≠ 79 := by omega
  simp [h, readObjEnd, this]

theorem writeRaw_length_pos (s : Bytes) : 1 ≤ (writeRaw s).length := by
  obtain ⟨t, r, h, _⟩ := writeRaw_head s
  simp [h]

theorem dec_int (f : Nat) (i : Int) (h1 : -(2 ^ 63) ≤ i) (h2 : i < 2 ^ 63) (rest : Bytes) :
    dec (f + 1) (writeInteger i ++ rest) = .ok (.int i, rest) := by
  have := readInteger_write i h1 h2 rest
  obtain ⟨t, r, h, ht⟩ := writeInteger_head i
  rw [h] at this ⊢
  simp only [dec, List.cons_append, peek, bind, Except.bind, clsOf_int t ht] at this ⊢
  rw [this]

theorem dec_str (f : Nat) (s : Bytes) (h1 : s.length < 2 ^ 31) (rest : Bytes) :
    dec (f + 1) (writeRaw s ++ rest) = .ok (.str s, rest) := by
  have := readRaw_write s h1 rest
  obtain ⟨t, r, h, ht⟩ := writeRaw_head s
  rw [h] at this ⊢
  simp only [dec, List.cons_append, peek, bind, Except.bind, clsOf_str t ht] at this ⊢
  rw [this]

theorem dec_real (f : Nat) (q : Nat) (h1 : q < 2 ^ 64) (rest : Bytes) :
    dec (f + 1) (writeReal q ++ rest) = .ok (.real (storedReal q), rest) := by
  have := readReal_write q h1 rest
  obtain ⟨t, r, h, ht⟩ := writeReal_head q
  rw [h] at this ⊢
  have hc : clsOf t = .real := by rcases ht with rfl | rfl <;> decide
  simp only [dec, List.cons_append, peek, bind, Except.bind, hc] at this ⊢
  rw [this]

mutual
theorem dec_enc : (v : J) → WF v → ∀ (fuel : Nat) (rest : Bytes), (enc v).length ≤ fuel →
    dec fuel (enc v ++ rest) = .ok (stored v, rest)
  | .null, _, fuel, rest, hf => by
    obtain ⟨f, rfl⟩ : ∃ f, fuel = f + 1 := ⟨fuel - 1, by simp [enc] at hf; omega⟩
    rfl
  | .bool b, _, fuel, rest, hf => by
    obtain ⟨f, rfl⟩ : ∃ f, fuel = f + 1 := ⟨fuel - 1, by have := enc_length_pos (.bool b); omega⟩
    cases b <;> rfl
  | .int i, hw, fuel, rest, hf => by
    obtain ⟨f, rfl⟩ : ∃ f, fuel = f + 1 := ⟨fuel - 1, by have := enc_length_pos (.int i); omega⟩
    simp only [WF] at hw
    simpa [enc, stored] using dec_int f i hw.1 hw.2 rest
  | .real r, hw, fuel, rest, hf => by
    obtain ⟨f, rfl⟩ : ∃ f, fuel = f + 1 := ⟨fuel - 1, by have := enc_length_pos (.real r); omega⟩
    simp only [WF] at hw
    simpa [enc, stored] using dec_real f r hw rest
  | .str s, hw, fuel, rest, hf => by
    obtain ⟨f, rfl⟩ : ∃ f, fuel = f + 1 := ⟨fuel - 1, by have := enc_length_pos (.str s); omega⟩
    simp only [WF] at hw
    simpa [enc, stored] using dec_str f s hw.2 rest
  | .arr l, hw, fuel, rest, hf => by
    obtain ⟨f, rfl⟩ : ∃ f, fuel = f + 1 := ⟨fuel - 1, by simp [enc] at hf; omega⟩
    simp only [WF] at hw
    have := decList_enc l hw f rest (by simp [enc] at hf; omega)
    simp only [enc, List.cons_append, List.append_assoc, List.nil_append, stored]
    simp only [dec, peek, bind, Except.bind, show clsOf tARRAY = .arr by decide, readArray, if_true, this]
  | .obj l, hw, fuel, rest, hf => by
    obtain ⟨f, rfl⟩ : ∃ f, fuel = f + 1 := ⟨fuel - 1, by simp [enc] at hf; omega⟩
    simp only [WF] at hw
    have := decFields_enc l hw f rest (by simp [enc] at hf; omega)
    simp only [enc, List.cons_append, List.append_assoc, List.nil_append, stored]
    simp only [dec, peek, bind, Except.bind, show clsOf tOBJ = .obj by decide, readObj, if_true, this]
theorem decList_enc : (l : List J) → WFList l → ∀ (fuel : Nat) (rest : Bytes), (encList l).length + 1 ≤ fuel →
    decList fuel (encList l ++ (tARRAY_END :: rest)) = .ok (storedList l, rest)
  | [], _, fuel, rest, hf => by
    obtain ⟨f, rfl⟩ : ∃ f, fuel = f + 1 := ⟨fuel - 1, by omega⟩
    rfl
  | v :: t, hw, fuel, rest, hf => by
    obtain ⟨f, rfl⟩ : ∃ f, fuel = f + 1 := ⟨fuel - 1, by omega⟩
    simp only [WFList] at hw
    simp only [encList, List.length_append] at hf
    have hp := enc_length_pos v
    have h1 := dec_enc v hw.1 f (encList t ++ (tARRAY_END :: rest)) (by omega)
    have h2 := decList_enc t hw.2 f rest (by omega)
    simp only [encList, List.append_assoc, decList, storedList]
    rw [readArrayEnd_enc]
    simp only [bind, Except.bind, h1, h2]
theorem decFields_enc : (l : List (Bytes × J)) → WFFields l → ∀ (fuel : Nat) (rest : Bytes),
    (encFields l).length + 1 ≤ fuel →
    decFields fuel (encFields l ++ (tOBJ_END :: rest)) = .ok (storedFields l, rest)
  | [], _, fuel, rest, hf => by
    obtain ⟨f, rfl⟩ : ∃ f, fuel = f + 1 := ⟨fuel - 1, by omega⟩
    rfl
  | (k, v) :: t, hw, fuel, rest, hf => by
    obtain ⟨f, rfl⟩ : ∃ f, fuel = f + 1 := ⟨fuel - 1, by omega⟩
    simp only [WFFields] at hw
    simp only [encFields, List.length_append] at hf
    have hp := writeRaw_length_pos k
    have h0 := readRaw_write k hw.1.2 (enc v ++ (encFields t ++ (tOBJ_END :: rest)))
    have h1 := dec_enc v hw.2.1 f (encFields t ++ (tOBJ_END :: rest)) (by omega)
    have h2 := decFields_enc t hw.2.2 f rest (by omega)
    simp only [encFields, List.append_assoc, decFields, storedFields]
    rw [readObjEnd_raw]
    simp only [bind, Except.bind, h0, h1, h2]
end

mutual
theorem stored_exact : (v : J) → Exact v → stored v = v
  | .null, _ => rfl
  | .bool _, _ => rfl
  | .int _, _ => rfl
  | .real r, h => by simp only [Exact] at h; simp [stored, storedReal_exact r h]
  | .str _, _ => rfl
  | .arr l, h => by simp only [Exact] at h; simp [stored, storedList_exact l h]
  | .obj l, h => by simp only [Exact] at h; simp [stored, storedFields_exact l h]
theorem storedList_exact : (l : List J) → ExactList l → storedList l = l
  | [], _ => rfl
  | v :: t, h => by
    simp only [ExactList] at h
    simp [storedList, stored_exact v h.1, storedList_exact t h.2]
theorem storedFields_exact : (l : List (Bytes × J)) → ExactFields l → storedFields l = l
  | [], _ => rfl
  | (k, v) :: t, h => by
    simp only [ExactFields] at h
    simp [storedFields, stored_exact v h.1, storedFields_exact t h.2]
end

end Verif.Json
