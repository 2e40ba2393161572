import Verif.Json.Proofs
set_option linter.unusedSimpArgs false
namespace Verif.Json
open Verif

mutual
/-- number of tags in a document -/
def ntok : J → Nat
  | .arr l => ntokL l + 2
  | .obj l => ntokF l + 2
  | .null | .bool _ | .int _ | .real _ | .str _ => 1
def ntokL : List J → Nat
  | [] => 0
  | v :: t => ntok v + ntokL t
def ntokF : List (Bytes × J) → Nat
  | [] => 0
  | (_, v) :: t => 1 + ntok v + ntokF t
end

mutual
theorem ntok_le : (v : J) → ntok v ≤ (enc v).length
  | .null => by simp [ntok, enc]
  | .bool b => by have := enc_length_pos (.bool b); simpa [ntok]
  | .int b => by have := enc_length_pos (.int b); simpa [ntok]
  | .real b => by have := enc_length_pos (.real b); simpa [ntok]
  | .str b => by have := enc_length_pos (.str b); simpa [ntok]
  | .arr l => by have := ntokL_le l; simp [ntok, enc]; omega
  | .obj l => by have := ntokF_le l; simp [ntok, enc]; omega
theorem ntokL_le : (l : List J) → ntokL l ≤ (encList l).length
  | [] => by simp [ntokL, encList]
  | v :: t => by have := ntok_le v; have := ntokL_le t; simp [ntokL, encList]; omega
theorem ntokF_le : (l : List (Bytes × J)) → ntokF l ≤ (encFields l).length
  | [] => by simp [ntokF, encFields]
  | (k, v) :: t => by
    have := ntok_le v; have := ntokF_le t; have := writeRaw_length_pos k
    simp [ntokF, encFields]; omega
end

theorem skipStep_int (i : Int) (h1 : -(2 ^ 63) ≤ i) (h2 : i < 2 ^ 63) (level : Int) (rest : Bytes) :
    skipStep level (writeInteger i ++ rest) = .ok (rest, level) := by
  have := readInteger_write i h1 h2 rest
  obtain ⟨t, r, h, ht⟩ := writeInteger_head i
  rw [h] at this ⊢
  simp only [skipStep, List.cons_append, peek, bind, Except.bind, clsOf_int t ht] at this ⊢
  rw [this]

theorem skipStep_str (s : Bytes) (h1 : s.length < 2 ^ 31) (level : Int) (rest : Bytes) :
    skipStep level (writeRaw s ++ rest) = .ok (rest, level) := by
  have := readRaw_write s h1 rest
  obtain ⟨t, r, h, ht⟩ := writeRaw_head s
  rw [h] at this ⊢
  simp only [skipStep, List.cons_append, peek, bind, Except.bind, clsOf_str t ht] at this ⊢
  rw [this]

theorem skipStep_real (q : Nat) (h1 : q < 2 ^ 64) (level : Int) (rest : Bytes) :
    skipStep level (writeReal q ++ rest) = .ok (rest, level) := by
  have := readReal_write q h1 rest
  obtain ⟨t, r, h, ht⟩ := writeReal_head q
  rw [h] at this ⊢
  have hc : clsOf t = .real := by rcases ht with rfl | rfl <;> decide
  simp only [skipStep, List.cons_append, peek, bind, Except.bind, hc] at this ⊢
  rw [this]

/-- what the loop does after a turn -/
def skipCont (f : Nat) (level : Int) (rest : Bytes) : Res Bytes :=
  if level > 0 then skipLoop f level rest else .ok rest

theorem skipLoop_of_step {level l' : Int} {bs r : Bytes} (f : Nat) (h : skipStep level bs = .ok (r, l')) :
    skipLoop (f + 1) level bs = skipCont f l' r := by
  simp only [skipLoop, h, bind, Except.bind, skipCont]

mutual
theorem skipLoop_enc : (v : J) → WF v → ∀ (f : Nat) (level : Int) (rest : Bytes), 0 ≤ level →
    skipLoop (f + ntok v) level (enc v ++ rest) = skipCont f level rest
  | .null, _, f, level, rest, _ => skipLoop_of_step f (by rfl)
  | .bool b, _, f, level, rest, _ => skipLoop_of_step f (by cases b <;> rfl)
  | .int i, hw, f, level, rest, _ => by
    simp only [WF] at hw
    exact skipLoop_of_step f (by simpa [enc] using skipStep_int i hw.1 hw.2 level rest)
  | .real r, hw, f, level, rest, _ => by
    simp only [WF] at hw
    exact skipLoop_of_step f (by simpa [enc] using skipStep_real r hw level rest)
  | .str s, hw, f, level, rest, _ => by
    simp only [WF] at hw
    exact skipLoop_of_step f (by simpa [enc] using skipStep_str s hw.2 level rest)
  | .arr l, hw, f, level, rest, hl => by
    simp only [WF] at hw
    have h := skipLoopL_enc l hw (f + 1) (level + 1) (tARRAY_END :: rest) (by omega)
    have e : f + ntok (.arr l) = (f + 1 + ntokL l) + 1 := by simp [ntok]; omega
    rw [e, skipLoop_of_step (l' := level + 1) (r := encList l ++ (tARRAY_END :: rest))]
    · rw [skipCont, if_pos (by omega), h, skipLoop_of_step (l' := level) (r := rest)]
      simp only [skipStep, peek, bind, Except.bind, show clsOf tARRAY_END = .arrEnd by decide]
      simp
    · simp only [enc, List.cons_append, skipStep, peek, bind, Except.bind, show clsOf tARRAY = .arr by decide]
      simp
  | .obj l, hw, f, level, rest, hl => by
    simp only [WF] at hw
    have h := skipLoopF_enc l hw (f + 1) (level + 1) (tOBJ_END :: rest) (by omega)
    have e : f + ntok (.obj l) = (f + 1 + ntokF l) + 1 := by simp [ntok]; omega
    rw [e, skipLoop_of_step (l' := level + 1) (r := encFields l ++ (tOBJ_END :: rest))]
    · rw [skipCont, if_pos (by omega), h, skipLoop_of_step (l' := level) (r := rest)]
      simp only [skipStep, peek, bind, Except.bind, show clsOf tOBJ_END = .objEnd by decide]
      simp
    · simp only [enc, List.cons_append, skipStep, peek, bind, Except.bind, show clsOf tOBJ = .obj by decide]
      simp
theorem skipLoopL_enc : (l : List J) → WFList l → ∀ (f : Nat) (level : Int) (rest : Bytes), 0 < level →
    skipLoop (f + ntokL l) level (encList l ++ rest) = skipLoop f level rest
  | [], _, _, _, _, _ => rfl
  | v :: t, hw, f, level, rest, hl => by
    simp only [WFList] at hw
    have h1 := skipLoop_enc v hw.1 (f + ntokL t) level (encList t ++ rest) (by omega)
    have h2 := skipLoopL_enc t hw.2 f level rest hl
    have e : f + ntokL (v :: t) = (f + ntokL t) + ntok v := by simp [ntokL]; omega
    rw [e, encList, List.append_assoc, h1, skipCont, if_pos (by omega), h2]
theorem skipLoopF_enc : (l : List (Bytes × J)) → WFFields l → ∀ (f : Nat) (level : Int) (rest : Bytes),
    0 < level → skipLoop (f + ntokF l) level (encFields l ++ rest) = skipLoop f level rest
  | [], _, _, _, _, _ => rfl
  | (k, v) :: t, hw, f, level, rest, hl => by
    simp only [WFFields] at hw
    have h0 := skipStep_str k hw.1.2 level (enc v ++ (encFields t ++ rest))
    have h1 := skipLoop_enc v hw.2.1 (f + ntokF t) level (encFields t ++ rest) (by omega)
    have h2 := skipLoopF_enc t hw.2.2 f level rest hl
    have e : f + ntokF ((k, v) :: t) = ((f + ntokF t) + ntok v) + 1 := by simp [ntokF]; omega
    rw [e, encFields, List.append_assoc, List.append_assoc, skipLoop_of_step _ h0, skipCont,
      if_pos (by omega), h1, skipCont, if_pos (by omega), h2]
end

theorem skip_enc (v : J) (h : WF v) (rest : Bytes) : skip (enc v ++ rest) = .ok rest := by
  unfold skip
  have := ntok_le v
  have e : (enc v ++ rest).length = ((enc v).length - ntok v + rest.length) + ntok v := by simp; omega
  rw [e, skipLoop_enc v h _ 0 rest (by omega)]
  simp [skipCont]

theorem skip_raw (s : Bytes) (h : s.length < 2 ^ 31) (rest : Bytes) : skip (writeRaw s ++ rest) = .ok rest := by
  unfold skip
  have := writeRaw_length_pos s
  have e : (writeRaw s ++ rest).length = ((writeRaw s).length - 1 + rest.length) + 1 := by simp; omega
  rw [e, skipLoop_of_step _ (skipStep_str s h 0 rest)]
  simp [skipCont]

/-! access -/

theorem fields_le (l : List (Bytes × J)) : l.length ≤ (encFields l).length := by
  induction l with
  | nil => simp
  | cons p t ih =>
    obtain ⟨k, v⟩ := p
    have := writeRaw_length_pos k
    simp [encFields]; omega

theorem list_le (l : List J) : l.length ≤ (encList l).length := by
  induction l with
  | nil => simp
  | cons p t ih =>
    have := enc_length_pos p
    simp [encList]; omega

theorem objFindLoop_enc (name : Bytes) : (l : List (Bytes × J)) → WFFields l → ∀ (fuel : Nat) (rest : Bytes),
    l.length < fuel →
    (match fieldOf name l with
     | none => objFindLoop name fuel (encFields l ++ (tOBJ_END :: rest)) = .ok none
     | some v => ∃ tail, objFindLoop name fuel (encFields l ++ (tOBJ_END :: rest)) = .ok (some (enc v ++ tail)))
  | [], _, fuel, rest, hf => by
    obtain ⟨f, rfl⟩ : ∃ f, fuel = f + 1 := ⟨fuel - 1, by omega⟩
    simp [fieldOf, encFields, objFindLoop, readObjEnd, bind, Except.bind]
  | (k, v) :: t, hw, fuel, rest, hf => by
    obtain ⟨f, rfl⟩ : ∃ f, fuel = f + 1 := ⟨fuel - 1, by omega⟩
    simp only [WFFields] at hw
    simp only [List.length_cons] at hf
    have h0 := readRaw_write k hw.1.2 (enc v ++ (encFields t ++ (tOBJ_END :: rest)))
    have h1 := skip_enc v hw.2.1 (encFields t ++ (tOBJ_END :: rest))
    have h2 := objFindLoop_enc name t hw.2.2 f rest (by omega)
    simp only [encFields, List.append_assoc, objFindLoop, fieldOf]
    rw [readObjEnd_raw]
    simp only [bind, Except.bind, h0]
    by_cases hk : k = name
    · simp only [hk, if_true]
      exact ⟨_, rfl⟩
    · simp only [hk, if_false, h1]
      exact h2

theorem arrayFindLoop_enc (p : Int) : (l : List J) → WFList l → ∀ (fuel : Nat) (i : Int) (rest : Bytes),
    l.length < fuel →
    (if i ≤ p then
       match l[(p - i).toNat]? with
       | none => arrayFindLoop p fuel i (encList l ++ (tARRAY_END :: rest)) = .ok none
       | some v => ∃ tail, arrayFindLoop p fuel i (encList l ++ (tARRAY_END :: rest)) = .ok (some (enc v ++ tail))
     else arrayFindLoop p fuel i (encList l ++ (tARRAY_END :: rest)) = .ok none)
  | [], _, fuel, i, rest, hf => by
    obtain ⟨f, rfl⟩ : ∃ f, fuel = f + 1 := ⟨fuel - 1, by omega⟩
    simp [encList, arrayFindLoop, readArrayEnd, bind, Except.bind]
  | v :: t, hw, fuel, i, rest, hf => by
    obtain ⟨f, rfl⟩ : ∃ f, fuel = f + 1 := ⟨fuel - 1, by omega⟩
    simp only [WFList] at hw
    simp only [List.length_cons] at hf
    have h1 := skip_enc v hw.1 (encList t ++ (tARRAY_END :: rest))
    have h2 := arrayFindLoop_enc p t hw.2 f (i + 1) rest (by omega)
    simp only [encList, List.append_assoc, arrayFindLoop]
    rw [readArrayEnd_enc]
    simp only [bind, Except.bind]
    by_cases hi : i = p
    · subst hi
      simp
    · simp only [hi, if_false, h1]
      by_cases hle : i ≤ p
      · have e : (p - i).toNat = (p - (i + 1)).toNat + 1 := by omega
        rw [if_pos hle, e, List.getElem?_cons_succ]
        rw [if_pos (by omega)] at h2
        exact h2
      · rw [if_neg hle]
        rw [if_neg (by omega)] at h2
        exact h2

theorem arraySizeLoop_enc : (l : List J) → WFList l → ∀ (fuel n : Nat) (rest : Bytes), l.length < fuel →
    arraySizeLoop fuel n (encList l ++ (tARRAY_END :: rest)) = .ok (n + l.length)
  | [], _, fuel, n, rest, hf => by
    obtain ⟨f, rfl⟩ : ∃ f, fuel = f + 1 := ⟨fuel - 1, by omega⟩
    simp [encList, arraySizeLoop, readArrayEnd, bind, Except.bind]
  | v :: t, hw, fuel, n, rest, hf => by
    obtain ⟨f, rfl⟩ : ∃ f, fuel = f + 1 := ⟨fuel - 1, by omega⟩
    simp only [WFList] at hw
    simp only [List.length_cons] at hf
    have h1 := skip_enc v hw.1 (encList t ++ (tARRAY_END :: rest))
    have h2 := arraySizeLoop_enc t hw.2 f (n + 1) rest (by omega)
    simp only [encList, List.append_assoc, arraySizeLoop]
    rw [readArrayEnd_enc]
    simp only [bind, Except.bind, h1, h2, List.length_cons]
    congr 1; omega

theorem objSizeLoop_enc : (l : List (Bytes × J)) → WFFields l → ∀ (fuel n : Nat) (rest : Bytes), l.length < fuel →
    objSizeLoop fuel n (encFields l ++ (tOBJ_END :: rest)) = .ok (n + l.length)
  | [], _, fuel, n, rest, hf => by
    obtain ⟨f, rfl⟩ : ∃ f, fuel = f + 1 := ⟨fuel - 1, by omega⟩
    simp [encFields, objSizeLoop, readObjEnd, bind, Except.bind]
  | (k, v) :: t, hw, fuel, n, rest, hf => by
    obtain ⟨f, rfl⟩ : ∃ f, fuel = f + 1 := ⟨fuel - 1, by omega⟩
    simp only [WFFields] at hw
    simp only [List.length_cons] at hf
    have h0 := skip_raw k hw.1.2 (enc v ++ (encFields t ++ (tOBJ_END :: rest)))
    have h1 := skip_enc v hw.2.1 (encFields t ++ (tOBJ_END :: rest))
    have h2 := objSizeLoop_enc t hw.2.2 f (n + 1) rest (by omega)
    simp only [encFields, List.append_assoc, objSizeLoop]
    rw [readObjEnd_raw]
    simp only [bind, Except.bind, h0, h1, h2, List.length_cons]
    congr 1; omega

theorem peek_encList_cons (v : J) (t : List J) (rest : Bytes) :
    ∃ x, peek (encList (v :: t) ++ rest) = .ok x ∧ x ≠ tARRAY_END := by
  obtain ⟨x, r, h, _, h2⟩ := enc_head v
  exact ⟨x, by simp [encList, h, peek], h2⟩

theorem arrayLastLoop_enc : (l : List J) → WFList l → ∀ (fuel : Nat) (rest : Bytes), l.length < fuel →
    (match l.getLast? with
     | none => arrayLastLoop fuel (encList l ++ (tARRAY_END :: rest)) = .ok none
     | some v => arrayLastLoop fuel (encList l ++ (tARRAY_END :: rest)) = .ok (some (enc v ++ (tARRAY_END :: rest))))
  | [], _, fuel, rest, hf => by
    obtain ⟨f, rfl⟩ : ∃ f, fuel = f + 1 := ⟨fuel - 1, by omega⟩
    simp [encList, arrayLastLoop, readArrayEnd, bind, Except.bind]
  | [v], hw, fuel, rest, hf => by
    obtain ⟨f, rfl⟩ : ∃ f, fuel = f + 1 := ⟨fuel - 1, by omega⟩
    simp only [WFList] at hw
    have h1 := skip_enc v hw.1 (tARRAY_END :: rest)
    simp only [encList, List.append_nil, arrayLastLoop, List.getLast?_singleton]
    rw [readArrayEnd_enc]
    simp only [bind, Except.bind, h1, peek, if_true]
  | v :: w :: t, hw, fuel, rest, hf => by
    obtain ⟨f, rfl⟩ : ∃ f, fuel = f + 1 := ⟨fuel - 1, by omega⟩
    simp only [WFList] at hw
    simp only [List.length_cons] at hf
    have h1 := skip_enc v hw.1 (encList (w :: t) ++ (tARRAY_END :: rest))
    have h2 := arrayLastLoop_enc (w :: t) (by simp only [WFList]; exact hw.2) f rest (by simp; omega)
    obtain ⟨x, hx, hx2⟩ := peek_encList_cons w t (tARRAY_END :: rest)
    rw [List.getLast?_cons_cons]
    rw [encList, List.append_assoc, arrayLastLoop]
    rw [readArrayEnd_enc]
    simp only [bind, Except.bind, h1, hx, hx2, if_false]
    exact h2

end Verif.Json
