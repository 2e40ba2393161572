import Verif.Json.Eq
/-!
# Property theorems: stored JSON documents (C01 - C04, C38)
-/
namespace Verif.Json
open Verif

/-- a nested sample used to show that hypotheses are met -/
def sample : J :=
  .obj [([97], .arr [.int 31, .int 32, .int (-1), .int 70000, .null, .bool true, .arr []]),
        ([98, 99], .obj [([], .str [34, 0, 255])])]

theorem sample_wf : WF sample := by
  simp [sample, WF, WFList, WFFields, IsBytes]

/-- **C01** (with C38): reading a stored document returns the stored value and exactly the bytes that follow
it.  `stored v` differs from `v` only in reals (`C01_roundtrip`). -/
theorem C01_read_back (v : J) (h : WF v) (rest : Bytes) :
    decode (enc v ++ rest) = .ok (stored v, rest) :=
  dec_enc v h _ rest (by simp; omega)

/-- **C01**: a value whose reals (if any) are exactly representable in the stored precision is read back
unchanged, whatever bytes follow. -/
theorem C01_roundtrip (v : J) (h : WF v) (he : Exact v) (rest : Bytes) :
    decode (enc v ++ rest) = .ok (v, rest) := by
  have := C01_read_back v h rest
  rwa [stored_exact v he] at this

example : WF sample ∧ Exact sample := ⟨sample_wf, by simp [sample, Exact, ExactList, ExactFields]⟩

/-- **C01**, injectivity form: two different (real-exact) values never have documents of which one is a
prefix of the other, hence stored documents determine values. -/
theorem C01_injective (v w : J) (hv : WF v) (hw : WF w) (ev : Exact v) (ew : Exact w) (r s : Bytes)
    (h : enc v ++ r = enc w ++ s) : v = w ∧ r = s := by
  have h1 := C01_roundtrip v hv ev r
  have h2 := C01_roundtrip w hw ew s
  rw [h, h2] at h1
  simpa [eq_comm] using h1

/-- **C38** (violated): "a stored real number reads back as the same number" fails; the witness is the
double nearest to 0.1 (bit pattern 0x3FB999999999999A), stored in single precision. -/
theorem C38_real_roundtrip_false :
    ∃ v : J, WF v ∧ decode (enc v) ≠ .ok (v, []) := by
  refine ⟨.real 0x3FB999999999999A, by simp [WF], ?_⟩
  have h := C01_read_back (.real 0x3FB999999999999A) (by simp [WF]) []
  rw [List.append_nil] at h
  rw [h]
  simp only [stored]
  intro hh
  simp only [Except.ok.injEq, Prod.mk.injEq, J.real.injEq, and_true] at hh
  exact absurd hh (by decide)

/-- **C38**, what holds: a real reads back as the same number if it is outside of [FLT_MIN, FLT_MAX] (in
particular every negative number and zero) or needs at most 24 significant bits; otherwise it reads back as
the nearest single precision number (bit patterns of single precision numbers are the multiples of 2^29), a
number half way between two of them as the one with an even fraction.  Missing: exactness for positive doubles in
float range with more bits. -/
theorem C38_real_roundtrip_partial (r : Nat) (h : r < 2 ^ 64) (rest : Bytes) :
    decode (enc (.real r) ++ rest) = .ok (.real (storedReal r), rest) ∧
    (ExactReal r → storedReal r = r) ∧
    (inFloatRange r = true → storedReal r ≤ r + 2 ^ 28 ∧ r ≤ storedReal r + 2 ^ 28 ∧ storedReal r % 2 ^ 29 = 0 ∧
      (r % 2 ^ 29 = 2 ^ 28 → storedReal r / 2 ^ 29 % 2 = 0)) := by
  refine ⟨C01_read_back (.real r) (by simpa [WF] using h) rest, storedReal_exact r, ?_⟩
  intro hr
  unfold storedReal
  rw [if_pos hr]
  simp [inFloatRange] at hr
  unfold f64OfF32 f32OfF64
  simp only
  split
  · rw [if_neg (by omega), if_neg (by omega)]
    omega
  · rw [if_neg (by omega), if_neg (by omega)]
    omega

example : ExactReal 0x3FF8000000000000 ∧ inFloatRange 0x3FF8000000000000 = true := by  -- 1.5
  constructor
  · intro _; decide
  · decide

/-- **C02**: skipping one stored value lands exactly on the byte after it. -/
theorem C02_skip (v : J) (h : WF v) (rest : Bytes) : skip (enc v ++ rest) = .ok rest :=
  skip_enc v h rest

example : skip (enc sample ++ [7, 7, 7]) = .ok [7, 7, 7] := C02_skip _ sample_wf _

/-- **C02**: the size reported for a stored value is the number of its bytes. -/
theorem C02_sizeof (v : J) (h : WF v) (rest : Bytes) : sizeof (enc v ++ rest) = .ok (enc v).length := by
  simp only [sizeof, C02_skip v h rest, bind, Except.bind, List.length_append]
  congr 1; omega

/-- **C02**: skipping agrees with reading: whatever is skipped is what a reader would have consumed. -/
theorem C02_skip_eq_read (v : J) (h : WF v) (rest : Bytes) :
    ∃ w, decode (enc v ++ rest) = .ok (w, rest) ∧ skip (enc v ++ rest) = .ok rest :=
  ⟨stored v, C01_read_back v h rest, C02_skip v h rest⟩

/-- **C03**: comparing two stored values always terminates with -1, 0 or 1 and is antisymmetric. -/
theorem C03_total_antisymm (a b : J) (wa : WF a) (wb : WF b) (na : NoNaN a) (nb : NoNaN b) (ra rb : Bytes) :
    ∃ rc, (rc = -1 ∨ rc = 0 ∨ rc = 1) ∧ compare (enc a ++ ra) (enc b ++ rb) = .ok rc ∧
      compare (enc b ++ rb) (enc a ++ ra) = .ok (-rc) := by
  refine ⟨ordInt (cmpJ (stored a) (stored b)), ?_, compare_enc a b wa wb na nb ra rb, ?_⟩
  · cases cmpJ (stored a) (stored b) <;> simp [ordInt]
  · rw [compare_enc b a wb wa nb na rb ra, cmpJ_swap (stored a) (stored b), ordInt_swap]

/-- **C03**: transitivity. -/
theorem C03_trans (a b c : J) (wa : WF a) (wb : WF b) (wc : WF c) (na : NoNaN a) (nb : NoNaN b) (nc : NoNaN c)
    (x y : Int) (h1 : compare (enc a) (enc b) = .ok x) (hx : x ≤ 0)
    (h2 : compare (enc b) (enc c) = .ok y) (hy : y ≤ 0) :
    ∃ z, compare (enc a) (enc c) = .ok z ∧ z ≤ 0 := by
  have e1 := compare_enc a b wa wb na nb [] []
  have e2 := compare_enc b c wb wc nb nc [] []
  have e3 := compare_enc a c wa wc na nc [] []
  simp only [List.append_nil] at e1 e2 e3
  rw [h1] at e1; rw [h2] at e2
  cases e1; cases e2
  exact ⟨_, e3, cmpJ_trans hx hy⟩

/-- **C03**: two stored values compare equal exactly when they are the same value (reals are compared
numerically, as stored; -0.0 = 0.0). -/
theorem C03_eq (a b : J) (wa : WF a) (wb : WF b) (na : NoNaN a) (nb : NoNaN b) :
    compare (enc a) (enc b) = .ok 0 ↔ norm (stored a) = norm (stored b) := by
  have e1 := compare_enc a b wa wb na nb [] []
  simp only [List.append_nil] at e1
  rw [e1, ← cmpJ_zero _ _ (stored_wf a wa) (stored_wf b wb)]
  simp [ordInt_zero]

/-- **C03**, which order it is: the lexicographic order of the token sequences (`key`), i.e. by kind
(null, bool, real, int, string, object, array), then content; a longer array or object sorts before its
own prefix. -/
theorem C03_is_lexicographic (a b : J) (wa : WF a) (wb : WF b) (na : NoNaN a) (nb : NoNaN b) :
    compare (enc a) (enc b) = .ok (ordInt (Ord.compare (key (stored a)) (key (stored b)))) := by
  have e1 := compare_enc a b wa wb na nb [] []
  simp only [List.append_nil] at e1
  rw [e1, cmpJ_eq]

example : NoNaN sample := by simp [sample, NoNaN, NoNaNList, NoNaNFields]

/-- **C03**, why NaN is excluded: with a NaN real inside the comparison is not transitive. -/
theorem C03_nan_not_transitive :
    compare (enc (.real 0x7FF8000000000000)) (enc (.real 0)) = .ok 0 ∧
    compare (enc (.real 0)) (enc (.real 0x7FF8000000000000)) = .ok 0 ∧
    compare (enc (.real 0x4000000000000000)) (enc (.real 0x7FF8000000000000)) = .ok 0 ∧
    compare (enc (.real 0x4000000000000000)) (enc (.real 0)) = .ok 1 := by decide

/-- **C04**: a key lookup in a stored object positions at the value of the first field with that key, and
reports absence exactly when there is none. -/
theorem C04_obj_find (l : List (Bytes × J)) (h : WFFields l) (name : Bytes) (rest : Bytes) :
    match fieldOf name l with
    | some v => ∃ tail, objFind (enc (.obj l) ++ rest) name = .ok (some (enc v ++ tail))
    | none => objFind (enc (.obj l) ++ rest) name = .ok none := by
  have hl := fields_le l
  have := objFindLoop_enc name l h (enc (.obj l) ++ rest).length rest (by simp [enc]; omega)
  have e : objFind (enc (.obj l) ++ rest) name =
      objFindLoop name (enc (.obj l) ++ rest).length (encFields l ++ (tOBJ_END :: rest)) := by
    simp [objFind, enc, peek, bind, Except.bind, readObj]
  rw [e]
  cases hf : fieldOf name l with
  | none => rw [hf] at this; exact this
  | some v => rw [hf] at this; exact this

/-- **C04**: reading at the found position gives the field's value. -/
theorem C04_obj_find_read (l : List (Bytes × J)) (h : WFFields l) (name : Bytes) (rest : Bytes) (v : J)
    (hv : fieldOf name l = some v) :
    ∃ at_, objFind (enc (.obj l) ++ rest) name = .ok (some at_) ∧ ∃ tail, decode at_ = .ok (stored v, tail) := by
  have := C04_obj_find l h name rest
  rw [hv] at this
  obtain ⟨tail, ht⟩ := this
  refine ⟨_, ht, tail, C01_read_back v ?_ tail⟩
  clear ht tail
  induction l with
  | nil => simp [fieldOf] at hv
  | cons p t ih =>
    obtain ⟨k, w⟩ := p
    simp only [WFFields] at h
    simp only [fieldOf] at hv
    split at hv
    · cases hv; exact h.2.1
    · exact ih h.2.2 hv

example : fieldOf [98, 99] [([97], J.null), ([98, 99], J.int 5), ([98, 99], J.int 6)] = some (J.int 5) := rfl

/-- **C04**: indexing a stored array positions at the element, and reports absence exactly when the index is
negative or not below the length. -/
theorem C04_array_find (l : List J) (h : WFList l) (p : Int) (rest : Bytes) :
    match (if 0 ≤ p then l[p.toNat]? else none) with
    | some v => ∃ tail, arrayFind (enc (.arr l) ++ rest) p = .ok (some (enc v ++ tail))
    | none => arrayFind (enc (.arr l) ++ rest) p = .ok none := by
  have hl := list_le l
  have := arrayFindLoop_enc p l h (enc (.arr l) ++ rest).length 0 rest (by simp [enc]; omega)
  have e : arrayFind (enc (.arr l) ++ rest) p =
      arrayFindLoop p (enc (.arr l) ++ rest).length 0 (encList l ++ (tARRAY_END :: rest)) := by
    simp [arrayFind, enc, peek, bind, Except.bind, readArray]
  rw [e]
  simp only [Int.sub_zero] at this
  by_cases hp : 0 ≤ p
  · rw [if_pos hp] at this ⊢
    cases hf : l[p.toNat]? with
    | none => rw [hf] at this; exact this
    | some v => rw [hf] at this; exact this
  · rw [if_neg hp] at this ⊢; exact this

/-- **C04**: the last element of a stored array. -/
theorem C04_array_last (l : List J) (h : WFList l) (rest : Bytes) :
    arrayLast (enc (.arr l) ++ rest) = .ok (l.getLast?.map (fun v => enc v ++ (tARRAY_END :: rest))) := by
  have hl := list_le l
  have := arrayLastLoop_enc l h (enc (.arr l) ++ rest).length rest (by simp [enc]; omega)
  have e : arrayLast (enc (.arr l) ++ rest) =
      arrayLastLoop (enc (.arr l) ++ rest).length (encList l ++ (tARRAY_END :: rest)) := by
    simp [arrayLast, enc, peek, bind, Except.bind, readArray]
  rw [e]
  cases hf : l.getLast? with
  | none => rw [hf] at this; exact this
  | some v => rw [hf] at this; exact this

/-- **C04**: number of elements / fields. -/
theorem C04_array_size (l : List J) (h : WFList l) (rest : Bytes) :
    arraySize (enc (.arr l) ++ rest) = .ok l.length := by
  have hl := list_le l
  have := arraySizeLoop_enc l h (enc (.arr l) ++ rest).length 0 rest (by simp [enc]; omega)
  have e : arraySize (enc (.arr l) ++ rest) =
      arraySizeLoop (enc (.arr l) ++ rest).length 0 (encList l ++ (tARRAY_END :: rest)) := by
    simp [arraySize, enc, peek, bind, Except.bind, readArray]
  rw [e, this]; simp

theorem C04_obj_size (l : List (Bytes × J)) (h : WFFields l) (rest : Bytes) :
    objSize (enc (.obj l) ++ rest) = .ok l.length := by
  have hl := fields_le l
  have := objSizeLoop_enc l h (enc (.obj l) ++ rest).length 0 rest (by simp [enc]; omega)
  have e : objSize (enc (.obj l) ++ rest) =
      objSizeLoop (enc (.obj l) ++ rest).length 0 (encFields l ++ (tOBJ_END :: rest)) := by
    simp [objSize, enc, bind, Except.bind, readObj]
  rw [e, this]; simp

/-- value at a path of keys (spec): descend field by field -/
def atPath : J → List Bytes → Option J
  | v, [] => some v
  | .obj l, k :: ks => match fieldOf k l with
    | none => none
    | some v => atPath v ks
  | _, _ :: _ => none

/-- the text of a path: keys separated by dots (spec) -/
def pathText : List Bytes → Bytes
  | [] => []
  | [k] => k
  | k :: k' :: ks => k ++ (46 :: pathText (k' :: ks))

theorem splitDot_none (k : Bytes) (h : 46 ∉ k) : splitDot k = none := by
  induction k with
  | nil => rfl
  | cons c t ih =>
    simp only [List.mem_cons, not_or] at h
    simp [splitDot, Ne.symm h.1, ih h.2]

theorem splitDot_some (k r : Bytes) (h : 46 ∉ k) : splitDot (k ++ (46 :: r)) = some (k, r) := by
  induction k with
  | nil => simp [splitDot]
  | cons c t ih =>
    simp only [List.mem_cons, not_or] at h
    simp [splitDot, Ne.symm h.1, ih h.2]

theorem fieldOf_wf (name : Bytes) (l : List (Bytes × J)) (h : WFFields l) (v : J) (hv : fieldOf name l = some v) :
    WF v := by
  induction l with
  | nil => simp [fieldOf] at hv
  | cons p t ih =>
    obtain ⟨k, w⟩ := p
    simp only [WFFields] at h
    simp only [fieldOf] at hv
    split at hv
    · cases hv; exact h.2.1
    · exact ih h.2.2 hv

/-- **C04**: a dotted path lookup descends object by object to the value at that path (keys without dots). -/
theorem C04_path (ks : List Bytes) : ∀ (v w : J) (fuel : Nat) (rest : Bytes), WF v → ks ≠ [] → (∀ k ∈ ks, 46 ∉ k) →
    ks.length ≤ fuel → atPath v ks = some w →
    ∃ tail, objFindPath fuel (enc v ++ rest) (pathText ks) = .ok (some (enc w ++ tail)) := by
  induction ks with
  | nil => intro v w fuel rest _ h; exact absurd rfl h
  | cons k ks ih =>
    intro v w fuel rest hv _ hd hf hw
    obtain ⟨f, rfl⟩ : ∃ f, fuel = f + 1 := ⟨fuel - 1, by simp at hf; omega⟩
    cases v with
    | obj l =>
      simp only [atPath] at hw
      simp only [WF] at hv
      have hfind := C04_obj_find l hv k rest
      cases hfo : fieldOf k l with
      | none => simp [hfo] at hw
      | some u =>
        rw [hfo] at hw hfind
        obtain ⟨tail, ht⟩ := hfind
        cases ks with
        | nil =>
          simp only [atPath, Option.some.injEq] at hw
          subst hw
          refine ⟨tail, ?_⟩
          simp [objFindPath, pathText, splitDot_none k (hd k (by simp)), ht]
        | cons k' ks' =>
          obtain ⟨tail', ht'⟩ := ih u w f tail (fieldOf_wf k l hv u hfo) (by simp)
            (fun x hx => hd x (by simp at hx ⊢; right; exact hx)) (by simp at hf ⊢; omega) hw
          refine ⟨tail', ?_⟩
          simp only [objFindPath, pathText, splitDot_some k _ (hd k (by simp)), ht, bind, Except.bind]
          exact ht'
    | _ => simp [atPath] at hw

example : atPath sample [[98, 99], []] = some (.str [34, 0, 255]) := rfl

example : WFList [J.int 5, .arr []] ∧ [J.int 5, .arr []][1]? = some (.arr []) := by
  simp [WFList, WF]

end Verif.Json
