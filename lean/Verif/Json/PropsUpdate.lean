import Verif.Json.Props
import Verif.Json.Update
/-!
# JSON functions (C68, C69)
-/
set_option linter.unusedSimpArgs false
set_option linter.unusedVariables false
namespace Verif.Json
open Verif Verif.Json.Text

/-! ## Specification -/

/-- the value of the first field named `k` replaced -/
def replaceField (k : Bytes) (new : J) : List (Bytes × J) → List (Bytes × J)
  | [] => []
  | (k', v) :: l => if k' = k then (k', new) :: l else (k', v) :: replaceField k new l

/-- set(v, path, new): the field at the path gets the value; a field that does not exist is added to its object, which has
to exist -/
def setAt (new : J) : J → List Bytes → Option J
  | .obj l, [k] => match fieldOf k l with
    | some _ => some (.obj (replaceField k new l))
    | none => some (.obj (l ++ [(k, new)]))
  | .obj l, k :: k' :: ks => match fieldOf k l with
    | some v => (setAt new v (k' :: ks)).map fun v' => .obj (replaceField k v' l)
    | none => none
  | _, _ => none

/-- unset(v, path): the field at the path is removed -/
def unsetAt : J → List Bytes → Option J
  | .obj l, [k] => some (.obj (l.filter fun p => decide (p.1 ≠ k)))
  | .obj l, k :: k' :: ks => match fieldOf k l with
    | some v => (unsetAt v (k' :: ks)).map fun v' => .obj (replaceField k v' l)
    | none => some (.obj l)
  | _, _ => none

/-- a name in a path -/
def NameOK (k : Bytes) : Prop := k ≠ [] ∧ 46 ∉ k ∧ ∀ c ∈ k, isSpace c = false

/-- {"a": {"b": 22, "c": [1]}, "d": null} -/
def sample2 : J := .obj [([97], .obj [([98], .int 22), ([99], .arr [.int 1])]), ([100], .null)]

/-! ## Paths -/

theorem readName_end : ∀ (k : Bytes), 46 ∉ k → (∀ c ∈ k, isSpace c = false) → readName k = .ok (k, [])
  | [], _, _ => rfl
  | c :: t, h, hs => by
    simp only [List.mem_cons, not_or] at h
    simp [readName, Ne.symm h.1, hs c (by simp), readName_end t h.2 (fun c hc => hs c (by simp [hc])), bind, Except.bind]

theorem readName_dot : ∀ (k r : Bytes), 46 ∉ k → (∀ c ∈ k, isSpace c = false) → readName (k ++ 46 :: r) = .ok (k, 46 :: r)
  | [], r, _, _ => by simp [readName]
  | c :: t, r, h, hs => by
    simp only [List.mem_cons, not_or] at h
    simp [readName, Ne.symm h.1, hs c (by simp), readName_dot t r h.2 (fun c hc => hs c (by simp [hc])), bind, Except.bind]

theorem updateRead_last (k : Bytes) (h : NameOK k) : updateRead k = .ok (k, []) := by
  simp [updateRead, h.1, readName_end k h.2.1 h.2.2, bind, Except.bind]

theorem updateRead_more (k k' : Bytes) (ks : List Bytes) (h : NameOK k) :
    updateRead (pathText (k :: k' :: ks)) = .ok (k, pathText (k' :: ks)) := by
  have : k ++ 46 :: pathText (k' :: ks) ≠ [] := by simp
  simp [updateRead, pathText, this, readName_dot k _ h.2.1 h.2.2, bind, Except.bind, h.1]

theorem pathText_ne {k : Bytes} {ks : List Bytes} (h : NameOK k) : pathText (k :: ks) ≠ [] := by
  cases ks <;> simp [pathText, h.1]

/-! ## set -/

theorem take_head (a b : Bytes) : (a ++ b).take ((a ++ b).length - b.length) = a := by
  have : (a ++ b).length - b.length = a.length := by simp
  rw [this, List.take_left']; rfl

/-- fields that are not the one the path names, or fields after it was found, are copied -/
theorem setLoop_copy (nv key path : Bytes) (found : Bool) : ∀ (l : List (Bytes × J)), WFFields l →
    (found = true ∨ ∀ p ∈ l, p.1 ≠ key) → ∀ (f : Nat) (rest : Bytes), (encFields l).length + 1 ≤ f →
    setLoop nv f key (encFields l ++ tOBJ_END :: rest) path found = .ok (encFields l, rest, path, found)
  | [], _, _, f, rest, hf => by
    obtain ⟨f, rfl⟩ : ∃ n, f = n + 1 := ⟨f - 1, by omega⟩
    simp [setLoop, encFields, readObjEnd, bind, Except.bind]
  | (k, v) :: l, hw, hk, f, rest, hf => by
    obtain ⟨f, rfl⟩ : ∃ n, f = n + 1 := ⟨f - 1, by omega⟩
    simp only [WFFields] at hw
    have l1 := writeRaw_length_pos k
    have ih := setLoop_copy nv key path found l hw.2.2
      (hk.imp id fun h p hp => h p (by simp [hp])) f rest (by simp [encFields] at hf; omega)
    have e : encFields ((k, v) :: l) ++ tOBJ_END :: rest = writeRaw k ++ (enc v ++ (encFields l ++ tOBJ_END :: rest)) := by
      simp [encFields]
    rw [e]
    have hne : ¬ (found = false ∧ key = k) := by
      rintro ⟨h1, h2⟩
      rcases hk with h | h
      · rw [h] at h1; simp at h1
      · exact h (k, v) (by simp) h2.symm
    simp only [setLoop, readObjEnd_raw, readRaw_write k hw.1.2, bind, Except.bind, if_neg hne, skip_enc v hw.2.1, ih, take_head]
    simp [encFields]

theorem encFields_append (a b : List (Bytes × J)) : encFields (a ++ b) = encFields a ++ encFields b := by
  induction a with
  | nil => rfl
  | cons p a ih => obtain ⟨k, v⟩ := p; simp [encFields, ih]

theorem fieldOf_none {k : Bytes} : ∀ {l : List (Bytes × J)}, fieldOf k l = none → ∀ p ∈ l, p.1 ≠ k
  | (k', v) :: l, h, p, hp => by
    simp only [fieldOf] at h
    split at h
    · simp at h
    · rename_i hne
      rcases List.mem_cons.1 hp with rfl | hp
      · exact hne
      · exact fieldOf_none h p hp

/-- the loop up to the field it looks for, for the last name of the path -/
theorem setLoop_replace (new : J) (key : Bytes) : ∀ (l : List (Bytes × J)), WFFields l → (∃ v, fieldOf key l = some v) →
    ∀ (f : Nat) (rest : Bytes), (encFields l).length + 1 ≤ f →
    setLoop (enc new) f key (encFields l ++ tOBJ_END :: rest) [] false =
      .ok (encFields (replaceField key new l), rest, [], true)
  | [], _, h, _, _, _ => by simp [fieldOf] at h
  | (k, v) :: l, hw, h, f, rest, hf => by
    obtain ⟨f, rfl⟩ : ∃ n, f = n + 1 := ⟨f - 1, by omega⟩
    simp only [WFFields] at hw
    have l1 := writeRaw_length_pos k
    have e : encFields ((k, v) :: l) ++ tOBJ_END :: rest = writeRaw k ++ (enc v ++ (encFields l ++ tOBJ_END :: rest)) := by
      simp [encFields]
    have hf' : (encFields l).length + 1 ≤ f := by simp [encFields] at hf; omega
    rw [e]
    by_cases hk : k = key
    · subst hk
      have ih := setLoop_copy (enc new) k [] true l hw.2.2 (.inl rfl) f rest hf'
      simp only [setLoop, readObjEnd_raw, readRaw_write k hw.1.2, bind, Except.bind, skip_enc v hw.2.1, ih]
      simp [replaceField, encFields]
    · simp only [fieldOf, hk, if_false] at h
      have ih := setLoop_replace new key l hw.2.2 h f rest hf'
      have hk' : ¬ key = k := fun hh => hk hh.symm
      have hne : ¬ (false = false ∧ key = k) := fun hh => hk' hh.2
      simp only [setLoop, readObjEnd_raw, readRaw_write k hw.1.2, bind, Except.bind, if_neg hne, skip_enc v hw.2.1, ih, take_head]
      simp [replaceField, hk, hk', encFields]

/-- the loop, for a name that is not the last one, given what the recursive call does -/
theorem setLoop_nested (nv key path : Bytes) (hp : path ≠ []) (v v' : J) (path' : Bytes) : ∀ (l : List (Bytes × J)), WFFields l →
    fieldOf key l = some v →
    ∀ (f : Nat) (rest : Bytes), (encFields l).length + 1 ≤ f →
    (∀ f rest, (enc v).length + 1 ≤ f → setNext nv f (enc v ++ rest) path false = .ok (enc v', rest, path', true)) →
    setLoop nv f key (encFields l ++ tOBJ_END :: rest) path false = .ok (encFields (replaceField key v' l), rest, path', true)
  | [], _, h, _, _, _, _ => by simp [fieldOf] at h
  | (k, w) :: l, hw, h, f, rest, hf, hrec => by
    obtain ⟨f, rfl⟩ : ∃ n, f = n + 1 := ⟨f - 1, by omega⟩
    simp only [WFFields] at hw
    have l1 := writeRaw_length_pos k
    have e : encFields ((k, w) :: l) ++ tOBJ_END :: rest = writeRaw k ++ (enc w ++ (encFields l ++ tOBJ_END :: rest)) := by
      simp [encFields]
    have hf' : (encFields l).length + 1 ≤ f := by simp [encFields] at hf; omega
    rw [e]
    by_cases hk : k = key
    · subst hk
      simp only [fieldOf, if_true, Option.some.injEq] at h
      subst h
      have ih := setLoop_copy nv k path' true l hw.2.2 (.inl rfl) f rest hf'
      have hr := hrec f (encFields l ++ tOBJ_END :: rest) (by simp [encFields] at hf; omega)
      simp only [setLoop, readObjEnd_raw, readRaw_write k hw.1.2, bind, Except.bind, hr, ih, and_self, if_true, ne_eq, hp,
        not_false_eq_true]
      simp [replaceField, encFields]
    · simp only [fieldOf, hk, if_false] at h
      have ih := setLoop_nested nv key path hp v v' path' l hw.2.2 h f rest hf' hrec
      have hk' : ¬ key = k := fun hh => hk hh.symm
      have hne : ¬ (false = false ∧ key = k) := fun hh => hk' hh.2
      simp only [setLoop, readObjEnd_raw, readRaw_write k hw.1.2, bind, Except.bind, if_neg hne, skip_enc w hw.2.1, ih, take_head]
      simp [replaceField, hk, hk', encFields]

theorem setNext_found (new : J) : ∀ (ks : List Bytes), (∀ k ∈ ks, NameOK k) → ∀ (v w : J), WF v → ks ≠ [] →
    atPath v ks = some w → ∃ v', setAt new v ks = some v' ∧ ∀ (f : Nat) (rest : Bytes), (enc v).length + 1 ≤ f →
      setNext (enc new) f (enc v ++ rest) (pathText ks) false = .ok (enc v', rest, [], true)
  | [], _, _, _, _, h, _ => absurd rfl h
  | [k], hn, v, w, hv, _, hw => by
    cases v with
    | obj l =>
      simp only [atPath] at hw
      cases hf : fieldOf k l with
      | none => simp [hf] at hw
      | some u =>
        refine ⟨.obj (replaceField k new l), by simp [setAt, hf], ?_⟩
        intro f rest hfu
        obtain ⟨f, rfl⟩ : ∃ n, f = n + 1 := ⟨f - 1, by omega⟩
        simp only [WF] at hv
        have := setLoop_replace new k l hv ⟨u, hf⟩ f rest (by simp [enc] at hfu; omega)
        have e : enc (.obj l) ++ rest = tOBJ :: (encFields l ++ tOBJ_END :: rest) := by simp [enc]
        rw [e]
        simp [setNext, pathText, updateRead_last k (hn k (by simp)), readObj, bind, Except.bind, this, enc]
    | _ => simp [atPath] at hw
  | k :: k' :: ks, hn, v, w, hv, _, hw => by
    cases v with
    | obj l =>
      simp only [atPath] at hw
      cases hf : fieldOf k l with
      | none => simp [hf] at hw
      | some u =>
        simp only [WF] at hv
        have hw' : atPath u (k' :: ks) = some w := by simpa [hf] using hw
        obtain ⟨u', h1, h2⟩ := setNext_found new (k' :: ks) (fun k hk => hn k (by simp [hk])) u w (fieldOf_wf k l hv u hf) (by simp) hw'
        refine ⟨.obj (replaceField k u' l), by simp [setAt, hf, h1], ?_⟩
        intro f rest hfu
        obtain ⟨f, rfl⟩ : ∃ n, f = n + 1 := ⟨f - 1, by omega⟩
        have hp : pathText (k' :: ks) ≠ [] := pathText_ne (hn k' (by simp))
        have := setLoop_nested (enc new) k _ hp u u' [] l hv hf f rest (by simp [enc] at hfu; omega) h2
        have e : enc (.obj l) ++ rest = tOBJ :: (encFields l ++ tOBJ_END :: rest) := by simp [enc]
        rw [e]
        simp [setNext, updateRead_more k k' ks (hn k (by simp)), readObj, bind, Except.bind, this, enc]
    | _ => simp [atPath] at hw


theorem fields_wf_append {a b : List (Bytes × J)} (ha : WFFields a) (hb : WFFields b) : WFFields (a ++ b) := by
  induction a with
  | nil => exact hb
  | cons p a ih => obtain ⟨k, v⟩ := p; simp only [WFFields, List.cons_append] at ha ⊢; exact ⟨ha.1, ha.2.1, ih ha.2.2⟩

theorem setNext_new (new : J) (k : Bytes) (hn : NameOK k) (l : List (Bytes × J)) (hl : WFFields l) (hf : fieldOf k l = none)
    (f : Nat) (rest : Bytes) (hfu : (enc (.obj l)).length + 1 ≤ f) :
    setNext (enc new) f (enc (.obj l) ++ rest) k false = .ok (enc (.obj (l ++ [(k, new)])), rest, [], false) := by
  obtain ⟨f, rfl⟩ : ∃ n, f = n + 1 := ⟨f - 1, by omega⟩
  have := setLoop_copy (enc new) k [] false l hl (.inr (fieldOf_none hf)) f rest (by simp [enc] at hfu; omega)
  have e : enc (.obj l) ++ rest = tOBJ :: (encFields l ++ tOBJ_END :: rest) := by simp [enc]
  rw [e]
  simp [setNext, updateRead_last k hn, readObj, bind, Except.bind, this, enc, encFields_append, encFields]

/-- **C68** set(): a field that exists at the path, or a new field of the document itself, gets the value; everything else
is unchanged. -/
theorem C68_set_partial (v new : J) (ks : List Bytes) (hv : WF v) (hn : ∀ k ∈ ks, NameOK k) (hne : ks ≠ [])
    (hc : (∃ w, atPath v ks = some w) ∨ (ks.length = 1 ∧ ∃ l, v = .obj l)) :
    ∃ v', setAt new v ks = some v' ∧ updateSet (enc v) (pathText ks) (enc new) = .ok (enc v') := by
  by_cases hw : ∃ w, atPath v ks = some w
  · obtain ⟨w, hw⟩ := hw
    obtain ⟨v', h1, h2⟩ := setNext_found new ks hn v w hv hne hw
    refine ⟨v', h1, ?_⟩
    have := h2 ((enc v).length + 1) [] (by omega)
    simp only [List.append_nil] at this
    simp [updateSet, this, bind, Except.bind]
  · obtain ⟨h1, l, rfl⟩ := hc.resolve_left hw
    obtain ⟨k, rfl⟩ : ∃ k, ks = [k] := by
      match ks, h1 with
      | [k], _ => exact ⟨k, rfl⟩
    have hf : fieldOf k l = none := by
      cases h : fieldOf k l with
      | none => rfl
      | some u => exact absurd ⟨u, by simp [atPath, h]⟩ hw
    refine ⟨.obj (l ++ [(k, new)]), by simp [setAt, hf], ?_⟩
    have := setNext_new new k (hn k (by simp)) l (by simpa only [WF] using hv) hf ((enc (.obj l)).length + 1) [] (by omega)
    simp only [List.append_nil] at this
    simp [updateSet, pathText, this, bind, Except.bind]

theorem setNext_err (new : J) : ∀ (ks : List Bytes), (∀ k ∈ ks, NameOK k) → ∀ (v : J), WF v → ks ≠ [] → setAt new v ks = none →
    ∀ (f : Nat) (rest : Bytes), (enc v).length + 1 ≤ f →
      setNext (enc new) f (enc v ++ rest) (pathText ks) false = .error .err := by
  have notObj : ∀ (v : J), (∀ l, v ≠ .obj l) → ∀ rest, readObj (enc v ++ rest) = .error .err := by
    intro v h rest
    have : ∃ t r, enc v = t :: r ∧ t ≠ 78 := by
      cases v with
      | null => exact ⟨0, [], rfl, by decide⟩
      | bool b => cases b <;> exact ⟨_, [], rfl, by decide⟩
      | int i => obtain ⟨t, r, e, h1⟩ := writeInteger_head i; exact ⟨t, r, by rw [enc, e], by omega⟩
      | real i => obtain ⟨t, r, e, h1⟩ := writeReal_head i; exact ⟨t, r, by rw [enc, e], by omega⟩
      | str i => obtain ⟨t, r, e, h1⟩ := writeRaw_head i; exact ⟨t, r, by rw [enc, e], by omega⟩
      | arr l => exact ⟨80, _, by rw [enc], by decide⟩
      | obj l => exact absurd rfl (h l)
    obtain ⟨t, r, e, ht⟩ := this
    simp [e, readObj, ht]
  have loopErr : ∀ (key path : Bytes), path ≠ [] → ∀ (v : J) (l : List (Bytes × J)), WFFields l → fieldOf key l = some v →
      ∀ (f : Nat) (rest : Bytes), (encFields l).length + 1 ≤ f →
      (∀ f rest, (enc v).length + 1 ≤ f → setNext (enc new) f (enc v ++ rest) path false = .error .err) →
      setLoop (enc new) f key (encFields l ++ tOBJ_END :: rest) path false = .error .err := by
    intro key path hp v l
    induction l with
    | nil => intro _ h; simp [fieldOf] at h
    | cons p l ih =>
      obtain ⟨k, w⟩ := p
      intro hw h f rest hf hrec
      obtain ⟨f, rfl⟩ : ∃ n, f = n + 1 := ⟨f - 1, by omega⟩
      simp only [WFFields] at hw
      have l1 := writeRaw_length_pos k
      have e : encFields ((k, w) :: l) ++ tOBJ_END :: rest = writeRaw k ++ (enc w ++ (encFields l ++ tOBJ_END :: rest)) := by
        simp [encFields]
      have hf' : (encFields l).length + 1 ≤ f := by simp [encFields] at hf; omega
      rw [e]
      by_cases hk : k = key
      · subst hk
        simp only [fieldOf, if_true, Option.some.injEq] at h
        subst h
        have hr := hrec f (encFields l ++ tOBJ_END :: rest) (by simp [encFields] at hf; omega)
        simp only [setLoop, readObjEnd_raw, readRaw_write k hw.1.2, bind, Except.bind, hr, and_self, if_true, ne_eq, hp,
          not_false_eq_true]
      · simp only [fieldOf, hk, if_false] at h
        have ih := ih hw.2.2 h f rest hf' hrec
        have hk' : ¬ key = k := fun hh => hk hh.symm
        have hne : ¬ (false = false ∧ key = k) := fun hh => hk' hh.2
        simp [setLoop, readObjEnd_raw, readRaw_write k hw.1.2, bind, Except.bind, hk', skip_enc w hw.2.1, ih]
  intro ks
  induction ks with
  | nil => intro _ _ _ h; exact absurd rfl h
  | cons k ks ih =>
    intro hn v hv _ hs f rest hfu
    obtain ⟨f, rfl⟩ : ∃ n, f = n + 1 := ⟨f - 1, by omega⟩
    have hread : ∃ path, updateRead (pathText (k :: ks)) = .ok (k, path) := by
      cases ks with
      | nil => exact ⟨[], updateRead_last k (hn k (by simp))⟩
      | cons k' ks => exact ⟨_, updateRead_more k k' ks (hn k (by simp))⟩
    by_cases hobj : ∃ l, v = .obj l
    · obtain ⟨l, rfl⟩ := hobj
      simp only [WF] at hv
      cases ks with
      | nil =>
        simp only [setAt] at hs
        split at hs <;> simp at hs
      | cons k' ks =>
        have hp : pathText (k' :: ks) ≠ [] := pathText_ne (hn k' (by simp))
        have e : enc (.obj l) ++ rest = tOBJ :: (encFields l ++ tOBJ_END :: rest) := by simp [enc]
        have hfl : (encFields l).length + 1 ≤ f := by simp [enc] at hfu; omega
        rw [e]
        cases hf : fieldOf k l with
        | none =>
          have := setLoop_copy (enc new) k (pathText (k' :: ks)) false l hv (.inr (fieldOf_none hf)) f rest hfl
          simp [setNext, updateRead_more k k' ks (hn k (by simp)), readObj, bind, Except.bind, this, hp]
        | some u =>
          have hs' : setAt new u (k' :: ks) = none := by
            simp only [setAt, hf] at hs
            simpa using hs
          have := loopErr k _ hp u l hv hf f rest hfl
            (ih (fun k hk => hn k (by simp [hk])) u (fieldOf_wf k l hv u hf) (by simp) hs')
          simp [setNext, updateRead_more k k' ks (hn k (by simp)), readObj, bind, Except.bind, this]
    · have hno : ∀ l, v ≠ .obj l := fun l h => hobj ⟨l, h⟩
      obtain ⟨path, hr⟩ := hread
      simp [setNext, hr, notObj v hno rest, bind, Except.bind]

/-- **C68** set() fails if an object on the way does not exist -/
theorem C68_set_error (v new : J) (ks : List Bytes) (hv : WF v) (hn : ∀ k ∈ ks, NameOK k) (hne : ks ≠ [])
    (hs : setAt new v ks = none) : updateSet (enc v) (pathText ks) (enc new) = .error .err := by
  have := setNext_err new ks hn v hv hne hs ((enc v).length + 1) [] (by omega)
  simp only [List.append_nil] at this
  simp [updateSet, this, bind, Except.bind]

theorem fieldOf_replace (k k' : Bytes) (new : J) : ∀ (l : List (Bytes × J)),
    fieldOf k' (replaceField k new l) = if k' = k then (fieldOf k l).map fun _ => new else fieldOf k' l
  | [] => by simp [replaceField, fieldOf]
  | (a, v) :: l => by
    have ih := fieldOf_replace k k' new l
    by_cases h1 : a = k
    · subst h1
      by_cases h2 : k' = a
      · subst h2; simp [replaceField, fieldOf]
      · have : ¬ a = k' := fun h => h2 h.symm
        simp [replaceField, fieldOf, this, h2]
    · by_cases h2 : a = k'
      · subst h2; simp [replaceField, fieldOf, h1]
      · simp only [replaceField, h1, if_false, fieldOf, h2]
        rw [ih]

theorem fieldOf_append (k k' : Bytes) (new : J) : ∀ (l : List (Bytes × J)), fieldOf k l = none →
    fieldOf k' (l ++ [(k, new)]) = if k' = k then some new else fieldOf k' l
  | [], _ => by by_cases h : k = k' <;> simp [fieldOf, h, eq_comm]
  | (a, v) :: l, h => by
    simp only [fieldOf] at h
    split at h
    · simp at h
    · rename_i hne
      have ih := fieldOf_append k k' new l h
      by_cases h2 : a = k'
      · subst h2; simp [fieldOf, hne]
      · simp only [List.cons_append, fieldOf, h2, if_false, ih]

/-- **C68** what set() means: the path then has the new value, and every path that branches off elsewhere its old one -/
theorem C68_set_get (new : J) : ∀ (ks : List Bytes) (v v' : J), setAt new v ks = some v' →
    atPath v' ks = some new ∧ ∀ ks', ¬ ks <+: ks' → ¬ ks' <+: ks → atPath v' ks' = atPath v ks'
  | [], v, v', h => by cases v <;> simp [setAt] at h
  | [k], v, v', h => by
    cases v with
    | obj l =>
      have key : ∃ l', v' = .obj l' ∧ ∀ k', fieldOf k' l' = if k' = k then some new else fieldOf k' l := by
        cases hf : fieldOf k l with
        | some u =>
          simp only [setAt, hf, Option.some.injEq] at h
          refine ⟨_, h.symm, fun k' => ?_⟩
          rw [fieldOf_replace, hf]; rfl
        | none =>
          simp only [setAt, hf, Option.some.injEq] at h
          exact ⟨_, h.symm, fun k' => fieldOf_append k k' new l hf⟩
      obtain ⟨l', rfl, hl⟩ := key
      refine ⟨by simp [atPath, hl], ?_⟩
      intro ks' h1 h2
      cases ks' with
      | nil => simp at h2
      | cons k' ks' =>
        have : k' ≠ k := by rintro rfl; exact h1 (by simp)
        simp [atPath, hl, this]
    | _ => simp [setAt] at h
  | k :: k2 :: ks, v, v', h => by
    cases v with
    | obj l =>
      simp only [setAt] at h
      cases hf : fieldOf k l with
      | none => simp [hf] at h
      | some u =>
        simp only [hf, Option.map_eq_some_iff] at h
        obtain ⟨u', hu, rfl⟩ := h
        obtain ⟨g1, g2⟩ := C68_set_get new (k2 :: ks) u u' hu
        refine ⟨by simp [atPath, fieldOf_replace, hf, g1], ?_⟩
        intro ks' h1 h2
        cases ks' with
        | nil => simp at h2
        | cons k' ks' =>
          by_cases hk : k' = k
          · subst hk
            have := g2 ks' (fun h => h1 (by simpa using h)) (fun h => h2 (by simpa using h))
            simp [atPath, fieldOf_replace, hf, this]
          · simp [atPath, fieldOf_replace, hk]
    | _ => simp [setAt] at h

/-- `set({"a": {}}, 'a.b', 1)` -/
def dupDoc : J := .obj [([97], .obj [])]

/-- **C68 fails** for a new field of a nested object: update_set_next does not set `found` when it appends, and every
enclosing object gets a second field: `{"a": {"b": 1}, "a": 1}`. -/
theorem C68_set_nested_false :
    setAt (.int 1) dupDoc [[97], [98]] = some (.obj [([97], .obj [([98], .int 1)])]) ∧
    updateSet (enc dupDoc) (pathText [[97], [98]]) (enc (.int 1)) =
      .ok (enc (.obj [([97], .obj [([98], .int 1)]), ([97], .int 1)])) := by
  constructor
  · rfl
  · decide +kernel

/-! ## unset -/

mutual
/-- no object has two fields of the same name -/
def UniqueKeys : J → Prop
  | .obj l => (l.map (·.1)).Nodup ∧ UniqueFields l
  | _ => True
def UniqueFields : List (Bytes × J) → Prop
  | [] => True
  | (_, v) :: l => UniqueKeys v ∧ UniqueFields l
end

theorem fieldOf_unique (name : Bytes) : ∀ (l : List (Bytes × J)), UniqueFields l → ∀ v, fieldOf name l = some v → UniqueKeys v
  | (k, w) :: l, h, v, hv => by
    simp only [UniqueFields] at h
    simp only [fieldOf] at hv
    split at hv
    · cases hv; exact h.1
    · exact fieldOf_unique name l h.2 v hv

theorem unsetLoop_copy (key path : Bytes) : ∀ (l : List (Bytes × J)), WFFields l →
    (∀ p ∈ l, p.1 ≠ key) → ∀ (f : Nat) (rest : Bytes), (encFields l).length + 1 ≤ f →
    unsetLoop f key (encFields l ++ tOBJ_END :: rest) path = .ok (encFields l, rest, path)
  | [], _, _, f, rest, hf => by
    obtain ⟨f, rfl⟩ : ∃ n, f = n + 1 := ⟨f - 1, by omega⟩
    simp [unsetLoop, encFields, readObjEnd, bind, Except.bind]
  | (k, v) :: l, hw, hk, f, rest, hf => by
    obtain ⟨f, rfl⟩ : ∃ n, f = n + 1 := ⟨f - 1, by omega⟩
    simp only [WFFields] at hw
    have l1 := writeRaw_length_pos k
    have ih := unsetLoop_copy key path l hw.2.2 (fun p hp => hk p (by simp [hp])) f rest (by simp [encFields] at hf; omega)
    have e : encFields ((k, v) :: l) ++ tOBJ_END :: rest = writeRaw k ++ (enc v ++ (encFields l ++ tOBJ_END :: rest)) := by
      simp [encFields]
    rw [e]
    have hne : ¬ key = k := fun h => hk (k, v) (by simp) h.symm
    simp only [unsetLoop, readObjEnd_raw, readRaw_write k hw.1.2, bind, Except.bind, if_neg hne, skip_enc v hw.2.1, ih, take_head]
    simp [encFields]

theorem unsetLoop_last (key : Bytes) : ∀ (l : List (Bytes × J)), WFFields l →
    ∀ (f : Nat) (rest : Bytes), (encFields l).length + 1 ≤ f →
    unsetLoop f key (encFields l ++ tOBJ_END :: rest) [] = .ok (encFields (l.filter fun p => decide (p.1 ≠ key)), rest, [])
  | [], _, f, rest, hf => by
    obtain ⟨f, rfl⟩ : ∃ n, f = n + 1 := ⟨f - 1, by omega⟩
    simp [unsetLoop, encFields, readObjEnd, bind, Except.bind]
  | (k, v) :: l, hw, f, rest, hf => by
    obtain ⟨f, rfl⟩ : ∃ n, f = n + 1 := ⟨f - 1, by omega⟩
    simp only [WFFields] at hw
    have l1 := writeRaw_length_pos k
    have ih := unsetLoop_last key l hw.2.2 f rest (by simp [encFields] at hf; omega)
    have e : encFields ((k, v) :: l) ++ tOBJ_END :: rest = writeRaw k ++ (enc v ++ (encFields l ++ tOBJ_END :: rest)) := by
      simp [encFields]
    rw [e]
    by_cases hk : key = k
    · subst hk
      simp only [unsetLoop, readObjEnd_raw, readRaw_write key hw.1.2, bind, Except.bind, skip_enc v hw.2.1]
      simp only [if_true, ne_eq, not_true_eq_false, if_false]
      rw [ih]
      simp
    · have hk' : ¬ k = key := fun h => hk h.symm
      simp only [unsetLoop, readObjEnd_raw, readRaw_write k hw.1.2, bind, Except.bind, if_neg hk, skip_enc v hw.2.1, ih, take_head]
      simp [encFields, hk']

theorem unsetLoop_nested (key path : Bytes) (hp : path ≠ []) (v v' : J) (path' : Bytes) : ∀ (l : List (Bytes × J)), WFFields l →
    (l.map (·.1)).Nodup → fieldOf key l = some v →
    ∀ (f : Nat) (rest : Bytes), (encFields l).length + 1 ≤ f →
    (∀ f rest, (enc v).length + 1 ≤ f → unsetNext f (enc v ++ rest) path = .ok (enc v', rest, path')) →
    unsetLoop f key (encFields l ++ tOBJ_END :: rest) path = .ok (encFields (replaceField key v' l), rest, path')
  | [], _, _, h, _, _, _, _ => by simp [fieldOf] at h
  | (k, w) :: l, hw, hu, h, f, rest, hf, hrec => by
    obtain ⟨f, rfl⟩ : ∃ n, f = n + 1 := ⟨f - 1, by omega⟩
    simp only [WFFields] at hw
    simp only [List.map_cons, List.nodup_cons] at hu
    have l1 := writeRaw_length_pos k
    have e : encFields ((k, w) :: l) ++ tOBJ_END :: rest = writeRaw k ++ (enc w ++ (encFields l ++ tOBJ_END :: rest)) := by
      simp [encFields]
    have hf' : (encFields l).length + 1 ≤ f := by simp [encFields] at hf; omega
    rw [e]
    by_cases hk : k = key
    · subst hk
      simp only [fieldOf, if_true, Option.some.injEq] at h
      subst h
      have ih := unsetLoop_copy k path' l hw.2.2 (fun p hp e => hu.1 (e ▸ List.mem_map_of_mem (f := (·.1)) hp)) f rest hf'
      have hr := hrec f (encFields l ++ tOBJ_END :: rest) (by simp [encFields] at hf; omega)
      simp only [unsetLoop, readObjEnd_raw, readRaw_write k hw.1.2, bind, Except.bind, hr, ih, if_true, ne_eq, hp,
        not_false_eq_true]
      simp [replaceField, encFields]
    · simp only [fieldOf, hk, if_false] at h
      have ih := unsetLoop_nested key path hp v v' path' l hw.2.2 hu.2 h f rest hf' hrec
      have hk' : ¬ key = k := fun hh => hk hh.symm
      simp only [unsetLoop, readObjEnd_raw, readRaw_write k hw.1.2, bind, Except.bind, if_neg hk', skip_enc w hw.2.1, ih, take_head]
      simp [replaceField, hk, encFields]

theorem unsetNext_ok : ∀ (ks : List Bytes), (∀ k ∈ ks, NameOK k) → ∀ (v v' : J), WF v → UniqueKeys v → ks ≠ [] →
    unsetAt v ks = some v' → ∃ path', ∀ (f : Nat) (rest : Bytes), (enc v).length + 1 ≤ f →
      unsetNext f (enc v ++ rest) (pathText ks) = .ok (enc v', rest, path')
  | [], _, _, _, _, _, h, _ => absurd rfl h
  | [k], hn, v, v', hv, _, _, h => by
    cases v with
    | obj l =>
      simp only [unsetAt, Option.some.injEq] at h
      subst h
      refine ⟨[], fun f rest hfu => ?_⟩
      obtain ⟨f, rfl⟩ : ∃ n, f = n + 1 := ⟨f - 1, by omega⟩
      simp only [WF] at hv
      have := unsetLoop_last k l hv f rest (by simp [enc] at hfu; omega)
      have e : enc (.obj l) ++ rest = tOBJ :: (encFields l ++ tOBJ_END :: rest) := by simp [enc]
      rw [e]
      simp only [unsetNext, pathText, updateRead_last k (hn k (by simp)), readObj, bind, Except.bind, if_true, this, enc]
    | _ => simp [unsetAt] at h
  | k :: k2 :: ks, hn, v, v', hv, hu, _, h => by
    cases v with
    | obj l =>
      simp only [WF] at hv
      simp only [UniqueKeys] at hu
      simp only [unsetAt] at h
      have e : ∀ rest, enc (.obj l) ++ rest = tOBJ :: (encFields l ++ tOBJ_END :: rest) := by simp [enc]
      have hp : pathText (k2 :: ks) ≠ [] := pathText_ne (hn k2 (by simp))
      cases hf : fieldOf k l with
      | none =>
        simp only [hf, Option.some.injEq] at h
        subst h
        refine ⟨pathText (k2 :: ks), fun f rest hfu => ?_⟩
        obtain ⟨f, rfl⟩ : ∃ n, f = n + 1 := ⟨f - 1, by omega⟩
        have := unsetLoop_copy k (pathText (k2 :: ks)) l hv (fieldOf_none hf) f rest (by simp [enc] at hfu; omega)
        rw [e]
        simp only [unsetNext, updateRead_more k k2 ks (hn k (by simp)), readObj, bind, Except.bind, if_true, this, enc]
      | some u =>
        simp only [hf, Option.map_eq_some_iff] at h
        obtain ⟨u', hu', rfl⟩ := h
        obtain ⟨path', hrec⟩ := unsetNext_ok (k2 :: ks) (fun k hk => hn k (by simp [hk])) u u' (fieldOf_wf k l hv u hf)
          (fieldOf_unique k l hu.2 u hf) (by simp) hu'
        refine ⟨path', fun f rest hfu => ?_⟩
        obtain ⟨f, rfl⟩ : ∃ n, f = n + 1 := ⟨f - 1, by omega⟩
        have := unsetLoop_nested k _ hp u u' path' l hv hu.1 hf f rest (by simp [enc] at hfu; omega) hrec
        rw [e]
        simp only [unsetNext, updateRead_more k k2 ks (hn k (by simp)), readObj, bind, Except.bind, if_true, this, enc]
    | _ => simp [unsetAt] at h

/-- **C68** unset() removes the field at the path and nothing else; the document has no object with two fields of the same
name -/
theorem C68_unset (v v' : J) (ks : List Bytes) (hv : WF v) (hu : UniqueKeys v) (hn : ∀ k ∈ ks, NameOK k) (hne : ks ≠ [])
    (h : unsetAt v ks = some v') : updateUnset (enc v) (pathText ks) = .ok (enc v') := by
  obtain ⟨path', h'⟩ := unsetNext_ok ks hn v v' hv hu hne h
  have := h' ((enc v).length + 1) [] (by omega)
  simp only [List.append_nil] at this
  simp [updateUnset, this, bind, Except.bind]

theorem fieldOf_filter (k k' : Bytes) : ∀ (l : List (Bytes × J)),
    fieldOf k' (l.filter fun p => decide (p.1 ≠ k)) = if k' = k then none else fieldOf k' l
  | [] => by simp [fieldOf]
  | (a, v) :: l => by
    have ih := fieldOf_filter k k' l
    by_cases h1 : a = k
    · subst h1
      rw [List.filter_cons_of_neg (by simp), ih]
      by_cases h2 : k' = a
      · simp [h2]
      · have : ¬ a = k' := fun h => h2 h.symm
        simp [fieldOf, h2, this]
    · rw [List.filter_cons_of_pos (by simpa using h1)]
      by_cases h2 : a = k'
      · subst h2; simp [fieldOf, h1]
      · simp only [fieldOf, h2, if_false, ih]

/-- **C68** what unset() means: nothing is left at the path, and every path that branches off elsewhere has its old value -/
theorem C68_unset_get : ∀ (ks : List Bytes) (v v' : J), unsetAt v ks = some v' →
    atPath v' ks = none ∧ ∀ ks', ¬ ks <+: ks' → ¬ ks' <+: ks → atPath v' ks' = atPath v ks'
  | [], v, v', h => by cases v <;> simp [unsetAt] at h
  | [k], v, v', h => by
    cases v with
    | obj l =>
      simp only [unsetAt, Option.some.injEq] at h
      subst h
      refine ⟨by simp only [atPath, fieldOf_filter, if_true], ?_⟩
      intro ks' h1 h2
      cases ks' with
      | nil => simp at h2
      | cons k' ks' =>
        have : k' ≠ k := by rintro rfl; exact h1 (by simp)
        simp only [atPath, fieldOf_filter, if_neg this]
    | _ => simp [unsetAt] at h
  | k :: k2 :: ks, v, v', h => by
    cases v with
    | obj l =>
      simp only [unsetAt] at h
      cases hf : fieldOf k l with
      | none =>
        simp only [hf, Option.some.injEq] at h
        subst h
        exact ⟨by simp [atPath, hf], fun _ _ _ => rfl⟩
      | some u =>
        simp only [hf, Option.map_eq_some_iff] at h
        obtain ⟨u', hu, rfl⟩ := h
        obtain ⟨g1, g2⟩ := C68_unset_get (k2 :: ks) u u' hu
        refine ⟨by simp [atPath, fieldOf_replace, hf, g1], ?_⟩
        intro ks' h1 h2
        cases ks' with
        | nil => simp at h2
        | cons k' ks' =>
          by_cases hk : k' = k
          · subst hk
            have := g2 ks' (fun h => h1 (by simpa using h)) (fun h => h2 (by simpa using h))
            simp [atPath, fieldOf_replace, hf, this]
          · simp [atPath, fieldOf_replace, hk]
    | _ => simp [unsetAt] at h

/-- the hypotheses hold for a document with nested objects -/
example : ∃ v', unsetAt sample2 [[97], [98]] = some v' ∧ updateUnset (enc sample2) (pathText [[97], [98]]) = .ok (enc v') ∧
    ∃ v'', setAt (.str [120]) sample2 [[97], [98]] = some v'' ∧
      updateSet (enc sample2) (pathText [[97], [98]]) (enc (.str [120])) = .ok (enc v'') := by
  have hw : WF sample2 := by simp [sample2, WF, WFFields, WFList, IsBytes]
  have hu : UniqueKeys sample2 := by simp [sample2, UniqueKeys, UniqueFields]
  have hn : ∀ k ∈ [[97], [98]], NameOK k := by
    intro k hk
    simp only [List.mem_cons, List.not_mem_nil, or_false] at hk
    rcases hk with rfl | rfl <;> simp [NameOK, isSpace]
  obtain ⟨v'', h1, h2⟩ := C68_set_partial sample2 (.str [120]) [[97], [98]] hw hn (by simp)
    (.inl ⟨.int 22, by simp [sample2, atPath, fieldOf]⟩)
  have h3 : unsetAt sample2 [[97], [98]] = some (.obj [([97], .obj [([99], .arr [.int 1])]), ([100], .null)]) := by
    simp [sample2, unsetAt, fieldOf, replaceField]
  exact ⟨_, h3, C68_unset sample2 _ _ hw hu hn (by simp) h3, v'', h1, h2⟩

/-! ## Arrays -/

theorem flatten_enc (vs : List J) : (vs.map enc).flatten = encList vs := by
  induction vs with
  | nil => rfl
  | cons v vs ih => simp [encList, ih]

theorem encList_append (a b : List J) : encList (a ++ b) = encList a ++ encList b := by
  induction a with
  | nil => rfl
  | cons v a ih => simp [encList, ih]

/-- **C69** append() and push() -/
theorem C69_append (l vs : List J) : arrayAppend (enc (.arr l)) (vs.map enc) = enc (.arr (l ++ vs)) := by
  have : (enc (.arr l)).take ((enc (.arr l)).length - 1) = tARRAY :: encList l := by
    have e : enc (.arr l) = (tARRAY :: encList l) ++ [tARRAY_END] := by simp [enc]
    rw [e]
    have : ((tARRAY :: encList l) ++ [tARRAY_END]).length - 1 = (tARRAY :: encList l).length := by simp
    rw [this, List.take_left']; rfl
  rw [arrayAppend, this, flatten_enc]
  simp [enc, encList_append]

theorem C69_push (l vs : List J) : arrayPush (enc (.arr l)) (vs.map enc) = enc (.arr (vs ++ l)) := by
  simp [arrayPush, flatten_enc, enc, encList_append]

/-- **C69** pop() removes the first element, pop_back() the last one -/
theorem C69_pop (l : List J) (h : WFList l) : arrayPop (enc (.arr l)) = .ok (enc (.arr l.tail)) := by
  cases l with
  | nil => simp [arrayPop, enc, encList, readArray, peek, bind, Except.bind]
  | cons v l =>
    simp only [WFList] at h
    obtain ⟨t, r, e, h1, h2⟩ := enc_head v
    have hs := skip_enc v h.1 (encList l ++ [tARRAY_END])
    have hp : peek (enc v ++ (encList l ++ [tARRAY_END])) = .ok t := by rw [e]; rfl
    have e2 : enc (.arr (v :: l)) = tARRAY :: (enc v ++ (encList l ++ [tARRAY_END])) := by simp [enc, encList]
    rw [e2]
    simp only [arrayPop, readArray, if_true, bind, Except.bind, hp, h2, if_false, hs]
    simp [enc]

theorem arrayLastLoop_end : ∀ (l : List J) (v : J), WFList l → WF v → ∀ (f : Nat) (rest : Bytes), (encList l).length + 1 ≤ f →
    arrayLastLoop f (encList l ++ (enc v ++ tARRAY_END :: rest)) = .ok (some (enc v ++ tARRAY_END :: rest))
  | [], v, _, hv, f, rest, hf => by
    obtain ⟨f, rfl⟩ : ∃ n, f = n + 1 := ⟨f - 1, by omega⟩
    simp [encList, arrayLastLoop, readArrayEnd_enc, skip_enc v hv, bind, Except.bind, peek]
  | w :: l, v, hl, hv, f, rest, hf => by
    obtain ⟨f, rfl⟩ : ∃ n, f = n + 1 := ⟨f - 1, by omega⟩
    simp only [WFList] at hl
    have l1 := enc_length_pos w
    have ih := arrayLastLoop_end l v hl.2 hv f rest (by simp [encList] at hf; omega)
    have hp : ∃ t, peek (encList l ++ (enc v ++ tARRAY_END :: rest)) = .ok t ∧ t ≠ 81 := by
      cases l with
      | nil => obtain ⟨t, r, e, h1, h2⟩ := enc_head v; exact ⟨t, by simp [encList, e, peek], h2⟩
      | cons x l => obtain ⟨t, r, e, h1, h2⟩ := enc_head x; exact ⟨t, by simp [encList, e, peek], h2⟩
    obtain ⟨t, hp, ht⟩ := hp
    have e : encList (w :: l) ++ (enc v ++ tARRAY_END :: rest) = enc w ++ (encList l ++ (enc v ++ tARRAY_END :: rest)) := by
      simp [encList]
    rw [e]
    simp only [arrayLastLoop, readArrayEnd_enc, skip_enc w hl.1, bind, Except.bind, hp, ht, if_false, ih]

theorem C69_pop_back (l : List J) (h : WFList l) : arrayPopBack (enc (.arr l)) = .ok (enc (.arr l.dropLast)) := by
  rcases List.eq_nil_or_concat l with rfl | ⟨l, v, rfl⟩
  · simp [arrayPopBack, arrayLast, arrayLastLoop, enc, encList, readArray, peek, readArrayEnd, bind, Except.bind]
  · have hw : WFList l ∧ WF v := by
      induction l with
      | nil => simpa [WFList] using h
      | cons x l ih => simp only [List.concat_eq_append, List.cons_append, WFList] at h ih ⊢; exact ⟨⟨h.1, (ih h.2).1⟩, (ih h.2).2⟩
    have e : enc (.arr (l.concat v)) = tARRAY :: (encList l ++ (enc v ++ [tARRAY_END])) := by
      simp [enc, encList_append, encList]
    have hlast : arrayLast (enc (.arr (l.concat v))) = .ok (some (enc v ++ [tARRAY_END])) := by
      have := arrayLastLoop_end l v hw.1 hw.2 (enc (.arr (l.concat v))).length [] (by rw [e]; simp)
      rw [e] at this ⊢
      simpa [arrayLast, peek, readArray, bind, Except.bind] using this
    have ht : (enc (.arr (l.concat v))).take ((enc (.arr (l.concat v))).length - (enc v ++ [tARRAY_END]).length) = tARRAY :: encList l := by
      have e' : enc (.arr (l.concat v)) = (tARRAY :: encList l) ++ (enc v ++ [tARRAY_END]) := by rw [e]; simp
      rw [e', take_head]
    simp only [arrayPopBack, hlast, bind, Except.bind, ht]
    simp [enc]

theorem putLoop_enc (idx : Int) (new : J) : ∀ (l : List J), WFList l → ∀ (f : Nat) (i : Int) (rest : Bytes), (encList l).length + 1 ≤ f →
    putLoop idx (enc new) f i (encList l ++ tARRAY_END :: rest) =
      .ok (encList (if i ≤ idx then l.set (idx - i).toNat new else l), i + l.length)
  | [], _, f, i, rest, hf => by
    obtain ⟨f, rfl⟩ : ∃ n, f = n + 1 := ⟨f - 1, by omega⟩
    simp [putLoop, encList, readArrayEnd, bind, Except.bind]
  | v :: l, hl, f, i, rest, hf => by
    obtain ⟨f, rfl⟩ : ∃ n, f = n + 1 := ⟨f - 1, by omega⟩
    simp only [WFList] at hl
    have l1 := enc_length_pos v
    have ih := putLoop_enc idx new l hl.2 f (i + 1) rest (by simp [encList] at hf; omega)
    have e : encList (v :: l) ++ tARRAY_END :: rest = enc v ++ (encList l ++ tARRAY_END :: rest) := by simp [encList]
    rw [e]
    simp only [putLoop, readArrayEnd_enc, skip_enc v hl.1, bind, Except.bind, ih, take_head]
    congr 1
    rw [Prod.mk.injEq]
    refine ⟨?_, by simp; omega⟩
    rcases Int.lt_trichotomy i idx with h | h | h
    · rw [if_neg (by omega), if_pos (by omega), if_pos (by omega)]
      have : (idx - i).toNat = (idx - (i + 1)).toNat + 1 := by omega
      rw [this]; simp [encList]
    · subst h
      rw [if_pos rfl, if_neg (by omega), if_pos (by omega)]
      simp [encList]
    · rw [if_neg (by omega), if_neg (by omega), if_neg (by omega)]
      simp [encList]

/-- **C69** put() replaces the element with the index; an index outside of the array is an error (indexes that fit 32 bits) -/
theorem C69_put_partial (l : List J) (new : J) (i : Int) (h : WFList l) (h1 : -(2 ^ 31) ≤ i) (h2 : i < 2 ^ 31) :
    arrayPut (enc (.arr l)) i (enc new) = if 0 ≤ i ∧ i < l.length then .ok (enc (.arr (l.set i.toNat new))) else .error .err := by
  have hi : toInt32 i = i := by unfold toInt32 toSigned toUnsigned; split <;> omega
  have e : enc (.arr l) = tARRAY :: (encList l ++ tARRAY_END :: []) := by simp [enc]
  have hp := putLoop_enc i new l h (enc (.arr l)).length 0 [] (by rw [e]; simp)
  rw [e] at hp ⊢
  simp only [arrayPut, readArray, if_true, bind, Except.bind, hi, hp]
  by_cases hc : 0 ≤ i ∧ i < l.length
  · rw [if_neg (by omega), if_pos hc, if_pos hc.1]
    simp [enc]
  · rw [if_pos (by omega), if_neg hc]

theorem removeLoop_enc (idx : Int) : ∀ (l : List J), WFList l → ∀ (f : Nat) (i : Int) (rest : Bytes), (encList l).length + 1 ≤ f →
    removeLoop idx f i (encList l ++ tARRAY_END :: rest) =
      .ok (encList (if i ≤ idx then l.eraseIdx (idx - i).toNat else l), i + l.length)
  | [], _, f, i, rest, hf => by
    obtain ⟨f, rfl⟩ : ∃ n, f = n + 1 := ⟨f - 1, by omega⟩
    simp [removeLoop, encList, readArrayEnd, bind, Except.bind]
  | v :: l, hl, f, i, rest, hf => by
    obtain ⟨f, rfl⟩ : ∃ n, f = n + 1 := ⟨f - 1, by omega⟩
    simp only [WFList] at hl
    have l1 := enc_length_pos v
    have ih := removeLoop_enc idx l hl.2 f (i + 1) rest (by simp [encList] at hf; omega)
    have e : encList (v :: l) ++ tARRAY_END :: rest = enc v ++ (encList l ++ tARRAY_END :: rest) := by simp [encList]
    rw [e]
    simp only [removeLoop, readArrayEnd_enc, skip_enc v hl.1, bind, Except.bind, ih, take_head]
    congr 1
    rw [Prod.mk.injEq]
    refine ⟨?_, by simp; omega⟩
    rcases Int.lt_trichotomy i idx with h | h | h
    · rw [if_pos (by omega), if_pos (by omega), if_pos (by omega)]
      have : (idx - i).toNat = (idx - (i + 1)).toNat + 1 := by omega
      rw [this]; simp [encList]
    · subst h
      rw [if_neg (by simp), if_neg (by omega), if_pos (by omega)]
      simp [encList]
    · rw [if_pos (by omega), if_neg (by omega), if_neg (by omega)]
      simp [encList]

/-- **C69** remove() removes the element with the index -/
theorem C69_remove_partial (l : List J) (i : Int) (h : WFList l) (h1 : -(2 ^ 31) ≤ i) (h2 : i < 2 ^ 31) :
    arrayRemove (enc (.arr l)) i = if 0 ≤ i ∧ i < l.length then .ok (enc (.arr (l.eraseIdx i.toNat))) else .error .err := by
  have hi : toInt32 i = i := by unfold toInt32 toSigned toUnsigned; split <;> omega
  have e : enc (.arr l) = tARRAY :: (encList l ++ tARRAY_END :: []) := by simp [enc]
  have hp := removeLoop_enc i l h (enc (.arr l)).length 0 [] (by rw [e]; simp)
  rw [e] at hp ⊢
  simp only [arrayRemove, readArray, if_true, bind, Except.bind, hi, hp]
  by_cases hc : 0 ≤ i ∧ i < l.length
  · rw [if_neg (by omega), if_pos hc, if_pos hc.1]
    simp [enc]
  · rw [if_pos (by omega), if_neg hc]

/-- **C69 fails** for larger indexes: put([1], 4294967296, 2) is [2] and remove([1], 4294967296) is [], not errors -/
theorem C69_index_false : arrayPut (enc (.arr [.int 1])) (2 ^ 32) (enc (.int 2)) = .ok (enc (.arr [.int 2])) ∧
    arrayRemove (enc (.arr [.int 1])) (2 ^ 32) = .ok (enc (.arr [])) := by
  constructor <;> decide +kernel

example : WFList [.int 5, .str [97], .obj [([98], .null)]] := by simp [WFList, WF, WFFields, IsBytes]

/-- **C68** a path with an empty first name is an error, as is the empty path -/
theorem C68_empty_name (json p nv : Bytes) :
    updateSet json [] nv = .error .err ∧ updateSet json (46 :: p) nv = .error .err ∧
    updateUnset json [] = .error .err ∧ updateUnset json (46 :: p) = .error .err := by
  simp [updateSet, updateUnset, setNext, unsetNext, updateRead, readName, bind, Except.bind]

end Verif.Json
