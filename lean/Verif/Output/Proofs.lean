import Verif.Output.Spec
/-! proofs: the printed text of a value is a JSON text for it -/
set_option autoImplicit false
set_option linter.unusedSimpArgs false
set_option linter.unusedVariables false
namespace Verif.Output
open Verif Verif.Json Verif.Json.Text

theorem digitsVal_append (a b : Bytes) : digitsVal (a ++ b) = b.foldl (fun v c => v * 10 + (c - 48)) (digitsVal a) := by
  simp [digitsVal, List.foldl_append]

theorem decDigits_val (n : Nat) : digitsVal (decDigits n) = n := by
  induction n using Nat.strongRecOn with
  | ind n ih =>
    rw [decDigits]
    by_cases h : n < 10
    · simp [h, digitsVal]
    · simp only [h, dif_neg, not_false_iff]
      rw [digitsVal_append, ih (n / 10) (by omega)]
      simp; omega

theorem decDigits_digits (n : Nat) : Digits (decDigits n) := by
  induction n using Nat.strongRecOn with
  | ind n ih =>
    rw [decDigits]
    by_cases h : n < 10
    · simp [h, Digits]; omega
    · simp only [h, dif_neg, not_false_iff]
      refine ⟨by simp, ?_⟩
      intro c hc
      rcases List.mem_append.mp hc with hc | hc
      · exact (ih (n / 10) (by omega)).2 c hc
      · simp at hc; omega

theorem decDigits_nozero (n : Nat) (h : 0 < n) : (decDigits n).head? ≠ some 48 := by
  induction n using Nat.strongRecOn with
  | ind n ih =>
    rw [decDigits]
    by_cases h1 : n < 10
    · simp [h1]; omega
    · simp only [h1, dif_neg, not_false_iff]
      have := ih (n / 10) (by omega) (by omega)
      have hne := (decDigits_digits (n / 10)).1
      cases hd : decDigits (n / 10) with
      | nil => exact absurd hd hne
      | cons a t => rw [hd] at this; simpa using this

theorem decDigits_int (n : Nat) : IntPart (decDigits n) := by
  by_cases h : n = 0
  · left; subst h; rw [decDigits]; rfl
  · right; exact ⟨decDigits_digits n, decDigits_nozero n (by omega)⟩

theorem intText_is (i : Int) : IntIs i (intText i) := by
  unfold intText
  split
  · refine ⟨decDigits (-i).toNat, decDigits_int _, .inr ⟨rfl, ?_⟩⟩
    rw [decDigits_val]; omega
  · refine ⟨decDigits i.toNat, decDigits_int _, .inl ⟨rfl, ?_⟩⟩
    rw [decDigits_val]; omega

theorem escape_append (a b : Bytes) : escape (a ++ b) = escape a ++ escape b := by
  induction a with
  | nil => rfl
  | cons c t ih => simp [escape, ih]

theorem escape_plain (l : Bytes) (h : ∀ c ∈ l, 32 ≤ c ∧ c ≠ 34 ∧ c ≠ 92) : escape l = l := by
  induction l with
  | nil => rfl
  | cons c t ih =>
    have h1 := h c (by simp)
    have : escapeChar c = [c] := by
      unfold escapeChar
      simp [show c ≠ 34 by omega, show c ≠ 92 by omega, show c ≠ 8 by omega, show c ≠ 12 by omega,
        show c ≠ 10 by omega, show c ≠ 13 by omega, show c ≠ 9 by omega]
    simp [escape, this, ih (fun c hc => h c (by simp [hc]))]

theorem chr_escape {x y : Bytes} (h : Chr x y) : Chr x (escape x) := by
  cases h with
  | ascii h1 h2 h3 h4 => rw [escape_plain _ (by simp; omega)]; exact .ascii h1 h2 h3 h4
  | esc h =>
    simp only [escapes, List.mem_cons, Prod.mk.injEq, List.not_mem_nil, or_false] at h
    rcases h with ⟨rfl, rfl⟩ | ⟨rfl, rfl⟩ | ⟨rfl, rfl⟩ | ⟨rfl, rfl⟩ | ⟨rfl, rfl⟩ | ⟨rfl, rfl⟩ | ⟨rfl, rfl⟩ | ⟨rfl, rfl⟩
    case inr.inr.inl => exact .ascii (by omega) (by omega) (by omega) (by omega)
    all_goals exact .esc (by simp [escapes])
  | two h1 h2 h3 h4 => rw [escape_plain _ (by simp; omega)]; exact .two h1 h2 h3 h4
  | @three a b c h1 h2 h3 h4 h5 h6 =>
    have hb : 0x80 ≤ b := by split at h3 <;> omega
    rw [escape_plain _ (by simp; omega)]; exact .three h1 h2 h3 h4 h5 h6
  | @four a b c d h1 h2 h3 h4 h5 h6 h7 h8 =>
    have hb : 0x80 ≤ b := by split at h3 <;> omega
    rw [escape_plain _ (by simp; omega)]; exact .four h1 h2 h3 h4 h5 h6 h7 h8

theorem chrs_escape {s t : Bytes} (h : Chrs s t) : Chrs s (escape s) := by
  induction h with
  | nil => exact .nil
  | cons hx _ ih => rw [escape_append]; exact .cons (chr_escape hx) ih

theorem printable_escape {s : Bytes} (h : Printable s) : Chrs s (escape s) := chrs_escape h.choose_spec

/-- ASCII text without quote, backslash and control characters -/
def Plain (k : Bytes) : Prop := ∀ c ∈ k, 32 ≤ c ∧ c < 128 ∧ c ≠ 34 ∧ c ≠ 92

theorem Plain.chrs {k : Bytes} (h : Plain k) : Chrs k k := by
  induction k with
  | nil => exact .nil
  | cons c t ih =>
    have h1 := h c (by simp)
    exact .cons (.ascii h1.1 h1.2.1 h1.2.2.1 h1.2.2.2) (ih (fun c hc => h c (by simp [hc])))
theorem Plain.escape {k : Bytes} (h : Plain k) : escape k = k := escape_plain k (fun c hc => by have := h c hc; omega)
theorem Plain.printable {k : Bytes} (h : Plain k) : Printable k := ⟨k, h.chrs⟩

theorem ws_nil : Ws [] := by simp [Ws]
theorem ws_sp : Ws [32] := by simp [Ws]
theorem ws_append {a b : Bytes} (ha : Ws a) (hb : Ws b) : Ws (a ++ b) := by
  intro c hc; rcases List.mem_append.mp hc with h | h
  · exact ha c h
  · exact hb c h
theorem ws_indent (n : Nat) : Ws (indent n) := by
  induction n with
  | zero => exact ws_nil
  | succ n ih => intro c hc; simp [indent] at hc; rcases hc with h | h; · omega
                 exact ih c h

/-- the number texts of the C library -/
def numOf (L : Libc) (r : Nat) (t : Bytes) : Prop := t = L.fmtG r
def isNum (L : Libc) (r : Nat) : Prop := IsNumber (L.fmtG r)

/-! ## the printed text is in the grammar -/

theorem elems_ws {N : Nat → Bytes → Prop} {l : List J} {t w : Bytes} (hw : Ws w) (h : Elems N l t) : Elems N l (w ++ t) := by
  cases h with
  | @one v w1 t1 w2 h1 h2 h3 =>
    have := Elems.one (N := N) (ws_append hw h1) h2 h3
    simpa [List.append_assoc] using this
  | @more v l w1 t1 w2 u h1 h2 h3 h4 =>
    have := Elems.more (N := N) (ws_append hw h1) h2 h3 h4
    simpa [List.append_assoc] using this

theorem members_ws {N : Nat → Bytes → Prop} {l : List (Bytes × J)} {t w : Bytes} (hw : Ws w) (h : Members N l t) : Members N l (w ++ t) := by
  cases h with
  | one h1 h2 h3 h4 h5 h6 =>
    have := Members.one (N := N) (ws_append hw h1) h2 h3 h4 h5 h6
    simpa [List.append_assoc] using this
  | more h1 h2 h3 h4 h5 h6 h7 =>
    have := Members.more (N := N) (ws_append hw h1) h2 h3 h4 h5 h6 h7
    simpa [List.append_assoc] using this

mutual
theorem doc_text (L : Libc) (p : Bool) : (v : J) → Clean (isNum L) v → ∀ d, Doc (numOf L) v (textOf L p d v)
  | .null, _, d => .null
  | .bool b, _, d => by cases b; · exact .false
                        exact .true
  | .int i, _, d => .int (intText_is i)
  | .real r, h, d => by simp only [Clean] at h; exact .real rfl h
  | .str s, h, d => by simp only [Clean] at h; exact .str (printable_escape h)
  | .arr l, h, d => by
    simp only [Clean] at h
    have h1 := elems_text L p l h d
    cases l with
    | nil => exact .arr0 (w := []) ws_nil
    | cons v t => simp only [textOf]; exact .arr (h1 (by simp))
  | .obj l, h, d => by
    simp only [Clean] at h
    have hm := members_text L p l h d
    cases l with
    | nil =>
      have : textOf L p d (.obj []) = [123] ++ [] ++ [125] := by cases p <;> simp [textOf, textFields]
      rw [this]; exact .obj0 ws_nil
    | cons v t =>
      obtain ⟨h1, h2⟩ := hm (by simp)
      cases p with
      | false =>
        simp only [textOf, Bool.false_eq_true, if_false]
        exact .obj (h2 rfl)
      | true =>
        have e : textOf L true d (.obj (v :: t)) = [123] ++ ([10] ++ (textFields L true d (v :: t) ++ indent d)) ++ [125] := by
          simp [textOf]
        rw [e]
        exact .obj (members_ws (by simp [Ws]) (h1 rfl))
theorem elems_text (L : Libc) (p : Bool) : (l : List J) → CleanList (isNum L) l → ∀ d, l ≠ [] →
    Elems (numOf L) l (textList L p d l)
  | [], _, _, h => absurd rfl h
  | v :: l, h, d, _ => by
    simp only [CleanList] at h
    have hv := doc_text L p v h.1 d
    have hl := elems_text L p l h.2 d
    cases l with
    | nil =>
      have := Elems.one ws_nil hv ws_nil
      simpa [textList] using this
    | cons x l =>
      have := Elems.more ws_nil hv ws_nil (elems_ws ws_sp (hl (by simp)))
      rw [textList]
      simpa using this
theorem members_text (L : Libc) (p : Bool) : (l : List (Bytes × J)) → CleanFields (isNum L) l → ∀ d, l ≠ [] →
    (p = true → Members (numOf L) l (textFields L p d l ++ indent d)) ∧
      (p = false → Members (numOf L) l (textFields L p d l))
  | [], _, _, h => absurd rfl h
  | (k, v) :: l, h, d, _ => by
    simp only [CleanFields] at h
    have hv := doc_text L p v h.2.1 (d + 1)
    have hl := members_text L p l h.2.2 d
    cases l with
    | nil =>
      refine ⟨?_, ?_⟩
      · rintro rfl
        have := Members.one (ws_indent (d + 1)) (printable_escape h.1) ws_nil ws_sp hv
          (ws_append (a := [10]) (by simp [Ws]) (ws_indent d))
        simpa [textFields] using this
      · rintro rfl
        have := Members.one ws_nil (printable_escape h.1) ws_nil ws_sp hv ws_nil
        simpa [textFields] using this
    | cons x l =>
      obtain ⟨h1, h2⟩ := hl (by simp)
      refine ⟨?_, ?_⟩
      · rintro rfl
        have := Members.more (ws_indent (d + 1)) (printable_escape h.1) ws_nil ws_sp hv ws_nil
          (members_ws (w := [10]) (by simp [Ws]) (h1 rfl))
        rw [textFields]
        simpa using this
      · rintro rfl
        have := Members.more ws_nil (printable_escape h.1) ws_nil ws_sp hv ws_nil
          (members_ws ws_sp (h2 rfl))
        rw [textFields]
        simpa using this
end

end Verif.Output
