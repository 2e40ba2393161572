import Verif.Cli.Tokens
/-!
# Names and keywords (C100)
-/
set_option autoImplicit false
set_option linter.unusedVariables false
set_option linter.unusedSimpArgs false
namespace Verif.Cli
open Verif Verif.Json.Text Verif.Parse.Lex Verif.Func

theorem lower_lower (c : Nat) : lower (lower c) = lower c := by
  unfold lower
  split
  · rw [if_neg (by omega)]
  · rfl

theorem kwScan_lower (n : Bytes) (ref : Nat) (l : List Bytes) : ∀ i, kwScan (n.map lower) ref i l = kwScan n ref i l := by
  induction l with
  | nil => intro i; rfl
  | cons k t ih =>
    intro i
    unfold kwScan
    have : isCase (n.map lower) k = isCase n k := by
      unfold isCase
      rw [List.length_map, List.map_map]
      have : lower ∘ lower = lower := by funext c; exact lower_lower c
      rw [this]
    rw [this, ih]

/-- keywords do not depend on the case -/
theorem kwMatch_lower (n : Bytes) : kwMatch (n.map lower) = kwMatch n := by
  unfold kwMatch kwMatchIn
  have : lower ((n.map lower).headD 0) = lower (n.headD 0) := by
    cases n with
    | nil => rfl
    | cons a l => exact lower_lower a
  rw [this]
  congr 1
  funext i
  exact kwScan_lower _ _ _ _

theorem kwScan_some (n : Bytes) (ref : Nat) (l : List Bytes) : ∀ i j, kwScan n ref i l = some j → ∃ m k, j = i + m ∧ l[m]? = some k ∧ isCase n k = true := by
  induction l with
  | nil => intro i j h; cases h
  | cons k t ih =>
    intro i j h
    unfold kwScan at h
    split at h
    · cases h
    · split at h
      · rename_i hc
        injection h with h
        exact ⟨0, k, by omega, rfl, hc⟩
      · obtain ⟨m, k', h1, h2, h3⟩ := ih _ _ h
        exact ⟨m + 1, k', by omega, by simpa using h2, h3⟩

theorem kwMatch_some {n : Bytes} {i : Nat} (h : kwMatch n = some i) : ∃ w, kwNames[i]? = some w ∧ n.map lower = (strBytes w).map lower := by
  unfold kwMatch kwMatchIn at h
  cases ha : (kwAlpha[lower (n.headD 0) - 97]?.getD none) with
  | none => rw [ha] at h; cases h
  | some a =>
    rw [ha] at h
    obtain ⟨m, k, h1, h2, h3⟩ := kwScan_some _ _ _ _ _ h
    rw [List.getElem?_drop, ← h1, List.getElem?_map] at h2
    cases hk : kwNames[i]? with
    | none => rw [hk] at h2; cases h2
    | some w =>
      rw [hk] at h2
      injection h2 with h2
      refine ⟨w, rfl, ?_⟩
      simp only [isCase, decide_eq_true_eq] at h3
      rw [h2]; exact h3.2

/-- the words the separator looks for -/
def sepWords : List String := ["begin", "if", "for", "while", "case", "end", "exists", "not"]

theorem sepWords_lower : ∀ w ∈ sepWords, (strBytes w).map lower = strBytes w ∧ (strBytes w).all (fun c => decide (97 ≤ c ∧ c ≤ 122)) = true ∧ strBytes w ≠ [] ∧
    (kwMatch (strBytes w)).bind (fun i => kwNames[i]?) = some w := by
  decide +kernel

theorem letter_of_lower {x : Nat} (h : 97 ≤ lower x ∧ lower x ≤ 122) : isAlpha x = true := by
  unfold lower at h
  simp only [isAlpha, decide_eq_true_eq]
  split at h <;> omega

theorem alpha_name {x : Nat} (h : isAlpha x = true) : isNameChar x = true := by
  simp only [isNameChar, h, decide_eq_true_eq]; simp

theorem delim_not_name {x : Nat} (h : isDelim x = true) : isNameChar x = false := by
  simp only [isDelim, isSpace, decide_eq_true_eq] at h
  simp only [isNameChar, isAlpha, isDigit, decide_eq_true_eq, decide_eq_false_iff_not]
  omega

theorem tw_append {p : Nat → Bool} (u : Bytes) {r : Bytes} (hu : ∀ x ∈ u, p x = true) (hr : ∀ y t, r = y :: t → p y = false) : (u ++ r).takeWhile p = u ∧ (u ++ r).dropWhile p = r := by
  induction u with
  | nil =>
    cases r with
    | nil => exact ⟨rfl, rfl⟩
    | cons y t =>
      have := hr y t rfl
      simp [List.takeWhile_cons, List.dropWhile_cons, this]
  | cons x u ih =>
    have hx := hu x (by simp)
    obtain ⟨i1, i2⟩ := ih (fun y hy => hu y (List.mem_cons_of_mem _ hy))
    rw [List.cons_append, List.takeWhile_cons, List.dropWhile_cons, if_pos hx, if_pos hx, i1, i2]
    exact ⟨rfl, rfl⟩

/-- a word of the separator in a text is the name the lexer reads there -/
theorem match_word {p : Option Nat} {s : Bytes} {c' : Cur} {w : String} (hw : w ∈ sepWords) (h : matchKw ⟨p, s⟩ (strBytes w) = some c') :
    (s.takeWhile isNameChar).map lower = strBytes w ∧ ∀ x ∈ s.takeWhile isNameChar, isAlpha x = true := by
  obtain ⟨_, hall, _, _⟩ := sepWords_lower w hw
  obtain ⟨_, _, h3, h4, h5, _⟩ := matchKw_some h
  dsimp only at h3 h4 h5
  have hall' : ∀ x ∈ s.take (strBytes w).length, isAlpha x = true := by
    intro x hx
    refine letter_of_lower ?_
    have : lower x ∈ strBytes w := by rw [← h4]; exact List.mem_map.2 ⟨x, hx, rfl⟩
    simpa using List.all_eq_true.1 hall _ this
  have hs : s = s.take (strBytes w).length ++ s.drop (strBytes w).length := (List.take_append_drop _ _).symm
  have htw := tw_append (p := isNameChar) (s.take (strBytes w).length) (r := s.drop (strBytes w).length) (fun x hx => alpha_name (hall' x hx)) (by
    intro y t e
    have : s.getD (strBytes w).length 0 = y := by
      have := congrArg (fun l => l.head?) e
      simp only [List.head?_drop, List.head?_cons] at this
      rw [List.getD_eq_getElem?_getD, this]; rfl
    rw [this] at h5
    exact delim_not_name h5)
  rw [← hs] at htw
  rw [htw.1]
  exact ⟨h4, hall'⟩

/-! ## lexName -/

theorem lexName_plain {c : Nat} {t r : Bytes} {k : LTok} (hc : c ≠ 96) (h : lexName true (c :: t) = .ok (k, r)) :
    ∃ star, c :: t = (c :: t).takeWhile isNameChar ++ (star ++ r) ∧ (star = [] ∨ star = [42]) ∧
      ((∀ x ∈ (c :: t).takeWhile isNameChar, isAlpha x = true) → star = [] ∧ ∀ i, kwMatch ((c :: t).takeWhile isNameChar) = some i → k = .kw i) ∧
      (∀ i, k = .kw i → star = [] ∧ kwMatch ((c :: t).takeWhile isNameChar) = some i) := by
  have hsplit : c :: t = (c :: t).takeWhile isNameChar ++ (c :: t).dropWhile isNameChar := (tw_dw _ _).symm
  have hh : ¬ ((c :: t).headD 0 = 96) := hc
  have h' : lexName true (c :: t) = (if twoDots ((c :: t).takeWhile isNameChar) then .error .err
    else if 46 ∈ (c :: t).takeWhile isNameChar ∧ ((c :: t).takeWhile isNameChar).getLast? = some 46 ∧ ((c :: t).dropWhile isNameChar).headD 0 ≠ 42 then .error .err
    else if ¬ 46 ∈ (c :: t).takeWhile isNameChar ∧ ((c :: t).takeWhile isNameChar).headD 0 ≠ 95 then
      (match kwMatch ((c :: t).takeWhile isNameChar) with
      | some k => .ok (.kw k, (c :: t).dropWhile isNameChar)
      | none => .ok (.name ((c :: t).takeWhile isNameChar), (c :: t).dropWhile isNameChar))
    else .ok (if 46 ∈ (c :: t).takeWhile isNameChar ∧ ((c :: t).takeWhile isNameChar).getLast? = some 46 then .compoundStar ((c :: t).takeWhile isNameChar ++ [42]) else if 46 ∈ (c :: t).takeWhile isNameChar then .compound ((c :: t).takeWhile isNameChar) else .name ((c :: t).takeWhile isNameChar),
      if 46 ∈ (c :: t).takeWhile isNameChar ∧ ((c :: t).takeWhile isNameChar).getLast? = some 46 then ((c :: t).dropWhile isNameChar).drop 1 else (c :: t).dropWhile isNameChar)) := by
    unfold lexName
    simp only [hh, decide_false, Bool.false_eq_true, if_false]
    generalize (c :: t).takeWhile isNameChar = n
    generalize (c :: t).dropWhile isNameChar = r0
    by_cases h1 : 46 ∈ n
    · simp [h1]
    · simp [h1]
      cases kwMatch n <;> rfl
  rw [h'] at h
  generalize hn : (c :: t).takeWhile isNameChar = n at h hsplit ⊢
  generalize (c :: t).dropWhile isNameChar = r0 at h hsplit ⊢
  have ha46 : (∀ x ∈ n, isAlpha x = true) → ¬ 46 ∈ n := by
    intro ha hm
    have := ha 46 hm
    revert this; decide
  split at h
  · cases h
  · split at h
    · cases h
    · rename_i hst
      split at h
      · rename_i hno
        split at h
        · rename_i i hi
          injection h with h; injection h with h1 h2
          subst h2
          refine ⟨[], hsplit, .inl rfl, fun _ => ⟨rfl, fun j hj => ?_⟩, fun j hj => ⟨rfl, ?_⟩⟩
          · rw [hi] at hj; injection hj with hj; rw [← h1, hj]
          · rw [hi]; rw [← h1] at hj; injection hj with hj; rw [hj]
        · rename_i hi
          injection h with h; injection h with h1 h2
          subst h2
          refine ⟨[], hsplit, .inl rfl, fun _ => ⟨rfl, fun j hj => ?_⟩, fun j hj => ?_⟩
          · rw [hi] at hj; cases hj
          · rw [← h1] at hj; cases hj
      · rename_i hno
        injection h with h; injection h with h1 h2
        have hkw : ∀ i, k ≠ .kw i := by
          intro i e
          rw [← h1] at e
          split at e
          · cases e
          · split at e <;> cases e
        have halpha : ¬ ∀ x ∈ n, isAlpha x = true := by
          intro ha
          apply hno
          refine ⟨ha46 ha, ?_⟩
          cases n with
          | nil => decide
          | cons a l =>
            have := ha a (by simp)
            intro e
            simp only [List.headD_cons] at e
            subst e
            revert this; decide
        split at h2
        · rename_i hs
          have h42 : r0.headD 0 = 42 := by
            by_cases e : r0.headD 0 = 42
            · exact e
            · exact absurd ⟨hs.1, hs.2, e⟩ hst
          refine ⟨[42], ?_, .inr rfl, fun ha => absurd ha halpha, fun i hi => absurd hi (hkw i)⟩
          rw [← h2, List.singleton_append, ← headD_cons h42 (by decide)]
          exact hsplit
        · subst h2
          exact ⟨[], hsplit, .inl rfl, fun ha => absurd ha halpha, fun i hi => absurd hi (hkw i)⟩

theorem lexName_quoted {t r : Bytes} {k : LTok} (h : lexName true (96 :: t) = .ok (k, r)) :
    (∃ star, t = t.takeWhile isNameChar ++ (star ++ 96 :: r) ∧ (star = [] ∨ star = [42])) ∧ ∀ i, k ≠ .kw i := by
  have hsplit : t = t.takeWhile isNameChar ++ t.dropWhile isNameChar := (tw_dw _ _).symm
  unfold lexName at h
  simp only [List.headD_cons, decide_true, if_true, List.drop_succ_cons, List.drop_zero] at h
  generalize t.takeWhile isNameChar = n at h hsplit ⊢
  generalize t.dropWhile isNameChar = r0 at h hsplit ⊢
  have key : ∀ (tok : LTok) (r1 : Bytes), (∀ i, tok ≠ .kw i) → ((if r1.headD 0 ≠ 96 then .error .err else .ok (tok, r1.drop 1)) : Res (LTok × Bytes)) = .ok (k, r) → r1 = 96 :: r ∧ ∀ i, k ≠ .kw i := by
    intro tok r1 ht e
    by_cases e96 : r1.headD 0 = 96
    · rw [if_neg (by simpa using e96)] at e
      injection e with e
      injection e with e1 e2
      rw [← e2, ← e1]
      exact ⟨headD_cons e96 (by decide), ht⟩
    · rw [if_pos e96] at e; cases e
  split at h
  · cases h
  · split at h
    · cases h
    · rename_i hst
      by_cases hs : 46 ∈ n ∧ n.getLast? = some 46
      · have h42 : r0.headD 0 = 42 := by
          by_cases e : r0.headD 0 = 42
          · exact e
          · exact absurd ⟨hs.1, hs.2, e⟩ hst
        simp only [hs, and_self, decide_true, if_true] at h
        obtain ⟨k1, k2⟩ := key _ _ (fun i => by simp) h
        refine ⟨⟨[42], ?_, .inr rfl⟩, k2⟩
        rw [← k1, List.singleton_append, ← headD_cons h42 (by decide)]
        exact hsplit
      · simp only [hs, decide_false, Bool.false_eq_true, if_false] at h
        obtain ⟨k1, k2⟩ := key _ _ (fun i => by split <;> simp) h
        refine ⟨⟨[], ?_, .inl rfl⟩, k2⟩
        rw [← k1, List.nil_append]
        exact hsplit

theorem wordOf_sep {x : Nat} {t : Tok} {kw : Bytes} (h : wordOf x = some (t, kw)) : ∃ w ∈ blockWords, kw = strBytes w := by
  unfold wordOf at h
  repeat' split at h
  all_goals first
    | cases h; done
    | (injection h with h; injection h with h1 h2; subst h2
       first
         | exact ⟨"begin", by decide, rfl⟩
         | exact ⟨"if", by decide, rfl⟩
         | exact ⟨"case", by decide, rfl⟩
         | exact ⟨"for", by decide, rfl⟩
         | exact ⟨"while", by decide, rfl⟩
         | exact ⟨"end", by decide, rfl⟩)

theorem block_sep : ∀ w ∈ blockWords, w ∈ sepWords := by decide

/-- the keyword of the lexer at a word -/
theorem kwMatch_word {n : Bytes} {w : String} (hw : w ∈ sepWords) (h : n.map lower = strBytes w) : ∃ i, kwMatch n = some i ∧ kwNames[i]? = some w := by
  obtain ⟨_, _, _, hk⟩ := sepWords_lower w hw
  rw [← kwMatch_lower, h]
  cases e : kwMatch (strBytes w) with
  | none => rw [e] at hk; cases hk
  | some i => rw [e] at hk; exact ⟨i, rfl, hk⟩

/-- a token that is not the keyword is not matched by the separator -/
theorem no_match {c : Nat} {t r : Bytes} {k : LTok} {w : String} (hw : w ∈ sepWords) (hc : c ≠ 96) (h : lexName true (c :: t) = .ok (k, r)) (hk : ¬ IsKw k w) (p : Option Nat) :
    matchKw ⟨p, c :: t⟩ (strBytes w) = none := by
  cases hm : matchKw ⟨p, c :: t⟩ (strBytes w) with
  | none => rfl
  | some c' =>
    exfalso
    obtain ⟨h1, h2⟩ := match_word hw hm
    obtain ⟨star, _, _, h3, _⟩ := lexName_plain hc h
    obtain ⟨i, h4, h5⟩ := kwMatch_word hw h1
    exact hk ⟨i, (h3 h2).2 i h4, h5⟩

theorem star_plain {star : Bytes} (h : star = [] ∨ star = [42]) : ∀ y ∈ star, plain y = true ∧ y ≠ 45 := by
  rcases h with rfl | rfl
  · intro y hy; cases hy
  · intro y hy; rw [List.mem_singleton] at hy; rw [hy]; decide

theorem name_pass {c : Nat} {t r : Bytes} {k : LTok} (hc : isAlpha c = true ∨ c = 95 ∨ c = 96) (h : lexName true (c :: t) = .ok (k, r)) (hk : ∀ w ∈ blockWords, ¬ IsKw k w) : Passed (c :: t) r := by
  by_cases h96 : c = 96
  · subst h96
    obtain ⟨⟨star, e, hs⟩, _⟩ := lexName_quoted h
    have : 96 :: t = 96 :: ((t.takeWhile isNameChar ++ star ++ [96]) ++ r) := by conv => lhs; rw [e]
                                                                                 simp
    rw [this]
    refine passed_of (by decide) (comment_ne (by decide)) (fun p t' kw e' => ?_) ?_
    · exact absurd (wordOf_letter e') (by decide)
    · intro y hy
      rcases List.mem_append.1 hy with hy | hy
      · rcases List.mem_append.1 hy with hy | hy
        · exact name_plain (tw_all y hy)
        · exact star_plain hs y hy
      · rw [List.mem_singleton] at hy; rw [hy]; decide
  · have hcn : isNameChar c = true := by
      rcases hc with hc | hc | hc
      · exact alpha_name hc
      · rw [hc]; decide
      · exact absurd hc h96
    obtain ⟨star, e, hs, _, _⟩ := lexName_plain h96 h
    rw [List.takeWhile_cons, if_pos hcn] at e
    have e2 : c :: t = c :: ((t.takeWhile isNameChar ++ star) ++ r) := by rw [e]; simp
    rw [e2]
    refine passed_of (name_plain hcn).1 (comment_ne (name_plain hcn).2) (fun p t' kw e' => ?_) ?_
    · obtain ⟨w, hw, rfl⟩ := wordOf_sep e'
      rw [← e2]
      exact no_match (block_sep w hw) h96 h (hk w hw) p
    · intro y hy
      rcases List.mem_append.1 hy with hy | hy
      · exact name_plain (tw_all y hy)
      · exact star_plain hs y hy

end Verif.Cli
