import Verif.Import.Spec
/-!
# Reading rows (C96)
-/
set_option autoImplicit false
set_option linter.unusedSimpArgs false
set_option linter.unusedVariables false
namespace Verif.Import
open Verif Verif.Json.Text Verif.Parse.Lex Verif.Insert

theorem blank_append {b c : Bytes} (hb : Blank b) (hc : Blank c) : Blank (b ++ c) := by
  induction hb with
  | nil => exact hc
  | space h _ ih => exact .space h ih
  | @comment t b' h _ ih =>
    have := Blank.comment (t := t) h (b := b' ++ c) ih
    simpa using this

theorem blank_nl : Blank [10] := .space (by decide) .nil

theorem listed_blank {b t : Bytes} {ws : List Bytes} (hb : Blank b) (h : Listed ws t) : Listed ws (b ++ t) := by
  cases h with
  | nil h => exact .nil (blank_append hb h)
  | one h h' => rw [← List.append_assoc]; exact .one (blank_append hb h) h'
  | more h h' hne ht => rw [← List.append_assoc]; exact .more (blank_append hb h) h' hne ht

/-- what may stand after the last value of a row -/
def Term (R : Bytes) : Prop := ∀ b, Blank b → After (b ++ R)

theorem after_of_blank {b : Bytes} (hb : Blank b) {r : Bytes} (hr : After r) : After (b ++ r) := by
  cases hb with
  | nil => exact hr
  | space h _ => exact .inl h
  | comment _ _ => simp [After]

theorem term_of {R : Bytes} (h : After R) : Term R := fun _ hb => after_of_blank hb h

theorem term_nil : Term [] := term_of trivial
theorem term_nl (x : Bytes) : Term (10 :: x) := term_of (.inl (by decide))
theorem term_sq (x : Bytes) : Term (93 :: x) := term_of (by simp [After])
theorem term_cur (x : Bytes) : Term (125 :: x) := term_of (by simp [After])

/-- no value begins with these -/
theorem parseValue_bad {E : Env} {c : Col} {s r : Bytes} {t : LTok} (h : lexNext true s = .ok (t, r)) (ht : t = .eof ∨ t = .sym 58 ∨ t = .method ∨ t = .assign ∨ t = .sym 93 ∨ t = .sym 61)
    (hj : ∀ x, parse E.libc (skipBlank (s.length + 1) s) ≠ .ok x) : ∀ x, parseValue E c s ≠ .ok x := by
  intro x hx
  rw [parseValue_typed h (by rcases ht with rfl | rfl | rfl | rfl | rfl | rfl <;> simp) (by rcases ht with rfl | rfl | rfl | rfl | rfl | rfl <;> simp)] at hx
  have hv : parseVector E s = .error .err := by
    unfold parseVector
    rw [expect_no h (by rcases ht with rfl | rfl | rfl | rfl | rfl | rfl <;> simp), bind_err]
  unfold parseTyped at hx
  cases hty : c.ty <;> rw [hty] at hx <;> rcases ht with rfl | rfl | rfl | rfl | rfl | rfl <;>
    simp only [optMinus, optKw, bind_ok, bind_err, hv, if_false, reduceCtorEq, LTok.sym.injEq, Nat.reduceEqDiff, LTok.kw.injEq] at hx <;>
    (obtain ⟨y, hy, -⟩ := bind_eq_ok hx; exact hj _ hy)

theorem eof_blank {s r : Bytes} (h : lexNext true s = .ok (.eof, r)) : skipBlank (s.length + 1) s = [] := by
  unfold lexNext at h
  cases hs : skipBlank (s.length + 1) s with
  | nil => rfl
  | cons c t =>
    exfalso
    simp only [hs] at h
    split at h
    · unfold lexNumber at h
      split at h <;> cases h
    · split at h
      · simp only [lexSymbol] at h
        split at h
        · cases h
        · split at h
          · rename_i hx
            simp only [twoChar] at hx
            repeat' split at hx
            all_goals (first | cases hx | skip)
            all_goals cases h
          · cases h
      · split at h
        · simp only [lexName] at h
          repeat' split at h
          all_goals cases h
        · split at h
          · simp only [lexString] at h
            obtain ⟨x, -, h⟩ := bind_eq_ok h
            cases h
          · cases h

theorem parse_nil (L : Libc) (x : Bytes × Bytes) : parse L [] ≠ .ok x := by intro h; cases h
theorem parse_colon (L : Libc) (r : Bytes) (x : Bytes × Bytes) : parse L (58 :: r) ≠ .ok x := by
  have : parse L (58 :: r) = .error .err := rfl
  rw [this]; simp
theorem parse_eq (L : Libc) (r : Bytes) (x : Bytes × Bytes) : parse L (61 :: r) ≠ .ok x := by
  have : parse L (61 :: r) = .error .err := rfl
  rw [this]; simp
theorem parse_close (L : Libc) (r : Bytes) (x : Bytes × Bytes) : parse L (93 :: r) ≠ .ok x := by
  have : parse L (93 :: r) = .error .err := rfl
  rw [this]; simp

theorem value_not_eof {E : Env} {c : Col} {s r : Bytes} {x : V × Bytes} (h : parseValue E c s = .ok x) : ∀ r, lexNext true s ≠ .ok (.eof, r) := by
  intro r h0
  refine parseValue_bad h0 (.inl rfl) ?_ x h
  rw [eof_blank h0]
  exact parse_nil _

theorem value_not_sym {E : Env} {c : Col} {d : Nat} {s : Bytes} {x : V × Bytes} (h : parseValue E c (d :: s) = .ok x) : d ≠ 58 ∧ d ≠ 61 ∧ d ≠ 93 := by
  have sk : ∀ d, d = 58 ∨ d = 61 ∨ d = 93 → skipBlank ((d :: s).length + 1) (d :: s) = d :: s := by
    intro d hd
    refine skipBlank_tok (by rcases hd with rfl | rfl | rfl <;> decide) ?_ _
    cases hx : isComment (d :: s) with
    | false => rfl
    | true => obtain ⟨u, hu⟩ := isComment_cons hx; simp at hu; omega
  refine ⟨?_, ?_, ?_⟩
  · rintro rfl
    have h0 : ∃ t r, lexNext true (58 :: s) = .ok (t, r) ∧ (t = .sym 58 ∨ t = .method ∨ t = .assign) := by
      unfold lexNext
      simp only [sk 58 (by simp)]
      cases s with
      | nil => exact ⟨_, _, rfl, .inl rfl⟩
      | cons b s =>
        by_cases h1 : b = 58
        · subst h1; exact ⟨_, _, rfl, .inr (.inl rfl)⟩
        · by_cases h2 : b = 61
          · subst h2; exact ⟨_, _, rfl, .inr (.inr rfl)⟩
          · have : lexSymbol 58 (b :: s) = (.sym 58, b :: s) := by simp [lexSymbol, twoChar, h1, h2]
            exact ⟨.sym 58, b :: s, by simp [isDigit, isPunct, this], .inl rfl⟩
    obtain ⟨t, r, h0, ht⟩ := h0
    refine parseValue_bad h0 (by rcases ht with rfl | rfl | rfl <;> simp) ?_ x h
    rw [sk 58 (by simp)]
    exact parse_colon _ _
  · rintro rfl
    have h0 : lexNext true (61 :: s) = .ok (.sym 61, s) := by
      unfold lexNext
      simp only [sk 61 (by simp)]
      cases s with
      | nil => rfl
      | cons b s =>
        have : lexSymbol 61 (b :: s) = (.sym 61, b :: s) := by simp [lexSymbol, twoChar]
        simp [isDigit, isPunct, this]
    refine parseValue_bad h0 (by simp) ?_ x h
    rw [sk 61 (by simp)]
    exact parse_eq _ _
  · rintro rfl
    refine parseValue_bad (lex_sym s (c := 93) (by simp)) (by simp) ?_ x h
    rw [sk 93 (by simp)]
    exact parse_close _ _

theorem lit_value {E : Env} {c : Col} {w : Bytes} {v : V} (h : Lit E c.ty w v) {r : Bytes} (hr : After r) : parseValue E c (w ++ r) = .ok (v, r) := (lit_reads h c rfl hr).2

theorem lit_head {E : Env} {c : Col} {w : Bytes} {v : V} (h : Lit E c.ty w v) : ∃ d t, w = d :: t ∧ d ≠ 58 ∧ d ≠ 61 ∧ d ≠ 93 := by
  have h1 := lit_value (c := c) h (r := []) trivial
  cases w with
  | nil => exact absurd rfl (value_not_eof (r := []) h1 [])
  | cons d t => exact ⟨d, t, rfl, value_not_sym (by simpa using h1)⟩

/-! ## values by position -/

theorem given_nil {E : Env} {cs : List Col} {row : List V} (h : Given E cs [] row) (hl : LastLive cs) : cs = [] := by
  have : ∀ {cs : List Col} {ws : List Bytes} {row : List V}, Given E cs ws row → ws = [] → ∀ c ∈ cs, c.dropped = true := by
    intro cs ws row h
    induction h with
    | nil => simp
    | dropped hd _ ih =>
      intro e c hc
      rcases List.mem_cons.1 hc with rfl | hc
      · exact hd
      · exact ih e c hc
    | item _ _ _ _ => intro e; cases e
  cases hx : cs.getLast? with
  | none => simpa using hx
  | some c =>
    have h1 := this h rfl c (List.mem_of_getLast? hx)
    have h2 := hl c hx
    rw [h1] at h2; cases h2

theorem lastLive_tail {c : Col} {cs : List Col} (h : LastLive (c :: cs)) : LastLive cs := by
  intro d hd
  refine h d ?_
  cases cs with
  | nil => simp at hd
  | cons e cs => rw [List.getLast?_cons_cons]; exact hd

theorem row_given {E : Env} {cols : List Col} {ws : List Bytes} {row : List V} (h : Given E cols ws row) : ∀ (i : Nat) (t R : Bytes), Listed ws t → Term R → LastLive cols →
    (Allowed cols row → ∃ b, Blank b ∧ importRow E i cols none (t ++ R) = .ok (row, b ++ R)) ∧
    ((∀ c ∈ cols, c.dropped = true → c.notNull = false) → ¬ Allowed cols row → importRow E i cols none (t ++ R) = .error .err) := by
  induction h with
  | nil =>
    intro i t R ht hR _
    cases ht with
    | nil hb => exact ⟨fun _ => ⟨_, hb, rfl⟩, fun _ h => absurd (allowed_nil _) h⟩
  | @dropped c cs ws row hd _ ih =>
    intro i t R ht hR hll
    obtain ⟨ih1, ih2⟩ := ih (i + 1) t R ht hR (lastLive_tail hll)
    simp only [importRow, hd, if_true, allowed_cons]
    constructor
    · rintro ⟨-, ha⟩
      obtain ⟨b, hb, e⟩ := ih1 ha
      exact ⟨b, hb, by rw [e, bind_ok]⟩
    · intro hc ha
      rw [ih2 (fun d hd => hc d (by simp [hd])) fun h => ha ⟨fun _ => .inl (hc c (by simp) hd), h⟩, bind_err]
  | @item c cs w ws v row hd hl hf ih =>
    intro i t R ht hR hll
    obtain ⟨b, u, hb, rfl, hu⟩ := listed_cons ht
    simp only [importRow, hd, Bool.false_eq_true, if_false, allowed_cons]
    have key : ∃ t', Listed ws t' ∧ After (u ++ R) ∧ sep (!cs.isEmpty) (u ++ R) = .ok (t' ++ R) := by
      rcases hu with ⟨rfl, hbu⟩ | ⟨hne, b', t', hb', rfl, ht'⟩
      · have : cs = [] := given_nil hf (lastLive_tail hll)
        subst this
        exact ⟨u, .nil hbu, hR u hbu, rfl⟩
      · refine ⟨t', ht', ?_, ?_⟩
        · simp only [List.append_assoc, List.cons_append]; exact after_blank hb' (by simp)
        · have : cs.isEmpty = false := by
            cases hf with
            | nil => exact absurd rfl hne
            | dropped _ _ => rfl
            | item _ _ _ => rfl
          simp only [List.append_assoc, List.cons_append, this, sep]
          exact expect_yes (lex_comma hb' _)
    obtain ⟨t', ht', hau, hrc⟩ := key
    rw [List.append_assoc, List.append_assoc, parseValue_blank E c hb, lit_value hl hau, bind_ok]
    obtain ⟨ih1, ih2⟩ := ih (i + 1) t' R ht' hR (lastLive_tail hll)
    by_cases hfit : Insert.Fits c v
    · simp only [validate_ok hfit, bind_ok, hrc]
      constructor
      · rintro ⟨-, ha⟩
        obtain ⟨b2, hb2, e⟩ := ih1 ha
        exact ⟨b2, hb2, by rw [e, bind_ok]⟩
      · intro hc ha
        rw [ih2 (fun d hd => hc d (by simp [hd])) fun h => ha ⟨hfit, h⟩, bind_err]
    · simp only [validate_bad hfit, bind_err]
      exact ⟨fun h => absurd h.1 hfit, fun _ _ => trivial⟩

/-! ## values of listed columns -/

theorem fillL_ge {E : Env} {i : Nat} {cols : List Col} {l : List Nat} {ws : List Bytes} {row : List V} (h : FillL E i cols l ws row) : ∀ j ∈ l, i ≤ j := by
  induction h with
  | nil => simp
  | item _ _ ih =>
    intro j hj
    rcases List.mem_cons.1 hj with rfl | hj
    · exact Nat.le_refl _
    · have := ih j hj; omega
  | other _ _ _ ih => intro j hj; have := ih j hj; omega

/-- NULL in a listed column only where it may be -/
def FitsL (i : Nat) (cols : List Col) (l : List Nat) (row : List V) : Prop :=
  ∀ (j : Nat) (c : Col) (v : V), cols[j]? = some c → row[j]? = some v → i + j ∈ l → Insert.Fits c v

theorem fitsL_cons {i : Nat} {c : Col} {cs : List Col} {l : List Nat} {v : V} {row : List V} :
    FitsL i (c :: cs) l (v :: row) ↔ (i ∈ l → Insert.Fits c v) ∧ FitsL (i + 1) cs l row := by
  constructor
  · intro h
    exact ⟨fun hi => h 0 c v (by simp) (by simp) (by simpa using hi), fun j d x h1 h2 h3 => h (j + 1) d x (by simpa using h1) (by simpa using h2) (by rw [← Nat.add_assoc, Nat.add_right_comm]; exact h3)⟩
  · rintro ⟨h1, h2⟩ j d x h3 h4 h5
    cases j with
    | zero =>
      simp only [List.getElem?_cons_zero, Option.some.injEq] at h3 h4
      subst h3; subst h4
      exact h1 (by simpa using h5)
    | succ j => exact h2 j d x (by simpa using h3) (by simpa using h4) (by rw [Nat.add_right_comm, Nat.add_assoc]; exact h5)

theorem fitsL_list {i : Nat} {cs : List Col} {l : List Nat} {row : List V} (hl : ∀ j ∈ l, i + 1 ≤ j) : FitsL (i + 1) cs (i :: l) row ↔ FitsL (i + 1) cs l row := by
  unfold FitsL
  constructor
  · intro h j c v h1 h2 h3; exact h j c v h1 h2 (by simp [h3])
  · intro h j c v h1 h2 h3
    refine h j c v h1 h2 ?_
    rcases List.mem_cons.1 h3 with h3 | h3
    · omega
    · exact h3

theorem row_list {E : Env} {i : Nat} {cols : List Col} {l : List Nat} {ws : List Bytes} {row : List V} (h : FillL E i cols l ws row) : ∀ (t R : Bytes), Listed ws t → Term R →
    (FitsL i cols l row → ∃ b, Blank b ∧ importRow E i cols (some l) (t ++ R) = .ok (row, b ++ R)) ∧
    (¬ FitsL i cols l row → importRow E i cols (some l) (t ++ R) = .error .err) := by
  induction h with
  | nil =>
    intro t R ht hR
    cases ht with
    | nil hb => exact ⟨fun _ => ⟨_, hb, rfl⟩, fun h => absurd (by intro j c v h; simp at h) h⟩
  | @other i c cs l ws v row hne hd hf ih =>
    intro t R ht hR
    obtain ⟨ih1, ih2⟩ := ih t R ht hR
    have hni : i ∉ l := fun hi => by have := fillL_ge hf i hi; omega
    simp only [importRow, hne, if_false, default_val hd, fitsL_cons, hni, false_implies, true_and]
    constructor
    · intro ha
      obtain ⟨b, hb, e⟩ := ih1 ha
      exact ⟨b, hb, by rw [e, bind_ok]⟩
    · intro ha
      rw [ih2 ha, bind_err]
  | @item i c cs l w ws v row hl hf ih =>
    intro t R ht hR
    obtain ⟨b, u, hb, rfl, hu⟩ := listed_cons ht
    have hlen := fillL_len hf
    simp only [importRow, List.head?_cons, if_true, List.tail_cons, fitsL_cons, fitsL_list (fillL_ge hf), List.mem_cons, true_or, true_implies]
    have key : ∃ t', Listed ws t' ∧ After (u ++ R) ∧ sep (!l.isEmpty) (u ++ R) = .ok (t' ++ R) := by
      rcases hu with ⟨rfl, hbu⟩ | ⟨hne, b', t', hb', rfl, ht'⟩
      · have : l = [] := List.length_eq_zero_iff.1 (by simpa using hlen.symm)
        subst this
        exact ⟨u, .nil hbu, hR u hbu, rfl⟩
      · refine ⟨t', ht', ?_, ?_⟩
        · simp only [List.append_assoc, List.cons_append]; exact after_blank hb' (by simp)
        · have : l.isEmpty = false := by
            cases l with
            | nil => exact absurd (List.length_eq_zero_iff.1 (by simpa using hlen)) hne
            | cons _ _ => rfl
          simp only [List.append_assoc, List.cons_append, this, sep]
          exact expect_yes (lex_comma hb' _)
    obtain ⟨t', ht', hau, hrc⟩ := key
    rw [List.append_assoc, List.append_assoc, parseValue_blank E c hb, lit_value hl hau, bind_ok]
    obtain ⟨ih1, ih2⟩ := ih t' R ht' hR
    by_cases hfit : Insert.Fits c v
    · simp only [validate_ok hfit, bind_ok, hrc]
      constructor
      · rintro ⟨-, ha⟩
        obtain ⟨b2, hb2, e⟩ := ih1 ha
        exact ⟨b2, hb2, by rw [e, bind_ok]⟩
      · intro ha
        rw [ih2 fun h => ha ⟨hfit, h⟩, bind_err]
    · simp only [validate_bad hfit, bind_err]
      exact ⟨fun h => absurd h.1 hfit, fun _ => trivial⟩

end Verif.Import
