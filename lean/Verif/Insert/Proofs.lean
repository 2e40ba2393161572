import Verif.Insert.Spec
/-!
# Literals, items and rows are read as they are written (C94)
-/
set_option autoImplicit false
set_option linter.unusedSimpArgs false
set_option linter.unusedVariables false
namespace Verif.Insert
open Verif Verif.Json.Text Verif.Parse.Lex

/-! ## tokens -/

/-- what may stand right after an item -/
def After : Bytes → Prop
  | [] => True
  | c :: _ => isSpace c = true ∨ c = 44 ∨ c = 41 ∨ c = 93 ∨ c = 45 ∨ c = 125

theorem after_blank {b : Bytes} (hb : Blank b) {c : Nat} {t : Bytes} (hc : c = 44 ∨ c = 41 ∨ c = 93 ∨ c = 125) : After (b ++ c :: t) := by
  cases hb with
  | nil => simp only [List.nil_append, After]; omega
  | space h _ => simp only [List.cons_append, After]; exact .inl h
  | comment _ _ => simp only [List.cons_append, After]; simp

theorem space_val {c : Nat} (h : isSpace c = true) : c = 32 ∨ (9 ≤ c ∧ c ≤ 13) := by simpa [isSpace] using h

theorem follow_kw {r : Bytes} (h : After r) (i : Nat) : CanFollow (.kw i) r := by
  cases r with
  | nil => trivial
  | cons c t =>
    simp only [CanFollow]
    simp only [After] at h
    have : isSpace c = true → c = 32 ∨ (9 ≤ c ∧ c ≤ 13) := space_val
    unfold identChar
    rcases h with h | h | h | h | h
    · have := this h; omega
    all_goals omega

theorem follow_name {r : Bytes} (h : After r) (n : Bytes) : CanFollow (.name n) r := by
  have := follow_kw h 0
  cases r with
  | nil => trivial
  | cons c t => exact this

theorem follow_int {r : Bytes} (h : After r) (n : Nat) : CanFollow (.int n) r := by
  cases r with
  | nil => trivial
  | cons c t =>
    simp only [CanFollow]
    simp only [After] at h
    have : isSpace c = true → c = 32 ∨ (9 ≤ c ∧ c ≤ 13) := space_val
    rcases h with h | h | h | h | h
    · have := this h; omega
    all_goals omega

theorem follow_stop {r : Bytes} (h : After r) : Stop r := by
  have := follow_int h 0
  cases r with
  | nil => trivial
  | cons c t => exact this

theorem follow_str {r : Bytes} (s : Bytes) (e : Bool) : CanFollow (.str s e) r := by
  cases r <;> trivial

theorem sym_follow {c : Nat} (r : Bytes) (h : c = 44 ∨ c = 41 ∨ c = 93 ∨ c = 40 ∨ c = 91 ∨ c = 123 ∨ c = 125) : CanFollow (.sym c) r := by
  cases r with
  | nil => trivial
  | cons d t =>
    simp only [CanFollow]
    refine ⟨?_, by omega⟩
    intro p hp
    simp only [pairs, List.mem_cons, List.not_mem_nil, or_false] at hp
    rintro ⟨h1, -⟩
    rcases hp with rfl | rfl | rfl | rfl | rfl | rfl | rfl | rfl | rfl <;> simp only at h1 <;> omega

theorem lex_sym {c : Nat} (r : Bytes) (h : c = 44 ∨ c = 41 ∨ c = 93 ∨ c = 40 ∨ c = 91 ∨ c = 123 ∨ c = 125) : lexNext true (c :: r) = .ok (.sym c, r) := by
  have := C80_token (.sym c (by unfold symChar; omega)) r (sym_follow r h)
  simpa using this

theorem lex_minus {r : Bytes} (h : r.head? ≠ some 45) (h' : r.head? ≠ some 62) : lexNext true (45 :: r) = .ok (.sym 45, r) := by
  have : CanFollow (.sym 45) r := by
    cases r with
    | nil => trivial
    | cons d t =>
      simp only [List.head?_cons, ne_eq, Option.some.injEq] at h h'
      simp only [CanFollow]
      refine ⟨?_, by omega⟩
      intro p hp
      simp only [pairs, List.mem_cons, List.not_mem_nil, or_false] at hp
      rintro ⟨h1, h2⟩
      rcases hp with rfl | rfl | rfl | rfl | rfl | rfl | rfl | rfl | rfl <;> simp only at h1 h2 <;> omega
  simpa using C80_token (.sym 45 (by unfold symChar; omega)) r this

theorem lex_word {k : String} {w r : Bytes} {i : Nat} (hw : Word k w) (hk : kwNames[i]? = some k) (hr : CanFollow (.kw i) r) :
    lexNext true (w ++ r) = .ok (.kw i, r) := C80_token (.kw hk hw) r hr

theorem lex_quoted {s w : Bytes} (h : Quoted s w) (r : Bytes) : lexNext true (w ++ r) = .ok (.str s false, r) := by
  cases h with
  | mk hq hs h1 h2 => exact C80_token (.plain hq hs h1 h2) r (follow_str _ _)

theorem quoted_head {s w : Bytes} (h : Quoted s w) : ∃ q t, w = q :: t ∧ (q = 34 ∨ q = 39) := by
  cases h with
  | mk hq _ _ _ => exact ⟨_, _, rfl, hq⟩

/-! ## numbers -/

theorem isDigit_val {c : Nat} (h : 48 ≤ c ∧ c ≤ 57) : isDigit c = true := by simp [isDigit]; omega

theorem take_digits (ds r : Bytes) (h : ∀ c ∈ ds, 48 ≤ c ∧ c ≤ 57) (hr : isDigit (r.headD 0) = false) :
    (ds ++ r).takeWhile isDigit = ds ∧ (ds ++ r).dropWhile isDigit = r := by
  induction ds with
  | nil =>
    cases r with
    | nil => simp
    | cons c t => simp only [List.headD_cons] at hr; simp [List.takeWhile_cons, List.dropWhile_cons, hr]
  | cons c ds ih =>
    have hc := isDigit_val (h c (by simp))
    have := ih (fun d hd => h d (by simp [hd]))
    simp [List.takeWhile_cons, List.dropWhile_cons, hc, this]

theorem decDigits_chars (n : Nat) : ∀ c ∈ decDigits n, 48 ≤ c ∧ c ≤ 57 := by
  induction n using Nat.strongRecOn with
  | ind n ih =>
    unfold decDigits
    split
    · intro c hc; simp at hc; omega
    · intro c hc
      simp only [List.mem_append, List.mem_singleton] at hc
      rcases hc with hc | hc
      · exact ih _ (by omega) c hc
      · omega

theorem lex_real {x r : Bytes} (h : RealText x) (hr : After r) : lexNext true (x ++ r) = .ok (.real x, r) := by
  obtain ⟨n, ds, hn, hd, rfl⟩ := h
  have hst := follow_stop hr
  have hr0 : isDigit (r.headD 0) = false ∧ r.headD 0 ≠ 101 ∧ r.headD 0 ≠ 69 := by
    cases r with
    | nil => decide
    | cons c t => simp only [Stop] at hst; simp only [List.headD_cons]; exact ⟨by simp [isDigit]; omega, hst.2.2⟩
  have hcs := decDigits_chars n
  have e1 := take_digits (decDigits n) (46 :: (ds ++ r)) hcs (by simp [isDigit])
  have e2 := take_digits ds r hd hr0.1
  have hl : lexNext true (decDigits n ++ 46 :: ds ++ r) = lexNumber (decDigits n ++ 46 :: ds ++ r) := by
    obtain ⟨c, t, hc, hc'⟩ := Parse.Lex.decDigits_head n
    have hcv : 48 ≤ c ∧ c ≤ 57 := by simpa [isDigit] using hc'
    rw [hc]
    simp only [List.cons_append]
    unfold lexNext
    rw [skipBlank_tok (by simp [isSpace]; omega) (by
      cases hx : isComment (c :: (t ++ 46 :: ds ++ r)) with
      | false => rfl
      | true => obtain ⟨u, hu⟩ := isComment_cons hx; simp only [List.cons.injEq] at hu; omega)]
    simp only [hc', if_true]
  rw [hl]
  unfold lexNumber
  have e3 : digitLoop 0 (decDigits n ++ 46 :: ds ++ r) = .real := by
    rw [List.append_assoc, digitLoop_digits n (by omega)]
    simp [digitLoop]
  rw [e3]
  simp only
  have e4 : realTake (decDigits n ++ 46 :: ds ++ r) = (decDigits n ++ 46 :: ds, r) := by
    unfold realTake
    simp only [List.append_assoc, List.cons_append, e1.1, e1.2, List.headD_cons, if_true, List.drop_succ_cons, List.drop_zero, e2.1, e2.2]
    rw [if_neg (by simp only [not_and]; intro h; rcases h with h | h; exact absurd h hr0.2.1; exact absurd h hr0.2.2)]
  rw [e4]

theorem lex_num {t : LTok} {w r : Bytes} (h : Num false t w) (hr : After r) : lexNext true (w ++ r) = .ok (t, r) := by
  cases h with
  | int hn => exact C80_token (.int _ hn) r (follow_int hr _)
  | real hx => exact lex_real hx hr

theorem num_head {t : LTok} {w : Bytes} (h : Num false t w) : ∃ c l, w = c :: l ∧ 48 ≤ c ∧ c ≤ 57 := by
  cases h with
  | @int n _ =>
    obtain ⟨c, l, h, h'⟩ := Parse.Lex.decDigits_head n
    exact ⟨c, l, h, by simpa [isDigit] using h'⟩
  | real hx =>
    obtain ⟨n, ds, _, _, rfl⟩ := hx
    obtain ⟨c, l, h, h'⟩ := Parse.Lex.decDigits_head n
    exact ⟨c, l ++ 46 :: ds, by rw [h]; rfl, by simpa [isDigit] using h'⟩

theorem num_tok {t : LTok} {w : Bytes} (h : Num false t w) : (∃ n, t = .int n) ∨ ∃ x, t = .real x := by
  cases h with
  | int _ => exact .inl ⟨_, rfl⟩
  | real _ => exact .inr ⟨_, rfl⟩

theorem spaces_blank {b : Bytes} (h : ∀ c ∈ b, isSpace c = true) : Blank b := by
  induction b with
  | nil => exact .nil
  | cons c b ih => exact .space (h c (by simp)) (ih fun d hd => h d (by simp [hd]))

/-- the two steps of a number: a minus, the digits -/
theorem num_steps {m : Bool} {t : LTok} {w r : Bytes} (h : Num m t w) (hr : After r) :
    ∃ t0 r0, lexNext true (w ++ r) = .ok (t0, r0) ∧ optMinus t0 r0 = .ok (m, t, r) ∧
      t0 ≠ .sym 41 ∧ t0 ≠ .sym 93 ∧ t0 ≠ .kw kDEFAULT ∧ t0 ≠ .kw kNULL ∧ ∀ n, t0 ≠ .name n := by
  cases m with
  | false =>
    refine ⟨t, r, lex_num h hr, ?_, ?_⟩
    · rcases num_tok h with ⟨n, rfl⟩ | ⟨x, rfl⟩ <;> simp [optMinus]
    · rcases num_tok h with ⟨n, rfl⟩ | ⟨x, rfl⟩ <;> simp
  | true =>
    cases h with
    | @neg _ b w hb hw =>
      refine ⟨.sym 45, b ++ (w ++ r), ?_, ?_, by simp⟩
      · have hh : ∀ d, (d = 45 ∨ d = 62) → (b ++ (w ++ r)).head? ≠ some d := by
          intro d hd
          cases b with
          | nil =>
            obtain ⟨c, l, rfl, hc⟩ := num_head hw
            simp; omega
          | cons c b =>
            have := space_val (hb c (by simp))
            simp; omega
        simpa using lex_minus (hh 45 (by simp)) (hh 62 (by simp))
      · simp only [optMinus, if_true]
        rw [lexNext_blank (spaces_blank hb), lex_num hw hr]
        rfl

/-! ## white space before a value -/

theorem skip_blank {b : Bytes} (hb : Blank b) (s : Bytes) : skipBlank ((b ++ s).length + 1) (b ++ s) = skipBlank (s.length + 1) s := by
  rw [skipBlank_blank hb s _ (by omega)]
  exact skipBlank_fuel s.length s _ _ (Nat.le_refl _) (by simp; omega) (by omega)

theorem ifTok_blank {b : Bytes} (hb : Blank b) (t : LTok) (s : Bytes) : ifTok t (b ++ s) = ifTok t s := by
  unfold ifTok; rw [lexNext_blank hb]

theorem expect_blank {b : Bytes} (hb : Blank b) (t : LTok) (s : Bytes) : expect t (b ++ s) = expect t s := by
  unfold expect; rw [lexNext_blank hb]

theorem parseVector_blank (E : Env) {b : Bytes} (hb : Blank b) (s : Bytes) : parseVector E (b ++ s) = parseVector E s := by
  unfold parseVector; rw [expect_blank hb]

theorem parseTyped_blank (E : Env) (c : Col) {b : Bytes} (hb : Blank b) (s : Bytes) (t : LTok) (r : Bytes) :
    parseTyped E c (b ++ s) t r = parseTyped E c s t r := by
  unfold parseTyped
  cases c.ty <;> simp only [skip_blank hb]
  split
  · rfl
  · rw [parseVector_blank E hb]

theorem parseValue_blank (E : Env) (c : Col) {b : Bytes} (hb : Blank b) (s : Bytes) : parseValue E c (b ++ s) = parseValue E c s := by
  unfold parseValue
  simp only [lexNext_blank hb, parseTyped_blank E c hb]

theorem parseItem_blank (E : Env) (c : Col) {b : Bytes} (hb : Blank b) (s : Bytes) : parseItem E c (b ++ s) = parseItem E c s := by
  unfold parseItem
  simp only [ifTok_blank hb, parseValue_blank E c hb]

end Verif.Insert
