import Verif.Parse.Lex
import Verif.Json.ParseProofs
/-!
# Text to tokens (C80)
-/
set_option linter.unusedSimpArgs false
set_option linter.unusedVariables false
namespace Verif.Parse.Lex
open Verif Verif.Json.Text Verif.Func

/-! ## How tokens are written -/

/-- letters, digits, `_` and `$` -/
def identChar (c : Nat) : Prop := (65 ≤ c ∧ c ≤ 90) ∨ (97 ≤ c ∧ c ≤ 122) ∨ (48 ≤ c ∧ c ≤ 57) ∨ c = 95 ∨ c = 36
instance (c : Nat) : Decidable (identChar c) := by unfold identChar; infer_instance

/-- a name starts with a letter or `_` -/
def identStart (c : Nat) : Prop := (65 ≤ c ∧ c ≤ 90) ∨ (97 ≤ c ∧ c ≤ 122) ∨ c = 95
instance (c : Nat) : Decidable (identStart c) := by unfold identStart; infer_instance

def Ident (s : Bytes) : Prop := (∃ c t, s = c :: t ∧ identStart c) ∧ ∀ c ∈ s, identChar c

/-- the symbols of two characters -/
def pairs : List (Nat × Nat × LTok) :=
  [(58, 58, .method), (58, 61, .assign), (124, 124, .cat), (45, 62, .arrow), (60, 62, .neq), (62, 61, .gte), (60, 61, .lte),
   (60, 60, .shl), (62, 62, .shr)]

/-- punctuation that is not a quote or `_` -/
def symChar (c : Nat) : Prop := ((33 ≤ c ∧ c ≤ 47) ∨ (58 ≤ c ∧ c ≤ 64) ∨ (91 ≤ c ∧ c ≤ 96) ∨ (123 ≤ c ∧ c ≤ 126)) ∧ c ≠ 34 ∧ c ≠ 39 ∧ c ≠ 96 ∧ c ≠ 95
instance (c : Nat) : Decidable (symChar c) := by unfold symChar; infer_instance

/-- .name.name -/
def dotted : List Bytes → Bytes
  | [] => []
  | p :: t => 46 :: (p ++ dotted t)

/-- the texts of a token -/
inductive Writes : Bytes → LTok → Prop
  | int (n : Nat) : n < 2 ^ 63 → Writes (decDigits n) (.int n)
  | sym (c : Nat) : symChar c → Writes [c] (.sym c)
  | pair {a b : Nat} {t : LTok} : (a, b, t) ∈ pairs → Writes [a, b] t
  | kw {s : Bytes} {i : Nat} {k : String} : kwNames[i]? = some k → s.map lower = strBytes k → Writes s (.kw i)
  | name {s : Bytes} : Ident s → (∀ k ∈ kwNames, s.map lower ≠ strBytes k) → Writes s (.name s)
  | quoted {s : Bytes} : (∀ c ∈ s, identChar c) → Writes (96 :: (s ++ [96])) (.name s)
  | path {s : Bytes} {ps : List Bytes} : Ident s → ps ≠ [] → (∀ p ∈ ps, p ≠ [] ∧ ∀ c ∈ p, identChar c) → Writes (s ++ dotted ps) (.compound (s ++ dotted ps))
  | star {s : Bytes} {ps : List Bytes} : Ident s → (∀ p ∈ ps, p ≠ [] ∧ ∀ c ∈ p, identChar c) →
      Writes (s ++ dotted ps ++ [46, 42]) (.compoundStar (s ++ dotted ps ++ [46, 42]))
  /-- a string with escapes, in double quotes -/
  | escaped {s : Bytes} : Utf8 s → Writes (34 :: (escape s ++ [34])) (.str (escape s) (hasEscape s))
  /-- a string as it is, in quotes that it does not contain -/
  | plain {q : Nat} {s : Bytes} : q = 34 ∨ q = 39 → Utf8 s → q ∉ s → 92 ∉ s → Writes (q :: (s ++ [q])) (.str s false)

/-- what may stand right after a token -/
def CanFollow : LTok → Bytes → Prop
  | _, [] => True
  | .int _, d :: _ => ¬ (48 ≤ d ∧ d ≤ 57) ∧ d ≠ 46 ∧ d ≠ 101 ∧ d ≠ 69
  | .kw _, d :: _ => ¬ identChar d ∧ d ≠ 46
  | .name _, d :: _ => ¬ identChar d ∧ d ≠ 46
  | .compound _, d :: _ => ¬ identChar d ∧ d ≠ 46
  | .sym c, d :: _ => (∀ p ∈ pairs, ¬ (p.1 = c ∧ p.2.1 = d)) ∧ ¬ (c = 45 ∧ d = 45)
  | _, _ => True

/-- white space and comments -/
inductive Blank : Bytes → Prop
  | nil : Blank []
  | space {c : Nat} {b : Bytes} : isSpace c = true → Blank b → Blank (c :: b)
  | comment {t b : Bytes} : 10 ∉ t → Blank (10 :: b) → Blank (45 :: 45 :: (t ++ 10 :: b))

/-- a text and its tokens -/
inductive Text : Bytes → List LTok → Prop
  | nil {b : Bytes} : Blank b → Text b []
  | cons {b w r : Bytes} {t : LTok} {l : List LTok} : Blank b → Writes w t → CanFollow t r → Text r l → Text (b ++ (w ++ r)) (t :: l)

/-! ## Blanks -/

theorem isComment_cons {s : Bytes} (h : isComment s = true) : ∃ t, s = 45 :: 45 :: t := by
  unfold isComment at h
  split at h
  · exact ⟨_, rfl⟩
  · simp at h

theorem dropWhile_le (p : Nat → Bool) (s : Bytes) : (s.dropWhile p).length ≤ s.length := by
  induction s with
  | nil => simp
  | cons c t ih => rw [List.dropWhile_cons]; split <;> simp <;> omega

theorem dropWhile_none {p : Nat → Bool} {c : Nat} {r : Bytes} (h : p c = false) : (c :: r).dropWhile p = c :: r := by
  simp [List.dropWhile_cons, h]

theorem skipBlank_fuel : ∀ (n : Nat) (s : Bytes) (f g : Nat), s.length ≤ n → n < f → n < g → skipBlank f s = skipBlank g s
  | n, s, f, g, hn, hf, hg => by
    obtain ⟨f, rfl⟩ : ∃ k, f = k + 1 := ⟨f - 1, by omega⟩
    obtain ⟨g, rfl⟩ : ∃ k, g = k + 1 := ⟨g - 1, by omega⟩
    simp only [skipBlank]
    split
    · rename_i h
      obtain ⟨t, ht⟩ := isComment_cons h
      have h1 := dropWhile_le isSpace s
      have h2 : ((s.dropWhile isSpace).dropWhile (fun c => decide (c ≠ 10))).length ≤ t.length := by
        rw [ht]
        simp only [List.dropWhile_cons]
        exact dropWhile_le _ t
      rw [ht] at h1
      simp only [List.length_cons] at h1
      have h3 : n - 1 < n := by omega
      exact skipBlank_fuel (n - 1) _ f g (by omega) (by omega) (by omega)
    · rfl
  termination_by n => n
  decreasing_by omega

theorem dropWhile_ne10 (t b : Bytes) (h : 10 ∉ t) : (t ++ 10 :: b).dropWhile (fun c => decide (c ≠ 10)) = 10 :: b := by
  induction t with
  | nil => simp [List.dropWhile_cons]
  | cons c t ih =>
    have hc : c ≠ 10 := by intro e; apply h; simp [e]
    rw [List.cons_append, List.dropWhile_cons, if_pos (by simp [hc]), ih (by intro e; apply h; simp [e])]

theorem skipBlank_blank {b : Bytes} (hb : Blank b) (s : Bytes) : ∀ f, (b ++ s).length < f → skipBlank f (b ++ s) = skipBlank f s := by
  induction hb with
  | nil => intro f _; rfl
  | @space c b hc _ ih =>
    intro f hf
    obtain ⟨f, rfl⟩ : ∃ k, f = k + 1 := ⟨f - 1, by simp at hf; omega⟩
    rw [← ih (f + 1) (by simp at hf ⊢; omega)]
    simp only [List.cons_append, skipBlank, List.dropWhile_cons, hc, if_true]
  | @comment t b ht _ ih =>
    intro f hf
    simp only [List.cons_append, List.append_assoc, List.length_cons, List.length_append] at hf
    obtain ⟨f, rfl⟩ : ∃ k, f = k + 1 := ⟨f - 1, by omega⟩
    have h := ih f (by simp only [List.cons_append, List.length_cons, List.length_append]; omega)
    have e : skipBlank (f + 1) ((45 :: 45 :: (t ++ 10 :: b)) ++ s) = skipBlank f ((10 :: b) ++ s) := by
      simp only [List.cons_append, skipBlank, List.append_assoc]
      rw [dropWhile_none (by decide)]
      simp only [isComment, if_true]
      rw [show (45 :: 45 :: (t ++ 10 :: (b ++ s))) = (45 :: 45 :: t) ++ 10 :: (b ++ s) by simp,
        dropWhile_ne10 _ _ (by simp [ht])]
    rw [e, h]
    exact skipBlank_fuel s.length s f (f + 1) (Nat.le_refl _) (by omega) (by omega)

/-- a position where a token starts -/
theorem skipBlank_tok {c : Nat} {r : Bytes} (h1 : isSpace c = false) (h2 : isComment (c :: r) = false) (f : Nat) : skipBlank f (c :: r) = c :: r := by
  cases f with
  | zero => rfl
  | succ f =>
    simp only [skipBlank]
    rw [dropWhile_none h1, h2]
    simp

theorem lexNext_blank {b : Bytes} (hb : Blank b) (on : Bool) (s : Bytes) : lexNext on (b ++ s) = lexNext on s := by
  unfold lexNext
  rw [skipBlank_blank hb s _ (by omega), skipBlank_fuel s.length s ((b ++ s).length + 1) (s.length + 1) (Nat.le_refl _) (by simp; omega) (by omega)]

/-! ## Tokens -/

theorem identChar_ok {c : Nat} (h : identChar c) : isNameChar c = true ∧ c ≠ 46 := by
  unfold identChar at h
  simp only [isNameChar, isAlpha, isDigit, decide_eq_true_eq, Bool.or_eq_true, Bool.and_eq_true]
  omega

theorem nameChar_iff {c : Nat} : isNameChar c = true ↔ identChar c ∨ c = 46 := by
  unfold identChar
  simp only [isNameChar, isAlpha, isDigit, decide_eq_true_eq, Bool.or_eq_true, Bool.and_eq_true]
  omega

/-- a run of name characters that ends -/
theorem takeWhile_run {n r : Bytes} (hn : ∀ c ∈ n, isNameChar c = true) (hr : ∀ d t, r = d :: t → isNameChar d = false) :
    (n ++ r).takeWhile isNameChar = n ∧ (n ++ r).dropWhile isNameChar = r := by
  induction n with
  | nil =>
    cases r with
    | nil => exact ⟨rfl, rfl⟩
    | cons d t => have := hr d t rfl; simp [List.takeWhile_cons, List.dropWhile_cons, this]
  | cons c n ih =>
    have hc := hn c (by simp)
    obtain ⟨a, b⟩ := ih fun x hx => hn x (by simp [hx])
    simp [List.takeWhile_cons, List.dropWhile_cons, hc, a, b]

theorem twoDots_none {s : Bytes} (h : 46 ∉ s) : twoDots s = false := by
  induction s with
  | nil => rfl
  | cons c t ih =>
    have : c ≠ 46 := by intro e; apply h; simp [e]
    unfold twoDots
    split
    · rename_i h1; simp at h1; exact absurd h1.1 this
    · rename_i h1; simp at h1; rw [← h1.2]; exact ih (by intro e; apply h; simp [e])
    · rfl

/-- after a character that is no dot -/
theorem twoDots_cons {c : Nat} {t : Bytes} (h : c ≠ 46) : twoDots (c :: t) = twoDots t := by
  rw [twoDots]
  intro _ h1
  exact fun _ => absurd h1 h

theorem twoDots_run {s r : Bytes} (h : 46 ∉ s) : twoDots (s ++ r) = twoDots r := by
  induction s with
  | nil => rfl
  | cons c t ih =>
    rw [List.cons_append, twoDots_cons (by intro e; apply h; simp [e]), ih (by intro e; apply h; simp [e])]

theorem twoDots_dot {c : Nat} {t : Bytes} (h : c ≠ 46) : twoDots (46 :: c :: t) = twoDots t := by
  rw [twoDots, twoDots_cons h]
  intro _ _ h2
  simp at h2
  exact absurd h2.1 h

theorem ident_no_dot {s : Bytes} (h : ∀ c ∈ s, identChar c) : 46 ∉ s := fun e => (identChar_ok (h 46 e)).2 rfl

theorem dotted_ok : ∀ (ps : List Bytes) (r : Bytes), (∀ p ∈ ps, p ≠ [] ∧ ∀ c ∈ p, identChar c) → (r = [] ∨ r = [46]) → twoDots (dotted ps ++ r) = false
  | [], r, _, hr => by rcases hr with rfl | rfl <;> rfl
  | p :: t, r, h, hr => by
    obtain ⟨hp, hc⟩ := h p (by simp)
    cases p with
    | nil => exact absurd rfl hp
    | cons c p =>
      have hcd := (identChar_ok (hc c (by simp))).2
      simp only [dotted, List.cons_append, List.append_assoc]
      rw [twoDots_dot hcd, twoDots_run (ident_no_dot fun x hx => hc x (by simp [hx]))]
      exact dotted_ok t r (fun p hp => h p (by simp [hp])) hr

theorem dotted_chars : ∀ (ps : List Bytes), (∀ p ∈ ps, p ≠ [] ∧ ∀ c ∈ p, identChar c) → ∀ c ∈ dotted ps, isNameChar c = true
  | [], _, c, hc => by simp [dotted] at hc
  | p :: t, h, c, hc => by
    simp only [dotted, List.mem_cons, List.mem_append] at hc
    rcases hc with rfl | hc | hc
    · decide
    · exact (identChar_ok ((h p (by simp)).2 c hc)).1
    · exact dotted_chars t (fun p hp => h p (by simp [hp])) c hc

/-- the last character of a path is no dot -/
theorem dotted_last : ∀ (ps : List Bytes) (s : Bytes), (∀ p ∈ ps, p ≠ [] ∧ ∀ c ∈ p, identChar c) → s ≠ [] → s.getLast? ≠ some 46 →
    (s ++ dotted ps).getLast? ≠ some 46
  | [], s, _, _, h => by simpa [dotted] using h
  | p :: t, s, h, hs, hl => by
    obtain ⟨hp, hc⟩ := h p (by simp)
    have : s ++ dotted (p :: t) = (s ++ 46 :: p) ++ dotted t := by simp [dotted]
    rw [this]
    refine dotted_last t _ (fun p hp => h p (by simp [hp])) (by simp) ?_
    intro e
    cases p with
    | nil => exact hp rfl
    | cons y ys =>
      have e2 : s ++ 46 :: y :: ys = (s ++ [46]) ++ (y :: ys) := by simp
      rw [e2, List.getLast?_append] at e
      have e3 : ((y :: ys).getLast?.or (s ++ [46]).getLast?) = (y :: ys).getLast? := by
        rw [List.getLast?_eq_some_getLast (by simp)]; rfl
      rw [e3] at e
      obtain ⟨zs, hzs⟩ := List.getLast?_eq_some_iff.1 e
      exact (identChar_ok (hc 46 (by rw [hzs]; simp))).2 rfl

theorem ident_last {s : Bytes} (h : ∀ c ∈ s, identChar c) : s.getLast? ≠ some 46 := by
  intro e
  obtain ⟨ys, hys⟩ := List.getLast?_eq_some_iff.1 e
  exact (identChar_ok (h 46 (by rw [hys]; simp))).2 rfl

theorem lower_lower (c : Nat) : lower (lower c) = lower c := by unfold lower; split <;> (try split) <;> omega

theorem map_lower (s : Bytes) : (s.map lower).map lower = s.map lower := by
  simp only [List.map_map]
  congr 1
  funext c
  exact lower_lower c

theorem kwScan_lower (s : Bytes) (ref : Nat) : ∀ (l : List Bytes) (i : Nat), kwScan (s.map lower) ref i l = kwScan s ref i l
  | [], i => rfl
  | k :: t, i => by
    have e : isCase (s.map lower) k = isCase s k := by simp only [isCase, List.length_map, map_lower]
    simp only [kwScan, e, kwScan_lower s ref t]

theorem kwMatchIn_lower (alpha : List (Option Nat)) (words : List Bytes) (s : Bytes) : kwMatchIn alpha words (s.map lower) = kwMatchIn alpha words s := by
  have e : lower ((s.map lower).headD 0) = lower (s.headD 0) := by
    cases s with
    | nil => rfl
    | cons c t => simp [lower_lower]
  simp only [kwMatchIn, e, kwScan_lower]

theorem kwMatch_lower (s : Bytes) : kwMatch (s.map lower) = kwMatch s := kwMatchIn_lower _ _ s

theorem kwScan_some {s : Bytes} {ref : Nat} : ∀ {l : List Bytes} {i j : Nat}, kwScan s ref i l = some j → ∃ k ∈ l, isCase s k = true
  | [], i, j, h => by simp [kwScan] at h
  | k :: t, i, j, h => by
    simp only [kwScan] at h
    split at h
    · simp at h
    · split at h
      · exact ⟨k, by simp, ‹_›⟩
      · obtain ⟨x, hx, hc⟩ := kwScan_some h
        exact ⟨x, by simp [hx], hc⟩

theorem kwNames_dec : ∀ k ∈ kwNames, (strBytes k).map lower = strBytes k ∧ strBytes k ≠ [] ∧ identStart ((strBytes k).headD 0) ∧ (strBytes k).headD 0 ≠ 95 ∧
    ∀ c ∈ strBytes k, identChar c := by decide +kernel

theorem kwNames_lower (k : String) (hk : k ∈ kwNames) : (strBytes k).map lower = strBytes k ∧ (∃ c t, strBytes k = c :: t ∧ identStart c ∧ c ≠ 95) ∧
    ∀ c ∈ strBytes k, identChar c := by
  obtain ⟨h1, h2, h3, h4, h5⟩ := kwNames_dec k hk
  refine ⟨h1, ?_, h5⟩
  cases e : strBytes k with
  | nil => exact absurd e h2
  | cons c t => rw [e] at h3 h4; exact ⟨c, t, rfl, h3, h4⟩

theorem kwMatchIn_some {alpha : List (Option Nat)} {words : List Bytes} {s : Bytes} {j : Nat} (h : kwMatchIn alpha words s = some j) :
    ∃ k ∈ words, isCase s k = true := by
  unfold kwMatchIn at h
  cases e : alpha[lower (s.headD 0) - 97]?.getD none with
  | none => rw [e] at h; simp at h
  | some i =>
    rw [e] at h
    obtain ⟨k, hkm, hc⟩ := kwScan_some h
    exact ⟨k, List.mem_of_mem_drop hkm, hc⟩

theorem kwMatch_none {s : Bytes} (h : ∀ k ∈ kwNames, s.map lower ≠ strBytes k) : kwMatch s = none := by
  cases hk : kwMatch s with
  | none => rfl
  | some j =>
    exfalso
    obtain ⟨k, hm, hc⟩ := kwMatchIn_some hk
    obtain ⟨n, hn, rfl⟩ := List.mem_map.1 hm
    unfold isCase at hc
    exact h n hn (by rw [(of_decide_eq_true hc).2, (kwNames_lower n hn).1])

theorem kwMatch_table : ∀ i, i < kwNames.length → kwMatch (strBytes (kwNames[i]?.getD "")) = some i := by decide +kernel

theorem kwMatch_kw {s : Bytes} {i : Nat} {k : String} (hk : kwNames[i]? = some k) (hs : s.map lower = strBytes k) : kwMatch s = some i := by
  have hi : i < kwNames.length := (List.getElem?_eq_some_iff.1 hk).1
  have := kwMatch_table i hi
  rw [hk] at this
  rw [← kwMatch_lower, hs]
  exact this

/-- a case variant of a keyword is a name by its letters -/
theorem kw_ident {s : Bytes} {k : String} (hk : k ∈ kwNames) (hs : s.map lower = strBytes k) :
    (∃ c t, s = c :: t ∧ identStart c ∧ c ≠ 95) ∧ ∀ c ∈ s, identChar c := by
  obtain ⟨-, ⟨c, t, hc, hst, hu⟩, hall⟩ := kwNames_lower k hk
  have hl : ∀ x, identChar (lower x) → identChar x := by
    intro x hx; unfold identChar lower at *; split at hx <;> omega
  constructor
  · cases s with
    | nil => rw [hc] at hs; simp at hs
    | cons x s =>
      rw [hc] at hs
      simp at hs
      refine ⟨x, s, rfl, ?_, ?_⟩
      · rw [← hs.1] at hst
        unfold identStart lower at *; split at hst <;> omega
      · intro e; subst e; rw [← hs.1] at hu; exact hu rfl
  · intro x hx
    apply hl
    apply hall
    rw [← hs]
    exact List.mem_map_of_mem hx

/-- before the name -/
theorem lexNext_name {c : Nat} {t : Bytes} (on : Bool) (hc : identStart c) : lexNext on (c :: t) = lexName on (c :: t) := by
  unfold identStart at hc
  have h1 : isSpace c = false := by simp [isSpace]; omega
  have h2 : isComment (c :: t) = false := by
    unfold isComment; split
    · rename_i h; simp at h; omega
    · rfl
  have h3 : isDigit c = false := by simp [isDigit]; omega
  have h4 : ¬ (isPunct c ∧ c ≠ 34 ∧ c ≠ 39 ∧ c ≠ 96 ∧ c ≠ 95) := by simp [isPunct]; omega
  have h5 : isAlpha c = true ∨ c = 95 ∨ c = 96 := by simp [isAlpha]; omega
  simp only [lexNext]
  rw [skipBlank_tok h1 h2]
  simp only [h3, Bool.false_eq_true, if_false, h4, if_neg h4, if_pos h5]

theorem follow_run {r : Bytes} {t : LTok} (h : CanFollow t r) (ht : (∃ i, t = .kw i) ∨ (∃ s, t = .name s) ∨ ∃ s, t = .compound s) :
    ∀ d x, r = d :: x → isNameChar d = false := by
  intro d x e
  subst e
  have : ¬ identChar d ∧ d ≠ 46 := by rcases ht with ⟨i, rfl⟩ | ⟨s, rfl⟩ | ⟨s, rfl⟩ <;> exact h
  cases hq : isNameChar d with
  | false => rfl
  | true => rcases nameChar_iff.1 hq with h | h
            · exact absurd h this.1
            · exact absurd h this.2

/-- lexName on a bare name -/
theorem lexName_bare {on : Bool} {s r : Bytes} (hs : ∃ c t, s = c :: t ∧ identStart c) (hc : ∀ c ∈ s, identChar c)
    (hr : ∀ d t, r = d :: t → isNameChar d = false) :
    lexName on (s ++ r) = if s.headD 0 ≠ 95 ∧ on = true then (match kwMatch s with | some k => .ok (.kw k, r) | none => .ok (.name s, r)) else .ok (.name s, r) := by
  obtain ⟨tw, dw⟩ := takeWhile_run (fun c h => (identChar_ok (hc c h)).1) hr
  have hnd := ident_no_dot hc
  obtain ⟨c, t, rfl, hst⟩ := hs
  have hw : c ≠ 96 := by unfold identStart at hst; omega
  unfold lexName
  have e1 : (if decide (((c :: t) ++ r).headD 0 = 96) = true then ((c :: t) ++ r).drop 1 else ((c :: t) ++ r)) = (c :: t) ++ r := by
    simp [hw]
  have hw2 : decide (((c :: t) ++ r).headD 0 = 96) = false := by simp [hw]
  simp only [e1, tw, dw, twoDots_none hnd, hnd, false_and, Bool.false_eq_true, if_false, decide_false, not_false_eq_true, true_and, hw2]
  rfl

/-- lexName on a path -/
theorem lexName_path {on : Bool} {n r : Bytes} (hs : ∃ c t, n = c :: t ∧ identStart c) (hc : ∀ c ∈ n, isNameChar c = true) (hd : 46 ∈ n)
    (h2 : twoDots n = false) (hr : ∀ d t, r = d :: t → isNameChar d = false) :
    lexName on (n ++ r) = if n.getLast? = some 46 then (if r.headD 0 ≠ 42 then .error .err else .ok (.compoundStar (n ++ [42]), r.drop 1))
      else .ok (.compound n, r) := by
  obtain ⟨tw, dw⟩ := takeWhile_run hc hr
  obtain ⟨c, t, rfl, hst⟩ := hs
  have hw : c ≠ 96 := by unfold identStart at hst; omega
  unfold lexName
  have e1 : (if decide (((c :: t) ++ r).headD 0 = 96) = true then ((c :: t) ++ r).drop 1 else ((c :: t) ++ r)) = (c :: t) ++ r := by
    simp [hw]
  have hw2 : decide (((c :: t) ++ r).headD 0 = 96) = false := by simp [hw]
  simp only [e1, tw, dw, h2, hd, Bool.false_eq_true, if_false, true_and, hw2, not_true, false_and]
  by_cases hl : (c :: t).getLast? = some 46
  · simp only [hl, true_and, if_true, decide_true]
  · simp only [hl, false_and, if_false, decide_false, Bool.false_eq_true, if_true]

theorem twoChar_pairs {a b : Nat} {t : LTok} (h : (a, b, t) ∈ pairs) : twoChar a b = some t ∧ symChar a ∧ ¬ (a = 45 ∧ b = 45) := by
  simp only [pairs, List.mem_cons, List.not_mem_nil, or_false, Prod.mk.injEq] at h
  rcases h with ⟨rfl, rfl, rfl⟩ | ⟨rfl, rfl, rfl⟩ | ⟨rfl, rfl, rfl⟩ | ⟨rfl, rfl, rfl⟩ | ⟨rfl, rfl, rfl⟩ | ⟨rfl, rfl, rfl⟩ | ⟨rfl, rfl, rfl⟩ |
    ⟨rfl, rfl, rfl⟩ | ⟨rfl, rfl, rfl⟩ <;> decide

theorem twoChar_none {a b : Nat} (h : ∀ p ∈ pairs, ¬ (p.1 = a ∧ p.2.1 = b)) : twoChar a b = none := by
  simp only [pairs, List.forall_mem_cons, List.not_mem_nil, false_implies, implies_true, and_true] at h
  obtain ⟨h1, h2, h3, h4, h5, h6, h7, h8, h9⟩ := h
  unfold twoChar
  rw [if_neg (by omega), if_neg (by omega), if_neg (by omega), if_neg (by omega), if_neg (by omega), if_neg (by omega), if_neg (by omega),
    if_neg (by omega), if_neg (by omega)]

theorem lexNext_sym {c : Nat} {r : Bytes} (on : Bool) (hc : symChar c) (h2 : ¬ (c = 45 ∧ r.head? = some 45)) : lexNext on (c :: r) = .ok (lexSymbol c r) := by
  unfold symChar at hc
  have h1 : isSpace c = false := by simp [isSpace]; omega
  have h2 : isComment (c :: r) = false := by
    unfold isComment; split
    · rename_i h; simp at h; obtain ⟨rfl, rfl⟩ := h; exact absurd ⟨rfl, rfl⟩ h2
    · rfl
  have h3 : isDigit c = false := by simp [isDigit]; omega
  have h4 : (isPunct c ∧ c ≠ 34 ∧ c ≠ 39 ∧ c ≠ 96 ∧ c ≠ 95) := by simp [isPunct]; omega
  simp only [lexNext]
  rw [skipBlank_tok h1 h2]
  simp only [h3, Bool.false_eq_true, if_false, if_pos h4]

/-- what the JSON string reader accepts is read in the same way -/
theorem strLoop_json (q : Nat) : ∀ (f : Nat) (slash : Bool) (acc : Bytes) (esc : Bool) (s : Bytes) (x : Bytes × Bytes × Bool),
    stringLoop q f slash acc esc s = .ok x → strLoop q f slash acc esc s = .ok x
  | 0, _, _, _, _, _, h => by simp [stringLoop] at h
  | f + 1, slash, acc, esc, s, x, h => by
    cases s with
    | nil => simp [stringLoop] at h
    | cons c r =>
      simp only [stringLoop] at h
      simp only [strLoop]
      split at h
      · rename_i h1; rw [if_pos h1]; exact h
      · rename_i h1
        rw [if_neg h1]
        split at h
        · rename_i h2; rw [if_pos h2]; exact strLoop_json q f _ _ _ _ _ h
        · rename_i h2
          rw [if_neg h2]
          split at h
          · simp at h
          · cases hu : utf8Next (c :: r) with
            | none => rw [hu] at h; simp at h
            | some r' => rw [hu] at h; exact strLoop_json q f _ _ _ _ _ h

theorem strLoop_cp {q fuel : Nat} {slash esc : Bool} {acc r bs : Bytes} {c : Nat} {cp : Bytes}
    (hbs : bs = c :: (cp ++ r)) (h1 : c ≠ q) (h9 : c ≠ 92) (h3 : utf8Next bs = some r) :
    strLoop q (fuel + 1) false acc esc bs = strLoop q fuel false (acc ++ (c :: cp)) esc r := by
  have e : (c :: (cp ++ r)).take ((c :: (cp ++ r)).length - r.length) = c :: cp := by
    have : (c :: (cp ++ r)).length - r.length = (c :: cp).length := by simp; omega
    rw [this]
    exact List.take_left' (l₁ := c :: cp) (l₂ := r) rfl
  subst hbs
  simp only [strLoop, h1, h3, false_and, if_false, e, if_neg h9]

theorem strLoop_plain {q : Nat} (hq : q < 128) (s : Bytes) (hs : Utf8 s) : q ∉ s → 92 ∉ s → ∀ (f : Nat) (acc : Bytes) (rest : Bytes),
    s.length < f → strLoop q f false acc false (s ++ q :: rest) = .ok (acc ++ s, rest, false) := by
  induction hs with
  | nil =>
    intro _ _ f acc rest hf
    obtain ⟨f, rfl⟩ : ∃ k, f = k + 1 := ⟨f - 1, by omega⟩
    simp [strLoop]
  | @one a t ha ht ih =>
    intro hn h9 f acc rest hf
    obtain ⟨f, rfl⟩ : ∃ k, f = k + 1 := ⟨f - 1, by omega⟩
    simp only [List.length_cons] at hf
    have := strLoop_cp (q := q) (fuel := f) (slash := false) (esc := false) (acc := acc) (bs := a :: (t ++ q :: rest)) (c := a) (cp := []) (r := t ++ q :: rest) rfl
      (by rintro rfl; apply hn; simp) (by rintro rfl; apply h9; simp) (by simp [utf8Next, ha])
    rw [List.cons_append, this, ih (by intro e; apply hn; simp [e]) (by intro e; apply h9; simp [e]) f _ rest (by omega)]
    simp
  | @two a b t h1 h2 h3 h4 ht ih =>
    intro hn h9 f acc rest hf
    obtain ⟨f, rfl⟩ : ∃ k, f = k + 1 := ⟨f - 1, by omega⟩
    simp only [List.length_cons] at hf
    have := strLoop_cp (q := q) (fuel := f) (slash := false) (esc := false) (acc := acc) (bs := a :: b :: (t ++ q :: rest)) (c := a) (cp := [b]) (r := t ++ q :: rest) rfl
      (by omega) (by omega) (by
        simp only [utf8Next]
        rw [if_neg (by omega), if_pos (by omega), if_pos (by omega), if_neg (by omega)])
    rw [List.cons_append, List.cons_append, this, ih (by intro e; apply hn; simp [e]) (by intro e; apply h9; simp [e]) f _ rest (by omega)]
    simp
  | @three a b c t h1 h2 h3 h4 h5 h6 ht ih =>
    intro hn h9 f acc rest hf
    have h3' : 0x80 ≤ b := by split at h3 <;> omega
    have h4' : b ≤ 0xBF := by split at h4 <;> omega
    obtain ⟨f, rfl⟩ : ∃ k, f = k + 1 := ⟨f - 1, by omega⟩
    simp only [List.length_cons] at hf
    have := strLoop_cp (q := q) (fuel := f) (slash := false) (esc := false) (acc := acc) (bs := a :: b :: c :: (t ++ q :: rest)) (c := a) (cp := [b, c]) (r := t ++ q :: rest) rfl
      (by omega) (by omega) (by
        simp only [utf8Next]
        rw [if_neg (by omega), if_neg (by omega), if_pos (by omega), if_pos (by omega), if_neg]
        split at h3 <;> omega)
    rw [List.cons_append, List.cons_append, List.cons_append, this, ih (by intro e; apply hn; simp [e]) (by intro e; apply h9; simp [e]) f _ rest (by omega)]
    simp
  | @four a b c d t h1 h2 h3 h4 h5 h6 h7 h8 ht ih =>
    intro hn h9 f acc rest hf
    have h3' : 0x80 ≤ b := by split at h3 <;> omega
    have h4' : b ≤ 0xBF := by split at h4 <;> omega
    obtain ⟨f, rfl⟩ : ∃ k, f = k + 1 := ⟨f - 1, by omega⟩
    simp only [List.length_cons] at hf
    have := strLoop_cp (q := q) (fuel := f) (slash := false) (esc := false) (acc := acc) (bs := a :: b :: c :: d :: (t ++ q :: rest)) (c := a) (cp := [b, c, d]) (r := t ++ q :: rest) rfl
      (by omega) (by omega) (by
        simp only [utf8Next]
        rw [if_neg (by omega), if_neg (by omega), if_neg (by omega), if_pos (by omega), if_pos (by omega), if_neg]
        split at h3 <;> omega)
    rw [List.cons_append, List.cons_append, List.cons_append, List.cons_append, this, ih (by intro e; apply hn; simp [e]) (by intro e; apply h9; simp [e]) f _ rest (by omega)]
    simp

theorem lexNext_quote {q : Nat} (hq : q = 34 ∨ q = 39) (on : Bool) (r : Bytes) : lexNext on (q :: r) = lexString q r := by
  have h1 : isSpace q = false := by rcases hq with rfl | rfl <;> decide
  have h2 : isComment (q :: r) = false := by rcases hq with rfl | rfl <;> rfl
  simp only [lexNext]
  rw [skipBlank_tok h1 h2]
  rcases hq with rfl | rfl <;> simp [isDigit, isPunct, isAlpha]

theorem decDigits_head (n : Nat) : ∃ c t, decDigits n = c :: t ∧ isDigit c = true := by
  induction n using Nat.strongRecOn with
  | ind n ih =>
    unfold decDigits
    split
    · exact ⟨_, _, rfl, by simp [isDigit]; omega⟩
    · obtain ⟨c, t, e, h⟩ := ih (n / 10) (by omega)
      exact ⟨c, _, by rw [e]; rfl, h⟩

/-- **C80** a token that is written is read, and the text after it is left -/
theorem C80_token {w : Bytes} {t : LTok} (h : Writes w t) (r : Bytes) (hr : CanFollow t r) : lexNext true (w ++ r) = .ok (t, r) := by
  cases h with
  | int n hn =>
    obtain ⟨c, x, e, hc⟩ := decDigits_head n
    have h1 : isSpace c = false := by simp [isDigit, isSpace] at hc ⊢; omega
    have h2 : isComment ((decDigits n) ++ r) = false := by
      rw [e]; unfold isComment; split
      · rename_i h; simp at h; rw [h.1] at hc; simp [isDigit] at hc
      · rfl
    have hs : Stop r := by
      cases r with
      | nil => trivial
      | cons d x => simp only [CanFollow] at hr; simp only [Stop, isDigit]; simp; omega
    have hd := digitLoop_digits n (by omega) r
    rw [digitLoop_stop _ r hs] at hd
    simp only [lexNext]
    rw [e] at h2 hd ⊢
    simp only [List.cons_append] at h2 hd ⊢
    rw [skipBlank_tok h1 h2]
    simp only [hc, if_true, lexNumber, hd, Int.toNat_natCast]
    try simp
  | sym c hc =>
    rw [List.singleton_append]
    rw [lexNext_sym true hc]
    · cases r with
      | nil => rfl
      | cons d x => simp only [CanFollow] at hr; simp only [lexSymbol, twoChar_none hr.1]
    · cases r with
      | nil => simp
      | cons d x => simp only [CanFollow] at hr; simp only [List.head?_cons, Option.some.injEq]; exact hr.2
  | @pair a b _ hp =>
    obtain ⟨h1, h2, h3⟩ := twoChar_pairs hp
    rw [List.cons_append, List.singleton_append, lexNext_sym true h2 (by simpa using h3)]
    simp only [lexSymbol, h1]
  | @kw _ i k hk hs =>
    have hm : k ∈ kwNames := List.mem_of_getElem? hk
    obtain ⟨⟨c, x, rfl, hst, hu⟩, hall⟩ := kw_ident hm hs
    have hrun := follow_run hr (.inl ⟨i, rfl⟩)
    rw [List.cons_append, lexNext_name true hst, ← List.cons_append, lexName_bare ⟨c, x, rfl, hst⟩ hall hrun, kwMatch_kw hk hs]
    simp [hu]
  | name hs hn =>
    have hrun := follow_run hr (.inr (.inl ⟨w, rfl⟩))
    obtain ⟨⟨c, x, rfl, hst⟩, hall⟩ := hs
    rw [List.cons_append, lexNext_name true hst, ← List.cons_append, lexName_bare ⟨c, x, rfl, hst⟩ hall hrun, kwMatch_none hn]
    simp
  | @quoted s hs =>
    have h1 : isSpace 96 = false := by decide
    have h2 : isComment (96 :: (s ++ 96 :: r)) = false := rfl
    obtain ⟨tw, dw⟩ := takeWhile_run (n := s) (r := 96 :: r) (fun c h => (identChar_ok (hs c h)).1) (by intro d x e; simp at e; rw [← e.1]; decide)
    have hnd := ident_no_dot hs
    rw [show (96 :: (s ++ [96])) ++ r = 96 :: (s ++ 96 :: r) by simp]
    simp only [lexNext]
    rw [skipBlank_tok h1 h2]
    have h3 : isDigit 96 = false := by decide
    simp only [h3, Bool.false_eq_true, if_false]
    rw [if_neg (by simp), if_pos (by simp)]
    unfold lexName
    simp only [List.headD_cons, decide_true, if_true, List.drop_succ_cons, List.drop_zero, tw, dw, twoDots_none hnd, hnd, false_and, Bool.false_eq_true,
      if_false, decide_false, ne_eq, not_true]
  | @path s ps hs hps hp =>
    have hrun := follow_run hr (.inr (.inr ⟨_, rfl⟩))
    obtain ⟨⟨c, x, rfl, hst⟩, hall⟩ := hs
    have hd : 46 ∈ (c :: x) ++ dotted ps := by
      cases ps with
      | nil => exact absurd rfl hps
      | cons p t => simp [dotted]
    have h2 : twoDots ((c :: x) ++ dotted ps) = false := by
      rw [twoDots_run (ident_no_dot hall)]
      have := dotted_ok ps [] hp (.inl rfl)
      rwa [List.append_nil] at this
    have hc : ∀ y ∈ (c :: x) ++ dotted ps, isNameChar y = true := by
      intro y hy
      simp only [List.mem_append] at hy
      rcases hy with hy | hy
      · exact (identChar_ok (hall y hy)).1
      · exact dotted_chars ps hp y hy
    have hl := dotted_last ps (c :: x) hp (by simp) (ident_last hall)
    have := lexName_path (on := true) ⟨c, x ++ dotted ps, rfl, hst⟩ hc hd h2 hrun
    rw [if_neg (show ¬ (c :: (x ++ dotted ps)).getLast? = some 46 from hl)] at this
    rw [← List.cons_append] at this
    rw [← this]
    simp only [List.cons_append]
    exact lexNext_name true hst
  | @star s ps hs hp =>
    obtain ⟨⟨c, x, rfl, hst⟩, hall⟩ := hs
    have e0 : ((c :: x) ++ dotted ps ++ [46, 42]) ++ r = ((c :: x) ++ dotted ps ++ [46]) ++ (42 :: r) := by simp
    have hd : 46 ∈ (c :: x) ++ dotted ps ++ [46] := by simp
    have h2 : twoDots ((c :: x) ++ dotted ps ++ [46]) = false := by
      rw [List.append_assoc, twoDots_run (ident_no_dot hall)]
      exact dotted_ok ps [46] hp (.inr rfl)
    have hc : ∀ y ∈ (c :: x) ++ dotted ps ++ [46], isNameChar y = true := by
      intro y hy
      simp only [List.mem_append] at hy
      rcases hy with (hy | hy) | hy
      · exact (identChar_ok (hall y hy)).1
      · exact dotted_chars ps hp y hy
      · simp at hy; rw [hy]; decide
    have hl : ((c :: x) ++ dotted ps ++ [46]).getLast? = some 46 := by rw [List.getLast?_append]; rfl
    have := lexName_path (on := true) (n := (c :: x) ++ dotted ps ++ [46]) (r := 42 :: r) ⟨c, x ++ dotted ps ++ [46], by simp, hst⟩ hc hd h2
      (by intro d y e; simp at e; rw [← e.1]; decide)
    rw [if_pos hl] at this
    rw [e0]
    simp only [List.headD_cons, ne_eq, not_true, if_false, List.drop_succ_cons, List.drop_zero] at this
    rw [show ((c :: x) ++ dotted ps ++ [46, 42]) = ((c :: x) ++ dotted ps ++ [46]) ++ [42] by simp, ← this]
    simp only [List.cons_append]
    exact lexNext_name true hst
  | @escaped s hs =>
    rw [show (34 :: (escape s ++ [34])) ++ r = 34 :: (escape s ++ 34 :: r) by simp, lexNext_quote (.inl rfl)]
    unfold lexString
    rw [strLoop_json 34 _ _ _ _ _ _ (stringLoop_escape s hs ((escape s ++ 34 :: r).length + 1) [] false r (by simp; omega))]
    simp [Except.bind]
  | @plain q s hq hs hn h9 =>
    rw [show (q :: (s ++ [q])) ++ r = q :: (s ++ q :: r) by simp, lexNext_quote hq]
    unfold lexString
    rw [strLoop_plain (by omega) s hs hn h9 _ [] r (by simp; omega)]
    simp [Except.bind]

theorem Writes.ne {w : Bytes} {t : LTok} (h : Writes w t) : w ≠ [] ∧ t ≠ .eof := by
  cases h with
  | int n hn => obtain ⟨c, x, e, -⟩ := decDigits_head n; rw [e]; simp
  | pair hp =>
    refine ⟨by simp, ?_⟩
    rintro rfl
    simp [pairs] at hp
  | kw hk hs =>
    obtain ⟨⟨c, x, rfl, -⟩, -⟩ := kw_ident (List.mem_of_getElem? hk) hs
    simp
  | name hs _ => obtain ⟨⟨c, x, rfl, -⟩, -⟩ := hs; simp
  | path hs _ _ => obtain ⟨⟨c, x, rfl, -⟩, -⟩ := hs; simp
  | star _ _ => simp
  | sym c _ => simp
  | quoted _ => simp
  | escaped _ => simp
  | plain _ _ _ _ => simp

theorem lexNext_end (on : Bool) : lexNext on [] = .ok (.eof, []) := rfl

/-- **C80** a text of tokens, with any white space and comments between them (none where the next character cannot belong to the token), is
read as these tokens -/
theorem C80_text {s : Bytes} {l : List LTok} (h : Text s l) : ∀ f, s.length < f → lexAll f s = .ok l := by
  induction h with
  | @nil b hb =>
    intro f hf
    obtain ⟨f, rfl⟩ : ∃ k, f = k + 1 := ⟨f - 1, by omega⟩
    have := lexNext_blank hb true []
    rw [List.append_nil, lexNext_end] at this
    simp [lexAll, this, Except.bind]
  | @cons b w r t l hb hw hc _ ih =>
    intro f hf
    obtain ⟨f, rfl⟩ : ∃ k, f = k + 1 := ⟨f - 1, by omega⟩
    have hlen : 0 < w.length := List.length_pos_iff.2 hw.ne.1
    have := lexNext_blank hb true (w ++ r)
    rw [C80_token hw r hc] at this
    simp only [lexAll, this, Except.bind, if_neg hw.ne.2]
    rw [ih f (by simp at hf; omega)]

/-- **C80** any string, escaped and in double quotes, is one literal with that value, whatever text follows: no string can break out of its
quotes -/
theorem C80_string (s : Bytes) (hs : Utf8 s) (rest : Bytes) :
    ∃ raw esc, lexNext true (34 :: (escape s ++ [34]) ++ rest) = .ok (.str raw esc, rest) ∧ strValue raw esc = .ok s := by
  refine ⟨escape s, hasEscape s, C80_token (.escaped hs) rest (by cases rest <;> trivial), ?_⟩
  unfold strValue
  cases h : hasEscape s with
  | false => simp [escape_noEscape s h]
  | true => simp [unescape_escape]

/-- the small letter of a capital letter, and every other byte as it is -/
def smallLetter (c : Nat) : Nat :=
  ((List.zip [65, 66, 67, 68, 69, 70, 71, 72, 73, 74, 75, 76, 77, 78, 79, 80, 81, 82, 83, 84, 85, 86, 87, 88, 89, 90]
    [97, 98, 99, 100, 101, 102, 103, 104, 105, 106, 107, 108, 109, 110, 111, 112, 113, 114, 115, 116, 117, 118, 119, 120, 121, 122]).lookup c).getD c

theorem lower_small : lower = smallLetter := by
  funext c
  by_cases h : c < 128
  · have : ∀ c, c < 128 → lower c = smallLetter c := by decide
    exact this c h
  · have e : smallLetter c = c := by
      unfold smallLetter
      rw [List.lookup_eq_none_iff.2]
      · rfl
      · intro p hp
        have : ∀ p ∈ (List.zip [65, 66, 67, 68, 69, 70, 71, 72, 73, 74, 75, 76, 77, 78, 79, 80, 81, 82, 83, 84, 85, 86, 87, 88, 89, 90]
            [97, 98, 99, 100, 101, 102, 103, 104, 105, 106, 107, 108, 109, 110, 111, 112, 113, 114, 115, 116, 117, 118, 119, 120, 121, 122]), p.1 < 128 := by decide
        have := this p hp
        simp; omega
    rw [e]; unfold lower; rw [if_neg (by omega)]

theorem twoDots_mid : ∀ (x z : Bytes), twoDots (x ++ 46 :: 46 :: z) = true
  | [], z => rfl
  | [c], z => by
    by_cases h : c = 46
    · subst h; rfl
    · simp [twoDots, h]
  | c :: d :: x, z => by
    have ih := twoDots_mid (d :: x) z
    simp only [List.cons_append] at ih ⊢
    rw [twoDots.eq_def]
    split
    · rfl
    · rename_i h; cases h; exact ih
    · rename_i h; cases h

/-- **C80** two dots in a row are refused in a name, whatever comes before and after them -/
theorem C80_two_dots (c : Nat) (x r : Bytes) (hc : identStart c) (hx : ∀ d ∈ x, identChar d ∨ d = 46) :
    lexNext true (c :: (x ++ [46, 46] ++ r)) = .error .err := by
  have e46 : isNameChar 46 = true := by decide
  have hn : ∀ d ∈ c :: x, isNameChar d = true := by
    intro d hd
    rcases List.mem_cons.1 hd with rfl | hd
    · simp only [identStart] at hc
      simp [isNameChar, isAlpha, isDigit]; omega
    · rcases hx d hd with h | rfl
      · exact (identChar_ok h).1
      · exact e46
  rw [lexNext_name true hc]
  unfold lexName
  have h96 : c ≠ 96 := by simp only [identStart] at hc; omega
  simp only [List.headD_cons, h96, decide_false, Bool.false_eq_true, if_false]
  have tw : (c :: (x ++ [46, 46] ++ r)).takeWhile isNameChar = (c :: x) ++ 46 :: 46 :: r.takeWhile isNameChar := by
    rw [show c :: (x ++ [46, 46] ++ r) = (c :: x) ++ 46 :: 46 :: r by simp, List.takeWhile_append_of_pos hn]
    simp [List.takeWhile_cons, e46]
  rw [tw, if_pos (twoDots_mid _ _)]

example : identStart 97 ∧ lexNext true [97, 46, 98, 46, 46, 99] = .error .err := by decide

/-- **C80** keywords are found whatever the case of their letters, and nothing else is a keyword -/
theorem C80_keyword (s : Bytes) (i : Nat) : kwMatch s = some i ↔ ∃ k, kwNames[i]? = some k ∧ s.map smallLetter = strBytes k := by
  rw [← lower_small]
  constructor
  · intro h
    by_cases hx : ∃ k ∈ kwNames, s.map lower = strBytes k
    · obtain ⟨k, hk, hs⟩ := hx
      obtain ⟨j, hj⟩ := List.getElem?_of_mem hk
      have := kwMatch_kw hj hs
      rw [h] at this
      simp at this
      subst this
      exact ⟨k, hj, hs⟩
    · rw [kwMatch_none (fun k hk hs => hx ⟨k, hk, hs⟩)] at h
      simp at h
  · rintro ⟨k, hk, hs⟩
    exact kwMatch_kw hk hs

/-- **C80 fails** for a single quote in single quotes: `'\''` is read as a literal whose value is a byte that was never written, and `''''` is
two empty strings -/
theorem C80_quote_false :
    lexNext true [39, 92, 39, 39] = .ok (.str [92, 39] true, []) ∧ strValue [92, 39] true = .error .ub ∧
    lexAll 5 [39, 39, 39, 39] = .ok [.str [] false, .str [] false] := by
  refine ⟨?_, ?_, ?_⟩ <;> decide +kernel

/-- **C80 fails** for numbers: 9223372036854775808 (so the smallest integer cannot be written with a minus sign) and
10000000000000000000.5 (a real) are errors -/
theorem C80_number_false : lexNext true (decDigits 9223372036854775808) = .error .err ∧
    lexNext true (decDigits 10000000000000000000 ++ [46, 53]) = .error .err := by
  constructor <;> decide +kernel

/-- `SELECT t.*, x>=10 -- c ⏎ FROM "a\"b"` -/
example : ∃ l, Text ((strBytes "SELECT") ++ (32 :: ([116] ++ dotted [] ++ [46, 42] ++ ([44] ++ (32 :: ([120] ++ ([62, 61] ++ (decDigits 10 ++
    ((32 :: 45 :: 45 :: ([32, 99] ++ 10 :: [])) ++ (34 :: (escape [97, 34, 98] ++ [34]) ++ [])))))))))) l ∧ l.length = 7 := by
  refine ⟨[.kw 103, .compoundStar [116, 46, 42], .sym 44, .name [120], .gte, .int 10, .str (escape [97, 34, 98]) (hasEscape [97, 34, 98])], ?_, rfl⟩
  have sp : ∀ c, isSpace c = true → Blank [c] := fun c h => .space h .nil
  have u : Utf8 [97, 34, 98] := .one (by decide) (.one (by decide) (.one (by decide) .nil))
  refine Text.cons (b := []) .nil (Writes.kw (s := strBytes "SELECT") (i := 103) (k := "select") rfl rfl) (by constructor <;> decide) ?_
  refine Text.cons (b := [32]) (sp 32 rfl) (Writes.star (s := [116]) (ps := []) ⟨⟨116, [], rfl, by decide⟩, by decide⟩ (by simp)) trivial ?_
  refine Text.cons (b := []) .nil (Writes.sym 44 (by decide)) (by constructor <;> decide) ?_
  refine Text.cons (b := [32]) (sp 32 rfl) (Writes.name (s := [120]) ⟨⟨120, [], rfl, by decide⟩, by decide⟩ (by decide +kernel)) (by constructor <;> decide) ?_
  refine Text.cons (b := []) .nil (Writes.pair (a := 62) (b := 61) (t := .gte) (by simp [pairs])) (by simp [CanFollow, decDigits]) ?_
  refine Text.cons (b := []) .nil (Writes.int 10 (by decide)) (by refine ⟨?_, ?_, ?_, ?_⟩ <;> decide) ?_
  refine Text.cons (b := 32 :: 45 :: 45 :: ([32, 99] ++ 10 :: [])) (.space rfl (.comment (t := [32, 99]) (by decide) (sp 10 rfl)))
    (Writes.escaped u) trivial (.nil .nil)

end Verif.Parse.Lex
