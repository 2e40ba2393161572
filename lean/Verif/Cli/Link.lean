import Verif.Cli.Proofs
import Verif.Cli.Spec
/-!
# The separator follows the tokens of the SQL lexer (C100)
-/
set_option autoImplicit false
set_option linter.unusedVariables false
set_option linter.unusedSimpArgs false
namespace Verif.Cli
open Verif Verif.Json.Text Verif.Parse.Lex Verif.Func

theorem delim_eq (c : Nat) : delim c = isDelim c := rfl

/-! ## blanks -/

theorem nx_congr {c c' : Cur} (h : skip c = skip c') : nx c = nx c' := by rw [nx_eq, nx_eq, h]

theorem nx_space {p : Option Nat} {x : Nat} {r : Bytes} (h : isSpace x = true) : nx ⟨p, x :: r⟩ = nx ⟨some x, r⟩ := by
  refine nx_congr ?_
  unfold skip
  have : skipSpace p (x :: r) = skipSpace (some x) r := by conv => lhs; unfold skipSpace; rw [if_pos h]
  dsimp only
  rw [this]

theorem comment_head {s : Bytes} (h : isComment s = true) : ∃ r, s = 45 :: 45 :: r := by
  unfold isComment at h
  split at h
  · exact ⟨_, rfl⟩
  · cases h

theorem skipSpace_stop {p : Option Nat} {s : Bytes} (h : isSpace (s.headD 0) = false ∨ s = []) : skipSpace p s = ⟨p, s⟩ := by
  cases s with
  | nil => rfl
  | cons x r =>
    unfold skipSpace
    rw [if_neg]
    rcases h with h | h
    · simpa using h
    · cases h

theorem skip_stop {p : Option Nat} {x : Nat} {r : Bytes} (h : isSpace x = false) (hc : isComment (x :: r) = false) : skip ⟨p, x :: r⟩ = ⟨p, x :: r⟩ := by
  unfold skip
  dsimp only
  rw [skipSpace_stop (s := x :: r) (.inl h), if_neg (by rw [hc]; simp)]

theorem skipLine_head (p : Option Nat) (s : Bytes) : (skipLine p s).rest = [] ∨ ∃ r, (skipLine p s).rest = 10 :: r := by
  induction s generalizing p with
  | nil => exact .inl rfl
  | cons x r ih =>
    unfold skipLine
    split
    · exact ih _
    · rename_i h
      have : x = 10 := by omega
      subst this
      exact .inr ⟨r, rfl⟩

theorem skipLine_eq (p : Option Nat) (s : Bytes) : (skipLine p s).rest = s.dropWhile (fun c => decide (c ≠ 10)) := by
  induction s generalizing p with
  | nil => rfl
  | cons x r ih =>
    unfold skipLine
    rw [List.dropWhile_cons]
    by_cases e : x = 10
    · subst e; simp
    · rw [if_pos e, if_pos (by simpa using e)]; exact ih _

theorem skip_comment {p : Option Nat} {s : Bytes} (h : isComment s = true) : skip ⟨p, s⟩ = skipLine p s := by
  obtain ⟨r, rfl⟩ := comment_head h
  unfold skip
  dsimp only
  rw [skipSpace_stop (s := 45 :: 45 :: r) (.inl (show isSpace 45 = false by decide)), if_pos h]

theorem at_newline (c : Cur) (r : Bytes) : at_ c 10 r = .inr ⟨some 10, r⟩ := by
  unfold at_
  rw [if_neg (by decide), if_neg (by decide)]
  rfl

theorem nx_comment {p : Option Nat} {s : Bytes} (h : isComment s = true) : nx ⟨p, s⟩ = nx (skipLine p s) := by
  have hs := skip_comment (p := p) h
  rcases skipLine_head p s with e | ⟨r, e⟩
  · rw [nx_nil (by rw [hs]; exact e), hs]
    have h2 : skip (skipLine p s) = skipLine p s := by
      have : skipLine p s = ⟨(skipLine p s).prev, []⟩ := by rw [← e]
      rw [this]; rfl
    rw [nx_nil (by rw [h2]; exact e), h2]
  · rw [nx_inr (c' := ⟨some 10, r⟩) (by rw [hs]; exact e) (at_newline _ _)]
    have : skipLine p s = ⟨(skipLine p s).prev, 10 :: r⟩ := by rw [← e]
    rw [this, nx_space (by decide)]

theorem nx_skipSpace (p : Option Nat) (s : Bytes) : nx (skipSpace p s) = nx ⟨p, s⟩ := by
  induction s generalizing p with
  | nil => rfl
  | cons x r ih =>
    unfold skipSpace
    split
    · rename_i h
      rw [ih, nx_space h]
    · rfl

theorem nx_skip (c : Cur) : nx (skip c) = nx c := by
  have h1 := nx_skipSpace c.prev c.rest
  unfold skip
  dsimp only
  split
  · rename_i h
    rw [← h1]
    exact (nx_comment h).symm
  · exact h1

theorem rl_congr {c c' : Cur} (h : nx c = nx c') (ic lv : Nat) : rl ic lv c = rl ic lv c' := by rw [rl_eq ic lv c, rl_eq ic lv c', h]

theorem skipSpace_prev (p : Option Nat) (s : Bytes) : (s.dropWhile isSpace = s ∧ (skipSpace p s).prev = p) ∨ (skipSpace p s).prev.all isDelim = true := by
  induction s generalizing p with
  | nil => exact .inl ⟨rfl, rfl⟩
  | cons x r ih =>
    unfold skipSpace
    rw [List.dropWhile_cons]
    split
    · rename_i h
      right
      rcases ih (some x) with ⟨_, e⟩ | e
      · rw [e]; simp [isDelim, h]
      · exact e
    · exact .inl ⟨rfl, rfl⟩

theorem comment_len {s : Bytes} (h : isComment s = true) : (s.dropWhile (fun c => decide (c ≠ 10))).length + 2 ≤ s.length := by
  obtain ⟨r, rfl⟩ := comment_head h
  have : ((45 :: 45 :: r).dropWhile (fun c => decide (c ≠ 10))) = r.dropWhile (fun c => decide (c ≠ 10)) := by simp [List.dropWhile_cons]
  rw [this]
  have := (List.dropWhile_suffix (fun c => decide (c ≠ 10)) (l := r)).length_le
  simp only [List.length_cons]; omega

theorem dropWhile_len (p : Nat → Bool) (s : Bytes) : (s.dropWhile p).length ≤ s.length := (List.dropWhile_suffix p).length_le

theorem dropWhile_head {p : Nat → Bool} {s : Bytes} {x : Nat} {r : Bytes} (h : s.dropWhile p = x :: r) : p x = false := by
  induction s with
  | nil => cases h
  | cons a l ih =>
    rw [List.dropWhile_cons] at h
    split at h
    · exact ih h
    · rename_i e
      injection h with h1 h2
      rw [← h1]; simpa using e

theorem skipBlank_stop (f : Nat) : ∀ s : Bytes, s.length < f → ∀ x r, skipBlank f s = x :: r → isSpace x = false ∧ isComment (x :: r) = false := by
  induction f with
  | zero => intro s h; omega
  | succ f ih =>
    intro s h x r e
    unfold skipBlank at e
    dsimp only at e
    have hl := dropWhile_len isSpace s
    split at e
    · rename_i hc
      have := comment_len hc
      exact ih _ (by omega) x r e
    · rename_i hc
      rw [e] at hc
      exact ⟨dropWhile_head e, by simpa using hc⟩

theorem skipBlank_suf (f : Nat) : ∀ s : Bytes, skipBlank f s <:+ s := by
  induction f with
  | zero => intro s; exact List.suffix_refl _
  | succ f ih =>
    intro s
    unfold skipBlank
    dsimp only
    split
    · exact (ih _).trans ((List.dropWhile_suffix _).trans (List.dropWhile_suffix _))
    · exact List.dropWhile_suffix _

theorem nx_blank (f : Nat) : ∀ (s : Bytes) (p : Option Nat), s.length < f →
    ∃ p', nx ⟨p, s⟩ = nx ⟨p', skipBlank f s⟩ ∧ ((skipBlank f s = s ∧ p' = p) ∨ p'.all isDelim = true ∨ skipBlank f s = []) := by
  induction f with
  | zero => intro s p h; omega
  | succ f ih =>
    intro s p h
    have hl := dropWhile_len isSpace s
    have h1 := nx_skipSpace p s
    have h2 := skipSpace_eq p s
    have h3 := skipSpace_prev p s
    have he : skipSpace p s = ⟨(skipSpace p s).prev, s.dropWhile isSpace⟩ := by rw [← h2]
    unfold skipBlank
    dsimp only
    split
    · rename_i hc
      have hcl := comment_len hc
      rw [← h1, he, nx_comment hc]
      have e2 : skipLine (skipSpace p s).prev (s.dropWhile isSpace) = ⟨(skipLine (skipSpace p s).prev (s.dropWhile isSpace)).prev, (s.dropWhile isSpace).dropWhile (fun c => decide (c ≠ 10))⟩ := by
        rw [← skipLine_eq (skipSpace p s).prev]
      rw [e2]
      generalize hu : (s.dropWhile isSpace).dropWhile (fun c => decide (c ≠ 10)) = u at hcl ⊢
      obtain ⟨p', i1, i2⟩ := ih u (skipLine (skipSpace p s).prev (s.dropWhile isSpace)).prev (by omega)
      refine ⟨p', i1, ?_⟩
      rcases i2 with ⟨i2, _⟩ | i2
      · -- the rest begins with the newline, which is skipped
        right; right
        cases hu' : u with
        | nil => rw [hu'] at i2; exact i2
        | cons a t =>
          exfalso
          rw [hu'] at i2 hu
          have hlen : u.length = t.length + 1 := by rw [hu']; rfl
          have ha := (skipBlank_stop f (a :: t) (by simp only [List.length_cons]; omega) a t i2).1
          have : a = 10 := by
            have := dropWhile_head hu
            simpa using this
          subst this
          revert ha; decide
      · exact .inr i2
    · rw [← h1, he]
      exact ⟨_, rfl, h3.imp id .inl⟩

/-! ## characters that are passed over -/

/-- a character that starts nothing -/
def plain (x : Nat) : Bool := isSpace x = false ∧ x ≠ 34 ∧ x ≠ 39 ∧ x ≠ 59

theorem plain_ndelim {x : Nat} (h : plain x = true) : (some x).all isDelim = false := by
  simp only [plain, decide_eq_true_eq] at h
  simp only [Option.all_some, isDelim, decide_eq_false_iff_not]
  rintro (h1 | h1)
  · rw [h.1] at h1; cases h1
  · exact h.2.2.2 h1

theorem pass1 {p : Option Nat} {x : Nat} {r : Bytes} (h : plain x = true) (hc : isComment (x :: r) = false) (hm : ∀ t kw, wordOf x = some (t, kw) → matchKw ⟨p, x :: r⟩ kw = none) :
    nx ⟨p, x :: r⟩ = nx ⟨some x, r⟩ := by
  simp only [plain, decide_eq_true_eq] at h
  obtain ⟨h1, h2, h3, h4⟩ := h
  have hs := skip_stop (p := p) h1 hc
  refine nx_inr (by rw [hs]) ?_
  rw [hs]
  unfold at_
  rw [if_neg h4, if_neg (by omega)]
  split
  · rfl
  · rename_i t kw hw
    rw [hm t kw hw]

theorem match_prev {p : Option Nat} {s kw : Bytes} (h : p.all isDelim = false) : matchKw ⟨p, s⟩ kw = none := by
  unfold matchKw
  rw [if_neg]
  intro e
  have := e.1
  dsimp only at this
  rw [h] at this
  cases this

/-- characters inside of a word or number -/
theorem passAll (u : Bytes) : ∀ (p : Option Nat) (r : Bytes), p.all isDelim = false → (∀ x ∈ u, plain x = true ∧ x ≠ 45) →
    nx ⟨p, u ++ r⟩ = nx ⟨u.getLast?.or p, r⟩ ∧ (u.getLast?.or p).all isDelim = false := by
  induction u with
  | nil => intro p r hp _; exact ⟨rfl, hp⟩
  | cons x u ih =>
    intro p r hp hu
    obtain ⟨hx, hx'⟩ := hu x (by simp)
    have hc : isComment (x :: (u ++ r)) = false := by
      unfold isComment
      split
      · rename_i e; injection e with e _; exact absurd e hx'
      · rfl
    obtain ⟨i1, i2⟩ := ih (some x) r (plain_ndelim hx) (fun y hy => hu y (List.mem_cons_of_mem _ hy))
    have el : (x :: u).getLast?.or p = u.getLast?.or (some x) := by
      rw [List.getLast?_cons]
      cases u.getLast? <;> rfl
    rw [el, List.cons_append, pass1 hx hc (fun t kw _ => match_prev hp)]
    exact ⟨i1, i2⟩

end Verif.Cli
