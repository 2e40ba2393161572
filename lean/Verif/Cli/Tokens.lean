import Verif.Cli.Link
/-!
# Token by token (C100)
-/
set_option autoImplicit false
set_option linter.unusedVariables false
set_option linter.unusedSimpArgs false
namespace Verif.Cli
open Verif Verif.Json.Text Verif.Parse.Lex Verif.Func

/-- a token is passed over: its text, and that the separator comes to its end -/
def Passed (s r : Bytes) : Prop := ∃ u, s = u ++ r ∧ u ≠ [] ∧ ∀ p, nx ⟨p, s⟩ = nx ⟨u.getLast?, r⟩

theorem digit_plain {x : Nat} (h : isDigit x = true) : plain x = true ∧ x ≠ 45 ∧ wordOf x = none := by
  simp only [isDigit, decide_eq_true_eq] at h
  refine ⟨?_, by omega, ?_⟩
  · simp only [plain, isSpace, decide_eq_true_eq, decide_eq_false_iff_not]; omega
  · unfold wordOf
    rw [if_neg (by omega), if_neg (by omega), if_neg (by omega), if_neg (by omega), if_neg (by omega), if_neg (by omega)]

theorem name_plain {x : Nat} (h : isNameChar x = true) : plain x = true ∧ x ≠ 45 := by
  simp only [isNameChar, isAlpha, isDigit, decide_eq_true_eq] at h
  refine ⟨?_, by omega⟩
  simp only [plain, isSpace, decide_eq_true_eq, decide_eq_false_iff_not]; omega

theorem comment_ne {x : Nat} {r : Bytes} (h : x ≠ 45) : isComment (x :: r) = false := by
  unfold isComment
  split
  · rename_i e; injection e with e _; exact absurd e h
  · rfl

theorem getLast_cons (x : Nat) (u : Bytes) : (x :: u).getLast? = u.getLast?.or (some x) := by
  rw [List.getLast?_cons]
  cases u.getLast? <;> rfl

/-- a first character that begins no keyword, then characters of words -/
theorem passed_of {x : Nat} {u r : Bytes} (hx : plain x = true) (hc : isComment (x :: (u ++ r)) = false) (hw : ∀ p t kw, wordOf x = some (t, kw) → matchKw ⟨p, x :: (u ++ r)⟩ kw = none)
    (hu : ∀ y ∈ u, plain y = true ∧ y ≠ 45) : Passed (x :: (u ++ r)) r := by
  refine ⟨x :: u, rfl, by simp, fun p => ?_⟩
  rw [pass1 hx hc (hw p), (passAll u (some x) r (plain_ndelim hx) hu).1, getLast_cons]

theorem digitLoop_int (s : Bytes) : ∀ (v : Nat) (v' : Int) (r : Bytes), digitLoop v s = .int v' r → ∃ u, s = u ++ r ∧ ∀ x ∈ u, isDigit x = true := by
  induction s with
  | nil =>
    intro v v' r h
    unfold digitLoop at h
    injection h with h1 h2
    exact ⟨[], by rw [← h2]; rfl, fun x hx => (by cases hx)⟩
  | cons c t ih =>
    intro v v' r h
    unfold digitLoop at h
    split at h
    · cases h
    · split at h
      · injection h with h1 h2
        exact ⟨[], by rw [← h2]; rfl, fun x hx => (by cases hx)⟩
      · rename_i hd
        split at h
        · cases h
        · obtain ⟨u, e, hu⟩ := ih _ _ _ h
          refine ⟨c :: u, by rw [e]; rfl, ?_⟩
          intro x hx
          rcases List.mem_cons.1 hx with e | e
          · rw [e]; simpa using hd
          · exact hu x e

theorem tw_dw (p : Nat → Bool) (s : Bytes) : s.takeWhile p ++ s.dropWhile p = s := List.takeWhile_append_dropWhile

theorem tw_all {p : Nat → Bool} {s : Bytes} : ∀ x ∈ s.takeWhile p, p x = true := by
  induction s with
  | nil => intro x hx; cases hx
  | cons a l ih =>
    intro x hx
    rw [List.takeWhile_cons] at hx
    split at hx
    · rename_i h
      rcases List.mem_cons.1 hx with e | e
      · rw [e]; exact h
      · exact ih x e
    · cases hx

theorem headD_cons {s : Bytes} {x : Nat} (h : s.headD 0 = x) (hx : x ≠ 0) : s = x :: s.drop 1 := by
  cases s with
  | nil => exact absurd h.symm hx
  | cons a l => simp only [List.headD_cons] at h; rw [h]; rfl

/-- the shape of a real number -/
theorem realTake_shape (s : Bytes) : ∃ a sg b, s = a ++ (sg ++ (b ++ (realTake s).2)) ∧ (∀ x ∈ a, isDigit x = true ∨ x = 46 ∨ x = 101 ∨ x = 69) ∧
    (sg = [] ∨ ((sg = [43] ∨ sg = [45]) ∧ ∃ y b', b = y :: b')) ∧ (∀ x ∈ b, isDigit x = true) ∧ s.takeWhile isDigit <+: a := by
  have dg : ∀ l : Bytes, ∀ x ∈ l.takeWhile isDigit, isDigit x = true := fun l x hx => tw_all x hx
  obtain ⟨P, R, hPR, hP, hs⟩ : ∃ P R, (if (s.dropWhile isDigit).headD 0 = 46 then (46 :: ((s.dropWhile isDigit).drop 1).takeWhile isDigit, ((s.dropWhile isDigit).drop 1).dropWhile isDigit) else ([], s.dropWhile isDigit)) = (P, R) ∧
      (∀ x ∈ P, isDigit x = true ∨ x = 46) ∧ s = s.takeWhile isDigit ++ (P ++ R) := by
    by_cases h : (s.dropWhile isDigit).headD 0 = 46
    · rw [if_pos h]
      refine ⟨_, _, rfl, ?_, ?_⟩
      · intro x hx
        rcases List.mem_cons.1 hx with e | e
        · exact .inr e
        · exact .inl (dg _ x e)
      · conv => lhs; rw [← tw_dw isDigit s]
        congr 1
        conv => lhs; rw [headD_cons h (by decide)]
        rw [List.cons_append, tw_dw]
    · rw [if_neg h]
      exact ⟨_, _, rfl, fun x hx => (by cases hx), by rw [List.nil_append, tw_dw]⟩
  have hrt : realTake s = (if (R.headD 0 = 101 ∨ R.headD 0 = 69) ∧ isDigit ((if (R.drop 1).headD 0 = 43 ∨ (R.drop 1).headD 0 = 45 then (R.drop 1).drop 1 else R.drop 1).headD 0) then
      (s.takeWhile isDigit ++ P ++ R.take 1 ++ (if (R.drop 1).headD 0 = 43 ∨ (R.drop 1).headD 0 = 45 then (R.drop 1).take 1 else []) ++ (if (R.drop 1).headD 0 = 43 ∨ (R.drop 1).headD 0 = 45 then (R.drop 1).drop 1 else R.drop 1).takeWhile isDigit,
        (if (R.drop 1).headD 0 = 43 ∨ (R.drop 1).headD 0 = 45 then (R.drop 1).drop 1 else R.drop 1).dropWhile isDigit)
      else (s.takeWhile isDigit ++ P, R)) := by
    unfold realTake
    dsimp only
    rw [hPR]
  rw [hrt]
  by_cases hc : (R.headD 0 = 101 ∨ R.headD 0 = 69) ∧ isDigit ((if (R.drop 1).headD 0 = 43 ∨ (R.drop 1).headD 0 = 45 then (R.drop 1).drop 1 else R.drop 1).headD 0) = true
  · rw [if_pos hc]
    obtain ⟨hc1, hc2⟩ := hc
    have hR : R = R.headD 0 :: R.drop 1 := headD_cons rfl (by omega)
    dsimp only
    by_cases hsg : (R.drop 1).headD 0 = 43 ∨ (R.drop 1).headD 0 = 45
    · rw [if_pos hsg] at hc2 ⊢
      have hE : R.drop 1 = (R.drop 1).headD 0 :: (R.drop 1).drop 1 := headD_cons rfl (by omega)
      refine ⟨s.takeWhile isDigit ++ (P ++ [R.headD 0]), [(R.drop 1).headD 0], ((R.drop 1).drop 1).takeWhile isDigit, ?_, ?_, ?_, dg _, List.prefix_append _ _⟩
      · conv => lhs; rw [hs, hR, hE]
        rw [tw_dw]
        simp
      · intro x hx
        rcases List.mem_append.1 hx with e | e
        · exact .inl (dg _ x e)
        · rcases List.mem_append.1 e with e | e
          · exact (hP x e).imp id .inl
          · rw [List.mem_singleton] at e; rw [e]; omega
      · right
        refine ⟨hsg.imp (fun e => by rw [e]) (fun e => by rw [e]), ?_⟩
        cases hd : (R.drop 1).drop 1 with
        | nil => rw [hd] at hc2; exact absurd hc2 (by decide)
        | cons y l =>
          rw [hd] at hc2
          exact ⟨y, _, by rw [List.takeWhile_cons, if_pos (show isDigit y = true from hc2)]⟩
    · rw [if_neg hsg] at hc2 ⊢
      refine ⟨s.takeWhile isDigit ++ (P ++ [R.headD 0]), [], (R.drop 1).takeWhile isDigit, ?_, ?_, .inl rfl, dg _, List.prefix_append _ _⟩
      · conv => lhs; rw [hs, hR]
        rw [List.nil_append, tw_dw]
        simp
      · intro x hx
        rcases List.mem_append.1 hx with e | e
        · exact .inl (dg _ x e)
        · rcases List.mem_append.1 e with e | e
          · exact (hP x e).imp id .inl
          · rw [List.mem_singleton] at e; rw [e]; omega
  · rw [if_neg hc]
    refine ⟨s.takeWhile isDigit ++ P, [], [], ?_, ?_, .inl rfl, fun x hx => (by cases hx), List.prefix_append _ _⟩
    · conv => lhs; rw [hs]
      simp
    · intro x hx
      rcases List.mem_append.1 hx with e | e
      · exact .inl (dg _ x e)
      · exact (hP x e).imp id .inl

theorem num_plain {x : Nat} (h : isDigit x = true ∨ x = 46 ∨ x = 101 ∨ x = 69) : plain x = true ∧ x ≠ 45 := by
  rcases h with h | rfl | rfl | rfl
  · exact ⟨(digit_plain h).1, (digit_plain h).2.1⟩
  · decide
  · decide
  · decide

theorem num_pass {c : Nat} {t r : Bytes} {k : LTok} (hc : isDigit c = true) (h : lexNumber (c :: t) = .ok (k, r)) : Passed (c :: t) r := by
  obtain ⟨d1, d2, d3⟩ := digit_plain hc
  have hw : ∀ (s : Bytes) (p : Option Nat) (t : Tok) (kw : Bytes), wordOf c = some (t, kw) → matchKw ⟨p, c :: s⟩ kw = none := by
    intro s p t kw e; rw [d3] at e; cases e
  unfold lexNumber at h
  split at h
  · rename_i v r' hd
    injection h with h
    injection h with _ h
    subst h
    unfold digitLoop at hd
    simp only [isDigit, decide_eq_true_eq] at hc
    rw [if_neg (by omega), if_neg (by simp only [isDigit]; simp; omega)] at hd
    split at hd
    · cases hd
    · obtain ⟨u, e, hu⟩ := digitLoop_int t _ _ _ hd
      rw [e]
      exact passed_of d1 (comment_ne d2) (hw _) (fun y hy => ⟨(digit_plain (hu y hy)).1, (digit_plain (hu y hy)).2.1⟩)
  · cases h
  · injection h with h
    injection h with _ h
    obtain ⟨a, sg, b, e, ha, hsg, hb, hpre⟩ := realTake_shape (c :: t)
    rw [h] at e
    have : ∃ a', a = c :: a' := by
      rw [List.takeWhile_cons, if_pos hc] at hpre
      obtain ⟨l, hl⟩ := hpre
      exact ⟨_, hl.symm⟩
    obtain ⟨a', rfl⟩ := this
    have hb' : ∀ y ∈ b, plain y = true ∧ y ≠ 45 := fun y hy => ⟨(digit_plain (hb y hy)).1, (digit_plain (hb y hy)).2.1⟩
    have ha' : ∀ y ∈ a', plain y = true ∧ y ≠ 45 := fun y hy => num_plain (ha y (List.mem_cons_of_mem _ hy))
    refine ⟨(c :: a') ++ (sg ++ b), by rw [e]; simp, by simp, fun p => ?_⟩
    rw [e, List.cons_append, pass1 d1 (comment_ne d2) (hw _ p)]
    obtain ⟨q1, q2⟩ := passAll a' (some c) (sg ++ (b ++ r)) (plain_ndelim d1) ha'
    rw [q1]
    have el : ((c :: a') ++ (sg ++ b)).getLast? = (sg ++ b).getLast?.or (a'.getLast?.or (some c)) := by
      rw [List.getLast?_append, getLast_cons]
    rcases hsg with rfl | ⟨hsg, y, b', hb1⟩
    · rw [List.nil_append, (passAll b _ r q2 hb').1, el, List.nil_append]
    · have hy : isDigit y = true := hb y (by rw [hb1]; simp)
      have hsgl : ∃ z, sg = [z] ∧ plain z = true ∧ (z = 43 ∨ z = 45) := by
        rcases hsg with rfl | rfl
        · exact ⟨43, rfl, by decide, .inl rfl⟩
        · exact ⟨45, rfl, by decide, .inr rfl⟩
      obtain ⟨z, rfl, hz, hz'⟩ := hsgl
      have hcm : isComment (z :: (b ++ r)) = false := by
        rw [hb1, List.cons_append]
        unfold isComment
        split
        · rename_i e; injection e with _ e; injection e with e _; exact absurd e (digit_plain hy).2.1
        · rfl
      rw [List.singleton_append, pass1 hz hcm (fun t kw _ => match_prev q2), (passAll b (some z) r (plain_ndelim hz) hb').1, el, List.singleton_append, getLast_cons]
      congr 2
      cases b.getLast? <;> rfl

/-! ## symbols -/

theorem wordOf_letter {x : Nat} {t : Tok} {kw : Bytes} (h : wordOf x = some (t, kw)) : isAlpha x = true := by
  unfold wordOf at h
  simp only [isAlpha, decide_eq_true_eq]
  repeat' split at h
  all_goals first | omega | cases h

theorem sym_pass {a : Nat} {t r : Bytes} {k : LTok} (hp : isPunct a = true) (h1 : a ≠ 34) (h2 : a ≠ 39) (hc : isComment (a :: t) = false) (h : lexSymbol a t = (k, r)) (hk : k ≠ .sym 59) : Passed (a :: t) r := by
  have hsemi : a ≠ 59 := by
    rintro rfl
    unfold lexSymbol at h
    split at h
    · injection h with h _; exact hk h.symm
    · rename_i b r'
      have : twoChar 59 b = none := by unfold twoChar; simp
      rw [this] at h
      injection h with h _; exact hk h.symm
  simp only [isPunct, decide_eq_true_eq] at hp
  have hpl : plain a = true := by simp only [plain, isSpace, decide_eq_true_eq, decide_eq_false_iff_not]; omega
  have hw : ∀ (s : Bytes) (p : Option Nat) (t : Tok) (kw : Bytes), wordOf a = some (t, kw) → matchKw ⟨p, a :: s⟩ kw = none := by
    intro s p t kw e
    have := wordOf_letter e
    simp only [isAlpha, decide_eq_true_eq] at this
    omega
  unfold lexSymbol at h
  split at h
  · injection h with _ h
    subst h
    exact passed_of (u := []) hpl hc (hw _) (fun y hy => (by cases hy))
  · rename_i b r'
    split at h
    · rename_i tk htk
      injection h with _ h
      subst h
      have hb : plain b = true ∧ b ≠ 45 := by
        unfold twoChar at htk
        have : b = 58 ∨ b = 61 ∨ b = 124 ∨ b = 62 ∨ b = 60 := by
          repeat' split at htk
          all_goals first | omega | cases htk
        rcases this with rfl | rfl | rfl | rfl | rfl <;> decide
      exact passed_of (u := [b]) hpl hc (hw _) (fun y hy => (by rw [List.mem_singleton] at hy; rw [hy]; exact hb))
    · injection h with _ h
      subst h
      exact passed_of (u := []) hpl hc (hw _) (fun y hy => (by cases hy))

/-! ## strings -/

theorem skipString_high {q : Nat} {sl : Bool} {p : Option Nat} {x : Nat} {r : Bytes} (hq : q < 128) (hx : 128 ≤ x) : skipString q sl p (x :: r) = skipString q false (some x) r := by
  conv => lhs; unfold skipString
  rw [if_neg (by omega), if_neg (by omega)]

theorem str_loop (q : Nat) (hq : q = 34 ∨ q = 39) (f : Nat) : ∀ (sl : Bool) (acc : Bytes) (esc : Bool) (s : Bytes) (p : Option Nat) (raw r : Bytes) (e : Bool),
    strLoop q f sl acc esc s = .ok (raw, r, e) → skipString q sl p s = ⟨some q, r⟩ ∧ ∃ u, s = u ++ q :: r := by
  have hq2 : q < 128 := by omega
  induction f with
  | zero => intro sl acc esc s p raw r e h; cases h
  | succ f ih =>
    intro sl acc esc s p raw r e h
    unfold strLoop at h
    cases s with
    | nil => cases h
    | cons c t =>
      dsimp only at h
      split at h
      · rename_i hc
        obtain ⟨rfl, hsl⟩ := hc
        injection h with h; injection h with _ h; injection h with h _
        subst h
        refine ⟨?_, [], rfl⟩
        unfold skipString
        rw [if_pos rfl, if_neg (by rw [hsl]; simp)]
      · rename_i hc
        split at h
        · rename_i hcq
          subst hcq
          have hsl : sl = true := by cases sl <;> simp_all
          obtain ⟨i1, u, i2⟩ := ih _ _ _ _ (some c) _ _ _ h
          refine ⟨?_, c :: u, by rw [i2]; rfl⟩
          unfold skipString
          rw [if_pos rfl, if_pos hsl]
          exact i1
        · rename_i hcq
          split at h
          · cases h
          · rename_i r' hu
            by_cases hlow : c < 128
            · unfold utf8Next at hu
              dsimp only at hu
              rw [if_pos hlow] at hu
              injection hu with hu
              subst hu
              obtain ⟨i1, u, i2⟩ := ih _ _ _ _ (some c) _ _ _ h
              refine ⟨?_, c :: u, by rw [i2]; rfl⟩
              unfold skipString
              rw [if_neg hcq]
              exact i1
            · have h92 : c ≠ 92 := by omega
              rw [if_neg h92] at h
              have hx : 128 ≤ c := by omega
              unfold utf8Next at hu
              dsimp only at hu
              rw [if_neg hlow] at hu
              split at hu
              · cases t with
                | nil => cases hu
                | cons b t =>
                  dsimp only at hu
                  split at hu
                  · rename_i hb
                    split at hu
                    · cases hu
                    · injection hu with hu
                      subst hu
                      obtain ⟨i1, u, i2⟩ := ih _ _ _ _ (some b) _ _ _ h
                      refine ⟨?_, c :: b :: u, by rw [i2]; rfl⟩
                      rw [skipString_high hq2 hx, skipString_high hq2 (by omega)]
                      exact i1
                  · cases hu
              · split at hu
                · match t with
                  | [] => cases hu
                  | [_] => cases hu
                  | b :: d :: t =>
                    dsimp only at hu
                    split at hu
                    · rename_i hb
                      split at hu
                      · cases hu
                      · injection hu with hu
                        subst hu
                        obtain ⟨i1, u, i2⟩ := ih _ _ _ _ (some d) _ _ _ h
                        refine ⟨?_, c :: b :: d :: u, by rw [i2]; rfl⟩
                        rw [skipString_high hq2 hx, skipString_high hq2 (by omega), skipString_high hq2 (by omega)]
                        exact i1
                    · cases hu
                · split at hu
                  · match t with
                    | [] => cases hu
                    | [_] => cases hu
                    | [_, _] => cases hu
                    | b :: d :: g :: t =>
                      dsimp only at hu
                      split at hu
                      · rename_i hb
                        split at hu
                        · cases hu
                        · injection hu with hu
                          subst hu
                          obtain ⟨i1, u, i2⟩ := ih _ _ _ _ (some g) _ _ _ h
                          refine ⟨?_, c :: b :: d :: g :: u, by rw [i2]; rfl⟩
                          rw [skipString_high hq2 hx, skipString_high hq2 (by omega), skipString_high hq2 (by omega), skipString_high hq2 (by omega)]
                          exact i1
                      · cases hu
                  · cases hu

theorem str_pass {q : Nat} {t r : Bytes} {k : LTok} (hq : q = 34 ∨ q = 39) (h : lexString q t = .ok (k, r)) : Passed (q :: t) r := by
  unfold lexString at h
  cases hs : strLoop q (t.length + 1) false [] false t with
  | error e => rw [hs] at h; cases h
  | ok x =>
    rw [hs] at h
    obtain ⟨raw, r', e⟩ := x
    injection h with h
    injection h with _ h
    dsimp only at h
    subst h
    obtain ⟨h1, u, h2⟩ := str_loop q hq _ _ _ _ _ (some q) _ _ _ hs
    refine ⟨q :: u ++ [q], by rw [h2]; simp, by simp, fun p => ?_⟩
    rw [List.getLast?_concat]
    have hsp : isSpace q = false := by rcases hq with rfl | rfl <;> decide
    have hsk : skip ⟨p, q :: t⟩ = ⟨p, q :: t⟩ := skip_stop hsp (comment_ne (by omega))
    have hat : at_ ⟨p, q :: t⟩ q t = if r' = [] then .inl (.eof, ⟨some q, r'⟩) else .inr ⟨some q, r'⟩ := by
      unfold at_
      rw [if_neg (by omega), if_pos (by omega), h1]
    by_cases hr : r' = []
    · rw [if_pos hr] at hat
      rw [nx_inl (x := q) (r := t) (by rw [hsk]) (by rw [hsk]; exact hat), hr, nx_nil (by rfl)]
      rfl
    · rw [if_neg hr] at hat
      exact nx_inr (x := q) (r := t) (by rw [hsk]) (by rw [hsk]; exact hat)

end Verif.Cli
