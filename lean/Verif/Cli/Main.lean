import Verif.Cli.Words
/-!
# Statements are found (C100)
-/
set_option autoImplicit false
set_option linter.unusedVariables false
set_option linter.unusedSimpArgs false
namespace Verif.Cli
open Verif Verif.Json.Text Verif.Parse.Lex Verif.Func

/-! ## the kinds of tokens -/

theorem lexNext_inv {s r : Bytes} {k : LTok} (h : lexNext true s = .ok (k, r)) :
    (skipBlank (s.length + 1) s = [] ∧ k = .eof) ∨ ∃ c t, skipBlank (s.length + 1) s = c :: t ∧
      ((isDigit c = true ∧ lexNumber (c :: t) = .ok (k, r)) ∨ (isPunct c = true ∧ c ≠ 34 ∧ c ≠ 39 ∧ lexSymbol c t = (k, r)) ∨
       ((isAlpha c = true ∨ c = 95 ∨ c = 96) ∧ lexName true (c :: t) = .ok (k, r)) ∨ ((c = 34 ∨ c = 39) ∧ lexString c t = .ok (k, r))) := by
  unfold lexNext at h
  dsimp only at h
  cases hs : skipBlank (s.length + 1) s with
  | nil =>
    rw [hs] at h
    injection h with h; injection h with h1 h2
    exact .inl ⟨rfl, h1.symm⟩
  | cons c t =>
    rw [hs] at h
    right
    refine ⟨c, t, rfl, ?_⟩
    dsimp only at h
    split at h
    · rename_i hd; exact .inl ⟨hd, h⟩
    · split at h
      · rename_i hp
        injection h with h
        exact .inr (.inl ⟨hp.1, hp.2.1, hp.2.2.1, h⟩)
      · split at h
        · rename_i ha; exact .inr (.inr (.inl ⟨ha, h⟩))
        · split at h
          · rename_i hq; exact .inr (.inr (.inr ⟨hq, h⟩))
          · cases h

theorem num_kind {s r : Bytes} {k : LTok} (h : lexNumber s = .ok (k, r)) : (∀ c, k ≠ .sym c) ∧ (∀ i, k ≠ .kw i) ∧ k ≠ .eof := by
  unfold lexNumber at h
  split at h
  · injection h with h; injection h with h1 _; rw [← h1]; simp
  · cases h
  · injection h with h; injection h with h1 _; rw [← h1]; simp

theorem str_kind {q : Nat} {s r : Bytes} {k : LTok} (h : lexString q s = .ok (k, r)) : (∀ c, k ≠ .sym c) ∧ (∀ i, k ≠ .kw i) ∧ k ≠ .eof := by
  unfold lexString at h
  cases hs : strLoop q (s.length + 1) false [] false s with
  | error e => rw [hs] at h; cases h
  | ok x => rw [hs] at h; injection h with h; injection h with h1 _; rw [← h1]; simp

theorem sym_kind {c : Nat} {t r : Bytes} {k : LTok} (h : lexSymbol c t = (k, r)) : (∀ i, k ≠ .kw i) ∧ k ≠ .eof ∧ (∀ a, k = .sym a → c = a ∧ r = t) := by
  have tk : ∀ b x, twoChar c b = some x → (∀ i, x ≠ .kw i) ∧ x ≠ .eof ∧ ∀ a, x ≠ .sym a := by
    intro b x hx
    unfold twoChar at hx
    repeat' split at hx
    all_goals first
      | cases hx; done
      | (injection hx with hx; rw [← hx]; simp)
  unfold lexSymbol at h
  split at h
  · injection h with h1 h2
    rw [← h1]
    exact ⟨by simp, by simp, fun a e => ⟨by injection e, h2.symm⟩⟩
  · rename_i b r'
    split at h
    · rename_i x hx
      injection h with h1 h2
      obtain ⟨a1, a2, a3⟩ := tk b x hx
      rw [← h1]
      exact ⟨a1, a2, fun a e => absurd e (a3 a)⟩
    · injection h with h1 h2
      rw [← h1]
      exact ⟨by simp, by simp, fun a e => ⟨by injection e, h2.symm⟩⟩

theorem sym_semi {t r : Bytes} {k : LTok} (h : lexSymbol 59 t = (k, r)) : k = .sym 59 := by
  unfold lexSymbol at h
  split at h
  · injection h with h _; exact h.symm
  · rename_i b r'
    have : twoChar 59 b = none := by unfold twoChar; simp
    rw [this] at h
    injection h with h _; exact h.symm

theorem name_kind {s r : Bytes} {k : LTok} (h : lexName true s = .ok (k, r)) : (∀ c, k ≠ .sym c) ∧ k ≠ .eof := by
  have tk : ∀ n : Bytes, ∀ b : Bool, ∀ (P : Prop) [Decidable P], (∀ c, (if b = true then LTok.compoundStar (n ++ [42]) else if P then .compound n else .name n) ≠ .sym c) ∧
      (if b = true then LTok.compoundStar (n ++ [42]) else if P then .compound n else .name n) ≠ .eof := by
    intro n b P _
    cases b
    · by_cases hp : P <;> simp [hp]
    · simp
  unfold lexName at h
  dsimp only at h
  generalize (if decide (s.headD 0 = 96) = true then s.drop 1 else s) = s1 at h
  generalize decide (s.headD 0 = 96) = wr at h
  generalize s1.takeWhile isNameChar = n at h
  generalize s1.dropWhile isNameChar = r0 at h
  by_cases h1 : twoDots n = true
  · rw [if_pos h1] at h; cases h
  rw [if_neg h1] at h
  by_cases h2 : 46 ∈ n ∧ n.getLast? = some 46 ∧ r0.headD 0 ≠ 42
  · rw [if_pos h2] at h; cases h
  rw [if_neg h2] at h
  generalize hst : decide (46 ∈ n ∧ n.getLast? = some 46) = star at h
  generalize (if star = true then r0.drop 1 else r0) = r1 at h
  have tk := tk n star (46 ∈ n)
  generalize (if star = true then LTok.compoundStar (n ++ [42]) else if 46 ∈ n then .compound n else .name n) = tok at h tk
  by_cases h3 : wr = true
  · rw [if_pos h3] at h
    by_cases h4 : r1.headD 0 ≠ 96
    · rw [if_pos h4] at h; cases h
    · rw [if_neg h4] at h
      injection h with h; injection h with h1 _; rw [← h1]; exact tk
  · rw [if_neg h3] at h
    by_cases h4 : ¬ 46 ∈ n ∧ n.headD 0 ≠ 95 ∧ true = true
    · rw [if_pos h4] at h
      cases hk : kwMatch n with
      | some i => rw [hk] at h; injection h with h; injection h with h1 _; rw [← h1]; simp
      | none => rw [hk] at h; injection h with h; injection h with h1 _; rw [← h1]; exact tk
    · rw [if_neg h4] at h
      injection h with h; injection h with h1 _; rw [← h1]; exact tk

theorem tok_kw {s r : Bytes} {k : LTok} {w : String} (h : lexNext true s = .ok (k, r)) (hw : w ∈ sepWords) (hk : IsKw k w) :
    ∃ c t, skipBlank (s.length + 1) s = c :: t ∧ isAlpha c = true ∧ lexName true (c :: t) = .ok (k, r) ∧ ∃ n, c :: t = n ++ r ∧ n.map lower = strBytes w := by
  obtain ⟨i, rfl, hi⟩ := hk
  rcases lexNext_inv h with ⟨_, e⟩ | ⟨c, t, hs, hd | hp | ha | hq⟩
  · cases e
  · exact absurd rfl ((num_kind hd.2).2.1 i)
  · exact absurd rfl ((sym_kind hp.2.2.2).1 i)
  · obtain ⟨ha, hl⟩ := ha
    by_cases h96 : c = 96
    · subst h96; exact absurd rfl ((lexName_quoted hl).2 i)
    · obtain ⟨star, e, _, _, h3⟩ := lexName_plain h96 hl
      obtain ⟨h4, h5⟩ := h3 i rfl
      subst h4
      rw [List.nil_append] at e
      obtain ⟨w', hw1, hw2⟩ := kwMatch_some h5
      rw [hi] at hw1
      injection hw1 with hw1
      subst hw1
      obtain ⟨l1, l2, l3, _⟩ := sepWords_lower w hw
      rw [l1] at hw2
      refine ⟨c, t, hs, ?_, hl, _, e, hw2⟩
      cases hn : (c :: t).takeWhile isNameChar with
      | nil => rw [hn] at hw2; exact absurd hw2.symm l3
      | cons x n =>
        rw [hn] at e hw2
        injection e with e1 e2
        subst e1
        refine letter_of_lower ?_
        have : lower c ∈ strBytes w := by rw [← hw2]; simp
        simpa using List.all_eq_true.1 l2 _ this
  · exact absurd rfl ((str_kind hq.2).2.1 i)

/-! ## where tokens end -/

theorem lastOf_eq {s b u r : Bytes} (h : s = b ++ (u ++ r)) (hu : u ≠ []) : lastOf s r = u.getLast? := by
  unfold lastOf
  have : s.take (s.length - r.length) = b ++ u := by
    have e : s = (b ++ u) ++ r := by rw [h]; simp
    have hl : s.length - r.length = (b ++ u).length := by rw [e, List.length_append]; omega
    rw [hl, e, List.take_left]
  rw [this, List.getLast?_append]
  cases hl : u.getLast? with
  | none => exact absurd (List.getLast?_eq_none_iff.1 hl) hu
  | some x => rfl

theorem blank_pre (s : Bytes) : ∃ b, s = b ++ skipBlank (s.length + 1) s := by
  obtain ⟨b, e⟩ := skipBlank_suf (s.length + 1) s
  exact ⟨b, e.symm⟩

theorem tok_pass {s r : Bytes} {k : LTok} (p : Option Nat) (h : lexNext true s = .ok (k, r)) (h1 : k ≠ .eof) (h2 : k ≠ .sym 59) (h3 : ∀ w ∈ blockWords, ¬ IsKw k w) :
    nx ⟨p, s⟩ = nx ⟨lastOf s r, r⟩ := by
  obtain ⟨p', e1, _⟩ := nx_blank (s.length + 1) s p (Nat.lt_succ_self _)
  obtain ⟨b, eb⟩ := blank_pre s
  have key : ∀ c t, skipBlank (s.length + 1) s = c :: t → Passed (c :: t) r → nx ⟨p, s⟩ = nx ⟨lastOf s r, r⟩ := by
    intro c t hs ⟨u, hu, hne, hp⟩
    rw [e1, hs, hp p', lastOf_eq (b := b) (by rw [← hu, ← hs]; exact eb) hne]
  rcases lexNext_inv h with ⟨_, e⟩ | ⟨c, t, hs, hd | hp | ha | hq⟩
  · exact absurd e h1
  · exact key c t hs (num_pass hd.1 hd.2)
  · exact key c t hs (sym_pass hp.1 hp.2.1 hp.2.2.1 (skipBlank_stop _ s (Nat.lt_succ_self _) c t hs).2 hp.2.2.2 h2)
  · exact key c t hs (name_pass ha.1 ha.2 h3)
  · exact key c t hs (str_pass (hq.1) hq.2)

theorem semi_head {s r : Bytes} (h : lexNext true s = .ok (.sym 59, r)) : skipBlank (s.length + 1) s = 59 :: r := by
  rcases lexNext_inv h with ⟨_, e⟩ | ⟨c, t, hs, hd | hp | ha | hq⟩
  · cases e
  · exact absurd rfl ((num_kind hd.2).1 59)
  · obtain ⟨e1, e2⟩ := (sym_kind hp.2.2.2).2.2 59 rfl
    rw [hs, e1, e2]
  · exact absurd rfl ((name_kind ha.2).1 59)
  · exact absurd rfl ((str_kind hq.2).1 59)

theorem semi_tok {s r : Bytes} (p : Option Nat) (h : lexNext true s = .ok (.sym 59, r)) : nx ⟨p, s⟩ = (.semicolon, ⟨some 59, r⟩) := by
  obtain ⟨p', e1, _⟩ := nx_blank (s.length + 1) s p (Nat.lt_succ_self _)
  rw [e1, semi_head h]
  have hsk : skip ⟨p', 59 :: r⟩ = ⟨p', 59 :: r⟩ := skip_stop (by decide) (comment_ne (by decide))
  refine nx_inl (x := 59) (r := r) (by rw [hsk]) ?_
  unfold at_
  rw [if_pos rfl]

/-! ## keywords -/

theorem match_kw {n r : Bytes} {w : String} {p : Option Nat} (hn : n.map lower = strBytes w) (hp : p.all isDelim = true) (hr : ∃ d r', r = d :: r' ∧ delim d = true) :
    matchKw ⟨p, n ++ r⟩ (strBytes w) = some ⟨n.getLast?, r⟩ := by
  obtain ⟨d, r', rfl, hd⟩ := hr
  have hl : (strBytes w).length = n.length := by rw [← hn, List.length_map]
  unfold matchKw
  dsimp only
  rw [hl, List.take_left, List.drop_left, if_pos]
  refine ⟨hp, by simp, hn, ?_⟩
  have : (n ++ d :: r').getD n.length 0 = d := by simp [List.getD_eq_getElem?_getD]
  rw [this]; exact hd

/-- the token of a word -/
def tokOf (w : String) : Tok :=
  if w = "begin" then .begin_ else if w = "if" then .if_ else if w = "for" then .for_ else if w = "while" then .while_ else if w = "case" then .case_ else .end_

theorem wordOf_lower (x : Nat) (y : Nat) (h : lower x = y) (hy : 97 ≤ y ∧ y ≤ 122) : wordOf x = wordOf y := by
  unfold lower at h
  split at h
  · unfold wordOf
    subst h
    have e : ∀ a b : Nat, a = b + 32 → 97 ≤ a → a ≤ 122 → ((x + 32 = a ∨ x + 32 = b) ↔ (x = a ∨ x = b)) := by intro a b; omega
    simp only [e 98 66 rfl (by decide) (by decide), e 105 73 rfl (by decide) (by decide), e 99 67 rfl (by decide) (by decide), e 102 70 rfl (by decide) (by decide),
      e 119 87 rfl (by decide) (by decide), e 101 69 rfl (by decide) (by decide)]
  · rw [h]

theorem block_head : ∀ w ∈ blockWords, wordOf ((strBytes w).headD 0) = some (tokOf w, strBytes w) ∧ 97 ≤ (strBytes w).headD 0 ∧ (strBytes w).headD 0 ≤ 122 := by decide +kernel

theorem delimited_prev {p p' : Option Nat} {s r : Bytes} (hd : Delimited p s r) (h : (skipBlank (s.length + 1) s = s ∧ p' = p) ∨ p'.all isDelim = true ∨ skipBlank (s.length + 1) s = [])
    (hne : skipBlank (s.length + 1) s ≠ []) : p'.all isDelim = true := by
  rcases h with ⟨h1, h2⟩ | h | h
  · rcases hd.1 with h3 | h3
    · rw [h2]
      cases p with
      | none => rfl
      | some c => exact h3 c rfl
    · exact absurd h1 h3
  · exact h
  · exact absurd h hne

/-- a keyword of a block -/
theorem kw_tok {s r : Bytes} {k : LTok} {w : String} {p : Option Nat} (h : lexNext true s = .ok (k, r)) (hw : w ∈ blockWords) (hk : IsKw k w) (hd : Delimited p s r) :
    nx ⟨p, s⟩ = if tokOf w = .if_ then (match afterIf ⟨lastOf s r, r⟩ with | .inl t => t | .inr c' => nx c') else (tokOf w, ⟨lastOf s r, r⟩) := by
  obtain ⟨p', e1, e2⟩ := nx_blank (s.length + 1) s p (Nat.lt_succ_self _)
  obtain ⟨b, eb⟩ := blank_pre s
  obtain ⟨c, t, hs, hal, hl, n, hn, hnl⟩ := tok_kw h (block_sep w hw) hk
  obtain ⟨_, _, hne, _⟩ := sepWords_lower w (block_sep w hw)
  have hnn : n ≠ [] := by rintro rfl; exact hne hnl.symm
  have hp' := delimited_prev hd e2 (by rw [hs]; simp)
  have hm := match_kw hnl hp' hd.2
  rw [← hn] at hm
  have hlast : lastOf s r = n.getLast? := lastOf_eq (b := b) (by rw [← hn, ← hs]; exact eb) hnn
  rw [e1, hs, hlast]
  simp only [isAlpha, decide_eq_true_eq] at hal
  have hsk : skip ⟨p', c :: t⟩ = ⟨p', c :: t⟩ := skip_stop (by simp only [isSpace, decide_eq_false_iff_not]; omega) (comment_ne (by omega))
  have hwo : wordOf c = some (tokOf w, strBytes w) := by
    obtain ⟨w1, w2, w3⟩ := block_head w hw
    rw [← w1]
    refine wordOf_lower c _ ?_ ⟨w2, w3⟩
    rw [← hnl]
    cases n with
    | nil => exact absurd rfl hnn
    | cons x n => injection hn with e _; rw [e]; rfl
  have hat : at_ ⟨p', c :: t⟩ c t = if tokOf w = .if_ then afterIf ⟨n.getLast?, r⟩ else .inl (tokOf w, ⟨n.getLast?, r⟩) := by
    unfold at_
    rw [if_neg (by omega), if_neg (by omega), hwo]
    dsimp only
    rw [hm]
  rw [nx_eq, hsk]
  dsimp only
  rw [hat]
  by_cases hif : tokOf w = .if_
  · rw [if_pos hif, if_pos hif]
    cases afterIf ⟨n.getLast?, r⟩ <;> rfl
  · rw [if_neg hif, if_neg hif]

/-! ## after IF -/

theorem match_alpha {p : Option Nat} {c : Nat} {t : Bytes} {w : String} {c' : Cur} (hw : w ∈ sepWords) (h : matchKw ⟨p, c :: t⟩ (strBytes w) = some c') : isAlpha c = true := by
  obtain ⟨_, l2, l3, _⟩ := sepWords_lower w hw
  obtain ⟨_, _, _, h4, _⟩ := matchKw_some h
  refine letter_of_lower ?_
  cases hb : strBytes w with
  | nil => exact absurd hb l3
  | cons a l =>
    rw [hb] at h4
    have e : lower c = a := by
      simp only [List.length_cons, List.take_succ_cons, List.map_cons] at h4
      injection h4
    rw [e]
    simpa using List.all_eq_true.1 l2 a (by rw [hb]; simp)

theorem no_match_tok {s r : Bytes} {k : LTok} {w : String} {c : Nat} {t : Bytes} (h : lexNext true s = .ok (k, r)) (hs : skipBlank (s.length + 1) s = c :: t) (hw : w ∈ sepWords) (hk : ¬ IsKw k w) (p : Option Nat) :
    matchKw ⟨p, c :: t⟩ (strBytes w) = none := by
  cases hm : matchKw ⟨p, c :: t⟩ (strBytes w) with
  | none => rfl
  | some c' =>
    exfalso
    have hal := match_alpha hw hm
    have hal' := hal
    simp only [isAlpha, decide_eq_true_eq] at hal'
    rcases lexNext_inv h with ⟨e, _⟩ | ⟨c2, t2, hs2, hd⟩
    · rw [hs] at e; cases e
    · rw [hs] at hs2
      injection hs2 with e1 e2
      subst e1; subst e2
      rcases hd with hd | hd | hd | hd
      · have := hd.1; simp only [isDigit, decide_eq_true_eq] at this; omega
      · have := hd.1; simp only [isPunct, decide_eq_true_eq] at this; omega
      · rw [no_match hw (by omega) hd.2 hk p] at hm; cases hm
      · omega

theorem noComment_skip {q : Option Nat} {r : Bytes} (h : NoComment r) : skip ⟨q, r⟩ = skipSpace q r ∧ (skipSpace q r).rest = skipBlank (r.length + 1) r := by
  have e := skipSpace_eq q r
  unfold NoComment at h
  refine ⟨?_, ?_⟩
  · unfold skip
    dsimp only
    rw [e, if_neg (by rw [h]; simp)]
  · unfold skipBlank
    dsimp only
    rw [e, if_neg (by rw [h]; simp)]

theorem skipBlank_nil (f : Nat) : skipBlank f [] = [] := List.suffix_nil.1 (skipBlank_suf f [])

theorem afterIf_if {q : Option Nat} {r r2 : Bytes} {k2 : LTok} (h : lexNext true r = .ok (k2, r2)) (h1 : k2 ≠ .eof) (h2 : k2 ≠ .sym 59) (h3 : ¬ IsKw k2 "exists") (h4 : ¬ IsKw k2 "not") :
    afterIf ⟨q, r⟩ = .inl (.if_, skip ⟨q, r⟩) := by
  obtain ⟨c, t, hs⟩ : ∃ c t, skipBlank (r.length + 1) r = c :: t := by
    rcases lexNext_inv h with ⟨_, e⟩ | ⟨c, t, hs, _⟩
    · exact absurd e h1
    · exact ⟨c, t, hs⟩
  unfold afterIf
  dsimp only
  by_cases hc : NoComment r
  · obtain ⟨e1, e2⟩ := noComment_skip (q := q) hc
    have e3 : skip ⟨q, r⟩ = ⟨(skipSpace q r).prev, c :: t⟩ := by rw [e1, ← hs, ← e2]
    rw [e3]
    have h59 : c ≠ 59 := by
      rintro rfl
      rcases lexNext_inv h with ⟨e, _⟩ | ⟨c2, t2, hs2, hd⟩
      · rw [hs] at e; cases e
      · rw [hs] at hs2
        injection hs2 with e1 e2
        subst e1; subst e2
        rcases hd with hd | hd | hd | hd
        · exact absurd hd.1 (by decide)
        · exact h2 (sym_semi hd.2.2.2)
        · exact absurd hd.1 (by decide)
        · exact absurd hd.1 (by decide)
    rw [if_neg (by simp), if_neg (by simpa using h59), no_match_tok h hs (by decide) h3, no_match_tok h hs (by decide) h4]
  · have hc : isComment (r.dropWhile isSpace) = true := by
      unfold NoComment at hc
      simpa using hc
    have e := skipSpace_eq q r
    have e1 : skip ⟨q, r⟩ = skipLine (skipSpace q r).prev (r.dropWhile isSpace) := by
      unfold skip
      dsimp only
      rw [e, if_pos hc]
    rcases skipLine_head (skipSpace q r).prev (r.dropWhile isSpace) with e2 | ⟨t2, e2⟩
    · exfalso
      rw [skipLine_eq] at e2
      have : skipBlank (r.length + 1) r = [] := by
        unfold skipBlank
        dsimp only
        rw [if_pos hc, e2, skipBlank_nil]
      rw [this] at hs; cases hs
    · have e3 : skip ⟨q, r⟩ = ⟨(skip ⟨q, r⟩).prev, 10 :: t2⟩ := by
        rw [e1, ← e2]
      rw [e3]
      have nm : ∀ w ∈ sepWords, matchKw ⟨(skip ⟨q, r⟩).prev, 10 :: t2⟩ (strBytes w) = none := by
        intro w hw
        cases hm : matchKw ⟨(skip ⟨q, r⟩).prev, 10 :: t2⟩ (strBytes w) with
        | none => rfl
        | some c' => exact absurd (match_alpha hw hm) (by decide)
      rw [if_neg (by simp), if_neg (by simp), nm "exists" (by decide), nm "not" (by decide)]

/-- EXISTS or NOT after IF -/
theorem afterIf_word {q : Option Nat} {r r2 : Bytes} {k2 : LTok} {w : String} (h : lexNext true r = .ok (k2, r2)) (hw : w = "exists" ∨ w = "not") (hk : IsKw k2 w) (hc : NoComment r) (hd : Delimited q r r2)
    (hq : q.all isDelim = false) : afterIf ⟨q, r⟩ = .inr ⟨lastOf r r2, r2⟩ := by
  have hws : w ∈ sepWords := by rcases hw with rfl | rfl <;> decide
  obtain ⟨c, t, hs, hal, hl, n, hn, hnl⟩ := tok_kw h hws hk
  obtain ⟨_, _, hne, _⟩ := sepWords_lower w hws
  have hnn : n ≠ [] := by rintro rfl; exact hne hnl.symm
  obtain ⟨e1, e2⟩ := noComment_skip (q := q) hc
  obtain ⟨b, eb⟩ := blank_pre r
  have e3 : skip ⟨q, r⟩ = ⟨(skipSpace q r).prev, c :: t⟩ := by rw [e1, ← hs, ← e2]
  have hp : (skipSpace q r).prev.all isDelim = true := by
    rcases skipSpace_prev q r with ⟨x1, _⟩ | x
    · exfalso
      rw [skipSpace_eq, x1] at e2
      rcases hd.1 with h3 | h3
      · cases q with
        | none => cases hq
        | some a =>
          have h5 := h3 a rfl
          have h6 : isDelim a = false := hq
          rw [delim_eq, h6] at h5; cases h5
      · exact h3 e2.symm
    · exact x
  have hm := match_kw hnl hp hd.2
  rw [← hn] at hm
  have hlast : lastOf r r2 = n.getLast? := lastOf_eq (b := b) (by rw [← hn, ← hs]; exact eb) hnn
  simp only [isAlpha, decide_eq_true_eq] at hal
  unfold afterIf
  dsimp only
  rw [e3, if_neg (by simp), if_neg (by simp; omega), hlast]
  rcases hw with rfl | rfl
  · rw [hm]
  · have hx : ¬ IsKw k2 "exists" := by
      rintro ⟨i, e, hi⟩
      obtain ⟨j, e', hj⟩ := hk
      rw [e] at e'
      injection e' with e'
      rw [← e', hi] at hj
      revert hj; decide
    rw [no_match_tok h hs (by decide) hx, hm]

theorem afterIf_semi {q : Option Nat} {r r2 : Bytes} (h : lexNext true r = .ok (.sym 59, r2)) (hc : NoComment r) : afterIf ⟨q, r⟩ = .inr (skip ⟨q, r⟩) := by
  obtain ⟨e1, e2⟩ := noComment_skip (q := q) hc
  have e3 : skip ⟨q, r⟩ = ⟨(skipSpace q r).prev, 59 :: r2⟩ := by rw [e1, ← semi_head h, ← e2]
  unfold afterIf
  dsimp only
  rw [e3, if_neg (by simp), if_pos (show List.headD (59 :: r2) 0 = 59 from rfl)]

/-- the word IF ends with a letter -/
theorem last_letter {s r : Bytes} {k : LTok} {w : String} (h : lexNext true s = .ok (k, r)) (hw : w ∈ sepWords) (hk : IsKw k w) : (lastOf s r).all isDelim = false := by
  obtain ⟨c, t, hs, hal, hl, n, hn, hnl⟩ := tok_kw h hw hk
  obtain ⟨b, eb⟩ := blank_pre s
  obtain ⟨_, l2, hne, _⟩ := sepWords_lower w hw
  have hnn : n ≠ [] := by rintro rfl; exact hne hnl.symm
  rw [lastOf_eq (b := b) (by rw [← hn, ← hs]; exact eb) hnn]
  cases hg : n.getLast? with
  | none => exact absurd (List.getLast?_eq_none_iff.1 hg) hnn
  | some x =>
    have hx : x ∈ n := List.mem_of_getLast? hg
    have : lower x ∈ strBytes w := by rw [← hnl]; exact List.mem_map.2 ⟨x, hx, rfl⟩
    have hal := letter_of_lower (x := x) (by simpa using List.all_eq_true.1 l2 _ this)
    have := delim_not_name (x := x)
    cases hdx : isDelim x with
    | false => simpa using hdx
    | true => rw [alpha_name hal] at this; exact absurd (this hdx) (by simp)

/-! ## statements -/

theorem rl_pass {c c' : Cur} {ic lv : Nat} (h : nx c = nx c') : rl ic lv c = rl ic lv c' := rl_congr h ic lv

theorem ends_rl {ic lv : Nat} {p : Option Nat} {s t : Bytes} (h : Ends ic lv p s t) : rl ic lv ⟨p, s⟩ = some ⟨some 59, t⟩ := by
  induction h with
  | stop h => rw [rl_eq, semi_tok _ h]; rfl
  | semi h _ ih => rw [rl_eq, semi_tok _ h]; exact ih
  | other h h1 h2 h3 _ ih => rw [rl_pass (tok_pass _ h h1 h2 h3)]; exact ih
  | open_ h hw hk hd _ ih =>
    have hw' : ∀ w ∈ ["begin", "for", "while"], w ∈ blockWords ∧ tokOf w ≠ .if_ ∧ (tokOf w = .begin_ ∨ tokOf w = .for_ ∨ tokOf w = .while_) := by decide
    obtain ⟨a1, a2, a3⟩ := hw' _ hw
    have e := kw_tok h a1 hk hd
    rw [if_neg a2] at e
    rw [rl_eq, e]
    rcases a3 with a3 | a3 | a3 <;> rw [a3] <;> exact ih
  | case_ h hk hd _ ih =>
    have e := kw_tok h (by decide) hk hd
    rw [if_neg (by decide)] at e
    rw [rl_eq, e]
    exact ih
  | endCase h hk hd _ ih =>
    have e := kw_tok h (by decide) hk hd
    rw [if_neg (by decide)] at e
    rw [rl_eq, e]
    exact ih
  | end_ h hk hd _ ih =>
    have e := kw_tok h (by decide) hk hd
    rw [if_neg (by decide)] at e
    rw [rl_eq, e]
    exact ih
  | if_ h hk hd h2 n1 n2 n3 n4 _ ih =>
    have e := kw_tok h (by decide) hk hd
    rw [if_pos (by decide), afterIf_if h2 n1 n2 n3 n4] at e
    rw [rl_eq, e]
    exact (rl_pass (nx_skip _)).trans ih
  | ifExists h hk hd h2 hk2 hc hd2 _ ih =>
    have e := kw_tok h (by decide) hk hd
    rw [if_pos (by decide), afterIf_word h2 (.inl rfl) hk2 hc hd2 (last_letter h (by decide) hk)] at e
    rw [rl_pass e]; exact ih
  | ifNotExists h hk hd h2 hk2 hc hd2 h3 hk3 _ ih =>
    have e := kw_tok h (by decide) hk hd
    rw [if_pos (by decide), afterIf_word h2 (.inr rfl) hk2 hc hd2 (last_letter h (by decide) hk)] at e
    rw [rl_pass e]
    obtain ⟨i, rfl, hi⟩ := hk3
    rw [rl_pass (tok_pass _ h3 (by simp) (by simp) ?_)]
    · exact ih
    · rintro w hw ⟨j, e', hj⟩
      injection e' with e'
      rw [← e', hi] at hj
      injection hj with hj
      subst hj
      revert hw; decide
  | ifSemi h hk hd h2 hc _ ih =>
    have e := kw_tok h (by decide) hk hd
    rw [if_pos (by decide), afterIf_semi h2 hc] at e
    rw [rl_pass e]
    exact (rl_pass (nx_skip _)).trans ih

/-- the buffer is cut after its first statement -/
theorem ends_read {b r : Bytes} (h : Ends 0 0 none (b ++ r) r) (h35 : (skipBlank ((b ++ r).length + 1) (b ++ r)).headD 0 ≠ 35) : read (b ++ r) = some (b, r) ∧ b ≠ [] := by
  have hrl := ends_rl h
  have hlt := (rl_suf _ _ _ _ hrl).2
  have hlt : r.length < (b ++ r).length := hlt
  have hb : b ≠ [] := by rintro rfl; simp at hlt
  have hs : (skip ⟨none, b ++ r⟩).rest ≠ [] := by
    intro e
    rw [rl_eq, nx_nil e] at hrl
    cases hrl
  have hp : readPos (b ++ r) = some ⟨some 59, r⟩ := by
    rw [readPos_eq, if_neg, rl_pass (nx_skip _)]
    · exact hrl
    · rintro ⟨e, _⟩
      by_cases hc : NoComment (b ++ r)
      · obtain ⟨e1, e2⟩ := noComment_skip (q := none) hc
        rw [e1, e2] at e
        exact h35 e
      · have hc : isComment ((b ++ r).dropWhile isSpace) = true := by
          unfold NoComment at hc
          simpa using hc
        have e1 : skip ⟨none, b ++ r⟩ = skipLine (skipSpace none (b ++ r)).prev ((b ++ r).dropWhile isSpace) := by
          unfold skip
          dsimp only
          rw [skipSpace_eq, if_pos hc]
        rcases skipLine_head (skipSpace none (b ++ r)).prev ((b ++ r).dropWhile isSpace) with e2 | ⟨t2, e2⟩
        · rw [← e1] at e2; exact hs e2
        · rw [e1, e2] at e; simp at e
  refine ⟨?_, hb⟩
  unfold read
  rw [if_neg (by simp [hb]), if_neg hs, hp]
  have : (b ++ r).length - r.length = b.length := by simp
  show some ((b ++ r).take ((b ++ r).length - r.length), r) = _
  rw [this, List.take_left]

end Verif.Cli
