import Verif.Cli.Main
/-!
# Statements over several lines (C100)

What is read from a buffer that ends with a newline does not change when more lines come.
-/
set_option autoImplicit false
set_option linter.unusedVariables false
set_option linter.unusedSimpArgs false
namespace Verif.Cli
open Verif Verif.Json.Text Verif.Parse.Lex Verif.Func

/-- the position with more text behind -/
def add (c : Cur) (T : Bytes) : Cur := ⟨c.prev, c.rest ++ T⟩

theorem skipSpace_mono (T : Bytes) (s : Bytes) : ∀ p, (skipSpace p s).rest ≠ [] → skipSpace p (s ++ T) = add (skipSpace p s) T := by
  induction s with
  | nil => intro p h; exact absurd rfl h
  | cons x r ih =>
    intro p h
    rw [List.cons_append]
    unfold skipSpace at h ⊢
    by_cases hx : isSpace x = true
    · rw [if_pos hx] at h
      rw [if_pos hx, if_pos hx]
      exact ih _ h
    · rw [if_neg hx, if_neg hx]; rfl

theorem skipLine_mono (T : Bytes) (s : Bytes) : ∀ p, (skipLine p s).rest ≠ [] → skipLine p (s ++ T) = add (skipLine p s) T := by
  induction s with
  | nil => intro p h; exact absurd rfl h
  | cons x r ih =>
    intro p h
    rw [List.cons_append]
    unfold skipLine at h ⊢
    by_cases hx : x ≠ 10
    · rw [if_pos hx] at h
      rw [if_pos hx, if_pos hx]
      exact ih _ h
    · rw [if_neg hx, if_neg hx]; rfl

theorem lined_last {x : Nat} (h : Lined [x]) : x = 10 := by
  rcases h with h | ⟨t, h⟩
  · cases h
  · cases t with
    | nil => injection h
    | cons a t => injection h with _ h; cases t <;> cases h

theorem comment_two (x y : Nat) (r : Bytes) : isComment (x :: y :: r) = decide (x = 45 ∧ y = 45) := by
  by_cases h : x = 45 ∧ y = 45
  · rw [h.1, h.2]; rfl
  · cases hc : isComment (x :: y :: r) with
    | false => simp [h]
    | true =>
      obtain ⟨r', e⟩ := comment_head hc
      injection e with e1 e2
      injection e2 with e2 _
      exact absurd ⟨e1, e2⟩ h

theorem comment_mono {s T : Bytes} (hl : Lined s) (hn : s ≠ []) : isComment (s ++ T) = isComment s := by
  cases s with
  | nil => exact absurd rfl hn
  | cons x r =>
    cases r with
    | nil =>
      have := lined_last hl
      subst this
      cases T <;> rfl
    | cons y r => rw [List.cons_append, List.cons_append, comment_two, comment_two]

theorem skip_mono {c : Cur} (T : Bytes) (hl : Lined c.rest) (hn : (skip c).rest ≠ []) : skip (add c T) = add (skip c) T := by
  have h1 : (skipSpace c.prev c.rest).rest ≠ [] := by
    intro e
    apply hn
    unfold skip
    dsimp only
    have : isComment ([] : Bytes) = false := rfl
    rw [e, if_neg (by rw [this]; simp), e]
  have e1 : skipSpace c.prev (c.rest ++ T) = add (skipSpace c.prev c.rest) T := skipSpace_mono T _ _ h1
  have hl1 := lined_suf hl (skipSpace_suf c.prev c.rest)
  have hc := comment_mono (T := T) hl1 h1
  unfold skip at hn ⊢
  dsimp only at hn ⊢
  show (if isComment (skipSpace c.prev (c.rest ++ T)).rest = true then skipLine (skipSpace c.prev (c.rest ++ T)).prev (skipSpace c.prev (c.rest ++ T)).rest else skipSpace c.prev (c.rest ++ T)) = _
  rw [e1]
  show (if isComment ((skipSpace c.prev c.rest).rest ++ T) = true then skipLine (skipSpace c.prev c.rest).prev ((skipSpace c.prev c.rest).rest ++ T) else add (skipSpace c.prev c.rest) T) = _
  rw [hc]
  by_cases hcm : isComment (skipSpace c.prev c.rest).rest = true
  · rw [if_pos hcm] at hn
    rw [if_pos hcm, if_pos hcm, skipLine_mono T _ _ hn]
  · rw [if_neg hcm, if_neg hcm]

theorem skipString_mono (q : Nat) (T : Bytes) (s : Bytes) : ∀ sl p, (skipString q sl p s).rest ≠ [] → skipString q sl p (s ++ T) = add (skipString q sl p s) T := by
  induction s with
  | nil => intro sl p h; exact absurd rfl h
  | cons x r ih =>
    intro sl p h
    rw [List.cons_append]
    unfold skipString at h ⊢
    by_cases hx : x = q
    · rw [if_pos hx] at h
      rw [if_pos hx, if_pos hx]
      by_cases hs : sl = true
      · rw [if_pos hs] at h
        rw [if_pos hs, if_pos hs]
        exact ih _ _ h
      · rw [if_neg hs, if_neg hs]; rfl
    · rw [if_neg hx] at h
      rw [if_neg hx, if_neg hx]
      exact ih _ _ h

/-- the words have letters only -/
def Letters (kw : Bytes) : Prop := ∀ x ∈ kw, 97 ≤ x

theorem matchKw_mono {c : Cur} {kw : Bytes} (T : Bytes) (hl : Lined c.rest) (hn : c.rest ≠ []) (hk : Letters kw) : matchKw (add c T) kw = (matchKw c kw).map (fun c' => add c' T) := by
  obtain ⟨p, s⟩ := c
  dsimp only at hl hn
  unfold matchKw add
  dsimp only
  by_cases hlen : kw.length + 1 ≤ s.length
  · have e1 : (s ++ T).take kw.length = s.take kw.length := List.take_append_of_le_length (by omega)
    have e2 : (s ++ T).getD kw.length 0 = s.getD kw.length 0 := by
      rw [List.getD_eq_getElem?_getD, List.getD_eq_getElem?_getD, List.getElem?_append_left (by omega)]
    have e3 : (s ++ T).drop kw.length = s.drop kw.length ++ T := List.drop_append_of_le_length (by omega)
    have e4 : kw.length + 1 ≤ (s ++ T).length := by rw [List.length_append]; omega
    rw [e1, e2, e3]
    by_cases hc : p.all isDelim = true ∧ kw.length + 1 ≤ s.length ∧ (s.take kw.length).map lower = kw ∧ isDelim (s.getD kw.length 0) = true
    · rw [if_pos hc, if_pos ⟨hc.1, e4, hc.2.2⟩]; rfl
    · rw [if_neg hc, if_neg (fun h => hc ⟨h.1, hlen, h.2.2⟩)]; rfl
  · have e1 : ¬ (p.all isDelim = true ∧ kw.length + 1 ≤ s.length ∧ (s.take kw.length).map lower = kw ∧ isDelim (s.getD kw.length 0) = true) := fun h => hlen h.2.1
    have e2 : ¬ (p.all isDelim = true ∧ kw.length + 1 ≤ (s ++ T).length ∧ ((s ++ T).take kw.length).map lower = kw ∧ isDelim ((s ++ T).getD kw.length 0) = true) := by
      rintro ⟨_, _, h, _⟩
      rcases hl with rfl | ⟨t, rfl⟩
      · exact hn rfl
      · have hm : (10 : Nat) ∈ ((t ++ [10]) ++ T).take kw.length := by
          have : ((t ++ [10]) ++ T).take kw.length = t ++ [10] ++ T.take (kw.length - (t ++ [10]).length) := by
            rw [List.take_append, List.take_of_length_le (by omega)]
          rw [this]; simp
        have h10 : lower 10 ∈ kw := by rw [← h]; exact List.mem_map.2 ⟨10, hm, rfl⟩
        have := hk _ h10
        revert this; decide
    rw [if_neg e1, if_neg e2]; rfl

/-- the result with more text behind -/
def addS (r : Tok × Cur ⊕ Cur) (T : Bytes) : Tok × Cur ⊕ Cur :=
  match r with
  | .inl t => .inl (t.1, add t.2 T)
  | .inr c => .inr (add c T)

theorem headD_mono {s T : Bytes} (h : s ≠ []) : (s ++ T).headD 0 = s.headD 0 := by
  cases s with
  | nil => exact absurd rfl h
  | cons x r => rfl

theorem afterIf_mono {c : Cur} (T : Bytes) (hl : Lined c.rest) (hn : ∀ c', afterIf c ≠ .inl (.eof, c')) : afterIf (add c T) = addS (afterIf c) T := by
  have hs : (skip c).rest ≠ [] := by
    intro e
    refine hn (skip c) ?_
    unfold afterIf
    dsimp only
    rw [if_pos e]
  have hsl := lined_suf hl (skip_suf c)
  unfold afterIf
  dsimp only
  rw [skip_mono T hl hs, if_neg hs, if_neg (show ¬ ((add (skip c) T).rest = []) by simp [add, hs])]
  have hh : (add (skip c) T).rest.headD 0 = (skip c).rest.headD 0 := headD_mono hs
  rw [hh]
  by_cases h59 : (skip c).rest.headD 0 = 59
  · rw [if_pos h59, if_pos h59]; rfl
  · rw [if_neg h59, if_neg h59, matchKw_mono T hsl hs (by unfold Letters; decide), matchKw_mono T hsl hs (by unfold Letters; decide)]
    cases matchKw (skip c) (strBytes "exists") with
    | some c' => rfl
    | none =>
      cases matchKw (skip c) (strBytes "not") with
      | some c' => rfl
      | none => rfl

theorem wordOf_letters {x : Nat} {t : Tok} {kw : Bytes} (h : wordOf x = some (t, kw)) : Letters kw := by
  unfold wordOf at h
  repeat' split at h
  all_goals first
    | cases h; done
    | (injection h with h; injection h with _ h; subst h; unfold Letters; decide)

theorem at_mono {c : Cur} {x : Nat} {r : Bytes} (T : Bytes) (hc : c.rest = x :: r) (hl : Lined c.rest) (hn : ∀ c', at_ c x r ≠ .inl (.eof, c')) : at_ (add c T) x (r ++ T) = addS (at_ c x r) T := by
  unfold at_ at hn ⊢
  by_cases h1 : x = 59
  · rw [if_pos h1, if_pos h1]; rfl
  rw [if_neg h1] at hn
  rw [if_neg h1, if_neg h1]
  by_cases h2 : x = 39 ∨ x = 34
  · rw [if_pos h2] at hn
    rw [if_pos h2, if_pos h2]
    by_cases h3 : (skipString x false (some x) r).rest = []
    · rw [if_pos h3] at hn; exact absurd rfl (hn _)
    · rw [skipString_mono x T r _ _ h3, if_neg h3, if_neg (show ¬ ((add (skipString x false (some x) r) T).rest = []) by simp [add, h3])]; rfl
  rw [if_neg h2] at hn
  rw [if_neg h2, if_neg h2]
  cases hw : wordOf x with
  | none => rfl
  | some tk =>
    obtain ⟨t, kw⟩ := tk
    rw [hw] at hn
    dsimp only at hn ⊢
    rw [matchKw_mono T hl (by rw [hc]; simp) (wordOf_letters hw)]
    cases hm : matchKw c kw with
    | none => rfl
    | some c' =>
      rw [hm] at hn
      dsimp only at hn
      show (if t = .if_ then afterIf (add c' T) else .inl (t, add c' T)) = addS (if t = .if_ then afterIf c' else .inl (t, c')) T
      by_cases hi : t = .if_
      · rw [if_pos hi] at hn
        rw [if_pos hi, if_pos hi]
        exact afterIf_mono T (lined_suf hl (matchKw_lt hm (wordOf_ne hw)).1) hn
      · rw [if_neg hi, if_neg hi]; rfl

theorem nx_mono (T : Bytes) (c : Cur) : Lined c.rest → (nx c).1 ≠ .eof → nx (add c T) = ((nx c).1, add (nx c).2 T) := by
  refine cur_ind (P := fun c => Lined c.rest → (nx c).1 ≠ .eof → nx (add c T) = ((nx c).1, add (nx c).2 T)) ?_ c
  intro c ih hl hn
  have hs := skip_suf c
  cases hr : (skip c).rest with
  | nil => rw [nx_nil hr] at hn; exact absurd rfl hn
  | cons x r =>
    have hsk := skip_mono T hl (by rw [hr]; simp)
    have hr' : (skip (add c T)).rest = x :: (r ++ T) := by rw [hsk]; show (skip c).rest ++ T = _; rw [hr]; rfl
    have hls := lined_suf hl hs
    cases ha : at_ (skip c) x r with
    | inl t =>
      rw [nx_inl hr ha] at hn ⊢
      refine nx_inl hr' ?_
      rw [hsk, at_mono T hr hls, ha]
      · rfl
      · intro c' e
        rw [ha] at e
        injection e with e
        rw [e] at hn
        exact hn rfl
    | inr c' =>
      obtain ⟨h1, h2⟩ := (at_suf hr).2 c' ha
      have h3 := Nat.lt_of_lt_of_le h2 (suf_len hs)
      rw [nx_inr hr ha] at hn ⊢
      have e : at_ (skip (add c T)) x (r ++ T) = .inr (add c' T) := by
        rw [hsk, at_mono T hr hls, ha]
        · rfl
        · intro c'' e
          rw [ha] at e; cases e
      rw [nx_inr hr' e]
      exact ih c' h3 (lined_suf hls h1) hn

theorem rl_mono (T : Bytes) (c : Cur) : ∀ ic lv c', Lined c.rest → rl ic lv c = some c' → rl ic lv (add c T) = some (add c' T) := by
  refine cur_ind (P := fun c => ∀ ic lv c', Lined c.rest → rl ic lv c = some c' → rl ic lv (add c T) = some (add c' T)) ?_ c
  intro c ih ic lv c' hl h
  have hs := nx_suf c
  rw [rl_eq] at h ⊢
  cases ht : (nx c).1 with
  | eof => rw [ht] at h; cases h
  | _ =>
    have hne : (nx c).1 ≠ .eof := by rw [ht]; simp
    have hlt := hs.2.resolve_left hne
    have key : ∀ a b, rl a b (nx c).2 = some c' → rl a b (add (nx c).2 T) = some (add c' T) := fun a b => ih _ hlt a b c' (lined_suf hl hs.1)
    rw [nx_mono T c hl hne]
    rw [ht] at h ⊢
    dsimp only at h ⊢
    first
      | exact key _ _ h
      | (by_cases h1 : lv = 0
         · rw [if_pos h1] at h ⊢
           injection h with h
           rw [h]
         · rw [if_neg h1] at h ⊢
           exact key _ _ h)
      | (by_cases h0 : ic > 0
         · rw [if_pos h0] at h ⊢
           exact key _ _ h
         · rw [if_neg h0] at h ⊢
           by_cases h1 : lv = 0
           · rw [if_pos h1] at h ⊢
             injection h with h
             rw [h]
           · rw [if_neg h1] at h ⊢
             exact key _ _ h)

theorem skipLine_lined {s : Bytes} (t : Bytes) (h : s = t ++ [10]) (p : Option Nat) : (skipLine p s).rest ≠ [] := by
  subst h
  rw [skipLine_eq]
  intro e
  have := dropWhile_nil e 10 (by simp)
  simp at this

theorem readPos_mono {B : Bytes} {c : Cur} (T : Bytes) (hl : Lined B) (hn : (skip ⟨none, B⟩).rest ≠ []) (h : readPos B = some c) : readPos (B ++ T) = some (add c T) := by
  have hsk : skip ⟨none, B ++ T⟩ = add (skip ⟨none, B⟩) T := skip_mono (c := ⟨none, B⟩) T hl hn
  have hls : Lined (skip ⟨none, B⟩).rest := lined_suf hl (skip_suf ⟨none, B⟩)
  rw [readPos_eq] at h ⊢
  rw [hsk]
  have hh : (add (skip ⟨none, B⟩) T).rest.headD 0 = (skip ⟨none, B⟩).rest.headD 0 := headD_mono hn
  have hn' : (add (skip ⟨none, B⟩) T).rest ≠ [] := by
    show (skip ⟨none, B⟩).rest ++ T ≠ []
    simp [hn]
  rw [hh]
  by_cases h1 : (skip ⟨none, B⟩).rest.headD 0 = 35
  · rw [if_pos ⟨h1, hn⟩] at h
    rw [if_pos ⟨h1, hn'⟩]
    injection h with h
    rw [← h]
    refine congrArg some (skipLine_mono T _ _ ?_)
    rcases hls with e | ⟨t, e⟩
    · exact absurd e hn
    · exact skipLine_lined t e _
  · rw [if_neg (fun x => h1 x.1)] at h
    rw [if_neg (fun x => h1 x.1)]
    exact rl_mono T _ 0 0 c hls h

/-- more lines do not change what is read -/
theorem read_mono {B b rest : Bytes} (T : Bytes) (hl : Lined B) (h : read B = some (b, rest)) (hb : b ≠ []) : read (B ++ T) = some (b, rest ++ T) := by
  unfold read at h
  by_cases h0 : B = []
  · rw [if_pos h0] at h; cases h
  rw [if_neg h0] at h
  by_cases hn : (skip ⟨none, B⟩).rest = []
  · rw [if_pos hn] at h
    injection h with h; injection h with h _
    exact absurd h.symm hb
  rw [if_neg hn] at h
  cases hp : readPos B with
  | none => rw [hp] at h; cases h
  | some c =>
    rw [hp] at h
    injection h with h
    injection h with e1 e2
    have hlen := (readPos_suf hp).2
    have hsk : skip ⟨none, B ++ T⟩ = add (skip ⟨none, B⟩) T := skip_mono (c := ⟨none, B⟩) T hl hn
    unfold read
    rw [if_neg (by simp [h0]), if_neg, readPos_mono T hl hn hp]
    · show some ((B ++ T).take ((B ++ T).length - (c.rest ++ T).length), c.rest ++ T) = _
      have : (B ++ T).length - (c.rest ++ T).length = B.length - c.rest.length := by rw [List.length_append, List.length_append]; omega
      rw [this, List.take_append_of_le_length (by omega), e1, e2]
    · rw [hsk]
      show (skip ⟨none, B⟩).rest ++ T ≠ []
      simp [hn]

/-! ## white space before a statement -/

theorem skipBlank_fuel (f : Nat) : ∀ (g : Nat) (s : Bytes), s.length < f → s.length < g → skipBlank f s = skipBlank g s := by
  induction f with
  | zero => intro g s h; omega
  | succ f ih =>
    intro g s h1 h2
    obtain ⟨g, rfl⟩ : ∃ g', g = g' + 1 := ⟨g - 1, by omega⟩
    unfold skipBlank
    dsimp only
    by_cases hc : isComment (s.dropWhile isSpace) = true
    · rw [if_pos hc, if_pos hc]
      have a := comment_len hc
      have b := dropWhile_len isSpace s
      exact ih g _ (by omega) (by omega)
    · rw [if_neg hc, if_neg hc]

theorem skipBlank_space {x : Nat} {s : Bytes} (h : isSpace x = true) : skipBlank ((x :: s).length + 1) (x :: s) = skipBlank (s.length + 1) s := by
  rw [skipBlank_fuel _ ((x :: s).length + 1) s (Nat.lt_succ_self _) (by simp; omega)]
  conv => lhs; unfold skipBlank
  conv => rhs; unfold skipBlank
  dsimp only
  rw [List.dropWhile_cons_of_pos h]

theorem lexNext_space {x : Nat} {s : Bytes} (h : isSpace x = true) : lexNext true (x :: s) = lexNext true s := by
  unfold lexNext
  rw [skipBlank_space h]

/-- a token takes at least a character -/
theorem lex_lt {s r : Bytes} {k : LTok} (h : lexNext true s = .ok (k, r)) (h1 : k ≠ .eof) : r.length < s.length := by
  have hb := suf_len (skipBlank_suf (s.length + 1) s)
  have key : ∀ u c t, skipBlank (s.length + 1) s = c :: t → c :: t = u ++ r → u ≠ [] → r.length < s.length := by
    intro u c t hs hu hne
    rw [hs, hu, List.length_append] at hb
    have : 0 < u.length := List.length_pos_iff.2 hne
    omega
  by_cases h2 : k = .sym 59
  · subst h2
    have := semi_head h
    exact key [59] 59 r this rfl (by simp)
  · by_cases h3 : ∃ w ∈ blockWords, IsKw k w
    · obtain ⟨w, hw, hk⟩ := h3
      obtain ⟨c, t, hs, _, _, n, hn, hnl⟩ := tok_kw h (block_sep w hw) hk
      obtain ⟨_, _, hne, _⟩ := sepWords_lower w (block_sep w hw)
      exact key n c t hs hn (by rintro rfl; exact hne hnl.symm)
    · have h3 : ∀ w ∈ blockWords, ¬ IsKw k w := fun w hw hk => h3 ⟨w, hw, hk⟩
      rcases lexNext_inv h with ⟨_, e⟩ | ⟨c, t, hs, hd | hp | ha | hq⟩
      · exact absurd e h1
      · obtain ⟨u, hu, hne, _⟩ := num_pass hd.1 hd.2
        exact key u c t hs hu hne
      · obtain ⟨u, hu, hne, _⟩ := sym_pass hp.1 hp.2.1 hp.2.2.1 (skipBlank_stop _ s (Nat.lt_succ_self _) c t hs).2 hp.2.2.2 h2
        exact key u c t hs hu hne
      · obtain ⟨u, hu, hne, _⟩ := name_pass ha.1 ha.2 h3
        exact key u c t hs hu hne
      · obtain ⟨u, hu, hne, _⟩ := str_pass hq.1 hq.2
        exact key u c t hs hu hne

theorem lastOf_space {x : Nat} {s r : Bytes} (h : r.length < s.length) : lastOf (x :: s) r = lastOf s r := by
  unfold lastOf
  have : (x :: s).length - r.length = (s.length - r.length) + 1 := by rw [List.length_cons]; omega
  rw [this, List.take_succ_cons]
  cases ht : s.take (s.length - r.length) with
  | nil =>
    have := congrArg List.length ht
    rw [List.length_take, List.length_nil] at this
    omega
  | cons a l => rw [List.getLast?_cons_cons]

theorem isKw_eof {w : String} (h : IsKw .eof w) : False := by
  obtain ⟨i, e, _⟩ := h
  cases e

theorem ends_space {x : Nat} {s t : Bytes} (hx : isSpace x = true) (h : Ends 0 0 none (x :: s) t) : Ends 0 0 none s t := by
  have dl : ∀ r, Delimited none (x :: s) r → Delimited none s r := fun r h => ⟨.inl (fun c e => (by cases e)), h.2⟩
  have la : ∀ k r, lexNext true s = .ok (k, r) → k ≠ .eof → lastOf (x :: s) r = lastOf s r := fun k r e hk => lastOf_space (lex_lt e hk)
  have lx := lexNext_space (s := s) hx
  generalize hic : (0 : Nat) = ic at h
  generalize hlv : ic = lv at h
  generalize hp : (none : Option Nat) = p at h
  generalize hs : x :: s = s0 at h
  cases h with
  | stop h => subst hs; subst hp; rw [lx] at h; exact .stop h
  | other h a b c h2 =>
    subst hs; subst hp; subst hic; subst hlv; rw [lx] at h
    rw [la _ _ h a] at h2
    exact .other h a b c h2
  | open_ h a b c h2 =>
    subst hs; subst hp; subst hlv; rw [lx] at h
    rw [la _ _ h (by rintro rfl; exact isKw_eof b)] at h2
    exact .open_ h a b (dl _ c) h2
  | case_ h b c h2 =>
    subst hs; subst hp; subst hic; subst hlv; rw [lx] at h
    rw [la _ _ h (by rintro rfl; exact isKw_eof b)] at h2
    exact .case_ h b (dl _ c) h2
  | endCase => omega
  | if_ h b c h2 a1 a2 a3 a4 h3 =>
    subst hs; subst hp; subst hlv; rw [lx] at h
    rw [la _ _ h (by rintro rfl; exact isKw_eof b)] at h3
    exact .if_ h b (dl _ c) h2 a1 a2 a3 a4 h3
  | ifExists h b c h2 a1 a2 a3 h3 =>
    subst hs; subst hp; subst hic; subst hlv; rw [lx] at h
    rw [la _ _ h (by rintro rfl; exact isKw_eof b)] at a3
    exact .ifExists h b (dl _ c) h2 a1 a2 a3 h3
  | ifNotExists h b c h2 a1 a2 a3 a4 a5 h3 =>
    subst hs; subst hp; subst hic; subst hlv; rw [lx] at h
    rw [la _ _ h (by rintro rfl; exact isKw_eof b)] at a3
    exact .ifNotExists h b (dl _ c) h2 a1 a2 a3 a4 a5 h3
  | ifSemi h b c h2 a1 h3 =>
    subst hs; subst hp; subst hic; subst hlv; rw [lx] at h
    rw [la _ _ h (by rintro rfl; exact isKw_eof b)] at h3
    exact .ifSemi h b (dl _ c) h2 a1 h3

theorem stmts_space {x : Nat} {s : Bytes} {bs : List Bytes} (hx : isSpace x = true) (h : Stmts (x :: s) bs) : ∃ bs', Stmts s bs' ∧ bs.map strip = bs'.map strip := by
  generalize hs : x :: s = s0 at h
  cases h with
  | nil h =>
    subst hs
    refine ⟨[], .nil ?_, rfl⟩
    unfold blank at h ⊢
    rw [List.all_cons, hx] at h
    simpa using h
  | @cons b r bs h h35 ht =>
    rw [← hs] at h h35
    have h' := ends_space hx h
    have hsuf := (rl_suf _ _ _ _ (ends_rl h')).1
    obtain ⟨b', hb'⟩ := hsuf
    have hb' : b' ++ r = s := hb'
    refine ⟨b' :: bs, ?_, ?_⟩
    · rw [← hb']
      rw [← hb'] at h' h35
      rw [skipBlank_space hx] at h35
      exact .cons h' h35 ht
    · have : b = x :: b' := by
        have e : b ++ r = (x :: b') ++ r := by rw [← hs, ← hb']; rfl
        exact List.append_cancel_right e
      rw [this, List.map_cons, List.map_cons]
      unfold strip
      rw [List.dropWhile_cons_of_pos hx]

theorem stmts_blank (w : Bytes) : ∀ (s : Bytes) (bs : List Bytes), Blank w → Stmts (w ++ s) bs → ∃ bs', Stmts s bs' ∧ bs.map strip = bs'.map strip := by
  induction w with
  | nil => intro s bs _ h; exact ⟨bs, h, rfl⟩
  | cons x w ih =>
    intro s bs hw h
    obtain ⟨b1, h1, e1⟩ := stmts_space (s := w ++ s) (hw x (by simp)) h
    obtain ⟨b2, h2, e2⟩ := ih s b1 (fun y hy => hw y (by simp [hy])) h1
    exact ⟨b2, h2, e1.trans e2⟩

/-! ## lines -/

theorem blank_read {s : Bytes} (hb : blank s = true) (hn : s ≠ []) : read s = some ([], []) := by
  unfold read
  rw [if_neg hn, if_pos]
  have e := skipSpace_eq none s
  have : s.dropWhile isSpace = [] := by
    unfold blank at hb
    rw [List.all_eq_true] at hb
    clear hn e
    induction s with
    | nil => rfl
    | cons x r ih => rw [List.dropWhile_cons_of_pos (hb x (by simp))]; exact ih (fun y hy => hb y (by simp [hy]))
  unfold skip
  dsimp only
  rw [e, this, if_neg (by decide), e, this]

/-- reading what lines there are gives the statements that end in them -/
theorem drain_stmts (T : Bytes) (f : Nat) : ∀ (B : Bytes) (bs : List Bytes), Lined B → Stmts (B ++ T) bs →
    ∃ bs2, Stmts ((drain f B).2 ++ T) bs2 ∧ bs.map strip = ((drain f B).1.filter (fun x => x ≠ [])).map strip ++ bs2.map strip := by
  induction f with
  | zero => intro B bs hl h; exact ⟨bs, h, rfl⟩
  | succ f ih =>
    intro B bs hl h
    unfold drain
    cases hr : read B with
    | none => exact ⟨bs, h, rfl⟩
    | some x =>
      obtain ⟨b, rest⟩ := x
      dsimp only
      rcases read_some hr with ⟨e1, e2⟩ | ⟨e1, e2, e3, e4⟩
      · have hm := read_mono T hl hr e2
        generalize hs : B ++ T = s at h hm
        cases h with
        | nil hb =>
          exfalso
          cases s with
          | nil => cases hm
          | cons y s =>
            rw [blank_read hb (by simp)] at hm
            injection hm with hm; injection hm with hm _
            exact e2 hm.symm
        | @cons b0 r0 bs0 h0 h35 ht =>
          obtain ⟨hr0, _⟩ := ends_read h0 h35
          rw [hr0] at hm
          injection hm with hm
          injection hm with hm1 hm2
          subst hm1
          rw [hm2] at ht
          obtain ⟨bs2, i1, i2⟩ := ih rest bs0 (lined_suf hl ⟨b0, e1⟩) ht
          refine ⟨bs2, i1, ?_⟩
          rw [List.filter_cons, if_pos (by simpa using e2), List.map_cons, List.map_cons, i2]
          rfl
      · subst e1; subst e2
        have hn : drain f [] = ([], []) := by
          cases f with
          | zero => rfl
          | succ f => rfl
        rw [hn]
        rcases hl with rfl | ⟨t, rfl⟩
        · exact absurd rfl e4
        · have hb := skip_blank e3
          obtain ⟨bs', h1, h2⟩ := stmts_blank (t ++ [10]) T bs (by
            intro x hx
            rcases List.mem_append.1 hx with h | h
            · exact hb x h
            · rw [List.mem_singleton] at h; subst h; decide) h
          exact ⟨bs', h1, h2⟩

theorem lines_stmts (ls : List Bytes) : ∀ (buf : Bytes) (bs : List Bytes), Lined buf → read buf = none → Stmts (buf ++ textOf ls) bs →
    (lines buf ls).1.map strip = bs.map strip ∧ (lines buf ls).2 = [] := by
  induction ls with
  | nil =>
    intro buf bs hl hr h
    unfold textOf at h
    rw [List.append_nil] at h
    unfold lines
    cases h with
    | nil hb =>
      refine ⟨rfl, ?_⟩
      cases buf with
      | nil => rfl
      | cons x s => rw [blank_read hb (by simp)] at hr; cases hr
    | cons h h35 ht =>
      rw [(ends_read h h35).1] at hr; cases hr
  | cons l ls ih =>
    intro buf bs hl hr h
    unfold textOf at h
    have h' : Stmts ((buf ++ l ++ [10]) ++ textOf ls) bs := by
      have : (buf ++ l ++ [10]) ++ textOf ls = buf ++ (l ++ [10] ++ textOf ls) := by simp
      rw [this]; exact h
    obtain ⟨bs2, h1, h2⟩ := drain_stmts (textOf ls) (buf.length + l.length + 2) (buf ++ l ++ [10]) bs (.inr ⟨_, rfl⟩) h'
    have hd := drain_end (buf.length + l.length + 2) (buf ++ l ++ [10]) (by simp; omega)
    have hl2 := (drain_split (buf.length + l.length + 2) (buf ++ l ++ [10]) (.inr ⟨_, rfl⟩)).2
    obtain ⟨i1, i2⟩ := ih (line buf l).2 bs2 hl2 hd h1
    unfold lines
    dsimp only
    refine ⟨?_, i2⟩
    rw [List.map_append, i1, h2]
    rfl

end Verif.Cli
