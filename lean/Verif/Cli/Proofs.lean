import Verif.Cli.Model
/-!
# Scanning (C100): nothing is lost, bounds are large enough
-/
set_option autoImplicit false
set_option linter.unusedVariables false
set_option linter.unusedSimpArgs false
namespace Verif.Cli
open Verif Verif.Json.Text Verif.Parse.Lex

theorem skipSpace_suf (p : Option Nat) (s : Bytes) : (skipSpace p s).rest <:+ s := by
  induction s generalizing p with
  | nil => exact List.suffix_refl _
  | cons x r ih =>
    unfold skipSpace
    split
    · exact (ih _).trans (List.suffix_cons _ _)
    · exact List.suffix_refl _

theorem skipLine_suf (p : Option Nat) (s : Bytes) : (skipLine p s).rest <:+ s := by
  induction s generalizing p with
  | nil => exact List.suffix_refl _
  | cons x r ih =>
    unfold skipLine
    split
    · exact (ih _).trans (List.suffix_cons _ _)
    · exact List.suffix_refl _

theorem skip_suf (c : Cur) : (skip c).rest <:+ c.rest := by
  unfold skip
  dsimp only
  split
  · exact (skipLine_suf _ _).trans (skipSpace_suf _ _)
  · exact skipSpace_suf _ _

theorem skipString_suf (q : Nat) (s : Bytes) (sl : Bool) (p : Option Nat) : (skipString q sl p s).rest <:+ s := by
  induction s generalizing sl p with
  | nil => exact List.suffix_refl _
  | cons x r ih =>
    unfold skipString
    split
    · split
      · exact (ih _ _).trans (List.suffix_cons _ _)
      · exact List.suffix_cons _ _
    · exact (ih _ _).trans (List.suffix_cons _ _)

theorem matchKw_some {c c' : Cur} {kw : Bytes} (h : matchKw c kw = some c') :
    c'.rest = c.rest.drop kw.length ∧ c'.prev = (c.rest.take kw.length).getLast? ∧ kw.length + 1 ≤ c.rest.length ∧ (c.rest.take kw.length).map lower = kw ∧ isDelim (c.rest.getD kw.length 0) = true ∧ c.prev.all isDelim = true := by
  unfold matchKw at h
  split at h
  · rename_i e
    injection h with h
    subst h
    exact ⟨rfl, rfl, e.2.1, e.2.2.1, e.2.2.2, e.1⟩
  · cases h

theorem matchKw_lt {c c' : Cur} {kw : Bytes} (h : matchKw c kw = some c') (hk : kw ≠ []) : c'.rest <:+ c.rest ∧ c'.rest.length < c.rest.length := by
  obtain ⟨h1, _, h3, _⟩ := matchKw_some h
  rw [h1]
  refine ⟨List.drop_suffix _ _, ?_⟩
  rw [List.length_drop]
  have : 0 < kw.length := List.length_pos_iff.2 hk
  omega

theorem afterIf_suf (c : Cur) : (∀ t c', afterIf c = .inl (t, c') → c'.rest <:+ c.rest) ∧ (∀ c', afterIf c = .inr c' → c'.rest <:+ c.rest) := by
  have hs := skip_suf c
  unfold afterIf
  dsimp only
  refine ⟨?_, ?_⟩
  · intro t c' h
    split at h
    · injection h with h; injection h with h1 h2; rw [← h2]; exact hs
    · split at h
      · cases h
      · split at h
        · cases h
        · split at h
          · cases h
          · injection h with h; injection h with h1 h2; rw [← h2]; exact hs
  · intro c' h
    split at h
    · cases h
    · split at h
      · injection h with h; rw [← h]; exact hs
      · split at h
        · rename_i e; injection h with h; rw [← h]; exact (matchKw_lt e (by decide)).1.trans hs
        · split at h
          · rename_i e; injection h with h; rw [← h]; exact (matchKw_lt e (by decide)).1.trans hs
          · cases h

theorem wordOf_ne {x : Nat} {t : Tok} {kw : Bytes} (h : wordOf x = some (t, kw)) : kw ≠ [] := by
  unfold wordOf at h
  repeat' split at h
  all_goals first | (injection h with h; injection h with h1 h2; rw [← h2]; decide) | cases h

theorem suf_len {a b : Bytes} (h : a <:+ b) : a.length ≤ b.length := h.length_le

theorem at_suf {c : Cur} {x : Nat} {r : Bytes} (hc : c.rest = x :: r) :
    (∀ t c', at_ c x r = .inl (t, c') → c'.rest <:+ c.rest ∧ c'.rest.length < c.rest.length) ∧ (∀ c', at_ c x r = .inr c' → c'.rest <:+ c.rest ∧ c'.rest.length < c.rest.length) := by
  have tail : ∀ c' : Cur, c'.rest <:+ r → c'.rest <:+ c.rest ∧ c'.rest.length < c.rest.length := by
    intro c' h
    rw [hc]
    refine ⟨h.trans (List.suffix_cons _ _), ?_⟩
    have := suf_len h
    simp only [List.length_cons]; omega
  refine ⟨?_, ?_⟩
  · intro t c' h
    unfold at_ at h
    split at h
    · injection h with h; injection h with h1 h2; rw [← h2]; exact tail ⟨some x, r⟩ (List.suffix_refl _)
    · split at h
      · split at h
        · injection h with h; injection h with h1 h2; rw [← h2]; exact tail _ (skipString_suf _ _ _ _)
        · cases h
      · split at h
        · cases h
        · rename_i t' kw hw
          split at h
          · cases h
          · rename_i c2 hm
            have h0 := matchKw_lt hm (wordOf_ne hw)
            split at h
            · have := (afterIf_suf c2).1 t c' h
              exact ⟨this.trans h0.1, Nat.lt_of_le_of_lt (suf_len this) h0.2⟩
            · injection h with h; injection h with h1 h2; rw [← h2]; exact h0
  · intro c' h
    unfold at_ at h
    split at h
    · cases h
    · split at h
      · split at h
        · cases h
        · injection h with h; rw [← h]; exact tail _ (skipString_suf _ _ _ _)
      · split at h
        · injection h with h; rw [← h]; exact tail ⟨some x, r⟩ (List.suffix_refl _)
        · rename_i t' kw hw
          split at h
          · injection h with h; rw [← h]; exact tail ⟨some x, r⟩ (List.suffix_refl _)
          · rename_i c2 hm
            have h0 := matchKw_lt hm (wordOf_ne hw)
            split at h
            · have := (afterIf_suf c2).2 c' h
              exact ⟨this.trans h0.1, Nat.lt_of_le_of_lt (suf_len this) h0.2⟩
            · cases h

theorem next_fuel (f : Nat) : ∀ (g : Nat) (c : Cur), c.rest.length < f → c.rest.length < g → next f c = next g c := by
  induction f with
  | zero => intro g c h; omega
  | succ f ih =>
    intro g c h1 h2
    obtain ⟨g, rfl⟩ : ∃ g', g = g' + 1 := ⟨g - 1, by omega⟩
    have hs := suf_len (skip_suf c)
    unfold next
    dsimp only
    split
    · rfl
    · rename_i x r hr
      split
      · rfl
      · rename_i c' hc'
        have := ((at_suf hr).2 c' hc').2
        exact ih g c' (by omega) (by omega)

/-- separator_next -/
def nx (c : Cur) : Tok × Cur := next (c.rest.length + 1) c

theorem nx_eq (c : Cur) : nx c = match (skip c).rest with
    | [] => (.eof, skip c)
    | x :: r => match at_ (skip c) x r with
      | .inl t => t
      | .inr c' => nx c' := by
  have hs := suf_len (skip_suf c)
  conv => lhs; unfold nx next
  dsimp only
  cases hr : (skip c).rest with
  | nil => rfl
  | cons x r =>
    dsimp only
    cases ha : at_ (skip c) x r with
    | inl t => rfl
    | inr c' =>
      dsimp only
      have := ((at_suf hr).2 c' ha).2
      exact next_fuel _ _ c' (by omega) (by omega)

theorem nx_nil {c : Cur} (h : (skip c).rest = []) : nx c = (.eof, skip c) := by rw [nx_eq, h]

theorem nx_inl {c : Cur} {x : Nat} {r : Bytes} {t : Tok × Cur} (h : (skip c).rest = x :: r) (h2 : at_ (skip c) x r = .inl t) : nx c = t := by
  rw [nx_eq, h]; dsimp only; rw [h2]

theorem nx_inr {c c' : Cur} {x : Nat} {r : Bytes} (h : (skip c).rest = x :: r) (h2 : at_ (skip c) x r = .inr c') : nx c = nx c' := by
  rw [nx_eq, h]; dsimp only; rw [h2]

/-- induction over the characters left -/
theorem cur_ind {P : Cur → Prop} (h : ∀ c, (∀ c', c'.rest.length < c.rest.length → P c') → P c) (c : Cur) : P c := by
  have : ∀ n, ∀ c : Cur, c.rest.length < n → P c := by
    intro n
    induction n with
    | zero => intro c hc; omega
    | succ n ih => intro c hc; exact h c (fun c' hc' => ih c' (by omega))
  exact this _ c (Nat.lt_succ_self _)

theorem nx_suf (c : Cur) : (nx c).2.rest <:+ c.rest ∧ ((nx c).1 = .eof ∨ (nx c).2.rest.length < c.rest.length) := by
  refine cur_ind (P := fun c => (nx c).2.rest <:+ c.rest ∧ ((nx c).1 = .eof ∨ (nx c).2.rest.length < c.rest.length)) ?_ c
  intro c ih
  have hs := skip_suf c
  cases hr : (skip c).rest with
  | nil => rw [nx_nil hr]; exact ⟨hs, .inl rfl⟩
  | cons x r =>
    cases ha : at_ (skip c) x r with
    | inl t =>
      obtain ⟨h1, h2⟩ := (at_suf hr).1 t.1 t.2 ha
      rw [nx_inl hr ha]
      exact ⟨h1.trans hs, .inr (Nat.lt_of_lt_of_le h2 (suf_len hs))⟩
    | inr c' =>
      obtain ⟨h1, h2⟩ := (at_suf hr).2 c' ha
      have h3 := Nat.lt_of_lt_of_le h2 (suf_len hs)
      obtain ⟨i1, i2⟩ := ih c' h3
      rw [nx_inr hr ha]
      exact ⟨i1.trans (h1.trans hs), i2.imp id (fun h => by omega)⟩

theorem readLoop_fuel (f : Nat) : ∀ (g ic lv : Nat) (c : Cur), c.rest.length < f → c.rest.length < g → readLoop f ic lv c = readLoop g ic lv c := by
  induction f with
  | zero => intro g ic lv c h; omega
  | succ f ih =>
    intro g ic lv c h1 h2
    obtain ⟨g, rfl⟩ : ∃ g', g = g' + 1 := ⟨g - 1, by omega⟩
    have hs := (nx_suf c).2
    unfold readLoop
    dsimp only
    change (nx c).1 = .eof ∨ (nx c).2.rest.length < c.rest.length at hs
    show (match (nx c).1 with
    | .begin_ | .if_ | .for_ | .while_ => readLoop f ic (lv + 1) (nx c).2
    | .case_ => readLoop f (ic + 1) lv (nx c).2
    | .end_ => if ic > 0 then readLoop f (ic - 1) lv (nx c).2 else if lv = 0 then some (nx c).2 else readLoop f ic (lv - 1) (nx c).2
    | .semicolon => if lv = 0 then some (nx c).2 else readLoop f ic lv (nx c).2
    | .eof => none) = (match (nx c).1 with
    | .begin_ | .if_ | .for_ | .while_ => readLoop g ic (lv + 1) (nx c).2
    | .case_ => readLoop g (ic + 1) lv (nx c).2
    | .end_ => if ic > 0 then readLoop g (ic - 1) lv (nx c).2 else if lv = 0 then some (nx c).2 else readLoop g ic (lv - 1) (nx c).2
    | .semicolon => if lv = 0 then some (nx c).2 else readLoop g ic lv (nx c).2
    | .eof => none)
    cases ht : (nx c).1 <;> dsimp only
    all_goals
      have hl : (nx c).2.rest.length < c.rest.length := hs.resolve_left (by rw [ht]; simp)
      have key : ∀ a b, readLoop f a b (nx c).2 = readLoop g a b (nx c).2 := fun a b => ih g a b _ (by omega) (by omega)
      simp only [key]

/-- the loop of separator_read -/
def rl (ic lv : Nat) (c : Cur) : Option Cur := readLoop (c.rest.length + 1) ic lv c

theorem rl_eq (ic lv : Nat) (c : Cur) : rl ic lv c = match (nx c).1 with
    | .begin_ | .if_ | .for_ | .while_ => rl ic (lv + 1) (nx c).2
    | .case_ => rl (ic + 1) lv (nx c).2
    | .end_ => if ic > 0 then rl (ic - 1) lv (nx c).2 else if lv = 0 then some (nx c).2 else rl ic (lv - 1) (nx c).2
    | .semicolon => if lv = 0 then some (nx c).2 else rl ic lv (nx c).2
    | .eof => none := by
  have hs := (nx_suf c).2
  show readLoop (c.rest.length + 1) ic lv c = _
  unfold readLoop
  show (match (nx c).1 with
    | .begin_ | .if_ | .for_ | .while_ => readLoop c.rest.length ic (lv + 1) (nx c).2
    | .case_ => readLoop c.rest.length (ic + 1) lv (nx c).2
    | .end_ => if ic > 0 then readLoop c.rest.length (ic - 1) lv (nx c).2 else if lv = 0 then some (nx c).2 else readLoop c.rest.length ic (lv - 1) (nx c).2
    | .semicolon => if lv = 0 then some (nx c).2 else readLoop c.rest.length ic lv (nx c).2
    | .eof => none) = _
  cases ht : (nx c).1 <;> dsimp only
  all_goals
    have hl : (nx c).2.rest.length < c.rest.length := hs.resolve_left (by rw [ht]; simp)
    have key : ∀ a b, readLoop c.rest.length a b (nx c).2 = rl a b (nx c).2 := fun a b => readLoop_fuel _ _ a b _ (by omega) (by omega)
    simp only [key]

theorem rl_suf (c : Cur) : ∀ (ic lv : Nat) (c' : Cur), rl ic lv c = some c' → c'.rest <:+ c.rest ∧ c'.rest.length < c.rest.length := by
  refine cur_ind (P := fun c => ∀ (ic lv : Nat) (c' : Cur), rl ic lv c = some c' → c'.rest <:+ c.rest ∧ c'.rest.length < c.rest.length) ?_ c
  intro c ih ic lv c' h
  obtain ⟨h1, h2⟩ := nx_suf c
  rw [rl_eq] at h
  cases ht : (nx c).1 <;> rw [ht] at h <;> dsimp only at h
  case eof => cases h
  all_goals
    have hl : (nx c).2.rest.length < c.rest.length := h2.resolve_left (by rw [ht]; simp)
    have rec_ : ∀ a b, rl a b (nx c).2 = some c' → c'.rest <:+ c.rest ∧ c'.rest.length < c.rest.length := by
      intro a b e
      obtain ⟨i1, i2⟩ := ih (nx c).2 hl a b c' e
      exact ⟨i1.trans h1, by omega⟩
    have stop : some (nx c).2 = some c' → c'.rest <:+ c.rest ∧ c'.rest.length < c.rest.length := by
      intro e
      injection e with e
      rw [← e]; exact ⟨h1, hl⟩
    first
      | exact rec_ _ _ h
      | (split at h
         · exact rec_ _ _ h
         · split at h
           · exact stop h
           · exact rec_ _ _ h)
      | (split at h
         · exact stop h
         · exact rec_ _ _ h)

theorem readPos_eq (buf : Bytes) : readPos buf = if (skip ⟨none, buf⟩).rest.headD 0 = 35 ∧ (skip ⟨none, buf⟩).rest ≠ [] then some (skipLine (skip ⟨none, buf⟩).prev (skip ⟨none, buf⟩).rest) else rl 0 0 (skip ⟨none, buf⟩) := rfl

theorem skipLine_lt {p : Option Nat} {x : Nat} {r : Bytes} (h : x ≠ 10) : (skipLine p (x :: r)).rest.length < (x :: r).length := by
  unfold skipLine
  rw [if_pos h]
  have := suf_len (skipLine_suf (some x) r)
  simp only [List.length_cons]; omega

theorem readPos_suf {buf : Bytes} {c : Cur} (h : readPos buf = some c) : c.rest <:+ buf ∧ c.rest.length < buf.length := by
  have hs : (skip ⟨none, buf⟩).rest <:+ buf := skip_suf _
  rw [readPos_eq] at h
  split at h
  · rename_i e
    injection h with h
    rw [← h]
    refine ⟨(skipLine_suf _ _).trans hs, ?_⟩
    obtain ⟨e1, e2⟩ := e
    cases hr : (skip ⟨none, buf⟩).rest with
    | nil => exact absurd hr e2
    | cons x r =>
      rw [hr] at e1 hs
      have hx : x = 35 := e1
      have := skipLine_lt (p := (skip ⟨none, buf⟩).prev) (x := x) (r := r) (by omega)
      have := suf_len hs
      omega
  · obtain ⟨h1, h2⟩ := rl_suf _ _ _ _ h
    exact ⟨h1.trans hs, Nat.lt_of_lt_of_le h2 (suf_len hs)⟩

theorem suf_take {a b : Bytes} (h : a <:+ b) : b.take (b.length - a.length) ++ a = b := by
  obtain ⟨t, rfl⟩ := h
  have : (t ++ a).length - a.length = t.length := by simp
  rw [this, List.take_left]

/-- a block and what is left are the buffer, or the buffer is blank -/
theorem read_some {buf b rest : Bytes} (h : read buf = some (b, rest)) : (b ++ rest = buf ∧ b ≠ []) ∨ (b = [] ∧ rest = [] ∧ (skip ⟨none, buf⟩).rest = [] ∧ buf ≠ []) := by
  unfold read at h
  split at h
  · cases h
  · rename_i hne
    split at h
    · rename_i e
      injection h with h
      injection h with h1 h2
      exact .inr ⟨h1.symm, h2.symm, e, hne⟩
    · cases hp : readPos buf with
      | none => rw [hp] at h; cases h
      | some c =>
        rw [hp] at h
        obtain ⟨h1, h2⟩ := readPos_suf hp
        injection h with h
        injection h with ha hb
        left
        rw [← ha, ← hb]
        refine ⟨suf_take h1, fun e => ?_⟩
        have := congrArg List.length e
        rw [List.length_take] at this
        simp only [List.length_nil] at this
        omega

theorem read_lt {buf b rest : Bytes} (h : read buf = some (b, rest)) : rest.length < buf.length := by
  rcases read_some h with ⟨e, hb⟩ | ⟨_, e, _, hb⟩
  · rw [← e, List.length_append]
    have := List.length_pos_iff.2 hb
    omega
  · rw [e]; exact List.length_pos_iff.2 hb

/-- the loop ends because there is no block any more -/
theorem drain_end (f : Nat) : ∀ buf : Bytes, buf.length < f → read (drain f buf).2 = none := by
  induction f with
  | zero => intro buf h; omega
  | succ f ih =>
    intro buf h
    unfold drain
    split
    · rename_i e; exact e
    · rename_i b rest e
      exact ih rest (by have := read_lt e; omega)

/-! ## white space -/

theorem dropWhile_nil {p : Nat → Bool} {l : Bytes} (h : l.dropWhile p = []) : ∀ x ∈ l, p x = true := by
  induction l with
  | nil => intro x hx; cases hx
  | cons a l ih =>
    rw [List.dropWhile_cons] at h
    split at h
    · rename_i e
      intro x hx
      rcases List.mem_cons.1 hx with e' | e'
      · rw [e']; exact e
      · exact ih h x e'
    · cases h


theorem skipSpace_eq (p : Option Nat) (s : Bytes) : (skipSpace p s).rest = s.dropWhile isSpace := by
  induction s generalizing p with
  | nil => rfl
  | cons x r ih =>
    unfold skipSpace
    rw [List.dropWhile_cons]
    split
    · exact ih _
    · rfl

/-- a buffer that ends with a newline is skipped as a whole only if it is white space -/
theorem skip_blank {p : Option Nat} {s : Bytes} (h : (skip ⟨p, s ++ [10]⟩).rest = []) : ∀ x ∈ s, isSpace x = true := by
  have e1 : (skipSpace p (s ++ [10])).rest = (s ++ [10]).dropWhile isSpace := skipSpace_eq _ _
  by_cases hall : ∀ x ∈ s, isSpace x = true
  · exact hall
  · exfalso
    -- something that is no space is left, and the newline after it
    have : ∃ y t, (s ++ [10]).dropWhile isSpace = y :: t ++ [10] := by
      have h2 : (s ++ [10]).dropWhile isSpace = s.dropWhile isSpace ++ [10] := by
        rw [List.dropWhile_append]
        split
        · rename_i e
          exact absurd (dropWhile_nil (List.isEmpty_iff.1 e)) hall
        · rfl
      cases hd : s.dropWhile isSpace with
      | nil => exact absurd (dropWhile_nil hd) hall
      | cons y t => exact ⟨y, t, by rw [h2, hd]⟩
    obtain ⟨y, t, e2⟩ := this
    unfold skip at h
    dsimp only at h
    have line_ne : ∀ (q : Option Nat) (u : Bytes), (skipLine q (u ++ [10])).rest ≠ [] := by
      intro q u
      induction u generalizing q with
      | nil => unfold skipLine; simp
      | cons a u ih =>
        rw [List.cons_append]
        unfold skipLine
        split
        · exact ih _
        · simp
    split at h
    · rw [e1, e2] at h
      exact line_ne _ _ h
    · rw [e1, e2] at h
      simp at h

/-- a text that ends with a newline, or the empty text -/
def Lined (s : Bytes) : Prop := s = [] ∨ ∃ t, s = t ++ [10]

theorem lined_suf {a b : Bytes} (h : Lined b) (hs : a <:+ b) : Lined a := by
  rcases h with rfl | ⟨t, rfl⟩
  · left; exact List.suffix_nil.1 hs
  · obtain ⟨u, e⟩ := hs
    rcases List.eq_nil_or_concat a with rfl | ⟨a', x, rfl⟩
    · exact .inl rfl
    rw [List.concat_eq_append] at e ⊢
    · right
      refine ⟨a', ?_⟩
      have := congrArg List.getLast? e
      rw [← List.append_assoc, List.getLast?_concat, List.getLast?_concat] at this
      injection this with this
      rw [this]

def Blank (s : Bytes) : Prop := ∀ x ∈ s, isSpace x = true

/-- the blocks, with white space that is dropped between them, and the rest -/
inductive Split : Bytes → List Bytes → Bytes → Prop
  | stop {w rest : Bytes} : Blank w → Split (w ++ rest) [] rest
  | block {w b s rest : Bytes} {bs : List Bytes} : Blank w → b ≠ [] → Split s bs rest → Split (w ++ b ++ s) (b :: bs) rest

theorem drain_split (f : Nat) : ∀ buf : Bytes, Lined buf → Split buf ((drain f buf).1.filter (fun x => x ≠ [])) (drain f buf).2 ∧ Lined (drain f buf).2 := by
  induction f with
  | zero => intro buf h; exact ⟨.stop (w := []) (fun x hx => (by cases hx)), h⟩
  | succ f ih =>
    intro buf h
    unfold drain
    split
    · exact ⟨.stop (w := []) (fun x hx => (by cases hx)), h⟩
    · rename_i b rest e
      dsimp only
      rcases read_some e with ⟨e1, e2⟩ | ⟨e1, e2, e3, e4⟩
      · obtain ⟨i1, i2⟩ := ih rest (lined_suf h ⟨b, e1⟩)
        refine ⟨?_, i2⟩
        rw [List.filter_cons, if_pos (by simpa using e2)]
        have := Split.block (w := []) (b := b) (fun x hx => (by cases hx)) e2 i1
        rw [← e1]; exact this
      · subst e1; subst e2
        have hn : drain f [] = ([], []) := by
          cases f with
          | zero => rfl
          | succ f => rfl
        rw [hn]
        rcases h with rfl | ⟨t, rfl⟩
        · exact absurd rfl e4
        · have := skip_blank e3
          refine ⟨?_, .inl rfl⟩
          have hb : Blank (t ++ [10]) := by
            intro x hx
            rcases List.mem_append.1 hx with h | h
            · exact this x h
            · rw [List.mem_singleton] at h; subst h; decide
          have := Split.stop (rest := []) hb
          rw [List.append_nil] at this
          exact this

theorem split_append {s1 s2 : Bytes} {b1 b2 : List Bytes} {r1 r2 : Bytes} (h1 : Split s1 b1 r1) (h2 : Split (r1 ++ s2) b2 r2) : Split (s1 ++ s2) (b1 ++ b2) r2 := by
  induction h1 with
  | @stop w rest hw =>
    rw [List.nil_append, List.append_assoc]
    generalize rest ++ s2 = s at h2
    cases h2 with
    | @stop w' _ hw' =>
      rw [← List.append_assoc]
      exact .stop (fun x hx => (List.mem_append.1 hx).elim (hw x) (hw' x))
    | @block w' b t _ bs hw' hb hs =>
      rw [← List.append_assoc, ← List.append_assoc]
      exact .block (fun x hx => (List.mem_append.1 hx).elim (hw x) (hw' x)) hb hs
  | @block w b s rest bs hw hb hs ih =>
    rw [List.append_assoc, List.cons_append]
    exact .block hw hb (ih h2)

/-- the text of a session -/
def textOf : List Bytes → Bytes
  | [] => []
  | l :: ls => l ++ [10] ++ textOf ls

theorem lines_split (ls : List Bytes) : ∀ buf : Bytes, Lined buf → Split (buf ++ textOf ls) (lines buf ls).1 (lines buf ls).2 ∧ Lined (lines buf ls).2 := by
  induction ls with
  | nil => intro buf h; exact ⟨by simpa [textOf, lines] using Split.stop (w := []) (rest := buf) (fun x hx => (by cases hx)), h⟩
  | cons l ls ih =>
    intro buf h
    obtain ⟨h1, h2⟩ := drain_split (buf.length + l.length + 2) (buf ++ l ++ [10]) (.inr ⟨_, rfl⟩)
    obtain ⟨h3, h4⟩ := ih (line buf l).2 h2
    unfold lines textOf
    dsimp only
    refine ⟨?_, h4⟩
    have := split_append h1 h3
    rw [← List.append_assoc, ← List.append_assoc]
    exact this

end Verif.Cli
