import Verif.Func.Text
/-!
# LIKE (C70)
-/
set_option linter.unusedSimpArgs false
set_option linter.unusedVariables false
set_option linter.unnecessarySimpa false
namespace Verif.Func
open Verif

/-! ## Specification -/

/-- a UTF-8 character: a first byte that tells the length, followed by continuation bytes -/
def IsChr (c : Bytes) : Prop := ∃ b t, c = b :: t ∧ ((b < 128 ∧ t.length = 0) ∨ (192 ≤ b ∧ b < 224 ∧ t.length = 1) ∨
  (224 ≤ b ∧ b < 240 ∧ t.length = 2) ∨ (240 ≤ b ∧ b < 248 ∧ t.length = 3)) ∧ ∀ x ∈ t, 128 ≤ x ∧ x < 192

/-- a string as its characters -/
def Chars (cs : List Bytes) : Prop := ∀ c ∈ cs, IsChr c

/-- an element of a pattern: `_`, `%`, a character -/
inductive Pat where
  | one
  | many
  | lit (c : Bytes)
deriving DecidableEq

/-- a pattern; `\` takes the meaning from the next character -/
def parsePat : List Bytes → Option (List Pat)
  | [] => some []
  | [92] :: c :: t => (parsePat t).map (.lit c :: ·)
  | [92] :: [] => none
  | [37] :: t => (parsePat t).map (.many :: ·)
  | [95] :: t => (parsePat t).map (.one :: ·)
  | c :: t => (parsePat t).map (.lit c :: ·)

/-- `%` matches any characters, `_` any character, everything else itself -/
inductive Matches : List Pat → List Bytes → Prop where
  | nil : Matches [] []
  | one (c p s) : Matches p s → Matches (.one :: p) (c :: s)
  | lit (c p s) : Matches p s → Matches (.lit c :: p) (c :: s)
  | many (p s) : Matches p s → Matches (.many :: p) s
  | more (c p s) : Matches (.many :: p) s → Matches (.many :: p) (c :: s)

/-! ## Characters -/

/-- utf8_sizeof gives the length of a character -/
theorem chr_size {c : Bytes} (h : IsChr c) : ∃ b t, c = b :: t ∧ utf8Size b = c.length ∧ ∀ x ∈ t, 128 ≤ x ∧ x < 192 := by
  obtain ⟨b, t, rfl, hs, ht⟩ := h
  refine ⟨b, t, rfl, ?_, ht⟩
  simp only [List.length_cons]
  unfold utf8Size
  rcases hs with ⟨h1, h2⟩ | ⟨h1, h2, h3⟩ | ⟨h1, h2, h3⟩ | ⟨h1, h2, h3⟩
  · rw [if_pos h1, h2]; rfl
  · rw [if_neg (by omega), if_pos ⟨h1, h2⟩, h3]; rfl
  · rw [if_neg (by omega), if_neg (by omega), if_pos ⟨h1, h2⟩, h3]; rfl
  · rw [if_neg (by omega), if_neg (by omega), if_neg (by omega), if_pos ⟨h1, h2⟩, h3]; rfl

theorem nextChr_chr {c : Bytes} (h : IsChr c) (r : Bytes) : nextChr (c ++ r) = .ok (c, r) := by
  obtain ⟨b, t, rfl, hs, -⟩ := chr_size h
  have h0 : ¬ utf8Size b < 0 := by rw [hs]; omega
  simp only [List.cons_append, nextChr, if_neg h0, hs]
  simp [readN]
  omega

theorem chr_ne {c : Bytes} (h : IsChr c) : c ≠ [] := by obtain ⟨b, t, rfl, -⟩ := h; simp

theorem flatten_ne {c : Bytes} {cs : List Bytes} (h : IsChr c) : (c :: cs).flatten ≠ [] := by
  have := chr_ne h; simp [this]

/-- a character that begins with an ASCII byte is that byte -/
theorem chr_ascii {c : Bytes} (h : IsChr c) (n : Nat) (hn : n < 128) (r : Bytes) : (c ++ r).headD 0 = n ↔ c = [n] := by
  obtain ⟨b, t, rfl, hs, -⟩ := chr_size h
  simp only [List.cons_append, List.headD_cons]
  constructor
  · rintro rfl
    have : utf8Size b = 1 := by simp [utf8Size, hn]
    rw [this] at hs
    have : t.length = 0 := by simp at hs; omega
    rw [List.length_eq_zero_iff.1 this]
  · intro h; simp at h; exact h.1

theorem flatten_length {cs : List Bytes} (h : Chars cs) : cs.length ≤ cs.flatten.length := by
  induction cs with
  | nil => simp
  | cons c cs ih =>
    have h1 := chr_ne (h c (by simp))
    have h2 := ih fun c hc => h c (by simp [hc])
    have : 1 ≤ c.length := by cases c <;> simp_all
    simp only [List.flatten_cons, List.length_cons, List.length_append]; omega

/-! ## What the code does, in characters -/

/-- the rest after the first `c` -/
def after (c : Bytes) : List Bytes → Option (List Bytes)
  | [] => none
  | d :: s => if d = c then some s else after c s

def Pat.wild : Pat → Bool
  | .lit _ => false
  | _ => true

def codeMatch : Nat → List Pat → List Bytes → Bool
  | 0, _, _ => false
  | f + 1, p, s => match p with
    | [] => s.isEmpty
    | .one :: p => match s with
      | [] => false
      | _ :: s => codeMatch f p s
    | .lit c :: p => match s with
      | [] => false
      | d :: s => if d = c then codeMatch f p s else false
    | .many :: p => match p.dropWhile Pat.wild with
      | .lit c :: p => match after c s with
        | none => false
        | some s => codeMatch f p s
      | _ => true

theorem likeFind_chars (c : Bytes) : ∀ (cs : List Bytes), Chars cs → ∀ f, cs.length + 1 ≤ f →
    likeFind c f cs.flatten = .ok ((after c cs).map List.flatten)
  | [], _, f, hf => by
    obtain ⟨f, rfl⟩ : ∃ n, f = n + 1 := ⟨f - 1, by omega⟩
    simp [likeFind, after]
  | d :: cs, h, f, hf => by
    obtain ⟨f, rfl⟩ : ∃ n, f = n + 1 := ⟨f - 1, by omega⟩
    have hd := h d (by simp)
    have ih := likeFind_chars c cs (fun c hc => h c (by simp [hc])) f (by simp at hf; omega)
    have hne := flatten_ne hd (cs := cs)
    simp only [List.flatten_cons] at hne ⊢
    simp only [likeFind, hne, if_false, nextChr_chr hd, bind, Except.bind, after]
    split
    · rfl
    · exact ih

theorem after_chars {c : Bytes} : ∀ {cs s : List Bytes}, Chars cs → after c cs = some s → Chars s
  | d :: cs, s, h, e => by
    simp only [after] at e
    split at e
    · simp at e; subst e; exact fun c hc => h c (by simp [hc])
    · exact after_chars (fun c hc => h c (by simp [hc])) e

def wildChr (c : Bytes) : Bool := decide (c = [37] ∨ c = [95])

theorem dropWhile_flatten : ∀ (ps : List Bytes), Chars ps →
    ps.flatten.dropWhile (fun c => decide (c = 37 ∨ c = 95)) = (ps.dropWhile wildChr).flatten
  | [], _ => rfl
  | p :: ps, h => by
    have hp := h p (by simp)
    have ih := dropWhile_flatten ps fun c hc => h c (by simp [hc])
    by_cases hw : wildChr p = true
    · have := of_decide_eq_true hw
      rw [List.dropWhile_cons, if_pos hw, ← ih]
      rcases this with rfl | rfl <;> simp [List.dropWhile_cons]
    · have h37 := chr_ascii hp 37 (by omega) ps.flatten
      have h95 := chr_ascii hp 95 (by omega) ps.flatten
      rw [List.dropWhile_cons, if_neg hw]
      obtain ⟨b, t, rfl, -⟩ := hp
      simp only [List.cons_append, List.headD_cons] at h37 h95
      simp only [List.flatten_cons, List.cons_append, List.dropWhile_cons]
      rw [if_neg]
      intro hb
      have hb := of_decide_eq_true hb
      rw [h37, h95] at hb
      exact hw (decide_eq_true hb)

theorem dropWhile_chars {q : Bytes → Bool} {ps : List Bytes} (h : Chars ps) : Chars (ps.dropWhile q) :=
  fun c hc => h c ((List.dropWhile_sublist q).subset hc)

/-- the first element of a pattern -/
theorem parsePat_cons {c : Bytes} {t : List Bytes} {P : List Pat} (h : parsePat (c :: t) = some P) :
    (c = [92] ∧ ∃ d t' P', t = d :: t' ∧ parsePat t' = some P' ∧ P = .lit d :: P') ∨
    (c = [37] ∧ ∃ P', parsePat t = some P' ∧ P = .many :: P') ∨
    (c = [95] ∧ ∃ P', parsePat t = some P' ∧ P = .one :: P') ∨
    (c ≠ [92] ∧ c ≠ [37] ∧ c ≠ [95] ∧ ∃ P', parsePat t = some P' ∧ P = .lit c :: P') := by
  unfold parsePat at h
  split at h
  · simp at *
  · rename_i c' t' heq
    simp only [List.cons.injEq] at heq
    obtain ⟨rfl, rfl⟩ := heq
    simp only [Option.map_eq_some_iff] at h
    obtain ⟨P', h1, rfl⟩ := h
    exact .inl ⟨rfl, c', t', P', rfl, h1, rfl⟩
  · simp at h
  · rename_i t' heq
    simp only [List.cons.injEq] at heq
    obtain ⟨rfl, rfl⟩ := heq
    simp only [Option.map_eq_some_iff] at h
    obtain ⟨P', h1, rfl⟩ := h
    exact .inr (.inl ⟨rfl, P', h1, rfl⟩)
  · rename_i t' heq
    simp only [List.cons.injEq] at heq
    obtain ⟨rfl, rfl⟩ := heq
    simp only [Option.map_eq_some_iff] at h
    obtain ⟨P', h1, rfl⟩ := h
    exact .inr (.inr (.inl ⟨rfl, P', h1, rfl⟩))
  · rename_i c' t' n1 n2 n3 n4 heq
    simp only [List.cons.injEq] at heq
    obtain ⟨rfl, rfl⟩ := heq
    simp only [Option.map_eq_some_iff] at h
    obtain ⟨P', h1, rfl⟩ := h
    refine .inr (.inr (.inr ⟨?_, ?_, ?_, P', h1, rfl⟩))
    · rintro rfl
      cases t with
      | nil => exact n2 rfl rfl
      | cons d t => exact n1 d t rfl rfl
    · rintro rfl; exact n3 rfl
    · rintro rfl; exact n4 rfl

theorem parsePat_drop : ∀ (ps : List Bytes) (P : List Pat), parsePat ps = some P →
    parsePat (ps.dropWhile wildChr) = some (P.dropWhile Pat.wild)
  | [], P, h => by simp [parsePat] at h; subst h; rfl
  | c :: t, P, h => by
    rcases parsePat_cons h with ⟨rfl, d, t', P', rfl, h1, rfl⟩ | ⟨rfl, P', h1, rfl⟩ | ⟨rfl, P', h1, rfl⟩ |
      ⟨n1, n2, n3, P', h1, rfl⟩
    · rw [List.dropWhile_cons, if_neg (by decide), h]
      simp [List.dropWhile_cons, Pat.wild]
    · rw [List.dropWhile_cons, if_pos (by decide), parsePat_drop t P' h1]
      simp [List.dropWhile_cons, Pat.wild]
    · rw [List.dropWhile_cons, if_pos (by decide), parsePat_drop t P' h1]
      simp [List.dropWhile_cons, Pat.wild]
    · rw [List.dropWhile_cons, if_neg (by simp [wildChr, n2, n3]), h]
      simp [List.dropWhile_cons, Pat.wild]

/-- the loop of value_like follows `codeMatch` -/
theorem likeLoop_code : ∀ (f : Nat) (ps : List Bytes) (P : List Pat) (cs : List Bytes), Chars ps → Chars cs → ps.length + 1 ≤ f →
    parsePat ps = some P → likeLoop f cs.flatten ps.flatten = .ok (codeMatch f P cs)
  | 0, _, _, _, _, _, hf, _ => by omega
  | f + 1, [], P, cs, _, hc, _, hP => by
    simp [parsePat] at hP
    subst hP
    simp only [List.flatten_nil, likeLoop, if_true, codeMatch]
    cases cs with
    | nil => rfl
    | cons c cs =>
      have := flatten_ne (hc c (by simp)) (cs := cs)
      simp only [this, decide_false, List.isEmpty_cons]
  | f + 1, c :: t, P, cs, hp, hc, hf, hP => by
    have hcc := hp c (by simp)
    have ht : Chars t := fun x hx => hp x (by simp [hx])
    have hne : (c :: t).flatten ≠ [] := flatten_ne hcc
    have hf' : t.length + 1 ≤ f := by simp at hf; omega
    have h95 := chr_ascii hcc 95 (by omega) t.flatten
    have h37 := chr_ascii hcc 37 (by omega) t.flatten
    have h92 := chr_ascii hcc 92 (by omega) t.flatten
    simp only [List.flatten_cons] at hne ⊢
    rcases parsePat_cons hP with ⟨rfl, d, t', P', rfl, h1, rfl⟩ | ⟨rfl, P', h1, rfl⟩ | ⟨rfl, P', h1, rfl⟩ |
      ⟨n1, n2, n3, P', h1, rfl⟩
    · -- escaped character
      have hd := ht d (by simp)
      have ht' : Chars t' := fun x hx => ht x (by simp [hx])
      cases cs with
      | nil => simp [likeLoop, codeMatch]
      | cons x cs =>
        have hx := hc x (by simp)
        have hxn := flatten_ne hx (cs := cs)
        have ih := likeLoop_code f t' P' cs ht' (fun x hx => hc x (by simp [hx])) (by simp at hf'; omega) h1
        have hn := nextChr_chr hx cs.flatten
        have hn2 := nextChr_chr hd t'.flatten
        simp only [List.flatten_cons] at hxn hne ⊢
        simp only [likeLoop, hne, hxn, if_false]
        simp only [List.cons_append, List.nil_append, List.headD_cons, show (92:Nat) ≠ 95 from by decide,
          show (92:Nat) ≠ 37 from by decide, if_false, if_true, List.drop_succ_cons, List.drop_zero, hn, hn2, bind, Except.bind]
        simp only [codeMatch]
        split
        · exact ih
        · rfl
    · -- %
      have hdw : ([37] ++ t.flatten).dropWhile (fun c => decide (c = 37 ∨ c = 95)) = (t.dropWhile wildChr).flatten := by
        rw [← dropWhile_flatten t ht]
        simp [List.dropWhile_cons]
      have hdP := parsePat_drop t P' h1
      have hdc : Chars (t.dropWhile wildChr) := dropWhile_chars ht
      have hlen : (t.dropWhile wildChr).length ≤ t.length := (List.dropWhile_sublist _).length_le
      have hhead : ∀ x r, t.dropWhile wildChr = x :: r → wildChr x = false := by
        intro x r e
        have := List.head?_dropWhile_not wildChr t
        rw [e] at this
        simpa using this
      simp only [likeLoop, hne, if_false, hdw]
      simp only [List.cons_append, List.nil_append, List.headD_cons, show (37:Nat) ≠ 95 from by decide, if_false, if_true]
      cases hq : t.dropWhile wildChr with
      | nil =>
        rw [hq] at hdP
        simp only [parsePat, Option.some.injEq] at hdP
        simp [codeMatch, ← hdP]
      | cons x r =>
        rw [hq] at hdP hdc hlen
        have hx := hdc x (by simp)
        have hr : Chars r := fun y hy => hdc y (by simp [hy])
        have hxn := flatten_ne hx (cs := r)
        have hx92 := chr_ascii hx 92 (by omega) r.flatten
        have hw := hhead x r hq
        have hlf := flatten_length hc
        simp only [List.flatten_cons] at hxn ⊢
        simp only [hxn, if_false]
        rcases parsePat_cons hdP with ⟨rfl, d, r', Q, rfl, g1, g2⟩ | ⟨rfl, -⟩ | ⟨rfl, -⟩ | ⟨m1, m2, m3, Q, g1, g2⟩
        · have hd := hr d (by simp)
          have hr' : Chars r' := fun y hy => hr y (by simp [hy])
          have hdn := flatten_ne hd (cs := r')
          have hn := nextChr_chr hd r'.flatten
          have hfind := likeFind_chars d cs hc (cs.flatten.length + 1) (by omega)
          simp only [List.flatten_cons] at hdn
          simp only [codeMatch, g2]
          simp only [List.cons_append, List.nil_append, List.headD_cons, if_true, List.drop_succ_cons, List.drop_zero,
            List.flatten_cons, hdn, if_false, hn, hfind, bind, Except.bind]
          cases ha : after d cs with
          | none => rfl
          | some s =>
            have := likeLoop_code f r' Q s hr' (after_chars hc ha) (by simp at hlen; omega) g1
            simpa using this
        · simp [wildChr] at hw
        · simp [wildChr] at hw
        · have hno : ¬ (x ++ r.flatten).headD 0 = 92 := fun h => m1 (hx92.1 h)
          have hn := nextChr_chr hx r.flatten
          have hfind := likeFind_chars x cs hc (cs.flatten.length + 1) (by omega)
          simp only [codeMatch, g2]
          simp only [hno, if_false, hxn, hn, hfind, bind, Except.bind]
          cases ha : after x cs with
          | none => rfl
          | some s =>
            have := likeLoop_code f r Q s hr (after_chars hc ha) (by simp at hlen; omega) g1
            simpa using this
    · -- _
      cases cs with
      | nil => simp [likeLoop, codeMatch]
      | cons x cs =>
        have hx := hc x (by simp)
        have hxn := flatten_ne hx (cs := cs)
        have ih := likeLoop_code f t P' cs ht (fun x hx => hc x (by simp [hx])) hf' h1
        have hn := nextChr_chr hx cs.flatten
        simp only [List.flatten_cons] at hxn ⊢
        simp only [likeLoop, hne, hxn, if_false]
        simp only [List.cons_append, List.nil_append, List.headD_cons, if_true, List.drop_succ_cons, List.drop_zero, hn, bind,
          Except.bind]
        exact ih
    · -- a character
      have e95 : ¬ (c ++ t.flatten).headD 0 = 95 := fun h => n3 (h95.1 h)
      have e37 : ¬ (c ++ t.flatten).headD 0 = 37 := fun h => n2 (h37.1 h)
      have e92 : ¬ (c ++ t.flatten).headD 0 = 92 := fun h => n1 (h92.1 h)
      cases cs with
      | nil => simp only [likeLoop, codeMatch, hne, e95, e37, e92, if_false, List.flatten_nil, if_true]
      | cons x cs =>
        have hx := hc x (by simp)
        have hxn := flatten_ne hx (cs := cs)
        have ih := likeLoop_code f t P' cs ht (fun x hx => hc x (by simp [hx])) hf' h1
        have hn := nextChr_chr hx cs.flatten
        have hn2 := nextChr_chr hcc t.flatten
        simp only [List.flatten_cons] at hxn ⊢
        simp only [likeLoop, hne, hxn, e95, e37, e92, if_false, hn, hn2, bind, Except.bind]
        simp only [codeMatch]
        split
        · exact ih
        · rfl

theorem like_code {ps cs : List Bytes} {P : List Pat} (hp : Chars ps) (hc : Chars cs) (hP : parsePat ps = some P) :
    ∃ f, ps.length + 1 ≤ f ∧ like cs.flatten ps.flatten = .ok (codeMatch f P cs) := by
  have := flatten_length hp
  exact ⟨_, by omega, likeLoop_code (ps.flatten.length + 1) ps P cs hp hc (by omega) hP⟩

theorem parsePat_length : ∀ (n : Nat) (ps : List Bytes) (P : List Pat), ps.length ≤ n → parsePat ps = some P → P.length ≤ ps.length
  | n, [], P, _, h => by simp [parsePat] at h; subst h; simp
  | 0, c :: t, P, hn, h => by simp at hn
  | n + 1, c :: t, P, hn, h => by
    simp only [List.length_cons] at hn
    rcases parsePat_cons h with ⟨rfl, d, t', P', rfl, h1, rfl⟩ | ⟨rfl, P', h1, rfl⟩ | ⟨rfl, P', h1, rfl⟩ |
      ⟨n1, n2, n3, P', h1, rfl⟩
    · have := parsePat_length n t' P' (by simp at hn; omega) h1; simp; omega
    all_goals (have := parsePat_length n t P' (by omega) h1; simp; omega)

/-! ## The theorems -/

theorem after_split {c : Bytes} : ∀ {s r : List Bytes}, after c s = some r → ∃ a, s = a ++ c :: r
  | d :: s, r, h => by
    simp only [after] at h
    split at h
    · rename_i e; simp at h; subst h; subst e; exact ⟨[], rfl⟩
    · obtain ⟨a, rfl⟩ := after_split h; exact ⟨d :: a, rfl⟩

theorem after_first {c : Bytes} : ∀ {a b : List Bytes}, ∃ x, after c (a ++ c :: b) = some (x ++ b)
  | [], b => ⟨[], by simp [after]⟩
  | d :: a, b => by
    by_cases h : d = c
    · exact ⟨a ++ [c], by simp [after, h]⟩
    · obtain ⟨x, hx⟩ := after_first (c := c) (a := a) (b := b)
      exact ⟨x, by simp [after, h, hx]⟩

theorem matches_many {p : List Pat} : ∀ (a : List Bytes) {s : List Bytes}, Matches (.many :: p) s → Matches (.many :: p) (a ++ s)
  | [], _, h => h
  | c :: a, _, h => .more c _ _ (matches_many a h)

theorem many_all (s : List Bytes) : Matches [.many] s := by
  have := matches_many (p := []) s (.many _ _ .nil); simpa using this

theorem matches_many_inv {p : List Pat} {s : List Bytes} (h : Matches (.many :: p) s) : ∃ a b, s = a ++ b ∧ Matches p b := by
  generalize hq : Pat.many :: p = q at h
  induction h with
  | nil => simp at hq
  | one c p' s _ _ => simp at hq
  | lit c p' s _ _ => simp at hq
  | many p' s h _ => simp at hq; subst hq; exact ⟨[], s, rfl, h⟩
  | more c p' s h ih => obtain ⟨a, b, rfl, hb⟩ := ih hq; exact ⟨c :: a, b, rfl, hb⟩

/-- no `_` directly after `%` (the code drops such `_`) -/
def NoOneAfterMany : List Pat → Prop
  | .many :: .one :: _ => False
  | _ :: p => NoOneAfterMany p
  | [] => True

theorem noOne_tail {x : Pat} {p : List Pat} (h : NoOneAfterMany (x :: p)) : NoOneAfterMany p := by
  unfold NoOneAfterMany at h
  split at h
  · exact absurd h id
  · rename_i heq; simp at heq; rw [heq.2]; exact h
  · rename_i heq; simp at heq

/-- after `%` and more `%`: what `dropWhile wild` leaves -/
theorem manys {p : List Pat} : NoOneAfterMany (.many :: p) → ∀ s, Matches (.many :: p.dropWhile Pat.wild) s →
    Matches (.many :: p) s := by
  induction p with
  | nil => intro _ s h; exact h
  | cons x p ih =>
    intro hn s h
    cases x with
    | lit c => simpa [List.dropWhile_cons, Pat.wild] using h
    | one => exact absurd hn id
    | many =>
      rw [List.dropWhile_cons, if_pos (show Pat.many.wild = true from rfl)] at h
      exact .many _ _ (ih (noOne_tail hn) s h)

theorem codeMatch_sound : ∀ (f : Nat) (P : List Pat) (s : List Bytes), NoOneAfterMany P → codeMatch f P s = true → Matches P s
  | 0, _, _, _, h => by simp [codeMatch] at h
  | f + 1, [], s, _, h => by
    simp [codeMatch] at h; subst h; exact .nil
  | f + 1, .one :: p, s, hn, h => by
    cases s with
    | nil => simp [codeMatch] at h
    | cons c s => exact .one _ _ _ (codeMatch_sound f p s (noOne_tail hn) (by simpa [codeMatch] using h))
  | f + 1, .lit c :: p, s, hn, h => by
    cases s with
    | nil => simp [codeMatch] at h
    | cons d s =>
      simp only [codeMatch] at h
      split at h
      · rename_i e; subst e; exact .lit _ _ _ (codeMatch_sound f p s (noOne_tail hn) h)
      · simp at h
  | f + 1, .many :: p, s, hn, h => by
    refine manys hn s ?_
    have hdrop : ∀ q : List Pat, NoOneAfterMany q → NoOneAfterMany (q.dropWhile Pat.wild) := by
      intro q
      induction q with
      | nil => exact id
      | cons x q ih =>
        intro hq
        rw [List.dropWhile_cons]
        split
        · exact ih (noOne_tail hq)
        · exact hq
    have hd := hdrop p (noOne_tail hn)
    simp only [codeMatch] at h
    cases hq : p.dropWhile Pat.wild with
    | nil => exact many_all s
    | cons x q =>
      rw [hq] at h hd
      cases x with
      | lit c =>
        simp only at h
        cases ha : after c s with
        | none => simp [ha] at h
        | some r =>
          simp only [ha] at h
          obtain ⟨a, rfl⟩ := after_split ha
          exact matches_many a (.many _ _ (.lit _ _ _ (codeMatch_sound f q r (noOne_tail hd) h)))
      | one => have := List.head?_dropWhile_not Pat.wild p; rw [hq] at this; simp [Pat.wild] at this
      | many => have := List.head?_dropWhile_not Pat.wild p; rw [hq] at this; simp [Pat.wild] at this

/-- **C70** `s LIKE pattern` is true only for strings that match, for patterns in which no `_` follows a `%` -/
theorem C70_sound_partial (cs ps : List Bytes) (P : List Pat) (hc : Chars cs) (hp : Chars ps) (hP : parsePat ps = some P)
    (hn : NoOneAfterMany P) (h : like cs.flatten ps.flatten = .ok true) : Matches P cs := by
  obtain ⟨f, -, e⟩ := like_code hp hc hP
  rw [e] at h
  exact codeMatch_sound f P cs hn (by simpa using h)

/-- `%`, then single characters separated by `%`, and `%` at the end -/
def TailShape : List Pat → Prop
  | [.many] => True
  | .many :: .lit _ :: p => TailShape p
  | _ => False

/-- characters and `_`, then nothing or such a tail: abc, a_c, abc%, %a%, ab%c%d% -/
def Shape : List Pat → Prop
  | [] => True
  | .one :: p => Shape p
  | .lit _ :: p => Shape p
  | .many :: p => TailShape (.many :: p)

theorem tail_code : ∀ (P : List Pat) (f : Nat) (s : List Bytes), TailShape P → P.length + 1 ≤ f → Matches P s →
    codeMatch f P s = true
  | [.many], f + 1, s, _, _, _ => by simp [codeMatch]
  | .many :: .lit c :: p, f + 1, s, ht, hf, h => by
    obtain ⟨a, b, rfl, hb⟩ := matches_many_inv h
    cases hb with
    | lit c p' s' hb =>
      obtain ⟨x, hx⟩ := after_first (c := c) (a := a) (b := s')
      have hm : Matches p (x ++ s') := by
        have ht' : TailShape p := ht
        match p, ht', hb with
        | .many :: q, _, hb => exact matches_many x hb
      have := tail_code p f (x ++ s') ht (by simp at hf; omega) hm
      simp [codeMatch, List.dropWhile_cons, Pat.wild, hx, this]

theorem shape_code : ∀ (P : List Pat) (f : Nat) (s : List Bytes), Shape P → P.length + 1 ≤ f → Matches P s → codeMatch f P s = true
  | [], f + 1, s, _, _, h => by cases h; simp [codeMatch]
  | .one :: p, f + 1, s, hs, hf, h => by
    cases h with
    | one c _ s h => simpa [codeMatch] using shape_code p f s hs (by simp at hf; omega) h
  | .lit c :: p, f + 1, s, hs, hf, h => by
    cases h with
    | lit _ _ s h => simpa [codeMatch] using shape_code p f s hs (by simp at hf; omega) h
  | .many :: p, f, s, hs, hf, h => tail_code _ f s hs hf h

theorem tail_noOne : ∀ (P : List Pat), TailShape P → NoOneAfterMany P
  | [.many], _ => by simp [NoOneAfterMany]
  | .many :: .lit c :: p, h => by simpa [NoOneAfterMany] using tail_noOne p h

theorem shape_noOne : ∀ (P : List Pat), Shape P → NoOneAfterMany P
  | [], _ => trivial
  | .one :: p, h => by
    have := shape_noOne p h
    cases p <;> simpa [NoOneAfterMany] using this
  | .lit c :: p, h => by
    have := shape_noOne p h
    cases p <;> simpa [NoOneAfterMany] using this
  | .many :: p, h => tail_noOne _ h

/-- **C70** for these patterns LIKE is exact -/
theorem C70_shape_partial (cs ps : List Bytes) (P : List Pat) (hc : Chars cs) (hp : Chars ps) (hP : parsePat ps = some P)
    (hs : Shape P) : ∃ b, like cs.flatten ps.flatten = .ok b ∧ (b = true ↔ Matches P cs) := by
  obtain ⟨f, hf, e⟩ := like_code hp hc hP
  refine ⟨_, e, codeMatch_sound f P cs (shape_noOne P hs), fun h => shape_code P f cs hs ?_ h⟩
  have := parsePat_length ps.length ps P (Nat.le_refl _) hP
  omega

/-- LIKE never reads outside of the strings and never fails, unless the pattern ends with a single `\` -/
theorem C70_total (cs ps : List Bytes) (P : List Pat) (hc : Chars cs) (hp : Chars ps) (hP : parsePat ps = some P) :
    ∃ b, like cs.flatten ps.flatten = .ok b := by
  obtain ⟨f, -, e⟩ := like_code hp hc hP
  exact ⟨_, e⟩

/-! ## Cases -/

theorem isChr_ascii (b : Nat) (h : b < 128) : IsChr [b] := ⟨b, [], rfl, Or.inl ⟨h, rfl⟩, by simp⟩

/-- "äbc" LIKE "_b%c%" -/
example : ∃ b, like [195, 164, 98, 99] [95, 98, 37, 99, 37] = .ok b ∧ (b = true ↔ Matches [.one, .lit [98], .many, .lit [99], .many]
    [[195, 164], [98], [99]]) := by
  refine C70_shape_partial [[195, 164], [98], [99]] [[95], [98], [37], [99], [37]] _ ?_ ?_ rfl (by simp [Shape, TailShape])
  · intro c hc
    simp only [List.mem_cons, List.not_mem_nil, or_false] at hc
    rcases hc with rfl | rfl | rfl
    · exact ⟨195, [164], rfl, by decide, by simp⟩
    · exact isChr_ascii _ (by decide)
    · exact isChr_ascii _ (by decide)
  · intro c hc
    simp only [List.mem_cons, List.not_mem_nil, or_false] at hc
    rcases hc with rfl | rfl | rfl | rfl | rfl <;> exact isChr_ascii _ (by decide)

/-- **C70 fails**: after `%` the code takes the first occurrence of the next character only. 'aab' LIKE '%ab' and
'aba' LIKE '%a' are false. -/
theorem C70_first_false :
    (Matches [.many, .lit [97], .lit [98]] [[97], [97], [98]] ∧ like [97, 97, 98] [37, 97, 98] = .ok false) ∧
    (Matches [.many, .lit [97]] [[97], [98], [97]] ∧ like [97, 98, 97] [37, 97] = .ok false) := by
  refine ⟨⟨?_, by decide +kernel⟩, ?_, by decide +kernel⟩
  · exact .more _ _ _ (.many _ _ (.lit _ _ _ (.lit _ _ _ .nil)))
  · exact .more _ _ _ (.more _ _ _ (.many _ _ (.lit _ _ _ .nil)))

/-- **C70 fails**: `_` after `%` is dropped: '' LIKE '%_' is true. -/
theorem C70_one_false : ¬ Matches [.many, .one] [] ∧ like [] [37, 95] = .ok true := by
  refine ⟨?_, by decide +kernel⟩
  intro h
  obtain ⟨a, b, e, hb⟩ := matches_many_inv h
  cases hb with
  | one c p s _ => simp at e

/-- **C70 fails**: with a `\` at the end of the pattern the code reads after the end of it. -/
theorem C70_escape_false : like [97] [92] = .error .ub := by decide +kernel

end Verif.Func
