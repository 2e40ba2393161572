import Verif.Common
set_option linter.unusedSimpArgs false
/-!
# LIKE: vm/value/like.c with utf8_sizeof / utf8_forward of runtime/lib/utf8.h
-/
namespace Verif.Codec.Like
open Verif

/-- utf8_sizeof, runtime/lib/utf8.h:14-26; `none` = -1 -/
def utf8Sizeof (b : Nat) : Option Nat :=
  if b < 128 then some 1
  else if b / 32 = 6 then some 2
  else if b / 16 = 14 then some 3
  else if b / 8 = 30 then some 4
  else none

/-- pos += size with a position past the end modelled as `ub` -/
def adv (n : Nat) (s : Bytes) : Res Bytes := if n ≤ s.length then .ok (s.drop n) else .error .ub

/-- `sizes equal && !memcmp(pos, pos_str, size)`; reading past either end is `ub` -/
def sameChar (p s : Bytes) (np ns : Nat) : Res Bool :=
  if ns = np then
    (if np ≤ p.length ∧ np ≤ s.length then .ok (p.take np = s.take np) else .error .ub)
  else .ok false

/-- size of the first character; an empty rest is a read past the end -/
def sizeHead : Bytes → Res Nat
  | [] => .error .ub
  | c :: _ => match utf8Sizeof c with
    | some n => .ok n
    | none => .error .ub

/-- the inner loop after %, like.c:60-73: search for the character at `p`; `none` = no match -/
def findLoop (p : Bytes) (np : Nat) : Nat → Bytes → Res (Option Bytes)
  | 0, _ => .error .ub
  | fuel + 1, s =>
    match s with
    | [] => .ok none
    | _ :: _ => do
      let ns ← sizeHead s
      let m ← sameChar p s np ns
      let s ← adv ns s
      if m then .ok (some s) else findLoop p np fuel s

/-- `while (pos < end && (*pos == '%' || *pos == '_')) pos++`, like.c:47-48 -/
def skipWild : Bytes → Bytes
  | [] => []
  | c :: t => if c = 37 ∨ c = 95 then skipWild t else c :: t

/-- `if (*pos == '\\') pos++` -/
def skipSlash : Bytes → Bytes
  | [] => []
  | c :: t => if c = 92 then t else c :: t

/-- the loop of value_like, like.c:31-96 -/
def likeLoop : Nat → Bytes → Bytes → Res Bool
  | 0, _, _ => .error .ub
  | fuel + 1, pos, s =>
    match pos with
    | [] => .ok (s = [])
    | c :: t =>
      if c = 95 then
        match s with
        | [] => .ok false
        | _ :: _ => do
          let n ← sizeHead s
          let s ← adv n s
          likeLoop fuel t s
      else if c = 37 then
        let p := skipWild (c :: t)
        if p = [] then .ok true
        else
          let p := skipSlash p
          if p = [] then .ok false
          else do
            let np ← sizeHead p
            match ← findLoop p np (s.length + 1) s with
            | none => .ok false
            | some s => do
              let p ← adv np p
              likeLoop fuel p s
      else
        let p := skipSlash (c :: t)
        match s with
        | [] => .ok false
        | _ :: _ => do
          let ns ← sizeHead s
          let np ← sizeHead p
          let m ← sameChar p s np ns
          if m then do
            let s ← adv ns s
            let p ← adv np p
            likeLoop fuel p s
          else .ok false

/-- value_like for two strings, like.c:19-97 -/
def like (s p : Bytes) : Res Bool := likeLoop (p.length + 1) p s

/-! ## spec -/

/-- one character: a UTF-8 lead byte with its number of following bytes -/
def UChar (c : Bytes) : Prop :=
  (∃ a, a < 128 ∧ c = [a]) ∨ (∃ a b, 0xC0 ≤ a ∧ a ≤ 0xDF ∧ c = [a, b]) ∨
  (∃ a b d, 0xE0 ≤ a ∧ a ≤ 0xEF ∧ c = [a, b, d]) ∨ (∃ a b d e, 0xF0 ≤ a ∧ a ≤ 0xF7 ∧ c = [a, b, d, e])

/-- pattern element: %, _ or a character (written with a backslash before it or not) -/
inductive Tok where
  | any
  | one
  | lit (escaped : Bool) (c : Bytes)
deriving DecidableEq, Repr

/-- how a pattern element is written -/
def Tok.text : Tok → Bytes
  | .any => [37]
  | .one => [95]
  | .lit e c => (if e then [92] else []) ++ c

/-- a literal is a character; %, _ and \ stand for themselves only when escaped -/
def Tok.OK : Tok → Prop
  | .lit e c => UChar c ∧ (e = false → c ≠ [37] ∧ c ≠ [95] ∧ c ≠ [92])
  | _ => True

/-- SQL LIKE -/
inductive Match : List Tok → List Bytes → Prop
  | nil : Match [] []
  | one {p c s} : Match p s → Match (.one :: p) (c :: s)
  | lit {p e c s} : Match p s → Match (.lit e c :: p) (c :: s)
  | any0 {p s} : Match p s → Match (.any :: p) s
  | anyS {p c s} : Match (.any :: p) s → Match (.any :: p) (c :: s)

/-- % is never directly followed by _ -/
def noAnyOne : List Tok → Bool
  | .any :: .one :: _ => false
  | .any :: .any :: t => noAnyOne (.any :: t)
  | _ :: t => noAnyOne t
  | [] => true

/-- rest of a pattern after a %: single characters separated by %, ending with % -/
def simpleTail : List Tok → Bool
  | [] => true
  | .any :: p => simpleTail p
  | .lit _ _ :: .any :: p => simpleTail p
  | _ => false

/-- patterns without %, or with everything after the first % of the form c%c%...% (includes prefix search) -/
def simple : List Tok → Bool
  | [] => true
  | .any :: p => simpleTail p
  | _ :: p => simple p

/-! ## proofs -/

/-- search for c, rest after it -/
def findT (c : Bytes) : List Bytes → Option (List Bytes)
  | [] => none
  | d :: s => if d = c then some s else findT c s

mutual
/-- the algorithm on pattern elements and characters -/
def likeT : List Tok → List Bytes → Bool
  | [], s => s = []
  | .one :: _, [] => false
  | .one :: p, _ :: s => likeT p s
  | .lit _ _ :: _, [] => false
  | .lit _ c :: p, d :: s => d = c && likeT p s
  | .any :: p, s => anyT p s
def anyT : List Tok → List Bytes → Bool
  | [], _ => true
  | .any :: p, s => anyT p s
  | .one :: p, s => anyT p s
  | .lit _ c :: p, s => match findT c s with
    | none => false
    | some s => likeT p s
end

theorem uchar_head {c : Bytes} (h : UChar c) : ∃ a t, c = a :: t ∧ utf8Sizeof a = some c.length := by
  unfold UChar at h
  unfold utf8Sizeof
  rcases h with ⟨a, h, rfl⟩ | ⟨a, b, h1, h2, rfl⟩ | ⟨a, b, d, h1, h2, rfl⟩ | ⟨a, b, d, e, h1, h2, rfl⟩
  · exact ⟨a, _, rfl, by rw [if_pos h]; rfl⟩
  · exact ⟨a, _, rfl, by rw [if_neg (by omega), if_pos (by omega)]; rfl⟩
  · exact ⟨a, _, rfl, by rw [if_neg (by omega), if_neg (by omega), if_pos (by omega)]; rfl⟩
  · exact ⟨a, _, rfl, by rw [if_neg (by omega), if_neg (by omega), if_neg (by omega), if_pos (by omega)]; rfl⟩

theorem sizeHead_char {c : Bytes} (h : UChar c) (r : Bytes) : sizeHead (c ++ r) = .ok c.length := by
  obtain ⟨a, t, rfl, h1⟩ := uchar_head h
  simp only [List.cons_append, sizeHead, h1]

theorem adv_append (c r : Bytes) : adv c.length (c ++ r) = .ok r := by
  simp [adv]

theorem sameChar_char (c d : Bytes) (p s : Bytes) :
    sameChar (c ++ p) (d ++ s) c.length d.length = .ok (decide (d = c)) := by
  unfold sameChar
  by_cases h : d.length = c.length
  · rw [if_pos h, if_pos (by simp; omega)]
    rw [List.take_left, ← h, List.take_left]
    simp [eq_comm]
  · rw [if_neg h]
    congr 1
    simp
    intro h'; exact h (by rw [h'])

theorem uchar_ne_nil {c : Bytes} (h : UChar c) : c ≠ [] := by
  obtain ⟨a, t, rfl, _⟩ := uchar_head h
  simp

theorem findLoop_eq (c : Bytes) (p : Bytes) : ∀ (cs : List Bytes), (∀ d ∈ cs, UChar d) → ∀ fuel,
    cs.flatten.length + 1 ≤ fuel →
    findLoop (c ++ p) c.length fuel cs.flatten = .ok ((findT c cs).map List.flatten)
  | [], _, fuel, hf => by
    obtain ⟨f, rfl⟩ : ∃ f, fuel = f + 1 := ⟨fuel - 1, by omega⟩
    rfl
  | d :: cs, h, fuel, hf => by
    obtain ⟨f, rfl⟩ : ∃ f, fuel = f + 1 := ⟨fuel - 1, by omega⟩
    have hd := h d (by simp)
    have hn := uchar_ne_nil hd
    have hl : 0 < d.length := List.length_pos_iff.mpr hn
    have ih := findLoop_eq c p cs (fun x hx => h x (by simp [hx])) f (by rw [List.flatten_cons, List.length_append] at hf; omega)
    simp only [List.flatten_cons]
    have : ∃ x y, d ++ cs.flatten = x :: y := by
      cases d with
      | nil => exact absurd rfl hn
      | cons x y => exact ⟨x, _, rfl⟩
    obtain ⟨x, y, hxy⟩ := this
    have e1 := sizeHead_char hd cs.flatten
    have e2 := sameChar_char c d p cs.flatten
    have e3 := adv_append d cs.flatten
    rw [hxy] at e1 e2 e3 ⊢
    simp only [findLoop, e1, bind, Except.bind, e2, e3, findT]
    by_cases hdc : d = c
    · simp [hdc]
    · simp [hdc, ih]

def ptext (ts : List Tok) : Bytes := (ts.map Tok.text).flatten

theorem lit_head {e : Bool} {c : Bytes} (h : (Tok.lit e c).OK) (r : Bytes) :
    ∃ x y, (Tok.lit e c).text ++ r = x :: y ∧ x ≠ 37 ∧ x ≠ 95 ∧ skipSlash (x :: y) = c ++ r := by
  obtain ⟨h1, h2⟩ := h
  cases e with
  | true => exact ⟨92, c ++ r, by simp [Tok.text], by omega, by omega, by simp [skipSlash]⟩
  | false =>
    have h2 := h2 rfl
    rcases h1 with ⟨a, h, rfl⟩ | ⟨a, b, g1, g2, rfl⟩ | ⟨a, b, d, g1, g2, rfl⟩ | ⟨a, b, d, e, g1, g2, rfl⟩
    · simp at h2
      exact ⟨a, r, by simp [Tok.text], h2.1, h2.2.1, by simp [skipSlash, h2.2.2]⟩
    · exact ⟨a, b :: r, by simp [Tok.text], by omega, by omega, by simp [skipSlash]; omega⟩
    · exact ⟨a, b :: d :: r, by simp [Tok.text], by omega, by omega, by simp [skipSlash]; omega⟩
    · exact ⟨a, b :: d :: e :: r, by simp [Tok.text], by omega, by omega, by simp [skipSlash]; omega⟩

/-- body of the % branch -/
def afterWild (fuel : Nat) (p s : Bytes) : Res Bool :=
  if p = [] then .ok true
  else
    let p := skipSlash p
    if p = [] then .ok false
    else do
      let np ← sizeHead p
      match ← findLoop p np (s.length + 1) s with
      | none => .ok false
      | some s => do
        let p ← adv np p
        likeLoop fuel p s

theorem likeLoop_any (fuel : Nat) (t s : Bytes) : likeLoop (fuel + 1) (37 :: t) s = afterWild fuel (skipWild t) s := by
  simp only [likeLoop, afterWild]
  rw [if_neg (by omega), if_pos trivial]
  simp [skipWild]

mutual
theorem like_eq : (ts : List Tok) → (∀ t ∈ ts, t.OK) → ∀ (cs : List Bytes), (∀ c ∈ cs, UChar c) → ∀ fuel,
    (ptext ts).length + 1 ≤ fuel → likeLoop fuel (ptext ts) cs.flatten = .ok (likeT ts cs)
  | [], ht, cs, hc, fuel, hf => by
    obtain ⟨f, rfl⟩ : ∃ f, fuel = f + 1 := ⟨fuel - 1, by omega⟩
    simp only [ptext, List.map_nil, List.flatten_nil, likeLoop, likeT]
    congr 1
    cases cs with
    | nil => simp
    | cons c t =>
      have := uchar_ne_nil (hc c (by simp))
      simp [this]
  | .one :: ts, ht, cs, hc, fuel, hf => by
    obtain ⟨f, rfl⟩ : ∃ f, fuel = f + 1 := ⟨fuel - 1, by omega⟩
    have e : ptext (.one :: ts) = 95 :: ptext ts := by simp [ptext, Tok.text]
    rw [e] at hf ⊢
    cases cs with
    | nil => simp [likeLoop, likeT]
    | cons c cs =>
      have hcc := hc c (by simp)
      have ih := like_eq ts (fun x hx => ht x (by simp [hx])) cs (fun x hx => hc x (by simp [hx])) f (by simp at hf; omega)
      have e1 := sizeHead_char hcc cs.flatten
      have e3 := adv_append c cs.flatten
      simp only [List.flatten_cons]
      have : ∃ x y, c ++ cs.flatten = x :: y := by
        obtain ⟨a, t, rfl, _⟩ := uchar_head hcc
        exact ⟨a, _, rfl⟩
      obtain ⟨x, y, hxy⟩ := this
      rw [hxy] at e1 e3 ⊢
      simp only [likeLoop, if_true, e1, bind, Except.bind, e3, ih, likeT]
  | .lit e c :: ts, ht, cs, hc, fuel, hf => by
    obtain ⟨f, rfl⟩ : ∃ f, fuel = f + 1 := ⟨fuel - 1, by omega⟩
    have hok := ht (.lit e c) (by simp)
    have ee : ptext (.lit e c :: ts) = (Tok.lit e c).text ++ ptext ts := by simp [ptext]
    obtain ⟨x, y, hxy, hx1, hx2, hx3⟩ := lit_head hok (ptext ts)
    have hcl : 0 < c.length := List.length_pos_iff.mpr (uchar_ne_nil hok.1)
    have hlen : c.length ≤ (Tok.lit e c).text.length := by simp [Tok.text]
    rw [ee] at hf ⊢
    have hf' : (ptext ts).length + 1 ≤ f := by simp at hf; omega
    rw [hxy]
    cases cs with
    | nil => simp [likeLoop, likeT, hx1, hx2]
    | cons d cs =>
      have hd := hc d (by simp)
      have ih := like_eq ts (fun x hx => ht x (by simp [hx])) cs (fun x hx => hc x (by simp [hx])) f hf'
      have e1 := sizeHead_char hd cs.flatten
      have e2 := sameChar_char c d (ptext ts) cs.flatten
      have e3 := adv_append d cs.flatten
      have e4 := sizeHead_char hok.1 (ptext ts)
      have e5 := adv_append c (ptext ts)
      simp only [List.flatten_cons]
      have : ∃ x y, d ++ cs.flatten = x :: y := by
        obtain ⟨a, t, rfl, _⟩ := uchar_head hd
        exact ⟨a, _, rfl⟩
      obtain ⟨x', y', hxy'⟩ := this
      rw [hxy'] at e1 e2 e3 ⊢
      simp only [likeLoop, hx1, hx2, if_false, hx3, e1, e2, e4, bind, Except.bind, e3, e5, likeT]
      by_cases hdc : d = c
      · simp [hdc, ih]
      · simp [hdc]
  | .any :: ts, ht, cs, hc, fuel, hf => by
    obtain ⟨f, rfl⟩ : ∃ f, fuel = f + 1 := ⟨fuel - 1, by omega⟩
    have e : ptext (.any :: ts) = 37 :: ptext ts := by simp [ptext, Tok.text]
    rw [e] at hf ⊢
    rw [likeLoop_any, likeT]
    exact any_eq ts (fun x hx => ht x (by simp [hx])) cs hc f (by simp at hf; omega)
theorem any_eq : (ts : List Tok) → (∀ t ∈ ts, t.OK) → ∀ (cs : List Bytes), (∀ c ∈ cs, UChar c) → ∀ fuel,
    (ptext ts).length + 1 ≤ fuel → afterWild fuel (skipWild (ptext ts)) cs.flatten = .ok (anyT ts cs)
  | [], ht, cs, hc, fuel, hf => by simp [ptext, skipWild, afterWild, anyT]
  | .any :: ts, ht, cs, hc, fuel, hf => by
    have e : ptext (.any :: ts) = 37 :: ptext ts := by simp [ptext, Tok.text]
    rw [e] at hf ⊢
    have := any_eq ts (fun x hx => ht x (by simp [hx])) cs hc fuel (by simp at hf; omega)
    simpa [skipWild, anyT] using this
  | .one :: ts, ht, cs, hc, fuel, hf => by
    have e : ptext (.one :: ts) = 95 :: ptext ts := by simp [ptext, Tok.text]
    rw [e] at hf ⊢
    have := any_eq ts (fun x hx => ht x (by simp [hx])) cs hc fuel (by simp at hf; omega)
    simpa [skipWild, anyT] using this
  | .lit e c :: ts, ht, cs, hc, fuel, hf => by
    have hok := ht (.lit e c) (by simp)
    have ee : ptext (.lit e c :: ts) = (Tok.lit e c).text ++ ptext ts := by simp [ptext]
    obtain ⟨x, y, hxy, hx1, hx2, hx3⟩ := lit_head hok (ptext ts)
    have hcl : 0 < c.length := List.length_pos_iff.mpr (uchar_ne_nil hok.1)
    have hlen : c.length ≤ (Tok.lit e c).text.length := by simp [Tok.text]
    rw [ee] at hf ⊢
    have hf' : (ptext ts).length + 1 ≤ fuel := by simp at hf; omega
    have hne : c ++ ptext ts ≠ [] := by simp [uchar_ne_nil hok.1]
    have e4 := sizeHead_char hok.1 (ptext ts)
    have e5 := adv_append c (ptext ts)
    have e6 := findLoop_eq c (ptext ts) cs hc (cs.flatten.length + 1) (by omega)
    rw [hxy]
    simp only [skipWild, hx1, hx2, or_self, if_false, afterWild, hx3, hne, reduceCtorEq, e4, bind, Except.bind, e6]
    cases hfind : findT c cs with
    | none => simp [anyT, hfind]
    | some s =>
      have hs : ∀ x ∈ s, UChar x := by
        intro x hx
        have : ∀ cs, findT c cs = some s → x ∈ cs := by
          intro cs
          induction cs with
          | nil => intro h; simp [findT] at h
          | cons d cs ih =>
            intro h
            simp only [findT] at h
            split at h
            · simp at h; subst h; simp [hx]
            · simp [ih h]
        exact hc x (this cs hfind)
      have ih := like_eq ts (fun x hx => ht x (by simp [hx])) s hs fuel hf'
      simp [anyT, hfind, e5, ih]
end

theorem findT_spec (c : Bytes) : ∀ (cs s : List Bytes), findT c cs = some s → ∃ pre, cs = pre ++ c :: s
  | [], s, h => by simp [findT] at h
  | d :: cs, s, h => by
    simp only [findT] at h
    split at h
    · rename_i hd; simp at h; subst h; exact ⟨[], by simp [hd]⟩
    · obtain ⟨pre, rfl⟩ := findT_spec c cs s h
      exact ⟨d :: pre, rfl⟩

theorem match_any_append (p : List Tok) (s : List Bytes) (h : Match p s) : ∀ pre : List Bytes, Match (.any :: p) (pre ++ s)
  | [] => .any0 h
  | _ :: pre => .anyS (match_any_append p s h pre)

mutual
theorem likeT_sound : (ts : List Tok) → noAnyOne ts = true → ∀ cs, likeT ts cs = true → Match ts cs
  | [], _, cs, h => by
    simp [likeT] at h; subst h; exact .nil
  | .one :: ts, hn, cs, h => by
    cases cs with
    | nil => simp [likeT] at h
    | cons c cs => exact .one (likeT_sound ts (by simpa [noAnyOne] using hn) cs (by simpa [likeT] using h))
  | .lit e c :: ts, hn, cs, h => by
    cases cs with
    | nil => simp [likeT] at h
    | cons d cs =>
      simp [likeT] at h
      obtain ⟨rfl, h⟩ := h
      exact .lit (likeT_sound ts (by simpa [noAnyOne] using hn) cs h)
  | .any :: ts, hn, cs, h => anyT_sound ts hn cs (by simpa [likeT] using h)
theorem anyT_sound : (ts : List Tok) → noAnyOne (.any :: ts) = true → ∀ cs, anyT ts cs = true → Match (.any :: ts) cs
  | [], _, cs, h => by
    have := match_any_append [] [] .nil cs
    simpa using this
  | .any :: ts, hn, cs, h => by
    exact .any0 (anyT_sound ts (by simpa [noAnyOne] using hn) cs (by simpa [anyT] using h))
  | .one :: ts, hn, cs, h => by simp [noAnyOne] at hn
  | .lit e c :: ts, hn, cs, h => by
    simp only [anyT] at h
    cases hf : findT c cs with
    | none => simp [hf] at h
    | some s =>
      simp only [hf] at h
      obtain ⟨pre, rfl⟩ := findT_spec c cs s hf
      exact match_any_append _ _ (.lit (likeT_sound ts (by simpa [noAnyOne] using hn) s h)) pre
end

/-- a match of %p survives prepending characters -/
theorem match_any_suffix (p : List Tok) (pre s : List Bytes) (h : Match (.any :: p) s) : Match (.any :: p) (pre ++ s) := by
  induction pre with
  | nil => exact h
  | cons c pre ih => exact .anyS ih

theorem match_any_elim {p : List Tok} : ∀ {s : List Bytes}, Match (.any :: p) s → ∃ pre t, s = pre ++ t ∧ Match p t := by
  intro s h
  generalize hq : Tok.any :: p = q at h
  induction h with
  | nil => cases hq
  | one _ _ => cases hq
  | lit _ _ => cases hq
  | @any0 p' s h _ => cases hq; exact ⟨[], s, rfl, h⟩
  | @anyS p' c s h ih =>
    cases hq
    obtain ⟨pre, t, rfl, ht⟩ := ih rfl
    exact ⟨c :: pre, t, rfl, ht⟩

theorem findT_earliest (c : Bytes) : ∀ (pre s : List Bytes), ∃ s', findT c (pre ++ c :: s) = some s' ∧ ∃ mid, s' = mid ++ s
  | [], s => ⟨s, by simp [findT], [], rfl⟩
  | d :: pre, s => by
    by_cases h : d = c
    · exact ⟨pre ++ c :: s, by simp [findT, h], pre ++ [c], by simp⟩
    · obtain ⟨s', h1, h2⟩ := findT_earliest c pre s
      exact ⟨s', by simp [findT, h, h1], h2⟩

theorem anyT_complete : (ts : List Tok) → simpleTail ts = true → ∀ cs, Match (.any :: ts) cs → anyT ts cs = true
  | [], _, cs, h => by simp [anyT]
  | .any :: ts, hs, cs, h => by
    simp only [anyT]
    apply anyT_complete ts (by simpa [simpleTail] using hs)
    obtain ⟨pre, t, rfl, ht⟩ := match_any_elim h
    exact match_any_suffix _ _ _ ht
  | [.lit _ _], hs, _, _ => by simp [simpleTail] at hs
  | .lit _ _ :: .one :: _, hs, _, _ => by simp [simpleTail] at hs
  | .lit _ _ :: .lit _ _ :: _, hs, _, _ => by simp [simpleTail] at hs
  | .one :: _, hs, _, _ => by simp [simpleTail] at hs
  | .lit e c :: .any :: ts, hs, cs, h => by
    obtain ⟨pre, t, rfl, ht⟩ := match_any_elim h
    cases ht with
    | lit ht =>
      rename_i s
      obtain ⟨s', h1, mid, h2⟩ := findT_earliest c pre s
      simp only [anyT, h1, likeT]
      apply anyT_complete ts (by simpa [simpleTail] using hs)
      rw [h2]
      exact match_any_suffix _ _ _ ht

theorem likeT_complete : (ts : List Tok) → simple ts = true → ∀ cs, Match ts cs → likeT ts cs = true
  | [], _, cs, h => by cases h; rfl
  | .one :: ts, hs, cs, h => by
    cases h with
    | one h => exact likeT_complete ts (by simpa [simple] using hs) _ h
  | .lit e c :: ts, hs, cs, h => by
    cases h with
    | lit h => simp [likeT, likeT_complete ts (by simpa [simple] using hs) _ h]
  | .any :: ts, hs, cs, h => anyT_complete ts (by simpa [simple] using hs) cs h

theorem simpleTail_noAnyOne : (ts : List Tok) → simpleTail ts = true → noAnyOne (.any :: ts) = true
  | [], _ => rfl
  | .any :: ts, h => by
    simp only [noAnyOne]; exact simpleTail_noAnyOne ts (by simpa [simpleTail] using h)
  | .one :: _, h => by simp [simpleTail] at h
  | [.lit _ _], h => by simp [simpleTail] at h
  | .lit _ _ :: .one :: _, h => by simp [simpleTail] at h
  | .lit _ _ :: .lit _ _ :: _, h => by simp [simpleTail] at h
  | .lit _ _ :: .any :: ts, h => by
    have := simpleTail_noAnyOne ts (by simpa [simpleTail] using h)
    simpa [noAnyOne] using this

theorem simple_noAnyOne : (ts : List Tok) → simple ts = true → noAnyOne ts = true
  | [], _ => rfl
  | .any :: ts, h => simpleTail_noAnyOne ts (by simpa [simple] using h)
  | .one :: ts, h => by simpa [noAnyOne] using simple_noAnyOne ts (by simpa [simple] using h)
  | .lit _ _ :: ts, h => by simpa [noAnyOne] using simple_noAnyOne ts (by simpa [simple] using h)

end Verif.Codec.Like
