import Verif.Func.PropsLike
/-!
# String functions (C71)

The specification speaks about a string as its list of characters `cs`; the bytes are `cs.flatten`.
-/
set_option linter.unusedSimpArgs false
set_option linter.unusedVariables false
namespace Verif.Func
open Verif

/-! ## Specification -/

/-- left to right, every occurrence of `src` becomes `to`; everything else stays -/
inductive Replaced (src to : List Bytes) : List Bytes → List Bytes → Prop where
  | nil : Replaced src to [] []
  | hit (s r) : Replaced src to s r → Replaced src to (src ++ s) (to ++ r)
  | skip (c s r) : ¬ src <+: (c :: s) → Replaced src to s r → Replaced src to (c :: s) (c :: r)

/-- without its last characters that are in the filter -/
def dropEnd (q : Bytes → Bool) (cs : List Bytes) : List Bytes := (cs.reverse.dropWhile q).reverse

/-- a character in lower case: only the ASCII letters change -/
def lowerChr (c : Bytes) : Bytes := match c with
  | [b] => if 'A'.toNat ≤ b ∧ b ≤ 'Z'.toNat then [b - 'A'.toNat + 'a'.toNat] else [b]
  | c => c
def upperChr (c : Bytes) : Bytes := match c with
  | [b] => if 'a'.toNat ≤ b ∧ b ≤ 'z'.toNat then [b - 'a'.toNat + 'A'.toNat] else [b]
  | c => c

/-! ## Characters -/

theorem chars_tail {c : Bytes} {cs : List Bytes} (h : Chars (c :: cs)) : Chars cs := fun x hx => h x (by simp [hx])
theorem chars_head {c : Bytes} {cs : List Bytes} (h : Chars (c :: cs)) : IsChr c := h c (by simp)
theorem chars_drop {cs : List Bytes} (h : Chars cs) (n : Nat) : Chars (cs.drop n) := fun x hx => h x (List.mem_of_mem_drop hx)
theorem chars_append {a b : List Bytes} (h : Chars (a ++ b)) : Chars a ∧ Chars b :=
  ⟨fun x hx => h x (by simp [hx]), fun x hx => h x (by simp [hx])⟩

/-- a string has one decomposition into characters -/
theorem prefix_flatten : ∀ {a b : List Bytes}, Chars a → Chars b → (a.flatten <+: b.flatten ↔ a <+: b)
  | [], b, _, _ => by simp
  | x :: a, [], ha, _ => by
    have := flatten_ne (chars_head ha) (cs := a)
    simp [chr_ne (chars_head ha)]
  | x :: a, y :: b, ha, hb => by
    have hx := chars_head ha
    have hy := chars_head hb
    rw [List.cons_prefix_cons, ← prefix_flatten (chars_tail ha) (chars_tail hb)]
    constructor
    · rintro ⟨t, ht⟩
      simp only [List.flatten_cons, List.append_assoc] at ht
      have h1 := nextChr_chr hx (a.flatten ++ t)
      have h2 := nextChr_chr hy b.flatten
      rw [ht, h2] at h1
      simp only [Except.ok.injEq, Prod.mk.injEq] at h1
      exact ⟨h1.1.symm, t, h1.2.symm⟩
    · rintro ⟨rfl, t, ht⟩
      exact ⟨t, by simp [ht]⟩

theorem take_iff_prefix (s sub : Bytes) : s.take sub.length = sub ↔ sub <+: s := by
  rw [List.prefix_iff_eq_take]; exact eq_comm

theorem utf8Len_append (a b : Bytes) : utf8Len (a ++ b) = utf8Len a + utf8Len b := by simp [utf8Len]

theorem utf8Len_chr {c : Bytes} (h : IsChr c) : utf8Len c = 1 := by
  obtain ⟨b, t, rfl, hs, ht⟩ := h
  have hb : ¬ (128 ≤ b ∧ b < 192) := by
    rintro ⟨h1, h2⟩
    omega
  have h2 : t.filter (fun b => decide (¬ (128 ≤ b ∧ b < 192))) = [] := by
    rw [List.filter_eq_nil_iff]
    intro x hx; have := ht x hx; simp; omega
  unfold utf8Len
  rw [List.filter_cons, if_pos (decide_eq_true hb), h2]; rfl

/-- **C71** length(s) is the number of characters -/
theorem C71_length (cs : List Bytes) (h : Chars cs) : utf8Len cs.flatten = cs.length := by
  induction cs with
  | nil => rfl
  | cons c cs ih => rw [List.flatten_cons, utf8Len_append, utf8Len_chr (chars_head h), ih (chars_tail h), List.length_cons]; omega

theorem utf8At_chars : ∀ (n : Nat) (cs : List Bytes), Chars cs → n ≤ cs.length → utf8At n cs.flatten = .ok (cs.drop n).flatten
  | 0, cs, _, _ => rfl
  | n + 1, [], _, hn => by simp at hn
  | n + 1, c :: cs, h, hn => by
    have := utf8At_chars n cs (chars_tail h) (by simpa using hn)
    simp only [utf8At, List.flatten_cons, nextChr_chr (chars_head h), bind, Except.bind, this, List.drop_succ_cons]

theorem cInt_id {i : Int} (h1 : -2 ^ 31 ≤ i) (h2 : i < 2 ^ 31) : cInt i = i := by
  have e1 : (2 : Int) ^ 32 = 4294967296 := by decide
  have e2 : (2 : Int) ^ 31 = 2147483648 := by decide
  unfold cInt
  simp only [toSigned, toUnsigned, show (2 : Nat) ^ 32 = 4294967296 from by decide,
    show (2 : Nat) ^ (32 - 1) = 2147483648 from by decide]
  split <;> omega

theorem take_flatten (cs : List Bytes) (n : Nat) :
    cs.flatten.take (cs.flatten.length - (cs.drop n).flatten.length) = (cs.take n).flatten := by
  have e : cs.flatten = (cs.take n).flatten ++ (cs.drop n).flatten := by rw [← List.flatten_append, List.take_append_drop]
  have e2 : cs.flatten.length - (cs.drop n).flatten.length = (cs.take n).flatten.length := by
    rw [e, List.length_append]; omega
  rw [e2, e, List.take_left']
  rfl

/-- **C71** substr(s, pos, count): `count` characters from the position on (the first is 1), when there are that many; a
position outside of the string or too many characters are an error -/
theorem C71_substr_partial (cs : List Bytes) (h : Chars cs) (hsz : cs.length < 2 ^ 31) (pos n : Int) (hp : 0 ≤ pos)
    (hn : 0 ≤ n) (hn2 : n < 2 ^ 31) :
    substr cs.flatten pos (some n) =
      if 1 ≤ pos ∧ pos ≤ cs.length ∧ pos - 1 + n ≤ cs.length then .ok ((cs.drop (pos.toNat - 1)).take n.toNat).flatten
      else .error .err := by
  unfold substr
  rw [C71_length cs h]
  by_cases h0 : pos = 0
  · rw [if_pos h0, if_neg (by omega)]
  rw [if_neg h0]
  by_cases h1 : (cs.length : Int) ≤ pos - 1
  · rw [if_pos h1, if_neg (by omega)]
  rw [if_neg h1]
  simp only
  rw [cInt_id (i := n) (by omega) hn2]
  by_cases h2 : (cs.length : Int) < pos - 1 + n
  · rw [if_pos h2, if_neg (by omega)]
  rw [if_neg h2, if_pos (by omega), cInt_id (by omega) (by omega)]
  have e : (pos - 1).toNat = pos.toNat - 1 := by omega
  rw [e, utf8At_chars _ cs h (by omega)]
  simp only [bind, Except.bind]
  rw [utf8At_chars n.toNat _ (chars_drop h _) (by simp; omega)]
  simp only [take_flatten]

/-- **C71** substr(s, pos): all characters from the position on -/
theorem C71_substr_rest_partial (cs : List Bytes) (h : Chars cs) (hsz : cs.length < 2 ^ 31) (pos : Int) (hp : 0 ≤ pos) :
    substr cs.flatten pos none =
      if 1 ≤ pos ∧ pos ≤ cs.length then .ok (cs.drop (pos.toNat - 1)).flatten else .error .err := by
  unfold substr
  rw [C71_length cs h]
  by_cases h0 : pos = 0
  · rw [if_pos h0, if_neg (by omega)]
  rw [if_neg h0]
  by_cases h1 : (cs.length : Int) ≤ pos - 1
  · rw [if_pos h1, if_neg (by omega)]
  rw [if_neg h1]
  simp only
  rw [if_pos (by omega), cInt_id (by omega) (by omega), cInt_id (by omega) (by omega)]
  have e : (pos - 1).toNat = pos.toNat - 1 := by omega
  rw [e, utf8At_chars _ cs h (by omega)]
  simp only [bind, Except.bind]
  rw [utf8At_chars _ _ (chars_drop h _) (by simp; omega)]
  simp only [take_flatten]
  rw [List.take_of_length_le (by simp; omega)]

/-- **C71 fails**: substr('ab', -3) reads after the end of the string; substr('ab', -3, 5) too -/
theorem C71_substr_false : substr [97, 98] (-3) none = .error .ub ∧ substr [97, 98] (-3) (some 5) = .error .ub := by
  constructor <;> decide +kernel

/-! ## strpos -/

theorem strposLoop_none (sub : List Bytes) (hs : Chars sub) : ∀ (cs : List Bytes) (f n : Nat), Chars cs → cs.length + 1 ≤ f →
    strposLoop sub.flatten f n cs.flatten = .ok 0 ∧ (sub = [] ∨ ∀ k < cs.length, ¬ sub <+: cs.drop k) ∨
    ∃ k, k < cs.length ∧ strposLoop sub.flatten f n cs.flatten = .ok (n + k) ∧ sub <+: cs.drop k ∧ ∀ j < k, ¬ sub <+: cs.drop j
  | [], f, n, _, hf => by
    obtain ⟨f, rfl⟩ : ∃ m, f = m + 1 := ⟨f - 1, by omega⟩
    left; simp [strposLoop]
  | c :: cs, f, n, h, hf => by
    obtain ⟨f, rfl⟩ : ∃ m, f = m + 1 := ⟨f - 1, by omega⟩
    have hne := flatten_ne (chars_head h) (cs := cs)
    simp only [strposLoop, hne, false_or]
    by_cases hl : (c :: cs).flatten.length < sub.flatten.length
    · left
      rw [if_pos hl]
      refine ⟨rfl, .inr fun k _ hk => ?_⟩
      have := (prefix_flatten hs (chars_drop h k)).2 hk
      have h1 := this.length_le
      have h2 : ((c :: cs).drop k).flatten.length ≤ (c :: cs).flatten.length := by
        conv => rhs; rw [← List.take_append_drop k (c :: cs), List.flatten_append, List.length_append]
        omega
      omega
    · rw [if_neg hl]
      by_cases hp : (c :: cs).flatten.take sub.flatten.length = sub.flatten
      · right
        rw [if_pos hp]
        refine ⟨0, by simp, rfl, ?_, fun j hj => by omega⟩
        rw [take_iff_prefix, prefix_flatten hs h] at hp
        exact hp
      · rw [if_neg hp]
        rw [take_iff_prefix, prefix_flatten hs h] at hp
        simp only [List.flatten_cons, nextChr_chr (chars_head h), bind, Except.bind]
        rcases strposLoop_none sub hs cs f (n + 1) (chars_tail h) (by simpa using hf) with ⟨e, h1⟩ | ⟨k, hk, e, h1, h2⟩
        · left
          refine ⟨e, ?_⟩
          rcases h1 with h1 | h1
          · exact .inl h1
          · refine .inr fun k hk => ?_
            cases k with
            | zero => exact hp
            | succ k => exact h1 k (by simpa using hk)
        · right
          refine ⟨k + 1, by simpa using hk, by rw [e]; congr 1; omega, h1, fun j hj => ?_⟩
          cases j with
          | zero => exact hp
          | succ j => exact h2 j (by omega)

/-- **C71** strpos(s, sub): the number of the first character from which on `sub` occurs in `s`, 0 if it does not occur -/
theorem C71_strpos (cs sub : List Bytes) (h : Chars cs) (hs : Chars sub) (hne : sub ≠ []) :
    (strpos cs.flatten sub.flatten = .ok 0 ∧ ¬ sub <:+: cs) ∨
    ∃ k, strpos cs.flatten sub.flatten = .ok (k + 1) ∧ sub <+: cs.drop k ∧ ∀ j < k, ¬ sub <+: cs.drop j := by
  have hf : sub.flatten ≠ [] := by
    cases sub with
    | nil => exact absurd rfl hne
    | cons c t => exact flatten_ne (chars_head hs)
  have hl := flatten_length h
  simp only [strpos, hf, if_false]
  rcases strposLoop_none sub hs cs (cs.flatten.length + 1) 1 h (by omega) with ⟨e, h1⟩ | ⟨k, _, e, h1, h2⟩
  · left
    refine ⟨e, ?_⟩
    rintro ⟨a, b, rfl⟩
    rcases h1 with h1 | h1
    · exact hne h1
    · refine h1 a.length ?_ ?_
      · have : 1 ≤ sub.length := by cases sub with
          | nil => exact absurd rfl hne
          | cons c t => simp
        simp; omega
      · rw [List.append_assoc, List.drop_left]
        exact List.prefix_append _ _
  · right
    exact ⟨k, by rw [e]; congr 1; omega, h1, h2⟩

/-! ## replace -/

theorem replaceLoop_chars (src to : List Bytes) (hs : Chars src) (hne : src ≠ []) : ∀ (m : Nat) (cs : List Bytes) (f : Nat),
    Chars cs → cs.length ≤ m → cs.length + 1 ≤ f →
    ∃ r, replaceLoop src.flatten to.flatten f cs.flatten = .ok r.flatten ∧ Replaced src to cs r
  | m, [], f, _, _, hf => by
    obtain ⟨f, rfl⟩ : ∃ m, f = m + 1 := ⟨f - 1, by omega⟩
    exact ⟨[], by simp [replaceLoop], .nil⟩
  | 0, c :: cs, f, _, hm, _ => by simp at hm
  | m + 1, c :: cs, f, h, hm, hf => by
    obtain ⟨f, rfl⟩ : ∃ m, f = m + 1 := ⟨f - 1, by omega⟩
    have hn := flatten_ne (chars_head h) (cs := cs)
    simp only [List.length_cons] at hm hf
    have h1s : 1 ≤ src.length := by cases src with
          | nil => exact absurd rfl hne
          | cons c t => simp
    by_cases hp : src <+: (c :: cs)
    · obtain ⟨t, ht⟩ := hp
      rw [← ht] at h hn ⊢
      have hl : (src ++ t).length = cs.length + 1 := by rw [ht]; rfl
      rw [List.length_append] at hl
      obtain ⟨r, hr, hR⟩ := replaceLoop_chars src to hs hne m t f (chars_append h).2 (by omega) (by omega)
      refine ⟨to ++ r, ?_, .hit _ _ hR⟩
      simp only [replaceLoop, hn, if_false]
      rw [if_neg (by simp), if_pos (by simp)]
      simp only [List.flatten_append, List.drop_left, hr, bind, Except.bind]
    · have hp' : ¬ (c :: cs).flatten.take src.flatten.length = src.flatten := by
        rw [take_iff_prefix, prefix_flatten hs h]; exact hp
      simp only [replaceLoop, hn, if_false, hp']
      obtain ⟨r, hr, hR⟩ := replaceLoop_chars src to hs hne m cs f (chars_tail h) (by omega) (by omega)
      by_cases hl : (c :: cs).flatten.length < src.flatten.length
      · rw [if_pos hl]
        refine ⟨c :: cs, rfl, ?_⟩
        have : ∀ l : List Bytes, Chars l → l.flatten.length < src.flatten.length → Replaced src to l l := by
          intro l
          induction l with
          | nil => intros; exact .nil
          | cons x l ih =>
            intro hc hlen
            refine .skip _ _ _ ?_ (ih (chars_tail hc) (by simp at hlen ⊢; omega))
            intro hpre
            have := ((prefix_flatten hs hc).2 hpre).length_le
            omega
        exact this _ h hl
      · rw [if_neg hl]
        refine ⟨c :: r, ?_, .skip _ _ _ hp hR⟩
        simp only [List.flatten_cons, nextChr_chr (chars_head h), bind, Except.bind, hr]

/-- **C71** replace(s, from, to): left to right, every occurrence of `from` becomes `to` -/
theorem C71_replace (cs src to : List Bytes) (h : Chars cs) (hs : Chars src) (hne : src ≠ []) :
    ∃ r, replace cs.flatten src.flatten to.flatten = .ok r.flatten ∧ Replaced src to cs r := by
  have hf : src.flatten ≠ [] := by
    cases src with
    | nil => exact absurd rfl hne
    | cons c t => exact flatten_ne (chars_head hs)
  have hl := flatten_length h
  simp only [replace, hf, if_false]
  exact replaceLoop_chars src to hs hne cs.length cs _ h (Nat.le_refl _) (by omega)

/-- the result of replacing is unique -/
theorem C71_replace_unique (src to : List Bytes) (hne : src ≠ []) {cs r₁ r₂ : List Bytes} (h1 : Replaced src to cs r₁)
    (h2 : Replaced src to cs r₂) : r₁ = r₂ := by
  induction h1 generalizing r₂ with
  | nil =>
    generalize hq : ([] : List Bytes) = q at h2
    cases h2 with
    | nil => rfl
    | hit s r h => simp at hq; exact absurd hq.1 hne
    | skip c s r _ _ => simp at hq
  | hit s r hr ih =>
    generalize hq : src ++ s = q at h2
    cases h2 with
    | nil => simp at hq; exact absurd hq.1 hne
    | hit s' r' h => simp at hq; subst hq; rw [ih h]
    | skip c s' r' hn _ => exact absurd ⟨s, hq⟩ hn
  | skip c s r hn hr ih =>
    generalize hq : c :: s = q at h2
    cases h2 with
    | nil => simp at hq
    | hit s' r' h => exact absurd ⟨s', hq.symm⟩ hn
    | skip c' s' r' hn h => simp at hq; obtain ⟨rfl, rfl⟩ := hq; rw [ih h]

/-! ## trim -/

theorem inFilter_chars (c : Bytes) : ∀ (fs : List Bytes) (f : Nat), Chars fs → fs.length + 1 ≤ f →
    inFilter c f fs.flatten = .ok (decide (c ∈ fs))
  | [], f, _, hf => by
    obtain ⟨f, rfl⟩ : ∃ m, f = m + 1 := ⟨f - 1, by omega⟩
    simp [inFilter]
  | d :: fs, f, h, hf => by
    obtain ⟨f, rfl⟩ : ∃ m, f = m + 1 := ⟨f - 1, by omega⟩
    have hn := flatten_ne (chars_head h) (cs := fs)
    have ih := inFilter_chars c fs f (chars_tail h) (by simpa using hf)
    simp only [List.flatten_cons] at hn ⊢
    simp only [inFilter, hn, if_false, nextChr_chr (chars_head h), bind, Except.bind]
    by_cases e : d = c
    · simp [e]
    · rw [if_neg e, ih]
      have e' : ¬ c = d := fun h => e h.symm
      simp [e']

theorem inFilter_full (c : Bytes) (fs : List Bytes) (h : Chars fs) :
    inFilter c (fs.flatten.length + 1) fs.flatten = .ok (decide (c ∈ fs)) := by
  have := flatten_length h
  exact inFilter_chars c fs _ h (by omega)

theorem ltrimLoop_chars (fs : List Bytes) (hfs : Chars fs) : ∀ (cs : List Bytes) (f : Nat), Chars cs → cs.length + 1 ≤ f →
    ltrimLoop fs.flatten f cs.flatten = .ok (cs.dropWhile fun c => decide (c ∈ fs)).flatten
  | [], f, _, hf => by
    obtain ⟨f, rfl⟩ : ∃ m, f = m + 1 := ⟨f - 1, by omega⟩
    simp [ltrimLoop]
  | c :: cs, f, h, hf => by
    obtain ⟨f, rfl⟩ : ∃ m, f = m + 1 := ⟨f - 1, by omega⟩
    have hn := flatten_ne (chars_head h) (cs := cs)
    have ih := ltrimLoop_chars fs hfs cs f (chars_tail h) (by simpa using hf)
    simp only [List.flatten_cons] at hn ⊢
    simp only [ltrimLoop, hn, if_false, nextChr_chr (chars_head h), bind, Except.bind, inFilter_full c fs hfs]
    rw [List.dropWhile_cons]
    by_cases e : c ∈ fs
    · simp only [e, decide_true, if_true]; exact ih
    · simp only [e, decide_false, Bool.false_eq_true, if_false, List.flatten_cons]

/-- **C71** ltrim(s, filter) removes the characters of the filter from the beginning -/
theorem C71_ltrim (cs fs : List Bytes) (h : Chars cs) (hfs : Chars fs) :
    ltrim cs.flatten fs.flatten = .ok (cs.dropWhile fun c => decide (c ∈ fs)).flatten := by
  have := flatten_length h
  exact ltrimLoop_chars fs hfs cs _ h (by omega)

theorem lastChr_chars (cs : List Bytes) (c : Bytes) (hc : IsChr c) :
    lastChr (cs ++ [c]).flatten = .ok (cs.flatten, c) := by
  have e : (cs ++ [c]).flatten = cs.flatten ++ c := by simp
  rw [e]
  generalize cs.flatten = s
  obtain ⟨b, t, rfl, hs, ht⟩ := hc
  have hb : ¬ (128 ≤ b ∧ b < 192) := by
    rintro ⟨h1, h2⟩
    omega
  have htw : (s ++ b :: t).reverse.takeWhile (fun b => decide (128 ≤ b ∧ b < 192)) = t.reverse := by
    rw [List.reverse_append, List.reverse_cons, List.append_assoc, List.takeWhile_append_of_pos]
    · rw [List.singleton_append, List.takeWhile_cons, if_neg (by simpa using hb), List.append_nil]
    · intro x hx; have := ht x (by simpa using hx); simp; exact this
  simp only [lastChr, htw]
  rw [if_neg (by simp; omega)]
  have hl : (s ++ b :: t).length - t.reverse.length - 1 = s.length := by simp; omega
  rw [hl, List.take_left, List.drop_left]

theorem rtrimLoop_chars (fs : List Bytes) (hfs : Chars fs) : ∀ (n : Nat) (cs : List Bytes) (f : Nat), cs.length = n → Chars cs →
    cs.length + 1 ≤ f → rtrimLoop fs.flatten f cs.flatten = .ok (dropEnd (fun c => decide (c ∈ fs)) cs).flatten
  | 0, cs, f, hn, _, hf => by
    obtain ⟨f, rfl⟩ : ∃ m, f = m + 1 := ⟨f - 1, by omega⟩
    rw [List.length_eq_zero_iff.1 hn]
    simp [rtrimLoop, dropEnd]
  | n + 1, cs, f, hn, h, hf => by
    obtain ⟨f, rfl⟩ : ∃ m, f = m + 1 := ⟨f - 1, by omega⟩
    obtain ⟨r, c, rfl⟩ : ∃ r c, cs = r ++ [c] := by
      refine ⟨cs.dropLast, cs.getLast (by intro h; simp [h] at hn), ?_⟩
      rw [List.dropLast_concat_getLast]
    have hc : IsChr c := h c (by simp)
    have hr := (chars_append h).1
    have hne : (r ++ [c]).flatten ≠ [] := by simp [chr_ne hc]
    have ih := rtrimLoop_chars fs hfs n r f (by simpa using hn) hr (by simp at hf; omega)
    have hnx := nextChr_chr hc []
    rw [List.append_nil] at hnx
    simp only [rtrimLoop, hne, if_false, lastChr_chars r c hc, bind, Except.bind, hnx, inFilter_full c fs hfs]
    have hd : dropEnd (fun c => decide (c ∈ fs)) (r ++ [c]) =
        if c ∈ fs then dropEnd (fun c => decide (c ∈ fs)) r else r ++ [c] := by
      unfold dropEnd
      rw [List.reverse_append, List.reverse_singleton, List.singleton_append, List.dropWhile_cons]
      by_cases e : c ∈ fs <;> simp [e]
    rw [hd]
    by_cases e : c ∈ fs
    · simp only [e, decide_true, if_true]
      rw [← ih]
      congr 1
      simp
    · simp only [e, decide_false, Bool.false_eq_true, if_false]

/-- **C71** rtrim(s, filter) removes the characters of the filter from the end -/
theorem C71_rtrim (cs fs : List Bytes) (h : Chars cs) (hfs : Chars fs) :
    rtrim cs.flatten fs.flatten = .ok (dropEnd (fun c => decide (c ∈ fs)) cs).flatten := by
  have := flatten_length h
  exact rtrimLoop_chars fs hfs _ cs _ rfl h (by omega)

/-- **C71** trim(s, filter) removes them on both sides -/
theorem C71_trim (cs fs : List Bytes) (h : Chars cs) (hfs : Chars fs) :
    trim cs.flatten fs.flatten =
      .ok (dropEnd (fun c => decide (c ∈ fs)) (cs.dropWhile fun c => decide (c ∈ fs))).flatten := by
  simp only [trim, C71_ltrim cs fs h hfs, bind, Except.bind]
  exact C71_rtrim _ fs (dropWhile_chars h) hfs

/-! ## lower, upper -/

theorem mapChrs_chars (g : Nat → Nat) (G : Bytes → Bytes) (hG : ∀ c, IsChr c → G c = if c.length = 1 then c.map g else c) :
    ∀ (cs : List Bytes) (f : Nat), Chars cs → cs.length + 1 ≤ f → mapChrs g f cs.flatten = .ok (cs.map G).flatten
  | [], f, _, hf => by
    obtain ⟨f, rfl⟩ : ∃ m, f = m + 1 := ⟨f - 1, by omega⟩
    simp [mapChrs]
  | c :: cs, f, h, hf => by
    obtain ⟨f, rfl⟩ : ∃ m, f = m + 1 := ⟨f - 1, by omega⟩
    have hn := flatten_ne (chars_head h) (cs := cs)
    have ih := mapChrs_chars g G hG cs f (chars_tail h) (by simpa using hf)
    simp only [List.flatten_cons] at hn ⊢
    simp only [mapChrs, hn, if_false, nextChr_chr (chars_head h), bind, Except.bind, ih, List.map_cons, List.flatten_cons,
      hG c (chars_head h)]

/-- **C71** lower(s) changes the ASCII capital letters and nothing else -/
theorem C71_lower (cs : List Bytes) (h : Chars cs) : lower cs.flatten = .ok (cs.map lowerChr).flatten := by
  have := flatten_length h
  refine mapChrs_chars toLower lowerChr (fun c hc => ?_) cs _ h (by omega)
  obtain ⟨b, t, rfl, -⟩ := hc
  cases t with
  | nil => simp only [lowerChr, toLower, List.length_singleton, if_true, List.map_cons, List.map_nil, show 'A'.toNat = 65 from rfl,
      show 'Z'.toNat = 90 from rfl, show 'a'.toNat = 97 from rfl]; split <;> simp; omega
  | cons x t => simp [lowerChr]

theorem C71_upper (cs : List Bytes) (h : Chars cs) : upper cs.flatten = .ok (cs.map upperChr).flatten := by
  have := flatten_length h
  refine mapChrs_chars toUpper upperChr (fun c hc => ?_) cs _ h (by omega)
  obtain ⟨b, t, rfl, -⟩ := hc
  cases t with
  | nil => simp only [upperChr, toUpper, List.length_singleton, if_true, List.map_cons, List.map_nil, show 'A'.toNat = 65 from rfl,
      show 'z'.toNat = 122 from rfl, show 'a'.toNat = 97 from rfl]; split <;> simp; omega
  | cons x t => simp [upperChr]

/-! ## Cases -/

/-- "äb ä" -/
def sampleCs : List Bytes := [[195, 164], [98], [32], [195, 164]]

theorem sampleCs_chars : Chars sampleCs := by
  intro c hc
  simp only [sampleCs, List.mem_cons, List.not_mem_nil, or_false] at hc
  rcases hc with rfl | rfl | rfl | rfl
  · exact ⟨195, [164], rfl, by decide, by simp⟩
  · exact isChr_ascii _ (by decide)
  · exact isChr_ascii _ (by decide)
  · exact ⟨195, [164], rfl, by decide, by simp⟩

example : utf8Len sampleCs.flatten = 4 := C71_length _ sampleCs_chars
example : substr sampleCs.flatten 2 (some 2) = .ok [98, 32] :=
  (C71_substr_partial _ sampleCs_chars (by decide) 2 2 (by decide) (by decide) (by decide)).trans (by decide +kernel)
example : strpos sampleCs.flatten [32] = .ok 3 := by decide +kernel
example : replace sampleCs.flatten [195, 164] [97] = .ok [97, 98, 32, 97] := by decide +kernel
example : trim sampleCs.flatten [195, 164] = .ok [98, 32] :=
  (C71_trim sampleCs [[195, 164]] sampleCs_chars (by
    intro c hc; simp only [List.mem_singleton] at hc; subst hc; exact ⟨195, [164], rfl, by decide, by simp⟩)).trans (by decide +kernel)

end Verif.Func
