import Verif.Func.Interval
import Verif.Json.ParseProofs
/-!
# Intervals (C73)
-/
set_option linter.unusedSimpArgs false
set_option linter.unusedVariables false
namespace Verif.Func
open Verif Verif.Json.Text

/-- an interval value: what the fields can hold -/
def IvOk (iv : Iv) : Prop := fits32 iv.m ∧ fits32 iv.d ∧ fits64 iv.us
instance (iv : Iv) : Decidable (IvOk iv) := by unfold IvOk; infer_instance

/-! ## Text -/

/-- an item of the text: number, names, what it changes -/
structure Item where
  n : Int
  one : Bytes
  many : Bytes
  part : IvPart
  mul : Int

def Item.name (i : Item) : Bytes := if i.n = 1 ∨ i.n = -1 then i.one else i.many

def IsName (t : Bytes) (p : IvPart) (n : Int) : Prop := t ≠ [] ∧ (∀ c ∈ t, isAlpha c = true) ∧ ivUnit t = some (p, n)

def Item.Good (i : Item) : Prop := IsName i.one i.part i.mul ∧ IsName i.many i.part i.mul ∧ -2 ^ 63 < i.n ∧ i.n < 2 ^ 63

theorem Item.Good.name {i : Item} (h : i.Good) : IsName i.name i.part i.mul := by
  unfold Item.name; split
  · exact h.1
  · exact h.2.1

def Item.word (i : Item) : Bytes := intText i.n ++ [32] ++ i.name

def itemsText : List Item → Bytes
  | [] => []
  | [a] => a.word
  | a :: b :: t => a.word ++ [32] ++ itemsText (b :: t)

theorem ivPiece_word (i : Item) : ivPiece i.n i.one i.many = i.word ++ [32] := by
  simp only [ivPiece, Item.word, Item.name]

theorem pieces_text : ∀ (l : List Item), (l.flatMap fun i => i.word ++ [32]).dropLast = itemsText l
  | [] => rfl
  | [a] => by simp [itemsText]
  | a :: b :: t => by
    have ih := pieces_text (b :: t)
    rw [List.flatMap_cons, List.dropLast_append_of_ne_nil (by simp), ih]
    simp only [itemsText]

theorem ivDigits_dec (n : Nat) (h : n < 2 ^ 63) (rest : Bytes) : ivDigits 0 (decDigits n ++ rest) = ivDigits n rest := by
  have e : (2 : Int) ^ 63 = 9223372036854775808 := by decide
  have e' : (2 : Nat) ^ 63 = 9223372036854775808 := by decide
  induction n using Nat.strongRecOn generalizing rest with
  | ind n ih =>
    unfold decDigits
    split
    · rename_i hn
      have hd : isDigit (48 + n) = true := by simp [isDigit]; omega
      simp only [List.cons_append, List.nil_append, ivDigits, hd, if_true]
      rw [if_neg (by simp only [fits64]; omega)]
      congr 1; omega
    · rename_i hn
      have hd : isDigit (48 + n % 10) = true := by simp [isDigit]; omega
      rw [List.append_assoc, ih (n / 10) (by omega) (by omega)]
      simp only [List.cons_append, List.nil_append, ivDigits, hd, if_true]
      rw [if_neg (by simp only [fits64]; omega)]
      congr 1; omega

theorem dropWhile_none {q : Nat → Bool} {c : Nat} {t : Bytes} (h : q c = false) : (c :: t).dropWhile q = c :: t := by
  rw [List.dropWhile_cons, if_neg (by simp [h])]

theorem alpha_not_space {c : Nat} (h : isAlpha c = true) : isSpace c = false := by
  simp [isAlpha] at h; simp [isSpace]; omega

/-- what may follow a name -/
def Follow (r : Bytes) : Prop := r = [] ∨ ∃ t, r = 32 :: t

theorem takeWhile_name {t r : Bytes} (h : ∀ c ∈ t, isAlpha c = true) (hr : Follow r) :
    (t ++ r).takeWhile isAlpha = t ∧ (t ++ r).dropWhile isAlpha = r := by
  induction t with
  | nil =>
    rcases hr with rfl | ⟨t, rfl⟩
    · exact ⟨rfl, rfl⟩
    · have : isAlpha 32 = false := by decide
      simp [List.takeWhile_cons, List.dropWhile_cons, this]
  | cons c t ih =>
    have hc := h c (by simp)
    obtain ⟨a, b⟩ := ih fun x hx => h x (by simp [hx])
    simp [List.takeWhile_cons, List.dropWhile_cons, hc, a, b]

/-- one round of the loop of interval_set -/
theorem ivSetLoop_word (f : Nat) (iv : Iv) (i : Item) (r : Bytes) (h : i.Good) (hr : Follow r) :
    ivSetLoop (f + 1) iv (i.word ++ r) = (ivAdd iv i.part i.mul i.n).bind fun iv => ivSetLoop f iv r := by
  obtain ⟨hn0, hna, hnu⟩ := h.name
  obtain ⟨-, -, hl, hu⟩ := h
  obtain ⟨tw1, tw2⟩ := takeWhile_name hna hr
  have e : (2 : Int) ^ 63 = 9223372036854775808 := by decide
  have e' : (2 : Nat) ^ 63 = 9223372036854775808 := by decide
  obtain ⟨x, t, hnm⟩ : ∃ x t, i.name = x :: t := by
    cases hq : i.name with
    | nil => exact absurd hq hn0
    | cons x t => exact ⟨x, t, rfl⟩
  have hsp : ([32] ++ (i.name ++ r)).drop 1 = i.name ++ r := rfl
  have hdw : (i.name ++ r).dropWhile isSpace = i.name ++ r := by
    rw [hnm, List.cons_append]
    exact dropWhile_none (alpha_not_space (hna x (by rw [hnm]; simp)))
  have hne : i.name ++ r ≠ [] := by simp [hn0]
  have hstop : ∀ v : Int, ivDigits v ([32] ++ (i.name ++ r)) = .ok (v, [32] ++ (i.name ++ r)) := by
    intro v
    have : isDigit 32 = false := by decide
    simp [ivDigits, this]
  have hw : i.word ++ r = intText i.n ++ ([32] ++ (i.name ++ r)) := by simp [Item.word]
  rw [hw]
  have key : ∃ (v : Nat) (neg : Bool) (s : Bytes), intText i.n ++ ([32] ++ (i.name ++ r)) = s ∧ s.dropWhile isSpace = s ∧ s ≠ [] ∧
      (decide (s.headD 0 = 45)) = neg ∧ ivDigits 0 (if s.headD 0 = 45 then s.drop 1 else s) = .ok ((v : Int), [32] ++ (i.name ++ r)) ∧
      (if neg then -(v : Int) else v) = i.n := by
    unfold intText
    split
    · rename_i hneg
      refine ⟨(-i.n).toNat, true, _, rfl, ?_, by simp, by simp, ?_, ?_⟩
      · rw [List.cons_append]; exact dropWhile_none (by decide)
      · simp only [List.cons_append, List.headD_cons, if_true, List.drop_succ_cons, List.drop_zero]
        rw [ivDigits_dec _ (by omega)]
        exact hstop _
      · simp; omega
    · rename_i hneg
      obtain ⟨c, t', hc, h48, h57⟩ := decDigits_head i.n.toNat
      refine ⟨i.n.toNat, false, _, rfl, ?_, by rw [hc]; simp, ?_, ?_, ?_⟩
      · rw [hc, List.cons_append]; exact dropWhile_none (by simp [isSpace]; omega)
      · rw [hc, List.cons_append]; simp; omega
      · have : ¬ (decDigits i.n.toNat ++ ([32] ++ (i.name ++ r))).headD 0 = 45 := by rw [hc, List.cons_append]; simp; omega
        rw [if_neg this, ivDigits_dec _ (by omega)]
        exact hstop _
      · simp; omega
  obtain ⟨v, neg, s, hs, k1, k2, k3, k4, k5⟩ := key
  rw [hs]
  simp only [ivSetLoop, k1, k2, if_false, k4, bind, Except.bind]
  have hr0 : ¬ ([32] ++ (i.name ++ r) = [] ∨ isSpace (([32] ++ (i.name ++ r)).headD 0) = false) := by
    simp; decide
  rw [if_neg hr0, hsp, hdw, if_neg hne, tw1, hnu]
  simp only [tw2]
  have : (if s.headD 0 = 45 then -(v : Int) else v) = i.n := by
    rw [← k5]
    by_cases h : s.headD 0 = 45
    · simp only [h, decide_true] at k3; rw [← k3, if_pos h, if_pos rfl]
    · simp only [h, decide_false] at k3; rw [← k3, if_neg h, if_neg (by simp)]
  rw [this]

theorem ivSetLoop_space (f : Nat) (iv : Iv) (s : Bytes) : ivSetLoop (f + 1) iv (32 :: s) = ivSetLoop (f + 1) iv s := by
  have : (32 :: s).dropWhile isSpace = s.dropWhile isSpace := by rw [List.dropWhile_cons, if_pos (by decide)]
  simp only [ivSetLoop, this]

def addItems : Iv → List Item → Res Iv
  | iv, [] => .ok iv
  | iv, i :: t => (ivAdd iv i.part i.mul i.n).bind fun iv => addItems iv t

theorem ivSetLoop_items : ∀ (l : List Item) (f : Nat) (iv : Iv), (∀ i ∈ l, i.Good) → l.length + 1 ≤ f →
    ivSetLoop f iv (itemsText l) = addItems iv l
  | [], f, iv, _, hf => by
    obtain ⟨f, rfl⟩ : ∃ m, f = m + 1 := ⟨f - 1, by omega⟩
    simp [ivSetLoop, itemsText, addItems]
  | [a], f, iv, h, hf => by
    obtain ⟨f, rfl⟩ : ∃ m, f = m + 1 := ⟨f - 1, by omega⟩
    have := ivSetLoop_word f iv a [] (h a (by simp)) (.inl rfl)
    rw [List.append_nil] at this
    simp only [itemsText, addItems, this]
    obtain ⟨f, rfl⟩ : ∃ m, f = m + 1 := ⟨f - 1, by simp at hf; omega⟩
    rfl
  | a :: b :: t, f, iv, h, hf => by
    obtain ⟨f, rfl⟩ : ∃ m, f = m + 1 := ⟨f - 1, by omega⟩
    have hf' : (b :: t).length + 1 ≤ f := by simp at hf ⊢; omega
    have ih := fun iv => ivSetLoop_items (b :: t) f iv (fun i hi => h i (by simp at hi ⊢; exact .inr hi)) hf'
    have := ivSetLoop_word f iv a (32 :: itemsText (b :: t)) (h a (by simp)) (.inr ⟨_, rfl⟩)
    have e : itemsText (a :: b :: t) = a.word ++ (32 :: itemsText (b :: t)) := by simp [itemsText]
    rw [e, this]
    obtain ⟨f, rfl⟩ : ∃ m, f = m + 1 := ⟨f - 1, by omega⟩
    simp only [ivSetLoop_space, ih, addItems]

/-- the items interval_get writes if they are not zero -/
def ivItems (iv : Iv) : List Item :=
  [⟨cdiv iv.m 12, [121,101,97,114], [121,101,97,114,115], .m, 12⟩,
   ⟨crem iv.m 12, [109,111,110,116,104], [109,111,110,116,104,115], .m, 1⟩,
   ⟨iv.d, [100,97,121], [100,97,121,115], .d, 1⟩,
   ⟨cdiv iv.us 3600000000, [104,111,117,114], [104,111,117,114,115], .us, 3600000000⟩,
   ⟨cdiv (crem iv.us 3600000000) 60000000, [109,105,110,117,116,101], [109,105,110,117,116,101,115], .us, 60000000⟩,
   ⟨cdiv (crem (crem iv.us 3600000000) 60000000) 1000000, [115,101,99,111,110,100], [115,101,99,111,110,100,115], .us, 1000000⟩,
   ⟨cdiv (crem (crem (crem iv.us 3600000000) 60000000) 1000000) 1000, [109,115], [109,115], .us, 1000⟩,
   ⟨crem (crem (crem (crem iv.us 3600000000) 60000000) 1000000) 1000, [117,115], [117,115], .us, 1⟩]

theorem crem_of_cdiv_zero {a b : Int} (h : cdiv a b = 0) : crem a b = a := by
  have := Int.mul_tdiv_add_tmod a b
  simp only [cdiv, crem] at *
  rw [h] at this; omega

theorem ite_crem (a b : Int) : (if cdiv a b ≠ 0 then crem a b else a) = crem a b := by
  split
  · rfl
  · rename_i h; rw [crem_of_cdiv_zero (by simpa using h)]

theorem flatMap_filter (l : List Item) :
    ((l.filter fun i => decide (i.n ≠ 0)).flatMap fun i => i.word ++ [32]) = l.flatMap fun i => if i.n ≠ 0 then i.word ++ [32] else [] := by
  induction l with
  | nil => rfl
  | cons i l ih =>
    rw [List.filter_cons]
    by_cases h : i.n = 0
    · rw [if_neg (by simp [h])]; simp only [List.flatMap_cons, ih, h]; simp
    · rw [if_pos (by simp [h]), List.flatMap_cons, List.flatMap_cons, ih, if_pos h]

theorem ite_append (c : Prop) [Decidable c] (s t : Bytes) : (if c then s ++ t else s) = s ++ (if c then t else []) := by
  split <;> simp

theorem ivGet_items (iv : Iv) : ivGet iv = itemsText ((ivItems iv).filter fun i => decide (i.n ≠ 0)) := by
  have h1 : ∀ {c : Prop} [Decidable c] (s t : Bytes), (if iv.m ≠ 0 ∧ cdiv iv.m 12 ≠ 0 then s ++ t else s) =
      s ++ (if cdiv iv.m 12 ≠ 0 then t else []) := by
    intro c _ s t
    by_cases h : iv.m = 0
    · simp [h]
    · simp only [h, ne_eq, not_false_eq_true, true_and]; exact ite_append _ _ _
  have h2 : ∀ (s t : Bytes), (if iv.m ≠ 0 ∧ crem iv.m 12 ≠ 0 then s ++ t else s) = s ++ (if crem iv.m 12 ≠ 0 then t else []) := by
    intro s t
    by_cases h : iv.m = 0
    · simp [h]
    · simp only [h, ne_eq, not_false_eq_true, true_and]; exact ite_append _ _ _
  rw [← pieces_text, flatMap_filter]
  unfold ivGet
  simp only [show (60 * 60 * 1000 * 1000 : Int) = 3600000000 from by decide, show (60 * 1000 * 1000 : Int) = 60000000 from by decide,
    show (1000 * 1000 : Int) = 1000000 from by decide]
  simp only [ite_crem]
  rw [h1 (c := True), h2]
  simp only [ite_append]
  simp only [ivItems, List.flatMap_cons, List.flatMap_nil, ← ivPiece_word, List.nil_append, List.append_nil, List.append_assoc]

theorem wrap32_id {i : Int} (h : fits32 i) : wrap32 i = i := by
  obtain ⟨h1, h2⟩ := h
  have e1 : (2 : Int) ^ 32 = 4294967296 := by decide
  have e2 : (2 : Int) ^ 31 = 2147483648 := by decide
  simp only [wrap32, toSigned, toUnsigned, show (2 : Nat) ^ 32 = 4294967296 from by decide,
    show (2 : Nat) ^ (32 - 1) = 2147483648 from by decide]
  split <;> omega

/-- adding the items one by one, leaving out the zeros -/
theorem addItems_cons (iv : Iv) (i : Item) (l : List Item) (iv' : Iv) (h0 : i.n = 0 → iv' = iv)
    (h : ivAdd iv i.part i.mul i.n = .ok iv') :
    addItems iv ((i :: l).filter fun i => decide (i.n ≠ 0)) = addItems iv' (l.filter fun i => decide (i.n ≠ 0)) := by
  rw [List.filter_cons]
  by_cases hn : i.n = 0
  · rw [if_neg (by simp [hn]), h0 hn]
  · rw [if_pos (by simp [hn])]
    simp only [addItems, h, Except.bind]

theorem ivAdd_m {iv : Iv} {k n : Int} (h1 : fits64 (n * k)) (h2 : fits32 (iv.m + n * k)) :
    ivAdd iv .m k n = .ok { iv with m := iv.m + n * k } := by
  unfold ivAdd; rw [if_neg (by simpa using h1)]; simp only [wrap32_id h2]
theorem ivAdd_d {iv : Iv} {k n : Int} (h1 : fits64 (n * k)) (h2 : fits32 (iv.d + n * k)) :
    ivAdd iv .d k n = .ok { iv with d := iv.d + n * k } := by
  unfold ivAdd; rw [if_neg (by simpa using h1)]; simp only [wrap32_id h2]
theorem ivAdd_us {iv : Iv} {k n : Int} (h1 : fits64 (n * k)) (h2 : fits64 (iv.us + n * k)) :
    ivAdd iv .us k n = .ok { iv with us := iv.us + n * k } := by
  unfold ivAdd; rw [if_neg (by simpa using h1)]; simp only [h2, if_true]

/-- a number, its quotient and its remainder have the same sign -/
theorem tdiv_bounds (a b : Int) (hb : 0 < b) : a = b * cdiv a b + crem a b ∧
    (0 ≤ a → 0 ≤ cdiv a b ∧ 0 ≤ crem a b ∧ crem a b < b) ∧ (a ≤ 0 → cdiv a b ≤ 0 ∧ crem a b ≤ 0 ∧ -b < crem a b) := by
  have e := Int.mul_tdiv_add_tmod a b
  refine ⟨e.symm, fun h => ⟨Int.tdiv_nonneg h (by omega), Int.tmod_nonneg b h, Int.tmod_lt_of_pos a hb⟩, fun h => ?_⟩
  have h1 := Int.tdiv_nonneg (a := -a) (b := b) (by omega) (by omega)
  have h2 := Int.tmod_nonneg b (a := -a) (by omega)
  have h3 := Int.tmod_lt_of_pos (-a) hb
  rw [Int.neg_tdiv] at h1
  rw [Int.neg_tmod] at h2 h3
  simp only [cdiv, crem]
  omega

theorem items_sum (iv : Iv) (h : IvOk iv) : addItems ⟨0, 0, 0⟩ ((ivItems iv).filter fun i => decide (i.n ≠ 0)) = .ok iv := by
  obtain ⟨⟨m1, m2⟩, ⟨d1, d2⟩, ⟨u1, u2⟩⟩ := h
  have e1 : (2 : Int) ^ 63 = 9223372036854775808 := by decide
  have e2 : (2 : Int) ^ 31 = 2147483648 := by decide
  rw [e2] at m1 m2 d1 d2
  rw [e1] at u1 u2
  obtain ⟨ym, yp, yn⟩ := tdiv_bounds iv.m 12 (by decide)
  obtain ⟨hm, hp, hn⟩ := tdiv_bounds iv.us 3600000000 (by decide)
  obtain ⟨nm, np, nn⟩ := tdiv_bounds (crem iv.us 3600000000) 60000000 (by decide)
  obtain ⟨sm, sp, sn⟩ := tdiv_bounds (crem (crem iv.us 3600000000) 60000000) 1000000 (by decide)
  obtain ⟨qm, qp, qn⟩ := tdiv_bounds (crem (crem (crem iv.us 3600000000) 60000000) 1000000) 1000 (by decide)
  unfold ivItems
  obtain ⟨m, d, us⟩ := iv
  simp only at *
  generalize cdiv m 12 = y at *
  generalize crem m 12 = mo at *
  generalize cdiv us 3600000000 = ho at *
  generalize crem us 3600000000 = r1 at *
  generalize cdiv r1 60000000 = mi at *
  generalize crem r1 60000000 = r2 at *
  generalize cdiv r2 1000000 = se at *
  generalize crem r2 1000000 = r3 at *
  generalize cdiv r3 1000 = ms at *
  generalize crem r3 1000 = r4 at *
  have hu : 0 ≤ us ∨ us ≤ 0 := by omega
  have hmm : 0 ≤ m ∨ m ≤ 0 := by omega
  have B : fits64 (y * 12) ∧ fits32 (0 + y * 12) ∧ fits64 (mo * 1) ∧ fits32 (0 + y * 12 + mo * 1) ∧ fits64 (d * 1) ∧ fits32 (0 + d * 1) := by
    simp only [fits32, fits64, e1, e2]
    rcases hmm with h | h
    · have := yp h; omega
    · have := yn h; omega
  have U : fits64 (ho * 3600000000) ∧ fits64 (0 + ho * 3600000000) ∧ fits64 (mi * 60000000) ∧
      fits64 (0 + ho * 3600000000 + mi * 60000000) ∧ fits64 (se * 1000000) ∧
      fits64 (0 + ho * 3600000000 + mi * 60000000 + se * 1000000) ∧ fits64 (ms * 1000) ∧
      fits64 (0 + ho * 3600000000 + mi * 60000000 + se * 1000000 + ms * 1000) ∧ fits64 (r4 * 1) ∧
      fits64 (0 + ho * 3600000000 + mi * 60000000 + se * 1000000 + ms * 1000 + r4 * 1) := by
    simp only [fits64, e1]
    rcases hu with h | h
    · have a := hp h; have b := np a.2.1; have c := sp b.2.1; have d := qp c.2.1; omega
    · have a := hn h; have b := nn a.2.1; have c := sn b.2.1; have d := qn c.2.1; omega
  obtain ⟨b1, b2, b3, b4, b5, b6⟩ := B
  obtain ⟨u1', u2', u3, u4, u5, u6, u7, u8, u9, u10⟩ := U
  rw [addItems_cons _ _ _ ⟨0 + y * 12, 0, 0⟩ (by intro h; simp only at h; rw [h]; rfl) (ivAdd_m b1 b2)]
  rw [addItems_cons _ _ _ ⟨0 + y * 12 + mo * 1, 0, 0⟩ (by intro h; simp only at h; rw [h]; simp) (ivAdd_m b3 b4)]
  rw [addItems_cons _ _ _ ⟨0 + y * 12 + mo * 1, 0 + d * 1, 0⟩ (by intro h; simp only at h; rw [h]; simp) (ivAdd_d b5 b6)]
  rw [addItems_cons _ _ _ ⟨0 + y * 12 + mo * 1, 0 + d * 1, 0 + ho * 3600000000⟩ (by intro h; simp only at h; rw [h]; simp) (ivAdd_us u1' u2')]
  rw [addItems_cons _ _ _ ⟨0 + y * 12 + mo * 1, 0 + d * 1, 0 + ho * 3600000000 + mi * 60000000⟩ (by intro h; simp only at h; rw [h]; simp)
    (ivAdd_us u3 u4)]
  rw [addItems_cons _ _ _ ⟨0 + y * 12 + mo * 1, 0 + d * 1, 0 + ho * 3600000000 + mi * 60000000 + se * 1000000⟩
    (by intro h; simp only at h; rw [h]; simp) (ivAdd_us u5 u6)]
  rw [addItems_cons _ _ _ ⟨0 + y * 12 + mo * 1, 0 + d * 1, 0 + ho * 3600000000 + mi * 60000000 + se * 1000000 + ms * 1000⟩
    (by intro h; simp only at h; rw [h]; simp) (ivAdd_us u7 u8)]
  rw [addItems_cons _ _ _ ⟨0 + y * 12 + mo * 1, 0 + d * 1, 0 + ho * 3600000000 + mi * 60000000 + se * 1000000 + ms * 1000 + r4 * 1⟩
    (by intro h; simp only at h; rw [h]; simp) (ivAdd_us u9 u10)]
  simp only [List.filter_nil, addItems, Except.ok.injEq, Iv.mk.injEq]
  omega

theorem names_ok : (IsName [121,101,97,114] .m 12 ∧ IsName [121,101,97,114,115] .m 12) ∧
    (IsName [109,111,110,116,104] .m 1 ∧ IsName [109,111,110,116,104,115] .m 1) ∧
    (IsName [100,97,121] .d 1 ∧ IsName [100,97,121,115] .d 1) ∧
    (IsName [104,111,117,114] .us 3600000000 ∧ IsName [104,111,117,114,115] .us 3600000000) ∧
    (IsName [109,105,110,117,116,101] .us 60000000 ∧ IsName [109,105,110,117,116,101,115] .us 60000000) ∧
    (IsName [115,101,99,111,110,100] .us 1000000 ∧ IsName [115,101,99,111,110,100,115] .us 1000000) ∧
    IsName [109,115] .us 1000 ∧ IsName [117,115] .us 1 := by
  refine ⟨⟨?_, ?_⟩, ⟨?_, ?_⟩, ⟨?_, ?_⟩, ⟨?_, ?_⟩, ⟨?_, ?_⟩, ⟨?_, ?_⟩, ?_, ?_⟩ <;>
    exact ⟨by decide, by decide, by decide⟩

theorem items_good (iv : Iv) (h : IvOk iv) : ∀ i ∈ ivItems iv, i.Good := by
  obtain ⟨⟨m1, m2⟩, ⟨d1, d2⟩, ⟨u1, u2⟩⟩ := h
  have e1 : (2 : Int) ^ 63 = 9223372036854775808 := by decide
  have e2 : (2 : Int) ^ 31 = 2147483648 := by decide
  rw [e2] at m1 m2 d1 d2
  rw [e1] at u1 u2
  obtain ⟨ym, yp, yn⟩ := tdiv_bounds iv.m 12 (by decide)
  obtain ⟨hm, hp, hn⟩ := tdiv_bounds iv.us 3600000000 (by decide)
  obtain ⟨nm, np, nn⟩ := tdiv_bounds (crem iv.us 3600000000) 60000000 (by decide)
  obtain ⟨sm, sp, sn⟩ := tdiv_bounds (crem (crem iv.us 3600000000) 60000000) 1000000 (by decide)
  obtain ⟨qm, qp, qn⟩ := tdiv_bounds (crem (crem (crem iv.us 3600000000) 60000000) 1000000) 1000 (by decide)
  have hu : 0 ≤ iv.us ∨ iv.us ≤ 0 := by omega
  have hmm : 0 ≤ iv.m ∨ iv.m ≤ 0 := by omega
  obtain ⟨⟨a1, a2⟩, ⟨a3, a4⟩, ⟨a5, a6⟩, ⟨a7, a8⟩, ⟨a9, a10⟩, ⟨a11, a12⟩, a13, a14⟩ := names_ok
  intro i hi
  simp only [ivItems, List.mem_cons, List.not_mem_nil, or_false] at hi
  rcases hi with rfl | rfl | rfl | rfl | rfl | rfl | rfl | rfl
  · refine ⟨a1, a2, ?_⟩
    show _ < cdiv iv.m 12 ∧ cdiv iv.m 12 < _
    rw [e1]; rcases hmm with h | h
    · have := yp h; omega
    · have := yn h; omega
  · refine ⟨a3, a4, ?_⟩
    show _ < crem iv.m 12 ∧ crem iv.m 12 < _
    rw [e1]; rcases hmm with h | h
    · have := yp h; omega
    · have := yn h; omega
  · refine ⟨a5, a6, ?_⟩
    show _ < iv.d ∧ iv.d < _
    rw [e1]; omega
  all_goals refine ⟨by assumption, by assumption, ?_⟩
  · show _ < cdiv iv.us 3600000000 ∧ cdiv iv.us 3600000000 < _
    rw [e1]; rcases hu with h | h
    · have := hp h; omega
    · have := hn h; omega
  · show _ < cdiv (crem iv.us 3600000000) 60000000 ∧ cdiv (crem iv.us 3600000000) 60000000 < _
    rw [e1]; rcases hu with h | h
    · have a := hp h; have b := np a.2.1; omega
    · have a := hn h; have b := nn a.2.1; omega
  · show _ < cdiv (crem (crem iv.us 3600000000) 60000000) 1000000 ∧ cdiv (crem (crem iv.us 3600000000) 60000000) 1000000 < _
    rw [e1]; rcases hu with h | h
    · have a := hp h; have b := np a.2.1; have c := sp b.2.1; omega
    · have a := hn h; have b := nn a.2.1; have c := sn b.2.1; omega
  · show _ < cdiv (crem (crem (crem iv.us 3600000000) 60000000) 1000000) 1000 ∧
      cdiv (crem (crem (crem iv.us 3600000000) 60000000) 1000000) 1000 < _
    rw [e1]; rcases hu with h | h
    · have a := hp h; have b := np a.2.1; have c := sp b.2.1; have d := qp c.2.1; omega
    · have a := hn h; have b := nn a.2.1; have c := sn b.2.1; have d := qn c.2.1; omega
  · show _ < crem (crem (crem (crem iv.us 3600000000) 60000000) 1000000) 1000 ∧
      crem (crem (crem (crem iv.us 3600000000) 60000000) 1000000) 1000 < _
    rw [e1]; rcases hu with h | h
    · have a := hp h; have b := np a.2.1; have c := sp b.2.1; have d := qp c.2.1; omega
    · have a := hn h; have b := nn a.2.1; have c := sn b.2.1; have d := qn c.2.1; omega

theorem itemsText_length : ∀ (l : List Item), (∀ i ∈ l, i.Good) → l.length ≤ (itemsText l).length
  | [], _ => by simp
  | [a], _ => by simp [itemsText, Item.word]; omega
  | a :: b :: t, h => by
    have := itemsText_length (b :: t) fun i hi => h i (by simp at hi ⊢; exact .inr hi)
    simp only [itemsText, List.length_append, List.length_cons] at this ⊢
    omega

/-- **C73** the text of an interval reads back as the same interval -/
theorem C73_text (iv : Iv) (h : IvOk iv) : ivSet (ivGet iv) = .ok iv := by
  have hg : ∀ i ∈ (ivItems iv).filter fun i => decide (i.n ≠ 0), i.Good :=
    fun i hi => items_good iv h i (List.mem_filter.1 hi).1
  have hl := itemsText_length _ hg
  rw [ivSet, ivGet_items, ivSetLoop_items _ _ _ hg (by omega)]
  exact items_sum iv h

/-! ## Fields -/

/-- an int64 that is not negative, as unsigned -/
theorem toUnsigned_nonneg {i : Int} (h : 0 ≤ i) (h2 : i < 2 ^ 63) : toUnsigned 64 i = i.toNat := by
  have e1 : (2 : Int) ^ 63 = 9223372036854775808 := by decide
  have e2 : ((2 ^ 64 : Nat) : Int) = 18446744073709551616 := by decide
  unfold toUnsigned
  rw [e2]
  congr 1
  omega

theorem toSigned_small {n : Nat} (h : n < 2 ^ 63) : toSigned 64 n = n := by
  unfold toSigned
  rw [if_pos h]

/-- **C73** extract(field from interval): the parts of an interval whose time is not negative; together they are the interval -/
theorem C73_extract_partial (iv : Iv) (h : IvOk iv) (h0 : 0 ≤ iv.us) :
    iv.m = 12 * ivExtract iv .year + ivExtract iv .month ∧ -12 < ivExtract iv .month ∧ ivExtract iv .month < 12 ∧
    ivExtract iv .day = iv.d ∧
    iv.us = 3600000000 * ivExtract iv .hour + 60000000 * ivExtract iv .minute + 1000000 * ivExtract iv .second +
      1000 * ivExtract iv .millisecond + ivExtract iv .microsecond ∧
    0 ≤ ivExtract iv .hour ∧ 0 ≤ ivExtract iv .minute ∧ ivExtract iv .minute < 60 ∧ 0 ≤ ivExtract iv .second ∧
    ivExtract iv .second < 60 ∧ 0 ≤ ivExtract iv .millisecond ∧ ivExtract iv .millisecond < 1000 ∧
    0 ≤ ivExtract iv .microsecond ∧ ivExtract iv .microsecond < 1000 := by
  obtain ⟨-, -, u1, u2⟩ := h
  have e1 : (2 : Int) ^ 63 = 9223372036854775808 := by decide
  have e2 : (2 : Nat) ^ 63 = 9223372036854775808 := by decide
  obtain ⟨ym, yp, yn⟩ := tdiv_bounds iv.m 12 (by decide)
  have hmm : 0 ≤ iv.m ∨ iv.m ≤ 0 := by omega
  simp only [ivExtract, toUnsigned_nonneg h0 u2]
  rw [show (60 * 60 * 1000 * 1000 : Nat) = 3600000000 from by decide, show (60 * 1000 * 1000 : Nat) = 60000000 from by decide,
    show (1000 * 1000 : Nat) = 1000000 from by decide]
  rw [toSigned_small (by omega), toSigned_small (by omega), toSigned_small (by omega), toSigned_small (by omega)]
  have hc : crem iv.us 1000 = iv.us % 1000 := Int.tmod_eq_emod_of_nonneg h0
  rw [hc]
  refine ⟨by omega, ?_, ?_, trivial, ?_⟩
  · rcases hmm with h | h
    · have := yp h; omega
    · have := yn h; omega
  · rcases hmm with h | h
    · have := yp h; omega
    · have := yn h; omega
  · omega

/-- the length of a field in microseconds -/
def fieldUs : IvField → Int
  | .day => 86400000000
  | .hour => 3600000000
  | .minute => 60000000
  | .second => 1000000
  | .millisecond => 1000
  | _ => 1

theorem uTrunc_eq {us : Int} {n : Nat} (hn : 0 < n) (h0 : 0 ≤ us) (h : us < 2 ^ 63) : uTrunc us n = us / n * n := by
  have e1 : (2 : Int) ^ 63 = 9223372036854775808 := by decide
  have e2 : (2 : Nat) ^ 63 = 9223372036854775808 := by decide
  have e3 : (2 : Nat) ^ 64 = 18446744073709551616 := by decide
  unfold uTrunc
  rw [toUnsigned_nonneg h0 h]
  have hle : us.toNat / n * n ≤ us.toNat := Nat.div_mul_le_self _ _
  rw [Nat.mod_eq_of_lt (by omega), toSigned_small (by omega)]
  obtain ⟨k, rfl⟩ : ∃ k : Nat, us = k := ⟨us.toNat, by omega⟩
  simp

theorem uTrunc_key (us : Int) (n : Nat) (N : Int) (hN : (n : Int) = N) (hn : 0 < n) (h0 : 0 ≤ us) (h : us < 2 ^ 63) :
    (∃ k, uTrunc us n = k * N) ∧ uTrunc us n ≤ us ∧ us < uTrunc us n + N := by
  subst hN
  rw [uTrunc_eq hn h0 h]
  have h1 := Int.emod_nonneg us (b := (n : Int)) (by omega)
  have h2 := Int.emod_lt_of_pos us (b := (n : Int)) (by omega)
  have h3 := Int.mul_ediv_add_emod us n
  rw [Int.mul_comm] at h3
  refine ⟨⟨_, rfl⟩, by omega, by omega⟩

theorem uTruncDay (us : Int) (h0 : 0 ≤ us) (h : us < 2 ^ 63) : (∃ k, uTrunc us (24 * 60 * 60 * 1000 * 1000) = k * 86400000000) ∧
    uTrunc us (24 * 60 * 60 * 1000 * 1000) ≤ us ∧ us < uTrunc us (24 * 60 * 60 * 1000 * 1000) + 86400000000 :=
  uTrunc_key us _ _ (by decide) (by decide) h0 h
theorem uTruncHour (us : Int) (h0 : 0 ≤ us) (h : us < 2 ^ 63) : (∃ k, uTrunc us (60 * 60 * 1000 * 1000) = k * 3600000000) ∧
    uTrunc us (60 * 60 * 1000 * 1000) ≤ us ∧ us < uTrunc us (60 * 60 * 1000 * 1000) + 3600000000 :=
  uTrunc_key us _ _ (by decide) (by decide) h0 h
theorem uTruncMinute (us : Int) (h0 : 0 ≤ us) (h : us < 2 ^ 63) : (∃ k, uTrunc us (60 * 1000 * 1000) = k * 60000000) ∧
    uTrunc us (60 * 1000 * 1000) ≤ us ∧ us < uTrunc us (60 * 1000 * 1000) + 60000000 :=
  uTrunc_key us _ _ (by decide) (by decide) h0 h
theorem uTruncSecond (us : Int) (h0 : 0 ≤ us) (h : us < 2 ^ 63) : (∃ k, uTrunc us (1000 * 1000) = k * 1000000) ∧
    uTrunc us (1000 * 1000) ≤ us ∧ us < uTrunc us (1000 * 1000) + 1000000 :=
  uTrunc_key us _ _ (by decide) (by decide) h0 h
theorem uTruncMilli (us : Int) (h0 : 0 ≤ us) (h : us < 2 ^ 63) : (∃ k, uTrunc us (1000) = k * 1000) ∧
    uTrunc us (1000) ≤ us ∧ us < uTrunc us (1000) + 1000 :=
  uTrunc_key us _ _ (by decide) (by decide) h0 h

/-- **C73** interval_trunc(field): the time (if not negative) is cut to a multiple of the field; months and days stay; truncating to
months or years removes days and time -/
theorem C73_trunc_partial (iv : Iv) (h : IvOk iv) (h0 : 0 ≤ iv.us) (f : IvField) :
    (f = .year → ivTrunc iv f = ⟨12 * ivExtract iv .year, 0, 0⟩) ∧ (f = .month → ivTrunc iv f = ⟨iv.m, 0, 0⟩) ∧
    (f ≠ .year → f ≠ .month → ∃ t, ivTrunc iv f = ⟨iv.m, iv.d, t⟩ ∧ (∃ k, t = k * fieldUs f) ∧ t ≤ iv.us ∧ iv.us < t + fieldUs f) := by
  obtain ⟨-, -, u1, u2⟩ := h
  refine ⟨?_, ?_, ?_⟩
  · rintro rfl; simp only [ivTrunc, ivExtract, Iv.mk.injEq, and_true]; omega
  · rintro rfl; rfl
  · intro n1 n2
    cases f with
    | year => exact absurd rfl n1
    | month => exact absurd rfl n2
    | microsecond => exact ⟨iv.us, rfl, ⟨iv.us, by simp [fieldUs]⟩, Int.le_refl _, by simp [fieldUs]; omega⟩
    | day => exact ⟨_, rfl, uTruncDay iv.us h0 u2⟩
    | hour => exact ⟨_, rfl, uTruncHour iv.us h0 u2⟩
    | minute => exact ⟨_, rfl, uTruncMinute iv.us h0 u2⟩
    | second => exact ⟨_, rfl, uTruncSecond iv.us h0 u2⟩
    | millisecond => exact ⟨_, rfl, uTruncMilli iv.us h0 u2⟩

/-- **C73** the sum and the difference of intervals, when their fields can hold it: adding and taking away again gives the same -/
theorem C73_arith_partial (a b : Iv) (ha : IvOk a) (hb : IvOk b) (c : Iv) (h : ivPlus a b = .ok c) :
    c = ⟨a.m + b.m, a.d + b.d, a.us + b.us⟩ ∧ ivMinus c b = .ok a := by
  unfold ivPlus ivCheck at h
  split at h
  · simp only [Except.ok.injEq] at h
    subst h
    refine ⟨rfl, ?_⟩
    unfold ivMinus ivCheck
    simp only [Int.add_sub_cancel]
    rw [if_pos (show fits32 a.m ∧ fits32 a.d ∧ fits64 a.us from ha)]
  · simp at h

/-- **C73 fails** for negative times: they are taken as huge unsigned numbers. The hours of -1 hour are 5124095575; -1 us cut to
seconds is -551616 us. -/
theorem C73_negative_false : IvOk ⟨0, 0, -3600000000⟩ ∧ ivExtract ⟨0, 0, -3600000000⟩ .hour = 5124095575 ∧
    (ivTrunc ⟨0, 0, -1⟩ .second).us = -551616 := by decide

/-- **C73 fails**: values that the fields cannot hold are not refused: '178956971 years' (more than 2^31 months) is a negative
interval, and '9223372036854775807 hours' overflows -/
theorem C73_overflow_false :
    ivSet [49,55,56,57,53,54,57,55,49,32,121,101,97,114,115] = .ok ⟨-2147483644, 0, 0⟩ ∧
    ivSet [57,50,50,51,51,55,50,48,51,54,56,53,52,55,55,53,56,48,55,32,104,111,117,114,115] = .error .ub := by
  constructor <;> decide +kernel

example : ivSet (ivGet ⟨-13, 5, -3661001002⟩) = .ok ⟨-13, 5, -3661001002⟩ := C73_text _ (by decide)
/-- it is "-1 years …" -/
example : ivGet ⟨-13, 0, 0⟩ = [45,49,32,121,101,97,114,32,45,49,32,109,111,110,116,104] := by decide +kernel

end Verif.Func
