import Verif.Func.Choose
import Verif.Query.PropsCompare
set_option linter.unusedSimpArgs false
set_option linter.unusedVariables false
/-!
# C87: GREATEST, LEAST, COALESCE, NULLIF and the functions of integers
-/
namespace Verif.Func.Choose
open Verif.Query (Val valueCompare dblKey isNaN)

/-! ## Specification -/

/-- bytes in the order of a dictionary -/
inductive TextLe : List Nat → List Nat → Prop
  | nil (b) : TextLe [] b
  | lt {x y : Nat} (a b) : x < y → TextLe (x :: a) (y :: b)
  | eq {x : Nat} {a b} : TextLe a b → TextLe (x :: a) (x :: b)

/-- the order of two values of one type (doubles: the order of the numbers) -/
inductive Le : Val → Val → Prop
  | bool {x y : Int} : x ≤ y → Le (.bool x) (.bool y)
  | int {x y : Int} : x ≤ y → Le (.int x) (.int y)
  | date {x y : Int} : x ≤ y → Le (.date x) (.date y)
  | timestamp {x y : Int} : x ≤ y → Le (.timestamp x) (.timestamp y)
  | dbl {x y : Nat} : dblKey x ≤ dblKey y → Le (.dbl x) (.dbl y)
  | str {x y : List Nat} : TextLe x y → Le (.str x) (.str y)
  | interval {m d u m' d' u' : Int} : (m < m' ∨ (m = m' ∧ (d < d' ∨ (d = d' ∧ u ≤ u')))) → Le (.interval m d u) (.interval m' d' u')
  | uuid {x y x' y' : Nat} : (x < x' ∨ (x = x' ∧ y ≤ y')) → Le (.uuid x y) (.uuid x' y')

/-- the type of a value; NULL has any -/
def OfType (t : Nat) (v : Val) : Prop := v = .null ∨ v.typeNo = t

/-! ## Proofs -/

theorem cmpI_le {x y : Int} : Query.cmpI x y ≤ 0 ↔ x ≤ y := by
  unfold Query.cmpI; repeat' split
  all_goals omega

theorem cmpS_le (a b : List Nat) : Query.cmpS a b ≤ 0 ↔ TextLe a b := by
  induction a generalizing b with
  | nil => cases b <;> simp [Query.cmpS, TextLe.nil]
  | cons x a ih =>
    cases b with
    | nil => simp [Query.cmpS]; intro h; cases h
    | cons y b =>
      rw [Query.cmpS]
      by_cases h : x = y
      · subst h
        rw [if_pos rfl, ih]
        exact ⟨.eq, fun h => by cases h with | lt _ _ h => omega | eq h => exact h⟩
      · rw [if_neg h]
        exact ⟨fun g => .lt _ _ (by omega), fun g => by cases g with | lt _ _ h => omega | eq _ => exact absurd rfl h⟩

theorem compare_le {a b : Val} (ha : a.ordered) (hb : b.ordered) (hn : a ≠ .null) (ht : a.typeNo = b.typeNo) :
    valueCompare a b ≤ 0 ↔ Le a b := by
  cases a <;> cases b <;> simp only [Val.typeNo] at ht <;> first | omega | skip
  · exact absurd rfl hn
  · rw [valueCompare, cmpI_le]; exact ⟨.bool, fun h => by cases h; assumption⟩
  · rw [valueCompare, cmpI_le]; exact ⟨.int, fun h => by cases h; assumption⟩
  · simp only [Val.ordered] at ha hb
    rw [valueCompare, Query.cmpD, if_neg (by simp [ha, hb]), cmpI_le]; exact ⟨.dbl, fun h => by cases h; assumption⟩
  · rw [valueCompare, cmpS_le]; exact ⟨.str, fun h => by cases h; assumption⟩
  · rw [valueCompare, cmpI_le]; exact ⟨.date, fun h => by cases h; assumption⟩
  · rw [valueCompare, cmpI_le]; exact ⟨.timestamp, fun h => by cases h; assumption⟩
  · rename_i m d u m' d' u'
    have : valueCompare (.interval m d u) (.interval m' d' u') ≤ 0 ↔ (m < m' ∨ (m = m' ∧ (d < d' ∨ (d = d' ∧ u ≤ u')))) := by
      rw [valueCompare]; unfold Query.cmpI; repeat' split
      all_goals omega
    rw [this]; exact ⟨.interval, fun h => by cases h; assumption⟩
  · rename_i x y x' y'
    have : valueCompare (.uuid x y) (.uuid x' y') ≤ 0 ↔ (x < x' ∨ (x = x' ∧ y ≤ y')) := by
      rw [valueCompare]; unfold Query.cmpI; repeat' split
      all_goals omega
    rw [this]; exact ⟨.uuid, fun h => by cases h; assumption⟩

/-- the value kept so far: one of those seen, and the first of those that nothing seen is above (`c`: the result of the
comparison that replaces it) -/
def Best (c : Int) (seen : List Val) (m : Option Val) : Prop :=
  match m with
  | none => ∀ a ∈ seen, a = .null
  | some x => ∃ pre post, seen = pre ++ x :: post ∧ x ≠ .null ∧ (∀ a ∈ pre, a ≠ .null → 0 < c * valueCompare x a) ∧ (∀ a ∈ post, a ≠ .null → c * valueCompare a x ≤ 0)

theorem best_step {c : Int} (hc : c = 1 ∨ c = -1) {seen : List Val} {m : Option Val} (hs : ∀ a ∈ seen, a.plain) {a : Val} (ha : a.plain)
    (hb : Best c seen m) (hn : a ≠ .null) :
    Best c (seen ++ [a]) (some (m.elim a fun x => if valueCompare a x = c then a else x)) := by
  cases m with
  | none => exact ⟨seen, [], rfl, hn, fun b hb' hbn => absurd (hb b hb') hbn, fun b hb => by cases hb⟩
  | some x =>
    obtain ⟨pre, post, he, hx, h1, h2⟩ := hb
    have hxp : x.plain := hs x (by rw [he]; simp)
    have hpre : ∀ b ∈ pre, b.plain := fun b hb => hs b (by rw [he]; simp [hb])
    have hpost : ∀ b ∈ post, b.plain := fun b hb => hs b (by rw [he]; simp [hb])
    have L := Query.valueCompare_laws
    have hsm := Query.valueCompare_small a x ha hxp
    simp only [Option.elim]
    by_cases hcx : valueCompare a x = c
    · rw [if_pos hcx]
      refine ⟨seen, [], rfl, hn, fun b hb hbn => ?_, fun b hb => by cases hb⟩
      have hbp := hs b hb
      have anti1 := L.anti x b hxp.ordered hbp.ordered
      have anti2 := L.anti b x hbp.ordered hxp.ordered
      have anti3 := L.anti a x ha.ordered hxp.ordered
      have anti4 := L.anti x a hxp.ordered ha.ordered
      have anti5 := L.anti a b ha.ordered hbp.ordered
      have anti6 := L.anti b a hbp.ordered ha.ordered
      have t1 := L.trans a b x ha.ordered hbp.ordered hxp.ordered
      have t2 := L.trans x b a hxp.ordered hbp.ordered ha.ordered
      have key : 0 ≤ c * valueCompare x b := by
        rw [he] at hb
        rcases List.mem_append.1 hb with hb | hb
        · exact Int.le_of_lt (h1 b hb hbn)
        rcases List.mem_cons.1 hb with rfl | hb
        · have := L.anti b b hxp.ordered hxp.ordered
          rcases hc with rfl | rfl <;> omega
        · have := h2 b hb hbn
          rcases hc with rfl | rfl <;> omega
      rcases hc with rfl | rfl <;> omega
    · rw [if_neg hcx]
      refine ⟨pre, post ++ [a], by rw [he]; simp, hx, h1, fun b hb hbn => ?_⟩
      rcases List.mem_append.1 hb with hb | hb
      · exact h2 b hb hbn
      · rw [List.mem_singleton.1 hb]
        rcases hc with rfl | rfl <;> omega

theorem best_null {c : Int} {seen : List Val} {m : Option Val} (hb : Best c seen m) : Best c (seen ++ [.null]) m := by
  cases m with
  | none => intro a ha; rcases List.mem_append.1 ha with h | h; exact hb a h; exact List.mem_singleton.1 h
  | some x =>
    obtain ⟨pre, post, he, hx, h1, h2⟩ := hb
    refine ⟨pre, post ++ [.null], by rw [he]; simp, hx, h1, fun b hb hbn => ?_⟩
    rcases List.mem_append.1 hb with hb | hb
    · exact h2 b hb hbn
    · exact absurd (List.mem_singleton.1 hb) hbn

theorem greatestLoop_best : ∀ (args seen : List Val) (m : Option Val), (∀ a ∈ seen, a.plain) → (∀ a ∈ args, a.plain) → Best 1 seen m →
    Best 1 (seen ++ args) (greatestLoop m args)
  | [], seen, m, _, _, h => by rw [List.append_nil]; exact h
  | a :: t, seen, m, hs, ha, h => by
    have hap := ha a (List.mem_cons_self ..)
    have hs' : ∀ b ∈ seen ++ [a], b.plain := fun b hb => by
      rcases List.mem_append.1 hb with hb | hb
      · exact hs b hb
      · rw [List.mem_singleton.1 hb]; exact hap
    have e : seen ++ a :: t = (seen ++ [a]) ++ t := by simp
    rw [greatestLoop, e]
    split
    · rename_i hn; subst hn
      exact greatestLoop_best t _ m hs' (fun b hb => ha b (List.mem_cons_of_mem _ hb)) (best_null h)
    · rename_i hn
      exact greatestLoop_best t _ _ hs' (fun b hb => ha b (List.mem_cons_of_mem _ hb)) (best_step (.inl rfl) hs hap h hn)

theorem leastLoop_best : ∀ (args seen : List Val) (m : Option Val), (∀ a ∈ seen, a.plain) → (∀ a ∈ args, a.plain) → Best (-1) seen m →
    Best (-1) (seen ++ args) (leastLoop m args)
  | [], seen, m, _, _, h => by rw [List.append_nil]; exact h
  | a :: t, seen, m, hs, ha, h => by
    have hap := ha a (List.mem_cons_self ..)
    have hs' : ∀ b ∈ seen ++ [a], b.plain := fun b hb => by
      rcases List.mem_append.1 hb with hb | hb
      · exact hs b hb
      · rw [List.mem_singleton.1 hb]; exact hap
    have e : seen ++ a :: t = (seen ++ [a]) ++ t := by simp
    rw [leastLoop, e]
    split
    · rename_i hn; subst hn
      exact leastLoop_best t _ m hs' (fun b hb => ha b (List.mem_cons_of_mem _ hb)) (best_null h)
    · rename_i hn
      exact leastLoop_best t _ _ hs' (fun b hb => ha b (List.mem_cons_of_mem _ hb)) (best_step (.inr rfl) hs hap h hn)

/-! ## C87 -/

/-- GREATEST of values of one type, without text and NaN: NULL if all are NULL; otherwise the first argument that no
argument is above -/
theorem C87_greatest_partial (t : Nat) (args : List Val) (ht : ∀ a ∈ args, OfType t a) (hp : ∀ a ∈ args, a.plain) :
    ((∀ a ∈ args, a = .null) → greatest args = .null) ∧
    (¬ (∀ a ∈ args, a = .null) → ∃ pre post, args = pre ++ greatest args :: post ∧ greatest args ≠ .null ∧
      (∀ a ∈ args, a ≠ .null → Le a (greatest args)) ∧ (∀ a ∈ pre, ¬ Le (greatest args) a)) := by
  have hb := greatestLoop_best args [] none (by simp) hp (by simp [Best])
  rw [List.nil_append] at hb
  unfold greatest
  cases hg : greatestLoop none args with
  | none => rw [hg] at hb; exact ⟨fun _ => rfl, fun h => absurd hb h⟩
  | some x =>
    rw [hg] at hb
    obtain ⟨pre, post, he, hx, h1, h2⟩ := hb
    have hm : x ∈ args := by rw [he]; simp
    have hxo := (hp x hm).ordered
    have hxt : x.typeNo = t := (ht x hm).resolve_left hx
    refine ⟨fun h => absurd (h x hm) hx, fun _ => ⟨pre, post, he, hx, fun a ha hn => ?_, fun a ha hl => ?_⟩⟩
    · have hat : a.typeNo = t := (ht a ha).resolve_left hn
      have hao := (hp a ha).ordered
      refine (compare_le hao hxo hn (by rw [hat, hxt])).1 ?_
      rw [he] at ha
      have anti := Query.valueCompare_laws.anti a x hao hxo
      have anti' := Query.valueCompare_laws.anti x a hxo hao
      rcases List.mem_append.1 ha with ha | ha
      · have := h1 a ha hn; omega
      rcases List.mem_cons.1 ha with rfl | ha
      · omega
      · have := h2 a ha hn; omega
    · have hn : a ≠ .null := by intro h; subst h; cases hl
      have ham : a ∈ args := by rw [he]; simp [ha]
      have hat : a.typeNo = t := (ht a ham).resolve_left hn
      have := (compare_le hxo (hp a ham).ordered hx (by rw [hat, hxt])).2 hl
      have := h1 a ha hn
      omega

/-- LEAST of values of one type, without text and NaN: NULL if all are NULL; otherwise the first argument that is above no
argument -/
theorem C87_least_partial (t : Nat) (args : List Val) (ht : ∀ a ∈ args, OfType t a) (hp : ∀ a ∈ args, a.plain) :
    ((∀ a ∈ args, a = .null) → least args = .null) ∧
    (¬ (∀ a ∈ args, a = .null) → ∃ pre post, args = pre ++ least args :: post ∧ least args ≠ .null ∧
      (∀ a ∈ args, a ≠ .null → Le (least args) a) ∧ (∀ a ∈ pre, ¬ Le a (least args))) := by
  have hb := leastLoop_best args [] none (by simp) hp (by simp [Best])
  rw [List.nil_append] at hb
  unfold least
  cases hg : leastLoop none args with
  | none => rw [hg] at hb; exact ⟨fun _ => rfl, fun h => absurd hb h⟩
  | some x =>
    rw [hg] at hb
    obtain ⟨pre, post, he, hx, h1, h2⟩ := hb
    have hm : x ∈ args := by rw [he]; simp
    have hxo := (hp x hm).ordered
    have hxt : x.typeNo = t := (ht x hm).resolve_left hx
    refine ⟨fun h => absurd (h x hm) hx, fun _ => ⟨pre, post, he, hx, fun a ha hn => ?_, fun a ha hl => ?_⟩⟩
    · have hat : a.typeNo = t := (ht a ha).resolve_left hn
      have hao := (hp a ha).ordered
      refine (compare_le hxo hao hx (by rw [hat, hxt])).1 ?_
      rw [he] at ha
      have anti := Query.valueCompare_laws.anti a x hao hxo
      have anti' := Query.valueCompare_laws.anti x a hxo hao
      rcases List.mem_append.1 ha with ha | ha
      · have := h1 a ha hn; omega
      rcases List.mem_cons.1 ha with rfl | ha
      · omega
      · have := h2 a ha hn; omega
    · have hn : a ≠ .null := by intro h; subst h; cases hl
      have ham : a ∈ args := by rw [he]; simp [ha]
      have hat : a.typeNo = t := (ht a ham).resolve_left hn
      have hao := (hp a ham).ordered
      have := (compare_le hao hxo hn (by rw [hat, hxt])).2 hl
      have := h1 a ha hn
      have anti' := Query.valueCompare_laws.anti x a hxo hao
      omega

example : greatest [.null, .int 3, .int 9, .null, .int 9, .int (-4)] = .int 9 ∧ least [.null, .int 3, .int (-4)] = .int (-4) := by decide
example : (∀ a ∈ [Val.null, .int 3, .int 9], OfType 2 a) ∧ (∀ a ∈ [Val.null, .int 3, .int 9], a.plain) ∧ ¬ (∀ a ∈ [Val.null, .int 3, .int 9], a = .null) := by
  refine ⟨?_, ?_, by decide⟩ <;> simp [OfType, Val.typeNo, Val.plain]

/-- COALESCE is its first argument that is not NULL, for values of any type -/
theorem C87_coalesce (args : List Val) :
    ((∀ a ∈ args, a = .null) → coalesce args = .null) ∧
    ∀ pre x post, args = pre ++ x :: post → (∀ a ∈ pre, a = .null) → x ≠ .null → coalesce args = x := by
  induction args with
  | nil => exact ⟨fun _ => rfl, fun pre x post h => by simp at h⟩
  | cons a t ih =>
    constructor
    · intro h
      rw [coalesce, if_pos (h a (List.mem_cons_self ..))]
      exact ih.1 fun b hb => h b (List.mem_cons_of_mem _ hb)
    · intro pre x post h hn hx
      cases pre with
      | nil => simp only [List.nil_append, List.cons.injEq] at h; obtain ⟨rfl, rfl⟩ := h; rw [coalesce, if_neg hx]
      | cons b pre =>
        simp only [List.cons_append, List.cons.injEq] at h
        obtain ⟨rfl, rfl⟩ := h
        rw [coalesce, if_pos (hn a (List.mem_cons_self ..))]
        exact ih.2 pre x post rfl (fun c hc => hn c (List.mem_cons_of_mem _ hc)) hx

example : coalesce [.null, .str [97], .int 2] = .str [97] := by decide

theorem compare_zero {a b : Val} (ha : a.ordered) (hb : b.ordered) : valueCompare a b = 0 ↔ (a = .null ∧ b = .null) ∨ (Le a b ∧ Le b a) := by
  have h1 := Query.valueCompare_laws.anti a b ha hb
  have h2 := Query.valueCompare_laws.anti b a hb ha
  by_cases ht : a.typeNo = b.typeNo
  · by_cases hn : a = .null
    · subst hn
      cases b <;> simp only [Val.typeNo] at ht <;> first | omega | skip
      simp [valueCompare]
    · have hbn : b ≠ .null := by intro h; subst h; cases a <;> simp [Val.typeNo] at ht hn
      rw [← compare_le ha hb hn ht, ← compare_le hb ha hbn ht.symm]
      constructor
      · intro h; right; omega
      · rintro (⟨h, _⟩ | ⟨h, h'⟩)
        · exact absurd h hn
        · omega
  · constructor
    · intro h; exfalso
      cases a <;> cases b <;> first | exact ht rfl | (simp [valueCompare, Val.typeNo] at h)
    · rintro (⟨rfl, rfl⟩ | ⟨h, _⟩)
      · exact absurd rfl ht
      · exfalso; cases h <;> exact ht rfl

/-- NULLIF is NULL if the arguments are equal (as values of one type, or both NULL) and the first argument otherwise; except for
NaN. -/
theorem C87_nullif_partial (a b : Val) (ha : a.ordered) (hb : b.ordered) :
    ((a = .null ∧ b = .null) ∨ (Le a b ∧ Le b a) → nullif [a, b] = .ok .null) ∧
    (¬ ((a = .null ∧ b = .null) ∨ (Le a b ∧ Le b a)) → nullif [a, b] = .ok a) := by
  constructor
  · intro h; rw [nullif, if_pos ((compare_zero ha hb).2 h)]
  · intro h; rw [nullif, if_neg (fun g => h ((compare_zero ha hb).1 g))]

example : nullif [.str [97, 98], .str [97, 98]] = .ok .null ∧ nullif [.str [97, 98], .str [97]] = .ok (.str [97, 98]) := ⟨rfl, rfl⟩

/-- ABS, SIGN and MOD of integers (MOD: of the sign of the first argument), except where the machine has no result; a divisor of
zero is an error -/
theorem C87_integers_partial (i j : Int) :
    (i ≠ -2 ^ 63 → abs [.int i] = .ok (.int i.natAbs)) ∧ sign [.int i] = .ok (.int i.sign) ∧
    (j = 0 → mod [.int i, .int j] = .error .err) ∧
    (j ≠ 0 → ¬ (i = -2 ^ 63 ∧ j = -1) → ∃ q r : Int, mod [.int i, .int j] = .ok (.int r) ∧ i = q * j + r ∧ r.natAbs < j.natAbs ∧ 0 ≤ i * r) := by
  refine ⟨fun h => ?_, ?_, fun h => ?_, fun h h' => ⟨Int.tdiv i j, Int.tmod i j, ?_, ?_, ?_, ?_⟩⟩
  · rw [abs, if_neg h]; congr 2; split <;> omega
  · rw [sign]; congr 2
    split
    · rw [Int.sign_eq_one_of_pos (by omega)]
    · split
      · rw [Int.sign_eq_neg_one_of_neg (by omega)]
      · rw [show i = 0 by omega]; rfl
  · rw [mod, if_pos h]
  · rw [mod, if_neg h, if_neg h']
  · rw [Int.mul_comm]; exact (Int.mul_tdiv_add_tmod i j).symm
  · have := Int.natAbs_tmod i j
    rw [this]; exact Nat.mod_lt _ (by omega)
  · rcases Int.le_total 0 i with hi | hi
    · exact Int.mul_nonneg hi (Int.tmod_nonneg j hi)
    · have h1 := Int.tmod_nonneg (a := -i) j (by omega)
      rw [Int.neg_tmod] at h1
      exact Int.mul_nonneg_of_nonpos_of_nonpos hi (by omega)

/-! ## What is not so -/

/-- C87: the sign of a double is that of the number; of one that is not a number, 0 -/
theorem C87_sign_double (b : Nat) : sign [.dbl b] = .ok (.int (if isNaN b then 0 else (Verif.Query.dblNum b).sign)) := by
  have hz : ¬ isNaN 0 := by decide
  have hz0 : Verif.Query.dblNum 0 = 0 := by decide
  rw [sign]
  unfold above0 below0
  by_cases hb : isNaN b
  · simp [Verif.Query.cmpD, hb]
  · have h1 := Verif.Query.key_num 0 b
    have h2 := Verif.Query.key_num b 0
    rw [hz0] at h1 h2
    have hc : Verif.Query.cmpD b 0 = Verif.Query.cmpI (dblKey b) (dblKey 0) := by rw [Verif.Query.cmpD, if_neg (by simp [hb, hz])]
    rw [hc, if_neg hb]
    congr 2
    simp only [decide_eq_true_eq, Verif.Query.cmpI_pos', Verif.Query.cmpI_neg', h1, h2]
    split
    · rw [Int.sign_eq_one_of_pos (by omega)]
    · split
      · rw [Int.sign_eq_neg_one_of_neg (by omega)]
      · rw [show Verif.Query.dblNum b = 0 by omega]; rfl

/-- GREATEST and LEAST of text look for a result of 1 or -1 of a comparison that returns a difference of bytes: GREATEST('a', 'c') is
'a', LEAST('c', 'a') is 'c' -/
theorem C87_text_false : greatest [.str [97], .str [99]] = .str [97] ∧ least [.str [99], .str [97]] = .str [99] := by decide

/-- NaN is equal to every number for NULLIF: NULLIF(NaN, 1.0) is NULL; and FMOD makes NaN, since it takes -0.0 for a divisor -/
theorem C87_nan_false (fm : Nat → Nat → Nat) : nullif [.dbl 0x7FF8000000000000, .dbl 0x3FF0000000000000] = .ok .null ∧
    fmod fm [.dbl 0x3FF0000000000000, .dbl 0x8000000000000000] = .ok (.dbl (fm 0x3FF0000000000000 0x8000000000000000)) := by
  exact ⟨rfl, rfl⟩

/-- ABS of the least integer has no result, and MOD of it by -1 stops the server -/
theorem C87_trap_false : abs [.int (-2 ^ 63)] = .error .trap ∧ mod [.int (-2 ^ 63), .int (-1)] = .error .trap := ⟨rfl, rfl⟩

end Verif.Func.Choose
