import Verif.Index.TreeProofs
/-!
# Values of the query engine and their order

vm/value/value.h, vm/value/compare.h, runtime/lib/misc.h, runtime/lib/uuid.h, runtime/lib/interval.c, runtime/base/str.h.
JSON and vector values are not modelled here (JSON comparison is in `Verif.Json`).
-/
set_option linter.unusedSimpArgs false
namespace Verif.Query
open Verif.Index (CmpLaws Normal)

/-- Value, vm/value/value.h:15-39: the column types that can be sorted and grouped. `dbl` holds the 64 bits of the
IEEE double; strings are byte lists. -/
inductive Val where
  | null
  | bool (i : Int)
  | int (i : Int)
  | dbl (bits : Nat)
  | str (s : List Nat)
  | date (i : Int)
  | timestamp (i : Int)
  | interval (m d us : Int)
  | uuid (a b : Nat)
deriving DecidableEq, Repr

/-- db/row/type.h:15-36 (the order of the enum) -/
def Val.typeNo : Val → Nat
  | .null => 0 | .bool _ => 1 | .int _ => 2 | .dbl _ => 3 | .str _ => 4
  | .date _ => 6 | .timestamp _ => 7 | .interval _ _ _ => 8 | .uuid _ _ => 10

/-- compare_int64, compare_uint64: runtime/lib/misc.h:20-30 -/
def cmpI (a b : Int) : Int := if b < a then 1 else if a < b then -1 else 0

/-- the order of doubles by their bits: sign and magnitude (so `-0.0` and `0.0` are the same number) -/
def dblKey (bits : Nat) : Int := if bits / 2 ^ 63 % 2 = 1 then -((bits % 2 ^ 63 : Nat) : Int) else ((bits % 2 ^ 63 : Nat) : Int)

/-- not a number: exponent all ones and a fraction -/
def isNaN (bits : Nat) : Prop := 0x7FF0000000000000 < bits % 2 ^ 63
instance : Decidable (isNaN b) := by unfold isNaN; infer_instance

/-- compare_double, runtime/lib/misc.h:38-42: `(a > b) - (a < b)`, both false if one is not a number -/
def cmpD (a b : Nat) : Int := if isNaN a ∨ isNaN b then 0 else cmpI (dblKey a) (dblKey b)

/-- str_compare_fn, runtime/base/str.h:169-183: the result of memcmp (here the difference of the first differing
bytes; memcmp may return any value of that sign), then the lengths -/
def cmpS : List Nat → List Nat → Int
  | [], [] => 0
  | [], _ :: _ => -1
  | _ :: _, [] => 1
  | a :: as, b :: bs => if a = b then cmpS as bs else (a : Int) - b

/-- value_compare, vm/value/compare.h:47-84 -/
def valueCompare (a b : Val) : Int :=
  match a, b with
  | .null, .null => 0
  | .bool x, .bool y => cmpI x y
  | .int x, .int y => cmpI x y
  | .date x, .date y => cmpI x y
  | .timestamp x, .timestamp y => cmpI x y
  | .dbl x, .dbl y => cmpD x y
  | .str x, .str y => cmpS x y
  | .interval m d u, .interval m' d' u' =>
      if cmpI m m' ≠ 0 then cmpI m m' else if cmpI d d' ≠ 0 then cmpI d d' else cmpI u u'
  | .uuid x y, .uuid x' y' => if cmpI x x' ≠ 0 then cmpI x x' else cmpI y y'
  | a, b => if b.typeNo < a.typeNo then 1 else -1

/-- store_compare, vm/value/compare.h:86-98: the keys of two rows, `order` true for ascending -/
def keysCompare : List Bool → List Val → List Val → Int
  | [], _, _ => 0
  | asc :: order, a, b =>
    if valueCompare (a.headD .null) (b.headD .null) ≠ 0 then
      if asc then valueCompare (a.headD .null) (b.headD .null) else - valueCompare (a.headD .null) (b.headD .null)
    else keysCompare order a.tail b.tail

/-! ## The values these comparisons order properly -/

/-- anything but NaN -/
def Val.ordered : Val → Prop
  | .dbl b => ¬ isNaN b
  | _ => True

/-- a value whose comparison returns only -1, 0 and 1: neither NaN nor text -/
def Val.plain : Val → Prop
  | .dbl b => ¬ isNaN b
  | .str _ => False
  | _ => True

theorem Val.plain.ordered {v : Val} (h : v.plain) : v.ordered := by cases v <;> simp_all [Val.plain, Val.ordered]

/-! ## Laws -/

def lexI : List Int → List Int → Int
  | [], [] => 0
  | [], _ :: _ => -1
  | _ :: _, [] => 1
  | a :: as, b :: bs => if b < a then 1 else if a < b then -1 else lexI as bs

theorem lexI_anti (a b : List Int) : lexI a b = - lexI b a := by
  induction a generalizing b with
  | nil => cases b <;> simp [lexI]
  | cons x a ih =>
    cases b with
    | nil => simp [lexI]
    | cons y b =>
      simp only [lexI]
      rcases Int.lt_trichotomy x y with h | h | h
      · rw [if_neg (by omega), if_pos h, if_pos h]
      · subst h; simp [ih b]
      · rw [if_pos h, if_neg (by omega), if_pos h]; simp

theorem lexI_trans (a b c : List Int) (h1 : lexI a b ≤ 0) (h2 : lexI b c ≤ 0) : lexI a c ≤ 0 := by
  induction a generalizing b c with
  | nil => cases c <;> simp [lexI]
  | cons x a ih =>
    cases b with
    | nil => simp [lexI] at h1
    | cons y b =>
      cases c with
      | nil => simp [lexI] at h2
      | cons z c =>
        simp only [lexI] at *
        rcases Int.lt_trichotomy x y with h | h | h
        · rcases Int.lt_trichotomy y z with h' | h' | h'
          · rw [if_neg (by omega), if_pos (by omega)]; omega
          · subst h'; rw [if_neg (by omega), if_pos h]; omega
          · rw [if_pos h'] at h2; omega
        · subst h
          rcases Int.lt_trichotomy x z with h' | h' | h'
          · rw [if_neg (by omega), if_pos h']; omega
          · subst h'; simp at h1 h2 ⊢; exact ih b c h1 h2
          · rw [if_pos h'] at h2; omega
        · rw [if_pos h] at h1; omega

/-- same sign -/
def Sgn (x y : Int) : Prop := (x < 0 ↔ y < 0) ∧ (0 < x ↔ 0 < y)

theorem cmpI_lex (x y : Int) : cmpI x y = lexI [x] [y] := by simp [cmpI, lexI]

theorem cmpS_lex (a b : List Nat) : Sgn (cmpS a b) (lexI (a.map Int.ofNat) (b.map Int.ofNat)) := by
  induction a generalizing b with
  | nil => cases b <;> simp [cmpS, lexI, Sgn]
  | cons x a ih =>
    cases b with
    | nil => simp [cmpS, lexI, Sgn]
    | cons y b =>
      simp only [cmpS, lexI, List.map_cons, Int.ofNat_eq_natCast]
      by_cases h : x = y
      · subst h; simpa using ih b
      · rw [if_neg h]
        unfold Sgn
        split
        · omega
        · split
          · omega
          · omega

/-- the order as a list of integers: the type, then the value -/
def vkey : Val → List Int
  | .null => [0]
  | .bool i => [1, i]
  | .int i => [2, i]
  | .dbl b => [3, dblKey b]
  | .str s => 4 :: s.map Int.ofNat
  | .date i => [6, i]
  | .timestamp i => [7, i]
  | .interval m d us => [8, m, d, us]
  | .uuid a b => [10, a, b]

theorem lexI_cons_eq (x : Int) (a b : List Int) : lexI (x :: a) (x :: b) = lexI a b := by simp [lexI]

theorem lex3 (m m' d d' u u' : Int) : (if cmpI m m' ≠ 0 then cmpI m m' else if cmpI d d' ≠ 0 then cmpI d d' else cmpI u u')
    = lexI [m, d, u] [m', d', u'] := by
  simp only [cmpI, lexI]
  split <;> split <;> simp_all
  all_goals (split <;> split <;> simp_all)

theorem lex2 (m m' d d' : Int) : (if cmpI m m' ≠ 0 then cmpI m m' else cmpI d d') = lexI [m, d] [m', d'] := by
  simp only [cmpI, lexI]
  split <;> split <;> simp_all

theorem valueCompare_key (a b : Val) (ha : a.ordered) (hb : b.ordered) : Sgn (valueCompare a b) (lexI (vkey a) (vkey b)) := by
  cases a <;> cases b
  all_goals (first
    | (simp only [valueCompare, vkey, Val.typeNo, lexI, Sgn]; decide)
    | (simp [valueCompare, vkey, Val.typeNo, lexI, Sgn]; done)
    | skip)
  · rw [valueCompare, vkey, vkey, lexI_cons_eq, ← cmpI_lex]; exact ⟨Iff.rfl, Iff.rfl⟩
  · rw [valueCompare, vkey, vkey, lexI_cons_eq, ← cmpI_lex]; exact ⟨Iff.rfl, Iff.rfl⟩
  · rename_i x y
    simp only [Val.ordered] at ha hb
    rw [valueCompare, vkey, vkey, lexI_cons_eq, ← cmpI_lex, cmpD, if_neg (by simp [ha, hb])]
    exact ⟨Iff.rfl, Iff.rfl⟩
  · rw [valueCompare, vkey, vkey, lexI_cons_eq]; exact cmpS_lex _ _
  · rw [valueCompare, vkey, vkey, lexI_cons_eq, ← cmpI_lex]; exact ⟨Iff.rfl, Iff.rfl⟩
  · rw [valueCompare, vkey, vkey, lexI_cons_eq, ← cmpI_lex]; exact ⟨Iff.rfl, Iff.rfl⟩
  · rw [valueCompare, vkey, vkey, lexI_cons_eq, lex3]; exact ⟨Iff.rfl, Iff.rfl⟩
  · rw [valueCompare, vkey, vkey, lexI_cons_eq, lex2]; exact ⟨Iff.rfl, Iff.rfl⟩

/-- the comparison orders the elements satisfying `P` -/
structure LawsOn {A : Type} (P : A → Prop) (c : A → A → Int) : Prop where
  anti : ∀ a b, P a → P b → (c a b < 0 ↔ 0 < c b a)
  trans : ∀ a b d, P a → P b → P d → c a b ≤ 0 → c b d ≤ 0 → c a d ≤ 0

theorem LawsOn.subtype {A : Type} {P : A → Prop} {c : A → A → Int} (L : LawsOn P c) :
    CmpLaws (fun (a b : {a // P a}) => c a.1 b.1) :=
  ⟨fun a b => L.anti _ _ a.2 b.2, fun a b d => L.trans _ _ _ a.2 b.2 d.2⟩

theorem valueCompare_laws : LawsOn Val.ordered valueCompare := by
  constructor
  · intro a b ha hb
    have h1 := valueCompare_key a b ha hb
    have h2 := valueCompare_key b a hb ha
    have := lexI_anti (vkey a) (vkey b)
    unfold Sgn at h1 h2; omega
  · intro a b d ha hb hd h1 h2
    have k1 := valueCompare_key a b ha hb
    have k2 := valueCompare_key b d hb hd
    have k3 := valueCompare_key a d ha hd
    unfold Sgn at k1 k2 k3
    have := lexI_trans (vkey a) (vkey b) (vkey d) (by omega) (by omega)
    omega

def RowOrdered (r : List Val) : Prop := ∀ v ∈ r, v.ordered
def RowPlain (r : List Val) : Prop := ∀ v ∈ r, v.plain

theorem headD_ordered {r : List Val} (h : RowOrdered r) : (r.headD .null).ordered := by
  cases r with
  | nil => trivial
  | cons v r => exact h v (by simp)
theorem tail_ordered {r : List Val} (h : RowOrdered r) : RowOrdered r.tail := fun v hv => h v (List.mem_of_mem_tail hv)
theorem headD_plain {r : List Val} (h : RowPlain r) : (r.headD .null).plain := by
  cases r with
  | nil => trivial
  | cons v r => exact h v (by simp)
theorem tail_plain {r : List Val} (h : RowPlain r) : RowPlain r.tail := fun v hv => h v (List.mem_of_mem_tail hv)

theorem keysCompare_laws (order : List Bool) : LawsOn RowOrdered (keysCompare order) := by
  induction order with
  | nil => exact ⟨fun _ _ _ _ => by simp [keysCompare], fun _ _ _ _ _ _ _ _ => by simp [keysCompare]⟩
  | cons asc order ih =>
    constructor
    · intro a b ha hb
      have h1 := valueCompare_laws.anti _ _ (headD_ordered ha) (headD_ordered hb)
      have h2 := valueCompare_laws.anti _ _ (headD_ordered hb) (headD_ordered ha)
      have h3 := ih.anti _ _ (tail_ordered ha) (tail_ordered hb)
      simp only [keysCompare]
      generalize valueCompare (a.headD .null) (b.headD .null) = x at *
      generalize valueCompare (b.headD .null) (a.headD .null) = y at *
      by_cases hx : x = 0
      · have hy : y = 0 := by omega
        simp [hx, hy, h3]
      · have hy : y ≠ 0 := by omega
        simp only [ne_eq, hx, hy, not_false_eq_true, if_true]
        cases asc <;> simp <;> omega
    · intro a b d ha hb hd
      have h1 := valueCompare_laws.anti _ _ (headD_ordered ha) (headD_ordered hb)
      have h2 := valueCompare_laws.anti _ _ (headD_ordered hb) (headD_ordered ha)
      have h3 := valueCompare_laws.anti _ _ (headD_ordered hb) (headD_ordered hd)
      have h4 := valueCompare_laws.anti _ _ (headD_ordered hd) (headD_ordered hb)
      have h5 := valueCompare_laws.anti _ _ (headD_ordered ha) (headD_ordered hd)
      have h6 := valueCompare_laws.anti _ _ (headD_ordered hd) (headD_ordered ha)
      have t1 := valueCompare_laws.trans _ _ _ (headD_ordered ha) (headD_ordered hb) (headD_ordered hd)
      have t2 := valueCompare_laws.trans _ _ _ (headD_ordered hd) (headD_ordered hb) (headD_ordered ha)
      have t3 := valueCompare_laws.trans _ _ _ (headD_ordered hb) (headD_ordered hd) (headD_ordered ha)
      have t4 := valueCompare_laws.trans _ _ _ (headD_ordered hd) (headD_ordered ha) (headD_ordered hb)
      have t5 := valueCompare_laws.trans _ _ _ (headD_ordered ha) (headD_ordered hd) (headD_ordered hb)
      have t6 := valueCompare_laws.trans _ _ _ (headD_ordered hb) (headD_ordered ha) (headD_ordered hd)
      have h7 := ih.trans _ _ _ (tail_ordered ha) (tail_ordered hb) (tail_ordered hd)
      simp only [keysCompare]
      generalize valueCompare (a.headD .null) (b.headD .null) = x at *
      generalize valueCompare (b.headD .null) (a.headD .null) = x' at *
      generalize valueCompare (b.headD .null) (d.headD .null) = y at *
      generalize valueCompare (d.headD .null) (b.headD .null) = y' at *
      generalize valueCompare (a.headD .null) (d.headD .null) = z at *
      generalize valueCompare (d.headD .null) (a.headD .null) = z' at *
      by_cases hx : x = 0
      · by_cases hy : y = 0
        · have hz : z = 0 := by omega
          simpa [hx, hy, hz] using h7
        · have hz : z ≠ 0 := by omega
          simp only [hx, hy, hz, ne_eq, not_true_eq_false, not_false_eq_true, if_true, if_false]
          cases asc <;> simp <;> omega
      · by_cases hy : y = 0
        · have hz : z ≠ 0 := by omega
          simp only [hx, hy, hz, ne_eq, not_true_eq_false, not_false_eq_true, if_true, if_false]
          cases asc <;> simp <;> omega
        · simp only [hx, hy, ne_eq, not_true_eq_false, not_false_eq_true, if_true, if_false]
          cases asc <;> simp <;> intro p q <;> (rw [if_neg (by omega)]; omega)

theorem cmpI_small (x y : Int) : cmpI x y = 1 ∨ cmpI x y = 0 ∨ cmpI x y = -1 := by
  unfold cmpI; split
  · simp
  · split <;> simp

theorem valueCompare_small (a b : Val) (ha : a.plain) (hb : b.plain) :
    valueCompare a b = 1 ∨ valueCompare a b = 0 ∨ valueCompare a b = -1 := by
  cases a <;> cases b
  all_goals (first
    | (simp [valueCompare, Val.typeNo]; done)
    | exact cmpI_small _ _
    | (simp [Val.plain] at ha; done)
    | (simp [Val.plain] at hb; done)
    | skip)
  · simp only [valueCompare, cmpD]; split
    · simp
    · exact cmpI_small _ _
  · simp only [valueCompare]; split
    · exact cmpI_small _ _
    · split <;> exact cmpI_small _ _
  · simp only [valueCompare]; split <;> exact cmpI_small _ _

theorem keysCompare_small (order : List Bool) : ∀ (a b : List Val), RowPlain a → RowPlain b →
    keysCompare order a b = 1 ∨ keysCompare order a b = 0 ∨ keysCompare order a b = -1 := by
  induction order with
  | nil => intro a b _ _; simp [keysCompare]
  | cons asc order ih =>
    intro a b ha hb
    have h := valueCompare_small _ _ (headD_plain ha) (headD_plain hb)
    simp only [keysCompare]
    generalize valueCompare (a.headD .null) (b.headD .null) = x at *
    split
    · cases asc <;> simp <;> omega
    · exact ih _ _ (tail_plain ha) (tail_plain hb)

theorem RowPlain.ordered {r : List Val} (h : RowPlain r) : RowOrdered r := fun v hv => (h v hv).ordered

end Verif.Query
