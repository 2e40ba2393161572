import Verif.Query.Logic
/-!
# Conditions have their SQL meaning (C64, C65)
-/
set_option linter.unusedSimpArgs false
set_option linter.unusedVariables false
namespace Verif.Query

/-! ## Specification: three-valued logic -/

inductive T3 where
  | t | f | u
deriving DecidableEq, Repr

def T3.and : T3 → T3 → T3
  | .f, _ => .f
  | _, .f => .f
  | .t, .t => .t
  | _, _ => .u
def T3.or : T3 → T3 → T3
  | .t, _ => .t
  | _, .t => .t
  | .f, .f => .f
  | _, _ => .u
def T3.not : T3 → T3
  | .t => .f
  | .f => .t
  | .u => .u
def T3.ofBool (b : Bool) : T3 := if b then .t else .f

/-- a boolean column or expression -/
def IsBool (v : Val) : Prop := v = .null ∨ v = .bool 0 ∨ v = .bool 1

/-- the truth value a boolean or NULL stands for -/
def T3.of (v : Val) : T3 := if v = .null then .u else T3.ofBool (valueIsTrue v)

/-- the SQL value of a condition -/
def Cond.sql {R : Type} : Cond R → R → T3
  | .atom f, r => T3.of (f r)
  | .and a b, r => (a.sql r).and (b.sql r)
  | .or a b, r => (a.sql r).or (b.sql r)
  | .not a, r => (a.sql r).not

/-- NOT stands only in front of conditions without AND, OR and NOT -/
def Cond.notsInside {R : Type} : Cond R → Prop
  | .atom _ => True
  | .and a b => a.notsInside ∧ b.notsInside
  | .or a b => a.notsInside ∧ b.notsInside
  | .not a => ∃ f, a = .atom f

def Cond.atoms {R : Type} : Cond R → List (R → Val)
  | .atom f => [f]
  | .and a b => a.atoms ++ b.atoms
  | .or a b => a.atoms ++ b.atoms
  | .not a => a.atoms

/-- a comparison of SQL: unknown if an operand is NULL, otherwise by the order of the values -/
def sqlCmp (op : CmpOp) (a b : Val) : T3 := if a = .null ∨ b = .null then .u else T3.ofBool (op.test (valueCompare a b))

/-- `a op ANY (l)`: the OR of the comparisons; `a op ALL (l)`: the AND of them; IN is `= ANY` -/
def sqlAny (op : CmpOp) (a : Val) (l : List Val) : T3 := l.foldr (fun v acc => (sqlCmp op a v).or acc) .f
def sqlAll (op : CmpOp) (a : Val) (l : List Val) : T3 := l.foldr (fun v acc => (sqlCmp op a v).and acc) .t
def InItem.vals : InItem → List Val
  | .val v => [v]
  | .rows l => l
def sqlIn (a : Val) (l : List InItem) : T3 := sqlAny .equ a (l.flatMap InItem.vals)

/-! ## C65 -/

theorem isTrue_vbool (b : Bool) : valueIsTrue (vbool b) = b := by cases b <;> rfl
theorem vbool_ne (b : Bool) : vbool b ≠ .null := by cases b <;> simp [vbool]
theorem of_vbool (b : Bool) : T3.of (vbool b) = T3.ofBool b := by simp [T3.of, vbool_ne, isTrue_vbool]
theorem isTrue_of (v : Val) : valueIsTrue v = true ↔ T3.of v = .t := by
  unfold T3.of
  split
  · rename_i h; subst h; simp [valueIsTrue]
  · cases valueIsTrue v <;> simp [T3.ofBool]

theorem isTrue_and (a b : Val) : valueIsTrue (vAnd a b) = (valueIsTrue a && valueIsTrue b) := by
  unfold vAnd
  split
  · rename_i h; rcases h with rfl | rfl <;> simp [valueIsTrue]
  · rw [isTrue_vbool]
theorem isTrue_or (a b : Val) : valueIsTrue (vOr a b) = (valueIsTrue a || valueIsTrue b) := by
  unfold vOr
  split
  · rename_i h; rw [h.1, h.2]; rfl
  · rw [isTrue_vbool]

theorem t3_and_t (a b : T3) : a.and b = .t ↔ a = .t ∧ b = .t := by cases a <;> cases b <;> simp [T3.and]
theorem t3_or_t (a b : T3) : a.or b = .t ↔ a = .t ∨ b = .t := by cases a <;> cases b <;> simp [T3.or]

/-- **C65** (conditions in which NOT is not applied to AND or OR): WHERE selects exactly the rows for which the condition
is true in SQL's three-valued logic -/
theorem C65_where_partial {R : Type} (c : Cond R) (hn : c.notsInside) (r : R) : c.selects r = true ↔ c.sql r = .t := by
  unfold Cond.selects
  induction c with
  | atom f => exact isTrue_of _
  | and a b iha ihb =>
    rw [Cond.eval, isTrue_and, Bool.and_eq_true, iha hn.1, ihb hn.2, Cond.sql, t3_and_t]
  | or a b iha ihb =>
    rw [Cond.eval, isTrue_or, Bool.or_eq_true, iha hn.1, ihb hn.2, Cond.sql, t3_or_t]
  | not a =>
    obtain ⟨f, rfl⟩ := hn
    show valueIsTrue (vNot (f r)) = true ↔ (T3.of (f r)).not = .t
    generalize f r = v
    by_cases h : v = .null
    · subst h; simp [vNot, T3.of, valueIsTrue, T3.not]
    · simp only [vNot, T3.of, h, if_false, isTrue_vbool]
      cases valueIsTrue v <;> simp [T3.ofBool, T3.not]

/-- **C65** without NULLs: every condition has its SQL value -/
theorem C65_no_nulls_partial {R : Type} (c : Cond R) (r : R) (h : ∀ f ∈ c.atoms, f r ≠ .null) :
    T3.of (c.eval r) = c.sql r ∧ c.eval r ≠ .null := by
  induction c with
  | atom f => exact ⟨rfl, h f (by simp [Cond.atoms])⟩
  | and a b iha ihb =>
    obtain ⟨e1, n1⟩ := iha (fun f hf => h f (by simp [Cond.atoms, hf]))
    obtain ⟨e2, n2⟩ := ihb (fun f hf => h f (by simp [Cond.atoms, hf]))
    simp only [Cond.eval, Cond.sql, vAnd, n1, n2, or_self, if_false, of_vbool, ← e1, ← e2]
    refine ⟨?_, vbool_ne _⟩
    simp only [T3.of, n1, n2, if_false]
    cases valueIsTrue (a.eval r) <;> cases valueIsTrue (b.eval r) <;> rfl
  | or a b iha ihb =>
    obtain ⟨e1, n1⟩ := iha (fun f hf => h f (by simp [Cond.atoms, hf]))
    obtain ⟨e2, n2⟩ := ihb (fun f hf => h f (by simp [Cond.atoms, hf]))
    simp only [Cond.eval, Cond.sql, vOr, n1, n2, and_self, if_false, of_vbool, ← e1, ← e2]
    refine ⟨?_, vbool_ne _⟩
    simp only [T3.of, n1, n2, if_false]
    cases valueIsTrue (a.eval r) <;> cases valueIsTrue (b.eval r) <;> rfl
  | not a iha =>
    obtain ⟨e1, n1⟩ := iha (fun f hf => h f (by simpa [Cond.atoms] using hf))
    simp only [Cond.eval, Cond.sql, vNot, n1, if_false, of_vbool, ← e1]
    refine ⟨?_, vbool_ne _⟩
    simp only [T3.of, n1, if_false]
    cases valueIsTrue (a.eval r) <;> rfl

/-- **C65 fails** for NOT over OR: `NOT (x = 1 OR y = 2)` with x NULL and y = 3 is unknown, but the row is selected;
and for NOT over AND: `NOT (x = 1 AND y = 2)` is true, but the row is not selected. -/
theorem C65_not_false : ∃ (x y : Val × Val → Val) (r : Val × Val),
    (let c : Cond (Val × Val) := .not (.or (.atom x) (.atom y)); c.selects r = true ∧ c.sql r = .u) ∧
    (let c : Cond (Val × Val) := .not (.and (.atom x) (.atom y)); c.selects r = false ∧ c.sql r = .t) :=
  ⟨fun r => vCmp .equ r.1 (.int 1), fun r => vCmp .equ r.2 (.int 2), (.null, .int 3), by decide, by decide⟩

/-- the same for `x NOT BETWEEN lo AND hi` with an unknown bound: 10 is not between NULL and 5 -/
theorem C65_between_false : T3.of (vNotBetween (.int 10) .null (.int 5)) = .u ∧
    ((sqlCmp .gte (.int 10) .null).and (sqlCmp .lte (.int 10) (.int 5))).not = .t := by decide

/-- **C65** BETWEEN selects exactly the values from `lo` to `hi`, both included -/
theorem C65_between (a lo hi : Val) : valueIsTrue (vBetween a lo hi) = true ↔
    a ≠ .null ∧ lo ≠ .null ∧ hi ≠ .null ∧ 0 ≤ valueCompare a lo ∧ valueCompare a hi ≤ 0 := by
  rw [vBetween, isTrue_and, Bool.and_eq_true]
  have h : ∀ (op : CmpOp) (x y : Val), valueIsTrue (vCmp op x y) = true ↔ x ≠ .null ∧ y ≠ .null ∧ op.test (valueCompare x y) = true := by
    intro op x y
    unfold vCmp
    by_cases hx : x = .null
    · simp [hx, valueIsTrue]
    · by_cases hy : y = .null
      · simp [hy, valueIsTrue]
      · simp [hx, hy, isTrue_vbool]
  rw [h, h]
  simp only [CmpOp.test, decide_eq_true_eq]
  constructor
  · rintro ⟨⟨h1, h2, h3⟩, -, h4, h5⟩; exact ⟨h1, h2, h4, h3, h5⟩
  · rintro ⟨h1, h2, h4, h3, h5⟩; exact ⟨⟨h1, h2, h3⟩, h1, h4, h5⟩

/-- `x > 1 AND (y = 2 OR NOT z)` -/
def sampleCond : Cond (Val × Val × Val) :=
  .and (.atom fun r => vCmp .gt r.1 (.int 1)) (.or (.atom fun r => vCmp .equ r.2.1 (.int 2)) (.not (.atom fun r => r.2.2)))
example : sampleCond.notsInside := ⟨trivial, trivial, ⟨_, rfl⟩⟩
example : sampleCond.selects (.int 5, .null, .bool 0) = true := by decide
example : sampleCond.selects (.int 5, .int 3, .null) = false := by decide

/-! ## C64 -/

theorem cmp_symm_zero {a b : Val} (ha : a.ordered) (hb : b.ordered) : valueCompare b a = 0 ↔ valueCompare a b = 0 := by
  have h1 := valueCompare_laws.anti a b ha hb
  have h2 := valueCompare_laws.anti b a hb ha
  omega

theorem anyRows_fst (op : CmpOp) (a : Val) : ∀ (l : List Val) (b : Bool),
    (anyRows op a l b).1 = true ↔ ∃ v ∈ l, v ≠ .null ∧ op.test (valueCompare a v) = true := by
  intro l
  induction l with
  | nil => intro b; simp [anyRows]
  | cons v l ih =>
    intro b
    simp only [anyRows]
    by_cases hv : v = .null
    · simp [hv, ih]
    · by_cases ht : op.test (valueCompare a v) = true
      · simp [hv, ht]
      · simp [hv, ht, ih]

theorem anyRows_snd (op : CmpOp) (a : Val) : ∀ (l : List Val) (b : Bool), (anyRows op a l b).1 = false →
    ((anyRows op a l b).2 = true ↔ b = true ∨ .null ∈ l) := by
  intro l
  induction l with
  | nil => intro b; simp [anyRows]
  | cons v l ih =>
    intro b
    simp only [anyRows]
    by_cases hv : v = .null
    · simp only [hv, if_true]; intro h; rw [ih true h]; simp
    · by_cases ht : op.test (valueCompare a v) = true
      · simp [hv, ht]
      · simp only [hv, ht, if_false, Bool.false_eq_true]
        intro h; rw [ih b (by simpa using h)]
        simp [Ne.symm hv]

theorem sqlAny_t (op : CmpOp) (a : Val) (ha : a ≠ .null) (l : List Val) :
    sqlAny op a l = .t ↔ ∃ v ∈ l, v ≠ .null ∧ op.test (valueCompare a v) = true := by
  induction l with
  | nil => simp [sqlAny]
  | cons v l ih =>
    have : sqlAny op a (v :: l) = (sqlCmp op a v).or (sqlAny op a l) := rfl
    rw [this, t3_or_t, ih]
    by_cases hv : v = .null
    · simp [hv, sqlCmp]
    · cases ht : op.test (valueCompare a v) <;> simp [hv, ha, sqlCmp, ht, T3.ofBool]

theorem sqlAny_f (op : CmpOp) (a : Val) (ha : a ≠ .null) (l : List Val) :
    sqlAny op a l = .f ↔ .null ∉ l ∧ ∀ v ∈ l, op.test (valueCompare a v) = false := by
  induction l with
  | nil => simp [sqlAny]
  | cons v l ih =>
    have : sqlAny op a (v :: l) = (sqlCmp op a v).or (sqlAny op a l) := rfl
    have hor : ∀ x y : T3, x.or y = .f ↔ x = .f ∧ y = .f := by intro x y; cases x <;> cases y <;> simp [T3.or]
    rw [this, hor, ih]
    by_cases hv : v = .null
    · simp [hv, sqlCmp]
    · cases ht : op.test (valueCompare a v) <;> simp [hv, Ne.symm hv, ha, sqlCmp, ht, T3.ofBool]

/-- **C64** ANY: `a op ANY (subquery or array)` for a value that is not NULL is the SQL value -/
theorem C64_any_partial (op : CmpOp) (a : Val) (ha : a ≠ .null) (l : List Val) : T3.of (vAny op a l) = sqlAny op a l := by
  unfold vAny
  cases h1 : (anyRows op a l false).1 with
  | true =>
    rw [if_pos rfl, of_vbool, (sqlAny_t op a ha l).2 ((anyRows_fst op a l false).1 h1)]; rfl
  | false =>
    simp only [Bool.false_eq_true, if_false]
    have h2 := anyRows_snd op a l false h1
    have hno : ¬ sqlAny op a l = .t := by
      intro h
      have := (anyRows_fst op a l false).2 ((sqlAny_t op a ha l).1 h)
      rw [h1] at this; simp at this
    cases h3 : (anyRows op a l false).2 with
    | true =>
      simp only [if_true]
      have hnl : .null ∈ l := by simpa [h3] using h2
      have hnf : ¬ sqlAny op a l = .f := fun h => ((sqlAny_f op a ha l).1 h).1 hnl
      cases hs : sqlAny op a l with
      | t => exact absurd hs hno
      | f => exact absurd hs hnf
      | u => rfl
    | false =>
      simp only [Bool.false_eq_true, if_false]
      rw [of_vbool]
      have hnl : .null ∉ l := by intro h; have := h2.2 (.inr h); rw [h3] at this; simp at this
      symm
      refine (sqlAny_f op a ha l).2 ⟨hnl, ?_⟩
      intro v hv
      cases ht : op.test (valueCompare a v) with
      | false => rfl
      | true =>
        exfalso
        have := (anyRows_fst op a l false).2 ⟨v, hv, fun h => hnl (h ▸ hv), ht⟩
        rw [h1] at this; simp at this

theorem T3.not_not (x : T3) : x.not.not = x := by cases x <;> rfl

/-- the opposite comparison -/
def CmpOp.neg : CmpOp → CmpOp
  | .equ => .nequ | .nequ => .equ | .lt => .gte | .gte => .lt | .gt => .lte | .lte => .gt
theorem neg_test (op : CmpOp) (c : Int) : op.neg.test c = !op.test c := by
  cases op <;> simp only [CmpOp.neg, CmpOp.test] <;> (rw [← decide_not]) <;> (congr 1) <;> (apply propext) <;> omega

theorem allRows_any (op : CmpOp) (a : Val) : ∀ (l : List Val) (b : Bool),
    allRows op a l b = (!(anyRows op.neg a l b).1, (anyRows op.neg a l b).2) := by
  intro l
  induction l with
  | nil => intro b; rfl
  | cons v l ih =>
    intro b
    simp only [allRows, anyRows, neg_test]
    split
    · exact ih true
    · cases op.test (valueCompare a v) <;> simp [ih]

theorem sqlAll_any (op : CmpOp) (a : Val) (l : List Val) : sqlAll op a l = (sqlAny op.neg a l).not := by
  induction l with
  | nil => rfl
  | cons v l ih =>
    have e1 : sqlAll op a (v :: l) = (sqlCmp op a v).and (sqlAll op a l) := rfl
    have e2 : sqlAny op.neg a (v :: l) = (sqlCmp op.neg a v).or (sqlAny op.neg a l) := rfl
    rw [e1, e2, ih]
    have : sqlCmp op a v = (sqlCmp op.neg a v).not := by
      unfold sqlCmp; split
      · rfl
      · rw [neg_test]; cases op.test (valueCompare a v) <;> rfl
    rw [this]
    cases sqlCmp op.neg a v <;> cases sqlAny op.neg a l <;> rfl

/-- **C64** ALL: `a op ALL (subquery or array)` for a value that is not NULL is the SQL value -/
theorem C64_all_partial (op : CmpOp) (a : Val) (ha : a ≠ .null) (l : List Val) : T3.of (vAll op a l) = sqlAll op a l := by
  rw [sqlAll_any, ← C64_any_partial op.neg a ha l]
  simp only [vAll, vAny, allRows_any]
  cases (anyRows op.neg a l false).1 with
  | true => simp [of_vbool, T3.ofBool, T3.not]
  | false =>
    cases (anyRows op.neg a l false).2 with
    | true => simp [T3.of, T3.not]
    | false => simp [of_vbool, T3.ofBool, T3.not]

theorem inRows_any (a : Val) : ∀ (l : List Val) (b : Bool), inRows a l b = anyRows .equ a l b := by
  intro l
  induction l with
  | nil => intro b; rfl
  | cons v l ih =>
    intro b
    simp only [inRows, anyRows, CmpOp.test, decide_eq_true_eq, ih]

theorem anyRows_append (op : CmpOp) (a : Val) : ∀ (l m : List Val) (b : Bool),
    anyRows op a (l ++ m) b = if (anyRows op a l b).1 then anyRows op a l b else anyRows op a m (anyRows op a l b).2 := by
  intro l
  induction l with
  | nil => intro m b; simp [anyRows]
  | cons v l ih =>
    intro m b
    simp only [List.cons_append, anyRows]
    split
    · exact ih m true
    · split
      · simp
      · exact ih m b

theorem inItems_any (a : Val) (ha : a.ordered) : ∀ (l : List InItem), (∀ i ∈ l, ∀ v ∈ i.vals, v.ordered) → ∀ (b : Bool),
    inItems a l b = anyRows .equ a (l.flatMap InItem.vals) b := by
  intro l
  induction l with
  | nil => intro _ b; rfl
  | cons i l ih =>
    intro ho b
    have ih' := ih (fun i hi => ho i (by simp [hi]))
    rw [List.flatMap_cons]
    cases i with
    | val v =>
      have hv : v.ordered := ho (.val v) (by simp) v (by simp [InItem.vals])
      simp only [inItems, InItem.vals, List.cons_append, List.nil_append, anyRows, CmpOp.test, decide_eq_true_eq, ih',
        cmp_symm_zero ha hv]
    | rows rs =>
      simp only [inItems, InItem.vals, inRows_any, ih']
      rw [anyRows_append]

/-- **C64** IN: `a IN (values and subqueries)` for a value that is not NULL is the OR of the comparisons, for NULL it is
unknown (if the list is not empty) -/
theorem C64_in_partial (a : Val) (ha : a.ordered) (l : List InItem) (hl : ∀ i ∈ l, ∀ v ∈ i.vals, v.ordered)
    (hne : a = .null → l.flatMap InItem.vals ≠ []) : T3.of (vIn a l) = sqlIn a l := by
  by_cases hn : a = .null
  · have hne' := hne hn
    subst hn
    unfold sqlIn
    have hu : ∀ (m : List Val), m ≠ [] → sqlAny .equ .null m = .u := by
      intro m
      induction m with
      | nil => intro h; exact absurd rfl h
      | cons v m ih =>
        intro _
        have : sqlAny .equ .null (v :: m) = (sqlCmp .equ .null v).or (sqlAny .equ .null m) := rfl
        rw [this]
        have h0 : sqlCmp .equ .null v = .u := by simp [sqlCmp]
        rw [h0]
        by_cases hm : m = []
        · subst hm; rfl
        · rw [ih hm]; rfl
    rw [hu _ hne']; simp [vIn, T3.of]
  · unfold sqlIn
    rw [← C64_any_partial .equ a hn]
    simp only [vIn, hn, if_false, inItems_any a ha l hl, vAny]

/-- **C64** NOT IN -/
theorem C64_not_in_partial (a : Val) (ha : a.ordered) (l : List InItem) (hl : ∀ i ∈ l, ∀ v ∈ i.vals, v.ordered)
    (hne : a = .null → l.flatMap InItem.vals ≠ []) : T3.of (vNotIn a l) = (sqlIn a l).not := by
  rw [← C64_in_partial a ha l hl hne]
  unfold vNotIn vNot T3.of
  by_cases h : vIn a l = .null
  · simp [h, T3.not]
  · simp only [h, if_false, vbool_ne, isTrue_vbool]
    cases valueIsTrue (vIn a l) <;> rfl

/-- **C64** EXISTS -/
theorem C64_exists {R : Type} (rows : List R) : T3.of (vExists rows) = .t ↔ ∃ r, r ∈ rows := by
  cases rows with
  | nil => simp [vExists, of_vbool, T3.ofBool]
  | cons r rows => simp [vExists, of_vbool, T3.ofBool]

/-- **C64 fails for NULL on the left of ANY and ALL**: `NULL < ANY (1)` and `NULL < ALL (1)` are unknown, the code says
true: it compares the types -/
theorem C64_null_false : T3.of (vAny .lt .null [.int 1]) = .t ∧ sqlAny .lt .null [.int 1] = .u ∧
    T3.of (vAll .lt .null [.int 1]) = .t ∧ sqlAll .lt .null [.int 1] = .u ∧
    T3.of (vAny .nequ .null [.int 1]) = .t ∧ T3.of (vAll .equ .null [.int 1]) = .f := by decide

/-- **C64 fails for NULL IN an empty subquery**: unknown instead of false, so `NULL NOT IN (empty)` does not select -/
theorem C64_empty_false : T3.of (vIn .null [.rows []]) = .u ∧ sqlIn .null [.rows []] = .f ∧
    T3.of (vNotIn .null [.rows []]) = .u ∧ (sqlIn .null [.rows []]).not = .t := by decide

example : T3.of (vIn (.int 3) [.val (.int 1), .rows [.null, .int 3], .val .null]) = .t := by decide
example : T3.of (vNotIn (.int 4) [.val (.int 1), .rows [.null, .int 3]]) = .u := by decide
example : T3.of (vAll .gt (.int 4) [.int 1, .int 3]) = .t := by decide

end Verif.Query
