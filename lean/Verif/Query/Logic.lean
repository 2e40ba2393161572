import Verif.Query.Value
/-!
# Conditions: AND, OR, NOT, IN, ANY, ALL, EXISTS

vm/vm/vm.c:698-730 (CAND, COR, CNOT), 763-818 (comparisons), vm/value/compare.h, vm/value/null.h, vm/set/in.c, any.c, all.c,
exists.h, compiler/compiler/emit_expr.c:676-725 (BETWEEN), 841-935, compiler/compiler/scan.c:76-83 (WHERE)
-/
namespace Verif.Query

/-- value_is_true, vm/value/compare.h:14-44. For an interval the code reads `a->vector->size` through the bytes of the
interval; here it is true, as for any other type without a case. -/
def valueIsTrue : Val → Bool
  | .null => false
  | .int i => decide (0 < i)
  | .bool i => decide (0 < i)
  | .date i => decide (0 < i)
  | .timestamp i => decide (0 < i)
  | .dbl b => decide (0 < cmpD b 0)
  | .str s => !s.isEmpty
  | _ => true

/-- value_set_bool -/
def vbool (b : Bool) : Val := .bool (if b then 1 else 0)

/-- CAND, vm.c:709-716 -/
def vAnd (a b : Val) : Val := if a = .null ∨ b = .null then .null else vbool (valueIsTrue a && valueIsTrue b)
/-- COR, vm.c:718-728 -/
def vOr (a b : Val) : Val := if a = .null ∧ b = .null then .null else vbool (valueIsTrue a || valueIsTrue b)
/-- CNOT, vm.c:730-736 -/
def vNot (a : Val) : Val := if a = .null then .null else vbool (!valueIsTrue a)
/-- CIS, vm.c:704-707 -/
def vIsNull (a : Val) : Val := vbool (decide (a = .null))

/-- MATCH_EQU … MATCH_GTE, any.h -/
inductive CmpOp where
  | equ | nequ | lt | lte | gt | gte
deriving DecidableEq, Repr

def CmpOp.test : CmpOp → Int → Bool
  | .equ, c => decide (c = 0)
  | .nequ, c => decide (c ≠ 0)
  | .lt, c => decide (c < 0)
  | .lte, c => decide (c ≤ 0)
  | .gt, c => decide (0 < c)
  | .gte, c => decide (0 ≤ c)

/-- a comparison of two values of the same type, vm.c:763-1095: NULL if one is NULL -/
def vCmp (op : CmpOp) (a b : Val) : Val := if a = .null ∨ b = .null then .null else vbool (op.test (valueCompare a b))

/-- BETWEEN and NOT BETWEEN, emit_expr.c:676-725: `a >= lo AND a <= hi`, or NOT of it -/
def vBetween (a lo hi : Val) : Val := vAnd (vCmp .gte a lo) (vCmp .lte a hi)
def vNotBetween (a lo hi : Val) : Val := vNot (vBetween a lo hi)

/-- an element of an IN list: a value or a subquery with one column -/
inductive InItem where
  | val (v : Val)
  | rows (l : List Val)
deriving DecidableEq, Repr

/-- the loop over the rows of a subquery, in.c:39-52: whether it returns, and has_null -/
def inRows (a : Val) : List Val → Bool → Bool × Bool
  | [], hasNull => (false, hasNull)
  | v :: l, hasNull =>
    if v = .null then inRows a l true
    else if valueCompare a v = 0 then (true, hasNull) else inRows a l hasNull

/-- the loop over the list, in.c:28-63 -/
def inItems (a : Val) : List InItem → Bool → Bool × Bool
  | [], hasNull => (false, hasNull)
  | .val v :: l, hasNull =>
    if v = .null then inItems a l true
    else if valueCompare v a = 0 then (true, hasNull) else inItems a l hasNull
  | .rows rs :: l, hasNull =>
    if (inRows a rs hasNull).1 then inRows a rs hasNull else inItems a l (inRows a rs hasNull).2

/-- value_in, in.c:19-70 -/
def vIn (a : Val) (l : List InItem) : Val :=
  if a = .null then .null
  else if (inItems a l false).1 then vbool true
  else if (inItems a l false).2 then .null else vbool false

/-- NOT IN: emit_expr.c:872-878 -/
def vNotIn (a : Val) (l : List InItem) : Val := vNot (vIn a l)

/-- value_any_equ … value_any_gt, any.c:131-232 (and the same loops over a JSON array, any.c:19-129) -/
def anyRows (op : CmpOp) (a : Val) : List Val → Bool → Bool × Bool
  | [], hasNull => (false, hasNull)
  | v :: l, hasNull =>
    if v = .null then anyRows op a l true
    else if op.test (valueCompare a v) then (true, hasNull) else anyRows op a l hasNull

/-- value_any, any.c:234-311, for a subquery or an array -/
def vAny (op : CmpOp) (a : Val) (l : List Val) : Val :=
  if (anyRows op a l false).1 then vbool true else if (anyRows op a l false).2 then .null else vbool false

/-- value_all_equ … value_all_gt, all.c:131-232 -/
def allRows (op : CmpOp) (a : Val) : List Val → Bool → Bool × Bool
  | [], hasNull => (true, hasNull)
  | v :: l, hasNull =>
    if v = .null then allRows op a l true
    else if op.test (valueCompare a v) then allRows op a l hasNull else (false, hasNull)

/-- value_all, all.c:234-311, for a subquery or an array -/
def vAll (op : CmpOp) (a : Val) (l : List Val) : Val :=
  if (allRows op a l false).1 then (if (allRows op a l false).2 then .null else vbool true) else vbool false

/-- value_exists, exists.h:14-24 -/
def vExists {R : Type} (rows : List R) : Val := vbool (!rows.isEmpty)

/-- a condition over the columns of a row -/
inductive Cond (R : Type) where
  | atom (f : R → Val)
  | and (a b : Cond R)
  | or (a b : Cond R)
  | not (a : Cond R)

/-- what the machine computes, emit_expr.c:1121-1140 -/
def Cond.eval {R : Type} : Cond R → R → Val
  | .atom f, r => f r
  | .and a b, r => vAnd (a.eval r) (b.eval r)
  | .or a b, r => vOr (a.eval r) (b.eval r)
  | .not a, r => vNot (a.eval r)

/-- WHERE: CJNTR skips the row, scan.c:76-83, vm.c:441-450 -/
def Cond.selects {R : Type} (c : Cond R) (r : R) : Bool := valueIsTrue (c.eval r)

end Verif.Query
