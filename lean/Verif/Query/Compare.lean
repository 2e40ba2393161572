import Verif.Query.Logic
/-!
# The comparison operators of the machine

vm/vm/vm.c:763-1095 (CEQUII … CLTUU), compiler/compiler/cast.c:30-202 (which operation compares which types),
compiler/compiler/emit_expr.c (`<>` is NOT of `=`)
-/
set_option linter.unusedSimpArgs false
namespace Verif.Query

/-- the conversion of an int64_t to double in `integer == dbl` (round to nearest, ties to even), as an integer -/
def roundD (n : Nat) : Nat :=
  if n < 2 ^ 53 then n
  else
    let k := n.log2 - 52
    let q := n / 2 ^ k
    let r := n % 2 ^ k
    (if 2 ^ (k - 1) < r ∨ (r = 2 ^ (k - 1) ∧ q % 2 = 1) then q + 1 else q) * 2 ^ k
def i2d (i : Int) : Int := if i < 0 then -(roundD i.natAbs : Int) else (roundD i.natAbs : Int)

/-- the magnitude of a double in units of 2^-1074, from its exponent and fraction bits. Infinity gets the value after the
largest finite one. -/
def dblMag (bits : Nat) : Nat :=
  if bits % 2 ^ 63 / 2 ^ 52 = 0 then bits % 2 ^ 52 else (2 ^ 52 + bits % 2 ^ 52) * 2 ^ (bits % 2 ^ 63 / 2 ^ 52 - 1)

/-- the number a double (not NaN) stands for, in units of 2^-1074 -/
def dblNum (bits : Nat) : Int := if bits / 2 ^ 63 % 2 = 1 then -(dblMag bits : Int) else (dblMag bits : Int)

/-- C's `a == b`, `a < b`, … for numbers of which one may be NaN: only `!=` is true then -/
def CmpOp.num (op : CmpOp) (nan : Bool) (a b : Int) : Bool := if nan then decide (op = .nequ) else op.test (cmpI a b)

/-- one operation: CEQUII … CLTUU, vm.c:763-1095; `none`: cast.c has no operation for these types ("operation not
supported"); `<>` is CNOT after `=`. Bool, date and int values are all `integer`. -/
def opCmp (op : CmpOp) (a b : Val) : Option Val :=
  match a, b with
  | .null, _ => some .null
  | _, .null => some .null
  | .int x, .int y => some (vbool (op.num false x y))
  | .timestamp x, .timestamp y => some (vbool (op.num false x y))
  | .date x, .date y => some (vbool (op.num false x y))
  | .int x, .timestamp y => some (vbool (op.num false x y))
  | .timestamp x, .int y => some (vbool (op.num false x y))
  | .date x, .int y => some (vbool (op.num false x y))
  | .bool x, .bool y => if op = .equ ∨ op = .nequ then some (vbool (op.num false x y)) else none
  | .bool x, .int y => if op = .equ ∨ op = .nequ then some (vbool (op.num false x y)) else none
  | .int x, .bool y => if op = .equ ∨ op = .nequ then some (vbool (op.num false x y)) else none
  | .int x, .date y => if op = .equ ∨ op = .nequ then some (vbool (op.num false x y)) else none
  | .dbl x, .bool y => if op = .equ ∨ op = .nequ then
      some (vbool (op.num (decide (isNaN x)) (dblNum x) (i2d y * 2 ^ 1074))) else none
  | .int x, .dbl y => some (vbool (op.num (decide (isNaN y)) (i2d x * 2 ^ 1074) (dblNum y)))
  | .dbl x, .int y => some (vbool (op.num (decide (isNaN x)) (dblNum x) (i2d y * 2 ^ 1074)))
  | .dbl x, .dbl y => some (vbool (op.num (decide (isNaN x ∨ isNaN y)) (dblNum x) (dblNum y)))
  | .interval _ _ _, .interval _ _ _ => some (vbool (op.test (valueCompare a b)))
  | .str x, .str y => some (vbool (op.test (cmpS x y)))
  | .uuid _ _, .uuid _ _ => some (vbool (op.test (valueCompare a b)))
  | _, _ => none

end Verif.Query
