import Verif.Query.Value
/-!
# vm/func/fn_null.c and the functions on integers and on several values of vm/func/fn_math.c
-/
namespace Verif.Func.Choose
open Verif.Query (Val valueCompare)

/-- what a call ends with: a value, an error, or an operation that C gives no meaning -/
inductive Fail
  | err
  | trap
deriving DecidableEq, Repr
abbrev Out := Except Fail Val

/-- fn_coalesce, fn_null.c:24-36 -/
def coalesce : List Val → Val
  | [] => .null
  | a :: t => if a = .null then coalesce t else a

/-- fn_nullif, fn_null.c:38-48 -/
def nullif : List Val → Out
  | [a, b] => .ok (if valueCompare a b = 0 then .null else a)
  | _ => .error .err

/-- the loop of fn_greatest, fn_math.c:543-554: the value so far (none: NULL pointer) -/
def greatestLoop : Option Val → List Val → Option Val
  | m, [] => m
  | m, a :: t =>
    if a = .null then greatestLoop m t
    else greatestLoop (some (m.elim a fun x => if valueCompare a x = 1 then a else x)) t
/-- fn_greatest, fn_math.c:539-559 -/
def greatest (args : List Val) : Val := (greatestLoop none args).getD .null

/-- the loop of fn_least, fn_math.c:565-576 -/
def leastLoop : Option Val → List Val → Option Val
  | m, [] => m
  | m, a :: t =>
    if a = .null then leastLoop m t
    else leastLoop (some (m.elim a fun x => if valueCompare a x = -1 then a else x)) t
/-- fn_least, fn_math.c:561-581 -/
def least (args : List Val) : Val := (leastLoop none args).getD .null

/-- fn_abs, fn_math.c:23-35; llabs has no result for the least integer -/
def abs : List Val → Out
  | [.null] => .ok .null
  | [.int i] => if i = -2 ^ 63 then .error .trap else .ok (.int (if i < 0 then -i else i))
  | _ => .error .err

/-- `d > 0.0` and `d < 0.0`: false for NaN -/
def above0 (b : Nat) : Bool := decide (0 < Query.cmpD b 0)
def below0 (b : Nat) : Bool := decide (Query.cmpD b 0 < 0)

/-- fn_sign, fn_math.c:60-85 -/
def sign : List Val → Out
  | [.int i] => .ok (.int (if i > 0 then 1 else if i < 0 then -1 else 0))
  | [.dbl b] => .ok (.int (if above0 b then 1 else if below0 b then -1 else 0))
  | _ => .error .err

/-- fn_mod, fn_math.c:118-129; the remainder of the least integer by -1 is a trap -/
def mod : List Val → Out
  | [.int a, .int b] => if b = 0 then .error .err else if a = -2 ^ 63 ∧ b = -1 then .error .trap else .ok (.int (Int.tmod a b))
  | _ => .error .err

/-- fn_fmod, fn_math.c:131-142: the bits of the divisor are compared with zero; `fm`: fmod of the C library -/
def fmod (fm : Nat → Nat → Nat) : List Val → Out
  | [.dbl a, .dbl b] => if b = 0 then .error .err else .ok (.dbl (fm a b))
  | _ => .error .err

end Verif.Func.Choose
