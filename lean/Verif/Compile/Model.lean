import Verif.Query.Logic
/-!
# Expressions: from the syntax tree to machine code, and the machine

compiler/compiler/emit_expr.c, cast.c, rmap.h, compiler_op.h; vm/vm/vm.c, vm/value/value.h, null.h, compare.h, stack.h,
vm/set/in.c.

Registers, the evaluation stack, the program counter and the ownership of buffers are modelled; what one operation does
with two values of a type whose arithmetic is modelled elsewhere (doubles, timestamps, intervals, vectors, JSON paths,
LIKE) is a parameter (`Prims`). Subqueries, aggregates, references between front and back end, EXCLUDED and UDF calls
are not modelled.
-/
set_option linter.unusedVariables false
namespace Verif.Compile
open Verif.Query (CmpOp)

/-- TYPE_NULL … TYPE_UUID, db/row/type.h:14-28 -/
inductive Ty where
  | null | bool | int | double | string | json | date | timestamp | interval | vector | uuid
deriving DecidableEq, Repr

/-- Interval: months, days, microseconds -/
structure Iv where
  m : Int
  d : Int
  us : Int
deriving DecidableEq, Repr

/-- Value, vm/value/value.h:15-39, without its `buf` field: the type tag and the member of the union it selects.
Doubles are their 64 bits, strings and JSON their bytes, vectors their elements. -/
inductive Val where
  | null
  | bool (i : Int)
  | int (i : Int)
  | dbl (b : Nat)
  | str (s : List Nat)
  | json (j : List Nat)
  | date (i : Int)
  | timestamp (i : Int)
  | interval (v : Iv)
  | vector (l : List Nat)
  | uuid (a b : Nat)
deriving DecidableEq, Repr

/-- the type tag -/
def Val.ty : Val → Ty
  | .null => .null | .bool _ => .bool | .int _ => .int | .dbl _ => .double | .str _ => .string | .json _ => .json
  | .date _ => .date | .timestamp _ => .timestamp | .interval _ => .interval | .vector _ => .vector | .uuid _ _ => .uuid

/-- why the machine stops: `error(…)`, or undefined behaviour (a wrong member of the union read, an arithmetic trap, a
wild pointer, a register or stack slot that does not exist) -/
inductive Stop where
  | err
  | ub
deriving DecidableEq, Repr

/-- the value-level operations modelled elsewhere (or not at all); `none` is an error of the operation -/
structure Prims where
  /-- `(double)integer` -/
  ofInt : Int → Nat
  /-- double_add_overflow … : runtime/lib/misc.h -/
  fadd : Nat → Nat → Option Nat
  fsub : Nat → Nat → Option Nat
  fmul : Nat → Nat → Option Nat
  fdiv : Nat → Nat → Option Nat
  fneg : Nat → Nat
  /-- timestamp_add, timestamp_sub, and the conversions around them -/
  tsAdd : Int → Iv → Option Int
  tsSub : Int → Iv → Option Int
  tsDiff : Int → Int → Iv
  dateAdd : Int → Int → Option Int
  dateSub : Int → Int → Option Int
  dateAddIv : Int → Iv → Option Int
  dateSubIv : Int → Iv → Option Int
  ivAdd : Iv → Iv → Option Iv
  ivSub : Iv → Iv → Option Iv
  ivNeg : Iv → Iv
  vecAdd : List Nat → List Nat → Option (List Nat)
  vecSub : List Nat → List Nat → Option (List Nat)
  vecMul : List Nat → List Nat → Option (List Nat)
  like : List Nat → List Nat → Option Bool
  /-- json_obj_find, json_array_find, json_obj_find_path: an error, nothing, or the value found -/
  jsonKey : List Nat → List Nat → Option (Option (List Nat))
  jsonAt : List Nat → Int → Option (Option (List Nat))
  jsonPath : List Nat → List Nat → Option (Option (List Nat))
  /-- json_compare, vector_compare -/
  cmpJ : List Nat → List Nat → Int
  cmpV : List Nat → List Nat → Int
  /-- value_array, value_obj -/
  array : List Val → Option (List Nat)
  object : List Val → Option (List Nat)
  /-- value_any (false) and value_all (true) over a JSON array: an error, NULL or a truth value -/
  quant : Bool → CmpOp → Val → List Nat → Option (Option Bool)

/-! ## Comparison and truth of values -/

/-- value_compare, vm/value/compare.h:47-84 -/
def vcompare (P : Prims) (a b : Val) : Int :=
  match a, b with
  | .null, .null => 0
  | .bool x, .bool y => Query.cmpI x y
  | .int x, .int y => Query.cmpI x y
  | .date x, .date y => Query.cmpI x y
  | .timestamp x, .timestamp y => Query.cmpI x y
  | .dbl x, .dbl y => Query.cmpD x y
  | .str x, .str y => Query.cmpS x y
  | .json x, .json y => P.cmpJ x y
  | .vector x, .vector y => P.cmpV x y
  | .interval x, .interval y =>
      if Query.cmpI x.m y.m ≠ 0 then Query.cmpI x.m y.m
      else if Query.cmpI x.d y.d ≠ 0 then Query.cmpI x.d y.d else Query.cmpI x.us y.us
  | .uuid x y, .uuid x' y' => if Query.cmpI x x' ≠ 0 then Query.cmpI x x' else Query.cmpI y y'
  | a, b => if b.ty.ctorIdx < a.ty.ctorIdx then 1 else -1

/-- value_is_true, vm/value/compare.h:14-44: an interval falls through to the case of vectors, which follows the bytes of
the interval as a pointer -/
def isTrue : Val → Except Stop Bool
  | .null => .ok false
  | .int i => .ok (decide (0 < i))
  | .bool i => .ok (decide (0 < i))
  | .date i => .ok (decide (0 < i))
  | .timestamp i => .ok (decide (0 < i))
  | .dbl b => .ok (decide (0 < Query.cmpD b 0))
  | .str s => .ok (!s.isEmpty)
  | .json _ => .ok true
  | .interval _ => .error .ub
  | .vector l => .ok (!l.isEmpty)
  | .uuid _ _ => .ok true

/-- value_set_bool -/
def vbool (b : Bool) : Val := .bool (if b then 1 else 0)

/-! ## Operators and opcodes -/

/-- OP_EQU … OP_BSHR, compiler/compiler/cast.h -/
inductive Op where
  | cmp (k : CmpOp)
  | add | sub | mul | div | mod | cat | idx | dot | like | bor | band | bxor | bshl | bshr
deriving DecidableEq, Repr

/-- the suffix of the comparison opcodes: int/int, int/double, double/int, double/double, interval, string, json, vector,
uuid -/
inductive CmpTy where
  | II | IF | FI | FF | LL | SS | JJ | VV | UU
deriving DecidableEq, Repr

/-- CEQUII … CBSHRII, vm/vm/op.h -/
inductive Opc where
  | cmp (k : CmpOp) (t : CmpTy)
  | addII | addIF | addFI | addFF | addTL | addLL | addLT | addDI | addID | addDL | addLD | addVV
  | subII | subIF | subFI | subFF | subTL | subTT | subLL | subDI | subDL | subVV
  | mulII | mulIF | mulFI | mulFF | mulVV
  | divII | divIF | divFI | divFF
  | modII | catSS | idxJS | idxJI | idxVI | dotJS | likeSS
  | borII | bandII | bxorII | bshlII | bshrII
deriving DecidableEq, Repr

/-- cast_op[OP_EQU], cast.c:31-71 -/
def castEqu : Ty → Ty → Option (Ty × Opc)
  | .bool, .bool => some (.bool, .cmp .equ .II)
  | .bool, .int => some (.bool, .cmp .equ .II)
  | .int, .bool => some (.bool, .cmp .equ .II)
  | .int, .int => some (.bool, .cmp .equ .II)
  | .int, .double => some (.bool, .cmp .equ .IF)
  | .int, .timestamp => some (.bool, .cmp .equ .II)
  | .int, .date => some (.bool, .cmp .equ .II)
  | .double, .bool => some (.bool, .cmp .equ .FI)
  | .double, .int => some (.bool, .cmp .equ .FI)
  | .double, .double => some (.bool, .cmp .equ .FF)
  | .timestamp, .int => some (.bool, .cmp .equ .II)
  | .timestamp, .timestamp => some (.bool, .cmp .equ .II)
  | .interval, .interval => some (.bool, .cmp .equ .LL)
  | .date, .int => some (.bool, .cmp .equ .II)
  | .date, .date => some (.bool, .cmp .equ .II)
  | .string, .string => some (.bool, .cmp .equ .SS)
  | .json, .json => some (.bool, .cmp .equ .JJ)
  | .vector, .vector => some (.bool, .cmp .equ .VV)
  | .uuid, .uuid => some (.bool, .cmp .equ .UU)
  | _, _ => none

/-- cast_op[OP_GTE], cast.c:73-104, and the same table for OP_GT, OP_LTE and OP_LT, cast.c:106-203 -/
def castOrd (k : CmpOp) : Ty → Ty → Option (Ty × Opc)
  | .int, .int => some (.bool, .cmp k .II)
  | .int, .double => some (.bool, .cmp k .IF)
  | .int, .timestamp => some (.bool, .cmp k .II)
  | .double, .int => some (.bool, .cmp k .FI)
  | .double, .double => some (.bool, .cmp k .FF)
  | .timestamp, .int => some (.bool, .cmp k .II)
  | .timestamp, .timestamp => some (.bool, .cmp k .II)
  | .interval, .interval => some (.bool, .cmp k .LL)
  | .date, .int => some (.bool, .cmp k .II)
  | .date, .date => some (.bool, .cmp k .II)
  | .string, .string => some (.bool, .cmp k .SS)
  | .vector, .vector => some (.bool, .cmp k .VV)
  | .uuid, .uuid => some (.bool, .cmp k .UU)
  | _, _ => none

/-- cast_op[OP_ADD], cast.c:205-230 -/
def castAdd : Ty → Ty → Option (Ty × Opc)
  | .int, .int => some (.int, .addII)
  | .int, .double => some (.double, .addIF)
  | .int, .date => some (.date, .addID)
  | .double, .int => some (.double, .addFI)
  | .double, .double => some (.double, .addFF)
  | .timestamp, .interval => some (.timestamp, .addTL)
  | .interval, .interval => some (.interval, .addLL)
  | .interval, .timestamp => some (.timestamp, .addLT)
  | .interval, .date => some (.timestamp, .addLD)
  | .date, .int => some (.date, .addDI)
  | .date, .interval => some (.timestamp, .addDL)
  | .vector, .vector => some (.vector, .addVV)
  | _, _ => none

/-- cast_op[OP_SUB], cast.c:232-255 -/
def castSub : Ty → Ty → Option (Ty × Opc)
  | .int, .int => some (.int, .subII)
  | .int, .double => some (.double, .subIF)
  | .double, .int => some (.double, .subFI)
  | .double, .double => some (.double, .subFF)
  | .timestamp, .interval => some (.timestamp, .subTL)
  | .timestamp, .timestamp => some (.interval, .subTT)
  | .interval, .interval => some (.interval, .subLL)
  | .date, .int => some (.date, .subDI)
  | .date, .interval => some (.timestamp, .subDL)
  | .date, .date => some (.int, .subII)
  | .vector, .vector => some (.vector, .subVV)
  | _, _ => none

/-- cast_op, cast.c:29-353: the result type and the opcode; a missing entry has type TYPE_NULL -/
def castOp : Op → Ty → Ty → Option (Ty × Opc)
  | .cmp .equ, l, r => castEqu l r
  | .cmp .nequ, _, _ => none
  | .cmp k, l, r => castOrd k l r
  | .add, l, r => castAdd l r
  | .sub, l, r => castSub l r
  | .mul, .int, .int => some (.int, .mulII)
  | .mul, .int, .double => some (.double, .mulIF)
  | .mul, .double, .int => some (.double, .mulFI)
  | .mul, .double, .double => some (.double, .mulFF)
  | .mul, .vector, .vector => some (.vector, .mulVV)
  | .div, .int, .int => some (.int, .divII)
  | .div, .int, .double => some (.double, .divIF)
  | .div, .double, .int => some (.double, .divFI)
  | .div, .double, .double => some (.double, .divFF)
  | .mod, .int, .int => some (.int, .modII)
  | .cat, .string, .string => some (.string, .catSS)
  | .idx, .json, .string => some (.json, .idxJS)
  | .idx, .json, .int => some (.json, .idxJI)
  | .idx, .vector, .int => some (.double, .idxVI)
  | .dot, .json, .string => some (.json, .dotJS)
  | .like, .string, .string => some (.string, .likeSS)
  | .bor, .int, .int => some (.int, .borII)
  | .band, .int, .int => some (.int, .bandII)
  | .bxor, .int, .int => some (.int, .bxorII)
  | .bshl, .int, .int => some (.int, .bshlII)
  | .bshr, .int, .int => some (.int, .bshrII)
  | _, _, _ => none

/-! ## The union members -/

/-- `.integer`: shared by bool, int, date and timestamp, value.h:20 -/
def fInt : Val → Except Stop Int
  | .bool i => .ok i | .int i => .ok i | .date i => .ok i | .timestamp i => .ok i
  | _ => .error .ub
/-- `.dbl` -/
def fDbl : Val → Except Stop Nat
  | .dbl b => .ok b
  | _ => .error .ub
/-- `.string` -/
def fStr : Val → Except Stop (List Nat)
  | .str s => .ok s
  | _ => .error .ub
/-- `.json` -/
def fJson : Val → Except Stop (List Nat)
  | .json s => .ok s
  | _ => .error .ub
/-- `.vector` -/
def fVec : Val → Except Stop (List Nat)
  | .vector s => .ok s
  | _ => .error .ub
/-- `.interval` -/
def fIv : Val → Except Stop Iv
  | .interval v => .ok v
  | _ => .error .ub
/-- `.uuid` -/
def fUuid : Val → Except Stop (Nat × Nat)
  | .uuid a b => .ok (a, b)
  | _ => .error .ub

/-- an operation that fails with `error(…)` -/
def orErr {A : Type} : Option A → Except Stop A
  | some a => .ok a
  | none => .error .err

def i64min : Int := -9223372036854775808
def i64max : Int := 9223372036854775807
/-- int64_add_overflow … : the result, unless it does not fit 64 bits -/
def fits (i : Int) : Option Int := if i64min ≤ i ∧ i ≤ i64max then some i else none

/-- `==`, `>=`, … on doubles: false if one is not a number -/
def fcmp (k : CmpOp) (a b : Nat) : Bool :=
  !(decide (Query.isNaN a) || decide (Query.isNaN b)) && k.test (Query.cmpI (Query.dblKey a) (Query.dblKey b))

/-- the comparison opcodes on two values, vm.c:763-1013 -/
def execCmp (P : Prims) (k : CmpOp) (t : CmpTy) (a b : Val) : Except Stop Bool :=
  match t with
  | .II => (fInt a).bind fun x => (fInt b).bind fun y => .ok (k.test (Query.cmpI x y))
  | .IF => (fInt a).bind fun x => (fDbl b).bind fun y => .ok (fcmp k (P.ofInt x) y)
  | .FI => (fDbl a).bind fun x => (fInt b).bind fun y => .ok (fcmp k x (P.ofInt y))
  | .FF => (fDbl a).bind fun x => (fDbl b).bind fun y => .ok (fcmp k x y)
  | .LL => (fIv a).bind fun x => (fIv b).bind fun y => .ok (k.test (vcompare P (.interval x) (.interval y)))
  | .SS => (fStr a).bind fun x => (fStr b).bind fun y => .ok (k.test (Query.cmpS x y))
  | .JJ => (fJson a).bind fun x => (fJson b).bind fun y => .ok (k.test (P.cmpJ x y))
  | .VV => (fVec a).bind fun x => (fVec b).bind fun y => .ok (k.test (P.cmpV x y))
  | .UU => (fUuid a).bind fun x => (fUuid b).bind fun y =>
      .ok (k.test (vcompare P (.uuid x.1 x.2) (.uuid y.1 y.2)))

/-- a double operation with the overflow check; division also checks for zero, vm.c:1284-1315 -/
def isZero (b : Nat) : Bool := fcmp .equ b 0

/-- what a JSON lookup puts into the result: NULL if nothing is found, vm.c:1360-1461 -/
def jsonOr : Option (List Nat) → Val
  | some j => .json j
  | none => .null

/-- two's complement of 64 bits -/
def bits (a : Int) : BitVec 64 := BitVec.ofInt 64 a

/-- the opcodes on two values that are not NULL, vm.c:732-1470 -/
def execOp (P : Prims) (o : Opc) (a b : Val) : Except Stop Val :=
  match o with
  | .cmp k t => (execCmp P k t a b).map vbool
  | .addII => (fInt a).bind fun x => (fInt b).bind fun y => (orErr (fits (x + y))).map .int
  | .addIF => (fInt a).bind fun x => (fDbl b).bind fun y => (orErr (P.fadd (P.ofInt x) y)).map .dbl
  | .addFI => (fDbl a).bind fun x => (fInt b).bind fun y => (orErr (P.fadd x (P.ofInt y))).map .dbl
  | .addFF => (fDbl a).bind fun x => (fDbl b).bind fun y => (orErr (P.fadd x y)).map .dbl
  | .addTL => (fInt a).bind fun x => (fIv b).bind fun y => (orErr (P.tsAdd x y)).map .timestamp
  | .addLL => (fIv a).bind fun x => (fIv b).bind fun y => (orErr (P.ivAdd x y)).map .interval
  | .addLT => (fInt b).bind fun x => (fIv a).bind fun y => (orErr (P.tsAdd x y)).map .timestamp
  | .addDI => (fInt a).bind fun x => (fInt b).bind fun y => (orErr (P.dateAdd x y)).map .date
  | .addID => (fInt b).bind fun x => (fInt a).bind fun y => (orErr (P.dateAdd x y)).map .date
  | .addDL => (fInt a).bind fun x => (fIv b).bind fun y => (orErr (P.dateAddIv x y)).map .timestamp
  | .addLD => (fInt b).bind fun x => (fIv a).bind fun y => (orErr (P.dateAddIv x y)).map .timestamp
  | .addVV => (fVec a).bind fun x => (fVec b).bind fun y => (orErr (P.vecAdd x y)).map .vector
  | .subII => (fInt a).bind fun x => (fInt b).bind fun y => (orErr (fits (x - y))).map .int
  | .subIF => (fInt a).bind fun x => (fDbl b).bind fun y => (orErr (P.fsub (P.ofInt x) y)).map .dbl
  | .subFI => (fDbl a).bind fun x => (fInt b).bind fun y => (orErr (P.fsub x (P.ofInt y))).map .dbl
  | .subFF => (fDbl a).bind fun x => (fDbl b).bind fun y => (orErr (P.fsub x y)).map .dbl
  | .subTL => (fInt a).bind fun x => (fIv b).bind fun y => (orErr (P.tsSub x y)).map .timestamp
  | .subTT => (fInt a).bind fun x => (fInt b).bind fun y => .ok (.interval (P.tsDiff x y))
  | .subLL => (fIv a).bind fun x => (fIv b).bind fun y => (orErr (P.ivSub x y)).map .interval
  | .subDI => (fInt a).bind fun x => (fInt b).bind fun y => (orErr (P.dateSub x y)).map .date
  | .subDL => (fInt a).bind fun x => (fIv b).bind fun y => (orErr (P.dateSubIv x y)).map .timestamp
  | .subVV => (fVec a).bind fun x => (fVec b).bind fun y => (orErr (P.vecSub x y)).map .vector
  | .mulII => (fInt a).bind fun x => (fInt b).bind fun y => (orErr (fits (x * y))).map .int
  | .mulIF => (fInt a).bind fun x => (fDbl b).bind fun y => (orErr (P.fmul (P.ofInt x) y)).map .dbl
  | .mulFI => (fDbl a).bind fun x => (fInt b).bind fun y => (orErr (P.fmul x (P.ofInt y))).map .dbl
  | .mulFF => (fDbl a).bind fun x => (fDbl b).bind fun y => (orErr (P.fmul x y)).map .dbl
  | .mulVV => (fVec a).bind fun x => (fVec b).bind fun y => (orErr (P.vecMul x y)).map .vector
  -- the minimum divided by -1 traps
  | .divII => (fInt a).bind fun x => (fInt b).bind fun y =>
      if y = 0 then .error .err else if x = i64min ∧ y = -1 then .error .ub else .ok (.int (Int.tdiv x y))
  | .divIF => (fInt a).bind fun x => (fDbl b).bind fun y =>
      if isZero y then .error .err else (orErr (P.fdiv (P.ofInt x) y)).map .dbl
  | .divFI => (fDbl a).bind fun x => (fInt b).bind fun y =>
      if y = 0 then .error .err else (orErr (P.fdiv x (P.ofInt y))).map .dbl
  | .divFF => (fDbl a).bind fun x => (fDbl b).bind fun y =>
      if isZero y then .error .err else (orErr (P.fdiv x y)).map .dbl
  | .modII => (fInt a).bind fun x => (fInt b).bind fun y =>
      if y = 0 then .error .err else if x = i64min ∧ y = -1 then .error .ub else .ok (.int (Int.tmod x y))
  | .catSS => (fStr a).bind fun x => (fStr b).bind fun y => .ok (.str (x ++ y))
  | .idxJS => (fJson a).bind fun x => (fStr b).bind fun y => (orErr (P.jsonKey x y)).map jsonOr
  | .idxJI => (fJson a).bind fun x => (fInt b).bind fun y => (orErr (P.jsonAt x y)).map jsonOr
  | .idxVI => (fVec a).bind fun x => (fInt b).bind fun y =>
      if y < 0 ∨ (x.length : Int) ≤ y then .error .err else .ok (.dbl (x.getD y.toNat 0))
  | .dotJS => (fJson a).bind fun x => (fStr b).bind fun y => (orErr (P.jsonPath x y)).map jsonOr
  -- value_like checks the types itself, like.c:22-23
  | .likeSS =>
      if a.ty = .string ∧ b.ty = .string then
        (fStr a).bind fun x => (fStr b).bind fun y => (orErr (P.like x y)).map vbool
      else .error .err
  | .borII => (fInt a).bind fun x => (fInt b).bind fun y => .ok (.int (bits x ||| bits y).toInt)
  | .bandII => (fInt a).bind fun x => (fInt b).bind fun y => .ok (.int (bits x &&& bits y).toInt)
  | .bxorII => (fInt a).bind fun x => (fInt b).bind fun y => .ok (.int (bits x ^^^ bits y).toInt)
  -- a shift by a negative count or by 64 and more is undefined
  | .bshlII => (fInt a).bind fun x => (fInt b).bind fun y =>
      if y < 0 ∨ 64 ≤ y then .error .ub else .ok (.int (bits x <<< y.toNat).toInt)
  | .bshrII => (fInt a).bind fun x => (fInt b).bind fun y =>
      if y < 0 ∨ 64 ≤ y then .error .ub else .ok (.int ((bits x).sshiftRight y.toNat).toInt)

/-- the types whose values may own a buffer -/
def Val.heap : Val → Bool
  | .str _ => true | .json _ => true | .vector _ => true
  | _ => false

/-- value_null or value_null_fast: whether the opcode frees its operands, vm.c:732-1470 -/
def Opc.frees : Opc → Bool
  | .cmp _ .SS => true | .cmp _ .JJ => true | .cmp _ .VV => true
  | .addVV => true | .subVV => true | .mulVV => true
  | .catSS => true | .idxJS => true | .idxJI => true | .idxVI => true | .dotJS => true | .likeSS => true
  | _ => false

/-- whether the result owns a buffer: a new one, or (JSON lookups) a reference to the one of the operand -/
def Opc.owns (o : Opc) (opd : Bool) : Bool :=
  match o with
  | .addVV => true | .subVV => true | .mulVV => true | .catSS => true
  | .idxJS => opd | .idxJI => opd | .dotJS => opd
  | _ => false

/-! ## The machine -/

/-- the instructions an expression compiles to; `r`, `a` results, `b`, `c` operands. Constants are immediate operands,
also those the compiler keeps in the code data. -/
inductive Instr where
  /-- CNULL, CBOOL, CINT, CDOUBLE, CSTRING, CJSON, CINTERVAL, CTIMESTAMP, CDATE, CVECTOR, CUUID: vm.c:618-671 -/
  | const (r : Nat) (v : Val)
  /-- CVALUE, vm.c:673-677: `own` if the precomputed value has a buffer -/
  | value (r : Nat) (v : Val) (own : Bool)
  /-- CVAR, vm.c:1972-1979, of a local variable: a slot of the stack -/
  | var (r n : Nat)
  /-- CTABLE_READB … CTABLE_READU, vm.c:1638-1755: a column of the row a cursor is at; `c` is the register of the cursor -/
  | col (r c n : Nat)
  /-- CJSON_ARRAY and CJSON_OBJ, vm.c:643-651 -/
  | array (r n : Nat)
  | object (r n : Nat)
  /-- CNULLOP -/
  | nullop (a b c : Nat)
  | op (o : Opc) (a b c : Nat)
  /-- CIS, CAND, COR, CNOT: vm.c:697-730 -/
  | is (a b : Nat)
  | and (a b c : Nat)
  | or (a b c : Nat)
  | not (a b : Nat)
  /-- CNEGI, CNEGF, CNEGL, CBINVI: vm.c:757-760, 1328-1344 -/
  | negI (a b : Nat)
  | negF (a b : Nat)
  | negL (a b : Nat)
  | inv (a b : Nat)
  /-- CIN, vm.c:1472-1476 -/
  | inlist (a b n : Nat)
  /-- CANY and CALL, vm.c:1478-1494 -/
  | quant (all : Bool) (k : CmpOp) (a b c : Nat)
  /-- CCALL, vm.c:2005-2018 -/
  | call (r f n : Nat)
  /-- CMOV, CJMP, CJNTR: vm.c:425-450, 480-483 -/
  | mov (a b : Nat)
  | jmp (t : Nat)
  | jntr (t b : Nat)
  /-- CPUSH, CPUSH_NULLS … CPUSH_VALUE, CPUSH_VAR: vm.c:485-612 -/
  | push (b : Nat)
  | pushc (v : Val) (own : Bool)
  | pushvar (n : Nat)
deriving DecidableEq, Repr

/-- Value with its `buf` field: whether it owns (a reference to) a buffer -/
structure Cell where
  val : Val
  buf : Bool
deriving DecidableEq, Repr

/-- the state of a program: its position, registers and stack (vm.h:14-33); `world` is what volatile functions (random,
now, sequences) read and change; `leak` counts the buffers whose last pointer was overwritten -/
structure VM (W : Type) where
  pc : Nat
  reg : Nat → Cell
  stack : List Cell
  world : W
  leak : Nat

/-- what an expression means something about: the operations, the current rows (`row t n` is column `n` of the row of table `t` of
the query; `none` if there is none) and the functions (`none` is an error of the function) -/
structure Sem (W : Type) where
  P : Prims
  row : Nat → Nat → Option Val
  fn : Nat → W → List Val → Option (Val × W)

/-- what a program runs against: `col c n` is column `n` of the row the cursor in register `c` is at (`none`: it is not at a row).
The code names registers, the expression names tables. Cursors are kept beside the other registers. -/
structure Env (W : Type) extends Sem W where
  col : Nat → Nat → Option Val
  /-- whether the result of a function owns a buffer -/
  fnOwns : Nat → W → List Val → Bool

variable {W : Type}

/-- `value_set_…` into a register: the types with a buffer overwrite `buf`, the others leave it as it is, value.h:93-200 -/
def VM.put (s : VM W) (r : Nat) (v : Val) (own : Bool) : VM W :=
  { s with
    reg := fun i => if i = r then
        (if v.heap then { val := v, buf := own } else { val := v, buf := (s.reg r).buf })
      else s.reg i
    leak := if v.heap ∧ (s.reg r).buf then s.leak + 1 else s.leak }

/-- value_free, value.h:47-69: nothing for a NULL -/
def Cell.free (c : Cell) : Cell := if c.val = .null then c else { val := .null, buf := false }

/-- value_free of a register -/
def VM.free (s : VM W) (r : Nat) : VM W := { s with reg := fun i => if i = r then (s.reg r).free else s.reg i }

/-- op_next -/
def VM.next (s : VM W) : VM W := { s with pc := s.pc + 1 }

/-- value_in, vm/set/in.c:19-70, over a list of values -/
def inLoop (P : Prims) (a : Val) : List Val → Bool → Val
  | [], hasNull => if hasNull then .null else vbool false
  | v :: l, hasNull =>
    if v = .null then inLoop P a l true
    else if vcompare P v a = 0 then vbool true else inLoop P a l hasNull
def valueIn (P : Prims) (a : Val) (l : List Val) : Val := if a = .null then .null else inLoop P a l false

/-- an optional truth value -/
def vopt : Option Bool → Val
  | some b => vbool b
  | none => .null

/-- the top `n` slots of the stack (bottom first) -/
def VM.top (s : VM W) (n : Nat) : List Cell := s.stack.drop (s.stack.length - n)
/-- stack_popn, stack.h:66-73 -/
def VM.popn (s : VM W) (n : Nat) : VM W := { s with stack := s.stack.take (s.stack.length - n) }

/-- value_reset of a register, value.h:71-76 -/
def VM.reset (s : VM W) (r : Nat) : VM W := { s with reg := fun i => if i = r then ⟨.null, false⟩ else s.reg i }
/-- value_move, value.h:78-84: the old value is freed (a NULL that still has a buffer is overwritten) -/
def VM.move (s : VM W) (a b : Nat) : VM W :=
  { s with
    reg := fun i => if i = b then ⟨.null, false⟩ else if i = a then s.reg b else s.reg i
    leak := if (s.reg a).val = Val.null ∧ (s.reg a).buf then s.leak + 1 else s.leak }
/-- stack_push -/
def VM.pushCell (s : VM W) (c : Cell) : VM W := { s with stack := s.stack ++ [c] }

/-- one instruction -/
def stepI (E : Env W) (i : Instr) (s : VM W) : Except Stop (VM W) :=
  match i with
  | .const r v => .ok (s.put r v false).next
  | .value r v own => .ok (s.put r v own).next
  | .var r n => (s.stack[n]?).elim (.error .ub) fun c => .ok (s.put r c.val c.buf).next
  | .col r c n => (E.col c n).elim (.error .ub) fun v => .ok (s.put r v false).next
  | .array r n =>
      if s.stack.length < n then .error .ub
      else (orErr (E.P.array ((s.top n).map Cell.val))).bind fun j => .ok ((s.put r (.json j) true).popn n).next
  | .object r n =>
      if s.stack.length < n then .error .ub
      else (orErr (E.P.object ((s.top n).map Cell.val))).bind fun j => .ok ((s.put r (.json j) true).popn n).next
  | .nullop a b c => .ok (((s.put a .null false).free b).free c).next
  | .op o a b c =>
      if (s.reg b).val = .null ∨ (s.reg c).val = .null then
        (if o.frees then .ok (((s.free b).free c).put a .null false).next else .ok (s.put a .null false).next)
      else (execOp E.P o (s.reg b).val (s.reg c).val).bind fun v =>
        (if o.frees then .ok (((s.put a v (o.owns (s.reg b).buf)).free b).free c).next
         else .ok (s.put a v (o.owns (s.reg b).buf)).next)
  | .is a b => .ok ((s.put a (vbool (decide ((s.reg b).val = .null))) false).free b).next
  | .and a b c =>
      if (s.reg b).val = .null ∨ (s.reg c).val = .null then .ok (((s.free b).free c).put a .null false).next
      else (isTrue (s.reg b).val).bind fun x =>
        -- `&&`: the right operand is not looked at if the left one is false
        (if x then isTrue (s.reg c).val else .ok false).bind fun y =>
          .ok (((s.put a (vbool y) false).free b).free c).next
  | .or a b c =>
      if (s.reg b).val = .null ∧ (s.reg c).val = .null then .ok (((s.put a .null false).free b).free c).next
      else (isTrue (s.reg b).val).bind fun x =>
        (if x then .ok true else isTrue (s.reg c).val).bind fun y =>
          .ok (((s.put a (vbool y) false).free b).free c).next
  | .not a b =>
      if (s.reg b).val = .null then .ok ((s.free b).put a .null false).next
      else (isTrue (s.reg b).val).bind fun x => .ok ((s.put a (vbool (!x)) false).free b).next
  | .negI a b =>
      if (s.reg b).val = .null then .ok (s.put a .null false).next
      -- the negation of the minimum is undefined
      else (fInt (s.reg b).val).bind fun x =>
        if x = i64min then .error .ub else .ok (s.put a (.int (-x)) false).next
  | .negF a b =>
      if (s.reg b).val = .null then .ok (s.put a .null false).next
      else (fDbl (s.reg b).val).bind fun x => .ok (s.put a (.dbl (E.P.fneg x)) false).next
  | .negL a b =>
      if (s.reg b).val = .null then .ok (s.put a .null false).next
      else (fIv (s.reg b).val).bind fun x => .ok (s.put a (.interval (E.P.ivNeg x)) false).next
  | .inv a b =>
      if (s.reg b).val = .null then .ok ((s.free b).put a .null false).next
      else (fInt (s.reg b).val).bind fun x => .ok (s.put a (.int (~~~ (bits x)).toInt) false).next
  -- the value searched for is not freed
  | .inlist a b n =>
      if s.stack.length < n then .error .ub
      else .ok ((s.put a (valueIn E.P (s.reg b).val ((s.top n).map Cell.val)) false).popn n).next
  | .quant all k a b c =>
      if (s.reg b).val = .null ∨ (s.reg c).val = .null then .ok (((s.free b).free c).put a .null false).next
      -- anything but a JSON array is an error, any.c:288-291
      else if (s.reg c).val.ty ≠ .json then .error .err
      else (fJson (s.reg c).val).bind fun j => (orErr (E.P.quant all k (s.reg b).val j)).bind fun v =>
        .ok (((s.put a (vopt v) false).free b).free c).next
  | .call r f n =>
      if s.stack.length < n then .error .ub
      else (orErr (E.fn f s.world ((s.top n).map Cell.val))).bind fun v =>
        .ok (({ s.put r v.1 (E.fnOwns f s.world ((s.top n).map Cell.val)) with world := v.2 }).popn n).next
  | .mov a b => .ok (s.move a b).next
  | .jmp t => .ok { s with pc := t }
  | .jntr t b => (isTrue (s.reg b).val).bind fun x => if x then .ok (s.free b).next else .ok { s.free b with pc := t }
  | .push b => .ok ((s.pushCell (s.reg b)).reset b).next
  | .pushc v own => .ok (s.pushCell ⟨v, own⟩).next
  | .pushvar n => (s.stack[n]?).elim (.error .ub) fun c => .ok (s.pushCell c).next

/-- running: any number of instructions -/
inductive Exec (E : Env W) (code : List Instr) : VM W → VM W → Prop
  | refl (s) : Exec E code s s
  | step {s i s' s''} : code[s.pc]? = some i → stepI E i s = .ok s' → Exec E code s' s'' → Exec E code s s''

/-- the program stops in the middle -/
def Fails (E : Env W) (code : List Instr) (s : VM W) (x : Stop) : Prop :=
  ∃ s' i, Exec E code s s' ∧ code[s'.pc]? = some i ∧ stepI E i s' = .error x

/-! ## Expressions -/

mutual
/-- the syntax tree of an expression, compiler/parser/parse_expr.c (subqueries, aggregates and UDF calls left out) -/
inductive Expr where
  /-- constants: NULL, TRUE, FALSE, numbers, strings, timestamps, intervals, dates, vectors, uuids, constant JSON -/
  | const (v : Val)
  /-- KVALUE: a precomputed value -/
  | value (v : Val) (own : Bool)
  | var (n : Nat)
  /-- column `n` of table `t` of FROM -/
  | col (t n : Nat)
  /-- `[…]` and `{…}` that are not constant -/
  | array (args : Args)
  | object (args : Args)
  | bin (o : Op) (l r : Expr)
  | nequ (l r : Expr)
  | like (neg : Bool) (l r : Expr)
  | and (l r : Expr)
  | or (l r : Expr)
  | not (e : Expr)
  | neg (e : Expr)
  | inv (e : Expr)
  /-- f(args), and expr.f(args) with the expression as the first argument -/
  | call (f : Nat) (args : Args)
  /-- CASE WHEN …; without ELSE the code is that of ELSE NULL -/
  | case (ws : Whens) (els : Expr)
  | caseOf (e : Expr) (ws : Whens) (els : Expr)
  | between (neg : Bool) (e x y : Expr)
  | isNull (neg : Bool) (e : Expr)
  | inlist (neg : Bool) (e : Expr) (args : Args)
  | quant (all : Bool) (k : CmpOp) (a b : Expr)
/-- arguments -/
inductive Args where
  | nil
  | cons (e : Expr) (rest : Args)
/-- WHEN … THEN … -/
inductive Whens where
  | nil
  | cons (c t : Expr) (rest : Whens)
end

/-- what the compiler knows: the types of columns, variables and functions, and which functions derive their type from
the arguments (FN_DERIVE) -/
structure Sig where
  colTy : Nat → Nat → Ty
  /-- target->rcursor: the register of the cursor of a table that is being scanned -/
  cursor : Nat → Option Nat
  varTy : Nat → Ty
  fnTy : Nat → Ty
  fnDerive : Nat → Bool

/-- Compiler: the register map (rmap.h) and the code -/
structure CS where
  map : List (Option Ty)
  code : List Instr

/-- rmap_at: the type of a pinned register -/
def atR (m : List (Option Ty)) (r : Nat) : Option Ty := (m[r]?).join
/-- rtype; an unpinned register has no type the code asks for -/
def CS.rtype (c : CS) (r : Nat) : Ty := (atR c.map r).getD .null

/-- the loop of rmap_pin, rmap.h:56-72: the first free register, or a new one -/
def pinAt : List (Option Ty) → Ty → List (Option Ty) × Nat
  | [], t => ([some t], 0)
  | none :: m, t => (some t :: m, 0)
  | some u :: m, t => (some u :: (pinAt m t).1, (pinAt m t).2 + 1)
/-- rpin -/
def CS.pin (c : CS) (t : Ty) : CS × Nat := ({ c with map := (pinAt c.map t).1 }, (pinAt c.map t).2)
/-- runpin, rmap_unpin: rmap.h:74-78 -/
def CS.unpin (c : CS) (r : Nat) : CS := { c with map := c.map.set r none }
/-- rmap_assign, rmap.h:28-32 -/
def CS.assign (c : CS) (r : Nat) (t : Ty) : CS := { c with map := c.map.set r (some t) }
/-- op1 … op5: code_add -/
def CS.op (c : CS) (i : Instr) : CS := { c with code := c.code ++ [i] }
/-- op1pin … op5pin, compiler_op.h:46-111 -/
def CS.oppin (c : CS) (t : Ty) (i : Nat → Instr) : CS × Nat := ((c.pin t).1.op (i (c.pin t).2), (c.pin t).2)

/-- the jump address of an instruction (`->a`) -/
def Instr.setA (t : Nat) : Instr → Instr
  | .jmp _ => .jmp t
  | .jntr _ b => .jntr t b
  | i => i
/-- op_at(pos)->a = to, op_set_jmp: compiler_op.h:126-136 -/
def CS.patch (c : CS) (pos t : Nat) : CS := { c with code := c.code.modify pos (Instr.setA t) }

/-- cast_operator, cast.c:380-399 -/
def castOperator (o : Op) (l r : Nat) (c : CS) : Option (CS × Nat) :=
  if c.rtype l = .null ∨ c.rtype r = .null then
    some ((((c.oppin .null fun a => .nullop a l r).1.unpin l).unpin r), (c.oppin .null fun a => .nullop a l r).2)
  else (castOp o (c.rtype l) (c.rtype r)).bind fun e =>
    some ((((c.oppin e.1 fun a => .op e.2 a l r).1.unpin l).unpin r), (c.oppin e.1 fun a => .op e.2 a l r).2)

/-- an operation on one register whose result replaces it: op2pin and runpin -/
def CS.un (c : CS) (t : Ty) (i : Nat → Instr) (r : Nat) : CS × Nat := ((c.oppin t i).1.unpin r, (c.oppin t i).2)
/-- the same on two registers: op3pin and two runpin -/
def CS.bi (c : CS) (t : Ty) (i : Nat → Instr) (l r : Nat) : CS × Nat := (((c.oppin t i).1.unpin l).unpin r, (c.oppin t i).2)

/-- NOT of a result -/
def CS.notOf (c : CS) (r : Nat) : CS × Nat := c.un .bool (fun a => .not a r) r

/-- emit_func_typederive, emit_expr.c:596-604 -/
def derive (this t : Ty) : Option Ty :=
  if this = .null then some t else if t = .null then some this else if t = this then some t else none

/-- emit_push, emit_expr.c:1257-1363: constants, precomputed values and variables are pushed directly; anything else is
computed by `em` (the code for the expression) and pushed from its register -/
def emitPush (S : Sig) (e : Expr) (em : CS → Option (CS × Nat)) (c : CS) : Option (CS × Ty) :=
  match e with
  | .const v => some (c.op (.pushc v false), v.ty)
  | .value v own => some (c.op (.pushc v own), v.ty)
  | .var n => some (c.op (.pushvar n), S.varTy n)
  | _ => (em c).bind fun p => some ((p.1.op (.push p.2)).unpin p.2, p.1.rtype p.2)

/-- the type of a CASE after one more THEN or ELSE, emit_expr.c:775-782 and 802-808 -/
def caseType (rres rthen : Nat) (c : CS) : Option CS :=
  if c.rtype rres = .null then some (c.assign rres (c.rtype rthen))
  else if c.rtype rres ≠ c.rtype rthen ∧ c.rtype rthen ≠ .null then none
  else some c

/-- THEN or ELSE moved into the result -/
def caseMove (rres rthen : Nat) (c : CS) : Option CS :=
  (caseType rres rthen c).bind fun c => some ((c.op (.mov rres rthen)).unpin rthen)

/-- op_set_jmp of all jumps to the end, emit_expr.c:815-817 -/
def patchAll (js : List Nat) (t : Nat) (c : CS) : CS := js.foldl (fun c j => c.patch j t) c

mutual
/-- emit_expr, emit_expr.c:954-1254 -/
def emit (S : Sig) : Expr → CS → Option (CS × Nat)
  | .const v, c => some (c.oppin v.ty fun r => .const r v)
  | .value v own, c => some (c.oppin v.ty fun r => .value r v own)
  | .var n, c => some (c.oppin (S.varTy n) fun r => .var r n)
  -- emit_column, emit_expr.c:97-210, of a table; the cursor is open
  | .col t n, c => (S.cursor t).bind fun rc => some (c.oppin (S.colTy t n) fun r => .col r rc n)
  -- emit_json, emit_expr.c:50-76
  | .array args, c => (emitArgs S args c []).bind fun p => some (p.1.oppin .json fun r => .array r p.2.length)
  | .object args, c => (emitArgs S args c []).bind fun p => some (p.1.oppin .json fun r => .object r p.2.length)
  -- emit_operator, emit_expr.c:497-503
  | .bin o l r, c => (emit S l c).bind fun p => (emit S r p.1).bind fun q => castOperator o p.2 q.2 q.1
  | .nequ l r, c => (emit S l c).bind fun p => (emit S r p.1).bind fun q =>
      (castOperator (.cmp .equ) p.2 q.2 q.1).bind fun x => some (x.1.notOf x.2)
  | .like neg l r, c => (emit S l c).bind fun p => (emit S r p.1).bind fun q =>
      (castOperator .like p.2 q.2 q.1).bind fun x => if neg then some (x.1.notOf x.2) else some x
  | .and l r, c => (emit S l c).bind fun p => (emit S r p.1).bind fun q =>
      some (q.1.bi .bool (fun a => .and a p.2 q.2) p.2 q.2)
  | .or l r, c => (emit S l c).bind fun p => (emit S r p.1).bind fun q =>
      some (q.1.bi .bool (fun a => .or a p.2 q.2) p.2 q.2)
  | .not e, c => (emit S e c).bind fun p => some (p.1.notOf p.2)
  -- KNEG and '~', emit_expr.c:1143-1177
  | .neg e, c => (emit S e c).bind fun p =>
      if p.1.rtype p.2 = .int then some (p.1.un .int (fun a => .negI a p.2) p.2)
      else if p.1.rtype p.2 = .double then some (p.1.un .double (fun a => .negF a p.2) p.2)
      else if p.1.rtype p.2 = .interval then some (p.1.un .interval (fun a => .negL a p.2) p.2)
      else none
  | .inv e, c => (emit S e c).bind fun p =>
      if p.1.rtype p.2 = .int then some (p.1.un .int (fun a => .inv a p.2) p.2) else none
  -- emit_func, emit_expr.c:606-637
  | .call f args, c => (emitArgs S args c []).bind fun p =>
      (if S.fnDerive f then p.2.foldlM (fun t this => derive this t) (S.fnTy f) else some (S.fnTy f)).bind fun t =>
        some (p.1.oppin t fun r => .call r f p.2.length)
  -- emit_case, emit_expr.c:718-821
  | .case ws els, c =>
      (emitWhens S (c.pin .null).2 none ws (c.pin .null).1 []).bind fun p =>
      (emit S els p.1).bind fun q => (caseMove (c.pin .null).2 q.2 q.1).bind fun d =>
        some (patchAll p.2 d.code.length d, (c.pin .null).2)
  | .caseOf e ws els, c =>
      (emitWhens S (c.pin .null).2 (some (emit S e)) ws (c.pin .null).1 []).bind fun p =>
      (emit S els p.1).bind fun q => (caseMove (c.pin .null).2 q.2 q.1).bind fun d =>
        some (patchAll p.2 d.code.length d, (c.pin .null).2)
  -- emit_between, emit_expr.c:676-716: `e >= x AND e <= y`, the code for `e` twice
  | .between neg e x y, c =>
      (emit S e c).bind fun p => (emit S x p.1).bind fun q => (castOperator (.cmp .gte) p.2 q.2 q.1).bind fun g =>
      (emit S e g.1).bind fun p' => (emit S y p'.1).bind fun q' => (castOperator (.cmp .lte) p'.2 q'.2 q'.1).bind fun l =>
        if neg then
          some ((l.1.bi .bool (fun a => .and a g.2 l.2) g.2 l.2).1.notOf (l.1.bi .bool (fun a => .and a g.2 l.2) g.2 l.2).2)
        else some (l.1.bi .bool (fun a => .and a g.2 l.2) g.2 l.2)
  -- emit_is, emit_expr.c:823-841
  | .isNull neg e, c => (emit S e c).bind fun p =>
      if neg then some ((p.1.un .bool (fun a => .is a p.2) p.2).1.notOf (p.1.un .bool (fun a => .is a p.2) p.2).2)
      else some (p.1.un .bool (fun a => .is a p.2) p.2)
  -- emit_in, emit_expr.c:843-884
  | .inlist neg e args, c => (emit S e c).bind fun p => (emitArgs S args p.1 []).bind fun q =>
      if neg then
        some ((q.1.un .bool (fun a => .inlist a p.2 q.2.length) p.2).1.notOf
          (q.1.un .bool (fun a => .inlist a p.2 q.2.length) p.2).2)
      else some (q.1.un .bool (fun a => .inlist a p.2 q.2.length) p.2)
  -- emit_match, emit_expr.c:886-935
  | .quant all k a b, c => (emit S a c).bind fun p => (emit S b p.1).bind fun q =>
      some (q.1.bi .bool (fun r => .quant all k r p.2 q.2) p.2 q.2)
/-- the loop that pushes arguments and collects their types -/
def emitArgs (S : Sig) : Args → CS → List Ty → Option (CS × List Ty)
  | .nil, c, ts => some (c, ts)
  | .cons e rest, c, ts => (emitPush S e (emit S e) c).bind fun p => emitArgs S rest p.1 (ts ++ [p.2])
/-- the loop of emit_case, emit_expr.c:749-794: `opd` is the code for the expression after CASE, if there is one; `js` are
the positions of the jumps to the end -/
def emitWhens (S : Sig) (rres : Nat) (opd : Option (CS → Option (CS × Nat))) :
    Whens → CS → List Nat → Option (CS × List Nat)
  | .nil, c, js => some (c, js)
  | .cons w t rest, c, js =>
      (opd.elim (emit S w c) fun em =>
        (em c).bind fun p => (emit S w p.1).bind fun q => castOperator (.cmp .equ) p.2 q.2 q.1).bind fun k =>
      (emit S t (k.1.op (.jntr 0 k.2))).bind fun q => (caseMove rres q.2 q.1).bind fun d =>
        emitWhens S rres opd rest
          (((d.op (.jmp 0)).patch k.1.code.length (d.code.length + 1)).unpin k.2) (js ++ [d.code.length])
end

end Verif.Compile
