import Verif.Compile.Model
/-!
# What an expression means

The value of an expression, by recursion on its syntax tree: operators look at the values they are given (not at types
the compiler inferred), operands are evaluated once, from left to right, and nothing is said about registers, code or
stacks. `Except.error .err` means an error is reported; `.error .ub` marks the operations that have no result (the quotient of
the minimum by -1, a shift by a count outside 0..63, the negation of the minimum, the truth of an interval).
-/
namespace Verif.Compile
open Verif.Query (CmpOp)

variable {W : Type}

/-- the number in a bool, int, date or timestamp -/
def num : Val → Option Int
  | .bool i => some i | .int i => some i | .date i => some i | .timestamp i => some i
  | _ => none

/-- comparison of two values: numbers by value (an integer against a double as a double), values of one type by their
order; anything else cannot be compared -/
def compareVals (P : Prims) (k : CmpOp) (a b : Val) : Except Stop Bool :=
  match a, b with
  | .dbl x, .dbl y => .ok (fcmp k x y)
  | .dbl x, b => (num b).elim (.error .err) fun y => .ok (fcmp k x (P.ofInt y))
  | .str x, .str y => .ok (k.test (Query.cmpS x y))
  | .json x, .json y => .ok (k.test (P.cmpJ x y))
  | .vector x, .vector y => .ok (k.test (P.cmpV x y))
  | .interval x, .interval y => .ok (k.test (vcompare P (.interval x) (.interval y)))
  | .uuid x y, .uuid x' y' => .ok (k.test (vcompare P (.uuid x y) (.uuid x' y')))
  | a, .dbl y => (num a).elim (.error .err) fun x => .ok (fcmp k (P.ofInt x) y)
  | a, b => (num a).elim (.error .err) fun x => (num b).elim (.error .err) fun y => .ok (k.test (Query.cmpI x y))

/-- `a o b` for two values that are not NULL -/
def applyOp (P : Prims) (o : Op) (a b : Val) : Except Stop Val :=
  match o, a, b with
  | .cmp k, a, b => (compareVals P k a b).map vbool
  | .add, .int x, .int y => (orErr (fits (x + y))).map .int
  | .add, .int x, .dbl y => (orErr (P.fadd (P.ofInt x) y)).map .dbl
  | .add, .dbl x, .int y => (orErr (P.fadd x (P.ofInt y))).map .dbl
  | .add, .dbl x, .dbl y => (orErr (P.fadd x y)).map .dbl
  | .add, .timestamp x, .interval y => (orErr (P.tsAdd x y)).map .timestamp
  | .add, .interval y, .timestamp x => (orErr (P.tsAdd x y)).map .timestamp
  | .add, .interval x, .interval y => (orErr (P.ivAdd x y)).map .interval
  | .add, .date x, .int y => (orErr (P.dateAdd x y)).map .date
  | .add, .int y, .date x => (orErr (P.dateAdd x y)).map .date
  | .add, .date x, .interval y => (orErr (P.dateAddIv x y)).map .timestamp
  | .add, .interval y, .date x => (orErr (P.dateAddIv x y)).map .timestamp
  | .add, .vector x, .vector y => (orErr (P.vecAdd x y)).map .vector
  | .sub, .int x, .int y => (orErr (fits (x - y))).map .int
  | .sub, .int x, .dbl y => (orErr (P.fsub (P.ofInt x) y)).map .dbl
  | .sub, .dbl x, .int y => (orErr (P.fsub x (P.ofInt y))).map .dbl
  | .sub, .dbl x, .dbl y => (orErr (P.fsub x y)).map .dbl
  | .sub, .timestamp x, .interval y => (orErr (P.tsSub x y)).map .timestamp
  | .sub, .timestamp x, .timestamp y => .ok (.interval (P.tsDiff x y))
  | .sub, .interval x, .interval y => (orErr (P.ivSub x y)).map .interval
  | .sub, .date x, .int y => (orErr (P.dateSub x y)).map .date
  | .sub, .date x, .interval y => (orErr (P.dateSubIv x y)).map .timestamp
  | .sub, .date x, .date y => (orErr (fits (x - y))).map .int
  | .sub, .vector x, .vector y => (orErr (P.vecSub x y)).map .vector
  | .mul, .int x, .int y => (orErr (fits (x * y))).map .int
  | .mul, .int x, .dbl y => (orErr (P.fmul (P.ofInt x) y)).map .dbl
  | .mul, .dbl x, .int y => (orErr (P.fmul x (P.ofInt y))).map .dbl
  | .mul, .dbl x, .dbl y => (orErr (P.fmul x y)).map .dbl
  | .mul, .vector x, .vector y => (orErr (P.vecMul x y)).map .vector
  | .div, .int x, .int y =>
      if y = 0 then .error .err else if x = i64min ∧ y = -1 then .error .ub else .ok (.int (Int.tdiv x y))
  | .div, .int x, .dbl y => if isZero y then .error .err else (orErr (P.fdiv (P.ofInt x) y)).map .dbl
  | .div, .dbl x, .int y => if y = 0 then .error .err else (orErr (P.fdiv x (P.ofInt y))).map .dbl
  | .div, .dbl x, .dbl y => if isZero y then .error .err else (orErr (P.fdiv x y)).map .dbl
  | .mod, .int x, .int y =>
      if y = 0 then .error .err else if x = i64min ∧ y = -1 then .error .ub else .ok (.int (Int.tmod x y))
  | .cat, .str x, .str y => .ok (.str (x ++ y))
  | .idx, .json x, .str y => (orErr (P.jsonKey x y)).map jsonOr
  | .idx, .json x, .int y => (orErr (P.jsonAt x y)).map jsonOr
  | .idx, .vector x, .int y => if y < 0 ∨ (x.length : Int) ≤ y then .error .err else .ok (.dbl (x.getD y.toNat 0))
  | .dot, .json x, .str y => (orErr (P.jsonPath x y)).map jsonOr
  | .like, .str x, .str y => (orErr (P.like x y)).map vbool
  | .bor, .int x, .int y => .ok (.int (bits x ||| bits y).toInt)
  | .band, .int x, .int y => .ok (.int (bits x &&& bits y).toInt)
  | .bxor, .int x, .int y => .ok (.int (bits x ^^^ bits y).toInt)
  | .bshl, .int x, .int y => if y < 0 ∨ 64 ≤ y then .error .ub else .ok (.int (bits x <<< y.toNat).toInt)
  | .bshr, .int x, .int y => if y < 0 ∨ 64 ≤ y then .error .ub else .ok (.int ((bits x).sshiftRight y.toNat).toInt)
  | _, _, _ => .error .err

/-- `a o b`: NULL if one of them is NULL -/
def binSem (P : Prims) (o : Op) (a b : Val) : Except Stop Val :=
  if a = .null ∨ b = .null then .ok .null else applyOp P o a b

/-- NOT: NULL for NULL -/
def notSem (a : Val) : Except Stop Val := if a = .null then .ok .null else (isTrue a).map fun x => vbool (!x)
/-- AND: NULL if one side is NULL (Query.vAnd) -/
def andSem (a b : Val) : Except Stop Val :=
  if a = .null ∨ b = .null then .ok .null
  else (isTrue a).bind fun x => (if x then isTrue b else .ok false).map vbool
/-- OR: NULL if both sides are NULL (Query.vOr) -/
def orSem (a b : Val) : Except Stop Val :=
  if a = .null ∧ b = .null then .ok .null
  else (isTrue a).bind fun x => (if x then .ok true else isTrue b).map vbool
/-- - and ~ -/
def negSem (P : Prims) : Val → Except Stop Val
  | .null => .ok .null
  | .int x => if x = i64min then .error .ub else .ok (.int (-x))
  | .dbl x => .ok (.dbl (P.fneg x))
  | .interval x => .ok (.interval (P.ivNeg x))
  | _ => .error .err
def invSem : Val → Except Stop Val
  | .null => .ok .null
  | .int x => .ok (.int (~~~ (bits x)).toInt)
  | _ => .error .err
/-- ANY and ALL over a JSON array -/
def quantSem (P : Prims) (all : Bool) (k : CmpOp) : Val → Val → Except Stop Val
  | .null, _ => .ok .null
  | _, .null => .ok .null
  | a, .json j => (orErr (P.quant all k a j)).map vopt
  | _, _ => .error .err

/-- `x` or NOT `x` -/
def notIf (neg : Bool) (v : Val) : Except Stop Val := if neg then notSem v else .ok v

/-- the state of the world kept -/
def keep (w : W) (r : Except Stop Val) : Except Stop (Val × W) := r.map fun v => (v, w)

mutual
/-- the value of an expression over a row and variables -/
def eval (E : Sem W) (vars : List Val) : Expr → W → Except Stop (Val × W)
  | .const v, w => .ok (v, w)
  | .value v _, w => .ok (v, w)
  | .var n, w => .ok (vars.getD n .null, w)
  | .col t n, w => (E.row t n).elim (.error .ub) fun v => .ok (v, w)
  | .array args, w => (evalArgs E vars args w).bind fun p => keep p.2 ((orErr (E.P.array p.1)).map .json)
  | .object args, w => (evalArgs E vars args w).bind fun p => keep p.2 ((orErr (E.P.object p.1)).map .json)
  | .bin o l r, w => (eval E vars l w).bind fun p => (eval E vars r p.2).bind fun q => keep q.2 (binSem E.P o p.1 q.1)
  | .nequ l r, w => (eval E vars l w).bind fun p => (eval E vars r p.2).bind fun q =>
      keep q.2 ((binSem E.P (.cmp .equ) p.1 q.1).bind notSem)
  | .like neg l r, w => (eval E vars l w).bind fun p => (eval E vars r p.2).bind fun q =>
      keep q.2 ((binSem E.P .like p.1 q.1).bind (notIf neg))
  | .and l r, w => (eval E vars l w).bind fun p => (eval E vars r p.2).bind fun q => keep q.2 (andSem p.1 q.1)
  | .or l r, w => (eval E vars l w).bind fun p => (eval E vars r p.2).bind fun q => keep q.2 (orSem p.1 q.1)
  | .not e, w => (eval E vars e w).bind fun p => keep p.2 (notSem p.1)
  | .neg e, w => (eval E vars e w).bind fun p => keep p.2 (negSem E.P p.1)
  | .inv e, w => (eval E vars e w).bind fun p => keep p.2 (invSem p.1)
  | .call f args, w => (evalArgs E vars args w).bind fun p => orErr (E.fn f p.2 p.1)
  | .case ws els, w => (evalWhens E vars none ws w).bind fun p =>
      p.1.elim (eval E vars els p.2) fun v => .ok (v, p.2)
  -- the expression after CASE is evaluated once (not at all if there is no WHEN)
  | .caseOf _ .nil els, w => eval E vars els w
  | .caseOf e (.cons c t rest) els, w => (eval E vars e w).bind fun o =>
      (evalWhens E vars (some o.1) (.cons c t rest) o.2).bind fun p =>
      p.1.elim (eval E vars els p.2) fun v => .ok (v, p.2)
  -- e >= x AND e <= y, with e evaluated once
  | .between neg e x y, w => (eval E vars e w).bind fun o => (eval E vars x o.2).bind fun p =>
      (binSem E.P (.cmp .gte) o.1 p.1).bind fun g =>
      (eval E vars y p.2).bind fun q => keep q.2
        ((binSem E.P (.cmp .lte) o.1 q.1).bind fun l => (andSem g l).bind (notIf neg))
  | .isNull neg e, w => (eval E vars e w).bind fun p => keep p.2 (notIf neg (vbool (decide (p.1 = .null))))
  | .inlist neg e args, w => (eval E vars e w).bind fun o => (evalArgs E vars args o.2).bind fun p =>
      keep p.2 (notIf neg (valueIn E.P o.1 p.1))
  | .quant all k a b, w => (eval E vars a w).bind fun p => (eval E vars b p.2).bind fun q =>
      keep q.2 (quantSem E.P all k p.1 q.1)
/-- arguments, from left to right -/
def evalArgs (E : Sem W) (vars : List Val) : Args → W → Except Stop (List Val × W)
  | .nil, w => .ok ([], w)
  | .cons e rest, w => (eval E vars e w).bind fun p => (evalArgs E vars rest p.2).bind fun q => .ok (p.1 :: q.1, q.2)
/-- the THEN of the first WHEN that holds (that equals the operand, if there is one); none if none does -/
def evalWhens (E : Sem W) (vars : List Val) (opd : Option Val) : Whens → W → Except Stop (Option Val × W)
  | .nil, w => .ok (none, w)
  | .cons c t rest, w => (eval E vars c w).bind fun p =>
      ((opd.elim (.ok p.1) fun o => binSem E.P (.cmp .equ) o p.1).bind isTrue).bind fun holds =>
      if holds then (eval E vars t p.2).bind fun q => .ok (some q.1, q.2) else evalWhens E vars opd rest p.2
end

/-! ## The expressions the theorem speaks about -/

/-- a function that does not depend on the world and does not change it -/
def PureFn (fn : Nat → W → List Val → Option (Val × W)) (f : Nat) : Prop :=
  ∃ g : List Val → Option Val, ∀ w a, fn f w a = (g a).map fun v => (v, w)

mutual
/-- only such functions are called -/
def Expr.Pure (fn : Nat → W → List Val → Option (Val × W)) : Expr → Prop
  | .const _ | .value _ _ | .var _ | .col _ _ => True
  | .array a => a.Pure fn
  | .object a => a.Pure fn
  | .bin _ l r => l.Pure fn ∧ r.Pure fn
  | .nequ l r => l.Pure fn ∧ r.Pure fn
  | .like _ l r => l.Pure fn ∧ r.Pure fn
  | .and l r => l.Pure fn ∧ r.Pure fn
  | .or l r => l.Pure fn ∧ r.Pure fn
  | .not e => e.Pure fn
  | .neg e => e.Pure fn
  | .inv e => e.Pure fn
  | .call f a => PureFn fn f ∧ a.Pure fn
  | .case ws e => ws.Pure fn ∧ e.Pure fn
  | .caseOf o ws e => o.Pure fn ∧ ws.Pure fn ∧ e.Pure fn
  | .between _ e x y => e.Pure fn ∧ x.Pure fn ∧ y.Pure fn
  | .isNull _ e => e.Pure fn
  | .inlist _ e a => e.Pure fn ∧ a.Pure fn
  | .quant _ _ a b => a.Pure fn ∧ b.Pure fn
def Args.Pure (fn : Nat → W → List Val → Option (Val × W)) : Args → Prop
  | .nil => True
  | .cons e r => e.Pure fn ∧ r.Pure fn
def Whens.Pure (fn : Nat → W → List Val → Option (Val × W)) : Whens → Prop
  | .nil => True
  | .cons c t r => c.Pure fn ∧ t.Pure fn ∧ r.Pure fn
end

/-- a LIKE, whose value is a truth value although its type is recorded as text (cast.c:318-322) -/
def Expr.isLike : Expr → Prop
  | .like false _ _ => True
  | .bin .like _ _ => True
  | _ => False

/-- no argument is a LIKE -/
def Args.NoLike : Args → Prop
  | .nil => True
  | .cons e r => ¬ e.isLike ∧ r.NoLike

mutual
/-- no LIKE where the type of an operand matters (operands of operators, BETWEEN, CASE values, arguments of functions
that derive their type), and no volatile function in the parts the engine evaluates more than once (the operands of
BETWEEN and CASE) -/
def Expr.Ok (fn : Nat → W → List Val → Option (Val × W)) (fd : Nat → Bool) : Expr → Prop
  | .const _ | .value _ _ | .var _ | .col _ _ => True
  | .array a => a.Ok fn fd
  | .object a => a.Ok fn fd
  | .bin _ l r => l.Ok fn fd ∧ r.Ok fn fd ∧ ¬ l.isLike ∧ ¬ r.isLike
  | .nequ l r => l.Ok fn fd ∧ r.Ok fn fd ∧ ¬ l.isLike ∧ ¬ r.isLike
  | .like _ l r => l.Ok fn fd ∧ r.Ok fn fd ∧ ¬ l.isLike ∧ ¬ r.isLike
  | .and l r => l.Ok fn fd ∧ r.Ok fn fd
  | .or l r => l.Ok fn fd ∧ r.Ok fn fd
  | .not e => e.Ok fn fd
  | .neg e => e.Ok fn fd ∧ ¬ e.isLike
  | .inv e => e.Ok fn fd ∧ ¬ e.isLike
  | .call f a => a.Ok fn fd ∧ (fd f = true → a.NoLike)
  | .case ws e => ws.Ok fn fd False ∧ e.Ok fn fd ∧ ¬ e.isLike
  | .caseOf o ws e => o.Ok fn fd ∧ ¬ o.isLike ∧ o.Pure fn ∧ ws.Ok fn fd True ∧ e.Ok fn fd ∧ ¬ e.isLike
  | .between _ e x y => e.Ok fn fd ∧ x.Ok fn fd ∧ y.Ok fn fd ∧ ¬ e.isLike ∧ ¬ x.isLike ∧ ¬ y.isLike ∧ e.Pure fn
  | .isNull _ e => e.Ok fn fd
  | .inlist _ e a => e.Ok fn fd ∧ a.Ok fn fd
  | .quant _ _ a b => a.Ok fn fd ∧ b.Ok fn fd
def Args.Ok (fn : Nat → W → List Val → Option (Val × W)) (fd : Nat → Bool) : Args → Prop
  | .nil => True
  | .cons e r => e.Ok fn fd ∧ r.Ok fn fd
/-- `opd`: the WHENs are compared with an operand -/
def Whens.Ok (fn : Nat → W → List Val → Option (Val × W)) (fd : Nat → Bool) (opd : Prop) : Whens → Prop
  | .nil => True
  | .cons c t r => c.Ok fn fd ∧ t.Ok fn fd ∧ (opd → ¬ c.isLike) ∧ ¬ t.isLike ∧ r.Ok fn fd opd
end

/-- the left side of IN owns no buffer: a constant, a column, or an expression of a type without buffers -/
def InPlain (S : Sig) (e : Expr) : Prop :=
  (∃ v, e = .const v) ∨ (∃ t n, e = .col t n) ∨
  (¬ e.isLike ∧ ∀ c c' r, emit S e c = some (c', r) → c'.rtype r ≠ .string ∧ c'.rtype r ≠ .json ∧ c'.rtype r ≠ .vector)

mutual
/-- and this wherever IN is used -/
def Expr.PlainIn (S : Sig) : Expr → Prop
  | .const _ | .value _ _ | .var _ | .col _ _ => True
  | .array a => a.PlainIn S
  | .object a => a.PlainIn S
  | .bin _ l r => l.PlainIn S ∧ r.PlainIn S
  | .nequ l r => l.PlainIn S ∧ r.PlainIn S
  | .like _ l r => l.PlainIn S ∧ r.PlainIn S
  | .and l r => l.PlainIn S ∧ r.PlainIn S
  | .or l r => l.PlainIn S ∧ r.PlainIn S
  | .not e => e.PlainIn S
  | .neg e => e.PlainIn S
  | .inv e => e.PlainIn S
  | .call _ a => a.PlainIn S
  | .case ws e => ws.PlainIn S ∧ e.PlainIn S
  | .caseOf o ws e => o.PlainIn S ∧ ws.PlainIn S ∧ e.PlainIn S
  | .between _ e x y => e.PlainIn S ∧ x.PlainIn S ∧ y.PlainIn S
  | .isNull _ e => e.PlainIn S
  | .inlist _ e a => e.PlainIn S ∧ InPlain S e ∧ a.PlainIn S
  | .quant _ _ a b => a.PlainIn S ∧ b.PlainIn S
def Args.PlainIn (S : Sig) : Args → Prop
  | .nil => True
  | .cons e r => e.PlainIn S ∧ r.PlainIn S
def Whens.PlainIn (S : Sig) : Whens → Prop
  | .nil => True
  | .cons c t r => c.PlainIn S ∧ t.PlainIn S ∧ r.PlainIn S
end

/-- the value has the type, or is NULL -/
def HasTy (v : Val) (t : Ty) : Prop := v = .null ∨ v.ty = t

/-- the rows, the variables and the functions have the types the compiler was told; the cursor of a table is at its row -/
structure Typed (E : Env W) (S : Sig) (vars : List Val) : Prop where
  col : ∀ t n v, E.row t n = some v → HasTy v (S.colTy t n)
  cursor : ∀ t rc n, S.cursor t = some rc → E.col rc n = E.row t n
  var : ∀ n, HasTy (vars.getD n .null) (S.varTy n)
  fn : ∀ f w a v w', S.fnDerive f = false → E.fn f w a = some (v, w') → HasTy v (S.fnTy f)
  derive : ∀ f w a v w' t, S.fnDerive f = true → (∀ x ∈ a, HasTy x t) → E.fn f w a = some (v, w') → HasTy v t

mutual
/-- the variables an expression names exist -/
def Expr.VarsOk (n : Nat) : Expr → Prop
  | .var i => i < n
  | .const _ | .value _ _ | .col _ _ => True
  | .array a => a.VarsOk n
  | .object a => a.VarsOk n
  | .bin _ l r => l.VarsOk n ∧ r.VarsOk n
  | .nequ l r => l.VarsOk n ∧ r.VarsOk n
  | .like _ l r => l.VarsOk n ∧ r.VarsOk n
  | .and l r => l.VarsOk n ∧ r.VarsOk n
  | .or l r => l.VarsOk n ∧ r.VarsOk n
  | .not e => e.VarsOk n
  | .neg e => e.VarsOk n
  | .inv e => e.VarsOk n
  | .call _ a => a.VarsOk n
  | .case ws e => ws.VarsOk n ∧ e.VarsOk n
  | .caseOf o ws e => o.VarsOk n ∧ ws.VarsOk n ∧ e.VarsOk n
  | .between _ e x y => e.VarsOk n ∧ x.VarsOk n ∧ y.VarsOk n
  | .isNull _ e => e.VarsOk n
  | .inlist _ e a => e.VarsOk n ∧ a.VarsOk n
  | .quant _ _ a b => a.VarsOk n ∧ b.VarsOk n
def Args.VarsOk (n : Nat) : Args → Prop
  | .nil => True
  | .cons e r => e.VarsOk n ∧ r.VarsOk n
def Whens.VarsOk (n : Nat) : Whens → Prop
  | .nil => True
  | .cons c t r => c.VarsOk n ∧ t.VarsOk n ∧ r.VarsOk n
end

end Verif.Compile
