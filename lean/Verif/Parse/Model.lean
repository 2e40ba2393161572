import Verif.Common
/-!
# The expression parser: compiler/parser/parse_expr.c

Tokens come from the lexer as a list. What an expression node is remembered as (positions, name lists, constant folding of functions) is
left out; so are sub-queries, CASE, CAST, EXTRACT, aggregates, objects, lambdas, methods and paths.
-/
set_option linter.unusedVariables false
namespace Verif.Parse
open Verif

/-- the plain binary operators -/
inductive BinOp where
  | or | and | eq | neq | gte | lte | gt | lt | bor | xor | band | shl | shr | add | sub | cat | mul | div | mod
deriving DecidableEq, Repr

inductive UnOp where
  | not | neg | tilde
deriving DecidableEq, Repr

/-- the tokens (ast.h, keyword.h). `val`: a constant (NULL, string, TRUE, FALSE), by number; `int`: an integer literal; `real`: a real literal, by sign and
number (the lexer gives only positive ones); `name`: an
identifier; `op .sub` is the minus sign; `atTz`: the words AT TIMEZONE; `stop`: any token with no priority (end of text, FROM, AS, ...) -/
inductive Tok where
  | val (n : Nat) | int (i : Int) | real (neg : Bool) (n : Nat) | name (n : Nat)
  | lp | rp | lb | rb | comma
  | op (o : BinOp) | not | tilde
  | between | is | like | inn | atTz | any | all | stop
deriving DecidableEq, Repr

/-- an operator on the stack -/
inductive OpId where
  | un (u : UnOp) | bin (o : BinOp) | any | all | between (pos : Bool) | is (pos : Bool) | like (pos : Bool) | inn (pos : Bool)
  | atTz | index
deriving DecidableEq, Repr

/-- the expression tree, ast.h: `two id l r` is a node with both sides, `half o e` the operator inside ANY/ALL with only a right side -/
inductive Ast where
  | val (n : Nat) | int (i : Int) | real (neg : Bool) (n : Nat) | name (n : Nat)
  | one (u : UnOp) (l : Ast)
  | two (id : OpId) (l r : Ast)
  | half (o : BinOp) (r : Ast)
  | call (n : Nat) (args : List Ast)
  | array (args : List Ast)
  | args (args : List Ast)

/-- priority_map, parse_expr.c:22-66 -/
def BinOp.prio : BinOp → Nat
  | .or => 1
  | .and => 2
  | .eq | .neq => 3
  | .gte | .lte | .gt | .lt => 4
  | .bor => 5
  | .xor => 6
  | .band => 7
  | .shl | .shr => 8
  | .add | .sub | .cat => 9
  | .mul | .div | .mod => 10

/-- the operators that may be followed by ANY or ALL, parse_expr.c:943-948 -/
def BinOp.isCmp : BinOp → Bool
  | .eq | .neq | .gte | .lte | .gt | .lt => true
  | _ => false

/-- an entry of the operator stack: Ast.priority and Ast.id -/
abbrev Entry := Nat × OpId

/-- expr_pop, parse_expr.c:106-136: the operator takes one or two results -/
def popOp : OpId → List Ast → Res (List Ast)
  | .un u, l :: res => .ok (.one u l :: res)
  | .un _, [] => .error .err
  | id, r :: l :: res => .ok (.two id l r :: res)
  | _, _ => .error .err

/-- expr_operator, parse_expr.c:138-154 -/
def pushOp (p : Nat) (id : OpId) : List Entry → List Ast → Res (List Entry × List Ast)
  | [], res => .ok ([(p, id)], res)
  | (q, h) :: ops, res =>
    if p ≤ q then (popOp h res).bind fun res => pushOp p id ops res
    else .ok ((p, id) :: (q, h) :: ops, res)

/-- `while (ast_head(&ops)) expr_pop`, parse_expr.c:1141-1142 -/
def collapse : List Entry → List Ast → Res (List Ast)
  | [], res => .ok res
  | (_, h) :: ops, res => (popOp h res).bind fun res => collapse ops res

/-- a result that is pushed back is a token again. For a node with sides this is outside the model. -/
def Ast.back : Ast → Option Tok
  | .val n => some (.val n)
  | .int i => some (.int i)
  | .real b n => some (.real b n)
  | .name n => some (.name n)
  | _ => none

/-- the end of parse_expr, parse_expr.c:1141-1165: the first result is the expression, the rest goes back to the lexer -/
def finish (ops : List Entry) (res : List Ast) (ts : List Tok) : Res (Ast × List Tok) :=
  (collapse ops res).bind fun res =>
    match res.reverse with
    | [] => .error .err
    | e :: more =>
      match more.mapM Ast.back with
      | some back => .ok (e, back ++ ts)
      | none => .error .ub

/-- stmt_expect -/
def expect (t : Tok) : List Tok → Res (List Tok)
  | x :: ts => if x = t then .ok ts else .error .err
  | [] => .error .err

/-- a minus sign before a number makes one literal, parse_expr.c:863-879 -/
def negLit : List Tok → Option Ast
  | .int i :: _ => some (.int (-i))
  | .real b n :: _ => some (.real (!b) n)
  | _ => none

mutual
/-- parse_expr, parse_expr.c:1092-1139, with expr_value (610-840), parse_unary (845-895) and parse_op (897-1090). `ao`: Expr.and_or;
`ops`, `res`: the two stacks, top first; `un`: unary. The first argument bounds the number of steps. -/
def loop : Nat → Bool → List Entry → List Ast → Bool → List Tok → Res (Ast × List Tok)
  | 0, _, _, _, _, _ => .error .ub
  | f + 1, ao, ops, res, un, ts =>
    match ts with
    | [] => finish ops res []
    | t :: r =>
      if ao = false ∧ (t = .op .and ∨ t = .op .or) then finish ops res (t :: r)
      else
      match t with
      -- values, expr_value
      | .val n => loop f ao ops (.val n :: res) false r
      | .int i => loop f ao ops (.int i :: res) false r
      | .real b n => loop f ao ops (.real b n :: res) false r
      | .name n =>
        if r.head? = some .lp then
          (args f ao .rp (r.drop 1)).bind fun x => loop f ao ops (.call n x.1 :: res) false x.2
        else loop f ao ops (.name n :: res) false r
      | .lp => (loop f ao [] [] true r).bind fun x => (expect .rp x.2).bind fun r => loop f ao ops (x.1 :: res) false r
      -- operators
      | .lb =>
        if un then (args f ao .rb r).bind fun x => loop f ao ops (.array x.1 :: res) false x.2
        else
          (pushOp 12 .index ops res).bind fun s =>
          (loop f ao [] [] true r).bind fun x => (expect .rb x.2).bind fun r => loop f ao s.1 (x.1 :: s.2) false r
      | .not =>
        if un then (pushOp 11 (.un .not) ops res).bind fun s => loop f ao s.1 s.2 false r
        else if r.head? = some .between then between f ao false ops res (r.drop 1)
        else if r.head? = some .inn then inList f ao false ops res (r.drop 1)
        else if r.head? = some .like then right f ao 3 (.like false) ops res (r.drop 1)
        else .error .err
      | .tilde => (pushOp 11 (.un .tilde) ops res).bind fun s => loop f ao s.1 s.2 (!un) r
      | .op o =>
        if un then
          if o = .sub then
            (negLit r).elim ((pushOp 11 (.un .neg) ops res).bind fun s => loop f ao s.1 s.2 false r)
              (fun e => loop f ao ops (e :: res) false (r.drop 1))
          else .error .err
        else
          (pushOp o.prio (.bin o) ops res).bind fun s =>
          if o.isCmp ∧ (r.head? = some .any ∨ r.head? = some .all) then
            (expect .lp (r.drop 1)).bind fun r1 =>
            (loop f ao [] [] true r1).bind fun x => (expect .rp x.2).bind fun r2 =>
            loop f ao ((o.prio, if r.head? = some .any then .any else .all) :: s.1.drop 1) (.half o x.1 :: s.2) true r2
          else loop f ao s.1 s.2 true r
      | .between => if un then .error .err else between f ao true ops res r
      | .is =>
        if un then .error .err
        else (pushOp 3 (.is (r.head? ≠ some .not)) ops res).bind fun s =>
          loop f ao s.1 s.2 false (if r.head? = some .not then r.drop 1 else r)
      | .like => if un then .error .err else right f ao 3 (.like true) ops res r
      | .inn => if un then .error .err else inList f ao true ops res r
      | .atTz => if un then .error .err else right f ao 4 .atTz ops res r
      -- no priority
      | .rp => finish ops res (.rp :: r)
      | .rb => finish ops res (.rb :: r)
      | .comma => finish ops res (.comma :: r)
      | .any => finish ops res (.any :: r)
      | .all => finish ops res (.all :: r)
      | .stop => finish ops res (.stop :: r)

/-- `expr LIKE pattern`, `expr AT TIMEZONE expr`: the right side is a whole expression, parse_expr.c:1011-1018, 1028-1035 -/
def right : Nat → Bool → Nat → OpId → List Entry → List Ast → List Tok → Res (Ast × List Tok)
  | 0, _, _, _, _, _, _ => .error .ub
  | f + 1, ao, p, id, ops, res, r =>
    (pushOp p id ops res).bind fun s =>
    (loop f ao [] [] true r).bind fun x => loop f ao s.1 (x.1 :: s.2) false x.2

/-- `expr [NOT] BETWEEN expr AND expr`, parse_expr.c:972-1000: both sides are read without AND and OR -/
def between : Nat → Bool → Bool → List Entry → List Ast → List Tok → Res (Ast × List Tok)
  | 0, _, _, _, _, _ => .error .ub
  | f + 1, ao, pos, ops, res, r =>
    (pushOp 4 (.between pos) ops res).bind fun s =>
    (loop f false [] [] true r).bind fun x => (expect (.op .and) x.2).bind fun r =>
    (loop f false [] [] true r).bind fun y =>
    loop f ao s.1 (.two (.bin .and) x.1 y.1 :: s.2) false y.2

/-- `expr [NOT] IN (value, ...)`, parse_expr.c:1019-1027 -/
def inList : Nat → Bool → Bool → List Entry → List Ast → List Tok → Res (Ast × List Tok)
  | 0, _, _, _, _, _ => .error .ub
  | f + 1, ao, pos, ops, res, r =>
    (pushOp 4 (.inn pos) ops res).bind fun s =>
    (expect .lp r).bind fun r => (args f ao .rp r).bind fun x => loop f ao s.1 (.args x.1 :: s.2) false x.2

/-- parse_expr_args without the separator of objects, parse_expr.c:195-240 -/
def args : Nat → Bool → Tok → List Tok → Res (List Ast × List Tok)
  | 0, _, _, _ => .error .ub
  | f + 1, ao, fin, ts => if ts.head? = some fin then .ok ([], ts.drop 1) else argsLoop f ao fin ts

def argsLoop : Nat → Bool → Tok → List Tok → Res (List Ast × List Tok)
  | 0, _, _, _ => .error .ub
  | f + 1, ao, fin, ts =>
    (loop f ao [] [] true ts).bind fun x =>
    if x.2.head? = some .comma then (argsLoop f ao fin (x.2.drop 1)).bind fun y => .ok (x.1 :: y.1, y.2)
    else (expect fin x.2).bind fun r => .ok ([x.1], r)
end

/-- parse_expr on the tokens `ts` -/
def parseExpr (ts : List Tok) : Res (Ast × List Tok) := loop (3 * ts.length + 3) true [] [] true ts

end Verif.Parse
