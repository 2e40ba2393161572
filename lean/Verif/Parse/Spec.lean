import Verif.Parse.Model
/-!
# The grammar of expressions

Written without the parser: which token lists spell which tree. `Gr ao fol k ts e`: `ts` spells `e` and may stand where operators
of priority below `k` are around it (level `k`). Left and right of an operator of priority p stand levels p and p + 1: the operators of one
priority group to the left, a higher priority binds tighter. Parentheses bring any expression to any level.

`fol` says what may follow: any operator, only AND and OR, or nothing (the end, a closing bracket, a comma). `ao` is false inside the sides of
BETWEEN, where AND and OR may not appear.
-/
namespace Verif.Parse

inductive Fol where
  | any | andor | fin
deriving DecidableEq

/-- nothing that the expression could take may follow -/
def Closed (ao : Bool) (fol : Fol) : Prop := fol = .fin ∨ (ao = false ∧ fol = .andor)

/-- the precedence of the operators, from the weakest -/
def BinOp.level : BinOp → Nat
  | .or => 1
  | .and => 2
  | .eq | .neq => 3
  | .gt | .gte | .lt | .lte => 4
  | .bor => 5
  | .xor => 6
  | .band => 7
  | .shl | .shr => 8
  | .add | .sub | .cat => 9
  | .mul | .div | .mod => 10

/-- the comparisons -/
def BinOp.compares (o : BinOp) : Prop := o.level = 3 ∨ o.level = 4

def BinOp.isLogic (o : BinOp) : Bool := o = .and || o = .or

/-- what may follow the left side of an operator -/
def BinOp.leftFol (o : BinOp) : Fol := if o.isLogic then .andor else .any

/-- the tokens of a prefix operator -/
def UnOp.tok : UnOp → Tok
  | .not => .not
  | .neg => .op .sub
  | .tilde => .tilde

/-- what can stand after a prefix operator: a constant, a name, a parenthesis; a number after a minus sign would be read as one literal -/
def plain (u : UnOp) : List Tok → Bool
  | .val _ :: _ => true
  | .name _ :: _ => true
  | .lp :: _ => true
  | .int _ :: _ => u ≠ .neg
  | .real _ _ :: _ => u ≠ .neg
  | _ => false

/-- `not` or nothing -/
def notTok (pos : Bool) : List Tok := if pos then [] else [.not]

mutual
inductive Gr : Bool → Fol → Nat → List Tok → Ast → Prop
  | val {ao fol k} (n : Nat) : Gr ao fol k [.val n] (.val n)
  | int {ao fol k} (i : Int) : Gr ao fol k [.int i] (.int i)
  | real {ao fol k} (b : Bool) (n : Nat) : Gr ao fol k [.real b n] (.real b n)
  | name {ao fol k} (n : Nat) : Gr ao fol k [.name n] (.name n)
  | negInt {ao fol k} (i : Int) : k ≤ 11 → Gr ao fol k [.op .sub, .int i] (.int (-i))
  | negReal {ao fol k} (b : Bool) (n : Nat) : k ≤ 11 → Gr ao fol k [.op .sub, .real b n] (.real (!b) n)
  | paren {ao fol k ts e} : Gr ao .fin 0 ts e → Gr ao fol k (.lp :: (ts ++ [.rp])) e
  | call {ao fol k ts es} (n : Nat) : Args ao ts es → Gr ao fol k (.name n :: .lp :: (ts ++ [.rp])) (.call n es)
  | array {ao fol k ts es} : Args ao ts es → Gr ao fol k (.lb :: (ts ++ [.rb])) (.array es)
  | index {ao fol k ta a ti i} : k ≤ 12 → Gr ao .any 12 ta a → Gr ao .fin 0 ti i →
      Gr ao fol k (ta ++ .lb :: (ti ++ [.rb])) (.two .index a i)
  | un {ao fol k ts e} (u : UnOp) : k ≤ 11 → plain u ts = true → Gr ao fol 12 ts e → Gr ao fol k (u.tok :: ts) (.one u e)
  | bin {ao fol k ta a tb b} (o : BinOp) : k ≤ o.level → (ao = false → o.isLogic = false) →
      Gr ao o.leftFol o.level ta a → Gr ao fol (o.level + 1) tb b → Gr ao fol k (ta ++ .op o :: tb) (.two (.bin o) a b)
  | quant {ao fol k ta a tb b} (o : BinOp) (all : Bool) : k ≤ o.level → o.compares → Closed ao fol → Gr ao .any o.level ta a →
      Gr ao .fin 0 tb b → Gr ao fol k (ta ++ .op o :: (if all then .all else .any) :: .lp :: (tb ++ [.rp]))
        (.two (if all then .all else .any) a (.half o b))
  | is {ao fol k ta a} (pos : Bool) (n : Nat) : k ≤ 3 → Gr ao .any 3 ta a →
      Gr ao fol k (ta ++ .is :: (notTok pos ++ [.val n])) (.two (.is pos) a (.val n))
  | like {ao fol k ta a tb b} (pos : Bool) : k ≤ 3 → Closed ao fol → Gr ao .any 3 ta a → Gr ao fol 0 tb b →
      Gr ao fol k (ta ++ (notTok pos ++ .like :: tb)) (.two (.like pos) a b)
  | atTz {ao fol k ta a tb b} : k ≤ 4 → Closed ao fol → Gr ao .any 4 ta a → Gr ao fol 0 tb b →
      Gr ao fol k (ta ++ .atTz :: tb) (.two .atTz a b)
  | inn {ao fol k ta a ts es} (pos : Bool) : k ≤ 4 → Gr ao .any 4 ta a → Args ao ts es →
      Gr ao fol k (ta ++ (notTok pos ++ .inn :: .lp :: (ts ++ [.rp]))) (.two (.inn pos) a (.args es))
  | between {ao fol k ta a tl l th h} (pos : Bool) : k ≤ 4 → fol ≠ .any → Gr ao .any 4 ta a → Gr false .andor 0 tl l → Gr false .andor 0 th h →
      Gr ao fol k (ta ++ (notTok pos ++ .between :: (tl ++ .op .and :: th))) (.two (.between pos) a (.two (.bin .and) l h))

/-- the values between brackets -/
inductive Args : Bool → List Tok → List Ast → Prop
  | nil {ao} : Args ao [] []
  | some {ao ts es} : Args1 ao ts es → Args ao ts es

inductive Args1 : Bool → List Tok → List Ast → Prop
  | one {ao ts e} : Gr ao .fin 0 ts e → Args1 ao ts [e]
  | cons {ao ts e us es} : Gr ao .fin 0 ts e → Args1 ao us es → Args1 ao (ts ++ .comma :: us) (e :: es)
end

/-- an expression of SQL text as a whole -/
def Spells (ts : List Tok) (e : Ast) : Prop := Gr true .fin 0 ts e

end Verif.Parse
