import Verif.Dml.Model
import Verif.Index.TreeHistory
/-!
# What UPDATE, DELETE and INSERT … ON CONFLICT mean
-/
set_option autoImplicit false
namespace Verif.Dml
open Verif Verif.Row Verif.Index

/-- `name` is the name of column `i` (`c`): of the live columns, the first with this name, without case -/
def IsCol (cols : List Col) (name : Bytes) (i : Nat) (c : Col) : Prop :=
  cols[i]? = some c ∧ c.dropped = false ∧ Parse.Lex.isCase c.name name = true ∧
    ∀ j c', j < i → cols[j]? = some c' → c'.dropped = false → Parse.Lex.isCase c'.name name = false

/-- the column a SET is about: for `column.path` what is before the first dot -/
def SetOp.column (op : SetOp) : Bytes := if op.compound then op.target.takeWhile (· ≠ 46) else op.target

/-- the path of `column.path` -/
def SetOp.path (op : SetOp) : Bytes := (op.target.dropWhile (· ≠ 46)).drop 1

/-- a SET can be made for a column: a path needs a JSON column and a value; otherwise DEFAULT, NULL or a value of the type of the column -/
def Fits (c : Col) (op : SetOp) : Prop :=
  if op.compound then kindOf c.ty = .json ∧ ∃ e, op.rhs = .expr e
  else op.rhs = .dflt ∨ ∃ e, op.rhs = .expr e ∧ (e.kind = none ∨ e.kind = some (kindOf c.ty))

/-- a SET list the database takes: live columns that are not part of a key, none of them twice -/
structure Allowed (cols : List Col) (ops : List SetOp) : Prop where
  live : ∀ op ∈ ops, ∃ i c, IsCol cols op.column i c ∧ c.refs = 0 ∧ Fits c op
  once : ops.Pairwise fun a b => ∀ i c, ¬(IsCol cols a.column i c ∧ IsCol cols b.column i c)

/-- what a SET sets column `i` to: the value of the expression for the row as it was -/
def SetOp.Gives (op : SetOp) (fnSet : Val → Bytes → Val → Res Val) (i : Nat) (c : Col) (x : Ctx) (v : Val) : Prop :=
  match op.rhs with
  | .dflt => op.compound = false ∧ v = c.dflt
  | .expr e => if op.compound then ∃ w, e.ev x = .ok w ∧ fnSet ((x.cur[i]?).getD .null) op.path w = .ok v else e.ev x = .ok v

/-- a column takes the value `v` and then holds `y`: NULL only if it may be; integers are reduced to its width. (Not for identity columns.) -/
def Takes (c : Col) (v y : Val) : Prop :=
  c.identity = false ∧ ((v = .null ∧ c.notNull = false ∧ y = .null) ∨ (v ≠ .null ∧ (∃ bs, encodeTy c.ty v = .ok bs) ∧ y = narrow c.ty v))

/-- `new` is the row after the SETs: each column of a SET has what it gives, all others are as before -/
def UpdateTo (fnSet : Val → Bytes → Val → Res Val) (cols : List Col) (ops : List SetOp) (x : Ctx) (new : Tuple) : Prop :=
  new.length = cols.length ∧ ∀ (i : Nat) (c : Col), cols[i]? = some c →
    (∀ op ∈ ops, IsCol cols op.column i c → ∃ v y, op.Gives fnSet i c x v ∧ Takes c v y ∧ new[i]? = some y) ∧
    ((∀ op ∈ ops, ¬IsCol cols op.column i c) → new[i]? = some ((x.cur[i]?).getD .null))

/-- the WHERE clause is `b` for the row -/
def WhereIs (wh : Option Expr) (x : Ctx) (b : Bool) : Prop :=
  match wh with
  | none => b = true
  | some e => ∃ v, e.ev x = .ok v ∧ isTrue v = .ok b

/-- the result row of RETURNING, none without the clause -/
def Returned (ret : Option (List Expr)) (x : Ctx) (out : List (List Val)) : Prop :=
  match ret with
  | none => out = []
  | some es => ∃ vs : List Val, out = [vs] ∧ vs.length = es.length ∧ ∀ (k : Nat) (e : Expr), es[k]? = some e → ∃ v, vs[k]? = some v ∧ e.ev x = .ok v

/-- UPDATE at one row: a row WHERE holds for becomes the updated one, RETURNING is about that; others stay -/
def UpdateRow (fnSet : Val → Bytes → Val → Res Val) (d : Dml) (ops : List SetOp) (r new : Tuple) (out : List (List Val)) : Prop :=
  (WhereIs d.wh ⟨r, none⟩ false ∧ new = r ∧ out = []) ∨
  (WhereIs d.wh ⟨r, none⟩ true ∧ UpdateTo fnSet d.cols ops ⟨r, none⟩ new ∧ Returned d.ret ⟨new, none⟩ out)

/-- DELETE at one row: `b` says it is deleted; RETURNING is about the row deleted -/
def DeleteRow (d : Dml) (r : Tuple) (b : Bool) (out : List (List Val)) : Prop :=
  WhereIs d.wh ⟨r, none⟩ b ∧ if b then Returned d.ret ⟨r, none⟩ out else out = []

/-- the row made of the values given: identity columns have the value drawn, the others take the values -/
def Created (cols : List Col) (g : Tuple × Int) (row : Tuple) : Prop :=
  row.length = cols.length ∧ ∀ (i : Nat) (c : Col), cols[i]? = some c → ∃ y, row[i]? = some y ∧
    if c.identity then y = narrow c.ty (.int g.2) else Takes c ((g.1[i]?).getD .null) y

/-- ON CONFLICT at the row `y` with the key of the given row `g`: `new` is there after it -/
def Resolves (fnSet : Val → Bytes → Val → Res Val) (cols : List Col) (g y new : Tuple) : Conflict → Prop
  | .nothing => new = y
  | .error => False
  | .update ops wh => (WhereIs wh ⟨y, some g⟩ false ∧ new = y) ∨ (WhereIs wh ⟨y, some g⟩ true ∧ UpdateTo fnSet cols ops ⟨y, some g⟩ new)

/-- INSERT … ON CONFLICT of the rows, one after the other, on the set of rows `m`: what is there after it and what it returns -/
inductive Upserts (fnSet : Val → Bytes → Val → Res Val) (cmp : Tuple → Tuple → Int) (cols : List Col) (c : Conflict) (ret : Option (List Expr)) :
    List Tuple → List (Tuple × Int) → List Tuple → List (List Val) → Prop
  | nil (m : List Tuple) : Upserts fnSet cmp cols c ret m [] m []
  | new {m m' : List Tuple} {g : Tuple × Int} {gs : List (Tuple × Int)} {row : Tuple} {out outs : List (List Val)} :
      Created cols g row → lookup cmp m row = none → Returned ret ⟨row, some g.1⟩ out →
      Upserts fnSet cmp cols c ret (row :: m) gs m' outs → Upserts fnSet cmp cols c ret m (g :: gs) m' (out ++ outs)
  | old {m m' : List Tuple} {g : Tuple × Int} {gs : List (Tuple × Int)} {row y new : Tuple} {out outs : List (List Val)} :
      Created cols g row → lookup cmp m row = some y → Resolves fnSet cols g.1 y new c → Returned ret ⟨new, some g.1⟩ out →
      Upserts fnSet cmp cols c ret (new :: others cmp m row) gs m' outs → Upserts fnSet cmp cols c ret m (g :: gs) m' (out ++ outs)

/-- a statement on the rows of a table (in key order): what is there after it and what it returns -/
def Does (fnSet : Val → Bytes → Val → Res Val) (cmp : Tuple → Tuple → Int) (cols : List Col) (rows : List Tuple) (rows' : List Tuple) (out : List (List Val)) : Stmt → Prop
  | .update ops wh ret => Allowed cols ops ∧ ∃ (new : Tuple → Tuple) (ret' : Tuple → List (List Val)),
      (∀ r ∈ rows, UpdateRow fnSet ⟨cols, wh, ret⟩ ops r (new r) (ret' r)) ∧ rows' = rows.map new ∧ out = rows.flatMap ret'
  | .delete wh ret => ∃ (gone : Tuple → Bool) (ret' : Tuple → List (List Val)),
      (∀ r ∈ rows, DeleteRow ⟨cols, wh, ret⟩ r (gone r) (ret' r)) ∧ rows' = rows.filter (fun r => !gone r) ∧ out = rows.flatMap ret'
  | .upsert c ret given => (∀ ops wh, c = .update ops wh → Allowed cols ops) ∧
      ∃ m, Upserts fnSet cmp cols c ret rows given m out ∧ rows'.Perm m ∧ rows'.Pairwise (fun a b => cmp a b < 0)

/-- statements one after the other -/
inductive DoesAll (fnSet : Val → Bytes → Val → Res Val) (cmp : Tuple → Tuple → Int) (cols : List Col) : List Tuple → List Stmt → List Tuple → List (List (List Val)) → Prop
  | nil (rows : List Tuple) : DoesAll fnSet cmp cols rows [] rows []
  | cons {rows rows' rows'' : List Tuple} {s : Stmt} {ss : List Stmt} {out : List (List Val)} {outs : List (List (List Val))} :
      Does fnSet cmp cols rows rows' out s → DoesAll fnSet cmp cols rows' ss rows'' outs → DoesAll fnSet cmp cols rows (s :: ss) rows'' (out :: outs)

/-- the order of rows is one of the values of the key columns -/
def ByKey (cols : List Col) (cmp : Tuple → Tuple → Int) : Prop :=
  ∀ a b : Tuple, (∀ (i : Nat) (c : Col), cols[i]? = some c → c.refs > 0 → (a[i]?).getD .null = (b[i]?).getD .null) → cmp a b = 0

end Verif.Dml
