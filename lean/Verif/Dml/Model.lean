import Verif.Row.Values
import Verif.Parse.Lex
import Verif.Index.Tree
/-!
# UPDATE, DELETE and INSERT … ON CONFLICT on a partition

parser/parse_update.c, compiler/emit_update.c, emit_delete.c, emit_upsert.c, vm/vm/command.c (cupdate, cdelete, cupsert), vm/value/row.c and
db/part/part_op.c over the ordered primary index (Verif.Index.Tree).

A row is the list of its column values as they are read back (the bytes are the subject of C08, C42 and C44). Expressions are functions of the row under the cursor and of the
row EXCLUDED, with the type the compiler gives them; how they are compiled is C86, that they may have effects (udf calls) is left out. The scan
is that of the whole partition (that the keys of WHERE leave out only rows WHERE does not hold for is C88). Secondary indexes, the log and the undo of
a statement that fails are those of C18 to C20 and C47.
-/
set_option autoImplicit false
set_option linter.unusedVariables false
namespace Verif.Dml
open Verif Verif.Row Verif.Index

/-- a row of a table, by column order -/
abbrev Tuple := List Val

/-- column->type, db/row/type.h: all integer widths are TYPE_INT, float and double TYPE_DOUBLE -/
inductive Kind where
  | bool | int | dbl | str | json | stamp | interval | date | vec | uuid
deriving DecidableEq, Repr

def kindOf : Ty → Kind
  | .bool => .bool
  | .int8 | .int16 | .int32 | .int64 => .int
  | .float | .double => .dbl
  | .string => .str
  | .json => .json
  | .timestamp => .stamp
  | .interval => .interval
  | .date => .date
  | .vector => .vec
  | .uuid => .uuid

/-- struct Column, db/row/column.h:16-27, and constraints.h:24-33. `refs`: the number of keys the column is a part of; `dflt`: what
value_data_decode gives for the default (NULL for none). -/
structure Col where
  name : Bytes
  ty : Ty
  notNull : Bool := false
  identity : Bool := false
  dropped : Bool := false
  refs : Nat := 0
  dflt : Val := .null

/-- what expressions read: the row under the cursor and, in ON CONFLICT, the row given -/
structure Ctx where
  cur : Tuple
  excluded : Option Tuple := none

/-- an expression: the type the compiler finds (none: TYPE_NULL) and its value -/
structure Expr where
  kind : Option Kind
  ev : Ctx → Res Val

/-- emit_column: a column of the row under the cursor (columns the row has not yet are NULL) -/
def readCol (i : Nat) (k : Kind) : Expr := ⟨some k, fun x => .ok ((x.cur[i]?).getD .null)⟩

/-- EXCLUDED.column, vm.c:679-688 -/
def readExcluded (i : Nat) (k : Kind) : Expr := ⟨some k, fun x => match x.excluded with
  | none => .error .err
  | some g => .ok ((g[i]?).getD .null)⟩

/-- the right side of a SET -/
inductive Rhs where
  | dflt
  | expr (e : Expr)

/-- `column = …` or `column.path = …` as written -/
structure SetOp where
  target : Bytes
  compound : Bool
  rhs : Rhs

/-- columns_find, db/row/columns.h:101-113: the order of the column; dropped ones are skipped, names compare without case -/
def findCol (name : Bytes) : Nat → List Col → Option Nat
  | _, [] => none
  | i, c :: cs => if c.dropped = false ∧ Parse.Lex.isCase c.name name then some i else findCol name (i + 1) cs

/-- str_split at the first dot: the part before it and what follows, runtime/lib/str.h -/
def splitDot (s : Bytes) : Bytes × Bytes := (s.takeWhile (· ≠ 46), (s.dropWhile (· ≠ 46)).drop 1)

/-- the column itself as an argument of set() -/
def oldOf (name : Bytes) (cols : List Col) (x : Ctx) : Res Val :=
  match findCol name 0 cols with
  | some i => (readCol i .json).ev x
  | none => .error .err

/-- one SET of parse_update_expr, parse_update.c:31-88: the name of the column and the right side; `column.path = e` becomes
`column = set(column, path, e)` where `fnSet` is the function set() -/
def parseSet (fnSet : Val → Bytes → Val → Res Val) (cols : List Col) (op : SetOp) : Res (Bytes × Rhs) :=
  if op.compound then
    match op.rhs with
    | .dflt => .error .err
    | .expr e =>
      let name := (splitDot op.target).1
      .ok (name, .expr ⟨some .json, fun x => do
        let old ← oldOf name cols x
        let v ← e.ev x
        fnSet old (splitDot op.target).2 v⟩)
  else .ok (op.target, op.rhs)

/-- parse_update_expr, parse_update.c:21-107, without the tokens -/
def parseSets (fnSet : Val → Bytes → Val → Res Val) (cols : List Col) : List SetOp → Res (List (Bytes × Rhs))
  | [] => .ok []
  | op :: ops => do
    let x ← parseSet fnSet cols op
    let xs ← parseSets fnSet cols ops
    .ok (x :: xs)

/-- the place of a column in the ordered list, emit_update.c:51-80 -/
def place (i : Nat) (r : Rhs) : List (Nat × Rhs) → Res (List (Nat × Rhs))
  | [] => .ok [(i, r)]
  | p :: ps =>
    if i = p.1 then .error .err
    else if i < p.1 then .ok ((i, r) :: p :: ps)
    else do
      let l ← place i r ps
      .ok (p :: l)

/-- the first loop of emit_update_target, emit_update.c:30-83 -/
def orderSets (cols : List Col) : List (Bytes × Rhs) → List (Nat × Rhs) → Res (List (Nat × Rhs))
  | [], list => .ok list
  | (name, r) :: ops, list =>
    match findCol name 0 cols with
    | none => .error .err
    | some i =>
      match cols[i]? with
      | none => .error .ub
      | some c =>
        if c.refs > 0 then .error .err
        else do
          let list ← place i r list
          orderSets cols ops list

/-- the type of a right side, emit_update.c:95-106; `none` is TYPE_NULL -/
def rhsKind (c : Col) : Rhs → Option Kind
  | .dflt => some (kindOf c.ty)
  | .expr e => e.kind

/-- the second loop of emit_update_target, emit_update.c:86-117: the types are checked, the order and the value of each column pushed -/
def checkTypes (cols : List Col) : List (Nat × Rhs) → Res Unit
  | [] => .ok ()
  | (i, r) :: ps =>
    match cols[i]? with
    | none => .error .ub
    | some c => if rhsKind c r ≠ none ∧ rhsKind c r ≠ some (kindOf c.ty) then .error .err else checkTypes cols ps

/-- the SET list as compiled: parse_update_expr and emit_update_target -/
def compileSets (fnSet : Val → Bytes → Val → Res Val) (cols : List Col) (ops : List SetOp) : Res (List (Nat × Rhs)) := do
  let sets ← parseSets fnSet cols ops
  let list ← orderSets cols sets []
  checkTypes cols list
  .ok list

/-- the values pushed, emit_update.c:86-106, vm.c:507-515 -/
def pushValues (cols : List Col) (x : Ctx) : List (Nat × Rhs) → Res (List (Nat × Val))
  | [] => .ok []
  | (i, .dflt) :: ps => do
    let vs ← pushValues cols x ps
    .ok ((i, match cols[i]? with | some c => c.dflt | none => .null) :: vs)
  | (i, .expr e) :: ps => do
    let v ← e.ev x
    let vs ← pushValues cols x ps
    .ok ((i, v) :: vs)

/-- value_data_encode without an identity value (row.c:246) and the column read back, vm/value/value_data.h:52-142 -/
def cell (c : Col) (v : Val) : Res Val :=
  if c.identity then .error .ub
  else if v = .null then if c.notNull then .error .err else .ok .null
  else do
    let _ ← encodeTy c.ty v
    .ok (narrow c.ty v)

/-- the loop of row_update, vm/value/row.c:222-284: columns in order, taking the next of the pairs if it is the column's -/
def rowUpdate : List Col → Nat → Tuple → List (Nat × Val) → Res Tuple
  | [], _, _, _ => .ok []
  | c :: cs, i, old, [] => do
    let l ← rowUpdate cs (i + 1) (old.drop 1) []
    .ok (old.headD .null :: l)
  | c :: cs, i, old, (o, v) :: upd =>
    if o = i then do
      let x ← cell c v
      let l ← rowUpdate cs (i + 1) (old.drop 1) upd
      .ok (x :: l)
    else do
      let l ← rowUpdate cs (i + 1) (old.drop 1) ((o, v) :: upd)
      .ok (old.headD .null :: l)

/-- the row CUPDATE makes, command.c:526-538 -/
def updated (cols : List Col) (list : List (Nat × Rhs)) (x : Ctx) : Res Tuple := do
  let vs ← pushValues cols x list
  rowUpdate cols 0 x.cur vs

/-- value_is_true, vm/value/compare.h:14-44, of a value as an expression gives it (doubles are 64-bit patterns); an interval is read as a pointer
to a vector (compare.h:31-33) -/
def isTrue : Val → Res Bool
  | .null => .ok false
  | .int i => .ok (decide (i > 0))
  | .real b => .ok (decide (0 < b ∧ b ≤ 0x7ff0000000000000))
  | .str s => .ok (!s.isEmpty)
  | .json _ => .ok true
  | .interval _ _ _ => .error .ub
  | .vector l => .ok (!l.isEmpty)
  | .uuid _ _ => .ok true
  | .ref _ => .ok true

/-- WHERE, scan.c:76-83 (CJNTR); no WHERE holds -/
def holds (wh : Option Expr) (x : Ctx) : Res Bool :=
  match wh with
  | none => .ok true
  | some e => do
    let v ← e.ev x
    isTrue v

/-- the values of a list of expressions, pushed in order -/
def evalAll (x : Ctx) : List Expr → Res (List Val)
  | [] => .ok []
  | e :: es => do
    let v ← e.ev x
    let vs ← evalAll x es
    .ok (v :: vs)

/-- RETURNING, emit_update.c:138-149, emit_delete.c:35-44, emit_upsert.c:102-117: a row of the result, if there is the clause -/
def returning (ret : Option (List Expr)) (x : Ctx) : Res (List (List Val)) :=
  match ret with
  | none => .ok []
  | some es => do
    let r ← evalAll x es
    .ok [r]

/-- a compiled statement -/
structure Dml where
  cols : List Col
  wh : Option Expr
  ret : Option (List Expr)

/-- what UPDATE does with the row at the cursor: emit_update_on_match_returning, emit_update.c:127-150; cupdate, command.c:526-538; part_update,
part_op.c:173-201. RETURNING reads the row the cursor is at after the update. -/
def updateBody (d : Dml) (list : List (Nat × Rhs)) (t : Tree Tuple) (it : Index.Iter Tuple) (row : Tuple) : Res (Tree Tuple × Index.Iter Tuple × List (List Val)) := do
  let b ← holds d.wh ⟨row, none⟩
  if b then do
    let new ← updated d.cols list ⟨row, none⟩
    match iterReplace t it new with
    | none => .error .ub
    | some (t', it') => do
      let out ← returning d.ret ⟨it'.current.getD [], none⟩
      .ok (t', it', out)
  else .ok (t, it, [])

/-- what DELETE does with the row at the cursor: emit_delete_on_match_returning, emit_delete.c:30-49; cdelete, command.c:518-524; part_delete,
part_op.c:203-240. RETURNING comes first. -/
def deleteBody (d : Dml) (t : Tree Tuple) (it : Index.Iter Tuple) (row : Tuple) : Res (Tree Tuple × Index.Iter Tuple × List (List Val)) := do
  let b ← holds d.wh ⟨row, none⟩
  if b then do
    let out ← returning d.ret ⟨row, none⟩
    match iterDelete t it with
    | none => .error .ub
    | some (t', it') => .ok (t', it', out)
  else .ok (t, it, [])

/-- the loop of scan_table, scan.c:108-204: the body at each row, then CTABLE_NEXT -/
def loop (body : Tree Tuple → Index.Iter Tuple → Tuple → Res (Tree Tuple × Index.Iter Tuple × List (List Val))) : Nat → Tree Tuple → Index.Iter Tuple → Res (Tree Tuple × List (List Val))
  | fuel, t, it =>
    match it.current with
    | none => .ok (t, [])
    | some row =>
      match fuel with
      | 0 => .error .ub
      | fuel + 1 => do
        let (t', it', out) ← body t it row
        let (t'', outs) ← loop body fuel t' (iterNext t' it')
        .ok (t'', out ++ outs)

/-- a statement that scans the partition: CTABLE_OPEN_PART at the first row and the loop; every turn goes forward -/
def scanWith (cmp : Tuple → Tuple → Int) (body : Tree Tuple → Index.Iter Tuple → Tuple → Res (Tree Tuple × Index.Iter Tuple × List (List Val))) (t : Tree Tuple) : Res (Tree Tuple × List (List Val)) :=
  match iterOpen cmp t none with
  | none => .error .ub
  | some (_, it) => loop body t.count t it

/-- UPDATE name SET … [WHERE …] [RETURNING …] on a partition, emit_update.c:152-187 -/
def execUpdate (fnSet : Val → Bytes → Val → Res Val) (cmp : Tuple → Tuple → Int) (d : Dml) (ops : List SetOp) (t : Tree Tuple) : Res (Tree Tuple × List (List Val)) := do
  let list ← compileSets fnSet d.cols ops
  scanWith cmp (updateBody d list) t

/-- DELETE FROM name [WHERE …] [RETURNING …] on a partition, emit_delete.c:51-88 -/
def execDelete (cmp : Tuple → Tuple → Int) (d : Dml) (t : Tree Tuple) : Res (Tree Tuple × List (List Val)) :=
  scanWith cmp (deleteBody d) t

/-! ## INSERT … ON CONFLICT -/

/-- ON CONFLICT DO …, parse_insert.c:85-145 -/
inductive Conflict where
  | update (ops : List SetOp) (wh : Option Expr)
  | error
  | nothing

/-- the clause as compiled, emit_upsert.c:46-99 -/
inductive Action where
  | update (list : List (Nat × Rhs)) (wh : Option Expr)
  | error
  | nothing

def compileConflict (fnSet : Val → Bytes → Val → Res Val) (cols : List Col) : Conflict → Res Action
  | .update ops wh => do
    let list ← compileSets fnSet cols ops
    .ok (.update list wh)
  | .error => .ok .error
  | .nothing => .ok .nothing

/-- value_data_encode with the identity value, vm/value/value_data.h:52-142, as read back -/
def createCell (id : Int) (c : Col) (v : Val) : Res Val := if c.identity then .ok (narrow c.ty (.int id)) else cell c v

/-- row_create, vm/value/row.c:20-48, of the values given and the value drawn for identity columns, as read back -/
def createRow (id : Int) : List Col → Tuple → Res Tuple
  | [], _ => .ok []
  | c :: cs, g => do
    let x ← createCell id c (g.headD .null)
    let l ← createRow id cs (g.drop 1)
    .ok (x :: l)

/-- what is done at the row that exists, emit_upsert.c:46-99: the index and the cursor after it -/
def onConflict (cols : List Col) (a : Action) (g : Tuple) (t : Tree Tuple) (it : Index.Iter Tuple) : Res (Tree Tuple × Index.Iter Tuple) :=
  match a with
  | .nothing => .ok (t, it)
  | .error => .error .err
  | .update list wh => do
    let x : Ctx := ⟨it.current.getD [], some g⟩
    let b ← holds wh x
    if b then do
      let new ← updated cols list x
      match iterReplace t it new with
      | none => .error .ub
      | some r => .ok r
    else .ok (t, it)

/-- at the row: the conflict if it was there, command.c:497-512 -/
def atRow (cols : List Col) (a : Action) (g : Tuple) (found : Bool) (t : Tree Tuple) (it : Index.Iter Tuple) : Res (Tree Tuple × Index.Iter Tuple) :=
  if found then onConflict cols a g t it else .ok (t, it)

/-- CUPSERT for one row, command.c:486-512: row_create, part_upsert (part_op.c:141-171, index_upsert opens the cursor at the row in both cases), the
conflict and RETURNING -/
def upsertRow (cmp : Tuple → Tuple → Int) (cols : List Col) (a : Action) (ret : Option (List Expr)) (g : Tuple × Int) (t : Tree Tuple) : Res (Tree Tuple × List (List Val)) := do
  let row ← createRow g.2 cols g.1
  match treeUpsert cmp 512 256 t row with
  | none => .error .ub
  | some (found, t', p) => do
    let (t'', it) ← atRow cols a g.1 found t' (iterOpenAt t' p)
    let out ← returning ret ⟨it.current.getD [], some g.1⟩
    .ok (t'', out)

/-- the loop of CUPSERT over the rows given to the partition, command.c:474-516 -/
def upsertLoop (cmp : Tuple → Tuple → Int) (cols : List Col) (a : Action) (ret : Option (List Expr)) : List (Tuple × Int) → Tree Tuple → Res (Tree Tuple × List (List Val))
  | [], t => .ok (t, [])
  | g :: gs, t => do
    let (t', out) ← upsertRow cmp cols a ret g t
    let (t'', outs) ← upsertLoop cmp cols a ret gs t'
    .ok (t'', out ++ outs)

/-- INSERT … ON CONFLICT … [RETURNING …] on a partition, emit_upsert.c:22-133 -/
def execUpsert (fnSet : Val → Bytes → Val → Res Val) (cmp : Tuple → Tuple → Int) (cols : List Col) (c : Conflict) (ret : Option (List Expr)) (rows : List (Tuple × Int)) (t : Tree Tuple) : Res (Tree Tuple × List (List Val)) := do
  let a ← compileConflict fnSet cols c
  upsertLoop cmp cols a ret rows t

/-! ## Statements one after the other -/

/-- a statement on a table -/
inductive Stmt where
  | update (ops : List SetOp) (wh : Option Expr) (ret : Option (List Expr))
  | delete (wh : Option Expr) (ret : Option (List Expr))
  | upsert (c : Conflict) (ret : Option (List Expr)) (rows : List (Tuple × Int))

def exec (fnSet : Val → Bytes → Val → Res Val) (cmp : Tuple → Tuple → Int) (cols : List Col) (t : Tree Tuple) : Stmt → Res (Tree Tuple × List (List Val))
  | .update ops wh ret => execUpdate fnSet cmp ⟨cols, wh, ret⟩ ops t
  | .delete wh ret => execDelete cmp ⟨cols, wh, ret⟩ t
  | .upsert c ret rows => execUpsert fnSet cmp cols c ret rows t

/-- statements that succeed, each on what the one before left -/
def execAll (fnSet : Val → Bytes → Val → Res Val) (cmp : Tuple → Tuple → Int) (cols : List Col) : List Stmt → Tree Tuple → Res (Tree Tuple × List (List (List Val)))
  | [], t => .ok (t, [])
  | s :: ss, t => do
    let (t', out) ← exec fnSet cmp cols t s
    let (t'', outs) ← execAll fnSet cmp cols ss t'
    .ok (t'', out :: outs)

/-- SELECT * on the partition in key order -/
def content (cmp : Tuple → Tuple → Int) (t : Tree Tuple) : Option (List Tuple) := (scan cmp (fun _ => .keep) t none).map Prod.fst

end Verif.Dml
