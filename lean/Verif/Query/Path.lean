import Verif.Query.Compare
import Verif.Query.Agg
/-!
# Choosing a path through an index and scanning it

compiler/plan/path_op.h, path.c, compiler/compiler/scan.c, compiler/compiler/compiler.c:160-210 (emit_send),
vm/value/row.c:49-158 (row_create_key), vm/value/value_hash.h, vm/vm/command.c:105-190, 378-425, db/part/cursor.c,
db/part/part_mapping.h. Tiers are not modelled. The order in which an index returns its rows, and where a scan from a key
starts, are those of C10-C13 (`Verif.Index`): exactly the rows at or above the key, in order.
-/
set_option linter.unusedSimpArgs false
namespace Verif.Query

/-- types of key columns, parse_table.c:41 -/
inductive KTy where
  | i32 | i64 | ts | uuid | str
deriving DecidableEq, Repr

/-- a key of an index: its column and type -/
structure KCol where
  col : Nat
  ty : KTy
deriving DecidableEq, Repr

/-- IndexConfig: keys, tree or hash, unique -/
structure Idx where
  keys : List KCol
  tree : Bool
  unique : Bool
deriving DecidableEq, Repr

/-- the columns of a row of the scanned table -/
abbrev TRow := List Val

def TRow.at (r : TRow) (c : Nat) : Val := r.getD c .null
def keyOf (keys : List KCol) (r : TRow) : List Val := keys.map fun k => r.at k.col

/-- an operand: a column of the table that is scanned; a value that does not depend on the row (a constant, an argument,
a column of an outer table); or any other expression -/
inductive Opd where
  | col (c : Nat)
  | val (v : Val)
  | expr (f : TRow → Val)

def Opd.eval : Opd → TRow → Val
  | .col c, r => r.at c
  | .val v, _ => v
  | .expr f, r => f r

/-- a WHERE expression; `other` is any condition the path does not look into (IN, LIKE, NOT, IS NULL, …) -/
inductive Wh where
  | cmp (op : CmpOp) (l r : Opd)
  | between (l x y : Opd)
  | and (a b : Wh)
  | or (a b : Wh)
  | other (f : TRow → Val)

/-- a comparison as the machine computes it -/
def evalCmp (op : CmpOp) (l r : Opd) (row : TRow) : Val := (opCmp op (l.eval row) (r.eval row)).getD .null

/-- emit_expr -/
def Wh.eval : Wh → TRow → Val
  | .cmp op l r, row => evalCmp op l r row
  | .between l x y, row => vAnd (evalCmp .gte l x row) (evalCmp .lte l y row)
  | .and a b, row => vAnd (a.eval row) (b.eval row)
  | .or a b, row => vOr (a.eval row) (b.eval row)
  | .other f, row => f row

/-- PathOp, path_op.h:17-23: an operation with the operands whose names lie between names_start and names_end: `depsR`
besides the key if the key is the left operand, `depsL` if it is the right one -/
structure POp where
  op : CmpOp
  l : Opd
  r : Opd
  depsR : List Opd
  depsL : List Opd

/-- path_ops_add, path_op.h:51-106. For BETWEEN, `expr->integer` is the number of names before the bounds (parse_expr.c:
985-989): the range of `>=` holds only the names of the left operand, that of `<=` only those of the bounds. -/
def pathOps : Wh → List POp
  | .cmp op l r => if op = .nequ then [] else [⟨op, l, r, [r], [l]⟩]
  | .between l x y => [⟨.gte, l, x, [], [l]⟩, ⟨.lte, l, y, [x, y], [x]⟩]
  | .and a b => pathOps a ++ pathOps b
  | .or _ _ => []
  | .other _ => []

/-- PathKey, path.h:27-34: the start value and whether it comes from `=`, the stop value and the stop operation -/
structure PathKey where
  start : Option (Bool × Opd)
  stop : Option (POp × Opd)

/-- path_value, path.c:195-232: all these names are outer columns -/
def outer (l : List Opd) : Bool := l.all fun
  | .val _ => true
  | _ => false

/-- path_start, path.c:92-109; `pc` is path_ast_compare (path.c:43-65): any choice between several bounds is right -/
def takeStart (pc : Opd → Opd → Int) (k : PathKey) (eq : Bool) (v : Opd) : Bool :=
  match k.start with
  | none => true
  | some (true, _) => false
  | some (false, cur) => if eq then true else decide (pc cur v = -1)

/-- path_stop, path.c:111-128 -/
def takeStop (pc : Opd → Opd → Int) (order : Nat) (k : PathKey) (v : Opd) : Bool :=
  if 0 < order then false
  else match k.stop with
    | none => true
    | some (_, cur) => decide (0 < pc cur v)

/-- the switch of path_key, path.c:260-310 -/
def applyOp (pc : Opd → Opd → Int) (order : Nat) (k : PathKey) (p : POp) (keyLeft : Bool) (v : Opd) : PathKey :=
  match p.op, keyLeft with
  | .equ, _ => if takeStart pc k true v then { k with start := some (true, v) } else k
  | .gt, true => if takeStart pc k false v then { k with start := some (false, v) } else k
  | .gte, true => if takeStart pc k false v then { k with start := some (false, v) } else k
  | .lt, false => if takeStart pc k false v then { k with start := some (false, v) } else k
  | .lte, false => if takeStart pc k false v then { k with start := some (false, v) } else k
  | .lt, true => if takeStop pc order k v then { k with stop := some (p, v) } else k
  | .lte, true => if takeStop pc order k v then { k with stop := some (p, v) } else k
  | .gt, false => if takeStop pc order k v then { k with stop := some (p, v) } else k
  | .gte, false => if takeStop pc order k v then { k with stop := some (p, v) } else k
  | .nequ, _ => k

/-- path_key_compare, path.c:67-90 -/
def isCol (c : Nat) : Opd → Bool
  | .col d => decide (d = c)
  | _ => false

/-- one operation of path_key, path.c:238-311 -/
def pathKeyOp (pc : Opd → Opd → Int) (order : Nat) (c : Nat) (k : PathKey) (p : POp) : PathKey :=
  if isCol c p.l then (if outer p.depsR then applyOp pc order k p true p.r else k)
  else if isCol c p.r then (if outer p.depsL then applyOp pc order k p false p.l else k)
  else k

/-- path_key, path.c:234-313 -/
def pathKey (pc : Opd → Opd → Int) (order : Nat) (c : Nat) (ops : List POp) : PathKey :=
  ops.foldl (pathKeyOp pc order c) ⟨none, none⟩

/-- path_create, path.c:315-352: the keys of the index -/
def pathKeys (pc : Opd → Opd → Int) (ops : List POp) : Nat → List KCol → List PathKey
  | _, [] => []
  | order, k :: keys => pathKey pc order k.col ops :: pathKeys pc ops (order + 1) keys

/-- scan_key, scan.c:22-42: the start values of the leading keys -/
def startOpds : List PathKey → List Opd
  | [] => []
  | k :: keys => match k.start with
    | none => []
    | some (_, v) => v :: startOpds keys

/-- the start of a key comes from `=` -/
def PathKey.isEq (k : PathKey) : Bool := k.start.elim false (·.1)

/-- PATH_LOOKUP, path.c:328-348: every key has a start from `=` -/
def isLookup (keys : List PathKey) : Bool := keys.all PathKey.isEq

/-- evaluating the start values before the cursor is opened: a column of the table itself would be read through a cursor
register that does not exist yet; `none` -/
def startVals : List Opd → Option (List Val)
  | [] => some []
  | .val v :: l => (startVals l).map (v :: ·)
  | _ :: _ => none

/-- what row_create_key finds where a NULL value has no integer, uuid or string: unknown memory -/
structure Junk where
  int : Int
  uuid : Nat × Nat
  str : List Nat

/-- `ref->integer` of a value: the union in Value, value.h:15-39 -/
def rawInt (j : Junk) : Val → Int
  | .int i => i
  | .bool i => i
  | .date i => i
  | .timestamp i => i
  | .dbl b => w64 b
  | _ => j.int

/-- one key of row_create_key, row.c:95-155: the value or the minimum if there is none (0 for a timestamp) -/
def keyPart (j : Junk) : KTy → Option Val → Val
  | .i32, some v => .int (w32 (rawInt j v))
  | .i32, none => .int (-2 ^ 31)
  | .i64, some v => .int (rawInt j v)
  | .i64, none => .int (-2 ^ 63)
  | .ts, some v => .timestamp (rawInt j v)
  | .ts, none => .timestamp 0
  | .uuid, some (.uuid a b) => .uuid a b
  | .uuid, some _ => .uuid j.uuid.1 j.uuid.2
  | .uuid, none => .uuid 0 0
  | .str, some (.str s) => .str s
  | .str, some _ => .str j.str
  | .str, none => .str []

/-- row_create_key, row.c:49-158 -/
def createKey (j : Junk) : List KCol → List Val → List Val
  | [], _ => []
  | k :: keys, [] => keyPart j k.ty none :: createKey j keys []
  | k :: keys, v :: vals => keyPart j k.ty (some v) :: createKey j keys vals

/-- comparison of keys: compare(), db/row (all keys ascending) -/
def keyCmp (a b : List Val) : Int := keysCompare (a.map fun _ => true) a b

/-- the rows a cursor visits: cursor_lookup and cursor_scan, cursor.c:24-110. A tree starts at the first row at or above the
key; a hash index at the row with the key, or without a key at the beginning -/
def cursorRows (idx : Idx) (lookup : Bool) (start : List Val) (rows : List TRow) : List TRow :=
  if idx.tree then rows.dropWhile fun r => decide (keyCmp (keyOf idx.keys r) start < 0)
  else if lookup then rows.dropWhile fun r => decide (keyCmp (keyOf idx.keys r) start ≠ 0)
  else rows

/-- the stop conditions, scan.c:44-66: those of the leading keys that have one -/
def stopOps : List PathKey → List POp
  | [] => []
  | k :: keys => match k.stop with
    | none => []
    | some (p, _) => p :: stopOps keys

/-- the loop of scan_table, scan.c:154-172: stop conditions end the scan; WHERE selects; no TABLE_NEXT for a point lookup on
a unique index -/
def scanLoop (stop wh : TRow → Bool) (once : Bool) : List TRow → List TRow
  | [] => []
  | r :: rows =>
    if stop r then (if wh r then [r] else []) ++ (if once then [] else scanLoop stop wh once rows) else []

def evalStop (ops : List POp) (r : TRow) : Bool := ops.all fun p => valueIsTrue (evalCmp p.op p.l p.r r)

/-- scan_table, scan.c:112-184, over one partition whose index returns `rows`; `none`: reads through a missing cursor -/
def scanTable (pc : Opd → Opd → Int) (j : Junk) (idx : Idx) (w : Wh) (rows : List TRow) : Option (List TRow) :=
  let keys := pathKeys pc (pathOps w) 0 idx.keys
  (startVals (startOpds keys)).map fun vals =>
    scanLoop (if idx.tree then evalStop (stopOps keys) else fun _ => true) (fun r => valueIsTrue (w.eval r))
      (isLookup keys && idx.unique) (cursorRows idx (isLookup keys) (createKey j idx.keys vals) rows)

/-- value_hash, value_hash.h:14-46: only integers, timestamps, uuids and strings; otherwise abort() -/
def hashable : Val → Bool
  | .int _ => true
  | .timestamp _ => true
  | .uuid _ _ => true
  | .str _ => true
  | _ => false

/-- SELECT, UPDATE, DELETE over a table: emit_send, compiler.c:184-206, csend_lookup and csend_all: a lookup by the primary
key goes to the partition of the key (`place`: hash of the stored key and mapping), anything else to all partitions.
`none` if the process aborts. -/
def runTable (pc : Opd → Opd → Int) (j : Junk) (place : List Val → Nat) (primary idx : Idx) (w : Wh)
    (parts : List (List TRow)) : Option (List (List TRow)) :=
  let pkeys := pathKeys pc (pathOps w) 0 primary.keys
  if isLookup pkeys then
    (startVals (startOpds pkeys)).bind fun vals =>
      if vals.all hashable then
        (scanTable pc j idx w (parts.getD (place (createKey j primary.keys vals)) [])).map fun l => [l]
      else none
  else parts.mapM (scanTable pc j idx w)

/-- the partition of a lookup in a subquery or join: cursor_open, cursor.c:184-189: part_mapping_map hashes the columns of
the primary key in the key row; a column that is not a key of the chosen index is NULL there, `none` (NULL pointer) -/
def crossPart (place : List Val → Nat) (primary idx : Idx) (key : List Val) : Option Nat :=
  if primary.keys.all fun k => idx.keys.any fun i => decide (i.col = k.col) then
    some (place (primary.keys.map fun k => ((idx.keys.zip key).find? fun p => decide (p.1.col = k.col)).elim .null (·.2)))
  else none

/-- a point lookup in a subquery or join -/
def crossLookup (pc : Opd → Opd → Int) (j : Junk) (place : List Val → Nat) (primary idx : Idx) (w : Wh)
    (parts : List (List TRow)) : Option (List TRow) :=
  (startVals (startOpds (pathKeys pc (pathOps w) 0 idx.keys))).bind fun vals =>
    (crossPart place primary idx (createKey j idx.keys vals)).bind fun p =>
      scanTable pc j idx w (parts.getD p [])

end Verif.Query
