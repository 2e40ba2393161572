import Verif.Compile.Main
/-!
# Scans: SELECT … FROM t1, t2, … WHERE … OFFSET … LIMIT …

compiler/compiler/scan.c, on_match and cmd_scan of compiler/compiler/emit_select.c, and the cursor instructions of vm/vm/vm.c,
vm/vm/command.c.

FROM lists tables (subqueries, functions and JSON in FROM are not modelled). What an index returns from a position on is a
parameter (`Tables.rows`; C10–C15, C67). The cursors are kept in a bank of their own, named by the register that holds them.
-/
set_option linter.unusedVariables false
namespace Verif.Compile

variable {W : Type}

/-- a row: its columns -/
abbrev Row := List Val

/-- what a query runs against: the operations and functions of expressions, and what an index of a table returns from a key on
(or, for a point lookup, for a key) -/
structure Tables (W : Type) where
  P : Prims
  fn : Nat → W → List Val → Option (Val × W)
  fnOwns : Nat → W → List Val → Bool
  /-- cursor_open, db/part/cursor.c: table (and index), point lookup, key -/
  rows : Nat → Bool → List Val → List Row

/-- the column of the row a cursor is at -/
def curCol (cur : Nat → Option (List Row)) (c n : Nat) : Option Val := (cur c).bind fun l => l.head?.bind fun r => r[n]?

/-- what expression code sees; `row` is only for the meaning of the expression -/
def Tables.env (T : Tables W) (cur : Nat → Option (List Row)) (row : Nat → Nat → Option Val) : Env W where
  P := T.P
  row := row
  fn := T.fn
  col := curCol cur
  fnOwns := T.fnOwns

/-! ## The machine -/

/-- the instructions of a scan -/
inductive XInstr where
  /-- an instruction of an expression -/
  | base (i : Instr)
  /-- CTABLE_OPEN, CTABLE_OPENL, CTABLE_OPEN_PART, CTABLE_OPEN_PARTL: cursor, table, point lookup, number of keys, `_eof` -/
  | open_ (rc t : Nat) (point : Bool) (n eof : Nat)
  /-- CTABLE_NEXT: cursor, `_where` -/
  | next (rc to : Nat)
  /-- CFREE of a cursor -/
  | free (rc : Nat)
  /-- CJGTED and CJLTD: decrement and jump if not negative, if negative -/
  | jgted (to r : Nat)
  | jltd (to r : Nat)
  /-- CSET_ADD: a row of `n` columns (store.columns_row of the set) from the stack -/
  | setadd (n : Nat)
deriving DecidableEq, Repr

/-- the state: the machine of expressions, the open cursors (the rows that are left, the current one first) and the result set -/
structure XVM (W : Type) where
  vm : VM W
  cur : Nat → Option (List Row)
  out : List Row

/-- a jump -/
def VM.goto (s : VM W) (t : Nat) : VM W := { s with pc := t }
/-- a register of an open cursor changed -/
def setCur (cur : Nat → Option (List Row)) (rc : Nat) (v : Option (List Row)) : Nat → Option (List Row) :=
  fun i => if i = rc then v else cur i

/-- one instruction: vm.c:452-473, 1535-1540, 1631-1636; ctable_open, command.c:378-425 -/
def stepX (T : Tables W) (i : XInstr) (x : XVM W) : Except Stop (XVM W) :=
  match i with
  | .base i => (stepI (T.env x.cur fun _ _ => none) i x.vm).map fun s => { x with vm := s }
  | .open_ rc t point n eof =>
      if x.vm.stack.length < n then .error .ub
      else if T.rows t point ((x.vm.top n).map Cell.val) = [] then
        .ok { x with vm := (x.vm.popn n).goto eof, cur := setCur x.cur rc (some []) }
      else .ok { x with vm := (x.vm.popn n).next, cur := setCur x.cur rc (some (T.rows t point ((x.vm.top n).map Cell.val))) }
  | .next rc to => (x.cur rc).elim (.error .ub) fun l => l.tail?.elim (.error .ub) fun rest =>
      .ok { x with vm := if rest = [] then x.vm.next else x.vm.goto to, cur := setCur x.cur rc (some rest) }
  | .free rc => .ok { x with vm := x.vm.next, cur := setCur x.cur rc none }
  | .jgted to r => (fInt (x.vm.reg r).val).bind fun v =>
      .ok { x with vm := if 0 ≤ v - 1 then (x.vm.put r (.int (v - 1)) false).goto to else (x.vm.put r (.int (v - 1)) false).next }
  | .jltd to r => (fInt (x.vm.reg r).val).bind fun v =>
      .ok { x with vm := if v - 1 < 0 then (x.vm.put r (.int (v - 1)) false).goto to else (x.vm.put r (.int (v - 1)) false).next }
  | .setadd n =>
      if x.vm.stack.length < n then .error .ub
      else .ok { x with vm := (x.vm.popn n).next, out := x.out ++ [(x.vm.top n).map Cell.val] }

/-- running: any number of instructions -/
inductive XExec (T : Tables W) (code : List XInstr) : XVM W → XVM W → Prop
  | refl (x) : XExec T code x x
  | step {x i x' x''} : code[x.vm.pc]? = some i → stepX T i x = .ok x' → XExec T code x' x'' → XExec T code x x''

/-- the program stops in the middle -/
def XFails (T : Tables W) (code : List XInstr) (x : XVM W) (e : Stop) : Prop :=
  ∃ x' i, XExec T code x x' ∧ code[x'.vm.pc]? = some i ∧ stepX T i x' = .error e

/-! ## The compiler -/

/-- Compiler: the register map and the code -/
structure XCS where
  map : List (Option Ty)
  code : List XInstr

/-- op1 … op4 -/
def XCS.op (c : XCS) (i : XInstr) : XCS := { c with code := c.code ++ [i] }
/-- runpin -/
def XCS.unpin (c : XCS) (r : Nat) : XCS := { c with map := c.map.set r none }
/-- the jump address: field `a` of jumps, `c` of CTABLE_OPEN -/
def XInstr.setTo (t : Nat) : XInstr → XInstr
  | .base i => .base (i.setA t)
  | .open_ rc tb p n _ => .open_ rc tb p n t
  | .jgted _ r => .jgted t r
  | .jltd _ r => .jltd t r
  | i => i
/-- code_at(pos)->a = to -/
def XCS.patch (c : XCS) (pos t : Nat) : XCS := { c with code := c.code.modify pos (XInstr.setTo t) }
/-- op_set_jmp_list, compiler_op.h:138-145, and the loop over the stop conditions, scan.c:185-187 -/
def XCS.patchAll (c : XCS) (js : List Nat) (t : Nat) : XCS := js.foldl (fun c j => c.patch j t) c

/-- what the compiler of expressions sees: the register map, and the length of the code so far (it only appends to it) -/
def XCS.plain (c : XCS) : CS := ⟨c.map, List.replicate c.code.length (.jmp 0)⟩
/-- the code it appended -/
def XCS.take (c : XCS) (d : CS) : XCS := ⟨d.map, c.code ++ (d.code.drop c.code.length).map .base⟩

/-- emit_expr within a scan -/
def xemit (S : Sig) (e : Expr) (c : XCS) : Option (XCS × Nat) := (emit S e c.plain).map fun p => (c.take p.1, p.2)
/-- emit_push of several expressions; their number -/
def xargs (S : Sig) (a : Args) (c : XCS) : Option (XCS × Nat) := (emitArgs S a c.plain []).map fun p => (c.take p.1, p.2.length)

/-- Target of type TARGET_TABLE with its path: compiler/parser/target.h, compiler/plan/path.h -/
structure Target where
  /-- its place in FROM -/
  id : Nat
  /-- the table and index -/
  table : Nat
  /-- index->type == INDEX_TREE -/
  tree : Bool
  unique : Bool
  /-- path->type == PATH_LOOKUP -/
  point : Bool
  /-- ref->start of the leading keys that have one -/
  start : Args
  /-- ref->stop_op of the leading keys that have one -/
  stop : List Expr

/-- a SELECT without grouping and sorting: FROM, WHERE, the expressions pushed for a row (the select list and the ORDER BY keys),
the number of columns of the result set (store.columns_row) -/
structure Query where
  from_ : List Target
  wh : Option Expr
  sel : Args
  width : Nat

/-- scan_stop, scan.c:45-67: the positions of the jumps -/
def scanStop (S : Sig) : List Expr → XCS → List Nat → Option (XCS × List Nat)
  | [], c, js => some (c, js)
  | e :: es, c, js => (xemit S e c).bind fun p =>
      scanStop S es ((p.1.op (.base (.jntr 0 p.2))).unpin p.2) (js ++ [p.1.code.length])

/-- `if (c) code_at(pos)->a = to` -/
def XCS.patchIf (c : XCS) (pos : Option Nat) (t : Nat) : XCS := pos.elim c fun p => c.patch p t

/-- the WHERE part of scan_on_match, scan.c:75-83: the code, and the position of the jump -/
def scanWhere (S : Sig) (wh : Option Expr) (c : XCS) : Option (XCS × Option Nat) :=
  wh.elim (some (c, none)) fun e => (xemit S e c).map fun p =>
    ((p.1.op (.base (.jntr 0 p.2))).unpin p.2, some p.1.code.length)

/-- scan_on_match, scan.c:69-109, with on_match, emit_select.c:22-45; the positions of the breaks -/
def scanOnMatch (S : Sig) (q : Query) (roff rlim : Option Nat) (c : XCS) : Option (XCS × List Nat) :=
  (scanWhere S q.wh c).bind fun p =>
  (xargs S q.sel ((roff.elim p.1 fun r => p.1.op (.jgted 0 r)) |> fun c2 => rlim.elim c2 fun r => c2.op (.jltd 0 r))).map fun z =>
    (((z.1.op (.setadd q.width)).patchIf p.2 (z.1.code.length + 1)).patchIf (roff.map fun _ => p.1.code.length) (z.1.code.length + 1),
     (rlim.elim [] fun _ => [(roff.elim p.1 fun r => p.1.op (.jgted 0 r)).code.length]))

/-- target->rcursor = r -/
def Sig.bindCursor (S : Sig) (t rc : Nat) : Sig := { S with cursor := fun i => if i = t then some rc else S.cursor i }

/-- rpin of a cursor: a register of its own; its type is of no interest to expressions -/
def XCS.pinCur (c : XCS) : XCS × Nat := ({ c with map := (pinAt c.map .null).1 }, (pinAt c.map .null).2)

/-- scan_table, scan.c:114-198, for the tables from one on; `outer` for the first table, where the breaks are resolved. `junk` is
what the array of stop jumps holds if it is not filled in (scan.c:162-165: it is filled in for tree indexes only). -/
def scanFrom (junk : List Nat) (q : Query) (roff rlim : Option Nat) : (outer : Bool) → List Target → Sig → XCS → Option (XCS × List Nat)
  | _, [], S, c => scanOnMatch S q roff rlim c
  | outer, t :: ts, S, c =>
    (xargs S t.start c).bind fun k =>
    (scanStop (S.bindCursor t.id k.1.pinCur.2) (if t.tree then t.stop else [])
      (k.1.pinCur.1.op (.open_ k.1.pinCur.2 t.table t.point k.2 0)) []).bind fun st =>
    (scanFrom junk q roff rlim false ts (S.bindCursor t.id k.1.pinCur.2) st.1).bind fun m =>
    (if t.point && t.unique then m.1 else m.1.op (.next k.1.pinCur.2 (k.1.code.length + 1))) |> fun n =>
    ((n.patch k.1.code.length n.code.length).patchAll (if t.tree then st.2 else junk.take t.stop.length) n.code.length) |> fun z =>
    some ((((if outer then z.patchAll m.2 n.code.length else z).op (.free k.1.pinCur.2)).unpin k.1.pinCur.2),
      if outer then [] else m.2)

/-- limit and offset: constants, evaluated before the loops, scan.c:363-369 -/
def scanConst (v : Option Int) (c : XCS) : XCS × Option Nat :=
  v.elim (c, none) fun k => (⟨(pinAt c.map .int).1, c.code ++ [.base (.const (pinAt c.map .int).2 (.int k))]⟩, some (pinAt c.map .int).2)

/-- runpin of the counters -/
def XCS.unpinIf (c : XCS) (r : Option Nat) : XCS := r.elim c c.unpin

/-- scan, scan.c:332-377, after limit and offset -/
def scanRest (junk : List Nat) (S : Sig) (q : Query) (rlim roff : Option Nat) (c : XCS) : Option XCS :=
  (scanFrom junk q roff rlim true q.from_ S c).map fun p => (p.1.unpinIf roff).unpinIf rlim

/-- scan, scan.c:332-377 -/
def scan (junk : List Nat) (S : Sig) (q : Query) (limit offset : Option Int) (c : XCS) : Option XCS :=
  scanRest junk S q (scanConst limit c).2 (scanConst offset (scanConst limit c).1).2 (scanConst offset (scanConst limit c).1).1

end Verif.Compile
