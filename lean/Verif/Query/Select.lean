import Verif.Query.PropsAgg
import Verif.Query.Props
import Verif.Query.Logic
/-!
# A whole SELECT: resolving of labels, planning, and the commands of the plan

compiler/parser/parse_select.c, compiler/parser/parse_order.h, compiler/parser/parse_group.h, compiler/plan/plan.c,
compiler/plan/plan_pushdown.c, compiler/compiler/emit_select.c.

The commands of a plan are run directly on rows; that their code does so is C88 (scan.c) and C86 (expressions). A SELECT
without FROM, qualified names (`t.a`), lambda aggregates and the double sums are not modelled.
-/
set_option linter.unusedVariables false
set_option autoImplicit false
namespace Verif.Query.Select
open Verif.Query

abbrev Name := List Nat

/-- tolower of the C locale -/
def lower (b : Nat) : Nat := if 65 ≤ b ∧ b ≤ 90 then b + 32 else b

/-- str_compare_case, runtime/base/str.h -/
def same (a b : Name) : Bool := decide (a.map lower = b.map lower)

/-- an expression as the planner sees it: an integer literal, a column name, an operator on two operands, the value of an
aggregate (KAGGR) and a reference to a GROUP BY key (KAGGRKEY, made by parse_select_resolve_group_by_alias) -/
inductive Ex where
  | int (i : Int)
  | name (n : Name)
  | app (f : Val → Val → Val) (a b : Ex)
  | agg (i : Nat)
  | key (i : Nat)

/-- a column of the select list: expression and label (`AS name`; the column name if there is none), after `*` has been
expanded, parse_returning.c:21-86 -/
structure Item where
  ex : Ex
  label : Name

/-- a SELECT with FROM, parse_select.c:111-270. `early` is the number of aggregates met before ORDER BY: the flag
distinct_aggs is computed there (:188-197). `distinctOn` is not empty iff DISTINCT ON was written. -/
structure Stmt where
  ret : List Item
  cond : Option Ex
  groupBy : List Ex
  aggs : List (Agg × Ex)
  early : Nat
  having : Option Ex
  distinct : Bool
  distinctOn : List Ex
  orderBy : List (Ex × Bool)
  limit : Option Nat
  offset : Option Nat

/-- GROUP BY or aggregates: from_group is not empty, parse_select.c:236-262. (The constant key TRUE of a SELECT with
aggregates but no GROUP BY is left out: no keys.) -/
def Stmt.grouped (s : Stmt) : Bool := !s.groupBy.isEmpty || !s.aggs.isEmpty

/-- columns_find_noconflict, db/row/columns.h:115-135: the position of the only column with the label -/
def findOne (n : Name) : List Item → Nat → Option Nat → Option Nat
  | [], _, found => found
  | it :: l, i, found =>
    if same it.label n then (if found.isSome then none else findOne n l (i + 1) (some i)) else findOne n l (i + 1) found

/-- returning_find, returning.h:52-65: positions start from 1 -/
def returningFind (ret : List Item) (order : Int) : Option Item := if order ≤ 0 then none else ret[(order - 1).toNat]?

/-- an expression with an aggregate in it: `agg->as == as`, parse_select.c:374-376 -/
def Ex.hasAgg : Ex → Bool
  | .agg _ => true
  | .app _ a b => a.hasAgg || b.hasAgg
  | _ => false

/-- `order` of parse_select_resolve_group_by_alias, parse_select.c:352-367; -1 means none -/
def groupOrder (ret : List Item) : Ex → Int
  | .int i => i
  | .name n => ((findOne n ret 0 none).map fun (p : Nat) => (p : Int) + 1).getD (-1)
  | _ => -1

/-- the body of parse_select_resolve_group_by_alias, parse_select.c:348-383, for GROUP BY key number `i`: the key and the
select list after it; an error is `none` -/
def resolveGroup (i : Nat) (e : Ex) (ret : List Item) : Option (Ex × List Item) :=
  if groupOrder ret e = -1 then some (e, ret)
  else (returningFind ret (groupOrder ret e)).bind fun it =>
    if it.ex.hasAgg then none
    else some (it.ex, ret.modify (groupOrder ret e - 1).toNat fun it => ⟨.key i, it.label⟩)

/-- parse_select_resolve_group_by_alias, parse_select.c:343-386 -/
def resolveGroups : Nat → List Ex → List Item → Option (List Ex × List Item)
  | _, [], ret => some ([], ret)
  | i, e :: l, ret => (resolveGroup i e ret).bind fun p => (resolveGroups (i + 1) l p.2).map fun q => (p.1 :: q.1, q.2)

/-- the body of parse_select_resolve_order_by, parse_select.c:391-424 -/
def resolveOrder (ret : List Item) : Ex → Option Ex
  | .int i => (returningFind ret i).map Item.ex
  | .name n => ((findOne n ret 0 none).bind fun (p : Nat) => returningFind ret ((p : Int) + 1)).elim (some (.name n)) fun it => some it.ex
  | e => some e

/-- DISTINCT expressions are order keys: parse_select_distinct, parse_select.c:76-109, and parse_select_resolve,
parse_select.c:438-447 -/
def Stmt.orderKeys (s : Stmt) : List (Ex × Bool) :=
  if s.distinct then (if s.distinctOn.isEmpty then s.ret.map fun it => (it.ex, true) else s.distinctOn.map fun e => (e, true))
  else s.orderBy

/-- a resolved SELECT -/
structure Sel where
  ret : List Item
  cond : Option Ex
  groups : List Ex
  groupBy : Bool
  aggs : List (Agg × Ex)
  distinctAggs : Bool
  having : Option Ex
  distinct : Bool
  order : List (Ex × Bool)
  limit : Option Nat
  offset : Option Nat

/-- parse_select_resolve, parse_select.c:427-459, after parse_select; `none` is an error -/
def resolve (s : Stmt) : Option Sel :=
  (if s.grouped then resolveGroups 0 s.groupBy s.ret else some (s.groupBy, s.ret)).bind fun p =>
    (s.orderKeys.mapM fun e => (resolveOrder p.2 e.1).map fun x => (x, e.2)).map fun order =>
      ⟨p.2, s.cond, p.1, !s.groupBy.isEmpty, s.aggs, (s.aggs.take s.early).any fun a => a.1.distinct, s.having, s.distinct,
        order, s.limit, s.offset⟩

/-! ## Plans -/

/-- the LIMIT expression of a scan: LIMIT, or LIMIT + OFFSET -/
inductive Lim where
  | lit (n : Nat)
  | plus (n k : Nat)

/-- command.h; the arguments of plan_add_scan and plan_add_scan_ordered, plan_op.h:38-70; `group` tells that from_group is
scanned -/
inductive Cmd where
  | scan (ordered : Bool) (limit : Option Lim) (offset : Option Nat) (cond : Option Ex) (group : Bool)
  | scanAggs | setAggMerge | pipe | sort | union
  | recv (ordered : Bool) | recvAggs

/-- what the planner looks at in FROM: a join, a table or an expression, and the index chosen for the first target:
whether it is a tree and the names of its keys -/
structure From where
  join : Bool
  table : Bool
  tree : Bool
  keys : List Name

/-- ast_order_list_match_index, parse_order.h:41-86, for unqualified names -/
def matchKeys : List (Ex × Bool) → List Name → Bool
  | [], [] => true
  | (.name n, true) :: l, k :: ks => same k n && matchKeys l ks
  | _, _ => false

/-- plan_group_by, plan.c:35-56 -/
def planGroupBy (s : Sel) : List Cmd :=
  [.scanAggs, .setAggMerge, .pipe, .scan false (s.limit.map .lit) s.offset s.having true]

/-- `distinct == false && expr_limit == NULL && expr_offset == NULL`, plan.c:79-83, 102-106 -/
def Sel.plain (s : Sel) : Bool := !s.distinct && s.limit.isNone && s.offset.isNone

/-- plan_group_by_order_by, plan.c:58-88 -/
def planGroupByOrderBy (s : Sel) : List Cmd :=
  [.scanAggs, .setAggMerge, .pipe, .scan true none none s.having true, .sort] ++ if s.plain then [] else [.union]

/-- plan_order_by, plan.c:90-111 -/
def planOrderBy (s : Sel) : List Cmd :=
  [.scan true none none s.cond false, .sort] ++ if s.plain then [] else [.union]

/-- plan_scan, plan.c:113-126 -/
def planScan (s : Sel) : List Cmd := [.scan false (s.limit.map .lit) s.offset s.cond false]

/-- plan_main, plan.c:128-182 -/
def planMain (f : From) (s : Sel) : List Cmd :=
  if s.groupBy || !s.aggs.isEmpty then (if s.order.isEmpty then planGroupBy s else planGroupByOrderBy s)
  else if s.order.isEmpty then planScan s
  else if !f.join && f.table && f.tree && matchKeys s.order f.keys then planScan s
  else planOrderBy s

/-- `limit + offset`, plan_pushdown.c:110-120, 143-152 -/
def Sel.pushed (s : Sel) : Option Lim :=
  match s.limit, s.offset with
  | some n, some k => some (.plus n k)
  | some n, none => some (.lit n)
  | none, _ => none

/-- plan_pushdown, plan_pushdown.c:165-211, with the functions it calls, :21-163: the commands for a partition and the
commands after plan_switch -/
def planPushdown (f : From) (s : Sel) : List Cmd × List Cmd :=
  if s.groupBy || !s.aggs.isEmpty then
    if s.order.isEmpty then
      ([.scanAggs], [.recvAggs, .pipe, .scan false (s.limit.map .lit) s.offset s.having true])
    else
      ([.scanAggs], [.recvAggs, .pipe, .scan true none none s.having true, .sort] ++ if s.plain then [] else [.union])
  else if s.order.isEmpty then ([.scan false s.pushed none s.cond false], [.recv false])
  else if !f.join && f.tree && matchKeys s.order f.keys then ([.scan true s.pushed none s.cond false], [.recv true])
  else ([.scan true none none s.cond false, .sort], [.recv true])

/-! ## Running a plan -/

/-- a row of a result set: the select list and the order keys, on_match, emit_select.c:22-44 -/
abbrev Row := List Val × List Val

variable {R : Type}

/-- the columns of a row of FROM by name, and qsort_r -/
structure World (R : Type) where
  col : R → Name → Val
  sort : List Row → List Row

/-- an expression on a row of FROM; aggregates and keys do not occur (`Accepted` below) -/
def rowVal (w : World R) (r : R) : Ex → Val
  | .int i => .int i
  | .name n => w.col r n
  | .app f a b => f (rowVal w r a) (rowVal w r b)
  | .agg _ | .key _ => .null

/-- ast_group_resolve_column, parse_group.h:41-54 -/
def groupOf (groups : List Ex) (n : Name) : Option Nat :=
  groups.findIdx? fun
    | .name m => same m n
    | _ => false

/-- an expression on a row of from_group: emit_name, emit_expr.c:257-268, emit_aggregate, :412-464, emit_aggregate_key,
:466-483. A name that is not a GROUP BY key is refused (`Accepted` below). -/
def groupVal (groups : List Ex) (keys vals : List Val) : Ex → Val
  | .int i => .int i
  | .name n => ((groupOf groups n).bind fun i => keys[i]?).getD .null
  | .app f a b => f (groupVal groups keys vals a) (groupVal groups keys vals b)
  | .agg i => vals.getD i .null
  | .key i => keys.getD i .null

/-- WHERE and HAVING: CJNTR -/
def holds (cond : Option Ex) (val : Ex → Val) : Bool := cond.elim true fun e => valueIsTrue (val e)

/-- plan->r -/
inductive Reg where
  | none
  | set (rows : List Row)
  | aggs (g : Groups)
  | union (ty : UType) (limit : Option Nat) (offset : Nat) (its : List (List Row))

/-- plan->r and the register of from_group: the groups and their aggregate states -/
structure St where
  r : Reg
  group : List (List Val × List ASt)

/-- the LIMIT of a scan: CADDII fails on overflow, vm/vm/vm.c:1017-1024 -/
def Lim.eval : Lim → Res Nat
  | .lit n => .ok n
  | .plus n k => if n + k < 2 ^ 63 then .ok (n + k) else .error .err

/-- the row that on_match adds, emit_select.c:22-44 -/
def Sel.emit (s : Sel) (val : Ex → Val) : Row := (s.ret.map fun it => val it.ex, s.order.map fun o => val o.1)

/-- the finished aggregates of a group: CCOUNT, CAGG, CAVGI -/
def Sel.finals (s : Sel) (states : List ASt) : List Val := (s.aggs.zip states).map fun p => finalVal p.1.1.ty p.2

/-- cmd_scan, emit_select.c:247-275, and scan_on_match, scan.c:70-107: rows that satisfy the condition, then the counters
of OFFSET and LIMIT, then the row. The counters start at the value of the expression. -/
def scanOver {X : Type} (s : Sel) (limit : Option Nat) (offset : Option Nat) (cond : Option Ex) (val : X → Ex → Val)
    (xs : List X) : List Row :=
  (scanRows (limit.map fun (n : Nat) => (n : Int)) (offset.map fun (n : Nat) => (n : Int))
    (xs.filter fun x => holds cond (val x))).map fun x => s.emit (val x)

/-- a matching row for aggregation: the keys and the arguments, on_match_aggs, emit_select.c:46-147 -/
def Sel.feed (s : Sel) (w : World R) (r : R) : List Val × List Val :=
  (s.groups.map (rowVal w r), s.aggs.map fun a => rowVal w r a.2)

/-- agg_write without a distinct set uses the NULL pointer for the first DISTINCT argument that is not NULL,
vm/set/agg.c:136-157 -/
def Sel.crash (s : Sel) (fed : List (List Val × List Val)) : Bool :=
  !s.distinctAggs && fed.any fun r => (s.aggs.zip r.2).any fun p => p.1.1.distinct && decide (p.2 ≠ .null)

/-- the sets of the partitions -/
def setsOf : List Reg → List (List Row)
  | [] => []
  | .set rows :: l => rows :: setsOf l
  | _ :: l => setsOf l

def aggsOf : List Reg → List Groups
  | [] => []
  | .aggs g :: l => g :: aggsOf l
  | _ :: l => aggsOf l

/-- one command: the functions of emit_select.c. `rows` are the rows of FROM in the order of the cursor, `sent` what the
partitions have returned. -/
def exec (w : World R) (s : Sel) (rows : List R) (sent : List Reg) : Cmd → St → Res St
  | .scan _ limit offset cond group, st =>
    ((limit.map Lim.eval).elim (.ok Option.none) fun (n : Res Nat) => n.map some).map fun (n : Option Nat) =>
      ⟨.set (if group then scanOver s n offset cond (fun g => groupVal s.groups g.1 (s.finals g.2)) st.group
             else scanOver s n offset cond (rowVal w) rows), st.group⟩
  | .scanAggs, st =>
    if s.crash ((rows.filter fun r => holds s.cond (rowVal w r)).map (s.feed w)) then .error .ub
    else (scanAggs (s.aggs.map Prod.fst) s.groups.length s.groupBy
        ((rows.filter fun r => holds s.cond (rowVal w r)).map (s.feed w))).elim (.error .ub)
      fun g => .ok ⟨.aggs g, st.group⟩
  | .setAggMerge, st => .ok st
  | .pipe, st => match st.r with
    | .aggs g => .ok ⟨st.r, g.groups.rows⟩
    | _ => .error .ub
  | .sort, st => match st.r with
    | .set l => .ok ⟨.set (w.sort l), st.group⟩
    | _ => .error .ub
  | .union, st => match st.r with
    | .set l => .ok ⟨.union (if s.distinct then .distinct else .ordered) s.limit (s.offset.getD 0) [l], st.group⟩
    | _ => .error .ub
  | .recv ordered, st =>
    .ok ⟨.union (if ordered then (if s.distinct then .distinct else .ordered) else .all) s.limit (s.offset.getD 0)
      (setsOf sent), st.group⟩
  | .recvAggs, st => match aggsOf sent with
    | [] => .error .ub
    | g :: gs => (mergeSets (s.aggs.map Prod.fst) g gs).elim (.error .ub) fun g => .ok ⟨.aggs g, st.group⟩

/-- emit_plan, emit_select.c:476-490 -/
def execAll (w : World R) (s : Sel) (rows : List R) (sent : List Reg) : List Cmd → St → Res St
  | [], st => .ok st
  | c :: l, st => (exec w s rows sent c st).bind fun st => execAll w s rows sent l st

/-- a partition runs the pushed-down commands on its rows; all of them must succeed, crecv, command.c:286-330 -/
def partRegs (w : World R) (s : Sel) (cmds : List Cmd) : List (List R) → Res (List Reg)
  | [] => .ok []
  | rows :: l => (execAll w s rows [] cmds ⟨.none, []⟩).bind fun st => (partRegs w s cmds l).map fun regs => st.r :: regs

/-- emit_select and emit_select_recv, emit_select.c:492-507: the register with the result, for a SELECT over the
partitions `parts` of its first table -/
def runParts (w : World R) (f : From) (s : Sel) (parts : List (List R)) : Res Reg :=
  (partRegs w s (planPushdown f s).1 parts).bind fun regs =>
    (execAll w s [] regs (planPushdown f s).2 ⟨.none, []⟩).map St.r

/-- the same for a SELECT that is not pushed down -/
def runMain (w : World R) (f : From) (s : Sel) (rows : List R) : Res Reg :=
  (execAll w s rows [] (planMain f s) ⟨.none, []⟩).map St.r

/-- the order of CSET_ORDERED: emit_order, emit_select.c:188-210 -/
def Sel.cmp (s : Sel) : Row → Row → Int := byKeys (s.order.map Prod.snd) Prod.snd

/-- reading the result register: a set as it is, a union through its iterator -/
def Shows (cmp : Row → Row → Int) : Reg → List Row → Prop
  | .set rows, out => out = rows
  | .union ty limit offset its, out => Returns cmp ty limit offset its out
  | _, _ => False

/-- the statement, pushed down, returns the rows `out` -/
def Runs (w : World R) (f : From) (s : Stmt) (parts : List (List R)) (out : List (List Val)) : Prop :=
  ∃ q reg rows, resolve s = some q ∧ runParts w f q parts = .ok reg ∧ Shows q.cmp reg rows ∧ out = rows.map Prod.fst

/-- the statement, not pushed down, returns the rows `out` -/
def RunsMain (w : World R) (f : From) (s : Stmt) (rows : List R) (out : List (List Val)) : Prop :=
  ∃ q reg l, resolve s = some q ∧ runMain w f q rows = .ok reg ∧ Shows q.cmp reg l ∧ out = l.map Prod.fst

end Verif.Query.Select
