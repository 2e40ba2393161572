import Verif.Query.Select
import Verif.Query.UnionMap
/-!
# What a SELECT means

The clauses in the order of the SQL standard, without partitions, plans, hash tables and iterators.
-/
set_option linter.unusedVariables false
set_option autoImplicit false
namespace Verif.Query.Select
open Verif.Query
variable {R : Type}

/-- what an ORDER BY, GROUP BY or DISTINCT ON expression stands for: a position of the select list, the only column of the
select list with that label, or itself -/
def refersTo (ret : List Item) : Ex → Option Ex
  | .int i => if 1 ≤ i then (ret[i.toNat - 1]?).map Item.ex else none
  | .name n => match ret.filter fun it => same it.label n with
    | [it] => some it.ex
    | _ => some (.name n)
  | e => some e

/-- a row the select list is computed from: its columns and, in a grouped query, the aggregates of the group -/
structure Src where
  col : Name → Val
  aggs : List Val

/-- the value of an expression -/
def means (x : Src) : Ex → Val
  | .int i => .int i
  | .name n => x.col n
  | .app f a b => f (means x a) (means x b)
  | .agg i => x.aggs.getD i .null
  | .key _ => .null

/-- the row satisfies WHERE or HAVING -/
def meets (cond : Option Ex) (x : Src) : Prop := ∀ e, cond = some e → valueIsTrue (means x e) = true
instance (cond : Option Ex) (x : Src) : Decidable (meets cond x) := by
  unfold meets
  cases cond with
  | none => exact isTrue (fun e h => by simp at h)
  | some e => exact decidable_of_iff (valueIsTrue (means x e) = true) (by simp)

/-- a row of FROM as such -/
def World.src (w : World R) (r : R) : Src := ⟨w.col r, []⟩

/-- the GROUP BY key of a row -/
def keyOf (w : World R) (s : Stmt) (r : R) : List Val :=
  s.groupBy.map fun e => means (w.src r) ((refersTo s.ret e).getD e)

/-- `v` is the value of the aggregate over the rows: of the arguments that are not NULL, for DISTINCT each once. Sums that
do not fit 64 bits, averages of negative sums (C63) and NaN are excluded by `Computable`. -/
def AggOf (w : World R) (a : Agg × Ex) (rows : List R) (v : Val) : Prop :=
  ∃ reps, Reps a.1.distinct ((rows.map fun r => means (w.src r) a.2).filter fun v => decide (v ≠ .null)) reps ∧
    (Computable a.1.ty reps → Sql a.1.ty reps v)

/-- the groups of the rows with their aggregates -/
structure Grouping (w : World R) (s : Stmt) (rows : List R) (gs : List (List R × List Val)) : Prop where
  cover : (gs.map Prod.fst).flatten.Perm rows
  within : ∀ g ∈ gs, ∀ a ∈ g.1, ∀ b ∈ g.1, keyOf w s a = keyOf w s b
  apart : gs.Pairwise fun g h => ∀ a ∈ g.1, ∀ b ∈ h.1, keyOf w s a ≠ keyOf w s b
  /-- with GROUP BY there are no empty groups; without it there is one group, even of no rows -/
  filled : s.groupBy ≠ [] → ∀ g ∈ gs, g.1 ≠ []
  one : s.groupBy = [] → gs.length = 1
  len : ∀ g ∈ gs, g.2.length = s.aggs.length
  aggs : ∀ g ∈ gs, ∀ (i : Nat) a v, s.aggs[i]? = some a → g.2[i]? = some v → AggOf w a g.1 v

/-- a group as a source: any of its rows (a name in the select list is a GROUP BY key) and its aggregates -/
def groupSrc (w : World R) (g : List R × List Val) : Src := ⟨fun n => (g.1.head?.map fun r => w.col r n).getD .null, g.2⟩

/-- FROM, WHERE, GROUP BY, HAVING -/
def Sources (w : World R) (s : Stmt) (rows : List R) (xs : List Src) : Prop :=
  if s.grouped then
    ∃ gs, Grouping w s (rows.filter fun r => decide (meets s.cond (w.src r))) gs ∧
      xs = (gs.map (groupSrc w)).filter fun x => decide (meets s.having x)
  else xs = (rows.filter fun r => decide (meets s.cond (w.src r))).map w.src

/-- the select list -/
def retOf (s : Stmt) (x : Src) : List Val := s.ret.map fun it => means x it.ex

/-- the ORDER BY keys, or the keys of DISTINCT: the select list, or the expressions of ON -/
def sortKeys (s : Stmt) (x : Src) : List Val :=
  if s.distinct then
    (if s.distinctOn = [] then retOf s x else s.distinctOn.map fun e => means x ((refersTo s.ret e).getD e))
  else s.orderBy.map fun e => means x ((refersTo s.ret e.1).getD e.1)

/-- ASC or DESC of the keys -/
def sortDirs (s : Stmt) : List Bool :=
  if s.distinct then (if s.distinctOn = [] then s.ret.map fun _ => true else s.distinctOn.map fun _ => true)
  else s.orderBy.map Prod.snd

/-- DISTINCT and ORDER BY; rows are the select list with the keys -/
def Arranged (s : Stmt) (rows m : List Row) : Prop :=
  if s.distinct then OnePerKey (byKeys (sortDirs s) Prod.snd) rows m
  else m.Perm rows ∧ (s.orderBy ≠ [] → Ascending (byKeys (sortDirs s) Prod.snd) m)

/-- `out` answers the SELECT over the rows of FROM: sources, select list, DISTINCT and ORDER BY, OFFSET, LIMIT -/
def Answer (w : World R) (s : Stmt) (rows : List R) (out : List (List Val)) : Prop :=
  ∃ xs m, Sources w s rows xs ∧ Arranged s (xs.map fun x => (retOf s x, sortKeys s x)) m ∧
    out = (page s.limit (s.offset.getD 0) m).map Prod.fst

/-! ## Statements and data the theorems are about -/

/-- an expression on the columns only -/
def Ex.onRow : Ex → Prop
  | .int _ | .name _ => True
  | .app _ a b => a.onRow ∧ b.onRow
  | .agg _ | .key _ => False

/-- an expression of a grouped query: every name is a GROUP BY key ("must appear in the GROUP BY clause", emit_expr.c:261) -/
def Ex.onGroup (groups : List Ex) : Ex → Prop
  | .int _ | .agg _ => True
  | .name n => (groupOf groups n).isSome
  | .app _ a b => a.onGroup groups ∧ b.onGroup groups
  | .key i => i < groups.length

/-- an expression as it is parsed: references to keys are made later -/
def Ex.noKey : Ex → Prop
  | .app _ a b => a.noKey ∧ b.noKey
  | .key _ => False
  | _ => True

/-- what the parser makes: HAVING only after GROUP BY, parse_select.c:178-186; not both DISTINCT and ORDER BY, :205-206;
LIMIT and OFFSET are 64-bit integers -/
structure Parsed (s : Stmt) : Prop where
  ret : ∀ it ∈ s.ret, it.ex.noKey
  group : ∀ e ∈ s.groupBy, e.noKey
  having : ∀ e, s.having = some e → e.noKey ∧ s.groupBy ≠ []
  on : ∀ e ∈ s.distinctOn, e.noKey
  order : ∀ e ∈ s.orderBy, e.1.noKey
  combined : s.distinct = true → s.orderBy = []
  ret_some : s.ret ≠ []

/-- the compiler accepts the resolved SELECT -/
structure Accepted (q : Sel) : Prop where
  cond : ∀ e, q.cond = some e → e.onRow
  args : ∀ a ∈ q.aggs, a.2.onRow
  groups : ∀ e ∈ q.groups, e.onRow
  having : ∀ e, q.having = some e → e.onGroup q.groups
  plain : (q.groupBy || !q.aggs.isEmpty) = false → (∀ it ∈ q.ret, it.ex.onRow) ∧ ∀ o ∈ q.order, o.1.onRow
  grouped : (q.groupBy || !q.aggs.isEmpty) = true → (∀ it ∈ q.ret, it.ex.onGroup q.groups) ∧ ∀ o ∈ q.order, o.1.onGroup q.groups

/-- DISTINCT without ON: no column of the select list is a plain name or an integer that reads as the label or position of
another column -/
def NoShadow (s : Stmt) : Prop :=
  s.distinct = true → s.distinctOn = [] → ∀ it ∈ s.ret, refersTo s.ret it.ex = some it.ex

/-- if a DISTINCT aggregate is used, one is used in the select list or HAVING -/
def DistinctSeen (s : Stmt) : Prop := (∃ a ∈ s.aggs, a.1.distinct = true) → ∃ a ∈ s.aggs.take s.early, a.1.distinct = true

/-- rows that can be aggregated: no NaN and negative zero as keys and DISTINCT arguments, integers of 64 bits -/
structure Countable (w : World R) (s : Stmt) (r : R) : Prop where
  keys : ∀ v ∈ keyOf w s r, v.canon
  fits : ∀ a ∈ s.aggs, (means (w.src r) a.2).fits
  dist : ∀ a ∈ s.aggs, a.1.distinct = true → (means (w.src r) a.2).canon

/-- the ORDER BY or DISTINCT keys of all rows of the answer are such that `P` -/
def KeysOk (P : List Val → Prop) (w : World R) (s : Stmt) (rows : List R) : Prop :=
  ∀ xs, Sources w s rows xs → ∀ x ∈ xs, P (sortKeys s x)

/-- qsort_r sorts rows that have no NaN among the keys -/
def Sorter (dirs : List Bool) (sort : List Row → List Row) : Prop :=
  ∀ l, (∀ r ∈ l, RowOrdered r.2) → (sort l).Perm l ∧ Ascending (byKeys dirs Prod.snd) (sort l)

end Verif.Query.Select
