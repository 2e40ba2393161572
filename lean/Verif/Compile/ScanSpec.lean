import Verif.Compile.ScanModel
/-!
# What a SELECT means

Nested loops over the tables of FROM in order; WHERE; the first OFFSET rows are skipped; after LIMIT rows the query ends.
Registers, code, jumps and cursors do not occur.
-/
namespace Verif.Compile

variable {W : Type}

/-- the current rows -/
def rowsOf (rows : Nat → Option Row) (t n : Nat) : Option Val := (rows t).bind fun r => r[n]?
/-- what expressions are evaluated over -/
def Tables.sem (T : Tables W) (rows : Nat → Option Row) : Sem W := ⟨T.P, rowsOf rows, T.fn⟩
/-- table `t` is at row `r` -/
def setRow (rows : Nat → Option Row) (t : Nat) (r : Row) : Nat → Option Row := fun i => if i = t then some r else rows i

/-- what a query has so far: the state of the world (what volatile functions read and change), how many rows are still to be
skipped and how many may still be returned (below zero once they are used up), and the rows returned -/
structure Acc (W : Type) where
  world : W
  off : Option Int
  lim : Option Int
  out : List Row

/-- a condition -/
def condSem (E : Sem W) (vars : List Val) (e : Expr) (w : W) : Except Stop (Bool × W) :=
  (eval E vars e w).bind fun p => (isTrue p.1).map fun b => (b, p.2)

/-- conditions, until one does not hold -/
def condsSem (E : Sem W) (vars : List Val) : List Expr → W → Except Stop (Bool × W)
  | [], w => .ok (true, w)
  | e :: es, w => (condSem E vars e w).bind fun p => if p.1 then condsSem E vars es p.2 else .ok (false, p.2)

/-- one combination of rows that WHERE holds for: OFFSET, LIMIT, the select list. True: the query ends. -/
def emitSem (E : Sem W) (vars : List Val) (sel : Args) (a : Acc W) : Except Stop (Acc W × Bool) :=
  if ∃ k, a.off = some k ∧ 0 ≤ k - 1 then .ok ({ a with off := a.off.map (· - 1) }, false)
  else if ∃ k, a.lim = some k ∧ k - 1 < 0 then .ok ({ a with off := a.off.map (· - 1), lim := a.lim.map (· - 1) }, true)
  else (evalArgs E vars sel a.world).map fun p =>
    (⟨p.2, a.off.map (· - 1), a.lim.map (· - 1), a.out ++ [p.1]⟩, false)

/-- one combination of rows -/
def matchSem (E : Sem W) (vars : List Val) (wh : Option Expr) (sel : Args) (a : Acc W) : Except Stop (Acc W × Bool) :=
  wh.elim (emitSem E vars sel a) fun e => (condSem E vars e a.world).bind fun p =>
    if p.1 then emitSem E vars sel { a with world := p.2 } else .ok ({ a with world := p.2 }, false)

/-- the rows of one table: until a stop condition does not hold; only the first one if `once` -/
def loopSem (body : Row → Acc W → Except Stop (Acc W × Bool)) (stop : Row → W → Except Stop (Bool × W)) (once : Bool) :
    List Row → Acc W → Except Stop (Acc W × Bool)
  | [], a => .ok (a, false)
  | r :: rs, a => (stop r a.world).bind fun p =>
      if p.1 then (body r { a with world := p.2 }).bind fun b =>
        if b.2 then .ok b else if once then .ok b else loopSem body stop once rs b.1
      else .ok ({ a with world := p.2 }, false)

/-- the tables of FROM, nested -/
def nestSem (T : Tables W) (vars : List Val) (q : Query) : List Target → (Nat → Option Row) → Acc W → Except Stop (Acc W × Bool)
  | [], rows, a => matchSem (T.sem rows) vars q.wh q.sel a
  | t :: ts, rows, a => (evalArgs (T.sem rows) vars t.start a.world).bind fun k =>
      loopSem (fun r a => nestSem T vars q ts (setRow rows t.id r) a)
        (fun r w => condsSem (T.sem (setRow rows t.id r)) vars t.stop w)
        (t.point && t.unique) (T.rows t.table t.point k.1) { a with world := k.2 }

/-! ## As lists

For queries whose expressions have no effects. -/

/-- the key a table is read from -/
def keyOf (T : Tables W) (vars : List Val) (w : W) (t : Target) (rows : Nat → Option Row) : List Val :=
  match evalArgs (T.sem rows) vars t.start w with
  | .ok p => p.1
  | .error _ => []
/-- the condition holds for a combination of rows -/
def holds (T : Tables W) (vars : List Val) (w : W) (rows : Nat → Option Row) (e : Expr) : Bool :=
  match condSem (T.sem rows) vars e w with
  | .ok p => p.1
  | .error _ => false
/-- WHERE holds -/
def whereHolds (T : Tables W) (vars : List Val) (w : W) (q : Query) (rows : Nat → Option Row) : Bool :=
  match q.wh with
  | none => true
  | some e => holds T vars w rows e
/-- the select list -/
def selected (T : Tables W) (vars : List Val) (w : W) (q : Query) (rows : Nat → Option Row) : Row :=
  match evalArgs (T.sem rows) vars q.sel w with
  | .ok p => p.1
  | .error _ => []
/-- the rows of a table that are read: the ones from the key on while the stop conditions hold; one for a point lookup in a unique index -/
def scanned (T : Tables W) (vars : List Val) (w : W) (t : Target) (rows : Nat → Option Row) : List Row :=
  (fun l => if t.point && t.unique then l.take 1 else l)
    ((T.rows t.table t.point (keyOf T vars w t rows)).takeWhile fun r => t.stop.all (holds T vars w (setRow rows t.id r)))
/-- the combinations of rows of tables, given what rows of a table are looked at -/
def combos (rowsIn : Target → (Nat → Option Row) → List Row) : List Target → (Nat → Option Row) → List (Nat → Option Row)
  | [], rows => [rows]
  | t :: ts, rows => (rowsIn t rows).flatMap fun r => combos rowsIn ts (setRow rows t.id r)
/-- OFFSET and LIMIT -/
def slice {A : Type} (offset limit : Option Int) (l : List A) : List A :=
  (fun m => limit.elim m fun k => m.take k.toNat) (l.drop (offset.elim 0 Int.toNat))
/-- the rows of the result -/
def answer (T : Tables W) (vars : List Val) (w : W) (q : Query) (offset limit : Option Int) (cs : List (Nat → Option Row)) : List Row :=
  (slice offset limit (cs.filter (whereHolds T vars w q))).map (selected T vars w q)

/-- nothing in the query has effects -/
structure Effectless (T : Tables W) (q : Query) (ts : List Target) : Prop where
  wh : ∀ e, q.wh = some e → e.Pure T.fn
  sel : q.sel.Pure T.fn
  start : ∀ t ∈ ts, t.start.Pure T.fn
  stop : ∀ t ∈ ts, ∀ e ∈ t.stop, e.Pure T.fn

/-- reading the tables in a certain way leaves out no row that could matter: of the rows of a table, some are left out, and no combination
with one of them satisfies the condition -/
def Faithful (rowsIn : Target → (Nat → Option Row) → List Row) (full : Target → List Row) (P : (Nat → Option Row) → Bool) : List Target → (Nat → Option Row) → Prop
  | [], _ => True
  | t :: ts, rows => ∃ keep : Row → Bool, rowsIn t rows = (full t).filter keep ∧
      (∀ r ∈ full t, keep r = false → ∀ rows' ∈ combos (fun t _ => full t) ts (setRow rows t.id r), P rows' = false) ∧
      ∀ r ∈ full t, Faithful rowsIn full P ts (setRow rows t.id r)

end Verif.Compile
