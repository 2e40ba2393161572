import Verif.Part.Model
/-!
# Specification: a table partition as a set of rows under several unique keys
-/
namespace Verif.Part
open Verif.Index
variable {R : Type}

/-- same index, same rows (the order of the list carries no meaning) -/
structure Same (a b : Ix R) : Prop where
  cmp  : a.cmp = b.cmp
  hash : a.hash = b.hash
  rows : a.rows.Perm b.rows

/-- the same indexes with the same rows -/
inductive SameAll : List (Ix R) → List (Ix R) → Prop
  | nil : SameAll [] []
  | cons {a b : Ix R} {as bs : List (Ix R)} : Same a b → SameAll as bs → SameAll (a :: as) (b :: bs)

variable [DecidableEq R]

/-- the key of `r` under the comparison `cmp` is taken -/
def Taken (cmp : R → R → Int) (m : List R) (r : R) : Prop := ∃ x ∈ m, cmp x r = 0
instance (cmp : R → R → Int) (m : List R) (r : R) : Decidable (Taken cmp m r) := inferInstanceAs (Decidable (∃ x ∈ m, _))

/-- what a statement does to the set of rows `m` of a table whose unique keys are `cmps` (primary first):
INSERT fails if any key of the row is taken; upsert keeps the existing row of the primary key and fails if only another
key is taken; UPDATE and DELETE act on the row the cursor stands on -/
def tableExec (cmps : List (R → R → Int)) (m : List R) : Stmt R → Outcome × List R
  | .insert false r => if ∃ c ∈ cmps, Taken c m r then (.failed, m) else (.done, r :: m)
  | .insert true r => (.done, r :: m.filter fun x => !decide (∃ c ∈ cmps, c x r = 0))
  | .upsert r =>
    if ∃ c ∈ cmps.head?, Taken c m r then (.existed, m)
    else if ∃ c ∈ cmps, Taken c m r then (.failed, m) else (.done, r :: m)
  | .update _ y r => if y ∈ m then (.done, r :: m.erase y) else (.noRow, m)
  | .delete _ y => if y ∈ m then (.done, m.erase y) else (.noRow, m)
  | .deleteBy r =>
    match cmps.head?.bind fun c => m.find? fun x => decide (c x r = 0) with
    | some y => (.done, m.erase y)
    | none => (.failed, m)

/-- the statements of a transaction; a failure undoes all of them -/
def tableExecAll (cmps : List (R → R → Int)) (m : List R) : List (Stmt R) → Option (List R)
  | [] => some m
  | s :: ss => match tableExec cmps m s with
    | (.failed, _) => none
    | (_, m') => tableExecAll cmps m' ss

/-- statements the SQL layer can issue on a table with the unique keys `cmps` whose cursors stand on the primary index:
UPDATE never changes a key column (compiler/compiler/emit_update.c:44-48) -/
def Stmt.Plain (cmps : List (R → R → Int)) : Stmt R → Prop
  | .insert replace _ => replace = false
  | .upsert _ => True
  | .update c y r => c = 0 ∧ ∀ cmp ∈ cmps, cmp y r = 0
  | .delete c _ => c = 0
  | .deleteBy _ => True

/-- a transaction: its statements and whether the coordinator commits it (only possible if no statement failed) -/
structure Tx (R : Type) where
  stmts  : List (Stmt R)
  commit : Bool

/-- run one transaction on the partition to its end -/
def runTx (st : St R) (t : Tx R) : St R :=
  match execAll st t.stmts with
  | (st', log, .failed) => trAbort log st'
  | (st', log, .ub) => trAbort log st'
  | (st', log, _) => if t.commit then trCommit log st' else trAbort log st'

/-- the same on the set of rows -/
def tableTx (cmps : List (R → R → Int)) (m : List R) (t : Tx R) : List R :=
  match tableExecAll cmps m t.stmts with
  | none => m
  | some m' => if t.commit then m' else m

/-! ## Outcomes decided by the coordinator

Transactions of a partition are numbered 1, 2, … in the order they run. The coordinator decides them in this order; after
it decided the first `n` of them, what the partition is told is the greatest committed and the greatest aborted number
(vm/executor/batch.h:40-110, db/transaction/consensus.h). -/

/-- the greatest number in 1..n decided as `b`, or 0 -/
def lastWith (verdict : Nat → Bool) (b : Bool) : Nat → Nat
  | 0 => 0
  | n + 1 => if verdict (n + 1) = b then n + 1 else lastWith verdict b n

/-- what a partition is told after the first `n` transactions are decided -/
def consensusOf (verdict : Nat → Bool) (n : Nat) : Consensus := ⟨lastWith verdict true n, lastWith verdict false n⟩

/-- what happens on a partition: the next transaction runs, or the outcomes of transactions 1..n become known -/
inductive Ev (R : Type) where
  | run (stmts : List (Stmt R))
  | decided (n : Nat)

/-- the partition: number of decided transactions it knows of, and its state -/
def podStep (verdict : Nat → Bool) (p : Pod R) : Ev R → Pod R
  | .run stmts => (p.run p.applied stmts).1
  | .decided n => p.sync (consensusOf verdict n)

/-- the transactions of a history -/
def txsOf : List (Ev R) → List (List (Stmt R))
  | [] => []
  | .run s :: es => s :: txsOf es
  | .decided _ :: es => txsOf es

/-- the rows that must be there: the committed transactions, one after another -/
def committedRows (cmps : List (R → R → Int)) (verdict : Nat → Bool) : Nat → List R → List (List (Stmt R)) → List R
  | _, m, [] => m
  | i, m, s :: ss => committedRows cmps verdict (i + 1) (tableTx cmps m ⟨s, verdict i⟩) ss

/-- the number of transactions known to be decided at the end of a history -/
def decidedOf (n : Nat) : List (Ev R) → Nat
  | [] => n
  | .run _ :: es => decidedOf n es
  | .decided k :: es => decidedOf k es

/-- the coordinator: never commits a failed transaction, decides only transactions that ran, and decides them in order;
`n` is the number decided so far -/
def Honest (verdict : Nat → Bool) : Pod R → Nat → List (Ev R) → Prop
  | _, _, [] => True
  | p, n, .run stmts :: es =>
    ((p.run p.applied stmts).2 = .failed → verdict p.seq = false) ∧ Honest verdict (podStep verdict p (.run stmts)) n es
  | p, n, .decided k :: es => n ≤ k ∧ k < p.seq ∧ Honest verdict (podStep verdict p (.decided k)) k es

/-- an aborted transaction is noticed together with nothing else decided, and nothing else has run on top of it:
every notification brings only commits, or only aborts that cover everything that ran -/
def OneAtATime (verdict : Nat → Bool) : Pod R → Nat → List (Ev R) → Prop
  | _, _, [] => True
  | p, n, .run stmts :: es => OneAtATime verdict (podStep verdict p (.run stmts)) n es
  | p, n, .decided k :: es =>
    ((∀ i, n < i → i ≤ k → verdict i = true) ∨ ((∀ i, n < i → i ≤ k → verdict i = false) ∧ k + 1 = p.seq)) ∧
      OneAtATime verdict (podStep verdict p (.decided k)) k es

end Verif.Part
