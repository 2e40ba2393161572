import Verif.Recover.Model
import Verif.Wal.Spec
/-!
# What recovery should do

The contents of the database are what the committed transactions made of it: checkpoints, log removal and restarts do not change anything.
-/
namespace Verif.Recover
open Verif Verif.Wal
variable {K : Type} [DecidableEq K]

/-- the database as a user sees it: the tables, and the row of each key of each table -/
structure World (K : Type) where
  tabs : List Tid
  rows : Tid → K → Option Bytes

def World.init : World K := ⟨[], fun _ _ => none⟩

/-- the row of a key of a table -/
def World.set (w : World K) (t : Tid) (k : K) (v : Option Bytes) : World K :=
  { w with rows := fun t' k' => if t' = t ∧ k' = k then v else w.rows t' k' }

/-- a change; it is refused when the table does not exist (or exists, for create), when a row to be deleted does not exist, or when the key
has no partition -/
def World.change (env : Env K) (w : World K) : Change → Option (World K)
  | .row cmd a b row =>
    let t : Tid := (a, b)
    let k := env.key t row
    if t ∉ w.tabs ∨ env.slot t k = none then none
    else if cmd = REPLACE then some (w.set t k (some row))
    else if w.rows t k = none then none
    else some (w.set t k none)
  | .op _ op =>
    match env.ddl op with
    | .create t => if t ∈ w.tabs then none else some { w with tabs := w.tabs ++ [t], rows := fun t' k => if t' = t then none else w.rows t' k }
    | .drop t => if t ∉ w.tabs then none else some { w with tabs := w.tabs.erase t, rows := fun t' k => if t' = t then none else w.rows t' k }
    | .truncate t => if t ∉ w.tabs then none else some { w with rows := fun t' k => if t' = t then none else w.rows t' k }
    | .other => some w

/-- a transaction: all of its changes, or nothing -/
def World.tx (env : Env K) (w : World K) (css : List (List Change)) : World K := (css.flatten.foldlM (World.change env) w).getD w

/-- only transactions change the contents -/
def World.step (env : Env K) (w : World K) : Op → World K
  | .tx css => w.tx env css
  | .unlogged c => w.tx env [[c]]
  | _ => w

def World.run (env : Env K) (ops : List Op) : World K := ops.foldl (World.step env) World.init

/-- what a user of the system sees: the tables of the catalog, and for a key the row in its partition -/
def view (env : Env K) (s : Sys K) : World K :=
  ⟨s.tabs, fun t k => if t ∈ s.tabs then (match env.slot t k with | some p => (s.parts t p).rows k | none => none) else none⟩

/-- the changes of a transaction are stored as such (Wal), those of one part of it are in one partition, and the record is of a size that the log
can hold -/
structure GoodTx (env : Env K) (css : List (List Change)) : Prop where
  valid : ∀ cs ∈ css, ∀ c ∈ cs, c.Valid
  one   : ∀ cs ∈ css, ∀ cmd a b row cmd' row', Change.row cmd a b row ∈ cs → Change.row cmd' a b row' ∈ cs →
            env.slot (a, b) (env.key (a, b) row) = env.slot (a, b) (env.key (a, b) row')
  ne    : css.flatten ≠ []
  size  : ∀ lsn, (record lsn (css.map WLog.ofChanges)).length < 2 ^ 31

/-- no DROP and no TRUNCATE -/
def KeepsTables (env : Env K) (css : List (List Change)) : Prop :=
  ∀ cs ∈ css, ∀ c ∈ cs, ∀ cmd op, c = Change.op cmd op → ∀ t, env.ddl op ≠ .drop t ∧ env.ddl op ≠ .truncate t

/-- transactions are as above, and all changes are logged -/
def Regular (env : Env K) : Op → Prop
  | .tx css => GoodTx env css ∧ KeepsTables env css
  | .unlogged _ => False
  | _ => True

/-- log records are not removed while a partition file is being written -/
def gcApart : List (Tid × Nat) → List Op → Prop
  | _, [] => True
  | l, .refreshStart t p :: r => gcApart ((t, p) :: l) r
  | l, .refreshEnd t p :: r => gcApart (l.filter (· ≠ (t, p))) r
  | l, .gc _ :: r => l = [] ∧ gcApart l r
  | _, .restart :: r => gcApart [] r
  | l, _ :: r => gcApart l r

end Verif.Recover
