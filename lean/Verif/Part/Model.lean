import Verif.Common
import Verif.Index.TreeHistory
/-!
# Partition operations, the transaction log, commit and rollback

Models db/part/part_op.c, db/transaction/log.h, db/transaction/commit.c, db/transaction/track.h (track_sync) and the part
of system/backend/pod.c that runs transactions.

* A row is an element of `R` (a pointer to a heap row: two rows with the same contents may still be different rows).
* An index is its comparison and the rows it holds; the operations of the index interface are those of a map from keys to
  rows. That the tree and the hash table behave like this is the subject of C10 and C12 (`ix_replace_spec` and friends in
  `Part/Proofs.lean` connect this model with their specification).
* The table columns, the write ahead log buffer, sequences and the memory limit are not part of the state: they do not
  influence the indexes.
-/
namespace Verif.Part
open Verif.Index
variable {R : Type}

/-- one index of a partition; `hash` tells the kind (index_tree.c or index_hash.c) -/
structure Ix (R : Type) where
  cmp  : R → R → Int
  hash : Bool
  rows : List R

/-- db/index/index.h index_replace_by (index_tree.c:34-39): previous row of the key, new contents -/
def Ix.replaceBy (ix : Ix R) (r : R) : Option R × Ix R :=
  (lookup ix.cmp ix.rows r, { ix with rows := r :: others ix.cmp ix.rows r })

/-- index_delete_by (index_tree.c:49-54) -/
def Ix.deleteBy (ix : Ix R) (r : R) : Option R × Ix R :=
  (lookup ix.cmp ix.rows r, { ix with rows := others ix.cmp ix.rows r })

/-- index_upsert (index_tree.c:23-32): true if the key exists; otherwise the row is added -/
def Ix.upsert (ix : Ix R) (r : R) : Bool × Ix R :=
  match lookup ix.cmp ix.rows r with
  | some _ => (true, ix)
  | none => (false, { ix with rows := r :: ix.rows })

/-- index_replace (index_tree.c:41-47): the row `y` under the iterator is replaced, keys are not compared -/
def Ix.replaceAt (ix : Ix R) (y r : R) : Option R × Ix R :=
  (some y, { ix with rows := r :: others ix.cmp ix.rows y })

/-- index_delete (index_tree.c:56-62): the row `y` under the iterator is removed -/
def Ix.deleteAt (ix : Ix R) (y : R) : Option R × Ix R :=
  (some y, { ix with rows := others ix.cmp ix.rows y })

/-- db/transaction/log.h:27-39 LogOp and LogRow. `index` is the position of the index in the partition (iface_arg);
position 0 is the primary index, logged with `log_if`, the others with `log_if_secondary`. -/
structure LogRow (R : Type) where
  index  : Nat
  delete : Bool
  row    : R
  prev   : Option R
deriving DecidableEq

/-- a partition: its indexes (primary first), and the rows given back to the heap (row_free) -/
structure St (R : Type) where
  ixs   : List (Ix R)
  freed : List R

/-- statements of a transaction on one partition. The cursor of UPDATE and DELETE stands on row `y` of index number
`cursor` (db/part/cursor.c:165-190 opens the index the planner chose, compiler/compiler/scan.c:114-152). -/
inductive Stmt (R : Type) where
  | insert (replace : Bool) (r : R)
  | upsert (r : R)
  | update (cursor : Nat) (y r : R)
  | delete (cursor : Nat) (y : R)
  | deleteBy (r : R)

/-- how a statement ends -/
inductive Outcome where
  | done       -- success
  | existed    -- upsert found the key
  | noRow      -- the cursor has no such row: nothing is executed
  | failed     -- error()
  | ub         -- an iterator of one index kind used as another, or an index without the row
deriving DecidableEq, Repr

/-- part_op.c:117-127: the secondary indexes of part_insert and part_upsert; `i` is the position of the first one.
Returns the new indexes, the log records and false on a unique violation (the rest is then untouched). -/
def insertSecondary (replace : Bool) (r : R) : Nat → List (Ix R) → List (Ix R) × List (LogRow R) × Bool
  | _, [] => ([], [], true)
  | i, ix :: rest =>
    let (prev, ix') := ix.replaceBy r
    if prev.isSome && !replace then (ix' :: rest, [⟨i, false, r, prev⟩], false)
    else
      let (rest', log, ok) := insertSecondary replace r (i + 1) rest
      (ix' :: rest', ⟨i, false, r, prev⟩ :: log, ok)

/-- part_op.c:98-136 part_insert -/
def partInsert (replace : Bool) (r : R) (st : St R) : St R × List (LogRow R) × Outcome :=
  let (ixs, log, ok) := insertSecondary replace r 0 st.ixs
  ({ st with ixs := ixs }, log, if ok then .done else .failed)

/-- part_op.c:138-174 part_upsert -/
def partUpsert (r : R) (st : St R) : St R × List (LogRow R) × Outcome :=
  match st.ixs with
  | [] => (st, [], .ub)
  | primary :: rest =>
    match primary.upsert r with
    | (true, _) => ({ st with freed := r :: st.freed }, [], .existed)
    | (false, primary') =>
      let (rest', log, ok) := insertSecondary false r 1 rest
      ({ st with ixs := primary' :: rest' }, ⟨0, false, r, none⟩ :: log, if ok then .done else .failed)

/-- part_op.c:189-200: the secondary indexes of part_update: open an iterator at the key of the new row and replace the
row under it; without an exact match another row (or none) would be replaced: undefined -/
def updateSecondary (r : R) : Nat → List (Ix R) → List (Ix R) × List (LogRow R) × Bool
  | _, [] => ([], [], true)
  | i, ix :: rest =>
    match lookup ix.cmp ix.rows r with
    | none => (ix :: rest, [], false)
    | some z =>
      let (prev, ix') := ix.replaceAt z r
      let (rest', log, ok) := updateSecondary r (i + 1) rest
      (ix' :: rest', ⟨i, false, r, prev⟩ :: log, ok)

/-- part_op.c:242-249: the secondary indexes of part_delete -/
def deleteSecondary (y : R) : Nat → List (Ix R) → List (Ix R) × List (LogRow R)
  | _, [] => ([], [])
  | i, ix :: rest =>
    let (prev, ix') := ix.deleteBy y
    let (rest', log) := deleteSecondary y (i + 1) rest
    (ix' :: rest', ⟨i, true, y, prev⟩ :: log)

variable [DecidableEq R]

/-- the index the cursor works on and whether it has the row; an iterator of another kind than the primary index is
passed to the primary's implementation (index_tree_iterator_of / index_hash_iterator_of cast without a check) -/
def cursorCheck (ixs : List (Ix R)) (cursor : Nat) (y : R) : Outcome :=
  match ixs, ixs[cursor]? with
  | primary :: _, some ix =>
    if y ∈ ix.rows then (if primary.hash = ix.hash then .done else .ub) else .noRow
  | _, _ => .noRow

/-- part_op.c:176-204 part_update. index_replace(primary, row, it) works on the index of the iterator, whatever index
that is (index_tree.c:41-47 ignores its index argument), but is logged for the primary index. -/
def partUpdate (cursor : Nat) (y r : R) (st : St R) : St R × List (LogRow R) × Outcome :=
  match cursorCheck st.ixs cursor y with
  | .done =>
    let ixs := st.ixs.modify cursor fun ix => (ix.replaceAt y r).2
    match ixs with
    | [] => (st, [], .ub)
    | primary :: rest =>
      let (rest', log, ok) := updateSecondary r 1 rest
      ({ st with ixs := primary :: rest' }, ⟨0, false, r, some y⟩ :: log, if ok then .done else .ub)
  | o => (st, [], o)

/-- part_op.c:206-254 part_delete; the index of the cursor as in `partUpdate` -/
def partDelete (cursor : Nat) (y : R) (st : St R) : St R × List (LogRow R) × Outcome :=
  match cursorCheck st.ixs cursor y with
  | .done =>
    let ixs := st.ixs.modify cursor fun ix => (ix.deleteAt y).2
    match ixs with
    | [] => (st, [], .ub)
    | primary :: rest =>
      let (rest', log) := deleteSecondary y 1 rest
      ({ st with ixs := primary :: rest' }, ⟨0, true, y, some y⟩ :: log, .done)
  | o => (st, [], o)

/-- part_op.c:256-267 part_delete_by: used by replay and recovery -/
def partDeleteBy (r : R) (st : St R) : St R × List (LogRow R) × Outcome :=
  match st.ixs with
  | [] => (st, [], .ub)
  | primary :: _ =>
    match lookup primary.cmp primary.rows r with
    | none => (st, [], .failed)
    | some y => partDelete 0 y st

def exec (st : St R) : Stmt R → St R × List (LogRow R) × Outcome
  | .insert replace r => partInsert replace r st
  | .upsert r => partUpsert r st
  | .update c y r => partUpdate c y r st
  | .delete c y => partDelete c y st
  | .deleteBy r => partDeleteBy r st

/-- the statements of a transaction run one after another, until one fails; the log grows (log.h:132-153 log_row) -/
def execAll : St R → List (Stmt R) → St R × List (LogRow R) × Outcome
  | st, [] => (st, [], .done)
  | st, s :: ss =>
    let (st', log, o) := exec st s
    match o with
    | .failed => (st', log, .failed)
    | .ub => (st', log, .ub)
    | _ =>
      let (st'', log', o') := execAll st' ss
      (st'', log ++ log', o')

omit [DecidableEq R]

/-- part_op.c:23-34 log_if_rollback -/
def undo (ix : Ix R) (e : LogRow R) : Ix R :=
  match e.prev with
  | some p => (ix.replaceBy p).2
  | none => (ix.deleteBy e.row).2

/-- part_op.c:48-57 log_if_abort, 66-71 log_if_secondary_abort: undo, and the primary gives the new row back -/
def abortOp (e : LogRow R) (st : St R) : St R :=
  { ixs := st.ixs.modify e.index fun ix => undo ix e
    freed := if e.index = 0 ∧ e.delete = false then e.row :: st.freed else st.freed }

/-- part_op.c:36-46 log_if_commit: the primary gives the previous row back -/
def commitOp (e : LogRow R) (st : St R) : St R :=
  match e.prev with
  | some p => if e.index = 0 then { st with freed := p :: st.freed } else st
  | none => st

/-- db/transaction/commit.c:52-65 tr_abort: the log backwards -/
def trAbort (log : List (LogRow R)) (st : St R) : St R := log.foldr abortOp st

/-- db/transaction/commit.c:36-50 tr_commit: the log forwards -/
def trCommit (log : List (LogRow R)) (st : St R) : St R := log.foldl (fun st e => commitOp e st) st

/-! ## Prepared transactions of a partition -/

/-- db/transaction/consensus.h:16-20 -/
structure Consensus where
  commit : Nat
  abort  : Nat
deriving DecidableEq, Repr

/-- db/transaction/track.h:16-29 Track: prepared transactions with their ids and logs (oldest first), the last id
handed out, the consensus the partition already applied (consensus_pod) -/
structure Pod (R : Type) where
  st       : St R
  seq      : Nat
  prepared : List (Nat × List (LogRow R))
  applied  : Consensus

/-- track.h:44-56 track_init: ids start at 1 -/
def Pod.init (st : St R) : Pod R := ⟨st, 1, [], ⟨0, 0⟩⟩

/-- db/transaction/commit.c:83-98 tr_abort_list: newest first, all transactions with an id up to `id` -/
def trAbortList (id : Nat) (prepared : List (Nat × List (LogRow R))) (st : St R) :
    St R × List (Nat × List (LogRow R)) :=
  prepared.foldr (fun (p : Nat × List (LogRow R)) (acc : St R × List (Nat × List (LogRow R))) =>
    if p.1 ≤ id then (trAbort p.2 acc.1, acc.2) else (acc.1, p :: acc.2)) (st, [])

/-- db/transaction/commit.c:67-81 tr_commit_list: oldest first, all transactions with an id up to `id` -/
def trCommitList (id : Nat) : List (Nat × List (LogRow R)) → St R → St R × List (Nat × List (LogRow R))
  | [], st => (st, [])
  | p :: ps, st =>
    if p.1 ≤ id then trCommitList id ps (trCommit p.2 st)
    else let (st', l) := trCommitList id ps st; (st', p :: l)

/-- db/transaction/track.h:106-126 track_sync: aborts first, then commits -/
def Pod.sync (c : Consensus) (p : Pod R) : Pod R :=
  let p := if c.abort > p.applied.abort then
      let (st, l) := trAbortList c.abort p.prepared p.st
      { p with st := st, prepared := l, applied := { p.applied with abort := c.abort } }
    else p
  if c.commit > p.applied.commit then
    let (st, l) := trCommitList c.commit p.prepared p.st
    { p with st := st, prepared := l, applied := { p.applied with commit := c.commit } }
  else p

/-- system/backend/pod.c:142-160 pod_main and 62-119 pod_request: apply the consensus that came with the transaction,
then run its statements; the transaction joins the prepared list also when it failed -/
def Pod.run [DecidableEq R] (c : Consensus) (stmts : List (Stmt R)) (p : Pod R) : Pod R × Outcome :=
  let p := p.sync c
  let (st, log, o) := execAll p.st stmts
  ({ p with st := st, seq := p.seq + 1, prepared := p.prepared ++ [(p.seq, log)] }, o)

end Verif.Part
