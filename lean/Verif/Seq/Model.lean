import Verif.Common
/-!
# Identity columns: db/row/sequence.h, vm/value/row.h, db/part/part_op.c

One table with an identity column of 64 bits that is its key. Frontends take values from the sequence with an atomic increment while
refresh, flush and index builds apply rows on the partitions (part_apply), which syncs the sequence in two steps: it reads the value
and, if it is behind, it writes it. Restart: the rows of the heap files are applied and the REPLACE records of the log are inserted
with `replace`; that the rows are the committed ones is the subject of C26.
-/
namespace Verif.Seq
open Verif

/-- a record of the log: a row of a REPLACE command, a SET IDENTITY command -/
inductive Rec where
  | row (i : Int)
  | set (v : Nat)
deriving DecidableEq

structure St where
  /-- Sequence.value, an atomic_u64 -/
  value : Nat
  /-- a sync between its comparison and its write (the spin lock admits one at a time): the value to write -/
  pending : Option Nat
  /-- the identity values of the rows of the table -/
  rows : List Int
  /-- those of the rows in the heap files -/
  saved : List Int
  /-- the log records that a restart will replay (newest first): rows newer than the heap files, commands newer than the catalog file -/
  logged : List Rec
  /-- a history variable: the values generated since the start of the server -/
  made : List Int

/-- a new table: sequence_init, sequence.h:22-27 -/
def St.init : St := ⟨0, none, [], [], [], []⟩

/-- `auto next = value + 1` of sequence_sync, sequence.h:58, for the value of a row (part_op.c:88-97): int64_t becomes uint64_t -/
def syncNext (i : Int) : Nat := (toUnsigned 64 i + 1) % 2 ^ 64

/-- sequence_sync without anything in between, sequence.h:54-63 -/
def sync (v : Nat) (i : Int) : Nat := if v < syncNext i then syncNext i else v

/-- the value of the identity column that a row without one gets, row.h:37-47; atomic_u64_inc returns the value before, atomic.h:57-61;
value_set_int makes an int64_t of it -/
def newId (s : St) : Int := toSigned 64 s.value

inductive Op where
  /-- INSERT without a value for the identity column -/
  | gen
  /-- INSERT with an explicit value -/
  | put (i : Int)
  /-- DELETE of the row -/
  | del (i : Int)
  /-- part_apply of a row by refresh, flush or an index build: up to the comparison in sequence_sync -/
  | syncRead (i : Int)
  /-- and its write -/
  | syncWrite
  /-- ALTER TABLE SET IDENTITY, table_mgr_set_identity, table_mgr_alter.c:114-141; it is not part of the table's configuration -/
  | setIdentity (v : Nat)
  /-- refresh of all partitions: the rows are in the heap files, their log records will be skipped -/
  | checkpoint
  /-- the catalog file is written: the DDL records before it will be skipped (recover.c:117-122) -/
  | catalog
  /-- stop (or crash after the last commit) and start: part_open (part.c:58-84), recover_cmd (recover.c:76-96) -/
  | restart

/-- part_insert without replace, part_op.c:100-134: a row with the key exists: unique key constraint violation, the row is not added -/
def insertRow (s : St) (i : Int) : St := if i ∈ s.rows then s else { s with rows := i :: s.rows, logged := .row i :: s.logged }

/-- the replay of a record: part_insert with replace syncs the sequence (part_op.c:126-128), the command sets it -/
def replay (v : Nat) : Rec → Nat
  | .row i => sync v i
  | .set w => w % 2 ^ 64

def step (s : St) : Op → St
  | .gen => { insertRow s (newId s) with value := (s.value + 1) % 2 ^ 64, made := newId s :: s.made }
  | .put i => insertRow s i
  | .del i => { s with rows := s.rows.filter (fun x => decide (x ≠ i)) }
  | .syncRead i => if i ∈ s.rows ∧ s.pending = none ∧ s.value < syncNext i then { s with pending := some (syncNext i) } else s
  | .syncWrite => match s.pending with
    | some v => { s with value := v, pending := none }
    | none => s
  | .setIdentity v => { s with value := v % 2 ^ 64, logged := .set v :: s.logged }
  | .checkpoint => { s with saved := s.rows, logged := s.logged.filter fun r => match r with | .row _ => false | .set _ => true }
  | .catalog => { s with logged := s.logged.filter fun r => match r with | .row _ => true | .set _ => false }
  | .restart => { s with value := s.logged.reverse.foldl replay (s.saved.foldl sync 0), pending := none, made := [] }

def run (s : St) (ops : List Op) : St := ops.foldl step s

end Verif.Seq
