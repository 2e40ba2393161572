import Verif.Wal.Model
/-!
# What the log should do

The log is a sequence of transactions, each with its number (lsn). Reading from a number returns the transactions from that number on.
-/
namespace Verif.Wal
open Verif

/-- a change a transaction can make: a row of a table (whose bytes carry their own size, as created rows do: Row `C08_size`), or a DDL operation -/
def Change.Valid : Change → Prop
  | .row cmd a b bytes => (cmd = REPLACE ∨ cmd = DELETE) ∧ a < 2 ^ 64 ∧ b < 2 ^ 64 ∧ IsBytes bytes ∧ 0 < bytes.length ∧
      ∀ rest, Row.rowSize (bytes ++ rest) = .ok bytes.length
  | .op cmd bytes => (cmd = DDL ∨ cmd = DDL_CREATE_INDEX) ∧ IsBytes bytes

/-- one request to append transactions to the log, with what happens to it -/
structure Call where
  ws : List (List WLog)
  o  : Outcome

/-- a sequence of requests -/
def runCalls (w : Wal) (calls : List Call) : Wal := calls.foldl (fun w c => (w.mgrWrite c.ws c.o).1) w

/-- transactions numbered from `n` + 1 on -/
def number : Nat → List (List WLog) → List (Nat × List WLog)
  | _, [] => []
  | n, w :: ws => (n + 1, w) :: number (n + 1) ws

/-- the transactions that should be in the log after a sequence of requests, with their numbers: those of the requests whose write did not fail -/
def logged : Nat → List Call → List (Nat × List WLog)
  | _, [] => []
  | n, c :: cs => if c.o.writeFails = none then number n c.ws ++ logged (n + c.ws.length) cs else logged n cs

/-- the bytes of a numbered transaction -/
def bytesOf (t : Nat × List WLog) : Bytes := record t.1 t.2

/-- sizes for which the 32 bit arithmetic of the code does not overflow: records below 2 GiB (and not empty), files below 4 GiB, and
numbers below 2^64 - 2 -/
structure Sized (w : Wal) (txs : List (Nat × List WLog)) : Prop where
  file : ∀ f ∈ w.files, f.bytes.length + 24 < 2 ^ 32
  recs : ∀ t ∈ txs, 24 < (bytesOf t).length ∧ (bytesOf t).length < 2 ^ 31
  lsn  : w.lsn < 2 ^ 64 - 2

/-- the transactions from number `l` on -/
def fromLsn (l : Nat) (txs : List (Nat × List WLog)) : List (Nat × List WLog) := txs.filter fun t => l ≤ t.1

/-- the records that are complete in the first `n` bytes -/
def complete : Nat → List Bytes → List Bytes
  | _, [] => []
  | n, r :: rs => if r.length ≤ n then r :: complete (n - r.length) rs else []

/-- bytes in all files -/
def totalBytes (fs : List File) : Nat := (fs.map fun f => f.bytes.length).sum

/-- number of the last transaction in a list -/
def lastLsn (txs : List (Nat × List WLog)) : Nat := (txs.getLast?.map Prod.fst).getD 0

end Verif.Wal
