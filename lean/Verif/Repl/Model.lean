import Verif.Common
/-!
# Replication: sync/repl/streamer.c, primary.c, system/session/session_replay.c

A record is what one transaction changed; the log of a server is the list of its records, record number i + 1 at place i. Reading the log by
position is C23. Names, ids and passwords of servers are left out, so is the text of the HTTP messages: a request is the Am-Lsn field and the
records in it. TCP keeps the order of what one connection carries, and a connection can break at any point.
-/
namespace Verif.Repl

/-- a connection on the replica: a request that has arrived and is not looked at yet, or what is left to replay of one -/
inductive Sess (R : Type) where
  | asked (lsn : Nat) (batch : List R)
  | replay (rest : List R)
deriving DecidableEq, Repr

/-- Streamer with its open connection, streamer.h:16-28: the place of wal_cursor (none: no file), `lsn`, whether a request is on its way, the
session that serves the connection and its reply -/
structure Stream where
  pos : Option Nat
  lsn : Nat
  busy : Bool
  sess : Nat
  reply : Option Nat
deriving DecidableEq, Repr

structure Sys (R : Type) where
  /-- the log of the primary; its length is state_lsn -/
  plog : List R
  /-- records that wal_write_list has written and wal_write has not published, wal.c:311-374 -/
  pend : List R
  /-- the lowest file of the log: records below it are removed -/
  base : Nat
  /-- WalSlot.lsn -/
  slot : Nat
  str : Option Stream
  /-- the sessions of the replica, by number; a session of a broken connection goes on -/
  sess : Nat → Option (Sess R)
  next : Nat
  rlog : List R

inductive Op (R : Type) where
  | write (rs : List R) | publish | abort
  | gc (n : Nat)
  | connect | disconnect
  | send (n : Nat)
  | check (i : Nat) | apply (i : Nat) | finish (i : Nat) | fail (i : Nat)
  | ack
  /-- power failures: the end of the log that is not synced is lost -/
  | lose (n : Nat) | replicaStop (n : Nat)

def Sys.set {R : Type} (s : Sys R) (i : Nat) (x : Option (Sess R)) : Nat → Option (Sess R) := fun j => if j = i then x else s.sess j

/-- what the cursor reads from a place on. When the file at the place is removed, the next one is opened, wal_cursor.c:124-138. -/
def Sys.ahead {R : Type} (s : Sys R) (pos : Nat) : List R := (s.plog ++ s.pend).drop (max pos (s.base - 1))

/-- where the records that are read end: the place of the last one -/
def Sys.after {R : Type} (s : Sys R) (pos n : Nat) : Nat := max pos (s.base - 1) + n

/-- wal_cursor_readahead, wal_cursor.c:149-168, reads at least one record and stops at state_lsn if it passes it; `n`: the records that fit
repl_readahead -/
def Sys.canRead {R : Type} (s : Sys R) (pos n : Nat) : Prop :=
  0 < n ∧ n ≤ (s.ahead pos).length ∧ (max pos (s.base - 1) < s.plog.length → s.after pos n ≤ s.plog.length)

instance {R : Type} (s : Sys R) (pos n : Nat) : Decidable (s.canRead pos n) := by unfold Sys.canRead; infer_instance

inductive Step {R : Type} : Sys R → Op R → Sys R → Prop
  -- wal_write, wal.c:340-374
  | write {s : Sys R} (rs) : s.pend = [] → Step s (.write rs) { s with pend := rs }
  | publish {s : Sys R} : Step s .publish { s with plog := s.plog ++ s.pend, pend := [] }
  | abort {s : Sys R} : Step s .abort { s with pend := [] }
  -- wal_gc, wal.c:106-134; the last file stays
  | gc {s : Sys R} (n) : n ≤ s.plog.length + 1 → Step s (.gc n) { s with base := max s.base n }
  -- streamer_connect, streamer.c:107-134: the reply to the first request has the state of the replica
  | connect {s : Sys R} : (0 < s.rlog.length → s.base ≤ s.rlog.length) →
      Step s .connect { s with
        slot := s.rlog.length
        str := some { pos := if s.base ≤ s.rlog.length + 1 then some s.rlog.length else none
                      lsn := s.rlog.length, busy := false, sess := 0, reply := none } }
  | disconnect {s : Sys R} : Step s .disconnect { s with str := none }
  -- streamer_collect, streamer_write, streamer.c:18-70
  | send {s : Sys R} (n : Nat) (t : Stream) (pos : Nat) : s.str = some t → t.pos = some pos → t.busy = false → s.canRead pos n →
      Step s (.send n) { s with
        str := some { pos := some (s.after pos n), lsn := s.after pos n, busy := true, sess := s.next, reply := none }
        sess := s.set s.next (some (.asked s.slot ((s.ahead pos).take n)))
        next := s.next + 1 }
  -- primary_next, primary.c:85-129, in session_execute_replay under a shared lock
  | check {s : Sys R} (i lsn : Nat) (batch : List R) : s.sess i = some (.asked lsn batch) →
      Step s (.check i) { s with sess := s.set i (if lsn = s.rlog.length then some (.replay batch) else none) }
  -- one record of the loop, session_replay.c:42-82: it becomes the next record of the log of the replica
  | apply {s : Sys R} (i : Nat) (r : R) (rest : List R) : s.sess i = some (.replay (r :: rest)) →
      Step s (.apply i) { s with sess := s.set i (some (.replay rest)), rlog := s.rlog ++ [r] }
  -- primary_write, primary.c:31-43: the reply, which only an open connection sees
  | finish {s : Sys R} (i : Nat) : s.sess i = some (.replay []) →
      Step s (.finish i) { s with
        sess := s.set i none
        str := s.str.map fun t => if t.busy ∧ t.sess = i then { t with reply := some s.rlog.length } else t }
  -- an error in a session
  | fail {s : Sys R} (i : Nat) : Step s (.fail i) { s with sess := s.set i none }
  -- streamer_next, streamer.c:147-160
  | ack {s : Sys R} (t : Stream) (lsn : Nat) : s.str = some t → t.reply = some lsn →
      Step s .ack (if lsn = t.lsn then { s with slot := lsn, str := some { t with busy := false, reply := none } } else { s with str := none })
  -- a stop of the primary: the slot is new (wal_slot_init)
  | lose {s : Sys R} (n) : Step s (.lose n) { s with plog := s.plog.take n, pend := [], str := none, slot := 0 }
  -- a stop of the replica
  | replicaStop {s : Sys R} (n) : Step s (.replicaStop n) { s with rlog := s.rlog.take n, sess := fun _ => none }

/-- a new primary and an empty replica -/
def Sys.init {R : Type} : Sys R := ⟨[], [], 1, 0, none, fun _ => none, 0, []⟩

/-- a history; `ok` says which steps it may take -/
inductive Hist {R : Type} (ok : Sys R → Op R → Prop) : Sys R → Sys R → Prop
  | nil {s : Sys R} : Hist ok s s
  | cons {s t u : Sys R} {o : Op R} : Hist ok s t → ok t o → Step t o u → Hist ok s u

end Verif.Repl
