import Verif.Common
/-!
# Distributed transactions: registration, grouping and the order of commits

Models vm/executor/executor.h (executor_attach, executor_detach), vm/executor/dtr_group.h, vm/executor/dtr_queue.h and the loop of the committer
(vm/executor/commit.c commit_main).

* A transaction is the set of partitions it uses. Without a snapshot these are the partitions of its first dispatch (dispatch_mgr.h:168-176: later
  dispatches must use the same ones), with a snapshot all partitions of the tables it uses (dispatch_mgr.h:132-149); both cases of
  executor.h:45-48 compare these sets.
* Transactions are numbered in the order in which they are registered (under the spinlock of the executor).
* A transaction is handed to the committer once (commit.c:105-109), when all of its partitions have finished; the committer receives any number of them
  at a time, in any order.
* Not modelled: whether a transaction commits or aborts (Part: C19, C20), the log (Wal), the reuse of groups (dtr_queue.h:71-77: a group taken from the
  cache has been reset, so it equals a new one). Counters are unbounded.
-/
namespace Verif.Exec

/-- dtr.h:16-32 Dtr: `id` is its number -/
structure Dtr where
  id    : Nat
  parts : List Nat
  group : Nat
  order : Nat
deriving DecidableEq

/-- dtr_group.h:16-22 DtrGroup -/
structure Group where
  id   : Nat
  next : Nat
  list : List Dtr
deriving DecidableEq

structure Ex where
  /-- executor.h:19 `id` -/
  next   : Nat
  /-- executor.h:20 `list`: registered transactions, in order -/
  list   : List Dtr
  /-- dtr_queue.h:18 `list` -/
  groups : List Group
  /-- partitions of the transactions registered so far (history) -/
  subs   : List (List Nat)
  /-- transactions that have been handed to the committer (history) -/
  sent   : List Nat
  /-- decided transactions in the order in which they are decided and logged (history) -/
  log    : List Nat
deriving DecidableEq

/-- executor.h:23-29 executor_init, dtr_queue.h:23-29 dtr_queue_init -/
def Ex.init : Ex := ⟨1, [], [], [], [], []⟩

/-- dispatch_mgr.h:108-130 dispatch_mgr_overlaps, dispatch_mgr_overlaps_dispatch -/
def overlaps (a b : List Nat) : Bool := a.any fun x => b.contains x

/-- executor.h:37-77 executor_attach: the last registered transaction that overlaps gives the group -/
def attach (s : Ex) (parts : List Nat) : Ex :=
  match s.list.reverse.find? fun r => overlaps r.parts parts with
  | some r => { s with list := s.list ++ [⟨s.subs.length, parts, r.group, r.order + 1⟩], subs := s.subs ++ [parts] }
  | none => { s with list := s.list ++ [⟨s.subs.length, parts, s.next, 0⟩], subs := s.subs ++ [parts], next := s.next + 1 }

/-- dtr_group.h:56-76 dtr_group_add -/
def groupAdd : List Dtr → Dtr → List Dtr
  | [], d => [d]
  | p :: r, d => if d.order < p.order then d :: p :: r else p :: groupAdd r d

/-- commit.c:24-28 and dtr_group.h:50-54, 78-88: the transactions popped, the next order, and what is left -/
def popAll : Nat → List Dtr → List Dtr × Nat × List Dtr
  | next, [] => ([], next, [])
  | next, d :: r => if d.order = next then (d :: (popAll (next + 1) r).1, (popAll (next + 1) r).2) else ([], next, d :: r)

/-- dtr_group_add and the pops -/
def Group.add (g : Group) (d : Dtr) : List Dtr × Group :=
  ((popAll g.next (groupAdd g.list d)).1, ⟨g.id, (popAll g.next (groupAdd g.list d)).2.1, (popAll g.next (groupAdd g.list d)).2.2⟩)

/-- commit.c:20-29 commit_add with dtr_queue.h:54-92 dtr_queue_find, dtr_queue_add: the transactions that are added to the batch -/
def queueAdd : List Group → Dtr → List Dtr × List Group
  | [], d => ((Group.add ⟨d.group, 0, []⟩ d).1, [(Group.add ⟨d.group, 0, []⟩ d).2])
  | g :: r, d => if g.id = d.group then ((g.add d).1, (g.add d).2 :: r) else ((queueAdd r d).1, g :: (queueAdd r d).2)

/-- commit.c:46-56: one message; nothing happens unless the transaction is registered and has not been handed over yet -/
def receive (bs : List Dtr × Ex) (id : Nat) : List Dtr × Ex :=
  match bs.2.list.find? fun d => d.id = id with
  | none => bs
  | some d =>
    if id ∈ bs.2.sent then bs
    else (bs.1 ++ (queueAdd bs.2.groups d).1, { bs.2 with groups := (queueAdd bs.2.groups d).2, sent := bs.2.sent ++ [id] })

/-- executor.h:133-141: the group of the first registered transaction; `none` = UINT64_MAX -/
def groupMin (list : List Dtr) : Option Nat := list.head?.map Dtr.group

/-- dtr_queue.h:41-56 dtr_queue_gc -/
def gc (gs : List Group) : Option Nat → List Group
  | none => []
  | some m => gs.filter fun g => ¬ g.id < m

/-- commit.c:58-86, executor.h:108-146 executor_detach: the batch is decided -/
def finish (bs : List Dtr × Ex) : Ex :=
  if bs.1.isEmpty then bs.2
  else
    { bs.2 with list := bs.2.list.filter (fun d => ¬ d ∈ bs.1)
                groups := gc bs.2.groups (groupMin (bs.2.list.filter (fun d => ¬ d ∈ bs.1)))
                log := bs.2.log ++ bs.1.map Dtr.id }

inductive Op where
  /-- a transaction on these partitions is registered -/
  | submit (parts : List Nat)
  /-- one round of the committer, which receives these transactions -/
  | commit (ids : List Nat)
deriving DecidableEq

def step (s : Ex) : Op → Ex
  | .submit parts => attach s parts
  | .commit ids => finish (ids.foldl receive ([], s))

def run (s : Ex) (ops : List Op) : Ex := ops.foldl step s

end Verif.Exec
