import Verif.Common
/-!
# Relation locks

Models runtime/runtime/lock_mgr.h, lock.h, lock_id.h, relation.h (lock_set, lock_wait), access.h and the lock sequences of
sessions (system/session/session.c, db/service/op.c).

* Relations, locks and coroutines are numbers; a lock gets the next free number when it is created.
* Each function runs atomically: the code holds the spinlock of the relation (lock_mgr.h:88-110, 197-221).
* The list of the coroutine's locks and the list of the lock manager are the list `locks` (in creation order); waiting for the
  event is the flag `waiting` of the lock.
-/
namespace Verif.Lock

/-- lock_id.h:14-23 LockId without LOCK_NONE, which takes no lock (lock_mgr.h:124-125, 178-179) -/
inductive Mode where
  | shared | sharedRw | exclusiveRo | exclusive | call
deriving DecidableEq

/-- lock_id.h:14-23: the numbers of the modes -/
def Mode.rank : Mode → Nat
  | .shared => 1 | .sharedRw => 2 | .exclusiveRo => 3 | .exclusive => 4 | .call => 5

/-- lock.h:16-28 Lock; `owner`: the coroutine, none for a detached (named) lock -/
structure LockRec where
  id      : Nat
  owner   : Option Nat
  rel     : Nat
  mode    : Mode
  refs    : Int
  waiting : Bool
deriving DecidableEq

/-- relation.h:18-29 (lock_set, lock_wait) of all relations, and the locks -/
structure Sys where
  set   : Nat → Mode → Int
  wait  : Nat → List (Nat × Mode)
  locks : List LockRec
  next  : Nat

def Sys.init : Sys := ⟨fun _ _ => 0, fun _ => [], [], 0⟩

/-- lock_mgr.h:56-82 lock_resolve -/
def resolve (set : Mode → Int) (m : Mode) : Bool :=
  if set .exclusive ≠ 0 then false
  else match m with
    | .shared => true
    | .sharedRw => set .exclusiveRo = 0
    | .exclusiveRo => set .sharedRw = 0
    | .exclusive => set .shared = 0 && set .sharedRw = 0 && set .exclusiveRo = 0 && set .call = 0
    | .call => true

/-- `lock_set[mode] += d` of a relation -/
def bump (set : Nat → Mode → Int) (r : Nat) (m : Mode) (d : Int) : Nat → Mode → Int :=
  fun r' m' => if r' = r ∧ m' = m then set r' m' + d else set r' m'

def setWait (wait : Nat → List (Nat × Mode)) (r : Nat) (l : List (Nat × Mode)) : Nat → List (Nat × Mode) :=
  fun r' => if r' = r then l else wait r'

/-- lock_mgr.h:84-119 lock_mgr_lock_of, with 139-147 (attaching the lock to the coroutine) -/
def Sys.lockOf (s : Sys) (owner : Option Nat) (r : Nat) (m : Mode) : Sys :=
  let pass := (s.wait r).length = 0 && resolve (s.set r) m
  let l : LockRec := ⟨s.next, owner, r, m, if owner.isSome then 1 else 0, !pass⟩
  if pass then
    { s with set := bump s.set r m 1, locks := s.locks ++ [l], next := s.next + 1 }
  else
    { s with wait := setWait s.wait r (s.wait r ++ [(s.next, m)]), locks := s.locks ++ [l], next := s.next + 1 }

/-- lock_mgr.h:121-150 lock_mgr_lock without a name: reentrant if the coroutine has the lock in the same mode -/
def Sys.lock (s : Sys) (c : Nat) (r : Nat) (m : Mode) : Sys :=
  match s.locks.find? fun l => l.owner = some c && l.rel = r && l.mode = m with
  | some l => { s with locks := s.locks.map fun x => if x.id = l.id then { x with refs := x.refs + 1 } else x }
  | none => s.lockOf (some c) r m

/-- lock_mgr.h:207-214: the waiter is granted its lock -/
def Sys.grant (s : Sys) (r id : Nat) (m : Mode) (rest : List (Nat × Mode)) : Sys :=
  { s with
    set := bump s.set r m 1
    wait := setWait s.wait r rest
    locks := s.locks.map fun l => if l.id = id then { l with waiting := false } else l }

/-- lock_mgr.h:202-219: wake up waiters from the front of the list as long as they do not conflict -/
def Sys.wake (s : Sys) (r : Nat) : Nat → Sys
  | 0 => s
  | n + 1 =>
    match s.wait r with
    | [] => s
    | (id, m) :: rest => if resolve (s.set r) m then (s.grant r id m rest).wake r n else s

/-- lock_mgr.h:194-226: the last reference is gone -/
def Sys.release (s : Sys) (l : LockRec) : Sys :=
  let s := { s with set := bump s.set l.rel l.mode (-1), locks := s.locks.filter fun x => x.id ≠ l.id }
  s.wake l.rel (s.wait l.rel).length

/-- lock_mgr.h:175-227 lock_mgr_unlock -/
def Sys.unlock (s : Sys) (id : Nat) : Sys :=
  match s.locks.find? fun l => l.id = id with
  | none => s
  | some l =>
    if l.owner.isSome && l.refs - 1 > 0 then
      { s with locks := s.locks.map fun x => if x.id = l.id then { x with refs := x.refs - 1 } else x }
    else s.release l

inductive Op where
  /-- a coroutine asks for a lock -/
  | lock (c r : Nat) (m : Mode)
  /-- a named lock is created (lock_mgr.h:121-150 with a name, command_utility.c:246-250) -/
  | create (r : Nat) (m : Mode)
  | unlock (id : Nat)

def Sys.step (s : Sys) : Op → Sys
  | .lock c r m => s.lock c r m
  | .create r m => s.lockOf none r m
  | .unlock id => s.unlock id

/-! ## Access lists -/

/-- access.h:18-22 AccessRecord -/
structure Acc where
  rel  : Nat
  mode : Mode
deriving DecidableEq

/-- access.h:86-108 access_add: the stronger of two modes, by number -/
def accessAdd : List Acc → Nat → Mode → List Acc
  | [], r, m => [⟨r, m⟩]
  | a :: as, r, m =>
    if a.rel = r then (if a.mode.rank < m.rank then ⟨r, m⟩ else a) :: as
    else a :: accessAdd as r m

/-- access.h:130-141 access_merge (without the sort at its end) -/
def accessMerge (as bs : List Acc) : List Acc := bs.foldl (fun l a => accessAdd l a.rel a.mode) as

/-- insertion into a list ordered by lock_order -/
def insertOrd (order : Nat → Nat) (a : Acc) : List Acc → List Acc
  | [] => [a]
  | b :: bs => if order b.rel < order a.rel then b :: insertOrd order a bs else a :: b :: bs

/-- access.h:120-128 access_sort (qsort_r by lock_order; the order of equal elements does not matter here) -/
def accessSort (order : Nat → Nat) : List Acc → List Acc
  | [] => []
  | a :: as => insertOrd order a (accessSort order as)

/-! ## Sessions -/

/-- the coroutines that execute statements: `prog c` are the locks that coroutine `c` will still ask for -/
structure Sess where
  sys  : Sys
  prog : Nat → List Acc

/-- the parser and the compiler collect the accesses (parse_from.c:31-60 and others, access.h:70-100), merged in any order -/
def collect (reqs : List Acc) : List Acc := reqs.foldl (fun l a => accessAdd l a.rel a.mode) []

/-- session.c:320-322 (catalog lock), session.c:101-102 and lock_mgr.h:154-173 (locks of the access list in order) -/
def statement (order : Nat → Nat) (catalog : Nat) (reqs : List Acc) : List Acc :=
  ⟨catalog, .shared⟩ :: accessSort order (collect reqs)

/-- the coroutine `c` is waiting for a lock -/
def Sys.waits (s : Sys) (c : Nat) : Prop := ∃ l ∈ s.locks, l.owner = some c ∧ l.waiting = true

/-- a coroutine that does not wait asks for its next lock, or has finished its statement and releases one of its locks
(session.c:343-346 unlock_all) -/
inductive Sess.Step : Sess → Sess → Prop
  | next {t : Sess} (c : Nat) {a : Acc} {as : List Acc} : ¬ t.sys.waits c → t.prog c = a :: as →
      Step t ⟨t.sys.lock c a.rel a.mode, fun x => if x = c then as else t.prog x⟩
  | done {t : Sess} (c : Nat) {l : LockRec} : ¬ t.sys.waits c → t.prog c = [] → l ∈ t.sys.locks → l.owner = some c →
      Step t ⟨t.sys.unlock l.id, t.prog⟩

/-- n steps of any coroutines in any order -/
inductive Sess.Steps : Sess → Nat → Sess → Prop
  | nil (t : Sess) : Steps t 0 t
  | cons {t t' t'' : Sess} {n : Nat} : Sess.Step t t' → Steps t' n t'' → Steps t (n + 1) t''

end Verif.Lock
