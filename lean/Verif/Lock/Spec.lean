import Verif.Lock.Model
/-!
# Specification: compatible locks, queues, waits
-/
namespace Verif.Lock

/-- which modes exclude each other: exclusive excludes all, writing excludes exclusive reading -/
def conflict : Mode → Mode → Bool
  | .exclusive, _ => true
  | _, .exclusive => true
  | .sharedRw, .exclusiveRo => true
  | .exclusiveRo, .sharedRw => true
  | _, _ => false

/-- how coroutines use the lock manager: a coroutine that waits does nothing, and only granted locks are released (CREATE LOCK
and DROP LOCK exclude each other by the ddl lock, emit_utility.c:527-538, so that a named lock is not dropped while it waits) -/
def Sys.ok (s : Sys) : Op → Prop
  | .lock c _ _ => ∀ l ∈ s.locks, l.owner = some c → l.waiting = false
  | .create _ _ => True
  | .unlock id => ∃ l ∈ s.locks, l.id = id ∧ l.waiting = false

inductive Run : Sys → List Op → Sys → Prop
  | nil (s : Sys) : Run s [] s
  | cons {s s' : Sys} {ops : List Op} (op : Op) : s.ok op → Run (s.step op) ops s' → Run s (op :: ops) s'

/-- `a` is ahead of the waiting lock `w`: it is a lock on the same relation requested earlier -/
def Ahead (s : Sys) (w a : LockRec) : Prop := a ∈ s.locks ∧ a.rel = w.rel ∧ a.id < w.id

/-- coroutine `c` waits for coroutine `d`: `d` has, or asked earlier for, a lock on the relation `c` waits for -/
def WaitsFor (s : Sys) (c d : Nat) : Prop :=
  ∃ l ∈ s.locks, l.owner = some c ∧ l.waiting = true ∧ ∃ a, Ahead s l a ∧ a.owner = some d

/-- one or more steps -/
inductive Path {α : Type} (R : α → α → Prop) : α → α → Prop
  | one {a b : α} : R a b → Path R a b
  | cons {a b c : α} : R a b → Path R b c → Path R a c

/-- statements take relation locks in the global order: a coroutine asks for a lock only on a relation that comes after all
relations it has locks on, or again for a lock it has -/
def ordered (order : Nat → Nat) (s : Sys) : Op → Prop
  | .lock c r m => (∃ l ∈ s.locks, l.owner = some c ∧ l.rel = r ∧ l.mode = m) ∨ ∀ l ∈ s.locks, l.owner = some c → order l.rel < order r
  | .create _ _ => False
  | .unlock _ => True

inductive OrderedRun (order : Nat → Nat) : Sys → List Op → Sys → Prop
  | nil (s : Sys) : OrderedRun order s [] s
  | cons {s s' : Sys} {ops : List Op} (op : Op) : s.ok op → ordered order s op → OrderedRun order (s.step op) ops s' →
      OrderedRun order s (op :: ops) s'

end Verif.Lock
