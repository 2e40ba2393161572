import Verif.Lock.Proofs
/-!
# The locks of the service jobs

A model of `amelie/db/service/service_lock_mgr.h:18-176` over the relation locks of
`Verif.Lock` (`runtime/runtime/lock_mgr.h`).  The jobs `refresh_run` (`refresh.c:219-253`),
`flush_run` (`flush.c:305-340`) and `indexate_next` (`indexate.c:238-270`) take a lock by the
number of a partition before they look for it, and give it back at the end; the relation that is
locked is made for the number when the first job asks and goes to a free list with the
last one.

The spinlock of the manager makes `service_lock_mgr_create` and the second half of
`service_lock_mgr_unlock` atomic; between them and the relation lock anything can happen.

Not modelled: the text `service_<id>` of the name of the relation (only shown to users);
a job whose wait is cancelled, because jobs run inside `cancel_pause` of the session
(`session.c:317`); a job has one of these locks at a time.
-/
set_option autoImplicit false

namespace Verif.ServiceLock
open Verif.Lock (LockRec Mode Op)

/-- `ServiceRel` (`service_lock_mgr.h:18-26`); its relation is number `2 * address` of the lock
manager, all other relations have odd numbers. -/
structure Rel where
  id   : Nat
  refs : Nat
  deriving DecidableEq

def svc (r : Nat) : Nat := 2 * r

/-- Where a job is.  `lk` is the number of its lock. -/
inductive Job where
  | idle
  /-- behind `service_lock_mgr_create`, before `lock` (`service_lock_mgr.h:137-140`) -/
  | ref (id r : Nat)
  /-- inside `lock` -/
  | asked (id r lk : Nat)
  /-- `service_lock` has returned: the job works on the partition -/
  | holds (id r lk : Nat)
  /-- behind `unlock`, before the spinlock (`service_lock_mgr.h:151-161`) -/
  | unlocked (id r : Nat)
  deriving DecidableEq

/-- The address of the relation that a job uses, with the number it is for. -/
def Job.uses : Job → Option (Nat × Nat)
  | .idle         => none
  | .ref i r      => some (i, r)
  | .asked i r _  => some (i, r)
  | .holds i r _  => some (i, r)
  | .unlocked i r => some (i, r)

/-- `ServiceLockMgr` (`service_lock_mgr.h:35-40`), its memory, the lock manager and the jobs. -/
structure St where
  list : List Nat
  free : List Nat
  next : Nat
  rel  : Nat → Rel
  sys  : Lock.Sys
  job  : Nat → Job

def St.init : St := ⟨[], [], 0, fun _ => ⟨0, 0⟩, Lock.Sys.init, fun _ => .idle⟩

def put {β : Type} (f : Nat → β) (a : Nat) (b : β) : Nat → β := fun x => if x = a then b else f x

/-- `service_lock_mgr_create` (`service_lock_mgr.h:96-123`) for the number `id`, called by job
`j`. -/
def create (s : St) (j id : Nat) : St :=
  match s.list.find? (fun r => decide ((s.rel r).id = id)) with
  | some r =>
      { s with rel := put s.rel r ⟨(s.rel r).id, (s.rel r).refs + 1⟩, job := put s.job j (.ref id r) }
  | none =>
      match s.free with
      | r :: rest =>
          { s with
            free := rest
            list := s.list ++ [r]
            rel  := put s.rel r ⟨id, (s.rel r).refs + 1⟩
            job  := put s.job j (.ref id r) }
      | [] =>
          { s with
            next := s.next + 1
            list := s.list ++ [s.next]
            rel  := put s.rel s.next ⟨id, 1⟩
            job  := put s.job j (.ref id s.next) }

/-- The number of the lock that `lock_mgr_lock` gives (`lock_mgr.h:121-150`). -/
def lockId (s : Lock.Sys) (c r : Nat) (m : Mode) : Nat :=
  match s.locks.find? fun l => l.owner = some c && l.rel = r && l.mode = m with
  | some l => l.id
  | none   => s.next

/-- The second half of `service_lock_mgr_unlock` (`service_lock_mgr.h:157-175`). -/
def unref (s : St) (j r : Nat) : St :=
  let n := (s.rel r).refs - 1
  { s with
    rel  := put s.rel r ⟨(s.rel r).id, n⟩
    list := if n = 0 then s.list.erase r else s.list
    free := if n = 0 then s.free ++ [r] else s.free
    job  := put s.job j .idle }

/-- What the rest of the server does with locks: nothing with the relations of this manager. -/
def Other (s : Lock.Sys) : Op → Prop
  | .lock _ r _ => r % 2 = 1
  | .create r _ => r % 2 = 1
  | .unlock id  => ∀ l ∈ s.locks, l.id = id → l.rel % 2 = 1

/-- One step of the server. -/
inductive Step : St → St → Prop
  | create (s : St) (j id : Nat) (h : s.job j = .idle) : Step s (create s j id)
  | ask (s : St) (j id r : Nat) (h : s.job j = .ref id r)
      (ok : s.sys.ok (.lock j (svc r) .exclusive)) :
      Step s { s with
        sys := s.sys.lock j (svc r) .exclusive
        job := put s.job j (.asked id r (lockId s.sys j (svc r) .exclusive)) }
  | granted (s : St) (j id r lk : Nat) (h : s.job j = .asked id r lk)
      (g : ∃ l ∈ s.sys.locks, l.id = lk ∧ l.waiting = false) :
      Step s { s with job := put s.job j (.holds id r lk) }
  | unlock (s : St) (j id r lk : Nat) (h : s.job j = .holds id r lk) :
      Step s { s with sys := s.sys.unlock lk, job := put s.job j (.unlocked id r) }
  | unref (s : St) (j id r : Nat) (h : s.job j = .unlocked id r) : Step s (unref s j r)
  | other (s : St) (op : Op) (ok : s.sys.ok op) (h : Other s.sys op) :
      Step s { s with sys := s.sys.step op }

/-- A state the server can be in. -/
inductive Reach : St → Prop
  | init : Reach St.init
  | step (s t : St) (r : Reach s) (h : Step s t) : Reach t

end Verif.ServiceLock
