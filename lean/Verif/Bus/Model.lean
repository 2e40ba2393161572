/-!
# Messages between tasks

runtime/base/ring.h, bus.h, ipc.h, notify.c, mailbox.h and the main loop of a task, runtime/base/task.c: any number of threads send to the bus of one task. Each access to a
variable another thread may change is one step; the steps of all threads interleave in any order.

Simplifications: memory is sequentially consistent (the loads and stores of `sleep`, `signaled` and `refs` are `lock`-prefixed instructions on x86, which are full fences; the
release store of pos_write is before the one that reads `sleep`); the 64-bit positions do not wrap; what coroutines do between the steps of the main loop is not modelled, and the
wait of epoll may end at any time (timeout, other descriptors).
-/
set_option autoImplicit false
namespace Verif.Bus

/-- where a thread is in bus_send, runtime/base/bus.h:64-73, ring_write, ring.h:54-83, and notify_signal, notify.c:68-77 -/
inductive Pc (M : Type) where
  | idle
  /-- after ipc_ref -/
  | ref (m : M)
  /-- has a slot, waits for room -/
  | claimed (m : M) (s : Nat)
  /-- there is room -/
  | ready (m : M) (s : Nat)
  /-- the slot is written, waits for its turn -/
  | wrote (m : M) (s : Nat)
  /-- its turn -/
  | turn (m : M) (s : Nat)
  /-- published, will look at `sleep` -/
  | check
  /-- in notify_signal -/
  | signal
  /-- will write to the eventfd -/
  | writefd

/-- where the task is in mainloop, runtime/base/task.c:87-148, bus_step, bus.h:75-92, ring_read, ring.h:85-105, poller_step, poller.c:54-89, and notify_on_read, notify.c:15-24 -/
inductive Cpc (M : Type) where
  /-- in the loop of bus_step, before ring_read -/
  | step
  /-- ring_read has read the slot -/
  | got (o : Option M)
  /-- pos_read is stored -/
  | hold (m : M)
  /-- the event is signalled, or the message is in the mailbox -/
  | given (m : M)
  /-- the coroutines have run -/
  | sched
  | setSleep
  | check2
  /-- in epoll_wait -/
  | poll
  /-- notify_on_read has read the eventfd -/
  | release
  /-- will set `sleep` to false -/
  | wake

/-- the ring, ring.h:16-23, the bus, bus.h:16-22, the reference counts of messages, ipc.h:22-45, and the program counters. `accepted`, `log` and `delivered` are histories: the sends
that went on after ipc_ref, the slots claimed, and what bus_step handed over. -/
structure St (P M : Type) where
  claim : Nat
  read : Nat
  write : Nat
  ring : Nat → Option M
  refs : M → Nat
  sleep : Bool
  signaled : Bool
  counter : Bool
  pc : P → Pc M
  cpc : Cpc M
  accepted : List (P × M)
  log : List (P × M)
  delivered : List M

/-- bus_init, bus.h:24-32, ring_prepare, ring.h:46-52 -/
def init (P M : Type) : St P M := ⟨0, 0, 0, fun _ => none, fun _ => 0, false, false, false, fun _ => .idle, .step, [], [], []⟩

/-- the place of a position, ring.h:70, 98 -/
def place (size s : Nat) : Nat := s &&& (size - 1)

def upd {α β : Type} [DecidableEq α] (f : α → β) (a : α) (b : β) : α → β := fun x => if x = a then b else f x

variable {P M : Type} [DecidableEq P] [DecidableEq M]

/-- a step of a thread that sends, or of the task; `size` is ring_size -/
inductive Step (size : Nat) : St P M → St P M → Prop
  /-- bus_send: ipc_ref is the first one, bus.h:67-68, ipc.h:35-39 -/
  | send {s : St P M} (p : P) (m : M) : s.pc p = .idle → s.refs m = 0 →
      Step size s { s with refs := upd s.refs m 1, pc := upd s.pc p (.ref m), accepted := s.accepted ++ [(p, m)] }
  /-- bus_send: it is on its way already -/
  | skip {s : St P M} (p : P) (m : M) : s.pc p = .idle → s.refs m ≠ 0 → Step size s { s with refs := upd s.refs m (s.refs m + 1) }
  /-- ring_write: fetch_add of pos_claim, ring.h:58 -/
  | claim {s : St P M} (p : P) (m : M) : s.pc p = .ref m →
      Step size s { s with claim := s.claim + 1, pc := upd s.pc p (.claimed m s.claim), log := s.log ++ [(p, m)] }
  /-- there is room, ring.h:65-67 -/
  | room {s : St P M} (p : P) (m : M) (k : Nat) : s.pc p = .claimed m k → k < s.read + size → Step size s { s with pc := upd s.pc p (.ready m k) }
  /-- the data, ring.h:70 -/
  | store {s : St P M} (p : P) (m : M) (k : Nat) : s.pc p = .ready m k →
      Step size s { s with ring := upd s.ring (place size k) (some m), pc := upd s.pc p (.wrote m k) }
  /-- its turn, ring.h:74-76 -/
  | turn {s : St P M} (p : P) (m : M) (k : Nat) : s.pc p = .wrote m k → s.write = k → Step size s { s with pc := upd s.pc p (.turn m k) }
  /-- publish, ring.h:82 -/
  | publish {s : St P M} (p : P) (m : M) (k : Nat) : s.pc p = .turn m k → Step size s { s with write := k + 1, pc := upd s.pc p .check }
  /-- atomic_u32_of(&self->sleep), bus.h:71 -/
  | check {s : St P M} (p : P) : s.pc p = .check → Step size s { s with pc := upd s.pc p (if s.sleep then .signal else .idle) }
  /-- test_and_set of `signaled`, notify.c:73-74 -/
  | signal {s : St P M} (p : P) : s.pc p = .signal →
      Step size s { s with signaled := true, pc := upd s.pc p (if s.signaled then .idle else .writefd) }
  /-- write to the eventfd, notify.c:75-76 -/
  | writefd {s : St P M} (p : P) : s.pc p = .writefd → Step size s { s with counter := true, pc := upd s.pc p .idle }
  /-- ring_read: nothing, ring.h:94-95 -/
  | empty {s : St P M} : s.cpc = .step → s.read = s.write → Step size s { s with cpc := .sched }
  /-- ring_read: the data, ring.h:98 -/
  | get {s : St P M} : s.cpc = .step → s.read ≠ s.write → Step size s { s with cpc := .got (s.ring (place size s.read)) }
  /-- ring_read: pos_read, ring.h:103; NULL ends the loop, bus.h:80 -/
  | advance {s : St P M} (o : Option M) : s.cpc = .got o → Step size s { s with read := s.read + 1, cpc := match o with | some m => .hold m | none => .sched }
  /-- event_signal_local or mailbox_append, bus.h:82-89 -/
  | deliver {s : St P M} (m : M) : s.cpc = .hold m → Step size s { s with delivered := s.delivered ++ [m], cpc := .given m }
  /-- ipc_unref, bus.h:90, ipc.h:41-45 -/
  | unref {s : St P M} (m : M) : s.cpc = .given m → Step size s { s with refs := upd s.refs m 0, cpc := .step }
  /-- something came, task.c:110-112 -/
  | retry {s : St P M} : s.cpc = .sched → s.read ≠ s.write → Step size s { s with cpc := .step }
  /-- nothing; timers are run, task.c:114-136 -/
  | idle {s : St P M} : s.cpc = .sched → s.read = s.write → Step size s { s with cpc := .setSleep }
  /-- bus_set_sleep(bus, true), task.c:139 -/
  | setSleep {s : St P M} : s.cpc = .setSleep → Step size s { s with sleep := true, cpc := .check2 }
  /-- something came, task.c:140-143 -/
  | again {s : St P M} : s.cpc = .check2 → s.read ≠ s.write → Step size s { s with cpc := .wake }
  /-- nothing, task.c:145 -/
  | block {s : St P M} : s.cpc = .check2 → s.read = s.write → Step size s { s with cpc := .poll }
  /-- epoll_wait returns with the eventfd, and it is read, notify.c:19-20 -/
  | readfd {s : St P M} : s.cpc = .poll → s.counter = true → Step size s { s with counter := false, cpc := .release }
  /-- epoll_wait returns without it -/
  | other {s : St P M} : s.cpc = .poll → Step size s { s with cpc := .wake }
  /-- lock_release of `signaled`, notify.c:21 -/
  | release {s : St P M} : s.cpc = .release → Step size s { s with signaled := false, cpc := .wake }
  /-- bus_set_sleep(bus, false), task.c:142, 146 -/
  | wake {s : St P M} : s.cpc = .wake → Step size s { s with sleep := false, cpc := .step }

/-- a state that steps lead to from the start -/
inductive Reach (size : Nat) : St P M → Prop
  | init : Reach size (init P M)
  | step {s s' : St P M} : Reach size s → Step size s s' → Reach size s'

end Verif.Bus
