import Verif.Common
/-!
# Timers of a task and sleep()

runtime/base/timer_mgr.c, timer_mgr.h, wait.h, the part of the main loop in task.c that looks at timers, and sleep(), vm/func/fn_misc.c.

Simplifications: time is a number of milliseconds that does not go backwards (the code reads CLOCK_REALTIME_COARSE); between the look at the clock and epoll_wait no time passes; epoll_wait
returns at its timeout or earlier. `start`, `lag`, `clock`, `fired`, `stopped` and `forever` are histories the code does not have.
-/
set_option autoImplicit false
namespace Verif.Timer

/-- Timer, timer_mgr.h:19-28. `start` is the time at which the wait began, `lag` how old the time was that timer_mgr_add took for it. -/
structure Tm where
  id : Nat
  seq : Nat
  timeout : Nat
  interval : Nat
  start : Nat
  lag : Nat
deriving DecidableEq

/-- timer_mgr_cmp, timer_mgr.c:85-98 -/
def cmp (a b : Tm) : Int :=
  if a.timeout = b.timeout then (if a.seq > b.seq then 1 else -1)
  else if a.timeout > b.timeout then 1 else -1

/-- what qsort (timer_mgr.c:117) is trusted for: a permutation in the order of the comparison, for elements that differ -/
structure Sorts (qsort : List Tm → List Tm) : Prop where
  perm : ∀ l, (qsort l).Perm l
  sorted : ∀ l, l.Pairwise (fun a b => a.seq ≠ b.seq) → (qsort l).Pairwise (fun a b => cmp a b < 0)

/-- where the task is: the coroutines run, or it is in epoll_wait, until the given time -/
inductive Phase where
  | run
  | poll (until_ : Option Nat)

/-- TimerMgr, timer_mgr.h:30-40, and the clock -/
structure St where
  clock : Nat
  timeMs : Nat
  cached : Bool
  alloc : Bool
  max : Nat
  timers : List Tm
  seq : Nat
  phase : Phase
  fired : List (Tm × Nat)
  stopped : List Tm
  forever : List Nat

/-- timer_mgr_update, timer_mgr.c:43-52 -/
def update (s : St) : St := if s.cached then s else { s with timeMs := s.clock, cached := true }

/-- timer_mgr_init, timer_mgr.c:15-26; the main loop starts with timer_mgr_update, task.c:96 -/
def init (now : Nat) : St := update ⟨now, 0, false, false, 16, [], 0, .run, [], [], []⟩

/-- timer_mgr_reset, timer_mgr.h:50-54 -/
def reset (s : St) : St := { s with cached := false }

/-- timer_mgr_add, timer_mgr.c:100-119 -/
def add (qsort : List Tm → List Tm) (s : St) (id interval : Nat) : St :=
  let grow := s.alloc = false ∨ s.timers.length + 1 ≥ s.max
  let t : Tm := ⟨id, s.seq, s.timeMs + interval, interval, s.clock, s.clock - s.timeMs⟩
  { s with max := if grow then s.max * 2 else s.max, alloc := true, timers := qsort (s.timers ++ [t]), seq := s.seq + 1 }

/-- timer_mgr_remove, timer_mgr.c:121-138: the timer is the element with its sequence number -/
def remove (s : St) (t : Tm) : St := { s with timers := s.timers.filter (fun x => x.seq != t.seq), stopped := s.stopped ++ [t] }

/-- timer_mgr_step, timer_mgr.c:54-83 -/
def fire (s : St) : St :=
  let hit := s.timers.takeWhile (fun t => !decide (t.timeout > s.timeMs))
  { s with timers := s.timers.drop hit.length, fired := s.fired ++ hit.map (fun t => (t, s.clock)) }

/-- `int diff = next->timeout - timer_mgr->time_ms`, task.c:127 -/
def diff (t : Tm) (timeMs : Nat) : Int := toSigned 32 (toUnsigned 32 ((t.timeout : Int) - (timeMs : Int)))

/-- the timeout for epoll_wait, task.c:117-133; none is to wait without limit -/
def timeout (s : St) : Option Nat :=
  match s.timers with
  | [] => none
  | t :: _ => some (if diff t s.timeMs ≤ 0 then 0 else (diff t s.timeMs).toNat)

/-- the main loop before epoll_wait, task.c:114-145 -/
def toPoll (s : St) : St :=
  let s := reset s
  if s.timers = [] then { s with phase := .poll none }
  else
    let s := update s
    { fire s with phase := .poll ((timeout s).map (s.clock + ·)) }

/-- what sleep() does with its argument: coroutine_sleep(argv[0].integer), fn_misc.c:40, takes an int, runtime.h:127; event_wait, runtime.h:68-79; wait_event_time, wait.h:47-74;
timer_start, timer_mgr.h:104-109 -/
def sleep (qsort : List Tm → List Tm) (s : St) (id : Nat) (ms : Int) : St :=
  let i := toSigned 32 (toUnsigned 32 ms)
  if i ≥ 0 then add qsort (update s) id i.toNat else { s with forever := s.forever ++ [id] }

/-- one step of the task, or of the clock -/
inductive Step (qsort : List Tm → List Tm) : St → St → Prop
  /-- time passes while coroutines run -/
  | busy {s : St} (d : Nat) : s.phase = .run → Step qsort s { s with clock := s.clock + d }
  /-- time passes in epoll_wait -/
  | wait {s : St} (u : Option Nat) (d : Nat) : s.phase = .poll u → (∀ x, u = some x → s.clock + d ≤ x) → Step qsort s { s with clock := s.clock + d }
  /-- a coroutine asks for the time, timer_mgr.h:63-68 -/
  | time {s : St} : s.phase = .run → Step qsort s (update s)
  /-- the logger and import ask for the time that is, logger.c:85, import.c:117 -/
  | reset {s : St} : s.phase = .run → Step qsort s (reset s)
  /-- a coroutine begins to sleep -/
  | sleep {s : St} (id : Nat) (ms : Int) : s.phase = .run → Step qsort s (sleep qsort s id ms)
  /-- a coroutine goes on before its time: an event or a cancel, wait.h:68-70 -/
  | stop {s : St} (t : Tm) : s.phase = .run → t ∈ s.timers → Step qsort s (remove s t)
  /-- all coroutines wait -/
  | toPoll {s : St} : s.phase = .run → Step qsort s (toPoll s)
  /-- epoll_wait returns -/
  | back {s : St} (u : Option Nat) : s.phase = .poll u → Step qsort s { s with phase := .run }

inductive Reach (qsort : List Tm → List Tm) : St → Prop
  | init (now : Nat) : Reach qsort (init now)
  | step {s s' : St} : Reach qsort s → Step qsort s s' → Reach qsort s'

end Verif.Timer
