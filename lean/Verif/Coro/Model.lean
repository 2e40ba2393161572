/-!
# The coroutines of one thread

A model of `amelie/runtime/base/coroutine_mgr.h:14-187`, `coroutine.h:39-110`,
`event.h:17-60`, `wait.h:14-80`, `runtime.h:59-152`, `throw.h:36-41`,
`mailbox.h:35-42` and `task.c:19-85`.

A thread runs one coroutine at a time.  Coroutines go to sleep on events and are
put into the ready list when the event is signalled, when their timer fires, or when
they are cancelled; the scheduler of the main loop runs the ready list from its head.
What the code of a coroutine does between two of these calls is not modelled: it is an
arbitrary sequence of the actions below.

Not modelled: machine contexts and stacks, arenas, error objects, names, the locks list,
the 64-bit wrap of the coroutine numbers, allocation failure.
-/
set_option autoImplicit false

namespace Verif.Coro

/-- The events: any number of events of the program (`event.h:17-24`), the `on_exit`
event of each coroutine memory (`coroutine.h:33`), and the `on_exit` event of the manager
(`coroutine_mgr.h:27`). -/
inductive Ev where
  | user (n : Nat)
  | exit (c : Nat)
  | last
  deriving DecidableEq, Repr

/-- Where a coroutine is: its memory is unused (`dead`), it is created or executing
(`run`), or it is inside the suspend of `wait_event`/`wait_event_time` (`wait.h:41`,
`wait.h:69`).  `time` is the third argument of `wait_event_time` when it is not negative;
`point` says that the caller is `event_wait` (`runtime.h:69-79`), which is a point
of cancellation, and not a direct call of `wait_event`. -/
inductive Pc where
  | dead
  | run
  | wait (e : Ev) (time : Option Nat) (point : Bool)
  deriving DecidableEq, Repr

/-- One `Coroutine` (`coroutine.h:18-37`).  `armed` is `timer.active` of the timer on the
stack of `wait_event_time` (`wait.h:57`), `timedOut` the last result of that function. -/
structure Cor where
  id       : Nat
  pc       : Pc
  cancel   : Bool
  pause    : Nat
  recv     : Nat
  armed    : Bool
  timedOut : Bool
  deriving DecidableEq, Repr

/-- `coroutine_init` (`coroutine.h:39-59`). -/
def Cor.zero : Cor := ⟨0, .dead, false, 0, 0, false, false⟩

/-- `CoroutineMgr` (`coroutine_mgr.h:16-29`) with the memory it points to.  Coroutines are
named by their memory: `next` pieces of memory have been allocated.  `current = none` is
the context of the main loop. -/
structure St where
  list    : List Nat
  ready   : List Nat
  free    : List Nat
  next    : Nat
  seq     : Nat
  current : Option Nat
  cor     : Nat → Cor
  signal  : Ev → Bool
  waiter  : Ev → Option Nat
  /-- the `abort()` behind the last switch of `task_coroutine_main` (`task.c:83-84`)
  was reached -/
  aborted : Bool

/-- `coroutine_mgr_init` (`coroutine_mgr.h:31-45`). -/
def St.init : St :=
  ⟨[], [], [], 0, 0, none, fun _ => Cor.zero, fun _ => false, fun _ => none, false⟩

/-- Change one place of a function. -/
def put {α β : Type} [DecidableEq α] (f : α → β) (a : α) (b : β) : α → β :=
  fun x => if x = a then b else f x

/-- `coroutine_resume` (`coroutine_mgr.h:164-171`): nothing when it is in the ready list
already, otherwise append. -/
def resume (s : St) (c : Nat) : St :=
  if c ∈ s.ready then s else { s with ready := s.ready ++ [c] }

/-- The last lines of `event_signal_local` (`wait.h:20-21`). -/
def wake (s : St) : Option Nat → St
  | none   => s
  | some c => resume s c

/-- `event_signal_local` (`wait.h:14-22`) of an event with the given chain of parents:
set the signal, do the same for the parents, resume the one who waits. -/
def signalAll (s : St) : List Ev → St
  | []      => s
  | e :: es =>
      let t := signalAll { s with signal := put s.signal e true } es
      wake t (t.waiter e)

/-- `l` is an event followed by its parent, the parent of that, and so on
(`event.h:50-53`; only events of the program are ever given a parent). -/
inductive Chain (up : Nat → Option Nat) : List Ev → Prop
  | top (n : Nat) (h : up n = none) : Chain up [.user n]
  | step (n m : Nat) (l : List Ev) (h : up n = some m) (r : Chain up (.user m :: l)) :
      Chain up (.user n :: .user m :: l)

/-- `coroutine_cancel` (`coroutine_mgr.h:173-184`). -/
def cancelOf (s : St) (c : Nat) : St :=
  if (s.cor c).pause > 0 then
    { s with cor := put s.cor c { s.cor c with recv := (s.cor c).recv + 1 } }
  else
    resume { s with cor := put s.cor c { s.cor c with recv := 0, cancel := true } } c

/-- `coroutine_mgr_find` (`coroutine_mgr.h:86-95`). -/
def find (s : St) (id : Nat) : Option Nat :=
  s.list.find? (fun c => decide ((s.cor c).id = id))

/-- `coroutine_mgr_create` (`coroutine_mgr.h:119-153`): memory of a coroutine that ended is
used again, oldest first, and all of its fields are set, those of `on_exit` too. -/
def create (s : St) : St :=
  let c := match s.free with
    | []     => s.next
    | c :: _ => c
  { s with
    list   := s.list ++ [c]
    ready  := s.ready ++ [c]
    free   := s.free.tail
    next   := if s.free = [] then s.next + 1 else s.next
    seq    := s.seq + 1
    cor    := put s.cor c { Cor.zero with id := s.seq, pc := .run }
    signal := put s.signal (.exit c) false
    waiter := put s.waiter (.exit c) none }

/-- `wait_event` and `wait_event_time` (`wait.h:31-80`) up to the suspend.  A signal that
is on is taken at once. -/
def waitOn (s : St) (c : Nat) (e : Ev) (time : Option Nat) (point : Bool) : St :=
  if s.signal e then
    { s with
      signal := put s.signal e false
      cor    := put s.cor c { s.cor c with timedOut := false } }
  else
    { s with
      waiter  := put s.waiter e (some c)
      cor     := put s.cor c { s.cor c with pc := .wait e time point, armed := time.isSome }
      current := none }

/-- `event_wait` (`runtime.h:68-79`): a cancelled coroutine is thrown out before it
waits (`throw.h:36-41`). -/
def eventWait (s : St) (c : Nat) (n : Nat) (time : Option Nat) : St :=
  if (s.cor c).cancel then s else waitOn s c (.user n) time true

/-- `coroutine_wait` (`runtime.h:92-102`) up to the suspend. -/
def join (s : St) (me id : Nat) : St :=
  match find s id with
  | none   => s
  | some c =>
      waitOn { s with cor := put s.cor me { s.cor me with pause := (s.cor me).pause + 1 } }
        me (.exit c) none false

/-- `coroutine_kill_nowait` (`runtime.h:104-111`); `coroutine_kill` (`runtime.h:113-124`)
is this followed by `join`. -/
def kill (s : St) (id : Nat) : St :=
  match find s id with
  | none   => s
  | some c => cancelOf s c

/-- `coroutine_cancel_resume` (`coroutine.h:97-110`), which `coroutine_wait` calls at its end
too. -/
def cancelResume (s : St) (me : Nat) : St :=
  let k := s.cor me
  if k.pause - 1 = 0 ∧ k.recv > 0 then
    { s with cor := put s.cor me { k with pause := k.pause - 1, recv := 0, cancel := true } }
  else
    { s with cor := put s.cor me { k with pause := k.pause - 1 } }

/-- The cancel loop of `task_shutdown` (`task.c:26-31`). -/
def cancelAll (s : St) (me : Nat) : List Nat → St
  | []      => s
  | c :: cs => cancelAll (if c = me then s else cancelOf s c) me cs

/-- `task_shutdown` (`task.c:19-35`). -/
def shutdown (s : St) (me : Nat) : St :=
  if s.list.length = 1 then s
  else waitOn (cancelAll s me s.list) me .last none false

/-- The second half of `task_coroutine_main` (`task.c:69-81`): signal `on_exit`, leave the
list, put the memory into the free list, signal the manager when one coroutine is left,
switch. -/
def exit (s : St) (me : Nat) : St :=
  let s1 := signalAll s [.exit me]
  let s2 := { s1 with
    list := s1.list.erase me
    free := s1.free ++ [me]
    cor  := put s1.cor me { s1.cor me with pc := .dead } }
  let s3 := if s2.list.length = 1 then signalAll s2 [.last] else s2
  { s3 with current := none }

/-- What happens to `wait_event`/`wait_event_time` when the suspended coroutine is switched
to again (`wait.h:42-43`, `wait.h:70-79`). -/
def back (s : St) (c : Nat) : St :=
  match (s.cor c).pc with
  | .dead => { s with aborted := true }
  | .run  => s
  | .wait e time _ =>
      { s with
        waiter := put s.waiter e none
        signal := put s.signal e false
        cor    := put s.cor c { s.cor c with
          pc       := .run
          armed    := false
          timedOut := match time with
            | none   => false
            | some t => decide (t > 0) && !(s.cor c).armed } }

/-- One turn of the loop of `coroutine_mgr_scheduler` (`coroutine_mgr.h:105-117`). -/
def runNext (s : St) : St :=
  match s.ready with
  | []     => s
  | c :: r => back { s with ready := r, current := some c } c

/-- `timer_mgr_step` calls `wait_event_timer` (`wait.h:24-29`) for the timer of a coroutine
that waits; the timer is not active any more (`timer_mgr.c:61-71`). -/
def timerFires (s : St) (c : Nat) : St :=
  match (s.cor c).pc with
  | .wait e _ _ =>
      let t := { s with cor := put s.cor c { s.cor c with armed := false } }
      wake t (t.waiter e)
  | _ => s

/-- What can happen on a thread. -/
inductive Act where
  | run                               -- the scheduler takes the next ready coroutine
  | signal (l : List Ev)              -- `event_signal`, by anybody
  | timer (c : Nat)                   -- the timer of a waiting coroutine fires
  | init (n : Nat)                    -- `event_init` of an event of the program
  | create                            -- `coroutine_create`
  | wait (n : Nat) (time : Option Nat)  -- `event_wait`
  | raw (n : Nat)                     -- `wait_event` (as `mailbox_pop` calls it)
  | join (id : Nat)                   -- `coroutine_wait`
  | kill (id : Nat)                   -- `coroutine_kill_nowait`
  | pause                             -- `cancel_pause`
  | unpause                           -- `cancel_resume`
  | shutdown                          -- `task_shutdown`, by the main coroutine
  | exit                              -- the function of the coroutine ends
  deriving DecidableEq, Repr

/-- One step of the thread.  A coroutine is created by another one, or by `task_main`
(`task.c:174-178`) before the main loop starts. -/
inductive Step (up : Nat → Option Nat) : St → Act → St → Prop
  | run (s : St) (h : s.current = none) (r : s.ready ≠ []) : Step up s .run (runNext s)
  | signal (s : St) (l : List Ev) (h : Chain up l) : Step up s (.signal l) (signalAll s l)
  | timer (s : St) (c : Nat) (h : s.current = none) (a : (s.cor c).armed = true) :
      Step up s (.timer c) (timerFires s c)
  | init (s : St) (n : Nat) :
      Step up s (.init n)
        { s with signal := put s.signal (.user n) false, waiter := put s.waiter (.user n) none }
  | create (s : St) (h : s.current ≠ none ∨ s.list = []) : Step up s .create (create s)
  | wait (s : St) (c n : Nat) (t : Option Nat) (h : s.current = some c) :
      Step up s (.wait n t) (eventWait s c n t)
  | raw (s : St) (c n : Nat) (h : s.current = some c) :
      Step up s (.raw n) (waitOn s c (.user n) none false)
  | join (s : St) (c id : Nat) (h : s.current = some c) : Step up s (.join id) (join s c id)
  | kill (s : St) (c id : Nat) (h : s.current = some c) : Step up s (.kill id) (kill s id)
  | pause (s : St) (c : Nat) (h : s.current = some c) :
      Step up s .pause { s with cor := put s.cor c { s.cor c with pause := (s.cor c).pause + 1 } }
  | unpause (s : St) (c : Nat) (h : s.current = some c) : Step up s .unpause (cancelResume s c)
  | shutdown (s : St) (c : Nat) (h : s.current = some c) : Step up s .shutdown (shutdown s c)
  | exit (s : St) (c : Nat) (h : s.current = some c) : Step up s .exit (exit s c)

/-- What the callers keep to, and nothing in the code checks in a release build: an event
has one waiter (the `assert` of `wait.h:39` and `wait.h:63`), nobody initialises an event
that has a waiter, nobody kills or joins itself, `cancel_resume` follows a `cancel_pause`
(the `assert` of `coroutine.h:102`), and the memory of a coroutine is not used again while
somebody who joined it has not run yet. -/
def Good (s : St) : Act → Prop
  | .init n   => s.waiter (.user n) = none
  | .wait n _ => s.waiter (.user n) = none
  | .raw n    => s.waiter (.user n) = none
  | .join id  => ∀ c, find s id = some c → s.current ≠ some c ∧ s.waiter (.exit c) = none
  | .kill id  => ∀ c, find s id = some c → s.current ≠ some c
  | .unpause  => ∀ c, s.current = some c → (s.cor c).pause > 0
  | .create   => ∀ c ∈ s.free.head?, s.waiter (.exit c) = none
  | .shutdown => s.waiter .last = none
  | _         => True

/-- A history: any sequence of steps. -/
inductive Run (up : Nat → Option Nat) : St → List Act → St → Prop
  | nil (s : St) : Run up s [] s
  | cons (s t u : St) (a : Act) (as : List Act) (h : Step up s a t) (r : Run up t as u) :
      Run up s (a :: as) u

/-- A history in which the callers keep to the rules. -/
inductive GoodRun (up : Nat → Option Nat) : St → List Act → St → Prop
  | nil (s : St) : GoodRun up s [] s
  | cons (s t u : St) (a : Act) (as : List Act) (g : Good s a) (h : Step up s a t)
      (r : GoodRun up t as u) : GoodRun up s (a :: as) u

/-- A state that a thread can be in. -/
def Reach (up : Nat → Option Nat) (s : St) : Prop := ∃ as, GoodRun up St.init as s

end Verif.Coro
