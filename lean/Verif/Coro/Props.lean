import Verif.Coro.Proofs
/-!
# C104: the coroutines of a thread

Specification.  A coroutine is named by its memory in a state and by its number (`id`) over a
history; it is alive while it is in the list of the manager.  The statements speak about the
lists, about where a coroutine is, and about the events.
-/
set_option autoImplicit false
set_option linter.unusedVariables false
set_option linter.unusedSimpArgs false

namespace Verif.Coro

/-- No coroutine sleeps through a signal: a coroutine that is suspended and that nobody has
made ready waits for an event whose signal is off and which knows it, so the next signal
finds it. -/
theorem C104_no_lost_signal_partial {up : Nat → Option Nat} {s : St} (r : Reach up s) (c : Nat)
    (e : Ev) (time : Option Nat) (point : Bool)
    (w : (s.cor c).pc = .wait e time point) (n : c ∉ s.ready) :
    s.signal e = false ∧ s.waiter e = some c := by
  have i := inv_reach r
  refine ⟨?_, i.w2 e c time point w⟩
  cases h : s.signal e with
  | false => rfl
  | true => exact absurd (i.sig e c time point w h) n

/-- A signal of the event, or of an event below it in the chain of parents, makes the waiting
coroutine ready. -/
theorem C104_signal_wakes_partial {up : Nat → Option Nat} {s t : St} (r : Reach up s) (c : Nat)
    (e : Ev) (time : Option Nat) (point : Bool)
    (w : (s.cor c).pc = .wait e time point) (l : List Ev) (h : Step up s (.signal l) t)
    (m : e ∈ l) : c ∈ t.ready := by
  have i := inv_reach r
  cases h with
  | signal _ hl =>
    obtain ⟨-, -, -, -, -, -, -, -, -, -, a11, -⟩ := signalAll_spec l s i.nr
    exact (a11 c).2 (.inr ⟨e, m, i.w2 e c time point w⟩)

/-- Nobody is lost: a coroutine that has not ended is executing, or in the ready list, or
known to the event it waits for; and it is never in two of the first two places. -/
theorem C104_where_partial {up : Nat → Option Nat} {s : St} (r : Reach up s) (c : Nat)
    (h : c ∈ s.list) :
    (s.current = some c ∨ c ∈ s.ready ∨
      ∃ e time point, (s.cor c).pc = .wait e time point ∧ s.waiter e = some c ∧
        s.signal e = false) ∧
    (s.current = some c → c ∉ s.ready) := by
  have i := inv_reach r
  refine ⟨?_, fun q => (i.cur c q).2⟩
  cases hp : (s.cor c).pc with
  | dead => exact absurd hp ((i.live c).1 h)
  | run => exact (i.run c hp).elim (fun q => .inr (.inl q)) .inl
  | wait e t p =>
    by_cases q : c ∈ s.ready
    · exact .inr (.inl q)
    · have := C104_no_lost_signal_partial r c e t p hp q
      exact .inr (.inr ⟨e, t, p, rfl, this.2, this.1⟩)

/-- The ready list holds nobody twice and nobody who has ended, and the scheduler never
switches to a coroutine that has ended (the `abort()` is not reached). -/
theorem C104_once_partial {up : Nat → Option Nat} {s : St} (r : Reach up s) :
    s.ready.Nodup ∧ (∀ c ∈ s.ready, c ∈ s.list) ∧ s.aborted = false := by
  have i := inv_reach r
  exact ⟨i.nr, fun c hc => (i.live c).2 (i.rl c hc), i.ab⟩

/-- Memory is used for one coroutine at a time: the coroutines that have not ended are all
different, none of them is in the free list, their numbers are all different, and every
piece of memory is in one of the two lists. -/
theorem C104_memory_partial {up : Nat → Option Nat} {s : St} (r : Reach up s) :
    s.list.Nodup ∧ s.free.Nodup ∧ (∀ c, c < s.next ↔ c ∈ s.list ∨ c ∈ s.free) ∧
    (∀ c ∈ s.list, c ∉ s.free) ∧
    (∀ c ∈ s.list, ∀ d ∈ s.list, (s.cor c).id = (s.cor d).id → c = d) := by
  have i := inv_reach r
  refine ⟨i.nl, i.nf, ?_, ?_, ?_⟩
  · intro c
    rw [i.live, i.fr]
    constructor
    · intro h
      by_cases q : (s.cor c).pc = .dead
      · exact .inr ⟨h, q⟩
      · exact .inl q
    · rintro (h | h)
      · exact i.lt c h
      · exact h.1
  · intro c hc; rw [i.live] at hc; rw [i.fr]; exact fun q => hc q.2
  · intro c hc d hd h; exact i.inj c d ((i.live c).1 hc) ((i.live d).1 hd) h

theorem ready_signalAll (l : List Ev) : ∀ s : St,
    (∃ ex, (signalAll s l).ready = s.ready ++ ex) ∧ (signalAll s l).current = s.current := by
  induction l with
  | nil => intro s; exact ⟨⟨[], by simp [signalAll]⟩, rfl⟩
  | cons e es ih =>
    intro s
    obtain ⟨⟨ex, h⟩, hc⟩ := ih { s with signal := put s.signal e true }
    simp only [signalAll]
    generalize signalAll { s with signal := put s.signal e true } es = t at *
    dsimp only at h hc
    cases t.waiter e with
    | none => exact ⟨⟨ex, h⟩, hc⟩
    | some c =>
      simp only [wake, resume]
      split
      · exact ⟨⟨ex, h⟩, hc⟩
      · exact ⟨⟨ex ++ [c], by simp [h]⟩, hc⟩

theorem ready_resume (s : St) (c : Nat) : ∃ ex, (resume s c).ready = s.ready ++ ex := by
  simp only [resume]; split
  · exact ⟨[], by simp⟩
  · exact ⟨[c], rfl⟩

theorem ready_cancelOf (s : St) (c : Nat) : ∃ ex, (cancelOf s c).ready = s.ready ++ ex := by
  simp only [cancelOf]; split
  · exact ⟨[], by simp⟩
  · exact ready_resume _ c

theorem ready_cancelAll (me : Nat) (l : List Nat) : ∀ s : St,
    ∃ ex, (cancelAll s me l).ready = s.ready ++ ex := by
  induction l with
  | nil => intro s; exact ⟨[], by simp [cancelAll]⟩
  | cons c cs ih =>
    intro s
    simp only [cancelAll]
    split
    · exact ih s
    · obtain ⟨e1, h1⟩ := ready_cancelOf s c
      obtain ⟨e2, h2⟩ := ih (cancelOf s c)
      exact ⟨e1 ++ e2, by rw [h2, h1, List.append_assoc]⟩

theorem ready_waitOn (s : St) (c : Nat) (e : Ev) (t : Option Nat) (p : Bool) :
    (waitOn s c e t p).ready = s.ready := by
  simp only [waitOn]; split <;> rfl

/-- First ready, first run: whatever happens, the ready list only grows at its end; the
scheduler takes its head and runs it. -/
theorem C104_order {up : Nat → Option Nat} {s t : St} {a : Act} (h : Step up s a t) :
    (a ≠ .run → ∃ ex, t.ready = s.ready ++ ex) ∧
    (a = .run → ∃ c, s.ready = c :: t.ready ∧ t.current = some c) := by
  cases h with
  | run h r =>
    refine ⟨fun q => absurd rfl q, fun _ => ?_⟩
    cases hr : s.ready with
    | nil => exact absurd hr r
    | cons c l =>
      refine ⟨c, ?_⟩
      simp only [runNext, hr, back]
      split <;> exact ⟨rfl, rfl⟩
  | signal l h => exact ⟨fun _ => (ready_signalAll l s).1, fun q => by simp at q⟩
  | timer c h a =>
    refine ⟨fun _ => ?_, fun q => by simp at q⟩
    simp only [timerFires]
    split
    · generalize hw : St.waiter _ _ = w
      cases w with
      | none => exact ⟨[], by simp [wake]⟩
      | some d => exact ready_resume _ d
    · exact ⟨[], by simp⟩
  | init n => exact ⟨fun _ => ⟨[], by simp⟩, fun q => by simp at q⟩
  | create h => exact ⟨fun _ => ⟨_, rfl⟩, fun q => by simp at q⟩
  | wait c n tm h =>
    refine ⟨fun _ => ?_, fun q => by simp at q⟩
    simp only [eventWait]; split
    · exact ⟨[], by simp⟩
    · exact ⟨[], by rw [ready_waitOn]; simp⟩
  | raw c n h => exact ⟨fun _ => ⟨[], by rw [ready_waitOn]; simp⟩, fun q => by simp at q⟩
  | join c id h =>
    refine ⟨fun _ => ?_, fun q => by simp at q⟩
    simp only [join]; split
    · exact ⟨[], by simp⟩
    · exact ⟨[], by rw [ready_waitOn]; simp⟩
  | kill c id h =>
    refine ⟨fun _ => ?_, fun q => by simp at q⟩
    simp only [kill]; split
    · exact ⟨[], by simp⟩
    · exact ready_cancelOf s _
  | pause c h => exact ⟨fun _ => ⟨[], by simp⟩, fun q => by simp at q⟩
  | unpause c h =>
    refine ⟨fun _ => ?_, fun q => by simp at q⟩
    simp only [cancelResume]; split <;> exact ⟨[], by simp⟩
  | shutdown c h =>
    refine ⟨fun _ => ?_, fun q => by simp at q⟩
    simp only [shutdown]; split
    · exact ⟨[], by simp⟩
    · rw [ready_waitOn]; exact ready_cancelAll c s.list s
  | exit c h =>
    refine ⟨fun _ => ?_, fun q => by simp at q⟩
    rw [exit_eq]
    have h1 : ∃ ex, (exitMid s c).ready = s.ready ++ ex := (ready_signalAll [.exit c] s).1
    split
    · obtain ⟨e1, h1⟩ := h1
      obtain ⟨e2, h2⟩ := (ready_signalAll [.last] (exitMid s c)).1
      exact ⟨e1 ++ e2, by rw [h2, h1, List.append_assoc]⟩
    · exact h1

/-- Fairness: a coroutine with `k` others before it in the ready list is at the head of the
list, the next to be run, after any piece of history in which the scheduler ran `k`
coroutines, whatever else happened in it. -/
theorem C104_turn {up : Nat → Option Nat} {s t : St} {as : List Act} (h : Run up s as t)
    (before after : List Nat) (c : Nat) (e : s.ready = before ++ c :: after)
    (k : as.count .run = before.length) : ∃ rest, t.ready = c :: rest := by
  induction h generalizing before after with
  | nil s =>
    have : before = [] := List.length_eq_zero_iff.1 (by simpa using k.symm)
    subst this
    exact ⟨after, e⟩
  | cons s t u a as h r ih =>
    have o := C104_order h
    by_cases q : a = .run
    · obtain ⟨d, hd, -⟩ := o.2 q
      subst q
      cases before with
      | nil => simp at k
      | cons b bs =>
        rw [e] at hd
        simp at hd
        exact ih bs after hd.2.symm (by simpa using k)
    · obtain ⟨ex, hx⟩ := o.1 q
      have hk : as.count .run = before.length := by
        rw [List.count_cons_of_ne (by simpa using q)] at k; exact k
      exact ih before (after ++ ex) (by rw [hx, e]; simp) hk

/-- `c` has been told to stop and has not been told so in vain: the flag is on, or it will be
when the coroutine leaves the part in which it may not be cancelled. -/
def Asked (s : St) (c : Nat) : Prop :=
  (s.cor c).cancel = true ∨ ((s.cor c).recv > 0 ∧ (s.cor c).pause > 0)

/-- To kill a coroutine that is alive: it is told, and woken up wherever it sleeps, unless
it is inside `cancel_pause`. -/
theorem C104_kill_partial {up : Nat → Option Nat} {s t : St} (r : Reach up s) (c : Nat)
    (h : Step up s (.kill (s.cor c).id) t) (l : c ∈ s.list) :
    Asked t c ∧ ((s.cor c).pause = 0 → (t.cor c).cancel = true ∧ c ∈ t.ready) := by
  have i := inv_reach r
  cases h with
  | kill me h =>
    have hf : find s (s.cor c).id = some c := by
      cases hq : find s (s.cor c).id with
      | none =>
        have := List.find?_eq_none.1 hq c l
        simp at this
      | some d =>
        have := find_mem hq
        rw [i.inj d c ((i.live d).1 this.1) ((i.live c).1 l) this.2]
    simp only [kill, hf, cancelOf, Asked]
    by_cases hp : (s.cor c).pause > 0
    · rw [if_pos hp]
      refine ⟨.inr ?_, fun q => by omega⟩
      simp [put, hp]
    · rw [if_neg hp]
      simp only [resume]
      split
      · rename_i hm; exact ⟨.inl (by simp [put]), fun _ => ⟨by simp [put], hm⟩⟩
      · exact ⟨.inl (by simp [put]), fun _ => ⟨by simp [put], by simp⟩⟩

/-- A coroutine that leaves the outermost `cancel_pause` and was told to stop meanwhile is
cancelled there. -/
theorem C104_unpause {up : Nat → Option Nat} {s t : St} (c : Nat)
    (h : Step up s .unpause t) (me : s.current = some c) (p : (s.cor c).pause = 1)
    (q : (s.cor c).recv > 0) : (t.cor c).cancel = true := by
  cases h with
  | unpause d h =>
    rw [me] at h; cases h
    simp [cancelResume, p, q, put]

/-- A cancelled coroutine does not sleep in `event_wait`: it is thrown out before it
sleeps, and if it sleeps already it is made ready. -/
theorem C104_awake_partial {up : Nat → Option Nat} {s : St} (r : Reach up s) (c : Nat)
    (h : (s.cor c).cancel = true) :
    (∀ e time, (s.cor c).pc = .wait e time true → c ∈ s.ready) ∧
    (∀ n time t, s.current = some c → Step up s (.wait n time) t → t = s) := by
  refine ⟨fun e time w => (inv_reach r).can e c time h w, fun n time t me st => ?_⟩
  cases st with
  | wait d _ _ hd =>
    rw [me] at hd; cases hd
    simp [eventWait, h]

theorem cor_signalAll (l : List Ev) : ∀ s : St, (signalAll s l).cor = s.cor := by
  induction l with
  | nil => intro s; rfl
  | cons e es ih =>
    intro s
    have h := ih { s with signal := put s.signal e true }
    simp only [signalAll]
    generalize signalAll { s with signal := put s.signal e true } es = t at *
    dsimp only at h
    cases t.waiter e with
    | none => exact h
    | some c => simp only [wake, resume]; split <;> exact h

/-- What one step does to a coroutine: its number stays, unless a new coroutine is made in
its memory, with a number that was never used. -/
theorem step_id {up : Nat → Option Nat} {s t : St} {a : Act} (i : Inv s) (g : Good s a)
    (h : Step up s a t) (c : Nat) :
    s.seq ≤ t.seq ∧
    (((t.cor c).id = (s.cor c).id ∧ ((t.cor c).pc ≠ .dead → (s.cor c).pc ≠ .dead) ∧
        (Asked s c → Asked t c)) ∨
      (s.seq ≤ (t.cor c).id ∧ (s.cor c).pc = .dead)) := by
  have soft : ∀ t, Soft s t → (Asked s c → Asked t c) → s.seq ≤ t.seq ∧
      (((t.cor c).id = (s.cor c).id ∧ ((t.cor c).pc ≠ .dead → (s.cor c).pc ≠ .dead) ∧
        (Asked s c → Asked t c)) ∨ (s.seq ≤ (t.cor c).id ∧ (s.cor c).pc = .dead)) := by
    intro t h k
    exact ⟨by rw [h.seq]; omega, .inl ⟨h.id c, by rw [h.pc]; exact id, k⟩⟩
  have hw : ∀ (s' : St) (me : Nat) (e : Ev) (tm : Option Nat) (p : Bool),
      s'.current = some me → (s'.cor me).pc = .run →
      (waitOn s' me e tm p).seq = s'.seq ∧ ((waitOn s' me e tm p).cor c).id = (s'.cor c).id ∧
      (((waitOn s' me e tm p).cor c).pc ≠ .dead → (s'.cor c).pc ≠ .dead) ∧
      (Asked s' c → Asked (waitOn s' me e tm p) c) := by
    intro s' me e tm p _ hr
    simp only [waitOn, Asked]
    split
    · simp only [put]; refine ⟨trivial, ?_, ?_, ?_⟩ <;> grind
    · simp only [put]; refine ⟨trivial, ?_, ?_, ?_⟩ <;> grind
  have hcan : ∀ (s' : St) (d : Nat), Asked s' c → Asked (cancelOf s' d) c := by
    intro s' d
    simp only [cancelOf, Asked, resume]
    split
    · simp only [put]; grind
    · split <;> (simp only [put]; grind)
  cases h with
  | run h r =>
    simp only [runNext]
    cases hr : s.ready with
    | nil => exact absurd hr r
    | cons d l =>
      have hd := i.rl d (by rw [hr]; simp)
      simp only [back]
      split
      · exact ⟨Nat.le_refl _, .inl ⟨rfl, id, id⟩⟩
      · exact ⟨Nat.le_refl _, .inl ⟨rfl, id, id⟩⟩
      · refine ⟨Nat.le_refl _, .inl ?_⟩
        simp only [put, Asked]
        refine ⟨?_, ?_, ?_⟩ <;> grind
  | signal l h =>
    exact soft _ (soft_signal i (chain_user h)) (by simp only [Asked, cor_signalAll]; exact id)
  | timer d h a =>
    refine soft _ (soft_timer i a) ?_
    simp only [timerFires]
    split
    · generalize St.waiter _ _ = w
      simp only [Asked]
      cases w with
      | none => simp only [wake, put]; grind
      | some z => simp only [wake, resume]; split <;> (simp only [put]; grind)
    · exact id
  | init n => exact ⟨Nat.le_refl _, .inl ⟨rfl, id, id⟩⟩
  | create h =>
    have ht := inv_create i h g
    refine ⟨by simp [create], ?_⟩
    simp only [create]
    cases hf : s.free with
    | nil =>
      simp only [put, Asked, Cor.zero]
      by_cases q : c = s.next
      · right
        refine ⟨by rw [if_pos q]; exact Nat.le_refl _, ?_⟩
        by_cases z : (s.cor c).pc = .dead
        · exact z
        · have := i.lt c z; omega
      · left; rw [if_neg q]; exact ⟨rfl, id, id⟩
    | cons n l =>
      simp only [put, Asked, Cor.zero]
      by_cases q : c = n
      · right
        refine ⟨by rw [if_pos q]; exact Nat.le_refl _, ?_⟩
        exact ((i.fr c).1 (by rw [hf, q]; simp)).2
      · left; rw [if_neg q]; exact ⟨rfl, id, id⟩
  | wait d n tm h =>
    simp only [eventWait]
    split
    · exact ⟨Nat.le_refl _, .inl ⟨rfl, id, id⟩⟩
    · obtain ⟨h1, h2⟩ := hw s d (.user n) tm true h (i.cur d h).1
      exact ⟨by omega, .inl h2⟩
  | raw d n h =>
    obtain ⟨h1, h2⟩ := hw s d (.user n) none false h (i.cur d h).1
    exact ⟨by omega, .inl h2⟩
  | join d id' h =>
    simp only [join]
    split
    · exact ⟨Nat.le_refl _, .inl ⟨rfl, id, id⟩⟩
    · rename_i x hx
      obtain ⟨h1, h2, h3, h4⟩ := hw
        { s with cor := put s.cor d { s.cor d with pause := (s.cor d).pause + 1 } } d
        (.exit x) none false h (by simp only [put, if_true]; exact (i.cur d h).1)
      refine ⟨by rw [h1]; exact Nat.le_refl _, .inl ⟨?_, ?_, fun q => h4 ?_⟩⟩
      · rw [h2]; simp only [put]; split <;> simp_all
      · intro q; have := h3 q; simp only [put] at this; grind
      · simp only [Asked, put] at *; grind
  | kill d id' h =>
    simp only [kill]
    cases hf : find s id' with
    | none => exact ⟨Nat.le_refl _, .inl ⟨rfl, id, id⟩⟩
    | some x => exact soft _ (soft_cancel i (find_mem hf).1 (g x hf)) (hcan s x)
  | pause d h =>
    refine ⟨Nat.le_refl _, .inl ?_⟩
    simp only [put, Asked]
    refine ⟨?_, ?_, ?_⟩ <;> grind
  | unpause d h =>
    simp only [cancelResume]
    split
    · refine ⟨Nat.le_refl _, .inl ?_⟩
      simp only [put, Asked]
      refine ⟨?_, ?_, ?_⟩ <;> grind
    · refine ⟨Nat.le_refl _, .inl ?_⟩
      simp only [put, Asked]
      refine ⟨?_, ?_, ?_⟩ <;> grind
  | shutdown d h =>
    simp only [shutdown]
    split
    · exact ⟨Nat.le_refl _, .inl ⟨rfl, id, id⟩⟩
    · have hs := soft_cancelAll d s.list s i h (fun _ h => h)
      have hall : ∀ (l : List Nat) (s' : St), Asked s' c → Asked (cancelAll s' d l) c := by
        intro l
        induction l with
        | nil => intro s' q; exact q
        | cons x xs ih =>
          intro s' q
          simp only [cancelAll]
          split
          · exact ih s' q
          · exact ih _ (hcan s' x q)
      obtain ⟨h1, h2, h3, h4⟩ := hw (cancelAll s d s.list) d .last none false
        (by rw [hs.current]; exact h) (by rw [hs.pc]; exact (i.cur d h).1)
      refine ⟨by rw [h1, hs.seq]; exact Nat.le_refl _, .inl ⟨by rw [h2, hs.id], ?_, ?_⟩⟩
      · intro q; have := h3 q; rw [hs.pc] at this; exact this
      · exact fun q => h4 (hall _ s q)
  | exit d h =>
    have hm : (exitMid s d).seq = s.seq ∧ ((exitMid s d).cor c).id = (s.cor c).id ∧
        (((exitMid s d).cor c).pc ≠ .dead → (s.cor c).pc ≠ .dead) ∧
        (Asked s c → Asked (exitMid s d) c) := by
      obtain ⟨a1, a2, a3, a4, a5, a6, a7, a8, -⟩ := signalAll_spec [.exit d] s i.nr
      refine ⟨a4, ?_, ?_, ?_⟩ <;> simp only [exitMid, Asked, a8, put] <;> grind
    rw [exit_eq]
    split
    · obtain ⟨a1, a2, a3, a4, a5, a6, a7, a8, -⟩ :=
        signalAll_spec [.last] (exitMid s d) (inv_exitMid i h).nr
      refine ⟨by rw [a4, hm.1]; exact Nat.le_refl _, .inl ?_⟩
      have e : ∀ c, Asked (signalAll (exitMid s d) [.last]) c ↔ Asked (exitMid s d) c := by
        intro c; simp only [Asked, a8]
      rw [e, a8]; exact hm.2
    · exact ⟨by rw [hm.1]; exact Nat.le_refl _, .inl hm.2⟩

/-- A coroutine that was told to stop stays told, for as long as it exists, whatever happens
on the thread. -/
theorem C104_cancel_kept_partial {up : Nat → Option Nat} {s t : St} {as : List Act}
    (r : Reach up s) (h : GoodRun up s as t) (c : Nat) (l : c ∈ s.list) (a : Asked s c)
    (same : (t.cor c).id = (s.cor c).id) : Asked t c := by
  have i := inv_reach r
  have hid := i.ids c ((i.live c).1 l)
  clear r
  have key : s.seq ≤ t.seq ∧ ((t.cor c).id = (s.cor c).id ∧ Asked t c ∨
      s.seq ≤ (t.cor c).id) := by
    clear same
    have : ∀ (n : Nat), n ≤ s.seq → (s.cor c).id < n →
        ((t.cor c).id = (s.cor c).id ∧ Asked t c ∨ n ≤ (t.cor c).id) ∧ s.seq ≤ t.seq := by
      clear hid l
      have gen : ∀ (n k : Nat), n ≤ s.seq → k < n →
          ((s.cor c).id = k ∧ Asked s c ∨ n ≤ (s.cor c).id) →
          ((t.cor c).id = k ∧ Asked t c ∨ n ≤ (t.cor c).id) ∧ s.seq ≤ t.seq := by
        clear a
        induction h with
        | nil s => intro n k _ _ q; exact ⟨q, Nat.le_refl _⟩
        | cons s u t a as g h r ih =>
          intro n k hn hk q
          obtain ⟨h1, h2⟩ := step_id i g h c
          have := ih (inv_step i g h) n k (by omega) hk (by
            rcases h2 with ⟨h2, -, h3⟩ | ⟨h2, -⟩
            · rcases q with ⟨q1, q2⟩ | q
              · exact .inl ⟨by omega, h3 q2⟩
              · exact .inr (by omega)
            · exact .inr (by omega))
          exact ⟨this.1, by omega⟩
      intro n hn hk
      exact gen n _ hn hk (.inl ⟨rfl, a⟩)
    obtain ⟨h1, h2⟩ := this s.seq (Nat.le_refl _) hid
    exact ⟨h2, h1⟩
  rcases key.2 with h | h
  · exact h.2
  · omega

/-- A coroutine that is alive with an old number was alive with it before. -/
theorem live_back {up : Nat → Option Nat} {s t : St} {as : List Act} (i : Inv s)
    (h : GoodRun up s as t) (c n : Nat) (hn : n ≤ s.seq) (l : (t.cor c).pc ≠ .dead)
    (o : (t.cor c).id < n) : (s.cor c).pc ≠ .dead ∧ (s.cor c).id = (t.cor c).id := by
  induction h with
  | nil s => exact ⟨l, rfl⟩
  | cons s u t a as g h r ih =>
    obtain ⟨h1, h2⟩ := step_id i g h c
    obtain ⟨h3, h4⟩ := ih (inv_step i g h) (by omega) l o
    rcases h2 with ⟨h5, h6, -⟩ | ⟨h5, -⟩
    · exact ⟨h6 h3, by omega⟩
    · omega

/-- To wait for a coroutine returns only after it has ended: when the caller is made ready
again there is no coroutine with that number, however often the caller was told to stop
meanwhile, and whatever its memory has been used for. -/
theorem C104_join_partial {up : Nat → Option Nat} {s t u : St} {as : List Act} (r : Reach up s)
    (me id x : Nat) (h : s.current = some me) (g : Good s (.join id))
    (j : Step up s (.join id) t) (k : GoodRun up t as u)
    (w : find s id = some x) (q : (u.cor me).pc = .wait (.exit x) none false)
    (a : me ∈ u.ready) : find u id = none := by
  have i := inv_reach r
  have it := inv_step i g j
  have iu := inv_run it k
  have hx := iu.jr x me none false q a
  have hxs := find_mem w
  cases hf : find u id with
  | none => rfl
  | some d =>
    exfalso
    have hd := find_mem hf
    have hdl := (iu.live d).1 hd.1
    have hlt : id < s.seq := by rw [← hxs.2]; exact i.ids x ((i.live x).1 hxs.1)
    have hb := live_back i (GoodRun.cons s t u _ as g j k) d s.seq (Nat.le_refl _) hdl
      (by rw [hd.2]; exact hlt)
    have := i.inj d x hb.1 ((i.live x).1 hxs.1) (by rw [hb.2, hd.2, hxs.2])
    rw [this] at hdl
    exact hdl hx

/-- And it returns: the caller of `coroutine_wait` for a coroutine that exists sleeps on the
exit of that coroutine, and the end of that coroutine makes it ready. -/
theorem C104_join_returns_partial {up : Nat → Option Nat} {s t : St} (r : Reach up s) :
    (∀ me id x, s.current = some me → Step up s (.join id) t → find s id = some x →
      x ≠ me → (t.cor me).pc = .wait (.exit x) none false) ∧
    (∀ me x time point, (s.cor me).pc = .wait (.exit x) time point → s.current = some x →
      Step up s .exit t → me ∈ t.ready ∧ x ∉ t.list) := by
  have i := inv_reach r
  constructor
  · intro me id x hm h hf hne
    have hx := find_mem hf
    have hs := i.sx x ((i.live x).1 hx.1)
    cases h with
    | join c _ hc =>
      rw [hm] at hc; cases hc
      simp [join, hf, waitOn, hs, put]
  · intro me x time point hp hc h
    cases h with
    | exit c hcc =>
      rw [hc] at hcc; cases hcc
      obtain ⟨a1, a2, a3, a4, a5, a6, a7, a8, a9, a10, a11, a12⟩ :=
        signalAll_spec [.exit x] s i.nr
      have h1 : me ∈ (exitMid s x).ready :=
        (a11 me).2 (.inr ⟨.exit x, by simp, i.w2 _ _ _ _ hp⟩)
      have h2 : x ∉ (exitMid s x).list := by
        show x ∉ ((signalAll s [.exit x]).list.erase x)
        rw [a1]
        exact fun q => (i.nl.mem_erase_iff.1 q).1 rfl
      rw [exit_eq]
      split
      · obtain ⟨b1, b2, b3, b4, b5, b6, b7, b8, b9, b10, b11, b12⟩ :=
          signalAll_spec [.last] (exitMid s x) (inv_exitMid i hc).nr
        exact ⟨(b11 me).2 (.inl h1), by rw [b1]; exact h2⟩
      · exact ⟨h1, h2⟩

theorem asked_cancelAll (me : Nat) (l : List Nat) : ∀ (s : St) (c : Nat), c ≠ me →
    (c ∈ l ∨ Asked s c) → Asked (cancelAll s me l) c := by
  have hcan : ∀ (s' : St) (c d : Nat), Asked s' c ∨ c = d → Asked (cancelOf s' d) c := by
    intro s' c d
    simp only [cancelOf, Asked, resume]
    split
    · simp only [put]; grind
    · split <;> (simp only [put]; grind)
  induction l with
  | nil => intro s c _ h; simpa [cancelAll] using h
  | cons x xs ih =>
    intro s c hc h
    simp only [cancelAll]
    apply ih _ c hc
    by_cases q : x = me
    · rw [if_pos q]
      simp only [List.mem_cons] at h
      rcases h with (h | h) | h
      · exact absurd (h.trans q) hc
      · exact .inl h
      · exact .inr h
    · rw [if_neg q]
      simp only [List.mem_cons] at h
      rcases h with (h | h) | h
      · exact .inr (hcan s c x (.inr h))
      · exact .inl h
      · exact .inr (hcan s c x (.inl h))

/-- When the main coroutine of a thread ends, every other coroutine of the thread is told to
stop; and when its sleep ends, and nobody has cancelled it, it is the only one left. -/
theorem C104_shutdown_partial {up : Nat → Option Nat} {s t : St} (r : Reach up s) :
    (∀ me, s.current = some me → Step up s .shutdown t → s.list.length ≠ 1 →
      ∀ c ∈ s.list, c ≠ me → Asked t c) ∧
    (∀ me time point, (s.cor me).pc = .wait .last time point → me ∈ s.ready →
      (s.cor me).cancel = false → s.list = [me]) := by
  have i := inv_reach r
  constructor
  · intro me hm h hl c hc hne
    cases h with
    | shutdown d hd =>
      rw [hm] at hd; cases hd
      simp only [shutdown, if_neg hl]
      have hA := asked_cancelAll me s.list s c hne (.inl hc)
      simp only [Asked, waitOn] at *
      split
      · simp only [put, if_neg hne]; exact hA
      · simp only [put, if_neg hne]; exact hA
  · intro me time point hp hr hc
    have hall := i.lr me time point hp hr hc
    have hme : me ∈ s.list := (i.live me).2 (by rw [hp]; simp)
    have hnl := i.nl
    match hl : s.list with
    | [] => rw [hl] at hme; simp at hme
    | [x] => rw [hl] at hme; simp at hme; rw [hme]
    | x :: y :: z =>
      rw [hl] at hall hnl
      have h1 := hall x (by simp)
      have h2 := hall y (by simp)
      rw [h1, h2] at hnl; simp at hnl

/-- The end of the last other coroutine makes the main coroutine ready. -/
theorem C104_shutdown_returns_partial {up : Nat → Option Nat} {s t : St} (r : Reach up s)
    (me x : Nat) (time : Option Nat) (point : Bool)
    (w : (s.cor me).pc = .wait .last time point) (h : s.current = some x)
    (l : s.list.length = 2) (e : Step up s .exit t) : me ∈ t.ready := by
  have i := inv_reach r
  have hx : x ∈ s.list := (i.live x).2 (by rw [(i.cur x h).1]; simp)
  cases e with
  | exit c hc =>
    rw [h] at hc; cases hc
    obtain ⟨a1, a2, a3, a4, a5, a6, a7, a8, a9, a10, a11, a12⟩ :=
      signalAll_spec [.exit x] s i.nr
    have hl : (exitMid s x).list.length = 1 := by
      show ((signalAll s [.exit x]).list.erase x).length = 1
      rw [a1, List.length_erase_of_mem hx]; omega
    rw [exit_eq, if_pos hl]
    obtain ⟨b1, b2, b3, b4, b5, b6, b7, b8, b9, b10, b11, b12⟩ :=
      signalAll_spec [.last] (exitMid s x) (inv_exitMid i h).nr
    refine (b11 me).2 (.inr ⟨.last, by simp, ?_⟩)
    show (signalAll s [.exit x]).waiter .last = some me
    rw [a6]; exact i.w2 _ _ _ _ w

/-- A wait that reports a timeout had a time limit greater than zero and its timer fired. -/
theorem C104_timeout_partial {up : Nat → Option Nat} {s t : St} (r : Reach up s) (c : Nat)
    (h : Step up s .run t) (me : t.current = some c) (e : Ev) (time : Option Nat)
    (point : Bool) (w : (s.cor c).pc = .wait e time point) :
    (t.cor c).pc = .run ∧ t.signal e = false ∧ t.waiter e = none ∧
    ((t.cor c).timedOut = true → ∃ ms, time = some ms ∧ ms > 0 ∧ (s.cor c).armed = false) := by
  cases h with
  | run h hr =>
    cases hl : s.ready with
    | nil => exact absurd hl hr
    | cons d l =>
      have hd : d = c := by
        simp only [runNext, hl, back] at me
        split at me <;> simpa using me
      subst hd
      simp only [runNext, hl, back, w]
      refine ⟨by simp [put], by simp [put], by simp [put], ?_⟩
      simp only [put, if_true]
      cases time with
      | none => simp
      | some ms => intro q; simp at q; exact ⟨ms, rfl, q.1, q.2⟩

/-- A sleep that must not be disturbed is not: inside `cancel_pause`, a coroutine that sleeps on
an event of the program without time limit is made ready by a signal of that event, or of
an event below it in the chain of parents, and by nothing else.  (The lock manager relies on it:
a coroutine that comes back from `event_wait` takes its lock as granted.) -/
theorem C104_undisturbed_partial {up : Nat → Option Nat} {s t : St} {a : Act} (r : Reach up s)
    (g : Good s a) (h : Step up s a t) (c n : Nat) (point : Bool)
    (w : (s.cor c).pc = .wait (.user n) none point) (p : (s.cor c).pause > 0)
    (asleep : c ∉ s.ready) (awake : c ∈ t.ready) : ∃ l, a = .signal l ∧ .user n ∈ l := by
  have i := inv_reach r
  have sig : ∀ (u : St) (l : List Ev), u.ready.Nodup → u.waiter = s.waiter → c ∉ u.ready →
      c ∈ (signalAll u l).ready → .user n ∈ l := by
    intro u l hn hw h1 h2
    obtain ⟨-, -, -, -, -, -, -, -, -, -, a11, -⟩ := signalAll_spec l u hn
    rcases (a11 c).1 h2 with h2 | ⟨e, he, hwe⟩
    · exact absurd h2 h1
    · rw [hw] at hwe
      obtain ⟨t', p', h'⟩ := i.w1 e c hwe
      rw [w] at h'
      simp only [Pc.wait.injEq] at h'
      rw [h'.1]; exact he
  have can : ∀ (u : St) (d : Nat), (u.cor c).pause > 0 → c ∉ u.ready →
      c ∉ (cancelOf u d).ready ∧ ((cancelOf u d).cor c).pause > 0 := by
    intro u d h1 h2
    simp only [cancelOf]
    by_cases q : (u.cor d).pause > 0
    · rw [if_pos q]
      refine ⟨h2, ?_⟩
      simp only [put]; split
      · rename_i e; subst e; exact h1
      · exact h1
    · rw [if_neg q]
      have hd : c ≠ d := fun e => q (e ▸ h1)
      simp only [resume]
      split
      · exact ⟨h2, by simp only [put, if_neg hd]; exact h1⟩
      · exact ⟨by simp [h2, hd], by simp only [put, if_neg hd]; exact h1⟩
  cases h with
  | run h hr =>
    exfalso
    obtain ⟨d, hd, -⟩ := (C104_order (Step.run (up := up) s h hr)).2 rfl
    exact asleep (by rw [hd]; exact List.mem_cons_of_mem _ awake)
  | signal l h => exact ⟨l, rfl, sig s l i.nr rfl asleep awake⟩
  | timer d h ha =>
    exfalso
    obtain ⟨e, tm, pp, hp⟩ := i.arm d ha
    have hw := i.w2 e d _ pp hp
    simp only [timerFires, hp, hw, wake, resume] at awake
    have hcd : c = d := by
      split at awake
      · exact absurd awake asleep
      · simpa [asleep] using awake
    subst hcd
    rw [w] at hp; simp at hp
  | init m => exact absurd awake asleep
  | create h =>
    exfalso
    have hl : c ∈ s.list := (i.live c).2 (by rw [w]; simp)
    have hd : (s.cor c).pc ≠ .dead := by rw [w]; simp
    simp only [create] at awake
    cases hf : s.free with
    | nil =>
      simp [hf, asleep] at awake
      have := i.lt c hd; omega
    | cons m l =>
      simp [hf, asleep] at awake
      have := ((i.fr m).1 (by rw [hf]; simp)).2
      rw [awake] at hd; exact hd this
  | wait d m tm h =>
    exfalso
    simp only [eventWait] at awake
    split at awake
    · exact asleep awake
    · rw [ready_waitOn] at awake; exact asleep awake
  | raw d m h => exfalso; rw [ready_waitOn] at awake; exact asleep awake
  | join d id h =>
    exfalso
    simp only [join] at awake
    split at awake
    · exact asleep awake
    · rw [ready_waitOn] at awake; exact asleep awake
  | kill d id h =>
    exfalso
    simp only [kill] at awake
    split at awake
    · exact asleep awake
    · exact (can s _ p asleep).1 awake
  | pause d h => exact absurd awake asleep
  | unpause d h =>
    exfalso
    simp only [cancelResume] at awake
    split at awake <;> exact asleep awake
  | shutdown d h =>
    exfalso
    simp only [shutdown] at awake
    split at awake
    · exact asleep awake
    · rw [ready_waitOn] at awake
      have hall : ∀ (l : List Nat) (u : St), (u.cor c).pause > 0 → c ∉ u.ready →
          c ∉ (cancelAll u d l).ready := by
        intro l
        induction l with
        | nil => intro u _ h2; exact h2
        | cons x xs ih =>
          intro u h1 h2
          simp only [cancelAll]
          split
          · exact ih u h1 h2
          · have := can u x h1 h2
            exact ih _ this.2 this.1
      exact hall s.list s p asleep awake
  | exit d h =>
    exfalso
    have h1 : c ∉ (exitMid s d).ready := by
      intro q
      have := sig s [.exit d] i.nr rfl asleep q
      simp at this
    rw [exit_eq] at awake
    split at awake
    · have hw : (exitMid s d).waiter = s.waiter := by
        obtain ⟨-, -, -, -, -, a6, -⟩ := signalAll_spec [.exit d] s i.nr
        exact a6
      have := sig (exitMid s d) [.last] (inv_exitMid i h).nr hw h1 awake
      simp at this
    · exact h1 awake

/-! ## Runs

`act` does one action, `okB` and `goodB` say whether it may be done and whether the callers'
rules allow it; events have no parents here. -/

def pauseOf (s : St) (c : Nat) : St :=
  { s with cor := put s.cor c { s.cor c with pause := (s.cor c).pause + 1 } }

def act (s : St) : Act → St
  | .run      => runNext s
  | .signal l => signalAll s l
  | .timer c  => timerFires s c
  | .init n   => { s with signal := put s.signal (.user n) false,
                          waiter := put s.waiter (.user n) none }
  | .create   => create s
  | .wait n t => match s.current with | some c => eventWait s c n t | none => s
  | .raw n    => match s.current with | some c => waitOn s c (.user n) none false | none => s
  | .join id  => match s.current with | some c => join s c id | none => s
  | .kill id  => kill s id
  | .pause    => match s.current with
      | some c => pauseOf s c
      | none => s
  | .unpause  => match s.current with | some c => cancelResume s c | none => s
  | .shutdown => match s.current with | some c => shutdown s c | none => s
  | .exit     => match s.current with | some c => exit s c | none => s

def okB (s : St) : Act → Bool
  | .run      => s.current.isNone && !s.ready.isEmpty
  | .signal l => match l with | [.user _] => true | _ => false
  | .timer c  => s.current.isNone && (s.cor c).armed
  | .init _   => true
  | .create   => s.current.isSome || s.list.isEmpty
  | _         => s.current.isSome

def goodB (s : St) : Act → Bool
  | .init n   => decide (s.waiter (.user n) = none)
  | .wait n _ => decide (s.waiter (.user n) = none)
  | .raw n    => decide (s.waiter (.user n) = none)
  | .join id  => match find s id with
      | none => true
      | some c => decide (s.current ≠ some c) && decide (s.waiter (.exit c) = none)
  | .kill id  => match find s id with
      | none => true
      | some c => decide (s.current ≠ some c)
  | .unpause  => match s.current with | none => true | some c => decide ((s.cor c).pause > 0)
  | .create   => match s.free with
      | [] => true
      | c :: _ => decide (s.waiter (.exit c) = none)
  | .shutdown => decide (s.waiter .last = none)
  | _         => true

theorem step_act (s : St) (a : Act) (h : okB s a = true) : Step (fun _ => none) s a (act s a) := by
  cases a with
  | run =>
    simp [okB] at h
    exact Step.run s h.1 h.2
  | signal l =>
    simp only [okB] at h
    split at h
    · exact Step.signal s _ (Chain.top _ rfl)
    · simp at h
  | timer c => simp [okB] at h; exact Step.timer s c h.1 h.2
  | init n => exact Step.init s n
  | create =>
    simp [okB] at h
    refine Step.create s ?_
    rcases h with h | h
    · left; intro q; rw [q] at h; simp at h
    · exact .inr h
  | kill id =>
    simp only [okB] at h
    obtain ⟨c, hc⟩ := Option.isSome_iff_exists.1 h
    exact Step.kill s c id hc
  | wait n t => obtain ⟨c, hc⟩ := Option.isSome_iff_exists.1 h
                simp only [act, hc]; exact Step.wait s c n t hc
  | raw n => obtain ⟨c, hc⟩ := Option.isSome_iff_exists.1 h
             simp only [act, hc]; exact Step.raw s c n hc
  | join id => obtain ⟨c, hc⟩ := Option.isSome_iff_exists.1 h
               simp only [act, hc]; exact Step.join s c id hc
  | pause => obtain ⟨c, hc⟩ := Option.isSome_iff_exists.1 h
             simp only [act, hc]; exact Step.pause s c hc
  | unpause => obtain ⟨c, hc⟩ := Option.isSome_iff_exists.1 h
               simp only [act, hc]; exact Step.unpause s c hc
  | shutdown => obtain ⟨c, hc⟩ := Option.isSome_iff_exists.1 h
                simp only [act, hc]; exact Step.shutdown s c hc
  | exit => obtain ⟨c, hc⟩ := Option.isSome_iff_exists.1 h
            simp only [act, hc]; exact Step.exit s c hc

theorem good_act (s : St) (a : Act) (h : goodB s a = true) : Good s a := by
  cases a with
  | run => trivial
  | signal l => trivial
  | timer c => trivial
  | init n => simpa [goodB, Good] using h
  | wait n t => simpa [goodB, Good] using h
  | raw n => simpa [goodB, Good] using h
  | join id => intro c hc; simpa [goodB, hc] using h
  | kill id => intro c hc; simpa [goodB, hc] using h
  | unpause => intro c hc; simpa [goodB, hc] using h
  | create =>
    intro c hc
    simp only [goodB] at h
    cases hf : s.free with
    | nil => rw [hf] at hc; simp at hc
    | cons d l => rw [hf] at hc h; simp at hc; subst hc; simpa using h
  | shutdown => simpa [goodB, Good] using h
  | pause => trivial
  | exit => trivial

def acts (s : St) : List Act → St
  | []      => s
  | a :: as => acts (act s a) as

def okAll (s : St) : List Act → Bool
  | []      => true
  | a :: as => okB s a && okAll (act s a) as

def goodAll (s : St) : List Act → Bool
  | []      => true
  | a :: as => goodB s a && goodAll (act s a) as

theorem run_acts (as : List Act) : ∀ s, okAll s as = true → Run (fun _ => none) s as (acts s as) := by
  induction as with
  | nil => intro s _; exact .nil s
  | cons a as ih =>
    intro s h
    simp only [okAll, Bool.and_eq_true] at h
    exact .cons s _ _ a as (step_act s a h.1) (ih _ h.2)

theorem good_acts (as : List Act) : ∀ s, okAll s as = true → goodAll s as = true →
    GoodRun (fun _ => none) s as (acts s as) := by
  induction as with
  | nil => intro s _ _; exact .nil s
  | cons a as ih =>
    intro s h g
    simp only [okAll, Bool.and_eq_true] at h
    simp only [goodAll, Bool.and_eq_true] at g
    exact .cons s _ _ a as (good_act s a g.1) (step_act s a h.1) (ih _ h.2 g.2)

/-- A history that meets the hypotheses of the theorems above: the main coroutine 0 makes 1
and 2 and sleeps; 2 joins 1, is killed by 1 while it waits, 1 ends, 2 runs again, leaves
`cancel_pause` cancelled and ends; a new coroutine takes the memory of 1. -/
def sampleRun : List Act :=
  [.create, .run, .create, .create, .wait 9 none, .run, .wait 8 (some 5), .run, .join 1,
   .timer 1, .run, .kill 2, .exit, .run, .unpause]

/-- The history is one of those the theorems speak about; in it a join has gone through a
kill. -/
theorem C104_sample_partial :
    Reach (fun _ => none) (acts St.init sampleRun) ∧
    (acts St.init sampleRun).current = some 2 ∧
    ((acts St.init sampleRun).cor 2).cancel = true ∧
    ((acts St.init sampleRun).cor 1).timedOut = true ∧
    (acts St.init sampleRun).list = [0, 2] ∧ (acts St.init sampleRun).free = [1] ∧
    ((acts St.init (sampleRun.take 9)).cor 2).pc = .wait (.exit 1) none false ∧
    (acts St.init (sampleRun.take 13)).ready = [2] ∧
    ((acts St.init (sampleRun.take 13)).cor 2).cancel = false :=
  ⟨⟨_, good_acts _ _ (by decide +kernel) (by decide +kernel)⟩, by decide +kernel⟩

/-- Without the rules.  Two coroutines wait for the same one (`coroutine_wait` by 2 and 3 for
number 1): in a release build the second takes the place of the first in the event, and the
first sleeps for ever: its target has ended, its event is off and knows nobody. -/
theorem C104_two_joiners_false :
    Run (fun _ => none) St.init
      [.create, .run, .create, .create, .create, .wait 9 none, .run, .wait 8 none, .run, .join 1,
       .run, .join 1, .signal [.user 8], .run, .exit, .run] (acts St.init
      [.create, .run, .create, .create, .create, .wait 9 none, .run, .wait 8 none, .run, .join 1,
       .run, .join 1, .signal [.user 8], .run, .exit, .run]) ∧
    (let s := acts St.init
      [.create, .run, .create, .create, .create, .wait 9 none, .run, .wait 8 none, .run, .join 1,
       .run, .join 1, .signal [.user 8], .run, .exit, .run]
     find s 1 = none ∧ s.current = some 3 ∧ 2 ∈ s.list ∧ 2 ∉ s.ready ∧
     (s.cor 2).pc = .wait (.exit 1) none false ∧ s.waiter (.exit 1) = none) :=
  ⟨run_acts _ _ (by decide +kernel), by decide +kernel⟩

def reuseRun : List Act :=
  [.create, .run, .create, .create, .create, .wait 9 none, .run, .wait 8 none, .run, .join 1,
   .run, .wait 7 none, .signal [.user 8], .run, .signal [.user 7], .exit, .run, .create, .join 4,
   .run, .exit, .run, .exit]

/-- The memory of a coroutine is used again while the one who joined it has not run yet.
2 waits for number 1; 1 ends and 2 is ready; 3 runs first, creates a coroutine, which gets the
memory of 1, and waits for it (at that moment nobody else is known to its exit event, as the
`assert` in `wait_event` wants); then 2 runs and, at the end of its own wait, clears
the event: when the new coroutine ends nobody is woken, and 3 sleeps for ever. -/
theorem C104_reuse_false :
    Run (fun _ => none) St.init reuseRun (acts St.init reuseRun) ∧
    find (acts St.init reuseRun) 4 = none ∧ (acts St.init reuseRun).ready = [] ∧
    (acts St.init reuseRun).list = [0, 3] ∧
    ((acts St.init reuseRun).cor 3).pc = .wait (.exit 1) none false ∧
    (acts St.init reuseRun).waiter (.exit 1) = none ∧
    (acts St.init (reuseRun.take 18)).waiter (.exit 1) = none :=
  ⟨run_acts _ _ (by decide +kernel), by decide +kernel⟩

def selfKillRun : List Act := [.create, .run, .create, .wait 9 none, .run, .kill 1, .exit, .run]

/-- A coroutine that kills itself (`coroutine_kill_nowait` of its own number) and ends is
still in the ready list: the scheduler switches to it and the process aborts. -/
theorem C104_self_kill_false :
    Run (fun _ => none) St.init selfKillRun (acts St.init selfKillRun) ∧
    (acts St.init selfKillRun).aborted = true :=
  ⟨run_acts _ _ (by decide +kernel), by decide +kernel⟩

def staleRun : List Act :=
  [.create, .run, .create, .wait 9 none, .run, .exit, .signal [.user 9], .run, .create, .shutdown]

/-- Within the rules.  When a coroutine ends and only the main one is left the manager's event
is signalled though nobody waits for it, and the signal stays on: later, `task_shutdown` of the
main coroutine returns at once, while another coroutine of the thread is alive. -/
theorem C104_stale_shutdown_false :
    GoodRun (fun _ => none) St.init staleRun (acts St.init staleRun) ∧
    (acts St.init staleRun).current = some 0 ∧ (acts St.init staleRun).list = [0, 1] :=
  ⟨good_acts _ _ (by decide +kernel) (by decide +kernel), by decide +kernel⟩

def mailboxRun : List Act :=
  [.create, .run, .create, .raw 9, .run, .raw 5, .signal [.user 9], .run, .kill 1, .raw 9,
   .run, .raw 5]

/-- Within the rules.  `mailbox_pop` waits with `wait_event` in a loop and does not look at
the flag: a coroutine that is killed while it waits for a message wakes up, finds no message
and sleeps again, cancelled; who waits for its end (`coroutine_kill`, `task_shutdown`) waits
until a message comes. -/
theorem C104_mailbox_false :
    GoodRun (fun _ => none) St.init mailboxRun (acts St.init mailboxRun) ∧
    ((acts St.init mailboxRun).cor 1).cancel = true ∧
    ((acts St.init mailboxRun).cor 1).pc = .wait (.user 5) none false ∧
    (acts St.init mailboxRun).ready = [] :=
  ⟨good_acts _ _ (by decide +kernel) (by decide +kernel), by decide +kernel⟩

def timeoutRun : List Act :=
  [.create, .run, .create, .raw 9, .run, .wait 5 (some 10), .timer 1, .signal [.user 5], .run]

/-- Within the rules.  The timer of a wait fires and the event is signalled before the
coroutine runs: the wait reports a timeout and takes the signal away, so neither this wait nor
the next one sees it. -/
theorem C104_timeout_takes_signal_false :
    GoodRun (fun _ => none) St.init timeoutRun (acts St.init timeoutRun) ∧
    ((acts St.init timeoutRun).cor 1).timedOut = true ∧
    (acts St.init (timeoutRun.take 8)).signal (.user 5) = true ∧
    (acts St.init timeoutRun).signal (.user 5) = false ∧
    (acts St.init timeoutRun).current = some 1 :=
  ⟨good_acts _ _ (by decide +kernel) (by decide +kernel), by decide +kernel⟩

/-- A new coroutine is one that was not there, is ready to run, and has nothing left of the one whose
memory it has: not cancelled, no kill pending, no part that must not be cancelled, no time limit. -/
theorem C104_born_partial {up : Nat → Option Nat} {s t : St} (r : Reach up s)
    (h : Step up s .create t) :
    ∃ c, c ∉ s.list ∧ t.list = s.list ++ [c] ∧ c ∈ t.ready ∧ (t.cor c).cancel = false ∧
      (t.cor c).recv = 0 ∧ (t.cor c).pause = 0 ∧ (t.cor c).armed = false ∧
      (t.cor c).timedOut = false ∧ t.signal (.exit c) = false ∧
      ∀ d ∈ s.list, t.cor d = s.cor d ∧ (t.cor d).id ≠ (t.cor c).id := by
  have i := inv_reach r
  have main : ∀ c, (s.cor c).pc = .dead → c ∉ s.list ∧ ∀ d ∈ s.list, d ≠ c ∧ (s.cor d).id ≠ s.seq := by
    intro c m
    have nl : c ∉ s.list := by rw [i.live]; simp [m]
    refine ⟨nl, fun d hd => ⟨fun e => nl (e ▸ hd), ?_⟩⟩
    have := i.ids d ((i.live d).1 hd)
    omega
  cases h with
  | create h =>
    cases hf : s.free with
    | nil =>
      have m : (s.cor s.next).pc = .dead := by
        by_cases q : (s.cor s.next).pc = .dead
        · exact q
        · have := i.lt _ q; omega
      obtain ⟨nl, k⟩ := main _ m
      simp only [create, hf]
      refine ⟨s.next, nl, rfl, by simp, ?_⟩
      simp only [put, if_true]
      refine ⟨by simp [Cor.zero], by simp [Cor.zero], by simp [Cor.zero], by simp [Cor.zero], by simp [Cor.zero], by simp, ?_⟩
      intro d hd
      rw [if_neg (k d hd).1]
      exact ⟨rfl, (k d hd).2⟩
    | cons a l =>
      have m : (s.cor a).pc = .dead := ((i.fr a).1 (by rw [hf]; simp)).2
      obtain ⟨nl, k⟩ := main _ m
      simp only [create, hf]
      refine ⟨a, nl, rfl, by simp, ?_⟩
      simp only [put, if_true]
      refine ⟨by simp [Cor.zero], by simp [Cor.zero], by simp [Cor.zero], by simp [Cor.zero], by simp [Cor.zero], by simp, ?_⟩
      intro d hd
      rw [if_neg (k d hd).1]
      exact ⟨rfl, (k d hd).2⟩

/-- A signal that came before the wait is taken by it, once: the coroutine goes on at once, without
a timeout, and the signal is off. -/
theorem C104_taken_partial {up : Nat → Option Nat} {s t : St} {c n : Nat} {tm : Option Nat}
    (h : Step up s (.wait n tm) t) (run : s.current = some c) (on : s.signal (.user n) = true)
    (nc : (s.cor c).cancel = false) :
    t.current = some c ∧ t.ready = s.ready ∧ t.signal (.user n) = false ∧
      (t.cor c).timedOut = false ∧ (t.cor c).pc = (s.cor c).pc := by
  cases h with
  | wait d _ _ hc =>
    rw [run] at hc
    have e : c = d := by simpa using hc
    subst e
    simp [eventWait, nc, waitOn, on, put, run]

end Verif.Coro
