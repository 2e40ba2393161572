import Verif.Coro.Model
/-!
# Coroutines: the invariant
-/
set_option autoImplicit false
set_option linter.unusedVariables false
set_option linter.unusedSimpArgs false

namespace Verif.Coro

/-- What holds in every state a thread can be in. -/
structure Inv (s : St) : Prop where
  nl : s.list.Nodup
  nf : s.free.Nodup
  nr : s.ready.Nodup
  rl : ∀ c ∈ s.ready, (s.cor c).pc ≠ .dead
  live : ∀ c, c ∈ s.list ↔ (s.cor c).pc ≠ .dead
  fr : ∀ c, c ∈ s.free ↔ c < s.next ∧ (s.cor c).pc = .dead
  lt : ∀ c, (s.cor c).pc ≠ .dead → c < s.next
  cur : ∀ c, s.current = some c → (s.cor c).pc = .run ∧ c ∉ s.ready
  run : ∀ c, (s.cor c).pc = .run → c ∈ s.ready ∨ s.current = some c
  w1 : ∀ e c, s.waiter e = some c → ∃ t p, (s.cor c).pc = .wait e t p
  w2 : ∀ e c t p, (s.cor c).pc = .wait e t p → s.waiter e = some c
  sig : ∀ e c t p, (s.cor c).pc = .wait e t p → s.signal e = true → c ∈ s.ready
  can : ∀ e c t, (s.cor c).cancel = true → (s.cor c).pc = .wait e t true → c ∈ s.ready
  jn : ∀ x c t p, (s.cor c).pc = .wait (.exit x) t p →
    p = false ∧ t = none ∧ (s.cor c).pause > 0 ∧ x < s.next
  jr : ∀ x c t p, (s.cor c).pc = .wait (.exit x) t p → c ∈ s.ready → (s.cor x).pc = .dead
  sx : ∀ x, (s.cor x).pc ≠ .dead → s.signal (.exit x) = false
  lw : ∀ c t p, (s.cor c).pc = .wait .last t p → p = false ∧ t = none
  lr : ∀ c t p, (s.cor c).pc = .wait .last t p → c ∈ s.ready → (s.cor c).cancel = false →
    ∀ x ∈ s.list, x = c
  arm : ∀ c, (s.cor c).armed = true → ∃ e t p, (s.cor c).pc = .wait e (some t) p
  ids : ∀ c, (s.cor c).pc ≠ .dead → (s.cor c).id < s.seq
  inj : ∀ c d, (s.cor c).pc ≠ .dead → (s.cor d).pc ≠ .dead →
    (s.cor c).id = (s.cor d).id → c = d
  rp : ∀ c, (s.cor c).recv > 0 → (s.cor c).pause > 0
  ab : s.aborted = false

theorem inv_init : Inv St.init := by
  constructor <;> simp [St.init, Cor.zero]

/-- A change that only wakes coroutines up. -/
structure Soft (s s' : St) : Prop where
  list : s'.list = s.list
  free : s'.free = s.free
  next : s'.next = s.next
  seq : s'.seq = s.seq
  current : s'.current = s.current
  waiter : s'.waiter = s.waiter
  aborted : s'.aborted = s.aborted
  pc : ∀ c, (s'.cor c).pc = (s.cor c).pc
  id : ∀ c, (s'.cor c).id = (s.cor c).id
  pause : ∀ c, (s'.cor c).pause = (s.cor c).pause
  armed : ∀ c, (s'.cor c).armed = true → (s.cor c).armed = true
  recv : ∀ c, (s'.cor c).recv > 0 → (s.cor c).recv > 0 ∨ (s.cor c).pause > 0
  cancel : ∀ c, (s.cor c).cancel = true → (s'.cor c).cancel = true
  asked : ∀ c, (s'.cor c).cancel = true → (s.cor c).cancel = true ∨ c ∈ s'.ready ∨
    (s.cor c).pc = .run ∨ (s.cor c).pc = .dead
  ready : ∃ ex, s'.ready = s.ready ++ ex
  nodup : s'.ready.Nodup
  woken : ∀ c ∈ s'.ready, c ∉ s.ready → ∃ e t p, (s.cor c).pc = .wait e t p ∧
    (∀ x, e = .exit x → False) ∧ (e = .last → (s'.cor c).cancel = true)
  signal : ∀ e, s'.signal e = true → s.signal e = true ∨
    (∃ n, e = .user n) ∧ ∀ c, s.waiter e = some c → c ∈ s'.ready

theorem Soft.refl (s : St) (h : s.ready.Nodup) : Soft s s := by
  constructor <;> first | rfl | (intro c; rfl) | skip
  · exact fun c h => h
  · exact fun c h => .inl h
  · exact fun c h => h
  · exact fun c h => .inl h
  · exact ⟨[], by simp⟩
  · exact h
  · intro c a b; exact absurd a b
  · exact fun e h => .inl h

theorem Soft.trans {s t u : St} (a : Soft s t) (b : Soft t u) : Soft s u := by
  obtain ⟨e1, h1⟩ := a.ready
  obtain ⟨e2, h2⟩ := b.ready
  have sub : ∀ c, c ∈ t.ready → c ∈ u.ready := by intro c hc; rw [h2]; simp [hc]
  constructor
  · rw [b.list, a.list]
  · rw [b.free, a.free]
  · rw [b.next, a.next]
  · rw [b.seq, a.seq]
  · rw [b.current, a.current]
  · rw [b.waiter, a.waiter]
  · rw [b.aborted, a.aborted]
  · intro c; rw [b.pc, a.pc]
  · intro c; rw [b.id, a.id]
  · intro c; rw [b.pause, a.pause]
  · intro c h; exact a.armed c (b.armed c h)
  · intro c h
    rcases b.recv c h with h | h
    · exact a.recv c h
    · right; rw [← a.pause]; exact h
  · intro c h; exact b.cancel c (a.cancel c h)
  · intro c h
    rcases b.asked c h with h | h | h | h
    · rcases a.asked c h with h | h | h
      · exact .inl h
      · exact .inr (.inl (sub c h))
      · exact .inr (.inr h)
    · exact .inr (.inl h)
    · exact .inr (.inr (.inl (by rw [← a.pc]; exact h)))
    · exact .inr (.inr (.inr (by rw [← a.pc]; exact h)))
  · exact ⟨e1 ++ e2, by rw [h2, h1, List.append_assoc]⟩
  · exact b.nodup
  · intro c hc hn
    by_cases ht : c ∈ t.ready
    · obtain ⟨e, tt, p, h, hx, hl⟩ := a.woken c ht hn
      exact ⟨e, tt, p, h, hx, fun q => b.cancel c (hl q)⟩
    · obtain ⟨e, tt, p, h, hx, hl⟩ := b.woken c hc ht
      exact ⟨e, tt, p, by rw [← a.pc]; exact h, hx, hl⟩
  · intro e h
    rcases b.signal e h with h | ⟨hu, h⟩
    · rcases a.signal e h with h | ⟨hu, h⟩
      · exact .inl h
      · exact .inr ⟨hu, fun c hc => sub c (h c hc)⟩
    · exact .inr ⟨hu, fun c hc => h c (by rw [a.waiter]; exact hc)⟩

theorem Soft.inv {s t : St} (i : Inv s) (h : Soft s t) : Inv t := by
  obtain ⟨ex, hr⟩ := h.ready
  have sub : ∀ c, c ∈ s.ready → c ∈ t.ready := by intro c hc; rw [hr]; simp [hc]
  constructor
  · rw [h.list]; exact i.nl
  · rw [h.free]; exact i.nf
  · exact h.nodup
  · intro c hc
    rw [h.pc]
    by_cases hs : c ∈ s.ready
    · exact i.rl c hs
    · obtain ⟨e, tt, p, hp, -⟩ := h.woken c hc hs
      rw [hp]; simp
  · intro c; rw [h.list, h.pc]; exact i.live c
  · intro c; rw [h.free, h.pc, h.next]; exact i.fr c
  · intro c; rw [h.pc, h.next]; exact i.lt c
  · intro c hc
    rw [h.current] at hc
    obtain ⟨h1, h2⟩ := i.cur c hc
    refine ⟨by rw [h.pc]; exact h1, fun hx => ?_⟩
    obtain ⟨e, tt, p, hp, -⟩ := h.woken c hx h2
    rw [h1] at hp; simp at hp
  · intro c hc
    rw [h.pc] at hc; rw [h.current]
    rcases i.run c hc with hx | hx
    · exact .inl (sub c hx)
    · exact .inr hx
  · intro e c; rw [h.waiter, h.pc]; exact i.w1 e c
  · intro e c; rw [h.waiter, h.pc]; exact i.w2 e c
  · intro e c tt p hp hs
    rw [h.pc] at hp
    rcases h.signal e hs with hs | ⟨-, hs⟩
    · exact sub c (i.sig e c tt p hp hs)
    · exact hs c (i.w2 e c tt p hp)
  · intro e c tt hc hp
    rw [h.pc] at hp
    rcases h.asked c hc with hc | hc | hc | hc
    · exact sub c (i.can e c tt hc hp)
    · exact hc
    · rw [hc] at hp; simp at hp
    · rw [hc] at hp; simp at hp
  · intro x c tt p hp
    rw [h.pc] at hp; rw [h.pause, h.next]; exact i.jn x c tt p hp
  · intro x c tt p hp hc
    rw [h.pc] at hp; rw [h.pc]
    by_cases hs : c ∈ s.ready
    · exact i.jr x c tt p hp hs
    · obtain ⟨e, t2, p2, hp2, hx, -⟩ := h.woken c hc hs
      rw [hp] at hp2; simp at hp2
      exact (hx x hp2.1.symm).elim
  · intro x hx
    rw [h.pc] at hx
    have := i.sx x hx
    by_cases hs : t.signal (.exit x) = true
    · rcases h.signal _ hs with hs | ⟨⟨n, hn⟩, -⟩
      · rw [this] at hs; simp at hs
      · simp at hn
    · simpa using hs
  · intro c tt p hp; rw [h.pc] at hp; exact i.lw c tt p hp
  · intro c tt p hp hc hca x hx
    rw [h.pc] at hp; rw [h.list] at hx
    by_cases hs : c ∈ s.ready
    · refine i.lr c tt p hp hs ?_ x hx
      by_cases hz : (s.cor c).cancel = true
      · rw [h.cancel c hz] at hca; simp at hca
      · simpa using hz
    · obtain ⟨e, t2, p2, hp2, -, hl⟩ := h.woken c hc hs
      rw [hp] at hp2; simp at hp2
      rw [hl hp2.1.symm] at hca; simp at hca
  · intro c hc; rw [h.pc]; exact i.arm c (h.armed c hc)
  · intro c; rw [h.pc, h.id, h.seq]; exact i.ids c
  · intro c d; rw [h.pc, h.id, h.pc, h.id]; exact i.inj c d
  · intro c hc
    rw [h.pause]
    rcases h.recv c hc with hc | hc
    · exact i.rp c hc
    · exact hc
  · rw [h.aborted]; exact i.ab

/-- What `event_signal_local` does. -/
theorem signalAll_spec (l : List Ev) : ∀ (s : St), s.ready.Nodup →
    (signalAll s l).list = s.list ∧ (signalAll s l).free = s.free ∧
    (signalAll s l).next = s.next ∧ (signalAll s l).seq = s.seq ∧
    (signalAll s l).current = s.current ∧ (signalAll s l).waiter = s.waiter ∧
    (signalAll s l).aborted = s.aborted ∧ (signalAll s l).cor = s.cor ∧
    (∃ ex, (signalAll s l).ready = s.ready ++ ex) ∧ (signalAll s l).ready.Nodup ∧
    (∀ c, c ∈ (signalAll s l).ready ↔ c ∈ s.ready ∨ ∃ e ∈ l, s.waiter e = some c) ∧
    (∀ e, (signalAll s l).signal e = true ↔ s.signal e = true ∨ e ∈ l) := by
  induction l with
  | nil => intro s h; simp [signalAll, h]
  | cons e es ih =>
    intro s h
    obtain ⟨a1, a2, a3, a4, a5, a6, a7, a8, ⟨ex, a9⟩, a10, a11, a12⟩ :=
      ih { s with signal := put s.signal e true } h
    simp only [signalAll]
    generalize signalAll { s with signal := put s.signal e true } es = t at *
    dsimp only at *
    rw [a6]
    cases hw : s.waiter e with
    | none =>
      simp only [wake]
      refine ⟨a1, a2, a3, a4, a5, a6, a7, a8, ⟨ex, a9⟩, a10, ?_, ?_⟩
      · intro c; rw [a11]; simp [hw]
      · intro f; rw [a12]; simp [put]; grind
    | some w =>
      simp only [wake, resume]
      by_cases hm : w ∈ t.ready
      · rw [if_pos hm]
        refine ⟨a1, a2, a3, a4, a5, a6, a7, a8, ⟨ex, a9⟩, a10, ?_, ?_⟩
        · intro c; have := a11 w; rw [a11]; simp [hw]; grind
        · intro f; rw [a12]; simp [put]; grind
      · rw [if_neg hm]
        refine ⟨a1, a2, a3, a4, a5, a6, a7, a8, ⟨ex ++ [w], by simp [a9]⟩, ?_, ?_, ?_⟩
        · simp only [List.nodup_append]; simp [a10]; grind
        · intro c; simp only [List.mem_append, a11]; simp [hw]; grind
        · intro f; rw [a12]; simp [put]; grind

/-- To resume a coroutine that waits. -/
theorem soft_signal {s : St} (i : Inv s) {l : List Ev} (h : ∀ e ∈ l, ∃ n, e = .user n) :
    Soft s (signalAll s l) := by
  obtain ⟨a1, a2, a3, a4, a5, a6, a7, a8, a9, a10, a11, a12⟩ := signalAll_spec l s i.nr
  generalize signalAll s l = t at *
  constructor
  · exact a1
  · exact a2
  · exact a3
  · exact a4
  · exact a5
  · exact a6
  · exact a7
  · intro c; rw [a8]
  · intro c; rw [a8]
  · intro c; rw [a8]
  · intro c; rw [a8]; exact fun h => h
  · intro c; rw [a8]; exact .inl
  · intro c; rw [a8]; exact fun h => h
  · intro c; rw [a8]; exact .inl
  · exact a9
  · exact a10
  · intro c hc hn
    rcases (a11 c).1 hc with hc | ⟨e, he, hw⟩
    · exact absurd hc hn
    · obtain ⟨tt, p, hp⟩ := i.w1 e c hw
      obtain ⟨n, rfl⟩ := h e he
      exact ⟨_, tt, p, hp, by simp, by simp⟩
  · intro e he
    rcases (a12 e).1 he with he | he
    · exact .inl he
    · exact .inr ⟨h e he, fun c hc => (a11 c).2 (.inr ⟨e, he, hc⟩)⟩

theorem chain_user {up : Nat → Option Nat} {l : List Ev} (h : Chain up l) :
    ∀ e ∈ l, ∃ n, e = .user n := by
  induction h with
  | top n h => simp
  | step n m l h r ih => intro e he; simp at he; grind

theorem soft_cancel {s : St} (i : Inv s) {c : Nat} (hl : c ∈ s.list)
    (hc : s.current ≠ some c) : Soft s (cancelOf s c) := by
  have hd : (s.cor c).pc ≠ .dead := (i.live c).1 hl
  have hrun := i.run c
  have hjn := i.jn
  have hnr := i.nr
  simp only [cancelOf]
  by_cases hp : (s.cor c).pause > 0
  · rw [if_pos hp]
    constructor <;> first | rfl | skip
    · intro x; simp only [put]; split <;> simp_all
    · intro x; simp only [put]; split <;> simp_all
    · intro x; simp only [put]; split <;> simp_all
    · intro x; simp only [put]; split <;> simp_all
    · intro x; simp only [put]; split <;> simp_all
    · intro x; simp only [put]; split <;> simp_all
    · intro x; simp only [put]; split <;> simp_all
    · exact ⟨[], by simp⟩
    · exact hnr
    · intro x a b; exact absurd a b
    · exact fun e h => .inl h
  · rw [if_neg hp]
    by_cases hm : c ∈ s.ready
    · simp only [resume]; rw [if_pos hm]
      constructor <;> first | rfl | skip
      · intro x; simp only [put]; split <;> simp_all
      · intro x; simp only [put]; split <;> simp_all
      · intro x; simp only [put]; split <;> simp_all
      · intro x; simp only [put]; split <;> simp_all
      · intro x; simp only [put]; split <;> simp_all
      · intro x; simp only [put]; split <;> simp_all
      · intro x; simp only [put]; split <;> simp_all
      · exact ⟨[], by simp⟩
      · exact hnr
      · intro x a b; exact absurd a b
      · exact fun e h => .inl h
    · simp only [resume]; rw [if_neg hm]
      constructor <;> first | rfl | skip
      · intro x; simp only [put]; split <;> simp_all
      · intro x; simp only [put]; split <;> simp_all
      · intro x; simp only [put]; split <;> simp_all
      · intro x; simp only [put]; split <;> simp_all
      · intro x; simp only [put]; split <;> simp_all
      · intro x; simp only [put]; split <;> simp_all
      · intro x; simp only [put]; split <;> simp_all
      · exact ⟨[c], rfl⟩
      · simp only [List.nodup_append]; simp [hnr]; grind
      · intro x hx hn
        simp only [List.mem_append, List.mem_singleton] at hx
        have hxc : x = c := by rcases hx with hx | hx; exact absurd hx hn; exact hx
        subst hxc
        cases hq : (s.cor x).pc with
        | dead => exact absurd hq hd
        | run => exact (by rcases hrun hq with h | h; exact absurd h hm; exact absurd h hc)
        | wait e t p =>
          refine ⟨e, t, p, rfl, ?_, ?_⟩
          · intro y hy; subst hy; exact hp (hjn y x t p hq).2.2.1
          · intro _; simp [put]
      · exact fun e h => .inl h

theorem soft_cancelAll (me : Nat) (l : List Nat) : ∀ (s : St), Inv s → s.current = some me →
    (∀ c ∈ l, c ∈ s.list) → Soft s (cancelAll s me l) := by
  induction l with
  | nil => intro s i _ _; exact Soft.refl s i.nr
  | cons c cs ih =>
    intro s i hc hl
    simp only [cancelAll]
    by_cases h : c = me
    · rw [if_pos h]; exact ih s i hc (fun x hx => hl x (by simp [hx]))
    · rw [if_neg h]
      have h1 : Soft s (cancelOf s c) :=
        soft_cancel i (hl c (by simp)) (by rw [hc]; simpa using fun e => h e.symm)
      exact h1.trans (ih _ (h1.inv i) (by rw [h1.current]; exact hc)
        (fun x hx => by rw [h1.list]; exact hl x (by simp [hx])))

theorem soft_timer {s : St} (i : Inv s) {c : Nat} (ha : (s.cor c).armed = true) :
    Soft s (timerFires s c) := by
  obtain ⟨e, t, p, hp⟩ := i.arm c ha
  have hw := i.w2 e c (some t) p hp
  have hjn := i.jn
  have hlw := i.lw
  have hnr := i.nr
  simp only [timerFires, hp, hw, wake, resume]
  by_cases hm : c ∈ s.ready
  · rw [if_pos hm]
    constructor <;> first | rfl | skip
    · intro x; simp only [put]; split <;> simp_all
    · intro x; simp only [put]; split <;> simp_all
    · intro x; simp only [put]; split <;> simp_all
    · intro x; simp only [put]; split <;> simp_all
    · intro x; simp only [put]; split <;> (intro q; left; simp_all)
    · intro x; simp only [put]; split <;> simp_all
    · intro x; simp only [put]; split <;> (intro q; left; simp_all)
    · exact ⟨[], by simp⟩
    · exact hnr
    · intro x a b; exact absurd a b
    · exact fun e h => .inl h
  · rw [if_neg hm]
    constructor <;> first | rfl | skip
    · intro x; simp only [put]; split <;> simp_all
    · intro x; simp only [put]; split <;> simp_all
    · intro x; simp only [put]; split <;> simp_all
    · intro x; simp only [put]; split <;> simp_all
    · intro x; simp only [put]; split <;> (intro q; left; simp_all)
    · intro x; simp only [put]; split <;> simp_all
    · intro x; simp only [put]; split <;> (intro q; left; simp_all)
    · exact ⟨[c], rfl⟩
    · simp only [List.nodup_append]; simp [hnr]; grind
    · intro x hx hn
      simp only [List.mem_append, List.mem_singleton] at hx
      have hxc : x = c := by rcases hx with hx | hx; exact absurd hx hn; exact hx
      subst hxc
      refine ⟨e, some t, p, hp, ?_, ?_⟩
      · intro y hy; subst hy; have := (hjn y x _ p hp).2.1; simp at this
      · intro hy; subst hy; have := (hlw x _ p hp).2; simp at this
    · exact fun e h => .inl h

theorem inv_initEvent {s : St} (i : Inv s) {n : Nat} (h : s.waiter (.user n) = none) :
    Inv { s with signal := put s.signal (.user n) false,
                 waiter := put s.waiter (.user n) none } := by
  obtain ⟨nl, nf, nr, rl, live, fr, lt, cur, run, w1, w2, sig, can, jn, jr, sx, lw, lr, arm,
    ids, inj, rp, ab⟩ := i
  constructor <;> try assumption
  · intro e c; simp only [put]; grind
  · intro e c t p hp; simp only [put]; grind
  · intro e c t p hp; simp only [put]; grind

theorem inv_waitOn {s : St} (i : Inv s) {c : Nat} (hc : s.current = some c) {e : Ev}
    (hw : s.waiter e = none) {t : Option Nat} {p : Bool}
    (h1 : p = true → (s.cor c).cancel = false)
    (h2 : ∀ x, e = .exit x → p = false ∧ t = none ∧ (s.cor c).pause > 0 ∧ x < s.next)
    (h3 : e = .last → p = false ∧ t = none) :
    Inv (waitOn s c e t p) := by
  have hcr := i.cur c hc
  obtain ⟨nl, nf, nr, rl, live, fr, lt, cur, run, w1, w2, sig, can, jn, jr, sx, lw, lr, arm,
    ids, inj, rp, ab⟩ := i
  simp only [waitOn]
  by_cases hs : s.signal e = true
  · rw [if_pos hs]
    constructor <;> try assumption
    all_goals first | (simp only [put]; grind) | grind
  · rw [if_neg hs]
    constructor
    case w1 =>
      simp only [put]
      intro f x h
      by_cases q : f = e
      · rw [if_pos q] at h; cases h; exact ⟨t, p, by simp [q]⟩
      · rw [if_neg q] at h
        obtain ⟨t', p', hh⟩ := w1 f x h
        have hx : x ≠ c := by grind
        exact ⟨t', p', by rw [if_neg hx]; exact hh⟩
    case arm =>
      simp only [put]
      intro x h
      by_cases q : x = c
      · rw [if_pos q] at h
        obtain ⟨k, hk⟩ := Option.isSome_iff_exists.1 h
        exact ⟨e, k, p, by rw [if_pos q, ← hk]⟩
      · rw [if_neg q] at h ⊢; exact arm x h
    all_goals first | assumption | (simp only [put]; grind) | grind

theorem inv_runNext {s : St} (i : Inv s) (hc : s.current = none) : Inv (runNext s) := by
  simp only [runNext]
  cases hr : s.ready with
  | nil => exact i
  | cons c r =>
    obtain ⟨nl, nf, nr, rl, live, fr, lt, cur, run, w1, w2, sig, can, jn, jr, sx, lw, lr, arm,
      ids, inj, rp, ab⟩ := i
    have hd := rl c (by rw [hr]; simp)
    rw [hr] at nr
    have hnr := List.nodup_cons.1 nr
    simp only [back]
    cases hp : (s.cor c).pc with
    | dead => exact absurd hp hd
    | run =>
      constructor <;> (try assumption)
      all_goals first | exact hnr.2 | grind
    | wait e t p =>
      constructor <;> (try assumption)
      all_goals first | exact hnr.2 | (simp only [put]; grind) | grind

theorem inv_pause {s : St} (i : Inv s) {c : Nat} :
    Inv { s with cor := put s.cor c { s.cor c with pause := (s.cor c).pause + 1 } } := by
  obtain ⟨nl, nf, nr, rl, live, fr, lt, cur, run, w1, w2, sig, can, jn, jr, sx, lw, lr, arm,
    ids, inj, rp, ab⟩ := i
  constructor <;> (try assumption) <;> simp only [put] <;> grind

theorem inv_unpause {s : St} (i : Inv s) {c : Nat} (hc : s.current = some c)
    (hp : (s.cor c).pause > 0) : Inv (cancelResume s c) := by
  have hcr := i.cur c hc
  obtain ⟨nl, nf, nr, rl, live, fr, lt, cur, run, w1, w2, sig, can, jn, jr, sx, lw, lr, arm,
    ids, inj, rp, ab⟩ := i
  simp only [cancelResume]
  split
  · constructor <;> (try assumption) <;> simp only [put] <;> grind
  · constructor <;> (try assumption) <;> simp only [put] <;> grind

theorem inv_create {s : St} (i : Inv s) (h : s.current ≠ none ∨ s.list = [])
    (hg : ∀ c ∈ s.free.head?, s.waiter (.exit c) = none) : Inv (create s) := by
  obtain ⟨nl, nf, nr, rl, live, fr, lt, cur, run, w1, w2, sig, can, jn, jr, sx, lw, lr, arm,
    ids, inj, rp, ab⟩ := i
  cases hf : s.free with
  | nil =>
    have hd : (s.cor s.next).pc = .dead := by
      by_cases q : (s.cor s.next).pc = .dead
      · exact q
      · have := lt _ q; omega
    have hw : s.waiter (.exit s.next) = none := by
      cases q : s.waiter (.exit s.next) with
      | none => rfl
      | some c =>
        obtain ⟨t, p, hp⟩ := w1 _ _ q
        have := (jn _ _ _ _ hp).2.2.2
        omega
    have hl : s.next ∉ s.list := by rw [live]; simp [hd]
    have hr : s.next ∉ s.ready := fun q => rl _ q hd
    simp only [create, hf]
    generalize s.next = n at *
    constructor
    case nl => simp only [List.nodup_append]; simp [nl]; grind
    case nf => simp
    case nr => simp only [List.nodup_append]; simp [nr]; grind
    case lr =>
      simp only [put, Cor.zero]
      intro c t p hp hc hca x hx
      by_cases q : c = n
      · rw [if_pos q] at hp; simp at hp
      · rw [if_neg q] at hp hca
        exfalso
        have hcr : c ∈ s.ready := by simpa [q] using hc
        have hcl : c ∈ s.list := by rw [live]; simp [hp]
        rcases h with h | h
        · obtain ⟨y, hy⟩ := Option.ne_none_iff_exists'.1 h
          have hyr := (cur y hy).1
          have hyl : y ∈ s.list := by rw [live]; simp [hyr]
          have := lr c t p hp hcr hca y hyl
          rw [this, hp] at hyr; simp at hyr
        · rw [h] at hcl; simp at hcl
    case fr => simp only [put, Cor.zero]; grind
    all_goals first | assumption | (simp only [put, Cor.zero]; grind) | grind
  | cons n r =>
    have hd : (s.cor n).pc = .dead := ((fr n).1 (by rw [hf]; simp)).2
    have hn : n < s.next := ((fr n).1 (by rw [hf]; simp)).1
    have hw : s.waiter (.exit n) = none := hg n (by rw [hf]; simp)
    have hl : n ∉ s.list := by rw [live]; simp [hd]
    have hr : n ∉ s.ready := fun q => rl _ q hd
    rw [hf] at nf
    have hnf := List.nodup_cons.1 nf
    simp only [create, hf]
    constructor
    case nl => simp only [List.nodup_append]; simp [nl]; grind
    case nf => exact hnf.2
    case nr => simp only [List.nodup_append]; simp [nr]; grind
    case lr =>
      simp only [put, Cor.zero]
      intro c t p hp hc hca x hx
      by_cases q : c = n
      · rw [if_pos q] at hp; simp at hp
      · rw [if_neg q] at hp hca
        exfalso
        have hcr : c ∈ s.ready := by simpa [q] using hc
        have hcl : c ∈ s.list := by rw [live]; simp [hp]
        rcases h with h | h
        · obtain ⟨y, hy⟩ := Option.ne_none_iff_exists'.1 h
          have hyr := (cur y hy).1
          have hyl : y ∈ s.list := by rw [live]; simp [hyr]
          have := lr c t p hp hcr hca y hyl
          rw [this, hp] at hyr; simp at hyr
        · rw [h] at hcl; simp at hcl
    case fr => simp only [put, Cor.zero]; simp; grind
    all_goals first | assumption | (simp only [put, Cor.zero]; grind) | grind

/-- The end of a coroutine, before the manager is signalled. -/
def exitMid (s : St) (me : Nat) : St :=
  let s1 := signalAll s [.exit me]
  { s1 with
    list := s1.list.erase me
    free := s1.free ++ [me]
    cor  := put s1.cor me { s1.cor me with pc := .dead }
    current := none }

theorem signal_last_current (z : St) :
    { signalAll z [.last] with current := none } =
      signalAll { z with current := none } [.last] := by
  cases hw : z.waiter .last with
  | none => simp only [signalAll, wake, hw]
  | some c =>
    by_cases hm : c ∈ z.ready
    · simp [signalAll, wake, resume, hw, hm]
    · simp [signalAll, wake, resume, hw, hm]

theorem exit_eq (s : St) (me : Nat) :
    exit s me = if (exitMid s me).list.length = 1 then signalAll (exitMid s me) [.last]
      else exitMid s me := by
  by_cases h : ((signalAll s [.exit me]).list.erase me).length = 1
  · have h2 : (exitMid s me).list.length = 1 := h
    rw [if_pos h2]
    simp only [exit, if_pos h]
    exact signal_last_current _
  · have h2 : ¬ (exitMid s me).list.length = 1 := h
    rw [if_neg h2]
    simp only [exit, if_neg h]
    rfl

theorem inv_exitMid {s : St} (i : Inv s) {c : Nat} (hc : s.current = some c) :
    Inv (exitMid s c) := by
  have hcr := i.cur c hc
  obtain ⟨a1, a2, a3, a4, a5, a6, a7, a8, ⟨ex, a9⟩, a10, a11, a12⟩ :=
    signalAll_spec [.exit c] s i.nr
  simp only [exitMid]
  generalize signalAll s [.exit c] = t at *
  obtain ⟨nl, nf, nr, rl, live, fr, lt, cur, run, w1, w2, sig, can, jn, jr, sx, lw, lr, arm,
    ids, inj, rp, ab⟩ := i
  simp only [List.mem_singleton, exists_eq_left] at a11
  simp only [List.mem_singleton] at a12
  have hcl : c ∈ s.list := by rw [live]; simp [hcr.1]
  have hcf : c ∉ s.free := by rw [fr]; simp [hcr.1]
  have a13 : ∀ e, t.signal e = true → s.signal e = true ∨ e = .exit c := fun e => (a12 e).1
  have me : ∀ x, x ∈ s.list.erase c ↔ x ≠ c ∧ x ∈ s.list := fun x => nl.mem_erase_iff
  rw [a1, a2, a3, a4, a6, a7, a8]
  constructor
  case nl => exact nl.erase c
  case nf => simp only [List.nodup_append]; simp [nf]; grind
  case nr => exact a10
  case live => simp only [put]; grind
  case fr => simp only [put, List.mem_append, List.mem_singleton]; grind
  case lr =>
    simp only [put]
    intro x t' p' hp hx hca y hy
    rw [me] at hy
    by_cases q : x = c
    · rw [if_pos q] at hp; simp at hp
    · rw [if_neg q] at hp hca
      rcases (a11 x).1 hx with hx | hx
      · exact lr x t' p' hp hx hca y hy.2
      · obtain ⟨t2, p2, h2⟩ := w1 _ _ hx
        rw [hp] at h2; simp at h2
  case w1 =>
    simp only [put]
    intro e x hx
    obtain ⟨t2, p2, h2⟩ := w1 _ _ hx
    have : x ≠ c := by grind
    exact ⟨t2, p2, by rw [if_neg this]; exact h2⟩
  case sx =>
    simp only [put]
    intro x hx
    by_cases q : x = c
    · rw [if_pos q] at hx; simp at hx
    · rw [if_neg q] at hx
      have h0 := sx x hx
      cases hq : t.signal (.exit x) with
      | false => rfl
      | true => rcases a13 _ hq with h | h
                · rw [h0] at h; simp at h
                · simp at h; exact absurd h q
  all_goals first | assumption | (simp only [put]; grind) | grind

theorem inv_last {s : St} (i : Inv s) (h : s.list.length = 1) : Inv (signalAll s [.last]) := by
  obtain ⟨a1, a2, a3, a4, a5, a6, a7, a8, ⟨ex, a9⟩, a10, a11, a12⟩ :=
    signalAll_spec [.last] s i.nr
  generalize signalAll s [.last] = t at *
  obtain ⟨nl, nf, nr, rl, live, fr, lt, cur, run, w1, w2, sig, can, jn, jr, sx, lw, lr, arm,
    ids, inj, rp, ab⟩ := i
  simp only [List.mem_singleton, exists_eq_left] at a11
  simp only [List.mem_singleton] at a12
  have sub : ∀ x, x ∈ s.ready → x ∈ t.ready := fun x hx => (a11 x).2 (.inl hx)
  constructor
  case nl => rw [a1]; exact nl
  case nf => rw [a2]; exact nf
  case nr => exact a10
  case lr =>
    rw [a1, a8]
    intro x t' p' hp hx hca y hy
    rcases (a11 x).1 hx with hx | hx
    · exact lr x t' p' hp hx hca y hy
    · have hxl : x ∈ s.list := by rw [live]; simp [hp]
      match hl : s.list, h with
      | [z], _ => rw [hl] at hxl hy; simp at hxl hy; rw [hxl, hy]
  case sx =>
    rw [a8]
    intro x hx
    have h0 := sx x hx
    cases hq : t.signal (.exit x) with
    | false => rfl
    | true => rcases (a12 _).1 hq with h | h
              · rw [h0] at h; simp at h
              · simp at h
  case jr =>
    rw [a8]
    intro x y t' p' hp hy
    rcases (a11 y).1 hy with hy | hy
    · exact jr x y t' p' hp hy
    · obtain ⟨t2, p2, h2⟩ := w1 _ _ hy
      rw [hp] at h2; simp at h2
  all_goals first | assumption | (simp only [a1, a2, a3, a4, a5, a6, a7, a8]; first | assumption | grind)

theorem find_mem {s : St} {id c : Nat} (h : find s id = some c) :
    c ∈ s.list ∧ (s.cor c).id = id := by
  have h1 := List.mem_of_find?_eq_some h
  have h2 := List.find?_some h
  exact ⟨h1, by simpa using h2⟩

/-- Every step keeps the invariant. -/
theorem inv_step {up : Nat → Option Nat} {s t : St} {a : Act} (i : Inv s) (g : Good s a)
    (h : Step up s a t) : Inv t := by
  cases h with
  | run h r => exact inv_runNext i h
  | signal l h => exact (soft_signal i (chain_user h)).inv i
  | timer c h a => exact (soft_timer i a).inv i
  | init n => exact inv_initEvent i g
  | create h => exact inv_create i h g
  | wait c n tm h =>
    simp only [eventWait]
    by_cases hc : (s.cor c).cancel = true
    · rw [if_pos hc]; exact i
    · rw [if_neg hc]
      exact inv_waitOn i h g (fun _ => by simpa using hc) (by simp) (by simp)
  | raw c n h => exact inv_waitOn i h g (by simp) (by simp) (by simp)
  | join c id h =>
    simp only [join]
    cases hf : find s id with
    | none => exact i
    | some d =>
      have hg := g d hf
      have hd := (i.live d).1 (find_mem hf).1
      exact inv_waitOn (inv_pause i) h hg.2 (by simp)
        (fun x hx => by simp at hx; subst hx; exact ⟨rfl, rfl, by simp [put], i.lt d hd⟩) (by simp)
  | kill c id h =>
    simp only [kill]
    cases hf : find s id with
    | none => exact i
    | some d => exact (soft_cancel i (find_mem hf).1 (g d hf)).inv i
  | pause c h => exact inv_pause i
  | unpause c h => exact inv_unpause i h (g c h)
  | shutdown c h =>
    simp only [shutdown]
    split
    · exact i
    · have hs := soft_cancelAll c s.list s i h (fun _ h => h)
      exact inv_waitOn (hs.inv i) (by rw [hs.current]; exact h) (by rw [hs.waiter]; exact g)
        (by simp) (by simp) (by simp)
  | exit c h =>
    rw [exit_eq]
    split
    · rename_i hl; exact inv_last (inv_exitMid i h) hl
    · exact inv_exitMid i h

theorem inv_run {up : Nat → Option Nat} {s t : St} {as : List Act} (i : Inv s)
    (h : GoodRun up s as t) : Inv t := by
  induction h with
  | nil s => exact i
  | cons s t u a as g h r ih => exact ih (inv_step i g h)

theorem inv_reach {up : Nat → Option Nat} {s : St} (h : Reach up s) : Inv s := by
  obtain ⟨as, h⟩ := h
  exact inv_run inv_init h

end Verif.Coro
