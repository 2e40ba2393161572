import Verif.ServiceLock.Proofs
/-!
# C105: service jobs on the same partition exclude each other

The theorems range over every reachable state: any number of jobs, any numbers of
partitions, any order of the steps, and any use of the other locks of the server.
-/
set_option autoImplicit false

namespace Verif.ServiceLock
open Verif.Lock (LockRec Mode Op Sys)

/-- Job `j` works on partition `id`: its `service_lock` has returned and it has not given the lock
back. -/
def Works (s : St) (j id : Nat) : Prop := ∃ r lk, s.job j = .holds id r lk

/-- The lock number `lk` is granted. -/
def Granted (s : St) (lk : Nat) : Prop := ∃ l ∈ s.sys.locks, l.id = lk ∧ l.waiting = false

/-- Job `j` has asked for partition `id` with the lock number `lk`, and still waits. -/
def Waits (s : St) (j id lk : Nat) : Prop :=
  (∃ r, s.job j = .asked id r lk) ∧ ¬ Granted s lk

/-- Job `j` has been given partition `id` by the lock number `lk`. -/
def Has (s : St) (j id lk : Nat) : Prop :=
  (∃ r, s.job j = .asked id r lk ∨ s.job j = .holds id r lk) ∧ Granted s lk

/-- The lock of a job that has or waits, with its record. -/
theorem the_lock {s : St} {users : Nat → List Nat} (i : Inv s users) {j id r lk : Nat}
    (h : s.job j = .asked id r lk ∨ s.job j = .holds id r lk) :
    r ∈ s.list ∧ (s.rel r).id = id ∧ ∃ l ∈ s.sys.locks, l.id = lk ∧ l.owner = some j ∧
      l.rel = svc r ∧ l.mode = .exclusive := by
  have u : (s.job j).uses = some (id, r) := by rcases h with h | h <;> simp [h, Job.uses]
  obtain ⟨m1, m2⟩ := i.mem j id r u
  obtain ⟨l, h1, h2, h3, h4, h5, -⟩ := i.rcd j id r lk h
  exact ⟨m1, m2, l, h1, h2, h3, h4, h5⟩

/-- A job that has a partition has it alone. -/
theorem C105_has_alone_partial {s : St} (h : Reach s) {j j' id lk lk' : Nat}
    (a : Has s j id lk) (b : Has s j' id lk') : j = j' := by
  obtain ⟨users, i⟩ := inv_reach h
  obtain ⟨⟨r, a1⟩, x, x1, x2, x3⟩ := a
  obtain ⟨⟨q, b1⟩, y, y1, y2, y3⟩ := b
  obtain ⟨m1, m2, l, l1, l2, l3, l4, l5⟩ := the_lock i a1
  obtain ⟨n1, n2, k, k1, k2, k3, k4, k5⟩ := the_lock i b1
  have e : r = q := i.ids r m1 q n1 (m2.trans n2.symm)
  subst e
  have ex : x = l := Lock.id_inj i.lock x1 l1 (x2.trans l2.symm)
  have ey : y = k := Lock.id_inj i.lock y1 k1 (y2.trans k2.symm)
  subst ex ey
  by_cases c : x.id = y.id
  · have := Lock.id_inj i.lock x1 y1 c
    subst this
    rw [l3] at k3
    exact Option.some.inj k3
  · have := i.lock.compat x x1 y y1 c (l4.trans k4.symm) x3 y3
    rw [l5, k5] at this
    simp [Lock.conflict] at this

/-- Two jobs never work on the same partition at the same time. -/
theorem C105_alone_partial {s : St} (h : Reach s) {j j' id : Nat}
    (a : Works s j id) (b : Works s j' id) : j = j' := by
  obtain ⟨users, i⟩ := inv_reach h
  have g : ∀ k, Works s k id → ∃ lk, Has s k id lk := by
    intro k ⟨r, lk, w⟩
    obtain ⟨l, h1, h2, -, -, -, -, h6⟩ := i.rcd k id r lk (Or.inr w)
    exact ⟨lk, ⟨r, Or.inr w⟩, l, h1, h2, h6 w⟩
  obtain ⟨_, a⟩ := g j a
  obtain ⟨_, b⟩ := g j' b
  exact C105_has_alone_partial h a b

theorem first_waiting {s : Sys} (i : Lock.Inv s) (n : Nat) : ∀ w ∈ s.locks, w.waiting = true → w.id ≤ n →
    ∃ v ∈ s.locks, v.rel = w.rel ∧ v.waiting = true ∧ v.id ≤ w.id ∧
      ∀ a, Lock.Ahead s v a → a.waiting = false := by
  induction n with
  | zero =>
    intro w hw ww hn
    refine ⟨w, hw, rfl, ww, Nat.le_refl _, ?_⟩
    intro a ha
    have := ha.2.2
    omega
  | succ n ih =>
    intro w hw ww hn
    by_cases c : ∃ a, Lock.Ahead s w a ∧ a.waiting = true
    · obtain ⟨a, ⟨h1, h2, h3⟩, h4⟩ := c
      obtain ⟨v, v1, v2, v3, v4, v5⟩ := ih a h1 h4 (by omega)
      exact ⟨v, v1, v2.trans h2, v3, by omega, v5⟩
    · refine ⟨w, hw, rfl, ww, Nat.le_refl _, ?_⟩
      intro a ha
      cases e : a.waiting
      · rfl
      · exact absurd ⟨a, ha, e⟩ c

/-- A job waits only for another job that has the same partition and asked for it earlier. -/
theorem C105_waits_partial {s : St} (h : Reach s) {j id lk : Nat} (a : Waits s j id lk) :
    ∃ k lk', k ≠ j ∧ lk' < lk ∧ Has s k id lk' := by
  obtain ⟨users, i⟩ := inv_reach h
  obtain ⟨⟨r, a1⟩, a2⟩ := a
  obtain ⟨m1, m2, l, l1, l2, l3, l4, l5⟩ := the_lock i (Or.inl a1)
  have lw : l.waiting = true := by
    cases e : l.waiting
    · exact absurd ⟨l, l1, l2, e⟩ a2
    · rfl
  obtain ⟨v, v1, v2, v3, v4, v5⟩ := first_waiting i.lock l.id l l1 lw (Nat.le_refl _)
  obtain ⟨b, ⟨b1, b2, b3⟩, b4, -⟩ := Lock.first_blocked i.lock i.blk v1 v3 v5
  have br : b.rel = svc r := b2.trans (v2.trans l4)
  obtain ⟨k, id', q, k1, k2⟩ := i.own b b1 (by rw [br]; simp [svc])
  have e : q = r := by rw [br] at k1; simp only [svc] at k1; omega
  subst e
  obtain ⟨-, n2, -⟩ := the_lock i k2
  have e : id' = id := n2.symm.trans m2
  subst e
  refine ⟨k, b.id, ?_, by omega, ⟨q, k2⟩, b, b1, rfl, b4⟩
  intro e
  subst e
  rw [a1] at k2
  simp at k2
  omega

/-- The partition is given in the order in which the jobs asked for it. -/
theorem C105_in_order_partial {s : St} (h : Reach s) {j k id lk lk' : Nat}
    (a : Waits s j id lk) (b : Has s k id lk') : lk' < lk := by
  obtain ⟨k', l, -, h2, h3⟩ := C105_waits_partial h a
  have e := C105_has_alone_partial h b h3
  subst e
  obtain ⟨⟨r, b1⟩, -⟩ := b
  obtain ⟨⟨q, c1⟩, -⟩ := h3
  have : lk' = l := by
    rcases b1 with b1 | b1 <;> rcases c1 with c1 | c1 <;> rw [b1] at c1 <;> simp at c1 <;> exact c1.2
  omega

/-- A job that asks for a partition on which no other job has or waits for a lock gets it
at once, whatever the jobs on other partitions do.  (`ok`: the job does not at the same time
wait for another lock of the server.) -/
theorem C105_free_partial {s : St} (h : Reach s) {j id r : Nat} (a : s.job j = .ref id r)
    (ok : ∀ l ∈ s.sys.locks, l.owner = some j → l.waiting = false)
    (free : ∀ k r lk, s.job k ≠ .asked id r lk ∧ s.job k ≠ .holds id r lk) :
    let t := { s with
        sys := s.sys.lock j (svc r) .exclusive
        job := put s.job j (.asked id r (lockId s.sys j (svc r) .exclusive)) }
    Step s t ∧ Has t j id (lockId s.sys j (svc r) .exclusive) := by
  obtain ⟨users, i⟩ := inv_reach h
  obtain ⟨m1, m2⟩ := i.mem j id r (by simp [a, Job.uses])
  have none : ∀ l ∈ s.sys.locks, l.rel ≠ svc r := by
    intro l hl e
    obtain ⟨k, id', q, k1, k2⟩ := i.own l hl (by rw [e]; simp [svc])
    have e2 : q = r := by rw [e] at k1; simp only [svc] at k1; omega
    subst e2
    obtain ⟨-, n2, -⟩ := the_lock i k2
    have e3 : id' = id := n2.symm.trans m2
    subst e3
    rcases k2 with k2 | k2
    · exact (free k q l.id).1 k2
    · exact (free k q l.id).2 k2
  have st : Step s { s with
        sys := s.sys.lock j (svc r) .exclusive
        job := put s.job j (.asked id r (lockId s.sys j (svc r) .exclusive)) } := .ask s j id r a ok
  refine ⟨st, ⟨r, Or.inl (by simp [put])⟩, ?_⟩
  obtain ⟨users', i'⟩ := inv_reach (.step _ _ h st)
  obtain ⟨l, h1, h2, h3, h4, h5, -⟩ := i'.rcd j id r (lockId s.sys j (svc r) .exclusive)
    (Or.inl (by simp [put]))
  refine ⟨l, h1, h2, ?_⟩
  have f : (s.sys.locks.find? fun l => l.owner = some j && l.rel = svc r && l.mode = .exclusive) = Option.none := by
    rw [List.find?_eq_none]
    intro x hx hp
    simp at hp
    exact none x hx hp.1.2
  have lq : s.sys.lock j (svc r) .exclusive = s.sys.lockOf (some j) (svc r) .exclusive := by
    simp only [Lock.Sys.lock, f]
  dsimp only at h1
  rw [lq, lockOf_spec] at h1
  simp only [List.mem_append, List.mem_singleton] at h1
  rcases h1 with h1 | h1
  · exact absurd h4 (none l h1)
  · rw [h1]
    have w : s.sys.wait (svc r) = [] := by
      rw [i.lock.wait, List.map_eq_nil_iff, List.filter_eq_nil_iff]
      intro x hx hp
      simp [Lock.onWait] at hp
      exact none x hx hp.1
    have rs : Lock.resolve (s.sys.set (svc r)) .exclusive = true := by
      rw [Lock.resolve_iff i.lock]
      intro x hx hp
      exact absurd hp (none x hx)
    simp [w, rs]

/-- Whenever a job has a lock of the lock manager, the relation it is on is in use by it
alone or with other jobs of the same number, and is not on the free list. -/
theorem C105_memory_partial {s : St} (h : Reach s) {j id r : Nat}
    (a : (s.job j).uses = some (id, r)) :
    (s.rel r).id = id ∧ 0 < (s.rel r).refs ∧ r ∈ s.list ∧ r ∉ s.free ∧
      ∀ k id' q, (s.job k).uses = some (id', q) → (q = r ↔ id' = id) := by
  obtain ⟨users, i⟩ := inv_reach h
  obtain ⟨m1, m2⟩ := i.mem j id r a
  refine ⟨m2, ?_, m1, i.dj r m1, ?_⟩
  · rw [i.refs r (i.ll r m1)]
    exact List.length_pos_iff.2 (i.pos r m1)
  · intro k id' q b
    obtain ⟨n1, n2⟩ := i.mem k id' q b
    constructor
    · intro e; subst e; exact n2.symm.trans m2
    · intro e; subst e; exact i.ids q n1 r m1 (n2.trans m2.symm)

/-- When all jobs are done, no relation is listed, each one ever made is on the free list once,
and the lock manager has no lock of a job. -/
theorem C105_clean_partial {s : St} (h : Reach s) (idle : ∀ j, s.job j = .idle) :
    s.list = [] ∧ s.free.Nodup ∧ (∀ r, r < s.next ↔ r ∈ s.free) ∧
      ∀ l ∈ s.sys.locks, l.rel % 2 = 1 := by
  obtain ⟨users, i⟩ := inv_reach h
  have nl : s.list = [] := by
    cases e : s.list with
    | nil => rfl
    | cons r t =>
      have p := i.pos r (by simp [e])
      cases u : users r with
      | nil => exact absurd u p
      | cons j t =>
        obtain ⟨id, h⟩ := (i.uses r j).1 (by simp [u])
        simp [idle, Job.uses] at h
  refine ⟨nl, i.nf, ?_, ?_⟩
  · intro r
    constructor
    · intro c; rcases i.all r c with h | h
      · simp [nl] at h
      · exact h
    · exact i.lf r
  · intro l hl
    rcases Nat.mod_two_eq_zero_or_one l.rel with e | e
    · obtain ⟨j, id, r, -, h⟩ := i.own l hl e
      simp [idle] at h
    · exact e

/-! ## The hypotheses are met: jobs 1 and 2 ask for partition 7, job 3 for partition 8 -/

def run1 : St := create St.init 1 7
def run2 : St := create run1 2 7
def run3 : St := create run2 3 8
def askOf (s : St) (j id r : Nat) : St :=
  { s with sys := s.sys.lock j (svc r) .exclusive
           job := put s.job j (.asked id r (lockId s.sys j (svc r) .exclusive)) }
def run4 : St := askOf run3 1 7 0
def run5 : St := askOf run4 2 7 0
def run6 : St := askOf run5 3 8 1
def run7 : St := { run6 with job := put run6.job 1 (.holds 7 0 0) }
def run8 : St := { run7 with job := put run7.job 3 (.holds 8 1 2) }

theorem reach8 : Reach run8 := by
  have r1 : Reach run1 := .step _ _ .init (.create _ 1 7 (by decide +kernel))
  have r2 : Reach run2 := .step _ _ r1 (.create _ 2 7 (by decide +kernel))
  have r3 : Reach run3 := .step _ _ r2 (.create _ 3 8 (by decide +kernel))
  have r4 : Reach run4 := .step _ _ r3 (.ask _ 1 7 0 (by decide +kernel) (by
    show ∀ l ∈ run3.sys.locks, _; decide +kernel))
  have r5 : Reach run5 := .step _ _ r4 (.ask _ 2 7 0 (by decide +kernel) (by
    show ∀ l ∈ run4.sys.locks, _; decide +kernel))
  have r6 : Reach run6 := .step _ _ r5 (.ask _ 3 8 1 (by decide +kernel) (by
    show ∀ l ∈ run5.sys.locks, _; decide +kernel))
  have r7 : Reach run7 := .step _ _ r6 (.granted _ 1 7 0 0 (by decide +kernel) (by decide +kernel))
  exact .step _ _ r7 (.granted _ 3 8 1 2 (by decide +kernel) (by decide +kernel))

/-- Jobs 1 and 3 work at the same time, on two partitions; job 2 waits for job 1. -/
theorem C105_sample : Reach run8 ∧ Works run8 1 7 ∧ Works run8 3 8 ∧ Waits run8 2 7 1 ∧
    Has run8 1 7 0 :=
  ⟨reach8, ⟨0, 0, by decide +kernel⟩, ⟨1, 2, by decide +kernel⟩,
    ⟨⟨0, by decide +kernel⟩, by unfold Granted; decide +kernel⟩,
    ⟨0, by decide +kernel⟩, by unfold Granted; decide +kernel⟩

/-- With the end of job 1 its lock goes to job 2; when all are done the two relations are free. -/
def run9 : St := { run8 with sys := run8.sys.unlock 0, job := put run8.job 1 (.unlocked 7 0) }

theorem C105_sample_next : Reach run9 ∧ Has run9 2 7 1 ∧ ¬ Works run9 1 7 :=
  ⟨.step _ _ reach8 (.unlock _ 1 7 0 0 (by decide +kernel)),
    ⟨⟨0, by decide +kernel⟩, by unfold Granted; decide +kernel⟩,
    fun ⟨r, lk, h⟩ => by
      have : run9.job 1 = .unlocked 7 0 := by decide +kernel
      rw [this] at h; simp at h⟩

end Verif.ServiceLock
