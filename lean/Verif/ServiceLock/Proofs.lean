import Verif.ServiceLock.Model
/-!
# Service locks: the invariant
-/
set_option autoImplicit false
set_option linter.unusedVariables false
set_option linter.unusedSimpArgs false

namespace Verif.ServiceLock
open Verif.Lock (LockRec Mode Op Sys)

/-- The same lock later. -/
def Same (l l' : LockRec) : Prop :=
  l'.id = l.id ∧ l'.owner = l.owner ∧ l'.rel = l.rel ∧ l'.mode = l.mode ∧ l'.refs = l.refs ∧
  (l.waiting = false → l'.waiting = false)

theorem Same.refl (l : LockRec) : Same l l := ⟨rfl, rfl, rfl, rfl, rfl, id⟩

theorem Same.trans {a b c : LockRec} (h : Same a b) (k : Same b c) : Same a c := by
  obtain ⟨h1, h2, h3, h4, h5, h6⟩ := h
  obtain ⟨k1, k2, k3, k4, k5, k6⟩ := k
  exact ⟨k1.trans h1, k2.trans h2, k3.trans h3, k4.trans h4, k5.trans h5, fun q => k6 (h6 q)⟩

/-- The locks with a property stay as they are, and no new ones with it come. -/
structure Keeps (P : LockRec → Prop) (s s' : Sys) : Prop where
  fwd : ∀ l ∈ s.locks, P l → ∃ l' ∈ s'.locks, Same l l'
  bwd : ∀ l' ∈ s'.locks, P l' → ∃ l ∈ s.locks, Same l l'

theorem keeps_wake (r n : Nat) : ∀ s : Sys, Keeps (fun _ => True) s (s.wake r n) := by
  induction n with
  | zero => intro s; exact ⟨fun l h _ => ⟨l, h, .refl l⟩, fun l h _ => ⟨l, h, .refl l⟩⟩
  | succ n ih =>
    intro s
    rw [Lock.Sys.wake]
    split
    · exact ⟨fun l h _ => ⟨l, h, .refl l⟩, fun l h _ => ⟨l, h, .refl l⟩⟩
    · rename_i id m rest hq
      split
      · have k := ih (s.grant r id m rest)
        have g : ∀ l : LockRec, Same l (if l.id = id then { l with waiting := false } else l) := by
          intro l; split
          · exact ⟨rfl, rfl, rfl, rfl, rfl, fun _ => rfl⟩
          · exact .refl l
        constructor
        · intro l hl _
          obtain ⟨l', h1, h2⟩ := k.fwd _ (List.mem_map.2 ⟨l, hl, rfl⟩) trivial
          exact ⟨l', h1, (g l).trans h2⟩
        · intro l' hl _
          obtain ⟨x, h1, h2⟩ := k.bwd l' hl trivial
          obtain ⟨l, h3, h4⟩ := List.mem_map.1 h1
          subst h4
          exact ⟨l, h3, (g l).trans h2⟩
      · exact ⟨fun l h _ => ⟨l, h, .refl l⟩, fun l h _ => ⟨l, h, .refl l⟩⟩

theorem keeps_release (s : Sys) (l : LockRec) : Keeps (fun x => x.id ≠ l.id) s (s.release l) ∧
    ∀ x ∈ (s.release l).locks, x.id ≠ l.id := by
  unfold Lock.Sys.release
  have k := keeps_wake l.rel (({ s with
    set := Lock.bump s.set l.rel l.mode (-1)
    locks := s.locks.filter fun x => x.id ≠ l.id } : Sys).wait l.rel).length
    { s with
      set := Lock.bump s.set l.rel l.mode (-1)
      locks := s.locks.filter fun x => x.id ≠ l.id }
  refine ⟨⟨?_, ?_⟩, ?_⟩
  · intro x hx hp
    exact k.fwd x (List.mem_filter.2 ⟨hx, by simpa using hp⟩) trivial
  · intro x hx hp
    obtain ⟨y, hy, h⟩ := k.bwd x hx trivial
    exact ⟨y, (List.mem_filter.1 hy).1, h⟩
  · intro x hx
    obtain ⟨y, hy, h⟩ := k.bwd x hx trivial
    have := (List.mem_filter.1 hy).2
    rw [h.1]; simpa using this

theorem lockOf_spec (s : Sys) (o : Option Nat) (r : Nat) (m : Mode) :
    (s.lockOf o r m).locks = s.locks ++ [⟨s.next, o, r, m, if o.isSome then 1 else 0,
      !(decide ((s.wait r).length = 0) && Lock.resolve (s.set r) m)⟩] := by
  unfold Lock.Sys.lockOf
  simp only
  split <;> rfl

/-- What the rest of the server does keeps the locks of this manager. -/
theorem keeps_other {s : Sys} (hi : Lock.Inv s) {op : Op} (ok : s.ok op) (h : Other s op) :
    Keeps (fun l => l.rel % 2 = 0) s (s.step op) := by
  have lk : ∀ o r m, r % 2 = 1 → Keeps (fun l => l.rel % 2 = 0) s (s.lockOf o r m) := by
    intro o r m hr
    have e := lockOf_spec s o r m
    constructor
    · intro l hl _; exact ⟨l, by rw [e]; simp [hl], .refl l⟩
    · intro l hl hp
      rw [e] at hl
      simp only [List.mem_append, List.mem_singleton] at hl
      rcases hl with hl | hl
      · exact ⟨l, hl, .refl l⟩
      · rw [hl] at hp; dsimp only at hp; omega
  cases op with
  | lock c r m =>
    have hr : r % 2 = 1 := h
    simp only [Lock.Sys.step, Lock.Sys.lock]
    cases hf : s.locks.find? (fun l => l.owner = some c && l.rel = r && l.mode = m) with
    | none => exact lk _ _ _ hr
    | some l0 =>
      have h0 := List.mem_of_find?_eq_some hf
      have h1 := List.find?_some hf
      simp at h1
      have ne : ∀ x ∈ s.locks, x.rel % 2 = 0 → x.id ≠ l0.id := by
        intro x hx hp e
        have := Lock.id_inj hi hx h0 e
        subst this
        omega
      constructor
      · intro x hx hp
        exact ⟨x, List.mem_map.2 ⟨x, hx, by rw [if_neg (ne x hx hp)]⟩, .refl x⟩
      · intro x hx hp
        obtain ⟨y, hy, e⟩ := List.mem_map.1 hx
        have hy2 : y.rel % 2 = 0 := by
          rw [← e] at hp
          split at hp <;> exact hp
        rw [if_neg (ne y hy hy2)] at e
        subst e
        exact ⟨y, hy, .refl y⟩
  | create r m => exact lk _ _ _ h
  | unlock id =>
    obtain ⟨l0, h0, e0, -⟩ := ok
    subst e0
    have hodd : l0.rel % 2 = 1 := h l0 h0 rfl
    have ne : ∀ x ∈ s.locks, x.rel % 2 = 0 → x.id ≠ l0.id := by
      intro x hx hp e
      have := Lock.id_inj hi hx h0 e
      subst this
      omega
    simp only [Lock.Sys.step, Lock.Sys.unlock, Lock.find_id hi h0]
    split
    · constructor
      · intro x hx hp
        exact ⟨x, List.mem_map.2 ⟨x, hx, by rw [if_neg (ne x hx hp)]⟩, .refl x⟩
      · intro x hx hp
        obtain ⟨y, hy, e⟩ := List.mem_map.1 hx
        have hy2 : y.rel % 2 = 0 := by
          rw [← e] at hp
          split at hp <;> exact hp
        rw [if_neg (ne y hy hy2)] at e
        subst e
        exact ⟨y, hy, .refl y⟩
    · have k := (keeps_release s l0).1
      have k2 := (keeps_release s l0).2
      exact ⟨fun x hx hp => k.fwd x hx (ne x hx hp), fun x hx hp => k.bwd x hx (k2 x hx)⟩

/-- What holds in every state. -/
structure Inv (s : St) (users : Nat → List Nat) : Prop where
  lock : Lock.Inv s.sys
  blk  : ∀ r, Lock.Blocked s.sys r
  nl   : s.list.Nodup
  nf   : s.free.Nodup
  ll   : ∀ r ∈ s.list, r < s.next
  lf   : ∀ r ∈ s.free, r < s.next
  dj   : ∀ r ∈ s.list, r ∉ s.free
  all  : ∀ r, r < s.next → r ∈ s.list ∨ r ∈ s.free
  ids  : ∀ r ∈ s.list, ∀ q ∈ s.list, (s.rel r).id = (s.rel q).id → r = q
  un   : ∀ r, (users r).Nodup
  uses : ∀ r j, j ∈ users r ↔ ∃ id, (s.job j).uses = some (id, r)
  refs : ∀ r, r < s.next → (s.rel r).refs = (users r).length
  pos  : ∀ r ∈ s.list, users r ≠ []
  mem  : ∀ j id r, (s.job j).uses = some (id, r) → r ∈ s.list ∧ (s.rel r).id = id
  rcd  : ∀ j id r lk, (s.job j = .asked id r lk ∨ s.job j = .holds id r lk) →
    ∃ l ∈ s.sys.locks, l.id = lk ∧ l.owner = some j ∧ l.rel = svc r ∧ l.mode = .exclusive ∧
      l.refs = 1 ∧ (s.job j = .holds id r lk → l.waiting = false)
  own  : ∀ l ∈ s.sys.locks, l.rel % 2 = 0 → ∃ j id r, l.rel = svc r ∧
    (s.job j = .asked id r l.id ∨ s.job j = .holds id r l.id)

theorem inv_start : Inv St.init (fun _ => []) := by
  constructor
  case lock => exact Lock.inv_init
  case blk => exact Lock.blocked_init
  all_goals simp [St.init, Job.uses, Lock.Sys.init]

/-- A job without a lock gets a reference to `r`. -/
theorem inv_add {s : St} {users : Nat → List Nat} (i : Inv s users) {j id r : Nat}
    (h : s.job j = .idle) (list' free' : List Nat) (next' : Nat) (rel' : Nat → Rel)
    (nl : list'.Nodup) (nf : free'.Nodup) (ll : ∀ q ∈ list', q < next')
    (lf : ∀ q ∈ free', q < next') (dj : ∀ q ∈ list', q ∉ free')
    (all : ∀ q, q < next' → q ∈ list' ∨ q ∈ free')
    (ids : ∀ q ∈ list', ∀ q' ∈ list', (rel' q).id = (rel' q').id → q = q')
    (keep : ∀ q ∈ s.list, q ∈ list' ∧ (rel' q).id = (s.rel q).id)
    (from_ : ∀ q ∈ list', q ∈ s.list ∨ q = r) (hr : r ∈ list') (hid : (rel' r).id = id)
    (refs : ∀ q, q < next' → (rel' q).refs = (users q).length + if q = r then 1 else 0) :
    Inv { s with list := list', free := free', next := next', rel := rel',
                 job := put s.job j (.ref id r) } (put users r (users r ++ [j])) := by
  have hj : ∀ r, j ∉ users r := by
    intro r q; rw [i.uses] at q; simp [h, Job.uses] at q
  constructor
  case lock => exact i.lock
  case blk => exact i.blk
  case nl => exact nl
  case nf => exact nf
  case ll => exact ll
  case lf => exact lf
  case dj => exact dj
  case all => exact all
  case ids => exact ids
  case un =>
    intro q; simp only [put]; split
    · have := i.un r
      have := hj r
      rw [List.nodup_append]; simp; grind
    · exact i.un q
  case uses =>
    intro q k
    have hu := i.uses q k
    simp only [put]
    by_cases e : k = j
    · subst e
      simp only [if_true, Job.uses, Option.some.injEq, Prod.mk.injEq]
      by_cases z : q = r
      · subst z; simp
      · rw [if_neg z]
        constructor
        · intro w; exact absurd w (hj q)
        · rintro ⟨_, _, w⟩; exact absurd w.symm z
    · simp only [if_neg e]
      rw [← hu]
      by_cases z : q = r
      · subst z; simp [e]
      · rw [if_neg z]
  case refs =>
    intro q hq
    have := refs q hq
    simp only [put]
    by_cases z : q = r
    · subst z; simp at this ⊢; exact this
    · rw [if_neg z]; rw [if_neg z] at this; exact this
  case pos =>
    intro q hq
    simp only [put]
    by_cases z : q = r
    · rw [if_pos z]; simp
    · rw [if_neg z]
      rcases from_ q hq with w | w
      · exact i.pos q w
      · exact absurd w z
  case mem =>
    intro k id' r' hk
    simp only [put] at hk
    by_cases e : k = j
    · rw [if_pos e] at hk
      simp only [Job.uses, Option.some.injEq, Prod.mk.injEq] at hk
      obtain ⟨rfl, rfl⟩ := hk
      exact ⟨hr, hid⟩
    · rw [if_neg e] at hk
      obtain ⟨h1, h2⟩ := i.mem k id' r' hk
      exact ⟨(keep r' h1).1, by rw [(keep r' h1).2]; exact h2⟩
  case rcd =>
    intro k id' r' lk hk
    simp only [put] at hk ⊢
    by_cases e : k = j
    · rw [if_pos e] at hk; simp at hk
    · rw [if_neg e] at hk ⊢; exact i.rcd k id' r' lk hk
  case own =>
    intro l hl hp
    obtain ⟨k, id', r', h1, h2⟩ := i.own l hl hp
    refine ⟨k, id', r', h1, ?_⟩
    have e : k ≠ j := by
      intro e; subst e; rw [h] at h2; simp at h2
    simp only [put, if_neg e]
    exact h2

theorem inv_create {s : St} {users : Nat → List Nat} (i : Inv s users) {j id : Nat}
    (h : s.job j = .idle) : ∃ users', Inv (create s j id) users' := by
  have hnu : ∀ r, r ∉ s.list → users r = [] := by
    intro r hr
    cases hq : users r with
    | nil => rfl
    | cons k l =>
      obtain ⟨id', h'⟩ := (i.uses r k).1 (by rw [hq]; simp)
      exact absurd (i.mem _ _ _ h').1 hr
  have i0 := i
  obtain ⟨lock, blk, nl, nf, ll, lf, dj, all, ids, un, uses, refs, pos, mem, rcd, own⟩ := i
  simp only [create]
  cases hf : s.list.find? (fun r => decide ((s.rel r).id = id)) with
  | some r =>
    have h1 := List.mem_of_find?_eq_some hf
    have h2 : (s.rel r).id = id := by simpa using List.find?_some hf
    refine ⟨_, inv_add i0 h s.list s.free s.next _ nl nf ll lf dj all ?_ ?_ ?_ h1 ?_ ?_⟩
    · intro q hq q' hq'; have := ids q hq q' hq'; simp only [put]; grind
    · intro q hq; simp only [put]; grind
    · intro q hq; exact .inl hq
    · simp [put, h2]
    · intro q hq; have := refs q hq; simp only [put]; grind
  | none =>
    have hno : ∀ r ∈ s.list, (s.rel r).id ≠ id := by
      intro r hr q
      have := List.find?_eq_none.1 hf r hr
      simp [q] at this
    cases hfr : s.free with
    | cons r rest =>
      have hrf : r ∈ s.free := by rw [hfr]; simp
      have hrl : r ∉ s.list := fun q => dj r q hrf
      have hu := hnu r hrl
      have hlt := lf r hrf
      have href := refs r hlt
      rw [hfr] at nf
      have hnf := List.nodup_cons.1 nf
      refine ⟨_, inv_add i0 h (s.list ++ [r]) rest s.next _ ?_ hnf.2 ?_ ?_ ?_ ?_ ?_ ?_ ?_ ?_ ?_ ?_⟩
      · rw [List.nodup_append]; simp [nl]; grind
      · intro q hq; grind
      · intro q hq; grind
      · intro q hq; grind
      · intro q hq; grind
      · intro q hq q' hq'; simp only [put]; grind
      · intro q hq; simp only [put]; grind
      · intro q hq; grind
      · simp
      · simp [put]
      · intro q hq; have := refs q hq; simp only [put]; grind
    | nil =>
      have hrl : s.next ∉ s.list := fun q => Nat.lt_irrefl _ (ll _ q)
      have hu := hnu s.next hrl
      refine ⟨_, inv_add i0 h (s.list ++ [s.next]) [] (s.next + 1) _ ?_ (by simp) ?_ ?_ ?_ ?_ ?_ ?_ ?_ ?_ ?_ ?_⟩
      · rw [List.nodup_append]; simp [nl]; grind
      · intro q hq; grind
      · intro q hq; grind
      · intro q hq; grind
      · intro q hq; have := all q; simp; grind
      · intro q hq q' hq'; simp only [put]; grind
      · intro q hq; simp only [put]; grind
      · intro q hq; grind
      · simp
      · simp [put]
      · intro q hq; have := refs q; simp only [put]; grind

/-- Changes of the lock manager and of one job that keep what the job uses. -/
theorem inv_sys {s : St} {users : Nat → List Nat} (i : Inv s users) {sys' : Sys} {j : Nat}
    {k : Job} (hl : Lock.Inv sys') (hb : ∀ r, Lock.Blocked sys' r)
    (hu : k.uses = (s.job j).uses)
    (rcd : ∀ j' id r lk, ((put s.job j k) j' = .asked id r lk ∨ (put s.job j k) j' = .holds id r lk) →
      ∃ l ∈ sys'.locks, l.id = lk ∧ l.owner = some j' ∧ l.rel = svc r ∧ l.mode = .exclusive ∧
        l.refs = 1 ∧ ((put s.job j k) j' = .holds id r lk → l.waiting = false))
    (own : ∀ l ∈ sys'.locks, l.rel % 2 = 0 → ∃ j' id r, l.rel = svc r ∧
      ((put s.job j k) j' = .asked id r l.id ∨ (put s.job j k) j' = .holds id r l.id)) :
    Inv { s with sys := sys', job := put s.job j k } users := by
  have hj : ∀ x, ((put s.job j k) x).uses = (s.job x).uses := by
    intro x; simp only [put]; split
    · rename_i e; subst e; exact hu
    · rfl
  constructor
  case lock => exact hl
  case blk => exact hb
  case rcd => exact rcd
  case own => exact own
  case uses => intro r x; simp only [hj]; exact i.uses r x
  case mem => intro x id r hx; rw [hj] at hx; exact i.mem x id r hx
  case nl => exact i.nl
  case nf => exact i.nf
  case ll => exact i.ll
  case lf => exact i.lf
  case dj => exact i.dj
  case all => exact i.all
  case ids => exact i.ids
  case un => exact i.un
  case refs => exact i.refs
  case pos => exact i.pos

/-- A job that has only a reference has no lock on a relation of this manager. -/
theorem no_lock {s : St} {users : Nat → List Nat} (i : Inv s users) {j : Nat}
    (h : ∀ id r lk, s.job j ≠ .asked id r lk ∧ s.job j ≠ .holds id r lk) :
    ∀ l ∈ s.sys.locks, l.rel % 2 = 0 → l.owner ≠ some j := by
  intro l hl hp ho
  obtain ⟨k, id, r, h1, h2⟩ := i.own l hl hp
  obtain ⟨l', h3, h4, h5, -⟩ := i.rcd k id r l.id h2
  have e := Lock.id_inj i.lock h3 hl h4
  subst e
  rw [h5] at ho
  simp at ho
  subst ho
  have := h id r l'.id
  rcases h2 with h2 | h2
  · exact this.1 h2
  · exact this.2 h2

theorem lock_fresh {s : St} {users : Nat → List Nat} (i : Inv s users) {j id r : Nat}
    (h : s.job j = .ref id r) :
    s.sys.lock j (svc r) .exclusive = s.sys.lockOf (some j) (svc r) .exclusive ∧
    lockId s.sys j (svc r) .exclusive = s.sys.next := by
  have hf : s.sys.locks.find? (fun l => decide (l.owner = some j) && decide (l.rel = svc r) &&
      decide (l.mode = .exclusive)) = none := by
    rw [List.find?_eq_none]
    intro l hl hh
    simp at hh
    exact no_lock i (by simp [h]) l hl (by rw [hh.1.2, svc]; omega) hh.1.1
  exact ⟨by simp only [Lock.Sys.lock]; rw [hf], by simp only [lockId]; rw [hf]⟩

theorem inv_ask {s : St} {users : Nat → List Nat} (i : Inv s users) {j id r : Nat}
    (h : s.job j = .ref id r) (ok : s.sys.ok (.lock j (svc r) .exclusive)) :
    Inv { s with
        sys := s.sys.lock j (svc r) .exclusive
        job := put s.job j (.asked id r (lockId s.sys j (svc r) .exclusive)) } users := by
  obtain ⟨g1, g2, -⟩ := Lock.step_ok i.lock i.blk (.lock j (svc r) .exclusive) ok
  obtain ⟨e1, e2⟩ := lock_fresh i h
  have e3 := lockOf_spec s.sys (some j) (svc r) .exclusive
  refine inv_sys i g1 g2 (by rw [h]; rfl) ?_ ?_
  · intro j' id' r' lk hk
    rw [e1, e3]
    simp only [put] at hk ⊢
    by_cases e : j' = j
    · rw [if_pos e] at hk ⊢
      simp only [Job.asked.injEq, reduceCtorEq, or_false] at hk
      obtain ⟨rfl, rfl, rfl⟩ := hk
      exact ⟨_, List.mem_append_right _ (List.mem_singleton.2 rfl), by rw [e2], by rw [e], rfl, rfl,
        rfl, by simp⟩
    · rw [if_neg e] at hk ⊢
      obtain ⟨l, hl, hh⟩ := i.rcd j' id' r' lk hk
      exact ⟨l, List.mem_append_left _ hl, hh⟩
  · intro l hl hp
    rw [e1, e3] at hl
    rcases List.mem_append.1 hl with hl | hl
    · obtain ⟨k, id', r', h1, h2⟩ := i.own l hl hp
      have e : k ≠ j := by intro e; subst e; rw [h] at h2; simp at h2
      exact ⟨k, id', r', h1, by simp only [put, if_neg e]; exact h2⟩
    · have := List.mem_singleton.1 hl
      subst this
      exact ⟨j, id, r, rfl, .inl (by simp only [put, if_true, e2])⟩

theorem inv_granted {s : St} {users : Nat → List Nat} (i : Inv s users) {j id r lk : Nat}
    (h : s.job j = .asked id r lk) (g : ∃ l ∈ s.sys.locks, l.id = lk ∧ l.waiting = false) :
    Inv { s with job := put s.job j (.holds id r lk) } users := by
  refine inv_sys i i.lock i.blk (by rw [h]; rfl) ?_ ?_
  · intro j' id' r' lk' hk
    simp only [put] at hk ⊢
    by_cases e : j' = j
    · rw [if_pos e] at hk ⊢
      simp only [Job.holds.injEq, reduceCtorEq, false_or] at hk
      obtain ⟨rfl, rfl, rfl⟩ := hk
      obtain ⟨l, hl, h1, h2, h3, h4, h5, -⟩ := i.rcd j id r lk (.inl h)
      obtain ⟨l', hl', k1, k2⟩ := g
      have := Lock.id_inj i.lock hl hl' (h1.trans k1.symm)
      subst this
      exact ⟨l, hl, h1, by rw [e]; exact h2, h3, h4, h5, fun _ => k2⟩
    · rw [if_neg e] at hk ⊢
      exact i.rcd j' id' r' lk' hk
  · intro l hl hp
    obtain ⟨k, id', r', h1, h2⟩ := i.own l hl hp
    by_cases e : k = j
    · subst e
      rw [h] at h2
      simp only [Job.asked.injEq, reduceCtorEq, or_false] at h2
      obtain ⟨rfl, rfl, rfl⟩ := h2
      exact ⟨k, id, r, h1, .inr (by simp only [put, if_true])⟩
    · exact ⟨k, id', r', h1, by simp only [put, if_neg e]; exact h2⟩

theorem unlock_own {s : St} {users : Nat → List Nat} (i : Inv s users) {j id r lk : Nat}
    (h : s.job j = .holds id r lk) : s.sys.ok (.unlock lk) ∧
    Keeps (fun x => x.id ≠ lk) s.sys (s.sys.unlock lk) ∧
    ∀ x ∈ (s.sys.unlock lk).locks, x.id ≠ lk := by
  obtain ⟨l, hl, h1, h2, h3, h4, h5, h6⟩ := i.rcd j id r lk (.inr h)
  subst h1
  refine ⟨⟨l, hl, rfl, h6 h⟩, ?_⟩
  have : s.sys.unlock l.id = s.sys.release l := by
    simp only [Lock.Sys.unlock, Lock.find_id i.lock hl]
    rw [if_neg]
    rw [h5]; simp
  rw [this]
  exact keeps_release s.sys l

theorem inv_unlock {s : St} {users : Nat → List Nat} (i : Inv s users) {j id r lk : Nat}
    (h : s.job j = .holds id r lk) :
    Inv { s with sys := s.sys.unlock lk, job := put s.job j (.unlocked id r) } users := by
  obtain ⟨ok, kp, no⟩ := unlock_own i h
  obtain ⟨g1, g2, -⟩ := Lock.step_ok i.lock i.blk (.unlock lk) ok
  have hown : ∀ j' id' r' , s.job j' = .asked id' r' lk ∨ s.job j' = .holds id' r' lk → j' = j := by
    intro j' id' r' hk
    obtain ⟨l, hl, h1, h2, -⟩ := i.rcd j id r lk (.inr h)
    obtain ⟨l', hl', k1, k2, -⟩ := i.rcd j' id' r' lk hk
    have := Lock.id_inj i.lock hl hl' (h1.trans k1.symm)
    subst this
    rw [h2] at k2; simpa using k2.symm
  refine inv_sys i g1 g2 (by rw [h]; rfl) ?_ ?_
  · intro j' id' r' lk' hk
    simp only [put] at hk ⊢
    by_cases e : j' = j
    · rw [if_pos e] at hk; simp at hk
    · rw [if_neg e] at hk ⊢
      obtain ⟨l, hl, h1, h2, h3, h4, h5, h6⟩ := i.rcd j' id' r' lk' hk
      have hne : l.id ≠ lk := by
        intro q; rw [h1] at q; subst q; exact e (hown j' id' r' hk)
      obtain ⟨l', hl', s1, s2, s3, s4, s5, s6⟩ := kp.fwd l hl hne
      exact ⟨l', hl', s1.trans h1, s2.trans h2, s3.trans h3, s4.trans h4, s5.trans h5,
        fun q => s6 (h6 q)⟩
  · intro l' hl' hp
    have hne := no l' hl'
    obtain ⟨l, hl, s1, s2, s3, s4, s5, s6⟩ := kp.bwd l' hl' hne
    obtain ⟨k, id', r', h1, h2⟩ := i.own l hl (by rw [← s3]; exact hp)
    have e : k ≠ j := by
      intro e; subst e; rw [h] at h2
      simp only [Job.holds.injEq, reduceCtorEq, false_or] at h2
      exact hne (by rw [s1]; exact h2.2.2.symm)
    exact ⟨k, id', r', s3.trans h1, by simp only [put, if_neg e]; rw [s1]; exact h2⟩

theorem inv_other {s : St} {users : Nat → List Nat} (i : Inv s users) {op : Op}
    (ok : s.sys.ok op) (h : Other s.sys op) : Inv { s with sys := s.sys.step op } users := by
  obtain ⟨g1, g2, -⟩ := Lock.step_ok i.lock i.blk op ok
  have kp := keeps_other i.lock ok h
  have e : ({ s with sys := s.sys.step op } : St) =
      { s with sys := s.sys.step op, job := put s.job 0 (s.job 0) } := by
    have : put s.job 0 (s.job 0) = s.job := by
      funext x; simp only [put]; split
      · rename_i q; rw [q]
      · rfl
    rw [this]
  rw [e]
  have hp0 : put s.job 0 (s.job 0) = s.job := by
    funext x; simp only [put]; split
    · rename_i q; rw [q]
    · rfl
  refine inv_sys i g1 g2 rfl ?_ ?_
  · rw [hp0]
    intro j id r lk hk
    obtain ⟨l, hl, h1, h2, h3, h4, h5, h6⟩ := i.rcd j id r lk hk
    obtain ⟨l', hl', s1, s2, s3, s4, s5, s6⟩ := kp.fwd l hl (by rw [h3, svc]; omega)
    exact ⟨l', hl', s1.trans h1, s2.trans h2, s3.trans h3, s4.trans h4, s5.trans h5,
      fun q => s6 (h6 q)⟩
  · rw [hp0]
    intro l' hl' hp
    obtain ⟨l, hl, s1, s2, s3, s4, s5, s6⟩ := kp.bwd l' hl' hp
    obtain ⟨k, id', r', h1, h2⟩ := i.own l hl (by rw [← s3]; exact hp)
    exact ⟨k, id', r', s3.trans h1, by rw [s1]; exact h2⟩

theorem inv_unref {s : St} {users : Nat → List Nat} (i : Inv s users) {j id r : Nat}
    (h : s.job j = .unlocked id r) :
    Inv (unref s j r) (put users r ((users r).erase j)) := by
  have hju : j ∈ users r := (i.uses r j).2 ⟨id, by rw [h]; rfl⟩
  have hrl : r ∈ s.list := (i.mem j id r (by rw [h]; rfl)).1
  have hlt := i.ll r hrl
  have href := i.refs r hlt
  have hlen := List.length_erase_of_mem hju
  have hpos : 0 < (users r).length := List.length_pos_of_mem hju
  have hjo : ∀ q, j ∈ users q → q = r := by
    intro q hq
    obtain ⟨id', h'⟩ := (i.uses q j).1 hq
    rw [h] at h'; simp [Job.uses] at h'; exact h'.2.symm
  have hz : (s.rel r).refs - 1 = 0 ↔ (users r).erase j = [] := by
    rw [← List.length_eq_zero_iff, hlen, href]
  have me : ∀ x, x ∈ s.list.erase r ↔ x ≠ r ∧ x ∈ s.list := fun x => i.nl.mem_erase_iff
  simp only [unref]
  constructor
  case lock => exact i.lock
  case blk => exact i.blk
  case nl => dsimp only; split; exact i.nl.erase r; exact i.nl
  case nf =>
    dsimp only; split
    · have := i.dj r hrl
      have := i.nf
      rw [List.nodup_append]; simp; grind
    · exact i.nf
  case ll => dsimp only; intro q hq; have := i.ll q; split at hq <;> grind
  case lf => dsimp only; intro q hq; have := i.lf q; split at hq <;> grind
  case dj => dsimp only; intro q hq; have := i.dj q; split at hq <;> simp_all
  case all =>
    dsimp only; intro q hq
    have := i.all q hq
    split
    · rw [me]; simp; grind
    · exact this
  case ids =>
    dsimp only; intro q hq q' hq' e
    have hq1 : q ∈ s.list := by split at hq <;> grind
    have hq2 : q' ∈ s.list := by split at hq' <;> grind
    apply i.ids q hq1 q' hq2
    simp only [put] at e; grind
  case un =>
    intro q; simp only [put]; split
    · exact (i.un r).erase j
    · exact i.un q
  case uses =>
    intro q k
    have hu := i.uses q k
    simp only [put]
    by_cases e : k = j
    · subst e
      simp only [if_true, Job.uses]
      constructor
      · intro w
        exfalso
        by_cases z : q = r
        · rw [if_pos z] at w; exact (List.Nodup.mem_erase_iff (i.un r)).1 w |>.1 rfl
        · rw [if_neg z] at w; exact z (hjo q w)
      · rintro ⟨_, w⟩; simp at w
    · simp only [if_neg e]
      rw [← hu]
      by_cases z : q = r
      · subst z; rw [if_pos rfl, (i.un q).mem_erase_iff]; simp [e]
      · rw [if_neg z]
  case refs =>
    intro q hq
    have := i.refs q hq
    simp only [put]
    by_cases z : q = r
    · subst z; simp only [if_true]; rw [hlen, this]
    · simp only [if_neg z]; exact this
  case pos =>
    dsimp only; intro q hq
    simp only [put]
    by_cases z : q = r
    · subst z
      rw [if_pos rfl]
      intro w
      rw [if_pos (hz.2 w), me] at hq
      exact hq.1 rfl
    · rw [if_neg z]
      apply i.pos q
      split at hq <;> grind
  case mem =>
    dsimp only; intro k id' r' hk
    simp only [put] at hk
    by_cases e : k = j
    · rw [if_pos e] at hk; simp [Job.uses] at hk
    · rw [if_neg e] at hk
      obtain ⟨h1, h2⟩ := i.mem k id' r' hk
      refine ⟨?_, ?_⟩
      · split
        · rename_i w
          rw [me]
          refine ⟨?_, h1⟩
          intro z; subst z
          have hku : k ∈ users r' := (i.uses r' k).2 ⟨id', hk⟩
          have : k ∈ (users r').erase j := (i.un r').mem_erase_iff.2 ⟨e, hku⟩
          rw [hz.1 w] at this; simp at this
        · exact h1
      · simp only [put]; split
        · rename_i z; subst z; exact h2
        · exact h2
  case rcd =>
    intro k id' r' lk hk
    simp only [put] at hk ⊢
    by_cases e : k = j
    · rw [if_pos e] at hk; simp at hk
    · rw [if_neg e] at hk ⊢; exact i.rcd k id' r' lk hk
  case own =>
    intro l hl hp
    obtain ⟨k, id', r', h1, h2⟩ := i.own l hl hp
    have e : k ≠ j := by intro e; subst e; rw [h] at h2; simp at h2
    exact ⟨k, id', r', h1, by simp only [put, if_neg e]; exact h2⟩

theorem inv_reach {s : St} (r : Reach s) : ∃ users, Inv s users := by
  induction r with
  | init => exact ⟨_, inv_start⟩
  | step s t r h ih =>
    obtain ⟨users, i⟩ := ih
    cases h with
    | create j id h => exact inv_create i h
    | ask j id r h ok => exact ⟨_, inv_ask i h ok⟩
    | granted j id r lk h g => exact ⟨_, inv_granted i h g⟩
    | unlock j id r lk h => exact ⟨_, inv_unlock i h⟩
    | unref j id r h => exact ⟨_, inv_unref i h⟩
    | other op ok h => exact ⟨_, inv_other i ok h⟩

end Verif.ServiceLock
