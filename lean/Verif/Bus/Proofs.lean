import Verif.Bus.Model
/-!
# The invariants of the bus (C97)
-/
set_option autoImplicit false
set_option linter.unusedSimpArgs false
set_option linter.unusedVariables false
set_option linter.unusedSectionVars false
namespace Verif.Bus
variable {P M : Type} [DecidableEq P] [DecidableEq M]

theorem upd_self {α β : Type} [DecidableEq α] (f : α → β) (a : α) (b : β) : upd f a b a = b := by simp [upd]
theorem upd_ne {α β : Type} [DecidableEq α] (f : α → β) {a x : α} (b : β) (h : x ≠ a) : upd f a b x = f x := by simp [upd, h]

theorem place_mod (n s : Nat) : place (2 ^ n) s = s % 2 ^ n := Nat.and_two_pow_sub_one_eq_mod s n

theorem place_ne {n i j : Nat} (h : i < j) (h' : j < i + 2 ^ n) : place (2 ^ n) i ≠ place (2 ^ n) j := by
  rw [place_mod, place_mod]
  intro e
  have hp : 0 < 2 ^ n := Nat.two_pow_pos n
  have h1 := Nat.div_add_mod i (2 ^ n)
  have h2 := Nat.div_add_mod j (2 ^ n)
  rw [e] at h1
  have h3 : 2 ^ n * (j / 2 ^ n) - 2 ^ n * (i / 2 ^ n) = j - i := by omega
  rw [← Nat.mul_sub] at h3
  have h4 : j / 2 ^ n - i / 2 ^ n ≠ 0 := by
    intro h0
    rw [h0, Nat.mul_zero] at h3
    omega
  have h5 : 2 ^ n * 1 ≤ 2 ^ n * (j / 2 ^ n - i / 2 ^ n) := Nat.mul_le_mul_left _ (by omega)
  omega

/-- the message and slot a thread has -/
def slotOf : Pc M → Option (M × Nat)
  | .claimed m k | .ready m k | .wrote m k | .turn m k => some (m, k)
  | _ => none

def roomOf : Pc M → Option (M × Nat)
  | .ready m k | .wrote m k | .turn m k => some (m, k)
  | _ => none

def wroteOf : Pc M → Option (M × Nat)
  | .wrote m k | .turn m k => some (m, k)
  | _ => none

def turnOf : Pc M → Option Nat
  | .turn _ k => some k
  | _ => none

theorem room_slot {c : Pc M} {x : M × Nat} (h : roomOf c = some x) : slotOf c = some x := by cases c <;> simp_all [roomOf, slotOf]
theorem wrote_slot {c : Pc M} {x : M × Nat} (h : wroteOf c = some x) : slotOf c = some x := by cases c <;> simp_all [wroteOf, slotOf]
theorem wrote_room {c : Pc M} {x : M × Nat} (h : wroteOf c = some x) : roomOf c = some x := by cases c <;> simp_all [wroteOf, roomOf]

/-- the ring -/
structure Ring (size claim read write : Nat) (ring : Nat → Option M) (pc : P → Pc M) (cpc : Cpc M) (log : List (P × M)) (delivered : List M) : Prop where
  rw' : read ≤ write
  wc : write ≤ claim
  cl : claim = log.length
  cap : write ≤ read + size
  filled : ∀ i, read ≤ i → i < write → ∃ p m, log[i]? = some (p, m) ∧ ring (place size i) = some m
  own : ∀ p m k, slotOf (pc p) = some (m, k) → write ≤ k ∧ log[k]? = some (p, m)
  who : ∀ k, write ≤ k → k < claim → ∃ p m, slotOf (pc p) = some (m, k)
  room : ∀ p m k, roomOf (pc p) = some (m, k) → k < read + size
  wrote : ∀ p m k, wroteOf (pc p) = some (m, k) → ring (place size k) = some m
  turn : ∀ p k, turnOf (pc p) = some k → write = k
  got : ∀ o, cpc = .got o → read < write ∧ ∃ p m, o = some m ∧ log[read]? = some (p, m)
  hold : ∀ m, cpc = .hold m → delivered ++ [m] = (log.take read).map Prod.snd
  rest : (∀ m, cpc ≠ .hold m) → delivered = (log.take read).map Prod.snd

section
variable {size claim read write : Nat} {ring : Nat → Option M} {pc : P → Pc M} {cpc : Cpc M} {log : List (P × M)} {delivered : List M}

theorem ring_pc (h : Ring size claim read write ring pc cpc log delivered) (p : P) (c : Pc M) (h1 : slotOf c = slotOf (pc p)) (h2 : ∀ m k, roomOf c = some (m, k) → k < read + size)
    (h3 : ∀ m k, wroteOf c = some (m, k) → ring (place size k) = some m) (h4 : ∀ k, turnOf c = some k → write = k) :
    Ring size claim read write ring (upd pc p c) cpc log delivered where
  rw' := h.rw'
  wc := h.wc
  cl := h.cl
  cap := h.cap
  filled := h.filled
  own := by
    intro q m k hq
    by_cases e : q = p
    · subst e; rw [upd_self, h1] at hq; exact h.own q m k hq
    · rw [upd_ne _ _ e] at hq; exact h.own q m k hq
  who := by
    intro k a b
    obtain ⟨q, m, hq⟩ := h.who k a b
    refine ⟨q, m, ?_⟩
    by_cases e : q = p
    · subst e; rw [upd_self, h1]; exact hq
    · rw [upd_ne _ _ e]; exact hq
  room := by
    intro q m k hq
    by_cases e : q = p
    · subst e; rw [upd_self] at hq; exact h2 m k hq
    · rw [upd_ne _ _ e] at hq; exact h.room q m k hq
  wrote := by
    intro q m k hq
    by_cases e : q = p
    · subst e; rw [upd_self] at hq; exact h3 m k hq
    · rw [upd_ne _ _ e] at hq; exact h.wrote q m k hq
  turn := by
    intro q k hq
    by_cases e : q = p
    · subst e; rw [upd_self] at hq; exact h4 k hq
    · rw [upd_ne _ _ e] at hq; exact h.turn q k hq
  got := h.got
  hold := h.hold
  rest := h.rest

/-- the task goes on to a place where it has nothing in hand -/
theorem ring_cpc (h : Ring size claim read write ring pc cpc log delivered) (c : Cpc M) (h0 : ∀ m, cpc ≠ .hold m) (h1 : ∀ o, c ≠ .got o) (h2 : ∀ m, c ≠ .hold m) :
    Ring size claim read write ring pc c log delivered :=
  { h with
    got := fun o e => absurd e (h1 o)
    hold := fun m e => absurd e (h2 m)
    rest := fun _ => h.rest h0 }

theorem ring_claim (h : Ring size claim read write ring pc cpc log delivered) (p : P) (m : M) (hp : pc p = .ref m) :
    Ring size (claim + 1) read write ring (upd pc p (.claimed m claim)) cpc (log ++ [(p, m)]) delivered := by
  have old : ∀ {k : Nat} {x : P × M}, log[k]? = some x → (log ++ [(p, m)])[k]? = some x := by
    intro k x e
    rw [List.getElem?_append_left (List.getElem?_eq_some_iff.1 e).1]; exact e
  have htake : (log ++ [(p, m)]).take read = log.take read := by
    rw [List.take_append_of_le_length]
    have := h.rw'; have := h.wc; have := h.cl; omega
  refine ⟨h.rw', by have := h.wc; omega, by simp [h.cl], h.cap, ?_, ?_, ?_, ?_, ?_, ?_, ?_, ?_, ?_⟩
  · intro i a b
    obtain ⟨q, x, e1, e2⟩ := h.filled i a b
    exact ⟨q, x, old e1, e2⟩
  · intro q x k hq
    by_cases e : q = p
    · subst e
      rw [upd_self] at hq
      simp only [slotOf, Option.some.injEq, Prod.mk.injEq] at hq
      obtain ⟨rfl, rfl⟩ := hq
      exact ⟨h.wc, by rw [h.cl]; simp⟩
    · rw [upd_ne _ _ e] at hq
      exact ⟨(h.own q x k hq).1, old (h.own q x k hq).2⟩
  · intro k a b
    by_cases e : k = claim
    · subst e; exact ⟨p, m, by rw [upd_self]; rfl⟩
    · obtain ⟨q, x, hq⟩ := h.who k a (by omega)
      refine ⟨q, x, ?_⟩
      rw [upd_ne]
      · exact hq
      · rintro rfl; rw [hp] at hq; simp [slotOf] at hq
  · intro q x k hq
    by_cases e : q = p
    · subst e; rw [upd_self] at hq; simp [roomOf] at hq
    · rw [upd_ne _ _ e] at hq; exact h.room q x k hq
  · intro q x k hq
    by_cases e : q = p
    · subst e; rw [upd_self] at hq; simp [wroteOf] at hq
    · rw [upd_ne _ _ e] at hq; exact h.wrote q x k hq
  · intro q k hq
    by_cases e : q = p
    · subst e; rw [upd_self] at hq; simp [turnOf] at hq
    · rw [upd_ne _ _ e] at hq; exact h.turn q k hq
  · intro o e
    obtain ⟨a, q, x, b, c⟩ := h.got o e
    exact ⟨a, q, x, b, old c⟩
  · intro x e; rw [htake]; exact h.hold x e
  · intro e; rw [htake]; exact h.rest e

theorem ring_store {n : Nat} (h : Ring (2 ^ n) claim read write ring pc cpc log delivered) (p : P) (m : M) (k : Nat) (hp : pc p = .ready m k) :
    Ring (2 ^ n) claim read write (upd ring (place (2 ^ n) k) (some m)) (upd pc p (.wrote m k)) cpc log delivered := by
  have hk := h.room p m k (by rw [hp]; rfl)
  obtain ⟨hw, hl⟩ := h.own p m k (by rw [hp]; rfl)
  refine ⟨h.rw', h.wc, h.cl, h.cap, ?_, ?_, ?_, ?_, ?_, ?_, h.got, h.hold, h.rest⟩
  · intro i a b
    obtain ⟨q, x, e1, e2⟩ := h.filled i a b
    refine ⟨q, x, e1, ?_⟩
    rw [upd_ne]
    · exact e2
    · exact place_ne (by omega) (by omega)
  · intro q x j hq
    by_cases e : q = p
    · subst e
      rw [upd_self] at hq
      exact h.own q x j (by rw [hp]; exact hq)
    · rw [upd_ne _ _ e] at hq; exact h.own q x j hq
  · intro j a b
    obtain ⟨q, x, hq⟩ := h.who j a b
    refine ⟨q, x, ?_⟩
    by_cases e : q = p
    · subst e; rw [hp] at hq; rw [upd_self]; exact hq
    · rw [upd_ne _ _ e]; exact hq
  · intro q x j hq
    by_cases e : q = p
    · subst e
      rw [upd_self] at hq
      exact h.room q x j (by rw [hp]; exact hq)
    · rw [upd_ne _ _ e] at hq; exact h.room q x j hq
  · intro q x j hq
    by_cases e : q = p
    · subst e
      rw [upd_self] at hq
      simp only [wroteOf, Option.some.injEq, Prod.mk.injEq] at hq
      obtain ⟨rfl, rfl⟩ := hq
      rw [upd_self]
    · rw [upd_ne _ _ e] at hq
      obtain ⟨hj, hlj⟩ := h.own q x j (wrote_slot hq)
      have hjr := h.room q x j (wrote_room hq)
      rw [upd_ne]
      · exact h.wrote q x j hq
      · have hrw := h.rw'
        rcases Nat.lt_trichotomy j k with c | c | c
        · exact place_ne c (by omega)
        · subst c
          rw [hl] at hlj
          simp only [Option.some.injEq, Prod.mk.injEq] at hlj
          exact absurd hlj.1.symm e
        · exact (place_ne c (by omega)).symm
  · intro q j hq
    by_cases e : q = p
    · subst e; rw [upd_self] at hq; simp [turnOf] at hq
    · rw [upd_ne _ _ e] at hq; exact h.turn q j hq

theorem ring_publish (h : Ring size claim read write ring pc cpc log delivered) (p : P) (m : M) (k : Nat) (hp : pc p = .turn m k) :
    Ring size claim read (k + 1) ring (upd pc p .check) cpc log delivered := by
  have hk := h.room p m k (by rw [hp]; rfl)
  obtain ⟨hw, hl⟩ := h.own p m k (by rw [hp]; rfl)
  have ht : write = k := h.turn p k (by rw [hp]; rfl)
  subst ht
  have hlt : write < claim := by rw [h.cl]; exact (List.getElem?_eq_some_iff.1 hl).1
  have ne : ∀ q x j, q ≠ p → slotOf (pc q) = some (x, j) → write + 1 ≤ j := by
    intro q x j e hq
    obtain ⟨a, b⟩ := h.own q x j hq
    by_cases c : j = write
    · subst c
      rw [hl] at b
      simp only [Option.some.injEq, Prod.mk.injEq] at b
      exact absurd b.1.symm e
    · omega
  refine ⟨by have := h.rw'; omega, by omega, h.cl, by omega, ?_, ?_, ?_, ?_, ?_, ?_, ?_, h.hold, h.rest⟩
  · intro i a b
    by_cases e : i = write
    · subst e
      exact ⟨p, m, hl, h.wrote p m i (by rw [hp]; rfl)⟩
    · exact h.filled i a (by omega)
  · intro q x j hq
    by_cases e : q = p
    · subst e; rw [upd_self] at hq; simp [slotOf] at hq
    · rw [upd_ne _ _ e] at hq
      exact ⟨ne q x j e hq, (h.own q x j hq).2⟩
  · intro j a b
    obtain ⟨q, x, hq⟩ := h.who j (by omega) b
    refine ⟨q, x, ?_⟩
    rw [upd_ne]
    · exact hq
    · rintro rfl
      rw [hp] at hq
      simp only [slotOf, Option.some.injEq, Prod.mk.injEq] at hq
      omega
  · intro q x j hq
    by_cases e : q = p
    · subst e; rw [upd_self] at hq; simp [roomOf] at hq
    · rw [upd_ne _ _ e] at hq; exact h.room q x j hq
  · intro q x j hq
    by_cases e : q = p
    · subst e; rw [upd_self] at hq; simp [wroteOf] at hq
    · rw [upd_ne _ _ e] at hq; exact h.wrote q x j hq
  · intro q j hq
    by_cases e : q = p
    · subst e; rw [upd_self] at hq; simp [turnOf] at hq
    · rw [upd_ne _ _ e] at hq
      have h1 := h.turn q j hq
      cases hc : pc q with
      | turn x y =>
        rw [hc] at hq
        simp only [turnOf, Option.some.injEq] at hq
        subst hq
        have := ne q x y e (by rw [hc]; rfl)
        omega
      | _ => rw [hc] at hq; simp [turnOf] at hq
  · intro o e
    obtain ⟨a, b⟩ := h.got o e
    exact ⟨by omega, b⟩

theorem ring_get (h : Ring size claim read write ring pc .step log delivered) (hne : read ≠ write) :
    Ring size claim read write ring pc (.got (ring (place size read))) log delivered :=
  { h with
    got := by
      intro o e
      have hlt : read < write := by have := h.rw'; omega
      obtain ⟨p, m, e1, e2⟩ := h.filled read (Nat.le_refl _) hlt
      cases e
      exact ⟨hlt, p, m, e2, e1⟩
    hold := fun m e => by cases e
    rest := fun _ => h.rest (by simp) }

theorem ring_advance (o : Option M) (h : Ring size claim read write ring pc (.got o) log delivered) :
    ∃ p m, o = some m ∧ log[read]? = some (p, m) ∧ Ring size claim (read + 1) write ring pc (.hold m) log delivered := by
  obtain ⟨hlt, p, m, rfl, hl⟩ := h.got o rfl
  refine ⟨p, m, rfl, hl, ?_⟩
  refine ⟨hlt, h.wc, h.cl, by have := h.cap; omega, fun i a b => h.filled i (by omega) b, h.own, h.who, fun q x k hq => by have := h.room q x k hq; omega, h.wrote, h.turn, ?_, ?_, ?_⟩
  · intro o e; cases e
  · intro x e
    cases e
    rw [h.rest (by simp), List.take_add_one, hl]
    simp
  · intro e; exact absurd rfl (e m)

theorem ring_deliver (m : M) (h : Ring size claim read write ring pc (.hold m) log delivered) : Ring size claim read write ring pc (.given m) log (delivered ++ [m]) :=
  { h with
    got := fun o e => by cases e
    hold := fun m e => by cases e
    rest := fun _ => h.hold m rfl }

end

theorem ring_step {n : Nat} {s s' : St P M} (h : Ring (2 ^ n) s.claim s.read s.write s.ring s.pc s.cpc s.log s.delivered) (hs : Step (2 ^ n) s s') :
    Ring (2 ^ n) s'.claim s'.read s'.write s'.ring s'.pc s'.cpc s'.log s'.delivered := by
  have none_ok : ∀ (p : P) (c : Pc M), slotOf (s.pc p) = none → slotOf c = none → Ring (2 ^ n) s.claim s.read s.write s.ring (upd s.pc p c) s.cpc s.log s.delivered := by
    intro p c h1 h2
    refine ring_pc h p c (by rw [h1, h2]) ?_ ?_ ?_ <;> cases c <;> simp_all [slotOf, roomOf, wroteOf, turnOf]
  cases hs with
  | send p m hp _ => exact none_ok p _ (by rw [hp]; rfl) rfl
  | skip p m _ _ => exact h
  | claim p m hp => exact ring_claim h p m hp
  | room p m k hp hk =>
    refine ring_pc h p _ (by rw [hp]; rfl) ?_ ?_ ?_
    · intro x j e; simp only [roomOf, Option.some.injEq, Prod.mk.injEq] at e; omega
    · intro x j e; simp [wroteOf] at e
    · intro j e; simp [turnOf] at e
  | store p m k hp => exact ring_store h p m k hp
  | turn p m k hp hk =>
    refine ring_pc h p _ (by rw [hp]; rfl) ?_ ?_ ?_
    · intro x j e; exact h.room p x j (by rw [hp]; exact e)
    · intro x j e; exact h.wrote p x j (by rw [hp]; exact e)
    · intro j e; simp only [turnOf, Option.some.injEq] at e; omega
  | publish p m k hp => exact ring_publish h p m k hp
  | check p hp => exact none_ok p _ (by rw [hp]; rfl) (by split <;> rfl)
  | signal p hp => exact none_ok p _ (by rw [hp]; rfl) (by split <;> rfl)
  | writefd p hp => exact none_ok p _ (by rw [hp]; rfl) rfl
  | empty hc _ => exact ring_cpc h _ (by rw [hc]; simp) (by simp) (by simp)
  | get hc hne => rw [hc] at h; exact ring_get h hne
  | advance o hc =>
    rw [hc] at h
    obtain ⟨p, m, rfl, hl, h'⟩ := ring_advance o h
    exact h'
  | deliver m hc => rw [hc] at h; exact ring_deliver m h
  | unref m hc => exact ring_cpc h _ (by rw [hc]; simp) (by simp) (by simp)
  | retry hc _ => exact ring_cpc h _ (by rw [hc]; simp) (by simp) (by simp)
  | idle hc _ => exact ring_cpc h _ (by rw [hc]; simp) (by simp) (by simp)
  | setSleep hc => exact ring_cpc h _ (by rw [hc]; simp) (by simp) (by simp)
  | again hc _ => exact ring_cpc h _ (by rw [hc]; simp) (by simp) (by simp)
  | block hc _ => exact ring_cpc h _ (by rw [hc]; simp) (by simp) (by simp)
  | readfd hc _ => exact ring_cpc h _ (by rw [hc]; simp) (by simp) (by simp)
  | other hc => exact ring_cpc h _ (by rw [hc]; simp) (by simp) (by simp)
  | release hc => exact ring_cpc h _ (by rw [hc]; simp) (by simp) (by simp)
  | wake hc => exact ring_cpc h _ (by rw [hc]; simp) (by simp) (by simp)

theorem ring_reach {n : Nat} {s : St P M} (h : Reach (2 ^ n) s) : Ring (2 ^ n) s.claim s.read s.write s.ring s.pc s.cpc s.log s.delivered := by
  induction h with
  | init =>
    refine ⟨Nat.le_refl _, Nat.le_refl _, rfl, Nat.zero_le _, ?_, ?_, ?_, ?_, ?_, ?_, ?_, ?_, ?_⟩
    · intro i _ h; exact absurd h (Nat.not_lt_zero i)
    · intro p m k h; simp [init, slotOf] at h
    · intro k _ h; exact absurd h (Nat.not_lt_zero k)
    · intro p m k h; simp [init, roomOf] at h
    · intro p m k h; simp [init, wroteOf] at h
    · intro p k h; simp [init, turnOf] at h
    · intro o h; cases h
    · intro m h; cases h
    · intro _; rfl
  | step _ hs ih => exact ring_step ih hs

end Verif.Bus
