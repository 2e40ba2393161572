import Verif.Bus.Refs
/-!
# C97: messages between tasks

`Reach (2 ^ n) s`: the state `s` can occur, with any number of threads that send to one task, in any interleaving. The bus of the code has 1024 = 2 ^ 10 slots (bus.h:29).
-/
set_option autoImplicit false
set_option linter.unusedSimpArgs false
set_option linter.unusedVariables false
set_option linter.unusedSectionVars false
namespace Verif.Bus
variable {P M : Type} [DecidableEq P] [DecidableEq M]

/-- no thread is in a send -/
def Quiet (s : St P M) : Prop := ∀ p, s.pc p = .idle

/-- the task has handed over all it has taken -/
def Drained (s : St P M) : Prop := s.read = s.write ∧ ∀ m, s.cpc ≠ .hold m

/-- a send of the message went on and has not been handed over: the thread has no slot yet, or the slot has not been handed over, or the task is just doing it -/
def Waiting (s : St P M) (m : M) : Prop :=
  (∃ p, s.pc p = .ref m) ∨ (∃ i p, s.log[i]? = some (p, m) ∧ s.delivered.length ≤ i) ∨ s.cpc = .given m

/-- the thread `p` can go on -/
def CanMove (size : Nat) (s : St P M) (p : P) : Prop := ∃ s', Step size s s' ∧ s'.pc p ≠ s.pc p

theorem delivered_length {n : Nat} {s : St P M} (h : Reach (2 ^ n) s) :
    (∃ m, s.cpc = .hold m ∧ s.delivered.length + 1 = s.read) ∨ ((∀ m, s.cpc ≠ .hold m) ∧ s.delivered.length = s.read) := by
  have r := ring_reach h
  have hl : s.read ≤ s.log.length := by have := r.rw'; have := r.wc; have := r.cl; omega
  by_cases e : ∃ m, s.cpc = .hold m
  · obtain ⟨m, hm⟩ := e
    refine .inl ⟨m, hm, ?_⟩
    have := congrArg List.length (r.hold m hm)
    simp only [List.length_append, List.length_map, List.length_take, List.length_cons, List.length_nil] at this
    omega
  · have e' : ∀ m, s.cpc ≠ .hold m := fun m hm => e ⟨m, hm⟩
    refine .inr ⟨e', ?_⟩
    have := congrArg List.length (r.rest e')
    simp only [List.length_map, List.length_take] at this
    omega

/-- The messages are handed over in the order the threads got their slots, and the messages of each thread in the order in which it sent them: none is skipped, none comes twice. -/
theorem C97_fifo {n : Nat} {s : St P M} (h : Reach (2 ^ n) s) :
    ∃ k, s.delivered = (s.log.take k).map Prod.snd ∧ k = s.delivered.length ∧ ∀ p, of p (s.log.take k) <+: of p s.accepted := by
  have r := ring_reach h
  have hl : s.read ≤ s.log.length := by have := r.rw'; have := r.wc; have := r.cl; omega
  have key : s.delivered = (s.log.take s.delivered.length).map Prod.snd := by
    rcases delivered_length h with ⟨m, hm, e⟩ | ⟨hm, e⟩
    · have h1 := r.hold m hm
      have h2 : s.delivered = (s.delivered ++ [m]).take s.delivered.length := by simp
      rw [h1, ← List.map_take, List.take_take, Nat.min_eq_left (by omega)] at h2
      exact h2
    · rw [e]; exact r.rest hm
  refine ⟨s.delivered.length, key, rfl, ?_⟩
  intro p
  rw [sent_reach h p]
  refine List.IsPrefix.trans ?_ (List.prefix_append _ _)
  unfold of
  exact ((List.take_prefix _ _).filter _).map _

/-- When no thread is in a send and the task has drained its bus, each message sent has been handed over, as often as it was sent. -/
theorem C97_nothing_lost {n : Nat} {s : St P M} (h : Reach (2 ^ n) s) (hq : Quiet s) (hd : Drained s) : s.delivered.Perm (s.accepted.map Prod.snd) := by
  have r := ring_reach h
  have hall : s.delivered = s.log.map Prod.snd := by
    have hwc : s.write = s.claim := by
      rcases Nat.lt_or_ge s.write s.claim with a | a
      · obtain ⟨p, m, e⟩ := r.who s.write (Nat.le_refl _) a
        rw [hq p] at e; cases e
      · exact Nat.le_antisymm r.wc a
    rw [r.rest hd.2, hd.1, hwc, r.cl, List.take_length]
  have hp : s.log.Perm s.accepted := by
    rw [List.perm_iff_count]
    rintro ⟨p, m⟩
    have e := sent_reach h p
    rw [hq p] at e
    simp only [pendingOf, List.append_nil] at e
    have cnt : ∀ l : List (P × M), List.count (p, m) l = List.count m (of p l) := by
      intro l
      induction l with
      | nil => rfl
      | cons x l ih =>
        unfold of at ih ⊢
        by_cases hx : x.1 = p
        · rw [List.filter_cons_of_pos (by simpa using hx), List.map_cons, List.count_cons, List.count_cons, ih]
          congr 1
          obtain ⟨a, b⟩ := x
          simp only at hx
          subst hx
          simp
        · rw [List.filter_cons_of_neg (by simpa using hx), List.count_cons, ih]
          have : ¬ x = (p, m) := by rintro rfl; exact hx rfl
          simp [this]
    rw [cnt, cnt, e]
  rw [hall]
  exact hp.map _

/-- A slot is not written again before the task has read it: the slots taken and not read are at most as many as the ring has, and what the task will read at each of them is the message of
the thread that got it. -/
theorem C97_capacity {n : Nat} {s : St P M} (h : Reach (2 ^ n) s) :
    s.read ≤ s.write ∧ s.write ≤ s.read + 2 ^ n ∧ ∀ i, s.read ≤ i → i < s.write → ∃ p m, s.log[i]? = some (p, m) ∧ s.ring (i % 2 ^ n) = some m := by
  have r := ring_reach h
  refine ⟨r.rw', r.cap, ?_⟩
  intro i h1 h2
  obtain ⟨p, m, a, b⟩ := r.filled i h1 h2
  exact ⟨p, m, a, by rw [← place_mod]; exact b⟩

/-- A send returns without doing anything exactly when an earlier send of the same message has not been handed over. -/
theorem C97_coalesced {n : Nat} {s : St P M} (h : Reach (2 ^ n) s) (m : M) : s.refs m ≠ 0 ↔ Waiting s m := by
  obtain ⟨hh, hr⟩ := refs_reach h
  have key : m ∈ flying s.cpc s.read s.log ↔ (∃ i p, s.log[i]? = some (p, m) ∧ doneOf s.cpc s.read ≤ i) := by
    unfold flying
    rw [List.mem_map]
    constructor
    · rintro ⟨⟨p, m'⟩, hm, rfl⟩
      obtain ⟨i, hi⟩ := List.mem_iff_getElem?.1 hm
      rw [List.getElem?_drop] at hi
      exact ⟨_, p, hi, Nat.le_add_right _ _⟩
    · rintro ⟨i, p, hi, hle⟩
      refine ⟨(p, m), List.mem_iff_getElem?.2 ⟨i - doneOf s.cpc s.read, ?_⟩, rfl⟩
      rw [List.getElem?_drop, Nat.add_sub_cancel' hle]; exact hi
  rw [hr.iff m, key]
  rcases delivered_length h with ⟨x, hx, e⟩ | ⟨hx, e⟩
  · have hd : doneOf s.cpc s.read = s.delivered.length := by rw [hx]; show s.read - 1 = _; omega
    rw [hd]
    constructor
    · rintro (a | a)
      · exact .inr (.inl a)
      · exact .inl a
    · rintro (a | a | a)
      · exact .inr a
      · exact .inl a
      · rw [hx] at a; cases a
  · by_cases hg : ∃ g, s.cpc = .given g
    · obtain ⟨g, hg⟩ := hg
      obtain ⟨h1, p, hl⟩ := hh g (.inr hg)
      have hd : doneOf s.cpc s.read = s.read - 1 := by rw [hg]; rfl
      rw [hd]
      constructor
      · rintro (⟨i, q, a, b⟩ | a)
        · by_cases ei : i = s.read - 1
          · subst ei
            rw [hl] at a
            injection a with a; injection a with _ a
            subst a
            exact .inr (.inr hg)
          · exact .inr (.inl ⟨i, q, a, by omega⟩)
        · exact .inl a
      · rintro (a | ⟨i, q, a, b⟩ | a)
        · exact .inr a
        · exact .inl ⟨i, q, a, by omega⟩
        · rw [hg] at a; injection a with a; subst a
          exact .inl ⟨_, p, hl, Nat.le_refl _⟩
    · have hd : doneOf s.cpc s.read = s.read := by
        unfold doneOf
        split
        · rename_i x' hc; exact absurd hc (hx x')
        · rename_i x' hc; exact absurd ⟨x', hc⟩ hg
        · rfl
      rw [hd, ← e]
      constructor
      · rintro (a | a)
        · exact .inr (.inl a)
        · exact .inl a
      · rintro (a | a | a)
        · exact .inr a
        · exact .inl a
        · exact absurd ⟨m, a⟩ hg

/-- A message is in the bus at most once. -/
theorem C97_once {n : Nat} {s : St P M} (h : Reach (2 ^ n) s) {i j : Nat} {p q : P} {m : M} (hi : s.log[i]? = some (p, m)) (hj : s.log[j]? = some (q, m))
    (di : s.delivered.length ≤ i) (dj : s.delivered.length ≤ j) : i = j := by
  obtain ⟨_, hr⟩ := refs_reach h
  have hd : doneOf s.cpc s.read ≤ s.delivered.length := by
    rcases delivered_length h with ⟨x, hx, e⟩ | ⟨hx, e⟩
    · rw [hx]; show s.read - 1 ≤ _; omega
    · unfold doneOf; split <;> omega
  have get : ∀ (k : Nat) (r : P), s.log[k]? = some (r, m) → doneOf s.cpc s.read ≤ k → (flying s.cpc s.read s.log)[k - doneOf s.cpc s.read]? = some m := by
    intro k r hk hle
    unfold flying
    rw [List.getElem?_map, List.getElem?_drop, Nat.add_sub_cancel' hle, hk]; rfl
  have a := get i p hi (by omega)
  have b := get j q hj (by omega)
  have hlt := (List.getElem?_eq_some_iff.1 a).1
  have := (List.getElem?_inj hlt hr.nodup).1 (a.trans b.symm)
  omega

/-- A task that sleeps is woken up: when it waits in epoll and there is a message to read, the eventfd is readable or a thread is about to look at the sleep flag, or to write to the eventfd. So
when no thread is in a send, the wait ends. -/
theorem C97_wake {n : Nat} {s : St P M} (h : Reach n s) (hp : s.cpc = .poll) (hne : s.read ≠ s.write) :
    (s.counter = true ∨ ∃ p, s.pc p = .check ∨ s.pc p = .signal ∨ s.pc p = .writefd) ∧ (Quiet s → ∃ s', Step n s s' ∧ s'.cpc = .release) := by
  have w := (wake_reach h).wake hp hne
  constructor
  · rcases w with a | ⟨p, a⟩
    · exact .inl a
    · refine .inr ⟨p, ?_⟩
      cases e : s.pc p <;> rw [e] at a <;> first | exact a.elim | simp
  · intro hq
    rcases w with a | ⟨p, a⟩
    · exact ⟨_, Step.readfd hp a, rfl⟩
    · rw [hq p] at a; exact a.elim

/-- And a thread that is not waiting for the task may signal it: while the task is in epoll, its flag is set. -/
theorem C97_asleep {n : Nat} {s : St P M} (h : Reach n s) (hp : s.cpc = .poll) : s.sleep = true := (wake_reach h).asleep (.inr hp)

/-- The senders do not block each other for ever: if a thread is in a send, one of the threads in a send can go on, or the ring is full and the task has a message to read and does not
wait in epoll with nothing to wake it up. -/
theorem C97_progress {n : Nat} {s : St P M} (h : Reach (2 ^ n) s) (p : P) (hp : s.pc p ≠ .idle) :
    (∃ q, s.pc q ≠ .idle ∧ CanMove (2 ^ n) s q) ∨ (s.write = s.read + 2 ^ n ∧ (s.cpc = .poll → s.counter = true)) := by
  have r := ring_reach h
  have up : ∀ (q : P) (c : Pc M) (s' : St P M), Step (2 ^ n) s s' → s'.pc = upd s.pc q c → c ≠ s.pc q → CanMove (2 ^ n) s q := by
    intro q c s' hs e hc
    exact ⟨s', hs, by rw [e, upd_self]; exact hc⟩
  have wk : ∀ q, waking (s.pc q) → s.pc q ≠ .idle ∧ CanMove (2 ^ n) s q := by
    intro q hq
    cases e : s.pc q <;> rw [e] at hq <;> try exact hq.elim
    · exact ⟨by simp, up q _ _ (Step.check q e) rfl (by rw [e]; split <;> simp)⟩
    · exact ⟨by simp, up q _ _ (Step.signal q e) rfl (by rw [e]; split <;> simp)⟩
    · exact ⟨by simp, up q _ _ (Step.writefd q e) rfl (by rw [e]; simp)⟩
  have slot : ∀ m k, slotOf (s.pc p) = some (m, k) → (∃ q, s.pc q ≠ .idle ∧ CanMove (2 ^ n) s q) ∨ (s.write = s.read + 2 ^ n ∧ (s.cpc = .poll → s.counter = true)) := by
    intro m k hk
    obtain ⟨h1, h2⟩ := r.own p m k hk
    have h3 := (List.getElem?_eq_some_iff.1 h2).1
    obtain ⟨q, x, hx⟩ := r.who s.write (Nat.le_refl _) (by have := r.cl; omega)
    cases e : s.pc q with
    | claimed m' k' =>
      rw [e] at hx; injection hx with hx; injection hx with _ hk'; subst hk'
      by_cases hroom : s.write < s.read + 2 ^ n
      · exact .inl ⟨q, by rw [e]; simp, up q _ _ (Step.room q m' _ e hroom) rfl (by rw [e]; simp)⟩
      · have hfull : s.write = s.read + 2 ^ n := by have := r.cap; omega
        have hpos : 0 < 2 ^ n := Nat.two_pow_pos n
        by_cases hw : ∃ q', waking (s.pc q')
        · obtain ⟨q', hw⟩ := hw; exact .inl ⟨q', wk q' hw⟩
        · refine .inr ⟨hfull, fun hpoll => ?_⟩
          rcases (wake_reach h).wake hpoll (by omega) with a | a
          · exact a
          · exact absurd a hw
    | ready m' k' => exact .inl ⟨q, by rw [e]; simp, up q _ _ (Step.store q m' k' e) rfl (by rw [e]; simp)⟩
    | wrote m' k' =>
      rw [e] at hx; injection hx with hx; injection hx with _ hk'
      exact .inl ⟨q, by rw [e]; simp, up q _ _ (Step.turn q m' k' e hk'.symm) rfl (by rw [e]; simp)⟩
    | turn m' k' => exact .inl ⟨q, by rw [e]; simp, up q _ _ (Step.publish q m' k' e) rfl (by rw [e]; simp)⟩
    | _ => rw [e] at hx; cases hx
  cases e : s.pc p with
  | idle => exact absurd e hp
  | ref m => exact .inl ⟨p, hp, up p _ _ (Step.claim p m e) rfl (by rw [e]; simp)⟩
  | claimed m k => exact slot m k (by rw [e]; rfl)
  | ready m k => exact slot m k (by rw [e]; rfl)
  | wrote m k => exact slot m k (by rw [e]; rfl)
  | turn m k => exact slot m k (by rw [e]; rfl)
  | check => exact .inl ⟨p, wk p (by rw [e]; trivial)⟩
  | signal => exact .inl ⟨p, wk p (by rw [e]; trivial)⟩
  | writefd => exact .inl ⟨p, wk p (by rw [e]; trivial)⟩

/-! ## examples -/

/-- two threads and a ring of two slots: the task sleeps, the thread `true` sends 8 -/
private theorem asleep : ∃ s : St Bool Nat, Reach (2 ^ 1) s ∧ s.cpc = .poll ∧ s.read ≠ s.write ∧ s.pc true = .check ∧ s.counter = false := by
  refine ⟨_, .step (.step (.step (.step (.step (.step (.step (.step (.step (.step .init (.empty rfl rfl)) (.idle rfl rfl)) (.setSleep rfl)) (.block rfl rfl)) (.send true 8 rfl rfl))
    (.claim true 8 rfl)) (.room true 8 0 rfl (by decide))) (.store true 8 0 rfl)) (.turn true 8 0 rfl rfl)) (.publish true 8 0 rfl), rfl, ?_, rfl, rfl⟩
  decide

example : ∃ (n : Nat) (s : St Bool Nat), Reach n s ∧ s.cpc = .poll ∧ s.read ≠ s.write := by
  obtain ⟨s, h1, h2, h3, -⟩ := asleep
  exact ⟨_, s, h1, h2, h3⟩

example : ∃ (n : Nat) (s : St Bool Nat) (p : Bool), Reach (2 ^ n) s ∧ s.pc p ≠ .idle := by
  obtain ⟨s, h1, -, -, h4, -⟩ := asleep
  exact ⟨1, s, true, h1, by rw [h4]; simp⟩

/-- the thread `false` sends 7 and `true` sends 8 before it has a slot; all is handed over, 8 first -/
example : ∃ s : St Bool Nat, Reach (2 ^ 1) s ∧ s.accepted = [(false, 7), (true, 8)] ∧ s.delivered = [8, 7] ∧ s.read = s.write ∧ (∀ p, s.pc p = .idle) ∧ s.cpc = .given 7 ∧ s.refs 7 = 2 := by
  refine ⟨_, .step (.step (.step (.step (.step (.step (.step (.step (.step (.step (.step (.step (.step (.step (.step (.step (.step (.step (.step (.step (.step (.step .init
    (.send false 7 rfl rfl)) (.send true 8 rfl rfl)) (.claim true 8 rfl)) (.claim false 7 rfl)) (.room false 7 1 rfl (by decide))) (.store false 7 1 rfl))
    (.room true 8 0 rfl (by decide))) (.store true 8 0 rfl)) (.turn true 8 0 rfl rfl)) (.publish true 8 0 rfl)) (.turn false 7 1 rfl rfl)) (.publish false 7 1 rfl))
    (.check true rfl)) (.check false rfl)) (.get rfl (by decide))) (.advance (some 8) rfl)) (.deliver 8 rfl)) (.unref 8 rfl)) (.get rfl (by decide))) (.advance (some 7) rfl))
    (.deliver 7 rfl)) (.skip true 7 rfl (by decide)), rfl, rfl, rfl, ?_, rfl, rfl⟩
  intro p
  cases p <;> rfl

end Verif.Bus
