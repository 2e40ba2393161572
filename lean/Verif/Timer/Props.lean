import Verif.Timer.Model
/-!
# C98: timers and sleep()
-/
set_option autoImplicit false
set_option linter.unusedSimpArgs false
set_option linter.unusedVariables false
namespace Verif.Timer

/-! ## the order -/

theorem cmp_neg {a b : Tm} (h : a.seq ≠ b.seq) : cmp a b < 0 ↔ a.timeout < b.timeout ∨ (a.timeout = b.timeout ∧ a.seq < b.seq) := by
  unfold cmp
  split
  · split <;> omega
  · split <;> omega

theorem wrap32 {d : Int} (h1 : -2 ^ 31 ≤ d) (h2 : d < 2 ^ 31) : toSigned 32 (toUnsigned 32 d) = d := by
  unfold toSigned toUnsigned
  split <;> omega

/-! ## the invariant -/

def Told (t : Tm) : Prop := t.timeout + t.lag = t.start + t.interval ∧ t.lag ≤ t.start ∧ t.interval < 2 ^ 31

structure Inv (s : St) : Prop where
  low : s.timeMs ≤ s.clock
  sorted : s.timers.Pairwise (fun a b => cmp a b < 0)
  seqs : (s.timers.map (·.seq) ++ (s.fired.map (·.1.seq) ++ s.stopped.map (·.seq))).Perm (List.range s.seq)
  tm : ∀ t ∈ s.timers, Told t ∧ t.start ≤ s.clock ∧ t.timeout ≤ s.timeMs + t.interval
  done : ∀ x ∈ s.fired, Told x.1 ∧ x.1.timeout ≤ x.2 ∧ x.2 ≤ s.clock
  cap : s.timers = [] ∨ s.timers.length < s.max
  room : 16 ≤ s.max

theorem seq_ne {l : List Tm} {m : List Nat} {n : Nat} (h : (l.map (·.seq) ++ m).Perm (List.range n)) : l.Pairwise (fun a b => a.seq ≠ b.seq) := by
  have h1 := (h.nodup_iff).2 List.nodup_range
  have h2 := (List.nodup_append.1 h1).1
  exact List.pairwise_map.1 h2

theorem filter_perm {l : List Tm} {t : Tm} (h : l.Pairwise (fun a b => a.seq ≠ b.seq)) (ht : t ∈ l) : l.Perm (t :: l.filter (fun x => x.seq != t.seq)) := by
  induction l with
  | nil => cases ht
  | cons a l ih =>
    rw [List.pairwise_cons] at h
    rcases List.mem_cons.1 ht with e | e
    · subst e
      rw [List.filter_cons_of_neg (by simp)]
      refine List.Perm.cons _ ?_
      rw [List.filter_eq_self.2]
      intro x hx
      have := h.1 x hx
      simp only [bne_iff_ne, ne_eq]
      exact fun e => this e.symm
    · have hne := h.1 t e
      rw [List.filter_cons_of_pos (by simpa using hne)]
      exact ((ih h.2 e).cons a).trans (List.Perm.swap _ _ _)

theorem inv_update {s : St} (h : Inv s) : Inv (update s) := by
  unfold update
  split
  · exact h
  · exact ⟨Nat.le_refl _, h.sorted, h.seqs, fun t ht => ⟨(h.tm t ht).1, (h.tm t ht).2.1, by have := (h.tm t ht).2.2; have := h.low; show _ ≤ s.clock + _; omega⟩, h.done, h.cap, h.room⟩

theorem inv_add {qsort : List Tm → List Tm} (hq : Sorts qsort) {s : St} (h : Inv s) (id i : Nat) (hi : i < 2 ^ 31) : Inv (add qsort s id i) := by
  have hp := hq.perm (s.timers ++ [⟨id, s.seq, s.timeMs + i, i, s.clock, s.clock - s.timeMs⟩])
  have hseq : ((s.timers ++ [(⟨id, s.seq, s.timeMs + i, i, s.clock, s.clock - s.timeMs⟩ : Tm)]).map (·.seq) ++ (s.fired.map (·.1.seq) ++ s.stopped.map (·.seq))).Perm (List.range (s.seq + 1)) := by
    rw [List.range_succ, List.map_append, List.append_assoc]
    refine List.Perm.trans ?_ (h.seqs.append_right [s.seq])
    rw [List.append_assoc]
    refine List.Perm.append_left _ ?_
    exact List.perm_append_comm
  refine ⟨h.low, ?_, ?_, ?_, h.done, ?_, ?_⟩
  · exact hq.sorted _ (seq_ne hseq)
  · exact ((hp.map _).append_right _).trans hseq
  · intro t ht
    rcases List.mem_append.1 (hp.mem_iff.1 ht) with e | e
    · exact h.tm t e
    · simp only [List.mem_singleton] at e
      subst e
      have := h.low
      refine ⟨⟨?_, Nat.sub_le _ _, hi⟩, Nat.le_refl _, Nat.le_refl _⟩
      show s.timeMs + i + (s.clock - s.timeMs) = s.clock + i
      omega
  · refine .inr ?_
    show (qsort _).length < _
    rw [hp.length_eq, List.length_append]
    have hr := h.room
    show s.timers.length + 1 < if s.alloc = false ∨ s.timers.length + 1 ≥ s.max then s.max * 2 else s.max
    split
    · rcases h.cap with e | e
      · rw [e]; simp; omega
      · omega
    · omega
  · have hr := h.room
    show 16 ≤ if s.alloc = false ∨ s.timers.length + 1 ≥ s.max then s.max * 2 else s.max
    split <;> omega

theorem mem_takeWhile_p {α : Type} {p : α → Bool} {l : List α} {x : α} (h : x ∈ l.takeWhile p) : p x = true := by
  induction l with
  | nil => cases h
  | cons a l ih =>
    by_cases ha : p a = true
    · rw [List.takeWhile_cons_of_pos ha] at h
      rcases List.mem_cons.1 h with e | e
      · rw [e]; exact ha
      · exact ih e
    · rw [List.takeWhile_cons_of_neg ha] at h; cases h

theorem dropWhile_head {α : Type} {p : α → Bool} {l r : List α} {x : α} (h : l.dropWhile p = x :: r) : p x = false := by
  induction l with
  | nil => cases h
  | cons a l ih =>
    by_cases ha : p a = true
    · rw [List.dropWhile_cons_of_pos ha] at h; exact ih h
    · rw [List.dropWhile_cons_of_neg ha] at h
      injection h with e _
      rw [← e]; simpa using ha

theorem hit_eq (s : St) : s.timers.drop (s.timers.takeWhile (fun t => !decide (t.timeout > s.timeMs))).length = s.timers.dropWhile (fun t => !decide (t.timeout > s.timeMs)) := by
  have h := List.takeWhile_append_dropWhile (p := fun t => !decide (t.timeout > s.timeMs)) (l := s.timers)
  calc s.timers.drop (s.timers.takeWhile (fun t => !decide (t.timeout > s.timeMs))).length
      = (s.timers.takeWhile (fun t => !decide (t.timeout > s.timeMs)) ++ s.timers.dropWhile (fun t => !decide (t.timeout > s.timeMs))).drop
          (s.timers.takeWhile (fun t => !decide (t.timeout > s.timeMs))).length := by rw [h]
    _ = _ := by rw [List.drop_left]

theorem inv_fire {s : St} (h : Inv s) : Inv (fire s) := by
  have hsplit := List.takeWhile_append_dropWhile (p := fun t : Tm => !decide (t.timeout > s.timeMs)) (l := s.timers)
  have hdrop := hit_eq s
  refine ⟨h.low, ?_, ?_, ?_, ?_, ?_, h.room⟩
  · exact h.sorted.sublist (List.drop_sublist _ _)
  · show ((s.timers.drop _).map _ ++ ((s.fired ++ _).map _ ++ _)).Perm _
    refine List.Perm.trans ?_ h.seqs
    rw [hdrop]
    conv => rhs; rw [← hsplit]
    simp only [List.map_append, List.map_map, List.append_assoc]
    have e : ((fun x : Tm × Nat => x.1.seq) ∘ fun t => (t, s.clock)) = fun t : Tm => t.seq := rfl
    rw [e]
    generalize List.map (fun t : Tm => t.seq) (s.timers.takeWhile _) = A
    generalize List.map (fun t : Tm => t.seq) (s.timers.dropWhile _) = B
    generalize List.map (fun x : Tm × Nat => x.1.seq) s.fired = C
    show (_ ++ (C ++ (A ++ List.map (fun t : Tm => t.seq) s.stopped))).Perm _
    generalize List.map (fun t : Tm => t.seq) s.stopped = D
    refine List.Perm.trans (List.perm_append_comm) ?_
    rw [List.append_assoc]
    refine List.Perm.trans (List.perm_append_comm) ?_
    simp only [List.append_assoc]
    refine List.Perm.append_left A ?_
    refine List.Perm.trans (List.perm_append_comm) ?_
    rw [List.append_assoc]
  · intro t ht
    exact h.tm t (List.mem_of_mem_drop ht)
  · intro x hx
    rcases List.mem_append.1 hx with e | e
    · exact h.done x e
    · obtain ⟨t, ht, rfl⟩ := List.mem_map.1 e
      have hd := mem_takeWhile_p ht
      have hm := (List.takeWhile_sublist _).subset ht
      have := h.low
      refine ⟨(h.tm t hm).1, ?_, Nat.le_refl _⟩
      simp at hd
      show t.timeout ≤ s.clock
      omega
  · rcases h.cap with e | e
    · left
      show s.timers.drop _ = []
      rw [e]; simp
    · right
      show (s.timers.drop _).length < s.max
      rw [List.length_drop]; omega

theorem inv_phase {s : St} (h : Inv s) (p : Phase) : Inv { s with phase := p } := ⟨h.low, h.sorted, h.seqs, h.tm, h.done, h.cap, h.room⟩

theorem inv_reset {s : St} (h : Inv s) : Inv (reset s) := ⟨h.low, h.sorted, h.seqs, h.tm, h.done, h.cap, h.room⟩

theorem inv_clock {s : St} (h : Inv s) (d : Nat) : Inv { s with clock := s.clock + d } :=
  ⟨Nat.le_trans h.low (Nat.le_add_right _ _), h.sorted, h.seqs, fun t ht => ⟨(h.tm t ht).1, Nat.le_trans (h.tm t ht).2.1 (Nat.le_add_right _ _), (h.tm t ht).2.2⟩,
    fun x hx => ⟨(h.done x hx).1, (h.done x hx).2.1, Nat.le_trans (h.done x hx).2.2 (Nat.le_add_right _ _)⟩, h.cap, h.room⟩

theorem inv_reach {qsort : List Tm → List Tm} (hq : Sorts qsort) {s : St} (h : Reach qsort s) : Inv s := by
  induction h with
  | init now =>
    refine inv_update ⟨Nat.zero_le _, List.Pairwise.nil, List.Perm.refl _, fun t ht => (by cases ht), fun x hx => (by cases hx), .inl rfl, Nat.le_refl _⟩
  | @step s s' _ hs ih =>
    cases hs with
    | busy d _ => exact inv_clock ih d
    | wait u d _ _ => exact inv_clock ih d
    | time _ => exact inv_update ih
    | reset _ => exact inv_reset ih
    | sleep id ms _ =>
      unfold sleep
      dsimp only
      split
      · rename_i hge
        refine inv_add hq (inv_update ih) id _ ?_
        have : toSigned 32 (toUnsigned 32 ms) < 2 ^ 31 := by unfold toSigned toUnsigned; split <;> omega
        omega
      · exact ⟨ih.low, ih.sorted, ih.seqs, ih.tm, ih.done, ih.cap, ih.room⟩
    | stop t _ ht =>
      refine ⟨ih.low, ih.sorted.sublist List.filter_sublist, ?_, fun x hx => ih.tm x (List.mem_filter.1 hx).1, ih.done, ?_, ih.room⟩
      · refine List.Perm.trans ?_ ih.seqs
        have hp := (filter_perm (seq_ne ih.seqs) ht).map (fun x : Tm => x.seq)
        refine List.Perm.trans ?_ (hp.symm.append_right _)
        show (List.map _ (s.timers.filter _) ++ (List.map _ s.fired ++ List.map _ (s.stopped ++ [t]))).Perm _
        simp only [List.map_append, List.map_cons, List.map_nil, List.cons_append]
        rw [← List.append_assoc, ← List.append_assoc]
        refine List.Perm.trans (List.perm_append_comm) ?_
        simp
      · rcases ih.cap with e | e
        · rw [e] at ht; cases ht
        · right
          exact Nat.lt_of_le_of_lt (List.length_filter_le _ _) e
    | toPoll _ =>
      unfold toPoll
      dsimp only
      split
      · exact inv_phase (inv_reset ih) _
      · exact inv_phase (inv_fire (inv_update (inv_reset ih))) _
    | back u _ => exact inv_phase ih _

/-! ## C98 -/

/-- `a` is due before `b`, or at the same time and was started before it -/
def Before (a b : Tm) : Prop := a.timeout < b.timeout ∨ (a.timeout = b.timeout ∧ a.seq < b.seq)

theorem before_of {l : List Tm} (h1 : l.Pairwise (fun a b => cmp a b < 0)) (h2 : l.Pairwise (fun a b => a.seq ≠ b.seq)) : l.Pairwise Before :=
  (h1.and h2).imp (fun h => (cmp_neg h.2).1 h.1)

theorem update_reset (s : St) : update (reset s) = { s with timeMs := s.clock, cached := true } := by
  simp [update, reset]

theorem toPoll_nil {s : St} (h : s.timers = []) : toPoll s = { reset s with phase := .poll none } := by
  unfold toPoll
  rw [if_pos (show (reset s).timers = [] from h)]

theorem toPoll_cons {s : St} (h : s.timers ≠ []) :
    toPoll s = { fire { s with timeMs := s.clock, cached := true } with phase := .poll ((timeout { s with timeMs := s.clock, cached := true }).map (s.clock + ·)) } := by
  unfold toPoll
  rw [if_neg (show ¬ (reset s).timers = [] from h), update_reset]

/-- Each time all coroutines wait, exactly the timers that are due fire: in the order of their time, those with the same time in the order in which they were started. -/
theorem C98_fires {qsort : List Tm → List Tm} (hq : Sorts qsort) {s : St} (h : Reach qsort s) :
    ∃ hit, s.timers = hit ++ (toPoll s).timers ∧ (toPoll s).fired = s.fired ++ hit.map (fun t => (t, s.clock)) ∧
      (∀ t ∈ hit, t.timeout ≤ s.clock) ∧ (∀ t ∈ (toPoll s).timers, s.clock < t.timeout) ∧ hit.Pairwise Before := by
  have hi := inv_reach hq h
  have hb := before_of hi.sorted (seq_ne hi.seqs)
  by_cases e : s.timers = []
  · refine ⟨[], ?_, ?_, fun t ht => (by cases ht), ?_, List.Pairwise.nil⟩
    · rw [toPoll_nil e]; rfl
    · rw [toPoll_nil e]; simp [reset]
    · rw [toPoll_nil e]
      intro t ht
      rw [show ({ reset s with phase := Phase.poll none } : St).timers = s.timers from rfl, e] at ht
      cases ht
  · rw [toPoll_cons e]
    have hd := hit_eq { s with timeMs := s.clock, cached := true }
    have hsplit := List.takeWhile_append_dropWhile (p := fun t : Tm => !decide (t.timeout > s.clock)) (l := s.timers)
    have hb' := hb
    rw [← hsplit] at hb'
    refine ⟨s.timers.takeWhile (fun t => !decide (t.timeout > s.clock)), ?_, rfl, ?_, ?_, ?_⟩
    · show s.timers = _ ++ s.timers.drop (s.timers.takeWhile (fun t => !decide (t.timeout > s.clock))).length
      rw [hd]; exact hsplit.symm
    · intro t ht
      have := mem_takeWhile_p ht
      simp at this
      exact this
    · intro t ht
      have ht' : t ∈ s.timers.dropWhile (fun t => !decide (t.timeout > s.clock)) := by
        have : t ∈ s.timers.drop (s.timers.takeWhile (fun t => !decide (t.timeout > s.clock))).length := ht
        rw [hd] at this; exact this
      cases hdw : s.timers.dropWhile (fun t => !decide (t.timeout > s.clock)) with
      | nil => rw [hdw] at ht'; cases ht'
      | cons x r =>
        have hx := dropWhile_head hdw
        simp at hx
        rw [hdw] at ht' hb'
        rcases List.mem_cons.1 ht' with e | e
        · rw [e]; exact hx
        · have := (List.pairwise_cons.1 (List.pairwise_append.1 hb').2.1).1 t e
          unfold Before at this
          omega
    · exact (List.pairwise_append.1 hb').1

/-- Each timer that was started is waiting, or has fired, or was stopped, and only one of these, once. -/
theorem C98_once {qsort : List Tm → List Tm} (hq : Sorts qsort) {s : St} (h : Reach qsort s) :
    (s.timers.map (·.seq) ++ (s.fired.map (·.1.seq) ++ s.stopped.map (·.seq))).Perm (List.range s.seq) := (inv_reach hq h).seqs

/-- The array of timers is large enough. -/
theorem C98_capacity {qsort : List Tm → List Tm} (hq : Sorts qsort) {s : St} (h : Reach qsort s) : s.timers.length < s.max := by
  have hi := inv_reach hq h
  rcases hi.cap with e | e
  · have := hi.room; rw [e]; simp; omega
  · exact e

/-- A sleep of `ms` milliseconds, up to 2147483647, starts one timer, for the time that is known plus `ms`. -/
theorem C98_start {qsort : List Tm → List Tm} (hq : Sorts qsort) (s : St) (id : Nat) (ms : Nat) (hms : ms < 2 ^ 31) :
    (sleep qsort s id ms).timers.Perm (⟨id, s.seq, (update s).timeMs + ms, ms, s.clock, s.clock - (update s).timeMs⟩ :: s.timers) := by
  have e : toSigned 32 (toUnsigned 32 (ms : Int)) = ms := wrap32 (by omega) (by omega)
  have e1 : (update s).timers = s.timers := by unfold update; split <;> rfl
  have e2 : (update s).seq = s.seq := by unfold update; split <;> rfl
  have e3 : (update s).clock = s.clock := by unfold update; split <;> rfl
  unfold sleep
  dsimp only
  rw [e, if_pos (by omega), Int.toNat_natCast]
  refine (hq.perm _).trans ?_
  rw [e1, e2, e3]
  exact List.perm_append_comm

/-- A sleep does not end before its time, up to the age of the time it was started with: that is 0 if nobody has asked for the time since the task last came out of epoll with no timers. -/
theorem C98_duration_partial {qsort : List Tm → List Tm} (hq : Sorts qsort) {s : St} (h : Reach qsort s) {t : Tm} {at_ : Nat} (ht : (t, at_) ∈ s.fired) :
    t.start + t.interval ≤ at_ + t.lag ∧ t.start ≤ at_ + t.lag ∧ (t.lag = 0 → t.start + t.interval ≤ at_) := by
  obtain ⟨⟨h1, h2, h3⟩, h4, h5⟩ := (inv_reach hq h).done _ ht
  dsimp only at h1 h2 h3 h4 h5
  refine ⟨?_, ?_, ?_⟩ <;> omega

/-- The task does not sleep over a timer: it waits until the first one at most, and not at all if one has fired. (For timers overdue by less than 2^31 ms.) -/
theorem C98_not_overslept_partial {qsort : List Tm → List Tm} (hq : Sorts qsort) {s : St} (h : Reach qsort s) (hlate : ∀ t ∈ s.timers, s.clock ≤ t.timeout + 2 ^ 31) :
    ∃ u, (toPoll s).phase = .poll u ∧ (∀ t ∈ (toPoll s).timers, ∃ x, u = some x ∧ x ≤ t.timeout) ∧ ((toPoll s).fired ≠ s.fired → u = some s.clock) ∧
      (s.timers = [] → u = none) := by
  have hi := inv_reach hq h
  have hb := before_of hi.sorted (seq_ne hi.seqs)
  obtain ⟨hit, h1, h2, h3, h4, h5⟩ := C98_fires hq h
  cases e : s.timers with
  | nil =>
    refine ⟨none, by rw [toPoll_nil e], ?_, ?_, fun _ => rfl⟩
    · intro t ht
      rw [toPoll_nil e, show ({ reset s with phase := Phase.poll none } : St).timers = s.timers from rfl, e] at ht
      cases ht
    · intro hf
      exact absurd (by rw [toPoll_nil e]; rfl) hf
  | cons a l =>
    have hne : s.timers ≠ [] := by rw [e]; simp
    have ha : a ∈ s.timers := by rw [e]; simp
    have hphase : (toPoll s).phase = .poll (some (s.clock + if diff a s.clock ≤ 0 then 0 else (diff a s.clock).toNat)) := by
      rw [toPoll_cons hne]
      show Phase.poll ((timeout { s with timeMs := s.clock, cached := true }).map (s.clock + ·)) = _
      unfold timeout
      dsimp only
      rw [e]; rfl
    have hd : diff a s.clock = (a.timeout : Int) - (s.clock : Int) := by
      unfold diff
      obtain ⟨⟨k1, k2, k3⟩, k4, k5⟩ := hi.tm a ha
      have := hlate a ha
      have := hi.low
      exact wrap32 (by omega) (by omega)
    refine ⟨_, hphase, ?_, ?_, fun hn => (by cases hn)⟩
    · intro t ht
      refine ⟨_, rfl, ?_⟩
      have h6 := h4 t ht
      have h7 : a.timeout ≤ t.timeout := by
        have hm : t ∈ s.timers := by rw [h1]; exact List.mem_append_right _ ht
        rw [e] at hm hb
        rcases List.mem_cons.1 hm with q | q
        · rw [q]; exact Nat.le_refl _
        · have := (List.pairwise_cons.1 hb).1 t q
          unfold Before at this
          omega
      rw [hd]
      split <;> omega
    · intro hf
      have : hit ≠ [] := by
        intro e0
        rw [h2, e0] at hf
        exact hf (by simp)
      cases hit with
      | nil => exact absurd rfl this
      | cons b r =>
        rw [e] at h1
        injection h1 with e1 _
        have := h3 b (by simp)
        rw [← e1] at this
        rw [hd, if_pos (by omega)]; rfl

/-! ## a qsort -/

def ins (t : Tm) : List Tm → List Tm
  | [] => [t]
  | x :: l => if cmp t x < 0 then t :: x :: l else x :: ins t l

def isort : List Tm → List Tm
  | [] => []
  | t :: l => ins t (isort l)

theorem ins_perm (t : Tm) (l : List Tm) : (ins t l).Perm (t :: l) := by
  induction l with
  | nil => exact List.Perm.refl _
  | cons x l ih =>
    unfold ins
    split
    · exact List.Perm.refl _
    · exact (ih.cons x).trans (List.Perm.swap _ _ _)

theorem isort_perm (l : List Tm) : (isort l).Perm l := by
  induction l with
  | nil => exact List.Perm.refl _
  | cons t l ih => exact (ins_perm t _).trans (ih.cons t)

theorem ins_before {t : Tm} {l : List Tm} (h : l.Pairwise Before) (hne : ∀ x ∈ l, t.seq ≠ x.seq) : (ins t l).Pairwise Before := by
  induction l with
  | nil => simp [ins]
  | cons x l ih =>
    have hx := hne x (by simp)
    rw [List.pairwise_cons] at h
    unfold ins
    split
    · rename_i hc
      rw [cmp_neg hx] at hc
      refine List.pairwise_cons.2 ⟨?_, List.pairwise_cons.2 h⟩
      intro y hy
      rcases List.mem_cons.1 hy with e | e
      · rw [e]; exact hc
      · have := h.1 y e
        unfold Before at this ⊢
        omega
    · rename_i hc
      rw [cmp_neg hx] at hc
      refine List.pairwise_cons.2 ⟨?_, ih h.2 (fun y hy => hne y (List.mem_cons_of_mem _ hy))⟩
      intro y hy
      rcases List.mem_cons.1 ((ins_perm t l).mem_iff.1 hy) with e | e
      · rw [e]; unfold Before; omega
      · exact h.1 y e

theorem isort_sorts : Sorts isort := by
  refine ⟨isort_perm, ?_⟩
  intro l hl
  have key : (isort l).Pairwise Before := by
    induction l with
    | nil => exact List.Pairwise.nil
    | cons t l ih =>
      rw [List.pairwise_cons] at hl
      exact ins_before (ih hl.2) (fun x hx => hl.1 x ((isort_perm l).mem_iff.1 hx))
  have hne : (isort l).Pairwise (fun a b => a.seq ≠ b.seq) :=
    (List.Perm.pairwise_iff (fun {a b} h => Ne.symm h) (isort_perm l)).2 hl
  exact (key.and hne).imp (fun h => (cmp_neg h.2).2 h.1)

/-! ## where it is false -/

/-- The time is old: another session sleeps for an hour, the task has waited in epoll for ten minutes, and a sleep of a second ends at once. -/
theorem C98_early_false : ∃ s, Reach isort s ∧ ∃ t at_, (t, at_) ∈ s.fired ∧ t.interval = 1000 ∧ t.start = 600000 ∧ at_ = 600000 := by
  refine ⟨_, .step (.step (.step (.step (.step (.step (.init 0) (.sleep 1 3600000 rfl)) (.toPoll rfl)) (.wait (some 3600000) 600000 rfl ?_)) (.back (some 3600000) rfl))
    (.sleep 2 1000 rfl)) (.toPoll rfl), ⟨2, 1, 1000, 1000, 600000, 600000⟩, 600000, ?_, rfl, rfl, rfl⟩
  · intro x hx; injection hx with hx; subst hx; decide
  · decide

/-- In the same way the time a statement gets (now(), the expiry of tokens) may be ten minutes old. -/
theorem C98_time_false : ∃ s, Reach isort s ∧ s.phase = .run ∧ s.clock = 600000 ∧ (update s).timeMs = 0 := by
  refine ⟨_, .step (.step (.step (.step (.init 0) (.sleep 1 3600000 rfl)) (.toPoll rfl)) (.wait (some 3600000) 600000 rfl ?_)) (.back (some 3600000) rfl), rfl, rfl, rfl⟩
  intro x hx; injection hx with hx; subst hx; decide

/-- The time is that of the clock if the task came out of epoll with no timers and nobody has asked for it. -/
theorem C98_time_partial {s : St} (h : s.timers = []) (d : Nat) : (update { toPoll s with clock := (toPoll s).clock + d }).timeMs = s.clock + d := by
  rw [toPoll_nil h]; rfl

/-- sleep(-1) has no timer: it waits until it is cancelled. -/
theorem C98_negative_false : ∃ s, Reach isort s ∧ s.forever = [1] ∧ s.timers = [] ∧ s.phase = .poll none :=
  ⟨_, .step (.step (.init 0) (.sleep 1 (-1) rfl)) (.toPoll rfl), rfl, rfl, rfl⟩

/-- So does sleep(2147483648), 25 days, and sleep(4294967296) ends at once: the argument is cut to 32 bits. -/
theorem C98_cut_false : (∃ s, Reach isort s ∧ s.forever = [1] ∧ s.timers = [] ∧ s.phase = .poll none ∧ s = toPoll (sleep isort (init 0) 1 2147483648)) ∧
    (∃ s, Reach isort s ∧ s = toPoll (sleep isort (init 0) 1 4294967296) ∧ ∃ t, s.fired = [(t, 0)] ∧ t.start = 0) :=
  ⟨⟨_, .step (.step (.init 0) (.sleep 1 2147483648 rfl)) (.toPoll rfl), rfl, rfl, rfl, rfl⟩,
   ⟨_, .step (.step (.init 0) (.sleep 1 4294967296 rfl)) (.toPoll rfl), rfl, _, rfl, rfl⟩⟩

/-- A clock that is set forward by 25 days: the timer fires, but the task then waits in epoll for 25 days with a coroutine that could run. -/
theorem C98_jump_false : ∃ s, Reach isort s ∧ (∃ t at_, s.fired = [(t, at_)]) ∧ s.phase = .poll (some (s.clock + 2147483647)) := by
  refine ⟨_, .step (.step (.step (.init 0) (.sleep 1 1000 rfl)) (.busy 2147484649 rfl)) (.toPoll rfl), ⟨⟨1, 0, 1000, 1000, 0, 0⟩, 2147484649, ?_⟩, ?_⟩
  · exact rfl
  · exact rfl

/-! ## examples -/

/-- three timers, two due -/
private def three : St := sleep isort (sleep isort (sleep isort (init 5) 1 20) 2 10) 3 10

private theorem three_reach : Reach isort { three with clock := 5 + 10 } :=
  .step (.step (.step (.step (.init 5) (.sleep 1 20 rfl)) (.sleep 2 10 rfl)) (.sleep 3 10 rfl)) (.busy 10 rfl)

example : (toPoll { three with clock := 5 + 10 }).fired.map (fun x => (x.1.id, x.2)) = [(2, 15), (3, 15)] := by decide
example : (toPoll { three with clock := 5 + 10 }).timers.map (·.id) = [1] := by decide
example : Sorts isort ∧ Reach isort { three with clock := 5 + 10 } ∧ (∀ t ∈ ({ three with clock := 5 + 10 } : St).timers, ({ three with clock := 5 + 10 } : St).clock ≤ t.timeout + 2 ^ 31) :=
  ⟨isort_sorts, three_reach, by decide⟩

end Verif.Timer
