import Verif.Bus.Proofs
/-!
# Messages on their way, and the wake up of the task (C97)
-/
set_option autoImplicit false
set_option linter.unusedSimpArgs false
set_option linter.unusedVariables false
set_option linter.unusedSectionVars false
namespace Verif.Bus
variable {P M : Type} [DecidableEq P] [DecidableEq M]

/-- slots whose message has been handed over -/
def doneOf (cpc : Cpc M) (read : Nat) : Nat :=
  match cpc with
  | .hold _ | .given _ => read - 1
  | _ => read

/-- the messages of the slots that are not done -/
def flying (cpc : Cpc M) (read : Nat) (log : List (P × M)) : List M := (log.drop (doneOf cpc read)).map Prod.snd

structure Refs (refs : M → Nat) (pc : P → Pc M) (fly : List M) : Prop where
  nodup : fly.Nodup
  fresh : ∀ p m, pc p = .ref m → m ∉ fly
  apart : ∀ p q m, pc p = .ref m → pc q = .ref m → p = q
  iff : ∀ m, refs m ≠ 0 ↔ m ∈ fly ∨ ∃ p, pc p = .ref m

def isRef : Pc M → Prop
  | .ref _ => True
  | _ => False

theorem refs_pc {refs : M → Nat} {pc : P → Pc M} {fly : List M} (h : Refs refs pc fly) (p : P) (c : Pc M) (h1 : ∀ m, pc p ≠ .ref m) (h2 : ∀ m, c ≠ .ref m) : Refs refs (upd pc p c) fly := by
  have e : ∀ q m, upd pc p c q = .ref m ↔ pc q = .ref m := by
    intro q m
    by_cases e : q = p
    · subst e; rw [upd_self]; exact ⟨fun x => absurd x (h2 m), fun x => absurd x (h1 m)⟩
    · rw [upd_ne _ _ e]
  refine ⟨h.nodup, ?_, ?_, ?_⟩
  · intro q m hq; exact h.fresh q m ((e q m).1 hq)
  · intro q q' m h1 h2; exact h.apart q q' m ((e q m).1 h1) ((e q' m).1 h2)
  · intro m
    rw [h.iff m]
    simp only [e]

theorem fly_head {cpc : Cpc M} {read : Nat} {log : List (P × M)} {p : P} {m : M} (hr : 1 ≤ read) (hl : log[read - 1]? = some (p, m)) :
    (log.drop (read - 1)).map Prod.snd = m :: (log.drop read).map Prod.snd := by
  have hlt := (List.getElem?_eq_some_iff.1 hl).1
  have he := (List.getElem?_eq_some_iff.1 hl).2
  rw [List.drop_eq_getElem_cons hlt, he, List.map_cons, Nat.sub_add_cancel hr]

/-- what the task has in hand is the last slot it read -/
def Hand (cpc : Cpc M) (read : Nat) (log : List (P × M)) : Prop := ∀ m, cpc = .hold m ∨ cpc = .given m → 1 ≤ read ∧ ∃ p, log[read - 1]? = some (p, m)

theorem refs_step {n : Nat} {s s' : St P M} (hr : Ring (2 ^ n) s.claim s.read s.write s.ring s.pc s.cpc s.log s.delivered) (hh : Hand s.cpc s.read s.log)
    (h : Refs s.refs s.pc (flying s.cpc s.read s.log)) (hs : Step (2 ^ n) s s') : Hand s'.cpc s'.read s'.log ∧ Refs s'.refs s'.pc (flying s'.cpc s'.read s'.log) := by
  have quiet : ∀ (c : Cpc M), doneOf s.cpc s.read = s.read → doneOf c s.read = s.read → (∀ m, c ≠ .hold m) → (∀ m, c ≠ .given m) →
      Hand c s.read s.log ∧ Refs s.refs s.pc (flying c s.read s.log) := by
    intro c h1 h2 h3 h4
    refine ⟨fun m e => ?_, ?_⟩
    · rcases e with e | e
      · exact absurd e (h3 m)
      · exact absurd e (h4 m)
    · unfold flying at h ⊢
      rw [h2, ← h1]; exact h
  cases hs with
  | send p m hp h0 =>
    refine ⟨hh, ?_⟩
    have hno : ¬ (m ∈ flying s.cpc s.read s.log ∨ ∃ q, s.pc q = .ref m) := fun e => (h.iff m).2 e h0
    show Refs (upd s.refs m 1) (upd s.pc p (.ref m)) (flying s.cpc s.read s.log)
    refine ⟨h.nodup, ?_, ?_, ?_⟩
    · intro q x hq
      by_cases e : q = p
      · subst e; rw [upd_self] at hq; cases hq; exact fun e => hno (.inl e)
      · rw [upd_ne _ _ e] at hq; exact h.fresh q x hq
    · intro q q' x h1 h2
      by_cases e : q = p
      · by_cases e' : q' = p
        · rw [e, e']
        · subst e; rw [upd_self] at h1; cases h1
          rw [upd_ne _ _ e'] at h2
          exact absurd (.inr ⟨q', h2⟩) hno
      · rw [upd_ne _ _ e] at h1
        by_cases e' : q' = p
        · subst e'; rw [upd_self] at h2; cases h2
          exact absurd (.inr ⟨q, h1⟩) hno
        · rw [upd_ne _ _ e'] at h2; exact h.apart q q' x h1 h2
    · intro x
      by_cases e : x = m
      · subst e
        rw [upd_self]
        exact ⟨fun _ => .inr ⟨p, upd_self _ _ _⟩, fun _ => by simp⟩
      · rw [upd_ne _ _ e, h.iff x]
        constructor
        · rintro (a | ⟨q, a⟩)
          · exact .inl a
          · refine .inr ⟨q, ?_⟩
            rw [upd_ne]
            · exact a
            · rintro rfl; rw [hp] at a; cases a
        · rintro (a | ⟨q, a⟩)
          · exact .inl a
          · by_cases e' : q = p
            · subst e'; rw [upd_self] at a; cases a; exact absurd rfl e
            · rw [upd_ne _ _ e'] at a; exact .inr ⟨q, a⟩
  | skip p m hp h0 =>
    refine ⟨hh, ?_⟩
    show Refs (upd s.refs m (s.refs m + 1)) s.pc (flying s.cpc s.read s.log)
    refine ⟨h.nodup, h.fresh, h.apart, ?_⟩
    intro x
    by_cases e : x = m
    · subst e
      rw [upd_self, ← h.iff x]
      simp [h0]
    · rw [upd_ne _ _ e]; exact h.iff x
  | claim p m hp =>
    have hread : s.read ≤ s.log.length := by have := hr.rw'; have := hr.wc; have := hr.cl; omega
    have hd : doneOf s.cpc s.read ≤ s.log.length := by unfold doneOf; split <;> omega
    have hf : flying s.cpc s.read (s.log ++ [(p, m)]) = flying s.cpc s.read s.log ++ [m] := by
      unfold flying
      rw [List.drop_append_of_le_length hd, List.map_append]; rfl
    constructor
    · intro x e
      obtain ⟨a, q, b⟩ := hh x e
      refine ⟨a, q, ?_⟩
      rw [List.getElem?_append_left (List.getElem?_eq_some_iff.1 b).1]; exact b
    · show Refs s.refs (upd s.pc p (.claimed m s.claim)) (flying s.cpc s.read (s.log ++ [(p, m)]))
      rw [hf]
      have back : ∀ q x, upd s.pc p (.claimed m s.claim) q = .ref x → q ≠ p ∧ s.pc q = .ref x := by
        intro q x hq
        by_cases e : q = p
        · subst e; rw [upd_self] at hq; cases hq
        · rw [upd_ne _ _ e] at hq; exact ⟨e, hq⟩
      refine ⟨?_, ?_, ?_, ?_⟩
      · rw [List.nodup_append]
        refine ⟨h.nodup, by simp, ?_⟩
        intro a ha b hb
        simp only [List.mem_singleton] at hb
        subst hb
        rintro rfl
        exact h.fresh p a hp ha
      · intro q x hq
        obtain ⟨e, hq'⟩ := back q x hq
        simp only [List.mem_append, List.mem_singleton]
        rintro (a | rfl)
        · exact h.fresh q x hq' a
        · exact e (h.apart q p x hq' hp)
      · intro q q' x h1 h2
        exact h.apart q q' x (back q x h1).2 (back q' x h2).2
      · intro x
        rw [h.iff x]
        simp only [List.mem_append, List.mem_singleton]
        constructor
        · rintro (a | ⟨q, a⟩)
          · exact .inl (.inl a)
          · by_cases e : q = p
            · subst e; rw [hp] at a; cases a; exact .inl (.inr rfl)
            · exact .inr ⟨q, by rw [upd_ne _ _ e]; exact a⟩
        · rintro ((a | rfl) | ⟨q, a⟩)
          · exact .inl a
          · exact .inr ⟨p, hp⟩
          · exact .inr ⟨q, (back q x a).2⟩
  | room p m k hp hk => exact ⟨hh, refs_pc h p _ (by rw [hp]; simp) (by simp)⟩
  | store p m k hp => exact ⟨hh, refs_pc h p _ (by rw [hp]; simp) (by simp)⟩
  | turn p m k hp hk => exact ⟨hh, refs_pc h p _ (by rw [hp]; simp) (by simp)⟩
  | publish p m k hp => exact ⟨hh, refs_pc h p _ (by rw [hp]; simp) (by simp)⟩
  | check p hp => exact ⟨hh, refs_pc h p _ (by rw [hp]; simp) (by intro m; split <;> simp)⟩
  | signal p hp => exact ⟨hh, refs_pc h p _ (by rw [hp]; simp) (by intro m; split <;> simp)⟩
  | writefd p hp => exact ⟨hh, refs_pc h p _ (by rw [hp]; simp) (by simp)⟩
  | empty hc _ => exact quiet _ (by rw [hc]; rfl) rfl (by simp) (by simp)
  | get hc hne => exact quiet _ (by rw [hc]; rfl) rfl (by simp) (by simp)
  | advance o hc =>
    obtain ⟨-, p, m, rfl, hl⟩ := hr.got o hc
    refine ⟨fun x e => ?_, ?_⟩
    · have : x = m := by
        rcases e with e | e
        · injection e with e; exact e.symm
        · cases e
      subst this
      exact ⟨Nat.le_add_left _ _, p, hl⟩
    · have : flying (.hold m) (s.read + 1) s.log = flying s.cpc s.read s.log := by unfold flying; rw [hc]; rfl
      show Refs s.refs s.pc (flying (.hold m) (s.read + 1) s.log)
      rw [this]; exact h
  | deliver m hc =>
    refine ⟨fun x e => ?_, ?_⟩
    · have : x = m := by
        rcases e with e | e
        · cases e
        · injection e with e; exact e.symm
      subst this
      exact hh x (.inl hc)
    · have : flying (.given m) s.read s.log = flying s.cpc s.read s.log := by unfold flying; rw [hc]; rfl
      show Refs s.refs s.pc (flying (.given m) s.read s.log)
      rw [this]; exact h
  | unref m hc =>
    obtain ⟨hone, p, hl⟩ := hh m (.inr hc)
    have hf : flying s.cpc s.read s.log = m :: flying (.step) s.read s.log := by
      unfold flying
      rw [hc]
      exact fly_head (cpc := s.cpc) hone hl
    rw [hf] at h
    refine ⟨fun x e => (by rcases e with e | e <;> cases e), ?_⟩
    obtain ⟨hm, hnd⟩ := List.nodup_cons.1 h.nodup
    show Refs (upd s.refs m 0) s.pc (flying .step s.read s.log)
    refine ⟨hnd, fun q x hq hx => h.fresh q x hq (List.mem_cons_of_mem _ hx), h.apart, ?_⟩
    intro x
    by_cases e : x = m
    · subst e
      rw [upd_self]
      refine ⟨fun a => absurd rfl a, ?_⟩
      rintro (a | ⟨q, a⟩)
      · exact absurd a hm
      · exact absurd (List.mem_cons_self) (h.fresh q x a)
    · rw [upd_ne _ _ e, h.iff x]
      constructor
      · rintro (a | a)
        · rcases List.mem_cons.1 a with a | a
          · exact absurd a e
          · exact .inl a
        · exact .inr a
      · rintro (a | a)
        · exact .inl (List.mem_cons_of_mem _ a)
        · exact .inr a
  | retry hc _ => exact quiet _ (by rw [hc]; rfl) rfl (by simp) (by simp)
  | idle hc _ => exact quiet _ (by rw [hc]; rfl) rfl (by simp) (by simp)
  | setSleep hc => exact quiet _ (by rw [hc]; rfl) rfl (by simp) (by simp)
  | again hc _ => exact quiet _ (by rw [hc]; rfl) rfl (by simp) (by simp)
  | block hc _ => exact quiet _ (by rw [hc]; rfl) rfl (by simp) (by simp)
  | readfd hc _ => exact quiet _ (by rw [hc]; rfl) rfl (by simp) (by simp)
  | other hc => exact quiet _ (by rw [hc]; rfl) rfl (by simp) (by simp)
  | release hc => exact quiet _ (by rw [hc]; rfl) rfl (by simp) (by simp)
  | wake hc => exact quiet _ (by rw [hc]; rfl) rfl (by simp) (by simp)

theorem refs_reach {n : Nat} {s : St P M} (h : Reach (2 ^ n) s) : Hand s.cpc s.read s.log ∧ Refs s.refs s.pc (flying s.cpc s.read s.log) := by
  induction h with
  | init =>
    refine ⟨fun m e => (by rcases e with e | e <;> cases e), ⟨List.nodup_nil, ?_, ?_, ?_⟩⟩
    · intro p m e; cases e
    · intro p q m e; cases e
    · intro m
      refine ⟨fun e => absurd rfl e, ?_⟩
      rintro (e | ⟨p, e⟩)
      · exact absurd e (by simp [init, flying])
      · cases e
  | step hr hs ih => exact refs_step (ring_reach hr) ih.1 ih.2 hs

/-! ## the sends of a thread -/

def pendingOf : Pc M → List M
  | .ref m => [m]
  | _ => []

def of (p : P) (l : List (P × M)) : List M := (l.filter fun x => decide (x.1 = p)).map Prod.snd

theorem of_append (p : P) (l : List (P × M)) (x : P × M) : of p (l ++ [x]) = of p l ++ (if x.1 = p then [x.2] else []) := by
  unfold of
  by_cases h : x.1 = p <;> simp [List.filter_append, h]

theorem sent_reach {n : Nat} {s : St P M} (h : Reach n s) : ∀ p, of p s.accepted = of p s.log ++ pendingOf (s.pc p) := by
  induction h with
  | init => intro p; rfl
  | @step s s' _ hs ih =>
    have quiet : ∀ (p : P) (c : Pc M), pendingOf (s.pc p) = [] → pendingOf c = [] → ∀ q, of q s.accepted = of q s.log ++ pendingOf (upd s.pc p c q) := by
      intro p c h1 h2 q
      by_cases e : q = p
      · subst e; rw [upd_self, h2, ← h1]; exact ih q
      · rw [upd_ne _ _ e]; exact ih q
    cases hs with
    | send p m hp _ =>
      intro q
      simp only [of_append]
      by_cases e : q = p
      · subst e
        have := ih q
        rw [hp] at this
        simp [upd_self, pendingOf, this]
      · simp [upd_ne _ _ e, Ne.symm e, ih q]
    | claim p m hp =>
      intro q
      simp only [of_append]
      by_cases e : q = p
      · subst e
        have := ih q
        rw [hp] at this
        simp [upd_self, pendingOf, this]
      · simp [upd_ne _ _ e, Ne.symm e, ih q]
    | room p m k hp _ => exact quiet p _ (by rw [hp]; rfl) rfl
    | store p m k hp => exact quiet p _ (by rw [hp]; rfl) rfl
    | turn p m k hp _ => exact quiet p _ (by rw [hp]; rfl) rfl
    | publish p m k hp => exact quiet p _ (by rw [hp]; rfl) rfl
    | check p hp => exact quiet p _ (by rw [hp]; rfl) (by split <;> rfl)
    | signal p hp => exact quiet p _ (by rw [hp]; rfl) (by split <;> rfl)
    | writefd p hp => exact quiet p _ (by rw [hp]; rfl) rfl
    | _ => exact ih

/-! ## the wake up -/

/-- the thread is going to look at `sleep`, to signal or to write -/
def waking : Pc M → Prop
  | .check | .signal | .writefd => True
  | _ => False

structure Wake (s : St P M) : Prop where
  asleep : s.cpc = .check2 ∨ s.cpc = .poll → s.sleep = true
  sig : s.signaled = true → s.counter = true ∨ (∃ p, s.pc p = .writefd) ∨ s.cpc = .release
  wake : s.cpc = .poll → s.read ≠ s.write → s.counter = true ∨ ∃ p, waking (s.pc p)

theorem wake_pc {s : St P M} (h : Wake s) (p : P) (c : Pc M) (h1 : ¬ waking (s.pc p)) : Wake { s with pc := upd s.pc p c } := by
  have hw : ∀ q, waking (s.pc q) → upd s.pc p c q = s.pc q := by
    intro q hq
    rw [upd_ne]
    rintro rfl; exact h1 hq
  refine ⟨h.asleep, ?_, ?_⟩
  · intro e
    rcases h.sig e with a | ⟨q, a⟩ | a
    · exact .inl a
    · refine .inr (.inl ⟨q, ?_⟩)
      show upd s.pc p c q = _
      rw [hw q (by rw [a]; trivial)]; exact a
    · exact .inr (.inr a)
  · intro e1 e2
    rcases h.wake e1 e2 with a | ⟨q, a⟩
    · exact .inl a
    · refine .inr ⟨q, ?_⟩
      show waking (upd s.pc p c q)
      rw [hw q a]; exact a

theorem wake_cpc {s : St P M} (h : Wake s) (c : Cpc M) (hr : s.cpc ≠ .release) (h1 : c ≠ .check2) (h2 : c ≠ .poll) : Wake { s with cpc := c } := by
  refine ⟨?_, ?_, ?_⟩
  · rintro (e | e)
    · exact absurd e h1
    · exact absurd e h2
  · intro e
    rcases h.sig e with a | a | a
    · exact .inl a
    · exact .inr (.inl a)
    · exact absurd a hr
  · intro e; exact absurd e h2

theorem wake_step {n : Nat} {s s' : St P M} (h : Wake s) (hs : Step n s s') : Wake s' := by
  cases hs with
  | send p m hp _ =>
    obtain ⟨a, b, c⟩ := wake_pc h p (.ref m) (by rw [hp]; exact id)
    exact ⟨a, b, c⟩
  | skip p m _ _ => exact ⟨h.asleep, h.sig, h.wake⟩
  | claim p m hp =>
    obtain ⟨a, b, c⟩ := wake_pc h p (.claimed m s.claim) (by rw [hp]; exact id)
    exact ⟨a, b, c⟩
  | room p m k hp _ => exact wake_pc h p _ (by rw [hp]; exact id)
  | store p m k hp =>
    obtain ⟨a, b, c⟩ := wake_pc h p (.wrote m k) (by rw [hp]; exact id)
    exact ⟨a, b, c⟩
  | turn p m k hp _ => exact wake_pc h p _ (by rw [hp]; exact id)
  | publish p m k hp =>
    obtain ⟨a, b, c⟩ := wake_pc h p .check (by rw [hp]; exact id)
    refine ⟨a, b, ?_⟩
    intro _ _
    refine .inr ⟨p, ?_⟩
    show waking (upd s.pc p Pc.check p)
    rw [upd_self]; trivial
  | check p hp =>
    refine ⟨h.asleep, ?_, ?_⟩
    · intro e
      rcases h.sig e with a | ⟨q, a⟩ | a
      · exact .inl a
      · refine .inr (.inl ⟨q, ?_⟩)
        show upd s.pc p _ q = _
        rw [upd_ne]
        · exact a
        · rintro rfl; rw [hp] at a; cases a
      · exact .inr (.inr a)
    · intro e1 e2
      have hsl := h.asleep (.inr e1)
      refine .inr ⟨p, ?_⟩
      show waking (upd s.pc p _ p)
      rw [upd_self, hsl]; trivial
  | signal p hp =>
    refine ⟨h.asleep, ?_, ?_⟩
    · intro _
      by_cases e : s.signaled = true
      · rcases h.sig e with a | ⟨q, a⟩ | a
        · exact .inl a
        · refine .inr (.inl ⟨q, ?_⟩)
          show upd s.pc p _ q = _
          rw [upd_ne]
          · exact a
          · rintro rfl; rw [hp] at a; cases a
        · exact .inr (.inr a)
      · refine .inr (.inl ⟨p, ?_⟩)
        show upd s.pc p _ p = _
        rw [upd_self, if_neg e]
    · intro e1 e2
      by_cases e : s.signaled = true
      · rcases h.sig e with a | ⟨q, a⟩ | a
        · exact .inl a
        · refine .inr ⟨q, ?_⟩
          show waking (upd s.pc p _ q)
          rw [upd_ne]
          · rw [a]; trivial
          · rintro rfl; rw [hp] at a; cases a
        · rw [show s.cpc = .poll from e1] at a; cases a
      · refine .inr ⟨p, ?_⟩
        show waking (upd s.pc p _ p)
        rw [upd_self, if_neg e]; trivial
  | writefd p hp => exact ⟨h.asleep, fun _ => .inl rfl, fun _ _ => .inl rfl⟩
  | empty hc _ => exact wake_cpc h _ (by rw [hc]; simp) (by simp) (by simp)
  | get hc hne => exact wake_cpc h _ (by rw [hc]; simp) (by simp) (by simp)
  | advance o hc =>
    cases o with
    | none =>
      obtain ⟨a, b, c⟩ := wake_cpc h .sched (by rw [hc]; simp) (by simp) (by simp)
      exact ⟨a, b, fun e => (by cases e)⟩
    | some m =>
      obtain ⟨a, b, c⟩ := wake_cpc h (.hold m) (by rw [hc]; simp) (by simp) (by simp)
      exact ⟨a, b, fun e => (by cases e)⟩
  | deliver m hc =>
    obtain ⟨a, b, c⟩ := wake_cpc h (.given m) (by rw [hc]; simp) (by simp) (by simp)
    exact ⟨a, b, c⟩
  | unref m hc =>
    obtain ⟨a, b, c⟩ := wake_cpc h .step (by rw [hc]; simp) (by simp) (by simp)
    exact ⟨a, b, c⟩
  | retry hc _ => exact wake_cpc h _ (by rw [hc]; simp) (by simp) (by simp)
  | idle hc _ => exact wake_cpc h _ (by rw [hc]; simp) (by simp) (by simp)
  | setSleep hc =>
    refine ⟨fun _ => rfl, ?_, fun e => by cases e⟩
    intro e
    rcases h.sig e with a | a | a
    · exact .inl a
    · exact .inr (.inl a)
    · rw [hc] at a; cases a
  | again hc _ => exact wake_cpc h _ (by rw [hc]; simp) (by simp) (by simp)
  | block hc he =>
    refine ⟨fun _ => h.asleep (.inl hc), ?_, fun _ e => absurd he e⟩
    intro e
    rcases h.sig e with a | a | a
    · exact .inl a
    · exact .inr (.inl a)
    · rw [hc] at a; cases a
  | readfd hc _ =>
    refine ⟨?_, fun _ => .inr (.inr rfl), fun e => by cases e⟩
    rintro (e | e) <;> cases e
  | other hc => exact wake_cpc h _ (by rw [hc]; simp) (by simp) (by simp)
  | release hc =>
    refine ⟨?_, fun e => (by cases e), fun e => (by cases e)⟩
    rintro (e | e) <;> cases e
  | wake hc =>
    refine ⟨?_, ?_, fun e => by cases e⟩
    · rintro (e | e) <;> cases e
    · intro e
      rcases h.sig e with a | a | a
      · exact .inl a
      · exact .inr (.inl a)
      · rw [hc] at a; cases a

theorem wake_reach {n : Nat} {s : St P M} (h : Reach n s) : Wake s := by
  induction h with
  | init => exact ⟨(by rintro (e | e) <;> cases e), fun e => (by cases e), fun e => (by cases e)⟩
  | step _ hs ih => exact wake_step ih hs

end Verif.Bus
