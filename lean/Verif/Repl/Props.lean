import Verif.Repl.Model
/-!
# Replicas follow the primary (C81)
-/
set_option linter.unusedVariables false
set_option linter.unusedSimpArgs false
namespace Verif.Repl
variable {R : Type}

/-- the histories for which C81 holds: the log is not read while a batch is written and not published; a request is looked at when no other one
is being replayed; the log is cleaned only below what the slot holds; the primary loses nothing -/
def Careful (s : Sys R) : Op R → Prop
  | .send _ => s.pend = []
  | .check _ => ∀ j rest, s.sess j ≠ some (.replay rest)
  | .gc n => n ≤ s.slot + 1
  | .lose n => s.plog.length ≤ n
  | _ => True

structure Inv (s : Sys R) : Prop where
  pre : s.rlog <+: s.plog
  asked : ∀ i lsn b, s.sess i = some (.asked lsn b) → b <+: s.plog.drop lsn
  replay : ∀ i rest, s.sess i = some (.replay rest) → rest <+: s.plog.drop s.rlog.length
  one : ∀ i j a b, s.sess i = some (.replay a) → s.sess j = some (.replay b) → i = j
  next : ∀ i, s.next ≤ i → s.sess i = none
  slot : s.slot ≤ s.plog.length
  idle : ∀ t p, s.str = some t → t.pos = some p → (t.busy = false → p = s.slot) ∧ s.slot ≤ p ∧ p ≤ s.plog.length ∧ s.base ≤ s.slot + 1
  stream : ∀ t p, s.str = some t → t.pos = some p → t.lsn = p
  reply : ∀ t l, s.str = some t → t.reply = some l → l ≤ s.plog.length

theorem prefix_take {a l : List R} (h : a <+: l) (n : Nat) : a.take n <+: l := (List.take_prefix n a).trans h

theorem prefix_grow {a l : List R} (h : a <+: l) (x : List R) : a <+: l ++ x := h.trans (List.prefix_append l x)

theorem drop_grow {b l : List R} {n : Nat} (h : b <+: l.drop n) (x : List R) : b <+: (l ++ x).drop n := by
  rw [List.drop_append]
  exact prefix_grow h _

theorem Inv.step {s s' : Sys R} {o : Op R} (h : Inv s) (hc : Careful s o) (hs : Step s o s') : Inv s' := by
  cases hs with
  | write rs hp => exact ⟨h.pre, h.asked, h.replay, h.one, h.next, h.slot, h.idle, h.stream, h.reply⟩
  | publish =>
    refine ⟨prefix_grow h.pre _, fun i l b e => drop_grow (h.asked i l b e) _, fun i r e => drop_grow (h.replay i r e) _, h.one, h.next,
      by simpa using Nat.le_trans h.slot (Nat.le_add_right _ _), fun t p e1 e2 => ?_, h.stream,
      fun t l e1 e2 => by show l ≤ (s.plog ++ s.pend).length; have := h.reply t l e1 e2; simp; omega⟩
    obtain ⟨a, b, c, d⟩ := h.idle t p e1 e2
    exact ⟨a, b, by show p ≤ (s.plog ++ s.pend).length; simp; omega, d⟩
  | abort => exact ⟨h.pre, h.asked, h.replay, h.one, h.next, h.slot, h.idle, h.stream, h.reply⟩
  | gc n hn =>
    refine ⟨h.pre, h.asked, h.replay, h.one, h.next, h.slot, fun t p e1 e2 => ?_, h.stream, h.reply⟩
    obtain ⟨a, b, c, d⟩ := h.idle t p e1 e2
    simp only [Careful] at hc
    exact ⟨a, b, c, by show max s.base n ≤ s.slot + 1; omega⟩
  | connect hb =>
    refine ⟨h.pre, h.asked, h.replay, h.one, h.next, h.pre.length_le, ?_, ?_, by
      intro t l e1 e2
      simp only [Option.some.injEq] at e1
      subst e1
      simp at e2⟩
    · intro t p e1 e2
      simp only [Option.some.injEq] at e1
      subst e1
      simp only at e2
      split at e2
      · simp at e2; subst e2; exact ⟨fun _ => rfl, Nat.le_refl _, h.pre.length_le, ‹_›⟩
      · simp at e2
    · intro t p e1 e2
      simp only [Option.some.injEq] at e1
      subst e1
      simp only at e2
      split at e2
      · simp at e2; exact e2
      · simp at e2
  | disconnect => exact ⟨h.pre, h.asked, h.replay, h.one, h.next, h.slot, by simp, by simp, by simp⟩
  | send n t pos ht hp hb hr =>
    obtain ⟨e1, -, e3, e2⟩ := h.idle t pos ht hp
    have e1 := e1 hb
    have hbase := e2
    have hmax : max pos (s.base - 1) = s.slot := by omega
    simp only [Careful] at hc
    refine ⟨h.pre, ?_, ?_, ?_, ?_, h.slot, ?_, ?_, by
      intro t l e1 e2
      simp only [Option.some.injEq] at e1
      subst e1
      simp at e2⟩
    · intro i l b e
      simp only [Sys.set] at e
      split at e
      · simp only [Option.some.injEq, Sess.asked.injEq] at e
        rw [← e.1, ← e.2, Sys.ahead, hmax, hc, List.append_nil]
        exact List.take_prefix _ _
      · exact h.asked i l b e
    · intro i r e
      simp only [Sys.set] at e
      split at e
      · simp at e
      · exact h.replay i r e
    · intro i j a b ei ej
      simp only [Sys.set] at ei ej
      split at ei
      · simp at ei
      · split at ej
        · simp at ej
        · exact h.one i j a b ei ej
    · intro i hi
      simp only [Sys.set]
      rw [if_neg (by have : s.next + 1 ≤ i := hi; omega)]
      exact h.next i (by have : s.next + 1 ≤ i := hi; omega)
    · intro t p e1 e2
      simp only [Option.some.injEq] at e1
      subst e1
      simp only [Option.some.injEq] at e2
      have := hr.2.1
      simp only [Sys.ahead, hmax, hc, List.append_nil, List.length_drop] at this
      simp only [Sys.after, hmax] at e2
      have hs := h.slot
      have h0 := hr.1
      refine ⟨by simp, ?_, ?_, hbase⟩
      · show s.slot ≤ p; omega
      · show p ≤ s.plog.length; omega
    · intro t p e1 e2
      simp only [Option.some.injEq] at e1
      subst e1
      simpa using e2
  | check i lsn batch hi =>
    simp only [Careful] at hc
    have ha := h.asked i lsn batch hi
    refine ⟨h.pre, ?_, ?_, ?_, ?_, h.slot, h.idle, h.stream, h.reply⟩
    · intro j l b e
      simp only [Sys.set] at e
      split at e
      · split at e <;> simp at e
      · exact h.asked j l b e
    · intro j r e
      simp only [Sys.set] at e
      split at e
      · split at e
        · rename_i hl
          simp only [Option.some.injEq, Sess.replay.injEq] at e
          rw [← e]
          show batch <+: s.plog.drop s.rlog.length
          rw [← hl]
          exact ha
        · simp at e
      · exact h.replay j r e
    · intro j k a b ej ek
      simp only [Sys.set] at ej ek
      split at ej
      · split at ek
        · omega
        · exact absurd ek (hc _ _)
      · exact absurd ej (hc _ _)
    · intro j hj
      simp only [Sys.set]
      split
      · rename_i e
        have := h.next j hj
        rw [e, hi] at this
        simp at this
      · exact h.next j hj
  | apply i r rest hi =>
    have hr := h.replay i _ hi
    obtain ⟨t, ht⟩ := hr
    have hpre : s.rlog ++ [r] <+: s.plog := by
      obtain ⟨u, hu⟩ := h.pre
      have : s.plog.drop s.rlog.length = u := by rw [← hu]; simp
      rw [this] at ht
      exact ⟨rest ++ t, by rw [← hu, ← ht]; simp⟩
    refine ⟨hpre, ?_, ?_, ?_, ?_, h.slot, h.idle, h.stream, h.reply⟩
    · intro j l b e
      simp only [Sys.set] at e
      split at e
      · simp at e
      · exact h.asked j l b e
    · intro j a e
      simp only [Sys.set] at e
      split at e
      · simp only [Option.some.injEq, Sess.replay.injEq] at e
        rw [← e]
        show rest <+: s.plog.drop (s.rlog ++ [r]).length
        rw [List.length_append, ← List.drop_drop, ← ht]
        exact ⟨t, by simp⟩
      · have := h.one i j _ _ hi e
        omega
    · intro j k a b ej ek
      simp only [Sys.set] at ej ek
      split at ej
      · split at ek
        · omega
        · exact absurd (h.one i k _ _ hi ek) (by omega)
      · exact absurd (h.one i j _ _ hi ej) (by omega)
    · intro j hj
      simp only [Sys.set]
      split
      · rename_i e
        have := h.next j hj
        rw [e, hi] at this
        simp at this
      · exact h.next j hj
  | finish i hi =>
    refine ⟨h.pre, ?_, ?_, ?_, ?_, h.slot, ?_, ?_, by
      intro t l e1 e2
      simp only [Option.map_eq_some_iff] at e1
      obtain ⟨t0, h0, rfl⟩ := e1
      split at e2
      · simp only [Option.some.injEq] at e2; rw [← e2]; exact h.pre.length_le
      · exact h.reply t0 l h0 e2⟩
    · intro j l b e
      simp only [Sys.set] at e
      split at e
      · simp at e
      · exact h.asked j l b e
    · intro j a e
      simp only [Sys.set] at e
      split at e
      · simp at e
      · exact h.replay j a e
    · intro j k a b ej ek
      simp only [Sys.set] at ej ek
      split at ej
      · simp at ej
      · split at ek
        · simp at ek
        · exact h.one j k a b ej ek
    · intro j hj
      simp only [Sys.set]
      split
      · rfl
      · exact h.next j hj
    · intro t p e1 e2
      simp only [Option.map_eq_some_iff] at e1
      obtain ⟨t0, h0, rfl⟩ := e1
      split
      · rename_i hb; rw [if_pos hb] at e2; exact h.idle t0 p h0 e2
      · rename_i hb; rw [if_neg hb] at e2; exact h.idle t0 p h0 e2
    · intro t p e1 e2
      simp only [Option.map_eq_some_iff] at e1
      obtain ⟨t0, h0, rfl⟩ := e1
      split
      · rename_i hb; rw [if_pos hb] at e2; exact h.stream t0 p h0 e2
      · rename_i hb; rw [if_neg hb] at e2; exact h.stream t0 p h0 e2
  | fail i =>
    refine ⟨h.pre, ?_, ?_, ?_, ?_, h.slot, h.idle, h.stream, h.reply⟩
    · intro j l b e
      simp only [Sys.set] at e
      split at e
      · simp at e
      · exact h.asked j l b e
    · intro j a e
      simp only [Sys.set] at e
      split at e
      · simp at e
      · exact h.replay j a e
    · intro j k a b ej ek
      simp only [Sys.set] at ej ek
      split at ej
      · simp at ej
      · split at ek
        · simp at ek
        · exact h.one j k a b ej ek
    · intro j hj
      simp only [Sys.set]
      split
      · rfl
      · exact h.next j hj
  | ack t lsn ht hr =>
    split
    · rename_i hl
      refine ⟨h.pre, h.asked, h.replay, h.one, h.next, ?_, ?_, ?_, by
        intro t' l e1 e2
        simp only [Option.some.injEq] at e1
        subst e1
        simp at e2⟩
      · show lsn ≤ s.plog.length
        exact h.reply t lsn ht hr
      · intro t' p e1 e2
        simp only [Option.some.injEq] at e1
        subst e1
        obtain ⟨-, b, c, d⟩ := h.idle t p ht e2
        have e := h.stream t p ht e2
        refine ⟨fun _ => ?_, ?_, c, ?_⟩
        · show p = lsn; omega
        · show lsn ≤ p; omega
        · show s.base ≤ lsn + 1; omega
      · intro t' p e1 e2
        simp only [Option.some.injEq] at e1
        subst e1
        exact h.stream t p ht e2
    · exact ⟨h.pre, h.asked, h.replay, h.one, h.next, h.slot, by simp, by simp, by simp⟩
  | lose n =>
    simp only [Careful] at hc
    have e : s.plog.take n = s.plog := List.take_of_length_le hc
    refine ⟨by rw [e]; exact h.pre, fun i l b hi => by rw [e]; exact h.asked i l b hi, fun i r hi => by rw [e]; exact h.replay i r hi, h.one, h.next,
      Nat.zero_le _, by simp, by simp, by simp⟩
  | replicaStop n => exact ⟨prefix_take h.pre n, by simp, by simp, by simp, by simp, h.slot, h.idle, h.stream, h.reply⟩

theorem Inv.init : Inv (Sys.init : Sys R) :=
  ⟨List.prefix_refl _, by simp [Sys.init], by simp [Sys.init], by simp [Sys.init], by simp [Sys.init], by simp [Sys.init], by simp [Sys.init],
    by simp [Sys.init], by simp [Sys.init]⟩

theorem Inv.hist {s s' : Sys R} (h : Inv s) (hh : Hist Careful s s') : Inv s' := by
  induction hh with
  | nil => exact h
  | cons _ hc hs ih => exact ih.step hc hs

/-- **C81** whatever is written on the primary, however requests are cut, delayed and repeated, whenever connections break, sessions fail and the
replica or the primary stops: the log of the replica is a prefix of the log of the primary, record by record. Partial: see `Careful`. -/
theorem C81_prefix_partial (s : Sys R) (h : Hist Careful Sys.init s) : s.rlog <+: s.plog := (Inv.init.hist h).pre

/-- **C81** so the contents of the replica are the contents the primary had after its first transactions -/
theorem C81_content_partial {C : Type} (apply : C → R → C) (empty : C) (s : Sys R) (h : Hist Careful Sys.init s) :
    ∃ n, n ≤ s.plog.length ∧ s.rlog.foldl apply empty = (s.plog.take n).foldl apply empty := by
  have hp := C81_prefix_partial s h
  exact ⟨s.rlog.length, hp.length_le, by rw [← List.prefix_iff_eq_take.1 hp]⟩

/-- a replica that does not stop -/
def Steady (s : Sys R) (o : Op R) : Prop := Careful s o ∧ ∀ n, o ≠ .replicaStop n

/-- **C81** the position that the primary reports for a replica has been reached by it -/
theorem C81_reported_partial (s : Sys R) (h : Hist Steady Sys.init s) : s.slot ≤ s.rlog.length := by
  have key : s.slot ≤ s.rlog.length ∧ ∀ t l, s.str = some t → t.reply = some l → l ≤ s.rlog.length := by
    generalize h0 : (Sys.init : Sys R) = s0 at h
    induction h with
    | nil => subst h0; simp [Sys.init]
    | @cons b c o _ hc hs ih =>
      obtain ⟨i1, i2⟩ := ih
      cases hs with
      | write rs hp => exact ⟨i1, i2⟩
      | publish => exact ⟨i1, i2⟩
      | abort => exact ⟨i1, i2⟩
      | gc n hn => exact ⟨i1, i2⟩
      | connect hb =>
        refine ⟨Nat.le_refl _, fun t l e1 e2 => ?_⟩
        simp only [Option.some.injEq] at e1
        subst e1
        simp at e2
      | disconnect => exact ⟨i1, by simp⟩
      | send n t pos ht hp hb hr =>
        refine ⟨i1, fun t l e1 e2 => ?_⟩
        simp only [Option.some.injEq] at e1
        subst e1
        simp at e2
      | check i lsn batch hi => exact ⟨i1, i2⟩
      | apply i r rest hi =>
        refine ⟨?_, fun t l e1 e2 => ?_⟩
        · show b.slot ≤ (b.rlog ++ [r]).length
          simp; omega
        · show l ≤ (b.rlog ++ [r]).length
          have := i2 t l e1 e2
          simp; omega
      | finish i hi =>
        refine ⟨i1, fun t l e1 e2 => ?_⟩
        simp only [Option.map_eq_some_iff] at e1
        obtain ⟨t0, h0, rfl⟩ := e1
        split at e2
        · simp only [Option.some.injEq] at e2; rw [← e2]; exact Nat.le_refl _
        · exact i2 t0 l h0 e2
      | fail i => exact ⟨i1, i2⟩
      | ack t lsn ht hr =>
        split
        · refine ⟨i2 t lsn ht hr, fun t' l e1 e2 => ?_⟩
          simp only [Option.some.injEq] at e1
          subst e1
          simp at e2
        · exact ⟨i1, by simp⟩
      | lose n => exact ⟨Nat.zero_le _, by simp⟩
      | replicaStop n => exact absurd rfl (hc.2 n)
  exact key.1

theorem Hist.trans {ok : Sys R → Op R → Prop} {a b c : Sys R} (h : Hist ok a b) (h2 : Hist ok b c) : Hist ok a c := by
  induction h2 with
  | nil => exact h
  | cons _ hc hs ih => exact .cons ih hc hs

/-- replaying a request to its end -/
theorem replay_all (i : Nat) : ∀ (rest : List R) (s : Sys R), s.sess i = some (.replay rest) →
    ∃ s', Hist Careful s s' ∧ s'.rlog = s.rlog ++ rest ∧ s'.plog = s.plog ∧ s'.sess i = some (.replay [])
  | [], s, h => ⟨s, .nil, by simp, rfl, h⟩
  | r :: rest, s, h => by
    obtain ⟨s', h1, h2, h3, h4⟩ := replay_all i rest { s with sess := s.set i (some (.replay rest)), rlog := s.rlog ++ [r] } (by simp [Sys.set])
    exact ⟨s', Hist.trans (.cons (o := .apply i) .nil trivial (.apply i r rest h)) h1, by rw [h2]; simp, h3, h4⟩

/-- the sessions of former connections end -/
theorem fail_all : ∀ (n : Nat) (s : Sys R), (∀ i, n ≤ i → s.sess i = none) →
    ∃ s', Hist Careful s s' ∧ s' = { s with sess := fun _ => none }
  | 0, s, h => ⟨s, .nil, by
      have : s.sess = fun _ => none := by funext i; exact h i (Nat.zero_le _)
      rw [← this]⟩
  | n + 1, s, h => by
    obtain ⟨s', h1, h2⟩ := fail_all n { s with sess := s.set n none } (by
      intro i hi
      simp only [Sys.set]
      split
      · rfl
      · exact h i (by omega))
    exact ⟨s', Hist.trans (.cons (o := .fail n) .nil trivial (.fail n)) h1, by rw [h2]⟩

/-- **C81** a replica always can catch up: from every such state, if the records after its last one are still in the log, a new connection brings
it to the end of the log of the primary -/
theorem C81_catch_up_partial (s : Sys R) (h : Hist Careful Sys.init s)
    (hb : s.base ≤ s.rlog.length ∨ (s.rlog = [] ∧ s.base ≤ 1)) :
    ∃ s', Hist Careful s s' ∧ s'.plog = s.plog ∧ s'.rlog = s.plog := by
  have hi := Inv.init.hist h
  obtain ⟨s1, h1, rfl⟩ := fail_all s.next s hi.next
  have hbase : s.base ≤ s.rlog.length + 1 := by
    rcases hb with hb | ⟨hb, hb1⟩
    · omega
    · omega
  by_cases he : s.rlog.length = s.plog.length
  · exact ⟨s, .nil, rfl, hi.pre.eq_of_length he⟩
  · have hlt : s.rlog.length < s.plog.length := by have := hi.pre.length_le; omega
    -- the batch that is being written ends
    let a : Sys R := { s with sess := fun _ => none, pend := [] }
    have ha : Hist Careful s a := .cons (o := .abort) h1 trivial .abort
    let t : Stream := { pos := some s.rlog.length, lsn := s.rlog.length, busy := false, sess := 0, reply := none }
    let b : Sys R := { a with slot := s.rlog.length, str := some t }
    have hconn : Step a .connect b := by
      have := Step.connect (s := a) (by
        intro h0
        rcases hb with hb | ⟨hb, -⟩
        · exact hb
        · have : 0 < s.rlog.length := h0
          rw [hb] at this; simp at this)
      have e : a.base ≤ a.rlog.length + 1 := hbase
      simp only [e, if_true] at this
      exact this
    have hb2 : Hist Careful s b := .cons (o := .connect) ha trivial hconn
    let n := s.plog.length - s.rlog.length
    have hmax : max s.rlog.length (b.base - 1) = s.rlog.length := by
      have : b.base = s.base := rfl
      omega
    have hah : b.ahead s.rlog.length = s.plog.drop s.rlog.length := by
      simp only [Sys.ahead, hmax]
      show (s.plog ++ []).drop _ = _
      rw [List.append_nil]
    have hsend := Step.send (s := b) n t s.rlog.length rfl rfl rfl ⟨by omega, by rw [hah, List.length_drop]; exact Nat.le_refl _, by
      intro _
      simp only [Sys.after, hmax]
      show s.rlog.length + n ≤ s.plog.length
      omega⟩
    have hc2 : Hist Careful s _ := .cons (o := .send n) hb2 rfl hsend
    rw [hah] at hc2
    have htake : (s.plog.drop s.rlog.length).take n = s.plog.drop s.rlog.length := List.take_of_length_le (by simp [n])
    rw [htake] at hc2
    have hck := Step.check (s := { b with
        str := some { pos := some (b.after s.rlog.length n), lsn := b.after s.rlog.length n, busy := true, sess := b.next, reply := none }
        sess := b.set b.next (some (.asked b.slot (s.plog.drop s.rlog.length)))
        next := b.next + 1 }) b.next s.rlog.length (s.plog.drop s.rlog.length) (by simp [Sys.set, b])
    have hc3 : Hist Careful s _ := .cons (o := .check b.next) hc2 (by
      intro j rest
      simp only [Sys.set]
      split
      · simp
      · simp [b, a]) hck
    have fin : ∀ c : Sys R, Hist Careful s c → c.sess b.next = some (.replay (s.plog.drop s.rlog.length)) → c.rlog = s.rlog → c.plog = s.plog →
        ∃ s', Hist Careful s s' ∧ s'.plog = s.plog ∧ s'.rlog = s.rlog ++ s.plog.drop s.rlog.length := by
      intro c h0 h1 h2 h3
      obtain ⟨s', e1, e2, e3, -⟩ := replay_all b.next _ c h1
      exact ⟨s', Hist.trans h0 e1, by rw [e3, h3], by rw [e2, h2]⟩
    obtain ⟨s', e1, e3, e2⟩ := fin _ hc3 (by
      show (if b.next = b.next then _ else _) = _
      rw [if_pos rfl, if_pos rfl]) rfl rfl
    refine ⟨s', e1, e3, ?_⟩
    rw [e2]
    show s.rlog ++ s.plog.drop s.rlog.length = s.plog
    obtain ⟨u, hu⟩ := hi.pre
    rw [← hu]; simp

/-! ## What is not true -/

def any (_ : Sys R) (_ : Op R) : Prop := True

theorem Hist.snoc {s t u : Sys Nat} {o : Op Nat} (h : Hist any s t) (hs : Step t o u) : Hist any s u := .cons h trivial hs

/-- **C81 fails** when the streamer reads the log while a batch is written (wal_cursor_readahead stops only at a record that is equal to
state_lsn): the replica has a transaction that the primary has aborted -/
theorem C81_aborted_false : ∃ s : Sys Nat, Hist any Sys.init s ∧ s.plog = [] ∧ s.pend = [] ∧ s.rlog = [7] := by
  have h := (Hist.nil (ok := any) (s := (Sys.init : Sys Nat))).snoc (.connect (by simp [Sys.init]))
  have h := h.snoc (.write [7] rfl)
  have h := h.snoc (.send 1 _ 0 rfl (by decide) rfl (by decide))
  have h := h.snoc .abort
  have h := h.snoc (.check 0 0 [7] rfl)
  have h := h.snoc (.apply 0 7 [] rfl)
  exact ⟨_, h, rfl, rfl, rfl⟩

/-- **C81 fails** when a connection breaks while its request is replayed: the check of a new request is made once, and the lock it is made under
is shared, so both sessions replay the same records -/
theorem C81_twice_false : ∃ s : Sys Nat, Hist any Sys.init s ∧ s.plog = [7, 8] ∧ s.rlog = [7, 8, 7, 8] := by
  have h := (Hist.nil (ok := any) (s := (Sys.init : Sys Nat))).snoc (.write [7, 8] rfl)
  have h := h.snoc .publish
  have h := h.snoc (.connect (by simp [Sys.init]))
  have h := h.snoc (.send 2 _ 0 rfl (by decide) rfl (by decide))
  have h := h.snoc (.check 0 0 [7, 8] rfl)
  have h := h.snoc .disconnect
  have h := h.snoc (.connect (by simp [Sys.init]))
  have h := h.snoc (.send 2 _ 0 rfl (by decide) rfl (by decide))
  have h := h.snoc (.check 1 0 [7, 8] rfl)
  have h := h.snoc (.apply 0 7 [8] rfl)
  have h := h.snoc (.apply 0 8 [] rfl)
  have h := h.snoc (.apply 1 7 [8] rfl)
  have h := h.snoc (.apply 1 8 [] rfl)
  exact ⟨_, h, rfl, rfl⟩

/-- **C81 fails** when log files are removed that the streamer has not read (C37: the slot does not protect them): it goes on with the next file,
and the replica checks only the position that the request names, not the records in it -/
theorem C81_gap_false : ∃ s : Sys Nat, Hist any Sys.init s ∧ s.plog = [7, 8, 9] ∧ s.rlog = [7, 9] := by
  have h := (Hist.nil (ok := any) (s := (Sys.init : Sys Nat))).snoc (.write [7] rfl)
  have h := h.snoc .publish
  have h := h.snoc (.connect (by simp [Sys.init]))
  have h := h.snoc (.send 1 _ 0 rfl (by decide) rfl (by decide))
  have h := h.snoc (.check 0 0 [7] rfl)
  have h := h.snoc (.apply 0 7 [] rfl)
  have h := h.snoc (.finish 0 rfl)
  have h := h.snoc (.ack _ 1 rfl rfl)
  have h := h.snoc (.write [8, 9] rfl)
  have h := h.snoc .publish
  have h := h.snoc (.gc 3 (by decide))
  have h := h.snoc (.send 1 _ 1 rfl (by decide) rfl (by decide))
  have h := h.snoc (.check 1 1 [9] rfl)
  have h := h.snoc (.apply 1 9 [] rfl)
  exact ⟨_, h, rfl, rfl⟩

/-- **C81 fails** when the primary loses the end of its log in a power failure after it was sent: the replica keeps it and goes on behind it -/
theorem C81_lost_false : ∃ s : Sys Nat, Hist any Sys.init s ∧ s.plog = [7, 9] ∧ s.rlog = [7, 8] := by
  have h := (Hist.nil (ok := any) (s := (Sys.init : Sys Nat))).snoc (.write [7, 8] rfl)
  have h := h.snoc .publish
  have h := h.snoc (.connect (by simp [Sys.init]))
  have h := h.snoc (.send 2 _ 0 rfl (by decide) rfl (by decide))
  have h := h.snoc (.check 0 0 [7, 8] rfl)
  have h := h.snoc (.apply 0 7 [8] rfl)
  have h := h.snoc (.apply 0 8 [] rfl)
  have h := h.snoc (.lose 1)
  have h := h.snoc (.write [9] rfl)
  have h := h.snoc .publish
  exact ⟨_, h, rfl, rfl⟩

/-- **C81 fails** for a new replica of a primary that has removed its first log file: it connects, with no error (an empty replica is not checked
to be outdated), and no record is ever sent -/
theorem C81_stuck_false : ∃ s : Sys Nat, Hist any Sys.init s ∧ s.plog = [7, 8] ∧ (∃ t, s.str = some t) ∧
    ∀ n s', ¬ Step s (.send n) s' := by
  have h := (Hist.nil (ok := any) (s := (Sys.init : Sys Nat))).snoc (.write [7, 8] rfl)
  have h := h.snoc .publish
  have h := h.snoc (.gc 2 (by decide))
  have h := h.snoc (.connect (by simp [Sys.init]))
  refine ⟨_, h, rfl, ⟨_, rfl⟩, ?_⟩
  intro n s' hs
  cases hs with
  | send _ t pos ht hp hb hr =>
    have e := Option.some.inj ht
    rw [← e] at hp
    exact absurd (show (none : Option Nat) = some pos from hp) (by simp)

/-- a history that meets the hypotheses: two batches, a broken connection with a session left behind, a stop of the replica -/
example : ∃ s : Sys Nat, Hist Careful Sys.init s ∧ s.plog = [7, 8, 9] ∧ s.rlog = [7, 8] ∧ s.slot = 1 := by
  have sn : ∀ {s t u : Sys Nat} {o : Op Nat}, Hist Careful s t → Careful t o → Step t o u → Hist Careful s u := fun h c e => .cons h c e
  have h := sn (.nil (s := (Sys.init : Sys Nat))) (o := .write [7, 8, 9]) trivial (.write [7, 8, 9] rfl)
  have h := sn h (o := .publish) trivial .publish
  have h := sn h (o := .connect) trivial (.connect (by simp [Sys.init]))
  have h := sn h (o := .send 2) rfl (.send 2 _ 0 rfl (by decide) rfl (by decide))
  have h := sn h (o := .check 0) (by intro j r; simp only [Sys.set]; split <;> simp [Sys.init]) (.check 0 0 [7, 8] rfl)
  have h := sn h (o := .apply 0) trivial (.apply 0 7 [8] rfl)
  have h := sn h (o := .disconnect) trivial .disconnect
  have h := sn h (o := .connect) trivial (.connect (by decide))
  have h := sn h (o := .apply 0) trivial (.apply 0 8 [] rfl)
  have h := sn h (o := .gc 2) (show 2 ≤ 2 by decide) (.gc 2 (by decide))
  have h := sn h (o := .replicaStop 5) trivial (.replicaStop 5)
  exact ⟨_, h, rfl, rfl, rfl⟩

end Verif.Repl
