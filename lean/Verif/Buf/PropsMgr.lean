import Verif.Buf.MgrProofs
import Verif.Buf.Props
/-!
# C106: the buffers of the server

For every reachable state: any number of threads and references, any order of the steps.
-/
set_option autoImplicit false

namespace Verif.Buf

/-- A buffer that somebody has is in no cache, so it is not given to anybody else. -/
theorem C106_kept_partial {s : Mgr} (h : Reach s) {t b : Nat} (a : s.tok t = .has b) :
    (∀ k, b ∉ s.cache k) ∧ ∀ u, s.tok u ≠ .got b ∧ s.tok u ≠ .dying b := by
  obtain ⟨users, i⟩ := inv_reach h
  have ht : t ∈ users b := by rw [i.uses, a]; rfl
  refine ⟨fun k m => ?_, fun u => ⟨fun e => ?_, fun e => ?_⟩⟩
  · rw [i.idle k b m] at ht; simp at ht
  · rw [(i.got u b e).1] at ht; simp at ht; subst ht; rw [a] at e; simp at e
  · rw [i.dying u b e] at ht; simp at ht; subst ht; rw [a] at e; simp at e

/-- A new buffer is empty, has one reference, and nobody else has it. -/
theorem C106_fresh_partial {s s' : Mgr} (h : Reach s) (st : Step s s') {t b : Nat}
    (new : (∃ k, s.tok t = .make k) ∨ s.tok t = .got b) (a : s'.tok t = .has b) :
    (s'.cell b).buf.content = [] ∧ (s'.cell b).refs = 0 ∧
      ∀ u, (s'.tok u).uses = some b → u = t := by
  obtain ⟨users, i⟩ := inv_reach h
  obtain ⟨users', i'⟩ := inv_reach (.step _ _ h st)
  have main : (s'.cell b).buf.pos = 0 ∧ (s'.cell b).refs = 0 := by
    cases st with
    | want x hx => simp only [put] at a; grind
    | pop x k c r hx hc => simp only [put] at a; grind
    | empty x k hx hc => simp only [put] at a; grind
    | make x k hx =>
      by_cases e : t = x
      · simp only [put, if_pos e] at a
        have e2 : s.next = b := by simpa using a
        simp [put, e2, Buf.init]
      · simp only [put, if_neg e] at a
        rcases new with ⟨k', n⟩ | n <;> rw [a] at n <;> simp at n
    | reset x c hx =>
      by_cases e : t = x
      · simp only [put, if_pos e] at a
        have e2 : c = b := by simpa using a
        subst e2
        have := (i.got x c hx).2
        simp [put, Buf.reset, this]
      · simp only [put, if_neg e] at a
        rcases new with ⟨k', n⟩ | n <;> rw [a] at n <;> simp at n
    | write x c hx junk op y ho =>
      rcases new with ⟨k', n⟩ | n <;> rw [show s.tok t = .has b from a] at n <;> simp at n
    | ref x u c hx hu sm => simp only [put] at a; grind
    | dec x c hx => simp only [put] at a; grind
    | push x c hx =>
      rw [push_eq] at a
      simp only [put] at a; grind
  refine ⟨by simp [Buf.content, main.1], main.2, ?_⟩
  have r := i'.refs t b a
  rw [main.2] at r
  have ht : t ∈ users' b := by rw [i'.uses, a]; rfl
  have e := nodup_one (i'.un b) ht (by omega)
  intro u hu
  have m : u ∈ users' b := (i'.uses b u).2 hu
  rw [e] at m
  simpa using m

/-- What is in a buffer that somebody has is changed only by writes of those who have it. -/
theorem C106_undisturbed_partial {s s' : Mgr} (h : Reach s) (st : Step s s') {t b : Nat}
    (a : s.tok t = .has b) : (s'.cell b).buf = (s.cell b).buf ∨
      ∃ u junk op, s.tok u = .has b ∧ (s.cell b).buf.step junk op = .ok (s'.cell b).buf := by
  obtain ⟨users, i⟩ := inv_reach h
  obtain ⟨n1, n2⟩ := C106_kept_partial h a
  have sm := i.small b t (by rw [a]; rfl)
  cases st with
  | want x hx => exact Or.inl rfl
  | pop x k c r hx hc => exact Or.inl rfl
  | empty x k hx hc => exact Or.inl rfl
  | make x k hx => left; simp only [put]; rw [if_neg (by omega)]
  | reset x c hx =>
    left
    have e : b ≠ c := by intro e; subst e; exact (n2 x).1 hx
    simp [put, e]
  | write x c hx junk op y ho =>
    by_cases e : b = c
    · subst e
      right
      exact ⟨x, junk, op, hx, by simp [put, ho]⟩
    · left; simp [put, e]
  | ref x u c hx hu sm => left; simp only [put]; split <;> simp_all
  | dec x c hx => left; simp only [put]; split <;> simp_all
  | push x c hx => left; rw [push_eq]; simp only [put]; split <;> simp_all

/-- A buffer goes back to its cache when its last reference ends, and not before: `buf_free` of one
of several references leaves it, `buf_free` of the only one takes it. -/
theorem C106_last_partial {s : Mgr} (h : Reach s) {t b : Nat} (a : s.tok t = .has b) :
    let s' := { s with
      cell := put s.cell b { s.cell b with refs := ((s.cell b).refs + 4294967295) % 4294967296 }
      tok  := put s.tok t (if (s.cell b).refs = 0 then .dying b else .none) }
    Step s s' ∧ (s'.tok t = .dying b ↔ ∀ u, s.tok u = .has b → u = t) := by
  obtain ⟨users, i⟩ := inv_reach h
  refine ⟨.dec s t b a, ?_⟩
  have r := i.refs t b a
  have ht : t ∈ users b := by rw [i.uses, a]; rfl
  simp only [put, if_true]
  constructor
  · intro e u hu
    by_cases z : (s.cell b).refs = 0
    · have e := nodup_one (i.un b) ht (by omega)
      have m : u ∈ users b := by rw [i.uses, hu]; rfl
      rw [e] at m
      simpa using m
    · rw [if_neg z] at e; simp at e
  · intro only
    rw [if_pos]
    have all : ∀ u ∈ users b, u = t := by
      intro u m
      have hu := (i.uses b u).1 m
      cases e : s.tok u with
      | has c =>
        rw [e] at hu
        have : c = b := by simpa [Tok.uses] using hu
        subst this
        exact only u e
      | none => rw [e] at hu; simp [Tok.uses] at hu
      | want k => rw [e] at hu; simp [Tok.uses] at hu
      | make k => rw [e] at hu; simp [Tok.uses] at hu
      | got c =>
        rw [e] at hu
        have : c = b := by simpa [Tok.uses] using hu
        subst this
        exact absurd e ((C106_kept_partial h a).2 u).1
      | dying c =>
        rw [e] at hu
        have : c = b := by simpa [Tok.uses] using hu
        subst this
        exact absurd e ((C106_kept_partial h a).2 u).2
    have nd := i.un b
    match hl : users b, ht, all, nd with
    | [x], _, _, _ => rw [hl] at r; simpa using r
    | x :: y :: l, _, all, nd =>
      have e1 := all x (by simp)
      have e2 := all y (by simp)
      rw [e1, e2] at nd
      simp at nd

/-- When no reference is left, every buffer ever made is in one cache, once: nothing leaks. -/
theorem C106_no_leak_partial {s : Mgr} (h : Reach s) (idle : ∀ t, s.tok t = .none) {b : Nat}
    (hb : b < s.next) : b ∈ s.cache (s.cell b).home ∧ (s.cache (s.cell b).home).Nodup ∧
      ∀ k, b ∈ s.cache k → k = (s.cell b).home := by
  obtain ⟨users, i⟩ := inv_reach h
  rcases i.all b hb with a | ⟨k, a⟩
  · exfalso
    apply a
    cases e : users b with
    | nil => rfl
    | cons t l =>
      have := (i.uses b t).1 (by simp [e])
      rw [idle] at this
      simp [Tok.uses] at this
  · have := i.home k b a
    rw [this]
    exact ⟨a, i.cn k, fun k' m => (i.home k' b m).symm.trans this⟩

/-- Against the claim that the memory of large buffers is given back: the limit of 32 KiB is never
applied.  The comparison with the limit is outside of `unlikely`, whose value is 0 or 1, so
a buffer of any size goes back to its cache with all its memory, and no buffer is ever freed. -/
theorem C106_limit_false {s : Mgr} (h : Reach s) {t b : Nat} (a : s.tok t = .dying b) :
    ∃ s', Step s s' ∧ b ∈ s'.cache (s.cell b).home ∧ (s'.cell b).buf.mem = (s.cell b).buf.mem ∧
      s'.freed = [] := by
  obtain ⟨users, i⟩ := inv_reach h
  refine ⟨_, .push s t b a, ?_⟩
  rw [push_eq]
  refine ⟨by simp [put], by simp [put], i.nofr⟩

/-! ## The hypotheses are met: one thread makes a buffer, writes 40000 bytes, shares it, and both
references end -/

def demo (n : Nat) (x : Buf) : Mgr :=
  match n with
  | 0 => ⟨1, fun _ => [], fun _ => ⟨Buf.init, 0, 0⟩, 0, [], put (fun _ => .none) 0 (.want 0)⟩
  | 1 => ⟨1, fun _ => [], fun _ => ⟨Buf.init, 0, 0⟩, 0, [], put (fun _ => .none) 0 (.make 0)⟩
  | 2 => ⟨1, fun _ => [], put (fun _ => ⟨Buf.init, 0, 0⟩) 0 ⟨Buf.init, 0, 0⟩, 1, [],
          put (fun _ => .none) 0 (.has 0)⟩
  | _ => ⟨1, fun _ => [], put (fun _ => ⟨Buf.init, 0, 0⟩) 0 ⟨x, 0, 0⟩, 1, [],
          put (fun _ => .none) 0 (.has 0)⟩

theorem put_put {β : Type} (f : Nat → β) (a : Nat) (x y : β) : put (put f a x) a y = put f a y := by
  funext i; simp only [put]; split <;> rfl

theorem put_at {β : Type} (f : Nat → β) (a : Nat) (x : β) : put f a x a = x := by simp [put]

theorem demo_reach (junk : Nat → UInt8) (op : Op) (x : Buf) (h : Buf.init.step junk op = .ok x) :
    Reach (demo 3 x) := by
  have r0 : Reach (demo 0 x) := .step _ _ .init (.want _ 0 rfl)
  have r1 : Reach (demo 1 x) := by
    have := Reach.step _ _ r0 (.empty _ 0 0 (by simp [demo, put]) rfl)
    simpa only [demo, put_put] using this
  have r2 : Reach (demo 2 x) := by
    have := Reach.step _ _ r1 (.make _ 0 0 (by simp [demo, put]))
    simpa only [demo, put_put] using this
  have := Reach.step _ _ r2 (.write _ 0 0 (by simp [demo, put]) junk op x (by
    simp only [demo, put_at]; exact h))
  simpa only [demo, put_put, put_at] using this

/-- A state in which a buffer with 40000 bytes of memory has lost its last reference: with the
theorem above its memory stays in the cache. -/
theorem C106_limit_sample : ∃ s, Reach s ∧ s.tok 0 = .dying 0 ∧ 40000 ≤ (s.cell 0).buf.mem.length := by
  have e := emplace_init 40000 (fun _ => 0) (by omega) (by omega)
  have r := demo_reach (fun _ => 0) (.emplace 40000) _ e
  refine ⟨_, .step _ _ r (.dec _ 0 0 (by simp [demo, put])), ?_, ?_⟩
  · simp [demo, put]
  · simp [demo, put, realloc_length]

end Verif.Buf
