import Verif.Buf.Mgr
/-!
# Buffers of the server: the invariant
-/
set_option autoImplicit false
set_option linter.unusedVariables false

namespace Verif.Buf

structure Inv (s : Mgr) (users : Nat → List Nat) : Prop where
  un    : ∀ b, (users b).Nodup
  uses  : ∀ b t, t ∈ users b ↔ (s.tok t).uses = some b
  small : ∀ b t, (s.tok t).uses = some b → b < s.next
  cn    : ∀ k, (s.cache k).Nodup
  cl    : ∀ k, ∀ b ∈ s.cache k, b < s.next
  home  : ∀ k, ∀ b ∈ s.cache k, (s.cell b).home = k
  idle  : ∀ k, ∀ b ∈ s.cache k, users b = []
  rest  : ∀ k, ∀ b ∈ s.cache k, (s.cell b).refs = 0
  got   : ∀ t b, s.tok t = .got b → users b = [t] ∧ (s.cell b).refs = 0
  dying : ∀ t b, s.tok t = .dying b → users b = [t]
  refs  : ∀ t b, s.tok t = .has b → (s.cell b).refs + 1 = (users b).length
  all   : ∀ b, b < s.next → users b ≠ [] ∨ ∃ k, b ∈ s.cache k
  nofr  : s.freed = []
  lim   : ∀ t b, s.tok t = .has b → (s.cell b).refs < 4294967296

theorem push_eq (s : Mgr) (b : Nat) : s.push b =
    { s with cache := put s.cache (s.cell b).home (b :: s.cache (s.cell b).home) } := by
  unfold Mgr.push
  rw [if_neg]
  unfold unlikely
  split <;> omega

theorem inv_init : Inv Mgr.init (fun _ => []) := by
  constructor <;> simp [Mgr.init, Tok.uses]

theorem nodup_one {l : List Nat} {a : Nat} (h : l.Nodup) (m : a ∈ l) (k : l.length = 1) : l = [a] := by
  match l, k with
  | [x], _ => simp at m; rw [m]

theorem inv_step {s t : Mgr} {users : Nat → List Nat} (i : Inv s users) (h : Step s t) :
    ∃ users', Inv t users' := by
  obtain ⟨un, uses, small, cn, cl, home, idle, rest, got, dying, refs, all, nofr, lim⟩ := i
  cases h with
  | want x h =>
    refine ⟨users, ?_⟩
    constructor <;> (try simp only [put]) <;> grind [Tok.uses]
  | pop x k b rs h hc =>
    refine ⟨put users b [x], ?_⟩
    have hb : b ∈ s.cache k := by rw [hc]; simp
    have hi := idle k b hb
    have hn := cn k
    rw [hc] at hn
    constructor
    case all =>
      intro q hq
      dsimp only at hq ⊢
      by_cases e : q = b
      · left; simp [put, e]
      · rcases all q hq with a | ⟨k', a⟩
        · left; simp [put, e]; exact a
        · right
          refine ⟨k', ?_⟩
          simp only [put]
          split
          · rename_i e2; subst e2; rw [hc] at a; simp [e] at a; exact a
          · exact a
    all_goals (try simp only [put]); grind [Tok.uses]
  | empty x k h hc =>
    refine ⟨users, ?_⟩
    constructor <;> (try simp only [put]) <;> grind [Tok.uses]
  | make x k h =>
    refine ⟨put users s.next [x], ?_⟩
    have hi : users s.next = [] := by
      cases e : users s.next with
      | nil => rfl
      | cons a l =>
        have := small s.next a ((uses _ _).1 (by simp [e]))
        omega
    have nc : ∀ k, s.next ∉ s.cache k := by
      intro k m
      have := cl k _ m
      omega
    constructor
    case all =>
      intro q hq
      dsimp only at hq ⊢
      by_cases e : q = s.next
      · left; simp [put, e]
      · rcases all q (by omega) with a | a
        · left; simp [put, e]; exact a
        · right; exact a
    all_goals (try simp only [put]); grind [Tok.uses]
  | reset x b h =>
    refine ⟨users, ?_⟩
    have := got x b h
    constructor <;> (try simp only [put]) <;> grind [Tok.uses]
  | write x b h junk op y ho =>
    refine ⟨users, ?_⟩
    constructor <;> (try simp only [put]) <;> grind [Tok.uses]
  | ref x u b h hu sm =>
    refine ⟨put users b (u :: users b), ?_⟩
    have hm : u ∉ users b := by rw [uses, hu]; simp [Tok.uses]
    have hx : x ∈ users b := by rw [uses, h]; simp [Tok.uses]
    have hr := refs x b h
    have nc : ∀ k, b ∉ s.cache k := by
      intro k m; have := idle k b m; rw [this] at hx; simp at hx
    have ng : ∀ q, s.tok q ≠ .got b := by
      intro q e
      have a := (got q b e).1
      rw [a] at hx; simp at hx; subst hx; rw [h] at e; simp at e
    have nd : ∀ q, s.tok q ≠ .dying b := by
      intro q e
      have a := dying q b e
      rw [a] at hx; simp at hx; subst hx; rw [h] at e; simp at e
    constructor
    case all =>
      intro q hq
      dsimp only at hq ⊢
      by_cases e : q = b
      · left; simp [put, e]
      · rcases all q hq with a | a
        · left; simp [put, e]; exact a
        · right; exact a
    all_goals (try simp only [put]); grind [Tok.uses]
  | dec x b h =>
    have hx : x ∈ users b := by rw [uses, h]; simp [Tok.uses]
    have hr := refs x b h
    have hl := lim x b h
    have nc : ∀ k, b ∉ s.cache k := by
      intro k m; have := idle k b m; rw [this] at hx; simp at hx
    have ng : ∀ q, s.tok q ≠ .got b := by
      intro q e
      have a := (got q b e).1
      rw [a] at hx; simp at hx; subst hx; rw [h] at e; simp at e
    have nd : ∀ q, s.tok q ≠ .dying b := by
      intro q e
      have a := dying q b e
      rw [a] at hx; simp at hx; subst hx; rw [h] at e; simp at e
    by_cases z : (s.cell b).refs = 0
    · have e1 : users b = [x] := nodup_one (un b) hx (by omega)
      have only : ∀ q, s.tok q = .has b → q = x := by
        intro q hq
        have m : q ∈ users b := by rw [uses, hq]; rfl
        rw [e1] at m
        simpa using m
      refine ⟨users, ?_⟩
      constructor
      case refs =>
        intro q c hq
        have hq2 : c ≠ b ∧ s.tok q = .has c := by
          simp only [put, if_pos z] at hq
          split at hq
          · simp at hq
          · rename_i ne
            refine ⟨?_, hq⟩
            intro e
            subst e
            exact ne (only q hq)
        simp only [put, if_neg hq2.1]
        exact refs q c hq2.2
      all_goals (try simp only [put, z]); grind [Tok.uses]
    · have e1 : ((s.cell b).refs + 4294967295) % 4294967296 = (s.cell b).refs - 1 := by omega
      refine ⟨put users b ((users b).erase x), ?_⟩
      have e2 : ((users b).erase x).length = (users b).length - 1 := List.length_erase_of_mem hx
      have e3 : ∀ q, q ∈ (users b).erase x ↔ q ≠ x ∧ q ∈ users b := by
        intro q; exact (un b).mem_erase_iff
      have e4 : ((users b).erase x).Nodup := (un b).erase x
      have e5 : (users b).erase x ≠ [] := by
        intro e; rw [e] at e2; simp at e2; omega
      constructor
      case all =>
        intro q hq
        dsimp only at hq ⊢
        by_cases e : q = b
        · left; simp [put, e, e5]
        · rcases all q hq with a | a
          · left; simp [put, e]; exact a
          · right; exact a
      all_goals (try simp only [put, e1, if_neg z]); grind [Tok.uses]
  | push x b h =>
    rw [push_eq]
    have hu := dying x b h
    have hb := small b x (by rw [h]; rfl)
    have nc : ∀ k, b ∉ s.cache k := by
      intro k m; have := idle k b m; rw [this] at hu; simp at hu
    refine ⟨put users b [], ?_⟩
    constructor
    case all =>
      intro q hq
      dsimp only at hq ⊢
      by_cases e : q = b
      · right; exact ⟨(s.cell b).home, by simp [put, e]⟩
      · rcases all q hq with a | ⟨k, a⟩
        · left; simp [put, e]; exact a
        · right
          refine ⟨k, ?_⟩
          by_cases e2 : k = (s.cell b).home
          · subst e2; simp [put, a]
          · simp [put, e2, a]
    case refs =>
      intro q c hq
      have e : c ≠ b := by
        intro e
        subst e
        simp only [put] at hq
        split at hq
        · simp at hq
        · rename_i ne
          have : q ∈ users c := by rw [uses, hq]; rfl
          rw [hu] at this
          simp at this
          exact ne this
      have hq2 : s.tok q = .has c := by
        simp only [put] at hq
        split at hq
        · simp at hq
        · exact hq
      simp only [put, if_neg e]
      exact refs q c hq2
    all_goals (try simp only [put]); grind [Tok.uses]

theorem inv_reach {s : Mgr} (r : Reach s) : ∃ users, Inv s users := by
  induction r with
  | init => exact ⟨_, inv_init⟩
  | step s t r h ih =>
    obtain ⟨users, i⟩ := ih
    exact inv_step i h

end Verif.Buf
