import Verif.Compile.Table
/-!
# Registers, code fragments and single instructions
-/
set_option linter.unusedSimpArgs false
set_option linter.unusedVariables false
namespace Verif.Compile
open Verif.Query (CmpOp)

variable {W : Type}

/-! ## The register map -/

theorem atR_nil (i : Nat) : atR [] i = none := by simp [atR]
theorem atR_cons_zero (x : Option Ty) (m : List (Option Ty)) : atR (x :: m) 0 = x := by simp [atR]
theorem atR_cons_succ (x : Option Ty) (m : List (Option Ty)) (i : Nat) : atR (x :: m) (i + 1) = atR m i := by simp [atR]

theorem pin_fresh (m : List (Option Ty)) (t : Ty) : atR m (pinAt m t).2 = none := by
  induction m with
  | nil => simp [pinAt, atR_nil]
  | cons x m ih =>
    cases x with
    | none => simp [pinAt, atR_cons_zero]
    | some u => simp [pinAt, atR_cons_succ, ih]

theorem pin_at (m : List (Option Ty)) (t : Ty) (i : Nat) :
    atR (pinAt m t).1 i = if i = (pinAt m t).2 then some t else atR m i := by
  induction m generalizing i with
  | nil =>
    cases i with
    | zero => simp [pinAt, atR]
    | succ i => simp [pinAt, atR]
  | cons x m ih =>
    cases x with
    | none =>
      cases i with
      | zero => simp [pinAt, atR_cons_zero]
      | succ i => simp [pinAt, atR_cons_succ]
    | some u =>
      cases i with
      | zero => simp [pinAt, atR_cons_zero]
      | succ i => simp [pinAt, atR_cons_succ, ih]

theorem set_at (m : List (Option Ty)) (r : Nat) (x : Option Ty) (i : Nat) (h : atR m r ≠ none ∨ x = none) :
    atR (m.set r x) i = if i = r then x else atR m i := by
  unfold atR
  rw [List.getElem?_set]
  by_cases hi : i = r
  · subst hi
    by_cases hl : i < m.length
    · simp [hl]
    · rcases h with h | h
      · simp [atR, List.getElem?_eq_none (Nat.le_of_not_lt hl)] at h
      · simp [hl, h]
  · simp [hi, Ne.symm hi]

theorem unpin_at (m : List (Option Ty)) (r i : Nat) : atR (m.set r none) i = if i = r then none else atR m i :=
  set_at m r none i (.inr rfl)

/-! ## Code -/

/-- the fragment is in the program, at the position -/
def Frag (code : List Instr) (p : Nat) (f : List Instr) : Prop := ∀ i x, f[i]? = some x → code[p + i]? = some x

theorem Frag.app {code : List Instr} {p : Nat} {f g : List Instr} (h : Frag code p (f ++ g)) :
    Frag code p f ∧ Frag code (p + f.length) g := by
  constructor
  · intro i x hx
    refine h i x ?_
    rw [List.getElem?_append_left ((List.getElem?_eq_some_iff.mp hx).1)]; exact hx
  · intro i x hx
    have := h (f.length + i) x (by rw [List.getElem?_append_right (by omega)]; simpa using hx)
    rwa [Nat.add_assoc]

theorem Frag.one {code : List Instr} {p : Nat} {x : Instr} {g : List Instr} (h : Frag code p (x :: g)) : code[p]? = some x := by
  have := h 0 x (by simp)
  simpa using this

theorem Frag.self (f pre post : List Instr) : Frag (pre ++ f ++ post) pre.length f := by
  intro i x hx
  have hl := (List.getElem?_eq_some_iff.mp hx).1
  rw [List.append_assoc, List.getElem?_append_right (by omega), Nat.add_sub_cancel_left, List.getElem?_append_left hl, hx]

theorem Exec.trans {E : Env W} {code : List Instr} {a b c : VM W} (h : Exec E code a b) (h' : Exec E code b c) : Exec E code a c := by
  induction h with
  | refl => exact h'
  | step hi hs _ ih => exact .step hi hs (ih h')

theorem Exec.one {E : Env W} {code : List Instr} {a b : VM W} {i : Instr} (h : code[a.pc]? = some i) (hs : stepI E i a = .ok b) :
    Exec E code a b := .step h hs (.refl _)

theorem Exec.fails {E : Env W} {code : List Instr} {a b : VM W} {x : Stop} (h : Exec E code a b) (h' : Fails E code b x) :
    Fails E code a x := by
  obtain ⟨s, i, he, hi, hs⟩ := h'
  exact ⟨s, i, h.trans he, hi, hs⟩

theorem fails_now {E : Env W} {code : List Instr} {a : VM W} {i : Instr} {x : Stop} (h : code[a.pc]? = some i)
    (hs : stepI E i a = .error x) : Fails E code a x := ⟨a, i, .refl _, h, hs⟩

/-! ## Buffers -/

/-- only values of a type with buffers own one -/
def Wf (s : VM W) : Prop := ∀ i, (s.reg i).buf = true → (s.reg i).val.heap = true

/-- and no register that is free does -/
def Clean (m : List (Option Ty)) (s : VM W) : Prop := Wf s ∧ ∀ i, atR m i = none → (s.reg i).buf = false

/-! ## One instruction with a result -/

/-- the instruction reads the registers `bs`, puts the value into `a` and touches nothing else; whatever the operands owned
is given back -/
structure One (E : Env W) (i : Instr) (s : VM W) (a : Nat) (bs : List Nat) (res : Except Stop Val) : Prop where
  ok : ∀ v, res = .ok v → ∃ s1, stepI E i s = .ok s1 ∧ s1.pc = s.pc + 1 ∧ (s1.reg a).val = v ∧ s1.world = s.world ∧
    s1.stack = s.stack ∧ (∀ j, j ≠ a → j ∉ bs → s1.reg j = s.reg j) ∧
    (Wf s → (s.reg a).buf = false → s1.leak = s.leak ∧ (∀ b ∈ bs, (s1.reg b).buf = false) ∧ Wf s1)
  err : ∀ x, res = .error x → stepI E i s = .error x

@[simp] theorem put_pc (s : VM W) (r v o) : (s.put r v o).pc = s.pc := rfl
@[simp] theorem put_world (s : VM W) (r v o) : (s.put r v o).world = s.world := rfl
@[simp] theorem put_stack (s : VM W) (r v o) : (s.put r v o).stack = s.stack := rfl
@[simp] theorem free_pc (s : VM W) (r) : (s.free r).pc = s.pc := rfl
@[simp] theorem free_world (s : VM W) (r) : (s.free r).world = s.world := rfl
@[simp] theorem free_stack (s : VM W) (r) : (s.free r).stack = s.stack := rfl
@[simp] theorem free_leak (s : VM W) (r) : (s.free r).leak = s.leak := rfl
@[simp] theorem next_pc (s : VM W) : s.next.pc = s.pc + 1 := rfl
@[simp] theorem next_world (s : VM W) : s.next.world = s.world := rfl
@[simp] theorem next_stack (s : VM W) : s.next.stack = s.stack := rfl
@[simp] theorem next_leak (s : VM W) : s.next.leak = s.leak := rfl
@[simp] theorem next_reg (s : VM W) : s.next.reg = s.reg := rfl

theorem put_reg (s : VM W) (r v o i) : (s.put r v o).reg i = if i = r then
    (if v.heap then { val := v, buf := o } else { val := v, buf := (s.reg r).buf }) else s.reg i := rfl
theorem free_reg (s : VM W) (r i) : (s.free r).reg i = if i = r then (s.reg r).free else s.reg i := rfl
theorem put_val (s : VM W) (r v o) : ((s.put r v o).reg r).val = v := by
  rw [put_reg, if_pos rfl]; split <;> rfl
theorem put_ne (s : VM W) (r v o) {i : Nat} (h : i ≠ r) : (s.put r v o).reg i = s.reg i := by rw [put_reg, if_neg h]
theorem free_ne (s : VM W) (r) {i : Nat} (h : i ≠ r) : (s.free r).reg i = s.reg i := by rw [free_reg, if_neg h]
theorem put_leak (s : VM W) (r v o) (h : (s.reg r).buf = false) : (s.put r v o).leak = s.leak := by
  simp [VM.put, h]
theorem put_wf {s : VM W} (h : Wf s) (r v o) (hb : (s.reg r).buf = false) : Wf (s.put r v o) := by
  intro i hi
  rw [put_reg] at hi ⊢
  by_cases e : i = r
  · rw [if_pos e] at hi ⊢
    by_cases hh : v.heap = true
    · rw [if_pos hh]; exact hh
    · rw [if_neg hh] at hi; simp [hb] at hi
  · rw [if_neg e] at hi ⊢; exact h i hi
theorem free_wf {s : VM W} (h : Wf s) (r) : Wf (s.free r) := by
  intro i hi
  rw [free_reg] at hi ⊢
  by_cases e : i = r
  · subst e
    rw [if_pos rfl] at hi ⊢
    unfold Cell.free at hi ⊢
    by_cases n : (s.reg i).val = .null
    · rw [if_pos n] at hi ⊢; exact h i hi
    · rw [if_neg n] at hi; simp at hi
  · rw [if_neg e] at hi ⊢; exact h i hi
theorem free_buf {s : VM W} (h : Wf s) (r) : ((s.free r).reg r).buf = false := by
  rw [free_reg, if_pos rfl]
  unfold Cell.free
  by_cases n : (s.reg r).val = .null
  · rw [if_pos n]
    cases hb : (s.reg r).buf with
    | false => rfl
    | true => have := h r hb; rw [n] at this; simp [Val.heap] at this
  · rw [if_neg n]
theorem next_wf {s : VM W} (h : Wf s) : Wf s.next := h

theorem free_keep {s : VM W} {r i : Nat} (h : (s.reg i).buf = false) : ((s.free r).reg i).buf = false := by
  rw [free_reg]
  by_cases e : i = r
  · subst e
    rw [if_pos rfl]; unfold Cell.free; split
    · exact h
    · rfl
  · rw [if_neg e]; exact h

/-- result first, then the operands freed -/
theorem one_put_free2 (s : VM W) (a b c : Nat) (v : Val) (o : Bool) (hab : a ≠ b) (hac : a ≠ c) :
    ∃ s1, s1 = (((s.put a v o).free b).free c).next ∧ s1.pc = s.pc + 1 ∧ (s1.reg a).val = v ∧ s1.world = s.world ∧
    s1.stack = s.stack ∧ (∀ j, j ≠ a → j ∉ [b, c] → s1.reg j = s.reg j) ∧
    (Wf s → (s.reg a).buf = false → s1.leak = s.leak ∧ (∀ x ∈ [b, c], (s1.reg x).buf = false) ∧ Wf s1) := by
  refine ⟨_, rfl, rfl, ?_, rfl, rfl, ?_, ?_⟩
  · simp only [next_reg]
    rw [free_ne _ _ hac, free_ne _ _ hab, put_val]
  · intro j ha hj
    simp only [List.mem_cons, List.not_mem_nil, or_false, not_or] at hj
    simp only [next_reg]
    rw [free_ne _ _ hj.2, free_ne _ _ hj.1, put_ne _ _ _ _ ha]
  · intro hw hb
    have w1 := put_wf hw a v o hb
    have w2 := free_wf w1 b
    refine ⟨?_, ?_, free_wf w2 c⟩
    · simp only [next_leak, free_leak]; exact put_leak _ _ _ _ hb
    · intro x hx
      simp only [List.mem_cons, List.not_mem_nil, or_false] at hx
      rcases hx with rfl | rfl
      · exact free_keep (free_buf w1 _)
      · exact free_buf w2 _

/-- the operands freed, then the result -/
theorem one_free2_put (s : VM W) (a b c : Nat) (v : Val) (o : Bool) (hab : a ≠ b) (hac : a ≠ c) :
    ∃ s1, s1 = (((s.free b).free c).put a v o).next ∧ s1.pc = s.pc + 1 ∧ (s1.reg a).val = v ∧ s1.world = s.world ∧
    s1.stack = s.stack ∧ (∀ j, j ≠ a → j ∉ [b, c] → s1.reg j = s.reg j) ∧
    (Wf s → (s.reg a).buf = false → s1.leak = s.leak ∧ (∀ x ∈ [b, c], (s1.reg x).buf = false) ∧ Wf s1) := by
  refine ⟨_, rfl, rfl, ?_, rfl, rfl, ?_, ?_⟩
  · simp only [next_reg]; exact put_val _ _ _ _
  · intro j ha hj
    simp only [List.mem_cons, List.not_mem_nil, or_false, not_or] at hj
    simp only [next_reg]
    rw [put_ne _ _ _ _ ha, free_ne _ _ hj.2, free_ne _ _ hj.1]
  · intro hw hb
    have w2 := free_wf hw b
    have w3 := free_wf w2 c
    have hb' : (((s.free b).free c).reg a).buf = false := by rw [free_ne _ _ hac, free_ne _ _ hab]; exact hb
    refine ⟨?_, ?_, put_wf w3 a v o hb'⟩
    · simp only [next_leak]; rw [put_leak _ _ _ _ hb']; rfl
    · intro x hx
      simp only [List.mem_cons, List.not_mem_nil, or_false] at hx
      rcases hx with rfl | rfl
      · simp only [next_reg]; rw [put_ne _ _ _ _ (Ne.symm hab)]; exact free_keep (free_buf hw _)
      · simp only [next_reg]; rw [put_ne _ _ _ _ (Ne.symm hac)]; exact free_buf w2 _

/-- only the result: the operands own nothing -/
theorem one_put (s : VM W) (a : Nat) (bs : List Nat) (v : Val) (o : Bool) (ha : a ∉ bs)
    (hn : ∀ b ∈ bs, (s.reg b).val.heap = false) :
    ∃ s1, s1 = (s.put a v o).next ∧ s1.pc = s.pc + 1 ∧ (s1.reg a).val = v ∧ s1.world = s.world ∧
    s1.stack = s.stack ∧ (∀ j, j ≠ a → j ∉ bs → s1.reg j = s.reg j) ∧
    (Wf s → (s.reg a).buf = false → s1.leak = s.leak ∧ (∀ x ∈ bs, (s1.reg x).buf = false) ∧ Wf s1) := by
  refine ⟨_, rfl, rfl, put_val _ _ _ _, rfl, rfl, fun j ha _ => put_ne _ _ _ _ ha, ?_⟩
  intro hw hb
  refine ⟨?_, ?_, put_wf hw a v o hb⟩
  · simp only [next_leak]; exact put_leak _ _ _ _ hb
  · intro x hx
    simp only [next_reg]
    rw [put_ne _ _ _ _ (by rintro rfl; exact ha hx)]
    cases h : (s.reg x).buf with
    | false => rfl
    | true => have := hw x h; rw [hn x hx] at this; cases this

/-- one operand, freed after the result -/
theorem one_put_free (s : VM W) (a b : Nat) (v : Val) (o : Bool) (hab : a ≠ b) :
    ∃ s1, s1 = ((s.put a v o).free b).next ∧ s1.pc = s.pc + 1 ∧ (s1.reg a).val = v ∧ s1.world = s.world ∧
    s1.stack = s.stack ∧ (∀ j, j ≠ a → j ∉ [b] → s1.reg j = s.reg j) ∧
    (Wf s → (s.reg a).buf = false → s1.leak = s.leak ∧ (∀ x ∈ [b], (s1.reg x).buf = false) ∧ Wf s1) := by
  refine ⟨_, rfl, rfl, ?_, rfl, rfl, ?_, ?_⟩
  · simp only [next_reg]
    rw [free_ne _ _ hab, put_val]
  · intro j ha hj
    simp only [List.mem_cons, List.not_mem_nil, or_false] at hj
    simp only [next_reg]
    rw [free_ne _ _ hj, put_ne _ _ _ _ ha]
  · intro hw hb
    have w1 := put_wf hw a v o hb
    refine ⟨?_, ?_, free_wf w1 b⟩
    · simp only [next_leak, free_leak]; exact put_leak _ _ _ _ hb
    · intro x hx
      simp only [List.mem_cons, List.not_mem_nil, or_false] at hx
      subst hx
      exact free_buf w1 _

/-- one operand, freed before the result -/
theorem one_free_put (s : VM W) (a b : Nat) (v : Val) (o : Bool) (hab : a ≠ b) :
    ∃ s1, s1 = ((s.free b).put a v o).next ∧ s1.pc = s.pc + 1 ∧ (s1.reg a).val = v ∧ s1.world = s.world ∧
    s1.stack = s.stack ∧ (∀ j, j ≠ a → j ∉ [b] → s1.reg j = s.reg j) ∧
    (Wf s → (s.reg a).buf = false → s1.leak = s.leak ∧ (∀ x ∈ [b], (s1.reg x).buf = false) ∧ Wf s1) := by
  refine ⟨_, rfl, rfl, ?_, rfl, rfl, ?_, ?_⟩
  · simp only [next_reg]; exact put_val _ _ _ _
  · intro j ha hj
    simp only [List.mem_cons, List.not_mem_nil, or_false] at hj
    simp only [next_reg]
    rw [put_ne _ _ _ _ ha, free_ne _ _ hj]
  · intro hw hb
    have w2 := free_wf hw b
    have hb' : ((s.free b).reg a).buf = false := by rw [free_ne _ _ hab]; exact hb
    refine ⟨?_, ?_, put_wf w2 a v o hb'⟩
    · simp only [next_leak]; rw [put_leak _ _ _ _ hb']; rfl
    · intro x hx
      simp only [List.mem_cons, List.not_mem_nil, or_false] at hx
      subst hx
      simp only [next_reg]; rw [put_ne _ _ _ _ (Ne.symm hab)]; exact free_buf hw _

end Verif.Compile
