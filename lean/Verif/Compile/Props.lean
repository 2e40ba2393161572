import Verif.Compile.Bound
/-!
# C86: a compiled expression computes what the expression says

`emit` is the compiler, `Exec`/`Fails` the machine, `eval` (Spec.lean) the meaning of the expression over values.
-/
set_option linter.unusedSimpArgs false
set_option linter.unusedVariables false
namespace Verif.Compile
open Verif.Query (CmpOp)

variable {W : Type}

/-- the expressions the theorems are about: the row, the variables and the functions have their declared types, the
variables exist, and `Expr.Ok` (no LIKE as an operand, no volatile function in what BETWEEN and CASE evaluate twice) -/
structure Fine (E : Env W) (S : Sig) (vars : List Val) (e : Expr) : Prop where
  typed : Typed E S vars
  ok : e.Ok E.fn S.fnDerive
  vars : e.VarsOk vars.length

/-- the machine is about to run the code emitted after `c`; the variables are at the bottom of its stack -/
structure At (c : CS) (vars : List Val) (s : VM W) : Prop where
  pc : s.pc = c.code.length
  vars : ∀ n, n < vars.length → ∃ cell, s.stack[n]? = some cell ∧ cell.val = vars.getD n .null

/-- C86: wherever the code of an expression is put (after the code `c.code` the compiler already has, before any code
`post`), running it puts the value of the expression into the register the compiler returned, and goes on after the code.
The stack and all registers in use are as before. -/
theorem C86_value_partial (E : Env W) (S : Sig) (vars : List Val) (e : Expr) (h : Fine E S vars e) (c c' : CS) (r : Nat)
    (hc : emit S e c = some (c', r)) (post : List Instr) (s : VM W) (hs : At c vars s) (v : Val) (w : W)
    (hv : eval E.toSem vars e s.world = .ok (v, w)) :
    ∃ s', Exec E (c'.code ++ post) s s' ∧ s'.pc = c'.code.length ∧ (s'.reg r).val = v ∧ s'.world = w ∧ s'.stack = s.stack ∧
      ∀ i, atR c.map i ≠ none → s'.reg i = s.reg i := by
  obtain ⟨frag, ty, hsh, hr⟩ := sim h.typed e h.ok h.vars c c' r hc
  obtain ⟨r1, r2⟩ := hr (c'.code ++ post) s (by rw [hsh.code]; exact Frag.self _ _ _) hs.pc hs.vars
  obtain ⟨_, s', hx, po⟩ := r1 v w hv
  exact ⟨s', hx, po.pc, po.val, po.world, po.stack, po.keep⟩

/-- C86: an expression that is an error stops the program with an error -/
theorem C86_error_partial (E : Env W) (S : Sig) (vars : List Val) (e : Expr) (h : Fine E S vars e) (c c' : CS) (r : Nat)
    (hc : emit S e c = some (c', r)) (post : List Instr) (s : VM W) (hs : At c vars s) (x : Stop)
    (hv : eval E.toSem vars e s.world = .error x) : Fails E (c'.code ++ post) s x := by
  obtain ⟨frag, ty, hsh, hr⟩ := sim h.typed e h.ok h.vars c c' r hc
  obtain ⟨r1, r2⟩ := hr (c'.code ++ post) s (by rw [hsh.code]; exact Frag.self _ _ _) hs.pc hs.vars
  exact r2 x hv

/-- C86: and nothing else happens. If the program (the code so far and the expression) runs to its end, the value left is
that of the expression; if it stops, the expression is that error. -/
theorem C86_only_partial (E : Env W) (S : Sig) (vars : List Val) (e : Expr) (h : Fine E S vars e) (c c' : CS) (r : Nat)
    (hc : emit S e c = some (c', r)) (s : VM W) (hs : At c vars s) :
    (∀ s', Exec E c'.code s s' → s'.pc = c'.code.length → eval E.toSem vars e s.world = .ok ((s'.reg r).val, s'.world)) ∧
    (∀ x, Fails E c'.code s x → eval E.toSem vars e s.world = .error x) := by
  cases hv : eval E.toSem vars e s.world with
  | error y =>
    have hf := C86_error_partial E S vars e h c c' r hc [] s hs y hv
    rw [List.append_nil] at hf
    obtain ⟨s1, i, hx, hi, hst⟩ := hf
    refine ⟨fun s' hx' hp => ?_, fun x hx' => ?_⟩
    · exfalso
      rcases hx.linear hx' with g | g
      · cases g with
        | refl => rw [hp, List.getElem?_eq_none (Nat.le_refl _)] at hi; cases hi
        | step g1 g2 _ => rw [hi] at g1; cases g1; rw [hst] at g2; cases g2
      · have := g.stuck (by rw [hp]; exact List.getElem?_eq_none (Nat.le_refl _))
        subst this
        rw [hp, List.getElem?_eq_none (Nat.le_refl _)] at hi; cases hi
    · obtain ⟨s2, i2, hx2, hi2, hst2⟩ := hx'
      have : s1 = s2 := by
        rcases hx.linear hx2 with g | g
        · cases g with
          | refl => rfl
          | step g1 g2 _ => rw [hi] at g1; cases g1; rw [hst] at g2; cases g2
        · cases g with
          | refl => rfl
          | step g1 g2 _ => rw [hi2] at g1; cases g1; rw [hst2] at g2; cases g2
      subst this
      rw [hi] at hi2; cases hi2
      rw [hst] at hst2; cases hst2; rfl
  | ok p =>
    obtain ⟨s1, hx, hp1, hval, hw, _, _⟩ := C86_value_partial E S vars e h c c' r hc [] s hs p.1 p.2 hv
    rw [List.append_nil] at hx
    refine ⟨fun s' hx' hp => ?_, fun x hx' => ?_⟩
    · have : s' = s1 := by
        rcases hx.linear hx' with g | g
        · exact g.stuck (by rw [hp1]; exact List.getElem?_eq_none (Nat.le_refl _))
        · exact (g.stuck (by rw [hp]; exact List.getElem?_eq_none (Nat.le_refl _))).symm
      subst this
      rw [hval, hw]
    · exfalso
      obtain ⟨s2, i2, hx2, hi2, hst2⟩ := hx'
      rcases hx.linear hx2 with g | g
      · have := g.stuck (by rw [hp1]; exact List.getElem?_eq_none (Nat.le_refl _))
        subst this
        rw [hp1, List.getElem?_eq_none (Nat.le_refl _)] at hi2; cases hi2
      · cases g with
        | refl => rw [hp1, List.getElem?_eq_none (Nat.le_refl _)] at hi2; cases hi2
        | step g1 g2 _ => rw [hi2] at g1; cases g1; rw [hst2] at g2; cases g2

/-- C86: compiling an expression takes one register that was free and leaves the others as they were; the code before it is
not changed; the type recorded for the register is that of the value -/
theorem C86_register_partial (E : Env W) (S : Sig) (vars : List Val) (e : Expr) (h : Fine E S vars e) (c c' : CS) (r : Nat)
    (hc : emit S e c = some (c', r)) :
    atR c.map r = none ∧ atR c'.map r ≠ none ∧ (∀ i, i ≠ r → atR c'.map i = atR c.map i) ∧ (∃ frag, c'.code = c.code ++ frag) ∧
    (¬ e.isLike → ∀ w v w', eval E.toSem vars e w = .ok (v, w') → v = .null ∨ v.ty = c'.rtype r) := by
  obtain ⟨frag, ty, hsh, hr⟩ := sim h.typed e h.ok h.vars c c' r hc
  refine ⟨hsh.fresh, by rw [hsh.map, if_pos rfl]; simp, fun i hi => by rw [hsh.map, if_neg hi], ⟨frag, hsh.code⟩, fun hl w v w' hv => ?_⟩
  obtain ⟨r1, _⟩ := hr c'.code ⟨c.code.length, fun _ => ⟨.null, false⟩, vars.map fun v => ⟨v, false⟩, w, 0⟩
    (by have := Frag.self frag c.code []; rw [List.append_nil, ← hsh.code] at this; exact this) rfl
    (fun n hn => ⟨⟨vars[n], false⟩, by simp [List.getElem?_map, List.getElem?_eq_getElem hn], by simp [List.getD_eq_getElem?_getD, List.getElem?_eq_getElem hn]⟩)
  have := (r1 v w' hv).1 hl
  rw [rtype_of (t := ty) (by rw [hsh.map, if_pos rfl])]
  exact this

/-- C86: no instruction of a compiled expression names a register beyond the number of registers the compiler asks the
machine for (the size of the register map) -/
theorem C86_bounds (S : Sig) (e : Expr) (c c' : CS) (r : Nat) (hc : emit S e c = some (c', r))
    (hb : ∀ i ∈ c.code, ∀ x ∈ i.regs, x < c.map.length) :
    (∀ i ∈ c'.code, ∀ x ∈ i.regs, x < c'.map.length) ∧ r < c'.map.length := by
  obtain ⟨g1, g2⟩ := grows e c c' r hc
  exact ⟨g1.ok hb, g2⟩

/-- C86: memory. If no register that is not in use owns a buffer before the code runs, the same holds after it and no
buffer was lost; provided the left side of every IN is a column, a constant or of a type without buffers -/
theorem C86_memory_partial (E : Env W) (S : Sig) (vars : List Val) (e : Expr) (h : Fine E S vars e) (hin : e.PlainIn S) (c c' : CS) (r : Nat)
    (hc : emit S e c = some (c', r)) (post : List Instr) (s : VM W) (hs : At c vars s) (v : Val) (w : W)
    (hv : eval E.toSem vars e s.world = .ok (v, w))
    (hw : ∀ i, (s.reg i).buf = true → (s.reg i).val.heap = true) (hf : ∀ i, atR c.map i = none → (s.reg i).buf = false) :
    ∃ s', Exec E (c'.code ++ post) s s' ∧ s'.pc = c'.code.length ∧ (s'.reg r).val = v ∧ s'.leak = s.leak ∧
      (∀ i, (s'.reg i).buf = true → (s'.reg i).val.heap = true) ∧ ∀ i, atR c'.map i = none → (s'.reg i).buf = false := by
  obtain ⟨frag, ty, hsh, hr⟩ := sim h.typed e h.ok h.vars c c' r hc
  obtain ⟨r1, r2⟩ := hr (c'.code ++ post) s (by rw [hsh.code]; exact Frag.self _ _ _) hs.pc hs.vars
  obtain ⟨_, s', hx, po⟩ := r1 v w hv
  obtain ⟨m1, m2⟩ := po.mem hin ⟨hw, hf⟩
  exact ⟨s', hx, po.pc, po.val, m2, m1.1, m1.2⟩

/-! ## Concrete programs -/

instance {A : Type} [DecidableEq A] : DecidableEq (Except Stop A)
  | .ok a, .ok b => if h : a = b then .isTrue (by rw [h]) else .isFalse fun e => h (by cases e; rfl)
  | .error a, .error b => if h : a = b then .isTrue (by rw [h]) else .isFalse fun e => h (by cases e; rfl)
  | .ok _, .error _ => .isFalse fun e => by cases e
  | .error _, .ok _ => .isFalse fun e => by cases e

/-- operations for the examples -/
def demoPrims : Prims where
  ofInt _ := 0
  fadd _ _ := none
  fsub _ _ := none
  fmul _ _ := none
  fdiv _ _ := none
  fneg b := b
  tsAdd _ _ := none
  tsSub _ _ := none
  tsDiff _ _ := ⟨0, 0, 0⟩
  dateAdd _ _ := none
  dateSub _ _ := none
  dateAddIv _ _ := none
  dateSubIv _ _ := none
  ivAdd _ _ := none
  ivSub _ _ := none
  ivNeg v := v
  vecAdd _ _ := none
  vecSub _ _ := none
  vecMul _ _ := none
  like a b := some (decide (a = b))
  jsonKey _ _ := none
  jsonAt _ _ := none
  jsonPath _ _ := none
  cmpJ _ _ := 0
  cmpV _ _ := 0
  array _ := some []
  object _ := some []
  quant _ _ _ _ := none

/-- a row (7, "ab"); function 0 counts its calls: 1, 2, 3, … -/
def demoEnv : Env Nat where
  P := demoPrims
  col _ n := some (if n = 0 then .int 7 else .str [97, 98])
  row _ n := some (if n = 0 then .int 7 else .str [97, 98])
  fn _ w _ := some (.int (w + 1), w + 1)
  fnOwns _ _ _ := false

def demoSig : Sig where
  colTy _ n := if n = 0 then .int else .string
  cursor _ := some 0
  varTy _ := .int
  fnTy _ := .int
  fnDerive _ := false

theorem demo_typed : Typed demoEnv demoSig [.int 5] where
  col t n v hv := by cases hv; by_cases h : n = 0 <;> exact .inr (by simp [demoSig, h, Val.ty])
  cursor _ _ _ _ := rfl
  var n := by
    cases n with
    | zero => exact .inr rfl
    | succ n => exact .inl (by simp)
  fn f w a v w' _ h := by cases h; exact .inr rfl
  derive f w a v w' t h := by cases h

def start (w : Nat) : VM Nat := ⟨0, fun _ => ⟨.null, false⟩, [⟨.int 5, false⟩], w, 0⟩

/-- `CASE col0 WHEN 1 THEN 'x' WHEN 7 THEN col1 || 'y' ELSE NULL END` -/
def demoCase : Expr :=
  .caseOf (.col 0 0) (.cons (.const (.int 1)) (.const (.str [120])) (.cons (.const (.int 7)) (.bin .cat (.col 0 1) (.const (.str [121]))) .nil)) (.const .null)

theorem demoCase_fine : Fine demoEnv demoSig [.int 5] demoCase where
  typed := demo_typed
  ok := by simp [demoCase, Expr.Ok, Whens.Ok, Expr.isLike, Expr.Pure]
  vars := by simp [demoCase, Expr.VarsOk, Whens.VarsOk]

/-- its value is "aby"; so is what its code computes -/
example : ∃ c' r s', emit demoSig demoCase ⟨[], []⟩ = some (c', r) ∧ Exec demoEnv c'.code (start 0) s' ∧ s'.pc = c'.code.length ∧
    (s'.reg r).val = .str [97, 98, 121] := by
  cases hc : emit demoSig demoCase ⟨[], []⟩ with
  | none => exact absurd hc (by decide +kernel)
  | some p =>
    obtain ⟨s', h1, h2, h3, _⟩ := C86_value_partial demoEnv demoSig [.int 5] demoCase demoCase_fine ⟨[], []⟩ p.1 p.2 hc [] (start 0)
      ⟨rfl, fun n hn => ⟨⟨.int 5, false⟩, by simp at hn; subst hn; exact ⟨rfl, rfl⟩⟩⟩ (.str [97, 98, 121]) 0 (by decide +kernel)
    rw [List.append_nil] at h1
    exact ⟨p.1, p.2, s', rfl, h1, h2, h3⟩

/-- `(var0 + 2) / 0` is an error, in the code too -/
def demoDiv : Expr := .bin .div (.bin .add (.var 0) (.const (.int 2))) (.const (.int 0))
example : ∃ c' r, emit demoSig demoDiv ⟨[], []⟩ = some (c', r) ∧ Fails demoEnv c'.code (start 0) .err := by
  cases hc : emit demoSig demoDiv ⟨[], []⟩ with
  | none => exact absurd hc (by decide +kernel)
  | some p =>
    have := C86_error_partial demoEnv demoSig [.int 5] demoDiv
      ⟨demo_typed, by simp [demoDiv, Expr.Ok, Expr.isLike], by simp [demoDiv, Expr.VarsOk]⟩ ⟨[], []⟩ p.1 p.2 hc [] (start 0)
      ⟨rfl, fun n hn => ⟨⟨.int 5, false⟩, by simp at hn; subst hn; exact ⟨rfl, rfl⟩⟩⟩ .err (by decide +kernel)
    rw [List.append_nil] at this
    exact ⟨p.1, p.2, rfl, this⟩

/-- the hypothesis of C86_memory holds of `col1 IN ('a', 'ab')` and of the CASE above -/
example : (Expr.inlist false (.col 0 1) (.cons (.const (.str [97])) (.cons (.const (.str [97, 98])) .nil))).PlainIn demoSig ∧
    demoCase.PlainIn demoSig := by
  refine ⟨⟨trivial, .inr (.inl ⟨0, 1, rfl⟩), ?_⟩, ?_⟩
  · simp [Args.PlainIn, Expr.PlainIn]
  · simp [demoCase, Expr.PlainIn, Whens.PlainIn]

/-! ## What is not so -/

/-- run at most `n` instructions -/
def runN (E : Env W) (code : List Instr) : Nat → VM W → Except Stop (VM W)
  | 0, s => .ok s
  | n + 1, s => (code[s.pc]?).elim (.ok s) fun i => (stepI E i s).bind (runN E code n)

theorem runN_exec {E : Env W} {code : List Instr} {n : Nat} {s s' : VM W} (h : runN E code n s = .ok s') : Exec E code s s' := by
  induction n generalizing s with
  | zero => cases h; exact .refl _
  | succ n ih =>
    unfold runN at h
    cases hi : code[s.pc]? with
    | none => rw [hi] at h; cases h; exact .refl _
    | some i =>
      rw [hi] at h
      simp only [Option.elim] at h
      cases hs : stepI E i s with
      | error x => rw [hs] at h; cases h
      | ok s1 => rw [hs] at h; exact .step hi hs (ih h)

theorem runN_fails {E : Env W} {code : List Instr} {n : Nat} {s : VM W} {x : Stop} (h : runN E code n s = .error x) : Fails E code s x := by
  induction n generalizing s with
  | zero => cases h
  | succ n ih =>
    unfold runN at h
    cases hi : code[s.pc]? with
    | none => rw [hi] at h; cases h
    | some i =>
      rw [hi] at h
      simp only [Option.elim] at h
      cases hs : stepI E i s with
      | error y => rw [hs] at h; cases h; exact fails_now hi hs
      | ok s1 => rw [hs] at h; exact (Exec.one hi hs).fails (ih h)

/-- what is left after running an expression from scratch: the value, and whether a register that is free owns a buffer -/
def outcome (e : Expr) (w : Nat) (n : Nat) : Option (Except Stop (Val × Bool)) :=
  (emit demoSig e ⟨[], []⟩).map fun p => (runN demoEnv p.1.code n (start w)).map fun s =>
    ((s.reg p.2).val, (List.range p.1.map.length).any fun i => (atR p.1.map i).isNone && (s.reg i).buf)

/-- C86: LIKE is recorded as text but is a truth value, cast.c:318-322. `('a' LIKE 'a') || 'x'` is accepted, and the
machine reads the truth value as a string (a wild pointer); the expression is an error. -/
theorem C86_like_false : outcome (.bin .cat (.like false (.const (.str [97])) (.const (.str [97]))) (.const (.str [120]))) 0 9 = some (.error .ub) ∧
    eval demoEnv.toSem [.int 5] (.bin .cat (.like false (.const (.str [97])) (.const (.str [97]))) (.const (.str [120]))) 0 = .error .err := by
  exact ⟨by decide +kernel, by decide +kernel⟩

/-- C86: some values have no defined quotient, remainder, shift or negation, and the truth of an interval is read through a wild pointer: with
7 in the column, `min / -1`, `min % -1`, `col0 << 64`, `col0 >> -1`, `-min` and `NOT interval` all pass the compiler and stop with
undefined behaviour -/
theorem C86_trap_false : outcome (.bin .div (.const (.int i64min)) (.const (.int (-1)))) 0 9 = some (.error .ub) ∧
    outcome (.bin .mod (.const (.int i64min)) (.const (.int (-1)))) 0 9 = some (.error .ub) ∧
    outcome (.bin .bshl (.col 0 0) (.const (.int 64))) 0 9 = some (.error .ub) ∧
    outcome (.bin .bshr (.col 0 0) (.const (.int (-1)))) 0 9 = some (.error .ub) ∧
    outcome (.neg (.const (.int i64min))) 0 9 = some (.error .ub) ∧
    outcome (.not (.const (.interval ⟨1, 0, 0⟩))) 0 9 = some (.error .ub) := by
  refine ⟨?_, ?_, ?_, ?_, ?_, ?_⟩ <;> decide +kernel

/-- C86: IN does not free its left side, vm.c:1472-1476: after `(col1 || 'y') IN ('a')` a register that is free owns the
buffer of the concatenation, which the next use of the register overwrites -/
theorem C86_in_leak_false : outcome (.inlist false (.bin .cat (.col 0 1) (.const (.str [121]))) (.cons (.const (.str [97])) .nil)) 0 9
    = some (.ok (.bool 0, true)) := by decide +kernel

/-- C86: BETWEEN evaluates its left side twice, emit_expr.c:676-716: with a function that returns 1 and then 2,
`f() BETWEEN 1 AND 1` is false although the value of `f()` is 1; and so does CASE for every WHEN, emit_expr.c:749-794:
`CASE f() WHEN 2 THEN 10 WHEN 1 THEN 20 ELSE 30 END` is 30 -/
theorem C86_volatile_false : outcome (.between false (.call 0 .nil) (.const (.int 1)) (.const (.int 1))) 0 20 = some (.ok (.bool 0, false)) ∧
    eval demoEnv.toSem [.int 5] (.between false (.call 0 .nil) (.const (.int 1)) (.const (.int 1))) 0 = .ok (.bool 1, 1) ∧
    outcome (.caseOf (.call 0 .nil) (.cons (.const (.int 2)) (.const (.int 10)) (.cons (.const (.int 1)) (.const (.int 20)) .nil)) (.const (.int 30))) 0 20
      = some (.ok (.int 30, false)) ∧
    eval demoEnv.toSem [.int 5] (.caseOf (.call 0 .nil) (.cons (.const (.int 2)) (.const (.int 10)) (.cons (.const (.int 1)) (.const (.int 20)) .nil)) (.const (.int 30))) 0
      = .ok (.int 20, 1) := by
  refine ⟨?_, ?_, ?_, ?_⟩ <;> decide +kernel

/-- C86: the comparisons the compiler accepts are not symmetric: `5 <= date` is rejected, `date >= 5` is not; `true = 1.5` is
rejected, `1.5 = true` is not -/
theorem C86_mirror_false :
    emit demoSig (.bin (.cmp .lte) (.const (.int 5)) (.const (.date 5))) ⟨[], []⟩ = none ∧
    (emit demoSig (.bin (.cmp .gte) (.const (.date 5)) (.const (.int 5))) ⟨[], []⟩).isSome ∧
    emit demoSig (.bin (.cmp .equ) (.const (.bool 1)) (.const (.dbl 0))) ⟨[], []⟩ = none ∧
    (emit demoSig (.bin (.cmp .equ) (.const (.dbl 0)) (.const (.bool 1))) ⟨[], []⟩).isSome := by
  refine ⟨rfl, rfl, rfl, rfl⟩

/-- the outcomes above are runs of the machine -/
example (e : Expr) (w n : Nat) (x : Stop) (h : outcome e w n = some (.error x)) :
    ∃ c' r, emit demoSig e ⟨[], []⟩ = some (c', r) ∧ Fails demoEnv c'.code (start w) x := by
  unfold outcome at h
  cases hc : emit demoSig e ⟨[], []⟩ with
  | none => rw [hc] at h; cases h
  | some p =>
    rw [hc] at h
    simp only [Option.map, Option.some.injEq] at h
    refine ⟨p.1, p.2, rfl, runN_fails (n := n) ?_⟩
    cases hr : runN demoEnv p.1.code n (start w) with
    | error y => rw [hr] at h; simp [Except.map] at h; rw [h]
    | ok s => rw [hr] at h; simp [Except.map] at h

end Verif.Compile
