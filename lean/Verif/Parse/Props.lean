import Verif.Parse.Proofs
/-!
# Reading expressions (C79)
-/
set_option linter.unusedSimpArgs false
set_option linter.unusedVariables false
namespace Verif.Parse
open Verif

/-- **C79** whatever the grammar spells, however long and deep, is read as the tree it spells, and the text after it (nothing, a closing
bracket, a comma, another clause) is left alone. Partial: a prefix operator only before a constant, a name or a parenthesis; LIKE, AT TIMEZONE and
ANY/ALL only where nothing follows; no AND/OR inside the sides of BETWEEN. -/
theorem C79_read_partial (ts : List Tok) (e : Ast) (rest : List Tok) (h : Spells ts e) (hr : FolOk .fin rest) :
    parseExpr (ts ++ rest) = .ok (e, rest) :=
  h.ok.parse (.inl rfl) _ rest hr (by simp)

/-- **C79** so no text spells two trees -/
theorem C79_unambiguous (ts : List Tok) (e e' : Ast) (h : Spells ts e) (h' : Spells ts e') : e = e' := by
  have a := C79_read_partial ts e [] h (.inl rfl)
  have b := C79_read_partial ts e' [] h' (.inl rfl)
  rw [a] at b
  simp at b
  exact b

/-! ## Every tree can be written -/

/-- trees of constants, names and plain operators -/
inductive Tree where
  | val (n : Nat)
  | name (n : Nat)
  | int (n : Nat)
  | un (u : UnOp) (t : Tree)
  | bin (o : BinOp) (l r : Tree)

/-- the tree as the parser builds it -/
def Tree.ast : Tree → Ast
  | .val n => .val n
  | .name n => .name n
  | .int n => .int n
  | .un u t => .one u t.ast
  | .bin o l r => .two (.bin o) l.ast r.ast

def parens (ts : List Tok) : List Tok := .lp :: (ts ++ [.rp])

/-- with the fewest parentheses: only where a weaker operator stands inside a stronger one, or to the right of one of the same priority -/
def Tree.short : Nat → Tree → List Tok
  | _, .val n => [.val n]
  | _, .name n => [.name n]
  | _, .int n => [.int n]
  | k, .un u (.val n) => if k ≤ 11 then [u.tok, .val n] else parens [u.tok, .val n]
  | k, .un u (.name n) => if k ≤ 11 then [u.tok, .name n] else parens [u.tok, .name n]
  | k, .un u t => if k ≤ 11 then u.tok :: parens (t.short 0) else parens (u.tok :: parens (t.short 0))
  | k, .bin o l r =>
    if k ≤ o.level then l.short o.level ++ .op o :: r.short (o.level + 1)
    else parens (l.short o.level ++ .op o :: r.short (o.level + 1))

/-- with parentheses around every operator -/
def Tree.full : Tree → List Tok
  | .val n => [.val n]
  | .name n => [.name n]
  | .int n => [.int n]
  | .un u t => parens (u.tok :: parens t.full)
  | .bin o l r => parens (l.full ++ .op o :: r.full)

theorem Tree.short_gr : ∀ (t : Tree) (k : Nat) (fol : Fol), Gr true fol k (t.short k) t.ast
  | .val n, k, fol => by simp only [Tree.short, Tree.ast]; exact .val n
  | .name n, k, fol => by simp only [Tree.short, Tree.ast]; exact .name n
  | .int n, k, fol => by simp only [Tree.short, Tree.ast]; exact .int n
  | .un u (.val n), k, fol => by
    have h : ∀ k fol, k ≤ 11 → Gr true fol k [u.tok, .val n] (.one u (.val n)) := fun k fol hk => .un u hk rfl (.val n)
    simp only [Tree.short, Tree.ast]
    split
    · exact h k fol ‹_›
    · exact .paren (h 0 .fin (by omega))
  | .un u (.name n), k, fol => by
    have h : ∀ k fol, k ≤ 11 → Gr true fol k [u.tok, .name n] (.one u (.name n)) := fun k fol hk => .un u hk rfl (.name n)
    simp only [Tree.short, Tree.ast]
    split
    · exact h k fol ‹_›
    · exact .paren (h 0 .fin (by omega))
  | .un u (.int n), k, fol => by
    have h : ∀ k fol, k ≤ 11 → Gr true fol k (u.tok :: parens [.int n]) (.one u (.int n)) := fun k fol hk => .un u hk rfl (.paren (.int n))
    simp only [Tree.short, Tree.ast]
    split
    · exact h k fol ‹_›
    · exact .paren (h 0 .fin (by omega))
  | .un u (.un v t), k, fol => by
    have ih := Tree.short_gr (.un v t) 0 .fin
    have h : ∀ k fol, k ≤ 11 → Gr true fol k (u.tok :: parens ((Tree.un v t).short 0)) (.one u (Tree.un v t).ast) :=
      fun k fol hk => .un u hk rfl (.paren ih)
    rw [Tree.short, Tree.ast]
    split
    · exact h k fol ‹_›
    · exact .paren (h 0 .fin (by omega))
    · simp
    · simp
  | .un u (.bin o l r), k, fol => by
    have ih := Tree.short_gr (.bin o l r) 0 .fin
    have h : ∀ k fol, k ≤ 11 → Gr true fol k (u.tok :: parens ((Tree.bin o l r).short 0)) (.one u (Tree.bin o l r).ast) :=
      fun k fol hk => .un u hk rfl (.paren ih)
    rw [Tree.short, Tree.ast]
    split
    · exact h k fol ‹_›
    · exact .paren (h 0 .fin (by omega))
    · simp
    · simp
  | .bin o l r, k, fol => by
    have h : ∀ k fol, k ≤ o.level → Gr true fol k (l.short o.level ++ .op o :: r.short (o.level + 1)) (.two (.bin o) l.ast r.ast) :=
      fun k fol hk => .bin o hk (by simp) (Tree.short_gr l _ _) (Tree.short_gr r _ _)
    simp only [Tree.short, Tree.ast]
    split
    · exact h k fol ‹_›
    · exact .paren (h 0 .fin (by omega))

theorem Tree.full_gr : ∀ (t : Tree) (k : Nat) (fol : Fol), Gr true fol k t.full t.ast
  | .val n, k, fol => .val n
  | .name n, k, fol => .name n
  | .int n, k, fol => .int n
  | .un u t, k, fol => .paren (.un u (by omega) rfl (.paren (Tree.full_gr t 0 .fin)))
  | .bin o l r, k, fol => .paren (.bin o (by omega) (by simp) (Tree.full_gr l _ _) (Tree.full_gr r _ _))

/-- **C79** every tree of operators is read back, written with the fewest parentheses or with all of them -/
theorem C79_write_partial (t : Tree) (rest : List Tok) (hr : FolOk .fin rest) :
    parseExpr (t.short 0 ++ rest) = .ok (t.ast, rest) ∧ parseExpr (t.full ++ rest) = .ok (t.ast, rest) :=
  ⟨C79_read_partial _ _ rest (t.short_gr 0 .fin) hr, C79_read_partial _ _ rest (t.full_gr 0 .fin) hr⟩

/-- **C79** a name after a value is left for the clause that the expression stands in (`SELECT a b`, `SELECT (a + b) c`): after a constant or a
name, or any expression in parentheses -/
theorem C79_alias (n : Nat) (rest : List Tok) (hr : FolOk .fin rest) :
    (∀ m, parseExpr (.val m :: .name n :: rest) = .ok (.val m, .name n :: rest)) ∧
    (∀ m, parseExpr (.name m :: .name n :: rest) = .ok (.name m, .name n :: rest)) ∧
    (∀ ts e, Spells ts e → parseExpr (.lp :: (ts ++ .rp :: .name n :: rest)) = .ok (e, .name n :: rest)) := by
  have key : ∀ (f : Nat) (e : Ast), 2 ≤ f → loop f true [] [e] false (.name n :: rest) = .ok (e, .name n :: rest) := by
    intro f e hf
    obtain ⟨f, rfl⟩ : ∃ g, f = g + 2 := ⟨f - 2, by omega⟩
    have h0 : rest.head? ≠ some .lp := hr.no_lp
    rw [loop]
    simp only [h0, if_false]
    rw [loop_end (fol := .fin) (.inl rfl) hr]
    · simp [finish, collapse, Except.bind, Ast.back]
    all_goals simp
  refine ⟨?_, ?_, ?_⟩
  · intro m
    simp only [parseExpr]
    rw [loop]
    · simp only [Bool.true_eq_false, false_and, if_false]
      exact key _ _ (by simp)
  · intro m
    simp only [parseExpr]
    rw [loop]
    · simp only [Bool.true_eq_false, false_and, if_false, List.head?_cons, Option.some.injEq]
      rw [if_neg (by simp)]
      exact key _ _ (by simp)
  · intro ts e h
    simp only [parseExpr]
    rw [loop]
    · simp only [Bool.true_eq_false, false_and, if_false]
      rw [h.ok.parse (.inl rfl) _ (.rp :: .name n :: rest) (folOk_rp _) (by simp; omega)]
      simp only [Except.bind, expect, if_true]
      exact key _ _ (by simp)

/-- **C79 fails** for a name after an operator: `SELECT a + b c` is not read as `(a + b)` with the name `c` -/
theorem C79_alias_false :
    parseExpr [.name 1, .op .add, .name 2, .name 3] ≠ .ok (.two (.bin .add) (.name 1) (.name 2), [.name 3]) := by
  rw [show parseExpr [.name 1, .op .add, .name 2, .name 3] = .error .ub from rfl]
  simp

/-! ## What is read otherwise -/

/-- **C79 fails** for LIKE and AT TIMEZONE in front of AND: `a LIKE b AND c` is `a LIKE (b AND c)` (tests/expr/string.test shows the error it
makes), and `a AT TIMEZONE b = c` is `a AT TIMEZONE (b = c)` -/
theorem C79_like_false :
    parseExpr [.name 1, .like, .val 2, .op .and, .name 3] = .ok (.two (.like true) (.name 1) (.two (.bin .and) (.val 2) (.name 3)), []) ∧
    parseExpr [.name 1, .atTz, .val 2, .op .eq, .name 3] = .ok (.two .atTz (.name 1) (.two (.bin .eq) (.val 2) (.name 3)), []) := by
  constructor <;> rfl

/-- **C79 fails** for NOT: it binds tighter than comparison, `NOT a = b` is `(NOT a) = b` -/
theorem C79_not_false :
    parseExpr [.not, .name 1, .op .eq, .name 2] = .ok (.two (.bin .eq) (.one .not (.name 1)) (.name 2), []) := rfl

/-- **C79 fails** for repeated prefix operators: `NOT NOT a`, `- - a`, `NOT -1` are errors -/
theorem C79_unary_false : parseExpr [.not, .not, .name 1] = .error .err ∧ parseExpr [.op .sub, .op .sub, .name 1] = .error .err ∧
    parseExpr [.not, .op .sub, .int 1] = .error .err := by
  refine ⟨?_, ?_, ?_⟩ <;> rfl

/-- **C79 fails** for AND and OR inside the sides of BETWEEN, even in parentheses or function calls: `a BETWEEN (b AND c) AND d` and
`a BETWEEN f(b OR c) AND d` are errors; and an operator after BETWEEN joins its right side: `a BETWEEN 1 AND 2 = b` is
`a BETWEEN 1 AND (2 = b)` -/
theorem C79_between_false :
    parseExpr [.name 1, .between, .lp, .name 2, .op .and, .name 3, .rp, .op .and, .name 4] = .error .err ∧
    parseExpr [.name 1, .between, .name 9, .lp, .name 2, .op .or, .name 3, .rp, .op .and, .name 4] = .error .err ∧
    parseExpr [.name 1, .between, .int 1, .op .and, .int 2, .op .eq, .name 3] =
      .ok (.two (.between true) (.name 1) (.two (.bin .and) (.int 1) (.two (.bin .eq) (.int 2) (.name 3))), []) := by
  refine ⟨?_, ?_, ?_⟩ <;> rfl

/-- **C79 fails** for ANY and ALL with a condition after them: `a = ANY (b) AND c` is an error -/
theorem C79_any_false :
    parseExpr [.name 1, .op .eq, .any, .lp, .name 2, .rp, .op .and, .name 3] = .error .err ∧
    parseExpr [.name 1, .op .eq, .any, .lp, .name 2, .rp] = .ok (.two .any (.name 1) (.half .eq (.name 2)), []) := by
  constructor <;> rfl

/-- `a + b * (c - 1) > 2 AND NOT x OR d BETWEEN 1 AND 2 OR y NOT IN (1, f(z))` -/
example : ∃ e, Spells ([.name 1, .op .add, .name 2, .op .mul, .lp, .name 3, .op .sub, .int 1, .rp, .op .gt, .int 2, .op .and, .not, .name 4,
    .op .or, .name 5, .between, .int 1, .op .and, .int 2, .op .or, .name 6, .not, .inn, .lp, .int 1, .comma, .name 7, .lp, .name 8, .rp, .rp]) e := by
  refine ⟨.two (.bin .or) (.two (.bin .or) (.two (.bin .and) (.two (.bin .gt) (.two (.bin .add) (.name 1) (.two (.bin .mul) (.name 2)
    (.two (.bin .sub) (.name 3) (.int 1)))) (.int 2)) (.one .not (.name 4)))
    (.two (.between true) (.name 5) (.two (.bin .and) (.int 1) (.int 2)))) (.two (.inn false) (.name 6) (.args [.int 1, .call 7 [.name 8]])), ?_⟩
  refine Gr.bin (ta := [.name 1, .op .add, .name 2, .op .mul, .lp, .name 3, .op .sub, .int 1, .rp, .op .gt, .int 2, .op .and, .not, .name 4,
    .op .or, .name 5, .between, .int 1, .op .and, .int 2]) (tb := [.name 6, .not, .inn, .lp, .int 1, .comma, .name 7, .lp, .name 8, .rp, .rp]) .or (by decide) (by simp) ?_ ?_
  · refine Gr.bin (ta := [.name 1, .op .add, .name 2, .op .mul, .lp, .name 3, .op .sub, .int 1, .rp, .op .gt, .int 2, .op .and, .not, .name 4])
      (tb := [.name 5, .between, .int 1, .op .and, .int 2]) .or (by decide) (by simp) ?_ ?_
    · refine Gr.bin (ta := [.name 1, .op .add, .name 2, .op .mul, .lp, .name 3, .op .sub, .int 1, .rp, .op .gt, .int 2])
        (tb := [.not, .name 4]) .and (by decide) (by simp) ?_ (.un .not (by decide) rfl (.name 4))
      refine Gr.bin (ta := [.name 1, .op .add, .name 2, .op .mul, .lp, .name 3, .op .sub, .int 1, .rp]) (tb := [.int 2]) .gt (by decide) (by simp) ?_ (.int 2)
      refine Gr.bin (ta := [.name 1]) (tb := [.name 2, .op .mul, .lp, .name 3, .op .sub, .int 1, .rp]) .add (by decide) (by simp) (.name 1) ?_
      refine Gr.bin (ta := [.name 2]) (tb := [.lp, .name 3, .op .sub, .int 1, .rp]) .mul (by decide) (by simp) (.name 2) ?_
      exact Gr.paren (ts := [.name 3, .op .sub, .int 1]) (Gr.bin (ta := [.name 3]) (tb := [.int 1]) .sub (by decide) (by simp) (.name 3) (.int 1))
    · exact Gr.between (ta := [.name 5]) (tl := [.int 1]) (th := [.int 2]) true (by decide) (by decide) (.name 5) (.int 1) (.int 2)
  · exact Gr.inn (ta := [.name 6]) (ts := [.int 1, .comma, .name 7, .lp, .name 8, .rp]) false (by decide) (.name 6)
      (.some (.cons (ts := [.int 1]) (us := [.name 7, .lp, .name 8, .rp]) (.int 1) (.one (Gr.call (ts := [.name 8]) 7 (.some (.one (.name 8)))))))

end Verif.Parse
