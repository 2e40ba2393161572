import Verif.Compile.Case
/-!
# Pure expressions
-/
set_option linter.unusedSimpArgs false
set_option linter.unusedVariables false
namespace Verif.Compile
open Verif.Query (CmpOp)

variable {W : Type} {E : Env W} {vars : List Val} {S : Sig}

/-! ## Pure expressions -/

/-- evaluation that does not depend on the world and leaves it alone -/
def IsPure {A : Type} (ev : W → Except Stop (A × W)) : Prop := ∃ g : Except Stop A, ∀ w, ev w = g.map fun v => (v, w)

theorem IsPure.of {A : Type} {ev ev' : W → Except Stop (A × W)} (e : ∀ w, ev w = ev' w) (h : IsPure ev') : IsPure ev := by
  obtain ⟨g, hg⟩ := h
  exact ⟨g, fun w => by rw [e w, hg w]⟩

theorem IsPure.const {A : Type} (v : A) : IsPure (W := W) fun w => .ok (v, w) := ⟨.ok v, fun _ => rfl⟩

theorem IsPure.bind {A B : Type} {ev : W → Except Stop (A × W)} {k : A → W → Except Stop (B × W)} (h : IsPure ev) (hk : ∀ a, IsPure (k a)) :
    IsPure fun w => (ev w).bind fun p => k p.1 p.2 := by
  obtain ⟨g, hg⟩ := h
  cases g with
  | error x => exact ⟨.error x, fun w => by dsimp only; rw [hg w]; rfl⟩
  | ok a =>
    obtain ⟨g2, hg2⟩ := hk a
    exact ⟨g2, fun w => by dsimp only; rw [hg w]; exact hg2 w⟩

theorem IsPure.keep {A : Type} (r : Except Stop Val) : IsPure (W := W) fun w => Compile.keep w r := ⟨r, fun _ => rfl⟩

theorem IsPure.lift {A B : Type} (r : Except Stop A) {k : A → W → Except Stop (B × W)} (h : ∀ a, IsPure (k a)) :
    IsPure fun w => r.bind fun a => k a w := by
  cases r with
  | error x => exact ⟨.error x, fun _ => rfl⟩
  | ok a => exact h a

mutual
theorem pure_expr (e : Expr) (h : e.Pure E.fn) : IsPure (eval E.toSem vars e) := by
  cases e with
  | const v => exact IsPure.of (fun w => by rw [eval]) <| .const _
  | value v o => exact IsPure.of (fun w => by rw [eval]) <| .const _
  | var n => exact IsPure.of (fun w => by rw [eval]) <| .const _
  | col t n =>
    cases h : E.row t n with
    | none => exact ⟨.error .ub, fun w => by rw [eval, h]; rfl⟩
    | some v => exact ⟨.ok v, fun w => by rw [eval, h]; rfl⟩
  | array a => exact IsPure.of (fun w => by rw [eval]) <| (pure_args a h).bind (k := fun a w => Compile.keep w ((orErr (E.P.array a)).map .json)) fun _ => .keep (A := Val) _
  | object a => exact IsPure.of (fun w => by rw [eval]) <| (pure_args a h).bind (k := fun a w => Compile.keep w ((orErr (E.P.object a)).map .json)) fun _ => .keep (A := Val) _
  | bin o l r =>
    exact IsPure.of (fun w => by rw [eval]) <| (pure_expr l h.1).bind (k := fun a w => (eval E.toSem vars r w).bind fun q => Compile.keep q.2 (binSem E.P o a q.1))
      fun a => (pure_expr r h.2).bind (k := fun b w => Compile.keep w (binSem E.P o a b)) fun _ => .keep (A := Val) _
  | nequ l r =>
    exact IsPure.of (fun w => by rw [eval]) <| (pure_expr l h.1).bind (k := fun a w => (eval E.toSem vars r w).bind fun q => Compile.keep q.2 ((binSem E.P (.cmp .equ) a q.1).bind notSem))
      fun a => (pure_expr r h.2).bind (k := fun b w => Compile.keep w ((binSem E.P (.cmp .equ) a b).bind notSem)) fun _ => .keep (A := Val) _
  | like neg l r =>
    exact IsPure.of (fun w => by rw [eval]) <| (pure_expr l h.1).bind (k := fun a w => (eval E.toSem vars r w).bind fun q => Compile.keep q.2 ((binSem E.P .like a q.1).bind (notIf neg)))
      fun a => (pure_expr r h.2).bind (k := fun b w => Compile.keep w ((binSem E.P .like a b).bind (notIf neg))) fun _ => .keep (A := Val) _
  | and l r =>
    exact IsPure.of (fun w => by rw [eval]) <| (pure_expr l h.1).bind (k := fun a w => (eval E.toSem vars r w).bind fun q => Compile.keep q.2 (andSem a q.1))
      fun a => (pure_expr r h.2).bind (k := fun b w => Compile.keep w (andSem a b)) fun _ => .keep (A := Val) _
  | or l r =>
    exact IsPure.of (fun w => by rw [eval]) <| (pure_expr l h.1).bind (k := fun a w => (eval E.toSem vars r w).bind fun q => Compile.keep q.2 (orSem a q.1))
      fun a => (pure_expr r h.2).bind (k := fun b w => Compile.keep w (orSem a b)) fun _ => .keep (A := Val) _
  | not e => exact IsPure.of (fun w => by rw [eval]) <| (pure_expr e h).bind (k := fun a w => Compile.keep w (notSem a)) fun _ => .keep (A := Val) _
  | neg e => exact IsPure.of (fun w => by rw [eval]) <| (pure_expr e h).bind (k := fun a w => Compile.keep w (negSem E.P a)) fun _ => .keep (A := Val) _
  | inv e => exact IsPure.of (fun w => by rw [eval]) <| (pure_expr e h).bind (k := fun a w => Compile.keep w (invSem a)) fun _ => .keep (A := Val) _
  | call f a =>
    obtain ⟨⟨g, hg⟩, ha⟩ := h
    refine IsPure.of (fun w => by rw [eval]) <| (pure_args a ha).bind (k := fun a w => orErr (E.fn f w a)) fun a => ⟨orErr (g a), fun w => ?_⟩
    show orErr (E.fn f w a) = _
    rw [hg]
    cases g a <;> rfl
  | case ws e =>
    refine IsPure.of (fun w => by rw [eval]) <| (pure_whens none ws h.1).bind (k := fun a w => a.elim (eval E.toSem vars e w) fun v => .ok (v, w)) fun a => ?_
    cases a with
    | none => exact pure_expr e h.2
    | some v => exact .const _
  | caseOf o ws e =>
    cases ws with
    | nil => exact IsPure.of (fun w => by rw [eval]) (pure_expr e h.2.2)
    | cons c t rest =>
      refine IsPure.of (fun w => by rw [eval]) <| (pure_expr o h.1).bind (k := fun a w => (evalWhens E.toSem vars (some a) (.cons c t rest) w).bind fun p => p.1.elim (eval E.toSem vars e p.2) fun v => .ok (v, p.2)) fun o => ?_
      refine (pure_whens (some o) (.cons c t rest) h.2.1).bind (k := fun a w => a.elim (eval E.toSem vars e w) fun v => .ok (v, w)) fun a => ?_
      cases a with
      | none => exact pure_expr e h.2.2
      | some v => exact .const _
  | between neg e x y =>
    refine IsPure.of (fun w => by rw [eval]) <| (pure_expr e h.1).bind (k := fun o w => (eval E.toSem vars x w).bind fun p =>
      (binSem E.P (.cmp .gte) o p.1).bind fun g => (eval E.toSem vars y p.2).bind fun q => Compile.keep q.2
        ((binSem E.P (.cmp .lte) o q.1).bind fun l => (andSem g l).bind (notIf neg))) fun o => ?_
    refine (pure_expr x h.2.1).bind (k := fun p w => (binSem E.P (.cmp .gte) o p).bind fun g => (eval E.toSem vars y w).bind fun q => Compile.keep q.2
        ((binSem E.P (.cmp .lte) o q.1).bind fun l => (andSem g l).bind (notIf neg))) fun p => ?_
    refine IsPure.lift _ (k := fun g w => (eval E.toSem vars y w).bind fun q => Compile.keep q.2
        ((binSem E.P (.cmp .lte) o q.1).bind fun l => (andSem g l).bind (notIf neg))) fun g => ?_
    exact (pure_expr y h.2.2).bind (k := fun q w => Compile.keep w ((binSem E.P (.cmp .lte) o q).bind fun l => (andSem g l).bind (notIf neg))) fun _ => .keep (A := Val) _
  | isNull neg e => exact IsPure.of (fun w => by rw [eval]) <| (pure_expr e h).bind (k := fun a w => Compile.keep w (notIf neg (vbool (decide (a = .null))))) fun _ => .keep (A := Val) _
  | inlist neg e a =>
    exact IsPure.of (fun w => by rw [eval]) <| (pure_expr e h.1).bind (k := fun o w => (evalArgs E.toSem vars a w).bind fun p => Compile.keep p.2 (notIf neg (valueIn E.P o p.1)))
      fun o => (pure_args a h.2).bind (k := fun p w => Compile.keep w (notIf neg (valueIn E.P o p))) fun _ => .keep (A := Val) _
  | quant all k a b =>
    exact IsPure.of (fun w => by rw [eval]) <| (pure_expr a h.1).bind (k := fun o w => (eval E.toSem vars b w).bind fun q => Compile.keep q.2 (quantSem E.P all k o q.1))
      fun o => (pure_expr b h.2).bind (k := fun q w => Compile.keep w (quantSem E.P all k o q)) fun _ => .keep (A := Val) _
theorem pure_args (a : Args) (h : a.Pure E.fn) : IsPure (evalArgs E.toSem vars a) := by
  cases a with
  | nil => exact IsPure.of (fun w => by rw [evalArgs]) <| .const _
  | cons e r =>
    exact IsPure.of (fun w => by rw [evalArgs]) <| (pure_expr e h.1).bind (k := fun v w => (evalArgs E.toSem vars r w).bind fun q => .ok (v :: q.1, q.2))
      fun v => (pure_args r h.2).bind (k := fun q w => .ok (v :: q, w)) fun _ => .const _
theorem pure_whens (opd : Option Val) (ws : Whens) (h : ws.Pure E.fn) : IsPure (evalWhens E.toSem vars opd ws) := by
  cases ws with
  | nil => exact IsPure.of (fun w => by rw [evalWhens]) <| .const _
  | cons c t rest =>
    refine IsPure.of (fun w => by rw [evalWhens]) <| (pure_expr c h.1).bind (k := fun v w => ((opd.elim (.ok v) fun o => binSem E.P (.cmp .equ) o v).bind isTrue).bind fun holds =>
      if holds then (eval E.toSem vars t w).bind fun q => .ok (some q.1, q.2) else evalWhens E.toSem vars opd rest w) fun v => ?_
    refine IsPure.lift _ (k := fun (holds : Bool) w => if holds then (eval E.toSem vars t w).bind fun q => .ok (some q.1, q.2) else evalWhens E.toSem vars opd rest w) fun b => ?_
    cases b with
    | false => exact pure_whens opd rest h.2.2
    | true => exact (pure_expr t h.2.1).bind (k := fun q w => .ok (some q, w)) fun _ => .const _
end

end Verif.Compile
