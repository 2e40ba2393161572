import Verif.Parse.Spec
/-!
# The parser reads the grammar
-/
set_option linter.unusedSimpArgs false
set_option linter.unusedVariables false
namespace Verif.Parse
open Verif

/-- what follows an expression -/
def FolOk : Fol → List Tok → Prop
  | .any, r => r.head? ≠ some .lp
  | .andor, r => r = [] ∨ ∃ t x, r = t :: x ∧ (t = .rp ∨ t = .rb ∨ t = .comma ∨ t = .stop ∨ t = .op .and ∨ t = .op .or)
  | .fin, r => r = [] ∨ ∃ t x, r = t :: x ∧ (t = .rp ∨ t = .rb ∨ t = .comma ∨ t = .stop)

theorem FolOk.no_lp {fol : Fol} {r : List Tok} (h : FolOk fol r) : r.head? ≠ some .lp := by
  cases fol with
  | any => exact h
  | andor => rcases h with rfl | ⟨t, x, rfl, h⟩
             · simp
             · rcases h with rfl | rfl | rfl | rfl | rfl | rfl <;> simp
  | fin => rcases h with rfl | ⟨t, x, rfl, h⟩
           · simp
           · rcases h with rfl | rfl | rfl | rfl <;> simp

theorem FolOk.andor {fol : Fol} {r : List Tok} (h : FolOk fol r) (hf : fol ≠ .any) : FolOk .andor r := by
  cases fol with
  | any => exact absurd rfl hf
  | andor => exact h
  | fin => rcases h with rfl | ⟨t, x, rfl, h⟩
           · exact .inl rfl
           · exact .inr ⟨t, x, rfl, by rcases h with rfl | rfl | rfl | rfl <;> simp⟩

/-- the operators `ops` over the results `res` make `e` -/
def Collapses (k : Nat) (ops : List Entry) (res : List Ast) (e : Ast) : Prop :=
  (∀ x ∈ ops, k ≤ x.1) ∧ ∀ more, collapse ops (res ++ more) = .ok (e :: more)

theorem collapse_append (a b : List Entry) (res : List Ast) : collapse (a ++ b) res = (collapse a res).bind fun r => collapse b r := by
  induction a generalizing res with
  | nil => rfl
  | cons x a ih =>
    obtain ⟨q, h⟩ := x
    simp only [List.cons_append, collapse]
    cases popOp h res with
    | error e => rfl
    | ok r => simp only [Except.bind, ih]

theorem pushOp_low (p : Nat) (id : OpId) (ops : List Entry) (res : List Ast) (h : ∀ x ∈ ops, x.1 < p) :
    pushOp p id ops res = .ok ((p, id) :: ops, res) := by
  cases ops with
  | nil => rfl
  | cons x ops =>
    obtain ⟨q, i⟩ := x
    have : ¬ p ≤ q := by have := h (q, i) (by simp); simp at this; omega
    simp only [pushOp, if_neg this]

theorem pushOp_collapse (p : Nat) (id : OpId) : ∀ (ops1 ops : List Entry) (res : List Ast) (r : List Ast), (∀ x ∈ ops1, p ≤ x.1) →
    (∀ x ∈ ops, x.1 < p) → collapse ops1 res = .ok r → pushOp p id (ops1 ++ ops) res = .ok ((p, id) :: ops, r)
  | [], ops, res, r, _, h2, h3 => by
    simp only [collapse, Except.ok.injEq] at h3
    subst h3
    exact pushOp_low p id ops res h2
  | (q, i) :: ops1, ops, res, r, h1, h2, h3 => by
    have hq : p ≤ q := h1 (q, i) (by simp)
    simp only [collapse] at h3
    cases hp : popOp i res with
    | error e => rw [hp] at h3; simp [Except.bind] at h3
    | ok r1 =>
      rw [hp] at h3
      simp only [List.cons_append, pushOp, if_pos hq, hp, Except.bind]
      exact pushOp_collapse p id ops1 ops r1 r (fun x hx => h1 x (by simp [hx])) h2 h3

theorem pushOp_after {k p : Nat} {id : OpId} {ops1 ops : List Entry} {res1 res : List Ast} {e : Ast} (hc : Collapses k ops1 res1 e) (hp : p ≤ k)
    (ho : ∀ x ∈ ops, x.1 < p) : pushOp p id (ops1 ++ ops) (res1 ++ res) = .ok ((p, id) :: ops, e :: res) :=
  pushOp_collapse p id ops1 ops _ _ (fun x hx => Nat.le_trans hp (hc.1 x hx)) ho (hc.2 res)

theorem Collapses.leaf (k : Nat) (e : Ast) : Collapses k [] [e] e := ⟨by simp, fun _ => rfl⟩

/-- an operator with its two sides pending -/
theorem Collapses.node {k p : Nat} {id : OpId} {ops2 : List Entry} {res2 : List Ast} {a b : Ast} (hid : ∀ u, id ≠ .un u)
    (h : Collapses (p + 1) ops2 res2 b) (hk : k ≤ p) : Collapses k (ops2 ++ [(p, id)]) (res2 ++ [a]) (.two id a b) := by
  constructor
  · intro x hx
    simp only [List.mem_append, List.mem_singleton] at hx
    rcases hx with hx | rfl
    · have := h.1 x hx; omega
    · exact hk
  · intro more
    rw [collapse_append, List.append_assoc, h.2]
    simp only [Except.bind, List.singleton_append, collapse]
    cases id <;> first | rfl | (exfalso; exact hid _ rfl)

theorem Collapses.node0 {k p : Nat} {id : OpId} {a b : Ast} (hid : ∀ u, id ≠ .un u) (hk : k ≤ p) :
    Collapses k [(p, id)] [b, a] (.two id a b) := Collapses.node (ops2 := []) (res2 := [b]) hid (Collapses.leaf _ b) hk

theorem Collapses.unary {k p : Nat} {u : UnOp} {ops2 : List Entry} {res2 : List Ast} {b : Ast}
    (h : Collapses (p + 1) ops2 res2 b) (hk : k ≤ p) : Collapses k (ops2 ++ [(p, .un u)]) res2 (.one u b) := by
  constructor
  · intro x hx
    simp only [List.mem_append, List.mem_singleton] at hx
    rcases hx with hx | rfl
    · have := h.1 x hx; omega
    · exact hk
  · intro more
    rw [collapse_append, h.2]
    rfl

/-- a parse that ends -/
theorem finish_ok {k : Nat} {ops : List Entry} {res : List Ast} {e : Ast} (h : Collapses k ops res e) (ts : List Tok) :
    finish ops res ts = .ok (e, ts) := by
  have := h.2 []
  rw [List.append_nil] at this
  simp [finish, this, Except.bind]

theorem loop_end {ao : Bool} {fol : Fol} {rest : List Tok} (hc : Closed ao fol) (hf : FolOk fol rest) (f : Nat) (ops : List Entry)
    (res : List Ast) (un : Bool) (hfu : 1 ≤ f) : loop f ao ops res un rest = finish ops res rest := by
  obtain ⟨f, rfl⟩ : ∃ g, f = g + 1 := ⟨f - 1, by omega⟩
  rcases hc with rfl | ⟨rfl, rfl⟩
  · rcases hf with rfl | ⟨t, x, rfl, h⟩
    · simp only [loop]
    · rcases h with rfl | rfl | rfl | rfl <;> simp [loop]
  · rcases hf with rfl | ⟨t, x, rfl, h⟩
    · simp only [loop]
    · rcases h with rfl | rfl | rfl | rfl | rfl | rfl <;> simp [loop]

/-- what reading an expression does to the stacks -/
def ExprOk (ao : Bool) (fol : Fol) (k : Nat) (ts : List Tok) (e : Ast) : Prop :=
  ∀ (f : Nat) (rest : List Tok) (ops : List Entry) (res : List Ast), FolOk fol rest → (∀ x ∈ ops, x.1 < k) →
    3 * (ts ++ rest).length + 1 ≤ f → ∃ (f' : Nat) (ops1 : List Entry) (res1 : List Ast) (un : Bool), 3 * rest.length + 1 ≤ f' ∧
      (un = false ∨ Closed ao fol) ∧ Collapses k ops1 res1 e ∧
      loop f ao ops res true (ts ++ rest) = loop f' ao (ops1 ++ ops) (res1 ++ res) un rest

def ArgsOk (ao : Bool) (ts : List Tok) (es : List Ast) : Prop :=
  ∀ (f : Nat) (rest : List Tok) (fin : Tok), (fin = .rp ∨ fin = .rb) → 3 * (ts ++ fin :: rest).length + 3 ≤ f →
    args f ao fin (ts ++ fin :: rest) = .ok (es, rest)

def Args1Ok (ao : Bool) (ts : List Tok) (es : List Ast) : Prop :=
  (∃ t r, ts = t :: r ∧ t ≠ .rp ∧ t ≠ .rb) ∧
  ∀ (f : Nat) (rest : List Tok) (fin : Tok), (fin = .rp ∨ fin = .rb) → 3 * (ts ++ fin :: rest).length + 2 ≤ f →
    argsLoop f ao fin (ts ++ fin :: rest) = .ok (es, rest)

/-- a nested parse -/
theorem ExprOk.parse {ao : Bool} {fol : Fol} {k : Nat} {ts : List Tok} {e : Ast} (h : ExprOk ao fol k ts e) (hc : Closed ao fol) (f : Nat)
    (rest : List Tok) (hr : FolOk fol rest) (hf : 3 * (ts ++ rest).length + 1 ≤ f) :
    loop f ao [] [] true (ts ++ rest) = .ok (e, rest) := by
  obtain ⟨f', ops1, res1, un, hf', -, hcol, heq⟩ := h f rest [] [] hr (by simp) hf
  rw [heq, loop_end hc hr f' _ _ un (by omega), List.append_nil, List.append_nil, finish_ok hcol]

/-- the first token of an expression -/
def startTok : Tok → Bool
  | .val _ | .int _ | .real _ _ | .name _ | .lp | .lb | .not | .tilde => true
  | .op .sub => true
  | _ => false

theorem Gr.start {ao fol k ts e} (h : Gr ao fol k ts e) : ∃ t r, ts = t :: r ∧ startTok t = true := by
  refine Gr.rec (motive_1 := fun _ _ _ ts _ _ => ∃ t r, ts = t :: r ∧ startTok t = true) (motive_2 := fun _ _ _ _ => True)
    (motive_3 := fun _ _ _ _ => True) ?_ ?_ ?_ ?_ ?_ ?_ ?_ ?_ ?_ ?_ ?_ ?_ ?_ ?_ ?_ ?_ ?_ ?_ ?_ ?_ ?_ ?_ h
  all_goals intros
  all_goals first
    | trivial
    | exact ⟨_, _, rfl, rfl⟩
    | (rename_i hx _; obtain ⟨t, r, rfl, ht⟩ := hx; exact ⟨t, _, rfl, ht⟩)
    | (rename_i hx; obtain ⟨t, r, rfl, ht⟩ := hx; exact ⟨t, _, rfl, ht⟩)
    | (rename_i hx _ _; obtain ⟨t, r, rfl, ht⟩ := hx; exact ⟨t, _, rfl, ht⟩)
    | (rename_i u _ _ _ _; cases u <;> exact ⟨_, _, rfl, rfl⟩)

theorem fuel {f n : Nat} (h : 3 * n + 1 ≤ f) : ∃ g, f = g + 1 := ⟨f - 1, by omega⟩

theorem leaf_ok {ao fol k} {t : Tok} {e : Ast} (h : ∀ f ops res un rest, FolOk fol rest → loop (f + 1) ao ops res un (t :: rest) = loop f ao ops (e :: res) false rest) :
    ExprOk ao fol k [t] e := by
  intro f rest ops res hr ho hf
  obtain ⟨f, rfl⟩ := fuel hf
  refine ⟨f, [], [e], false, ?_, .inl rfl, Collapses.leaf k e, ?_⟩
  · simp at hf; omega
  · exact h f ops res true rest hr

theorem two_ok {ao fol k} {t u : Tok} {e : Ast} (h : ∀ f ops res rest, loop (f + 1) ao ops res true (t :: u :: rest) = loop f ao ops (e :: res) false rest) :
    ExprOk ao fol k [t, u] e := by
  intro f rest ops res hr ho hf
  obtain ⟨f, rfl⟩ := fuel hf
  refine ⟨f, [], [e], false, ?_, .inl rfl, Collapses.leaf k e, ?_⟩
  · simp at hf; omega
  · exact h f ops res rest

theorem folOk_rp (r : List Tok) : FolOk .fin (.rp :: r) := .inr ⟨_, _, rfl, by simp⟩
theorem folOk_rb (r : List Tok) : FolOk .fin (.rb :: r) := .inr ⟨_, _, rfl, by simp⟩
theorem folOk_comma (r : List Tok) : FolOk .fin (.comma :: r) := .inr ⟨_, _, rfl, by simp⟩

theorem paren_ok {ao fol k ts e} (h : ExprOk ao .fin 0 ts e) : ExprOk ao fol k (.lp :: (ts ++ [.rp])) e := by
  intro f rest ops res hr ho hf
  obtain ⟨f, rfl⟩ := fuel hf
  simp at hf
  have hp := h.parse (.inl rfl) f (.rp :: rest) (folOk_rp rest) (by simp; omega)
  refine ⟨f, [], [e], false, by omega, .inl rfl, Collapses.leaf k e, ?_⟩
  rw [show (.lp :: (ts ++ [.rp])) ++ rest = .lp :: (ts ++ .rp :: rest) by simp, loop]
  rw [if_neg (by simp)]
  simp only [hp, Except.bind, expect, if_true, List.nil_append, List.singleton_append]

theorem call_ok {ao fol k ts es} (n : Nat) (h : ArgsOk ao ts es) : ExprOk ao fol k (.name n :: .lp :: (ts ++ [.rp])) (.call n es) := by
  intro f rest ops res hr ho hf
  obtain ⟨f, rfl⟩ := fuel hf
  simp at hf
  have hp := h f rest .rp (.inl rfl) (by simp; omega)
  refine ⟨f, [], [.call n es], false, by omega, .inl rfl, Collapses.leaf k _, ?_⟩
  rw [show (.name n :: .lp :: (ts ++ [.rp])) ++ rest = .name n :: .lp :: (ts ++ .rp :: rest) by simp, loop]
  rw [if_neg (by simp)]
  simp only [List.head?_cons, if_true, List.drop_succ_cons, List.drop_zero, hp, Except.bind, List.nil_append, List.singleton_append]

theorem array_ok {ao fol k ts es} (h : ArgsOk ao ts es) : ExprOk ao fol k (.lb :: (ts ++ [.rb])) (.array es) := by
  intro f rest ops res hr ho hf
  obtain ⟨f, rfl⟩ := fuel hf
  simp at hf
  have hp := h f rest .rb (.inr rfl) (by simp; omega)
  refine ⟨f, [], [.array es], false, by omega, .inl rfl, Collapses.leaf k _, ?_⟩
  rw [show (.lb :: (ts ++ [.rb])) ++ rest = .lb :: (ts ++ .rb :: rest) by simp, loop]
  rw [if_neg (by simp)]
  simp only [if_true, hp, Except.bind, List.nil_append, List.singleton_append]

theorem not_closed_any {ao : Bool} (h : Closed ao .any) : False := by rcases h with h | ⟨-, h⟩ <;> simp at h

/-- the left side of an operator, read up to the operator -/
theorem ExprOk.left {ao : Bool} {fol : Fol} {p k : Nat} {ts : List Tok} {e : Ast} (h : ExprOk ao fol p ts e) (hcl : ¬ Closed ao fol) (hk : k ≤ p)
    (f : Nat) (rest : List Tok) (ops : List Entry) (res : List Ast) (hr : FolOk fol rest) (ho : ∀ x ∈ ops, x.1 < k)
    (hf : 3 * (ts ++ rest).length + 1 ≤ f) : ∃ (f' : Nat) (ops1 : List Entry) (res1 : List Ast), 3 * rest.length + 1 ≤ f' ∧
      (∀ id, pushOp p id (ops1 ++ ops) (res1 ++ res) = .ok ((p, id) :: ops, e :: res)) ∧
      loop f ao ops res true (ts ++ rest) = loop f' ao (ops1 ++ ops) (res1 ++ res) false rest := by
  have ho' : ∀ x ∈ ops, x.1 < p := fun x hx => Nat.lt_of_lt_of_le (ho x hx) hk
  obtain ⟨f', ops1, res1, un, hf', hun, hcol, heq⟩ := h f rest ops res hr ho' hf
  rcases hun with rfl | hc
  · exact ⟨f', ops1, res1, hf', fun id => pushOp_after hcol (Nat.le_refl _) ho', heq⟩
  · exact absurd hc hcl

theorem index_ok {ao fol k ta a ti i} (hk : k ≤ 12) (ha : ExprOk ao .any 12 ta a) (hi : ExprOk ao .fin 0 ti i) :
    ExprOk ao fol k (ta ++ .lb :: (ti ++ [.rb])) (.two .index a i) := by
  intro f rest ops res hr ho hf
  have e1 : (ta ++ .lb :: (ti ++ [.rb])) ++ rest = ta ++ .lb :: (ti ++ .rb :: rest) := by simp
  rw [e1] at hf ⊢
  obtain ⟨f', ops1, res1, hf', hpush, heq⟩ := ha.left not_closed_any hk f _ ops res (by simp [FolOk]) ho hf
  obtain ⟨f', rfl⟩ := fuel hf'
  simp at hf'
  have hp := hi.parse (.inl rfl) f' (.rb :: rest) (folOk_rb rest) (by simp; omega)
  refine ⟨f', [(12, .index)], [i, a], false, by omega, .inl rfl, Collapses.node0 (by simp) hk, ?_⟩
  rw [heq, loop, if_neg (by simp)]
  simp only [Bool.false_eq_true, if_false, hpush, Except.bind, hp, expect, if_true]
  rfl

/-- before a constant, a name or a parenthesis the unary flag does not matter -/
theorem loop_plain {u : UnOp} {ts : List Tok} (h : plain u ts = true) (f : Nat) (ao : Bool) (ops : List Entry) (res : List Ast) (rest : List Tok) :
    loop f ao ops res false (ts ++ rest) = loop f ao ops res true (ts ++ rest) := by
  cases f with
  | zero => simp [loop]
  | succ f =>
    cases ts with
    | nil => simp [plain] at h
    | cons t ts => cases t <;> first | (simp [plain] at h; done) | (simp only [List.cons_append, loop])

theorem un_ok {ao fol k ts e} (u : UnOp) (hk : k ≤ 11) (hp : plain u ts = true) (h : ExprOk ao fol 12 ts e) :
    ExprOk ao fol k (u.tok :: ts) (.one u e) := by
  intro f rest ops res hr ho hf
  obtain ⟨f, rfl⟩ := fuel hf
  simp at hf
  have ho' : ∀ x ∈ ops, x.1 < 11 := fun x hx => Nat.lt_of_lt_of_le (ho x hx) hk
  have hpush := pushOp_low 11 (.un u) ops res ho'
  obtain ⟨f', ops1, res1, un, hf', hun, hcol, heq⟩ := h f rest ((11, .un u) :: ops) res hr
    (by intro x hx; simp only [List.mem_cons] at hx; rcases hx with rfl | hx
        · simp
        · have := ho' x hx; omega) (by simp; omega)
  refine ⟨f', ops1 ++ [(11, .un u)], res1, un, hf', hun, hcol.unary hk, ?_⟩
  have hstep : loop (f + 1) ao ops res true ((u.tok :: ts) ++ rest) = loop f ao ((11, .un u) :: ops) res false (ts ++ rest) := by
    rw [List.cons_append]
    cases u with
    | not =>
      rw [UnOp.tok, loop, if_neg (by simp)]
      simp only [if_true, hpush, Except.bind]
    | tilde =>
      rw [UnOp.tok, loop, if_neg (by simp)]
      simp only [hpush, Except.bind, Bool.not_true]
    | neg =>
      rw [UnOp.tok, loop, if_neg (by simp)]
      cases ts with
      | nil => simp [plain] at hp
      | cons t ts =>
        cases t <;> first | (simp [plain] at hp; done) | simp only [if_true, hpush, Except.bind, List.cons_append, negLit, Option.elim]
  rw [hstep, loop_plain hp, heq]
  simp

theorem bin_ok {ao fol k ta a tb b} (o : BinOp) (hk : k ≤ o.prio) (hl : ao = false → o.isLogic = false)
    (ha : ExprOk ao o.leftFol o.prio ta a) (hb : ExprOk ao fol (o.prio + 1) tb b) (hs : ∃ t r, tb = t :: r ∧ startTok t = true) :
    ExprOk ao fol k (ta ++ .op o :: tb) (.two (.bin o) a b) := by
  intro f rest ops res hr ho hf
  have e1 : (ta ++ .op o :: tb) ++ rest = ta ++ .op o :: (tb ++ rest) := by simp
  rw [e1] at hf ⊢
  have hlf : FolOk o.leftFol (.op o :: (tb ++ rest)) := by
    unfold BinOp.leftFol
    split
    · rename_i h
      refine .inr ⟨_, _, rfl, ?_⟩
      simp [BinOp.isLogic] at h
      rcases h with rfl | rfl <;> simp
    · simp [FolOk]
  have hcl : ¬ Closed ao o.leftFol := by
    intro hc
    rcases hc with h | ⟨h, h2⟩
    · unfold BinOp.leftFol at h; split at h <;> simp at h
    · rw [BinOp.leftFol, hl h] at h2; simp at h2
  obtain ⟨f', ops1, res1, hf', hpush, heq⟩ := ha.left hcl hk f _ ops res hlf ho hf
  obtain ⟨f', rfl⟩ := fuel hf'
  simp at hf'
  have ho' : ∀ x ∈ ((o.prio, .bin o) :: ops : List Entry), x.1 < o.prio + 1 := by
    intro x hx
    simp only [List.mem_cons] at hx
    rcases hx with rfl | hx
    · simp
    · have := ho x hx; omega
  obtain ⟨f2, ops2, res2, un, hf2, hun, hcol, heq2⟩ := hb f' rest ((o.prio, .bin o) :: ops) (a :: res) hr ho' (by simp; omega)
  refine ⟨f2, ops2 ++ [(o.prio, .bin o)], res2 ++ [a], un, hf2, hun, hcol.node (by simp) hk, ?_⟩
  have hna : ¬ (ao = false ∧ (Tok.op o = .op .and ∨ Tok.op o = .op .or)) := by
    intro ⟨h1, h2⟩
    have := hl h1
    rcases h2 with h2 | h2 <;> · simp at h2; subst h2; simp [BinOp.isLogic] at this
  have hq : ¬ (o.isCmp = true ∧ ((tb ++ rest).head? = some .any ∨ (tb ++ rest).head? = some .all)) := by
    obtain ⟨t, r, rfl, ht⟩ := hs
    intro ⟨_, h⟩
    simp at h
    rcases h with rfl | rfl <;> simp [startTok] at ht
  rw [heq, loop, if_neg hna]
  simp only [Bool.false_eq_true, if_false, hpush, Except.bind, if_neg hq, heq2]
  simp

theorem quant_ok {ao fol k ta a tb b} (o : BinOp) (all : Bool) (hk : k ≤ o.prio) (hc : o.isCmp = true) (hcl : Closed ao fol)
    (ha : ExprOk ao .any o.prio ta a) (hb : ExprOk ao .fin 0 tb b) :
    ExprOk ao fol k (ta ++ .op o :: (if all then .all else .any) :: .lp :: (tb ++ [.rp]))
      (.two (if all then .all else .any) a (.half o b)) := by
  intro f rest ops res hr ho hf
  have e1 : (ta ++ .op o :: (if all then .all else .any) :: .lp :: (tb ++ [.rp])) ++ rest =
      ta ++ .op o :: (if all then .all else .any) :: .lp :: (tb ++ .rp :: rest) := by simp
  rw [e1] at hf ⊢
  obtain ⟨f', ops1, res1, hf', hpush, heq⟩ := ha.left not_closed_any hk f _ ops res (by simp [FolOk]) ho hf
  obtain ⟨f', rfl⟩ := fuel hf'
  simp at hf'
  have hp := hb.parse (.inl rfl) f' (.rp :: rest) (folOk_rp rest) (by simp; omega)
  refine ⟨f', [(o.prio, if all then .all else .any)], [.half o b, a], true, by omega, .inr hcl, Collapses.node0 (by cases all <;> simp) hk, ?_⟩
  have hna : ¬ (ao = false ∧ (Tok.op o = .op .and ∨ Tok.op o = .op .or)) := by
    intro ⟨h1, h2⟩
    rcases h2 with h2 | h2 <;> · simp at h2; subst h2; simp [BinOp.isCmp] at hc
  rw [heq, loop, if_neg hna]
  have e2 : (if all = true then OpId.all else OpId.any) = (if (some (if all = true then Tok.all else Tok.any)) = some Tok.any then OpId.any else OpId.all) := by
    cases all <;> rfl
  have e3 : (o.isCmp = true ∧ (some (if all = true then Tok.all else Tok.any) = some Tok.any ∨ some (if all = true then Tok.all else Tok.any) = some Tok.all)) := by
    refine ⟨hc, ?_⟩
    cases all <;> simp
  simp only [Bool.false_eq_true, if_false, hpush, Except.bind, List.head?_cons, if_pos e3, List.drop_succ_cons, List.drop_zero, expect, if_true, hp]
  rw [e2]
  rfl

theorem is_ok {ao fol k ta a} (pos : Bool) (n : Nat) (hk : k ≤ 3) (ha : ExprOk ao .any 3 ta a) :
    ExprOk ao fol k (ta ++ .is :: (notTok pos ++ [.val n])) (.two (.is pos) a (.val n)) := by
  intro f rest ops res hr ho hf
  have e1 : (ta ++ .is :: (notTok pos ++ [.val n])) ++ rest = ta ++ .is :: (notTok pos ++ .val n :: rest) := by simp
  rw [e1] at hf ⊢
  obtain ⟨f', ops1, res1, hf', hpush, heq⟩ := ha.left not_closed_any hk f _ ops res (by simp [FolOk]) ho hf
  obtain ⟨f', rfl⟩ := fuel hf'
  simp at hf'
  obtain ⟨f', rfl⟩ : ∃ g, f' = g + 1 := ⟨f' - 1, by omega⟩
  refine ⟨f', [(3, .is pos)], [.val n, a], false, by omega, .inl rfl, Collapses.node0 (by simp) hk, ?_⟩
  rw [heq, loop, if_neg (by simp)]
  cases pos with
  | true =>
    simp only [notTok, if_true, List.nil_append, List.head?_cons, Bool.false_eq_true, if_false]
    rw [show decide (some (Tok.val n) ≠ some Tok.not) = true by simp, hpush]
    simp only [Except.bind]
    rw [if_neg (by simp), loop, if_neg (by simp)]
    try rfl
  | false =>
    simp only [notTok, Bool.false_eq_true, if_false, List.cons_append, List.nil_append, List.head?_cons]
    rw [show decide (some Tok.not ≠ some Tok.not) = false by simp, hpush]
    simp only [Except.bind, if_true, List.drop_succ_cons, List.drop_zero]
    rw [loop, if_neg (by simp)]
    try rfl

/-- LIKE and AT TIMEZONE -/
theorem right_ok {ao fol tb b} (p : Nat) (id : OpId) (hcl : Closed ao fol) (hb : ExprOk ao fol 0 tb b) (f : Nat) (rest : List Tok) (ops ops' : List Entry)
    (res res' : List Ast) (a : Ast) (hr : FolOk fol rest) (hpush : pushOp p id ops' res' = .ok ((p, id) :: ops, a :: res))
    (hf : 3 * (tb ++ rest).length + 2 ≤ f) : ∃ g, 3 * rest.length + 1 ≤ g ∧
      right f ao p id ops' res' (tb ++ rest) = loop g ao ((p, id) :: ops) (b :: a :: res) false rest := by
  obtain ⟨f, rfl⟩ : ∃ g, f = g + 1 := ⟨f - 1, by omega⟩
  have hp := hb.parse hcl f rest hr (by omega)
  refine ⟨f, by simp at hf; omega, ?_⟩
  simp only [right, hpush, Except.bind, hp]

theorem like_ok {ao fol k ta a tb b} (pos : Bool) (hk : k ≤ 3) (hcl : Closed ao fol) (ha : ExprOk ao .any 3 ta a) (hb : ExprOk ao fol 0 tb b) :
    ExprOk ao fol k (ta ++ (notTok pos ++ .like :: tb)) (.two (.like pos) a b) := by
  intro f rest ops res hr ho hf
  have e1 : (ta ++ (notTok pos ++ .like :: tb)) ++ rest = ta ++ (notTok pos ++ .like :: (tb ++ rest)) := by simp
  rw [e1] at hf ⊢
  obtain ⟨f', ops1, res1, hf', hpush, heq⟩ := ha.left not_closed_any hk f _ ops res (by cases pos <;> simp [FolOk, notTok]) ho hf
  obtain ⟨f', rfl⟩ := fuel hf'
  simp at hf'
  obtain ⟨g, hg, heq2⟩ := right_ok 3 (.like pos) hcl hb f' rest ops _ res _ a hr (hpush _) (by simp; omega)
  refine ⟨g, [(3, .like pos)], [b, a], false, hg, .inl rfl, Collapses.node0 (by simp) hk, ?_⟩
  rw [heq]
  cases pos with
  | true =>
    simp only [notTok, if_true, List.nil_append]
    rw [loop, if_neg (by simp)]
    simp only [Bool.false_eq_true, if_false, List.head?_cons, if_true, List.drop_succ_cons, List.drop_zero, reduceCtorEq, Option.some.injEq]
    exact heq2
  | false =>
    simp only [notTok, Bool.false_eq_true, if_false, List.cons_append, List.nil_append]
    rw [loop, if_neg (by simp)]
    simp only [Bool.false_eq_true, if_false, List.head?_cons, if_true, List.drop_succ_cons, List.drop_zero, reduceCtorEq, Option.some.injEq]
    exact heq2

theorem at_ok {ao fol k ta a tb b} (hk : k ≤ 4) (hcl : Closed ao fol) (ha : ExprOk ao .any 4 ta a) (hb : ExprOk ao fol 0 tb b) :
    ExprOk ao fol k (ta ++ .atTz :: tb) (.two .atTz a b) := by
  intro f rest ops res hr ho hf
  have e1 : (ta ++ .atTz :: tb) ++ rest = ta ++ .atTz :: (tb ++ rest) := by simp
  rw [e1] at hf ⊢
  obtain ⟨f', ops1, res1, hf', hpush, heq⟩ := ha.left not_closed_any hk f _ ops res (by simp [FolOk]) ho hf
  obtain ⟨f', rfl⟩ := fuel hf'
  simp at hf'
  obtain ⟨g, hg, heq2⟩ := right_ok 4 .atTz hcl hb f' rest ops _ res _ a hr (hpush _) (by simp; omega)
  refine ⟨g, [(4, .atTz)], [b, a], false, hg, .inl rfl, Collapses.node0 (by simp) hk, ?_⟩
  rw [heq, loop, if_neg (by simp)]
  simp only [Bool.false_eq_true, if_false]
  exact heq2

theorem in_ok {ao fol k ta a ts es} (pos : Bool) (hk : k ≤ 4) (ha : ExprOk ao .any 4 ta a) (h : ArgsOk ao ts es) :
    ExprOk ao fol k (ta ++ (notTok pos ++ .inn :: .lp :: (ts ++ [.rp]))) (.two (.inn pos) a (.args es)) := by
  intro f rest ops res hr ho hf
  have e1 : (ta ++ (notTok pos ++ .inn :: .lp :: (ts ++ [.rp]))) ++ rest = ta ++ (notTok pos ++ .inn :: .lp :: (ts ++ .rp :: rest)) := by simp
  rw [e1] at hf ⊢
  obtain ⟨f', ops1, res1, hf', hpush, heq⟩ := ha.left not_closed_any hk f _ ops res (by cases pos <;> simp [FolOk, notTok]) ho hf
  obtain ⟨f', rfl⟩ := fuel hf'
  simp at hf'
  obtain ⟨g, rfl⟩ : ∃ g, f' = g + 1 := ⟨f' - 1, by omega⟩
  have hp := h g rest .rp (.inl rfl) (by simp; omega)
  have heq2 : inList (g + 1) ao pos (ops1 ++ ops) (res1 ++ res) (.lp :: (ts ++ .rp :: rest)) =
      loop g ao ((4, .inn pos) :: ops) (.args es :: a :: res) false rest := by
    simp only [inList, hpush, Except.bind, expect, if_true, hp]
  refine ⟨g, [(4, .inn pos)], [.args es, a], false, by omega, .inl rfl, Collapses.node0 (by simp) hk, ?_⟩
  rw [heq]
  cases pos with
  | true =>
    simp only [notTok, if_true, List.nil_append]
    rw [loop, if_neg (by simp)]
    simp only [Bool.false_eq_true, if_false, List.head?_cons, if_true, List.drop_succ_cons, List.drop_zero, reduceCtorEq, Option.some.injEq]
    exact heq2
  | false =>
    simp only [notTok, Bool.false_eq_true, if_false, List.cons_append, List.nil_append]
    rw [loop, if_neg (by simp)]
    simp only [Bool.false_eq_true, if_false, List.head?_cons, if_true, List.drop_succ_cons, List.drop_zero, reduceCtorEq, Option.some.injEq]
    exact heq2

theorem between_ok {ao fol k ta a tl l th h} (pos : Bool) (hk : k ≤ 4) (hfol : fol ≠ .any) (ha : ExprOk ao .any 4 ta a)
    (hl : ExprOk false .andor 0 tl l) (hh : ExprOk false .andor 0 th h) :
    ExprOk ao fol k (ta ++ (notTok pos ++ .between :: (tl ++ .op .and :: th))) (.two (.between pos) a (.two (.bin .and) l h)) := by
  intro f rest ops res hr ho hf
  have e1 : (ta ++ (notTok pos ++ .between :: (tl ++ .op .and :: th))) ++ rest = ta ++ (notTok pos ++ .between :: (tl ++ .op .and :: (th ++ rest))) := by simp
  rw [e1] at hf ⊢
  obtain ⟨f', ops1, res1, hf', hpush, heq⟩ := ha.left not_closed_any hk f _ ops res (by cases pos <;> simp [FolOk, notTok]) ho hf
  obtain ⟨f', rfl⟩ := fuel hf'
  simp at hf'
  obtain ⟨g, rfl⟩ : ∃ g, f' = g + 1 := ⟨f' - 1, by omega⟩
  have hp1 := hl.parse (.inr ⟨rfl, rfl⟩) g (.op .and :: (th ++ rest)) (.inr ⟨_, _, rfl, by simp⟩) (by simp; omega)
  have hp2 := hh.parse (.inr ⟨rfl, rfl⟩) g rest (hr.andor hfol) (by simp; omega)
  have heq2 : between (g + 1) ao pos (ops1 ++ ops) (res1 ++ res) (tl ++ .op .and :: (th ++ rest)) =
      loop g ao ((4, .between pos) :: ops) (.two (.bin .and) l h :: a :: res) false rest := by
    simp only [between, hpush, Except.bind, expect, if_true, hp1, hp2]
  refine ⟨g, [(4, .between pos)], [.two (.bin .and) l h, a], false, by omega, .inl rfl, Collapses.node0 (by simp) hk, ?_⟩
  rw [heq]
  cases pos with
  | true =>
    simp only [notTok, if_true, List.nil_append]
    rw [loop, if_neg (by simp)]
    simp only [Bool.false_eq_true, if_false, List.head?_cons, if_true, List.drop_succ_cons, List.drop_zero, reduceCtorEq, Option.some.injEq]
    exact heq2
  | false =>
    simp only [notTok, Bool.false_eq_true, if_false, List.cons_append, List.nil_append]
    rw [loop, if_neg (by simp)]
    simp only [Bool.false_eq_true, if_false, List.head?_cons, if_true, List.drop_succ_cons, List.drop_zero, reduceCtorEq, Option.some.injEq]
    exact heq2

theorem args1_one {ao ts e} (hs : ∃ t r, ts = t :: r ∧ startTok t = true) (h : ExprOk ao .fin 0 ts e) : Args1Ok ao ts [e] := by
  constructor
  · obtain ⟨t, r, rfl, ht⟩ := hs
    exact ⟨t, r, rfl, by rintro rfl; simp [startTok] at ht, by rintro rfl; simp [startTok] at ht⟩
  · intro f rest fin hfin hf
    obtain ⟨f, rfl⟩ : ∃ g, f = g + 1 := ⟨f - 1, by omega⟩
    have hfo : FolOk .fin (fin :: rest) := by rcases hfin with rfl | rfl <;> first | exact folOk_rp _ | exact folOk_rb _
    have hp := h.parse (.inl rfl) f (fin :: rest) hfo (by omega)
    have : ¬ (some fin = some Tok.comma) := by rcases hfin with rfl | rfl <;> simp
    simp only [argsLoop, hp, Except.bind, List.head?_cons, if_neg this, expect, if_true]

theorem args1_cons {ao ts e us es} (hs : ∃ t r, ts = t :: r ∧ startTok t = true) (h : ExprOk ao .fin 0 ts e) (h2 : Args1Ok ao us es) :
    Args1Ok ao (ts ++ .comma :: us) (e :: es) := by
  constructor
  · obtain ⟨t, r, rfl, ht⟩ := hs
    exact ⟨t, _, rfl, by rintro rfl; simp [startTok] at ht, by rintro rfl; simp [startTok] at ht⟩
  · intro f rest fin hfin hf
    obtain ⟨f, rfl⟩ : ∃ g, f = g + 1 := ⟨f - 1, by omega⟩
    have e1 : (ts ++ .comma :: us) ++ fin :: rest = ts ++ .comma :: (us ++ fin :: rest) := by simp
    rw [e1] at hf ⊢
    have hp := h.parse (.inl rfl) f (.comma :: (us ++ fin :: rest)) (folOk_comma _) (by omega)
    have hq := h2.2 f rest fin hfin (by simp at hf ⊢; omega)
    simp only [argsLoop, hp, Except.bind, List.head?_cons, if_true, List.drop_succ_cons, List.drop_zero, hq]

theorem args_nil {ao} : ArgsOk ao [] [] := by
  intro f rest fin hfin hf
  obtain ⟨f, rfl⟩ : ∃ g, f = g + 1 := ⟨f - 1, by omega⟩
  simp [args]

theorem args_some {ao ts es} (h : Args1Ok ao ts es) : ArgsOk ao ts es := by
  intro f rest fin hfin hf
  obtain ⟨f, rfl⟩ : ∃ g, f = g + 1 := ⟨f - 1, by omega⟩
  obtain ⟨t, r, rfl, h1, h2⟩ := h.1
  have : ¬ (some t = some fin) := by
    rcases hfin with rfl | rfl <;> simp [h1, h2]
  have h2 : ((t :: r) ++ fin :: rest).head? ≠ some fin := by simpa using this
  rw [args, if_neg h2]
  exact h.2 f rest fin hfin (by omega)

theorem level_prio (o : BinOp) : o.level = o.prio := by cases o <;> rfl
theorem compares_cmp {o : BinOp} (h : o.compares) : o.isCmp = true := by
  cases o <;> simp [BinOp.compares, BinOp.level, BinOp.isCmp] at h ⊢

/-- everything the grammar spells is read as it says -/
theorem Gr.ok {ao fol k ts e} (h : Gr ao fol k ts e) : ExprOk ao fol k ts e := by
  refine Gr.rec (motive_1 := fun ao fol k ts e _ => ExprOk ao fol k ts e) (motive_2 := fun ao ts es _ => ArgsOk ao ts es)
    (motive_3 := fun ao ts es _ => Args1Ok ao ts es) ?_ ?_ ?_ ?_ ?_ ?_ ?_ ?_ ?_ ?_ ?_ ?_ ?_ ?_ ?_ ?_ ?_ ?_ ?_ ?_ ?_ ?_ h
  · intro ao fol k n; exact leaf_ok fun f ops res un rest _ => by rw [loop, if_neg (by simp)]
  · intro ao fol k n; exact leaf_ok fun f ops res un rest _ => by rw [loop, if_neg (by simp)]
  · intro ao fol k b n; exact leaf_ok fun f ops res un rest _ => by rw [loop, if_neg (by simp)]
  · intro ao fol k n
    exact leaf_ok fun f ops res un rest hr => by
      rw [loop, if_neg (by simp)]
      simp only [if_neg hr.no_lp]
  · intro ao fol k i _; exact two_ok fun f ops res rest => by rw [loop, if_neg (by simp)]; simp only [if_true, negLit, Option.elim, List.drop_succ_cons, List.drop_zero]
  · intro ao fol k b n _; exact two_ok fun f ops res rest => by rw [loop, if_neg (by simp)]; simp only [if_true, negLit, Option.elim, List.drop_succ_cons, List.drop_zero]
  · intro ao fol k ts e _ h; exact paren_ok h
  · intro ao fol k ts es n _ h; exact call_ok n h
  · intro ao fol k ts es _ h; exact array_ok h
  · intro ao fol k ta a ti i hk _ _ h1 h2; exact index_ok hk h1 h2
  · intro ao fol k ts e u hk hp _ h; exact un_ok u hk hp h
  · intro ao fol k ta a tb b o hk hl _ hb h1 h2; rw [level_prio] at hk h1 h2; exact bin_ok o hk hl h1 h2 hb.start
  · intro ao fol k ta a tb b o all hk hc hcl _ _ h1 h2; rw [level_prio] at hk h1; exact quant_ok o all hk (compares_cmp hc) hcl h1 h2
  · intro ao fol k ta a pos n hk _ h; exact is_ok pos n hk h
  · intro ao fol k ta a tb b pos hk hcl _ _ h1 h2; exact like_ok pos hk hcl h1 h2
  · intro ao fol k ta a tb b hk hcl _ _ h1 h2; exact at_ok hk hcl h1 h2
  · intro ao fol k ta a ts es pos hk _ _ h1 h2; exact in_ok pos hk h1 h2
  · intro ao fol k ta a tl l th h pos hk hfol _ _ _ h1 h2 h3; exact between_ok pos hk hfol h1 h2 h3
  · intro ao; exact args_nil
  · intro ao ts es _ h; exact args_some h
  · intro ao ts e hg h; exact args1_one hg.start h
  · intro ao ts e us es hg _ h1 h2; exact args1_cons hg.start h1 h2

end Verif.Parse
