import Verif.Compile.ScanList
import Verif.Compile.Props
/-!
# C88: a compiled SELECT returns the rows the query says

`scan` is the compiler, `XExec`/`XFails` the machine, `nestSem` and `answer` (ScanSpec.lean) the meaning of the query: nested loops, and lists.
-/
set_option linter.unusedSimpArgs false
set_option linter.unusedVariables false
namespace Verif.Compile
open Verif.Query (CmpOp)

variable {W : Type}

/-- the queries the theorems are about: FROM has tables, WHERE, the select list, keys and stop conditions are expressions C86 is about, the
result set has a column for every expression that is pushed, the rows have the types of their columns, and no cursor is open -/
structure FineQuery (T : Tables W) (S : Sig) (vars : List Val) (q : Query) : Prop where
  fns : FnsOk T S vars
  query : QueryOk T S vars q
  targets : ∀ t ∈ q.from_, TargetOk T S vars t
  some_ : q.from_ ≠ []
  closed : ∀ t, S.cursor t = none

/-- the machine is about to run the code emitted after `c`; the variables are at the bottom of its stack -/
structure AtX (c : XCS) (vars : List Val) (x : XVM W) : Prop where
  pc : x.vm.pc = c.code.length
  vars : HasVars vars x.vm.stack

/-- LIMIT or OFFSET -/
theorem const_sim {T : Tables W} {S : Sig} {vars : List Val} (v : Option Int) {c c' : XCS} {r : Option Nat} (h : scanConst v c = (c', r)) :
    Ext c c' ∧ (∀ i, r = some i → atR c.map i = none) ∧ (∀ i, r = some i → atR c'.map i ≠ none) ∧ (∀ i, r ≠ some i → atR c'.map i = atR c.map i) ∧ (r.isSome = v.isSome) ∧
    ∀ code, Agree code c' c.code.length [] 0 → ∀ x : XVM W, x.vm.pc = c.code.length →
      ∃ x', XExec T code x x' ∧ x'.vm.pc = c'.code.length ∧ CntOk r x' v ∧ Kept c.map x x' ∧ x'.vm.world = x.vm.world := by
  cases v with
  | none =>
    cases h
    exact ⟨.refl _, fun i h => (by cases h), fun i h => (by cases h), fun i _ => rfl, rfl, fun code _ x hx => ⟨x, .refl _, hx, .inl ⟨rfl, rfl⟩, .refl _ _, rfl⟩⟩
  | some k =>
    cases h
    refine ⟨⟨_, rfl⟩, fun i h => (by cases h; exact pin_fresh _ _), fun i h => ?_, fun i h => ?_, rfl, fun code ha x hx => ?_⟩
    · cases h
      show atR (pinAt c.map .int).1 _ ≠ none
      rw [pin_at, if_pos rfl]; exact fun h => by cases h
    · show atR (pinAt c.map .int).1 _ = _
      rw [pin_at, if_neg (by rintro rfl; exact h rfl)]
    · have hi : code[c.code.length]? = some (.base (.const (pinAt c.map .int).2 (.int k))) := by
        have := ha c.code.length _ (Nat.le_refl _) (op_at c (.base (.const (pinAt c.map .int).2 (.int k))))
        simpa using this
      refine ⟨{ x with vm := (x.vm.put (pinAt c.map .int).2 (.int k) false).next }, .one (by rw [hx]; exact hi) rfl, ?_, .inr ⟨_, k, rfl, rfl, ?_⟩, ⟨rfl, fun i hi => ?_, rfl, rfl⟩, rfl⟩
      · show x.vm.pc + 1 = _
        rw [hx]; simp
      · exact put_val _ _ _ _
      · exact put_ne _ _ _ _ (by rintro rfl; exact hi (pin_fresh _ _))

theorem scan_sim {T : Tables W} {S : Sig} {vars : List Val} {q : Query} (h : FineQuery T S vars q) {junk : List Nat} {limit offset : Option Int} {c c' : XCS}
    (hc : scan junk S q limit offset c = some c') (post : List XInstr) (x : XVM W) (hx : AtX c vars x) :
    (∀ a b, nestSem T vars q q.from_ (fun _ => none) ⟨x.vm.world, offset, limit, x.out⟩ = .ok (a, b) →
      ∃ x', XExec T (c'.code ++ post) x x' ∧ x'.vm.pc = c'.code.length ∧ x'.out = a.out ∧ x'.vm.world = a.world ∧ x'.vm.stack = x.vm.stack ∧
        (∀ i, atR c.map i ≠ none → x'.vm.reg i = x.vm.reg i ∧ x'.cur i = x.cur i) ∧
        (b = false → (∀ i, atR c.map i = none → x.cur i = none) → ∀ i, atR c.map i = none → x'.cur i = none)) ∧
    (∀ er, nestSem T vars q q.from_ (fun _ => none) ⟨x.vm.world, offset, limit, x.out⟩ = .error er → XFails T (c'.code ++ post) x er) := by
  unfold scan at hc
  generalize h1 : scanConst limit c = p1 at hc
  obtain ⟨c1, rlim⟩ := p1
  generalize h2 : scanConst offset c1 = p2 at hc
  obtain ⟨c2, roff⟩ := p2
  dsimp only at hc
  unfold scanRest at hc
  rw [Option.map_eq_some_iff] at hc
  obtain ⟨⟨c3, brks⟩, hfrom, hc⟩ := hc
  have hcode : c'.code = c3.code := by
    rw [← hc]
    cases roff <;> cases rlim <;> rfl
  obtain ⟨a1, a2, a3, a4, a5, a6⟩ := const_sim (T := T) (S := S) (vars := vars) limit h1
  obtain ⟨b1, b2, b3, b4, b5, b6⟩ := const_sim (T := T) (S := S) (vars := vars) offset h2
  have hne : ∀ i, roff = some i → rlim ≠ some i := by
    intro i hi hl
    exact a3 i hl (b2 i hi)
  have hpins : Pins S c2.map roff rlim := by
    refine ⟨b3, fun i hi => ?_, hne, fun t rc ht => ?_⟩
    · rw [b4 i (fun h => hne i h hi)]; exact a3 i hi
    · rw [h.closed t] at ht; cases ht
  obtain ⟨f1, f2, f3, f4⟩ := from_sim q.from_ true S c2 c3 brks hfrom h.fns h.query h.targets hpins
  have hbr : brks = [] := by
    cases hts : q.from_ with
    | nil => exact absurd hts h.some_
    | cons t ts =>
      rw [hts] at hfrom
      rw [scanFrom] at hfrom
      rw [Option.bind_eq_some_iff] at hfrom
      obtain ⟨k, _, hfrom⟩ := hfrom
      rw [Option.bind_eq_some_iff] at hfrom
      obtain ⟨st, _, hfrom⟩ := hfrom
      rw [Option.bind_eq_some_iff] at hfrom
      obtain ⟨m, _, hfrom⟩ := hfrom
      simp only [Option.some.injEq, Prod.mk.injEq, if_true] at hfrom
      exact hfrom.2.symm
  subst hbr
  have hag : ∀ (d : XCS) (lo : Nat), Ext d c3 → Agree (c'.code ++ post) d lo [] 0 := by
    intro d lo hd p i hp hi
    have := hd.at hi
    have hlt := (List.getElem?_eq_some_iff.mp this).1
    rw [hcode, List.getElem?_append_left hlt, this]
    simp
  have hag' : Agree (c'.code ++ post) c3 c2.code.length [] c3.code.length := by
    intro p i hp hi
    have hlt := (List.getElem?_eq_some_iff.mp hi).1
    rw [hcode, List.getElem?_append_left hlt, hi]
    simp
  obtain ⟨x1, e1, e2, e3, e4, e5⟩ := a6 (c'.code ++ post) (hag c1 _ (b1.trans f1)) x hx.pc
  obtain ⟨x2, g1, g2, g3, g4, g5⟩ := b6 (c'.code ++ post) (hag c2 _ f1) x1 e2
  have hup : ∀ i, atR c.map i ≠ none → atR c1.map i ≠ none := by
    intro i hi
    rw [a4 i (fun h => hi (a2 i h))]; exact hi
  have hst : St S vars roff rlim (fun _ => none) x2 ⟨x.vm.world, offset, limit, x.out⟩ := by
    refine ⟨g5.trans e5, g4.out.trans e4.out, by rw [g4.stack, e4.stack]; exact hx.vars, ⟨fun t rc ht => ?_, fun t r n v h => (by cases h)⟩, g3, ?_⟩
    · rw [h.closed t] at ht; cases ht
    · exact e3.of fun i hi => g4.reg i (a3 i hi)
  obtain ⟨r1, r2⟩ := f4 (c'.code ++ post) c3.code.length (fun _ _ => rfl) hag' (fun _ => none) x2 _ hst g2
  refine ⟨fun a b hn => ?_, fun er hn => (e1.trans g1).fails (r2 er hn)⟩
  obtain ⟨x3, d1, d2, d3, d4, d5⟩ := r1 a b hn
  have hcm : ∀ i, atR c.map i ≠ none → roff ≠ some i ∧ rlim ≠ some i ∧ atR c2.map i ≠ none := by
    intro i hi
    have n1 : rlim ≠ some i := fun h => hi (a2 i h)
    have n2 : roff ≠ some i := fun h => hup i hi (b2 i h)
    exact ⟨n2, n1, by rw [b4 i n2]; exact hup i hi⟩
  refine ⟨x3, e1.trans (g1.trans d1), ?_, d3.out, d3.world, by rw [d4.stack, g4.stack, e4.stack], fun i hi => ?_, fun hb hcl => ?_⟩
  · rw [hcode, d2]
    split <;> rfl
  · obtain ⟨n1, n2, n3⟩ := hcm i hi
    exact ⟨by rw [d4.reg i n3 n1 n2, g4.reg i (hup i hi), e4.reg i hi], by rw [d4.cur i n3, g4.cur, e4.cur]⟩
  · -- the registers of the counters hold no cursors
    have hcur2 : ∀ i, atR c.map i = none → x2.cur i = none := fun i hi => by rw [g4.cur, e4.cur]; exact hcl i hi
    have hsub : ∀ i, atR c2.map i = none → atR c.map i = none := by
      intro i hi
      rw [← a4 i (fun h => ?_), ← b4 i (fun h => b3 i h hi)]
      · exact hi
      · have : atR c2.map i ≠ none := hpins.lim i h
        exact this hi
    have := d5 hb (fun i hi => hcur2 i (hsub i hi))
    intro i hi
    by_cases hc2 : atR c2.map i = none
    · exact this i hc2
    · rw [d4.cur i hc2]; exact hcur2 i hi

/-- C88: wherever the code of a query is put, running it returns the rows nested loops over the tables return: for every combination of rows, in order,
that WHERE holds for, the first OFFSET ones are skipped, LIMIT ones are returned. The stack, and all registers and cursors in use, are as
before; and unless LIMIT ended the query, all its cursors are closed. -/
theorem C88_scan_partial (T : Tables W) (S : Sig) (vars : List Val) (q : Query) (h : FineQuery T S vars q) (junk : List Nat) (limit offset : Option Int)
    (c c' : XCS) (hc : scan junk S q limit offset c = some c') (post : List XInstr) (x : XVM W) (hx : AtX c vars x) (a : Acc W) (b : Bool)
    (hn : nestSem T vars q q.from_ (fun _ => none) ⟨x.vm.world, offset, limit, x.out⟩ = .ok (a, b)) :
    ∃ x', XExec T (c'.code ++ post) x x' ∧ x'.vm.pc = c'.code.length ∧ x'.out = a.out ∧ x'.vm.world = a.world ∧ x'.vm.stack = x.vm.stack ∧
      (∀ i, atR c.map i ≠ none → x'.vm.reg i = x.vm.reg i ∧ x'.cur i = x.cur i) ∧
      (b = false → (∀ i, atR c.map i = none → x.cur i = none) → ∀ i, atR c.map i = none → x'.cur i = none) :=
  (scan_sim h hc post x hx).1 a b hn

/-- C88: a query that is an error (an expression evaluated by the nested loops is one) stops the program with that error -/
theorem C88_error_partial (T : Tables W) (S : Sig) (vars : List Val) (q : Query) (h : FineQuery T S vars q) (junk : List Nat) (limit offset : Option Int)
    (c c' : XCS) (hc : scan junk S q limit offset c = some c') (post : List XInstr) (x : XVM W) (hx : AtX c vars x) (er : Stop)
    (hn : nestSem T vars q q.from_ (fun _ => none) ⟨x.vm.world, offset, limit, x.out⟩ = .error er) : XFails T (c'.code ++ post) x er :=
  (scan_sim h hc post x hx).2 er hn

theorem XExec.linear {T : Tables W} {code : List XInstr} {x y z : XVM W} (h : XExec T code x y) (h' : XExec T code x z) : XExec T code y z ∨ XExec T code z y := by
  induction h with
  | refl => exact .inl h'
  | step h1 h2 h3 ih =>
    cases h' with
    | refl => exact .inr (.step h1 h2 h3)
    | step g1 g2 g3 =>
      rw [h1] at g1
      cases g1
      rw [h2] at g2
      cases g2
      exact ih g3

theorem XExec.stuck {T : Tables W} {code : List XInstr} {x y : XVM W} (h : XExec T code x y) (hn : code[x.vm.pc]? = none ∨ ∃ i e, code[x.vm.pc]? = some i ∧ stepX T i x = .error e) : y = x := by
  cases h with
  | refl => rfl
  | step h1 h2 h3 =>
    rcases hn with hn | ⟨i, e, hi, he⟩
    · rw [h1] at hn; cases hn
    · rw [h1] at hi
      cases hi
      rw [h2] at he; cases he

/-- C88: and nothing else happens: if the program of a query runs to its end, what it returned are the rows of the nested loops; if it stops, the query is that error -/
theorem C88_only_partial (T : Tables W) (S : Sig) (vars : List Val) (q : Query) (h : FineQuery T S vars q) (junk : List Nat) (limit offset : Option Int)
    (c c' : XCS) (hc : scan junk S q limit offset c = some c') (x : XVM W) (hx : AtX c vars x) :
    (∀ x', XExec T c'.code x x' → x'.vm.pc = c'.code.length →
      ∃ a b, nestSem T vars q q.from_ (fun _ => none) ⟨x.vm.world, offset, limit, x.out⟩ = .ok (a, b) ∧ x'.out = a.out ∧ x'.vm.world = a.world) ∧
    (∀ er, XFails T c'.code x er → nestSem T vars q q.from_ (fun _ => none) ⟨x.vm.world, offset, limit, x.out⟩ = .error er) := by
  obtain ⟨s1, s2⟩ := scan_sim h hc [] x hx
  rw [List.append_nil] at s1 s2
  cases hn : nestSem T vars q q.from_ (fun _ => none) ⟨x.vm.world, offset, limit, x.out⟩ with
  | error y =>
    obtain ⟨y1, i, hy, hi, hst⟩ := s2 y hn
    refine ⟨fun x' hx' hp => ?_, fun er hf => ?_⟩
    · exfalso
      rcases hy.linear hx' with g | g
      · have := g.stuck (.inr ⟨i, y, hi, hst⟩)
        subst this
        rw [hp, List.getElem?_eq_none (Nat.le_refl _)] at hi; cases hi
      · have := g.stuck (.inl (by rw [hp]; exact List.getElem?_eq_none (Nat.le_refl _)))
        subst this
        rw [hp, List.getElem?_eq_none (Nat.le_refl _)] at hi; cases hi
    · obtain ⟨z1, j, hz, hj, hst'⟩ := hf
      have : z1 = y1 := by
        rcases hy.linear hz with g | g
        · exact g.stuck (.inr ⟨i, y, hi, hst⟩)
        · exact (g.stuck (.inr ⟨j, er, hj, hst'⟩)).symm
      subst this
      rw [hi] at hj
      cases hj
      rw [hst] at hst'
      cases hst'; rfl
  | ok p =>
    obtain ⟨a, b⟩ := p
    obtain ⟨y, hy, hyp, ho, hw, _⟩ := s1 a b hn
    have hend : c'.code[y.vm.pc]? = none := by rw [hyp]; exact List.getElem?_eq_none (Nat.le_refl _)
    refine ⟨fun x' hx' hp => ?_, fun er hf => ?_⟩
    · have : x' = y := by
        rcases hy.linear hx' with g | g
        · exact g.stuck (.inl hend)
        · exact (g.stuck (.inl (by rw [hp]; exact List.getElem?_eq_none (Nat.le_refl _)))).symm
      subst this
      exact ⟨a, b, rfl, ho, hw⟩
    · exfalso
      obtain ⟨z1, j, hz, hj, hst'⟩ := hf
      have : z1 = y := by
        rcases hy.linear hz with g | g
        · exact g.stuck (.inl hend)
        · exact (g.stuck (.inr ⟨j, er, hj, hst'⟩)).symm
      subst this
      rw [hend] at hj; cases hj

/-- C88: for queries without effects, the rows a program returns are a list: of the combinations of the rows that are read, those WHERE holds for, without the first
OFFSET ones, the first LIMIT ones of them, and of these the select list. (Of each table the rows that are read are those the index has from the key on, while
the stop conditions hold.) -/
theorem C88_select_partial (T : Tables W) (S : Sig) (vars : List Val) (q : Query) (h : FineQuery T S vars q) (he : Effectless T q q.from_) (junk : List Nat) (limit offset : Option Int)
    (c c' : XCS) (hc : scan junk S q limit offset c = some c') (x : XVM W) (hx : AtX c vars x) (x' : XVM W) (hr : XExec T c'.code x x') (hp : x'.vm.pc = c'.code.length) :
    x'.out = x.out ++ answer T vars x.vm.world q offset limit (combos (scanned T vars x.vm.world) q.from_ fun _ => none) := by
  obtain ⟨a, b, hn, ho, _⟩ := (C88_only_partial T S vars q h junk limit offset c c' hc x hx).1 x' hr hp
  rw [ho]
  exact went_answer (nest_went q.from_ he _ hn)

/-- C88: so how tables are read does not matter: if no row that is left out satisfies WHERE with any rows of the other tables, the result is that of
the product of the whole tables -/
theorem C88_path_partial (T : Tables W) (S : Sig) (vars : List Val) (q : Query) (h : FineQuery T S vars q) (he : Effectless T q q.from_) (junk : List Nat) (limit offset : Option Int)
    (c c' : XCS) (hc : scan junk S q limit offset c = some c') (x : XVM W) (hx : AtX c vars x) (x' : XVM W) (hr : XExec T c'.code x x') (hp : x'.vm.pc = c'.code.length)
    (full : Target → List Row) (hfull : Faithful (scanned T vars x.vm.world) full (whereHolds T vars x.vm.world q) q.from_ fun _ => none) :
    x'.out = x.out ++ answer T vars x.vm.world q offset limit (combos (fun t _ => full t) q.from_ fun _ => none) := by
  rw [C88_select_partial T S vars q h he junk limit offset c c' hc x hx x' hr hp]
  unfold answer
  rw [combos_filter q.from_ _ hfull]

/-! ## Concrete queries -/

/-- a table with the columns id and y; an index returns the rows from a key on, a point lookup those with the key -/
def demoRows : List Row := [[.int 1, .int 10], [.int 2, .int 20], [.int 3, .int 30]]
def demoTables : Tables Nat where
  P := demoPrims
  fn _ w _ := some (.int (w + 1), w + 1)
  fnOwns _ _ _ := false
  rows _ point key := if key = [] then demoRows else if point then demoRows.filter fun r => r.take 1 = key
    else demoRows.filter fun r => match r.head?, key.head? with
      | some (.int a), some (.int b) => decide (b ≤ a)
      | _, _ => true

def scanSig : Sig where
  colTy _ _ := .int
  cursor _ := none
  varTy _ := .int
  fnTy _ := .int
  fnDerive _ := false

/-- `SELECT a.y, b.id FROM t a, t b WHERE a.id + b.id = 4`, with `a` read from 1 on while `a.id < 3` -/
def demoJoin : Query where
  from_ := [⟨0, 0, true, true, false, .cons (.const (.int 1)) .nil, [.bin (.cmp .lt) (.col 0 0) (.const (.int 3))]⟩, ⟨1, 0, true, true, false, .nil, []⟩]
  wh := some (.bin (.cmp .equ) (.bin .add (.col 0 0) (.col 1 0)) (.const (.int 4)))
  sel := .cons (.col 0 1) (.cons (.col 1 0) .nil)
  width := 2

theorem demoRows_ty (key : List Val) (r : Row) (n : Nat) (v : Val) (p : Bool) (h : r ∈ demoTables.rows 0 p key) (hv : r[n]? = some v) : HasTy v .int := by
  have hm : r ∈ demoRows := by
    have h : r ∈ (if key = [] then demoRows else if p then demoRows.filter fun r => r.take 1 = key
      else demoRows.filter fun r => match r.head?, key.head? with
      | some (.int a), some (.int b) => decide (b ≤ a)
      | _, _ => true) := h
    split at h
    · exact h
    · split at h
      · exact (List.mem_filter.mp h).1
      · exact (List.mem_filter.mp h).1
  simp only [demoRows, List.mem_cons, List.not_mem_nil, or_false] at hm
  rcases hm with rfl | rfl | rfl <;>
    (match n, hv with
      | 0, hv => cases hv; exact .inr rfl
      | 1, hv => cases hv; exact .inr rfl)

theorem demo_fns : FnsOk demoTables scanSig [] where
  var n := .inl (by simp)
  fn f w a v w' _ h := by cases h; exact .inr rfl
  derive f w a v w' t h := by cases h

theorem demoJoin_fine : FineQuery demoTables scanSig [] demoJoin where
  fns := demo_fns
  query := ⟨fun e h => by cases h; simp [Expr.Ok, Expr.VarsOk, Expr.isLike], by simp [demoJoin, Args.Ok, Args.VarsOk, Expr.Ok, Expr.VarsOk, Expr.isLike], rfl⟩
  targets t ht := by
    simp only [demoJoin, List.mem_cons, List.not_mem_nil, or_false] at ht
    rcases ht with rfl | rfl
    · exact ⟨by simp [Args.Ok, Args.VarsOk, Expr.Ok, Expr.VarsOk, Expr.isLike], fun e he => by simp at he; subst he; simp [Expr.Ok, Expr.VarsOk, Expr.isLike], .inl rfl,
        fun key r n v h hv => demoRows_ty key r n v false h hv⟩
    · exact ⟨by simp [Args.Ok, Args.VarsOk], fun e he => by simp at he, .inl rfl, fun key r n v h hv => demoRows_ty key r n v false h hv⟩
  some_ := by simp [demoJoin]
  closed _ := rfl

def startX : XVM Nat := ⟨⟨0, fun _ => ⟨.null, false⟩, [], 0, 0⟩, fun _ => none, []⟩

/-- run at most `n` instructions -/
def runX (T : Tables W) (code : List XInstr) : Nat → XVM W → Except Stop (XVM W)
  | 0, x => .ok x
  | n + 1, x => (code[x.vm.pc]?).elim (.ok x) fun i => (stepX T i x).bind (runX T code n)

theorem runX_exec {T : Tables W} {code : List XInstr} {n : Nat} {x x' : XVM W} (h : runX T code n x = .ok x') : XExec T code x x' := by
  induction n generalizing x with
  | zero => cases h; exact .refl _
  | succ n ih =>
    unfold runX at h
    cases hi : code[x.vm.pc]? with
    | none => rw [hi] at h; cases h; exact .refl _
    | some i =>
      rw [hi] at h
      simp only [Option.elim] at h
      cases hs : stepX T i x with
      | error y => rw [hs] at h; cases h
      | ok x1 => rw [hs] at h; exact .step hi hs (ih h)

/-- what is left after running a query from scratch: whether it is at its end, the rows, the number of values left on the stack, the open cursors -/
def outcomeX (junk : List Nat) (q : Query) (limit offset : Option Int) (n : Nat) : Option (Except Stop (Bool × List Row × Nat × List Nat)) :=
  (scan junk scanSig q limit offset ⟨[], []⟩).map fun c => (runX demoTables c.code n startX).map fun x =>
    (x.vm.pc == c.code.length, x.out, x.vm.stack.length, (List.range 8).filter fun i => (x.cur i).isSome)

/-- the hypotheses of C88 hold of the join, whose program returns (10, 3), (20, 2); with OFFSET 1 LIMIT 1 only (20, 2) -/
example : outcomeX [] demoJoin none none 200 = some (.ok (true, [[.int 10, .int 3], [.int 20, .int 2]], 0, [])) ∧
    outcomeX [] demoJoin (some 1) (some 1) 200 = some (.ok (true, [[.int 20, .int 2]], 0, [])) := by
  exact ⟨by decide +kernel, by decide +kernel⟩
example : Effectless demoTables demoJoin demoJoin.from_ where
  wh e h := by cases h; simp [Expr.Pure]
  sel := by simp [demoJoin, Args.Pure, Expr.Pure]
  start t ht := by
    simp only [demoJoin, List.mem_cons, List.not_mem_nil, or_false] at ht
    rcases ht with rfl | rfl <;> simp [Args.Pure, Expr.Pure]
  stop t ht e he := by
    simp only [demoJoin, List.mem_cons, List.not_mem_nil, or_false] at ht
    rcases ht with rfl | rfl <;> simp at he
    subst he; simp [Expr.Pure]
example : ∃ c', scan [] scanSig demoJoin none none ⟨[], []⟩ = some c' ∧ ∃ x', XExec demoTables c'.code startX x' ∧ x'.vm.pc = c'.code.length ∧
    x'.out = [[.int 10, .int 3], [.int 20, .int 2]] ∧ ∀ i, x'.cur i = none := by
  cases hc : scan [] scanSig demoJoin none none ⟨[], []⟩ with
  | none => exact absurd hc (by decide +kernel)
  | some c' =>
    have hn : nestSem demoTables [] demoJoin demoJoin.from_ (fun _ => none) ⟨0, none, none, []⟩ = .ok (⟨0, none, none, [[.int 10, .int 3], [.int 20, .int 2]]⟩, false) := by rfl
    obtain ⟨x', h1, h2, h3, _, _, _, h7⟩ := C88_scan_partial demoTables scanSig [] demoJoin demoJoin_fine [] none none ⟨[], []⟩ c' hc [] startX
      ⟨rfl, fun n hn => absurd hn (by simp)⟩ _ _ hn
    rw [List.append_nil] at h1
    exact ⟨c', rfl, x', h1, h2, h3, fun i => h7 rfl (fun _ _ => rfl) i (by simp [atR])⟩

/-! ## What is not so -/

/-- `SELECT y FROM t WHERE id <> 2`, read through a hash index, with the stop condition `y < 100` -/
def demoHash : Query where
  from_ := [⟨0, 0, false, true, false, .nil, [.bin (.cmp .lt) (.col 0 1) (.const (.int 100))]⟩]
  wh := some (.nequ (.col 0 0) (.const (.int 2)))
  sel := .cons (.col 0 1) .nil
  width := 1

/-- C88: the positions of the stop conditions are not filled in for hash indexes, but jumps at these positions are set, scan.c:162-187: the compiler writes to
wherever the uninitialized array says. If that happens to be the jump of WHERE (position 5 of this program), rows are missing: 10 instead of 10, 30. -/
theorem C88_hash_stop_false : outcomeX [99] demoHash none none 200 = some (.ok (true, [[.int 10], [.int 30]], 0, [])) ∧
    ∃ p, outcomeX [p] demoHash none none 200 = some (.ok (true, [[.int 10]], 0, [])) := by
  exact ⟨by decide +kernel, ⟨5, by decide +kernel⟩⟩

/-- C88: the end of a query by LIMIT jumps to the end of the first table's loop, scan.c:189-194, so the cursors of the other tables (and the
locks of what they read) stay open: `SELECT a.y, b.id FROM t a, t b … LIMIT 1` -/
theorem C88_limit_cursor_false : ∃ r, outcomeX [] demoJoin (some 1) none 200 = some (.ok (true, [[.int 10, .int 3]], 0, [r])) := by
  exact ⟨2, by decide +kernel⟩

/-- `SELECT y FROM t ORDER BY id` by the index, as a subquery: the plan is a plain scan (plan.c:159-176), whose set has one column (emit_select.c:262-266), but
the ORDER BY key is pushed as well (emit_select.c:37-40) -/
def demoOrder : Query where
  from_ := [⟨0, 0, true, true, false, .nil, []⟩]
  wh := none
  sel := .cons (.col 0 1) (.cons (.col 0 0) .nil)
  width := 1

/-- C88: so it returns the keys (1, 2, 3) instead of y (10, 20, 30), and leaves a value on the stack for every row -/
theorem C88_order_width_false : outcomeX [] demoOrder none none 200 = some (.ok (true, [[.int 1], [.int 2], [.int 3]], 3, [])) := by decide +kernel

end Verif.Compile
