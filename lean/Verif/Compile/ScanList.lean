import Verif.Compile.ScanLoop
/-!
# Scans: the result as a list
-/
set_option linter.unusedSimpArgs false
set_option linter.unusedVariables false
namespace Verif.Compile

variable {W : Type} {T : Tables W} {vars : List Val}

theorem pure_eval {rows} {e : Expr} (h : e.Pure T.fn) {w w' : W} {v : Val} (he : eval (T.sem rows) vars e w = .ok (v, w')) : w' = w := by
  obtain ⟨g, hg⟩ := pure_expr (E := T.env (fun _ => none) (rowsOf rows)) (vars := vars) e h
  have : eval (T.sem rows) vars e w = g.map fun v => (v, w) := hg w
  rw [this] at he
  cases g with
  | error x => cases he
  | ok x => cases he; rfl

theorem pure_evalArgs {rows} {a : Args} (h : a.Pure T.fn) {w w' : W} {v : List Val} (he : evalArgs (T.sem rows) vars a w = .ok (v, w')) : w' = w := by
  obtain ⟨g, hg⟩ := pure_args (E := T.env (fun _ => none) (rowsOf rows)) (vars := vars) a h
  have : evalArgs (T.sem rows) vars a w = g.map fun v => (v, w) := hg w
  rw [this] at he
  cases g with
  | error x => cases he
  | ok x => cases he; rfl

theorem pure_cond {rows} {e : Expr} (h : e.Pure T.fn) {w w' : W} {b : Bool} (he : condSem (T.sem rows) vars e w = .ok (b, w')) :
    w' = w ∧ holds T vars w rows e = b := by
  refine ⟨?_, by unfold holds; rw [he]⟩
  unfold condSem at he
  cases hev : eval (T.sem rows) vars e w with
  | error x => rw [hev] at he; cases he
  | ok p =>
    obtain ⟨v, w1⟩ := p
    have := pure_eval h hev
    rw [hev] at he
    simp only [Except.bind] at he
    cases ht : isTrue v with
    | error x => rw [ht] at he; cases he
    | ok t => rw [ht] at he; cases he; exact this

theorem pure_conds {rows} : ∀ (es : List Expr) (h : ∀ e ∈ es, e.Pure T.fn) {w w' : W} {b : Bool}, condsSem (T.sem rows) vars es w = .ok (b, w') →
    w' = w ∧ es.all (holds T vars w rows) = b := by
  intro es
  induction es with
  | nil => intro _ w w' b h; cases h; exact ⟨rfl, rfl⟩
  | cons e es ih =>
    intro h w w' b he
    rw [condsSem] at he
    cases hc : condSem (T.sem rows) vars e w with
    | error x => rw [hc] at he; cases he
    | ok p =>
      obtain ⟨b1, w1⟩ := p
      obtain ⟨e1, e2⟩ := pure_cond (h e (List.mem_cons_self ..)) hc
      rw [hc] at he
      simp only [Except.bind] at he
      cases b1 with
      | false =>
        simp only [Bool.false_eq_true, if_false] at he
        cases he
        exact ⟨e1, by simp [e2]⟩
      | true =>
        simp only [if_true] at he
        obtain ⟨f1, f2⟩ := ih (fun e he => h e (List.mem_cons_of_mem _ he)) he
        subst e1
        exact ⟨f1, by simp only [List.all_cons, e2, Bool.true_and]; exact f2⟩

/-- how many rows are still to be skipped -/
def toSkip (v : Option Int) : Nat := v.elim 0 Int.toNat

/-- what went through a list of combinations -/
structure Went (T : Tables W) (vars : List Val) (q : Query) (l : List (Nat → Option Row)) (a a' : Acc W) (b : Bool) : Prop where
  world : a'.world = a.world
  all : b = false → a'.out = a.out ++ ((l.filter (whereHolds T vars a.world q)).drop (toSkip a.off)).map (selected T vars a.world q) ∧
    toSkip a'.off = toSkip a.off - (l.filter (whereHolds T vars a.world q)).length ∧
    ((a.lim = none ∧ a'.lim = none) ∨ ∃ k k', a.lim = some k ∧ a'.lim = some k' ∧
      (l.filter (whereHolds T vars a.world q)).length - toSkip a.off ≤ k.toNat ∧
      k'.toNat = k.toNat - ((l.filter (whereHolds T vars a.world q)).length - toSkip a.off))
  part : b = true → ∃ k, a.lim = some k ∧ k.toNat ≤ (l.filter (whereHolds T vars a.world q)).length - toSkip a.off ∧
    a'.out = a.out ++ (((l.filter (whereHolds T vars a.world q)).drop (toSkip a.off)).take k.toNat).map (selected T vars a.world q)

theorem Went.nil {q : Query} (a : Acc W) : Went T vars q [] a a false where
  world := rfl
  all _ := by
    refine ⟨by simp, by simp, ?_⟩
    cases h : a.lim with
    | none => exact .inl ⟨rfl, rfl⟩
    | some k => exact .inr ⟨k, k, rfl, rfl, by simp, by simp⟩
  part h := by cases h

theorem Went.stop {q : Query} {l1 l2} {a a1 : Acc W} (h : Went T vars q l1 a a1 true) : Went T vars q (l1 ++ l2) a a1 true where
  world := h.world
  all h := by cases h
  part _ := by
    obtain ⟨k, h1, h2, h3⟩ := h.part rfl
    refine ⟨k, h1, by rw [List.filter_append, List.length_append]; omega, ?_⟩
    rw [h3, List.filter_append, List.drop_append, List.take_append_of_le_length (by simp; omega)]

theorem Went.append {q : Query} {l1 l2} {a a1 a2 : Acc W} {b : Bool} (h : Went T vars q l1 a a1 false) (h' : Went T vars q l2 a1 a2 b) : Went T vars q (l1 ++ l2) a a2 b := by
  obtain ⟨g1, g2, g3⟩ := h.all rfl
  have hw := h.world
  refine ⟨h'.world.trans hw, fun hb => ?_, fun hb => ?_⟩
  · obtain ⟨f1, f2, f3⟩ := h'.all hb
    rw [hw] at f1 f2 f3
    refine ⟨?_, ?_, ?_⟩
    · rw [f1, g1, g2, List.filter_append, List.drop_append, List.map_append, List.append_assoc]
    · rw [f2, g2, List.filter_append, List.length_append]; omega
    · rcases g3 with ⟨e1, e2⟩ | ⟨k, k1, e1, e2, e3, e4⟩
      · rcases f3 with ⟨_, d2⟩ | ⟨_, _, d1, _⟩
        · exact .inl ⟨e1, d2⟩
        · rw [e2] at d1; cases d1
      · rcases f3 with ⟨d1, _⟩ | ⟨k2, k3, d1, d2, d3, d4⟩
        · rw [e2] at d1; cases d1
        · rw [e2] at d1
          cases d1
          refine .inr ⟨k, k3, e1, d2, ?_, ?_⟩ <;> rw [List.filter_append, List.length_append] <;> rw [g2] at * <;> omega
  · obtain ⟨k2, f1, f2, f3⟩ := h'.part hb
    rw [hw] at f2 f3
    rcases g3 with ⟨_, e2⟩ | ⟨k, k1, e1, e2, e3, e4⟩
    · rw [e2] at f1; cases f1
    · rw [e2] at f1
      cases f1
      refine ⟨k, e1, by rw [List.filter_append, List.length_append]; rw [g2] at f2; omega, ?_⟩
      rw [f3, g1, g2, List.append_assoc, ← List.map_append]
      congr 2
      have ht : List.take k.toNat (List.drop (toSkip a.off) (l1.filter (whereHolds T vars a.world q))) = List.drop (toSkip a.off) (l1.filter (whereHolds T vars a.world q)) :=
        List.take_of_length_le (by rw [List.length_drop]; exact e3)
      rw [List.filter_append, List.drop_append, List.take_append, List.length_drop, ← e4, ht]

theorem emit_went {q : Query} (hsel : q.sel.Pure T.fn) {rows} {a a' : Acc W} {b : Bool} (hw : whereHolds T vars a.world q rows = true)
    (h : emitSem (T.sem rows) vars q.sel a = .ok (a', b)) : Went T vars q [rows] a a' b := by
  have hfil : [rows].filter (whereHolds T vars a.world q) = [rows] := by simp [hw]
  unfold emitSem at h
  by_cases ho : ∃ k, a.off = some k ∧ 0 ≤ k - 1
  · rw [if_pos ho] at h
    cases h
    obtain ⟨k, hk, hk1⟩ := ho
    have hs1 : toSkip a.off = k.toNat := by rw [hk]; rfl
    refine ⟨rfl, fun _ => ⟨?_, ?_, ?_⟩, fun h => by cases h⟩
    · rw [hfil, hs1, List.drop_eq_nil_of_le (by simp; omega)]; simp
    · rw [hfil, hs1, hk]; show (k - 1).toNat = _; simp
    · rw [hfil, hs1]
      cases hl : a.lim with
      | none => exact .inl ⟨rfl, rfl⟩
      | some m => exact .inr ⟨m, m, rfl, rfl, by simp; omega, by simp; omega⟩
  · rw [if_neg ho] at h
    have hs0 : toSkip a.off = 0 := by
      cases hoff : a.off with
      | none => rfl
      | some k =>
        show k.toNat = 0
        have : ¬ 0 ≤ k - 1 := fun hk => ho ⟨k, hoff, hk⟩
        omega
    have hs1 : toSkip (a.off.map (· - 1)) = 0 := by
      cases hoff : a.off with
      | none => rfl
      | some k =>
        show (k - 1).toNat = 0
        have : ¬ 0 ≤ k - 1 := fun hk => ho ⟨k, hoff, hk⟩
        omega
    by_cases hl : ∃ k, a.lim = some k ∧ k - 1 < 0
    · rw [if_pos hl] at h
      cases h
      obtain ⟨k, hk, hk1⟩ := hl
      have : k.toNat = 0 := by omega
      exact ⟨rfl, fun h => (by cases h), fun _ => ⟨k, hk, by omega, by rw [this]; simp⟩⟩
    · rw [if_neg hl] at h
      cases hev : evalArgs (T.sem rows) vars q.sel a.world with
      | error x => rw [hev] at h; cases h
      | ok p =>
        obtain ⟨vs, w⟩ := p
        have hww := pure_evalArgs hsel hev
        have hse : selected T vars a.world q rows = vs := by unfold selected; rw [hev]
        rw [hev] at h
        cases h
        refine ⟨hww, fun _ => ⟨?_, ?_, ?_⟩, fun h => by cases h⟩
        · rw [hfil, hs0]; simp [hse]
        · rw [hfil, hs0, Nat.zero_sub]; exact hs1
        · rw [hfil, hs0]
          cases hlm : a.lim with
          | none => exact .inl ⟨rfl, rfl⟩
          | some m =>
            have : ¬ m - 1 < 0 := fun hk => hl ⟨m, hlm, hk⟩
            exact .inr ⟨m, m - 1, rfl, rfl, by simp; omega, by simp⟩

theorem match_went {q : Query} (hwh : ∀ e, q.wh = some e → e.Pure T.fn) (hsel : q.sel.Pure T.fn) {rows} {a a' : Acc W} {b : Bool}
    (h : matchSem (T.sem rows) vars q.wh q.sel a = .ok (a', b)) : Went T vars q [rows] a a' b := by
  unfold matchSem at h
  cases hq : q.wh with
  | none =>
    rw [hq] at h
    exact emit_went hsel (by unfold whereHolds; rw [hq]) h
  | some e =>
    rw [hq] at h
    simp only [Option.elim] at h
    cases hc : condSem (T.sem rows) vars e a.world with
    | error x => rw [hc] at h; cases h
    | ok p =>
      obtain ⟨b1, w1⟩ := p
      obtain ⟨e1, e2⟩ := pure_cond (hwh e hq) hc
      rw [hc] at h
      simp only [Except.bind] at h
      have hwv : whereHolds T vars a.world q rows = b1 := by unfold whereHolds; rw [hq]; exact e2
      rw [show ({ a with world := w1 } : Acc W) = a by rw [e1]] at h
      cases b1 with
      | true =>
        simp only [if_true] at h
        exact emit_went hsel hwv h
      | false =>
        simp only [Bool.false_eq_true, if_false] at h
        cases h
        have hfil : [rows].filter (whereHolds T vars a.world q) = [] := by simp [hwv]
        refine ⟨rfl, fun _ => ?_, fun h => by cases h⟩
        rw [hfil]
        refine ⟨by simp, by simp, ?_⟩
        cases h : a.lim with
        | none => exact .inl ⟨rfl, rfl⟩
        | some k => exact .inr ⟨k, k, rfl, rfl, by simp, by simp⟩

theorem nest_went {q : Query} : ∀ (ts : List Target) (he : Effectless T q ts) (rows : Nat → Option Row) {a a' : Acc W} {b : Bool},
    nestSem T vars q ts rows a = .ok (a', b) → Went T vars q (combos (scanned T vars a.world) ts rows) a a' b := by
  intro ts
  induction ts with
  | nil =>
    intro he rows a a' b h
    exact match_went he.wh he.sel h
  | cons t ts ih =>
    intro he rows a a' b h
    have he' : Effectless T q ts := ⟨he.wh, he.sel, fun u hu => he.start u (List.mem_cons_of_mem _ hu), fun u hu => he.stop u (List.mem_cons_of_mem _ hu)⟩
    rw [nestSem] at h
    cases hk : evalArgs (T.sem rows) vars t.start a.world with
    | error x => rw [hk] at h; cases h
    | ok p =>
      obtain ⟨key, w⟩ := p
      have hww := pure_evalArgs (he.start t (List.mem_cons_self ..)) hk
      have hkey : keyOf T vars a.world t rows = key := by unfold keyOf; rw [hk]
      rw [hk] at h
      simp only [Except.bind] at h
      rw [show ({ a with world := w } : Acc W) = a by rw [hww]] at h
      rw [combos, show scanned T vars a.world t rows = (if (t.point && t.unique) = true then
        ((T.rows t.table t.point key).takeWhile fun r => t.stop.all (holds T vars a.world (setRow rows t.id r))).take 1
        else (T.rows t.table t.point key).takeWhile fun r => t.stop.all (holds T vars a.world (setRow rows t.id r))) from by unfold scanned; rw [hkey]]
      revert h
      generalize hwd : a.world = wd
      generalize T.rows t.table t.point key = l
      intro h
      have hstop := fun r {w w'} {b : Bool} (h : condsSem (T.sem (setRow rows t.id r)) vars t.stop w = .ok (b, w')) => pure_conds t.stop (he.stop t (List.mem_cons_self ..)) h
      clear hk hkey
      induction l generalizing a with
      | nil =>
        cases h
        simp only [List.takeWhile_nil, List.take_nil, ite_self, List.flatMap_nil]
        exact .nil _
      | cons r l ihl =>
        rw [loopSem] at h
        cases hs : condsSem (T.sem (setRow rows t.id r)) vars t.stop a.world with
        | error x => rw [hs] at h; cases h
        | ok p =>
          obtain ⟨bs, w1⟩ := p
          obtain ⟨e1, e2⟩ := hstop r hs
          rw [hs] at h
          simp only [Except.bind] at h
          rw [show ({ a with world := w1 } : Acc W) = a by rw [e1]] at h
          rw [hwd] at e2
          cases bs with
          | false =>
            simp only [Bool.false_eq_true, if_false] at h
            cases h
            rw [List.takeWhile_cons, e2]
            simp only [Bool.false_eq_true, if_false, List.take_nil, ite_self, List.flatMap_nil]
            exact .nil _
          | true =>
            simp only [if_true] at h
            cases hb : nestSem T vars q ts (setRow rows t.id r) a with
            | error x => rw [hb] at h; cases h
            | ok p =>
              obtain ⟨a1, b1⟩ := p
              have hbody := ih he' (setRow rows t.id r) hb
              rw [hwd] at hbody
              rw [hb] at h
              dsimp only at h
              rw [List.takeWhile_cons, e2]
              simp only [if_true]
              cases b1 with
              | true =>
                simp only [if_true] at h
                cases h
                split
                · rw [List.take_succ_cons, List.flatMap_cons]; exact hbody.stop
                · rw [List.flatMap_cons]; exact hbody.stop
              | false =>
                simp only [Bool.false_eq_true, if_false] at h
                by_cases ho : (t.point && t.unique) = true
                · rw [if_pos ho] at h
                  cases h
                  rw [if_pos ho, List.take_succ_cons, List.flatMap_cons]
                  simp only [List.take_zero, List.flatMap_nil, List.append_nil]
                  exact hbody
                · have hw1 := hbody.world
                  rw [if_neg ho] at h
                  rw [if_neg ho, List.flatMap_cons]
                  have := ihl (a := a1) (hww := hww.trans (by rw [hw1])) (hw1.trans hwd) h
                  rw [if_neg ho] at this
                  exact hbody.append this

theorem went_answer {q : Query} {l} {w : W} {offset limit : Option Int} {out : List Row} {a' : Acc W} {b : Bool} (h : Went T vars q l ⟨w, offset, limit, out⟩ a' b) :
    a'.out = out ++ answer T vars w q offset limit l := by
  unfold answer slice
  dsimp only
  cases b with
  | false =>
    obtain ⟨h1, _, h3⟩ := h.all rfl
    rw [h1]
    rcases h3 with ⟨e1, _⟩ | ⟨k, k', e1, _, e3, _⟩
    · dsimp only at e1
      rw [e1]; rfl
    · dsimp only at e1 e3
      rw [e1]
      show _ = out ++ ((List.take _ (List.drop (toSkip offset) _)).map _)
      rw [List.take_of_length_le (l := List.drop _ _) (by rw [List.length_drop]; exact e3)]
  | true =>
    obtain ⟨k, h1, _, h3⟩ := h.part rfl
    dsimp only at h1
    rw [h3, h1]; rfl

/-- the combinations WHERE holds for do not depend on how the tables are read, if no row that could matter is left out -/
theorem combos_filter {rowsIn : Target → (Nat → Option Row) → List Row} {full : Target → List Row} {P : (Nat → Option Row) → Bool} : ∀ (ts : List Target)
    (rows : Nat → Option Row), Faithful rowsIn full P ts rows → (combos rowsIn ts rows).filter P = (combos (fun t _ => full t) ts rows).filter P := by
  intro ts
  induction ts with
  | nil => intro rows _; rfl
  | cons t ts ih =>
    intro rows h
    obtain ⟨keep, h1, h2, h3⟩ := h
    rw [combos, combos, h1]
    revert h2 h3
    generalize full t = l
    intro h2 h3
    clear h1
    induction l with
    | nil => rfl
    | cons r l ihl =>
      have ihl := ihl (fun r' hr' => h2 r' (List.mem_cons_of_mem _ hr')) (fun r' hr' => h3 r' (List.mem_cons_of_mem _ hr'))
      rw [List.flatMap_cons, List.filter_append, ← ihl]
      cases hk : keep r with
      | true =>
        rw [List.filter_cons, if_pos hk, List.flatMap_cons, List.filter_append, ih _ (h3 r (List.mem_cons_self ..))]
      | false =>
        rw [List.filter_cons, if_neg (by rw [hk]; simp)]
        have : (combos (fun t _ => full t) ts (setRow rows t.id r)).filter P = [] := by
          rw [List.filter_eq_nil_iff]
          intro rows' hr'
          rw [h2 r (List.mem_cons_self ..) hk rows' hr']; simp
        rw [this, List.nil_append]

end Verif.Compile
