import Verif.Dml.Upsert
/-!
# C95: what UPDATE, DELETE and INSERT … ON CONFLICT do to a table and return
-/
set_option autoImplicit false
namespace Verif.Dml
open Verif Verif.Row Verif.Index

/-- C95: a SET list is taken exactly if every target is a live column outside the keys, a value fits it and no column is set twice; any other is
refused with an error -/
theorem C95_accept (fnSet : Val → Bytes → Val → Res Val) (cols : List Col) (ops : List SetOp) :
    ((∃ list, compileSets fnSet cols ops = .ok list) ↔ Allowed cols ops) ∧
    (¬Allowed cols ops → compileSets fnSet cols ops = .error .err) := by
  rcases compileSets_spec fnSet cols ops with ⟨ha, list, h1, -⟩ | ⟨ha, h1⟩
  · exact ⟨⟨fun _ => ha, fun _ => ⟨list, h1⟩⟩, fun h => absurd ha h⟩
  · refine ⟨⟨?_, fun h => absurd h ha⟩, fun _ => h1⟩
    rintro ⟨list, h⟩
    rw [h1] at h; cases h

/-- C95: the order in which the SETs are written makes no difference -/
theorem C95_order (fnSet : Val → Bytes → Val → Res Val) (cmp : Tuple → Tuple → Int) (d : Dml) {a b : List SetOp} (h : a.Perm b) (t : Tree Tuple) :
    execUpdate fnSet cmp d a t = execUpdate fnSet cmp d b t := by
  unfold execUpdate
  rw [compileSets_perm fnSet d.cols h]

/-- C95: the row an UPDATE makes: every column of a SET has the value of its expression on the row as it was (also if that reads columns that are set
too), all other columns are as before; there is exactly one such row, and it is made whenever every expression has a value its column takes -/
theorem C95_row (fnSet : Val → Bytes → Val → Res Val) (cols : List Col) (ops : List SetOp) (list : List (Nat × Rhs))
    (hl : compileSets fnSet cols ops = .ok list) (x : Ctx) (new : Tuple) :
    updated cols list x = .ok new ↔ UpdateTo fnSet cols ops x new := by
  rcases compileSets_spec fnSet cols ops with ⟨ha, list', h1, hc⟩ | ⟨ha, h1⟩
  · rw [hl] at h1
    cases h1
    obtain ⟨u1, u2⟩ := updated_spec fnSet cols ops ha list hc x
    refine ⟨u1 new, fun h => ?_⟩
    obtain ⟨new', hn⟩ := u2 ⟨new, h⟩
    have := (u1 new' hn).unique h
    subst this
    exact hn
  · rw [hl] at h1; cases h1

/-- C95: an UPDATE that succeeds has changed exactly the rows WHERE holds for, each to the row `C95_row` says, in the same order, and returns
the RETURNING of each; it fails only if some row has no such result -/
theorem C95_update_partial {cmp : Tuple → Tuple → Int} (L : CmpLaws cmp) (fnSet : Val → Bytes → Val → Res Val) (d : Dml) (hk : ByKey d.cols cmp) (ops : List SetOp)
    {n : Nat} {t : Tree Tuple} (I : Inv cmp n t) (rows : List Tuple) (hr : content cmp t = some rows) :
    (∀ t' out, execUpdate fnSet cmp d ops t = .ok (t', out) →
      Inv cmp n t' ∧ ∃ rows', content cmp t' = some rows' ∧ Does fnSet cmp d.cols rows rows' out (.update ops d.wh d.ret)) ∧
    (Allowed d.cols ops → (∀ r ∈ rows, ∃ new out, UpdateRow fnSet d ops r new out) → ∃ t' out, execUpdate fnSet cmp d ops t = .ok (t', out)) := by
  rw [content_eq L I] at hr
  cases hr
  obtain ⟨u1, u2⟩ := execUpdate_spec L fnSet d hk ops I
  refine ⟨fun t' out h => ?_, u2⟩
  obtain ⟨i, hd⟩ := u1 t' out h
  exact ⟨i, _, content_eq L i, hd⟩

/-- C95: a DELETE that succeeds has removed exactly the rows WHERE holds for and returns the RETURNING of each -/
theorem C95_delete_partial {cmp : Tuple → Tuple → Int} (L : CmpLaws cmp) (fnSet : Val → Bytes → Val → Res Val) (d : Dml)
    {n : Nat} {t : Tree Tuple} (I : Inv cmp n t) (rows : List Tuple) (hr : content cmp t = some rows) :
    (∀ t' out, execDelete cmp d t = .ok (t', out) →
      Inv cmp n t' ∧ ∃ rows', content cmp t' = some rows' ∧ Does fnSet cmp d.cols rows rows' out (.delete d.wh d.ret)) ∧
    ((∀ r ∈ rows, ∃ b out, DeleteRow d r b out) → ∃ t' out, execDelete cmp d t = .ok (t', out)) := by
  rw [content_eq L I] at hr
  cases hr
  obtain ⟨u1, u2⟩ := execDelete_spec L fnSet d I
  refine ⟨fun t' out h => ?_, u2⟩
  obtain ⟨i, hd⟩ := u1 t' out h
  exact ⟨i, _, content_eq L i, hd⟩

/-- C95: an INSERT … ON CONFLICT that succeeds has, row by row, added the row if its key was not there, and otherwise done to the row that was there
what the clause says; RETURNING is about the row there afterwards -/
theorem C95_upsert_partial {cmp : Tuple → Tuple → Int} (L : CmpLaws cmp) (hnorm : Normal cmp) (fnSet : Val → Bytes → Val → Res Val) {cols : List Col} (hk : ByKey cols cmp) (c : Conflict)
    (ret : Option (List Expr)) (gs : List (Tuple × Int)) {t : Tree Tuple} (I : Inv cmp 512 t) (rows : List Tuple) (hr : content cmp t = some rows) :
    (∀ t' out, execUpsert fnSet cmp cols c ret gs t = .ok (t', out) →
      Inv cmp 512 t' ∧ ∃ rows', content cmp t' = some rows' ∧ Does fnSet cmp cols rows rows' out (.upsert c ret gs)) ∧
    ((∀ ops wh, c = .update ops wh → Allowed cols ops) → (∃ m' out, Upserts fnSet cmp cols c ret rows gs m' out) →
      ∃ t' out, execUpsert fnSet cmp cols c ret gs t = .ok (t', out)) := by
  rw [content_eq L I] at hr
  cases hr
  obtain ⟨u1, u2⟩ := execUpsert_spec L hnorm fnSet hk c ret gs I
  refine ⟨fun t' out h => ?_, u2⟩
  obtain ⟨i, hd⟩ := u1 t' out h
  exact ⟨i, _, content_eq L i, hd⟩

/-- C95: for every history of statements that succeed, from the empty table: the rows a scan gives and what each statement returned are those of
the statements' meaning, one after the other -/
theorem C95_history_partial {cmp : Tuple → Tuple → Int} (L : CmpLaws cmp) (hnorm : Normal cmp) (fnSet : Val → Bytes → Val → Res Val) {cols : List Col} (hk : ByKey cols cmp)
    (ss : List Stmt) (t' : Tree Tuple) (outs : List (List (List Val))) (h : execAll fnSet cmp cols ss (Tree.init Tuple) = .ok (t', outs)) :
    ∃ rows, content cmp t' = some rows ∧ DoesAll fnSet cmp cols [] ss rows outs := by
  obtain ⟨i, hd⟩ := execAll_spec L hnorm fnSet hk ss (inv_init cmp 512) t' outs h
  refine ⟨_, content_eq L i, ?_⟩
  exact hd

/-- C95: what WHERE selects: the rows where the expression is true (a boolean is 1 or 0) or is a number above 0; not those where it is NULL, false, 0 or less, or an empty string -/
theorem C95_where (e : Expr) (x : Ctx) :
    (e.ev x = .ok .null → holds (some e) x = .ok false) ∧ (∀ i, e.ev x = .ok (.int i) → (holds (some e) x = .ok true ↔ i > 0) ∧ (holds (some e) x = .ok false ↔ i ≤ 0)) ∧
    (∀ s, e.ev x = .ok (.str s) → (holds (some e) x = .ok true ↔ s ≠ [])) ∧ holds none x = .ok true := by
  refine ⟨?_, ?_, ?_, rfl⟩
  · intro h; simp [holds, h, isTrue, bind_ok]
  · intro i h
    simp only [holds, h, isTrue, bind_ok, Except.ok.injEq, decide_eq_true_eq, decide_eq_false_iff_not]
    exact ⟨trivial, by omega⟩
  · intro s h
    simp only [holds, h, isTrue, bind_ok, Except.ok.injEq]
    cases s <;> simp

/-! ## A concrete table: id int primary key, a int8, b int, doc json -/

/-- the key of a row of the sample table -/
def keyOf (r : Tuple) : Int := match (r[0]?).getD .null with | .int i => i | _ => 0

def cmpFirst (a b : Tuple) : Int := Json.cmpInt (keyOf a) (keyOf b)

theorem cmpFirst_laws : CmpLaws cmpFirst := by
  constructor
  · intro a b; simp only [cmpFirst, Json.cmpInt]; split <;> split <;> (try split) <;> (try split) <;> omega
  · intro a b c; simp only [cmpFirst, Json.cmpInt]
    split <;> split <;> (try split) <;> (try split) <;> (try split) <;> (try split) <;> omega

theorem cmpFirst_normal : Normal cmpFirst := by
  intro a b; simp only [cmpFirst, Json.cmpInt]; split <;> (try split) <;> omega

def sampleCols : List Col :=
  [{ name := [105, 100], ty := .int64, notNull := true, refs := 1 }, { name := [97], ty := .int8 }, { name := [98], ty := .int64, notNull := true, dflt := .int 7 }]

theorem sampleCols_byKey : ByKey sampleCols cmpFirst := by
  intro a b h
  have := h 0 _ rfl (by decide)
  have e : keyOf a = keyOf b := by unfold keyOf; rw [this]
  simp [cmpFirst, e, Json.cmpInt]

/-- set() is not used by the samples -/
def noSet : Val → Bytes → Val → Res Val := fun _ _ _ => .error .err

/-- `a = b`, `b = a` -/
def swapOps : List SetOp := [⟨[97], false, .expr (readCol 2 .int)⟩, ⟨[98], false, .expr (readCol 1 .int)⟩]

def lit (i : Int) : Expr := ⟨some .int, fun _ => .ok (.int i)⟩

/-- what a run gives: the rows and what was returned -/
def runs (ss : List Stmt) : Option (List Tuple × List (List (List Val))) :=
  match execAll noSet cmpFirst sampleCols ss (Tree.init Tuple) with
  | .ok (t, outs) => (content cmpFirst t).map (·, outs)
  | .error _ => none

/-- the hypotheses of C95_history_partial hold (`cmpFirst_laws`, `cmpFirst_normal`, `sampleCols_byKey`) for: rows inserted, one of them twice (ON CONFLICT
SET b = EXCLUDED.b RETURNING id, b), a swap of two columns, a value too wide for its column, a DELETE … RETURNING -/
example : runs [
    .upsert (.update [⟨[98], false, .expr (readExcluded 2 .int)⟩] none) (some [readCol 0 .int, readCol 2 .int])
      [([.int 3, .int 1, .int 30], 0), ([.int 1, .null, .int 10], 0), ([.int 3, .int 9, .int 33], 0)],
    .update swapOps (some ⟨some .int, fun x => .ok (.int (if keyOf x.cur = 3 then 1 else 0))⟩) none,
    .update [⟨[97], false, .expr (lit 300)⟩, ⟨[98], false, .dflt⟩] (some ⟨some .int, fun x => .ok (.int (if keyOf x.cur = 1 then 1 else 0))⟩) (some [readCol 1 .int]),
    .upsert .nothing none [([.int 1, .int 5, .int 5], 0), ([.int 2, .int 5, .int 5], 0)],
    .delete (some ⟨some .int, fun x => .ok (.int (if keyOf x.cur = 2 then 1 else 0))⟩) (some [readCol 0 .int])] =
    some ([[.int 1, .int 44, .int 7], [.int 3, .int 33, .int 1]],
      [[[.int 3, .int 30], [.int 1, .int 10], [.int 3, .int 33]], [], [[.int 44]], [], [[.int 2]]]) := by decide +kernel

/-- C95_accept: the swap is allowed; SET of the key is not, nor is a column twice -/
example : Allowed sampleCols swapOps := (C95_accept noSet sampleCols swapOps).1.1 ⟨_, rfl⟩
example : ¬Allowed sampleCols [⟨[105, 100], false, .expr (lit 1)⟩] := fun h => by
  obtain ⟨_, h⟩ := (C95_accept noSet sampleCols _).1.2 h; cases h
example : ¬Allowed sampleCols [⟨[97], false, .expr (lit 1)⟩, ⟨[65], false, .expr (lit 2)⟩] := fun h => by
  obtain ⟨_, h⟩ := (C95_accept noSet sampleCols _).1.2 h; cases h

/-- C95_row: the swap -/
example : UpdateTo noSet sampleCols swapOps ⟨[.int 1, .int 2, .int 3], none⟩ [.int 1, .int 3, .int 2] :=
  (C95_row noSet sampleCols swapOps _ rfl _ _).1 (by decide +kernel)

/-! ## What does not hold -/

/-- id int primary key, n int identity -/
def identityCols : List Col := [{ name := [105, 100], ty := .int64, refs := 1 }, { name := [110], ty := .int64, identity := true }]

/-- C95 (violated for identity columns): an UPDATE that sets an identity column outside the keys is accepted, but row_update hands
value_data_encode no identity value and the NULL pointer is read, for every value and every row -/
theorem C95_identity_false (e : Expr) (he : e.kind = some .int) : Allowed identityCols [⟨[110], false, .expr e⟩] ∧
    ∃ list, compileSets noSet identityCols [⟨[110], false, .expr e⟩] = .ok list ∧
      ∀ (r : Tuple) (v : Val), e.ev ⟨r, none⟩ = .ok v → updated identityCols list ⟨r, none⟩ = .error .ub := by
  have h : compileSets noSet identityCols [⟨[110], false, .expr e⟩] = .ok [(1, .expr e)] := by
    have h1 : parseSets noSet identityCols [⟨[110], false, .expr e⟩] = .ok [([110], .expr e)] := rfl
    have h2 : orderSets identityCols [([110], .expr e)] [] = .ok [(1, .expr e)] := rfl
    have h3 : checkTypes identityCols [(1, .expr e)] = .ok () := by
      simp [checkTypes, identityCols, rhsKind, he, kindOf]
    simp only [compileSets, h1, h2, h3, bind_ok]
  refine ⟨(C95_accept noSet _ _).1.1 ⟨_, h⟩, _, h, ?_⟩
  intro r v hv
  simp only [updated, pushValues, hv, bind_ok]
  rfl

/-- C95 (violated for generated columns): whatever a column `j` was computed from when the row was inserted (`gen`: GENERATED ALWAYS AS (…) STORED), an UPDATE
of other columns leaves it as it was: after it the column is not what its expression says whenever that now gives something else -/
theorem C95_generated_false (fnSet : Val → Bytes → Val → Res Val) (cols : List Col) (ops : List SetOp) (list : List (Nat × Rhs)) (hl : compileSets fnSet cols ops = .ok list)
    (j : Nat) (c : Col) (hc : cols[j]? = some c) (hj : ∀ op ∈ ops, ¬IsCol cols op.column j c) (gen : Tuple → Val) (r new : Tuple)
    (h : updated cols list ⟨r, none⟩ = .ok new) (hold : r[j]? = some (gen r)) (hne : gen new ≠ gen r) : new[j]? ≠ some (gen new) := by
  have := (((C95_row fnSet cols ops list hl ⟨r, none⟩ new).1 h).2 j c hc).2 hj
  rw [this]
  intro h
  simp only [hold, Option.getD_some, Option.some.injEq] at h
  exact hne h.symm

/-- the case of `b` computed as `a`, and `SET a = 5` -/
example : ∃ list, compileSets noSet sampleCols [⟨[97], false, .expr (lit 5)⟩] = .ok list ∧
    updated sampleCols list ⟨[.int 1, .int 2, .int 2], none⟩ = .ok [.int 1, .int 5, .int 2] := ⟨_, rfl, by decide +kernel⟩

/-- C95 (violated): EXCLUDED is the row as given, not as it would be stored: an identity column reads as the value given (NULL here), not as
the value drawn, and an integer is not reduced to the width of its column -/
theorem C95_excluded_false : ∃ (cols : List Col) (g : Tuple × Int) (row : Tuple) (i j : Nat), createRow g.2 cols g.1 = .ok row ∧
    (readExcluded i .int).ev ⟨row, some g.1⟩ ≠ (readCol i .int).ev ⟨row, some g.1⟩ ∧
    (readExcluded j .int).ev ⟨row, some g.1⟩ ≠ (readCol j .int).ev ⟨row, some g.1⟩ :=
  ⟨[{ name := [105, 100], ty := .int64, identity := true }, { name := [97], ty := .int8 }], ([.null, .int 300], 5), [.int 5, .int 44], 0, 1, by decide +kernel, by decide +kernel, by decide +kernel⟩

/-- C95 (violated): integers set into a narrower column are cut off without an error: `SET a = 300` of an INT8 column stores 44 -/
theorem C95_narrow_false : ∃ (list : List (Nat × Rhs)), compileSets noSet sampleCols [⟨[97], false, .expr (lit 300)⟩] = .ok list ∧
    updated sampleCols list ⟨[.int 1, .int 2, .int 3], none⟩ = .ok [.int 1, .int 44, .int 3] :=
  ⟨_, rfl, by decide +kernel⟩

end Verif.Dml
