import Verif.Query.SelectTail
/-!
# A whole SELECT (C92)
-/
set_option linter.unusedSimpArgs false
set_option linter.unusedVariables false
set_option autoImplicit false
namespace Verif.Query.Select
open Verif.Query
variable {R : Type}

theorem keysOk_plain {Q : List Val → Prop} {w : World R} {s : Stmt} {rows : List R} (hg : s.grouped = false) (hk : KeysOk Q w s rows) :
    ∀ r ∈ shown w s rows, Q r.2 := by
  intro r hr
  obtain ⟨x, hx, rfl⟩ := List.mem_map.1 hr
  refine hk ((rows.filter fun r => decide (meets s.cond (w.src r))).map w.src) ?_ (w.src x) (List.mem_map_of_mem hx)
  unfold Sources; rw [hg]; simp only [Bool.false_eq_true, if_false]

theorem keysOk_grouped {Q : List Val → Prop} {w : World R} {s : Stmt} {rows : List R} (hg : s.grouped = true) (hk : KeysOk Q w s rows) :
    ∀ gs, Grouping w s (rows.filter fun r => decide (meets s.cond (w.src r))) gs → ∀ r ∈ grouped w s gs, Q r.2 := by
  intro gs G r hr
  obtain ⟨x, hx, rfl⟩ := List.mem_map.1 hr
  refine hk _ ?_ x hx
  unfold Sources; rw [hg]; simp only [if_true]
  exact ⟨gs, G, rfl⟩

/-- **C92**: a SELECT over a partitioned table, whatever its clauses and whatever plan is chosen, ends, and every result it
can return answers the statement: the rows of all partitions that satisfy WHERE, grouped by the GROUP BY keys with their
aggregates and filtered by HAVING, the select list of each, one row per key for DISTINCT, in ORDER BY order, then OFFSET and
LIMIT. GROUP BY, ORDER BY and DISTINCT ON may name labels and positions of the select list.
Not covered: keys of text or NaN in a pushed-down ORDER BY (C59), `LIMIT + OFFSET` over 64 bits, DISTINCT of a column whose
name is the label of another column, DISTINCT aggregates only in ORDER BY (false, below); errors of expressions; lambda
aggregates, sums of doubles. -/
theorem C92_pushdown_partial (w : World R) (hw : ∀ r, CaseFree (w.col r)) (f : From) (s : Stmt) (q : Sel)
    (hr : resolve s = some q) (P : Parsed s) (A : Accepted q) (N : NoShadow s) (D : DistinctSeen s)
    (parts : List (List R)) (hp : parts ≠ []) (hi : Indexed w f parts) (hsort : Sorter (sortDirs s) w.sort)
    (hc : ∀ r ∈ parts.flatten, meets s.cond (w.src r) → Countable w s r)
    (hk : KeysOk RowOrdered w s parts.flatten) (hk' : s.grouped = false → KeysOk RowPlain w s parts.flatten)
    (hl : ∀ n k, s.limit = some n → s.offset = some k → n + k < 2 ^ 63) (hlen : parts.flatten.length + 2 < 2 ^ 63 - 1) :
    (∃ out, Runs w f s parts out) ∧ ∀ out, Runs w f s parts out → Answer w s parts.flatten out := by
  have h := resolved_of hr A
  cases hg : s.grouped with
  | false =>
    obtain ⟨reg, m, h1, h2, h3⟩ := push_plain P N h A hg hw hi hsort (keysOk_plain hg (hk' hg)) hl (by omega)
    refine ⟨⟨_, q, reg, _, hr, h1, (h3 _).2 rfl, rfl⟩, ?_⟩
    rintro out ⟨q', reg', rows, e1, e2, e3, e4⟩
    rw [hr] at e1; cases e1
    rw [h1] at e2; cases e2
    exact answer_plain hg h2 (by rw [e4, (h3 rows).1 e3])
  | true =>
    obtain ⟨reg, m, gs, h1, G, h2, h3⟩ := push_grouped P N D h A hg hw f hp hsort hc (keysOk_grouped hg hk) hlen
    refine ⟨⟨_, q, reg, _, hr, h1, (h3 _).2 rfl, rfl⟩, ?_⟩
    rintro out ⟨q', reg', rows, e1, e2, e3, e4⟩
    rw [hr] at e1; cases e1
    rw [h1] at e2; cases e2
    exact answer_grouped hg G h2 (by rw [e4, (h3 rows).1 e3])

/-- **C92**: the same for a SELECT that is not pushed down (over an expression, a CTE, a subquery). -/
theorem C92_main_partial (w : World R) (hw : ∀ r, CaseFree (w.col r)) (f : From) (s : Stmt) (q : Sel)
    (hr : resolve s = some q) (P : Parsed s) (A : Accepted q) (N : NoShadow s) (D : DistinctSeen s)
    (rows : List R) (hi : f.table = true → Indexed w f [rows]) (hsort : Sorter (sortDirs s) w.sort)
    (hc : ∀ r ∈ rows, meets s.cond (w.src r) → Countable w s r)
    (hk : KeysOk RowOrdered w s rows) (hlen : rows.length + 2 < 2 ^ 63 - 1) :
    (∃ out, RunsMain w f s rows out) ∧ ∀ out, RunsMain w f s rows out → Answer w s rows out := by
  have h := resolved_of hr A
  cases hg : s.grouped with
  | false =>
    obtain ⟨reg, m, h1, h2, h3⟩ := main_plain P N h A hg hw hi hsort (keysOk_plain hg hk) (by omega)
    refine ⟨⟨_, q, reg, _, hr, h1, (h3 _).2 rfl, rfl⟩, ?_⟩
    rintro out ⟨q', reg', l, e1, e2, e3, e4⟩
    rw [hr] at e1; cases e1
    rw [h1] at e2; cases e2
    exact answer_plain hg h2 (by rw [e4, (h3 l).1 e3])
  | true =>
    obtain ⟨reg, m, gs, h1, G, h2, h3⟩ := main_grouped P N D h A hg hw f hsort hc (keysOk_grouped hg hk) hlen
    refine ⟨⟨_, q, reg, _, hr, h1, (h3 _).2 rfl, rfl⟩, ?_⟩
    rintro out ⟨q', reg', l, e1, e2, e3, e4⟩
    rw [hr] at e1; cases e1
    rw [h1] at e2; cases e2
    exact answer_grouped hg G h2 (by rw [e4, (h3 l).1 e3])

/-! ## A concrete case -/

def insertBy (cmp : Row → Row → Int) (a : Row) : List Row → List Row
  | [] => [a]
  | b :: l => if cmp a b ≤ 0 then a :: b :: l else b :: insertBy cmp a l

def sortBy (cmp : Row → Row → Int) : List Row → List Row
  | [] => []
  | a :: l => insertBy cmp a (sortBy cmp l)

theorem insertBy_perm (cmp : Row → Row → Int) (a : Row) : ∀ l, (insertBy cmp a l).Perm (a :: l) := by
  intro l
  induction l with
  | nil => exact .refl _
  | cons b l ih =>
    unfold insertBy
    split
    · exact .refl _
    · exact (List.Perm.cons b ih).trans (List.Perm.swap a b l)

theorem sortBy_sorter (dirs : List Bool) : Sorter dirs (sortBy (byKeys dirs Prod.snd)) := by
  have L := keys_laws dirs
  intro l
  induction l with
  | nil => intro _; exact ⟨.refl _, List.Pairwise.nil⟩
  | cons a l ih =>
    intro h
    obtain ⟨p1, p2⟩ := ih fun r hr => h r (List.mem_cons_of_mem _ hr)
    refine ⟨(insertBy_perm _ a _).trans (p1.cons a), ?_⟩
    have hq : ∀ r ∈ sortBy (byKeys dirs Prod.snd) l, RowOrdered r.2 := fun r hr => h r (List.mem_cons_of_mem _ (p1.mem_iff.1 hr))
    have ha := h a (by simp)
    show Ascending _ (insertBy (byKeys dirs Prod.snd) a (sortBy (byKeys dirs Prod.snd) l))
    revert hq p2
    generalize sortBy (byKeys dirs Prod.snd) l = l'
    intro p2 hq
    clear p1 ih h
    induction l' with
    | nil => exact List.pairwise_singleton _ _
    | cons b l' ih =>
      obtain ⟨q1, q2⟩ := List.pairwise_cons.1 p2
      unfold insertBy
      split
      · rename_i hab
        refine List.pairwise_cons.2 ⟨?_, p2⟩
        intro c hc
        rcases List.mem_cons.1 hc with rfl | hc'
        · exact hab
        · exact L.trans a b c ha (hq b (by simp)) (hq c hc) hab (q1 c hc')
      · rename_i hab
        refine List.pairwise_cons.2 ⟨?_, ih q2 fun r hr => hq r (List.mem_cons_of_mem _ hr)⟩
        intro c hc
        rcases List.mem_cons.1 ((insertBy_perm _ a l').mem_iff.1 hc) with rfl | hc'
        · have := L.anti b c (hq b (by simp)) ha
          have := L.anti c b ha (hq b (by simp))
          omega
        · exact q1 c hc'

/-- rows of three integers `a`, `b`, `c` -/
def sampleCol (r : Int × Int × Int) (n : Name) : Val :=
  if n.map lower = [97] then .int r.1 else if n.map lower = [98] then .int r.2.1 else .int r.2.2

theorem sampleCol_free (r : Int × Int × Int) : CaseFree (sampleCol r) := by
  intro m n h
  have : m.map lower = n.map lower := by simpa [same] using h
  unfold sampleCol; rw [this]

def sampleWorld (dirs : List Bool) : World (Int × Int × Int) := ⟨sampleCol, sortBy (byKeys dirs Prod.snd)⟩

/-- the operator `+` on integers, `>` on integers -/
def plusOp : Val → Val → Val
  | .int a, .int b => .int (a + b)
  | _, _ => .null
def gtOp : Val → Val → Val
  | .int a, .int b => .bool (if b < a then 1 else 0)
  | _, _ => .null

/-- `SELECT a AS g, count(DISTINCT b), sum(c) + 1 AS s FROM t WHERE c > 0 GROUP BY G HAVING sum(c) > 3 ORDER BY s DESC, 1
LIMIT 2 OFFSET 1` -/
def sampleStmt : Stmt :=
  ⟨[⟨.name [97], [103]⟩, ⟨.agg 0, []⟩, ⟨.app plusOp (.agg 1) (.int 1), [115]⟩], some (.app gtOp (.name [99]) (.int 0)), [.name [71]],
   [(⟨.count, true⟩, .name [98]), (⟨.isum, false⟩, .name [99])], 2, some (.app gtOp (.agg 1) (.int 3)), false, [],
   [(.name [115], false), (.int 1, true)], some 2, some 1⟩

def sampleParts : List (List (Int × Int × Int)) :=
  [[(1, 7, 2), (2, 7, 9), (3, 1, 1)], [], [(1, 7, 2), (4, 2, 6), (2, 8, -5), (5, 3, 4)]]

def sampleSel : Sel :=
  ⟨[⟨.key 0, [103]⟩, ⟨.agg 0, []⟩, ⟨.app plusOp (.agg 1) (.int 1), [115]⟩], some (.app gtOp (.name [99]) (.int 0)), [.name [97]], true,
   [(⟨.count, true⟩, .name [98]), (⟨.isum, false⟩, .name [99])], true, some (.app gtOp (.agg 1) (.int 3)), false,
   [(.app plusOp (.agg 1) (.int 1), false), (.key 0, true)], some 2, some 1⟩

theorem sample_resolves : resolve sampleStmt = some sampleSel := rfl

def sampleFrom : From := ⟨false, true, false, [[98]]⟩

/-- the hypotheses of C92_pushdown_partial for the sample -/
theorem sample_parsed : Parsed sampleStmt := by
  refine ⟨?_, ?_, ?_, ?_, ?_, ?_, ?_⟩ <;> simp [sampleStmt, Ex.noKey]

theorem sample_accepted : Accepted sampleSel := by
  refine ⟨?_, ?_, ?_, ?_, ?_, ?_⟩ <;> simp [sampleSel, Ex.onRow, Ex.onGroup]

theorem sample_keys (dirs : List Bool) (rows : List (Int × Int × Int)) : KeysOk RowOrdered (sampleWorld dirs) sampleStmt rows := by
  intro xs hx x hxm v hv
  have : v = plusOp (x.aggs.getD 1 .null) (.int 1) ∨ v = x.col [97] := by
    simpa [sortKeys, sampleStmt, refersTo, means, same, lower] using hv
  rcases this with rfl | rfl
  · cases hh : x.aggs.getD 1 .null <;> simp [plusOp, Val.ordered]
  · obtain ⟨gs, _, rfl⟩ := hx
    obtain ⟨g, _, rfl⟩ := List.mem_map.1 (List.mem_filter.1 hxm).1
    unfold groupSrc
    cases g.1 with
    | nil => exact trivial
    | cons r l => exact trivial

theorem sample_answers : (∃ out, Runs (sampleWorld [false, true]) sampleFrom sampleStmt sampleParts out) ∧
    ∀ out, Runs (sampleWorld [false, true]) sampleFrom sampleStmt sampleParts out →
      Answer (sampleWorld [false, true]) sampleStmt sampleParts.flatten out := by
  refine C92_pushdown_partial _ sampleCol_free _ _ _ sample_resolves sample_parsed sample_accepted ?_ ?_ _ ?_ ?_ ?_ ?_ ?_ ?_ ?_ ?_
  · intro h; cases h
  · intro _; exact ⟨_, List.mem_cons_self, rfl⟩
  · simp [sampleParts]
  · exact ⟨(fun _ h => by cases h), (fun _ h => by cases h)⟩
  · exact sortBy_sorter _
  · intro r hr _
    refine ⟨?_, ?_, ?_⟩
    · intro v hv
      have : v = .int r.1 := by simpa [keyOf, sampleStmt, refersTo, means, same, lower, World.src, sampleWorld, sampleCol] using hv
      subst this; trivial
    · have hb : ∀ r ∈ sampleParts.flatten, (Val.int r.2.1).fits ∧ (Val.int r.2.2).fits := by
        intro r hr
        simp only [sampleParts, List.flatten_cons, List.flatten_nil, List.append_nil, List.mem_append, List.mem_cons, List.not_mem_nil, or_false, false_or, List.cons_append, List.nil_append] at hr
        rcases hr with rfl | rfl | rfl | rfl | rfl | rfl | rfl <;> exact ⟨by unfold Val.fits; decide, by unfold Val.fits; decide⟩
      intro a ha
      simp only [sampleStmt, List.mem_cons, List.not_mem_nil, or_false] at ha
      rcases ha with rfl | rfl
      · exact (hb r hr).1
      · exact (hb r hr).2
    · intro a ha _
      simp only [sampleStmt, List.mem_cons, List.not_mem_nil, or_false] at ha
      rcases ha with rfl | rfl <;> trivial
  · exact sample_keys _ _
  · intro h; cases h
  · intro n k h1 h2; cases h1; cases h2; decide
  · decide

/-- what it returns -/
def sampleOut : List Row :=
  [([.int 2, .int 1, .int 10], [.int 10, .int 2]), ([.int 4, .int 1, .int 7], [.int 7, .int 4]),
   ([.int 1, .int 1, .int 5], [.int 5, .int 1]), ([.int 5, .int 1, .int 5], [.int 5, .int 5])]

theorem sample_run : runParts (sampleWorld [false, true]) sampleFrom sampleSel sampleParts =
    .ok (.union .ordered (some 2) 1 [sampleOut]) := by
  rfl

example : Runs (sampleWorld [false, true]) sampleFrom sampleStmt sampleParts [[.int 4, .int 1, .int 7], [.int 1, .int 1, .int 5]] :=
  ⟨sampleSel, _, [([.int 4, .int 1, .int 7], [.int 7, .int 4]), ([.int 1, .int 1, .int 5], [.int 5, .int 1])], sample_resolves, sample_run,
    (ordered_one _ sampleOut (some 2) 1 (by decide) _).2 rfl, rfl⟩

/-! ## Where it fails -/

/-- `SELECT DISTINCT a AS b, c AS a FROM t` -/
def aliasStmt : Stmt := ⟨[⟨.name [97], [98]⟩, ⟨.name [99], [97]⟩], none, [], [], 0, none, true, [], [], none, none⟩

/-- **C92 fails for labels**: `SELECT DISTINCT a AS b, c AS a` looks up its own columns as labels: the key of the column `a`
is the column labelled `a`, which is `c`; rows that differ in `a` are lost -/
theorem C92_alias_false : ∃ (rows : List (Int × Int × Int)) (q : Sel), Parsed aliasStmt ∧ resolve aliasStmt = some q ∧ Accepted q ∧
    Runs (sampleWorld [true, true]) sampleFrom aliasStmt [rows] [[.int 1, .int 5]] ∧
    ¬ Answer (sampleWorld [true, true]) aliasStmt rows [[.int 1, .int 5]] := by
  refine ⟨[(1, 0, 5), (2, 0, 5)], _, ?_, rfl, ?_, ⟨_, _, [([.int 1, .int 5], [.int 5, .int 5])], rfl, rfl, ?_, rfl⟩, ?_⟩
  · refine ⟨?_, ?_, ?_, ?_, ?_, ?_, ?_⟩ <;> simp [aliasStmt, Ex.noKey]
  · refine ⟨?_, ?_, ?_, ?_, ?_, ?_⟩ <;> simp [aliasStmt, Ex.onRow, Ex.onGroup]
  · refine .more _ _ _ rfl ?_
    exact .done _ rfl
  · rintro ⟨xs, m, hs, ha, ho⟩
    have hx : xs = [(sampleWorld [true, true]).src (1, 0, 5), (sampleWorld [true, true]).src (2, 0, 5)] := hs
    subst hx
    have ha' : OnePerKey (byKeys [true, true] Prod.snd)
      [([.int 1, .int 5], [.int 1, .int 5]), ([.int 2, .int 5], [.int 2, .int 5])] m := ha
    obtain ⟨r1, m1, c1⟩ := ha'.complete ([.int 2, .int 5], [.int 2, .int 5]) (by simp)
    have hr1 := ha'.from_rows r1 m1
    simp only [List.mem_cons, List.not_mem_nil, or_false] at hr1
    rcases hr1 with rfl | rfl
    · exact absurd c1 (by decide)
    · have : [.int 2, .int 5] ∈ (page aliasStmt.limit (aliasStmt.offset.getD 0) m).map Prod.fst :=
        List.mem_map_of_mem (f := Prod.fst) m1
      rw [← ho] at this
      simp at this

/-- `SELECT a FROM t GROUP BY a ORDER BY count(DISTINCT b)` -/
def lateStmt : Stmt := ⟨[⟨.name [97], [97]⟩], none, [.name [97]], [(⟨.count, true⟩, .name [98])], 0, none, false, [], [(.agg 0, true)], none, none⟩

/-- **C92 fails for DISTINCT aggregates in ORDER BY only**: the flag that makes the set of distinct arguments is computed
before ORDER BY is parsed: the first argument is looked up in a set that does not exist -/
theorem C92_order_distinct_false : ∃ (rows : List (Int × Int × Int)) (q : Sel), Parsed lateStmt ∧ resolve lateStmt = some q ∧ Accepted q ∧
    runParts (sampleWorld [true]) sampleFrom q [rows] = .error .ub ∧ runMain (sampleWorld [true]) sampleFrom q rows = .error .ub := by
  refine ⟨[(1, 0, 5)], ⟨[⟨.key 0, [97]⟩], none, [.name [97]], true, [(⟨.count, true⟩, .name [98])], false, none, false, [(.agg 0, true)], none, none⟩,
    ?_, rfl, ?_, rfl, rfl⟩
  · refine ⟨?_, ?_, ?_, ?_, ?_, ?_, ?_⟩ <;> simp [lateStmt, Ex.noKey]
  · refine ⟨?_, ?_, ?_, ?_, ?_, ?_⟩ <;> simp [lateStmt, Ex.onRow, Ex.onGroup, groupOf, same]

/-- `SELECT a FROM t [ORDER BY a] LIMIT 9223372036854775807 OFFSET 1` -/
def limitStmt (order : List (Ex × Bool)) : Stmt :=
  ⟨[⟨.name [97], [97]⟩], none, [], [], 0, none, false, [], order, some (2 ^ 63 - 1), some 1⟩

/-- **C92 fails for large limits**: a table with two rows; `LIMIT 9223372036854775807 OFFSET 1` fails with "int + int
overflow", and with ORDER BY it returns the second row -/
theorem C92_limit_false : ∃ (q q' : Sel), resolve (limitStmt []) = some q ∧ resolve (limitStmt [(.name [97], true)]) = some q' ∧
    runParts (sampleWorld [true]) sampleFrom q [[(1, 0, 0), (2, 0, 0)]] = .error .err ∧
    Runs (sampleWorld [true]) sampleFrom (limitStmt [(.name [97], true)]) [[(1, 0, 0), (2, 0, 0)]] [[.int 2]] := by
  refine ⟨_, _, rfl, rfl, rfl, ⟨_, _, [([.int 2], [.int 2])], rfl, rfl, ?_, rfl⟩⟩
  exact (ordered_one _ _ _ _ (by decide) _).2 rfl

/-- `SELECT DISTINCT 0, a FROM t` -/
def zeroStmt : Stmt := ⟨[⟨.int 0, []⟩, ⟨.name [97], [97]⟩], none, [], [], 0, none, true, [], [], none, none⟩

/-- **C92 fails for DISTINCT of an integer**: the integer is taken for a position of the select list: `SELECT DISTINCT 0, a`
is refused, `SELECT 0, a` is not -/
theorem C92_position_false : Parsed zeroStmt ∧ resolve zeroStmt = none ∧ (resolve { zeroStmt with distinct := false }).isSome := by
  refine ⟨?_, rfl, rfl⟩
  refine ⟨?_, ?_, ?_, ?_, ?_, ?_, ?_⟩ <;> simp [zeroStmt, Ex.noKey]

end Verif.Query.Select
