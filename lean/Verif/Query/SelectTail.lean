import Verif.Query.SelectRun
/-!
# SELECT: groups, and the plan that is not pushed down
-/
set_option linter.unusedSimpArgs false
set_option linter.unusedVariables false
set_option autoImplicit false
namespace Verif.Query.Select
open Verif.Query
variable {R : Type}

/-- reading a sorted set, or the union of it -/
theorem sorted_shows {s : Stmt} {q : Sel} (h : Resolved s q) {w : World R} (hsort : Sorter (sortDirs s) w.sort)
    {L : List Row} (hk : ∀ r ∈ L, RowOrdered r.2) (hlen : L.length + 1 < 2 ^ 63 - 1)
    (hob : s.distinct = true → s.orderBy = []) :
    ∃ m, Arranged s L m ∧ ∀ rows,
      Shows q.cmp (if q.plain then .set (w.sort L) else .union (if q.distinct then .distinct else .ordered) q.limit (q.offset.getD 0) [w.sort L]) rows ↔
        rows = page s.limit (s.offset.getD 0) m := by
  obtain ⟨hp, ha⟩ := hsort L hk
  have hk' : ∀ r ∈ w.sort L, RowOrdered r.2 := fun r hr => hk r (hp.mem_iff.1 hr)
  have hlen' : (w.sort L).length + 1 < 2 ^ 63 - 1 := by rw [hp.length_eq]; exact hlen
  rw [h.cmp, h.limit, h.offset, h.distinct]
  cases hd : s.distinct with
  | true =>
    obtain ⟨m, h1, h2⟩ := distinct_one (keys_laws (sortDirs s)) (w.sort L) hk' ha s.limit (s.offset.getD 0) hlen'
    refine ⟨m, arranged_perm hp (by unfold Arranged; rw [hd]; exact h1), ?_⟩
    intro rows
    have : q.plain = false := by unfold Sel.plain; rw [h.distinct, hd]; rfl
    rw [this]
    exact h2 rows
  | false =>
    refine ⟨w.sort L, ?_, ?_⟩
    · unfold Arranged; rw [hd]; simp only [Bool.false_eq_true, if_false]; exact ⟨hp, fun _ => ha⟩
    · intro rows
      cases hpl : q.plain with
      | true =>
        unfold Sel.plain at hpl
        rw [h.limit, h.offset] at hpl
        simp only [Bool.and_eq_true, Option.isNone_iff_eq_none] at hpl
        rw [hpl.1.2, hpl.2]
        simp only [if_true, Shows, page, Option.getD_none, List.drop_zero]
      | false =>
        simp only [Bool.false_eq_true, if_false]
        exact ordered_one _ (w.sort L) s.limit (s.offset.getD 0) hlen' rows

/-- the rows of the groups -/
def grouped (w : World R) (s : Stmt) (gs : List (List R × List Val)) : List Row :=
  ((gs.map (groupSrc w)).filter fun x => decide (meets s.having x)).map fun x => (retOf s x, sortKeys s x)

theorem sum_lengths {X : Type} : ∀ (l : List (List X)), (∀ x ∈ l, x ≠ []) → l.length ≤ l.flatten.length := by
  intro l
  induction l with
  | nil => intro _; simp
  | cons a l ih =>
    intro h
    have := ih fun x hx => h x (List.mem_cons_of_mem _ hx)
    have ha : 0 < a.length := List.length_pos_iff.2 (h a (by simp))
    simp only [List.flatten_cons, List.length_append, List.length_cons]; omega

theorem grouping_length {w : World R} {s : Stmt} {rows : List R} {gs : List (List R × List Val)} (G : Grouping w s rows gs) :
    gs.length ≤ rows.length + 1 := by
  by_cases hg : s.groupBy = []
  · rw [G.one hg]; omega
  · have := sum_lengths (gs.map Prod.fst) (by
      intro x hx
      obtain ⟨g, hg', rfl⟩ := List.mem_map.1 hx
      exact G.filled hg g hg')
    rw [G.cover.length_eq, List.length_map] at this
    omega

theorem grouped_length (w : World R) (s : Stmt) (gs : List (List R × List Val)) : (grouped w s gs).length ≤ gs.length := by
  unfold grouped
  rw [List.length_map]
  refine Nat.le_trans (List.length_filter_le _ _) ?_
  simp

/-- what is left to do when the aggregates have been computed -/
def groupTail (q : Sel) : List Cmd :=
  if q.order.isEmpty then [.pipe, .scan false (q.limit.map .lit) q.offset q.having true]
  else [.pipe, .scan true none none q.having true, .sort] ++ if q.plain then [] else [.union]

theorem lit_eval (limit : Option Nat) :
    (((limit.map Lim.lit).map Lim.eval).elim (.ok Option.none) fun (n : Res Nat) => n.map some) = .ok limit := by
  cases limit <;> rfl

theorem tail_shows {s : Stmt} {q : Sel} (P : Parsed s) (N : NoShadow s) (h : Resolved s q) (A : Accepted q) (hg : s.grouped = true)
    {w : World R} (hw : ∀ r, CaseFree (w.col r)) (hsort : Sorter (sortDirs s) w.sort) (rows any : List R) (sent : List Reg) {g : Groups}
    (F : Fed (s.aggs.map Prod.fst) q.groups.length (fun k => (∃ r ∈ rows.map (q.feed w), r.1 = k) ∨ (q.groupBy = false ∧ k = []))
      (valsOf (rows.map (q.feed w))) g)
    (hk : ∀ r ∈ grouped w s (g.groups.rows.map (groupAt w s q rows)), RowOrdered r.2)
    (hlen : rows.length + 2 < 2 ^ 63 - 1) (gr : List (List Val × List ASt)) {g' : Groups} (hgr : g'.groups.rows = g.groups.rows) :
    ∃ reg m, (execAll w q any sent (groupTail q) ⟨.aggs g', gr⟩).map St.r = .ok reg ∧
      Arranged s (grouped w s (g.groups.rows.map (groupAt w s q rows))) m ∧
      ∀ l, Shows q.cmp reg l ↔ l = page s.limit (s.offset.getD 0) m := by
  have G := grouping_of h A w rows F
  have hlen' : (grouped w s (g.groups.rows.map (groupAt w s q rows))).length + 1 < 2 ^ 63 - 1 := by
    have h1 := grouped_length w s (g.groups.rows.map (groupAt w s q rows))
    have h2 := grouping_length G
    omega
  have hscan : ∀ (limit offset : Option Nat), scanOver q limit offset q.having (fun (p : List Val × List ASt) => groupVal q.groups p.1 (q.finals p.2)) g'.groups.rows =
      page limit (offset.getD 0) (grouped w s (g.groups.rows.map (groupAt w s q rows))) := by
    intro limit offset
    rw [scanOver_page, hgr, scan_groups P N h A hg w hw rows F]
    rfl
  unfold groupTail
  by_cases ho : q.order.isEmpty = true
  · obtain ⟨hd, hob⟩ := order_empty P h ho
    refine ⟨.set (page s.limit (s.offset.getD 0) (grouped w s (g.groups.rows.map (groupAt w s q rows)))), _, ?_,
      arranged_plain hd hob (.refl _), fun l => Iff.rfl⟩
    simp only [ho, if_true, execAll, exec]
    rw [← hscan, ← h.limit, ← h.offset, lit_eval]
    rfl
  · obtain ⟨m, h1, h2⟩ := sorted_shows h hsort hk hlen' P.combined
    refine ⟨_, m, ?_, h1, h2⟩
    have e := hscan none none
    simp only [Option.getD_none, page, List.drop_zero] at e
    simp only [ho, if_false]
    cases q.plain with
    | true =>
      simp only [if_true, List.append_nil, Bool.false_eq_true, if_false]
      rw [← e]
      rfl
    | false =>
      simp only [Bool.false_eq_true, if_false, List.cons_append, List.nil_append]
      rw [← e]
      rfl

theorem answer_grouped {w : World R} {s : Stmt} (hg : s.grouped = true) {rows : List R} {gs : List (List R × List Val)}
    (G : Grouping w s (rows.filter fun r => decide (meets s.cond (w.src r))) gs) {m : List Row} {out : List (List Val)}
    (hm : Arranged s (grouped w s gs) m) (ho : out = (page s.limit (s.offset.getD 0) m).map Prod.fst) : Answer w s rows out := by
  refine ⟨(gs.map (groupSrc w)).filter fun x => decide (meets s.having x), m, ?_, hm, ho⟩
  unfold Sources
  rw [hg]
  simp only [if_true]
  exact ⟨gs, G, rfl⟩

/-- the rows that are aggregated -/
theorem fed_rows {s : Stmt} {q : Sel} (h : Resolved s q) (A : Accepted q) (w : World R) (rows : List R) :
    (rows.filter fun r => holds q.cond (rowVal w r)) = rows.filter fun r => decide (meets s.cond (w.src r)) :=
  List.filter_congr fun r _ => holds_row h A w r

theorem group_zero {s : Stmt} {q : Sel} (h : Resolved s q) : q.groupBy = false → q.groups.length = 0 := by
  intro hg
  rw [h.groupBy] at hg
  have : s.groupBy = [] := by simpa using hg
  rw [h.groups, this]; rfl

/-- the partitions' aggregates -/
theorem partRegs_aggs {s : Stmt} {q : Sel} (h : Resolved s q) (A : Accepted q) (D : DistinctSeen s) (w : World R) :
    ∀ (parts : List (List R)) (gs : List Groups),
    scanAll (s.aggs.map Prod.fst) q.groups.length q.groupBy
      (parts.map fun rows => (rows.filter fun r => decide (meets s.cond (w.src r))).map (q.feed w)) = some gs →
    partRegs w q [.scanAggs] parts = .ok (gs.map .aggs) := by
  intro parts
  induction parts with
  | nil =>
    intro gs e
    simp only [List.map_nil, scanAll, Option.some.injEq] at e
    subst e
    rfl
  | cons p parts ih =>
    intro gs e
    simp only [List.map_cons, scanAll] at e
    cases h1 : scanAggs (s.aggs.map Prod.fst) q.groups.length q.groupBy
        ((p.filter fun r => decide (meets s.cond (w.src r))).map (q.feed w)) with
    | none => rw [h1] at e; cases e
    | some g =>
      rw [h1] at e
      simp only [Option.bind_some] at e
      cases h2 : scanAll (s.aggs.map Prod.fst) q.groups.length q.groupBy
          (parts.map fun rows => (rows.filter fun r => decide (meets s.cond (w.src r))).map (q.feed w)) with
      | none => rw [h2] at e; cases e
      | some gs' =>
        rw [h2] at e
        simp only [Option.map_some, Option.some.injEq] at e
        subst e
        simp only [partRegs, ih gs' h2, execAll, exec, no_crash h D, Bool.false_eq_true, if_false, h.aggs, fed_rows h A, h1]
        rfl

theorem aggsOf_map (gs : List Groups) : aggsOf (gs.map .aggs) = gs := by
  induction gs with
  | nil => rfl
  | cons g gs ih => simp [aggsOf, ih]

theorem filter_flatten (w : World R) (s : Stmt) (q : Sel) : ∀ (parts : List (List R)),
    (parts.map fun rows => (rows.filter fun r => decide (meets s.cond (w.src r))).map (q.feed w)).flatten =
      (parts.flatten.filter fun r => decide (meets s.cond (w.src r))).map (q.feed w) := by
  intro parts
  induction parts with
  | nil => rfl
  | cons p parts ih => simp only [List.map_cons, List.flatten_cons, ih, List.filter_append, List.map_append]

/-- a pushed-down SELECT with groups -/
theorem push_grouped {s : Stmt} {q : Sel} (P : Parsed s) (N : NoShadow s) (D : DistinctSeen s) (h : Resolved s q) (A : Accepted q)
    (hg : s.grouped = true) {w : World R} (hw : ∀ r, CaseFree (w.col r)) (f : From) {parts : List (List R)} (hp : parts ≠ [])
    (hsort : Sorter (sortDirs s) w.sort) (hc : ∀ r ∈ parts.flatten, meets s.cond (w.src r) → Countable w s r)
    (hk : ∀ gs, Grouping w s (parts.flatten.filter fun r => decide (meets s.cond (w.src r))) gs → ∀ r ∈ grouped w s gs, RowOrdered r.2)
    (hlen : parts.flatten.length + 2 < 2 ^ 63 - 1) :
    ∃ reg m gs, runParts w f q parts = .ok reg ∧
      Grouping w s (parts.flatten.filter fun r => decide (meets s.cond (w.src r))) gs ∧ Arranged s (grouped w s gs) m ∧
      ∀ rows, Shows q.cmp reg rows ↔ rows = page s.limit (s.offset.getD 0) m := by
  have hgq : (q.groupBy || !q.aggs.isEmpty) = true := by rw [h.grouped]; exact hg
  have hok : ∀ r ∈ (parts.map fun rows => (rows.filter fun r => decide (meets s.cond (w.src r))).map (q.feed w)).flatten,
      RowOk (s.aggs.map Prod.fst) q.groups.length r := by
    rw [filter_flatten]
    intro r' hr'
    obtain ⟨r, hr, rfl⟩ := List.mem_map.1 hr'
    obtain ⟨h1, h2⟩ := List.mem_filter.1 hr
    exact feed_ok h A w (hc r h1 (by simpa using h2))
  obtain ⟨g, h1, F⟩ := fed_select (groupBy := q.groupBy) (group_zero h) (parts := parts.map fun rows =>
    (rows.filter fun r => decide (meets s.cond (w.src r))).map (q.feed w)) (by simpa using hp) hok
  rw [filter_flatten] at F
  have hlenf : (parts.flatten.filter fun r => decide (meets s.cond (w.src r))).length ≤ parts.flatten.length := List.length_filter_le _ _
  have G := grouping_of h A w _ F
  unfold selectAggs at h1
  cases h2 : scanAll (s.aggs.map Prod.fst) q.groups.length q.groupBy (parts.map fun rows =>
      (rows.filter fun r => decide (meets s.cond (w.src r))).map (q.feed w)) with
  | none => rw [h2] at h1; cases h1
  | some gs =>
    rw [h2] at h1
    have hregs := partRegs_aggs h A D w parts gs h2
    cases gs with
    | nil =>
      exfalso
      cases parts with
      | nil => exact hp rfl
      | cons p parts =>
        simp only [List.map_cons, scanAll] at h2
        cases h3 : scanAggs (s.aggs.map Prod.fst) q.groups.length q.groupBy
            ((p.filter fun r => decide (meets s.cond (w.src r))).map (q.feed w)) with
        | none => rw [h3] at h2; cases h2
        | some g0 =>
          rw [h3] at h2
          simp only [Option.bind_some, Option.map_eq_some_iff] at h2
          obtain ⟨l, _, e⟩ := h2
          cases e
    | cons g0 gs =>
      simp only [Option.bind_some, Option.map_eq_some_iff] at h1
      obtain ⟨g', h3, h4⟩ := h1
      obtain ⟨reg, m, e1, e2, e3⟩ := tail_shows P N h A hg hw hsort _ [] ((g0 :: gs).map .aggs) F (hk _ G) (by omega) [] h4
      refine ⟨reg, m, _, ?_, G, e2, e3⟩
      unfold runParts
      have p1 : (planPushdown f q).1 = [.scanAggs] := by
        unfold planPushdown; rw [hgq]; simp only [if_true]; split <;> rfl
      have p2 : (planPushdown f q).2 = .recvAggs :: groupTail q := by
        unfold planPushdown groupTail; rw [hgq]; simp only [if_true]; split <;> rfl
      rw [p1, p2, hregs]
      show (execAll w q [] ((g0 :: gs).map .aggs) (.recvAggs :: groupTail q) ⟨.none, []⟩).map St.r = _
      rw [← e1]
      simp only [execAll, exec, aggsOf_map, h.aggs, h3]
      rfl

/-- a SELECT with groups that is not pushed down -/
theorem main_grouped {s : Stmt} {q : Sel} (P : Parsed s) (N : NoShadow s) (D : DistinctSeen s) (h : Resolved s q) (A : Accepted q)
    (hg : s.grouped = true) {w : World R} (hw : ∀ r, CaseFree (w.col r)) (f : From) {rows : List R}
    (hsort : Sorter (sortDirs s) w.sort) (hc : ∀ r ∈ rows, meets s.cond (w.src r) → Countable w s r)
    (hk : ∀ gs, Grouping w s (rows.filter fun r => decide (meets s.cond (w.src r))) gs → ∀ r ∈ grouped w s gs, RowOrdered r.2)
    (hlen : rows.length + 2 < 2 ^ 63 - 1) :
    ∃ reg m gs, runMain w f q rows = .ok reg ∧
      Grouping w s (rows.filter fun r => decide (meets s.cond (w.src r))) gs ∧ Arranged s (grouped w s gs) m ∧
      ∀ l, Shows q.cmp reg l ↔ l = page s.limit (s.offset.getD 0) m := by
  have hgq : (q.groupBy || !q.aggs.isEmpty) = true := by rw [h.grouped]; exact hg
  obtain ⟨g, h1, F⟩ := fed_scan (groupBy := q.groupBy) (group_zero h) (rows :=
    (rows.filter fun r => decide (meets s.cond (w.src r))).map (q.feed w)) (aggs := s.aggs.map Prod.fst) (by
      intro r' hr'
      obtain ⟨r, hr, rfl⟩ := List.mem_map.1 hr'
      obtain ⟨k1, k2⟩ := List.mem_filter.1 hr
      exact feed_ok h A w (hc r k1 (by simpa using k2)))
  have hlenf : (rows.filter fun r => decide (meets s.cond (w.src r))).length ≤ rows.length := List.length_filter_le _ _
  have G := grouping_of h A w _ F
  obtain ⟨reg, m, e1, e2, e3⟩ := tail_shows P N h A hg hw hsort _ rows [] F (hk _ G) (by omega) [] (g' := g) rfl
  refine ⟨reg, m, _, ?_, G, e2, e3⟩
  unfold runMain
  have p : planMain f q = .scanAggs :: .setAggMerge :: groupTail q := by
    unfold planMain groupTail planGroupBy planGroupByOrderBy; rw [hgq]; simp only [if_true]; split <;> rfl
  rw [p, ← e1]
  simp only [execAll, exec, no_crash h D, Bool.false_eq_true, if_false, h.aggs, fed_rows h A, h1]
  rfl

/-- a SELECT without groups that is not pushed down -/
theorem main_plain {s : Stmt} {q : Sel} (P : Parsed s) (N : NoShadow s) (h : Resolved s q) (A : Accepted q) (hg : s.grouped = false)
    {w : World R} (hw : ∀ r, CaseFree (w.col r)) {f : From} {rows : List R} (hi : f.table = true → Indexed w f [rows])
    (hsort : Sorter (sortDirs s) w.sort) (hk : ∀ r ∈ shown w s rows, RowOrdered r.2) (hlen : rows.length + 1 < 2 ^ 63 - 1) :
    ∃ reg m, runMain w f q rows = .ok reg ∧ Arranged s (shown w s rows) m ∧
      ∀ l, Shows q.cmp reg l ↔ l = page s.limit (s.offset.getD 0) m := by
  have hgq : (q.groupBy || !q.aggs.isEmpty) = false := by rw [h.grouped]; exact hg
  have hlen' : (shown w s rows).length + 1 < 2 ^ 63 - 1 := by have := shown_length w s rows; omega
  have hscan : (execAll w q rows [] (planScan q) ⟨.none, []⟩).map St.r = .ok (.set (page s.limit (s.offset.getD 0) (shown w s rows))) := by
    simp only [planScan, execAll, exec]
    rw [lit_eval, h.limit, h.offset]
    simp only [Bool.false_eq_true, if_false]
    rw [← scan_rows P N h A hg]
    rfl
  by_cases ho : q.order.isEmpty = true
  · obtain ⟨hd, hob⟩ := order_empty P h ho
    refine ⟨.set (page s.limit (s.offset.getD 0) (shown w s rows)), _, ?_, arranged_plain hd hob (.refl _), fun l => Iff.rfl⟩
    unfold runMain planMain
    simp only [hgq, ho, Bool.false_eq_true, if_false, if_true]
    exact hscan
  · by_cases hx : (!f.join && f.table && f.tree && matchKeys q.order f.keys) = true
    · have hx' := hx
      simp only [Bool.and_eq_true, Bool.not_eq_true'] at hx'
      obtain ⟨⟨⟨x1, x0⟩, x2⟩, x3⟩ := hx'
      have hlt := index_sorted (Rel := fun i => i < 0) P N h A hg hw x3 ((hi x0).sorted x1 x2 rows (by simp))
      have hL := keys_laws (sortDirs s)
      refine ⟨.set (page s.limit (s.offset.getD 0) (shown w s rows)), shown w s rows, ?_, ?_, fun l => Iff.rfl⟩
      · unfold runMain planMain
        simp only [hgq, ho, hx, Bool.false_eq_true, if_false, if_true]
        exact hscan
      · unfold Arranged
        cases hd : s.distinct with
        | true =>
          simp only [if_true]
          refine ⟨hlt, fun r hr => hr, fun r hr => ⟨r, hr, ?_⟩⟩
          have a1 := hL.anti r r (hk r hr) (hk r hr)
          omega
        | false =>
          simp only [Bool.false_eq_true, if_false]
          exact ⟨.refl _, fun _ => asc_of_lt hlt⟩
    · obtain ⟨m, h1, h2⟩ := sorted_shows h hsort hk hlen' P.combined
      refine ⟨_, m, ?_, h1, h2⟩
      have e := scan_rows P N h A hg w none none rows
      simp only [Option.getD_none, page, List.drop_zero] at e
      unfold runMain planMain
      simp only [hgq, ho, hx, Bool.false_eq_true, if_false]
      unfold planOrderBy
      cases q.plain with
      | true =>
        simp only [if_true, List.append_nil]
        rw [← e]
        rfl
      | false =>
        simp only [Bool.false_eq_true, if_false, List.cons_append, List.nil_append]
        rw [← e]
        rfl

end Verif.Query.Select
