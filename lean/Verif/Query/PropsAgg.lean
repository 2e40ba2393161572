import Verif.Query.AggProofs
/-!
# GROUP BY and aggregates over partitions (C62, C63)
-/
set_option linter.unusedSimpArgs false
set_option linter.unusedVariables false
namespace Verif.Query

/-! ## Specification: what SQL says an aggregate is -/

def ints (vals : List Val) : List Int := vals.map Val.integer
def dbls (vals : List Val) : List Nat := vals.map Val.bits

/-- the result of an aggregate over the non-NULL values `vals` (for DISTINCT: one of each) -/
def Sql : AggTy → List Val → Val → Prop
  | .count, vals, v => v = .int vals.length
  | .isum, vals, v => v = if vals = [] then .null else .int (ints vals).sum
  | .iavg, vals, v => v = if vals = [] then .null else .int ((ints vals).sum.tdiv vals.length)
  | .imin, vals, v => (vals = [] ∧ v = .null) ∨ ∃ m, v = .int m ∧ m ∈ ints vals ∧ ∀ x ∈ ints vals, m ≤ x
  | .imax, vals, v => (vals = [] ∧ v = .null) ∨ ∃ m, v = .int m ∧ m ∈ ints vals ∧ ∀ x ∈ ints vals, x ≤ m
  | .dmin, vals, v => (vals = [] ∧ v = .null) ∨ ∃ m, v = .dbl m ∧ m ∈ dbls vals ∧ ∀ x ∈ dbls vals, dblKey m ≤ dblKey x
  | .dmax, vals, v => (vals = [] ∧ v = .null) ∨ ∃ m, v = .dbl m ∧ m ∈ dbls vals ∧ ∀ x ∈ dbls vals, dblKey x ≤ dblKey m

/-- the values for which the code computes it: sums fit 64 bits, an average is not of a negative sum, no NaN -/
structure Computable (ty : AggTy) (vals : List Val) : Prop where
  len : vals.length < 2 ^ 31
  sum : ty = .isum ∨ ty = .iavg → -2 ^ 63 ≤ (ints vals).sum ∧ (ints vals).sum < 2 ^ 63
  avg : ty = .iavg → 0 ≤ (ints vals).sum
  nan : ty = .dmin ∨ ty = .dmax → ∀ v ∈ vals, ¬ isNaN v.bits

/-! ## Proofs -/

theorem w64_id {i : Int} (h1 : -2 ^ 63 ≤ i) (h2 : i < 2 ^ 63) : w64 i = i := by unfold w64; omega

theorem final_sql {ty : AggTy} {vals : List Val} {st : ASt} (h : Result ty vals st) (hc : Computable ty vals) :
    Sql ty vals (finalVal ty st) := by
  obtain ⟨hl, hs, ha, hn⟩ := hc
  rcases h with ⟨rfl, rfl⟩ | ⟨hne, h⟩
  · cases ty <;> simp [Sql, finalVal]
  · cases ty <;> simp only at h
    · subst h
      simp only [Sql, finalVal]
      rw [w64_id (by omega) (by omega)]
    · obtain ⟨m, rfl, h1, h2⟩ := h; exact .inr ⟨m, rfl, h1, h2⟩
    · obtain ⟨m, rfl, h1, h2⟩ := h; exact .inr ⟨m, rfl, h1, h2⟩
    · subst h
      obtain ⟨h1, h2⟩ := hs (.inl rfl)
      simp only [Sql, finalVal, hne, if_false]
      rw [show vals.map Val.integer = ints vals from rfl, w64_id h1 h2]
    · obtain ⟨c, rfl, h1⟩ := h
      obtain ⟨k1, k2⟩ := hs (.inr rfl)
      have k3 := ha rfl
      have hcl := h1 hl
      subst hcl
      simp only [Sql, finalVal, hne, if_false]
      rw [show vals.map Val.integer = ints vals from rfl, w64_id k1 k2]
      have hpos : 0 < vals.length := List.length_pos_iff.2 hne
      generalize (ints vals).sum = s at *
      unfold avgInt
      rw [Int.emod_eq_of_lt k3 (by omega), Int.tdiv_eq_ediv_of_nonneg k3]
      have hd0 : 0 ≤ s / (vals.length : Int) := Int.ediv_nonneg k3 (by omega)
      have hd1 : s / (vals.length : Int) ≤ s := Int.ediv_le_self _ k3
      rw [w64_id (by omega) (by omega)]
    · obtain ⟨m, rfl, h1⟩ := h
      exact .inr ⟨m, rfl, h1 (hn (.inl rfl))⟩
    · obtain ⟨m, rfl, h1⟩ := h
      exact .inr ⟨m, rfl, h1 (hn (.inr rfl))⟩

theorem nullRow_ok (aggs : List Agg) : RowOk aggs 0 ([], List.replicate aggs.length .null) := by
  refine ⟨rfl, ?_, by simp, ?_, ?_⟩
  · intro v hv; simp at hv
  · intro v hv; rw [(List.mem_replicate.1 hv).2]; unfold Val.fits; decide
  · intro col a v _ _ h
    rw [List.getElem?_replicate] at h
    split at h
    · simp at h; rw [← h]; trivial
    · simp at h

theorem nonNull_null (aggs : List Agg) (col : Nat) : nonNull ((List.replicate aggs.length Val.null)[col]?) = [] := by
  rw [List.getElem?_replicate]; split <;> simp [nonNull]

theorem fed_scan {aggs : List Agg} {n : Nat} {groupBy : Bool} (hg : groupBy = false → n = 0) {rows : List (List Val × List Val)}
    (hr : ∀ r ∈ rows, RowOk aggs n r) :
    ∃ g, scanAggs aggs n groupBy rows = some g ∧
      Fed aggs n (fun k => (∃ r ∈ rows, r.1 = k) ∨ (groupBy = false ∧ k = [])) (valsOf rows) g := by
  obtain ⟨g, h1, F⟩ := fed_addRows rows _ _ _ (fed_create aggs n) hr
  have q1 : (fun k => False ∨ ∃ r ∈ rows, r.1 = k) = (fun k => ∃ r ∈ rows, r.1 = k) := by funext k; simp
  have q2 : (fun (k : List Val) (col : Nat) => ([] : List Val) ++ valsOf rows k col) = valsOf rows := by funext k col; simp
  rw [q1, q2] at F
  cases groupBy with
  | true =>
    refine ⟨g, by simp [scanAggs, h1], ?_⟩
    exact F.congr (by simp) (fun k hk col => F.zero k (fun h => hk (.inl h)) col) (fun _ _ _ _ _ => rfl) (fun _ _ _ _ _ _ => Iff.rfl)
  | false =>
    have := hg rfl
    subst this
    obtain ⟨g', h2, F'⟩ := fed_addRow F (nullRow_ok aggs)
    refine ⟨g', by simp [scanAggs, h1, h2], ?_⟩
    simp only [nonNull_null, ite_self, List.append_nil] at F'
    exact F'.congr (by simp) (fun k hk col => F'.zero k (fun h => hk (by simpa using h)) col) (fun _ _ _ _ _ => rfl) (fun _ _ _ _ _ _ => Iff.rfl)

theorem valsOf_append (a b : List (List Val × List Val)) (k : List Val) (col : Nat) :
    valsOf (a ++ b) k col = valsOf a k col ++ valsOf b k col := by simp [valsOf]

theorem fed_all {aggs : List Agg} {n : Nat} {groupBy : Bool} (hg : groupBy = false → n = 0) :
    ∀ (parts : List (List (List Val × List Val))), (∀ r ∈ parts.flatten, RowOk aggs n r) →
    ∃ gs, scanAll aggs n groupBy parts = some gs ∧ gs.length = parts.length ∧
      ∀ (ks : List Val → Prop) (V : List Val → Nat → List Val) (g : Groups), Fed aggs n ks V g →
        ∃ g', mergeSets aggs g gs = some g' ∧
          Fed aggs n (fun k => ks k ∨ (∃ r ∈ parts.flatten, r.1 = k) ∨ (parts ≠ [] ∧ groupBy = false ∧ k = []))
            (fun k col => V k col ++ valsOf parts.flatten k col) g' := by
  intro parts
  induction parts with
  | nil =>
    intro _
    refine ⟨[], rfl, rfl, ?_⟩
    intro ks V g F
    refine ⟨g, rfl, ?_⟩
    have q1 : (fun k => ks k ∨ (∃ r ∈ ([] : List (List (List Val × List Val))).flatten, r.1 = k) ∨
        (([] : List (List (List Val × List Val))) ≠ [] ∧ groupBy = false ∧ k = [])) = ks := by
      funext k; simp
    have q2 : (fun (k : List Val) (col : Nat) => V k col ++ valsOf ([] : List (List (List Val × List Val))).flatten k col) = V := by
      funext k col; simp [valsOf]
    rw [q1, q2]; exact F
  | cons p parts ih =>
    intro hr
    obtain ⟨g0, h1, F0⟩ := fed_scan (groupBy := groupBy) hg (rows := p) (fun r h => hr r (by simp [h]))
    obtain ⟨gs, h2, h3, h4⟩ := ih (fun r h => hr r (by simp only [List.flatten_cons, List.mem_append]; exact .inr h))
    refine ⟨g0 :: gs, by simp [scanAll, h1, h2], by simp [h3], ?_⟩
    intro ks V g F
    obtain ⟨g1, e1, F1⟩ := fed_mergeTwo F F0
    obtain ⟨g2, e2, F2⟩ := h4 _ _ g1 F1
    refine ⟨g2, by simp [mergeSets, e1, e2], ?_⟩
    have q2 : (fun (k : List Val) (col : Nat) => V k col ++ valsOf (p :: parts).flatten k col) =
        (fun (k : List Val) (col : Nat) => (V k col ++ valsOf p k col) ++ valsOf parts.flatten k col) := by
      funext k col; simp only [List.flatten_cons, valsOf_append, List.append_assoc]
    rw [q2]
    refine F2.congr ?_ ?_ (fun _ _ _ _ _ => rfl) (fun _ _ _ _ _ _ => Iff.rfl)
    · intro k
      simp only [List.flatten_cons, List.mem_append, ne_eq, reduceCtorEq, not_false_eq_true, true_and]
      constructor
      · rintro ((h | ⟨r, h, rfl⟩ | ⟨h, rfl⟩) | ⟨r, h, rfl⟩ | ⟨_, h, rfl⟩)
        · exact .inl h
        · exact .inr (.inl ⟨r, .inl h, rfl⟩)
        · exact .inr (.inr ⟨h, rfl⟩)
        · exact .inr (.inl ⟨r, .inr h, rfl⟩)
        · exact .inr (.inr ⟨h, rfl⟩)
      · rintro (h | ⟨r, h | h, rfl⟩ | ⟨h, rfl⟩)
        · exact .inl (.inl h)
        · exact .inl (.inr (.inl ⟨r, h, rfl⟩))
        · exact .inr (.inl ⟨r, h, rfl⟩)
        · exact .inl (.inr (.inr ⟨h, rfl⟩))
    · intro k hk col
      refine F2.zero k ?_ col
      intro h
      apply hk
      simp only [List.flatten_cons, List.mem_append, ne_eq, reduceCtorEq, not_false_eq_true, true_and]
      rcases h with (h | ⟨r, h, rfl⟩ | ⟨h, rfl⟩) | ⟨r, h, rfl⟩ | ⟨_, h, rfl⟩
      · exact .inl h
      · exact .inr (.inl ⟨r, .inl h, rfl⟩)
      · exact .inr (.inr ⟨h, rfl⟩)
      · exact .inr (.inl ⟨r, .inr h, rfl⟩)
      · exact .inr (.inr ⟨h, rfl⟩)

theorem fed_select {aggs : List Agg} {n : Nat} {groupBy : Bool} (hg : groupBy = false → n = 0)
    {parts : List (List (List Val × List Val))} (hp : parts ≠ []) (hr : ∀ r ∈ parts.flatten, RowOk aggs n r) :
    ∃ g, selectAggs aggs n groupBy parts = some g.groups.rows ∧
      Fed aggs n (fun k => (∃ r ∈ parts.flatten, r.1 = k) ∨ (groupBy = false ∧ k = [])) (valsOf parts.flatten) g := by
  cases parts with
  | nil => exact absurd rfl hp
  | cons p parts =>
    obtain ⟨g0, h1, F0⟩ := fed_scan (groupBy := groupBy) hg (rows := p) (fun r h => hr r (by simp [h]))
    obtain ⟨gs, h2, _, h4⟩ := fed_all (groupBy := groupBy) hg parts (fun r h => hr r (by simp only [List.flatten_cons, List.mem_append]; exact .inr h))
    obtain ⟨g1, e1, F1⟩ := h4 _ _ g0 F0
    refine ⟨g1, by simp [selectAggs, scanAll, h1, h2, e1], ?_⟩
    have q2 : valsOf (p :: parts).flatten = (fun (k : List Val) (col : Nat) => valsOf p k col ++ valsOf parts.flatten k col) := by
      funext k col; simp only [List.flatten_cons, valsOf_append]
    rw [q2]
    have hks : ∀ k, (((∃ r ∈ p, r.1 = k) ∨ groupBy = false ∧ k = []) ∨ (∃ r ∈ parts.flatten, r.1 = k) ∨ parts ≠ [] ∧ groupBy = false ∧ k = []) ↔
        ((∃ r ∈ (p :: parts).flatten, r.1 = k) ∨ groupBy = false ∧ k = []) := by
      intro k
      simp only [List.flatten_cons, List.mem_append]
      constructor
      · rintro ((⟨r, h, rfl⟩ | h) | ⟨r, h, rfl⟩ | ⟨_, h⟩)
        · exact .inl ⟨r, .inl h, rfl⟩
        · exact .inr h
        · exact .inl ⟨r, .inr h, rfl⟩
        · exact .inr h
      · rintro (⟨r, h | h, rfl⟩ | h)
        · exact .inl (.inl ⟨r, h, rfl⟩)
        · exact .inr (.inl ⟨r, h, rfl⟩)
        · exact .inl (.inr h)
    exact F1.congr hks (fun k hk col => F1.zero k (fun h => hk ((hks k).1 h)) col) (fun _ _ _ _ _ => rfl) (fun _ _ _ _ _ _ => Iff.rfl)

/-! ## C62 -/

/-- **C62**: a SELECT with GROUP BY over any number of partitions ends and returns exactly one row for every group key
that occurs among the matching rows; without GROUP BY (and with aggregates) it returns exactly one row. Rows are the group
keys and the arguments of the aggregates; the keys may be of any modelled type, doubles other than NaN and -0.0. -/
theorem C62_groups_partial (aggs : List Agg) (n : Nat) (groupBy : Bool) (hg : groupBy = false → n = 0)
    (parts : List (List (List Val × List Val))) (hp : parts ≠ []) (hr : ∀ r ∈ parts.flatten, RowOk aggs n r) :
    ∃ out, selectAggs aggs n groupBy parts = some out ∧ (out.map Prod.fst).Nodup ∧
      ∀ k, k ∈ out.map Prod.fst ↔ (∃ r ∈ parts.flatten, r.1 = k) ∨ (groupBy = false ∧ k = []) := by
  obtain ⟨g, h1, F⟩ := fed_select hg hp hr
  exact ⟨_, h1, F.inv.nodup, F.keys⟩

/-- **C62 fails for doubles**: `0.0` and `-0.0` are equal (`=` and ORDER BY say so) but hash differently: two groups -/
theorem C62_zero_false : ∃ (rows : List (List Val × List Val)) (out : List (List Val × List ASt)),
    (∀ r ∈ rows, ∀ r' ∈ rows, keysSame r.1 r'.1 = true) ∧
    selectAggs [⟨.count, false⟩] 1 true [rows] = some out ∧ out.length = 2 := by
  refine ⟨[([.dbl 0], [.int 1]), ([.dbl (2 ^ 63)], [.int 1])], _, ?_, rfl, ?_⟩
  · decide
  · decide +kernel

/-! ## C63 -/

/-- **C63**: in the row of every group, every aggregate has the value SQL defines for the non-NULL arguments of the rows of
that group, from all partitions; for DISTINCT aggregates each different argument counts once. Sums of doubles and lambda
aggregates are not modelled. -/
theorem C63_values_partial (aggs : List Agg) (n : Nat) (groupBy : Bool) (hg : groupBy = false → n = 0)
    (parts : List (List (List Val × List Val))) (hp : parts ≠ []) (hr : ∀ r ∈ parts.flatten, RowOk aggs n r) :
    ∃ out, selectAggs aggs n groupBy parts = some out ∧ ∀ row ∈ out, row.2.length = aggs.length ∧
      ∀ (col : Nat) (a : Agg) (st : ASt), aggs[col]? = some a → row.2[col]? = some st →
        ∃ reps, Reps a.distinct (valsOf parts.flatten row.1 col) reps ∧
          (Computable a.ty reps → Sql a.ty reps (finalVal a.ty st)) := by
  obtain ⟨g, h1, F⟩ := fed_select hg hp hr
  refine ⟨_, h1, ?_⟩
  intro row hrow
  refine ⟨F.len row hrow, ?_⟩
  intro col a st ha hst
  obtain ⟨reps, h2, h3⟩ := F.cols row hrow col a st ha hst
  exact ⟨reps, h2, final_sql h3⟩

/-- **C63 fails for averages of negative integers**: `AVG` of -1 and -3 is 2^63 - 2: the sum is divided as an unsigned
number -/
theorem C63_avg_false : ∃ (rows : List (List Val × List Val)) (st : ASt),
    valsOf rows [] 0 = [.int (-1), .int (-3)] ∧
    selectAggs [⟨.iavg, false⟩] 0 false [rows] = some [([], [st])] ∧
    finalVal .iavg st = .int (2 ^ 63 - 2) ∧ ¬ Sql .iavg (valsOf rows [] 0) (finalVal .iavg st) := by
  refine ⟨[([], [.int (-1)]), ([], [.int (-3)])], .avg (-4) 2, rfl, ?_, ?_, ?_⟩
  · decide +kernel
  · decide
  · simp [Sql, valsOf, nonNull, finalVal, avgInt, w64, ints, Val.integer]

/-- three partitions: `SELECT g, count(x), sum(x), count(distinct x), max(x), avg(x) … GROUP BY g` -/
def sampleAggs : List Agg := [⟨.count, false⟩, ⟨.isum, false⟩, ⟨.count, true⟩, ⟨.imax, false⟩, ⟨.iavg, false⟩]
def sampleRow (g : List Nat) (x : Val) : List Val × List Val := ([.str g], [x, x, x, x, x])
def sampleParts : List (List (List Val × List Val)) :=
  [[sampleRow [97] (.int 3), sampleRow [98] (.int 4)], [], [sampleRow [97] (.int 3), sampleRow [97] .null, sampleRow [98] (.int (-4)), sampleRow [97] (.int 9)]]

example : (selectAggs sampleAggs 1 true sampleParts).map (fun out => out.map fun r => (r.1, (sampleAggs.zip r.2).map fun p => finalVal p.1.ty p.2)) =
    some [([.str [97]], [.int 3, .int 15, .int 2, .int 9, .int 5]), ([.str [98]], [.int 2, .int 0, .int 2, .int 4, .int 0])] := by
  decide +kernel

example : ∀ r ∈ sampleParts.flatten, RowOk sampleAggs 1 r := by
  intro r hr
  have hcol : ∀ (x : Val), x.fits → x.canon → ∀ (g : List Nat), RowOk sampleAggs 1 (sampleRow g x) := by
    intro x hx hc g
    refine ⟨rfl, ?_, rfl, ?_, ?_⟩
    · intro v hv; simp [sampleRow] at hv; subst hv; trivial
    · intro v hv; simp [sampleRow] at hv; subst hv; exact hx
    · intro col a v _ _ hv
      have hm : v ∈ (sampleRow g x).2 := List.mem_of_getElem? hv
      have : v = x := by simpa [sampleRow] using hm
      rw [this]; exact hc
  simp only [sampleParts, List.flatten_cons, List.flatten_nil, List.nil_append, List.append_nil, List.cons_append, List.mem_cons, List.not_mem_nil, or_false] at hr
  rcases hr with rfl | rfl | rfl | rfl | rfl | rfl
  all_goals exact hcol _ (by unfold Val.fits; decide) (by decide) _

/-- an aggregate without GROUP BY over no rows: one row, COUNT 0 and SUM NULL -/
example : (selectAggs sampleAggs 0 false [[], []]).map (fun out => out.map fun r => (r.1, (sampleAggs.zip r.2).map fun p => finalVal p.1.ty p.2)) =
    some [([], [.int 0, .null, .int 0, .null, .null])] := by
  decide +kernel

example : Computable .iavg [.int 3, .int 3, .int 9] :=
  ⟨by decide, fun _ => by decide, fun _ => by decide, fun h => by rcases h with h | h <;> cases h⟩

end Verif.Query
