import Verif.Query.Set
/-!
# GROUP BY and aggregates over partitions

vm/set/agg.c, agg.h, runtime/lib/avg.h, compiler/compiler/emit_select.c (on_match_aggs, cmd_scan_aggs),
vm/vm/vm.c (CSET_GET, CSET_AGG, CCOUNT, CAVGI)
-/
set_option linter.unusedSimpArgs false
set_option linter.unusedVariables false
set_option linter.unusedSectionVars false
namespace Verif.Query

/-- int64_t arithmetic -/
def w64 (i : Int) : Int := (i + 2 ^ 63) % 2 ^ 64 - 2 ^ 63
/-- conversion to `int` -/
def w32 (i : Int) : Int := (i + 2 ^ 31) % 2 ^ 32 - 2 ^ 31

/-- AggType, agg.h:16-28. The sums of doubles and lambdas are not modelled. -/
inductive AggTy where
  | count | imin | imax | isum | iavg | dmin | dmax
deriving DecidableEq, Repr

/-- Agg, agg.h:30-34 -/
structure Agg where
  ty : AggTy
  distinct : Bool
deriving DecidableEq, Repr

/-- the state of an aggregate: a column of the set; TYPE_AVG holds runtime/lib/avg.h:16-23 -/
inductive ASt where
  | null
  | int (i : Int)
  | dbl (bits : Nat)
  | avg (sum : Int) (count : Nat)
deriving DecidableEq, Repr

/-- `value->integer` -/
def Val.integer : Val → Int
  | .int i => i
  | .bool i => i
  | .date i => i
  | .timestamp i => i
  | _ => 0

/-- `value->dbl` -/
def Val.bits : Val → Nat
  | .dbl b => b
  | _ => 0

/-- agg_compute, agg.c:19-122; avg_add_int, avg.h:31-36 -/
def compute : AggTy → ASt → Val → ASt
  | .count, .int i, _ => .int (w64 (i + 1))
  | .count, _, _ => .int 1
  | .imin, .int i, v => if v.integer < i then .int v.integer else .int i
  | .imin, _, v => .int v.integer
  | .imax, .int i, v => if i < v.integer then .int v.integer else .int i
  | .imax, _, v => .int v.integer
  | .isum, .int i, v => .int (w64 (i + v.integer))
  | .isum, _, v => .int v.integer
  | .iavg, .avg s c, v => .avg (w64 (s + v.integer)) ((c + 1) % 2 ^ 64)
  | .iavg, _, v => .avg (w64 (0 + v.integer)) 1
  | .dmin, .dbl b, v => if cmpD v.bits b < 0 then .dbl v.bits else .dbl b
  | .dmin, _, v => .dbl v.bits
  | .dmax, .dbl b, v => if 0 < cmpD v.bits b then .dbl v.bits else .dbl b
  | .dmax, _, v => .dbl v.bits

/-- agg_merge, agg.c:170-219. `avg_add_int(&a->avg, b->avg.sum_int, b->avg.count)` converts the count to `int`. -/
def merge : AggTy → ASt → ASt → ASt
  | _, a, .null => a
  | _, .null, b => b
  | .count, .int a, .int b => .int (w64 (a + b))
  | .imin, .int a, .int b => if b < a then .int b else .int a
  | .imax, .int a, .int b => if a < b then .int b else .int a
  | .isum, .int a, .int b => .int (w64 (a + b))
  | .iavg, .avg s c, .avg s' c' => .avg (w64 (s + s')) (((c : Int) + w32 c') % 2 ^ 64).toNat
  | .dmin, .dbl a, .dbl b => if cmpD b a < 0 then .dbl b else .dbl a
  | .dmax, .dbl a, .dbl b => if 0 < cmpD b a then .dbl b else .dbl a
  | _, a, _ => a

/-- the set of the groups and its `distinct_aggs` set, which is empty if there are no DISTINCT aggregates -/
structure Groups where
  groups : HSet (List ASt)
  dist : HSet Int
deriving DecidableEq

/-- cmd_scan_aggs, emit_select.c:286-301: CSET and CSET_DISTINCT -/
def Groups.create (keys : Nat) : Groups := ⟨HSet.create _ keys, HSet.create _ (keys + 2)⟩

/-- one column of agg_write, agg.c:130-166 -/
def writeCol (a : Agg) (row col : Nat) (v : Val) (g : Groups) : Option Groups :=
  if v = .null then some g
  else if a.distinct then
    (g.dist.upsert 0 ((((g.groups.rows[row]?).map Prod.fst).getD []) ++ [v, .int col]) 0).map fun (d, ref, existed) =>
      if existed then ⟨g.groups, d⟩
      else ⟨g.groups.modify row fun cols => cols.modify col fun st => compute a.ty st v, d.modify ref fun _ => row⟩
  else some ⟨g.groups.modify row fun cols => cols.modify col fun st => compute a.ty st v, g.dist⟩

/-- the loop of agg_write, agg.c:129 -/
def writeFrom (row : Nat) : Nat → List (Agg × Val) → Groups → Option Groups
  | _, [], g => some g
  | col, (a, v) :: l, g => (writeCol a row col v g).bind (writeFrom row (col + 1) l)

/-- on_match_aggs, emit_select.c:47-149: CSET_GET and CSET_AGG for one matching row: its group keys and the arguments
of the aggregates -/
def addRow (aggs : List Agg) (g : Groups) (r : List Val × List Val) : Option Groups :=
  (g.groups.upsert (List.replicate aggs.length .null) r.1 0).bind fun (s, row, _) =>
    writeFrom row 0 (aggs.zip r.2) ⟨s, g.dist⟩

def addRows (aggs : List Agg) : Groups → List (List Val × List Val) → Option Groups
  | g, [] => some g
  | g, r :: l => (addRow aggs g r).bind fun g => addRows aggs g l

/-- cmd_scan_aggs, emit_select.c:280-333: the groups of one partition; without GROUP BY one row of NULLs is added
(on_match_aggs_empty) -/
def scanAggs (aggs : List Agg) (keys : Nat) (groupBy : Bool) (rows : List (List Val × List Val)) : Option Groups :=
  (addRows aggs (Groups.create keys) rows).bind fun g =>
    if groupBy then some g else addRow aggs g ([], List.replicate aggs.length .null)

/-- the columns of agg_merge_set, agg.c:241-247 -/
def mergeCols : List Agg → List ASt → List ASt → List ASt
  | a :: aggs, x :: xs, y :: ys => (if a.distinct then x else merge a.ty x y) :: mergeCols aggs xs ys
  | _, xs, _ => xs

/-- agg_merge_set, agg.c:221-254, over the table of the other set -/
def mergeSet (aggs : List Agg) (other : HSet (List ASt)) : List (Nat × Nat) → HSet (List ASt) → Option (HSet (List ASt))
  | [], s => some s
  | e :: l, s =>
    (s.upsert (List.replicate aggs.length .null) (((other.rows[e.2]?).map Prod.fst).getD []) e.1).bind fun (s, row, _) =>
      mergeSet aggs other l (s.modify row fun cols => mergeCols aggs cols (((other.rows[e.2]?).map Prod.snd).getD []))

/-- agg_merge_set_distinct, agg.c:256-302, over the table of the other distinct set. `assert(exists)` fails: `none`. -/
def mergeDist (aggs : List Agg) (other : HSet Int) : List (Nat × Nat) → Groups → Option Groups
  | [], g => some g
  | e :: l, g =>
    let key := ((other.rows[e.2]?).map Prod.fst).getD []
    (g.dist.upsert 0 key e.1).bind fun (d, ref, existed) =>
      if existed then mergeDist aggs other l ⟨g.groups, d⟩
      else
        (g.groups.upsert (List.replicate aggs.length .null) key 0).bind fun (s, row, there) =>
          if there then
            let order := (key.getD (other.keys - 1) .null).integer.toNat
            let expr := key.getD (other.keys - 2) .null
            let ty := ((aggs[order]?).map Agg.ty).getD .count
            mergeDist aggs other l ⟨s.modify row fun cols => cols.modify order fun st => compute ty st expr,
              d.modify ref fun _ => row⟩
          else none

/-- the body of the loop of agg_merge_sets, agg.c:314-324 -/
def mergeTwo (aggs : List Agg) (g other : Groups) : Option Groups :=
  if other.groups.rows = [] then some g
  else
    (mergeSet aggs other.groups (Verif.Index.Hash.rowsOf other.groups.slots) g.groups).bind fun s =>
      mergeDist aggs other.dist (Verif.Index.Hash.rowsOf other.dist.slots) ⟨s, g.dist⟩

def mergeSets (aggs : List Agg) : Groups → List Groups → Option Groups
  | g, [] => some g
  | g, o :: l => (mergeTwo aggs g o).bind fun g => mergeSets aggs g l

/-- the partitions' sets -/
def scanAll (aggs : List Agg) (keys : Nat) (groupBy : Bool) : List (List (List Val × List Val)) → Option (List Groups)
  | [] => some []
  | p :: ps => (scanAggs aggs keys groupBy p).bind fun g => (scanAll aggs keys groupBy ps).map (g :: ·)

/-- `SELECT … GROUP BY` over partitions: each partition aggregates its matching rows, CRECV_AGGS merges all sets into the
first (agg_merge_sets, agg.c:304-337). The groups and the states of their aggregates. -/
def selectAggs (aggs : List Agg) (keys : Nat) (groupBy : Bool) (parts : List (List (List Val × List Val))) :
    Option (List (List Val × List ASt)) :=
  (scanAll aggs keys groupBy parts).bind fun
    | [] => some []
    | g :: gs => (mergeSets aggs g gs).map fun g => g.groups.rows

/-- avg_int, avg.h:45-49: `self->sum_int / self->count`: the sum is converted to uint64_t -/
def avgInt (sum : Int) (count : Nat) : Int := w64 ((sum % 2 ^ 64) / count)

/-- reading an aggregate: CCOUNT and CAVGI, vm.c:1839-1855; CAGG copies the state -/
def finalVal : AggTy → ASt → Val
  | .count, .int i => .int i
  | .count, _ => .int 0
  | .iavg, .avg s c => .int (avgInt s c)
  | .iavg, _ => .null
  | _, .int i => .int i
  | _, .dbl b => .dbl b
  | _, _ => .null

/-! ## What the state of an aggregate must be -/

/-- the state after the (non-NULL) values `vals` -/
def Result (ty : AggTy) (vals : List Val) (st : ASt) : Prop :=
  (vals = [] ∧ st = .null) ∨ (vals ≠ [] ∧ match ty with
    | .count => st = .int (w64 vals.length)
    | .isum => st = .int (w64 (vals.map Val.integer).sum)
    | .imin => ∃ m, st = .int m ∧ m ∈ vals.map Val.integer ∧ ∀ x ∈ vals.map Val.integer, m ≤ x
    | .imax => ∃ m, st = .int m ∧ m ∈ vals.map Val.integer ∧ ∀ x ∈ vals.map Val.integer, x ≤ m
    | .iavg => ∃ c, st = .avg (w64 (vals.map Val.integer).sum) c ∧ (vals.length < 2 ^ 31 → c = vals.length)
    | .dmin => ∃ m, st = .dbl m ∧ ((∀ v ∈ vals, ¬ isNaN v.bits) →
        m ∈ vals.map Val.bits ∧ ∀ x ∈ vals.map Val.bits, dblKey m ≤ dblKey x)
    | .dmax => ∃ m, st = .dbl m ∧ ((∀ v ∈ vals, ¬ isNaN v.bits) →
        m ∈ vals.map Val.bits ∧ ∀ x ∈ vals.map Val.bits, dblKey x ≤ dblKey m))

theorem w64_add (a b : Int) : w64 (w64 a + w64 b) = w64 (a + b) := by unfold w64; omega
theorem w64_add_left (a b : Int) : w64 (w64 a + b) = w64 (a + b) := by unfold w64; omega
theorem w64_add_right (a b : Int) : w64 (a + w64 b) = w64 (a + b) := by unfold w64; omega

theorem cmpI_neg {x y : Int} : cmpI x y < 0 ↔ x < y := by
  unfold cmpI
  split
  · constructor <;> intro <;> omega
  · split
    · constructor <;> intro <;> omega
    · constructor <;> intro <;> omega

theorem cmpI_pos {x y : Int} : 0 < cmpI x y ↔ y < x := by
  unfold cmpI
  split
  · constructor <;> intro <;> omega
  · split
    · constructor <;> intro <;> omega
    · constructor <;> intro <;> omega

theorem cmpD_num {x y : Nat} (hx : ¬ isNaN x) (hy : ¬ isNaN y) : cmpD x y = cmpI (dblKey x) (dblKey y) := by
  rw [cmpD, if_neg]; rintro (h | h) <;> contradiction

/-- merging two states -/
theorem result_merge {ty : AggTy} {x y : List Val} {s t : ASt} (hs : Result ty x s) (ht : Result ty y t) :
    Result ty (x ++ y) (merge ty s t) := by
  rcases ht with ⟨rfl, rfl⟩ | ⟨hy, ht⟩
  · have : merge ty s .null = s := by cases ty <;> cases s <;> rfl
    rw [this, List.append_nil]; exact hs
  rcases hs with ⟨rfl, rfl⟩ | ⟨hx, hs⟩
  · have : merge ty .null t = t := by cases ty <;> cases t <;> rfl
    rw [this]; exact .inr ⟨hy, ht⟩
  right
  refine ⟨by simp [hx], ?_⟩
  cases ty <;> simp only at hs ht ⊢
  · subst hs; subst ht
    simp only [merge, w64_add, List.length_append]; rfl
  · obtain ⟨m, rfl, h1, h2⟩ := hs
    obtain ⟨n, rfl, h3, h4⟩ := ht
    simp only [merge, List.map_append]
    split
    · refine ⟨n, rfl, List.mem_append_right _ h3, ?_⟩
      intro z hz
      rcases List.mem_append.1 hz with hz | hz
      · have := h2 z hz; omega
      · exact h4 z hz
    · refine ⟨m, rfl, List.mem_append_left _ h1, ?_⟩
      intro z hz
      rcases List.mem_append.1 hz with hz | hz
      · exact h2 z hz
      · have := h4 z hz; omega
  · obtain ⟨m, rfl, h1, h2⟩ := hs
    obtain ⟨n, rfl, h3, h4⟩ := ht
    simp only [merge, List.map_append]
    split
    · refine ⟨n, rfl, List.mem_append_right _ h3, ?_⟩
      intro z hz
      rcases List.mem_append.1 hz with hz | hz
      · have := h2 z hz; omega
      · exact h4 z hz
    · refine ⟨m, rfl, List.mem_append_left _ h1, ?_⟩
      intro z hz
      rcases List.mem_append.1 hz with hz | hz
      · exact h2 z hz
      · have := h4 z hz; omega
  · subst hs; subst ht
    simp only [merge, w64_add, List.map_append, List.sum_append]
  · obtain ⟨c, rfl, h1⟩ := hs
    obtain ⟨c', rfl, h2⟩ := ht
    refine ⟨_, by simp only [merge, w64_add, List.map_append, List.sum_append]; rfl, ?_⟩
    intro hl
    simp only [List.length_append] at hl ⊢
    have e1 := h1 (by omega)
    have e2 := h2 (by omega)
    subst e1; subst e2
    unfold w32; omega
  · obtain ⟨m, rfl, h1⟩ := hs
    obtain ⟨n, rfl, h2⟩ := ht
    have hn1 : (∀ v ∈ x ++ y, ¬ isNaN v.bits) → cmpD n m = cmpI (dblKey n) (dblKey m) := by
      intro hn
      obtain ⟨v, hv, e1⟩ := List.mem_map.1 (h1 fun v hv => hn v (by simp [hv])).1
      obtain ⟨v', hv', e2⟩ := List.mem_map.1 (h2 fun v hv => hn v (by simp [hv])).1
      subst e1; subst e2
      exact cmpD_num (hn v' (by simp [hv'])) (hn v (by simp [hv]))
    simp only [merge, List.map_append]
    split
    · rename_i hlt
      refine ⟨n, rfl, fun hn => ?_⟩
      rw [hn1 hn, cmpI_neg] at hlt
      obtain ⟨k1, k2⟩ := h1 fun v hv => hn v (by simp [hv])
      obtain ⟨k3, k4⟩ := h2 fun v hv => hn v (by simp [hv])
      refine ⟨List.mem_append_right _ k3, ?_⟩
      intro z hz
      rcases List.mem_append.1 hz with hz | hz
      · have := k2 z hz; omega
      · exact k4 z hz
    · rename_i hlt
      refine ⟨m, rfl, fun hn => ?_⟩
      rw [hn1 hn, cmpI_neg] at hlt
      obtain ⟨k1, k2⟩ := h1 fun v hv => hn v (by simp [hv])
      obtain ⟨k3, k4⟩ := h2 fun v hv => hn v (by simp [hv])
      refine ⟨List.mem_append_left _ k1, ?_⟩
      intro z hz
      rcases List.mem_append.1 hz with hz | hz
      · exact k2 z hz
      · have := k4 z hz; omega
  · obtain ⟨m, rfl, h1⟩ := hs
    obtain ⟨n, rfl, h2⟩ := ht
    have hn1 : (∀ v ∈ x ++ y, ¬ isNaN v.bits) → cmpD n m = cmpI (dblKey n) (dblKey m) := by
      intro hn
      obtain ⟨v, hv, e1⟩ := List.mem_map.1 (h1 fun v hv => hn v (by simp [hv])).1
      obtain ⟨v', hv', e2⟩ := List.mem_map.1 (h2 fun v hv => hn v (by simp [hv])).1
      subst e1; subst e2
      exact cmpD_num (hn v' (by simp [hv'])) (hn v (by simp [hv]))
    simp only [merge, List.map_append]
    split
    · rename_i hlt
      refine ⟨n, rfl, fun hn => ?_⟩
      rw [hn1 hn, cmpI_pos] at hlt
      obtain ⟨k1, k2⟩ := h1 fun v hv => hn v (by simp [hv])
      obtain ⟨k3, k4⟩ := h2 fun v hv => hn v (by simp [hv])
      refine ⟨List.mem_append_right _ k3, ?_⟩
      intro z hz
      rcases List.mem_append.1 hz with hz | hz
      · have := k2 z hz; omega
      · exact k4 z hz
    · rename_i hlt
      refine ⟨m, rfl, fun hn => ?_⟩
      rw [hn1 hn, cmpI_pos] at hlt
      obtain ⟨k1, k2⟩ := h1 fun v hv => hn v (by simp [hv])
      obtain ⟨k3, k4⟩ := h2 fun v hv => hn v (by simp [hv])
      refine ⟨List.mem_append_left _ k1, ?_⟩
      intro z hz
      rcases List.mem_append.1 hz with hz | hz
      · exact k2 z hz
      · have := k4 z hz; omega

/-- the integer of a value is an int64_t -/
def Val.fits (v : Val) : Prop := w64 v.integer = v.integer

theorem result_single (ty : AggTy) {v : Val} (hv : v.fits) : Result ty [v] (compute ty .null v) := by
  right
  refine ⟨by simp, ?_⟩
  unfold Val.fits at hv
  cases ty <;> simp [compute, hv]
  decide

theorem compute_merge {ty : AggTy} {vals : List Val} {st : ASt} (h : Result ty vals st) {v : Val} (hv : v.fits) :
    compute ty st v = merge ty st (compute ty .null v) := by
  rcases h with ⟨rfl, rfl⟩ | ⟨hne, h⟩
  · have : ∀ t, merge ty .null t = t := by intro t; cases ty <;> cases t <;> rfl
    rw [this]
  · cases ty <;> simp only at h
    · subst h; rfl
    · obtain ⟨m, rfl, _⟩ := h; rfl
    · obtain ⟨m, rfl, _⟩ := h; rfl
    · subst h; rfl
    · obtain ⟨c, rfl, _⟩ := h
      simp only [compute, merge, ASt.avg.injEq]
      refine ⟨by rw [w64_add_right, Int.zero_add], ?_⟩
      unfold w32; omega
    · obtain ⟨m, rfl, _⟩ := h; rfl
    · obtain ⟨m, rfl, _⟩ := h; rfl

/-- one more value -/
theorem result_compute {ty : AggTy} {vals : List Val} {st : ASt} (h : Result ty vals st) {v : Val} (hv : v.fits) :
    Result ty (vals ++ [v]) (compute ty st v) := by
  rw [compute_merge h hv]; exact result_merge h (result_single ty hv)

end Verif.Query
