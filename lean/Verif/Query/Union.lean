import Verif.Index.Merge
/-!
# The union iterator and LIMIT/OFFSET

vm/set/union_iterator.h, vm/set/union.c, vm/set/set_iterator.h, vm/vm/command.c (CRECV), compiler/plan/plan.c,
compiler/plan/plan_pushdown.c, compiler/compiler/scan.c (limit and offset counters).
-/
set_option linter.unusedSimpArgs false
set_option linter.unusedVariables false
namespace Verif.Query
open Verif.Index (CmpLaws Normal)
open Verif.Index.Merge (pickMin Visits)
variable {R : Type}

/-! ## Model -/

/-- UnionType, union.h:17-24: the three kinds the compiler emits (emit_select.c:361-363, 411-417, compiler.c:308);
UNION_JOIN and UNION_EXCEPT are never created -/
inductive UType where
  | all
  | ordered
  | distinct
deriving DecidableEq

/-- position of a union iterator: the rows left in every store iterator (the first one is its current row) and the
position of current_it; UnionIterator, union_iterator.h:18-27 -/
structure UPos (R : Type) where
  its : List (List R)
  cur : Option Nat

/-- `store_iterator_next(self->current_it)`, union_iterator.h:38-42, 64-68; set_iterator_next, set_iterator.h:29-40 -/
def UPos.advance (p : UPos R) : List (List R) :=
  match p.cur with
  | none => p.its
  | some i => p.its.modify i List.tail

/-- the loop of union_iterator_step_all, union_iterator.h:46-55: the first iterator that has a row -/
def pickFirst : List (List R) → Nat → Option (Nat × R)
  | [], _ => none
  | [] :: l, i => pickFirst l (i + 1)
  | (r :: _) :: _, i => some (i, r)

/-- the loop of union_iterator_step, union_iterator.h:72-96; the same loop as in index_tree_merge.h: the minimum moves
only if store_compare returns exactly 1 -/
def pickLeast (cmp : R → R → Int) (its : List (List R)) : Option (Nat × R) := pickMin cmp (its.map List.head?) 0 none

/-- union_iterator_step_all and union_iterator_step, union_iterator.h:34-100 -/
def stepWith (pick : List (List R) → Option (Nat × R)) (p : UPos R) : UPos R × Option R :=
  (⟨p.advance, (pick p.advance).map (·.1)⟩, (pick p.advance).map (·.2))

/-- the loop of union_iterator_step_distinct, union_iterator.h:114-122; every pass consumes a row, `fuel` is larger than
the number of rows left -/
def skipEqual (cmp : R → R → Int) (first : R) : Nat → UPos R → UPos R
  | 0, p => p
  | fuel + 1, p =>
    match (stepWith (pickLeast cmp) p).2 with
    | none => (stepWith (pickLeast cmp) p).1
    | some next => if cmp first next = 0 then skipEqual cmp first fuel (stepWith (pickLeast cmp) p).1
                   else (stepWith (pickLeast cmp) p).1

/-- `first` of union_iterator_step_distinct, union_iterator.h:105-110 -/
def distinctFirst (cmp : R → R → Int) (p : UPos R) : UPos R × Option R :=
  match p.cur with
  | some i => (p, (p.its[i]?.getD []).head?)
  | none => stepWith (pickLeast cmp) p

/-- union_iterator_step_distinct, union_iterator.h:102-124 -/
def stepDistinct (cmp : R → R → Int) (p : UPos R) : UPos R × Option R :=
  match (distinctFirst cmp p).2 with
  | none => ((distinctFirst cmp p).1, none)
  | some first => (skipEqual cmp first ((distinctFirst cmp p).1.its.flatten.length + 1) (distinctFirst cmp p).1, some first)

/-- the step function of a union, union_iterator.h:338-355 -/
def stepOf (cmp : R → R → Int) : UType → UPos R → UPos R × Option R
  | .all => stepWith fun its => pickFirst its 0
  | .ordered => stepWith (pickLeast cmp)
  | .distinct => stepDistinct cmp

/-- UnionIterator with its store iterator part: `at_` is it.current -/
structure UIt (R : Type) where
  pos : UPos R
  at_ : Option R
  limit : Int

/-- union_iterator_next, union_iterator.h:248-264 -/
def UIt.next (step : UPos R → UPos R × Option R) (u : UIt R) : UIt R :=
  if u.limit ≤ 0 then ⟨⟨u.pos.its, none⟩, none, u.limit - 1⟩
  else ⟨(step u.pos).1, (step u.pos).2, u.limit - 1⟩

/-- the offset loop of union_iterator_open, union_iterator.h:306-308 -/
def UIt.skip (step : UPos R → UPos R × Option R) : Nat → UIt R → UIt R
  | 0, u => u
  | n + 1, u => if u.at_.isSome then UIt.skip step n (u.next step) else u

/-- INT64_MAX -/
def maxLimit : Int := 2 ^ 63 - 1

/-- union_iterator_open, union_iterator.h:279-312, with the iterator as allocated in union_iterator.h:314-358; the
limit is INT64_MAX and the offset 0 if there are no LIMIT and OFFSET, union.c:46-47 -/
def UIt.open (step : UPos R → UPos R × Option R) (limit : Option Nat) (offset : Nat) (its : List (List R)) : UIt R :=
  if its.isEmpty then ⟨⟨[], none⟩, none, maxLimit⟩
  else if offset = 0 then
    UIt.next step ⟨⟨its, none⟩, none, (limit.map (fun (n : Nat) => (n : Int))).getD maxLimit⟩
  else
    let u := UIt.skip step offset (UIt.next step ⟨⟨its, none⟩, none, maxLimit⟩)
    ⟨u.pos, if (limit.map (fun (n : Nat) => (n : Int))).getD maxLimit - 1 < 0 then none else u.at_,
      (limit.map (fun (n : Nat) => (n : Int))).getD maxLimit - 1⟩

/-- the rows a query returns: the result of iterating the union -/
def Returns (cmp : R → R → Int) (ty : UType) (limit : Option Nat) (offset : Nat) (its : List (List R))
    (out : List R) : Prop :=
  Visits UIt.at_ (UIt.next (stepOf cmp ty)) (UIt.open (stepOf cmp ty) limit offset its) out

/-- the counters of a scan: for every row that passed WHERE, CJGTED skips while `--offset >= 0`, CJLTD ends the scan when
`--limit < 0`; compiler/scan.c:84-96, vm/vm.c:452-468 -/
def scanRows : Option Int → Option Int → List R → List R
  | _, _, [] => []
  | limit, some offset, r :: rows =>
    if 0 ≤ offset - 1 then scanRows limit (some (offset - 1)) rows
    else match limit with
      | some n => if n - 1 < 0 then [] else r :: scanRows (some (n - 1)) (some (offset - 1)) rows
      | none => r :: scanRows none (some (offset - 1)) rows
  | some n, none, r :: rows => if n - 1 < 0 then [] else r :: scanRows (some (n - 1)) none rows
  | none, none, r :: rows => r :: scanRows none none rows

/-- what the planner knows about a SELECT without GROUP BY: ORDER BY (DISTINCT sets the order keys to the distinct
expressions, parse_select.c:75-108, 438-447), whether the order keys are exactly the keys of the chosen tree index,
DISTINCT, LIMIT and OFFSET -/
structure Sel where
  orderBy : Bool
  indexOrder : Bool
  distinct : Bool
  limit : Option Nat
  offset : Option Nat

/-- `limit + offset`, plan_pushdown.c:110-120, 143-152 -/
def Sel.pushed (q : Sel) : Option Nat :=
  match q.limit, q.offset with
  | some n, some k => some (n + k)
  | some n, none => some n
  | none, _ => none

/-- the set a backend returns for the rows of its partition that match WHERE: SCAN_ORDERED and SORT, or SCAN with the
pushed limit; plan_pushdown.c:82-162. `sort` stands for qsort_r. -/
def Sel.backend (q : Sel) (sort : List R → List R) (rows : List R) : List R :=
  if q.orderBy && !q.indexOrder then sort rows
  else scanRows (q.pushed.map (fun (n : Nat) => (n : Int))) none rows

/-- RECV or RECV_ORDERED, emit_select.c:405-440 -/
def Sel.union (q : Sel) : UType := if q.orderBy then (if q.distinct then .distinct else .ordered) else .all

/-- the rows returned by a SELECT over the partitions of a table: plan_pushdown_order_by, plan_pushdown_order_by_index,
plan_pushdown_scan and CRECV -/
def Sel.Runs (q : Sel) (cmp : R → R → Int) (sort : List R → List R) (parts : List (List R)) (out : List R) : Prop :=
  Returns cmp q.union q.limit (q.offset.getD 0) (parts.map (q.backend sort)) out

/-- the same SELECT when it is not pushed down (in a subquery): plan_order_by and plan_scan over all rows, plan.c:82-130,
155-185; a set without UNION is returned as it is -/
def Sel.RunsMain (q : Sel) (cmp : R → R → Int) (sort : List R → List R) (rows out : List R) : Prop :=
  if q.orderBy && !q.indexOrder then
    if !q.distinct && q.limit.isNone && q.offset.isNone then out = sort rows
    else Returns cmp (if q.distinct then .distinct else .ordered) q.limit (q.offset.getD 0) [sort rows] out
  else out = scanRows (q.limit.map (fun (n : Nat) => (n : Int))) (q.offset.map (fun (n : Nat) => (n : Int))) rows

/-! ## Streams -/

/-- the rows a step function delivers from a position on -/
inductive Streams (step : UPos R → UPos R × Option R) : UPos R → List R → Prop
  | done (p : UPos R) : (step p).2 = none → Streams step p []
  | more (p : UPos R) (r : R) (l : List R) : (step p).2 = some r → Streams step (step p).1 l → Streams step p (r :: l)

theorem next_visits {step : UPos R → UPos R × Option R} {p : UPos R} {out : List R} (h : Streams step p out) :
    ∀ (k : Nat) (a : Option R), Visits UIt.at_ (UIt.next step) (UIt.next step ⟨p, a, k⟩) (out.take k) := by
  induction h with
  | done p h =>
    intro k a
    rw [List.take_nil]
    refine .done _ ?_
    unfold UIt.next; split
    · rfl
    · exact h
  | more p r l h _ ih =>
    intro k a
    cases k with
    | zero => exact .done _ (by simp [UIt.next])
    | succ k =>
      rw [List.take_succ_cons]
      have e : UIt.next step ⟨p, a, ((k + 1 : Nat) : Int)⟩ = ⟨(step p).1, (step p).2, (k : Int)⟩ := by
        unfold UIt.next
        rw [if_neg (by simp only; omega)]
        simp only [UIt.mk.injEq, true_and]
        omega
      rw [e]
      exact .more _ r _ h (ih k _)

theorem skip_spec {step : UPos R → UPos R × Option R} : ∀ (n : Nat) (p : UPos R) (out : List R) (a : Option R) (m : Nat),
    Streams step p out → out.length + 1 < m → ∃ p', UIt.skip step n (UIt.next step ⟨p, a, m⟩) =
      ⟨p', (out.drop n).head?, (UIt.skip step n (UIt.next step ⟨p, a, m⟩)).limit⟩ ∧
      (∀ r l, out.drop n = r :: l → Streams step p' l) := by
  intro n
  induction n with
  | zero =>
    intro p out a m h hm
    have e : UIt.next step ⟨p, a, (m : Int)⟩ = ⟨(step p).1, (step p).2, (m : Int) - 1⟩ := by
      unfold UIt.next; rw [if_neg (by simp only; omega)]
    rw [e]
    cases h with
    | done p h => exact ⟨(step p).1, by simp [UIt.skip, h], by intro r l h; simp at h⟩
    | more p r l h h2 =>
      exact ⟨(step p).1, by simp [UIt.skip, h], by intro r' l' h'; simp at h'; rw [← h'.2]; exact h2⟩
  | succ n ih =>
    intro p out a m h hm
    have e : UIt.next step ⟨p, a, (m : Int)⟩ = ⟨(step p).1, (step p).2, (m : Int) - 1⟩ := by
      unfold UIt.next; rw [if_neg (by simp only; omega)]
    cases h with
    | done p h =>
      refine ⟨(step p).1, ?_, by intro r l h; simp at h⟩
      rw [e]; simp [UIt.skip, h]
    | more p r l h h2 =>
      simp only [List.length_cons] at hm
      obtain ⟨p', h3, h4⟩ := ih (step p).1 l (step p).2 (m - 1) h2 (by omega)
      have e2 : ((m - 1 : Nat) : Int) = (m : Int) - 1 := by omega
      rw [e2] at h3
      refine ⟨p', ?_, by simpa using h4⟩
      rw [e]
      have : UIt.skip step (n + 1) ⟨(step p).1, (step p).2, (m : Int) - 1⟩ =
          UIt.skip step n (UIt.next step ⟨(step p).1, (step p).2, (m : Int) - 1⟩) := by
        simp [UIt.skip, h]
      rw [this]
      simpa using h3

/-- the part of a result selected by LIMIT and OFFSET -/
def page (limit : Option Nat) (offset : Nat) (l : List R) : List R :=
  match limit with
  | none => l.drop offset
  | some n => (l.drop offset).take n

theorem open_visits {step : UPos R → UPos R × Option R} {its : List (List R)} {out : List R}
    (hnil : its = [] → out = []) (h : Streams step ⟨its, none⟩ out) (limit : Option Nat) (offset : Nat)
    (hlen : out.length + 1 < 2 ^ 63 - 1) :
    Visits UIt.at_ (UIt.next step) (UIt.open step limit offset its) (page limit offset out) := by
  unfold UIt.open
  split
  · rename_i hi
    have := hnil (List.isEmpty_iff.1 hi)
    subst this
    have : page limit offset ([] : List R) = [] := by cases limit <;> simp [page]
    rw [this]; exact .done _ rfl
  · split
    · rename_i h0
      subst h0
      cases limit with
      | none =>
        have := next_visits h (2 ^ 63 - 1) none
        rw [List.take_of_length_le (by omega)] at this
        simpa [page, maxLimit] using this
      | some n => simpa [page] using next_visits h n none
    · rename_i h0
      obtain ⟨p', h1, h2⟩ := skip_spec offset ⟨its, none⟩ out none (2 ^ 63 - 1) h hlen
      have em : ((2 ^ 63 - 1 : Nat) : Int) = maxLimit := by simp [maxLimit]
      rw [em] at h1
      generalize hu : UIt.skip step offset (UIt.next step ⟨⟨its, none⟩, none, maxLimit⟩) = u at h1
      rw [hu] at *
      have hp : u.pos = p' := by rw [h1]
      have ha : u.at_ = (out.drop offset).head? := by rw [h1]
      simp only [hp, ha]
      have hmore : ∀ (k : Nat) (a : Option R), (out.drop offset).head? = a →
          Visits UIt.at_ (UIt.next step) ⟨p', a, (k : Int)⟩ ((out.drop offset).take (k + 1)) := by
        intro k a hk
        cases hd : out.drop offset with
        | nil => rw [hd] at hk; rw [List.take_nil]; exact .done _ (by rw [← hk]; rfl)
        | cons r l =>
          rw [hd] at hk
          rw [List.take_succ_cons]
          exact .more _ r _ (by rw [← hk]; rfl) (next_visits (h2 r l hd) k _)
      cases limit with
      | none =>
        simp only [Option.map_none, Option.getD_none]
        rw [if_neg (by unfold maxLimit; omega)]
        have := hmore (2 ^ 63 - 2) _ rfl
        rw [List.take_of_length_le (by simp; omega)] at this
        have e : ((2 ^ 63 - 2 : Nat) : Int) = maxLimit - 1 := by simp [maxLimit]
        rw [e] at this
        simpa [page] using this
      | some n =>
        simp only [Option.map_some, Option.getD_some]
        cases n with
        | zero =>
          simp only [page, List.take_zero]
          exact .done _ (by simp)
        | succ n =>
          rw [if_neg (by omega)]
          have := hmore n _ rfl
          have e : ((n + 1 : Nat) : Int) - 1 = (n : Int) := by omega
          rw [e]
          simpa [page] using this

/-! ## What the step functions deliver -/

/-- taking rows with `pick` one after another -/
def outs (pick : List (List R) → Option (Nat × R)) : Nat → List (List R) → List R
  | 0, _ => []
  | n + 1, its =>
    match pick its with
    | none => []
    | some (i, r) => r :: outs pick n (its.modify i List.tail)

/-- a selection function takes the first row of a list, and nothing only if all are empty -/
structure Picks (pick : List (List R) → Option (Nat × R)) : Prop where
  some : ∀ its i r, pick its = some (i, r) → ∃ t, its[i]? = some (r :: t)
  none : ∀ its, pick its = none → its.flatten = []

theorem modify_tail_flatten {its : List (List R)} {i : Nat} {r : R} {t : List R} (h : its[i]? = some (r :: t)) :
    its.flatten.Perm (r :: (its.modify i List.tail).flatten) := by
  have e : its.modify i List.tail = its.set i t := by
    apply List.ext_getElem?
    intro j
    simp only [List.getElem?_modify, List.getElem?_set]
    by_cases hj : i = j
    · subst hj
      have hlt := (List.getElem?_eq_some_iff.1 h).1
      rw [h]; simp only [if_true, hlt, Option.map_some]; rfl
    · simp [hj]
  rw [e]
  exact Verif.Index.Merge.flatten_set h

theorem modify_tail_length {its : List (List R)} {i : Nat} {r : R} {t : List R} (h : its[i]? = some (r :: t)) :
    its.flatten.length = (its.modify i List.tail).flatten.length + 1 := by
  have := (modify_tail_flatten h).length_eq; simpa using this

theorem outs_perm {pick : List (List R) → Option (Nat × R)} (P : Picks pick) : ∀ (n : Nat) (its : List (List R)),
    its.flatten.length ≤ n → (outs pick n its).Perm its.flatten := by
  intro n
  induction n with
  | zero =>
    intro its h
    have : its.flatten = [] := List.length_eq_zero_iff.1 (by omega)
    rw [this]; simp [outs]
  | succ n ih =>
    intro its h
    unfold outs
    cases hp : pick its with
    | none => rw [P.none its hp]
    | some b =>
      obtain ⟨i, r⟩ := b
      obtain ⟨t, ht⟩ := P.some its i r hp
      have hl := modify_tail_length ht
      exact ((ih _ (by omega)).cons r).trans (modify_tail_flatten ht).symm

theorem outs_more {pick : List (List R) → Option (Nat × R)} (P : Picks pick) : ∀ (n m : Nat) (its : List (List R)),
    its.flatten.length ≤ n → its.flatten.length ≤ m → outs pick n its = outs pick m its := by
  intro n
  induction n with
  | zero =>
    intro m its h _
    cases m with
    | zero => rfl
    | succ m =>
      unfold outs
      cases hp : pick its with
      | none => rfl
      | some b =>
        obtain ⟨i, r⟩ := b
        obtain ⟨t, ht⟩ := P.some its i r hp
        have := modify_tail_length ht; omega
  | succ n ih =>
    intro m its h h'
    cases m with
    | zero =>
      unfold outs
      cases hp : pick its with
      | none => rfl
      | some b =>
        obtain ⟨i, r⟩ := b
        obtain ⟨t, ht⟩ := P.some its i r hp
        have := modify_tail_length ht; omega
    | succ m =>
      unfold outs
      cases hp : pick its with
      | none => rfl
      | some b =>
        obtain ⟨i, r⟩ := b
        obtain ⟨t, ht⟩ := P.some its i r hp
        have := modify_tail_length ht
        simp only
        rw [ih m _ (by omega) (by omega)]

/-- everything -/
def allOuts (pick : List (List R) → Option (Nat × R)) (its : List (List R)) : List R := outs pick its.flatten.length its

theorem allOuts_none {pick : List (List R) → Option (Nat × R)} (P : Picks pick) {its : List (List R)}
    (h : pick its = none) : allOuts pick its = [] := by
  have : its.flatten = [] := P.none its h
  simp [allOuts, this, outs]

theorem allOuts_some {pick : List (List R) → Option (Nat × R)} (P : Picks pick) {its : List (List R)} {i : Nat} {r : R}
    (h : pick its = some (i, r)) : allOuts pick its = r :: allOuts pick (its.modify i List.tail) := by
  obtain ⟨t, ht⟩ := P.some its i r h
  have hl := modify_tail_length ht
  unfold allOuts
  rw [hl]
  simp only [outs, h]

theorem stepWith_streams {pick : List (List R) → Option (Nat × R)} (P : Picks pick) : ∀ (n : Nat) (p : UPos R),
    p.advance.flatten.length = n → Streams (stepWith pick) p (allOuts pick p.advance) := by
  intro n
  induction n with
  | zero =>
    intro p h
    have h0 : p.advance.flatten = [] := List.length_eq_zero_iff.1 h
    have hn : pick p.advance = none := by
      cases hp : pick p.advance with
      | none => rfl
      | some b =>
        obtain ⟨i, r⟩ := b
        obtain ⟨t, ht⟩ := P.some _ i r hp
        have := modify_tail_length ht; omega
    rw [allOuts_none P hn]
    exact .done _ (by simp [stepWith, hn])
  | succ n ih =>
    intro p h
    cases hp : pick p.advance with
    | none => have := P.none _ hp; rw [this] at h; simp at h
    | some b =>
      obtain ⟨i, r⟩ := b
      obtain ⟨t, ht⟩ := P.some _ i r hp
      have hl := modify_tail_length ht
      rw [allOuts_some P hp]
      refine .more _ r _ (by simp [stepWith, hp]) ?_
      have e : (stepWith pick p).1 = ⟨p.advance, some i⟩ := by simp [stepWith, hp]
      rw [e]
      have := ih ⟨p.advance, some i⟩ (by simp only [UPos.advance] at hl h ⊢; omega)
      simpa [UPos.advance] using this

/-! ### The first list that has a row -/

theorem pickFirst_spec : ∀ (its : List (List R)) (k : Nat),
    (∀ i r, pickFirst its k = some (i, r) → k ≤ i ∧ ∃ t, its[i - k]? = some (r :: t) ∧ its.flatten = r :: t ++ (its.drop (i - k + 1)).flatten) ∧
    (pickFirst its k = none → its.flatten = []) := by
  intro its
  induction its with
  | nil => intro k; simp [pickFirst]
  | cons v its ih =>
    intro k
    cases v with
    | nil =>
      refine ⟨?_, ?_⟩
      · intro i r h
        obtain ⟨h1, t, h2, h3⟩ := (ih (k + 1)).1 i r (by simpa [pickFirst] using h)
        refine ⟨by omega, t, ?_, ?_⟩
        · have : i - k = (i - (k + 1)) + 1 := by omega
          rw [this]; simpa using h2
        · have : i - k + 1 = (i - (k + 1) + 1) + 1 := by omega
          rw [this]; simpa using h3
      · intro h; simpa using (ih (k + 1)).2 (by simpa [pickFirst] using h)
    | cons a v =>
      refine ⟨?_, by simp [pickFirst]⟩
      intro i r h
      simp only [pickFirst, Option.some.injEq, Prod.mk.injEq] at h
      obtain ⟨rfl, rfl⟩ := h
      exact ⟨Nat.le_refl _, v, by simp, by simp⟩

theorem pickFirst_picks : Picks (fun (its : List (List R)) => pickFirst its 0) := by
  constructor
  · intro its i r h
    obtain ⟨_, t, h2, _⟩ := (pickFirst_spec its 0).1 i r h
    exact ⟨t, by simpa using h2⟩
  · intro its h; exact (pickFirst_spec its 0).2 h

theorem pickFirst_modify : ∀ (its : List (List R)) (k i : Nat) (r : R), pickFirst its k = some (i, r) →
    its.flatten = r :: (its.modify (i - k) List.tail).flatten := by
  intro its
  induction its with
  | nil => intro k i r h; simp [pickFirst] at h
  | cons v its ih =>
    intro k i r h
    cases v with
    | nil =>
      have h' : pickFirst its (k + 1) = some (i, r) := by simpa [pickFirst] using h
      have hk := ((pickFirst_spec its (k + 1)).1 i r h').1
      have := ih (k + 1) i r h'
      have e : i - k = (i - (k + 1)) + 1 := by omega
      rw [e]; simpa using this
    | cons a v =>
      simp only [pickFirst, Option.some.injEq, Prod.mk.injEq] at h
      obtain ⟨rfl, rfl⟩ := h
      simp

theorem allOuts_first : ∀ (n : Nat) (its : List (List R)), its.flatten.length = n →
    allOuts (fun its => pickFirst its 0) its = its.flatten := by
  intro n
  induction n with
  | zero =>
    intro its h
    have : its.flatten = [] := List.length_eq_zero_iff.1 h
    simp [allOuts, this, outs]
  | succ n ih =>
    intro its h
    cases hp : pickFirst its 0 with
    | none => have := (pickFirst_spec its 0).2 hp; rw [this] at h; simp at h
    | some b =>
      obtain ⟨i, r⟩ := b
      have hm := pickFirst_modify its 0 i r hp
      rw [allOuts_some pickFirst_picks (i := i) (r := r) hp, ih _ (by rw [hm] at h; simpa using h)]
      simpa using hm.symm

/-! ### The least row -/

theorem pickLeast_spec {cmp : R → R → Int} (L : CmpLaws cmp) (hn : Normal cmp) (its : List (List R)) :
    (∀ i r, pickLeast cmp its = some (i, r) → (∃ t, its[i]? = some (r :: t)) ∧ ∀ x, some x ∈ its.map List.head? → cmp r x ≤ 0) ∧
    (pickLeast cmp its = none → its.flatten = []) := by
  have hp := Verif.Index.Merge.pickMin_spec L hn (its.map List.head?) [] none (by simp)
  simp only [List.nil_append, List.length_nil] at hp
  unfold pickLeast
  refine ⟨?_, ?_⟩
  · intro i r h
    rw [h] at hp
    obtain ⟨h1, h2⟩ := hp
    refine ⟨?_, h2⟩
    rw [List.getElem?_map] at h1
    cases hi : its[i]? with
    | none => rw [hi] at h1; simp at h1
    | some v =>
      rw [hi] at h1
      cases v with
      | nil => simp at h1
      | cons a t => simp at h1; subst h1; exact ⟨t, rfl⟩
  · intro h
    rw [h] at hp
    simp only at hp
    rw [List.flatten_eq_nil_iff]
    intro v hv
    have := hp _ (List.mem_map.2 ⟨v, hv, rfl⟩)
    simpa using this

theorem pickLeast_picks {cmp : R → R → Int} (L : CmpLaws cmp) (hn : Normal cmp) : Picks (pickLeast cmp) :=
  ⟨fun its i r h => ((pickLeast_spec L hn its).1 i r h).1, fun its h => (pickLeast_spec L hn its).2 h⟩

/-- in order, equal rows allowed -/
def Ascending (cmp : R → R → Int) (l : List R) : Prop := l.Pairwise fun a b => cmp a b ≤ 0

theorem heads_below {cmp : R → R → Int} (L : CmpLaws cmp) {its : List (List R)} {m : R}
    (hs : ∀ v ∈ its, Ascending cmp v) (hh : ∀ r, some r ∈ its.map List.head? → cmp m r ≤ 0) :
    ∀ x ∈ its.flatten, cmp m x ≤ 0 := by
  intro x hx
  obtain ⟨v, hv, hxv⟩ := List.mem_flatten.1 hx
  cases v with
  | nil => simp at hxv
  | cons a v =>
    have h1 := hh a (List.mem_map.2 ⟨a :: v, hv, rfl⟩)
    rcases List.mem_cons.1 hxv with rfl | h
    · exact h1
    · exact L.trans _ _ _ h1 ((List.pairwise_cons.1 (hs _ hv)).1 x h)

theorem ascending_modify {cmp : R → R → Int} {its : List (List R)} (i : Nat)
    (hs : ∀ v ∈ its, Ascending cmp v) : ∀ v ∈ its.modify i List.tail, Ascending cmp v := by
  intro v hv
  obtain ⟨j, hj⟩ := List.mem_iff_getElem?.1 hv
  rw [List.getElem?_modify] at hj
  cases hi : its[j]? with
  | none => rw [hi] at hj; simp at hj
  | some w =>
    rw [hi] at hj
    have hw := hs w (List.mem_of_getElem? hi)
    simp at hj
    split at hj
    · subst hj; exact hw.tail
    · subst hj; exact hw

theorem allOuts_ascending {cmp : R → R → Int} (L : CmpLaws cmp) (hn : Normal cmp) : ∀ (n : Nat) (its : List (List R)),
    its.flatten.length = n → (∀ v ∈ its, Ascending cmp v) → Ascending cmp (allOuts (pickLeast cmp) its) := by
  intro n
  induction n with
  | zero =>
    intro its h _
    have : its.flatten = [] := List.length_eq_zero_iff.1 h
    simp [allOuts, this, outs, Ascending]
  | succ n ih =>
    intro its h hs
    cases hp : pickLeast cmp its with
    | none => rw [allOuts_none (pickLeast_picks L hn) hp]; exact .nil
    | some b =>
      obtain ⟨i, r⟩ := b
      obtain ⟨⟨t, ht⟩, hle⟩ := (pickLeast_spec L hn its).1 i r hp
      have hl := modify_tail_length ht
      rw [allOuts_some (pickLeast_picks L hn) hp]
      refine List.pairwise_cons.2 ⟨?_, ih _ (by omega) (ascending_modify i hs)⟩
      intro x hx
      have := (outs_perm (pickLeast_picks L hn) _ _ (Nat.le_refl _)).mem_iff.1 hx
      exact heads_below L hs hle x ((modify_tail_flatten ht).mem_iff.2 (List.mem_cons_of_mem _ this))

/-! ### Lists cut by a pushed limit -/

/-- every list of `cut` is a beginning of the list of `full`, of at least `n` rows or all of them -/
def CutAt (n : Nat) (full cut : List (List R)) : Prop :=
  full.length = cut.length ∧ ∀ (i : Nat) (f : List R), full[i]? = some f → ∃ k, n ≤ k ∧ cut[i]? = some (f.take k)

theorem CutAt.heads {n : Nat} {full cut : List (List R)} (h : CutAt (n + 1) full cut) :
    cut.map List.head? = full.map List.head? := by
  apply List.ext_getElem?
  intro i
  simp only [List.getElem?_map]
  cases hf : full[i]? with
  | none =>
    have : cut[i]? = none := by
      rw [List.getElem?_eq_none_iff] at hf ⊢; have := h.1; omega
    rw [this]
  | some f =>
    obtain ⟨k, hk, hc⟩ := h.2 i f hf
    rw [hc]
    cases k with
    | zero => omega
    | succ k => simp [List.head?_take]

theorem CutAt.tail {n : Nat} {full cut : List (List R)} (h : CutAt (n + 1) full cut) (j : Nat) :
    CutAt n (full.modify j List.tail) (cut.modify j List.tail) := by
  refine ⟨by simpa using h.1, ?_⟩
  intro i f hf
  rw [List.getElem?_modify] at hf ⊢
  cases hi : full[i]? with
  | none => rw [hi] at hf; simp at hf
  | some g =>
    rw [hi] at hf
    obtain ⟨k, hk, hc⟩ := h.2 i g hi
    rw [hc]
    simp at hf
    by_cases hj : j = i
    · subst hj
      simp at hf
      subst hf
      refine ⟨k - 1, by omega, ?_⟩
      cases k with
      | zero => omega
      | succ k => cases g <;> simp
    · simp [hj] at hf
      subst hf
      exact ⟨k, by omega, by simp [hj]⟩

theorem cut_outs {pick : List (List R) → Option (Nat × R)}
    (hpick : ∀ a b : List (List R), a.map List.head? = b.map List.head? → pick a = pick b) :
    ∀ (n : Nat) (full cut : List (List R)), CutAt n full cut → outs pick n cut = outs pick n full := by
  intro n
  induction n with
  | zero => intro full cut _; simp [outs]
  | succ n ih =>
    intro full cut h
    unfold outs
    rw [hpick cut full h.heads]
    cases hp : pick full with
    | none => rfl
    | some b => simp only; rw [ih _ _ (h.tail b.1)]

theorem outs_take {pick : List (List R) → Option (Nat × R)} : ∀ (n m : Nat) (its : List (List R)),
    n ≤ m → outs pick n its = (outs pick m its).take n := by
  intro n
  induction n with
  | zero => intro m its _; simp [outs]
  | succ n ih =>
    intro m its h
    cases m with
    | zero => omega
    | succ m =>
      unfold outs
      cases hp : pick its with
      | none => simp
      | some b => simp only [List.take_succ_cons]; rw [ih m _ (by omega)]

theorem cut_allOuts {pick : List (List R) → Option (Nat × R)} (P : Picks pick)
    (hpick : ∀ a b : List (List R), a.map List.head? = b.map List.head? → pick a = pick b)
    (n : Nat) (full cut : List (List R)) (h : CutAt n full cut) :
    (allOuts pick cut).take n = (allOuts pick full).take n := by
  have h1 := cut_outs hpick n full cut h
  have e : ∀ its : List (List R), outs pick n its = (allOuts pick its).take n := by
    intro its
    unfold allOuts
    rw [outs_more P its.flatten.length (n + its.flatten.length) its (Nat.le_refl _) (by omega)]
    exact outs_take n _ its (by omega)
  rw [← e, ← e, h1]

theorem pickFirst_heads : ∀ (a b : List (List R)) (k : Nat), a.map List.head? = b.map List.head? →
    pickFirst a k = pickFirst b k := by
  intro a
  induction a with
  | nil => intro b k h; cases b <;> simp_all
  | cons v a ih =>
    intro b k h
    cases b with
    | nil => simp at h
    | cons w b =>
      simp only [List.map_cons, List.cons.injEq] at h
      obtain ⟨h1, h2⟩ := h
      cases v with
      | nil => cases w with
        | nil => simpa [pickFirst] using ih b (k + 1) h2
        | cons y w => simp at h1
      | cons x v => cases w with
        | nil => simp at h1
        | cons y w => simp at h1; simp [pickFirst, h1]

/-! ### Distinct -/

def dedupAux (cmp : R → R → Int) (first : R) : List R → List R
  | [] => []
  | b :: l => if cmp first b = 0 then dedupAux cmp first l else b :: dedupAux cmp b l

/-- the first of every run of equal rows -/
def dedup (cmp : R → R → Int) : List R → List R
  | [] => []
  | a :: l => a :: dedupAux cmp a l

theorem dedupAux_drop (cmp : R → R → Int) (first : R) (l : List R) :
    dedupAux cmp first l = dedup cmp (l.dropWhile fun x => decide (cmp first x = 0)) := by
  induction l with
  | nil => rfl
  | cons b l ih =>
    simp only [dedupAux]
    by_cases h : cmp first b = 0
    · rw [if_pos h, ih]; simp [List.dropWhile_cons, h]
    · rw [if_neg h]; simp [List.dropWhile_cons, h, dedup]

theorem skipEqual_spec {cmp : R → R → Int} (L : CmpLaws cmp) (hn : Normal cmp) (first : R) :
    ∀ (fuel : Nat) (p : UPos R), p.advance.flatten.length < fuel →
    ∃ its', skipEqual cmp first fuel p = ⟨its', (pickLeast cmp its').map (·.1)⟩ ∧
      allOuts (pickLeast cmp) its' = (allOuts (pickLeast cmp) p.advance).dropWhile (fun x => decide (cmp first x = 0)) := by
  intro fuel
  induction fuel with
  | zero => intro p h; omega
  | succ fuel ih =>
    intro p h
    have P := pickLeast_picks L hn
    unfold skipEqual
    cases hp : pickLeast cmp p.advance with
    | none =>
      have e : stepWith (pickLeast cmp) p = (⟨p.advance, none⟩, none) := by simp [stepWith, hp]
      rw [e]
      refine ⟨p.advance, by simp [hp], ?_⟩
      rw [allOuts_none P hp]; rfl
    | some b =>
      obtain ⟨i, r⟩ := b
      have e : stepWith (pickLeast cmp) p = (⟨p.advance, some i⟩, some r) := by simp [stepWith, hp]
      rw [e]
      obtain ⟨t, ht⟩ := P.some _ i r hp
      have hl := modify_tail_length ht
      simp only
      by_cases hc : cmp first r = 0
      · rw [if_pos hc]
        obtain ⟨its', h1, h2⟩ := ih ⟨p.advance, some i⟩ (by simp only [UPos.advance] at hl h ⊢; omega)
        refine ⟨its', h1, ?_⟩
        rw [h2, allOuts_some P hp]
        simp [List.dropWhile_cons, hc, UPos.advance]
      · rw [if_neg hc]
        refine ⟨p.advance, by simp [hp], ?_⟩
        rw [allOuts_some P hp]
        simp [List.dropWhile_cons, hc]

theorem stepDistinct_streams {cmp : R → R → Int} (L : CmpLaws cmp) (hn : Normal cmp) : ∀ (n : Nat) (p : UPos R),
    (allOuts (pickLeast cmp) p.its).length ≤ n → (p.cur = none ∨ p.cur = (pickLeast cmp p.its).map (·.1)) →
    Streams (stepDistinct cmp) p (dedup cmp (allOuts (pickLeast cmp) p.its)) := by
  intro n
  have P := pickLeast_picks L hn
  induction n with
  | zero =>
    intro p h hc
    have h0 : allOuts (pickLeast cmp) p.its = [] := List.length_eq_zero_iff.1 (by omega)
    have hp : pickLeast cmp p.its = none := by
      cases hp : pickLeast cmp p.its with
      | none => rfl
      | some b => rw [allOuts_some P (i := b.1) (r := b.2) hp] at h0; simp at h0
    have hcur : p.cur = none := by rcases hc with h | h; exact h; rw [h, hp]; rfl
    rw [h0]
    refine .done _ ?_
    simp [stepDistinct, distinctFirst, hcur, stepWith, UPos.advance, hp]
  | succ n ih =>
    intro p h hc
    cases hp : pickLeast cmp p.its with
    | none =>
      have hcur : p.cur = none := by rcases hc with h | h; exact h; rw [h, hp]; rfl
      rw [allOuts_none P hp]
      refine .done _ ?_
      simp [stepDistinct, distinctFirst, hcur, stepWith, UPos.advance, hp]
    | some b =>
      obtain ⟨i, r⟩ := b
      obtain ⟨t, ht⟩ := P.some _ i r hp
      have hl := modify_tail_length ht
      have hf : distinctFirst cmp p = (⟨p.its, some i⟩, some r) := by
        rcases hc with hc | hc
        · simp [distinctFirst, hc, stepWith, UPos.advance, hp]
        · have hc' : p.cur = some i := by rw [hc, hp]; rfl
          have : p = ⟨p.its, some i⟩ := by cases p; simp_all
          simp [distinctFirst, hc', ht]
          exact this
      obtain ⟨its', h1, h2⟩ := skipEqual_spec L hn r (p.its.flatten.length + 1) ⟨p.its, some i⟩
        (by simp only [UPos.advance]; omega)
      have hs : stepDistinct cmp p = (⟨its', (pickLeast cmp its').map (·.1)⟩, some r) := by
        simp only [stepDistinct, hf, h1]
      have ho := allOuts_some P hp
      rw [ho, dedup, dedupAux_drop]
      simp only [UPos.advance] at h2
      rw [← h2]
      refine .more _ r _ (by rw [hs]) ?_
      rw [hs]
      refine ih ⟨its', _⟩ ?_ (.inr rfl)
      simp only
      rw [h2]
      have := (List.dropWhile_suffix (fun x => decide (cmp r x = 0)) (l := allOuts (pickLeast cmp) (p.its.modify i List.tail))).length_le
      rw [ho] at h
      simp only [List.length_cons] at h
      omega

theorem dedupAux_spec {cmp : R → R → Int} (L : CmpLaws cmp) : ∀ (l : List R) (a : R), Ascending cmp (a :: l) →
    (dedupAux cmp a l).Pairwise (fun x y => cmp x y < 0) ∧ (∀ x ∈ dedupAux cmp a l, x ∈ l ∧ cmp a x < 0) ∧
    ∀ x ∈ l, cmp a x = 0 ∨ ∃ y ∈ dedupAux cmp a l, cmp y x = 0 := by
  intro l
  induction l with
  | nil => intro a _; simp [dedupAux]
  | cons b l ih =>
    intro a h
    have hab : cmp a b ≤ 0 := (List.pairwise_cons.1 h).1 b (by simp)
    have hbl : Ascending cmp (b :: l) := (List.pairwise_cons.1 h).2
    simp only [dedupAux]
    by_cases hc : cmp a b = 0
    · rw [if_pos hc]
      obtain ⟨h1, h2, h3⟩ := ih a (by
        refine List.pairwise_cons.2 ⟨?_, (List.pairwise_cons.1 hbl).2⟩
        intro x hx; exact (List.pairwise_cons.1 h).1 x (by simp [hx]))
      refine ⟨h1, fun x hx => ⟨by simp [(h2 x hx).1], (h2 x hx).2⟩, ?_⟩
      intro x hx
      rcases List.mem_cons.1 hx with rfl | hx
      · exact .inl hc
      · exact h3 x hx
    · rw [if_neg hc]
      have hlt : cmp a b < 0 := by omega
      obtain ⟨h1, h2, h3⟩ := ih b hbl
      refine ⟨List.pairwise_cons.2 ⟨fun x hx => (h2 x hx).2, h1⟩, ?_, ?_⟩
      · intro x hx
        rcases List.mem_cons.1 hx with rfl | hx
        · exact ⟨by simp, hlt⟩
        · refine ⟨by simp [(h2 x hx).1], ?_⟩
          have := (h2 x hx).2
          exact L.lt_le hlt (by omega)
      · intro x hx
        rcases List.mem_cons.1 hx with rfl | hx
        · exact .inr ⟨x, by simp, L.refl x⟩
        · rcases h3 x hx with h | ⟨y, hy, h⟩
          · exact .inr ⟨b, by simp, h⟩
          · exact .inr ⟨y, by simp [hy], h⟩

theorem dedup_spec {cmp : R → R → Int} (L : CmpLaws cmp) (l : List R) (h : Ascending cmp l) :
    (dedup cmp l).Pairwise (fun x y => cmp x y < 0) ∧ (∀ x ∈ dedup cmp l, x ∈ l) ∧
    ∀ x ∈ l, ∃ y ∈ dedup cmp l, cmp y x = 0 := by
  cases l with
  | nil => simp [dedup]
  | cons a l =>
    obtain ⟨h1, h2, h3⟩ := dedupAux_spec L l a h
    simp only [dedup]
    refine ⟨List.pairwise_cons.2 ⟨fun x hx => (h2 x hx).2, h1⟩, ?_, ?_⟩
    · intro x hx
      rcases List.mem_cons.1 hx with rfl | hx
      · simp
      · simp [(h2 x hx).1]
    · intro x hx
      rcases List.mem_cons.1 hx with rfl | hx
      · exact ⟨x, by simp, L.refl x⟩
      · rcases h3 x hx with h | ⟨y, hy, h⟩
        · exact ⟨a, by simp, h⟩
        · exact ⟨y, by simp [hy], h⟩

theorem dedup_self {cmp : R → R → Int} : ∀ (l : List R), l.Pairwise (fun a b => cmp a b ≠ 0) → dedup cmp l = l := by
  have aux : ∀ (l : List R) (a : R), (a :: l).Pairwise (fun a b => cmp a b ≠ 0) → dedupAux cmp a l = l := by
    intro l
    induction l with
    | nil => intro a _; rfl
    | cons b l ih =>
      intro a h
      have hab := (List.pairwise_cons.1 h).1 b (by simp)
      simp only [dedupAux, if_neg hab]
      rw [ih b (List.pairwise_cons.1 h).2]
  intro l h
  cases l with
  | nil => rfl
  | cons a l => simp only [dedup]; rw [aux l a h]

/-! ## The counters of a scan -/

theorem scanRows_limit : ∀ (l : List R) (n : Nat), scanRows (some (n : Int)) none l = l.take n := by
  intro l
  induction l with
  | nil => intro n; simp [scanRows]
  | cons r l ih =>
    intro n
    cases n with
    | zero => simp [scanRows]
    | succ n =>
      simp only [scanRows, List.take_succ_cons]
      rw [if_neg (by omega)]
      have e : ((n + 1 : Nat) : Int) - 1 = n := by omega
      rw [e, ih n]

theorem scanRows_none : ∀ (l : List R), scanRows none none l = l := by
  intro l
  induction l with
  | nil => simp [scanRows]
  | cons r l ih => simp [scanRows, ih]

theorem scanRows_after (limit : Option Nat) : ∀ (l : List R) (k : Int), k ≤ 0 →
    scanRows (limit.map fun (n : Nat) => (n : Int)) (some k) l = page limit 0 l := by
  intro l
  induction l generalizing limit with
  | nil => intro k _; cases limit <;> simp [scanRows, page]
  | cons r l ih =>
    intro k hk
    cases limit with
    | none =>
      have := ih none (k - 1) (by omega)
      simp only [Option.map_none, page, List.drop_zero] at this ⊢
      simp only [scanRows]
      rw [if_neg (by omega), this]
    | some n =>
      simp only [Option.map_some, scanRows]
      rw [if_neg (by omega)]
      cases n with
      | zero => simp [page]
      | succ n =>
        have := ih (some n) (k - 1) (by omega)
        simp only [Option.map_some, page, List.drop_zero] at this
        have e : ((n + 1 : Nat) : Int) - 1 = n := by omega
        rw [if_neg (by omega), e, this]
        simp [page]

theorem scanRows_page (limit : Option Nat) : ∀ (l : List R) (k : Nat),
    scanRows (limit.map fun (n : Nat) => (n : Int)) (some (k : Int)) l = page limit k l := by
  intro l
  induction l with
  | nil => intro k; cases limit <;> simp [scanRows, page]
  | cons r l ih =>
    intro k
    cases k with
    | zero => exact scanRows_after limit (r :: l) 0 (by omega)
    | succ k =>
      have e : ((k + 1 : Nat) : Int) - 1 = k := by omega
      have : page limit (k + 1) (r :: l) = page limit k l := by cases limit <;> simp [page]
      rw [this, ← ih k]
      cases limit <;> (simp only [Option.map_none, Option.map_some, scanRows]; rw [if_pos (by omega), e])

end Verif.Query
