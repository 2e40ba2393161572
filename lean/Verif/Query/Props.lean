import Verif.Query.Union
import Verif.Query.Value
/-!
# SELECT over partitions: ORDER BY, DISTINCT, LIMIT and OFFSET (C59, C60, C61)
-/
set_option linter.unusedSimpArgs false
set_option linter.unusedVariables false
namespace Verif.Query
open Verif.Index (CmpLaws Normal)
open Verif.Index.Merge (Visits)
variable {R : Type}

/-! ## Specification -/

/-- qsort_r: some rearrangement of the rows in ascending order -/
def Sorts (cmp : R → R → Int) (sort : List R → List R) : Prop := ∀ l, (sort l).Perm l ∧ Ascending cmp (sort l)

/-- rows compared by their sort keys -/
def byKeys (order : List Bool) (key : R → List Val) : R → R → Int := fun a b => keysCompare order (key a) (key b)

theorem byKeys_laws {order : List Bool} {key : R → List Val} (h : ∀ r, RowOrdered (key r)) : CmpLaws (byKeys order key) :=
  ⟨fun a b => (keysCompare_laws order).anti _ _ (h a) (h b),
   fun a b d => (keysCompare_laws order).trans _ _ _ (h a) (h b) (h d)⟩

theorem byKeys_normal {order : List Bool} {key : R → List Val} (h : ∀ r, RowPlain (key r)) : Normal (byKeys order key) := by
  intro a b hp
  have := keysCompare_small order (key a) (key b) (h a) (h b)
  unfold byKeys at *; omega

/-! ## Lemmas -/

theorem page_cut (lim : Option Nat) (off : Nat) (a b : List R)
    (h : ∀ n, lim = some n → a.take (n + off) = b.take (n + off)) (h' : lim = none → a = b) :
    page lim off a = page lim off b := by
  cases lim with
  | none => rw [h' rfl]
  | some n =>
    have := h n rfl
    simp only [page]
    have e : ∀ l : List R, (l.drop off).take n = (l.take (n + off)).drop off := by
      intro l; rw [List.drop_take]; simp
    rw [e, e, this]

theorem backend_scan (q : Sel) (sort : List R → List R) (rows : List R) (h : (q.orderBy && !q.indexOrder) = false) :
    q.backend sort rows = match q.limit with
      | none => rows
      | some n => rows.take (n + q.offset.getD 0) := by
  unfold Sel.backend
  rw [h]
  simp only [Bool.false_eq_true, if_false]
  cases hl : q.limit with
  | none => cases ho : q.offset <;> simp [Sel.pushed, hl, ho, scanRows_none]
  | some n =>
    cases ho : q.offset with
    | none => simp [Sel.pushed, hl, ho, scanRows_limit]
    | some k =>
      simp only [Sel.pushed, hl, ho, Option.map_some, Option.getD_some]
      exact scanRows_limit rows (n + k)

theorem cutAt_map (n : Nat) (parts : List (List R)) : CutAt n parts (parts.map (List.take n)) := by
  refine ⟨by simp, ?_⟩
  intro i f hf
  exact ⟨n, Nat.le_refl _, by simp [hf]⟩

theorem flatten_length_map {f : List R → List R} (hf : ∀ l, (f l).length ≤ l.length) (parts : List (List R)) :
    (parts.map f).flatten.length ≤ parts.flatten.length := by
  induction parts with
  | nil => simp
  | cons p parts ih =>
    have := hf p
    simp only [List.map_cons, List.flatten_cons, List.length_append]; omega

theorem flatten_perm_map {f : List R → List R} (hf : ∀ l, (f l).Perm l) (parts : List (List R)) :
    (parts.map f).flatten.Perm parts.flatten := by
  induction parts with
  | nil => simp
  | cons p parts ih => simp only [List.map_cons, List.flatten_cons]; exact (hf p).append ih

theorem returns_iff {cmp : R → R → Int} {ty : UType} {limit : Option Nat} {offset : Nat} {its : List (List R)}
    {l : List R} (h : Returns cmp ty limit offset its l) (out : List R) : Returns cmp ty limit offset its out ↔ out = l :=
  ⟨fun h' => h'.unique h, fun e => e ▸ h⟩

theorem returns_of_streams {cmp : R → R → Int} {ty : UType} {its : List (List R)} {l : List R}
    (h : Streams (stepOf cmp ty) ⟨its, none⟩ l) (hsub : l.length ≤ its.flatten.length)
    (hlen : its.flatten.length + 1 < 2 ^ 63 - 1) (limit : Option Nat) (offset : Nat) :
    Returns cmp ty limit offset its (page limit offset l) := by
  refine open_visits ?_ h limit offset (by omega)
  intro e; subst e; simp at hsub; exact hsub

theorem ordered_streams {cmp : R → R → Int} (L : CmpLaws cmp) (hn : Normal cmp) (its : List (List R)) :
    Streams (stepOf cmp .ordered) ⟨its, none⟩ (allOuts (pickLeast cmp) its) :=
  stepWith_streams (pickLeast_picks L hn) _ ⟨its, none⟩ rfl

theorem distinct_streams {cmp : R → R → Int} (L : CmpLaws cmp) (hn : Normal cmp) (its : List (List R)) :
    Streams (stepOf cmp .distinct) ⟨its, none⟩ (dedup cmp (allOuts (pickLeast cmp) its)) :=
  stepDistinct_streams L hn _ ⟨its, none⟩ (Nat.le_refl _) (.inl rfl)

theorem all_streams (cmp : R → R → Int) (its : List (List R)) :
    Streams (stepOf cmp .all) ⟨its, none⟩ its.flatten := by
  have := stepWith_streams pickFirst_picks _ (⟨its, none⟩ : UPos R) rfl
  rw [show (⟨its, none⟩ : UPos R).advance = its from rfl, allOuts_first _ its rfl] at this
  exact this

theorem allOuts_length {pick : List (List R) → Option (Nat × R)} (P : Picks pick) (its : List (List R)) :
    (allOuts pick its).length = its.flatten.length := (outs_perm P _ its (Nat.le_refl _)).length_eq

theorem dedup_length (cmp : R → R → Int) (l : List R) : (dedup cmp l).length ≤ l.length := by
  have aux : ∀ (l : List R) (a : R), (dedupAux cmp a l).length ≤ l.length := by
    intro l
    induction l with
    | nil => intro a; simp [dedupAux]
    | cons b l ih =>
      intro a
      simp only [dedupAux]
      split
      · have := ih a; simp; omega
      · have := ih b; simp; omega
  cases l with
  | nil => simp [dedup]
  | cons a l => simp [dedup]; exact aux l a

/-! ## C59 -/

/-- ORDER BY for any comparison with the results -1, 0 and 1 -/
theorem order_generic {cmp : R → R → Int} (L : CmpLaws cmp) (hn : Normal cmp) (sort : List R → List R)
    (hsort : Sorts cmp sort) (q : Sel) (ho : q.orderBy = true) (hd : q.distinct = false) (parts : List (List R))
    (hidx : q.indexOrder = true → ∀ v ∈ parts, Ascending cmp v) (hlen : parts.flatten.length + 1 < 2 ^ 63 - 1) :
    ∃ m, m.Perm parts.flatten ∧ Ascending cmp m ∧
      ∀ out, q.Runs cmp sort parts out ↔ out = page q.limit (q.offset.getD 0) m := by
  have hu : q.union = .ordered := by simp [Sel.union, ho, hd]
  have P := pickLeast_picks L hn
  unfold Sel.Runs
  rw [hu]
  cases hi : q.indexOrder with
  | false =>
    have hb : parts.map (q.backend sort) = parts.map sort := by
      apply List.map_congr_left; intro v _; simp [Sel.backend, ho, hi]
    rw [hb]
    have hp := flatten_perm_map (fun l => (hsort l).1) parts
    refine ⟨allOuts (pickLeast cmp) (parts.map sort), (outs_perm P _ _ (Nat.le_refl _)).trans hp,
      allOuts_ascending L hn _ _ rfl (by
        intro v hv; obtain ⟨w, _, rfl⟩ := List.mem_map.1 hv; exact (hsort w).2), ?_⟩
    exact returns_iff (returns_of_streams (ordered_streams L hn _) (Nat.le_of_eq (allOuts_length P _))
      (by rw [hp.length_eq]; exact hlen) _ _)
  | true =>
    have hbk : (q.orderBy && !q.indexOrder) = false := by simp [hi]
    have hs := hidx hi
    refine ⟨allOuts (pickLeast cmp) parts, outs_perm P _ _ (Nat.le_refl _), allOuts_ascending L hn _ _ rfl hs, ?_⟩
    have hr : Returns cmp .ordered q.limit (q.offset.getD 0) (parts.map (q.backend sort))
        (page q.limit (q.offset.getD 0) (allOuts (pickLeast cmp) (parts.map (q.backend sort)))) := by
      refine returns_of_streams (ordered_streams L hn _) (Nat.le_of_eq (allOuts_length P _)) ?_ _ _
      refine Nat.lt_of_le_of_lt (Nat.succ_le_succ (flatten_length_map ?_ parts)) hlen
      intro l; rw [backend_scan q sort l hbk]; split
      · exact Nat.le_refl _
      · simp [List.length_take]; omega
    have e : page q.limit (q.offset.getD 0) (allOuts (pickLeast cmp) (parts.map (q.backend sort))) =
        page q.limit (q.offset.getD 0) (allOuts (pickLeast cmp) parts) := by
      apply page_cut
      · intro n hl
        have hb : parts.map (q.backend sort) = parts.map (List.take (n + q.offset.getD 0)) := by
          apply List.map_congr_left; intro v _; rw [backend_scan q sort v hbk, hl]
        rw [hb]
        exact cut_allOuts P (fun a b h => by simp [pickLeast, h]) _ _ _ (cutAt_map _ _)
      · intro hl
        have hb : parts.map (q.backend sort) = parts := by
          have : parts.map (q.backend sort) = parts.map id := by
            apply List.map_congr_left; intro v _; rw [backend_scan q sort v hbk, hl]; rfl
          simpa using this
        rw [hb]
    rw [e] at hr
    exact returns_iff hr

/-- **C59** (every key type but text; JSON and vector keys are not modelled): `SELECT … ORDER BY keys LIMIT n OFFSET k`
over any number of partitions returns rows `k+1 … k+n` of all matching rows arranged in key order. `parts` are the
matching rows of the partitions; with `indexOrder` the partitions are scanned in index order and `LIMIT + OFFSET` is
pushed down to them. The result is unique: whatever the iteration returns is this list. -/
theorem C59_order_partial (order : List Bool) (key : R → List Val) (hk : ∀ r, RowPlain (key r))
    (sort : List R → List R) (hsort : Sorts (byKeys order key) sort) (q : Sel) (ho : q.orderBy = true)
    (hd : q.distinct = false) (parts : List (List R))
    (hidx : q.indexOrder = true → ∀ v ∈ parts, Ascending (byKeys order key) v)
    (hlen : parts.flatten.length + 1 < 2 ^ 63 - 1) :
    ∃ m, m.Perm parts.flatten ∧ Ascending (byKeys order key) m ∧
      ∀ out, q.Runs (byKeys order key) sort parts out ↔ out = page q.limit (q.offset.getD 0) m :=
  order_generic (byKeys_laws fun r => (hk r).ordered) (byKeys_normal hk) sort hsort q ho hd parts hidx hlen

/-- **C59** for a SELECT that is not pushed down (a subquery), any ordered keys, also text: the sorted rows are in one set
and no comparison is made by the union -/
theorem C59_main_partial (order : List Bool) (key : R → List Val) (sort : List R → List R)
    (hsort : Sorts (byKeys order key) sort) (q : Sel) (ho : q.orderBy = true) (hd : q.distinct = false) (rows : List R)
    (hidx : q.indexOrder = true → Ascending (byKeys order key) rows) (hlen : rows.length + 1 < 2 ^ 63 - 1) :
    ∃ m, m.Perm rows ∧ Ascending (byKeys order key) m ∧
      ∀ out, q.RunsMain (byKeys order key) sort rows out ↔ out = page q.limit (q.offset.getD 0) m := by
  cases hi : q.indexOrder with
  | true =>
    refine ⟨rows, .refl _, hidx hi, ?_⟩
    intro out
    simp only [Sel.RunsMain, ho, hi, Bool.not_true, Bool.and_false, Bool.false_eq_true, if_false]
    have : scanRows (q.limit.map fun (n : Nat) => (n : Int)) (q.offset.map fun (n : Nat) => (n : Int)) rows =
        page q.limit (q.offset.getD 0) rows := by
      cases hof : q.offset with
      | some k => exact scanRows_page q.limit rows k
      | none =>
        cases hl : q.limit with
        | none => simp [scanRows_none, page]
        | some n => simpa [page] using scanRows_limit rows n
    rw [this]
  | false =>
    refine ⟨sort rows, (hsort rows).1, (hsort rows).2, ?_⟩
    intro out
    simp only [Sel.RunsMain, ho, hi, hd, Bool.not_false, Bool.and_true, Bool.true_and, Bool.false_eq_true, if_true, if_false]
    split
    · rename_i h
      simp only [Bool.and_eq_true, Option.isNone_iff_eq_none] at h
      rw [h.1, h.2]; simp [page]
    · have P1 : ∀ (l : List R), pickLeast (byKeys order key) [l] = l.head?.map fun r => (0, r) := by
        intro l; cases l <;> rfl
      have hst : ∀ (n : Nat) (l : List R) (p : UPos R), l.length = n → p.advance = [l] →
          Streams (stepOf (byKeys order key) .ordered) p l := by
        intro n
        induction n with
        | zero =>
          intro l p hl hp
          have : l = [] := List.length_eq_zero_iff.1 hl
          subst this
          exact .done _ (by simp only [stepOf, stepWith, hp]; rfl)
        | succ n ih =>
          intro l p hl hp
          cases l with
          | nil => simp at hl
          | cons a l =>
            refine .more _ a l (by simp only [stepOf, stepWith, hp]; rfl) ?_
            refine ih l _ (by simpa using hl) ?_
            simp only [stepOf, stepWith, hp]; rfl
      have hr := returns_of_streams (hst _ (sort rows) ⟨[sort rows], none⟩ rfl rfl) (by simp)
        (by simp [(hsort rows).1.length_eq]; omega) q.limit (q.offset.getD 0)
      exact returns_iff hr out

/-- three partitions, `ORDER BY k DESC LIMIT 2 OFFSET 1` over the integers 3, 9 | 4 | 7, 1: the union returns 7 and 4 -/
def sampleKey (r : Int) : List Val := [.int r]
def sampleSort (l : List Int) : List Int := l.mergeSort fun a b => b ≤ a

/-- the rows an iterator shows, computed -/
def showAll (step : UPos R → UPos R × Option R) : Nat → UIt R → List R
  | 0, _ => []
  | n + 1, u => match u.at_ with
    | none => []
    | some r => r :: showAll step n (UIt.next step u)

theorem showAll_visits (step : UPos R → UPos R × Option R) : ∀ (n : Nat) (u : UIt R) (l : List R), showAll step n u = l →
    l.length < n → Visits UIt.at_ (UIt.next step) u l := by
  intro n
  induction n with
  | zero => intro u l h hl; omega
  | succ n ih =>
    intro u l h hl
    unfold showAll at h
    cases ha : u.at_ with
    | none => rw [ha] at h; simp at h; subst h; exact .done _ ha
    | some r =>
      rw [ha] at h
      simp only at h
      subst h
      exact .more _ r _ ha (ih _ _ rfl (by simpa using hl))

example : (⟨true, false, false, some 2, some 1⟩ : Sel).Runs (byKeys [false] sampleKey) (fun l => l) [[9, 3], [4], [7, 1]]
    [7, 4] := by
  refine showAll_visits _ 5 _ _ ?_ (by simp)
  decide +kernel
example : (∀ r, RowPlain (sampleKey r)) := by intro r v hv; simp [sampleKey] at hv; subst hv; trivial
example : Ascending (byKeys [false] sampleKey) [9, 7, 4, 3, 1] := by unfold Ascending; decide
/-- the same query with the index in the right order: each partition returns at most three rows -/
example : (⟨true, true, false, some 2, some 1⟩ : Sel).Runs (byKeys [true] sampleKey) (fun l => l)
    [[1, 5, 6, 8], [2], [3, 4]] [2, 3] := by
  refine showAll_visits _ 5 _ _ ?_ (by simp)
  decide +kernel

/-- **C59 fails for text keys over two partitions**: the first has "c", the second "a"; the comparison of the union
returns the difference of the bytes (2), only 1 moves the minimum, so "c" comes first. -/
theorem C59_text_false : ∃ (parts : List (List (List Nat))) (sort : List (List Nat) → List (List Nat)) (out : List (List Nat)),
    (∀ p ∈ parts, sort p = p ∧ Ascending (byKeys [true] fun r => [.str r]) p) ∧
    (⟨true, false, false, none, none⟩ : Sel).Runs (byKeys [true] fun r => [.str r]) sort parts out ∧
    ¬ Ascending (byKeys [true] fun r => [.str r]) out := by
  refine ⟨[[[99]], [[97]]], fun l => l, [[99], [97]], ?_, ?_, ?_⟩
  · intro p hp
    simp only [List.mem_cons, List.not_mem_nil, or_false] at hp
    rcases hp with rfl | rfl <;> exact ⟨rfl, by unfold Ascending; simp⟩
  · refine showAll_visits _ 4 _ _ ?_ (by simp)
    decide +kernel
  · unfold Ascending; decide

/-! ## C60 -/

/-- one row for every key that occurs -/
structure OnePerKey (cmp : R → R → Int) (rows m : List R) : Prop where
  order : m.Pairwise fun a b => cmp a b < 0
  from_rows : ∀ r ∈ m, r ∈ rows
  complete : ∀ r ∈ rows, ∃ r' ∈ m, cmp r' r = 0

theorem distinct_generic {cmp : R → R → Int} (L : CmpLaws cmp) (hn : Normal cmp) (sort : List R → List R)
    (hsort : Sorts cmp sort) (q : Sel) (ho : q.orderBy = true) (hd : q.distinct = true) (parts : List (List R))
    (hidx : q.indexOrder = true → (∀ v ∈ parts, Ascending cmp v) ∧ parts.flatten.Pairwise fun a b => cmp a b ≠ 0)
    (hlen : parts.flatten.length + 1 < 2 ^ 63 - 1) :
    ∃ m, OnePerKey cmp parts.flatten m ∧ ∀ out, q.Runs cmp sort parts out ↔ out = page q.limit (q.offset.getD 0) m := by
  have hu : q.union = .distinct := by simp [Sel.union, ho, hd]
  have P := pickLeast_picks L hn
  unfold Sel.Runs
  rw [hu]
  have key : ∀ (its : List (List R)) (rows : List R), its.flatten.Perm rows → (∀ v ∈ its, Ascending cmp v) →
      OnePerKey cmp rows (dedup cmp (allOuts (pickLeast cmp) its)) := by
    intro its rows hp hs
    have hall := (outs_perm P _ its (Nat.le_refl _)).trans hp
    obtain ⟨h1, h2, h3⟩ := dedup_spec L _ (allOuts_ascending L hn _ its rfl hs)
    exact ⟨h1, fun r hr => hall.mem_iff.1 (h2 r hr), fun r hr => h3 r (hall.mem_iff.2 hr)⟩
  cases hi : q.indexOrder with
  | false =>
    have hb : parts.map (q.backend sort) = parts.map sort := by
      apply List.map_congr_left; intro v _; simp [Sel.backend, ho, hi]
    rw [hb]
    have hp := flatten_perm_map (fun l => (hsort l).1) parts
    refine ⟨_, key (parts.map sort) parts.flatten hp (by
        intro v hv; obtain ⟨w, _, rfl⟩ := List.mem_map.1 hv; exact (hsort w).2), ?_⟩
    refine returns_iff (returns_of_streams (distinct_streams L hn _) ?_ (by rw [hp.length_eq]; exact hlen) _ _)
    exact Nat.le_trans (dedup_length _ _) (Nat.le_of_eq (allOuts_length P _))
  | true =>
    have hbk : (q.orderBy && !q.indexOrder) = false := by simp [hi]
    obtain ⟨hs, hne⟩ := hidx hi
    refine ⟨_, key parts parts.flatten (.refl _) hs, ?_⟩
    have hsymm : ∀ {a b : R}, cmp a b ≠ 0 → cmp b a ≠ 0 := by
      intro a b h; have h1 := L.anti a b; have h2 := L.anti b a; omega
    have hself : dedup cmp (allOuts (pickLeast cmp) parts) = allOuts (pickLeast cmp) parts :=
      dedup_self _ ((outs_perm P _ _ (Nat.le_refl _)).symm.pairwise hne hsymm)
    rw [hself]
    have hr : Returns cmp .distinct q.limit (q.offset.getD 0) (parts.map (q.backend sort))
        (page q.limit (q.offset.getD 0) (dedup cmp (allOuts (pickLeast cmp) (parts.map (q.backend sort))))) := by
      refine returns_of_streams (distinct_streams L hn _)
        (Nat.le_trans (dedup_length _ _) (Nat.le_of_eq (allOuts_length P _))) ?_ _ _
      refine Nat.lt_of_le_of_lt (Nat.succ_le_succ (flatten_length_map ?_ parts)) hlen
      intro l; rw [backend_scan q sort l hbk]; split
      · exact Nat.le_refl _
      · simp [List.length_take]; omega
    have hselfc : dedup cmp (allOuts (pickLeast cmp) (parts.map (q.backend sort))) =
        allOuts (pickLeast cmp) (parts.map (q.backend sort)) := by
      apply dedup_self
      refine (outs_perm P _ _ (Nat.le_refl _)).symm.pairwise ?_ hsymm
      have hsub : (parts.map (q.backend sort)).flatten.Sublist parts.flatten := by
        clear hne hs hr hidx hlen hself
        induction parts with
        | nil => simp
        | cons p parts ih =>
          simp only [List.map_cons, List.flatten_cons]
          refine List.Sublist.append ?_ ih
          rw [backend_scan q sort p hbk]; split
          · exact List.Sublist.refl _
          · exact List.take_sublist _ _
      exact hne.sublist hsub
    rw [hselfc] at hr
    have e : page q.limit (q.offset.getD 0) (allOuts (pickLeast cmp) (parts.map (q.backend sort))) =
        page q.limit (q.offset.getD 0) (allOuts (pickLeast cmp) parts) := by
      apply page_cut
      · intro n hl
        have hb : parts.map (q.backend sort) = parts.map (List.take (n + q.offset.getD 0)) := by
          apply List.map_congr_left; intro v _; rw [backend_scan q sort v hbk, hl]
        rw [hb]
        exact cut_allOuts P (fun a b h => by simp [pickLeast, h]) _ _ _ (cutAt_map _ _)
      · intro hl
        have hb : parts.map (q.backend sort) = parts := by
          have : parts.map (q.backend sort) = parts.map id := by
            apply List.map_congr_left; intro v _; rw [backend_scan q sort v hbk, hl]; rfl
          simpa using this
        rw [hb]
    rw [e] at hr
    exact returns_iff hr

/-- **C60** (every key type but text): `SELECT DISTINCT [ON (keys)] … LIMIT n OFFSET k` over any number of partitions
returns rows `k+1 … k+n` of a list that has exactly one row for every key occurring among the matching rows. If the keys
are those of a tree index, its rows have different keys (all indexes are unique, parse_index.c:84-86). -/
theorem C60_distinct_partial (order : List Bool) (key : R → List Val) (hk : ∀ r, RowPlain (key r))
    (sort : List R → List R) (hsort : Sorts (byKeys order key) sort) (q : Sel) (ho : q.orderBy = true)
    (hd : q.distinct = true) (parts : List (List R))
    (hidx : q.indexOrder = true → (∀ v ∈ parts, Ascending (byKeys order key) v) ∧
      parts.flatten.Pairwise fun a b => byKeys order key a b ≠ 0)
    (hlen : parts.flatten.length + 1 < 2 ^ 63 - 1) :
    ∃ m, OnePerKey (byKeys order key) parts.flatten m ∧
      ∀ out, q.Runs (byKeys order key) sort parts out ↔ out = page q.limit (q.offset.getD 0) m :=
  distinct_generic (byKeys_laws fun r => (hk r).ordered) (byKeys_normal hk) sort hsort q ho hd parts hidx hlen

/-- DISTINCT over 1, 1, 3 | 1, 2 | 3: 1, 2, 3; the second row of it is 2 -/
example : (⟨true, false, true, some 1, some 1⟩ : Sel).Runs (byKeys [true] sampleKey) (fun l => l)
    [[1, 1, 3], [1, 2], [3]] [2] := by
  refine showAll_visits _ 5 _ _ ?_ (by simp)
  decide +kernel

/-- **C60 fails for text**: partitions with "c" and with "a", "c": `SELECT DISTINCT` returns "c", "a", "c" -/
theorem C60_text_false : ∃ (parts : List (List (List Nat))) (sort : List (List Nat) → List (List Nat)) (out : List (List Nat)),
    (∀ p ∈ parts, sort p = p ∧ Ascending (byKeys [true] fun r => [.str r]) p) ∧
    (⟨true, false, true, none, none⟩ : Sel).Runs (byKeys [true] fun r => [.str r]) sort parts out ∧
    ¬ out.Nodup := by
  refine ⟨[[[99]], [[97], [99]]], fun l => l, [[99], [97], [99]], ?_, ?_, ?_⟩
  · intro p hp
    simp only [List.mem_cons, List.not_mem_nil, or_false] at hp
    rcases hp with rfl | rfl <;> exact ⟨rfl, by unfold Ascending; decide⟩
  · refine showAll_visits _ 5 _ _ ?_ (by simp)
    decide +kernel
  · decide

/-! ## C61 -/

/-- **C61**: `SELECT … LIMIT n OFFSET k` without ORDER BY over any number of partitions returns rows `k+1 … k+n` of some
arrangement of all matching rows: never a row twice or a row too few, although only `n + k` rows are asked of each
partition. -/
theorem C61_limit (cmp : R → R → Int) (sort : List R → List R) (q : Sel) (ho : q.orderBy = false) (parts : List (List R))
    (hlen : parts.flatten.length + 1 < 2 ^ 63 - 1) :
    ∃ m, m.Perm parts.flatten ∧ ∀ out, q.Runs cmp sort parts out ↔ out = page q.limit (q.offset.getD 0) m := by
  have hu : q.union = .all := by simp [Sel.union, ho]
  have hbk : (q.orderBy && !q.indexOrder) = false := by simp [ho]
  refine ⟨parts.flatten, .refl _, ?_⟩
  unfold Sel.Runs
  rw [hu]
  have hle : (parts.map (q.backend sort)).flatten.length ≤ parts.flatten.length := by
    refine flatten_length_map ?_ parts
    intro l; rw [backend_scan q sort l hbk]; split
    · exact Nat.le_refl _
    · simp [List.length_take]; omega
  have hr := returns_of_streams (all_streams cmp (parts.map (q.backend sort))) (Nat.le_refl _) (by omega) q.limit
    (q.offset.getD 0)
  have e : page q.limit (q.offset.getD 0) (parts.map (q.backend sort)).flatten =
      page q.limit (q.offset.getD 0) parts.flatten := by
    apply page_cut
    · intro n hl
      have hb : parts.map (q.backend sort) = parts.map (List.take (n + q.offset.getD 0)) := by
        apply List.map_congr_left; intro v _; rw [backend_scan q sort v hbk, hl]
      rw [hb]
      have := cut_allOuts pickFirst_picks (fun a b h => pickFirst_heads a b 0 h) _ _ _
        (cutAt_map (n + q.offset.getD 0) parts)
      rwa [allOuts_first _ _ rfl, allOuts_first _ _ rfl] at this
    · intro hl
      have hb : parts.map (q.backend sort) = parts := by
        have : parts.map (q.backend sort) = parts.map id := by
          apply List.map_congr_left; intro v _; rw [backend_scan q sort v hbk, hl]; rfl
        simpa using this
      rw [hb]
  rw [e] at hr
  exact returns_iff hr

/-- **C61** for a SELECT that is not pushed down: the counters of the scan select the same rows -/
theorem C61_scan (cmp : R → R → Int) (sort : List R → List R) (q : Sel) (ho : q.orderBy = false) (rows out : List R) :
    q.RunsMain cmp sort rows out ↔ out = page q.limit (q.offset.getD 0) rows := by
  simp only [Sel.RunsMain, ho, Bool.false_and, Bool.false_eq_true, if_false]
  cases hof : q.offset with
  | some k => simp only [Option.map_some, Option.getD_some, scanRows_page]
  | none =>
    cases hl : q.limit with
    | none => simp [scanRows_none, page]
    | some n =>
      have := scanRows_limit rows n
      simp only [Option.map_some, Option.map_none, Option.getD_none, page, List.drop_zero, this]

example : (⟨false, false, false, some 3, some 2⟩ : Sel).Runs (byKeys [true] sampleKey) (fun l => l)
    [[1, 2, 3, 4, 5, 6], [], [7]] [3, 4, 5] := by
  refine showAll_visits _ 5 _ _ ?_ (by simp)
  decide +kernel

end Verif.Query
