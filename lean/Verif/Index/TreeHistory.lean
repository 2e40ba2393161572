import Verif.Index.TreeScan
/-!
# Histories of an ordered index: what a user sees
-/
set_option linter.unusedSimpArgs false
namespace Verif.Index
variable {R : Type}

/-- operations on an index (struct IndexIf, db/index/index.h): insert-if-absent, insert-or-replace, delete by key,
point lookup, full scan, row count -/
inductive Op (R : Type) where
  | upsert (r : R)
  | replace (r : R)
  | delete (r : R)
  | lookup (r : R)
  | scan
  | count

/-- what the caller observes -/
inductive Out (R : Type) where
  | existed (b : Bool) (row : R)     -- upsert: key present?, and the row the cursor is on
  | row (r : Option R)               -- previous / deleted / found row
  | rows (l : List R)
  | num (n : Nat)
deriving DecidableEq

/-- one operation on the tree; index_tree.c:20-66, cursor lookup = tree_iterator_open, scan = open at NULL and next -/
def step (cmp : R → R → Int) (sizePage sizeSplit : Nat) (t : Tree R) : Op R → Option (Out R × Tree R)
  | .upsert r =>
    match treeUpsert cmp sizePage sizeSplit t r with
    | none => none
    | some (b, t', p) =>
      match (iterOpenAt t' p).current with
      | none => none
      | some row => some (.existed b row, t')
  | .replace r => (treeReplace cmp sizePage sizeSplit t r).map fun (p, t') => (.row p, t')
  | .delete r => (treeDeleteBy cmp t r).map fun (p, t') => (.row p, t')
  | .lookup r => (iterOpen cmp t (some r)).map fun (m, it) => (.row (if m then it.current else none), t)
  | .scan => (scan cmp (fun _ => .keep) t none).map fun (l, t') => (.rows l, t')
  | .count => some (.num t.count, t)

def run (cmp : R → R → Int) (sizePage sizeSplit : Nat) : Tree R → List (Op R) → Option (List (Out R) × Tree R)
  | t, [] => some ([], t)
  | t, op :: ops =>
    match step cmp sizePage sizeSplit t op with
    | none => none
    | some (o, t') => (run cmp sizePage sizeSplit t' ops).map fun (os, t'') => (o :: os, t'')

/-! ## Specification: a map from keys to rows, as an unordered collection of rows -/

/-- the row stored under the key of `k` -/
def lookup (cmp : R → R → Int) (m : List R) (k : R) : Option R := m.find? fun r => decide (cmp r k = 0)
/-- the rows stored under other keys -/
def others (cmp : R → R → Int) (m : List R) (k : R) : List R := m.filter fun r => !decide (cmp r k = 0)

/-- `SpecStep m op out m'`: on the map `m` the operation shows `out` and leaves `m'` -/
inductive SpecStep (cmp : R → R → Int) (m : List R) : Op R → Out R → List R → Prop
  | upsertNew (r : R) : lookup cmp m r = none → SpecStep cmp m (.upsert r) (.existed false r) (r :: m)
  | upsertOld (r y : R) : lookup cmp m r = some y → SpecStep cmp m (.upsert r) (.existed true y) m
  | replace (r : R) : SpecStep cmp m (.replace r) (.row (lookup cmp m r)) (r :: others cmp m r)
  | delete (r : R) : SpecStep cmp m (.delete r) (.row (lookup cmp m r)) (others cmp m r)
  | lookup (r : R) : SpecStep cmp m (.lookup r) (.row (lookup cmp m r)) m
  | scan (l : List R) : l.Perm m → l.Pairwise (fun a b => cmp a b < 0) → SpecStep cmp m .scan (.rows l) m
  | count : SpecStep cmp m .count (.num m.length) m

inductive SpecRun (cmp : R → R → Int) : List R → List (Op R) → List (Out R) → List R → Prop
  | nil (m : List R) : SpecRun cmp m [] [] m
  | cons {m m' m'' : List R} {op : Op R} {o : Out R} {ops : List (Op R)} {os : List (Out R)} :
      SpecStep cmp m op o m' → SpecRun cmp m' ops os m'' → SpecRun cmp m (op :: ops) (o :: os) m''

/-! ## Proof -/

theorem find_mid {cmp : R → R → Int} {m X Y : List R} {y key : R} (hp : m.Perm (X ++ y :: Y)) (hy : cmp y key = 0)
    (hX : ∀ x ∈ X, cmp x key < 0) (hY : ∀ x ∈ Y, 0 < cmp x key) : lookup cmp m key = some y := by
  unfold lookup
  cases hf : m.find? (fun r => decide (cmp r key = 0)) with
  | none =>
    rw [List.find?_eq_none] at hf
    have := hf y (hp.mem_iff.2 (by simp))
    simp [hy] at this
  | some z =>
    have h1 := List.find?_some hf
    have h2 := hp.mem_iff.1 (List.mem_of_find?_eq_some hf)
    simp at h1 h2
    rcases h2 with h | rfl | h
    · have := hX z h; omega
    · rfl
    · have := hY z h; omega

theorem find_none {cmp : R → R → Int} {m X Y : List R} {key : R} (hp : m.Perm (X ++ Y))
    (hX : ∀ x ∈ X, cmp x key < 0) (hY : ∀ x ∈ Y, 0 < cmp x key) : lookup cmp m key = none := by
  unfold lookup
  rw [List.find?_eq_none]
  intro x hx
  have := hp.mem_iff.1 hx
  simp at this ⊢
  rcases this with h | h
  · have := hX x h; omega
  · have := hY x h; omega

theorem others_mid {cmp : R → R → Int} {m X Y : List R} {o : Option R} {key : R} (hp : m.Perm (X ++ o.toList ++ Y))
    (ho : ∀ x ∈ o, cmp x key = 0) (hX : ∀ x ∈ X, cmp x key < 0) (hY : ∀ x ∈ Y, 0 < cmp x key) :
    (others cmp m key).Perm (X ++ Y) := by
  unfold others
  refine (hp.filter _).trans ?_
  rw [List.filter_append, List.filter_append]
  have e1 : X.filter (fun r => !decide (cmp r key = 0)) = X := by
    rw [List.filter_eq_self]; intro x hx; have := hX x hx; simp; omega
  have e2 : Y.filter (fun r => !decide (cmp r key = 0)) = Y := by
    rw [List.filter_eq_self]; intro x hx; have := hY x hx; simp; omega
  rw [e1, e2]
  cases o with
  | none => simp
  | some y => have := ho y rfl; simp [this]

theorem lookup_mid {cmp : R → R → Int} {m X Y : List R} {o : Option R} {key : R} (hp : m.Perm (X ++ o.toList ++ Y))
    (ho : ∀ x ∈ o, cmp x key = 0) (hX : ∀ x ∈ X, cmp x key < 0) (hY : ∀ x ∈ Y, 0 < cmp x key) :
    lookup cmp m key = o := by
  cases o with
  | none => exact find_none (by simpa using hp) hX hY
  | some y => exact find_mid (by simpa using hp) (ho y rfl) hX hY

theorem step_spec {cmp : R → R → Int} (L : CmpLaws cmp) (hnorm : Normal cmp) {n k : Nat} (hk : 0 < k) (hkn : k < n)
    {t : Tree R} (I : Inv cmp n t) {m : List R} (hm : m.Perm t.flat) (op : Op R) :
    ∃ o t' m', step cmp n k t op = some (o, t') ∧ SpecStep cmp m op o m' ∧ Inv cmp n t' ∧ m'.Perm t'.flat := by
  cases op with
  | upsert r =>
    rcases treeUpsert_spec L hnorm hk hkn I r with ⟨t', q, X, Y, h1, h2, h3, h4, h5, h6⟩ |
      ⟨q, X, y, Y, h1, h2, h3, h4, h5⟩
    · refine ⟨.existed false r, t', r :: m, ?_, .upsertNew r (find_none (by rw [← h3]; exact hm) h5 h6), h2, ?_⟩
      · simp [step, h1, iterOpenAt, h4.rowAt]
      · rw [h4.flat, List.perm_comm]
        exact List.perm_middle.trans (List.Perm.cons _ (by rw [← h3]; exact hm.symm))
    · refine ⟨.existed true y, t, m, ?_, .upsertOld r y (find_mid (by rw [← h2.flat]; exact hm) h3 h4 h5), I, hm⟩
      simp [step, h1, iterOpenAt, h2.rowAt]
  | replace r =>
    obtain ⟨prev, t', X, Y, h1, h2, h3, h4, h5, h6, h7⟩ := treeReplace_spec L hnorm hk hkn I r
    rw [h3] at hm
    refine ⟨.row prev, t', r :: others cmp m r, by simp [step, h1], ?_, h2, ?_⟩
    · have := lookup_mid hm h5 h6 h7
      rw [← this]; exact .replace r
    · rw [h4, List.perm_comm]
      exact List.perm_middle.trans (List.Perm.cons _ (others_mid hm h5 h6 h7).symm)
  | delete r =>
    obtain ⟨prev, t', X, Y, h1, h2, h3, h4, h5, h6, h7⟩ := treeDeleteBy_spec L hnorm I r
    rw [h3] at hm
    refine ⟨.row prev, t', others cmp m r, by simp [step, h1], ?_, h2, ?_⟩
    · have := lookup_mid hm h5 h6 h7
      rw [← this]; exact .delete r
    · rw [h4]; exact others_mid hm h5 h6 h7
  | lookup r =>
    have : ∃ o it mt, iterOpen cmp t (some r) = some (mt, it) ∧ (if mt then it.current else none) = o ∧
        lookup cmp m r = o := by
      unfold iterOpen
      by_cases h0 : t.count = 0
      · have hf : t.flat = [] := by apply List.length_eq_zero_iff.1; rw [← I.count, h0]
        rw [if_pos h0]
        rw [hf] at hm
        refine ⟨none, _, _, rfl, rfl, ?_⟩
        rw [hm.eq_nil]; rfl
      · rw [if_neg h0]
        have hp0 : t.countPages ≠ 0 := by
          intro e; rw [I.countPages] at e
          have := List.length_eq_zero_iff.1 e
          apply h0; rw [I.count]; simp [Tree.flat, this]
        obtain ⟨A, P1, P2, B, mt, S⟩ := seek L hnorm I hp0 r
        obtain ⟨rel, ref, hpg⟩ := S.page
        have hpage : t.tree.toList[A.length]? = some (P1 ++ P2) := by simp [S.pages]
        have hflat : t.flat = (A.flatten ++ P1) ++ (P2 ++ B.flatten) := by simp [Tree.flat, S.pages]
        simp only [treeGet, hp0, if_false, hpg, hpage, S.pos]
        cases mt with
        | true =>
          obtain ⟨y, tl, rfl, hy, hgt⟩ := S.hit rfl
          rw [if_neg (by simp)]
          refine ⟨some y, _, _, rfl, by simp, ?_⟩
          exact find_mid (X := A.flatten ++ P1) (Y := tl ++ B.flatten) (by rw [hflat] at hm; simpa using hm) hy S.lt hgt
        | false =>
          have hl := find_none (m := m) (by rw [← hflat]; exact hm) S.lt (S.miss rfl)
          split
          · exact ⟨none, _, _, rfl, by simp, hl⟩
          · exact ⟨none, _, _, rfl, by simp, hl⟩
    obtain ⟨o, it, mt, h1, h2, h3⟩ := this
    refine ⟨.row o, t, m, by simp [step, h1, h2], ?_, I, hm⟩
    rw [← h3]; exact .lookup r
  | scan =>
    obtain ⟨t', h1, h2, h3⟩ := scan_all L (fun _ => Act.keep) (by intro r r' h; contradiction) I
    have h4 : t'.flat = t.flat := by
      rw [h3]
      have : ∀ l : List R, l.flatMap (fun r => (Act.keep : Act R).result r) = l := by
        intro l; induction l with
        | nil => rfl
        | cons a l ih => simp [List.flatMap_cons, Act.result] at ih ⊢
      exact this _
    exact ⟨.rows t.flat, t', m, by simp [step, h1], .scan _ hm.symm I.sorted, h2, by rw [h4]; exact hm⟩
  | count =>
    refine ⟨.num t.count, t, m, rfl, ?_, I, hm⟩
    rw [I.count, ← hm.length_eq]; exact .count

theorem run_spec {cmp : R → R → Int} (L : CmpLaws cmp) (hnorm : Normal cmp) {n k : Nat} (hk : 0 < k) (hkn : k < n)
    (ops : List (Op R)) {t : Tree R} (I : Inv cmp n t) {m : List R} (hm : m.Perm t.flat) :
    ∃ os t' m', run cmp n k t ops = some (os, t') ∧ SpecRun cmp m ops os m' ∧ Inv cmp n t' ∧ m'.Perm t'.flat := by
  induction ops generalizing t m with
  | nil => exact ⟨[], t, m, rfl, .nil m, I, hm⟩
  | cons op ops ih =>
    obtain ⟨o, t1, m1, h1, h2, h3, h4⟩ := step_spec L hnorm hk hkn I hm op
    obtain ⟨os, t2, m2, g1, g2, g3, g4⟩ := ih h3 h4
    exact ⟨o :: os, t2, m2, by simp [run, h1, g1], .cons h2 g2, g3, g4⟩

theorem inv_init (cmp : R → R → Int) (n : Nat) : Inv cmp n (Tree.init R) :=
  ⟨⟨rfl, 0, rfl⟩, by simp [Tree.init, T.toList], by simp [Tree.init, T.toList],
    by simp [Tree.flat, Tree.init, T.toList, Sorted], rfl, rfl⟩

/-! ## Height -/

/-- number of comparisons of the longest descent -/
def T.depth {α : Type} : T α → Nat
  | .nil => 0
  | .node _ l _ r => max l.depth r.depth + 1

theorem isRB_depth {α : Type} (t : T α) (h : Nat) (hr : isRB t h) :
    2 ^ h ≤ t.toList.length + 1 ∧ t.depth ≤ 2 * h + (if t.color = .red then 1 else 0) := by
  induction t generalizing h with
  | nil => simp only [isRB] at hr; subst hr; simp [T.toList, T.depth]
  | node c l v r ihl ihr =>
    cases c with
    | red =>
      rw [isRB] at hr
      obtain ⟨c1, c2, h1, h2⟩ := hr
      obtain ⟨a1, a2⟩ := ihl h h1
      obtain ⟨b1, b2⟩ := ihr h h2
      rw [c1] at a2; rw [c2] at b2
      simp [T.toList, T.depth, T.color] at *
      omega
    | black =>
      rw [isRB] at hr
      obtain ⟨k, rfl, h1, h2⟩ := hr
      obtain ⟨a1, a2⟩ := ihl k h1
      obtain ⟨b1, b2⟩ := ihr k h2
      have a3 : l.depth ≤ 2 * k + 1 := by split at a2 <;> omega
      have b3 : r.depth ≤ 2 * k + 1 := by split at b2 <;> omega
      simp only [T.toList, T.depth, T.color, List.length_append, List.length_cons, Nat.pow_succ, reduceCtorEq, if_false]
      omega

theorem good_depth {α : Type} (t : T α) (h : Good t) : 2 ^ (t.depth / 2) ≤ t.toList.length + 1 := by
  obtain ⟨hc, k, hk⟩ := h
  obtain ⟨h1, h2⟩ := isRB_depth t k hk
  rw [hc] at h2
  simp only [reduceCtorEq, if_false] at h2
  exact Nat.le_trans (Nat.pow_le_pow_right (by omega) (by omega)) h1

end Verif.Index
