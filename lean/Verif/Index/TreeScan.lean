import Verif.Index.TreeOps
/-!
# Iterators over the ordered index
-/
set_option linter.unusedSimpArgs false
namespace Verif.Index
variable {R : Type}

theorem first_at {cmp : R → R → Int} {n : Nat} {t : Tree R} (I : Inv cmp n t) (x : R) (X : List R)
    (h : t.flat = x :: X) : AtPos t ⟨0, 0⟩ [] x X := by
  have hne := I.ne
  rw [Tree.flat] at h
  cases hp : t.tree.toList with
  | nil => simp [hp] at h
  | cons p ps =>
    rw [hp] at h hne
    cases p with
    | nil => exact absurd rfl (hne [] (by simp))
    | cons a p =>
      simp at h
      obtain ⟨rfl, rfl⟩ := h
      exact ⟨[], [], p, ps, by simp [hp], rfl, by simp, rfl⟩

/-- moving to the next row -/
theorem iterNext_spec {cmp : R → R → Int} {n : Nat} {t : Tree R} (I : Inv cmp n t) {q : Pos} {X : List R} {y : R}
    {Y : List R} (h : AtPos t q X y Y) (cur : R) :
    (Y = [] → iterNext t ⟨some cur, some q, false⟩ = ⟨none, none, false⟩) ∧
    (∀ z Z, Y = z :: Z → ∃ q', iterNext t ⟨some cur, some q, false⟩ = ⟨some z, some q', false⟩ ∧
      AtPos t q' (X ++ [y]) z Z) := by
  obtain ⟨A, P1, P2, B, e1, rfl, rfl, rfl⟩ := h
  have hne := I.ne; rw [e1] at hne
  have hpg : (t.tree.toList[A.length]?.getD []).length = P1.length + P2.length + 1 := by simp [e1]; omega
  constructor
  · intro hY
    have hP2 : P2 = [] := by simp at hY; exact hY.1
    have hB : B = [] := by
      cases B with
      | nil => rfl
      | cons b B => have := hne b (by simp); simp at hY; exact absurd hY.2.1 this
    subst hP2 hB
    simp only [iterNext, Bool.false_eq_true, if_false, hpg]
    simp [e1]
  · intro z Z hz
    cases P2 with
    | cons p P2 =>
      simp at hz
      obtain ⟨rfl, rfl⟩ := hz
      have hat : AtPos t ⟨A.length, P1.length + 1⟩ (A.flatten ++ P1 ++ [y]) p (P2 ++ B.flatten) :=
        ⟨A, P1 ++ [y], P2, B, by simp [e1], by simp, by simp, rfl⟩
      refine ⟨_, ?_, hat⟩
      simp only [iterNext, Bool.false_eq_true, if_false, hpg]
      rw [if_pos (by simp), hat.rowAt]
    | nil =>
      cases B with
      | nil => simp at hz
      | cons b B =>
        have hb := hne b (by simp)
        cases b with
        | nil => exact absurd rfl hb
        | cons b0 b =>
          simp at hz
          obtain ⟨rfl, rfl⟩ := hz
          have hat : AtPos t ⟨A.length + 1, 0⟩ (A.flatten ++ P1 ++ [y]) b0 (b ++ B.flatten) :=
            ⟨A ++ [P1 ++ [y]], [], b, B, by simp [e1], by simp, by simp, rfl⟩
          refine ⟨_, ?_, hat⟩
          simp only [iterNext, Bool.false_eq_true, if_false, hpg]
          rw [if_neg (by simp), if_pos (by simp [e1]), hat.rowAt]

/-- effect of a visit on the rows -/
def Act.result (a : Act R) (r : R) : List R :=
  match a with
  | .keep => [r]
  | .replace r' => [r']
  | .delete => []

/-- replacements keep the key -/
def KeepsKey (cmp : R → R → Int) (act : R → Act R) : Prop := ∀ r r', act r = .replace r' → cmp r r' = 0

theorem scanLoop_none (act : R → Act R) (fuel : Nat) (t : Tree R) (l : Option Pos) (b : Bool) :
    scanLoop act fuel t ⟨none, l, b⟩ = some ([], t) := by
  cases fuel <;> rfl

theorem scanLoop_spec {cmp : R → R → Int} (L : CmpLaws cmp) (act : R → Act R) (hact : KeepsKey cmp act) {n : Nat}
    (fuel : Nat) {t : Tree R} (I : Inv cmp n t) {q : Pos} {X : List R} {y : R} {Y : List R} (h : AtPos t q X y Y)
    (hf : Y.length < fuel) :
    ∃ t', scanLoop act fuel t ⟨some y, some q, false⟩ = some (y :: Y, t') ∧ Inv cmp n t' ∧
      t'.flat = X ++ (y :: Y).flatMap fun r => (act r).result r := by
  induction fuel generalizing t q X y Y with
  | zero => omega
  | succ fuel ih =>
    -- after the visit: the iterator is at the last row of X' (not repositioned) or moved
    have key : ∀ (t1 : Tree R) (it1 : Iter R) (X1 : List R), Inv cmp n t1 →
        (Y = [] → iterNext t1 it1 = ⟨none, none, false⟩ ∧ t1.flat = X1) →
        (∀ z Z, Y = z :: Z → ∃ q', iterNext t1 it1 = ⟨some z, some q', false⟩ ∧ AtPos t1 q' X1 z Z) →
        ∃ t', (scanLoop act fuel t1 (iterNext t1 it1)).map (fun (vs, t'') => (y :: vs, t'')) = some (y :: Y, t') ∧
          Inv cmp n t' ∧ t'.flat = X1 ++ Y.flatMap fun r => (act r).result r := by
      intro t1 it1 X1 I1 hn hc
      cases Y with
      | nil =>
        obtain ⟨e1, e2⟩ := hn rfl
        rw [e1, scanLoop_none]
        exact ⟨t1, rfl, I1, by simp [e2]⟩
      | cons z Z =>
        obtain ⟨q', e1, e2⟩ := hc z Z rfl
        rw [e1]
        obtain ⟨t', f1, f2, f3⟩ := ih I1 e2 (by simp at hf; omega)
        rw [f1]
        exact ⟨t', rfl, f2, by rw [f3]⟩
    rw [scanLoop]
    simp only
    cases ha : act y with
    | keep =>
      simp only
      obtain ⟨n1, n2⟩ := iterNext_spec I h y
      obtain ⟨t', f1, f2, f3⟩ := key t _ (X ++ [y]) I (fun e => ⟨n1 e, by rw [h.flat, e]⟩) n2
      exact ⟨t', f1, f2, by rw [f3]; simp [Act.result, ha]⟩
    | replace r' =>
      simp only [iterReplace]
      obtain ⟨p1, p2, p3⟩ := put_spec L I h r' (hact y r' ha)
      obtain ⟨n1, n2⟩ := iterNext_spec p1 p2 r'
      obtain ⟨t', f1, f2, f3⟩ := key _ _ (X ++ [r']) p1 (fun e => ⟨n1 e, by rw [p2.flat, e]⟩) n2
      exact ⟨t', f1, f2, by rw [f3]; simp [Act.result, ha]⟩
    | delete =>
      simp only [iterDelete]
      obtain ⟨t1, q1, d1, d2, d3, d4, d5, d6⟩ := treeDelete_spec I h
      simp only [d1, h.rowAt]
      obtain ⟨t', f1, f2, f3⟩ := key t1 ⟨some y, q1, true⟩ X d2
        (fun e => by
          have := d5 e; subst this
          exact ⟨by simp [iterNext], by rw [d3, e]; simp⟩)
        (fun z Z e => by
          obtain ⟨q'', e1, e2⟩ := d6 z Z e
          subst e1
          exact ⟨q'', by simp [iterNext, e2.rowAt], e2⟩)
      exact ⟨t', f1, f2, by rw [f3]; simp [Act.result, ha]⟩

/-- a statement scanning the whole index -/
theorem scan_all {cmp : R → R → Int} (L : CmpLaws cmp) (act : R → Act R) (hact : KeepsKey cmp act) {n : Nat}
    {t : Tree R} (I : Inv cmp n t) :
    ∃ t', scan cmp act t none = some (t.flat, t') ∧ Inv cmp n t' ∧
      t'.flat = t.flat.flatMap fun r => (act r).result r := by
  unfold scan iterOpen
  by_cases h0 : t.count = 0
  · have : t.flat = [] := by apply List.length_eq_zero_iff.1; rw [← I.count, h0]
    rw [if_pos h0, this]
    simp only [scanLoop_none]
    exact ⟨t, rfl, I, by simp [this]⟩
  · rw [if_neg h0]
    cases hf : t.flat with
    | nil => exfalso; apply h0; rw [I.count, hf]; rfl
    | cons x X =>
      have hat := first_at I x X hf
      have hp0 : t.countPages ≠ 0 := by
        intro e; rw [I.countPages] at e
        have := List.length_eq_zero_iff.1 e
        simp [Tree.flat, this] at hf
      simp only [treeGet, hp0, if_false]
      have hat' := hat
      obtain ⟨A, P1, P2, B, e1, e2, e3, e4⟩ := hat'
      have hA : A = [] := by simp at e2; exact List.length_eq_zero_iff.1 e2.1.symm
      have hP : P1 = [] := by simp at e2; exact List.length_eq_zero_iff.1 e2.2.symm
      subst hA hP
      have hpg : t.tree.toList[0]? = some (x :: P2) := by simp [e1]
      simp only [hpg]
      rw [if_neg (by simp)]
      simp only [List.length_cons, Nat.zero_lt_succ, List.getElem?_cons_zero]
      obtain ⟨t', f1, f2, f3⟩ := scanLoop_spec L act hact t.count I hat (by rw [I.count, hf]; simp)
      exact ⟨t', f1, f2, by rw [f3]; simp⟩

/-- opening at a key: either the scan starts at the first row at or above it, or (the code's defect) it ends at once,
when the key is past the last row of its page -/
theorem scan_from {cmp : R → R → Int} (L : CmpLaws cmp) (hnorm : Normal cmp) (act : R → Act R)
    (hact : KeepsKey cmp act) {n : Nat} {t : Tree R} (I : Inv cmp n t) (key : R) :
    ∃ X Y t', t.flat = X ++ Y ∧ (∀ x ∈ X, cmp x key < 0) ∧ (∀ y ∈ Y, 0 ≤ cmp y key) ∧
      ((scan cmp act t (some key) = some (Y, t') ∧ Inv cmp n t' ∧
          t'.flat = X ++ Y.flatMap (fun r => (act r).result r)) ∨
        (scan cmp act t (some key) = some ([], t) ∧ (∀ y ∈ Y, 0 < cmp y key))) := by
  unfold scan iterOpen
  by_cases h0 : t.count = 0
  · have : t.flat = [] := by apply List.length_eq_zero_iff.1; rw [← I.count, h0]
    rw [if_pos h0, this]
    simp only [scanLoop_none]
    exact ⟨[], [], t, rfl, by simp, by simp, .inl ⟨rfl, I, by simp [this]⟩⟩
  · rw [if_neg h0]
    have hp0 : t.countPages ≠ 0 := by
      intro e; rw [I.countPages] at e
      have := List.length_eq_zero_iff.1 e
      apply h0; rw [I.count]; simp [Tree.flat, this]
    obtain ⟨A, P1, P2, B, m, S⟩ := seek L hnorm I hp0 key
    obtain ⟨rel, ref, hpg⟩ := S.page
    have hpage : t.tree.toList[A.length]? = some (P1 ++ P2) := by simp [S.pages]
    simp only [treeGet, hp0, if_false, hpg, hpage, S.pos]
    cases P2 with
    | nil =>
      rw [if_pos (by simp)]
      simp only [scanLoop_none]
      have hm : m = false := by
        cases m with
        | false => rfl
        | true => obtain ⟨y, tl, e, _⟩ := S.hit rfl; simp at e
      have hgt := S.miss hm
      exact ⟨A.flatten ++ P1, B.flatten, t, by simp [Tree.flat, S.pages], S.lt,
        fun y hy => by have := hgt y (by simpa using hy); omega, .inr ⟨trivial, fun y hy => hgt y (by simpa using hy)⟩⟩
    | cons y P2 =>
      rw [if_neg (by simp)]
      have hat : AtPos t ⟨A.length, P1.length⟩ (A.flatten ++ P1) y (P2 ++ B.flatten) :=
        ⟨A, P1, P2, B, S.pages, rfl, rfl, rfl⟩
      have hrow : (P1 ++ y :: P2)[P1.length]? = some y := by simp
      simp only [hrow]
      obtain ⟨t', f1, f2, f3⟩ := scanLoop_spec L act hact t.count I hat (by rw [I.count, hat.flat]; simp; omega)
      refine ⟨_, _, t', hat.flat, S.lt, ?_, .inl ⟨f1, f2, f3⟩⟩
      intro z hz
      cases m with
      | true =>
        obtain ⟨y', tl, e, e2, e3⟩ := S.hit rfl
        simp at e
        obtain ⟨rfl, rfl⟩ := e
        rcases List.mem_cons.1 hz with rfl | hz
        · omega
        · have := e3 z hz; omega
      | false => have := S.miss rfl z (by simpa using hz); omega

end Verif.Index
