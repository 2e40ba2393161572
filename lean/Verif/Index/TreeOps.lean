import Verif.Index.TreeProofs
/-!
# Operations of the ordered index on the flat list of rows
-/
set_option linter.unusedSimpArgs false
namespace Verif.Index
variable {R : Type}

/-- the rows in order -/
def Tree.flat (t : Tree R) : List R := t.tree.toList.flatten

structure Inv (cmp : R → R → Int) (sizePage : Nat) (t : Tree R) : Prop where
  good : Good t.tree
  ne : ∀ p ∈ t.tree.toList, p ≠ []
  le : ∀ p ∈ t.tree.toList, p.length ≤ sizePage
  sorted : Sorted cmp t.flat
  count : t.count = t.flat.length
  countPages : t.countPages = t.tree.toList.length

/-- position `q` is at row `y`, with the rows `X` before and `Y` after -/
def AtPos (t : Tree R) (q : Pos) (X : List R) (y : R) (Y : List R) : Prop :=
  ∃ A P1 P2 B, t.tree.toList = A ++ (P1 ++ y :: P2) :: B ∧ q = ⟨A.length, P1.length⟩ ∧ X = A.flatten ++ P1 ∧
    Y = P2 ++ B.flatten

theorem AtPos.flat {t : Tree R} {q : Pos} {X : List R} {y : R} {Y : List R} (h : AtPos t q X y Y) :
    t.flat = X ++ y :: Y := by
  obtain ⟨A, P1, P2, B, e1, e2, rfl, rfl⟩ := h
  simp [Tree.flat, e1]

theorem AtPos.rowAt {t : Tree R} {q : Pos} {X : List R} {y : R} {Y : List R} (h : AtPos t q X y Y) :
    rowAt t q = some y := by
  obtain ⟨A, P1, P2, B, e1, rfl, rfl, rfl⟩ := h
  simp [Index.rowAt, e1]

/-! ## setAt -/

theorem toList_setAt (t : T (List R)) (i : Nat) (p : List R) : (setAt t i p).toList = t.toList.set i p := by
  induction t generalizing i with
  | nil => simp [setAt, T.toList]
  | node c l v r ihl ihr =>
    simp only [setAt, T.size]
    by_cases h1 : i < l.toList.length
    · simp [h1, T.toList, ihl, List.set_append]
    · by_cases h2 : i = l.toList.length
      · simp [h2, T.toList, List.set_append]
      · obtain ⟨k, rfl⟩ : ∃ k, i = l.toList.length + 1 + k := ⟨i - l.toList.length - 1, by omega⟩
        have e1 : l.toList.length + 1 + k - l.toList.length - 1 = k := by omega
        have e2 : l.toList.length + 1 + k - l.toList.length = k + 1 := by omega
        simp [h1, h2, T.toList, ihr, List.set_append, e1, e2]

theorem setAt_color (t : T (List R)) (i : Nat) (p : List R) : (setAt t i p).color = t.color := by
  cases t with
  | nil => rfl
  | node c l v r => simp only [setAt]; split <;> (try split) <;> rfl

theorem setAt_rb (t : T (List R)) (i : Nat) (p : List R) (h : Nat) (hr : isRB t h) : isRB (setAt t i p) h := by
  induction t generalizing i h with
  | nil => exact hr
  | node c l v r ihl ihr =>
    simp only [setAt]
    cases c with
    | red =>
      rw [isRB] at hr
      split
      · exact ⟨by rw [setAt_color]; exact hr.1, hr.2.1, ihl _ _ hr.2.2.1, hr.2.2.2⟩
      · split
        · exact hr
        · exact ⟨hr.1, by rw [setAt_color]; exact hr.2.1, hr.2.2.1, ihr _ _ hr.2.2.2⟩
    | black =>
      rw [isRB] at hr
      obtain ⟨k, rfl, h1, h2⟩ := hr
      split
      · exact ⟨k, rfl, ihl _ _ h1, h2⟩
      · split
        · exact ⟨k, rfl, h1, h2⟩
        · exact ⟨k, rfl, h1, ihr _ _ h2⟩

theorem setAt_good (t : T (List R)) (i : Nat) (p : List R) (h : Good t) : Good (setAt t i p) := by
  obtain ⟨h1, k, h2⟩ := h
  exact ⟨by rw [setAt_color]; exact h1, k, setAt_rb t i p k h2⟩

/-! ## seek -/

/-- where a key is or would be -/
structure Seek (cmp : R → R → Int) (t : Tree R) (key : R) (A : List (List R)) (P1 P2 : List R) (B : List (List R))
    (m : Bool) : Prop where
  page : ∃ rel ref, searchPage cmp t.tree key = some (A.length, rel, ref)
  pages : t.tree.toList = A ++ (P1 ++ P2) :: B
  pos : search cmp key (P1 ++ P2) (P1 ++ P2).length 0 (P1 ++ P2).length = some (P1.length, m)
  lt : ∀ x ∈ A.flatten ++ P1, cmp x key < 0
  hit : m = true → ∃ y tl, P2 = y :: tl ∧ cmp y key = 0 ∧ ∀ x ∈ tl ++ B.flatten, 0 < cmp x key
  miss : m = false → ∀ x ∈ P2 ++ B.flatten, 0 < cmp x key

theorem seek {cmp : R → R → Int} (L : CmpLaws cmp) (hnorm : Normal cmp) {n : Nat} {t : Tree R} (I : Inv cmp n t)
    (hc : t.countPages ≠ 0) (key : R) : ∃ A P1 P2 B m, Seek cmp t key A P1 P2 B m := by
  have hn : t.tree.toList ≠ [] := by
    intro e; apply hc; rw [I.countPages, e]; rfl
  obtain ⟨A, P, B, rel, ref, h1, h2, h3, h4⟩ := searchPage_spec L hnorm key t.tree I.ne I.sorted hn
  have hsP : Sorted cmp P := by
    have := I.sorted
    rw [Tree.flat, h2, Sorted, List.flatten_append, List.pairwise_append, List.flatten_cons,
      List.pairwise_append] at this
    exact this.2.1.1
  obtain ⟨pos, m, s1, s2, s3, s4, s5⟩ := search_spec L key P hsP P.length 0 P.length (by omega) (by omega) (by omega)
    (by simp) (by simp)
  have hl : (P.take pos).length = pos := by simp; omega
  refine ⟨A, P.take pos, P.drop pos, B, m, ⟨rel, ref, h1⟩, by simpa using h2, ?_, ?_, ?_, ?_⟩
  · rw [List.take_append_drop, hl]; exact s1
  · intro x hx
    rcases List.mem_append.1 hx with hx | hx
    · exact h3 x hx
    · exact s3 x hx
  · intro hm
    obtain ⟨y, tl, e, e2, e3⟩ := s4 hm
    refine ⟨y, tl, e, e2, ?_⟩
    intro x hx
    rcases List.mem_append.1 hx with hx | hx
    · exact e3 x hx
    · exact h4 x hx
  · intro hm x hx
    rcases List.mem_append.1 hx with hx | hx
    · exact s5 hm x hx
    · exact h4 x hx

/-! ## delete, put -/

theorem put_spec {cmp : R → R → Int} (L : CmpLaws cmp) {n : Nat} {t : Tree R} (I : Inv cmp n t) {q : Pos}
    {X : List R} {y : R} {Y : List R} (h : AtPos t q X y Y) (x : R) (hx : cmp y x = 0) :
    Inv cmp n (putAt t q x) ∧ AtPos (putAt t q x) q X x Y ∧ (putAt t q x).count = t.count := by
  have hf := h.flat
  obtain ⟨A, P1, P2, B, e1, rfl, rfl, rfl⟩ := h
  have hp : (putAt t ⟨A.length, P1.length⟩ x).tree.toList = A ++ (P1 ++ x :: P2) :: B := by
    simp [putAt, toList_setAt, e1, List.set_append]
  have hat : AtPos (putAt t ⟨A.length, P1.length⟩ x) ⟨A.length, P1.length⟩ (A.flatten ++ P1) x (P2 ++ B.flatten) :=
    ⟨A, P1, P2, B, hp, rfl, rfl, rfl⟩
  refine ⟨⟨setAt_good _ _ _ I.good, ?_, ?_, ?_, ?_, ?_⟩, hat, rfl⟩
  · intro p hp'
    rw [hp] at hp'
    have := I.ne
    rw [e1] at this
    simp only [List.mem_append, List.mem_cons] at hp' this
    rcases hp' with h | h | h
    · exact this p (.inl h)
    · subst h; simp
    · exact this p (.inr (.inr h))
  · intro p hp'
    rw [hp] at hp'
    have := I.le
    rw [e1] at this
    simp only [List.mem_append, List.mem_cons] at hp' this
    rcases hp' with h | h | h
    · exact this p (.inl h)
    · subst h; have := this _ (.inr (.inl rfl)); simpa using this
    · exact this p (.inr (.inr h))
  · rw [hat.flat]
    have := I.sorted
    rw [hf, Sorted, List.pairwise_append, List.pairwise_cons] at this
    rw [Sorted, List.pairwise_append, List.pairwise_cons]
    refine ⟨this.1, ⟨fun a ha => ?_, this.2.1.2⟩, fun a ha b hb => ?_⟩
    · exact (L.congr_left hx).2.1.1 (this.2.1.1 a ha)
    · rcases List.mem_cons.1 hb with rfl | hb
      · exact (L.congr_right hx).2.1.1 (this.2.2 a ha y (by simp))
      · exact this.2.2 a ha b (by simp [hb])
  · rw [hat.flat]; have := I.count; rw [hf] at this; simp [putAt] at *; exact this
  · rw [hp]; have := I.countPages; rw [e1] at this; simp [putAt] at *; exact this

theorem set_mid {α : Type} (A : List α) (x y : α) (B : List α) : (A ++ x :: B).set A.length y = A ++ y :: B := by
  simp [List.set_append]

theorem treeDelete_spec {cmp : R → R → Int} {n : Nat} {t : Tree R} (I : Inv cmp n t) {q : Pos}
    {X : List R} {y : R} {Y : List R} (h : AtPos t q X y Y) :
    ∃ t' q', treeDelete t q = some (t', q') ∧ Inv cmp n t' ∧ t'.flat = X ++ Y ∧ t'.count + 1 = t.count ∧
      (Y = [] → q' = none) ∧ (∀ z Z, Y = z :: Z → ∃ q'', q' = some q'' ∧ AtPos t' q'' X z Z) := by
  have hf := h.flat
  obtain ⟨A, P1, P2, B, e1, rfl, rfl, rfl⟩ := h
  have hcnt : t.count = (A.flatten ++ P1).length + (P2 ++ B.flatten).length + 1 := by
    rw [I.count, hf]; simp; omega
  have hsort := I.sorted
  rw [hf] at hsort
  have hsort' : Sorted cmp ((A.flatten ++ P1) ++ (P2 ++ B.flatten)) := by
    rw [Sorted, List.pairwise_append, List.pairwise_cons] at hsort
    rw [Sorted, List.pairwise_append]
    exact ⟨hsort.1, hsort.2.1.2, fun a ha b hb => hsort.2.2 a ha b (by simp [hb])⟩
  have hpg : t.tree.toList[A.length]? = some (P1 ++ y :: P2) := by simp [e1]
  have hne := I.ne; rw [e1] at hne
  have hle := I.le; rw [e1] at hle
  unfold treeDelete
  simp only [hpg]
  rw [if_pos (by simp)]
  by_cases hone : (P1 ++ y :: P2).length = 1
  · have h1 : P1 = [] := by
      apply List.length_eq_zero_iff.1; simp at hone; omega
    have h2 : P2 = [] := by
      apply List.length_eq_zero_iff.1; simp at hone; omega
    subst h1 h2
    rw [if_pos hone]
    obtain ⟨tree, r1, r2⟩ := rbRemove_good t.tree A.length I.good (by simp [e1])
    have r3 := toList_rbRemove _ _ _ r1
    rw [e1, List.eraseIdx_append_of_length_le (by omega)] at r3
    simp at r3
    rw [r1]
    simp only
    refine ⟨_, _, rfl, ⟨r2, ?_, ?_, ?_, ?_, ?_⟩, ?_, ?_, ?_, ?_⟩
    · intro p hp; rw [r3] at hp; apply hne; simp at hp ⊢; rcases hp with h | h <;> simp [h]
    · intro p hp; rw [r3] at hp; apply hle; simp at hp ⊢; rcases hp with h | h <;> simp [h]
    · simpa [Tree.flat, r3] using hsort'
    · simp [Tree.flat, r3, hcnt]
    · have := I.countPages; rw [e1] at this; simp [r3] at this ⊢; omega
    · simp [Tree.flat, r3]
    · simp only; omega
    · intro hB
      cases B with
      | nil => simp [e1]
      | cons b B =>
        have := hne b (by simp)
        simp at hB; exact absurd hB.1 this
    · intro z Z hz
      cases B with
      | nil => simp at hz
      | cons b B =>
        have hb := hne b (by simp)
        cases b with
        | nil => exact absurd rfl hb
        | cons b0 b =>
          refine ⟨⟨A.length, 0⟩, by simp [e1], A, [], b, B, ?_, rfl, by simp, ?_⟩
          · simp at hz; simp [r3, hz]
          · simp at hz; simp [hz]
  · rw [if_neg hone]
    have herase : (P1 ++ y :: P2).eraseIdx P1.length = P1 ++ P2 := by
      rw [List.eraseIdx_append_of_length_le (by omega)]; simp
    rw [herase]
    generalize ht' : ({ t with tree := setAt t.tree A.length (P1 ++ P2), count := t.count - 1 } : Tree R) = t'
    have hp : t'.tree.toList = A ++ (P1 ++ P2) :: B := by
      subst ht'
      simp only
      rw [toList_setAt, e1, set_mid]
    have hP : P1 ++ P2 ≠ [] := by
      intro e; apply hone
      have := congrArg List.length e
      simp at this ⊢; simp [this]
    have hI : Inv cmp n t' := by
      refine ⟨?_, ?_, ?_, ?_, ?_, ?_⟩
      · subst ht'; exact setAt_good _ _ _ I.good
      · intro p hp'; rw [hp] at hp'
        simp only [List.mem_append, List.mem_cons] at hp' hne
        rcases hp' with h | h | h
        · exact hne p (.inl h)
        · subst h; exact hP
        · exact hne p (.inr (.inr h))
      · intro p hp'; rw [hp] at hp'
        simp only [List.mem_append, List.mem_cons] at hp' hle
        rcases hp' with h | h | h
        · exact hle p (.inl h)
        · subst h; have := hle _ (.inr (.inl rfl)); simp at this ⊢; omega
        · exact hle p (.inr (.inr h))
      · rw [Tree.flat, hp]; simpa using hsort'
      · subst ht'; simp only [Tree.flat] at hp ⊢; rw [hp]; simp at hcnt ⊢; omega
      · have := I.countPages; rw [e1] at this; subst ht'; simp only at hp ⊢; rw [hp]; simp at this ⊢; omega
    have hfl : t'.flat = A.flatten ++ P1 ++ (P2 ++ B.flatten) := by simp [Tree.flat, hp]
    have hct : t'.count + 1 = t.count := by subst ht'; simp only; omega
    by_cases hlast : P1.length < (P1 ++ y :: P2).length - 1
    · rw [if_pos hlast]
      refine ⟨t', _, rfl, hI, hfl, hct, ?_, ?_⟩
      · intro hY
        have : P2 = [] := by simp at hY; exact hY.1
        subst this; simp at hlast
      · intro z Z hz
        cases P2 with
        | nil => simp at hlast
        | cons p P2 =>
          simp at hz
          exact ⟨_, rfl, A, P1, P2, B, by rw [hp, hz.1], rfl, rfl, hz.2.symm⟩
    · rw [if_neg hlast]
      have hP2 : P2 = [] := by
        apply List.length_eq_zero_iff.1
        have : (P1 ++ y :: P2).length = P1.length + P2.length + 1 := by simp; omega
        omega
      subst hP2
      refine ⟨t', _, rfl, hI, hfl, hct, ?_, ?_⟩
      · intro hB
        cases B with
        | nil => simp [e1]
        | cons b B =>
          have := hne b (by simp)
          simp at hB; exact absurd hB.1 this
      · intro z Z hz
        cases B with
        | nil => simp at hz
        | cons b B =>
          have hb := hne b (by simp)
          cases b with
          | nil => exact absurd rfl hb
          | cons b0 b =>
            refine ⟨⟨A.length + 1, 0⟩, by simp [e1], A ++ [P1], [], b, B, ?_, by simp, by simp, ?_⟩
            · simp at hz hp; simp [hp, hz]
            · simp at hz; simp [hz]

/-! ## insert -/

theorem fixup_nil {α : Type} (n : T α) : fixup n [] = n := by rfl


theorem insertAt_mid (P1 P2 : List R) (x : R) : insertAt (P1 ++ P2) P1.length x = P1 ++ x :: P2 := by
  simp [insertAt]

/-- putting a new page after page `A.length`: the page found by its first row is a neighbour -/
theorem split_spec {cmp : R → R → Int} (L : CmpLaws cmp) (t : T (List R)) (A : List (List R)) (l : List R)
    (sh : R) (stl : List R) (B : List (List R)) (hp : t.toList = A ++ l :: B) (hg : Good t)
    (hne : ∀ p ∈ A ++ l :: B, p ≠ []) (hs : Sorted cmp (A ++ l :: (sh :: stl) :: B).flatten) :
    ∃ x rel ref t', searchPage cmp t sh = some (x, rel, ref) ∧
      rbSet t (some ref) rel (sh :: stl) = some t' ∧ Good t' ∧ t'.toList = A ++ l :: (sh :: stl) :: B ∧
      (if rel > 0 then ref else ref + 1) = A.length + 1 := by
  have hsub : Sorted cmp (A ++ l :: B).flatten := by
    refine List.Pairwise.sublist ?_ hs
    simp only [List.flatten_append, List.flatten_cons]
    exact (List.Sublist.refl _).append ((List.Sublist.refl _).append (List.sublist_append_right _ _))
  obtain ⟨rc, i, A', h, tl, B', f1, f2, f3, f4, f5, f6, c, lt, rt, pt, f7, f8, f9⟩ :=
    find_list L sh t (by rw [hp]; exact hne) (by rw [hp]; exact hsub) (by rw [hp]; simp)
  have hlt : ∀ q ∈ A ++ [l], HeadLt cmp sh q := by
    intro q hq
    have hq' : q ≠ [] := hne q (by simp at hq ⊢; rcases hq with h | h <;> simp [h])
    cases q with
    | nil => exact absurd rfl hq'
    | cons a ta =>
      refine ⟨a, ta, rfl, ?_⟩
      have : (A ++ l :: (sh :: stl) :: B).flatten = (A ++ [l]).flatten ++ ((sh :: stl) :: B).flatten := by simp
      rw [Sorted, this, List.pairwise_append] at hs
      exact hs.2.2 a (List.mem_flatten.2 ⟨_, hq, by simp⟩) sh (by simp)
  have hgt : ∀ q ∈ B, HeadGt cmp sh q := by
    intro q hq
    have hq' : q ≠ [] := hne q (by simp [hq])
    cases q with
    | nil => exact absurd rfl hq'
    | cons a ta =>
      refine ⟨a, ta, rfl, ?_⟩
      have : (A ++ l :: (sh :: stl) :: B).flatten = (A ++ [l]).flatten ++ ((sh :: stl) ++ B.flatten) := by simp
      rw [Sorted, this, List.pairwise_append, List.pairwise_append] at hs
      exact (L.anti _ _).1 (hs.2.1.2.2 sh (by simp) a (List.mem_flatten.2 ⟨_, hq, by simp⟩))
  -- number of pages below
  have hcount : ∀ (U V : List (List R)), (∀ q ∈ U, HeadLt cmp sh q) → (∀ q ∈ V, HeadGt cmp sh q) →
      ((U ++ V).filter (fun q => match q with | [] => false | a :: _ => decide (cmp a sh < 0))).length = U.length := by
    intro U V hU hV
    rw [List.filter_append, List.filter_eq_self.2, List.filter_eq_nil_iff.2]
    · simp
    · intro q hq
      obtain ⟨a, ta, rfl, ha⟩ := hV q hq
      simp; omega
    · intro q hq
      obtain ⟨a, ta, rfl, ha⟩ := hU q hq
      simp; omega
  have hc1 := hcount (A ++ [l]) B hlt hgt
  rw [List.append_assoc, List.singleton_append, ← hp, f2] at hc1
  have hrc : rc ≠ 0 := by
    have hmem : (h :: tl) ∈ A ++ l :: B := by rw [← hp, f2]; simp
    have hmem' : (h :: tl) ∈ (A ++ [l]) ∨ (h :: tl) ∈ B := by rw [List.mem_append, List.mem_cons] at hmem; simp only [List.mem_append, List.mem_singleton]; rw [or_assoc]; exact hmem
    rcases hmem' with hm | hm
    · obtain ⟨a, ta, e, ha⟩ := hlt _ hm
      cases e; omega
    · obtain ⟨a, ta, e, ha⟩ := hgt _ hm
      cases e; omega
  have hsp : ∃ x, searchPage cmp t sh = some (x, rc, i) := by
    unfold searchPage; rw [f1]; simp only; split <;> exact ⟨_, rfl⟩
  obtain ⟨x, hsp⟩ := hsp
  obtain ⟨t', r1, r2, r3⟩ := rbSet_spec t i rc (sh :: stl) hg c lt (h :: tl) rt pt f7 (by
    split
    · exact f9 (by omega)
    · exact f8 (by omega))
  refine ⟨x, rc, i, t', hsp, r1, r2, ?_, ?_⟩
  · by_cases hpos : rc > 0
    · rw [if_pos hpos] at r3
      have := hcount A' ((h :: tl) :: B') f5 (by
        intro q hq
        rcases List.mem_cons.1 hq with rfl | hq
        · exact ⟨h, tl, rfl, by omega⟩
        · exact f6 q hq)
      rw [hc1] at this
      rw [r3, f3, ← this, hp]
      have e : A ++ l :: B = (A ++ [l]) ++ B := by simp
      rw [e, List.take_left, List.drop_left]; simp
    · rw [if_neg hpos] at r3
      have := hcount (A' ++ [h :: tl]) B' (by
        intro q hq
        rcases List.mem_append.1 hq with hq | hq
        · exact f5 q hq
        · simp at hq; subst hq; exact ⟨h, tl, rfl, by omega⟩) f6
      rw [List.append_assoc, List.singleton_append, hc1] at this
      have hi : i + 1 = (A ++ [l]).length := by rw [this, f3]; simp
      rw [r3, hi, hp]
      have e : A ++ l :: B = (A ++ [l]) ++ B := by simp
      rw [e, List.take_left, List.drop_left]; simp
  · by_cases hpos : rc > 0
    · have := hcount A' ((h :: tl) :: B') f5 (by
        intro q hq
        rcases List.mem_cons.1 hq with rfl | hq
        · exact ⟨h, tl, rfl, by omega⟩
        · exact f6 q hq)
      rw [hc1] at this
      rw [if_pos hpos, f3, ← this]; simp
    · have := hcount (A' ++ [h :: tl]) B' (by
        intro q hq
        rcases List.mem_append.1 hq with hq | hq
        · exact f5 q hq
        · simp at hq; subst hq; exact ⟨h, tl, rfl, by omega⟩) f6
      rw [List.append_assoc, List.singleton_append, hc1] at this
      rw [if_neg hpos, f3]; simp at this; omega

theorem treeSet_spec {cmp : R → R → Int} (L : CmpLaws cmp) {n k : Nat} (hk : 0 < k) (hkn : k < n) {t : Tree R}
    (I : Inv cmp n t) (key : R) (A : List (List R)) (P1 P2 : List R) (B : List (List R))
    (hp : t.tree.toList = A ++ (P1 ++ P2) :: B) (hlt : ∀ x ∈ A.flatten ++ P1, cmp x key < 0)
    (hgt : ∀ x ∈ P2 ++ B.flatten, 0 < cmp x key) :
    ∃ t' q', treeSet cmp n k t ⟨A.length, P1.length⟩ key = some (t', q') ∧ Inv cmp n t' ∧
      AtPos t' q' (A.flatten ++ P1) key (P2 ++ B.flatten) := by
  have hfl : t.flat = (A.flatten ++ P1) ++ (P2 ++ B.flatten) := by simp [Tree.flat, hp]
  have hsort := I.sorted
  rw [hfl, Sorted, List.pairwise_append] at hsort
  have hsort' : Sorted cmp (A.flatten ++ P1 ++ key :: (P2 ++ B.flatten)) := by
    rw [Sorted, List.pairwise_append, List.pairwise_cons]
    refine ⟨hsort.1, ⟨fun a ha => (L.anti _ _).2 (hgt a ha), hsort.2.1⟩, ?_⟩
    intro a ha b hb
    rcases List.mem_cons.1 hb with rfl | hb
    · exact hlt a ha
    · exact hsort.2.2 a ha b hb
  have hcnt : t.count + 1 = (A.flatten ++ P1 ++ key :: (P2 ++ B.flatten)).length := by
    rw [I.count, hfl]; simp; omega
  have hpg : t.tree.toList[A.length]? = some (P1 ++ P2) := by simp [hp]
  have hne := I.ne; rw [hp] at hne
  have hle := I.le; rw [hp] at hle
  have hlen := hle (P1 ++ P2) (by simp)
  have hcp := I.countPages; rw [hp] at hcp
  unfold treeSet setInto
  simp only [hpg]
  by_cases hfull : (P1 ++ P2).length = n
  · simp only [hfull, if_true]
    by_cases hr : P1.length ≥ k
    · -- the row goes to the new page
      simp only [hr, if_true]
      have e1 : (P1 ++ P2).take k = P1.take k := by
        rw [List.take_append_of_le_length hr]
      have e2 : (P1 ++ P2).drop k = P1.drop k ++ P2 := by
        rw [List.drop_append_of_le_length hr]
      have e3 : insertAt ((P1 ++ P2).drop k) (P1.length - k) key = P1.drop k ++ key :: P2 := by
        rw [e2]
        have : P1.length - k = (P1.drop k).length := by simp
        rw [this, insertAt_mid]
      have htl : (setAt t.tree A.length (P1.take k)).toList = A ++ P1.take k :: B := by
        rw [toList_setAt, hp, set_mid]
      have hl1 : P1.take k ≠ [] := by
        intro e; have := congrArg List.length e; rw [List.length_take, List.length_nil] at this; omega
      simp only [e1, e3]
      cases hsp : P1.drop k ++ key :: P2 with
      | nil => simp at hsp
      | cons sh stl =>
        simp only
        have hfl' : (A ++ P1.take k :: (sh :: stl) :: B).flatten = A.flatten ++ P1 ++ key :: (P2 ++ B.flatten) := by
          rw [← hsp]
          simp only [List.flatten_append, List.flatten_cons, List.append_assoc]
          rw [← List.append_assoc (P1.take k), List.take_append_drop]; simp
        have hne' : ∀ p ∈ A ++ P1.take k :: B, p ≠ [] := by
          intro p hp'
          simp only [List.mem_append, List.mem_cons] at hp' hne
          rcases hp' with h | h | h
          · exact hne p (.inl h)
          · subst h; exact hl1
          · exact hne p (.inr (.inr h))
        obtain ⟨x, rel, ref, t', s1, s2, s3, s4, s5⟩ := split_spec L (setAt t.tree A.length (P1.take k)) A (P1.take k)
          sh stl B htl (setAt_good _ _ _ I.good) hne' (by rw [hfl']; exact hsort')
        simp only [s1, s2, s5, if_true]
        refine ⟨_, _, rfl, ⟨s3, ?_, ?_, ?_, ?_, ?_⟩, ?_⟩
        · intro p hp'; rw [s4] at hp'
          simp only [List.mem_append, List.mem_cons] at hp' hne'
          rcases hp' with h | h | h | h
          · exact hne' p (.inl h)
          · exact hne' p (.inr (.inl h))
          · subst h; simp
          · exact hne' p (.inr (.inr h))
        · intro p hp'; rw [s4] at hp'
          simp only [List.mem_append, List.mem_cons] at hp' hle
          rcases hp' with h | h | h | h
          · exact hle p (.inl h)
          · subst h; simp at hlen ⊢; omega
          · subst h; rw [← hsp]; simp at hfull ⊢; omega
          · exact hle p (.inr (.inr h))
        · rw [Tree.flat, s4, hfl']; exact hsort'
        · simp only [Tree.flat]; rw [s4, hfl', ← hcnt]
        · simp only; rw [s4]; simp at hcp ⊢; omega
        · refine ⟨A ++ [P1.take k], P1.drop k, P2, B, ?_, ?_, ?_, rfl⟩
          · simp only; rw [s4, hsp]; simp
          · simp
          · simp
    · -- the row stays in the left page
      simp only [hr, if_false]
      have e1 : (P1 ++ P2).take k = P1 ++ P2.take (k - P1.length) := by
        rw [List.take_append, List.take_of_length_le (by omega)]
      have e2 : (P1 ++ P2).drop k = P2.drop (k - P1.length) := by
        rw [List.drop_append, List.drop_of_length_le (by omega), List.nil_append]
      have e3 : insertAt ((P1 ++ P2).take k) P1.length key = P1 ++ key :: P2.take (k - P1.length) := by
        rw [e1, insertAt_mid]
      have htl : (setAt t.tree A.length (P1 ++ key :: P2.take (k - P1.length))).toList =
          A ++ (P1 ++ key :: P2.take (k - P1.length)) :: B := by
        rw [toList_setAt, hp, set_mid]
      simp only [e3, e2]
      cases hsp : P2.drop (k - P1.length) with
      | nil =>
        have := congrArg List.length hsp
        simp at this hfull; omega
      | cons sh stl =>
        simp only
        have hfl' : (A ++ (P1 ++ key :: P2.take (k - P1.length)) :: (sh :: stl) :: B).flatten =
            A.flatten ++ P1 ++ key :: (P2 ++ B.flatten) := by
          rw [← hsp]
          simp only [List.flatten_append, List.flatten_cons, List.append_assoc, List.cons_append]
          rw [← List.append_assoc (P2.take _), List.take_append_drop]
        have hne' : ∀ p ∈ A ++ (P1 ++ key :: P2.take (k - P1.length)) :: B, p ≠ [] := by
          intro p hp'
          simp only [List.mem_append, List.mem_cons] at hp' hne
          rcases hp' with h | h | h
          · exact hne p (.inl h)
          · subst h; simp
          · exact hne p (.inr (.inr h))
        obtain ⟨x, rel, ref, t', s1, s2, s3, s4, s5⟩ := split_spec L _ A _ sh stl B htl (setAt_good _ _ _ I.good)
          hne' (by rw [hfl']; exact hsort')
        have h5 : ¬ (A.length + 1 ≤ A.length) := by omega
        simp only [s1, s2, s5, h5, if_false, Bool.false_eq_true]
        refine ⟨_, _, rfl, ⟨s3, ?_, ?_, ?_, ?_, ?_⟩, ?_⟩
        · intro p hp'; rw [s4] at hp'
          simp only [List.mem_append, List.mem_cons] at hp' hne'
          rcases hp' with h | h | h | h
          · exact hne' p (.inl h)
          · exact hne' p (.inr (.inl h))
          · subst h; simp
          · exact hne' p (.inr (.inr h))
        · intro p hp'; rw [s4] at hp'
          simp only [List.mem_append, List.mem_cons] at hp' hle
          rcases hp' with h | h | h | h
          · exact hle p (.inl h)
          · subst h; simp at hfull ⊢; omega
          · subst h; rw [← hsp]; simp at hfull ⊢; omega
          · exact hle p (.inr (.inr h))
        · rw [Tree.flat, s4, hfl']; exact hsort'
        · simp only [Tree.flat]; rw [s4, hfl', ← hcnt]
        · simp only; rw [s4]; simp at hcp ⊢; omega
        · refine ⟨A, P1, P2.take (k - P1.length), (sh :: stl) :: B, ?_, rfl, rfl, ?_⟩
          · simp only; rw [s4]
          · rw [← hsp]; simp only [List.flatten_cons]; rw [← List.append_assoc, List.take_append_drop]
  · simp only [hfull, if_false, insertAt_mid]
    have htl : (setAt t.tree A.length (P1 ++ key :: P2)).toList = A ++ (P1 ++ key :: P2) :: B := by
      rw [toList_setAt, hp, set_mid]
    have hfl' : (A ++ (P1 ++ key :: P2) :: B).flatten = A.flatten ++ P1 ++ key :: (P2 ++ B.flatten) := by simp
    refine ⟨_, _, rfl, ⟨setAt_good _ _ _ I.good, ?_, ?_, ?_, ?_, ?_⟩, ?_⟩
    · intro p hp'; simp only at hp'; rw [htl] at hp'
      simp only [List.mem_append, List.mem_cons] at hp' hne
      rcases hp' with h | h | h
      · exact hne p (.inl h)
      · subst h; simp
      · exact hne p (.inr (.inr h))
    · intro p hp'; simp only at hp'; rw [htl] at hp'
      simp only [List.mem_append, List.mem_cons] at hp' hle
      rcases hp' with h | h | h
      · exact hle p (.inl h)
      · subst h; simp at hlen hfull ⊢; omega
      · exact hle p (.inr (.inr h))
    · simp only [Tree.flat]; rw [htl, hfl']; exact hsort'
    · simp only [Tree.flat]; rw [htl, hfl', ← hcnt]
    · simp only; rw [htl]; simp at hcp ⊢; omega
    · exact ⟨A, P1, P2, B, htl, rfl, rfl, rfl⟩

theorem treeUpsert_spec {cmp : R → R → Int} (L : CmpLaws cmp) (hnorm : Normal cmp) {n k : Nat} (hk : 0 < k)
    (hkn : k < n) {t : Tree R} (I : Inv cmp n t) (key : R) :
    (∃ t' q X Y, treeUpsert cmp n k t key = some (false, t', q) ∧ Inv cmp n t' ∧ t.flat = X ++ Y ∧
      AtPos t' q X key Y ∧ (∀ x ∈ X, cmp x key < 0) ∧ (∀ x ∈ Y, 0 < cmp x key)) ∨
    (∃ q X y Y, treeUpsert cmp n k t key = some (true, t, q) ∧ AtPos t q X y Y ∧ cmp y key = 0 ∧
      (∀ x ∈ X, cmp x key < 0) ∧ (∀ x ∈ Y, 0 < cmp x key)) := by
  unfold treeUpsert
  by_cases h0 : t.countPages = 0
  · left
    have hnil : t.tree.toList = [] := by
      apply List.length_eq_zero_iff.1; rw [← I.countPages]; exact h0
    have hf : t.flat = [] := by simp [Tree.flat, hnil]
    have hc : t.count = 0 := by rw [I.count, hf]; rfl
    simp only [h0, if_true, rbSet, fixup_nil, T.blacken]
    refine ⟨_, _, [], [], rfl, ⟨⟨rfl, 1, 0, rfl, rfl, rfl⟩, ?_, ?_, ?_, ?_, ?_⟩, by simp [hf], ?_, by simp, by simp⟩
    · simp [T.toList]
    · simp [T.toList]; omega
    · simp [Tree.flat, T.toList, Sorted]
    · simp [Tree.flat, T.toList, hc]
    · simp [T.toList]
    · exact ⟨[], [], [], [], by simp [T.toList], rfl, rfl, rfl⟩
  · obtain ⟨A, P1, P2, B, m, S⟩ := seek L hnorm I h0 key
    obtain ⟨rel, ref, hpg⟩ := S.page
    have hpage : t.tree.toList[A.length]? = some (P1 ++ P2) := by simp [S.pages]
    simp only [h0, if_false, hpg, hpage, S.pos]
    cases m with
    | true =>
      right
      obtain ⟨y, tl, rfl, hy, hgt⟩ := S.hit rfl
      exact ⟨_, _, y, _, rfl, ⟨A, P1, tl, B, S.pages, rfl, rfl, rfl⟩, hy, S.lt, hgt⟩
    | false =>
      left
      obtain ⟨t', q', s1, s2, s3⟩ := treeSet_spec L hk hkn I key A P1 P2 B S.pages S.lt (S.miss rfl)
      simp only [s1]
      exact ⟨t', q', _, _, rfl, s2, by simp [Tree.flat, S.pages], s3, S.lt, S.miss rfl⟩

theorem treeReplace_spec {cmp : R → R → Int} (L : CmpLaws cmp) (hnorm : Normal cmp) {n k : Nat} (hk : 0 < k)
    (hkn : k < n) {t : Tree R} (I : Inv cmp n t) (key : R) :
    ∃ prev t' X Y, treeReplace cmp n k t key = some (prev, t') ∧ Inv cmp n t' ∧ t.flat = X ++ prev.toList ++ Y ∧
      t'.flat = X ++ key :: Y ∧ (∀ x ∈ prev, cmp x key = 0) ∧ (∀ x ∈ X, cmp x key < 0) ∧
      (∀ x ∈ Y, 0 < cmp x key) := by
  unfold treeReplace
  rcases treeUpsert_spec L hnorm hk hkn I key with ⟨t', q, X, Y, h1, h2, h3, h4, h5, h6⟩ | ⟨q, X, y, Y, h1, h2, h3, h4, h5⟩
  · rw [h1]
    exact ⟨none, t', X, Y, rfl, h2, by simp [h3], h4.flat, by simp, h5, h6⟩
  · rw [h1]
    simp only [h2.rowAt]
    obtain ⟨p1, p2, p3⟩ := put_spec L I h2 key h3
    exact ⟨some y, _, X, Y, rfl, p1, by simp [h2.flat], p2.flat, by simpa using h3, h4, h5⟩

theorem treeDeleteBy_spec {cmp : R → R → Int} (L : CmpLaws cmp) (hnorm : Normal cmp) {n : Nat} {t : Tree R}
    (I : Inv cmp n t) (key : R) :
    ∃ prev t' X Y, treeDeleteBy cmp t key = some (prev, t') ∧ Inv cmp n t' ∧ t.flat = X ++ prev.toList ++ Y ∧
      t'.flat = X ++ Y ∧ (∀ x ∈ prev, cmp x key = 0) ∧ (∀ x ∈ X, cmp x key < 0) ∧
      (∀ x ∈ Y, 0 < cmp x key) := by
  unfold treeDeleteBy
  by_cases h0 : t.countPages = 0
  · have hnil : t.tree.toList = [] := by
      apply List.length_eq_zero_iff.1; rw [← I.countPages]; exact h0
    have hf : t.flat = [] := by simp [Tree.flat, hnil]
    rw [if_pos h0]
    exact ⟨none, t, [], [], rfl, I, by simp [hf], hf, by simp, by simp, by simp⟩
  · obtain ⟨A, P1, P2, B, m, S⟩ := seek L hnorm I h0 key
    obtain ⟨rel, ref, hpg⟩ := S.page
    have hpage : t.tree.toList[A.length]? = some (P1 ++ P2) := by simp [S.pages]
    simp only [h0, if_false, hpg, hpage, S.pos]
    cases m with
    | true =>
      obtain ⟨y, tl, rfl, hy, hgt⟩ := S.hit rfl
      have hat : AtPos t ⟨A.length, P1.length⟩ (A.flatten ++ P1) y (tl ++ B.flatten) :=
        ⟨A, P1, tl, B, S.pages, rfl, rfl, rfl⟩
      obtain ⟨t', q', d1, d2, d3, d4, d5, d6⟩ := treeDelete_spec I hat
      have hrow : (P1 ++ y :: tl)[P1.length]? = some y := by simp
      simp only [d1, hrow]
      exact ⟨some y, t', _, _, rfl, d2, by simp [hat.flat], d3, by simpa using hy, S.lt, hgt⟩
    | false =>
      simp only
      exact ⟨none, t, _, _, rfl, I, by simp [Tree.flat, S.pages], by simp [Tree.flat, S.pages], by simp,
        S.lt, S.miss rfl⟩

end Verif.Index
