import Verif.Index.Tree
import Verif.Index.RbProofs
/-!
# The ordered index refines a sorted list of rows
-/
set_option linter.unusedSimpArgs false
namespace Verif.Index
variable {R : Type}

/-- `compare(keys, ., .)` as a three-way comparison -/
structure CmpLaws (cmp : R → R → Int) : Prop where
  anti : ∀ a b, cmp a b < 0 ↔ 0 < cmp b a
  trans : ∀ a b c, cmp a b ≤ 0 → cmp b c ≤ 0 → cmp a c ≤ 0

namespace CmpLaws
variable {cmp : R → R → Int} (L : CmpLaws cmp)
include L
theorem le_lt {a b c : R} (h1 : cmp a b ≤ 0) (h2 : cmp b c < 0) : cmp a c < 0 := by
  refine Decidable.byContradiction fun h => ?_
  have h3 : cmp c a ≤ 0 := by have := L.anti a c; omega
  have := L.trans c a b h3 h1
  have := L.anti b c; omega
theorem lt_le {a b c : R} (h1 : cmp a b < 0) (h2 : cmp b c ≤ 0) : cmp a c < 0 := by
  refine Decidable.byContradiction fun h => ?_
  have h3 : cmp c a ≤ 0 := by have := L.anti a c; omega
  have := L.trans b c a h2 h3
  have := L.anti a b; omega
theorem symm {a b : R} (h : cmp a b = 0) : cmp b a = 0 := by
  have h1 := L.anti a b; have h2 := L.anti b a; omega
theorem gt {a b c : R} (h1 : cmp a b < 0) (h2 : 0 ≤ cmp a c) : 0 < cmp b c := by
  refine Decidable.byContradiction fun h => ?_
  have := L.lt_le h1 (by omega : cmp b c ≤ 0); omega
theorem refl (a : R) : cmp a a = 0 := by have := L.anti a a; omega
theorem congr_right {a b c : R} (h : cmp b c = 0) : (cmp a b = 0 ↔ cmp a c = 0) ∧ (cmp a b < 0 ↔ cmp a c < 0) ∧
    (0 < cmp a b ↔ 0 < cmp a c) := by
  have h' := L.symm h
  have e1 : cmp a b ≤ 0 → cmp a c ≤ 0 := fun x => L.trans _ _ _ x (by omega)
  have e2 : cmp a c ≤ 0 → cmp a b ≤ 0 := fun x => L.trans _ _ _ x (by omega)
  have e3 : cmp a b < 0 → cmp a c < 0 := fun x => L.lt_le x (by omega)
  have e4 : cmp a c < 0 → cmp a b < 0 := fun x => L.lt_le x (by omega)
  omega
theorem congr_left {a b c : R} (h : cmp a b = 0) : (cmp a c = 0 ↔ cmp b c = 0) ∧ (cmp a c < 0 ↔ cmp b c < 0) ∧
    (0 < cmp a c ↔ 0 < cmp b c) := by
  have h' := L.symm h
  have e1 : cmp a c ≤ 0 → cmp b c ≤ 0 := fun x => L.trans _ _ _ (by omega) x
  have e2 : cmp b c ≤ 0 → cmp a c ≤ 0 := fun x => L.trans _ _ _ (by omega) x
  have e3 : cmp a c < 0 → cmp b c < 0 := fun x => L.le_lt (by omega) x
  have e4 : cmp b c < 0 → cmp a c < 0 := fun x => L.le_lt (by omega) x
  omega
end CmpLaws

/-- results are only -1, 0 and 1 on the positive side: tree.c:95 tests `== 1` -/
def Normal (cmp : R → R → Int) : Prop := ∀ a b, 0 < cmp a b → cmp a b = 1

/-- strictly increasing -/
def Sorted (cmp : R → R → Int) (l : List R) : Prop := l.Pairwise fun a b => cmp a b < 0

/-! ## positions and paths -/

theorem locate_zip {α : Type} (n : T α) (p q : List (Frame α)) (j : Nat) (hj : j < n.size) :
    locate (zip n p) ((before p).length + j) q = locate n j (p ++ q) := by
  induction p generalizing n j q with
  | nil => simp [zip, before]
  | cons f up ih =>
    cases f with
    | L c v r =>
      simp only [zip, before]
      rw [ih _ _ _ (by simp [T.size, T.toList] at *; omega)]
      simp only [locate, hj, if_true, List.cons_append]
    | R c l v =>
      simp only [zip, before]
      have e : (before up ++ (l.toList ++ [v])).length + j = (before up).length + (l.size + 1 + j) := by
        simp [T.size]; omega
      rw [e, ih _ _ _ (by simp [T.size, T.toList] at *; omega)]
      have h1 : ¬ (l.size + 1 + j < l.size) := by omega
      have h2 : ¬ (l.size + 1 + j = l.size) := by omega
      have h3 : l.size + 1 + j - l.size - 1 = j := by omega
      simp only [locate, h1, h2, h3, if_false, List.cons_append]

theorem locate_at {α : Type} (c : Color) (l : T α) (v : α) (r : T α) (p : List (Frame α)) :
    locate (zip (.node c l v r) p) ((before p).length + l.size) [] = some (c, l, v, r, p) := by
  rw [locate_zip _ _ _ _ (by simp [T.size, T.toList])]
  simp [locate]

/-- sign of a page relative to the key: the sign of its first row -/
def HeadLt (cmp : R → R → Int) (key : R) (p : List R) : Prop := ∃ h tl, p = h :: tl ∧ cmp h key < 0
def HeadGt (cmp : R → R → Int) (key : R) (p : List R) : Prop := ∃ h tl, p = h :: tl ∧ 0 < cmp h key
/-- pages in order: once a page starts at or above the key the next ones start above it -/
def Mono (cmp : R → R → Int) (ps : List (List R)) : Prop :=
  (∀ p ∈ ps, p ≠ []) ∧ ps.Pairwise fun p q => ∀ a b ta tb, p = a :: ta → q = b :: tb → cmp a b < 0

/-- result of tree_find -/
structure FindRes (cmp : R → R → Int) (key : R) (whole : T (List R)) (rc : Int) (i : Nat) : Prop where
  ex : ∃ c l page r p h tl, zip (.node c l page r) p = whole ∧ page = h :: tl ∧ rc = cmp h key ∧
    i = (before p).length + l.size ∧ (∀ q ∈ before p ++ l.toList, HeadLt cmp key q) ∧
    (∀ q ∈ r.toList ++ after p, HeadGt cmp key q) ∧ (rc < 0 → r = .nil) ∧ (0 < rc → l = .nil)

theorem find_spec {cmp : R → R → Int} (L : CmpLaws cmp) (key : R) (t : T (List R)) (path : List (Frame (List R)))
    (rc0 : Int) (last : Option Nat) (hmono : Mono cmp (zip t path).toList)
    (hb : ∀ q ∈ before path, HeadLt cmp key q) (ha : ∀ q ∈ after path, HeadGt cmp key q)
    (hne : t ≠ .nil ∨ ∃ i, last = some i ∧ FindRes cmp key (zip t path) rc0 i) :
    ∃ rc i, find cmp key t (before path).length rc0 last = some (rc, i) ∧ FindRes cmp key (zip t path) rc i := by
  induction t generalizing path rc0 last with
  | nil =>
    rcases hne with h | ⟨i, rfl, h⟩
    · contradiction
    · exact ⟨rc0, i, rfl, h⟩
  | node c l page r ihl ihr =>
    have hm := hmono
    rw [toList_zip, T.toList] at hm
    obtain ⟨hm1, hm2⟩ := hm
    cases page with
    | nil => exact absurd rfl (hm1 [] (by simp))
    | cons h tl =>
      rw [find]
      have hm3 : ∀ q ∈ l.toList, ∀ a ta, q = a :: ta → cmp a h < 0 := by
        intro q hq a ta e
        rw [List.append_assoc, List.append_assoc, List.pairwise_append] at hm2
        have := (List.pairwise_append.1 hm2.2.1).2.2 q hq (h :: tl) (by simp)
        exact this a h ta tl e rfl
      have hm4 : ∀ q ∈ r.toList, ∀ a ta, q = a :: ta → cmp h a < 0 := by
        intro q hq a ta e
        rw [List.append_assoc, List.append_assoc, List.pairwise_append] at hm2
        have := (List.pairwise_append.1 hm2.2.1).2.1
        rw [List.cons_append, List.pairwise_cons] at this
        exact this.1 q (by simp [hq]) h a tl ta rfl e
      have hln : ∀ q ∈ l.toList, q ≠ [] := fun q hq => hm1 q (by simp [hq])
      have hrn : ∀ q ∈ r.toList, q ≠ [] := fun q hq => hm1 q (by simp [hq])
      have hl : cmp h key ≤ 0 → ∀ q ∈ before path ++ l.toList, HeadLt cmp key q := by
        intro hle q hq
        rcases List.mem_append.1 hq with hq | hq
        · exact hb q hq
        · cases q with
          | nil => exact absurd rfl (hln [] hq)
          | cons a ta => exact ⟨a, ta, rfl, L.lt_le (hm3 _ hq a ta rfl) hle⟩
      have hr : 0 ≤ cmp h key → ∀ q ∈ r.toList ++ after path, HeadGt cmp key q := by
        intro hle q hq
        rcases List.mem_append.1 hq with hq | hq
        · cases q with
          | nil => exact absurd rfl (hrn [] hq)
          | cons a ta => exact ⟨a, ta, rfl, L.gt (hm4 _ hq a ta rfl) hle⟩
        · exact ha q hq
      split
      · rename_i hlt
        have e : (before path).length + l.size + 1 = (before (.R c l (h :: tl) :: path)).length := by
          simp [before, T.size]; omega
        rw [e]
        refine ihr (.R c l (h :: tl) :: path) _ _ (by simpa [zip] using hmono) ?_ (by simpa [after] using ha) ?_
        · intro q hq
          simp only [before, List.mem_append, List.mem_singleton] at hq
          rcases hq with hq | hq | hq
          · exact hb q hq
          · exact hl (by omega) q (by simp [hq])
          · subst hq; exact ⟨h, tl, rfl, hlt⟩
        · by_cases hrnil : r = .nil
          · right
            refine ⟨_, rfl, ⟨c, l, h :: tl, r, path, h, tl, rfl, rfl, rfl, rfl, hl (by omega), ?_, fun _ => hrnil,
              by intro; omega⟩⟩
            subst hrnil
            simpa [T.toList] using ha
          · exact .inl hrnil
      · split
        · rename_i hgt
          have e : (before path).length = (before (.L c (h :: tl) r :: path)).length := by simp [before]
          have e2 : (before path).length + l.size = (before path).length + l.size := rfl
          rw [show find cmp key l (before path).length (cmp h key) (some ((before path).length + l.size)) =
            find cmp key l (before (.L c (h :: tl) r :: path)).length (cmp h key)
              (some ((before path).length + l.size)) from by rw [← e]]
          refine ihl (.L c (h :: tl) r :: path) _ _ (by simpa [zip] using hmono) (by simpa [before] using hb) ?_ ?_
          · intro q hq
            simp only [after, List.cons_append, List.mem_cons, List.mem_append] at hq
            rcases hq with hq | hq | hq
            · subst hq; exact ⟨h, tl, rfl, hgt⟩
            · exact hr (by omega) q (by simp [hq])
            · exact ha q hq
          · by_cases hlnil : l = .nil
            · right
              refine ⟨_, rfl, ⟨c, l, h :: tl, r, path, h, tl, rfl, rfl, rfl, rfl, ?_, hr (by omega), by intro; omega,
                fun _ => hlnil⟩⟩
              subst hlnil
              simpa [T.toList] using hb
            · exact .inl hlnil
        · exact ⟨_, _, rfl, ⟨c, l, h :: tl, r, path, h, tl, rfl, rfl, rfl, rfl, hl (by omega), hr (by omega),
            by intro; omega, by intro; omega⟩⟩

theorem sorted_flatten_mono {cmp : R → R → Int} {ps : List (List R)} (hne : ∀ p ∈ ps, p ≠ [])
    (hs : Sorted cmp ps.flatten) : Mono cmp ps := by
  refine ⟨hne, ?_⟩
  induction ps with
  | nil => exact .nil
  | cons p ps ih =>
    rw [List.pairwise_cons]
    rw [Sorted, List.flatten_cons, List.pairwise_append] at hs
    refine ⟨?_, ih (fun q hq => hne q (by simp [hq])) hs.2.1⟩
    intro q hq a b ta tb e1 e2
    subst e1 e2
    exact hs.2.2 a (by simp) b (List.mem_flatten.2 ⟨_, hq, by simp⟩)

/-- tree_find on a sorted tree: pages before the result start below the key, pages after it start above -/
theorem find_list {cmp : R → R → Int} (L : CmpLaws cmp) (key : R) (t : T (List R)) (hne : ∀ p ∈ t.toList, p ≠ [])
    (hs : Sorted cmp t.toList.flatten) (hn : t.toList ≠ []) :
    ∃ rc i A h tl B, find cmp key t 0 0 none = some (rc, i) ∧ t.toList = A ++ (h :: tl) :: B ∧ i = A.length ∧
      rc = cmp h key ∧ (∀ q ∈ A, HeadLt cmp key q) ∧ (∀ q ∈ B, HeadGt cmp key q) ∧
      ∃ c l r p, locate t i [] = some (c, l, h :: tl, r, p) ∧ (rc < 0 → r = .nil) ∧ (0 < rc → l = .nil) := by
  have hnil : t ≠ .nil := by intro e; subst e; exact hn rfl
  obtain ⟨rc, i, h1, ⟨c, l, page, r, p, h, tl, e1, e2, e3, e4, e5, e6, e7, e8⟩⟩ :=
    find_spec L key t [] 0 none (sorted_flatten_mono hne hs) (by simp [before]) (by simp [after]) (.inl hnil)
  simp only [zip] at e1
  subst e2
  refine ⟨rc, i, before p ++ l.toList, h, tl, r.toList ++ after p, h1, ?_, ?_, e3, e5, e6, c, l, r, p, ?_, e7, e8⟩
  · rw [← e1, toList_zip]; simp [T.toList]
  · simp [e4, T.size]
  · rw [← e1, e4]; exact locate_at _ _ _ _ _

theorem mem_flatten_lt {cmp : R → R → Int} (L : CmpLaws cmp) {key : R} {A : List (List R)} {P : List R} {h : R}
    {tl : List R} {B : List (List R)} (e : P = h :: tl) (hs : Sorted cmp (A ++ P :: B).flatten) (hk : cmp h key ≤ 0) :
    ∀ x ∈ A.flatten, cmp x key < 0 := by
  intro x hx
  subst e
  rw [Sorted, List.flatten_append, List.pairwise_append] at hs
  exact L.lt_le (hs.2.2 x hx h (by simp)) hk

theorem mem_flatten_gt {cmp : R → R → Int} (L : CmpLaws cmp) {key : R} {B : List (List R)}
    (hs : Sorted cmp B.flatten) (hB : ∀ q ∈ B, HeadGt cmp key q) : ∀ x ∈ B.flatten, 0 < cmp x key := by
  intro x hx
  obtain ⟨q, hq, hxq⟩ := List.mem_flatten.1 hx
  obtain ⟨h, tl, rfl, hh⟩ := hB q hq
  rcases List.mem_cons.1 hxq with rfl | hx'
  · exact hh
  · have : cmp h x < 0 := by
      obtain ⟨A, C, rfl⟩ := List.append_of_mem hq
      rw [Sorted, List.flatten_append, List.pairwise_append, List.flatten_cons, List.pairwise_append] at hs
      exact (List.pairwise_cons.1 hs.2.1.1).1 x hx'
    exact L.gt this (by omega)

/-- the page a key belongs to -/
theorem searchPage_spec {cmp : R → R → Int} (L : CmpLaws cmp) (hnorm : Normal cmp) (key : R) (t : T (List R))
    (hne : ∀ p ∈ t.toList, p ≠ []) (hs : Sorted cmp t.toList.flatten) (hn : t.toList ≠ []) :
    ∃ A P B rel ref, searchPage cmp t key = some (A.length, rel, ref) ∧ t.toList = A ++ P :: B ∧
      (∀ x ∈ A.flatten, cmp x key < 0) ∧ (∀ x ∈ B.flatten, 0 < cmp x key) := by
  obtain ⟨rc, i, A, h, tl, B, f1, f2, f3, f4, f5, f6, -⟩ := find_list L key t hne hs hn
  have hs' := hs
  rw [f2] at hs'
  have hsB : Sorted cmp B.flatten := by
    rw [Sorted, List.flatten_append, List.pairwise_append, List.flatten_cons, List.pairwise_append] at hs'
    exact hs'.2.1.2.1
  unfold searchPage
  rw [f1]
  simp only
  by_cases hrc : rc = 1 ∧ i > 0
  · rw [if_pos hrc]
    have hA : A ≠ [] := by intro e; rw [e] at f3; simp at f3; omega
    obtain ⟨A', P', rfl⟩ : ∃ A' P', A = A' ++ [P'] := ⟨A.dropLast, A.getLast hA, (List.dropLast_concat_getLast hA).symm⟩
    obtain ⟨a, ta, e, ha⟩ := f5 P' (by simp)
    refine ⟨A', P', (h :: tl) :: B, rc, i, ?_, by simp [f2], ?_, ?_⟩
    · have : i - 1 = A'.length := by simp at f3; omega
      rw [this]
    · exact mem_flatten_lt (B := (h :: tl) :: B) L e (by simpa using hs') (by omega)
    · refine mem_flatten_gt L ?_ ?_
      · rw [Sorted, List.flatten_append, List.pairwise_append] at hs'; exact hs'.2.1
      · intro q hq
        rcases List.mem_cons.1 hq with rfl | hq
        · exact ⟨h, tl, rfl, by omega⟩
        · exact f6 q hq
  · rw [if_neg hrc]
    refine ⟨A, h :: tl, B, rc, i, by rw [f3], f2, ?_, mem_flatten_gt L hsB f6⟩
    by_cases hle : rc ≤ 0
    · exact mem_flatten_lt L rfl hs' (by omega)
    · have := hnorm h key (by omega)
      have : A.length = 0 := by omega
      have : A = [] := List.length_eq_zero_iff.1 this
      subst this; simp

/-- binary search inside of a page -/
theorem search_spec {cmp : R → R → Int} (L : CmpLaws cmp) (key : R) (page : List R) (hs : Sorted cmp page) (fuel : Nat)
    (lo hi : Nat) (hlo : lo ≤ hi) (hhi : hi ≤ page.length) (hf : hi - lo ≤ fuel)
    (h1 : ∀ x ∈ page.take lo, cmp x key < 0) (h2 : ∀ x ∈ page.drop hi, 0 < cmp x key) :
    ∃ pos m, search cmp key page fuel lo hi = some (pos, m) ∧ pos ≤ page.length ∧
      (∀ x ∈ page.take pos, cmp x key < 0) ∧
      (m = true → ∃ y tl, page.drop pos = y :: tl ∧ cmp y key = 0 ∧ ∀ x ∈ tl, 0 < cmp x key) ∧
      (m = false → ∀ x ∈ page.drop pos, 0 < cmp x key) := by
  induction fuel generalizing lo hi with
  | zero =>
    have : lo = hi := by omega
    subst this
    refine ⟨lo, false, by simp [search], hhi, h1, by simp, fun _ => h2⟩
  | succ fuel ih =>
    rw [search]
    split
    · rename_i hgt
      simp only
      have hmid : lo + (hi - 1 - lo) / 2 < hi := by omega
      have hmid2 : lo ≤ lo + (hi - 1 - lo) / 2 := by omega
      generalize lo + (hi - 1 - lo) / 2 = mid at hmid hmid2
      rw [List.getElem?_eq_getElem (by omega)]
      simp only
      have hd : page.drop mid = page[mid] :: page.drop (mid + 1) := (List.drop_eq_getElem_cons (by omega))
      have hsp := hs
      rw [← List.take_append_drop mid page, Sorted, List.pairwise_append, hd, List.pairwise_cons] at hsp
      have hlt : cmp page[mid] key ≤ 0 → ∀ x ∈ page.take mid, cmp x key < 0 := by
        intro h x hx
        exact L.lt_le (hsp.2.2 x hx _ List.mem_cons_self) h
      have hgt' : 0 ≤ cmp page[mid] key → ∀ x ∈ page.drop (mid + 1), 0 < cmp x key := by
        intro h x hx
        exact L.gt (hsp.2.1.1 x hx) h
      split
      · rename_i hc
        refine ih (mid + 1) hi (by omega) hhi (by omega) ?_ h2
        intro x hx
        rw [List.take_succ_eq_append_getElem (by omega)] at hx
        rcases List.mem_append.1 hx with hx | hx
        · exact hlt (by omega) x hx
        · rw [List.mem_singleton] at hx; rw [hx]; exact hc
      · split
        · rename_i hc
          refine ih lo mid (by omega) (by omega) (by omega) h1 ?_
          intro x hx
          rw [hd] at hx
          rcases List.mem_cons.1 hx with rfl | hx
          · exact hc
          · exact hgt' (by omega) x hx
        · exact ⟨mid, true, rfl, by omega, hlt (by omega),
            fun _ => ⟨_, _, hd, by omega, hgt' (by omega)⟩, by simp⟩
    · rename_i hgt
      have : lo = hi := by omega
      subst this
      exact ⟨lo, false, rfl, hhi, h1, by simp, fun _ => h2⟩

end Verif.Index
