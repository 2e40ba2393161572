import Verif.Object.Model
import Verif.Object.Spec
set_option linter.unusedSimpArgs false
set_option linter.unusedSectionVars false
/-!
# Proofs about stored regions and objects
-/
namespace Verif.Object
open Verif Verif.Index
variable {R : Type} {cmp : R → R → Int}

theorem rowAt_ok {rows : List R} {pos : Int} (h0 : 0 ≤ pos) (h1 : pos < rows.length) :
    ∃ r, rowAt rows pos = .ok r ∧ rows[pos.toNat]? = some r := by
  unfold rowAt
  have h : pos.toNat < rows.length := by omega
  rw [if_neg (by omega)]
  simp [List.getElem?_eq_getElem h]

theorem sorted_get (hs : List.Pairwise (fun a b => cmp a b < 0) rows) {i j : Nat} {a b : R} (hij : i < j)
    (hi : rows[i]? = some a) (hj : rows[j]? = some b) : cmp a b < 0 := by
  have h1 := (List.getElem?_eq_some_iff.1 hi)
  have h2 := (List.getElem?_eq_some_iff.1 hj)
  obtain ⟨l1, rfl⟩ := h1
  obtain ⟨l2, rfl⟩ := h2
  exact List.pairwise_iff_getElem.1 hs i j l1 l2 hij

theorem regionSearchLoop_spec (L : CmpLaws cmp) {rows : List R} (key : R)
    (hs : rows.Pairwise fun a b => cmp a b < 0) : ∀ (fuel : Nat) (min max : Int),
    0 ≤ min → max < rows.length → min ≤ max + 1 → (max - min + 1) < fuel →
    (∀ (i : Nat) (a : R), (i : Int) < min → rows[i]? = some a → cmp a key < 0) →
    (∀ (i : Nat) (a : R), max < (i : Int) → rows[i]? = some a → 0 < cmp a key) →
    ∃ p m, regionSearchLoop cmp rows key fuel min max = .ok (p, m) ∧ 0 ≤ p ∧ p ≤ rows.length ∧
      (∀ (i : Nat) (a : R), (i : Int) < p → rows[i]? = some a → cmp a key < 0) ∧
      (∀ (i : Nat) (a : R), p ≤ (i : Int) → rows[i]? = some a → 0 ≤ cmp a key) ∧
      (m = true ↔ ∃ r ∈ rows, cmp r key = 0) := by
  intro fuel
  induction fuel with
  | zero => intro min max _ _ h1 h2; omega
  | succ fuel ih =>
    intro min max h0 h1 h2 h3 hlo hhi
    unfold regionSearchLoop
    by_cases hmm : max ≥ min
    · rw [if_pos hmm]
      have hm1 : min ≤ min + (max - min) / 2 := by omega
      have hm2 : min + (max - min) / 2 ≤ max := by omega
      generalize hmid : min + (max - min) / 2 = mid at *
      obtain ⟨cur, hc, hg⟩ := rowAt_ok (rows := rows) (pos := mid) (by omega) (by omega)
      simp only [hmid, hc]
      have below : cmp cur key < 0 → ∀ (i : Nat) (a : R), (i : Int) < mid + 1 → rows[i]? = some a → cmp a key < 0 := by
        intro hlt i a hi ha
        by_cases hie : i = mid.toNat
        · subst hie; rw [hg] at ha; simp only [Option.some.injEq] at ha; subst ha; exact hlt
        · exact L.le_lt (Int.le_of_lt (sorted_get hs (by omega) ha hg)) hlt
      have above : 0 < cmp cur key → ∀ (i : Nat) (a : R), mid - 1 < (i : Int) → rows[i]? = some a → 0 < cmp a key := by
        intro hlt i a hi ha
        by_cases hie : i = mid.toNat
        · subst hie; rw [hg] at ha; simp only [Option.some.injEq] at ha; subst ha; exact hlt
        · have h5 := sorted_get hs (i := mid.toNat) (j := i) (by omega) hg ha
          have h6 : cmp key cur < 0 := (L.anti key cur).2 hlt
          exact (L.anti key a).1 (L.le_lt (Int.le_of_lt h6) h5)
      by_cases hlt : cmp cur key < 0
      · rw [if_pos hlt]
        exact ih (mid + 1) max (by omega) h1 (by omega) (by omega) (below hlt) hhi
      · rw [if_neg hlt]
        by_cases hgt : cmp cur key > 0
        · rw [if_pos hgt]
          exact ih min (mid - 1) h0 (by omega) (by omega) (by omega) hlo (above hgt)
        · rw [if_neg hgt]
          have heq : cmp cur key = 0 := by omega
          refine ⟨mid, true, rfl, by omega, by omega, ?_, ?_, ?_⟩
          · intro i a hi ha
            exact L.lt_le (sorted_get hs (by omega) ha hg) (by omega)
          · intro i a hi ha
            by_cases hie : i = mid.toNat
            · subst hie; rw [hg] at ha; simp only [Option.some.injEq] at ha; subst ha; omega
            · have h5 := sorted_get hs (i := mid.toNat) (j := i) (by omega) hg ha
              have h6 : cmp key cur ≤ 0 := by have := L.anti cur key; omega
              have := (L.anti key a).1 (L.le_lt h6 h5)
              omega
          · exact ⟨fun _ => ⟨cur, List.mem_of_getElem? hg, heq⟩, fun _ => rfl⟩
    · rw [if_neg hmm]
      refine ⟨min, false, rfl, h0, by omega, hlo, ?_, ?_⟩
      · intro i a hi ha
        exact Int.le_of_lt (hhi i a (by omega) ha)
      · refine ⟨fun h => by simp at h, ?_⟩
        rintro ⟨r, hr, he⟩
        obtain ⟨i, hi⟩ := List.getElem?_of_mem hr
        rcases Int.lt_or_le (i : Int) min with h | h
        · have := hlo i r h hi; omega
        · have := hhi i r (by omega) hi; omega

theorem filter_eq_drop {rows : List R} {key : R} : ∀ {p : Nat},
    (∀ (i : Nat) (a : R), i < p → rows[i]? = some a → cmp a key < 0) →
    (∀ (i : Nat) (a : R), p ≤ i → rows[i]? = some a → 0 ≤ cmp a key) →
    rows.filter (fun r => 0 ≤ cmp r key) = rows.drop p := by
  induction rows with
  | nil => simp
  | cons r rows ih =>
    intro p h1 h2
    cases p with
    | zero =>
      have h3 := h2 0 r (by omega) rfl
      have := ih (p := 0) (by intro i a hi; omega) (by
        intro i a hi ha; exact h2 (i + 1) a (by omega) (by simpa using ha))
      simp only [List.drop_zero] at this ⊢
      rw [List.filter_cons_of_pos (by simpa using h3), this]
    | succ p =>
      have h3 := h1 0 r (by omega) rfl
      have := ih (p := p) (by
        intro i a hi ha; exact h1 (i + 1) a (by omega) (by simpa using ha)) (by
        intro i a hi ha; exact h2 (i + 1) a (by omega) (by simpa using ha))
      rw [List.filter_cons_of_neg (by simpa using h3), this, List.drop_succ_cons]

/-- the state of a region iterator: it stands before the rows `l`, the tail of its region -/
structure Standing (it : RegionIt R) (l : List R) : Prop where
  cur : it.current = l.head?
  pos : l ≠ [] → 0 ≤ it.pos ∧ l = it.rows.drop it.pos.toNat

theorem setPos_spec (it : RegionIt R) {p : Int} (h0 : 0 ≤ p) :
    ∃ it', it.setPos p = .ok it' ∧ it'.rows = it.rows ∧ Standing it' (it.rows.drop p.toNat) := by
  unfold RegionIt.setPos
  by_cases hp : p < 0 ∨ p ≥ it.rows.length
  · rw [if_pos hp]
    have hd : it.rows.drop p.toNat = [] := List.drop_eq_nil_of_le (by omega)
    exact ⟨_, rfl, rfl, by simp [hd], by simp [hd]⟩
  · rw [if_neg hp]
    obtain ⟨r, h1, h2⟩ := rowAt_ok (rows := it.rows) (pos := p) h0 (by omega)
    rw [h1]
    refine ⟨_, rfl, rfl, ?_, ?_⟩
    · simp [List.head?_drop, h2]
    · intro _; exact ⟨h0, rfl⟩

theorem next_spec {it : RegionIt R} {r : R} {l : List R} (h : Standing it (r :: l)) :
    ∃ it', it.next = .ok it' ∧ it'.rows = it.rows ∧ Standing it' l := by
  unfold RegionIt.next
  have hc := h.cur
  simp only [List.head?_cons] at hc
  rw [hc]
  obtain ⟨h0, hp⟩ := h.pos (by simp)
  obtain ⟨it', h1, h2, h3⟩ := setPos_spec it (p := it.pos + 1) (by omega)
  refine ⟨it', h1, h2, ?_⟩
  have : it.rows.drop (it.pos + 1).toNat = l := by
    rw [show (it.pos + 1).toNat = it.pos.toNat + 1 by omega, ← List.drop_drop, ← hp]
    rfl
  rwa [this] at h3

theorem regionOpen_spec (L : CmpLaws cmp) {rows : List R} (key : Option R)
    (hs : rows.Pairwise fun a b => cmp a b < 0) :
    ∃ it m, regionOpen cmp rows key = .ok (it, m) ∧ Standing it (atOrAbove cmp key rows) ∧
      (m = true ↔ ∃ k, key = some k ∧ ∃ r ∈ rows, cmp r k = 0) := by
  unfold regionOpen
  by_cases hl : rows.length = 0
  · have : rows = [] := List.length_eq_zero_iff.1 hl
    subst this
    refine ⟨_, _, if_pos rfl, ?_, by simp⟩
    have : atOrAbove cmp key ([] : List R) = [] := by cases key <;> rfl
    rw [this]
    exact ⟨rfl, by simp⟩
  · rw [if_neg hl]
    cases key with
    | none =>
      obtain ⟨it', h1, h2, h3⟩ := setPos_spec (⟨rows, 0, none⟩ : RegionIt R) (p := 0) (by omega)
      simp only [h1]
      exact ⟨_, _, rfl, by simpa [atOrAbove] using h3, by simp⟩
    | some key =>
      obtain ⟨p, m, h1, h2, h3, h4, h5, h6⟩ := regionSearchLoop_spec L key hs (rows.length + 1) 0 (rows.length - 1)
        (by omega) (by omega) (by omega) (by omega) (by intro i a h; omega) (by
          intro i a h ha
          have := (List.getElem?_eq_some_iff.1 ha).1
          omega)
      simp only [regionSearch, h1]
      obtain ⟨it', h7, h8, h9⟩ := setPos_spec (⟨rows, 0, none⟩ : RegionIt R) (p := p) h2
      simp only [h7]
      refine ⟨_, _, rfl, ?_, by simpa using h6⟩
      simp only [atOrAbove]
      rw [filter_eq_drop (p := p.toNat) (fun i a hi ha => h4 i a (by omega) ha) (fun i a hi ha => h5 i a (by omega) ha)]
      exact h9

theorem standing_reads {it : RegionIt R} {l : List R} (h : Standing it l) :
    Reads RegionIt.current RegionIt.next it l := by
  induction l generalizing it with
  | nil => exact .done _ h.cur
  | cons r l ih =>
    obtain ⟨it', h1, _, h3⟩ := next_spec h
    exact .more _ _ _ _ h.cur h1 (ih h3)

/-- a well formed object: every region has rows, the reference holds their number and the last one, and the rows of all
regions are in strictly ascending key order -/
structure WellFormed (cmp : R → R → Int) (refs : List (Stored R)) : Prop where
  count  : ∀ s ∈ refs, s.count = s.rows.length
  last   : ∀ s ∈ refs, s.rows.getLast? = some s.max
  sorted : (refs.flatMap Stored.rows).Pairwise fun a b => cmp a b < 0

theorem WellFormed.region {refs : List (Stored R)} (W : WellFormed cmp refs) {s : Stored R} (h : s ∈ refs) :
    s.rows.Pairwise fun a b => cmp a b < 0 := by
  have := W.sorted
  rw [List.flatMap_def, List.pairwise_flatten] at this
  exact this.1 _ (List.mem_map_of_mem h)

theorem WellFormed.max_mem {refs : List (Stored R)} (W : WellFormed cmp refs) {s : Stored R} (h : s ∈ refs) :
    s.max ∈ s.rows := List.mem_of_getLast? (W.last s h)

theorem WellFormed.cross {refs : List (Stored R)} (W : WellFormed cmp refs) {i j : Nat} {s t : Stored R} (hij : i < j)
    (hi : refs[i]? = some s) (hj : refs[j]? = some t) : ∀ a ∈ s.rows, ∀ b ∈ t.rows, cmp a b < 0 := by
  have := W.sorted
  rw [List.flatMap_def, List.pairwise_flatten] at this
  have h2 := this.2
  rw [List.pairwise_map] at h2
  obtain ⟨l1, rfl⟩ := List.getElem?_eq_some_iff.1 hi
  obtain ⟨l2, rfl⟩ := List.getElem?_eq_some_iff.1 hj
  exact List.pairwise_iff_getElem.1 h2 i j l1 l2 hij

theorem WellFormed.le_max (L : CmpLaws cmp) {refs : List (Stored R)} (W : WellFormed cmp refs) {s : Stored R}
    (h : s ∈ refs) : ∀ a ∈ s.rows, cmp a s.max ≤ 0 := by
  intro a ha
  have hp := W.region h
  have hl := W.last s h
  obtain ⟨i, hi⟩ := List.getElem?_of_mem ha
  rw [List.getLast?_eq_getElem?] at hl
  have hlt := (List.getElem?_eq_some_iff.1 hi).1
  by_cases he : i = s.rows.length - 1
  · subst he; rw [hi] at hl; simp only [Option.some.injEq] at hl; subst hl
    have := L.anti s.max s.max; omega
  · exact Int.le_of_lt (sorted_get hp (by omega) hi hl)

theorem metaSearchLoop_spec (L : CmpLaws cmp) {refs : List (Stored R)} (key : R) (W : WellFormed cmp refs) :
    ∀ (fuel : Nat) (b e : Int), 0 ≤ b → b ≤ e → e < refs.length → e - b < fuel →
    (∀ (i : Nat) (s : Stored R), (i : Int) < b → refs[i]? = some s → cmp s.max key < 0) →
    (∀ (i : Nat) (s : Stored R), e ≤ (i : Int) → (i : Int) + 1 < refs.length → refs[i]? = some s → 0 ≤ cmp s.max key) →
    ∃ p, metaSearchLoop cmp refs key fuel b e = .ok p ∧ 0 ≤ p ∧ p < refs.length ∧
      (∀ (i : Nat) (s : Stored R), (i : Int) < p → refs[i]? = some s → cmp s.max key < 0) ∧
      (∀ (i : Nat) (s : Stored R), p ≤ (i : Int) → (i : Int) + 1 < refs.length → refs[i]? = some s → 0 ≤ cmp s.max key) := by
  intro fuel
  induction fuel with
  | zero => intro b e _ _ _ h; omega
  | succ fuel ih =>
    intro b e h0 h1 h2 h3 hlo hhi
    unfold metaSearchLoop
    by_cases hbe : b ≠ e
    · rw [if_pos hbe]
      have hm1 : b ≤ b + (e - b) / 2 := by omega
      have hm2 : b + (e - b) / 2 < e := by omega
      generalize hmid : b + (e - b) / 2 = mid at *
      obtain ⟨ref, hc, hg⟩ := rowAt_ok (rows := refs) (pos := mid) (by omega) (by omega)
      simp only [hmid, hc]
      have hmem := List.mem_of_getElem? hg
      by_cases hlt : cmp ref.max key < 0
      · rw [if_pos hlt]
        refine ih (mid + 1) e (by omega) (by omega) h2 (by omega) ?_ hhi
        intro i s hi hs
        by_cases hie : i = mid.toNat
        · subst hie; rw [hg] at hs; simp only [Option.some.injEq] at hs; subst hs; exact hlt
        · have := W.cross (i := i) (j := mid.toNat) (by omega) hs hg _ (W.max_mem (List.mem_of_getElem? hs)) _ (W.max_mem hmem)
          exact L.le_lt (Int.le_of_lt this) hlt
      · rw [if_neg hlt]
        refine ih b mid h0 hm1 (by omega) (by omega) hlo ?_
        intro i s hi hil hs
        by_cases hie : i = mid.toNat
        · subst hie; rw [hg] at hs; simp only [Option.some.injEq] at hs; subst hs; omega
        · have h5 := W.cross (i := mid.toNat) (j := i) (by omega) hg hs _ (W.max_mem hmem) _ (W.max_mem (List.mem_of_getElem? hs))
          have h6 : cmp key ref.max ≤ 0 := by have := L.anti ref.max key; omega
          have := (L.anti key s.max).1 (L.le_lt h6 h5)
          omega
    · rw [if_neg hbe]
      rw [if_neg (by omega)]
      have : b = e := by omega
      subst this
      exact ⟨b, rfl, h0, h2, hlo, hhi⟩

theorem metaOpen_spec (L : CmpLaws cmp) {refs : List (Stored R)} (key : Option R) (W : WellFormed cmp refs) :
    ∃ m, metaOpen cmp refs key = .ok m ∧ 0 ≤ m.pos ∧ m.current = refs[m.pos.toNat]? ∧
      (key = none → m.pos = 0) ∧
      (∀ k, key = some k → (∀ (i : Nat) (s : Stored R), i < m.pos.toNat → refs[i]? = some s → cmp s.max k < 0) ∧
        (∀ (i : Nat) (s : Stored R), m.pos.toNat ≤ i → refs[i]? = some s → 0 ≤ cmp s.max k)) := by
  unfold metaOpen
  by_cases hl : refs.length = 0
  · have : refs = [] := List.length_eq_zero_iff.1 hl
    subst this
    exact ⟨_, if_pos rfl, by simp, by simp, by simp, by simp⟩
  · rw [if_neg hl]
    cases key with
    | none =>
      obtain ⟨r, h1, h2⟩ := rowAt_ok (rows := refs) (pos := 0) (by omega) (by omega)
      simp only [h1]
      exact ⟨_, rfl, by simp, by simpa using h2.symm, by simp, by simp⟩
    | some key =>
      obtain ⟨p, h1, h2, h3, h4, h5⟩ := metaSearchLoop_spec L key W (refs.length + 1) 0 (refs.length - 1)
        (by omega) (by omega) (by omega) (by omega) (by intro i a h; omega) (by intro i a h h' ha; omega)
      simp only [metaSearch, h1]
      obtain ⟨ref, h6, h7⟩ := rowAt_ok h2 h3
      simp only [h6]
      have hmem := List.mem_of_getElem? h7
      by_cases hlt : cmp ref.max key < 0
      · have hlow : ∀ (i : Nat) (s : Stored R), i < (p + 1).toNat → refs[i]? = some s → cmp s.max key < 0 := by
          intro i s hi hs
          by_cases hie : i = p.toNat
          · subst hie; rw [h7] at hs; simp only [Option.some.injEq] at hs; subst hs; exact hlt
          · exact h4 i s (by omega) hs
        have hplast : p + 1 = refs.length := by
          by_cases hq : p + 1 < refs.length
          · have := h5 p.toNat ref (by omega) (by omega) h7; omega
          · omega
        simp only [if_pos hlt]
        rw [if_pos (by omega)]
        refine ⟨_, rfl, by simp; omega, ?_, by simp, ?_⟩
        · have : refs[(p + 1).toNat]? = none := List.getElem?_eq_none (by omega)
          exact this.symm
        · intro k hk
          simp only [Option.some.injEq] at hk; subst hk
          refine ⟨hlow, ?_⟩
          intro i s hi hs
          have := (List.getElem?_eq_some_iff.1 hs).1
          simp only at hi
          omega
      · simp only [if_neg hlt]
        rw [if_neg (by omega)]
        simp only [h6]
        refine ⟨_, rfl, h2, h7.symm, by simp, ?_⟩
        intro k hk
        simp only [Option.some.injEq] at hk; subst hk
        refine ⟨fun i s hi hs => h4 i s (by simp only at hi; omega) hs, ?_⟩
        intro i s hi hs
        simp only at hi
        by_cases hie : i = p.toNat
        · subst hie; rw [h7] at hs; simp only [Option.some.injEq] at hs; subst hs; omega
        · have h8 := W.cross (i := p.toNat) (j := i) (by omega) h7 hs _ (W.max_mem hmem) _ (W.max_mem (List.mem_of_getElem? hs))
          have h9 : cmp key ref.max ≤ 0 := by have := L.anti ref.max key; omega
          have := (L.anti key s.max).1 (L.le_lt h9 h8)
          omega

/-- a branch iterator stands before the rows `l` of its region and all the regions behind it -/
structure BStanding (cmp : R → R → Int) (it : BranchIt R) (l : List R) : Prop where
  wf     : WellFormed cmp it.refs
  pos    : 0 ≤ it.meta_.pos
  cur    : it.meta_.current = it.refs[it.meta_.pos.toNat]?
  live   : it.meta_.current = none → it.region.current = none
  region : Standing it.region l

def BranchIt.rest (it : BranchIt R) : List R := (it.refs.drop (it.meta_.pos.toNat + 1)).flatMap Stored.rows

theorem branchNextLoop_spec (L : CmpLaws cmp) : ∀ (fuel : Nat) (it : BranchIt R) (l : List R), BStanding cmp it l →
    it.refs.length ≤ fuel + it.meta_.pos.toNat → 0 < fuel → it.meta_.current ≠ none →
    ∃ it' l', branchNextLoop cmp fuel it = .ok it' ∧ BStanding cmp it' l' ∧ it'.refs = it.refs ∧
      l' ++ it'.rest = l ++ it.rest ∧ (l' = [] → it'.meta_.current = none ∧ it'.rest = []) := by
  intro fuel
  induction fuel with
  | zero => intro it l B h h' ; omega
  | succ fuel ih =>
    intro it l B hf h0 hcur
    unfold branchNextLoop
    cases hc : it.region.current with
    | some r =>
      have hne : l ≠ [] := by
        intro h; have := B.region.cur; rw [hc, h] at this; simp at this
      exact ⟨it, l, rfl, B, rfl, rfl, fun h => absurd h hne⟩
    | none =>
      have hnil : l = [] := by
        have := B.region.cur; rw [hc] at this
        cases l with
        | nil => rfl
        | cons a l => simp at this
      subst hnil
      have hp := B.pos
      have hposlt : it.meta_.pos.toNat < it.refs.length := by
        have := B.cur
        rcases Nat.lt_or_ge it.meta_.pos.toNat it.refs.length with h | h
        · exact h
        · rw [List.getElem?_eq_none h] at this; exact absurd this hcur
      simp only [MetaIt.next]
      by_cases hend : it.meta_.pos + 1 ≥ it.refs.length
      · rw [if_pos hend]
        have hr : it.rest = [] := by
          unfold BranchIt.rest
          rw [List.drop_eq_nil_of_le (by omega)]; rfl
        have hr' : ∀ m : MetaIt R, m.pos = it.meta_.pos + 1 → ({ it with meta_ := m } : BranchIt R).rest = [] := by
          intro m hm
          unfold BranchIt.rest
          simp only [hm]
          rw [List.drop_eq_nil_of_le (by omega)]; rfl
        refine ⟨_, [], rfl, ⟨B.wf, by simp only; omega, ?_, fun _ => hc, B.region⟩, rfl, ?_, ?_⟩
        · exact (List.getElem?_eq_none (by simp only; omega)).symm
        · rw [hr, hr' _ rfl]
        · intro _; exact ⟨rfl, hr' _ rfl⟩
      · rw [if_neg hend]
        have epos : (it.meta_.pos + 1).toNat = it.meta_.pos.toNat + 1 := by omega
        have hp1 : 0 ≤ it.meta_.pos + 1 := by omega
        have hfl : it.refs.length ≤ fuel + (it.meta_.pos + 1).toNat := by omega
        have hf0 : 0 < fuel := by omega
        obtain ⟨ref, h1, h2⟩ := rowAt_ok (rows := it.refs) (pos := it.meta_.pos + 1) (by omega) (by omega)
        simp only [h1]
        have hmem := List.mem_of_getElem? h2
        simp only [openRegion, readRegion, B.wf.count ref hmem, if_pos]
        obtain ⟨rit, m, h3, h4, _⟩ := regionOpen_spec L none (B.wf.region hmem)
        simp only [h3]
        obtain ⟨it', l', h5, h6, h7, h8, h9⟩ := ih ⟨it.refs, ⟨it.meta_.pos + 1, some ref⟩, rit⟩ ref.rows
          ⟨B.wf, hp1, h2.symm, by simp, h4⟩ hfl hf0 (by simp)
        refine ⟨it', l', h5, h6, h7, ?_, h9⟩
        rw [h8]
        unfold BranchIt.rest
        simp only [List.nil_append]
        rw [epos] at h2 ⊢
        have hd : it.refs.drop (it.meta_.pos.toNat + 1) = ref :: it.refs.drop (it.meta_.pos.toNat + 1 + 1) := by
          obtain ⟨hlt, rfl⟩ := List.getElem?_eq_some_iff.1 h2
          exact List.drop_eq_getElem_cons hlt
        rw [hd, List.flatMap_cons]

theorem branch_reads (L : CmpLaws cmp) : ∀ (n : Nat) (it : BranchIt R) (l : List R), BStanding cmp it l →
    (l ++ it.rest).length = n → (l = [] → it.rest = []) →
    Reads BranchIt.at (BranchIt.next cmp) it (l ++ it.rest) := by
  intro n
  induction n with
  | zero =>
    intro it l B hn _
    have h0 : l ++ it.rest = [] := List.length_eq_zero_iff.1 hn
    rw [h0]
    have hl : l = [] := by simp at h0; exact h0.1
    refine .done _ ?_
    have := B.region.cur
    rw [hl] at this
    exact this
  | succ n ih =>
    intro it l B hn hemp
    cases l with
    | nil =>
      rw [hemp rfl]
      exact .done _ B.region.cur
    | cons r l =>
      have hat : it.at = some r := B.region.cur
      have hcur : it.meta_.current ≠ none := by
        intro h; have := B.live h; rw [BranchIt.at, this] at hat; simp at hat
      obtain ⟨rit, h1, h2, h3⟩ := next_spec B.region
      have Bn : BStanding cmp { it with region := rit } l := ⟨B.wf, B.pos, B.cur, fun h => absurd h hcur, h3⟩
      obtain ⟨it', l', h4, h5, h6, h7, h8⟩ := branchNextLoop_spec L (it.refs.length + 1) _ l Bn (by simp only; omega)
        (by omega) hcur
      have hnext : it.next cmp = .ok it' := by
        unfold BranchIt.next
        cases hm : it.meta_.current with
        | none => exact absurd hm hcur
        | some _ => simp only [h1]; exact h4
      have hrest : ({ it with region := rit } : BranchIt R).rest = it.rest := rfl
      rw [hrest] at h7
      rw [List.cons_append, ← h7]
      refine .more _ it' _ _ hat hnext (ih it' l' h5 ?_ ?_)
      · rw [h7]; simp at hn; simpa using hn
      · intro h; exact (h8 h).2

theorem atOrAbove_flat (L : CmpLaws cmp) {refs : List (Stored R)} (W : WellFormed cmp refs) (k : R) :
    ∀ {p : Nat},
    (∀ (i : Nat) (s : Stored R), i < p → refs[i]? = some s → cmp s.max k < 0) →
    (∀ (i : Nat) (s : Stored R), p ≤ i → refs[i]? = some s → 0 ≤ cmp s.max k) →
    (refs.flatMap Stored.rows).filter (fun r => 0 ≤ cmp r k) =
      ((refs.drop p).flatMap Stored.rows).filter (fun r => 0 ≤ cmp r k) := by
  intro p h1 _
  have e : refs.flatMap Stored.rows = (refs.take p).flatMap Stored.rows ++ (refs.drop p).flatMap Stored.rows := by
    rw [← List.flatMap_append, List.take_append_drop]
  rw [e, List.filter_append]
  have : ((refs.take p).flatMap Stored.rows).filter (fun r => 0 ≤ cmp r k) = [] := by
    rw [List.filter_eq_nil_iff]
    intro a ha
    obtain ⟨s, hs, has⟩ := List.mem_flatMap.1 ha
    obtain ⟨i, hi⟩ := List.getElem?_of_mem hs
    have hil : i < p := by
      have := (List.getElem?_eq_some_iff.1 hi).1
      simp at this; omega
    have hi' : refs[i]? = some s := by
      rw [List.getElem?_take] at hi
      simpa [hil] using hi
    have hm := h1 i s hil hi'
    have := L.le_lt (W.le_max L (List.mem_of_getElem? hi') a has) hm
    simp; omega
  rw [this, List.nil_append]

theorem branchOpen_spec (L : CmpLaws cmp) {refs : List (Stored R)} (key : Option R) (W : WellFormed cmp refs) :
    ∃ it m, branchOpen cmp refs key = .ok (it, m) ∧
      Reads BranchIt.at (BranchIt.next cmp) it (atOrAbove cmp key (refs.flatMap Stored.rows)) ∧
      (m = true ↔ ∃ k, key = some k ∧ ∃ r ∈ refs.flatMap Stored.rows, cmp r k = 0) := by
  obtain ⟨m, h1, h2, h3, h4, h5⟩ := metaOpen_spec L key W
  unfold branchOpen
  simp only [h1]
  cases hc : m.current with
  | none =>
    rw [hc] at h3
    have hlen : refs.length ≤ m.pos.toNat := List.getElem?_eq_none_iff.1 h3.symm
    refine ⟨_, _, rfl, ?_, ?_⟩
    · have : atOrAbove cmp key (refs.flatMap Stored.rows) = [] := by
        cases key with
        | none =>
          have := h4 rfl
          have : refs = [] := List.length_eq_zero_iff.1 (by omega)
          subst this; rfl
        | some k =>
          simp only [atOrAbove]
          rw [atOrAbove_flat L W k (h5 k rfl).1 (h5 k rfl).2, List.drop_eq_nil_of_le hlen]
          rfl
      rw [this]
      exact .done _ rfl
    · simp only [Bool.false_eq_true, false_iff]
      rintro ⟨k, rfl, r, hr, he⟩
      obtain ⟨s, hs, hrs⟩ := List.mem_flatMap.1 hr
      obtain ⟨i, hi⟩ := List.getElem?_of_mem hs
      have := (h5 k rfl).1 i s (by have := (List.getElem?_eq_some_iff.1 hi).1; omega) hi
      have := L.le_lt (W.le_max L hs r hrs) this
      omega
  | some ref =>
    rw [hc] at h3
    have hmem := List.mem_of_getElem? h3.symm
    simp only [openRegion, readRegion, W.count ref hmem, if_pos]
    obtain ⟨rit, b, h6, h7, h8⟩ := regionOpen_spec L key (W.region hmem)
    simp only [h6]
    have hdrop : refs.drop m.pos.toNat = ref :: refs.drop (m.pos.toNat + 1) := by
      obtain ⟨hlt, rfl⟩ := List.getElem?_eq_some_iff.1 h3.symm
      exact List.drop_eq_getElem_cons hlt
    have B : BStanding cmp ⟨refs, m, rit⟩ (atOrAbove cmp key ref.rows) := by
      refine ⟨W, h2, ?_, ?_, h7⟩
      · rw [hc]; exact h3
      · intro h; simp only [hc] at h; simp at h
    have hrest : (⟨refs, m, rit⟩ : BranchIt R).rest = (refs.drop (m.pos.toNat + 1)).flatMap Stored.rows := rfl
    have hall : atOrAbove cmp key (refs.flatMap Stored.rows) =
        atOrAbove cmp key ref.rows ++ (refs.drop (m.pos.toNat + 1)).flatMap Stored.rows := by
      cases key with
      | none =>
        have h0 := h4 rfl
        rw [h0] at hdrop ⊢
        simp only [atOrAbove]
        rw [← List.flatMap_cons, ← hdrop]
        simp
      | some k =>
        simp only [atOrAbove]
        rw [atOrAbove_flat L W k (h5 k rfl).1 (h5 k rfl).2, hdrop, List.flatMap_cons, List.filter_append]
        congr 1
        rw [List.filter_eq_self]
        intro a ha
        obtain ⟨s, hs, has⟩ := List.mem_flatMap.1 ha
        obtain ⟨j, hj⟩ := List.getElem?_of_mem hs
        rw [List.getElem?_drop] at hj
        have hx := W.cross (i := m.pos.toNat) (by omega) h3.symm hj _ (W.max_mem hmem) a has
        have hm := (h5 k rfl).2 _ ref (Nat.le_refl _) h3.symm
        have hk : cmp k ref.max ≤ 0 := by have := L.anti ref.max k; omega
        have := (L.anti k a).1 (L.le_lt hk hx)
        simp; omega
    have hne : atOrAbove cmp key ref.rows ≠ [] := by
      have hmm := W.max_mem hmem
      cases key with
      | none => intro h; simp only [atOrAbove] at h; rw [h] at hmm; simp at hmm
      | some k =>
        intro h
        simp only [atOrAbove] at h
        rw [List.filter_eq_nil_iff] at h
        have := h _ hmm
        have := (h5 k rfl).2 _ ref (Nat.le_refl _) h3.symm
        simp at *
        omega
    refine ⟨_, _, rfl, ?_, ?_⟩
    · rw [hall, ← hrest]
      exact branch_reads L _ _ _ B rfl fun h => absurd h hne
    · rw [h8]
      constructor
      · rintro ⟨k, rfl, r, hr, he⟩
        exact ⟨k, rfl, r, List.mem_flatMap.2 ⟨ref, hmem, hr⟩, he⟩
      · rintro ⟨k, rfl, r, hr, he⟩
        refine ⟨k, rfl, r, ?_, he⟩
        have hin : r ∈ atOrAbove cmp (some k) (refs.flatMap Stored.rows) := by
          simp only [atOrAbove, List.mem_filter]; exact ⟨hr, by simp; omega⟩
        rw [hall, List.mem_append] at hin
        rcases hin with hin | hin
        · simp only [atOrAbove, List.mem_filter] at hin; exact hin.1
        · exfalso
          obtain ⟨s, hs, has⟩ := List.mem_flatMap.1 hin
          obtain ⟨j, hj⟩ := List.getElem?_of_mem hs
          rw [List.getElem?_drop] at hj
          have hx := W.cross (i := m.pos.toNat) (by omega) h3.symm hj _ (W.max_mem hmem) r has
          have hm := (h5 k rfl).2 _ ref (Nat.le_refl _) h3.symm
          have hk : cmp k ref.max ≤ 0 := by have := L.anti ref.max k; omega
          have := (L.anti k r).1 (L.le_lt hk hx)
          omega

end Verif.Object
