import Verif.Index.TreeScan
/-!
# Merging iterators

db/index/index_tree_merge.h (ordered scan over the partitions of a table) and db/object/merge_iterator.h (layered
storage). Both are modelled over an arbitrary iterator `at : S → Option R`, `next : S → S`.
-/
set_option linter.unusedSimpArgs false
namespace Verif.Index.Merge
open Verif.Index (CmpLaws Normal)
variable {S R : Type}

/-- the rows an iterator shows from here to its end -/
inductive Visits (at_ : S → Option R) (next : S → S) : S → List R → Prop
  | done (s : S) : at_ s = none → Visits at_ next s []
  | more (s : S) (r : R) (l : List R) : at_ s = some r → Visits at_ next (next s) l → Visits at_ next s (r :: l)

/-- an iterator shows one sequence of rows only -/
theorem Visits.unique {at_ : S → Option R} {next : S → S} {s : S} {l l' : List R} (h : Visits at_ next s l)
    (h' : Visits at_ next s l') : l = l' := by
  induction h generalizing l' with
  | done s h =>
    cases h' with
    | done => rfl
    | more _ _ _ h2 _ => rw [h] at h2; simp at h2
  | more s r l h _ ih =>
    cases h' with
    | done _ h2 => rw [h] at h2; simp at h2
    | more _ _ _ h2 h3 =>
      rw [h] at h2
      simp only [Option.some.injEq] at h2
      subst h2
      rw [ih h3]

/-! ## index_tree_merge -/

/-- IndexTreeMerge, index_tree_merge.h:16-22; `cur`: position of current_it -/
structure TreeMerge (S : Type) where
  list : List S
  cur : Option Nat

/-- the loop of index_tree_merge_step over the rows the iterators are at, index_tree_merge.h:43-69: the minimum moves
only if `compare` returns exactly 1 -/
def pickMin (cmp : R → R → Int) : List (Option R) → Nat → Option (Nat × R) → Option (Nat × R)
  | [], _, best => best
  | none :: l, pos, best => pickMin cmp l (pos + 1) best
  | some row :: l, pos, none => pickMin cmp l (pos + 1) (some (pos, row))
  | some row :: l, pos, some (i, min) =>
      if cmp min row = 1 then pickMin cmp l (pos + 1) (some (pos, row)) else pickMin cmp l (pos + 1) (some (i, min))

/-- index_tree_merge_step, index_tree_merge.h:30-72 -/
def TreeMerge.step (at_ : S → Option R) (next : S → S) (cmp : R → R → Int) (m : TreeMerge S) : TreeMerge S :=
  let list := match m.cur with
    | none => m.list
    | some i => m.list.modify i next
  ⟨list, (pickMin cmp (list.map at_) 0 none).map (·.1)⟩

/-- index_tree_merge_open, index_tree_merge.h:74-87: the iterators are already opened -/
def TreeMerge.open (at_ : S → Option R) (next : S → S) (cmp : R → R → Int) (list : List S) : TreeMerge S :=
  TreeMerge.step at_ next cmp ⟨list, none⟩

/-- index_tree_merge_at, index_tree_merge.h:96-103 -/
def TreeMerge.at (at_ : S → Option R) (m : TreeMerge S) : Option R :=
  match m.cur with
  | none => none
  | some i => match m.list[i]? with
    | some s => at_ s
    | none => none

/-! ## merge_iterator -/

/-- MergeIterator, merge_iterator.h:23-32: the sources with their `advance` flags; `cur`: position of current -/
structure MergeIt (S : Type) where
  list : List (S × Bool)
  cur : Option Nat

/-- the second loop of merge_iterator_next, merge_iterator.h:79-107: `flags` are the advance flags of all sources -/
def pickMerge (cmp : R → R → Int) : List (Option R) → Nat → List Bool → Option (Nat × R) → List Bool × Option (Nat × R)
  | [], _, flags, best => (flags, best)
  | none :: l, pos, flags, best => pickMerge cmp l (pos + 1) flags best
  | some row :: l, pos, flags, none => pickMerge cmp l (pos + 1) (flags.set pos true) (some (pos, row))
  | some row :: l, pos, flags, some (i, min) =>
      if cmp min row = 0 then pickMerge cmp l (pos + 1) (flags.set pos true) (some (i, min))
      else if cmp min row > 0 then
        pickMerge cmp l (pos + 1) ((List.replicate flags.length false).set pos true) (some (pos, row))
      else pickMerge cmp l (pos + 1) flags (some (i, min))

/-- merge_iterator_next, merge_iterator.h:64-109 -/
def MergeIt.next (at_ : S → Option R) (next : S → S) (cmp : R → R → Int) (m : MergeIt S) : MergeIt S :=
  let list := m.list.map fun p => if p.2 then next p.1 else p.1
  let res := pickMerge cmp (list.map at_) 0 (list.map fun _ => false) none
  ⟨list.zip res.1, res.2.map (·.1)⟩

/-- merge_iterator_add and merge_iterator_open, merge_iterator.h:34-51 -/
def MergeIt.open (at_ : S → Option R) (next : S → S) (cmp : R → R → Int) (list : List S) : MergeIt S :=
  MergeIt.next at_ next cmp ⟨list.map fun s => (s, false), none⟩

/-- merge_iterator_at, merge_iterator.h:59-65 -/
def MergeIt.at (at_ : S → Option R) (m : MergeIt S) : Option R :=
  match m.cur with
  | none => none
  | some i => match m.list[i]? with
    | some s => at_ s.1
    | none => none

/-! ## Proofs -/

/-- the sources show these sequences -/
def AllVisit (at_ : S → Option R) (next : S → S) : List S → List (List R) → Prop
  | [], [] => True
  | s :: l, v :: vs => Visits at_ next s v ∧ AllVisit at_ next l vs
  | _, _ => False

theorem Visits.head {at_ : S → Option R} {next : S → S} {s : S} {l : List R} (h : Visits at_ next s l) :
    at_ s = l.head? := by
  cases h <;> simp_all

theorem AllVisit.heads {at_ : S → Option R} {next : S → S} {l : List S} {vs : List (List R)}
    (h : AllVisit at_ next l vs) : l.map at_ = vs.map List.head? := by
  induction l generalizing vs with
  | nil => cases vs <;> simp_all [AllVisit]
  | cons s l ih =>
    cases vs with
    | nil => simp [AllVisit] at h
    | cons v vs => simp only [AllVisit] at h; simp [h.1.head, ih h.2]

theorem AllVisit.length {at_ : S → Option R} {next : S → S} {l : List S} {vs : List (List R)}
    (h : AllVisit at_ next l vs) : l.length = vs.length := by
  have := congrArg List.length h.heads
  simpa using this

theorem AllVisit.get {at_ : S → Option R} {next : S → S} {l : List S} {vs : List (List R)}
    (h : AllVisit at_ next l vs) (i : Nat) (s : S) (hs : l[i]? = some s) : ∃ v, vs[i]? = some v ∧ Visits at_ next s v := by
  induction l generalizing vs i with
  | nil => simp at hs
  | cons x l ih =>
    cases vs with
    | nil => simp [AllVisit] at h
    | cons v vs =>
      simp only [AllVisit] at h
      cases i with
      | zero => simp at hs; subst hs; exact ⟨v, rfl, h.1⟩
      | succ i => exact ih h.2 i (by simpa using hs)

theorem AllVisit.modify {at_ : S → Option R} {next : S → S} {l : List S} {vs : List (List R)}
    (h : AllVisit at_ next l vs) (i : Nat) (r : R) (t : List R) (hi : vs[i]? = some (r :: t)) :
    AllVisit at_ next (l.modify i next) (vs.set i t) := by
  induction l generalizing vs i with
  | nil => cases vs <;> simp_all [AllVisit]
  | cons x l ih =>
    cases vs with
    | nil => simp [AllVisit] at h
    | cons v vs =>
      simp only [AllVisit] at h
      cases i with
      | zero =>
        simp at hi; subst hi
        cases h.1 with
        | more _ _ _ h1 h2 => simpa [AllVisit] using ⟨h2, h.2⟩
      | succ i => simpa [AllVisit] using ⟨h.1, ih h.2 i (by simpa using hi)⟩

/-- what pickMin returns -/
theorem pickMin_spec {cmp : R → R → Int} (L : CmpLaws cmp) (hn : Normal cmp) :
    ∀ (l : List (Option R)) (pre : List (Option R)) (best : Option (Nat × R)),
    (match best with
      | none => ∀ x ∈ pre, x = none
      | some (i, m) => pre[i]? = some (some m) ∧ ∀ r, some r ∈ pre → cmp m r ≤ 0) →
    (match pickMin cmp l pre.length best with
      | none => ∀ x ∈ pre ++ l, x = none
      | some (i, m) => (pre ++ l)[i]? = some (some m) ∧ ∀ r, some r ∈ pre ++ l → cmp m r ≤ 0) := by
  intro l
  induction l with
  | nil => intro pre best h; simpa [pickMin] using h
  | cons x l ih =>
    intro pre best h
    have hl : (pre ++ [x]).length = pre.length + 1 := by simp
    have e : pre ++ x :: l = (pre ++ [x]) ++ l := by simp
    rw [e]
    cases x with
    | none =>
      have := ih (pre ++ [none]) best (by
        cases best with
        | none => intro x hx; simp at hx; rcases hx with hx | hx; exact h x hx; exact hx
        | some b =>
          refine ⟨?_, by simpa using h.2⟩
          have hlt := (List.getElem?_eq_some_iff.1 h.1).1
          rw [List.getElem?_append_left hlt]; exact h.1)
      rw [hl] at this
      simpa only [pickMin] using this
    | some row =>
      cases best with
      | none =>
        have := ih (pre ++ [some row]) (some (pre.length, row)) ⟨by simp, by
          intro r hr
          simp only [List.mem_append, List.mem_singleton, Option.some.injEq] at hr
          rcases hr with hr | rfl
          · have := h _ hr; simp at this
          · rw [L.refl]; omega⟩
        rw [hl] at this
        simpa only [pickMin] using this
      | some b =>
        obtain ⟨i, m⟩ := b
        have hnm := hn m row
        simp only [pickMin]
        by_cases hc : cmp m row = 1
        · rw [if_pos hc]
          have := ih (pre ++ [some row]) (some (pre.length, row)) ⟨by simp, by
            intro r hr
            simp only [List.mem_append, List.mem_singleton, Option.some.injEq] at hr
            rcases hr with hr | rfl
            · have h1 := h.2 r hr
              have h2 : cmp row m < 0 := (L.anti row m).2 (by omega)
              have := L.lt_le h2 h1; omega
            · rw [L.refl]; omega⟩
          rw [hl] at this
          exact this
        · rw [if_neg hc]
          have := ih (pre ++ [some row]) (some (i, m)) ⟨by
              have hlt := (List.getElem?_eq_some_iff.1 h.1).1
              rw [List.getElem?_append_left hlt]; exact h.1, by
            intro r hr
            simp only [List.mem_append, List.mem_singleton, Option.some.injEq] at hr
            rcases hr with hr | rfl
            · exact h.2 r hr
            · omega⟩
          rw [hl] at this
          exact this

theorem flatten_set {vs : List (List R)} {i : Nat} {r : R} {t : List R} (h : vs[i]? = some (r :: t)) :
    vs.flatten.Perm (r :: (vs.set i t).flatten) := by
  induction vs generalizing i with
  | nil => simp at h
  | cons v vs ih =>
    cases i with
    | zero => simp at h; subst h; simp
    | succ i =>
      simp only [List.getElem?_cons_succ] at h
      simp only [List.flatten_cons, List.set_cons_succ]
      exact (List.Perm.append_left v (ih h)).trans List.perm_middle

theorem sorted_set {cmp : R → R → Int} {vs : List (List R)} {i : Nat} {r : R} {t : List R} (h : vs[i]? = some (r :: t))
    (hs : ∀ v ∈ vs, v.Pairwise fun a b => cmp a b < 0) : ∀ v ∈ vs.set i t, v.Pairwise fun a b => cmp a b < 0 := by
  intro v hv
  rcases List.mem_or_eq_of_mem_set hv with h1 | rfl
  · exact hs v h1
  · have := hs _ (List.mem_of_getElem? h)
    exact (List.pairwise_cons.1 this).2

theorem heads_le {cmp : R → R → Int} (L : CmpLaws cmp) {vs : List (List R)} {m : R}
    (hs : ∀ v ∈ vs, v.Pairwise fun a b => cmp a b < 0) (hh : ∀ r, some r ∈ vs.map List.head? → cmp m r ≤ 0) :
    ∀ x ∈ vs.flatten, cmp m x ≤ 0 := by
  intro x hx
  obtain ⟨v, hv, hxv⟩ := List.mem_flatten.1 hx
  cases v with
  | nil => simp at hxv
  | cons a v =>
    have h1 := hh a (List.mem_map.2 ⟨a :: v, hv, rfl⟩)
    rcases List.mem_cons.1 hxv with rfl | h
    · exact h1
    · have := (List.pairwise_cons.1 (hs _ hv)).1 x h
      exact L.trans _ _ _ h1 (by omega)

theorem treeMerge_loop {at_ : S → Option R} {next : S → S} {cmp : R → R → Int} (L : CmpLaws cmp) (hn : Normal cmp) :
    ∀ (n : Nat) (list : List S) (vs : List (List R)), vs.flatten.length = n → AllVisit at_ next list vs →
    (∀ v ∈ vs, v.Pairwise fun a b => cmp a b < 0) →
    ∃ l, Visits (TreeMerge.at at_) (TreeMerge.step at_ next cmp)
        ⟨list, (pickMin cmp (list.map at_) 0 none).map (·.1)⟩ l ∧
      l.Perm vs.flatten ∧ l.Pairwise fun a b => cmp a b ≤ 0 := by
  intro n
  induction n with
  | zero =>
    intro list vs hlen hv _
    have hnil : vs.flatten = [] := List.length_eq_zero_iff.1 hlen
    refine ⟨[], .done _ ?_, by rw [hnil], .nil⟩
    have hp := pickMin_spec L hn (list.map at_) [] none (by simp)
    simp only [List.nil_append, List.length_nil] at hp
    cases hpk : pickMin cmp (list.map at_) 0 none with
    | none => simp [TreeMerge.at]
    | some b =>
      rw [hpk] at hp
      simp only at hp
      have hb := hp.1
      rw [hv.heads, List.getElem?_map] at hb
      cases hvi : vs[b.1]? with
      | none => rw [hvi] at hb; simp at hb
      | some v =>
        rw [hvi] at hb
        have : v = [] := by
          have := List.mem_of_getElem? hvi
          cases v with
          | nil => rfl
          | cons a v => exact absurd (List.mem_flatten.2 ⟨_, this, by simp⟩ : a ∈ vs.flatten) (by rw [hnil]; simp)
        subst this
        simp at hb
  | succ n ih =>
    intro list vs hlen hv hs
    have hp := pickMin_spec L hn (list.map at_) [] none (by simp)
    simp only [List.nil_append, List.length_nil] at hp
    cases hpk : pickMin cmp (list.map at_) 0 none with
    | none =>
      rw [hpk] at hp
      simp only at hp
      rw [hv.heads] at hp
      have : vs.flatten = [] := by
        rw [List.flatten_eq_nil_iff]
        intro v hvm
        have := hp _ (List.mem_map.2 ⟨v, hvm, rfl⟩)
        simpa using this
      rw [this] at hlen; simp at hlen
    | some b =>
      obtain ⟨i, m⟩ := b
      rw [hpk] at hp
      simp only at hp
      obtain ⟨hb, hle⟩ := hp
      have hbl := hb
      rw [List.getElem?_map] at hbl
      cases hli : list[i]? with
      | none => rw [hli] at hbl; simp at hbl
      | some s =>
      rw [hli] at hbl
      simp only [Option.map_some, Option.some.injEq] at hbl
      obtain ⟨v, hvi, hvv⟩ := hv.get i s hli
      have hhead := hvv.head
      rw [hbl] at hhead
      cases v with
      | nil => simp at hhead
      | cons a t =>
        simp at hhead; subst hhead
        have hfl := flatten_set hvi
        obtain ⟨l, h1, h2, h3⟩ := ih (list.modify i next) (vs.set i t)
          (by have := hfl.length_eq; rw [hlen] at this; simpa using this.symm) (hv.modify i m t hvi) (sorted_set hvi hs)
        refine ⟨m :: l, .more _ m l ?_ ?_, ?_, ?_⟩
        · simp [TreeMerge.at, hli, hbl]
        · simpa [TreeMerge.step] using h1
        · exact (List.Perm.cons m h2).trans hfl.symm
        · rw [hv.heads] at hle
          refine List.pairwise_cons.2 ⟨?_, h3⟩
          intro x hx
          exact heads_le L hs hle x (hfl.mem_iff.2 (List.mem_cons_of_mem _ (h2.mem_iff.1 hx)))

/-! ### merge_iterator -/

/-- state of the second loop after the heads `pre` -/
def PickInv (cmp : R → R → Int) (pre : List (Option R)) (flags : List Bool) (best : Option (Nat × R)) : Prop :=
  match best with
  | none => (∀ x ∈ pre, x = none) ∧ ∀ (j : Nat), flags[j]? ≠ some true
  | some (i, m) => pre[i]? = some (some m) ∧ (∀ (j : Nat) (r : R), pre[j]? = some (some r) → cmp m r ≤ 0) ∧
      (∀ (j : Nat) (r : R), j < i → pre[j]? = some (some r) → cmp m r ≠ 0) ∧
      ∀ (j : Nat), flags[j]? = some true ↔ ∃ r, pre[j]? = some (some r) ∧ cmp m r = 0

theorem get_snoc {pre : List (Option R)} {x : Option R} {j : Nat} {r : R} :
    (pre ++ [x])[j]? = some (some r) ↔ pre[j]? = some (some r) ∨ (j = pre.length ∧ x = some r) := by
  rcases Nat.lt_trichotomy j pre.length with h | h | h
  · rw [List.getElem?_append_left h]
    exact ⟨.inl, fun h' => h'.resolve_right (by omega)⟩
  · subst h; simp
  · rw [List.getElem?_eq_none (by simp; omega), List.getElem?_eq_none (by omega)]
    simp; omega

theorem pickMerge_spec {cmp : R → R → Int} (L : CmpLaws cmp) :
    ∀ (l pre : List (Option R)) (flags : List Bool) (best : Option (Nat × R)), PickInv cmp pre flags best →
      flags.length = pre.length + l.length →
      PickInv cmp (pre ++ l) (pickMerge cmp l pre.length flags best).1 (pickMerge cmp l pre.length flags best).2 ∧
      (pickMerge cmp l pre.length flags best).1.length = flags.length := by
  intro l
  induction l with
  | nil => intro pre flags best h _; simpa [pickMerge] using h
  | cons x l ih =>
    intro pre flags best h hlen
    have hl : (pre ++ [x]).length = pre.length + 1 := by simp
    have e : pre ++ x :: l = (pre ++ [x]) ++ l := by simp
    rw [e]
    have hpl : pre.length < flags.length := by simp at hlen; omega
    cases x with
    | none =>
      have := ih (pre ++ [none]) flags best (by
        cases best with
        | none => exact ⟨by intro x hx; simp at hx; rcases hx with hx | hx; exact h.1 x hx; exact hx, h.2⟩
        | some b =>
          obtain ⟨h1, h2, h3, h4⟩ := h
          simp only [PickInv, get_snoc]
          refine ⟨.inl h1, ?_, ?_, ?_⟩
          · rintro j r (hj | ⟨_, hj⟩)
            · exact h2 j r hj
            · simp at hj
          · rintro j r hji (hj | ⟨_, hj⟩)
            · exact h3 j r hji hj
            · simp at hj
          · intro j; rw [h4 j]; simp) (by simp at hlen ⊢; omega)
      rw [hl] at this
      simpa only [pickMerge] using this
    | some row =>
      cases best with
      | none =>
        obtain ⟨h1, h2⟩ := h
        have hno : ∀ (j : Nat) (r : R), pre[j]? = some (some r) → False := by
          intro j r hj
          have := h1 _ (List.mem_of_getElem? hj)
          simp at this
        have := ih (pre ++ [some row]) (flags.set pre.length true) (some (pre.length, row)) (by
          simp only [PickInv, get_snoc]
          refine ⟨by simp, ?_, ?_, ?_⟩
          · rintro j r (hj | ⟨_, hj⟩)
            · exact (hno j r hj).elim
            · simp at hj; subst hj; rw [L.refl]; omega
          · rintro j r hji (hj | ⟨hj, _⟩)
            · exact (hno j r hj).elim
            · omega
          · intro j
            rw [List.getElem?_set]
            constructor
            · intro hj
              split at hj
              · rename_i hj'; exact ⟨row, .inr ⟨hj'.symm, rfl⟩, L.refl _⟩
              · exact absurd hj (h2 j)
            · rintro ⟨r, hj | ⟨rfl, _⟩, _⟩
              · exact (hno j r hj).elim
              · simp [hpl]) (by simp at hlen ⊢; omega)
        rw [hl] at this
        simpa only [pickMerge, List.length_set] using this
      | some b =>
        obtain ⟨i, m⟩ := b
        obtain ⟨h1, h2, h3, h4⟩ := h
        have hilt : i < pre.length := (List.getElem?_eq_some_iff.1 h1).1
        simp only [pickMerge]
        by_cases hc : cmp m row = 0
        · simp only [hc, if_true]
          have := ih (pre ++ [some row]) (flags.set pre.length true) (some (i, m)) (by
            simp only [PickInv, get_snoc]
            refine ⟨.inl h1, ?_, ?_, ?_⟩
            · rintro j r (hj | ⟨_, hj⟩)
              · exact h2 j r hj
              · simp at hj; subst hj; omega
            · rintro j r hji (hj | ⟨hj, _⟩)
              · exact h3 j r hji hj
              · omega
            · intro j
              rw [List.getElem?_set]
              constructor
              · intro hj
                split at hj
                · rename_i hj'; exact ⟨row, .inr ⟨hj'.symm, rfl⟩, hc⟩
                · obtain ⟨r, hr1, hr2⟩ := (h4 j).1 hj
                  exact ⟨r, .inl hr1, hr2⟩
              · rintro ⟨r, hj | ⟨rfl, _⟩, hr⟩
                · have := (h4 j).2 ⟨r, hj, hr⟩
                  split
                  · rename_i hj'; simp [hj' ▸ hpl]
                  · exact this
                · simp [hpl]) (by simp at hlen ⊢; omega)
          rw [hl] at this
          simpa only [List.length_set] using this
        · rw [if_neg hc]
          by_cases hg : cmp m row > 0
          · rw [if_pos hg]
            have hlt : cmp row m < 0 := (L.anti row m).2 hg
            have := ih (pre ++ [some row]) ((List.replicate flags.length false).set pre.length true)
                (some (pre.length, row)) (by
              simp only [PickInv, get_snoc]
              refine ⟨by simp, ?_, ?_, ?_⟩
              · rintro j r (hj | ⟨_, hj⟩)
                · have := L.lt_le hlt (h2 j r hj); omega
                · simp at hj; subst hj; rw [L.refl]; omega
              · rintro j r hji (hj | ⟨hj, _⟩)
                · have := L.lt_le hlt (h2 j r hj); omega
                · omega
              · intro j
                rw [List.getElem?_set]
                constructor
                · intro hj
                  split at hj
                  · rename_i hj'; exact ⟨row, .inr ⟨hj'.symm, rfl⟩, L.refl _⟩
                  · rw [List.getElem?_replicate] at hj; split at hj <;> simp at hj
                · rintro ⟨r, hj | ⟨rfl, _⟩, hr⟩
                  · have := L.lt_le hlt (h2 j r hj); omega
                  · simp [hpl]) (by simp at hlen ⊢; omega)
            rw [hl] at this
            simpa only [List.length_set, List.length_replicate] using this
          · rw [if_neg hg]
            have := ih (pre ++ [some row]) flags (some (i, m)) (by
              simp only [PickInv, get_snoc]
              refine ⟨.inl h1, ?_, ?_, ?_⟩
              · rintro j r (hj | ⟨_, hj⟩)
                · exact h2 j r hj
                · simp at hj; subst hj; omega
              · rintro j r hji (hj | ⟨hj, _⟩)
                · exact h3 j r hji hj
                · omega
              · intro j
                rw [h4 j]
                constructor
                · rintro ⟨r, hr1, hr2⟩; exact ⟨r, .inl hr1, hr2⟩
                · rintro ⟨r, hr1 | ⟨_, hr1⟩, hr2⟩
                  · exact ⟨r, hr1, hr2⟩
                  · simp at hr1; subst hr1; exact absurd hr2 hc) (by simp at hlen ⊢; omega)
            rw [hl] at this
            exact this

/-! Specification of a merge of layers, the newest first -/

/-- `r` is the version of its key in the newest layer that has the key -/
def Newest (cmp : R → R → Int) (vs : List (List R)) (r : R) : Prop :=
  ∃ (i : Nat) (v : List R), vs[i]? = some v ∧ r ∈ v ∧
    ∀ (j : Nat) (w : List R), j < i → vs[j]? = some w → ∀ x ∈ w, cmp x r ≠ 0

/-- drop the heads of the flagged sources -/
def advance : List (List R) → List Bool → List (List R)
  | v :: vs, b :: bs => (if b then v.tail else v) :: advance vs bs
  | vs, _ => vs

theorem advance_get (vs : List (List R)) (bs : List Bool) (h : bs.length = vs.length) (j : Nat) :
    (advance vs bs)[j]? = (vs[j]?).map fun v => if bs[j]? = some true then v.tail else v := by
  induction vs generalizing bs j with
  | nil => cases bs <;> simp [advance]
  | cons v vs ih =>
    cases bs with
    | nil => simp at h
    | cons b bs =>
      cases j with
      | zero => cases b <;> simp [advance]
      | succ j => simpa [advance] using ih bs (by simpa using h) j

theorem AllVisit.advance {at_ : S → Option R} {next : S → S} : ∀ {l : List S} {vs : List (List R)} {bs : List Bool},
    AllVisit at_ next l vs → bs.length = l.length →
    (∀ (j : Nat), bs[j]? = some true → ∃ r, (vs.map List.head?)[j]? = some (some r)) →
    AllVisit at_ next ((l.zip bs).map fun p => if p.2 then next p.1 else p.1) (advance vs bs) := by
  intro l
  induction l with
  | nil => intro vs bs h hl _; cases vs <;> cases bs <;> simp_all [AllVisit, Merge.advance]
  | cons s l ih =>
    intro vs bs h hl hb
    cases vs with
    | nil => simp [AllVisit] at h
    | cons v vs =>
      cases bs with
      | nil => simp at hl
      | cons b bs =>
        simp only [AllVisit] at h
        have h' := ih h.2 (bs := bs) (by simpa using hl) (fun j hj => by simpa using hb (j + 1) (by simpa using hj))
        simp only [List.zip_cons_cons, List.map_cons, Merge.advance, AllVisit]
        refine ⟨?_, h'⟩
        cases b with
        | false => simpa using h.1
        | true =>
          obtain ⟨r, hr⟩ := hb 0 (by simp)
          simp at hr
          cases h.1 with
          | done => simp at hr
          | more _ _ _ h1 h2 => simpa using h2

theorem advance_length (vs : List (List R)) (bs : List Bool) : (advance vs bs).length = vs.length := by
  induction vs generalizing bs with
  | nil => cases bs <;> rfl
  | cons v vs ih => cases bs <;> simp [advance, ih]

theorem advance_shorter (vs : List (List R)) (bs : List Bool) : (advance vs bs).flatten.length ≤ vs.flatten.length ∧
    (∀ (j : Nat) (r : R) (t : List R), vs[j]? = some (r :: t) → bs[j]? = some true →
      (advance vs bs).flatten.length < vs.flatten.length) := by
  induction vs generalizing bs with
  | nil => cases bs <;> simp [advance]
  | cons v vs ih =>
    cases bs with
    | nil => simp [advance]
    | cons b bs =>
      obtain ⟨i1, i2⟩ := ih bs
      have htl : (if b = true then v.tail else v).length ≤ v.length := by split <;> simp
      refine ⟨by simp only [advance, List.flatten_cons, List.length_append]; omega, ?_⟩
      intro j r t hj hb
      simp only [advance, List.flatten_cons, List.length_append]
      cases j with
      | zero =>
        simp at hj hb
        subst hj hb
        simp only [if_true, List.tail_cons, List.length_cons]; omega
      | succ j =>
        have := i2 j r t (by simpa using hj) (by simpa using hb)
        omega

theorem pick_all {cmp : R → R → Int} (L : CmpLaws cmp) {at_ : S → Option R} {next : S → S} {list : List S}
    {vs : List (List R)} (hv : AllVisit at_ next list vs) :
    PickInv cmp (vs.map List.head?) (pickMerge cmp (list.map at_) 0 (list.map fun _ => false) none).1
      (pickMerge cmp (list.map at_) 0 (list.map fun _ => false) none).2 ∧
    (pickMerge cmp (list.map at_) 0 (list.map fun _ => false) none).1.length = list.length := by
  have := pickMerge_spec L (list.map at_) [] (list.map fun _ => false) none
    ⟨by simp, by intro j; rw [List.getElem?_map]; cases list[j]? <;> simp⟩ (by simp)
  simp only [List.nil_append, List.length_nil] at this
  rw [hv.heads] at this
  rw [hv.heads]
  exact ⟨this.1, by simpa using this.2⟩

theorem mergeIt_loop {at_ : S → Option R} {next : S → S} {cmp : R → R → Int} (L : CmpLaws cmp) :
    ∀ (n : Nat) (list : List S) (vs : List (List R)), vs.flatten.length = n → AllVisit at_ next list vs →
    (∀ v ∈ vs, v.Pairwise fun a b => cmp a b < 0) →
    ∃ l, Visits (MergeIt.at at_) (MergeIt.next at_ next cmp)
        ⟨list.zip (pickMerge cmp (list.map at_) 0 (list.map fun _ => false) none).1,
          (pickMerge cmp (list.map at_) 0 (list.map fun _ => false) none).2.map (·.1)⟩ l ∧
      l.Pairwise (fun a b => cmp a b < 0) ∧ ∀ r, r ∈ l ↔ Newest cmp vs r := by
  intro n
  induction n using Nat.strongRecOn with
  | ind n ih =>
  intro list vs hlen hv hs
  obtain ⟨hp, hfl⟩ := pick_all L hv
  generalize hflags : (pickMerge cmp (list.map at_) 0 (list.map fun _ => false) none).1 = flags at hp hfl ⊢
  generalize hbest : (pickMerge cmp (list.map at_) 0 (list.map fun _ => false) none).2 = best at hp ⊢
  cases best with
  | none =>
    refine ⟨[], .done _ (by simp [MergeIt.at]), .nil, ?_⟩
    intro r
    constructor
    · intro h; simp at h
    · rintro ⟨i, v, hi, hr, _⟩
      have := hp.1 v.head? (List.mem_map.2 ⟨v, List.mem_of_getElem? hi, rfl⟩)
      simp at this
      subst this
      simp at hr
  | some b =>
    obtain ⟨i, m⟩ := b
    obtain ⟨h1, h2, h3, h4⟩ := hp
    have hll : flags.length = vs.length := by rw [hfl, hv.length]
    obtain ⟨vi, hvi, hvm⟩ : ∃ t, vs[i]? = some (m :: t) ∧ True := by
      rw [List.getElem?_map] at h1
      cases hx : vs[i]? with
      | none => rw [hx] at h1; simp at h1
      | some v =>
        rw [hx] at h1
        cases v with
        | nil => simp at h1
        | cons a t => simp at h1; subst h1; exact ⟨t, rfl, trivial⟩
    have hfi : flags[i]? = some true := (h4 i).2 ⟨m, h1, L.refl m⟩
    have hshort := (advance_shorter vs flags).2 i m vi hvi hfi
    have hv' := hv.advance hfl (fun j hj => by obtain ⟨r, hr, _⟩ := (h4 j).1 hj; exact ⟨r, hr⟩)
    have hget := advance_get vs flags hll
    have hmem : ∀ v ∈ advance vs flags, ∃ j : Nat, (advance vs flags)[j]? = some v := fun v h => List.mem_iff_getElem?.1 h
    have hs' : ∀ v ∈ advance vs flags, v.Pairwise fun a b => cmp a b < 0 := by
      intro v hvv
      obtain ⟨j, hj⟩ := hmem v hvv
      rw [hget] at hj
      cases hx : vs[j]? with
      | none => rw [hx] at hj; simp at hj
      | some w =>
        rw [hx] at hj
        simp only [Option.map_some, Option.some.injEq] at hj
        have hw := hs w (List.mem_of_getElem? hx)
        subst hj
        split
        · exact hw.sublist (List.tail_sublist w)
        · exact hw
    obtain ⟨l, g1, g2, g3⟩ := ih _ (hlen ▸ hshort) _ (advance vs flags) rfl hv' hs'
    -- every remaining row is above m
    have habove : ∀ (j : Nat) (w : List R), (advance vs flags)[j]? = some w → ∀ x ∈ w, cmp m x < 0 := by
      intro j w hj x hx
      rw [hget] at hj
      cases hx' : vs[j]? with
      | none => rw [hx'] at hj; simp at hj
      | some u =>
        rw [hx'] at hj
        simp only [Option.map_some, Option.some.injEq] at hj
        have hu := hs u (List.mem_of_getElem? hx')
        cases u with
        | nil => subst hj; split at hx <;> simp at hx
        | cons a u =>
          have ha : (vs.map List.head?)[j]? = some (some a) := by rw [List.getElem?_map, hx']; rfl
          have hle := h2 j a ha
          have hu1 := (List.pairwise_cons.1 hu).1
          split at hj
          · subst hj
            exact L.le_lt hle (hu1 x (by simpa using hx))
          · rename_i hf
            subst hj
            have hne : cmp m a ≠ 0 := fun h0 => hf ((h4 j).2 ⟨a, ha, h0⟩)
            rcases List.mem_cons.1 hx with rfl | hx
            · omega
            · exact L.le_lt hle (hu1 x hx)
    have hold : ∀ (j : Nat) (w : List R) (x : R), vs[j]? = some w → x ∈ w → cmp m x ≠ 0 →
        ∃ w', (advance vs flags)[j]? = some w' ∧ x ∈ w' := by
      intro j w x hj hx hne
      refine ⟨_, by rw [hget, hj]; rfl, ?_⟩
      split
      · rename_i hf
        obtain ⟨r, hr1, hr2⟩ := (h4 j).1 hf
        cases w with
        | nil => simp at hx
        | cons a w =>
          rw [List.getElem?_map, hj] at hr1
          simp at hr1; subst hr1
          rcases List.mem_cons.1 hx with rfl | hx
          · exact absurd hr2 hne
          · exact hx
      · exact hx
    have hnew : ∀ (j : Nat) (w' : List R) (x : R), (advance vs flags)[j]? = some w' → x ∈ w' →
        ∃ w, vs[j]? = some w ∧ x ∈ w := by
      intro j w' x hj hx
      rw [hget] at hj
      cases hx' : vs[j]? with
      | none => rw [hx'] at hj; simp at hj
      | some u =>
        rw [hx'] at hj
        simp only [Option.map_some, Option.some.injEq] at hj
        refine ⟨u, rfl, ?_⟩
        subst hj
        split at hx
        · exact List.mem_of_mem_tail hx
        · exact hx
    refine ⟨m :: l, .more _ m l ?_ ?_, ?_, ?_⟩
    · simp only [MergeIt.at, Option.map_some]
      cases hli : list[i]? with
      | none =>
        have h5 : i < vs.length := (List.getElem?_eq_some_iff.1 hvi).1
        have h6 := List.getElem?_eq_none_iff.1 hli
        have := hv.length
        omega
      | some s =>
        obtain ⟨v, q1, q2⟩ := hv.get i s hli
        rw [hvi] at q1
        simp only [Option.some.injEq] at q1
        subst q1
        rw [(List.getElem?_zip_eq_some (z := (s, true))).2 ⟨hli, hfi⟩]
        simp [q2.head]
    · simp only [MergeIt.next]
      exact g1
    · refine List.pairwise_cons.2 ⟨?_, g2⟩
      intro x hx
      obtain ⟨j, w, hj, hxw, _⟩ := (g3 x).1 hx
      exact habove j w hj x hxw
    · intro r
      rw [List.mem_cons, g3]
      constructor
      · rintro (rfl | ⟨j, w, hj, hr, hlow⟩)
        · refine ⟨i, _, hvi, by simp, ?_⟩
          intro j w hji hj x hx h0
          cases w with
          | nil => simp at hx
          | cons a w =>
            have ha : (vs.map List.head?)[j]? = some (some a) := by rw [List.getElem?_map, hj]; rfl
            have hne := h3 j a hji ha
            have hle := h2 j a ha
            rcases List.mem_cons.1 hx with rfl | hx
            · exact hne (L.symm h0)
            · have := (List.pairwise_cons.1 (hs _ (List.mem_of_getElem? hj))).1 x hx
              have := L.le_lt hle this
              have := L.symm h0
              omega
        · obtain ⟨w0, hj0, hr0⟩ := hnew j w r hj hr
          have hmr := habove j w hj r hr
          refine ⟨j, w0, hj0, hr0, ?_⟩
          intro k u hkj hk x hx h0
          by_cases hmx : cmp m x = 0
          · have := (L.congr_right h0).1.1 hmx
            omega
          · obtain ⟨u', hu', hxu'⟩ := hold k u x hk hx hmx
            exact hlow k u' hkj hu' x hxu' h0
      · rintro ⟨j, w, hj, hr, hlow⟩
        by_cases hmr : cmp m r = 0
        · left
          -- r is the head of its source, and the source is the first one
          have hrj : ∃ t, w = r :: t := by
            cases w with
            | nil => simp at hr
            | cons a w =>
              rcases List.mem_cons.1 hr with rfl | hr
              · exact ⟨w, rfl⟩
              · have ha : (vs.map List.head?)[j]? = some (some a) := by rw [List.getElem?_map, hj]; rfl
                have := (List.pairwise_cons.1 (hs _ (List.mem_of_getElem? hj))).1 r hr
                have := L.le_lt (h2 j a ha) this
                omega
          obtain ⟨t, rfl⟩ := hrj
          have hrh : (vs.map List.head?)[j]? = some (some r) := by rw [List.getElem?_map, hj]; rfl
          rcases Nat.lt_trichotomy j i with h | h | h
          · exact absurd hmr (h3 j r h hrh)
          · subst h
            rw [hvi] at hj
            simp at hj
            exact hj.1.symm
          · exact absurd hmr (hlow i _ h hvi m (by simp))
        · right
          obtain ⟨w', hw', hrw'⟩ := hold j w r hj hr hmr
          refine ⟨j, w', hw', hrw', ?_⟩
          intro k u hkj hk x hx h0
          obtain ⟨u0, hu0, hxu0⟩ := hnew k u x hk hx
          exact hlow k u0 hkj hu0 x hxu0 h0

end Verif.Index.Merge
