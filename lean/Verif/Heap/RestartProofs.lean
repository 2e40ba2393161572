import Verif.Heap.SnapProofs
/-! # Proofs: restart from a partition file, index build -/
set_option linter.unusedSimpArgs false
set_option linter.unusedSectionVars false
set_option linter.unusedVariables false
namespace Verif.Heap
variable {K K2 R : Type} [DecidableEq K] [DecidableEq K2]

theorem reopen_same {size : R → Nat} {h : Heap (Cell R)} {q : List (Addr × Cell R)} (hh : Holds size h q) : h.reopen = h := by
  have := inv_reopen hh
  unfold Heap.reopen Heap.counters at this
  unfold Heap.reopen
  simp only [Heap.mk.injEq] at this
  rw [this.2.1]

theorem rowsOf_ok {size : R → Nat} {h : Heap (Cell R)} {lm : List (Addr × R)} (hh : Holds size h (rowCells lm)) (hfl : Flags h false) :
    ∃ N rows, (∀ fuel ≥ N, rowsOf h fuel = some rows) ∧ rows.Perm lm := by
  obtain ⟨N, xs, hscan, hperm, _⟩ := holds_scan hh hfl
  refine ⟨N, _, fun fuel hf => by unfold rowsOf; rw [hscan fuel hf], ?_⟩
  have h2 := hperm.filterMap fun x : Addr × Cell R => match x.2 with | .row r => some (x.1, r) | .pending _ => none
  rw [List.filterMap_map] at h2
  have h3 : (rowCells lm).filterMap (fun x : Addr × Cell R => match x.2 with | .row r => some (x.1, r) | .pending _ => none) = lm := by
    unfold rowCells
    rw [List.filterMap_map]
    have : ((fun x : Addr × Cell R => match x.2 with | .row r => some (x.1, r) | .pending _ => none) ∘
      fun x : Addr × R => (x.1, Cell.row x.2)) = some := by funext x; rfl
    rw [this, List.filterMap_some]
  rw [h3] at h2
  exact h2

/-- an index that maps the keys of some rows to them -/
def Maps (key : R → K) (ix : K → Option Ptr) (rows : List (Addr × R)) : Prop :=
  ∀ k p, ix k = some p ↔ p.shadow = false ∧ ∃ r, (p.addr, r) ∈ rows ∧ key r = k

theorem rebuild_maps {key : R → K} : ∀ (rows done : List (Addr × R)) (ix : K → Option Ptr), Maps key ix done →
    (∀ a b r r', (a, r) ∈ done ++ rows → (b, r') ∈ done ++ rows → key r = key r' → a = b) →
    Maps key (rows.foldl (fun ix x => assign ix (key x.2) (some ⟨false, x.1⟩)) ix) (done ++ rows) := by
  intro rows
  induction rows with
  | nil => intro done ix h _; simpa using h
  | cons x rows ih =>
    intro done ix h hu
    obtain ⟨a, r⟩ := x
    have : Maps key (assign ix (key r) (some ⟨false, a⟩)) (done ++ [(a, r)]) := by
      intro k p
      obtain ⟨b, pa⟩ := p
      unfold assign
      by_cases hk : k = key r
      · rw [if_pos hk]
        simp only [Option.some.injEq, Ptr.mk.injEq, List.mem_append, List.mem_singleton, Prod.mk.injEq]
        constructor
        · rintro ⟨e1, e2⟩; exact ⟨e1.symm, r, Or.inr ⟨e2.symm, rfl⟩, hk.symm⟩
        · rintro ⟨e1, x, e2, e3⟩
          refine ⟨e1.symm, ?_⟩
          rcases e2 with e2 | e2
          · refine hu a pa r x (by simp) (by simp [e2]) (by rw [e3, hk])
          · exact e2.1.symm
      · rw [if_neg hk, h]
        simp only [List.mem_append, List.mem_singleton, Prod.mk.injEq]
        constructor
        · rintro ⟨e1, x, e2, e3⟩; exact ⟨e1, x, Or.inl e2, e3⟩
        · rintro ⟨e1, x, e2 | e2, e3⟩
          · exact ⟨e1, x, e2, e3⟩
          · rw [e2.2] at e3; exact absurd e3.symm hk
    have h2 := ih (done ++ [(a, r)]) _ this (by simpa using hu)
    simpa using h2

theorem normal_restart {size : R → Nat} {key : R → K} {h : Heap (Cell R)} {lm : List (Addr × R)} (hh : Holds size h (rowCells lm))
    (hfl : Flags h false) (hu : ∀ a b r r', (a, r) ∈ lm → (b, r') ∈ lm → key r = key r' → a = b) (ix : K → Option Ptr)
    (sh : Option (Heap (Cell R))) :
    ∃ N s', (∀ fuel ≥ N, (⟨⟨h, sh⟩, ix⟩ : Partn K R).restart key fuel = some s') ∧ s'.mem = ⟨h, none⟩ ∧ Maps key s'.idx lm := by
  obtain ⟨N, rows, h1, h2⟩ := rowsOf_ok hh hfl
  refine ⟨N, ⟨⟨h, none⟩, rebuild key rows⟩, ?_, rfl, ?_⟩
  · intro fuel hf
    unfold Partn.restart
    simp only [reopen_same hh, h1 fuel hf]
  · have := rebuild_maps (key := key) rows [] (fun _ => none) (by intro k p; simp) (by
      intro a b r r' e1 e2 e3
      simp only [List.nil_append] at e1 e2
      exact hu a b r r' (h2.mem_iff.1 e1) (h2.mem_iff.1 e2) e3)
    intro k p
    unfold rebuild
    rw [this]
    simp only [List.nil_append, h2.mem_iff]

theorem maps_quiet {key : R → K} {size : R → Nat} {s : Partn K R} {live : List (Ptr × R)} {lm : List (Addr × R)}
    (hn : Normal size s live lm) (hm : Maps key s.idx lm) (hu : ∀ a b r r', (a, r) ∈ lm → (b, r') ∈ lm → key r = key r' → a = b) :
    Quiet key s.idx live := by
  constructor
  · intro k p hk
    obtain ⟨h1, r, h2, h3⟩ := (hm k p).1 hk
    exact ⟨r, (hn.live p r).2 ⟨h1, h2⟩, h3⟩
  · intro p r hpr
    obtain ⟨h1, h2⟩ := (hn.live p r).1 hpr
    exact (hm (key r) p).2 ⟨h1, r, h2, rfl⟩

theorem quiet_unique {key : R → K} {size : R → Nat} {s : Partn K R} {live : List (Ptr × R)} {lm : List (Addr × R)}
    (hn : Normal size s live lm) (hq : Quiet key s.idx live) :
    ∀ a b r r', (a, r) ∈ lm → (b, r') ∈ lm → key r = key r' → a = b := by
  intro a b r r' h1 h2 h3
  have e1 := hq.2 ⟨false, a⟩ r ((hn.live _ _).2 ⟨rfl, h1⟩)
  have e2 := hq.2 ⟨false, b⟩ r' ((hn.live _ _).2 ⟨rfl, h2⟩)
  rw [h3, e2] at e1
  simp only [Option.some.injEq, Ptr.mk.injEq, true_and] at e1
  exact e1.symm

theorem normal_lookup {key : R → K} {size : R → Nat} {s : Partn K R} {live : List (Ptr × R)} {lm : List (Addr × R)}
    (hn : Normal size s live lm) (hq : Quiet key s.idx live) (k : K) (r : R) :
    s.lookup k = some r ↔ ∃ a, (a, r) ∈ lm ∧ key r = k := by
  rw [lookup_entry hq (fun p r h => normal_deref hn h)]
  unfold Entry
  constructor
  · rintro ⟨p, h1, h2⟩
    refine ⟨p.addr, ((hn.live p r).1 h2).2, ?_⟩
    obtain ⟨x, hx, hk⟩ := hq.1 k p h1
    have e1 := normal_deref hn hx
    rw [normal_deref hn h2] at e1
    simp only [Option.some.injEq] at e1
    rw [e1]; exact hk
  · rintro ⟨a, h1, h2⟩
    have hm := (hn.live ⟨false, a⟩ r).2 ⟨rfl, h1⟩
    exact ⟨_, by rw [← h2]; exact hq.2 _ _ hm, hm⟩

theorem option_ext {α : Type} {a b : Option α} (h : ∀ x, a = some x ↔ b = some x) : a = b := by
  cases a with
  | none =>
    cases b with
    | none => rfl
    | some y => exact absurd ((h y).2 rfl) (by simp)
  | some x => exact ((h x).1 rfl).symm

/-- the blocks of the main heap, as pointers -/
def mainLive (lm : List (Addr × R)) : List (Ptr × R) := lm.map fun x => (⟨false, x.1⟩, x.2)

theorem mainLive_normal {size : R → Nat} {h : Heap (Cell R)} {lm : List (Addr × R)} (hh : Holds size h (rowCells lm))
    (hfl : Flags h false) (ix : K → Option Ptr) : Normal size (⟨⟨h, none⟩, ix⟩ : Partn K R) (mainLive lm) lm := by
  refine ⟨hh, hfl, rfl, ?_, ?_⟩
  · have := rowCells_nodup hh
    unfold mainLive
    rw [List.map_map]
    have he : (Prod.fst ∘ fun x : Addr × R => ((⟨false, x.1⟩ : Ptr), x.2)) = (fun a => (⟨false, a⟩ : Ptr)) ∘ Prod.fst := rfl
    rw [he, ← List.map_map, List.Nodup, List.pairwise_map]
    exact this.imp fun hab hh => hab (by simpa using hh)
  · intro p r
    unfold mainLive
    simp only [List.mem_map, Prod.mk.injEq]
    constructor
    · rintro ⟨⟨a, x⟩, h1, h2, h3⟩
      rw [← h2]; simp only at h3; rw [← h3]; exact ⟨rfl, h1⟩
    · rintro ⟨h1, h2⟩
      exact ⟨(p.addr, r), h2, by cases p; simp_all, rfl⟩

/-- a restart finds the rows of the main heap -/
theorem restart_lookup {size : R → Nat} {key : R → K} {s : Partn K R} {live : List (Ptr × R)} {lm : List (Addr × R)}
    (hn : Normal size s live lm) (hq : Quiet key s.idx live) (ix : K → Option Ptr) (sh : Option (Heap (Cell R)))
    (h2 : Heap (Cell R)) (hh : Holds size h2 (rowCells lm)) (hfl : Flags h2 false) :
    ∃ N, ∀ fuel ≥ N, ∃ s', (⟨⟨h2, sh⟩, ix⟩ : Partn K R).restart key fuel = some s' ∧ ∀ k, s'.lookup k = s.lookup k := by
  have hu := quiet_unique hn hq
  obtain ⟨N, s', h1, h3, h4⟩ := normal_restart hh hfl hu ix sh
  refine ⟨N, fun fuel hf => ⟨s', h1 fuel hf, ?_⟩⟩
  intro k
  apply option_ext
  intro r
  have hn' : Normal size s' (mainLive lm) lm := by
    have := mainLive_normal hh hfl s'.idx
    rw [← h3] at this
    exact this
  rw [normal_lookup hn hq, normal_lookup hn' (maps_quiet hn' h4 hu)]

/-! ## Index build -/

theorem buildJob_maps {key2 : R → K2} : ∀ (rows done : List (Addr × R)) (jx jx' : K2 → Option Ptr), Maps key2 jx done →
    buildJob key2 rows jx = some jx' → Maps key2 jx' (done ++ rows) := by
  intro rows
  induction rows with
  | nil => intro done jx jx' h hb; simp only [buildJob, Option.some.injEq] at hb; rw [← hb]; simpa using h
  | cons x rows ih =>
    intro done jx jx' h hb
    obtain ⟨a, r⟩ := x
    rw [buildJob] at hb
    cases hj : jx (key2 r) with
    | some p => rw [hj] at hb; simp at hb
    | none =>
      rw [hj] at hb
      simp only at hb
      have : Maps key2 (assign jx (key2 r) (some ⟨false, a⟩)) (done ++ [(a, r)]) := by
        intro k p
        obtain ⟨b, pa⟩ := p
        unfold assign
        by_cases hk : k = key2 r
        · rw [if_pos hk]
          simp only [Option.some.injEq, Ptr.mk.injEq, List.mem_append, List.mem_singleton, Prod.mk.injEq]
          constructor
          · rintro ⟨e1, e2⟩; exact ⟨e1.symm, r, Or.inr ⟨e2.symm, rfl⟩, hk.symm⟩
          · rintro ⟨e1, x, e2, e3⟩
            refine ⟨e1.symm, ?_⟩
            rcases e2 with e2 | e2
            · have := (h k ⟨false, pa⟩).2 ⟨rfl, x, e2, e3⟩
              rw [hk, hj] at this; simp at this
            · exact e2.1.symm
        · rw [if_neg hk, h]
          simp only [List.mem_append, List.mem_singleton, Prod.mk.injEq]
          constructor
          · rintro ⟨e1, x, e2, e3⟩; exact ⟨e1, x, Or.inl e2, e3⟩
          · rintro ⟨e1, x, e2 | e2, e3⟩
            · exact ⟨e1, x, e2, e3⟩
            · rw [e2.2] at e3; exact absurd e3.symm hk
      have h2 := ih (done ++ [(a, r)]) _ _ this hb
      simpa using h2

theorem applyBuild_ok {size : R → Nat} {key : R → K} {key2 : R → K2} (hsz : ∀ r, size r ≤ 516071) :
    ∀ (xs : List (Addr × Chunk (Cell R))) (h : Heap (Cell R)) (ix : K → Option Ptr) (jx : K2 → Option Ptr)
    (live : List (Ptr × R)) (lm : List (Addr × R)) (h' : Heap (Cell R)) (ix' : K → Option Ptr) (jx' : K2 → Option Ptr),
    Mid size key h ix live lm xs → (∀ p, ¬ Pend (cells xs) p) → Maps key2 jx lm →
    applyBuild size key key2 xs h ix jx = some (h', ix', jx') →
    ∃ live' lm', Mid size key h' ix' live' lm' [] ∧ Maps key2 jx' lm' ∧ (∀ k r, Entry ix' live' k r ↔ Entry ix live k r) := by
  intro xs
  induction xs with
  | nil =>
    intro h ix jx live lm h' ix' jx' hm _ hj hb
    simp only [applyBuild, Option.some.injEq, Prod.mk.injEq] at hb
    obtain ⟨e1, e2, e3⟩ := hb
    subst e1 e2 e3
    exact ⟨live, lm, hm, hj, fun _ _ => Iff.rfl⟩
  | cons x xs ih =>
    intro h ix jx live lm h' ix' jx' hm hnp hj hb
    obtain ⟨a, c⟩ := x
    cases hd : c.data with
    | pending p => exact absurd ⟨a, by simp [cells, hd]⟩ (hnp p)
    | row r =>
      obtain ⟨hsf, hix, hfresh, live1, hm', hent, _, _⟩ := mid_row hsz hm hd
      rw [applyBuild] at hb
      simp only [hsf, hd] at hb
      cases hjr : jx (key2 r) with
      | some p => simp [hjr] at hb
      | none =>
        simp [hjr] at hb
        have hj' : Maps key2 (assign jx (key2 r) (some ⟨false, (h.add (size r) (.row r) false false).1⟩))
            (((h.add (size r) (.row r) false false).1, r) :: lm) := by
          generalize (h.add (size r) (.row r) false false).1 = a' at hfresh ⊢
          intro k p
          obtain ⟨b, pa⟩ := p
          unfold assign
          by_cases hk : k = key2 r
          · rw [if_pos hk]
            simp only [Option.some.injEq, Ptr.mk.injEq, List.mem_cons, Prod.mk.injEq]
            constructor
            · rintro ⟨e1, e2⟩; exact ⟨e1.symm, r, Or.inl ⟨e2.symm, rfl⟩, hk.symm⟩
            · rintro ⟨e1, x, e2, e3⟩
              refine ⟨e1.symm, ?_⟩
              rcases e2 with e2 | e2
              · exact e2.1.symm
              · have := (hj k ⟨false, pa⟩).2 ⟨rfl, x, e2, e3⟩
                rw [hk, hjr] at this; simp at this
          · rw [if_neg hk, hj]
            simp only [List.mem_cons, Prod.mk.injEq]
            constructor
            · rintro ⟨e1, x, e2, e3⟩; exact ⟨e1, x, Or.inr e2, e3⟩
            · rintro ⟨e1, x, e2 | e2, e3⟩
              · rw [e2.2] at e3; exact absurd e3.symm hk
              · exact ⟨e1, x, e2, e3⟩
        have hnp' : ∀ p, ¬ Pend (cells xs) p := by
          rintro p ⟨b, hb'⟩
          exact hnp p ⟨b, by simp [cells] at hb' ⊢; exact Or.inr hb'⟩
        obtain ⟨live', lm', r1, r2, r3⟩ := ih _ _ _ _ _ _ _ _ hm' hnp' hj' hb
        exact ⟨live', lm', r1, r2, fun k x => by rw [r3, hent]⟩

end Verif.Heap
