import Verif.Part.Proofs
set_option linter.unusedSimpArgs false
set_option linter.unusedSectionVars false
/-!
# The indexes of a partition hold one set of rows
-/
namespace Verif.Part
open Verif.Index
variable {R : Type}

/-- every index holds exactly the rows `m` -/
def Holds (ixs : List (Ix R)) (m : List R) : Prop := ∀ ix ∈ ixs, ix.rows.Perm m

theorem taken_iff {ix : Ix R} {m : List R} (h : ix.rows.Perm m) (r : R) :
    (lookup ix.cmp ix.rows r).isSome = true ↔ Taken ix.cmp m r := by
  rw [lookup_isSome]
  unfold Taken
  constructor
  · rintro ⟨x, hx, e⟩; exact ⟨x, h.mem_iff.1 hx, e⟩
  · rintro ⟨x, hx, e⟩; exact ⟨x, h.mem_iff.2 hx, e⟩

theorem insertSecondary_table (r : R) (m : List R) : ∀ (ixs : List (Ix R)) (i : Nat), Holds ixs m →
    ((insertSecondary false r i ixs).2.2 = true ↔ ¬ ∃ c ∈ ixs.map Ix.cmp, Taken c m r) ∧
    ((insertSecondary false r i ixs).2.2 = true → Holds (insertSecondary false r i ixs).1 (r :: m)) := by
  intro ixs
  induction ixs with
  | nil => intro i _; exact ⟨by simp [insertSecondary], fun _ ix h => by simp [insertSecondary] at h⟩
  | cons ix ixs ih =>
    intro i h
    have hp := h ix (by simp)
    obtain ⟨h1, h2⟩ := ih (i + 1) fun x hx => h x (by simp [hx])
    unfold insertSecondary
    simp only [Ix.replaceBy, Bool.not_false, Bool.and_true]
    by_cases ht : (lookup ix.cmp ix.rows r).isSome = true
    · rw [if_pos ht]
      exact ⟨⟨fun h => by simp at h, fun h => absurd ⟨ix.cmp, by simp, (taken_iff hp r).1 ht⟩ h⟩, fun h => by simp at h⟩
    · rw [if_neg ht]
      have hn : ∀ x ∈ ix.rows, ix.cmp x r ≠ 0 := by
        intro x hx e
        exact ht (lookup_isSome.2 ⟨x, hx, e⟩)
      refine ⟨?_, ?_⟩
      · rw [h1]
        constructor
        · rintro h3 ⟨c, hc, hk⟩
          rcases List.mem_cons.1 hc with rfl | hc
          · exact ht ((taken_iff hp r).2 hk)
          · exact h3 ⟨c, hc, hk⟩
        · rintro h3 ⟨c, hc, hk⟩
          exact h3 ⟨c, by simp only [List.map_cons, List.mem_cons]; exact .inr hc, hk⟩
      · intro hok x hx
        rcases List.mem_cons.1 hx with rfl | hx
        · simp only
          rw [others_none hn]
          exact hp.cons r
        · exact h2 hok x hx

theorem others_erase [DecidableEq R] {cmp : R → R → Int} (L : CmpLaws cmp) {rows m : List R} (hu : Uniq cmp rows)
    (hp : rows.Perm m) {y : R} (hy : y ∈ m) : (others cmp rows y).Perm (m.erase y) := by
  have h1 := uniq_split L hu (hp.mem_iff.2 hy) (self_eq L y)
  have h2 := List.perm_cons_erase hy
  exact List.Perm.cons_inv (h1.trans (hp.trans h2))

/-- under a unique key the row of the key is the only one -/
theorem lookup_unique {cmp : R → R → Int} (L : CmpLaws cmp) {rows : List R} (hu : Uniq cmp rows) {y k : R} (hy : y ∈ rows)
    (h : cmp y k = 0) : lookup cmp rows k = some y := by
  cases hl : lookup cmp rows k with
  | none => exact absurd h (lookup_none hl y hy)
  | some z =>
    obtain ⟨hz, hk⟩ := lookup_some hl
    have := (uniq_split L hu hy h).mem_iff.2 hz
    rcases List.mem_cons.1 this with rfl | h3
    · rfl
    · exact absurd hk (mem_others.1 h3).2

variable [DecidableEq R]

theorem updateSecondary_table (y r : R) (m : List R) (hy : y ∈ m) : ∀ (ixs : List (Ix R)) (i : Nat), AllGood ixs →
    Holds ixs m → (∀ c ∈ ixs.map Ix.cmp, c y r = 0) →
    (updateSecondary r i ixs).2.2 = true ∧ Holds (updateSecondary r i ixs).1 (r :: m.erase y) := by
  intro ixs
  induction ixs with
  | nil => intro i _ _ _; exact ⟨rfl, fun ix h => by simp [updateSecondary] at h⟩
  | cons ix ixs ih =>
    intro i g h hk
    have hp := h ix (by simp)
    have gi := g ix (by simp)
    obtain ⟨h1, h2⟩ := ih (i + 1) (fun x hx => g x (by simp [hx])) (fun x hx => h x (by simp [hx]))
      (fun c hc => hk c (by simp only [List.map_cons, List.mem_cons]; exact .inr hc))
    unfold updateSecondary
    rw [lookup_unique gi.laws gi.uniq (hp.mem_iff.2 hy) (hk ix.cmp (by simp))]
    refine ⟨h1, ?_⟩
    intro x hx
    rcases List.mem_cons.1 hx with rfl | hx
    · exact (others_erase gi.laws gi.uniq hp hy).cons r
    · exact h2 x hx

theorem deleteSecondary_table (y : R) (m : List R) (hy : y ∈ m) : ∀ (ixs : List (Ix R)) (i : Nat), AllGood ixs →
    Holds ixs m → Holds (deleteSecondary y i ixs).1 (m.erase y) := by
  intro ixs
  induction ixs with
  | nil => intro i _ _ ix h; simp [deleteSecondary] at h
  | cons ix ixs ih =>
    intro i g h
    have hp := h ix (by simp)
    have gi := g ix (by simp)
    have h2 := ih (i + 1) (fun x hx => g x (by simp [hx])) (fun x hx => h x (by simp [hx]))
    unfold deleteSecondary
    intro x hx
    rcases List.mem_cons.1 hx with rfl | hx
    · exact others_erase gi.laws gi.uniq hp hy
    · exact h2 x hx

theorem cursorCheck_eq {p : Ix R} {rest : List (Ix R)} {m : List R} (hp : p.rows.Perm m) (y : R) :
    cursorCheck (p :: rest) 0 y = if y ∈ m then .done else .noRow := by
  simp only [cursorCheck, List.getElem?_cons_zero, if_true]
  by_cases hy : y ∈ m
  · rw [if_pos hy, if_pos (hp.mem_iff.2 hy)]
  · rw [if_neg hy, if_neg (fun h => hy (hp.mem_iff.1 h))]

theorem partDelete_table {st : St R} {m : List R} (y : R) (p : Ix R) (rest : List (Ix R)) (he : st.ixs = p :: rest)
    (g : AllGood st.ixs) (h : Holds st.ixs m) :
    (partDelete 0 y st).2.2 = (if y ∈ m then .done else .noRow) ∧
    Holds (partDelete 0 y st).1.ixs (if y ∈ m then m.erase y else m) := by
  have hp := h p (by rw [he]; simp)
  have gi := g p (by rw [he]; simp)
  unfold partDelete
  rw [he, cursorCheck_eq hp y]
  by_cases hy : y ∈ m
  · simp only [if_pos hy, List.modify_zero_cons]
    refine ⟨trivial, ?_⟩
    intro x hx
    rcases List.mem_cons.1 hx with rfl | hx
    · exact others_erase gi.laws gi.uniq hp hy
    · exact deleteSecondary_table y m hy rest 1 (fun z hz => g z (by rw [he]; simp [hz]))
        (fun z hz => h z (by rw [he]; simp [hz])) x hx
  · simp only [if_neg hy]
    exact ⟨trivial, h⟩

/-- one statement: outcome and contents are those of the specification -/
theorem exec_table {st : St R} {m : List R} {s : Stmt R} (g : AllGood st.ixs) (hne : st.ixs ≠ [])
    (h : Holds st.ixs m) (hs : s.Plain (st.ixs.map Ix.cmp)) :
    (exec st s).2.2 = (tableExec (st.ixs.map Ix.cmp) m s).1 ∧
    ((exec st s).2.2 ≠ .failed → Holds (exec st s).1.ixs (tableExec (st.ixs.map Ix.cmp) m s).2) := by
  obtain ⟨p, rest, he⟩ : ∃ p rest, st.ixs = p :: rest := by
    cases hx : st.ixs with
    | nil => exact absurd hx hne
    | cons p rest => exact ⟨p, rest, rfl⟩
  have hp := h p (by rw [he]; simp)
  have gi := g p (by rw [he]; simp)
  cases s with
  | insert replace r =>
    simp only [Stmt.Plain] at hs
    subst hs
    obtain ⟨h1, h2⟩ := insertSecondary_table r m st.ixs 0 h
    simp only [exec, partInsert, tableExec]
    by_cases ht : ∃ c ∈ st.ixs.map Ix.cmp, Taken c m r
    · rw [if_pos ht]
      have : (insertSecondary false r 0 st.ixs).2.2 = false := by
        cases hb : (insertSecondary false r 0 st.ixs).2.2 with
        | false => rfl
        | true => exact absurd ht (h1.1 hb)
      simp [this]
    · rw [if_neg ht]
      have := h1.2 ht
      simp only [this, if_true]
      exact ⟨trivial, fun _ => h2 this⟩
  | upsert r =>
    simp only [exec, partUpsert, tableExec, he, Ix.upsert, List.map_cons, List.head?_cons, Option.mem_def,
      Option.some.injEq, exists_eq_left']
    cases hl : lookup p.cmp p.rows r with
    | some y =>
      have ht : Taken p.cmp m r := (taken_iff hp r).1 (by simp [hl])
      simp only [if_pos ht]
      exact ⟨trivial, fun _ => he ▸ h⟩
    | none =>
      have ht : ¬ Taken p.cmp m r := fun h => by have := (taken_iff hp r).2 h; simp [hl] at this
      simp only [if_neg ht]
      obtain ⟨h1, h2⟩ := insertSecondary_table r m rest 1 fun x hx => h x (by rw [he]; simp [hx])
      by_cases ht2 : ∃ c ∈ p.cmp :: rest.map Ix.cmp, Taken c m r
      · rw [if_pos ht2]
        have : (insertSecondary false r 1 rest).2.2 = false := by
          cases hb : (insertSecondary false r 1 rest).2.2 with
          | false => rfl
          | true =>
            obtain ⟨c, hc, hk⟩ := ht2
            rcases List.mem_cons.1 hc with rfl | hc
            · exact absurd hk ht
            · exact absurd ⟨c, hc, hk⟩ (h1.1 hb)
        simp [this]
      · rw [if_neg ht2]
        have := h1.2 fun ⟨c, hc, hk⟩ => ht2 ⟨c, List.mem_cons_of_mem _ hc, hk⟩
        simp only [this, if_true]
        refine ⟨trivial, fun _ x hx => ?_⟩
        rcases List.mem_cons.1 hx with rfl | hx
        · exact hp.cons r
        · exact h2 this x hx
  | update c y r =>
    obtain ⟨rfl, hk⟩ := hs
    simp only [exec, partUpdate, tableExec]
    rw [he, cursorCheck_eq hp y]
    by_cases hy : y ∈ m
    · simp only [if_pos hy, List.modify_zero_cons]
      obtain ⟨h1, h2⟩ := updateSecondary_table y r m hy rest 1 (fun z hz => g z (by rw [he]; simp [hz]))
        (fun z hz => h z (by rw [he]; simp [hz])) (fun c hc => hk c (by rw [he, List.map_cons]; exact List.mem_cons_of_mem _ hc))
      simp only [h1, if_true]
      refine ⟨trivial, fun _ x hx => ?_⟩
      rcases List.mem_cons.1 hx with rfl | hx
      · exact (others_erase gi.laws gi.uniq hp hy).cons r
      · exact h2 x hx
    · simp only [if_neg hy]
      exact ⟨trivial, fun _ => h⟩
  | delete c y =>
    simp only [Stmt.Plain] at hs
    subst hs
    obtain ⟨h1, h2⟩ := partDelete_table y p rest he g h
    simp only [exec, tableExec]
    by_cases hy : y ∈ m
    · simp only [if_pos hy] at h1 h2 ⊢; exact ⟨h1, fun _ => h2⟩
    · simp only [if_neg hy] at h1 h2 ⊢; exact ⟨h1, fun _ => h2⟩
  | deleteBy r =>
    simp only [exec, partDeleteBy, tableExec]
    have hlk : lookup p.cmp p.rows r = m.find? fun x => decide (p.cmp x r = 0) := lookup_perm gi.laws hp gi.uniq r
    simp only [he, List.map_cons, List.head?_cons, Option.bind_some, ← hlk]
    cases hl : lookup p.cmp p.rows r with
    | none => exact ⟨rfl, by simp⟩
    | some y =>
      have hy : y ∈ m := hp.mem_iff.1 (lookup_some hl).1
      obtain ⟨h1, h2⟩ := partDelete_table y p rest he g h
      simp only [if_pos hy] at h1 h2
      exact ⟨h1, fun _ => h2⟩

theorem plain_onPrimary {cmps : List (R → R → Int)} {s : Stmt R} (h : s.Plain cmps) : s.OnPrimary cmps := by
  cases s with
  | update c y r => exact ⟨h.1, fun c hc => h.2 c (List.mem_of_mem_head? hc)⟩
  | delete c y => exact h
  | _ => trivial

theorem tableExec_ne_ub (cmps : List (R → R → Int)) (m : List R) (s : Stmt R) : (tableExec cmps m s).1 ≠ .ub := by
  cases s with
  | insert b r => cases b <;> simp only [tableExec] <;> (try split) <;> simp
  | upsert r => simp only [tableExec]; split; · simp
                split <;> simp
  | update c y r => simp only [tableExec]; split <;> simp
  | delete c y => simp only [tableExec]; split <;> simp
  | deleteBy r => simp only [tableExec]; split <;> simp

theorem execAll_table : ∀ (ss : List (Stmt R)) (st : St R) (m : List R), AllGood st.ixs → st.ixs ≠ [] →
    Holds st.ixs m → (∀ s ∈ ss, s.Plain (st.ixs.map Ix.cmp)) →
    (execAll st ss).2.2 ≠ .ub ∧
    ((execAll st ss).2.2 = .failed ↔ tableExecAll (st.ixs.map Ix.cmp) m ss = none) ∧
    ∀ m', tableExecAll (st.ixs.map Ix.cmp) m ss = some m' → Holds (execAll st ss).1.ixs m' := by
  intro ss
  induction ss with
  | nil =>
    intro st m g _ h _
    exact ⟨by simp [execAll], by simp [execAll, tableExecAll], fun m' e => by
      simp only [tableExecAll, Option.some.injEq] at e; subst e; exact h⟩
  | cons s ss ih =>
    intro st m g hne h hp
    have hs := hp s (by simp)
    obtain ⟨h1, h2⟩ := exec_table g hne h hs
    have st1 := exec_steps g (plain_onPrimary hs)
    have g1 := steps_good st1 g
    have c1 := steps_cmps st1
    have ub1 := tableExec_ne_ub (st.ixs.map Ix.cmp) m s
    have hne1 : (exec st s).1.ixs ≠ [] := by
      intro hx; rw [hx] at c1
      simp at c1
      exact hne c1
    unfold execAll tableExecAll
    cases hx : exec st s with
    | mk st' q =>
      obtain ⟨log, o⟩ := q
      rw [hx] at h1 h2 g1 c1 hne1
      simp only at h1 h2 g1 c1 hne1
      cases ht : tableExec (st.ixs.map Ix.cmp) m s with
      | mk o' m1 =>
        rw [ht] at h1 h2 ub1
        simp only at h1 h2 ub1
        subst h1
        cases o with
        | failed => exact ⟨by simp, by simp, by simp⟩
        | ub => exact absurd rfl ub1
        | done =>
          have := ih st' m1 g1 hne1 (h2 (by simp)) (fun t hx => by rw [c1]; exact hp t (by simp [hx]))
          rw [c1] at this; exact this
        | existed =>
          have := ih st' m1 g1 hne1 (h2 (by simp)) (fun t hx => by rw [c1]; exact hp t (by simp [hx]))
          rw [c1] at this; exact this
        | noRow =>
          have := ih st' m1 g1 hne1 (h2 (by simp)) (fun t hx => by rw [c1]; exact hp t (by simp [hx]))
          rw [c1] at this; exact this

omit [DecidableEq R] in
theorem commit_ixs (log : List (LogRow R)) : ∀ (st : St R), (trCommit log st).ixs = st.ixs := by
  unfold trCommit
  induction log with
  | nil => intro st; rfl
  | cons e log ih =>
    intro st
    rw [List.foldl_cons, ih]
    unfold commitOp
    split
    · split <;> rfl
    · rfl

omit [DecidableEq R] in
theorem SameAll.cmps {as bs : List (Ix R)} (h : SameAll as bs) : as.map Ix.cmp = bs.map Ix.cmp := by
  induction h with
  | nil => rfl
  | cons h1 _ ih => simp [h1.cmp, ih]

omit [DecidableEq R] in
theorem SameAll.symm {as bs : List (Ix R)} (h : SameAll as bs) : SameAll bs as := by
  induction h with
  | nil => exact .nil
  | cons h1 _ ih => exact .cons h1.symm ih

omit [DecidableEq R] in
theorem SameAll.holds {as bs : List (Ix R)} (h : SameAll as bs) {m : List R} (hh : Holds bs m) : Holds as m := by
  induction h with
  | nil => exact hh
  | cons h1 _ ih =>
    intro x hx
    rcases List.mem_cons.1 hx with rfl | hx
    · exact h1.rows.trans (hh _ (by simp))
    · exact ih (fun y hy => hh y (by simp [hy])) x hx

theorem runTx_table {st : St R} {m : List R} (t : Tx R) (g : AllGood st.ixs) (hne : st.ixs ≠ []) (h : Holds st.ixs m)
    (hs : ∀ s ∈ t.stmts, s.Plain (st.ixs.map Ix.cmp)) :
    AllGood (runTx st t).ixs ∧ (runTx st t).ixs.map Ix.cmp = st.ixs.map Ix.cmp ∧
      Holds (runTx st t).ixs (tableTx (st.ixs.map Ix.cmp) m t) := by
  obtain ⟨r1, r2, r3⟩ := execAll_rollback t.stmts st g fun s hx => plain_onPrimary (hs s hx)
  obtain ⟨t1, t2, t3⟩ := execAll_table t.stmts st m g hne h hs
  have ab : AllGood (undoAll (execAll st t.stmts).2.1 (execAll st t.stmts).1.ixs) := r1.symm.good g
  unfold runTx tableTx
  cases hx : execAll st t.stmts with
  | mk st' q =>
    obtain ⟨log, o⟩ := q
    rw [hx] at r1 r2 r3 t1 t2 t3 ab
    simp only at r1 r2 r3 t1 t2 t3 ab
    have hab : AllGood (trAbort log st').ixs ∧ (trAbort log st').ixs.map Ix.cmp = st.ixs.map Ix.cmp ∧
        Holds (trAbort log st').ixs m := by
      rw [abort_ixs]
      exact ⟨ab, r1.cmps, r1.holds h⟩
    cases ht : tableExecAll (st.ixs.map Ix.cmp) m t.stmts with
    | none =>
      have := t2.2 ht
      subst this
      exact hab
    | some m' =>
      have hc := t3 m' ht
      have hnf : o ≠ .failed := fun hf => by have := t2.1 hf; rw [ht] at this; simp at this
      have key : AllGood (if t.commit = true then trCommit log st' else trAbort log st').ixs ∧
          (if t.commit = true then trCommit log st' else trAbort log st').ixs.map Ix.cmp = st.ixs.map Ix.cmp ∧
          Holds (if t.commit = true then trCommit log st' else trAbort log st').ixs (if t.commit = true then m' else m) := by
        by_cases hcm : t.commit = true
        · simp only [if_pos hcm, commit_ixs]; exact ⟨r2, r3, hc⟩
        · simp only [if_neg hcm]; exact hab
      cases o with
      | failed => exact absurd rfl hnf
      | ub => exact absurd rfl t1
      | done => exact key
      | existed => exact key
      | noRow => exact key

end Verif.Part
