import Verif.Part.TableProofs
set_option linter.unusedSimpArgs false
set_option linter.unusedSectionVars false
/-!
# Row memory: every row is given back once, when nothing refers to it any more
-/
namespace Verif.Part
open Verif.Index
variable {R : Type}

def primaryRows (ixs : List (Ix R)) : List R := (ixs.head?.map Ix.rows).getD []

/-- previous rows recorded for the primary index: freed by commit -/
def prevs (log : List (LogRow R)) : List R := log.filterMap fun e => if e.index = 0 then e.prev else none
/-- new rows recorded for the primary index: freed by rollback -/
def news (log : List (LogRow R)) : List R := log.filterMap fun e => if e.index = 0 ∧ e.delete = false then some e.row else none

theorem commit_freed (log : List (LogRow R)) : ∀ (st : St R), (trCommit log st).freed.Perm (prevs log ++ st.freed) := by
  unfold trCommit
  induction log with
  | nil => intro st; exact .rfl
  | cons e log ih =>
    intro st
    rw [List.foldl_cons]
    refine (ih _).trans ?_
    unfold prevs commitOp
    rw [List.filterMap_cons]
    cases hp : e.prev with
    | none => simp
    | some p =>
      by_cases hi : e.index = 0
      · simp only [hi, if_true]; exact List.perm_middle
      · simp [hi]

theorem abort_freed (log : List (LogRow R)) (st : St R) : (trAbort log st).freed.Perm (news log ++ st.freed) := by
  unfold trAbort
  induction log with
  | nil => exact .rfl
  | cons e log ih =>
    rw [List.foldr_cons]
    unfold news abortOp
    rw [List.filterMap_cons]
    by_cases hi : e.index = 0 ∧ e.delete = false
    · simp only [if_pos hi]; exact ih.cons _
    · simp only [if_neg hi]; exact ih

theorem prevs_append (a b : List (LogRow R)) : prevs (a ++ b) = prevs a ++ prevs b := by simp [prevs]
theorem news_append (a b : List (LogRow R)) : news (a ++ b) = news a ++ news b := by simp [news]

theorem prevs_sec {log : List (LogRow R)} (h : ∀ e ∈ log, 0 < e.index) : prevs log = [] := by
  unfold prevs
  rw [List.filterMap_eq_nil_iff]
  intro e he
  have := h e he
  rw [if_neg (by omega)]

theorem news_sec {log : List (LogRow R)} (h : ∀ e ∈ log, 0 < e.index) : news log = [] := by
  unfold news
  rw [List.filterMap_eq_nil_iff]
  intro e he
  have := h e he
  rw [if_neg (by omega)]

theorem insertSecondary_index (b : Bool) (r : R) : ∀ (ixs : List (Ix R)) (i : Nat),
    ∀ e ∈ (insertSecondary b r i ixs).2.1, i ≤ e.index := by
  intro ixs
  induction ixs with
  | nil => intro i e he; simp [insertSecondary] at he
  | cons ix ixs ih =>
    intro i e he
    unfold insertSecondary at he
    simp only at he
    split at he
    · simp only [List.mem_singleton] at he; subst he; exact Nat.le_refl _
    · rcases List.mem_cons.1 he with rfl | he
      · exact Nat.le_refl _
      · have := ih (i + 1) e he; omega

theorem updateSecondary_index (r : R) : ∀ (ixs : List (Ix R)) (i : Nat),
    ∀ e ∈ (updateSecondary r i ixs).2.1, i ≤ e.index := by
  intro ixs
  induction ixs with
  | nil => intro i e he; simp [updateSecondary] at he
  | cons ix ixs ih =>
    intro i e he
    unfold updateSecondary at he
    cases hl : lookup ix.cmp ix.rows r with
    | none => simp [hl] at he
    | some z =>
      simp only [hl] at he
      rcases List.mem_cons.1 he with rfl | he
      · exact Nat.le_refl _
      · have := ih (i + 1) e he; omega

theorem deleteSecondary_index (y : R) : ∀ (ixs : List (Ix R)) (i : Nat),
    ∀ e ∈ (deleteSecondary y i ixs).2, i ≤ e.index := by
  intro ixs
  induction ixs with
  | nil => intro i e he; simp [deleteSecondary] at he
  | cons ix ixs ih =>
    intro i e he
    unfold deleteSecondary at he
    rcases List.mem_cons.1 he with rfl | he
    · exact Nat.le_refl _
    · have := ih (i + 1) e he; omega

variable [DecidableEq R]

/-- rows a statement allocates on the heap (vm/vm/command.c:469, 494, 533 row_create, row_update; system/backend/pod.c:46
row_copy): one for INSERT and upsert, one for UPDATE if there is a row to update -/
def created (st : St R) : Stmt R → List R
  | .insert _ r => [r]
  | .upsert r => [r]
  | .update c y r => if cursorCheck st.ixs c y = .done then [r] else []
  | .delete _ _ => []
  | .deleteBy _ => []

/-- rows allocated by the executed statements of a transaction -/
def createdAll : St R → List (Stmt R) → List R
  | _, [] => []
  | st, s :: ss =>
    match exec st s with
    | (_, _, .failed) => created st s
    | (_, _, .ub) => created st s
    | (st', _, _) => created st s ++ createdAll st' ss

structure Ledger (c rows freed : List R) (rows' prev new freed' : List R) : Prop where
  forward : (c ++ rows ++ freed).Perm (rows' ++ prev ++ freed')
  back    : (c ++ freed).Perm (new ++ freed')

theorem Ledger.same (rows freed : List R) : Ledger [] rows freed rows [] [] freed :=
  ⟨by simp, by simp⟩

theorem partDelete_ledger {st : St R} (g : AllGood st.ixs) (y : R) :
    Ledger [] (primaryRows st.ixs) st.freed (primaryRows (partDelete 0 y st).1.ixs)
      (prevs (partDelete 0 y st).2.1) (news (partDelete 0 y st).2.1) (partDelete 0 y st).1.freed := by
  unfold partDelete
  cases hc : cursorCheck st.ixs 0 y with
  | done =>
    obtain ⟨p, rest, he, hy⟩ := cursorCheck_done hc
    have gi := g p (by rw [he]; simp)
    simp only [he, List.modify_zero_cons]
    have hi := deleteSecondary_index y rest 1
    have e1 : prevs (⟨0, true, y, some y⟩ :: (deleteSecondary y 1 rest).2) = [y] := by
      have := prevs_append [⟨0, true, y, some y⟩] (deleteSecondary y 1 rest).2
      rw [List.singleton_append] at this
      rw [this, prevs_sec (log := (deleteSecondary y 1 rest).2) (fun e hx => by have := hi e hx; omega)]
      simp [prevs]
    have e2 : news (⟨0, true, y, some y⟩ :: (deleteSecondary y 1 rest).2) = [] := by
      have := news_append [⟨0, true, y, some y⟩] (deleteSecondary y 1 rest).2
      rw [List.singleton_append] at this
      rw [this, news_sec (log := (deleteSecondary y 1 rest).2) (fun e hx => by have := hi e hx; omega)]
      simp [news]
    refine ⟨?_, ?_⟩
    · rw [e1]
      simp only [primaryRows, List.head?_cons, Option.map_some, Option.getD_some, List.nil_append, Ix.deleteAt]
      refine List.Perm.append_right _ ?_
      have := uniq_split gi.laws gi.uniq hy (self_eq gi.laws y)
      exact this.symm.trans (List.perm_append_comm (l₁ := [y]))
    · rw [e2]
  | _ => exact Ledger.same _ _

theorem exec_ledger {st : St R} {s : Stmt R} (g : AllGood st.ixs) (hne : st.ixs ≠ [])
    (hp : s.OnPrimary (st.ixs.map Ix.cmp)) :
    Ledger (created st s) (primaryRows st.ixs) st.freed (primaryRows (exec st s).1.ixs)
      (prevs (exec st s).2.1) (news (exec st s).2.1) (exec st s).1.freed := by
  obtain ⟨p, rest, he⟩ : ∃ p rest, st.ixs = p :: rest := by
    cases hx : st.ixs with
    | nil => exact absurd hx hne
    | cons p rest => exact ⟨p, rest, rfl⟩
  have gi := g p (by rw [he]; simp)
  have rep : ∀ (r : R), (r :: p.rows).Perm ((r :: others p.cmp p.rows r) ++ (lookup p.cmp p.rows r).toList) := by
    intro r
    cases hl : lookup p.cmp p.rows r with
    | none => rw [others_none (lookup_none hl)]; simp
    | some y =>
      obtain ⟨hy, hk⟩ := lookup_some hl
      simp only [Option.toList_some]
      refine ((uniq_split gi.laws gi.uniq hy hk).symm.cons r).trans ?_
      refine (List.Perm.swap _ _ _).trans ?_
      exact List.perm_append_comm (l₁ := [y])
  have one : ∀ (e : LogRow R) (log : List (LogRow R)), (∀ x ∈ log, 1 ≤ x.index) → e.index = 0 →
      prevs (e :: log) = e.prev.toList ∧ news (e :: log) = (if e.delete = false then [e.row] else []) := by
    intro e log hlog hz
    have h1 := prevs_append [e] log
    have h2 := news_append [e] log
    rw [List.singleton_append] at h1 h2
    rw [h1, h2, prevs_sec (log := log) (fun x hx => by have := hlog x hx; omega),
      news_sec (log := log) (fun x hx => by have := hlog x hx; omega)]
    constructor
    · cases hpv : e.prev <;> simp [prevs, hz, hpv]
    · cases hd : e.delete <;> simp [news, hz, hd]
  cases s with
  | insert b r =>
    simp only [exec, partInsert, created, he, insertSecondary]
    split
    · obtain ⟨h1, h2⟩ := one ⟨0, false, r, (p.replaceBy r).1⟩ [] (by simp) rfl
      rw [h1, h2]
      refine ⟨?_, .rfl⟩
      simp only [primaryRows, List.head?_cons, Option.map_some, Option.getD_some, Ix.replaceBy, List.singleton_append]
      exact (rep r).append_right _
    · obtain ⟨h1, h2⟩ := one ⟨0, false, r, (p.replaceBy r).1⟩ _ (insertSecondary_index b r rest 1) rfl
      rw [h1, h2]
      refine ⟨?_, .rfl⟩
      simp only [primaryRows, List.head?_cons, Option.map_some, Option.getD_some, Ix.replaceBy, List.singleton_append]
      exact (rep r).append_right _
  | upsert r =>
    simp only [exec, partUpsert, created, he, Ix.upsert]
    cases hl : lookup p.cmp p.rows r with
    | some y =>
      simp only [he]
      refine ⟨?_, ?_⟩
      · simp only [prevs, List.filterMap_nil, List.append_nil, List.singleton_append]
        exact List.perm_middle.symm
      · exact .rfl
    | none =>
      simp only
      obtain ⟨h1, h2⟩ := one ⟨0, false, r, none⟩ _ (insertSecondary_index false r rest 1) rfl
      rw [h1, h2]
      refine ⟨?_, .rfl⟩
      simp only [primaryRows, List.head?_cons, Option.map_some, Option.getD_some, List.singleton_append, Option.toList_none,
        List.append_nil]
      exact .rfl
  | update c y r =>
    obtain ⟨rfl, hk⟩ := hp
    simp only [exec, partUpdate, created]
    cases hc : cursorCheck st.ixs 0 y with
    | done =>
      obtain ⟨p', rest', he', hy⟩ := cursorCheck_done hc
      rw [he] at he'
      simp only [List.cons.injEq] at he'
      obtain ⟨rfl, rfl⟩ := he'
      simp only [he, List.modify_zero_cons, if_true]
      obtain ⟨h1, h2⟩ := one ⟨0, false, r, some y⟩ _ (updateSecondary_index r rest 1) rfl
      rw [h1, h2]
      refine ⟨?_, .rfl⟩
      simp only [primaryRows, List.head?_cons, Option.map_some, Option.getD_some, List.singleton_append,
        Option.toList_some, Ix.replaceAt]
      refine List.Perm.append_right _ ?_
      refine ((uniq_split gi.laws gi.uniq hy (self_eq gi.laws y)).symm.cons r).trans ?_
      refine (List.Perm.swap _ _ _).trans ?_
      exact List.perm_append_comm (l₁ := [y])
    | _ => exact Ledger.same _ _
  | delete c y =>
    simp only [Stmt.OnPrimary] at hp
    subst hp
    exact partDelete_ledger g y
  | deleteBy r =>
    simp only [exec, partDeleteBy, created]
    cases hl : lookup p.cmp p.rows r with
    | none => simp only [he, hl]; exact Ledger.same _ _
    | some y =>
      simp only [he, hl]
      rw [← he]
      exact partDelete_ledger g y

omit [DecidableEq R] in
theorem Ledger.trans {c1 c2 r0 f0 r1 p1 n1 f1 r2 p2 n2 f2 : List R} (a : Ledger c1 r0 f0 r1 p1 n1 f1)
    (b : Ledger c2 r1 f1 r2 p2 n2 f2) : Ledger (c1 ++ c2) r0 f0 r2 (p1 ++ p2) (n1 ++ n2) f2 := by
  classical
  constructor
  · have h1 := a.forward
    have h2 := b.forward
    rw [List.perm_iff_count] at h1 h2 ⊢
    intro x
    have h1 := h1 x
    have h2 := h2 x
    simp only [List.count_append] at h1 h2 ⊢
    omega
  · have h1 := a.back
    have h2 := b.back
    rw [List.perm_iff_count] at h1 h2 ⊢
    intro x
    have h1 := h1 x
    have h2 := h2 x
    simp only [List.count_append] at h1 h2 ⊢
    omega

theorem execAll_ledger : ∀ (ss : List (Stmt R)) (st : St R), AllGood st.ixs → st.ixs ≠ [] →
    (∀ s ∈ ss, s.OnPrimary (st.ixs.map Ix.cmp)) →
    Ledger (createdAll st ss) (primaryRows st.ixs) st.freed (primaryRows (execAll st ss).1.ixs)
      (prevs (execAll st ss).2.1) (news (execAll st ss).2.1) (execAll st ss).1.freed := by
  intro ss
  induction ss with
  | nil => intro st _ _ _; exact Ledger.same _ _
  | cons s ss ih =>
    intro st g hne hp
    have hs := hp s (by simp)
    have l1 := exec_ledger g hne hs
    have st1 := exec_steps g hs
    have g1 := steps_good st1 g
    have c1 := steps_cmps st1
    have hne1 : (exec st s).1.ixs ≠ [] := by
      intro hx; rw [hx] at c1
      simp at c1
      exact hne c1
    unfold execAll createdAll
    cases hx : exec st s with
    | mk st' q =>
      obtain ⟨log, o⟩ := q
      rw [hx] at l1 g1 c1 hne1
      have l2 := ih st' g1 hne1 (fun t ht => by rw [c1]; exact hp t (by simp [ht]))
      have l3 := l1.trans l2
      rw [← prevs_append, ← news_append] at l3
      cases o with
      | failed => exact l1
      | ub => exact l1
      | done => exact l3
      | existed => exact l3
      | noRow => exact l3

omit [DecidableEq R] in
theorem SameAll.primary {as bs : List (Ix R)} (h : SameAll as bs) : (primaryRows as).Perm (primaryRows bs) := by
  cases h with
  | nil => exact .rfl
  | cons h1 _ => exact h1.rows

/-- one transaction: allocated rows are in the table or given back -/
theorem runTx_ledger {st : St R} (t : Tx R) (g : AllGood st.ixs) (hne : st.ixs ≠ [])
    (hs : ∀ s ∈ t.stmts, s.OnPrimary (st.ixs.map Ix.cmp)) :
    (createdAll st t.stmts ++ primaryRows st.ixs ++ st.freed).Perm
      (primaryRows (runTx st t).ixs ++ (runTx st t).freed) := by
  have l := execAll_ledger t.stmts st g hne hs
  obtain ⟨r1, _, _⟩ := execAll_rollback t.stmts st g hs
  unfold runTx
  cases hx : execAll st t.stmts with
  | mk st' q =>
    obtain ⟨log, o⟩ := q
    rw [hx] at l r1
    simp only at l r1
    have hab : (createdAll st t.stmts ++ primaryRows st.ixs ++ st.freed).Perm
        (primaryRows (trAbort log st').ixs ++ (trAbort log st').freed) := by
      have h1 := abort_freed log st'
      have h2 := r1.primary
      rw [← abort_ixs] at h2
      have h3 := l.back
      rw [List.perm_iff_count] at h1 h2 h3 ⊢
      intro x
      have h1 := h1 x
      have h2 := h2 x
      have h3 := h3 x
      simp only [List.count_append] at h1 h2 h3 ⊢
      omega
    have hcm : (createdAll st t.stmts ++ primaryRows st.ixs ++ st.freed).Perm
        (primaryRows (trCommit log st').ixs ++ (trCommit log st').freed) := by
      have h1 := commit_freed log st'
      rw [commit_ixs]
      have h3 := l.forward
      rw [List.perm_iff_count] at h1 h3 ⊢
      intro x
      have h1 := h1 x
      have h3 := h3 x
      simp only [List.count_append] at h1 h3 ⊢
      omega
    have key : (createdAll st t.stmts ++ primaryRows st.ixs ++ st.freed).Perm
        (primaryRows (if t.commit = true then trCommit log st' else trAbort log st').ixs ++
          (if t.commit = true then trCommit log st' else trAbort log st').freed) := by
      split
      · exact hcm
      · exact hab
    cases o with
    | failed => exact hab
    | ub => exact hab
    | done => exact key
    | existed => exact key
    | noRow => exact key

end Verif.Part
