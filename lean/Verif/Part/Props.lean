import Verif.Part.HeapProofs
import Verif.Part.TrackProofs
import Verif.Index.Props
/-!
# Statements on a partition: C18, C19, C20, C47

Rows are elements of any type; an index is a comparison (satisfying the laws proved for the comparison of stored rows in
`Index/Props.lean`) and the rows it holds. A partition may have any number of indexes, the first one being the primary
key; all of them are unique (a non-unique secondary index contains the primary key columns, parse_index.c).
-/
set_option linter.unusedSimpArgs false
namespace Verif.Part
open Verif.Index
variable {R : Type} [DecidableEq R]

/-! ## Connection with the index implementations: an `Ix` operation is what C10/C12 specify for the index -/

omit [DecidableEq R] in
theorem ix_replace_spec (ix : Ix R) (r : R) :
    SpecStep ix.cmp ix.rows (.replace r) (.row (ix.replaceBy r).1) (ix.replaceBy r).2.rows := .replace r
omit [DecidableEq R] in
theorem ix_delete_spec (ix : Ix R) (r : R) :
    SpecStep ix.cmp ix.rows (.delete r) (.row (ix.deleteBy r).1) (ix.deleteBy r).2.rows := .delete r
omit [DecidableEq R] in
theorem ix_upsert_spec (ix : Ix R) (r : R) : ∃ y,
    SpecStep ix.cmp ix.rows (.upsert r) (.existed (ix.upsert r).1 y) (ix.upsert r).2.rows := by
  unfold Ix.upsert
  cases h : lookup ix.cmp ix.rows r with
  | none => exact ⟨r, .upsertNew r h⟩
  | some y => exact ⟨y, .upsertOld r y h⟩

/-! ## Sample data -/

/-- sample rows: two unique key columns and a payload -/
abbrev Row3 := Int × Int × Nat
def k1 (a b : Row3) : Int := Json.cmpInt a.1 b.1
def k2 (a b : Row3) : Int := Json.cmpInt a.2.1 b.2.1

theorem cmpInt_laws' (f : Row3 → Int) : CmpLaws (fun a b => Json.cmpInt (f a) (f b)) := by
  constructor
  · intro a b; unfold Json.cmpInt; repeat' split <;> omega
  · intro a b c; unfold Json.cmpInt; repeat' split <;> omega

theorem k1_laws : CmpLaws k1 := cmpInt_laws' (·.1)
theorem k2_laws : CmpLaws k2 := cmpInt_laws' (·.2.1)

def sampleRows : List Row3 := [(1, 10, 100), (2, 20, 200), (3, 30, 300)]
def sampleSt : St Row3 := ⟨[⟨k1, false, sampleRows⟩, ⟨k2, false, sampleRows⟩], []⟩

theorem sample_good : AllGood sampleSt.ixs := by
  intro ix hx
  simp only [sampleSt, List.mem_cons, List.not_mem_nil, or_false] at hx
  rcases hx with rfl | rfl
  · exact ⟨k1_laws, by unfold Uniq; decide⟩
  · exact ⟨k2_laws, by unfold Uniq; decide⟩

theorem sample_holds : Holds sampleSt.ixs sampleRows := by
  intro ix hx
  simp only [sampleSt, List.mem_cons, List.not_mem_nil, or_false] at hx
  rcases hx with rfl | rfl <;> exact .rfl

/-! ## C18: rollback -/

/-- C18: whatever statements a transaction executed, and wherever one of them failed, rolling it back leaves every index
with exactly the rows it had before. UPDATE and DELETE cursors stand on the primary index and UPDATE keeps the primary
key (`OnPrimary`). -/
theorem C18_rollback_partial (st : St R) (g : AllGood st.ixs) (stmts : List (Stmt R))
    (h : ∀ s ∈ stmts, s.OnPrimary (st.ixs.map Ix.cmp)) :
    SameAll (trAbort (execAll st stmts).2.1 (execAll st stmts).1).ixs st.ixs := by
  rw [abort_ixs]
  exact (execAll_rollback stmts st g h).1

/-- a sample transaction: insert, update, delete, upsert, and an insert that fails on the second key after it already
replaced a row of the second index -/
def sampleTx : List (Stmt Row3) :=
  [.insert false (4, 40, 400), .update 0 (1, 10, 100) (1, 10, 101), .delete 0 (2, 20, 200), .upsert (3, 99, 1),
   .upsert (5, 50, 500), .insert false (6, 10, 600)]

example : ∀ s ∈ sampleTx, s.OnPrimary (sampleSt.ixs.map Ix.cmp) := by
  simp [sampleTx, Stmt.OnPrimary, sampleSt, k1, Json.cmpInt]
example : (execAll sampleSt sampleTx).2.2 = .failed := by decide
-- before the rollback the indexes differ from the initial ones, and the second one lost a row it must get back
example : (execAll sampleSt sampleTx).1.ixs.map Ix.rows ≠ sampleSt.ixs.map Ix.rows := by decide
example : (1, 10, 101) ∉ ((execAll sampleSt sampleTx).1.ixs.map Ix.rows)[1]! := by decide

/-- C18 fails in general: a DELETE whose cursor stands on a secondary index (the planner's choice) removes the row from
that index only; after the rollback the row is still missing from it. -/
theorem C18_secondary_cursor_false : ∃ (st : St Row3) (stmts : List (Stmt Row3)), AllGood st.ixs ∧ Holds st.ixs sampleRows ∧
    (execAll st stmts).2.2 = .done ∧
    ¬ SameAll (trAbort (execAll st stmts).2.1 (execAll st stmts).1).ixs st.ixs := by
  refine ⟨sampleSt, [.delete 1 (2, 20, 200)], sample_good, sample_holds, by decide, ?_⟩
  intro h
  have e : (trAbort (execAll sampleSt [.delete 1 (2, 20, 200)]).2.1 (execAll sampleSt [.delete 1 (2, 20, 200)]).1).ixs.map
      Ix.rows = [[(2, 20, 200), (1, 10, 100), (3, 30, 300)], [(1, 10, 100), (3, 30, 300)]] := by decide
  have hl : ∀ {as bs : List (Ix Row3)}, SameAll as bs → as.map (fun i => i.rows.length) = bs.map (fun i => i.rows.length) := by
    intro as bs h
    induction h with
    | nil => rfl
    | cons h1 _ ih => simp [h1.rows.length_eq, ih]
  have h3 := hl h
  have h4 := congrArg (List.map List.length) e
  rw [List.map_map] at h4
  have h5 : (trAbort (execAll sampleSt [.delete 1 (2, 20, 200)]).2.1 (execAll sampleSt [.delete 1 (2, 20, 200)]).1).ixs.map
      (fun i => i.rows.length) = [3, 2] := h4
  rw [h5] at h3
  revert h3
  decide

/-! ## C19: unique keys -/

/-- C19, one statement: on a partition whose indexes all hold the rows `m`, a statement ends as on the plain set of rows
`m` (duplicate key: failed, or existed for an upsert; missing row: nothing), and unless it failed every index then holds
exactly the rows the specification gives. -/
theorem C19_statement_partial (st : St R) (m : List R) (s : Stmt R) (g : AllGood st.ixs) (hne : st.ixs ≠ [])
    (h : Holds st.ixs m) (hs : s.Plain (st.ixs.map Ix.cmp)) :
    (exec st s).2.2 = (tableExec (st.ixs.map Ix.cmp) m s).1 ∧
    ((exec st s).2.2 ≠ .failed → Holds (exec st s).1.ixs (tableExec (st.ixs.map Ix.cmp) m s).2) :=
  exec_table g hne h hs

/-- C19: an INSERT of a row with a taken key fails, and after the rollback nothing has changed. -/
theorem C19_duplicate_fails (st : St R) (m : List R) (r : R) (g : AllGood st.ixs) (hne : st.ixs ≠ [])
    (h : Holds st.ixs m) (hd : ∃ c ∈ st.ixs.map Ix.cmp, ∃ x ∈ m, c x r = 0) :
    (exec st (.insert false r)).2.2 = .failed ∧ SameAll (runTx st ⟨[.insert false r], true⟩).ixs st.ixs := by
  have h1 := (exec_table g hne h (s := .insert false r) rfl).1
  have h2 : (tableExec (st.ixs.map Ix.cmp) m (.insert false r)).1 = .failed := by
    have : ∃ c ∈ st.ixs.map Ix.cmp, Taken c m r := hd
    simp only [tableExec, if_pos this]
  rw [h2] at h1
  refine ⟨h1, ?_⟩
  have h3 : (execAll st [Stmt.insert false r]).2.2 = .failed := by
    unfold execAll
    cases hx : exec st (.insert false r) with
    | mk a q =>
      obtain ⟨b, o⟩ := q
      rw [hx] at h1
      simp only at h1
      subst h1
      rfl
  have h4 := C18_rollback_partial st g [.insert false r] (by simp [Stmt.OnPrimary])
  unfold runTx
  cases hx : execAll st [Stmt.insert false r] with
  | mk a q =>
    obtain ⟨b, o⟩ := q
    rw [hx] at h3 h4
    simp only at h3
    subst h3
    exact h4

/-- C19: after any history of transactions, committed or aborted, all indexes hold the same rows, namely those of the
specification, and no index has two rows with the same key. -/
theorem C19_history_partial (txs : List (Tx R)) : ∀ (st : St R) (m : List R), AllGood st.ixs → st.ixs ≠ [] →
    Holds st.ixs m → (∀ t ∈ txs, ∀ s ∈ t.stmts, s.Plain (st.ixs.map Ix.cmp)) →
    (∀ ix ∈ (txs.foldl runTx st).ixs,
      ix.rows.Perm (txs.foldl (tableTx (st.ixs.map Ix.cmp)) m) ∧ ix.rows.Pairwise fun a b => ix.cmp a b ≠ 0) ∧
    (txs.foldl runTx st).ixs.map Ix.cmp = st.ixs.map Ix.cmp := by
  induction txs with
  | nil => intro st m g _ h _; exact ⟨fun ix hx => ⟨h ix hx, (g ix hx).uniq⟩, rfl⟩
  | cons t txs ih =>
    intro st m g hne h hs
    obtain ⟨g', hc, h'⟩ := runTx_table t g hne h (hs t (by simp))
    have hne' : (runTx st t).ixs ≠ [] := by
      intro hx; rw [hx] at hc; simp at hc; exact hne hc
    have := ih (runTx st t) _ g' hne' h' (fun t' ht => hc ▸ hs t' (by simp [ht]))
    simp only [List.foldl_cons]
    rw [hc] at this
    exact this

def sampleHistory : List (Tx Row3) :=
  [⟨[.insert false (4, 40, 400), .update 0 (1, 10, 100) (1, 10, 101)], true⟩,
   ⟨[.delete 0 (2, 20, 200), .insert false (7, 20, 700), .insert false (8, 40, 800)], true⟩,  -- fails: 40 is taken
   ⟨[.delete 0 (2, 20, 200), .insert false (7, 20, 700)], true⟩,
   ⟨[.deleteBy (3, 0, 0)], false⟩]
example : (∀ t ∈ sampleHistory, ∀ s ∈ t.stmts, s.Plain (sampleSt.ixs.map Ix.cmp)) := by
  simp [sampleHistory, Stmt.Plain, sampleSt, k1, k2, Json.cmpInt]
example : sampleHistory.foldl (tableTx [k1, k2]) sampleRows =
    [(7, 20, 700), (1, 10, 101), (4, 40, 400), (3, 30, 300)] := by decide

/-- C19 fails in general: after DELETE through a cursor on a secondary index the primary index still has the row and
the secondary one does not. -/
theorem C19_secondary_cursor_false : ∃ (st : St Row3) (t : Tx Row3), AllGood st.ixs ∧ Holds st.ixs sampleRows ∧
    t.stmts = [.delete 1 (2, 20, 200)] ∧ t.commit = true ∧
    (runTx st t).ixs.map Ix.rows = [sampleRows, [(1, 10, 100), (3, 30, 300)]] :=
  ⟨sampleSt, ⟨[.delete 1 (2, 20, 200)], true⟩, sample_good, sample_holds, rfl, rfl, by decide⟩

/-! ## C47: row memory -/

/-- C47: every row allocated by the transactions of a history is, at the end, either in the table or given back to the
heap, and each exactly once: nothing is given back twice, nothing is lost, nothing given back is still in the table. -/
theorem C47_memory_partial (txs : List (Tx R)) : ∀ (st : St R), AllGood st.ixs → st.ixs ≠ [] →
    (∀ t ∈ txs, ∀ s ∈ t.stmts, s.Plain (st.ixs.map Ix.cmp)) → (∃ m, Holds st.ixs m) →
    ∃ allocated : List R, (allocated ++ primaryRows st.ixs ++ st.freed).Perm
      (primaryRows (txs.foldl runTx st).ixs ++ (txs.foldl runTx st).freed) ∧
      allocated = (txs.foldl (fun (acc : List R × St R) t => (acc.1 ++ createdAll acc.2 t.stmts, runTx acc.2 t)) ([], st)).1 := by
  have acc : ∀ (txs : List (Tx R)) (l : List R) (st : St R),
      (txs.foldl (fun (acc : List R × St R) t => (acc.1 ++ createdAll acc.2 t.stmts, runTx acc.2 t)) (l, st)).1 =
      l ++ (txs.foldl (fun (acc : List R × St R) t => (acc.1 ++ createdAll acc.2 t.stmts, runTx acc.2 t)) ([], st)).1 := by
    intro txs
    induction txs with
    | nil => intro l st; simp
    | cons t txs ih =>
      intro l st
      simp only [List.foldl_cons]
      rw [ih, ih ([] ++ _)]
      simp
  induction txs with
  | nil => intro st _ _ _ _; exact ⟨[], .rfl, rfl⟩
  | cons t txs ih =>
    intro st g hne hs ⟨m, hm⟩
    obtain ⟨g', hc, h'⟩ := runTx_table t g hne hm (hs t (by simp))
    have hne' : (runTx st t).ixs ≠ [] := by
      intro hx; rw [hx] at hc; simp at hc; exact hne hc
    obtain ⟨al, hp, he⟩ := ih (runTx st t) g' hne' (fun t' ht => hc ▸ hs t' (by simp [ht])) ⟨_, h'⟩
    have l := runTx_ledger t g hne fun s hx => plain_onPrimary (hs t (by simp) s hx)
    refine ⟨createdAll st t.stmts ++ al, ?_, ?_⟩
    · simp only [List.foldl_cons]
      rw [List.perm_iff_count] at hp l ⊢
      intro x
      have hp := hp x
      have l := l x
      simp only [List.count_append] at hp l ⊢
      omega
    · simp only [List.foldl_cons, List.nil_append]
      rw [acc, he]

/-- the rows given back at the end of the sample history: the replaced and the deleted ones, and the rows created by the
failed transaction -/
example : (sampleHistory.foldl runTx sampleSt).freed =
    [(2, 20, 200), (7, 20, 700), (8, 40, 800), (1, 10, 100)] := by decide

/-- C47 fails in general: committing a DELETE done through a cursor on a secondary index gives back a row that the primary
index still holds. -/
theorem C47_secondary_cursor_false : ∃ (st : St Row3) (t : Tx Row3), AllGood st.ixs ∧ Holds st.ixs sampleRows ∧
    t.stmts = [.delete 1 (2, 20, 200)] ∧ ∃ r, r ∈ (runTx st t).freed ∧ r ∈ primaryRows (runTx st t).ixs :=
  ⟨sampleSt, ⟨[.delete 1 (2, 20, 200)], true⟩, sample_good, sample_holds, rfl, (2, 20, 200), by decide, by decide⟩

/-! ## C20: outcomes decided by the coordinator -/

/-- C20 holds as long as every notification brings only commits, or only aborts covering everything that ran on the
partition: once all transactions are decided, every index holds exactly the effects of the committed ones in order. -/
theorem C20_outcomes_partial (st : St R) (m : List R) (verdict : Nat → Bool) (es : List (Ev R))
    (g : AllGood st.ixs) (hne : st.ixs ≠ []) (h : Holds st.ixs m)
    (hs : ∀ t ∈ txsOf es, ∀ s ∈ t, s.Plain (st.ixs.map Ix.cmp))
    (hh : Honest verdict (Pod.init st) 0 es) (ho : OneAtATime verdict (Pod.init st) 0 es)
    (hall : decidedOf 0 es = (txsOf es).length) :
    ∀ ix ∈ (es.foldl (podStep verdict) (Pod.init st)).st.ixs,
      ix.rows.Perm (committedRows (st.ixs.map Ix.cmp) verdict 1 m (txsOf es)) := by
  have hi := inv_history (by simpa using hne) es (Pod.init st) 0 [] (inv_init st g h) hs hh ho
  simp only [List.nil_append] at hi
  obtain ⟨base, _, _, hb, ch⟩ := hi.chain
  rw [hall, List.drop_length] at ch
  rw [hall, List.take_length] at hb
  exact ch.nil_inv ▸ hb

/-- C20: also while later transactions are undecided, the transactions known to be committed are never rolled back: the
prepared ones can still be undone to exactly the committed rows. -/
theorem C20_pending_partial (st : St R) (m : List R) (verdict : Nat → Bool) (es : List (Ev R))
    (g : AllGood st.ixs) (hne : st.ixs ≠ []) (h : Holds st.ixs m)
    (hs : ∀ t ∈ txsOf es, ∀ s ∈ t, s.Plain (st.ixs.map Ix.cmp))
    (hh : Honest verdict (Pod.init st) 0 es) (ho : OneAtATime verdict (Pod.init st) 0 es) :
    ∀ ix ∈ (trAbortList (txsOf es).length (es.foldl (podStep verdict) (Pod.init st)).prepared
        (es.foldl (podStep verdict) (Pod.init st)).st).1.ixs,
      ix.rows.Perm (committedRows (st.ixs.map Ix.cmp) verdict 1 m ((txsOf es).take (decidedOf 0 es))) := by
  have hi := inv_history (by simpa using hne) es (Pod.init st) 0 [] (inv_init st g h) hs hh ho
  simp only [List.nil_append] at hi
  obtain ⟨base, _, _, hb, ch⟩ := hi.chain
  have hle := hi.le
  obtain ⟨_, h2⟩ := ch.abort _ rfl (txsOf es).length (by simp only [List.length_drop]; omega)
  exact h2.holds hb

/-- a history meeting the hypotheses: two commits noticed together, then an abort, then a commit -/
def sampleEvents : List (Ev Row3) :=
  [.run [.insert false (4, 40, 400)], .run [.delete 0 (1, 10, 100)], .decided 2, .run [.insert false (5, 50, 500)],
   .decided 3, .run [.update 0 (2, 20, 200) (2, 20, 201)], .decided 4]
def sampleVerdict (i : Nat) : Bool := i != 3

example : Honest sampleVerdict (Pod.init sampleSt) 0 sampleEvents := by
  simp only [Honest, sampleEvents]
  decide
example : OneAtATime sampleVerdict (Pod.init sampleSt) 0 sampleEvents := by
  simp only [OneAtATime, sampleEvents]
  refine ⟨.inl ?_, .inr ⟨?_, by decide⟩, .inl ?_, trivial⟩ <;>
    (intro i h1 h2; simp only [sampleVerdict]; have : i = 1 ∨ i = 2 ∨ i = 3 ∨ i = 4 := by omega
     rcases this with rfl | rfl | rfl | rfl <;> first | rfl | omega)
example : committedRows [k1, k2] sampleVerdict 1 sampleRows (txsOf sampleEvents) =
    [(2, 20, 201), (4, 40, 400), (3, 30, 300)] := by decide

/-- C20 fails when a commit and a later abort are noticed at once: transaction 1 is committed, transaction 2 aborted; the
partition is told "commit 1, abort 2" and rolls back everything up to 2, including the committed insert. -/
theorem C20_committed_lost_false : ∃ (st : St Row3) (es : List (Ev Row3)) (verdict : Nat → Bool),
    AllGood st.ixs ∧ Holds st.ixs sampleRows ∧ (∀ t ∈ txsOf es, ∀ s ∈ t, s.Plain (st.ixs.map Ix.cmp)) ∧
    Honest verdict (Pod.init st) 0 es ∧ decidedOf 0 es = (txsOf es).length ∧
    (4, 40, 400) ∈ committedRows (st.ixs.map Ix.cmp) verdict 1 sampleRows (txsOf es) ∧
    ∀ ix ∈ (es.foldl (podStep verdict) (Pod.init st)).st.ixs, (4, 40, 400) ∉ ix.rows := by
  refine ⟨sampleSt, [.run [.insert false (4, 40, 400)], .run [.insert false (5, 50, 500)], .decided 2], fun i => i == 1,
    sample_good, sample_holds, ?_, ?_, by decide, by decide, by decide⟩
  · simp [txsOf, Stmt.Plain]
  · simp only [Honest]; decide

/-- C20 fails when a transaction ran on top of one that is aborted later: transaction 1 (an UPDATE) is aborted after
transaction 2 updated the same row again; transaction 2 is then committed, but the row shows neither update. -/
theorem C20_built_on_aborted_false : ∃ (st : St Row3) (es : List (Ev Row3)) (verdict : Nat → Bool),
    AllGood st.ixs ∧ Holds st.ixs sampleRows ∧ (∀ t ∈ txsOf es, ∀ s ∈ t, s.Plain (st.ixs.map Ix.cmp)) ∧
    Honest verdict (Pod.init st) 0 es ∧ decidedOf 0 es = (txsOf es).length ∧ verdict 2 = true ∧
    (∀ ix ∈ (es.foldl (podStep verdict) (Pod.init st)).st.ixs, (1, 10, 100) ∈ ix.rows ∧ (1, 10, 102) ∉ ix.rows) ∧
    -- the memory of the row the table now holds was given back by the commit of transaction 2
    ((es.foldl (podStep verdict) (Pod.init st)).st.freed = [(1, 10, 101), (1, 10, 101)]) := by
  refine ⟨sampleSt, [.run [.update 0 (1, 10, 100) (1, 10, 101)], .run [.update 0 (1, 10, 101) (1, 10, 102)],
    .decided 1, .decided 2], fun i => i == 2, sample_good, sample_holds, ?_, ?_, by decide, rfl, by decide, by decide⟩
  · simp [txsOf, Stmt.Plain, sampleSt, k1, k2, Json.cmpInt]
  · simp only [Honest]; decide

end Verif.Part
