import Verif.Part.TableProofs
set_option linter.unusedSimpArgs false
set_option linter.unusedSectionVars false
/-!
# Prepared transactions: what the partition holds once their outcomes are known
-/
namespace Verif.Part
open Verif.Index
variable {R : Type} [DecidableEq R]

/-- one prepared transaction: from indexes `as` to `bs` -/
structure Link (cmps : List (R → R → Int)) (v : Bool) (as : List (Ix R)) (log : List (LogRow R)) (s : List (Stmt R))
    (bs : List (Ix R)) : Prop where
  undo  : SameAll (undoAll log bs) as
  good  : AllGood bs
  cmps_ : bs.map Ix.cmp = cmps
  table : ∀ m, Holds as m → ∀ m', tableExecAll cmps m s = some m' → Holds bs m'
  ok    : v = true → ∀ m, Holds as m → tableExecAll cmps m s ≠ none

inductive Chain (cmps : List (R → R → Int)) (verdict : Nat → Bool) :
    List (Ix R) → Nat → List (Nat × List (LogRow R)) → List (List (Stmt R)) → List (Ix R) → Prop
  | nil (a : List (Ix R)) (i : Nat) : Chain cmps verdict a i [] [] a
  | cons {a b c : List (Ix R)} {i : Nat} {log : List (LogRow R)} {ps : List (Nat × List (LogRow R))}
      {s : List (Stmt R)} {ss : List (List (Stmt R))} :
      Link cmps (verdict i) a log s b → Chain cmps verdict b (i + 1) ps ss c →
      Chain cmps verdict a i ((i, log) :: ps) (s :: ss) c

theorem Chain.len {cmps : List (R → R → Int)} {verdict : Nat → Bool} {a c : List (Ix R)} {i : Nat}
    {ps : List (Nat × List (LogRow R))} {ss : List (List (Stmt R))} (h : Chain cmps verdict a i ps ss c) :
    ps.length = ss.length := by
  induction h with
  | nil => rfl
  | cons _ _ ih => simp [ih]

theorem Chain.nil_inv {cmps : List (R → R → Int)} {verdict : Nat → Bool} {a c : List (Ix R)} {i : Nat}
    {ps : List (Nat × List (LogRow R))} (h : Chain cmps verdict a i ps [] c) : a = c := by
  generalize hs : ([] : List (List (Stmt R))) = ss at h
  cases h with
  | nil => rfl
  | cons _ _ => simp at hs

theorem Chain.snoc {cmps : List (R → R → Int)} {verdict : Nat → Bool} {a c d : List (Ix R)} {i : Nat}
    {ps : List (Nat × List (LogRow R))} {ss : List (List (Stmt R))} (h : Chain cmps verdict a i ps ss c)
    {j : Nat} {log : List (LogRow R)} {s : List (Stmt R)} (hj : j = i + ss.length)
    (l : Link cmps (verdict j) c log s d) :
    Chain cmps verdict a i (ps ++ [(j, log)]) (ss ++ [s]) d := by
  induction h with
  | nil a i =>
    simp only [List.length_nil, Nat.add_zero] at hj
    subst hj
    exact .cons l (.nil _ _)
  | cons l1 _ ih =>
    refine .cons l1 (ih ?_ l)
    simp only [List.length_cons] at hj
    omega

theorem Chain.good {cmps : List (R → R → Int)} {verdict : Nat → Bool} {a c : List (Ix R)} {i : Nat}
    {ps : List (Nat × List (LogRow R))} {ss : List (List (Stmt R))} (h : Chain cmps verdict a i ps ss c)
    (g : AllGood a) (hc : a.map Ix.cmp = cmps) : AllGood c ∧ c.map Ix.cmp = cmps := by
  induction h with
  | nil => exact ⟨g, hc⟩
  | cons l _ ih => exact ih l.good l.cmps_

/-- aborting everything -/
theorem Chain.abort {cmps : List (R → R → Int)} {verdict : Nat → Bool} {a c : List (Ix R)} {i : Nat}
    {ps : List (Nat × List (LogRow R))} {ss : List (List (Stmt R))} (h : Chain cmps verdict a i ps ss c)
    (st : St R) (he : st.ixs = c) (id : Nat) (hid : i + ss.length ≤ id + 1) :
    (trAbortList id ps st).2 = [] ∧ SameAll (trAbortList id ps st).1.ixs a := by
  induction h with
  | nil a i => exact ⟨rfl, he ▸ SameAll.refl _⟩
  | @cons a b c i log ps s ss l _ ih =>
    simp only [List.length_cons] at hid
    obtain ⟨h1, h2⟩ := ih he (by omega)
    have hi : i ≤ id := by omega
    unfold trAbortList at h1 h2 ⊢
    simp only [List.foldr_cons, hi, if_true]
    refine ⟨h1, ?_⟩
    rw [abort_ixs]
    exact (undoAll_same h2 log).trans l.undo

theorem trCommitList_ixs (k : Nat) : ∀ (ps : List (Nat × List (LogRow R))) (st : St R),
    (trCommitList k ps st).1.ixs = st.ixs := by
  intro ps
  induction ps with
  | nil => intro st; rfl
  | cons p ps ih =>
    intro st
    unfold trCommitList
    split
    · rw [ih, commit_ixs]
    · exact ih st

theorem Chain.none {cmps : List (R → R → Int)} {verdict : Nat → Bool} {a c : List (Ix R)} {i : Nat}
    {ps : List (Nat × List (LogRow R))} {ss : List (List (Stmt R))} (h : Chain cmps verdict a i ps ss c) (k : Nat)
    (hk : k < i) (st : St R) : (trCommitList k ps st).2 = ps := by
  induction h with
  | nil => rfl
  | @cons a b c i log ps s ss l _ ih =>
    unfold trCommitList
    rw [if_neg (by simp; omega)]
    simp only [ih (by omega)]

/-- committing the first transactions -/
theorem Chain.commit {cmps : List (R → R → Int)} {verdict : Nat → Bool} {a c : List (Ix R)} {i : Nat}
    {ps : List (Nat × List (LogRow R))} {ss : List (List (Stmt R))} (h : Chain cmps verdict a i ps ss c) :
    ∀ (k : Nat) (st : St R) (m : List R), i ≤ k + 1 → k < i + ss.length → AllGood a → a.map Ix.cmp = cmps → Holds a m →
    (∀ j, i ≤ j → j ≤ k → verdict j = true) →
    ∃ b, AllGood b ∧ b.map Ix.cmp = cmps ∧
      Holds b (committedRows cmps verdict i m (ss.take (k + 1 - i))) ∧
      Chain cmps verdict b (k + 1) (trCommitList k ps st).2 (ss.drop (k + 1 - i)) c := by
  induction h with
  | nil a i =>
    intro k st m hk1 hk2 g hc hm _
    simp only [List.length_nil] at hk2
    have : k + 1 = i := by omega
    refine ⟨a, g, hc, ?_, ?_⟩
    · simpa [committedRows] using hm
    · subst this; simp only [List.drop_nil]; exact .nil _ _
  | @cons a b c i log ps s ss l hch ih =>
    intro k st m hk1 hk2 g hc hm hv
    by_cases hki : k < i
    · have : k + 1 = i := by omega
      refine ⟨a, g, hc, ?_, ?_⟩
      · rw [this, Nat.sub_self]; exact hm
      · rw [Chain.none (.cons l hch) k hki st, this, Nat.sub_self]
        exact .cons l hch
    · simp only [List.length_cons] at hk2
      have hvi := hv i (Nat.le_refl _) (by omega)
      have hrows : Holds b (tableTx cmps m ⟨s, verdict i⟩) := by
        unfold tableTx
        simp only [hvi, if_true]
        cases ht : tableExecAll cmps m s with
        | none => exact absurd ht (l.ok hvi m hm)
        | some m' => exact l.table m hm m' ht
      obtain ⟨b', g', hc', hm', hch'⟩ := ih k (trCommit log st) _ (by omega) (by omega) l.good l.cmps_ hrows
        (fun j h1 h2 => hv j (by omega) h2)
      refine ⟨b', g', hc', ?_, ?_⟩
      · have : k + 1 - i = (k + 1 - (i + 1)) + 1 := by omega
        rw [this, List.take_succ_cons]
        exact hm'
      · have : k + 1 - i = (k + 1 - (i + 1)) + 1 := by omega
        rw [this, List.drop_succ_cons]
        unfold trCommitList
        rw [if_pos (by simp; omega)]
        exact hch'

theorem committedRows_append (cmps : List (R → R → Int)) (verdict : Nat → Bool) : ∀ (a : List (List (Stmt R)))
    (b : List (List (Stmt R))) (i : Nat) (m : List R),
    committedRows cmps verdict i m (a ++ b) = committedRows cmps verdict (i + a.length) (committedRows cmps verdict i m a) b := by
  intro a
  induction a with
  | nil => intro b i m; rfl
  | cons s a ih =>
    intro b i m
    simp only [List.cons_append, committedRows, ih, List.length_cons]
    congr 1
    omega

theorem committedRows_aborted (cmps : List (R → R → Int)) (verdict : Nat → Bool) : ∀ (a : List (List (Stmt R)))
    (i : Nat) (m : List R), (∀ j, i ≤ j → j < i + a.length → verdict j = false) →
    committedRows cmps verdict i m a = m := by
  intro a
  induction a with
  | nil => intro i m _; rfl
  | cons s a ih =>
    intro i m h
    have h0 := h i (Nat.le_refl _) (by simp)
    simp only [committedRows]
    have : tableTx cmps m ⟨s, verdict i⟩ = m := by
      unfold tableTx
      cases tableExecAll cmps m s <;> simp [h0]
    rw [this]
    exact ih (i + 1) m fun j h1 h2 => h j (by omega) (by simp; omega)

theorem lastWith_all (verdict : Nat → Bool) (b : Bool) : ∀ (k n : Nat), n ≤ k → (∀ i, n < i → i ≤ k → verdict i = b) →
    lastWith verdict b k = if n = k then lastWith verdict b n else k := by
  intro k n hk h
  by_cases hnk : n = k
  · simp [hnk]
  · rw [if_neg hnk]
    cases k with
    | zero => omega
    | succ k => unfold lastWith; rw [if_pos (h _ (by omega) (by omega))]

theorem lastWith_other (verdict : Nat → Bool) (b : Bool) : ∀ (k n : Nat), n ≤ k →
    (∀ i, n < i → i ≤ k → verdict i = !b) → lastWith verdict b k = lastWith verdict b n := by
  intro k
  induction k with
  | zero => intro n hn _; have : n = 0 := by omega
            rw [this]
  | succ k ih =>
    intro n hn h
    by_cases hnk : n = k + 1
    · rw [hnk]
    · have h1 := h (k + 1) (by omega) (by omega)
      have h2 := ih n (by omega) fun i h1 h2 => h i h1 (by omega)
      rw [← h2]
      conv => lhs; unfold lastWith
      rw [if_neg (by rw [h1]; cases b <;> simp)]

theorem lastWith_le (verdict : Nat → Bool) (b : Bool) : ∀ (n : Nat), lastWith verdict b n ≤ n := by
  intro n
  induction n with
  | zero => exact Nat.le_refl _
  | succ n ih => unfold lastWith; split <;> omega

/-- the partition after the transactions `ts`, of which the first `n` are known to be decided -/
structure Inv (cmps : List (R → R → Int)) (verdict : Nat → Bool) (m0 : List R) (p : Pod R) (n : Nat)
    (ts : List (List (Stmt R))) : Prop where
  applied : p.applied = consensusOf verdict n
  len     : ts.length + 1 = p.seq
  le      : n ≤ ts.length
  chain   : ∃ base, AllGood base ∧ base.map Ix.cmp = cmps ∧ Holds base (committedRows cmps verdict 1 m0 (ts.take n)) ∧
              Chain cmps verdict base (n + 1) p.prepared (ts.drop n) p.st.ixs

theorem sync_same (c : Consensus) (p : Pod R) (h : p.applied = c) : p.sync c = p := by
  unfold Pod.sync
  subst h
  simp

theorem sync_commit (c : Consensus) (p : Pod R) (h1 : ¬ c.abort > p.applied.abort) (h2 : c.commit > p.applied.commit) :
    p.sync c = ⟨(trCommitList c.commit p.prepared p.st).1, p.seq, (trCommitList c.commit p.prepared p.st).2,
      ⟨c.commit, p.applied.abort⟩⟩ := by
  unfold Pod.sync
  simp only [if_neg h1, if_pos h2]

theorem sync_abort (c : Consensus) (p : Pod R) (h1 : c.abort > p.applied.abort) (h2 : ¬ c.commit > p.applied.commit) :
    p.sync c = ⟨(trAbortList c.abort p.prepared p.st).1, p.seq, (trAbortList c.abort p.prepared p.st).2,
      ⟨p.applied.commit, c.abort⟩⟩ := by
  unfold Pod.sync
  simp only [if_pos h1, if_neg h2]

theorem inv_run {cmps : List (R → R → Int)} {verdict : Nat → Bool} {m0 : List R} {p : Pod R} {n : Nat}
    {ts : List (List (Stmt R))} (hi : Inv cmps verdict m0 p n ts) (hne : cmps ≠ []) (s : List (Stmt R))
    (hs : ∀ x ∈ s, x.Plain cmps) (hf : (p.run p.applied s).2 = .failed → verdict p.seq = false) :
    Inv cmps verdict m0 (podStep verdict p (.run s)) n (ts ++ [s]) := by
  obtain ⟨base, gb, cb, hb, ch⟩ := hi.chain
  obtain ⟨g, hc⟩ := ch.good gb cb
  have hne' : p.st.ixs ≠ [] := fun h => hne (by rw [← hc, h]; rfl)
  obtain ⟨r1, r2, r3⟩ := execAll_rollback s p.st g fun x hx => plain_onPrimary (hc.symm ▸ hs x hx)
  have hrun : p.run p.applied s = (⟨(execAll p.st s).1, p.seq + 1,
      p.prepared ++ [(p.seq, (execAll p.st s).2.1)], p.applied⟩, (execAll p.st s).2.2) := by
    unfold Pod.run
    rw [sync_same _ p rfl]
  simp only [podStep, hrun]
  rw [hrun] at hf
  refine ⟨hi.applied, ?_, ?_, base, gb, cb, ?_, ?_⟩
  · simp [hi.len]
  · have := hi.le; simp; omega
  · rw [List.take_append_of_le_length hi.le]; exact hb
  · rw [List.drop_append_of_le_length hi.le]
    refine ch.snoc (j := p.seq) ?_ ?_
    · have h1 := hi.len
      have h2 := hi.le
      simp only [List.length_drop]; omega
    · refine ⟨r1, r2, r3.trans hc, ?_, ?_⟩
      · intro m hm m' hm'
        exact (execAll_table s p.st m g hne' hm (hc.symm ▸ hs)).2.2 m' (hc.symm ▸ hm')
      · intro hv m hm hn
        have := (execAll_table s p.st m g hne' hm (hc.symm ▸ hs)).2.1.2 (hc.symm ▸ hn)
        rw [hf this] at hv
        simp at hv

theorem inv_decided {cmps : List (R → R → Int)} {verdict : Nat → Bool} {m0 : List R} {p : Pod R} {n : Nat}
    {ts : List (List (Stmt R))} (hi : Inv cmps verdict m0 p n ts) (k : Nat) (hnk : n ≤ k) (hk : k < p.seq)
    (h1 : (∀ i, n < i → i ≤ k → verdict i = true) ∨ ((∀ i, n < i → i ≤ k → verdict i = false) ∧ k + 1 = p.seq)) :
    Inv cmps verdict m0 (podStep verdict p (.decided k)) k ts := by
  obtain ⟨base, gb, cb, hb, ch⟩ := hi.chain
  have hlen := hi.len
  have hle := hi.le
  by_cases hkn : k = n
  · subst hkn
    simp only [podStep]
    rw [sync_same _ p hi.applied]
    exact hi
  have hlw1 := lastWith_le verdict true n
  have hlw2 := lastWith_le verdict false n
  rcases h1 with h1 | ⟨h1, h2⟩
  · have e1 : lastWith verdict true k = k := by
      rw [lastWith_all verdict true k n hnk h1, if_neg (by omega)]
    have e2 : lastWith verdict false k = lastWith verdict false n :=
      lastWith_other verdict false k n hnk (by simpa using h1)
    have hap : p.applied = ⟨lastWith verdict true n, lastWith verdict false n⟩ := hi.applied
    have hsync : p.sync (consensusOf verdict k) =
        ⟨(trCommitList k p.prepared p.st).1, p.seq, (trCommitList k p.prepared p.st).2, consensusOf verdict k⟩ := by
      rw [sync_commit _ p (by rw [hap]; simp only [consensusOf]; omega) (by rw [hap]; simp only [consensusOf]; omega)]
      simp only [consensusOf, hap, e1, e2]
    simp only [podStep, hsync]
    obtain ⟨b, gb', cb', hb', ch'⟩ := ch.commit k p.st _ (by omega) (by simp only [List.length_drop]; omega) gb cb hb
      (fun j hj1 hj2 => h1 j (by omega) hj2)
    refine ⟨rfl, hlen, by omega, b, gb', cb', ?_, ?_⟩
    · have e : ts.take k = ts.take n ++ (ts.drop n).take (k + 1 - (n + 1)) := by
        have := List.take_add (l := ts) (i := n) (j := k + 1 - (n + 1))
        rw [← this]; congr 1; omega
      rw [e, committedRows_append]
      have el : 1 + (ts.take n).length = n + 1 := by simp only [List.length_take]; omega
      rw [el]
      exact hb'
    · have e : ts.drop k = (ts.drop n).drop (k + 1 - (n + 1)) := by rw [List.drop_drop]; congr 1; omega
      rw [e]
      simp only [trCommitList_ixs]
      exact ch'
  · have e1 : lastWith verdict false k = k := by
      rw [lastWith_all verdict false k n hnk h1, if_neg (by omega)]
    have e2 : lastWith verdict true k = lastWith verdict true n :=
      lastWith_other verdict true k n hnk (by simpa using h1)
    have hap : p.applied = ⟨lastWith verdict true n, lastWith verdict false n⟩ := hi.applied
    have hsync : p.sync (consensusOf verdict k) =
        ⟨(trAbortList k p.prepared p.st).1, p.seq, (trAbortList k p.prepared p.st).2, consensusOf verdict k⟩ := by
      rw [sync_abort _ p (by rw [hap]; simp only [consensusOf]; omega) (by rw [hap]; simp only [consensusOf]; omega)]
      simp only [consensusOf, hap, e1, e2]
    simp only [podStep, hsync]
    obtain ⟨a1, a2⟩ := ch.abort p.st rfl k (by simp only [List.length_drop]; omega)
    have hts : ts.length = k := by omega
    refine ⟨rfl, hlen, by omega, _, a2.symm.good gb, a2.cmps.trans cb, ?_, ?_⟩
    · have e : ts.take k = ts.take n ++ ts.drop n := by
        rw [List.take_append_drop, List.take_of_length_le (by omega)]
      rw [e, committedRows_append, committedRows_aborted]
      · exact a2.holds hb
      · intro j hj1 hj2
        simp only [List.length_take, List.length_drop] at hj1 hj2
        exact h1 j (by omega) (by omega)
    · rw [a1, List.drop_of_length_le (by omega)]
      exact .nil _ _

theorem inv_history {cmps : List (R → R → Int)} {verdict : Nat → Bool} {m0 : List R} (hne : cmps ≠ []) :
    ∀ (es : List (Ev R)) (p : Pod R) (n : Nat) (ts : List (List (Stmt R))), Inv cmps verdict m0 p n ts →
    (∀ s ∈ txsOf es, ∀ x ∈ s, x.Plain cmps) → Honest verdict p n es → OneAtATime verdict p n es →
    Inv cmps verdict m0 (es.foldl (podStep verdict) p) (decidedOf n es) (ts ++ txsOf es) := by
  intro es
  induction es with
  | nil => intro p n ts hi _ _ _; simpa [txsOf, decidedOf] using hi
  | cons e es ih =>
    intro p n ts hi hs hh ho
    cases e with
    | run s =>
      have := ih _ n (ts ++ [s]) (inv_run hi hne s (hs s (by simp [txsOf])) hh.1)
        (fun t ht => hs t (by simp [txsOf, ht])) hh.2 ho
      simpa [txsOf, decidedOf] using this
    | decided k =>
      have := ih _ k ts (inv_decided hi k hh.1 hh.2.1 ho.1) (fun t ht => hs t (by simpa [txsOf] using ht)) hh.2.2 ho.2
      simpa [txsOf, decidedOf] using this

theorem inv_init {verdict : Nat → Bool} {m0 : List R} (st : St R) (g : AllGood st.ixs) (h : Holds st.ixs m0) :
    Inv (st.ixs.map Ix.cmp) verdict m0 (Pod.init st) 0 [] :=
  ⟨rfl, rfl, Nat.le_refl _, st.ixs, g, rfl, h, .nil _ _⟩

end Verif.Part
