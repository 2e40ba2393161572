import Verif.Wal.FileProofs
set_option linter.unusedSimpArgs false
set_option linter.unusedVariables false
/-! # Positions in the log -/
namespace Verif.Wal
open Verif Verif.Store

/-- order of files and records -/
structure LOk (A : List Ent) : Prop extends AOk A where
  lt   : A.Pairwise fun e f => ∀ r ∈ e.recs, lsnOf r < f.id
  ge   : ∀ e ∈ A, ∀ r ∈ e.recs, e.id ≤ lsnOf r
  asc  : ((A.flatMap Ent.recs).map lsnOf).Pairwise (· < ·)

theorem dropWhile_sorted (l : Nat) (rs : List Bytes) (h : (rs.map lsnOf).Pairwise (· < ·)) :
    rs.dropWhile (fun r => lsnOf r < l) = rs.filter fun r => l ≤ lsnOf r := by
  induction rs with
  | nil => rfl
  | cons r t ih =>
    simp only [List.map_cons, List.pairwise_cons] at h
    by_cases hl : lsnOf r < l
    · rw [List.dropWhile_cons, if_pos (by simpa using hl), ih h.2, List.filter_cons, if_neg (by simpa using hl)]
    · rw [List.dropWhile_cons, if_neg (by simpa using hl)]
      symm
      rw [List.filter_eq_self]
      intro x hx
      rcases List.mem_cons.mp hx with hx | hx
      · subst hx; simp; omega
      · have := h.1 (lsnOf x) (List.mem_map_of_mem hx); simp; omega

theorem filter_low (A1 : List Ent) (l m : Nat) (hm : m ≤ l) (h : ∀ e ∈ A1, ∀ r ∈ e.recs, lsnOf r < m) :
    (A1.flatMap Ent.recs).filter (fun r => l ≤ lsnOf r) = [] := by
  rw [List.filter_eq_nil_iff]
  intro r hr
  obtain ⟨e, he, hr⟩ := List.mem_flatMap.mp hr
  have := h e he r hr
  simp; omega

theorem asc_split {A1 A2 : List Ent} {e : Ent} (h : LOk (A1 ++ e :: A2)) :
    ((e.recs ++ A2.flatMap Ent.recs).map lsnOf).Pairwise (· < ·) := by
  have := h.asc
  simp only [List.flatMap_append, List.flatMap_cons, List.map_append] at this ⊢
  exact (List.pairwise_append.mp this).2.1

theorem start_mem {A : List Ent} (h : AOk A) (l : Nat) (hl : l ≠ 0) :
    (startFile (Files A) l = IdMgr.NONE ∧ ∀ e ∈ A, l < e.id) ∨
    (∃ A1 e A2, A = A1 ++ e :: A2 ∧ startFile (Files A) l = e.id ∧ e.id ≤ l ∧ ∀ f ∈ A2, l < f.id) := by
  obtain ⟨f1, f2⟩ := C32_find _ (ids_sorted h) (ids_top h) l
  have hs : startFile (Files A) l = IdMgr.find (ids (Files A)) l := by unfold startFile; rw [if_neg hl]
  rw [hs]
  by_cases hn : IdMgr.find (ids (Files A)) l = IdMgr.NONE
  · refine Or.inl ⟨hn, fun e he => f1.mp hn _ ?_⟩
    rw [ids_files]; exact List.mem_map_of_mem he
  · obtain ⟨m1, m2, m3⟩ := f2 hn
    obtain ⟨e, he, ee⟩ : ∃ e ∈ A, e.id = IdMgr.find (ids (Files A)) l := by
      have m1' := m1
      generalize IdMgr.find (ids (Files A)) l = v at m1'
      rw [ids_files] at m1'
      exact List.mem_map.mp m1'
    obtain ⟨A1, A2, rfl⟩ := List.append_of_mem he
    refine Or.inr ⟨A1, e, A2, rfl, ee.symm, by omega, fun f hf => ?_⟩
    have hlt : e.id < f.id := by
      have := h.sort
      rw [List.pairwise_append, List.pairwise_cons] at this
      exact this.2.1.1 f hf
    apply Nat.lt_of_not_le
    intro hle
    have := m3 f.id (by rw [ids_files]; exact List.mem_map_of_mem (by simp [hf])) hle
    omega

/-- opening the log at a position that is not before its first file -/
theorem readFrom_ok {A : List Ent} (h : LOk A) (check : Bool) (fuel l : Nat) (hf : (A.flatMap Ent.recs).length ≤ fuel)
    (hin : l ≠ 0 → ∃ e ∈ A, e.id ≤ l) :
    readFrom (Files A) true check fuel l = .ok ((A.flatMap Ent.recs).filter fun r => l ≤ lsnOf r) := by
  by_cases hl : l = 0
  · subst hl
    have hall : (A.flatMap Ent.recs).filter (fun r => 0 ≤ lsnOf r) = A.flatMap Ent.recs := by
      rw [List.filter_eq_self]; intro x _; simp
    rw [hall]
    cases A with
    | nil => simp [readFrom, startFile, Files, ids, IdMgr.min]
    | cons e A2 =>
      have hs : startFile (Files ([] ++ e :: A2)) 0 = e.id := by simp [startFile, Files, ids, IdMgr.min, Ent.file]
      have := read_at (A1 := []) h.toAOk true check fuel 0 (by simpa using hf) hs
      simp only [List.nil_append, if_true] at this
      rw [this]
      congr 1
      rw [dropWhile_sorted 0 _ (asc_split (A1 := []) h), ← List.flatMap_cons, List.filter_eq_self]
      intro x _; simp
  · rcases start_mem h.toAOk l hl with ⟨_, h2⟩ | ⟨A1, e, A2, rfl, hs, he, _⟩
    · obtain ⟨e, he, hle⟩ := hin hl
      have := h2 e he; omega
    · rw [read_at h.toAOk true check fuel l (by simp at hf ⊢; omega) hs]
      congr 1
      simp only [if_true]
      rw [dropWhile_sorted l _ (asc_split h)]
      have hlow : (A1.flatMap Ent.recs).filter (fun r => decide (l ≤ lsnOf r)) = [] := by
        apply filter_low A1 l e.id he
        have := h.lt
        rw [List.pairwise_append] at this
        intro x hx r hr
        exact this.2.2 x hx e (by simp) r hr
      simp only [List.flatMap_append, List.flatMap_cons, List.filter_append, hlow, List.nil_append]

/-- recovery reads all records -/
theorem recoverFiles_ok {A : List Ent} (h : LOk A) (check : Bool) (fuel : Nat) (hf : (A.flatMap Ent.recs).length ≤ fuel) :
    ∀ (A2 A1 : List Ent) (e : Ent) (n l : Nat), A = A1 ++ e :: A2 → A2.length < n → (l = e.id ∨ l = 0) → startFile (Files A) l = e.id →
      recoverFiles (Files A) check fuel n l = .ok ((e :: A2).flatMap Ent.recs) := by
  intro A2
  induction A2 with
  | nil =>
    intro A1 e n l hA hn hle hs
    cases n with
    | zero => simp at hn
    | succ n =>
      have hne : e.id ≠ IdMgr.NONE := by have := h.top e (by rw [hA]; simp); omega
      subst hA
      have hr := read_at h.toAOk false check fuel l (by simp at hf ⊢; omega) hs
      have hd : (e.recs ++ []).dropWhile (fun r => decide (lsnOf r < l)) = e.recs := by
        rw [List.append_nil, dropWhile_sorted, List.filter_eq_self]
        · intro x hx
          have := h.ge e (by simp) x hx
          simp; omega
        · have := asc_split h
          rw [List.map_append] at this
          exact (List.pairwise_append.mp this).1
      simp only [Bool.false_eq_true, if_false, hd] at hr
      simp only [recoverFiles, hs, if_neg hne, hr, bind, Except.bind, next_split h.toAOk, if_true]
      simp
  | cons f A2 ih =>
    intro A1 e n l hA hn hle hs
    cases n with
    | zero => simp at hn
    | succ n =>
      have hne : e.id ≠ IdMgr.NONE := by have := h.top e (by rw [hA]; simp); omega
      have hnf : f.id ≠ IdMgr.NONE := by have := h.top f (by rw [hA]; simp); omega
      have hsf : startFile (Files A) f.id = f.id := by
        have hf0 : f.id ≠ 0 := by
          have := h.sort
          rw [hA, List.pairwise_append, List.pairwise_cons] at this
          have := this.2.1.1 f (by simp)
          omega
        rcases start_mem h.toAOk f.id hf0 with ⟨_, h2⟩ | ⟨B1, g, B2, hB, hs', hg, hr⟩
        · have := h2 f (by rw [hA]; simp); omega
        · rw [hs']
          have hfm : f ∈ A := by rw [hA]; simp
          have hsort := h.sort
          rw [hB] at hfm hsort
          rw [List.pairwise_append, List.pairwise_cons] at hsort
          rcases List.mem_append.mp hfm with hfm | hfm
          · have := hsort.2.2 f hfm g (by simp); omega
          · rcases List.mem_cons.mp hfm with hfm | hfm
            · rw [hfm]
            · have := hr f hfm; omega
      have hrec := ih (A1 ++ [e]) f n f.id (by rw [hA]; simp) (by simp at hn; omega) (Or.inl rfl) hsf
      subst hA
      have hr := read_at h.toAOk false check fuel l (by simp at hf ⊢; omega) hs
      have hd : (e.recs ++ []).dropWhile (fun r => decide (lsnOf r < l)) = e.recs := by
        rw [List.append_nil, dropWhile_sorted, List.filter_eq_self]
        · intro x hx
          have := h.ge e (by simp) x hx
          simp; omega
        · have := asc_split h
          rw [List.map_append] at this
          exact (List.pairwise_append.mp this).1
      simp only [Bool.false_eq_true, if_false, hd] at hr
      simp only [recoverFiles, hs, if_neg hne, hr, bind, Except.bind, next_split h.toAOk, if_neg hnf, hrec]
      simp

theorem recover_ok {A : List Ent} (h : LOk A) (check : Bool) (fuel : Nat) (hf : (A.flatMap Ent.recs).length ≤ fuel) :
    recover (Files A) check fuel = .ok (A.flatMap Ent.recs) := by
  cases A with
  | nil => simp [recover, recoverFiles, startFile, Files, ids, IdMgr.min]
  | cons e A2 =>
    unfold recover
    exact recoverFiles_ok h check fuel hf A2 [] e _ 0 rfl (by simp [Files]; omega) (Or.inr rfl)
      (by simp [startFile, Files, ids, IdMgr.min, Ent.file])

end Verif.Wal
