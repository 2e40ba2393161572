import Verif.Seq.Model
/-!
# Identity columns (C78)
-/
set_option linter.unusedSimpArgs false
set_option linter.unusedVariables false
namespace Verif.Seq
open Verif

/-- histories in which all values of the column are generated -/
def Regular : Op → Prop
  | .put _ => False
  | .setIdentity _ => False
  | _ => True

theorem toUnsigned_nat {i : Int} (h1 : 0 ≤ i) (h2 : i < 2 ^ 63) : toUnsigned 64 i = i.toNat := by
  unfold toUnsigned
  have e : (2 : Int) ^ 63 = 9223372036854775808 := by decide
  have e' : ((2 ^ 64 : Nat) : Int) = 18446744073709551616 := by decide
  rw [e] at h2
  first | omega | (rw [Int.emod_eq_of_lt h1 (by first | omega | (rw [e']; omega))])

theorem toSigned_nat {n : Nat} (h : n < 2 ^ 63) : toSigned 64 n = (n : Int) := by
  unfold toSigned
  have e : (2 : Nat) ^ 63 = 9223372036854775808 := by decide
  have e' : (2 : Nat) ^ (64 - 1) = 9223372036854775808 := by decide
  rw [e] at h
  rw [if_pos (by rw [e']; exact h)]

theorem syncNext_eq {i : Int} (h1 : 0 ≤ i) (h2 : i < 2 ^ 63) : (syncNext i : Int) = i + 1 := by
  unfold syncNext
  rw [toUnsigned_nat h1 h2]
  have e : (2 : Int) ^ 63 = 9223372036854775808 := by decide
  have e' : (2 : Nat) ^ 64 = 18446744073709551616 := by decide
  rw [e] at h2
  rw [e']
  omega

theorem sync_le {v : Nat} {i : Int} : v ≤ sync v i := by unfold sync; split <;> omega

theorem fold_le (l : List Int) : ∀ v : Nat, v ≤ l.foldl sync v := by
  induction l with
  | nil => intro v; exact Nat.le_refl v
  | cons a l ih => intro v; exact Nat.le_trans sync_le (ih _)

/-- after applying rows the sequence is behind none of them -/
theorem fold_gt (l : List Int) : ∀ v : Nat, ∀ i ∈ l, 0 ≤ i → i < 2 ^ 63 → i < (l.foldl sync v : Nat) := by
  induction l with
  | nil => intro v i h; simp at h
  | cons a l ih =>
    intro v i hi h1 h2
    simp only [List.foldl_cons]
    simp only [List.mem_cons] at hi
    rcases hi with rfl | hi
    · have h3 := fold_le l (sync v i)
      have h4 := syncNext_eq h1 h2
      have : syncNext i ≤ sync v i := by unfold sync; split <;> omega
      omega
    · exact ih _ i hi h1 h2

theorem fold_ub (l : List Int) (b : Nat) (hl : ∀ i ∈ l, 0 ≤ i ∧ i < b) (hb : b ≤ 2 ^ 63) : ∀ v : Nat, v ≤ b → l.foldl sync v ≤ b := by
  have e : (2 : Nat) ^ 63 = 9223372036854775808 := by decide
  have e2 : (2 : Int) ^ 63 = 9223372036854775808 := by decide
  induction l with
  | nil => intro v h; exact h
  | cons a l ih =>
    intro v h
    simp only [List.foldl_cons]
    apply ih (fun i hi => hl i (by simp [hi]))
    have := hl a (by simp)
    have h4 := syncNext_eq this.1 (by rw [e2]; rw [e] at hb; omega)
    unfold sync; split <;> omega

theorem filter_all (l : List Int) : l.filter (fun _ => true) = l := List.filter_eq_self.2 (by simp)

theorem replay_rows (l : List Int) : ∀ v, (l.map Rec.row).foldl replay v = l.foldl sync v := by
  induction l with
  | nil => intro v; rfl
  | cons a l ih => intro v; exact ih _

/-- what holds in regular histories; `b`: a bound on the number of steps -/
structure Inv (b : Nat) (s : St) : Prop where
  value : s.value ≤ b
  pend : s.pending = none
  rows : ∀ i ∈ s.rows, 0 ≤ i ∧ i < s.value
  saved : ∀ i ∈ s.saved, 0 ≤ i ∧ i < b
  logged : ∃ l : List Int, s.logged = l.map Rec.row ∧ (∀ i ∈ l, 0 ≤ i ∧ i < b) ∧ ∀ i ∈ s.rows, i ∈ s.saved ∨ i ∈ l
  made : ∀ i ∈ s.made, 0 ≤ i ∧ i < s.value
  nodup : s.made.Nodup

theorem inv_step {b : Nat} {s : St} (h : Inv b s) (hb : b + 1 ≤ 2 ^ 63) (op : Op) (hr : Regular op) : Inv (b + 1) (step s op) := by
  have e : (2 : Nat) ^ 63 = 9223372036854775808 := by decide
  have e2 : (2 : Int) ^ 63 = 9223372036854775808 := by decide
  have e4 : (2 : Nat) ^ 64 = 18446744073709551616 := by decide
  obtain ⟨h1, h2, h3, h4, ⟨l, hl, h5, h6⟩, h7, h8⟩ := h
  cases op with
  | gen =>
    have hid : newId s = (s.value : Int) := toSigned_nat (by omega)
    have hv : (s.value + 1) % 2 ^ 64 = s.value + 1 := by rw [e4]; rw [e] at hb; omega
    have hnot : ¬ (s.value : Int) ∈ s.rows := fun hm => by have := h3 _ hm; omega
    simp only [step, insertRow, hid, hv, hnot, if_false]
    refine ⟨by simp only; omega, h2, ?_, ?_, ⟨(s.value : Int) :: l, by simp [hl], ?_, ?_⟩, ?_, ?_⟩
    · intro i hi
      simp only [List.mem_cons] at hi
      rcases hi with rfl | hi
      · simp only; omega
      · have := h3 i hi; simp only; omega
    · intro i hi; have := h4 i hi; omega
    · intro i hi
      simp only [List.mem_cons] at hi
      rcases hi with rfl | hi
      · omega
      · have := h5 i hi; omega
    · intro i hi
      simp only [List.mem_cons] at hi ⊢
      rcases hi with rfl | hi
      · exact Or.inr (Or.inl rfl)
      · rcases h6 i hi with h | h
        · exact Or.inl h
        · exact Or.inr (Or.inr h)
    · intro i hi
      simp only [List.mem_cons] at hi
      rcases hi with rfl | hi
      · simp only; omega
      · have := h7 i hi; simp only; omega
    · simp only [List.nodup_cons]
      exact ⟨fun hm => by have := h7 _ hm; omega, h8⟩
  | put i => exact hr.elim
  | del i =>
    refine ⟨by show s.value ≤ _; omega, h2, ?_, fun i hi => by have := h4 i hi; omega, ⟨l, hl, fun i hi => by have := h5 i hi; omega, ?_⟩, h7, h8⟩
    · intro j hj; exact h3 j (List.mem_filter.1 hj).1
    · intro j hj; exact h6 j (List.mem_filter.1 hj).1
  | syncRead i =>
    have : ¬ (i ∈ s.rows ∧ s.pending = none ∧ s.value < syncNext i) := by
      rintro ⟨a, -, c⟩
      have := h3 i a
      have := syncNext_eq this.1 (by rw [e2]; rw [e] at hb; omega)
      omega
    simp only [step, if_neg this]
    exact ⟨by omega, h2, h3, fun i hi => by have := h4 i hi; omega, ⟨l, hl, fun i hi => by have := h5 i hi; omega, h6⟩, h7, h8⟩
  | syncWrite =>
    simp only [step, h2]
    exact ⟨by omega, h2, h3, fun i hi => by have := h4 i hi; omega, ⟨l, hl, fun i hi => by have := h5 i hi; omega, h6⟩, h7, h8⟩
  | setIdentity v => exact hr.elim
  | checkpoint =>
    refine ⟨by show s.value ≤ _; omega, h2, h3, fun i hi => by have := h3 i hi; omega, ⟨[], ?_, by simp, fun i hi => Or.inl hi⟩, h7, h8⟩
    simp [step, hl, List.filter_map, Function.comp_def]
  | catalog =>
    refine ⟨by show s.value ≤ _; omega, h2, h3, fun i hi => by have := h4 i hi; omega,
      ⟨l, ?_, fun i hi => by have := h5 i hi; omega, h6⟩, h7, h8⟩
    simp [step, hl, List.filter_map, Function.comp_def, filter_all]
  | restart =>
    have hall : ∀ i ∈ s.saved ++ l.reverse, 0 ≤ i ∧ i < (b : Int) := by
      intro i hi
      simp only [List.mem_append, List.mem_reverse] at hi
      rcases hi with hi | hi
      · exact h4 i hi
      · exact h5 i hi
    have hub := fold_ub (s.saved ++ l.reverse) b hall (by omega) 0 (by omega)
    have hval : (step s .restart).value = (s.saved ++ l.reverse).foldl sync 0 := by
      simp only [step, hl, ← List.map_reverse, replay_rows, List.foldl_append]
    refine ⟨by rw [hval]; omega, rfl, ?_, fun i hi => by have := h4 i hi; omega,
      ⟨l, hl, fun i hi => by have := h5 i hi; omega, h6⟩, fun i hi => by simp [step] at hi, List.nodup_nil⟩
    intro i hi
    have h0 := h3 i hi
    rw [hval]
    refine ⟨h0.1, fold_gt _ 0 i ?_ h0.1 (by rw [e2]; rw [e] at hb; omega)⟩
    simp only [List.mem_append, List.mem_reverse]
    exact h6 i hi

theorem inv_run (ops : List Op) : ∀ (b : Nat) (s : St), Inv b s → b + ops.length < 2 ^ 63 → (∀ op ∈ ops, Regular op) → Inv (b + ops.length) (run s ops) := by
  induction ops with
  | nil => intro b s h _ _; exact h
  | cons op ops ih =>
    intro b s h hb hr
    simp only [List.length_cons] at hb
    have := ih (b + 1) (step s op) (inv_step h (by omega) op (hr op (by simp))) (by omega) (fun o ho => hr o (by simp [ho]))
    simp only [List.length_cons]
    rw [show b + (ops.length + 1) = b + 1 + ops.length by omega]
    exact this

/-- **C78** when all values are generated: a generated value is the key of no row, so that the INSERT succeeds, and was not generated
before since the start of the server, whatever runs at the same time, after any number of restarts -/
theorem C78_unique_partial (ops : List Op) (hr : ∀ op ∈ ops, Regular op) (hl : ops.length < 2 ^ 63) :
    newId (run .init ops) ∉ (run .init ops).rows ∧ newId (run .init ops) ∉ (run .init ops).made ∧ (run .init ops).made.Nodup ∧
    ∀ i ∈ (run .init ops).rows, i < newId (run .init ops) := by
  have h0 : Inv 0 St.init := ⟨by decide, rfl, by simp [St.init], by simp [St.init], ⟨[], by simp [St.init], by simp, by simp [St.init]⟩, by simp [St.init], by simp [St.init]⟩
  have h := inv_run ops 0 .init h0 (by omega) hr
  have hv := h.value
  have hid : newId (run .init ops) = ((run .init ops).value : Int) := toSigned_nat (by omega)
  refine ⟨?_, ?_, h.nodup, ?_⟩
  · intro hm; have := h.rows _ hm; omega
  · intro hm; have := h.made _ hm; omega
  · intro i hi; have := h.rows i hi; omega

/-- histories without SET IDENTITY -/
def NoSet : Op → Prop
  | .setIdentity _ => False
  | _ => True

/-- rows are in the heap files or in the log -/
def Kept (s : St) : Prop := ∃ l : List Int, s.logged = l.map Rec.row ∧ ∀ i ∈ s.rows, i ∈ s.saved ∨ i ∈ l

theorem kept_run (ops : List Op) : ∀ s : St, (∀ op ∈ ops, NoSet op) → Kept s → Kept (run s ops) := by
  have hins : ∀ (s : St) (j : Int), Kept s → Kept (insertRow s j) := by
    rintro s j ⟨l, hl, h⟩
    unfold insertRow
    split
    · exact ⟨l, hl, h⟩
    · refine ⟨j :: l, by simp [hl], ?_⟩
      intro i hi
      simp only [List.mem_cons] at hi ⊢
      rcases hi with rfl | hi
      · exact Or.inr (Or.inl rfl)
      · rcases h i hi with h | h
        · exact Or.inl h
        · exact Or.inr (Or.inr h)
  induction ops with
  | nil => intro s _ h; exact h
  | cons op ops ih =>
    intro s hn h
    apply ih (step s op) (fun o ho => hn o (by simp [ho]))
    have hop := hn op (by simp)
    have h' := h
    obtain ⟨l, hl, h⟩ := h
    cases op with
    | gen => exact hins s _ h'
    | put i => exact hins s i h'
    | del i => exact ⟨l, hl, fun j hj => h j (List.mem_filter.1 hj).1⟩
    | syncRead i => simp only [step]; split <;> exact h'
    | syncWrite => simp only [step]; split <;> exact h'
    | setIdentity v => exact hop.elim
    | checkpoint => exact ⟨[], by simp [step, hl, List.filter_map, Function.comp_def], fun i hi => Or.inl hi⟩
    | catalog => exact ⟨l, by simp [step, hl, List.filter_map, Function.comp_def, filter_all], h⟩
    | restart => exact h'

/-- **C78** after a restart the sequence is ahead of all rows, also of those with explicit values (not negative) -/
theorem C78_restart_partial (ops : List Op) (hs : ∀ op ∈ ops, NoSet op) (hn : ∀ i ∈ (run .init ops).rows, 0 ≤ i ∧ i < 2 ^ 63) :
    ∀ i ∈ (run .init ops).rows, i < (run .init (ops ++ [.restart])).value := by
  intro i hi
  obtain ⟨l, hl, hk⟩ := kept_run ops .init hs ⟨[], by simp [St.init], by simp [St.init]⟩
  have hrun : run .init (ops ++ [.restart]) = step (run .init ops) .restart := by simp [run, List.foldl_append]
  have hval : (step (run .init ops) .restart).value = ((run .init ops).saved ++ l.reverse).foldl sync 0 := by
    simp only [step, hl, ← List.map_reverse, replay_rows, List.foldl_append]
  rw [hrun, hval]
  refine fold_gt _ 0 i ?_ (hn i hi).1 (hn i hi).2
  simp only [List.mem_append, List.mem_reverse]
  exact hk i hi

/-- an explicit value does not move the sequence: the third generated value is the key of a row, its INSERT fails -/
theorem C78_explicit_false : newId (run .init [.put 2, .gen, .gen]) ∈ (run .init [.put 2, .gen, .gen]).rows := by decide

/-- a row with a negative value: after a restart the generated values are negative and the second one is the key of a row -/
theorem C78_negative_false : newId (run .init [.put (-3), .put (-5), .restart]) = -2 ∧ newId (run .init [.put (-5), .put (-4), .put (-3), .del (-4), .del (-3), .put (-3), .checkpoint, .restart]) = -2 ∧
    newId (run .init [.put (-5), .put 0, .restart, .gen, .gen, .gen, .gen]) ∈ (run .init [.put (-5), .put 0, .restart, .gen, .gen, .gen, .gen]).rows := by
  decide

/-- the value of a row that was deleted is generated again after a restart -/
theorem C78_reuse_false : newId (run .init [.gen]) = 1 ∧ newId (run .init [.gen, .gen, .del 1, .checkpoint, .restart]) = 1 := by decide

/-- a refresh that syncs the sequence with a row that has an explicit value sets it back: 10, 11, 12, 13, 12 are generated -/
theorem C78_race_false : let s := run .init [.setIdentity 10, .put 11, .syncRead 11, .gen, .gen, .gen, .gen, .syncWrite]
    newId s ∈ s.made := by decide

/-- SET IDENTITY is lost by a restart once the catalog file was written -/
theorem C78_set_false : newId (run .init [.setIdentity 1000, .restart]) = 1000 ∧ newId (run .init [.setIdentity 1000, .catalog, .restart]) = 0 := by decide

/-- and set below existing values, it generates them again -/
theorem C78_set_back_false : newId (run .init [.gen, .setIdentity 0]) ∈ (run .init [.gen, .setIdentity 0]).rows := by decide

example : ∀ op ∈ [Op.gen, .gen, .syncRead 0, .gen, .del 1, .checkpoint, .gen, .restart, .gen], Regular op := by
  intro op h; simp at h; rcases h with rfl | rfl | rfl | rfl | rfl | rfl | rfl | rfl | rfl <;> exact trivial
example : (run .init [.gen, .gen, .syncRead 0, .gen, .del 1, .checkpoint, .gen, .restart, .gen]).rows = [4, 3, 2, 0] := by decide

end Verif.Seq
