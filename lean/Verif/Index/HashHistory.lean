import Verif.Index.HashProofs
/-!
# Hash index: scans and histories
-/
set_option linter.unusedSimpArgs false
set_option linter.unusedSectionVars false
namespace Verif.Index.Hash
open Verif.Index (lookup others CmpLaws)
variable {R : Type}

/-! ## Scans -/

theorem nextFrom_spec : ∀ (l : List (Slot R)) (a : Nat),
    (nextFrom l a = none ∧ rowsOf l = []) ∨
    ∃ r i, nextFrom l a = some (r, a + i) ∧ i < l.length ∧ rowsOf l = r :: rowsOf (l.drop (i + 1)) := by
  intro l
  induction l with
  | nil => intro a; left; exact ⟨rfl, rfl⟩
  | cons x l ih =>
    intro a
    cases x with
    | row r => right; exact ⟨r, 0, rfl, by simp, by simp⟩
    | empty =>
      rcases ih (a + 1) with ⟨h1, h2⟩ | ⟨r, i, h1, h2, h3⟩
      · left; exact ⟨by simpa [nextFrom] using h1, by simpa using h2⟩
      · right
        exact ⟨r, i + 1, by rw [nextFrom, h1]; congr 2; omega; simp, by simpa using h2, by simpa using h3⟩
    | deleted =>
      rcases ih (a + 1) with ⟨h1, h2⟩ | ⟨r, i, h1, h2, h3⟩
      · left; exact ⟨by simpa [nextFrom] using h1, by simpa using h2⟩
      · right
        exact ⟨r, i + 1, by rw [nextFrom, h1]; congr 2; omega; simp, by simpa using h2, by simpa using h3⟩

theorem iterAt_some (b : Bool) (r : R) (pos : Nat) : iterAt b (some (r, pos)) = ⟨some r, b, pos⟩ := rfl
theorem iterAt_none (b : Bool) : iterAt b (none : Option (R × Nat)) = ⟨none, b, 2 ^ 64 - 1⟩ := rfl

/-- rows of the table being drained -/
def prevRows (h : Hash R) : List R := match h.prev with | some p => rowsOf p.slots | none => []

/-- all stored rows -/
def Hash.rows (h : Hash R) : List R := rowsOf h.current.slots ++ prevRows h

theorem Store.next_spec (s : Store R) (a : Nat) :
    (s.next a = none ∧ rowsOf (s.slots.drop a) = []) ∨
    ∃ r pos, s.next a = some (r, pos) ∧ a ≤ pos ∧ pos < s.slots.length ∧
      rowsOf (s.slots.drop a) = r :: rowsOf (s.slots.drop (pos + 1)) := by
  unfold Store.next
  rcases nextFrom_spec (s.slots.drop a) a with h | ⟨r, i, h1, h2, h3⟩
  · exact .inl h
  · rw [List.length_drop] at h2
    refine .inr ⟨r, a + i, h1, by omega, by omega, ?_⟩
    rw [h3, List.drop_drop]
    rfl

theorem scan_prev {h : Hash R} {p : Store R} (hp : h.prev = some p) : ∀ (n a : Nat), p.slots.length < n + a →
    scanLoop h n (iterAt true (p.next a)) = rowsOf (p.slots.drop a) := by
  intro n
  induction n with
  | zero =>
    intro a ha
    rw [List.drop_eq_nil_of_le (by omega)]
    simp [scanLoop, rowsOf]
  | succ n ih =>
    intro a ha
    rcases p.next_spec a with ⟨h1, h2⟩ | ⟨r, pos, h1, h2, h3, h4⟩
    · rw [h1, h2]; simp [iterAt, scanLoop]
    · rw [h1, h4]
      simp only [iterAt_some, scanLoop, iterNext, hp, if_true]
      rw [ih (pos + 1) (by omega)]

theorem scan_none {h : Hash R} (n : Nat) (b : Bool) (a : Nat) : scanLoop h n ⟨none, b, a⟩ = [] := by
  cases n <;> simp [scanLoop]

theorem scan_cur {h : Hash R} (hn : (match h.prev with | some p => p.slots.length | none => 0) = q) :
    ∀ (n a : Nat), h.current.slots.length + q < n + a →
    (∀ b, h.current.next a = some b → scanLoop h n (iterAt false (h.current.next a)) =
      rowsOf (h.current.slots.drop a) ++ prevRows h) := by
  intro n
  induction n with
  | zero =>
    intro a ha b hb
    rcases h.current.next_spec a with ⟨h1, h2⟩ | ⟨r, pos, h1, h2, h3, h4⟩
    · rw [h1] at hb; simp at hb
    · omega
  | succ n ih =>
    intro a ha b hb
    rcases h.current.next_spec a with ⟨h1, h2⟩ | ⟨r, pos, h1, h2, h3, h4⟩
    · rw [h1] at hb; simp at hb
    · rw [h1, h4]
      simp only [iterAt_some, scanLoop, iterNext, List.cons_append, List.cons.injEq, true_and, Bool.false_eq_true, if_false]
      cases hx : h.current.next (pos + 1) with
      | some x =>
        have := ih (pos + 1) (by omega) x hx
        rw [hx] at this
        exact this
      | none =>
        have e : rowsOf (h.current.slots.drop (pos + 1)) = [] := by
          rcases h.current.next_spec (pos + 1) with ⟨g1, g2⟩ | ⟨r', pos', g1, _⟩
          · exact g2
          · rw [hx] at g1; simp at g1
        rw [e]
        cases hp : h.prev with
        | none => simp [prevRows, hp, iterAt, scan_none]
        | some p =>
          simp only [prevRows, hp, List.nil_append]
          have hq : p.slots.length = q := by rw [← hn, hp]
          rw [scan_prev hp n 0 (by omega), List.drop_zero]

/-- a scan visits the rows of the table and then the rows of the table being drained, each slot once -/
theorem scan_spec (h : Hash R) (hc : h.prev = none → h.current.count = 0 → rowsOf h.current.slots = []) :
    Hash.scan h = h.rows := by
  unfold Hash.scan openScan
  cases hp : h.prev with
  | none =>
    simp only []
    split
    · rename_i h0
      rw [scan_none, Hash.rows, hc hp h0, prevRows, hp]; rfl
    · rename_i h0
      cases hx : h.current.next 0 with
      | none =>
        rcases h.current.next_spec 0 with ⟨g1, g2⟩ | ⟨r', pos', g1, _⟩
        · rw [iterAt_none, scan_none, Hash.rows, prevRows, hp]
          simpa using g2.symm
        · rw [hx] at g1; simp at g1
      | some x =>
        have := scan_cur (h := h) (q := 0) (by rw [hp]) (h.current.size + 0 + 1) 0 (by simp [Store.size]) x hx
        rw [hx, List.drop_zero] at this
        exact this
  | some p =>
    simp only []
    cases hx : h.current.next 0 with
    | none =>
      rcases h.current.next_spec 0 with ⟨g1, g2⟩ | ⟨r', pos', g1, _⟩
      · simp only []
        rw [scan_prev hp _ 0 (by simp [Store.size]; omega), Hash.rows, prevRows, hp]
        rw [List.drop_zero] at g2 ⊢
        rw [g2]; rfl
      · rw [hx] at g1; simp at g1
    | some x =>
      have := scan_cur (h := h) (q := p.slots.length) (by rw [hp]) (h.current.size + p.size + 1) 0
        (by simp [Store.size]) x hx
      rw [hx, List.drop_zero] at this
      exact this

/-! ## Histories without resize -/

/-- operations that may add a row -/
def HOp.inserts : HOp R → Bool
  | .upsert _ => true
  | .replace _ => true
  | _ => false

/-- operations that may leave a tombstone -/
def HOp.deletes : HOp R → Bool
  | .delete _ => true
  | .remove _ => true
  | _ => false

structure Good (hash : R → Nat) (cmp : R → R → Int) (m : List R) (used : Nat) (del : Bool) (h : Hash R) : Prop where
  prev : h.prev = none
  len : h.current.slots.length = 256
  wf : WF hash cmp h.current.slots
  perm : m.Perm (rowsOf h.current.slots)
  count : h.current.count = (rowsOf h.current.slots).length
  used : usedCount h.current.slots ≤ used
  nodel : del = false → NoDeleted h.current.slots

theorem rows_le_used (l : List (Slot R)) : (rowsOf l).length ≤ usedCount l := by
  induction l with
  | nil => simp [rowsOf, usedCount]
  | cons x l ih => cases x <;> simp <;> omega

theorem noDeleted_set {l : List (Slot R)} (h : NoDeleted l) {pos : Nat} (hp : pos < l.length) {x : Slot R}
    (hx : x ≠ .deleted) : NoDeleted (l.set pos x) := by
  intro p
  rw [getD_set hp]
  split
  · exact hx
  · exact h p

theorem Good.free {hash : R → Nat} {cmp : R → R → Int} {m : List R} {used : Nat} {del : Bool} {h : Hash R}
    (G : Good hash cmp m used del h) (hu : used ≤ 128) :
    ∃ p, p < h.current.slots.length ∧ h.current.slots.getD p .empty = .empty :=
  used_lt (by have := G.used; have := G.len; omega)

theorem grow_id {hash : R → Nat} {cmp : R → R → Int} {h : Hash R} (hl : h.current.slots.length = 256)
    (hc : h.current.count ≤ 128) : h.grow hash cmp = .ok h := by
  unfold Hash.grow Store.isFull Store.size
  rw [hl]
  have : ¬ (h.current.count > 256 / 2) := by omega
  simp [this]

section
variable {hash : R → Nat} {cmp : R → R → Int} (L : CmpLaws cmp) (H : HashOk hash cmp)
include L H

/-- adding a row -/
theorem Good.insert {m : List R} {used : Nat} {del : Bool} {h : Hash R} (G : Good hash cmp m used del h) {r : R}
    {pos : Nat} (hp : pos < h.current.slots.length) (hs : ∀ y, h.current.slots.getD pos .empty ≠ .row y)
    (hc : ChainTo hash h.current.slots r pos) (ha : ∀ x ∈ rowsOf h.current.slots, cmp x r ≠ 0) :
    Good hash cmp (r :: m) (used + 1) del
      { h with current := ⟨h.current.slots.set pos (.row r), h.current.count + 1⟩ } := by
  obtain ⟨h1, h2⟩ := insert_spec L H G.wf hp hs hc ha
  refine ⟨G.prev, by simp [G.len], h1, ?_, ?_, ?_, ?_⟩
  · exact (List.Perm.cons r G.perm).trans h2.symm
  · simp only [h2.length_eq, G.count, List.length_cons]
  · have := used_set_le (l := h.current.slots) hp (x := .row r); have := G.used; simp only; omega
  · intro hd; exact noDeleted_set (G.nodel hd) hp (by simp)

/-- overwriting the row of the key -/
theorem Good.over {m : List R} {used : Nat} {del : Bool} {h : Hash R} (G : Good hash cmp m used del h) {key y r : R}
    {pos : Nat} (hs : h.current.slots.getD pos .empty = .row y) (hk : cmp y key = 0) (hr : cmp r key = 0) :
    Good hash cmp (r :: others cmp m key) used del
      { h with current := { h.current with slots := h.current.slots.set pos (.row r) } } := by
  obtain ⟨h1, h2, h3, h4⟩ := overwrite_spec L H G.wf G.perm hs hk (some r) (fun x hx => by
    simp only [Option.some.injEq] at hx; subst hx; exact hr)
  refine ⟨G.prev, by simp [G.len], h1, h2.symm, ?_, ?_, ?_⟩
  · have := h2.length_eq
    simp only [slotOf] at this ⊢
    rw [this, G.count, h4]; simp
  · have := G.used; simp only [slotOf] at h3 ⊢; omega
  · intro hd; exact noDeleted_set (G.nodel hd) (getD_lt hs) (by simp)

/-- deleting the row of the key -/
theorem Good.del {m : List R} {used : Nat} {del : Bool} {h : Hash R} (G : Good hash cmp m used del h) {key y : R}
    {pos : Nat} (hs : h.current.slots.getD pos .empty = .row y) (hk : cmp y key = 0) :
    Good hash cmp (others cmp m key) used true
      { h with current := ⟨h.current.slots.set pos .deleted, h.current.count - 1⟩ } := by
  obtain ⟨h1, h2, h3, h4⟩ := overwrite_spec L H G.wf G.perm hs hk none (by simp)
  refine ⟨G.prev, by simp [G.len], h1, by simpa [slotOf] using h2.symm, ?_, ?_, by simp⟩
  · have := h2.length_eq
    simp only [slotOf] at this ⊢
    rw [this, G.count, h4]; simp
  · have := G.used; simp only [slotOf] at h3 ⊢; omega

theorem Good.mono {m : List R} {used : Nat} {del : Bool} {h : Hash R} (G : Good hash cmp m used del h) (b : Bool) {u : Nat}
    (hu : used ≤ u) : Good hash cmp m u (del || b) h :=
  ⟨G.prev, G.len, G.wf, G.perm, G.count, by have := G.used; omega, fun hd => G.nodel (by simp at hd; exact hd.1)⟩

theorem Good.get {m : List R} {used : Nat} {del : Bool} {h : Hash R} (G : Good hash cmp m used del h)
    (hu : used ≤ 128) (key : R) :
    (∃ y pos, h.current.get hash cmp key = .ok (some y, pos) ∧ h.current.slots.getD pos .empty = .row y ∧ cmp y key = 0 ∧
        lookup cmp m key = some y) ∨
    (∃ pos, h.current.get hash cmp key = .ok (none, pos) ∧ pos < h.current.slots.length ∧
        h.current.slots.getD pos .empty = .empty ∧ ChainTo hash h.current.slots key pos ∧
        (∀ r ∈ rowsOf h.current.slots, cmp r key ≠ 0) ∧ lookup cmp m key = none) := by
  obtain ⟨pos, h1, h2, ⟨y, h3, h4⟩ | ⟨h3, h4, h5⟩⟩ := get_spec L H G.wf key (G.free hu)
  · left
    refine ⟨y, pos, ?_, h3, h4, lookup_unique L G.perm G.wf.unique (mem_rowsOf.2 ⟨pos, h2, h3⟩) h4⟩
    unfold Store.get Store.at Store.size
    rw [h1]; simp only [h3]
  · right
    refine ⟨pos, ?_, h2, h3, h4, h5, lookup_absent G.perm h5⟩
    unfold Store.get Store.at Store.size
    rw [h1]; simp only [h3]

theorem step_good {m : List R} {used : Nat} {del : Bool} {h : Hash R} (G : Good hash cmp m used del h) (op : HOp R)
    (hu : used + (if op.inserts then 1 else 0) ≤ 128)
    (hr : ∀ k, op = .replace k → del = false ∨ lookup cmp m k = none)
    (hupd : ∀ k r, op = .update k r → cmp r k = 0) :
    ∃ o h' m', step hash cmp h op = .ok (o, h') ∧ SpecStep cmp m op o m' ∧
      Good hash cmp m' (used + (if op.inserts then 1 else 0)) (del || op.deletes) h' := by
  have hu' : used ≤ 128 := by omega
  cases op with
  | upsert r =>
    simp only [HOp.inserts, if_true] at hu ⊢
    simp only [HOp.deletes, Bool.or_false]
    rcases G.get L H hu' r with ⟨y, pos, h1, h2, h3, h4⟩ | ⟨pos, h1, h2, h3, h4, h5, h6⟩
    · refine ⟨.existed true (some y), h, m, ?_, .upsertOld r y h4, ?_⟩
      · have hc : h.current.count ≤ 128 := by
          have := rows_le_used h.current.slots; have := G.used; have := G.count; omega
        simp only [step, Hash.getOrSet, G.prev, h1, grow_id G.len hc, openAt, Store.size, Store.at, if_pos (getD_lt h2), h2]
      · have := G.mono L H false (u := used + 1) (by omega)
        simpa using this
    · have G' := G.insert L H (r := r) h2 (by rw [h3]; simp) h4 h5
      refine ⟨.existed false (some r), _, r :: m, ?_, .upsertNew r h6, G'⟩
      have hc : h.current.count + 1 ≤ 128 := by
        have := rows_le_used h.current.slots; have := G.used; have := G.count; omega
      have hg := grow_id (hash := hash) (cmp := cmp) G'.len hc
      simp only [G.prev] at hg
      simp only [step, Hash.getOrSet, G.prev, h1, hg, openAt, Store.size, Store.at, List.length_set, if_pos h2,
        getD_set h2, if_true]
  | replace r =>
    simp only [HOp.inserts, if_true] at hu ⊢
    simp only [HOp.deletes, Bool.or_false]
    have hsafe : NoDeleted h.current.slots ∨ ∀ x ∈ rowsOf h.current.slots, cmp x r ≠ 0 := by
      rcases hr r rfl with hd | hl
      · exact .inl (G.nodel hd)
      · right
        intro x hx h0
        rw [lookup_unique L G.perm G.wf.unique hx h0] at hl
        simp at hl
    obtain ⟨pos, h1, h2, ⟨y, h3, h4⟩ | ⟨h3, h4, h5⟩⟩ := set_spec L H G.wf r (G.free hu') hsafe
    · have G' := G.over L H h3 h4 (L.refl r)
      have hl := lookup_unique L G.perm G.wf.unique (mem_rowsOf.2 ⟨pos, h2, h3⟩) h4
      have hc : h.current.count ≤ 128 := by
        have := rows_le_used h.current.slots; have := G.used; have := G.count; omega
      have hg := grow_id (hash := hash) (cmp := cmp) G'.len hc
      simp only [G.prev] at hg
      refine ⟨.row (some y), { h with current := { h.current with slots := h.current.slots.set pos (.row r) } },
        r :: others cmp m r, ?_, hl ▸ SpecStep.replace r, ?_⟩
      · simp only [step, Hash.set, G.prev, Store.set, Store.size, h1, Store.at, h3, hg]
      · have := G'.mono L H false (u := used + 1) (by omega)
        simpa using this
    · have G' := G.insert L H h2 h3 h4 h5
      have hl := lookup_absent G.perm h5
      have ho := others_absent L H G.perm h5
      have hc : h.current.count + 1 ≤ 128 := by
        have := rows_le_used h.current.slots; have := G.used; have := G.count; omega
      have hg := grow_id (hash := hash) (cmp := cmp) G'.len hc
      simp only [G.prev] at hg
      refine ⟨.row none, { h with current := ⟨h.current.slots.set pos (.row r), h.current.count + 1⟩ },
        r :: others cmp m r, ?_, hl ▸ SpecStep.replace r, ?_⟩
      · simp only [step, Hash.set, G.prev, Store.set, Store.size, h1, Store.at]
        cases hs : h.current.slots.getD pos .empty with
        | row y => exact absurd hs (h3 y)
        | empty => simp only [hg]
        | deleted => simp only [hg]
      · rw [ho]; exact G'
  | delete r =>
    simp only [HOp.inserts, HOp.deletes, Bool.or_true, Bool.false_eq_true, if_false, Nat.add_zero]
    obtain ⟨pos, h1, h2, ⟨y, h3, h4⟩ | ⟨h3, h4, h5⟩⟩ := get_spec L H G.wf r (G.free hu')
    · have hl := lookup_unique L G.perm G.wf.unique (mem_rowsOf.2 ⟨pos, h2, h3⟩) h4
      refine ⟨.row (some y), _, _, ?_, hl ▸ SpecStep.delete r, G.del L H h3 h4⟩
      simp only [step, Hash.delete, G.prev, Store.delete, Store.size, h1, Store.at, h3]
    · have hl := lookup_absent G.perm h5
      have ho := others_absent L H G.perm h5
      refine ⟨.row none, h, _, ?_, hl ▸ SpecStep.delete r, ?_⟩
      · simp only [step, Hash.delete, G.prev, Store.delete, Store.size, h1, Store.at, h3]
        simp [← G.prev]
      · rw [ho]
        have := G.mono L H true (u := used) (by omega)
        simpa using this
  | lookup r =>
    simp only [HOp.inserts, HOp.deletes, Bool.or_false, Bool.false_eq_true, if_false, Nat.add_zero]
    rcases G.get L H hu' r with ⟨y, pos, h1, h2, h3, h4⟩ | ⟨pos, h1, h2, h3, h4, h5, h6⟩
    · refine ⟨.row (some y), h, m, ?_, h4 ▸ SpecStep.lookup r, G⟩
      simp only [step, openKey, h1]
    · refine ⟨.row none, h, m, ?_, h6 ▸ SpecStep.lookup r, G⟩
      simp only [step, openKey, h1, G.prev]
  | update k r =>
    simp only [HOp.inserts, HOp.deletes, Bool.or_false, Bool.false_eq_true, if_false, Nat.add_zero]
    rcases G.get L H hu' k with ⟨y, pos, h1, h2, h3, h4⟩ | ⟨pos, h1, h2, h3, h4, h5, h6⟩
    · refine ⟨.row (some y), _, _, ?_, .update k r y h4, G.over L H h2 h3 (hupd k r rfl)⟩
      simp only [step, openKey, h1, iterReplace, Bool.false_eq_true, if_false]
    · refine ⟨.row none, h, m, ?_, .updateNone k r h6, G⟩
      simp only [step, openKey, h1, G.prev]
  | remove k =>
    simp only [HOp.inserts, HOp.deletes, Bool.or_true, Bool.false_eq_true, if_false, Nat.add_zero]
    rcases G.get L H hu' k with ⟨y, pos, h1, h2, h3, h4⟩ | ⟨pos, h1, h2, h3, h4, h5, h6⟩
    · refine ⟨.row (some y), _, _, ?_, h4 ▸ SpecStep.remove k, G.del L H h2 h3⟩
      simp only [step, openKey, h1, iterDelete, Bool.false_eq_true, if_false]
    · refine ⟨.row none, h, _, ?_, h6 ▸ SpecStep.remove k, ?_⟩
      · simp only [step, openKey, h1, G.prev]
      · rw [others_absent L H G.perm h5]
        have := G.mono L H true (u := used) (by omega)
        simpa using this
  | scan =>
    simp only [HOp.inserts, HOp.deletes, Bool.or_false, Bool.false_eq_true, if_false, Nat.add_zero]
    refine ⟨.rows (Hash.scan h), h, m, rfl, .scan _ ?_, G⟩
    rw [scan_spec h (fun _ h0 => List.length_eq_zero_iff.1 (by rw [← G.count]; exact h0))]
    simp only [Hash.rows, prevRows, G.prev, List.append_nil]
    exact G.perm.symm

end

theorem good_init (hash : R → Nat) (cmp : R → R → Int) : Good hash cmp [] 0 false (Hash.create : Hash R) := by
  have e : ∀ n p, (List.replicate n (Slot.empty : Slot R)).getD p .empty = .empty := by
    intro n p
    rw [List.getD_eq_getElem?_getD, List.getElem?_replicate]
    split <;> rfl
  have r0 : ∀ n, rowsOf (List.replicate n (Slot.empty : Slot R)) = [] := by
    intro n; induction n with
    | zero => rfl
    | succ n ih => rw [List.replicate_succ, rowsOf_empty, ih]
  have u0 : ∀ n, usedCount (List.replicate n (Slot.empty : Slot R)) = 0 := by
    intro n; induction n with
    | zero => rfl
    | succ n ih => rw [List.replicate_succ, usedCount_empty, ih]
  have l0 : (Hash.create : Hash R).current.slots.length = 256 := List.length_replicate
  refine ⟨rfl, l0, ⟨?_, ?_, by rw [l0]; omega⟩, ?_, ?_, ?_, ?_⟩
  · intro r d _ h; simp only [Hash.create, Store.create] at h; rw [e] at h; simp at h
  · simp only [Hash.create, Store.create, r0]; exact List.Pairwise.nil
  · simp only [Hash.create, Store.create, r0]; exact .nil
  · simp only [Hash.create, Store.create, r0]; rfl
  · simp only [Hash.create, Store.create, u0]; omega
  · intro _ p; simp only [Hash.create, Store.create, e]; simp

/-- number of operations that may add a row -/
def insertCount (ops : List (HOp R)) : Nat := (ops.filter HOp.inserts).length

theorem SpecRun.snoc {cmp : R → R → Int} {m m' m'' : List R} {ops : List (HOp R)} {os : List (HOut R)} {op : HOp R}
    {o : HOut R} (h : SpecRun cmp m ops os m') (hs : SpecStep cmp m' op o m'') :
    SpecRun cmp m (ops ++ [op]) (os ++ [o]) m'' := by
  induction h with
  | nil m => exact .cons hs (.nil _)
  | cons h1 _ ih => exact .cons h1 (ih hs)

theorem run_good {hash : R → Nat} {cmp : R → R → Int} (L : CmpLaws cmp) (H : HashOk hash cmp) :
    ∀ (ops pre : List (HOp R)) (pos : List (HOut R)) (m : List R) (h : Hash R),
    SpecRun cmp [] pre pos m → Good hash cmp m (insertCount pre) (pre.any HOp.deletes) h →
    insertCount (pre ++ ops) ≤ 128 →
    (∀ a k b, pre ++ ops = a ++ .replace k :: b →
      a.any HOp.deletes = false ∨ ∀ os m, SpecRun cmp [] a os m → lookup cmp m k = none) →
    (∀ k r, .update k r ∈ ops → cmp r k = 0) →
    ∃ os h' m', run hash cmp h ops = .ok (os, h') ∧ SpecRun cmp m ops os m' ∧
      Good hash cmp m' (insertCount (pre ++ ops)) ((pre ++ ops).any HOp.deletes) h' := by
  intro ops
  induction ops with
  | nil => intro pre pos m h _ G _ _ _; exact ⟨[], h, m, rfl, .nil m, by simpa using G⟩
  | cons op ops ih =>
    intro pre pos m h hsp G hi hrep hupd
    have hi' : insertCount pre + (if op.inserts then 1 else 0) ≤ 128 := by
      simp only [insertCount, List.filter_append, List.filter_cons, List.length_append] at hi ⊢
      split at hi <;> simp_all <;> omega
    obtain ⟨o, h1, m1, s1, s2, s3⟩ := step_good L H G op hi'
      (by intro k hk; subst hk
          rcases hrep pre k ops rfl with h | h
          · exact .inl h
          · exact .inr (h pos m hsp))
      (by intro k r hk; subst hk; exact hupd k r (by simp))
    obtain ⟨os, h2, m2, t1, t2, t3⟩ := ih (pre ++ [op]) (pos ++ [o]) m1 h1 (hsp.snoc s2)
      (by have e1 : insertCount (pre ++ [op]) = insertCount pre + (if op.inserts then 1 else 0) := by
            simp only [insertCount, List.filter_append, List.filter_cons, List.length_append]; split <;> simp
          have e2 : (pre ++ [op]).any HOp.deletes = (pre.any HOp.deletes || op.deletes) := by simp
          rw [e1, e2]; exact s3)
      (by simpa using hi) (by simpa using hrep) (fun k r hk => hupd k r (by simp [hk]))
    refine ⟨o :: os, h2, m2, ?_, .cons s2 t2, by simpa using t3⟩
    simp only [run, s1, t1]

end Verif.Index.Hash
