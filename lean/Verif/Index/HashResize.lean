import Verif.Index.HashHistory
/-!
# Hash index: histories without deletes, through any number of resizes
-/
set_option linter.unusedSimpArgs false
set_option linter.unusedSectionVars false
set_option linter.unusedVariables false
namespace Verif.Index.Hash
open Verif.Index (lookup others)
variable {R : Type}

theorem replicate_getD (n p : Nat) : (List.replicate n (Slot.empty : Slot R)).getD p .empty = .empty := by
  rw [List.getD_eq_getElem?_getD, List.getElem?_replicate]
  split <;> rfl

theorem rowsOf_replicate (n : Nat) : rowsOf (List.replicate n (Slot.empty : Slot R)) = [] := by
  induction n with
  | zero => rfl
  | succ n ih => rw [List.replicate_succ, rowsOf_empty, ih]

theorem used_replicate (n : Nat) : usedCount (List.replicate n (Slot.empty : Slot R)) = 0 := by
  induction n with
  | zero => rfl
  | succ n ih => rw [List.replicate_succ, usedCount_empty, ih]

theorem used_noDeleted {l : List (Slot R)} (h : NoDeleted l) : usedCount l = (rowsOf l).length := by
  induction l with
  | nil => rfl
  | cons x l ih =>
    have h' : NoDeleted l := fun p => by have := h (p + 1); simpa using this
    cases x with
    | empty => rw [usedCount_empty, rowsOf_empty, ih h']
    | deleted => exact absurd (by simp) (h 0)
    | row r => rw [usedCount_row, rowsOf_row, ih h', List.length_cons]

/-- a row removed from a slot: the other rows -/
theorem rowsOf_clear {l : List (Slot R)} {pos : Nat} {y : R} (hs : l.getD pos .empty = .row y) {x : Slot R} (hx : x.row? = none) :
    (rowsOf l).Perm (y :: rowsOf (l.set pos x)) := by
  have hp := getD_lt hs
  have e1 : rowsOf l = rowsOf (l.take pos) ++ y :: rowsOf (l.drop (pos + 1)) := by
    conv => lhs; rw [split_at hp]
    rw [rowsOf_append, hs, rowsOf_row]
  have e2 : rowsOf (l.set pos x) = rowsOf (l.take pos) ++ rowsOf (l.drop (pos + 1)) := by
    rw [set_split hp, rowsOf_append]
    congr 1
    cases x <;> simp [Slot.row?] at hx ⊢
  rw [e1, e2]
  exact List.perm_middle

theorem used_set_mono {l : List (Slot R)} {pos : Nat} {y : R} (hs : l.getD pos .empty = .row y) (x : Slot R) :
    usedCount (l.set pos x) ≤ usedCount l := by
  have hp := getD_lt hs
  rw [set_split hp]
  conv => rhs; rw [split_at hp, hs]
  rw [usedCount_append, usedCount_append]
  cases x <;> simp

theorem rehashFind_spec (p : Store R) : ∀ n pos,
    (∃ r q, rehashFind p n pos = some (r, q) ∧ pos ≤ q ∧ p.slots.getD q .empty = .row r ∧ ∀ i, pos ≤ i → i < q → ∀ y, p.slots.getD i .empty ≠ .row y) ∨
    (rehashFind p n pos = none ∧ ∀ i, pos ≤ i → i < pos + n → ∀ y, p.slots.getD i .empty ≠ .row y) := by
  intro n
  induction n with
  | zero => intro pos; exact .inr ⟨rfl, fun i h1 h2 => by omega⟩
  | succ n ih =>
    intro pos
    cases hs : p.slots.getD pos .empty with
    | row r =>
      left
      exact ⟨r, pos, by simp only [rehashFind, Store.at, hs], Nat.le_refl _, hs, fun i h1 h2 => by omega⟩
    | empty =>
      have e : rehashFind p (n + 1) pos = rehashFind p n (pos + 1) := by simp only [rehashFind, Store.at, hs]
      rw [e]
      have hno : ∀ y, p.slots.getD pos .empty ≠ .row y := by rw [hs]; simp
      rcases ih (pos + 1) with ⟨r, q, h1, h2, h3, h4⟩ | ⟨h1, h2⟩
      · refine .inl ⟨r, q, h1, by omega, h3, fun i a b => ?_⟩
        by_cases hi : i = pos
        · subst hi; exact hno
        · exact h4 i (by omega) b
      · refine .inr ⟨h1, fun i a b => ?_⟩
        by_cases hi : i = pos
        · subst hi; exact hno
        · exact h2 i (by omega) (by omega)
    | deleted =>
      have e : rehashFind p (n + 1) pos = rehashFind p n (pos + 1) := by simp only [rehashFind, Store.at, hs]
      rw [e]
      have hno : ∀ y, p.slots.getD pos .empty ≠ .row y := by rw [hs]; simp
      rcases ih (pos + 1) with ⟨r, q, h1, h2, h3, h4⟩ | ⟨h1, h2⟩
      · refine .inl ⟨r, q, h1, by omega, h3, fun i a b => ?_⟩
        by_cases hi : i = pos
        · subst hi; exact hno
        · exact h4 i (by omega) b
      · refine .inr ⟨h1, fun i a b => ?_⟩
        by_cases hi : i = pos
        · subst hi; exact hno
        · exact h2 i (by omega) (by omega)

/-- the table that rows are added to: `t` is its size in units of 256 -/
structure CurOk (hash : R → Nat) (cmp : R → R → Int) (t : Nat) (s : Store R) : Prop where
  tpos : 0 < t
  len : s.slots.length = 256 * t
  wf : WF hash cmp s.slots
  nodel : NoDeleted s.slots
  count : s.count = (rowsOf s.slots).length

/-- the table that rows are moved from -/
structure PrevOk (t pos : Nat) (c : Nat) (p : Store R) : Prop where
  used : usedCount p.slots < p.slots.length
  moved : ∀ i, i < pos → ∀ y, p.slots.getD i .empty ≠ .row y
  room : c + 2 * (rowsOf p.slots).length + 3 ≤ 130 * t

structure Roomy (hash : R → Nat) (cmp : R → R → Int) (m : List R) (h : Hash R) : Prop where
  perm : m.Perm h.rows
  uniq : Unique cmp h.rows
  cur : ∃ t, CurOk hash cmp t h.current ∧ (∀ p, h.prev = some p → PrevOk t h.pos h.current.count p) ∧
    (h.prev = none → h.current.count + 2 ≤ 130 * t)

theorem CurOk.free {hash : R → Nat} {cmp : R → R → Int} {t : Nat} {s : Store R} (C : CurOk hash cmp t s) (hc : s.count < 256 * t) :
    ∃ p, p < s.slots.length ∧ s.slots.getD p .empty = .empty :=
  used_lt (by rw [used_noDeleted C.nodel, ← C.count, C.len]; exact hc)

theorem uniq_perm {cmp : R → R → Int} (L : CmpLaws cmp) {a b : List R} (h : a.Perm b) : Unique cmp a → Unique cmp b :=
  (List.Perm.pairwise_iff (R := fun a b => cmp a b ≠ 0) (fun {a b} h h2 => h (L.symm h2)) h).1

section
variable {hash : R → Nat} {cmp : R → R → Int} (L : CmpLaws cmp) (H : HashOk hash cmp)
include L H

/-- storing a key in the current table -/
theorem CurOk.set {t : Nat} {s : Store R} (C : CurOk hash cmp t s) (hc : s.count < 256 * t) (key : R) :
    (∃ y s', s.set hash cmp key = .ok (some y, s') ∧ CurOk hash cmp t s' ∧ y ∈ rowsOf s.slots ∧ cmp y key = 0 ∧ s'.count = s.count ∧
      (rowsOf s'.slots).Perm (key :: others cmp (rowsOf s.slots) key)) ∨
    (∃ s', s.set hash cmp key = .ok (none, s') ∧ CurOk hash cmp t s' ∧ (∀ r ∈ rowsOf s.slots, cmp r key ≠ 0) ∧ s'.count = s.count + 1 ∧
      (rowsOf s'.slots).Perm (key :: rowsOf s.slots)) := by
  obtain ⟨pos, h1, h2, ⟨y, h3, h4⟩ | ⟨h3, h4, h5⟩⟩ := set_spec L H C.wf key (C.free hc) (.inl C.nodel)
  · left
    obtain ⟨g1, g2, g3, g4⟩ := overwrite_spec L H C.wf (List.Perm.refl _) h3 h4 (some key) (fun r hr => by
      simp only [Option.some.injEq] at hr; subst hr; exact L.refl _)
    refine ⟨y, { s with slots := s.slots.set pos (.row key) }, ?_, ⟨C.tpos, by simp [C.len], g1, noDeleted_set C.nodel h2 (by simp), ?_⟩,
      mem_rowsOf.2 ⟨pos, h2, h3⟩, h4, rfl, g2⟩
    · simp only [Store.set, Store.size, h1, Store.at, h3]
    · have := g2.length_eq
      simp only [slotOf] at this ⊢
      rw [this, C.count, g4]; simp
  · right
    obtain ⟨g1, g2⟩ := insert_spec L H C.wf h2 h3 h4 h5
    refine ⟨⟨s.slots.set pos (.row key), s.count + 1⟩, ?_, ⟨C.tpos, by simp [C.len], g1, noDeleted_set C.nodel h2 (by simp), ?_⟩, h5, rfl, g2⟩
    · simp only [Store.set, Store.size, h1, Store.at]
    · simp only [g2.length_eq, C.count, List.length_cons]

/-- one step of a resize keeps the rows -/
theorem rehash_ok {t : Nat} {h : Hash R} {p : Store R} (hp : h.prev = some p) (C : CurOk hash cmp t h.current)
    (used : usedCount p.slots < p.slots.length) (moved : ∀ i, i < h.pos → ∀ y, p.slots.getD i .empty ≠ .row y)
    (room : h.current.count + 2 * (rowsOf p.slots).length + 2 ≤ 130 * t) (U : Unique cmp h.rows) :
    ∃ h', h.rehash hash cmp = .ok h' ∧ h'.rows.Perm h.rows ∧ CurOk hash cmp t h'.current ∧
      (∀ p', h'.prev = some p' → PrevOk t h'.pos h'.current.count p') ∧ (h'.prev = none → h'.current.count + 2 ≤ 130 * t) := by
  have ht := C.tpos
  rcases rehashFind_spec p (p.size - h.pos) h.pos with ⟨r, q, h1, h2, h3, h4⟩ | ⟨h1, h2⟩
  · have hperm := rowsOf_clear h3 (x := .empty) rfl
    have hlen := hperm.length_eq
    simp only [List.length_cons] at hlen
    have hin : r ∈ rowsOf p.slots := mem_rowsOf.2 ⟨q, getD_lt h3, h3⟩
    have hU : Unique cmp (rowsOf h.current.slots ++ rowsOf p.slots) := by
      simpa [Hash.rows, prevRows, hp] using U
    have hno : ∀ x ∈ rowsOf h.current.slots, cmp x r ≠ 0 := fun x hx => (List.pairwise_append.1 hU).2.2 x hx r hin
    rcases C.set L H (by omega) r with ⟨y, s', a1, a2, a3, a4, a5, a6⟩ | ⟨s', a1, a2, a3, a4, a5⟩
    · exact absurd a4 (hno y a3)
    · refine ⟨⟨s', some ⟨p.slots.set q .empty, p.count - 1⟩, q + 1⟩, ?_, ?_, a2, ?_, by simp⟩
      · simp only [Hash.rehash, hp, h1, a1]
      · simp only [Hash.rows, prevRows, hp]
        refine (a5.append_right _).trans ?_
        rw [List.cons_append]
        exact (List.perm_middle.symm).trans (List.Perm.append_left _ hperm.symm)
      · intro p' e
        simp only [Option.some.injEq] at e
        subst e
        have hu := used_set_mono h3 (x := Slot.empty)
        refine ⟨by simp only [List.length_set]; omega, ?_, by show s'.count + 2 * _ + 3 ≤ _; simp only; omega⟩
        intro i hi y hy
        simp only at hy hi
        rw [getD_set (getD_lt h3)] at hy
        split at hy
        · simp at hy
        · rename_i hne
          by_cases hlt : i < h.pos
          · exact moved i hlt y hy
          · exact h4 i (by omega) (by omega) y hy
  · have hnil : rowsOf p.slots = [] := by
      cases e : rowsOf p.slots with
      | nil => rfl
      | cons x l =>
        exfalso
        obtain ⟨i, hi, hy⟩ := mem_rowsOf.1 (show x ∈ rowsOf p.slots by rw [e]; simp)
        by_cases hlt : i < h.pos
        · exact moved i hlt x hy
        · exact h2 i (by omega) (by simp only [Store.size]; omega) x hy
    refine ⟨⟨h.current, none, h.pos⟩, ?_, ?_, C, by simp, fun _ => by simp only; omega⟩
    · simp only [Hash.rehash, hp, h1]
    · simp only [Hash.rows, prevRows, hp, hnil]
      exact List.Perm.refl _

theorem cur_empty {t : Nat} (ht : 0 < t) (n : Nat) (hn : n = 256 * t) : CurOk hash cmp t (Store.create n : Store R) := by
  subst hn
  refine ⟨ht, by simp [Store.create], ⟨?_, ?_, by simp [Store.create]; omega⟩, ?_, ?_⟩
  · intro r d _ h; simp only [Store.create] at h; rw [replicate_getD] at h; simp at h
  · simp only [Store.create, rowsOf_replicate]; exact List.Pairwise.nil
  · intro p; simp only [Store.create, replicate_getD]; simp
  · simp only [Store.create, rowsOf_replicate]; rfl

/-- the start of a resize keeps the rows -/
theorem grow_ok {t : Nat} {h : Hash R} (hp : h.prev = none) (C : CurOk hash cmp t h.current) (hc : h.current.count + 1 ≤ 130 * t) :
    ∃ h', h.grow hash cmp = .ok h' ∧ h'.rows.Perm h.rows ∧ ∃ t', CurOk hash cmp t' h'.current ∧
      (∀ p', h'.prev = some p' → PrevOk t' h'.pos h'.current.count p') ∧ (h'.prev = none → h'.current.count + 2 ≤ 130 * t') := by
  have ht := C.tpos
  by_cases hf : h.current.isFull
  · have C0 : CurOk hash cmp (2 * t) (Store.create (h.current.size * 2) : Store R) :=
      cur_empty L H (by omega) _ (by simp only [Store.size, C.len]; omega)
    have hrows : h.rehashStart.rows = h.rows := by
      simp only [Hash.rows, Hash.rehashStart, prevRows, hp, Store.create, rowsOf_replicate, List.nil_append, List.append_nil]
    have hU : Unique cmp h.rehashStart.rows := by
      rw [hrows]; simp only [Hash.rows, prevRows, hp, List.append_nil]; exact C.wf.unique
    obtain ⟨h', a1, a2, a3, a4, a5⟩ := rehash_ok L H (h := h.rehashStart) (p := h.current) rfl C0
      (by rw [used_noDeleted C.nodel, ← C.count, C.len]; omega) (fun i hi => absurd hi (Nat.not_lt_zero i))
      (by show 0 + 2 * (rowsOf h.current.slots).length + 2 ≤ _; rw [← C.count]; omega) hU
    exact ⟨h', by simp only [Hash.grow, hf, if_true, a1], hrows ▸ a2, 2 * t, a3, a4, a5⟩
  · refine ⟨h, by simp only [Hash.grow, hf, Bool.false_eq_true, if_false], List.Perm.refl _, t, C, by simp [hp], fun _ => ?_⟩
    simp only [Store.isFull, Store.size, C.len, decide_eq_true_eq] at hf
    omega

theorem PrevOk.get {t pos c : Nat} {p : Store R} (P : PrevOk t pos c p) (hl : 0 < p.slots.length) (key : R) :
    ∃ o at_, p.get hash cmp key = .ok (o, at_) ∧ ∀ y, o = some y → p.slots.getD at_ .empty = .row y ∧ cmp y key = 0 := by
  obtain ⟨q, hq, he⟩ := used_lt P.used
  cases hpr : probe (stopGet cmp key) p.slots (hash key % p.slots.length) p.slots.length 0 with
  | none =>
    obtain ⟨d, h1, h2⟩ := offset_exists (start := hash key % p.slots.length) (Nat.mod_lt _ hl) hq
    have := probe_none _ _ hpr d (by omega) (by omega)
    rw [← h2, he] at this
    simp [stopGet] at this
  | some pos =>
    obtain ⟨d, _, _, _, h4, _⟩ := probe_some _ _ _ hpr
    cases hs : p.slots.getD pos .empty with
    | row r =>
      rw [hs] at h4
      exact ⟨some r, pos, by simp only [Store.get, Store.size, hpr, Store.at, hs], fun y e => by
        simp only [Option.some.injEq] at e; subst e; exact ⟨hs, by simpa [stopGet] using h4⟩⟩
    | empty => exact ⟨none, pos, by simp only [Store.get, Store.size, hpr, Store.at, hs], fun y e => by simp at e⟩
    | deleted => exact ⟨none, pos, by simp only [Store.get, Store.size, hpr, Store.at, hs], fun y e => by simp at e⟩

/-- deletion from the old table finds what a lookup finds -/
theorem delete_of_get {p : Store R} {key : R} {o : Option R} {at_ : Nat} (h : p.get hash cmp key = .ok (o, at_)) :
    (∃ y, o = some y ∧ p.slots.getD at_ .empty = .row y ∧ p.delete hash cmp key = (some y, ⟨p.slots.set at_ .deleted, p.count - 1⟩)) ∨
    (o = none ∧ p.delete hash cmp key = (none, p)) := by
  unfold Store.get at h
  unfold Store.delete
  cases hpr : probe (stopGet cmp key) p.slots (hash key % p.size) p.size 0 with
  | none => rw [hpr] at h; simp at h
  | some pos =>
    rw [hpr] at h
    simp only [Store.at] at h ⊢
    cases hs : p.slots.getD pos .empty with
    | row r =>
      rw [hs] at h; simp only [Except.ok.injEq, Prod.mk.injEq] at h
      obtain ⟨rfl, rfl⟩ := h
      exact .inl ⟨r, rfl, hs, rfl⟩
    | empty => rw [hs] at h; simp only [Except.ok.injEq, Prod.mk.injEq] at h; exact .inr ⟨h.1.symm, rfl⟩
    | deleted => rw [hs] at h; simp only [Except.ok.injEq, Prod.mk.injEq] at h; exact .inr ⟨h.1.symm, rfl⟩

/-- what a lookup shows: never a wrong row; exactly the map when no resize is going on -/
theorem lookup_ok {m : List R} {h : Hash R} (G : Roomy hash cmp m h) (key : R) :
    ∃ o, step hash cmp h (.lookup key) = .ok (.row o, h) ∧ (∀ y, o = some y → lookup cmp m key = some y) ∧
      (h.prev = none → o = lookup cmp m key) := by
  obtain ⟨t, C, hprev, hnone⟩ := G.cur
  have ht := C.tpos
  have hc : h.current.count < 256 * t := by
    cases hp : h.prev with
    | none => have := hnone hp; omega
    | some p => have := (hprev p hp).room; omega
  obtain ⟨pos, h1, h2, ⟨y, h3, h4⟩ | ⟨h3, h4, h5⟩⟩ := get_spec L H C.wf key (C.free hc)
  · have hl : lookup cmp m key = some y := lookup_unique L G.perm G.uniq (by
      simp only [Hash.rows, List.mem_append]; exact .inl (mem_rowsOf.2 ⟨pos, h2, h3⟩)) h4
    refine ⟨some y, ?_, fun z e => by simp only [Option.some.injEq] at e; rw [← e]; exact hl, fun _ => hl.symm⟩
    simp only [step, openKey, Store.get, Store.size, h1, Store.at, h3]
  · cases hp : h.prev with
    | none =>
      refine ⟨none, ?_, by simp, fun _ => ?_⟩
      · simp only [step, openKey, Store.get, Store.size, h1, Store.at, h3, hp]
      · refine (lookup_absent G.perm ?_).symm
        simp only [Hash.rows, prevRows, hp, List.append_nil]; exact h5
    | some p =>
      have P := hprev p hp
      obtain ⟨o, at_, g1, g2⟩ := P.get L H (by have := P.used; omega) key
      refine ⟨o, ?_, ?_, by simp⟩
      · simp only [step, openKey, Store.get, Store.size, h1, Store.at, h3, hp]
        simp only [Store.get, Store.size, Store.at] at g1
        rw [g1]
        cases o <;> rfl
      · intro y e
        obtain ⟨a, b⟩ := g2 y e
        refine lookup_unique L G.perm G.uniq ?_ b
        simp only [Hash.rows, prevRows, hp, List.mem_append]
        exact .inr (mem_rowsOf.2 ⟨at_, getD_lt a, a⟩)

theorem others_perm {a b : List R} (h : a.Perm b) (k : R) : (others cmp a k).Perm (others cmp b k) := h.filter _

theorem others_self {l : List R} {k : R} (h : ∀ r ∈ l, cmp r k ≠ 0) : others cmp l k = l :=
  others_absent L H (List.Perm.refl l) h

theorem others_append (a b : List R) (k : R) : others cmp (a ++ b) k = others cmp a k ++ others cmp b k := by
  simp [others]

theorem uniq_replace {m : List R} (U : Unique cmp m) (k : R) : Unique cmp (k :: others cmp m k) := by
  refine List.pairwise_cons.2 ⟨?_, List.Pairwise.filter _ U⟩
  intro r hr h
  simp only [others, List.mem_filter, Bool.not_eq_true', decide_eq_false_iff_not] at hr
  exact hr.2 (L.symm h)

/-- storing a key that is absent, or that a lookup finds -/
theorem replace_ok {m : List R} {h : Hash R} (G : Roomy hash cmp m h) (key : R)
    (hk : (∀ r ∈ h.rows, cmp r key ≠ 0) ∨ ∃ y, step hash cmp h (.lookup key) = .ok (.row (some y), h)) :
    ∃ h', step hash cmp h (.replace key) = .ok (.row (lookup cmp m key), h') ∧ Roomy hash cmp (key :: others cmp m key) h' := by
  obtain ⟨t, C, hprev, hnone⟩ := G.cur
  have ht := C.tpos
  have hc : h.current.count < 256 * t := by
    cases hp : h.prev with
    | none => have := hnone hp; omega
    | some p => have := (hprev p hp).room; omega
  have U' : Unique cmp (key :: others cmp m key) := uniq_replace L H (uniq_perm L G.perm.symm G.uniq) key
  -- the end: from the state after the store and the deletion
  have fin : ∀ {h0 h' : Hash R}, (key :: others cmp m key).Perm h0.rows → h'.rows.Perm h0.rows →
      (∃ t', CurOk hash cmp t' h'.current ∧ (∀ p', h'.prev = some p' → PrevOk t' h'.pos h'.current.count p') ∧
        (h'.prev = none → h'.current.count + 2 ≤ 130 * t')) → Roomy hash cmp (key :: others cmp m key) h' := by
    intro h0 h' a b c
    exact ⟨a.trans b.symm, uniq_perm L (a.trans b.symm) U', c⟩
  cases hp : h.prev with
  | none =>
    have hcount := hnone hp
    have hrows : h.rows = rowsOf h.current.slots := by simp only [Hash.rows, prevRows, hp, List.append_nil]
    rcases C.set L H hc key with ⟨y, s', a1, a2, a3, a4, a5, a6⟩ | ⟨s', a1, a2, a3, a4, a5⟩
    · have hl : lookup cmp m key = some y := lookup_unique L G.perm G.uniq (hrows ▸ a3) a4
      obtain ⟨h', g1, g2, g3⟩ := grow_ok L H (h := { h with current := s' }) hp a2 (by show s'.count + 1 ≤ _; omega)
      refine ⟨h', ?_, fin ?_ g2 g3⟩
      · simp only [hp] at g1
        simp only [step, Hash.set, hp, a1, g1, hl]
      · simp only [Hash.rows, prevRows, hp, List.append_nil]
        exact (List.Perm.cons _ (others_perm L H (hrows ▸ G.perm) key)).trans a6.symm
    · have hl : lookup cmp m key = none := lookup_absent G.perm (hrows ▸ a3)
      obtain ⟨h', g1, g2, g3⟩ := grow_ok L H (h := { h with current := s' }) hp a2 (by show s'.count + 1 ≤ _; omega)
      refine ⟨h', ?_, fin ?_ g2 g3⟩
      · simp only [hp] at g1
        simp only [step, Hash.set, hp, a1, g1, hl]
      · simp only [Hash.rows, prevRows, hp, List.append_nil]
        rw [others_absent L H G.perm (hrows ▸ a3)]
        exact (List.Perm.cons _ (hrows ▸ G.perm)).trans a5.symm
  | some p =>
    have P := hprev p hp
    have hrows : h.rows = rowsOf h.current.slots ++ rowsOf p.slots := by simp only [Hash.rows, prevRows, hp]
    have hu := G.uniq
    rw [hrows] at hu
    rcases C.set L H hc key with ⟨y, s', a1, a2, a3, a4, a5, a6⟩ | ⟨s', a1, a2, a3, a4, a5⟩
    · -- found in the current table
      have hl : lookup cmp m key = some y := lookup_unique L G.perm G.uniq (by rw [hrows]; simp [a3]) a4
      have hpo : ∀ r ∈ rowsOf p.slots, cmp r key ≠ 0 := by
        intro r hr h0
        exact (List.pairwise_append.1 hu).2.2 y a3 r hr ((L.congr_right (L.symm h0)).1.1 a4)
      have e0 : (key :: others cmp m key).Perm (⟨s', some p, h.pos⟩ : Hash R).rows := by
        simp only [Hash.rows, prevRows]
        refine (List.Perm.cons _ (others_perm L H (hrows ▸ G.perm) key)).trans ?_
        rw [others_append L H, others_self L H hpo]
        exact (a6.symm).append_right _
      obtain ⟨h', g1, g2, g3⟩ := rehash_ok L H (h := ⟨s', some p, h.pos⟩) rfl a2 P.used P.moved
        (by show s'.count + _ + 2 ≤ _; have := P.room; omega) (uniq_perm L e0 U')
      refine ⟨h', ?_, fin e0 g2 ⟨t, g3⟩⟩
      simp only [step, Hash.set, hp, a1, g1, hl]
    · obtain ⟨o, at_, g1, g2⟩ := P.get L H (by have := P.used; omega) key
      rcases delete_of_get L H g1 with ⟨y, rfl, d1, d2⟩ | ⟨rfl, d2⟩
      · -- found in the old table
        have hy := (g2 y rfl).2
        have hmem : y ∈ rowsOf p.slots := mem_rowsOf.2 ⟨at_, getD_lt d1, d1⟩
        have hl : lookup cmp m key = some y := lookup_unique L G.perm G.uniq (by rw [hrows]; simp [hmem]) hy
        have hperm := rowsOf_clear d1 (x := .deleted) rfl
        have hlen := hperm.length_eq
        simp only [List.length_cons] at hlen
        have hother : (others cmp (rowsOf p.slots) key).Perm (rowsOf (p.slots.set at_ .deleted)) := by
          refine (others_perm L H hperm key).trans ?_
          have : others cmp (y :: rowsOf (p.slots.set at_ .deleted)) key = rowsOf (p.slots.set at_ .deleted) := by
            have e : others cmp (y :: rowsOf (p.slots.set at_ .deleted)) key = others cmp (rowsOf (p.slots.set at_ .deleted)) key := by
              simp [others, hy]
            rw [e]
            refine others_self L H ?_
            intro r hr h0
            have hup : Unique cmp (y :: rowsOf (p.slots.set at_ .deleted)) := uniq_perm L hperm (List.pairwise_append.1 hu).2.1
            exact (List.pairwise_cons.1 hup).1 r hr ((L.congr_right (L.symm h0)).1.1 hy)
          rw [this]
        have e0 : (key :: others cmp m key).Perm (⟨s', some ⟨p.slots.set at_ .deleted, p.count - 1⟩, h.pos⟩ : Hash R).rows := by
          simp only [Hash.rows, prevRows]
          refine (List.Perm.cons _ (others_perm L H (hrows ▸ G.perm) key)).trans ?_
          rw [others_append L H, others_self L H a3]
          refine (List.Perm.cons _ (List.Perm.append_left _ hother)).trans ?_
          rw [← List.cons_append]
          exact (a5.symm).append_right _
        obtain ⟨h', k1, k2, k3⟩ := rehash_ok L H (h := ⟨s', some ⟨p.slots.set at_ .deleted, p.count - 1⟩, h.pos⟩) rfl a2
          (by have := used_set_mono d1 (x := Slot.deleted); have := P.used; simp only [List.length_set]; omega)
          (by intro i hi z hz
              simp only at hz
              rw [getD_set (getD_lt d1)] at hz
              split at hz
              · simp at hz
              · exact P.moved i hi z hz)
          (by show s'.count + 2 * (rowsOf (p.slots.set at_ .deleted)).length + 2 ≤ _; have := P.room; omega) (uniq_perm L e0 U')
        refine ⟨h', ?_, fin e0 k2 ⟨t, k3⟩⟩
        simp only [step, Hash.set, hp, a1, d2, k1, hl]
      · -- not found: the key is absent
        have hab : ∀ r ∈ h.rows, cmp r key ≠ 0 := by
          rcases hk with hk | ⟨y, hk⟩
          · exact hk
          · exfalso
            obtain ⟨pos, b1, b2, ⟨z, b3, b4⟩ | ⟨b3, _, _⟩⟩ := get_spec L H C.wf key (C.free hc)
            · exact a3 z (mem_rowsOf.2 ⟨pos, b2, b3⟩) b4
            · simp only [step, openKey, Store.get, Store.size, b1, Store.at, b3, hp] at hk
              simp only [Store.get, Store.size, Store.at] at g1
              rw [g1] at hk
              simp at hk
        have hl : lookup cmp m key = none := lookup_absent G.perm hab
        have e0 : (key :: others cmp m key).Perm (⟨s', some p, h.pos⟩ : Hash R).rows := by
          simp only [Hash.rows, prevRows]
          rw [others_absent L H G.perm hab]
          refine (List.Perm.cons _ (hrows ▸ G.perm)).trans ?_
          rw [← List.cons_append]
          exact (a5.symm).append_right _
        obtain ⟨h', k1, k2, k3⟩ := rehash_ok L H (h := ⟨s', some p, h.pos⟩) rfl a2 P.used P.moved
          (by show s'.count + _ + 2 ≤ _; have := P.room; omega) (uniq_perm L e0 U')
        refine ⟨h', ?_, fin e0 k2 ⟨t, k3⟩⟩
        simp only [step, Hash.set, hp, a1, d2, k1, hl]

theorem scan_ok {m : List R} {h : Hash R} (G : Roomy hash cmp m h) : (Hash.scan h).Perm m := by
  obtain ⟨t, C, _, _⟩ := G.cur
  rw [scan_spec h (fun _ h0 => List.length_eq_zero_iff.1 (by rw [← C.count]; exact h0))]
  exact G.perm.symm

end

theorem roomy_init {hash : R → Nat} {cmp : R → R → Int} (L : CmpLaws cmp) (H : HashOk hash cmp) : Roomy hash cmp [] (Hash.create : Hash R) := by
  have e : (Hash.create : Hash R).rows = [] := by
    simp only [Hash.rows, Hash.create, prevRows, Store.create, rowsOf_replicate, List.append_nil]
  refine ⟨by rw [e], by rw [e]; exact List.Pairwise.nil, 1, cur_empty L H (by omega) 256 rfl, (fun p h => by cases h), fun _ => by show 0 + 2 ≤ 130 * 1; omega⟩

end Verif.Index.Hash
