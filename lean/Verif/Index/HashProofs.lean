import Verif.Index.Hash
/-!
# Hash index: probing, and one table without resize
-/
set_option linter.unusedSimpArgs false
set_option linter.unusedSectionVars false
namespace Verif.Index.Hash
open Verif.Index (lookup others CmpLaws)
variable {R : Type}

/-- the row in a slot -/
def Slot.row? : Slot R → Option R
  | .row r => some r
  | _ => none

def Slot.used : Slot R → Bool
  | .empty => false
  | _ => true

/-- the rows stored in an array of slots -/
def rowsOf (l : List (Slot R)) : List R := l.filterMap Slot.row?

@[simp] theorem rowsOf_row (r : R) (l : List (Slot R)) : rowsOf (.row r :: l) = r :: rowsOf l := rfl
@[simp] theorem rowsOf_empty (l : List (Slot R)) : rowsOf (.empty :: l) = rowsOf l := rfl
@[simp] theorem rowsOf_deleted (l : List (Slot R)) : rowsOf (.deleted :: l) = rowsOf l := rfl

/-- number of slots that are not NULL -/
def usedCount (l : List (Slot R)) : Nat := (l.filter Slot.used).length
theorem usedCount_append (a b : List (Slot R)) : usedCount (a ++ b) = usedCount a + usedCount b := by simp [usedCount]
@[simp] theorem usedCount_row (r : R) (l : List (Slot R)) : usedCount (.row r :: l) = usedCount l + 1 := rfl
@[simp] theorem usedCount_empty (l : List (Slot R)) : usedCount (.empty :: l) = usedCount l := rfl
@[simp] theorem usedCount_deleted (l : List (Slot R)) : usedCount (.deleted :: l) = usedCount l + 1 := rfl

/-! ## Probing -/

theorem probe_some {stop : Slot R → Bool} {slots : List (Slot R)} {start : Nat} :
    ∀ (n d pos : Nat), probe stop slots start n d = some pos →
      ∃ d', d ≤ d' ∧ d' < d + n ∧ pos = (start + d') % slots.length ∧ stop (slots.getD pos .empty) = true ∧
        ∀ e, d ≤ e → e < d' → stop (slots.getD ((start + e) % slots.length) .empty) = false := by
  intro n
  induction n with
  | zero => intro d pos h; simp [probe] at h
  | succ n ih =>
    intro d pos h
    simp only [probe] at h
    by_cases hs : stop (slots.getD ((start + d) % slots.length) .empty) = true
    · rw [if_pos hs] at h
      simp only [Option.some.injEq] at h
      subst h
      exact ⟨d, Nat.le_refl d, by omega, rfl, hs, fun e h1 h2 => by omega⟩
    · rw [if_neg hs] at h
      obtain ⟨d', h1, h2, h3, h4, h5⟩ := ih (d + 1) pos h
      refine ⟨d', by omega, by omega, h3, h4, ?_⟩
      intro e he1 he2
      by_cases e = d
      · subst e; simpa using hs
      · exact h5 e (by omega) he2

theorem probe_none {stop : Slot R → Bool} {slots : List (Slot R)} {start : Nat} :
    ∀ (n d : Nat), probe stop slots start n d = none →
      ∀ e, d ≤ e → e < d + n → stop (slots.getD ((start + e) % slots.length) .empty) = false := by
  intro n
  induction n with
  | zero => intro d _ e h1 h2; omega
  | succ n ih =>
    intro d h e h1 h2
    simp only [probe] at h
    by_cases hs : stop (slots.getD ((start + d) % slots.length) .empty) = true
    · rw [if_pos hs] at h; simp at h
    · rw [if_neg hs] at h
      by_cases e = d
      · subst e; simpa using hs
      · exact ih (d + 1) h e (by omega) (by omega)

/-- every position is reached from every start -/
theorem offset_exists {start pos size : Nat} (hs : start < size) (hp : pos < size) :
    ∃ d, d < size ∧ pos = (start + d) % size := by
  by_cases h : start ≤ pos
  · exact ⟨pos - start, by omega, by rw [show start + (pos - start) = pos by omega, Nat.mod_eq_of_lt hp]⟩
  · refine ⟨pos + size - start, by omega, ?_⟩
    rw [show start + (pos + size - start) = pos + size by omega, Nat.add_mod_right, Nat.mod_eq_of_lt hp]

theorem offset_inj {start size d e : Nat} (hd : d < size) (he : e < size)
    (h : (start + d) % size = (start + e) % size) : d = e := by
  have h1 : (start + d) % size = (start % size + d) % size := by rw [Nat.mod_add_mod]
  have h2 : (start + e) % size = (start % size + e) % size := by rw [Nat.mod_add_mod]
  rw [h1, h2] at h
  have hs : start % size < size := Nat.mod_lt _ (by omega)
  generalize start % size = s at *
  rcases Nat.lt_or_ge (s + d) size with h3 | h3 <;> rcases Nat.lt_or_ge (s + e) size with h4 | h4
  · rw [Nat.mod_eq_of_lt h3, Nat.mod_eq_of_lt h4] at h; omega
  · rw [Nat.mod_eq_of_lt h3, Nat.mod_eq_sub_mod h4, Nat.mod_eq_of_lt (by omega)] at h; omega
  · rw [Nat.mod_eq_of_lt h4, Nat.mod_eq_sub_mod h3, Nat.mod_eq_of_lt (by omega)] at h; omega
  · rw [Nat.mod_eq_sub_mod h3, Nat.mod_eq_sub_mod h4, Nat.mod_eq_of_lt (by omega), Nat.mod_eq_of_lt (by omega)] at h
    omega

/-! ## Arrays of slots -/

theorem split_at {l : List (Slot R)} {pos : Nat} (h : pos < l.length) :
    l = l.take pos ++ l.getD pos .empty :: l.drop (pos + 1) := by
  rw [List.getD_eq_getElem?_getD, List.getElem?_eq_getElem h, Option.getD_some, List.getElem_cons_drop,
    List.take_append_drop]

theorem set_split {l : List (Slot R)} {pos : Nat} (h : pos < l.length) (x : Slot R) :
    l.set pos x = l.take pos ++ x :: l.drop (pos + 1) := List.set_eq_take_append_cons_drop .. |>.trans (by rw [if_pos h])

theorem getD_set {l : List (Slot R)} {pos q : Nat} {x : Slot R} (h : pos < l.length) :
    (l.set pos x).getD q .empty = if q = pos then x else l.getD q .empty := by
  rw [List.getD_eq_getElem?_getD, List.getElem?_set, List.getD_eq_getElem?_getD]
  by_cases hq : pos = q
  · subst hq; simp [h]
  · rw [if_neg hq, if_neg (fun hh => hq hh.symm)]

theorem mem_rowsOf {l : List (Slot R)} {r : R} : r ∈ rowsOf l ↔ ∃ pos, pos < l.length ∧ l.getD pos .empty = .row r := by
  simp only [rowsOf, List.mem_filterMap]
  constructor
  · rintro ⟨s, hs, hr⟩
    obtain ⟨i, hi, rfl⟩ := List.getElem_of_mem hs
    refine ⟨i, hi, ?_⟩
    rw [List.getD_eq_getElem?_getD, List.getElem?_eq_getElem hi, Option.getD_some]
    cases h : l[i] <;> simp [h, Slot.row?] at hr
    exact congrArg _ hr
  · rintro ⟨i, hi, h⟩
    rw [List.getD_eq_getElem?_getD, List.getElem?_eq_getElem hi, Option.getD_some] at h
    exact ⟨_, List.getElem_mem hi, by rw [h]; rfl⟩

/-! ## The invariant of one table -/

/-- probe chains have no hole: between the home of a stored row and its slot every slot is in use -/
def Chains (hash : R → Nat) (slots : List (Slot R)) : Prop :=
  ∀ r d, d < slots.length → slots.getD ((hash r % slots.length + d) % slots.length) .empty = .row r →
    ∀ e, e < d → slots.getD ((hash r % slots.length + e) % slots.length) .empty ≠ .empty

/-- no key is stored twice -/
def Unique (cmp : R → R → Int) (l : List R) : Prop := l.Pairwise fun a b => cmp a b ≠ 0

structure WF (hash : R → Nat) (cmp : R → R → Int) (slots : List (Slot R)) : Prop where
  chains : Chains hash slots
  unique : Unique cmp (rowsOf slots)
  pos : 0 < slots.length

/-- equal keys have equal hashes -/
def HashOk (hash : R → Nat) (cmp : R → R → Int) : Prop := ∀ a b, cmp a b = 0 → hash a = hash b

theorem lookup_unique {cmp : R → R → Int} (L : CmpLaws cmp) {m : List R} {l : List R} {y k : R} (hp : m.Perm l)
    (hu : Unique cmp l) (hy : y ∈ l) (hk : cmp y k = 0) : lookup cmp m k = some y := by
  have hum : Unique cmp m := by
    refine (List.Perm.pairwise_iff (R := fun a b => cmp a b ≠ 0) ?_ hp).2 hu
    intro a b h h2; exact h (L.symm h2)
  have hym := hp.mem_iff.2 hy
  clear hu hy hp
  unfold lookup
  induction m with
  | nil => simp at hym
  | cons a m ih =>
    simp only [Unique, List.pairwise_cons] at hum
    simp only [List.find?_cons]
    rcases List.mem_cons.1 hym with rfl | h
    · simp [hk]
    · have : cmp a k ≠ 0 := fun h2 => hum.1 y h ((L.congr_right (L.symm hk)).1.1 h2)
      simp [this]
      exact ih hum.2 h

theorem lookup_absent {cmp : R → R → Int} {m l : List R} {k : R} (hp : m.Perm l) (h : ∀ r ∈ l, cmp r k ≠ 0) :
    lookup cmp m k = none := by
  unfold lookup
  rw [List.find?_eq_none]
  intro x hx
  simpa using h x (hp.mem_iff.1 hx)

/-- `pos` is where a probe for `key` may put the row -/
def ChainTo (hash : R → Nat) (slots : List (Slot R)) (key : R) (pos : Nat) : Prop :=
  ∃ d, d < slots.length ∧ pos = (hash key % slots.length + d) % slots.length ∧
    ∀ e, e < d → slots.getD ((hash key % slots.length + e) % slots.length) .empty ≠ .empty

theorem chains_set {hash : R → Nat} {slots : List (Slot R)} (hc : Chains hash slots) {pos : Nat}
    (hp : pos < slots.length) {x : Slot R} (hx : x ≠ .empty) (hr : ∀ r, x = .row r → ChainTo hash slots r pos) :
    Chains hash (slots.set pos x) := by
  intro r d hd hrow e he
  rw [List.length_set] at hd hrow ⊢
  rw [getD_set hp] at hrow ⊢
  split at hrow
  · rename_i hpos
    obtain ⟨d', h1, h2, h3⟩ := hr r hrow
    have : d = d' := offset_inj hd h1 (hpos.trans h2)
    subst this
    split
    · exact hx
    · exact h3 e he
  · split
    · exact hx
    · exact hc r d hd hrow e he

theorem rowsOf_append (a b : List (Slot R)) : rowsOf (a ++ b) = rowsOf a ++ rowsOf b := by simp [rowsOf]

theorem getD_lt {slots : List (Slot R)} {pos : Nat} {r : R} (h : slots.getD pos .empty = .row r) : pos < slots.length := by
  refine Decidable.byContradiction fun hh => ?_
  rw [List.getD_eq_getElem?_getD, List.getElem?_eq_none (by omega)] at h
  simp at h

theorem used_lt {l : List (Slot R)} (h : usedCount l < l.length) : ∃ p, p < l.length ∧ l.getD p .empty = .empty := by
  induction l with
  | nil => simp at h
  | cons a l ih =>
    cases a with
    | empty => exact ⟨0, by simp, by simp⟩
    | deleted =>
      simp only [usedCount_deleted, List.length_cons] at h
      obtain ⟨p, h1, h2⟩ := ih (by omega)
      exact ⟨p + 1, by simpa using h1, by simpa using h2⟩
    | row r =>
      simp only [usedCount_row, List.length_cons] at h
      obtain ⟨p, h1, h2⟩ := ih (by omega)
      exact ⟨p + 1, by simpa using h1, by simpa using h2⟩

theorem used_set_le {l : List (Slot R)} {pos : Nat} (hp : pos < l.length) {x : Slot R} :
    usedCount (l.set pos x) ≤ usedCount l + 1 := by
  rw [set_split hp]
  conv => rhs; lhs; rw [split_at hp]
  rw [usedCount_append, usedCount_append]
  generalize l.getD pos .empty = y
  cases x <;> cases y <;> simp <;> omega

theorem used_set_row {l : List (Slot R)} {pos : Nat} (hp : pos < l.length) {x : Slot R} {y : R} (hx : x ≠ .empty)
    (hy : l.getD pos .empty = .row y) : usedCount (l.set pos x) = usedCount l := by
  rw [set_split hp]
  conv => rhs; rw [split_at hp, hy]
  rw [usedCount_append, usedCount_append]
  cases x <;> simp at hx ⊢

/-! ## Searching -/

section
variable {hash : R → Nat} {cmp : R → R → Int} (L : CmpLaws cmp) (H : HashOk hash cmp)
include L H

theorem absent_of {slots : List (Slot R)} (W : WF hash cmp slots) {key : R} {d : Nat}
    (hd : d < slots.length) (hemp : slots.getD ((hash key % slots.length + d) % slots.length) .empty = .empty)
    (hprev : ∀ e, e < d → stopGet cmp key (slots.getD ((hash key % slots.length + e) % slots.length) .empty) = false) :
    ∀ r ∈ rowsOf slots, cmp r key ≠ 0 := by
  intro r hr h0
  obtain ⟨p, hp, hrow⟩ := mem_rowsOf.1 hr
  have hh := H r key h0
  obtain ⟨d', h1, h2⟩ := offset_exists (start := hash key % slots.length) (Nat.mod_lt _ W.pos) hp
  rw [h2] at hrow
  rcases Nat.lt_trichotomy d' d with h | h | h
  · have := hprev d' h
    rw [hrow] at this
    simp [stopGet, h0] at this
  · subst h; rw [hemp] at hrow; simp at hrow
  · refine W.chains r d' h1 ?_ d h ?_
    · rw [hh]; exact hrow
    · rw [hh]; exact hemp

/-- the outcome of a search in a table with a NULL slot -/
theorem get_spec {slots : List (Slot R)} (W : WF hash cmp slots) (key : R)
    (hf : ∃ p, p < slots.length ∧ slots.getD p .empty = .empty) :
    ∃ pos, probe (stopGet cmp key) slots (hash key % slots.length) slots.length 0 = some pos ∧ pos < slots.length ∧
      ((∃ y, slots.getD pos .empty = .row y ∧ cmp y key = 0) ∨
       (slots.getD pos .empty = .empty ∧ ChainTo hash slots key pos ∧ ∀ r ∈ rowsOf slots, cmp r key ≠ 0)) := by
  cases hpr : probe (stopGet cmp key) slots (hash key % slots.length) slots.length 0 with
  | none =>
    obtain ⟨p, hp, he⟩ := hf
    obtain ⟨d, h1, h2⟩ := offset_exists (start := hash key % slots.length) (Nat.mod_lt _ W.pos) hp
    have := probe_none _ _ hpr d (by omega) (by omega)
    rw [← h2, he] at this
    simp [stopGet] at this
  | some pos =>
    obtain ⟨d, h1, h2, h3, h4, h5⟩ := probe_some _ _ _ hpr
    have hlt : pos < slots.length := h3 ▸ Nat.mod_lt _ W.pos
    refine ⟨pos, rfl, hlt, ?_⟩
    cases hs : slots.getD pos .empty with
    | empty =>
      right
      refine ⟨rfl, ⟨d, by omega, h3, ?_⟩, ?_⟩
      · intro e he h
        have := h5 e (by omega) he
        rw [h] at this
        simp [stopGet] at this
      · exact absent_of L H W (d := d) (by omega) (by rw [← h3]; exact hs) fun e he => h5 e (by omega) he
    | deleted => rw [hs] at h4; simp [stopGet] at h4
    | row y =>
      left
      rw [hs] at h4
      exact ⟨y, rfl, by simpa [stopGet] using h4⟩

/-- no tombstones -/
def NoDeleted (slots : List (Slot R)) : Prop := ∀ p, slots.getD p .empty ≠ .deleted

/-- the outcome of hash_store_set's probe: right if there are no tombstones, or the key is absent -/
theorem set_spec {slots : List (Slot R)} (W : WF hash cmp slots) (key : R)
    (hf : ∃ p, p < slots.length ∧ slots.getD p .empty = .empty)
    (hsafe : NoDeleted slots ∨ ∀ r ∈ rowsOf slots, cmp r key ≠ 0) :
    ∃ pos, probe (stopSet cmp key) slots (hash key % slots.length) slots.length 0 = some pos ∧ pos < slots.length ∧
      ((∃ y, slots.getD pos .empty = .row y ∧ cmp y key = 0) ∨
       ((∀ y, slots.getD pos .empty ≠ .row y) ∧ ChainTo hash slots key pos ∧ ∀ r ∈ rowsOf slots, cmp r key ≠ 0)) := by
  cases hpr : probe (stopSet cmp key) slots (hash key % slots.length) slots.length 0 with
  | none =>
    obtain ⟨p, hp, he⟩ := hf
    obtain ⟨d, h1, h2⟩ := offset_exists (start := hash key % slots.length) (Nat.mod_lt _ W.pos) hp
    have := probe_none _ _ hpr d (by omega) (by omega)
    rw [← h2, he] at this
    simp [stopSet] at this
  | some pos =>
    obtain ⟨d, h1, h2, h3, h4, h5⟩ := probe_some _ _ _ hpr
    have hlt : pos < slots.length := h3 ▸ Nat.mod_lt _ W.pos
    have hct : ChainTo hash slots key pos := by
      refine ⟨d, by omega, h3, ?_⟩
      intro e he h
      have := h5 e (by omega) he
      rw [h] at this
      simp [stopSet] at this
    refine ⟨pos, rfl, hlt, ?_⟩
    have hprev : ∀ e, e < d → stopGet cmp key (slots.getD ((hash key % slots.length + e) % slots.length) .empty) = false := by
      intro e he
      have := h5 e (by omega) he
      revert this
      cases slots.getD ((hash key % slots.length + e) % slots.length) .empty <;> simp [stopSet, stopGet]
    cases hs : slots.getD pos .empty with
    | empty =>
      right
      exact ⟨by simp, hct, absent_of L H W (d := d) (by omega) (by rw [← h3]; exact hs) hprev⟩
    | deleted =>
      right
      refine ⟨by simp, hct, ?_⟩
      rcases hsafe with h | h
      · exact absurd hs (h pos)
      · exact h
    | row y =>
      left
      rw [hs] at h4
      exact ⟨y, rfl, by simpa [stopSet] using h4⟩

/-! ## Writing a slot -/

theorem insert_spec {slots : List (Slot R)} (W : WF hash cmp slots) {key : R} {pos : Nat} (hp : pos < slots.length)
    (hs : ∀ y, slots.getD pos .empty ≠ .row y) (hc : ChainTo hash slots key pos)
    (ha : ∀ r ∈ rowsOf slots, cmp r key ≠ 0) :
    WF hash cmp (slots.set pos (.row key)) ∧ (rowsOf (slots.set pos (.row key))).Perm (key :: rowsOf slots) := by
  have e1 : rowsOf slots = rowsOf (slots.take pos) ++ rowsOf (slots.drop (pos + 1)) := by
    conv => lhs; rw [split_at hp]
    rw [rowsOf_append]
    congr 1
    cases h : slots.getD pos .empty with
    | row y => exact absurd h (hs y)
    | empty => simp
    | deleted => simp
  have hperm : (rowsOf (slots.set pos (.row key))).Perm (key :: rowsOf slots) := by
    rw [set_split hp, rowsOf_append, e1]
    rw [rowsOf_row]
    exact List.perm_middle
  refine ⟨⟨chains_set W.chains hp (by simp) ?_, ?_, by simpa using W.pos⟩, hperm⟩
  · intro r hr; simp only [Slot.row.injEq] at hr; subst hr; exact hc
  · refine (List.Perm.pairwise_iff (R := fun a b => cmp a b ≠ 0) ?_ hperm).2 ?_
    · intro a b h h2; exact h (L.symm h2)
    · exact List.pairwise_cons.2 ⟨fun r hr h => ha r hr (L.symm h), W.unique⟩

theorem others_unique {m slots : List R} {A B : List R} {y key : R} (hl : slots = A ++ y :: B) (hp : m.Perm slots)
    (hu : Unique cmp slots) (hk : cmp y key = 0) : (others cmp m key).Perm (A ++ B) := by
  subst hl
  unfold others
  refine (hp.filter _).trans ?_
  simp only [Unique, List.pairwise_append, List.pairwise_cons] at hu
  obtain ⟨_, ⟨h1, _⟩, h2⟩ := hu
  have e1 : A.filter (fun r => !decide (cmp r key = 0)) = A := by
    rw [List.filter_eq_self]; intro x hx
    have := h2 x hx y (by simp)
    simp only [Bool.not_eq_eq_eq_not, Bool.not_true, decide_eq_false_iff_not]
    intro h; exact this ((L.congr_right (L.symm hk)).1.1 h)
  have e2 : B.filter (fun r => !decide (cmp r key = 0)) = B := by
    rw [List.filter_eq_self]; intro x hx
    have := h1 x hx
    simp only [Bool.not_eq_eq_eq_not, Bool.not_true, decide_eq_false_iff_not]
    intro h; exact this (L.symm ((L.congr_right (L.symm hk)).1.1 h))
  rw [List.filter_append, List.filter_cons]
  simp [hk, e1, e2]

theorem others_absent {m l : List R} {key : R} (hp : m.Perm l) (h : ∀ r ∈ l, cmp r key ≠ 0) : others cmp m key = m := by
  unfold others
  rw [List.filter_eq_self]
  intro r hr
  simpa using h r (hp.mem_iff.1 hr)

/-- what is written: a row, or a tombstone -/
def slotOf : Option R → Slot R
  | some r => .row r
  | none => .deleted

/-- overwriting a row by one with the same key, or by a tombstone -/
theorem overwrite_spec {slots : List (Slot R)} (W : WF hash cmp slots) {m : List R} (hm : m.Perm (rowsOf slots))
    {key y : R} {pos : Nat} (hs : slots.getD pos .empty = .row y) (hk : cmp y key = 0) (new : Option R)
    (hn : ∀ r, new = some r → cmp r key = 0) :
    let slots' := slots.set pos (slotOf new)
    WF hash cmp slots' ∧ (rowsOf slots').Perm (new.toList ++ others cmp m key) ∧ usedCount slots' = usedCount slots ∧
      (rowsOf slots).length = (others cmp m key).length + 1 := by
  have hp := getD_lt hs
  have e1 : rowsOf slots = rowsOf (slots.take pos) ++ y :: rowsOf (slots.drop (pos + 1)) := by
    conv => lhs; rw [split_at hp]
    rw [rowsOf_append, hs, rowsOf_row]
  have ho := others_unique L H e1 hm W.unique hk
  have hne : slotOf new ≠ .empty := by cases new <;> simp [slotOf]
  have e2 : rowsOf (slots.set pos (slotOf new)) =
      rowsOf (slots.take pos) ++ (new.toList ++ rowsOf (slots.drop (pos + 1))) := by
    rw [set_split hp, rowsOf_append]
    cases new <;> simp [slotOf]
  have hperm : (rowsOf (slots.set pos (slotOf new))).Perm
      (new.toList ++ others cmp m key) := by
    rw [e2]
    refine List.Perm.trans ?_ (List.Perm.append_left _ ho.symm)
    rw [← List.append_assoc, ← List.append_assoc]
    exact List.Perm.append_right _ List.perm_append_comm
  refine ⟨⟨?_, ?_, by simpa using W.pos⟩, hperm, ?_, ?_⟩
  · refine chains_set W.chains hp hne ?_
    intro r hr
    cases new with
    | none => simp [slotOf] at hr
    | some r' =>
      simp only [slotOf, Slot.row.injEq] at hr
      subst hr
      have hh : hash r' = hash y := by rw [H r' key (hn r' rfl), H y key hk]
      obtain ⟨d, h1, h2⟩ := offset_exists (start := hash y % slots.length) (Nat.mod_lt _ W.pos) hp
      refine ⟨d, h1, by rw [hh]; exact h2, ?_⟩
      intro e he
      rw [hh]
      exact W.chains y d h1 (by rw [← h2]; exact hs) e he
  · have sy : ∀ a b, cmp a b ≠ 0 → cmp b a ≠ 0 := fun a b h h2 => h (L.symm h2)
    refine (List.Perm.pairwise_iff (R := fun a b => cmp a b ≠ 0) (fun {a b} h => sy a b h) (hperm.trans
      (List.Perm.append_left _ ho))).2 ?_
    have hu := W.unique
    rw [e1] at hu
    simp only [Unique, List.pairwise_append, List.pairwise_cons] at hu
    obtain ⟨g1, ⟨g2, g3⟩, g4⟩ := hu
    refine List.pairwise_append.2 ⟨?_, List.pairwise_append.2 ⟨g1, g3, fun a ha b hb => g4 a ha b (by simp [hb])⟩, ?_⟩
    · cases new <;> simp
    · intro a ha b hb
      cases new with
      | none => simp at ha
      | some r' =>
        simp at ha
        subst ha
        have hay : cmp a y = 0 := (L.congr_right (L.symm hk)).1.1 (hn a rfl)
        rcases List.mem_append.1 hb with h | h
        · intro h0
          exact g4 b h y (by simp) ((L.congr_right hay).1.1 (L.symm h0))
        · intro h0
          exact g2 b h (L.symm ((L.congr_right hay).1.1 (L.symm h0)))
  · exact used_set_row hp hne hs
  · rw [e1, ho.length_eq]; simp; omega

end

end Verif.Index.Hash
