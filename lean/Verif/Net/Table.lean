import Verif.Index.HashProofs
/-!
# runtime/lib/hash_table.h and its users

The hash table behind the function names (vm/func/function_mgr.c), the time zone names (runtime/lib/timezone_mgr.c) and
the authentication cache (server/auth/auth_cache.c).  A node is its hash value and its payload; `Slot.deleted` of the
index model is never used here: hashtable_delete writes NULL.
-/
set_option linter.unusedSimpArgs false
namespace Verif.Net.Table
open Verif Verif.Index.Hash
variable {α : Type}

abbrev Ht (α : Type) := Store (Nat × α)

/-- the loop of hashtable_set leaves at a NULL slot, hash_table.h:70-88 -/
def stopFree : Slot (Nat × α) → Bool
  | .empty => true
  | _ => false

/-- hashtable_set, hash_table.h:70-88.  `none`: the loop `for (;;)` never ends (no free slot). -/
def htSet (s : Ht α) (x : Nat × α) : Option (Ht α) :=
  (probe stopFree s.slots (x.1 % s.size) s.size 0).map fun p => ⟨s.slots.set p (.row x), s.count + 1⟩

/-- the loop of hashtable_get leaves at a NULL slot or at a node with the same hash that compares equal,
hash_table.h:99-123 -/
def stopFind (hash : Nat) (eq : α → Bool) : Slot (Nat × α) → Bool
  | .empty => true
  | .deleted => false
  | .row (h, v) => decide (h = hash) && eq v

/-- hashtable_get, hash_table.h:99-123: the position and the payload.  Outer `none`: the loop never ends. -/
def htGet (s : Ht α) (hash : Nat) (eq : α → Bool) : Option (Option (Nat × α)) :=
  (probe (stopFind hash eq) s.slots (hash % s.size) s.size 0).map fun p => match s.at p with
    | .row (_, v) => some (p, v)
    | _ => none

/-- hashtable_delete, hash_table.h:90-97 -/
def htDelete (s : Ht α) (pos : Nat) : Ht α := ⟨s.slots.set pos .empty, s.count - 1⟩

/-- hashtable_reserve, hash_table.h:125-155 with hashtable_is_full -/
def htReserve (s : Ht α) : Option (Ht α) :=
  if s.count > s.size / 2 then (s.slots.filterMap Slot.row?).foldlM htSet (Store.create (s.size * 2)) else some s

/-- function_mgr_add / auth_cache_add as far as the table is concerned: reserve, then set -/
def htAdd (s : Ht α) (x : Nat × α) : Option (Ht α) := (htReserve s).bind fun s => htSet s x

/-! ## proofs -/

/-- what every operation keeps: the count is the number of nodes and at most half of the slots plus one are in use -/
structure Ok (s : Ht α) : Prop where
  count : s.count = usedCount s.slots
  half : s.count ≤ s.size / 2 + 1
  size : 4 ≤ s.size

theorem Ok.free {s : Ht α} (h : Ok s) : ∃ p, p < s.slots.length ∧ s.slots.getD p .empty = .empty := by
  apply used_lt
  have := h.count; have := h.half; have := h.size
  have e : s.size = s.slots.length := rfl
  omega

theorem used_set_empty {l : List (Slot (Nat × α))} {pos : Nat} (hp : pos < l.length) {x : Nat × α}
    (hy : l.getD pos .empty = .empty) : usedCount (l.set pos (.row x)) = usedCount l + 1 := by
  rw [set_split hp]
  conv => rhs; lhs; rw [split_at hp, hy]
  rw [usedCount_append, usedCount_append]
  simp; omega

theorem used_set_none {l : List (Slot (Nat × α))} {pos : Nat} {x : Nat × α}
    (hy : l.getD pos .empty = .row x) : usedCount (l.set pos .empty) + 1 = usedCount l := by
  have hp := getD_lt hy
  rw [set_split hp]
  conv => rhs; rw [split_at hp, hy]
  rw [usedCount_append, usedCount_append]
  simp; omega

theorem rows_set {l : List (Slot (Nat × α))} {pos : Nat} (hp : pos < l.length) {x : Nat × α}
    (hy : l.getD pos .empty = .empty) : (rowsOf (l.set pos (.row x))).Perm (x :: rowsOf l) := by
  have e1 : rowsOf l = rowsOf (l.take pos) ++ rowsOf (l.drop (pos + 1)) := by
    conv => lhs; rw [split_at hp, hy]
    rw [rowsOf_append]; rfl
  rw [set_split hp, rowsOf_append, e1, rowsOf_row]
  exact List.perm_middle

/-- a probe finds a free slot if there is one -/
theorem set_ok {s : Ht α} (hs : 0 < s.size) (hf : ∃ p, p < s.slots.length ∧ s.slots.getD p .empty = .empty) (x : Nat × α) :
    ∃ p, htSet s x = some ⟨s.slots.set p (.row x), s.count + 1⟩ ∧ p < s.slots.length ∧ s.slots.getD p .empty = .empty ∧
      ChainTo (·.1) s.slots x p := by
  unfold htSet
  cases hp : probe stopFree s.slots (x.1 % s.size) s.size 0 with
  | none =>
    exfalso
    obtain ⟨p, h1, h2⟩ := hf
    obtain ⟨d, h3, h4⟩ := offset_exists (start := x.1 % s.size) (Nat.mod_lt _ hs) h1
    have := probe_none _ _ hp d (by omega) (by have : s.size = s.slots.length := rfl; omega)
    have e : s.size = s.slots.length := rfl
    rw [← e, ← h4, h2] at this
    simp [stopFree] at this
  | some p =>
    obtain ⟨d, h1, h2, h3, h4, h5⟩ := probe_some _ _ _ hp
    have e : s.size = s.slots.length := rfl
    refine ⟨p, rfl, by rw [h3]; exact Nat.mod_lt _ (by omega), ?_, d, by omega, by rw [h3, e], ?_⟩
    · revert h4
      cases s.slots.getD p .empty <;> simp [stopFree]
    · intro f hf
      have := h5 f (by omega) hf
      rw [e] at this
      intro h0
      simp only at h0
      rw [h0] at this; simp [stopFree] at this

structure Has (s : Ht α) (l : List (Nat × α)) : Prop where
  ok : Ok s
  chains : Chains (·.1) s.slots
  rows : (rowsOf s.slots).Perm l

theorem rowsOf_length (l : List (Slot (Nat × α))) : (rowsOf l).length ≤ usedCount l := by
  induction l with
  | nil => simp [rowsOf, usedCount]
  | cons a l ih =>
    cases a with
    | empty => exact ih
    | deleted => exact Nat.le_succ_of_le ih
    | row r => exact Nat.succ_le_succ ih

theorem set_has {s : Ht α} {l : List (Nat × α)} (hc : Chains (·.1) s.slots) (hr : (rowsOf s.slots).Perm l)
    (hcount : s.count = usedCount s.slots) (hlt : s.count < s.size) (x : Nat × α) :
    ∃ s', htSet s x = some s' ∧ s'.size = s.size ∧ s'.count = s.count + 1 ∧ s'.count = usedCount s'.slots ∧
      Chains (·.1) s'.slots ∧ (rowsOf s'.slots).Perm (x :: l) := by
  have e : s.size = s.slots.length := rfl
  obtain ⟨p, h1, h2, h3, h4⟩ := set_ok (s := s) (by omega) (used_lt (by omega)) x
  refine ⟨_, h1, by simp [Store.size], rfl, ?_, ?_, (rows_set h2 h3).trans (List.Perm.cons _ hr)⟩
  · simp only; rw [used_set_empty h2 h3, hcount]
  · exact chains_set hc h2 (by simp) (by intro r hr; cases hr; exact h4)

theorem fold_has : ∀ (xs : List (Nat × α)) (s : Ht α) (l : List (Nat × α)), Chains (·.1) s.slots →
    (rowsOf s.slots).Perm l → s.count = usedCount s.slots → s.count + xs.length < s.size →
    ∃ s', xs.foldlM htSet s = some s' ∧ s'.size = s.size ∧ s'.count = s.count + xs.length ∧
      s'.count = usedCount s'.slots ∧ Chains (·.1) s'.slots ∧ (rowsOf s'.slots).Perm (xs ++ l)
  | [], s, l, h1, h2, h3, h4 => ⟨s, rfl, rfl, rfl, h3, h1, by simpa using h2⟩
  | x :: xs, s, l, h1, h2, h3, h4 => by
    obtain ⟨s1, a1, a2, a3, a4, a5, a6⟩ := set_has h1 h2 h3 (by simp at h4; omega) x
    obtain ⟨s2, b1, b2, b3, b4, b5, b6⟩ := fold_has xs s1 (x :: l) a5 a6 a4 (by simp at h4; omega)
    refine ⟨s2, ?_, by omega, by simp; omega, b4, b5, b6.trans List.perm_middle⟩
    rw [List.foldlM_cons, a1]; exact b1

theorem create_slots (n p : Nat) : (Store.create n : Ht α).slots.getD p .empty = .empty := by
  simp [Store.create, List.getD_eq_getElem?_getD, List.getElem?_replicate]
  split <;> rfl

theorem create_used (n : Nat) : usedCount (Store.create n : Ht α).slots = 0 := by
  simp [Store.create, usedCount, Slot.used]

theorem create_rows (n : Nat) : rowsOf (Store.create n : Ht α).slots = [] := by
  simp [Store.create, rowsOf, Slot.row?]

theorem create_chains (n : Nat) : Chains (·.1) (Store.create n : Ht α).slots := by
  intro r d _ h; rw [create_slots] at h; cases h

theorem create_has (n : Nat) (h : 4 ≤ n) : Has (Store.create n : Ht α) [] where
  ok := ⟨by rw [create_used]; rfl, by simp [Store.create], by simpa [Store.create, Store.size] using h⟩
  chains := create_chains n
  rows := by rw [create_rows]

theorem add_has {s : Ht α} {l : List (Nat × α)} (h : Has s l) (x : Nat × α) :
    ∃ s', htAdd s x = some s' ∧ Has s' (x :: l) := by
  have hsz := h.ok.size
  have hhalf := h.ok.half
  have hcnt := h.ok.count
  unfold htAdd htReserve
  by_cases hfull : s.count > s.size / 2
  · rw [if_pos hfull]
    have hl := rowsOf_length s.slots
    have e0 : s.slots.filterMap Slot.row? = rowsOf s.slots := rfl
    have ecs : (Store.create (s.size * 2) : Ht α).size = s.size * 2 := by simp [Store.create, Store.size]
    have ecc : (Store.create (s.size * 2) : Ht α).count = 0 := rfl
    obtain ⟨s1, a1, a2, a3, a4, a5, a6⟩ := fold_has (rowsOf s.slots) (Store.create (s.size * 2)) [] (create_chains _)
      (by rw [create_rows]) (by rw [create_used]; rfl) (by rw [ecc, ecs]; omega)
    rw [e0, a1]
    rw [ecs] at a2
    rw [ecc] at a3
    have a7 : (rowsOf s1.slots).Perm l := by rw [List.append_nil] at a6; exact a6.trans h.rows
    obtain ⟨s2, b1, b2, b3, b4, b5, b6⟩ := set_has a5 a7 a4 (by omega) x
    refine ⟨s2, b1, ⟨b4, by omega, by omega⟩, b5, b6⟩
  · rw [if_neg hfull]
    obtain ⟨s2, b1, b2, b3, b4, b5, b6⟩ := set_has h.chains h.rows hcnt (by omega) x
    exact ⟨s2, b1, ⟨b4, by omega, by omega⟩, b5, b6⟩

/-- the outcome of a lookup in a table that has a free slot -/
theorem get_any {s : Ht α} (h : Ok s) (hash : Nat) (eq : α → Bool) :
    htGet s hash eq = some none ∨
    ∃ p v, htGet s hash eq = some (some (p, v)) ∧ s.slots.getD p .empty = .row (hash, v) ∧ eq v = true := by
  unfold htGet
  cases hp : probe (stopFind hash eq) s.slots (hash % s.size) s.size 0 with
  | none =>
    exfalso
    obtain ⟨p, h1, h2⟩ := h.free
    have e : s.size = s.slots.length := rfl
    obtain ⟨d, h3, h4⟩ := offset_exists (start := hash % s.size) (size := s.slots.length) (Nat.mod_lt _ (by omega)) h1
    have := probe_none _ _ hp d (by omega) (by omega)
    rw [← h4, h2] at this
    simp [stopFind] at this
  | some p =>
    obtain ⟨d, h1, h2, h3, h4, h5⟩ := probe_some _ _ _ hp
    simp only [Option.map_some, Store.at]
    cases hs : s.slots.getD p .empty with
    | empty => left; rfl
    | deleted => rw [hs] at h4; simp [stopFind] at h4
    | row x =>
      obtain ⟨k, v⟩ := x
      rw [hs] at h4
      simp [stopFind] at h4
      right
      exact ⟨p, v, rfl, by rw [hs, h4.1], h4.2⟩

/-- in a table without holes a stored node is found -/
theorem get_found {s : Ht α} {l : List (Nat × α)} (h : Has s l) (hash : Nat) (eq : α → Bool) (v : α)
    (hv : (hash, v) ∈ l) (he : eq v = true) (hu : ∀ w, (hash, w) ∈ l → eq w = true → w = v) :
    ∃ p, htGet s hash eq = some (some (p, v)) := by
  have hm := h.rows.mem_iff.2 hv
  rcases get_any h.ok hash eq with hg | ⟨p, w, hg, hrow, hw⟩
  · exfalso
    revert hg
    unfold htGet
    cases hp : probe (stopFind hash eq) s.slots (hash % s.size) s.size 0 with
    | none => simp
    | some p =>
      obtain ⟨d, h1, h2, h3, h4, h5⟩ := probe_some _ _ _ hp
      simp only [Option.map_some, Store.at]
      cases hs : s.slots.getD p .empty with
      | deleted => rw [hs] at h4; simp [stopFind] at h4
      | row x => obtain ⟨k, v⟩ := x; simp
      | empty =>
        simp
        obtain ⟨q, hq, hrow⟩ := mem_rowsOf.1 hm
        have e : s.size = s.slots.length := rfl
        obtain ⟨d', h6, h7⟩ := offset_exists (start := hash % s.size) (size := s.slots.length) (Nat.mod_lt _ (by omega)) hq
        rw [h7, e] at hrow
        rcases Nat.lt_trichotomy d' d with hlt | heq | hgt
        · have := h5 d' (by omega) hlt
          rw [e, hrow] at this
          simp [stopFind, he] at this
        · subst heq
          rw [h3, e] at hs
          rw [hs] at hrow; cases hrow
        · refine h.chains (hash, v) d' h6 hrow d hgt ?_
          simp only
          rw [h3, e] at hs
          exact hs
  · have : w = v := hu w (h.rows.mem_iff.1 (mem_rowsOf.2 ⟨p, getD_lt hrow, hrow⟩)) hw
    exact ⟨p, by rw [hg, this]⟩

theorem get_absent {s : Ht α} {l : List (Nat × α)} (h : Has s l) (hash : Nat) (eq : α → Bool)
    (hv : ∀ v, (hash, v) ∈ l → eq v = false) : htGet s hash eq = some none := by
  rcases get_any h.ok hash eq with hg | ⟨p, w, hg, hrow, hw⟩
  · exact hg
  · have := hv w (h.rows.mem_iff.1 (mem_rowsOf.2 ⟨p, getD_lt hrow, hrow⟩))
    rw [this] at hw; cases hw

theorem delete_ok {s : Ht α} (h : Ok s) {p : Nat} {x : Nat × α} (hx : s.slots.getD p .empty = .row x) :
    Ok (htDelete s p) ∧ ∀ y ∈ rowsOf (htDelete s p).slots, y ∈ rowsOf s.slots := by
  have hu := used_set_none hx
  have := h.count; have := h.half; have := h.size
  refine ⟨⟨?_, ?_, by simpa [htDelete, Store.size] using h.size⟩, ?_⟩
  · simp only [htDelete]; omega
  · simp only [htDelete]
    have e : (⟨s.slots.set p .empty, s.count - 1⟩ : Ht α).size = s.size := by simp [Store.size]
    rw [e]; omega
  · intro y hy
    obtain ⟨q, h1, h2⟩ := mem_rowsOf.1 hy
    simp only [htDelete] at h2
    rw [getD_set (getD_lt hx)] at h2
    split at h2
    · cases h2
    · exact mem_rowsOf.2 ⟨q, getD_lt h2, h2⟩

/-- any table: adding terminates and adds just the node -/
theorem add_ok {s : Ht α} (h : Ok s) (x : Nat × α) :
    ∃ s', htAdd s x = some s' ∧ Ok s' ∧ ∀ y ∈ rowsOf s'.slots, y = x ∨ y ∈ rowsOf s.slots := by
  have hsz := h.size
  have hhalf := h.half
  have hcnt := h.count
  have e : s.size = s.slots.length := rfl
  unfold htAdd htReserve
  by_cases hfull : s.count > s.size / 2
  · rw [if_pos hfull]
    have hl := rowsOf_length s.slots
    have e0 : s.slots.filterMap Slot.row? = rowsOf s.slots := rfl
    have ecs : (Store.create (s.size * 2) : Ht α).size = s.size * 2 := by simp [Store.create, Store.size]
    have ecc : (Store.create (s.size * 2) : Ht α).count = 0 := rfl
    obtain ⟨s1, a1, a2, a3, a4, a5, a6⟩ := fold_has (rowsOf s.slots) (Store.create (s.size * 2)) [] (create_chains _)
      (by rw [create_rows]) (by rw [create_used]; rfl) (by rw [ecc, ecs]; omega)
    rw [e0, a1]
    rw [ecs] at a2
    rw [ecc] at a3
    obtain ⟨s2, b1, b2, b3, b4, b5, b6⟩ := set_has a5 (List.Perm.refl _) a4 (by omega) x
    refine ⟨s2, b1, ⟨b4, by omega, by omega⟩, ?_⟩
    intro y hy
    rcases List.mem_cons.1 (b6.mem_iff.1 hy) with h | h
    · exact .inl h
    · right; have := a6.mem_iff.1 h; simpa using this
  · rw [if_neg hfull]
    obtain ⟨p, h1, h2, h3, h4⟩ := set_ok (s := s) (by omega) h.free x
    refine ⟨_, h1, ⟨?_, ?_, ?_⟩, ?_⟩
    · simp only; rw [used_set_empty h2 h3, hcnt]
    · simp only [Store.size, List.length_set] at *; omega
    · simpa [Store.size] using hsz
    · intro y hy
      exact List.mem_cons.1 ((rows_set h2 h3).mem_iff.1 hy)

end Verif.Net.Table
