import Verif.Store.IdMgr
import Verif.Store.Mapping
import Verif.Store.IdName
/-!
# Property theorems: file registry, partition mapping, storage names (C31, C32, C35)
-/
namespace Verif.Store
open Verif

/-! ## C32 -/

open IdMgr in
/-- **C32**: after any sequence of registrations (of new ids), removals and collections the registry is strictly
increasing: each id is held once, in order. -/
theorem C32_sorted (ops : List Op) : ∀ l : List Nat, l.Pairwise (· < ·) →
    (∀ pre post id, ops = pre ++ .add id :: post → id ∉ pre.foldl Op.run l) →
    (ops.foldl Op.run l).Pairwise (· < ·) := by
  induction ops with
  | nil => intro l h _; exact h
  | cons o t ih =>
    intro l h hf
    simp only [List.foldl_cons]
    apply ih
    · cases o with
      | add id => exact add_strict l id h (hf [] t id rfl)
      | delete id => exact h.sublist (delete_sublist l id)
      | gc id =>
        refine h.sublist ?_
        have : ((IdMgr.gc l id).2).Sublist ((IdMgr.gc l id).1 ++ (IdMgr.gc l id).2) := List.sublist_append_right _ _
        rw [gc_append] at this
        exact this
    · intro pre post id he
      have := hf (o :: pre) post id (by simp [he])
      simpa using this

open IdMgr in
/-- **C32**: what each operation does to the set of ids. -/
theorem C32_contents (l : List Nat) (id x : Nat) (h : l.Pairwise (· < ·)) :
    (x ∈ add l id ↔ x = id ∨ x ∈ l) ∧ (x ∈ delete l id ↔ x ∈ l ∧ x ≠ id) ∧
    (x ∈ copy l id ↔ x ∈ l ∧ x ≤ id) := by
  refine ⟨mem_add, ?_, ?_⟩
  · rw [delete_erase]
    have hn : l.Nodup := h.imp (fun h => Nat.ne_of_lt h)
    rw [hn.mem_erase_iff]
    exact And.comm
  · rw [copy_filter l id (h.imp Nat.le_of_lt)]
    simp

open IdMgr in
/-- **C32**: looking up a position returns the file that contains it: the greatest id not above the position,
and "none" exactly when every id is above it. -/
theorem C32_find (l : List Nat) (h : l.Pairwise (· < ·)) (hm : ∀ x ∈ l, x < NONE) (value : Nat) :
    (find l value = NONE ↔ ∀ x ∈ l, value < x) ∧
    (find l value ≠ NONE → find l value ∈ l ∧ find l value ≤ value ∧ ∀ x ∈ l, x ≤ value → x ≤ find l value) := by
  rcases findLoop_spec l (h.imp Nat.le_of_lt) NONE value with ⟨h1, h2⟩ | ⟨h1, h2, h3⟩
  · exact ⟨⟨fun _ => h2, fun _ => h1⟩, fun hne => absurd h1 hne⟩
  · have := hm _ h1
    refine ⟨⟨fun e => ?_, fun hall => ?_⟩, fun _ => ⟨h1, h2, h3⟩⟩
    · unfold find at e; omega
    · have := hall _ h1; omega

open IdMgr in
/-- **C32**: the successor of a position is the least id above it, or "none". -/
theorem C32_next (l : List Nat) (h : l.Pairwise (· < ·)) (hm : ∀ x ∈ l, x < NONE) (value : Nat) :
    (next l value = NONE ↔ ∀ x ∈ l, x ≤ value) ∧
    (next l value ≠ NONE → next l value ∈ l ∧ value < next l value ∧ ∀ x ∈ l, value < x → next l value ≤ x) := by
  rcases next_spec l (h.imp Nat.le_of_lt) value with ⟨h1, h2⟩ | ⟨h1, h2, h3⟩
  · exact ⟨⟨fun _ => h2, fun _ => h1⟩, fun hne => absurd h1 hne⟩
  · have := hm _ h1
    refine ⟨⟨fun e => ?_, fun hall => ?_⟩, fun _ => ⟨h1, h2, h3⟩⟩
    · omega
    · have := hall _ h1; omega

open IdMgr in
/-- **C32**: collection at a position removes exactly the ids whose whole range is below the position (a later
registered id is not above the position) and keeps the rest in order; the last file is always kept. -/
theorem C32_gc (l : List Nat) (h : l.Pairwise (· < ·)) (pos : Nat) :
    (gc l pos).1 ++ (gc l pos).2 = l ∧
    (∀ x, x ∈ (gc l pos).1 ↔ x ∈ l ∧ ∃ y ∈ l, x < y ∧ y ≤ pos) ∧
    (∀ x, x ∈ (gc l pos).2 ↔ x ∈ l ∧ ¬ ∃ y ∈ l, x < y ∧ y ≤ pos) := by
  have ha := gc_append l pos
  have hs := gc_spec l pos h
  have mem : ∀ x, x ∈ l ↔ x ∈ (gc l pos).1 ∨ x ∈ (gc l pos).2 := by
    intro x
    constructor
    · intro hx; rw [← ha] at hx; exact List.mem_append.mp hx
    · intro hx; rw [← ha]; exact List.mem_append.mpr hx
  have hno : ∀ x ∈ (gc l pos).2, ¬ ∃ y ∈ l, x < y ∧ y ≤ pos := by
    rintro x hx ⟨y, hy, h1, h2⟩
    have := hs.2 x hx y hy h1
    omega
  refine ⟨ha, fun x => ⟨fun hx => ⟨(mem x).mpr (.inl hx), hs.1 x hx⟩, ?_⟩,
    fun x => ⟨fun hx => ⟨(mem x).mpr (.inr hx), hno x hx⟩, ?_⟩⟩
  · rintro ⟨hx, he⟩
    rcases (mem x).mp hx with h1 | h1
    · exact h1
    · exact absurd he (hno x h1)
  · rintro ⟨hx, he⟩
    rcases (mem x).mp hx with h1 | h1
    · exact absurd (hs.1 x h1) he
    · exact h1

example : IdMgr.gc [1, 5, 9, 12] 9 = ([1, 5], [9, 12]) ∧ [1, 5, 9, 12].Pairwise (· < ·) := by decide

/-! ## C31 -/

open Mapping in
/-- **C31**: for every legal number of partitions, the created hash ranges are non-empty, and every hash value
falls into exactly one of them. -/
theorem C31_ranges_partition (count : Nat) (h1 : 1 ≤ count) (h2 : count ≤ 8192) :
    ∃ ranges, create count = .ok ranges ∧ ranges.length = count ∧
      (∀ (i lo hi : Nat), ranges[i]? = some (lo, hi) → lo < hi ∧ hi ≤ 8192) ∧
      ∀ slot, slot < 8192 → ∃ (i lo hi : Nat), (ranges[i]? = some (lo, hi) ∧ lo ≤ slot ∧ slot < hi) ∧
        ∀ (j lo' hi' : Nat), ranges[j]? = some (lo', hi') → lo' ≤ slot → slot < hi' → j = i := by
  obtain ⟨k, rfl⟩ : ∃ k, count = k + 1 := ⟨count - 1, by omega⟩
  have hpos : 0 < 8192 / (k + 1) := Nat.div_pos h2 (by omega)
  have hle : 0 + (8192 / (k + 1)) * (k + 1) ≤ 8192 := by
    rw [Nat.zero_add]; exact Nat.div_mul_le_self _ _
  obtain ⟨s1, s2, s3, s4⟩ := createLoop_spec (8192 / (k + 1)) hpos k 0 hle
  refine ⟨createLoop (8192 / (k + 1)) (k + 1) 0, ?_, s1, ?_, ?_⟩
  · unfold create; rw [if_neg (by omega)]
  · intro i lo hi h; have := s2 i lo hi h; omega
  · intro slot hs
    obtain ⟨i, lo, hi, hi1, hi2, hi3⟩ := s3 slot (by omega) hs
    refine ⟨i, lo, hi, ⟨hi1, hi2, hi3⟩, ?_⟩
    intro j lo' hi' hj h3 h4
    rcases Nat.lt_trichotomy i j with hij | hij | hij
    · have := s4 i j lo hi lo' hi' hij hi1 hj; omega
    · exact hij.symm
    · have := s4 j i lo' hi' lo hi hij hj hi1; omega

open Mapping in
/-- **C31**: every row (its key hash) is routed to a partition, and it is the one whose range contains the hash. -/
theorem C31_route (count : Nat) (h1 : 1 ≤ count) (h2 : count ≤ 8192) (hash : Nat) :
    ∃ ranges part lo hi, create count = .ok ranges ∧ part < count ∧
      route (mapAll 0 ranges fun _ => none) hash = some part ∧
      ranges[part]? = some (lo, hi) ∧ lo ≤ hash % 8192 ∧ hash % 8192 < hi := by
  obtain ⟨ranges, e, hl, hr, hu⟩ := C31_ranges_partition count h1 h2
  obtain ⟨i, lo, hi, ⟨g1, g2, g3⟩, _⟩ := hu (hash % 8192) (Nat.mod_lt _ (by omega))
  have hlt : i < ranges.length := (List.getElem?_eq_some_iff.mp g1).1
  refine ⟨ranges, i, lo, hi, e, by omega, ?_, g1, g2, g3⟩
  have hdis : ∀ (i j a b c d : Nat), i < j → ranges[i]? = some (a, b) → ranges[j]? = some (c, d) → b ≤ c := by
    intro i j a b c d hij h3 h4
    obtain ⟨k, rfl⟩ : ∃ k, count = k + 1 := ⟨count - 1, by omega⟩
    unfold create at e
    rw [if_neg (by omega)] at e
    cases e
    exact (createLoop_spec (8192 / (k + 1)) (Nat.div_pos h2 (by omega)) k 0 (by
      rw [Nat.zero_add]; exact Nat.div_mul_le_self _ _)).2.2.2 i j a b c d hij h3 h4
  have hle : ∀ r ∈ ranges, r.1 ≤ r.2 := by
    intro r hr'
    obtain ⟨j, hj⟩ := List.mem_iff_getElem?.mp hr'
    have := hr j r.1 r.2 hj
    omega
  have := (mapAll_spec ranges 0 (fun _ => none) (hash % 8192) hle hdis).1 i lo hi g1 g2 g3
  unfold route
  rw [this]; simp

open Mapping in
/-- **C31**: an illegal number of partitions is refused. -/
theorem C31_rejects (count : Nat) (h : count = 0 ∨ 8192 < count) : create count = .error .err := by
  unfold create; rw [if_pos (by omega)]

open Mapping in
example : create 3 = .ok [(0, 2730), (2730, 5460), (5460, 8192)] := by decide

open Mapping in
/-- **C31**: removing a partition with the range `r` from a mapping leaves exactly its own hash values without a partition; every other hash value
keeps the partition it had. -/
theorem C31_remove (m : Map) (r : Nat × Nat) (hr : r.1 ≤ r.2) (hash : Nat) :
    route (mapRemove m r) hash = if r.1 ≤ hash % 8192 ∧ hash % 8192 < r.2 then none else route m hash := by
  unfold route mapRemove
  rw [fill_spec, show r.1 + (r.2 - r.1) = r.2 by omega]

open Mapping in
example : route (mapRemove (mapAll 0 [(0, 2730), (2730, 5460), (5460, 8192)] fun _ => none) (2730, 5460)) 5460 = some 2 ∧
    route (mapRemove (mapAll 0 [(0, 2730), (2730, 5460), (5460, 8192)] fun _ => none) (2730, 5460)) 5459 = none := by
  rw [C31_remove _ (2730, 5460) (by decide), C31_remove _ (2730, 5460) (by decide)]
  constructor
  · simp [route, mapAll, mapAdd, fill_spec]
  · simp

/-! ## C35 -/

open IdName in
/-- **C35**, the part that holds: names of files with a version, and of complete files, parse back to the same
id, version and state.  Missing (violated): unversioned files that are incomplete or snapshots. -/
theorem C35_name_roundtrip_partial (id version : Nat) (s : State) (h1 : id < 2 ^ 63) (h2 : version < 2 ^ 63)
    (h : 0 < version ∨ s = .complete) : idOf (idPath id version s) = some (id, version, s) := by
  by_cases hv : 0 < version
  · exact idOf_versioned id version s h1 h2 hv
  · have : version = 0 := by omega
    subst this
    rcases h with h | rfl
    · omega
    · exact idOf_complete id h1

open IdName in
/-- **C35** (violated): the name of every unversioned incomplete or snapshot file is not recognised. -/
theorem C35_unversioned_state_false (id : Nat) (h1 : id < 2 ^ 63) :
    idOf (idPath id 0 .incomplete) = none ∧ idOf (idPath id 0 .snapshot) = none :=
  ⟨idOf_unversioned_state id h1 _ (by decide), idOf_unversioned_state id h1 _ (by decide)⟩

open IdName in
/-- **C35**: two different (id, version, state) triples of recognised files never have the same name. -/
theorem C35_unique (i v i' v' : Nat) (s s' : State) (h1 : i < 2 ^ 63) (h2 : v < 2 ^ 63) (h3 : i' < 2 ^ 63)
    (h4 : v' < 2 ^ 63) (g : 0 < v ∨ s = .complete) (g' : 0 < v' ∨ s' = .complete)
    (h : idPath i v s = idPath i' v' s') : i = i' ∧ v = v' ∧ s = s' := by
  have a := C35_name_roundtrip_partial i v s h1 h2 g
  rw [h, C35_name_roundtrip_partial i' v' s' h3 h4 g'] at a
  simp at a
  exact ⟨a.1.symm, a.2.1.symm, a.2.2.symm⟩

open IdName in
/-- **C35**: a name whose id or version does not fit into 63 bits is not taken for another (wrapped) one: it is refused. -/
theorem C35_overflow_refused (n w : Nat) (h : 2 ^ 63 ≤ n) (rest : Bytes) :
    idOf (pad w n ++ rest) = none ∧ ∀ id : Nat, id < 2 ^ 63 → idOf (pad 5 id ++ [46] ++ pad w n ++ rest) = none := by
  have hn := idOfNext_overflow n h rest w
  refine ⟨by rw [idOf, hn], ?_⟩
  intro id hid
  simp only [idOf, List.append_assoc, List.cons_append, List.nil_append]
  rw [idOfNext_pad 5 id hid _ (by simp [Stop])]
  obtain ⟨c, t, hc, hc1, hc2⟩ := pad_head w n
  rw [hc] at hn ⊢
  simp only [List.cons_append] at hn ⊢
  rw [if_pos (by simp [isDigit]; omega), hn]

open IdName in
example : idOf [57, 50, 50, 51, 51, 55, 50, 48, 51, 54, 56, 53, 52, 55, 55, 53, 56, 48, 56] = none := by decide

example : IdName.idOf [48, 48, 48, 49, 50, 46, 48, 51, 46, 115, 110, 97, 112, 115, 104, 111, 116] = some (12, 3, .snapshot) := by
  decide

end Verif.Store
