import Verif.Common
set_option linter.unusedSimpArgs false
/-!
# Hash partitions: db/part/part_mgr_recover.c (part_mgr_create), db/part/part_mapping.h
-/
namespace Verif.Store.Mapping
open Verif

/-- PART_MAPPING_MAX, part_mapping.h:16 -/
scoped notation "MAX" => (8192 : Nat)

/-- the loop of part_mgr_create, part_mgr_recover.c:100-127: [hash_min, hash_max) of each partition.
`k` = partitions still to create (order = count - k). Files and volumes are not modelled here. -/
def createLoop (interval : Nat) : Nat → Nat → List (Nat × Nat)
  | 0, _ => []
  | k + 1, start =>
    let step := if k = 0 then MAX - start else interval
    let step := if start + step > MAX then MAX - start else step
    (start, start + step) :: createLoop interval k (start + step)

/-- part_mgr_create, part_mgr_recover.c:88-142 -/
def create (count : Nat) : Res (List (Nat × Nat)) :=
  if count < 1 ∨ count > MAX then .error .err
  else .ok (createLoop (MAX / count) count 0)

/-- PartMapping.map: slot -> partition (NULL = none) -/
abbrev Map := Nat → Option Nat

/-- `for (; min < max; min++) map[min] = part`, part_mapping.h:54-55; n = max - min iterations -/
def fill (v : Option Nat) : Nat → Nat → Map → Map
  | _, 0, m => m
  | min, n + 1, m => fill v (min + 1) n (fun s => if s = min then v else m s)

/-- part_mapping_add, part_mapping.h:47-56 -/
def mapAdd (m : Map) (part : Nat) (r : Nat × Nat) : Map := fill (some part) r.1 (r.2 - r.1) m
/-- part_mapping_remove, part_mapping.h:58-65 -/
def mapRemove (m : Map) (r : Nat × Nat) : Map := fill none r.1 (r.2 - r.1) m

/-- all partitions of a table are added in order (part_mgr_open); part = its order -/
def mapAll : Nat → List (Nat × Nat) → Map → Map
  | _, [], m => m
  | i, r :: t, m => mapAll (i + 1) t (mapAdd m i r)

/-- part_mapping_map, part_mapping.h:67-72; `hash` = row_hash of the key -/
def route (m : Map) (hash : Nat) : Option Nat := m (hash % MAX)

/-! ## proofs -/

theorem fill_spec (v : Option Nat) : ∀ (n min : Nat) (m : Map) (s : Nat),
    fill v min n m s = if min ≤ s ∧ s < min + n then v else m s
  | 0, min, m, s => by rw [fill, if_neg (by omega)]
  | n + 1, min, m, s => by
    rw [fill, fill_spec v n]
    by_cases h1 : s = min
    · rw [if_neg (by omega), if_pos h1, if_pos (by omega)]
    · by_cases h2 : min + 1 ≤ s ∧ s < min + 1 + n
      · rw [if_pos h2, if_pos (by omega)]
      · rw [if_neg h2, if_neg h1, if_neg (by omega)]

theorem mapAdd_spec (m : Map) (p : Nat) (r : Nat × Nat) (h : r.1 ≤ r.2) (s : Nat) :
    mapAdd m p r s = if r.1 ≤ s ∧ s < r.2 then some p else m s := by
  unfold mapAdd
  rw [fill_spec, show r.1 + (r.2 - r.1) = r.2 by omega]

/-- the ranges tile [start, MAX) -/
theorem createLoop_spec (interval : Nat) (hi : 0 < interval) : ∀ (k start : Nat), start + interval * (k + 1) ≤ MAX →
    (createLoop interval (k + 1) start).length = k + 1 ∧
    (∀ (i lo hi : Nat), (createLoop interval (k + 1) start)[i]? = some (lo, hi) → start ≤ lo ∧ lo < hi ∧ hi ≤ MAX ∧ lo = start + interval * i) ∧
    (∀ s, start ≤ s → s < MAX → ∃ (i lo hi : Nat), (createLoop interval (k + 1) start)[i]? = some (lo, hi) ∧ lo ≤ s ∧ s < hi) ∧
    (∀ (i j a b c d : Nat), i < j → (createLoop interval (k + 1) start)[i]? = some (a, b) →
      (createLoop interval (k + 1) start)[j]? = some (c, d) → b ≤ c)
  | 0, start, h => by
    simp only [createLoop, if_true]
    rw [if_neg (by omega)]
    refine ⟨rfl, ?_, ?_, ?_⟩
    · intro i lo hi hh
      cases i with
      | zero => simp at hh; omega
      | succ i => simp at hh
    · intro s h1 h2
      exact ⟨0, start, _, rfl, h1, by omega⟩
    · intro i j a b c d hij h1 h2
      cases j with
      | zero => omega
      | succ j => simp at h2
  | k + 1, start, h => by
    have e : interval * (k + 1 + 1) = interval + interval * (k + 1) := by rw [Nat.mul_succ]; omega
    rw [e] at h
    obtain ⟨i1, i2, i3, i4⟩ := createLoop_spec interval hi k (start + interval) (by omega)
    have hdef : createLoop interval (k + 1 + 1) start = (start, start + interval) :: createLoop interval (k + 1) (start + interval) := by
      rw [createLoop]
      rw [if_neg (show ¬ (k + 1 = 0) by omega), if_neg (show ¬ (start + interval > MAX) by omega)]
    rw [hdef]
    refine ⟨by simp [i1], ?_, ?_, ?_⟩
    · intro i lo hi' hh
      cases i with
      | zero => simp at hh; omega
      | succ i =>
        have := i2 i lo hi' (by simpa using hh)
        rw [Nat.mul_succ]
        omega
    · intro s h1 h2
      by_cases hs : s < start + interval
      · exact ⟨0, start, _, rfl, h1, hs⟩
      · obtain ⟨i, lo, hi', h3, h4⟩ := i3 s (by omega) h2
        exact ⟨i + 1, lo, hi', by simpa using h3, h4⟩
    · intro i j a b c d hij h1 h2
      cases j with
      | zero => omega
      | succ j =>
        cases i with
        | zero =>
          simp at h1
          have := i2 j c d (by simpa using h2)
          omega
        | succ i => exact i4 i j a b c d (by omega) (by simpa using h1) (by simpa using h2)

theorem mapAll_spec : ∀ (l : List (Nat × Nat)) (n : Nat) (m : Map) (s : Nat),
    (∀ r ∈ l, r.1 ≤ r.2) →
    (∀ (i j a b c d : Nat), i < j → l[i]? = some (a, b) → l[j]? = some (c, d) → b ≤ c) →
    (∀ (i lo hi : Nat), l[i]? = some (lo, hi) → lo ≤ s → s < hi → mapAll n l m s = some (n + i)) ∧
    ((∀ (i lo hi : Nat), l[i]? = some (lo, hi) → ¬ (lo ≤ s ∧ s < hi)) → mapAll n l m s = m s)
  | [], n, m, s, _, _ => by simp [mapAll]
  | r :: t, n, m, s, hle, hdis => by
    have ih := mapAll_spec t (n + 1) (mapAdd m n r) s (fun x hx => hle x (by simp [hx]))
      (fun i j a b c d hij h1 h2 => hdis (i + 1) (j + 1) a b c d (by omega) (by simpa using h1) (by simpa using h2))
    constructor
    · intro i lo hi h h1 h2
      cases i with
      | zero =>
        simp at h; subst h
        rw [mapAll, ih.2, mapAdd_spec _ _ _ (hle _ (by simp)), if_pos ⟨h1, h2⟩]; rfl
        intro j lo' hi' hj
        have := hdis 0 (j + 1) lo hi lo' hi' (by omega) (by simp) (by simpa using hj)
        omega
      | succ i =>
        rw [mapAll, ih.1 i lo hi (by simpa using h) h1 h2]
        congr 1; omega
    · intro h
      rw [mapAll, ih.2 (fun i lo hi hi' => h (i + 1) lo hi (by simpa using hi')), mapAdd_spec _ _ _ (hle _ (by simp)),
        if_neg (h 0 r.1 r.2 (by simp))]

end Verif.Store.Mapping
